# Formal model of lo48576/fbxcel in Lean 4

Everything lives in `lean/Verif`. `Verif/Model` transcribes the Rust code function by function (each
definition cites file and lines), `Verif/Spec` holds the small independent specifications (byte layout of an
FBX document, events of a document, Euler tour, documents as forests), `Verif/Proof` holds helper lemmas and
`Verif/Props` the property theorems with a non-vacuity `example` beside each of them.

## 1. Modelling decisions

* **Results.** Fallible code is a state transformer `σ → Res ε α × σ` with `Res = ok | err | panic`. The state
  is kept after an error or a panic, as in Rust. Every `panic!`, `assert!`, `expect`, and (in builds with
  overflow checks) arithmetic overflow that the code can reach is an explicit `panic` value.
* **Numbers.** `u8` is `UInt8`; `i16/i32/i64/f32/f64` are `BitVec` bit patterns (floats are only moved around
  and compared with `to_bits` by the code); `u64`/`usize` offsets are `Nat` with explicit overflow handling
  wherever the code adds to an offset coming from the input. 64-bit `usize` is assumed.
* **Strings.** Rust `String` is Lean `String` (both are exactly the valid UTF-8 byte sequences);
  `String::from_utf8` is the core library's `String.fromUTF8?`.
* **Sources.** A source is the list of remaining bytes, an ending (EOF or a persistent I/O fault), the true
  cursor and the tracked position. Seeking beyond a limit `seekLimit < 2^64` is an I/O error. The chunking of
  short reads is handled separately (C48, C69), and so are sources that change, or fail and recover, between the calls (C91); within one call a device that fails once is taken to fail on.
* **Sinks.** A sink is a byte buffer with a cursor, arbitrary previous content, and an arbitrary fault schedule:
  each primitive sink operation (write_all/seek/tell) may fail, a failing write having written any prefix. That this covers
  devices that store bytes in pieces or are interrupted is proved separately (C71).
* **Zlib (libflate)** is a parameter: an abstract decoder/encoder structure (an instance by the RFCs is in `Model/Inflate.lean`, C79). Safety properties hold for every
  such structure; round-trip properties assume `Zlib.Lawful` (decode inverts encode whatever bytes follow, and
  decoding consumes no more than the encoded bytes). A lawful instance is given, so this is satisfiable.
* **Loaders** (`LoadAttribute` implementations) and **warning handlers** are arbitrary: loaders are structures
  of functions whose array/binary/string hooks are well-founded interaction trees over the element iterator
  or reader (pull any number of items, read any number of bytes), handlers are arbitrary functions of
  the warning history.
* **indextree and string-interner** are external crates. indextree 4 is modelled at pointer level (parent,
  previous/next sibling, first/last child) following its published algorithms; string-interner as an
  injective symbol table; its limit of 2^32 - 1 symbols is in `Verif/Model/Symbols.lean` (C89), elsewhere it is taken as unlimited.
* `log` output and failing memory allocations are not modelled (what is requested is, for strings and binary data, C83); of `Debug` formatting only what the error messages contain, and the text of
  `debug_tree`, in which the texts of `str`, `f32` and `f64` are parameters.

## 2. Properties: what is modelled and how it is proved
* **C01 Header recognition is exact.** Model `FbxHeader::load` on the source model; decision theorem for all byte lists and endings.
* **C02 Reader and writer accept the same FBX versions.** Model both gates; arithmetic for all u32.
* **C03 Attribute type codes are a bijection onto the 13 documented bytes.** Model both tables; case split over types, finite check over bytes inside the kernel, arithmetic for u32.
* **C04 strict_eq is bitwise equality of attribute values.** Model `strict_eq` variant by variant; prove iff structural equality of bit patterns; equivalence relation.
* **C05 Typed getters return the value or its real type.** Model `type_` and the 26 getters; case analysis.
* **C06 Writer output is exactly the FBX binary layout of the document.** Model writer with seeks and back-patching over the sink model; independent functional layout spec; refinement by induction on the forest.
* **C07 End marker is written iff children exist or attributes are absent.** Corollary of the layout spec, plus absence of the two marker warnings from the parser round trip.
* **C08 Unbalanced writer use is reported and harmless.** Direct case analysis over all writer states.
* **C09 Node names longer than 255 bytes are rejected.** Case analysis on the byte length for all writer states on a fault-free sink.
* **C10 Sizes that do not fit the header are errors, never truncated.** Case analysis of header writing for all values; `append_*` byte length limits.
* **C11 A well-used writer with room to write never fails or panics.** Success half of the refinement; invariant by induction over operation sequences for the assertion.
* **C12 After a sink I/O error close_node may panic.** Negation: concrete fault schedule witness; positive part is C11.
* **C13 Writer starts at offset 0 and leaves old bytes beyond the document.** Refinement stated with arbitrary previous content; parser suffix independence.
* **C14 All ways of appending a binary attribute agree.** Equality of final states on fault-free sinks, induction on the byte list.
* **C15 append_string_from_iter agrees with append_string_direct.** Negation with witness, characterization of what is written, positive theorem for the strings where it works.
* **C16 User errors in result iterators are propagated.** Induction on the item list for all positions of the first error.
* **C17 A failed new_node is not without effect.** Negation with witness (sink unchanged, but closing emits a marker and the parser warns).
* **C18 Finalized files are 16-byte aligned with the default footer.** Arithmetic on the layout spec.
* **C19 Footer round-trip.** Layout spec of footer, evaluation of the footer reader for all fields.
* **C20 Footer acceptance is exactly the documented layout.** Decision theorem of the footer reader for all byte lists.
* **C21 Everything written is parsed back.** Induction on the forest: the parser run over the layout spec; composed with C06.
* **C22 Parsing a written document raises no warning.** Ghost warning log of the same run is empty.
* **C23 write_tree then Loader::load gives a strictly equal tree.** Composition of write_tree model, C21 and the tree loader model.
* **C24 next_event never panics on any input.** Hoare-style invariant over all operations and loaders; witness for the overflow-check build.
* **C25 Events are balanced on any input.** Invariant by induction over operation sequences.
* **C26 Failure and completion are sticky.** Case analysis, induction over later operations.
* **C27 Parsing terminates.** Potential function (remaining bytes) argument.
* **C28 skip_current_node equals draining the node's events.** Simulation: draining a node ends at the declared end offset with the same stack; skip does the same.
* **C29 skip_current_node can panic on malformed data.** Witness (decide) and characterization of the panic condition.
* **C30 Seekable and plain sources are equivalent.** Negations with witnesses; positive theorem: lock-step simulation as long as no skip happens. For files left by the writer, `Spec/Drain.lean` says which clients leave nothing unread; the round trip of C21 is generalized over the kind of source for them (`C30_written_files`, `C30_round_trip`, `C30_any_tree`).
* **C31 The tracked position is the true stream offset.** Invariant by induction over operation sequences.
* **C32 Unread attributes do not influence later events.** Generalized round trip with arbitrary successful loads at every node.
* **C33 Truncated files are never taken for complete.** Prefix simulation between the full and the truncated source.
* **C34 Warnings are advisory unless the handler objects.** Simulation between handlers; error case analysis.
* **C35 Attribute counting.** Case analysis and induction over load sequences.
* **C36 Loaders reject exactly the other types.** Evaluation of each loader on each encoded value.
* **C37 Buffered attribute iterators use the buffered loader hooks.** Negation with witness loader; positive theorem for default hooks.
* **C38 Attribute iterators honour their size_hint.** Negation with witness; positive theorem for the lower bound / before an error.
* **C39 Node lengths are enforced.** Case analysis of next_event for all states.
* **C40 Tree::strict_eq compares the represented documents.** Model `nodes_strict_eq` on arenas; induction on represented forests.
* **C41 Depth-first traversal visits every node exactly once, in order.** Model cursors; induction on represented forests, any interleaving.
* **C42 children_by_name is the filtered children list.** Model with interner; list reasoning.
* **C43 Node insertion puts nodes where documented.** Pointer-level arena operations refine list operations on children lists.
* **C44 insert_before inserts before.** Negation with witness, plus theorem that it behaves as insert_after.
* **C45 Attribute editing touches only the addressed node.** Frame reasoning on the arena model.
* **C46 Loader requires an unused parser.** Loader loop model; invariant that the open stack length is depth+1.
* **C47 Load, write, load is the identity.** Loader result is always a representable document; composition with C23.
* **C48 Results do not depend on how the source splits reads.** Model std's read_exact loop over arbitrary chunk schedules; equal to the direct read.
* **C49 Errors carry the syntactic position of the failure.** Case analysis on the error paths with an independent spec of the node path; `Marks` (`Spec/Component.lean`) follows where the open nodes start, an invariant ties it to the parser.
* **C50 Node ids and names persist.** Induction over the histories of tree operations.
* **C51 Version numbers decompose.** Arithmetic for all u32.
* **C52 AnyTree classifies every byte stream.** Composition of the header decision theorem (C01), the loader theorem (C46) and the theorem that the
  loader's drive is a client history (`Proof/DriveRuns`); the document of the tree is that of the client's events.
* **C53 The macros build what their literals say.** The literals are an inductive type following the macro rules; the expansion is a sequence of
  tree / writer calls; induction on the literal, then refinement to the forest it denotes; equality of whole writer sessions.
* **C54 A failed append is not undone.** `C54_failed_append`: for every writer state with an open node on a working device, a failing call counts as an attribute and leaves type code, empty header and everything before the error (`Spec.remains`). `C54_file`: a client that ignores such errors (`Spec.carelessSession`) gets the document in which each failed call has left its remains. `C54_reads_empty`: if only last calls of nodes fail, every client reads that file without any warning, with empty arrays, strings and binaries in place of the failed ones. `C54_forged`: with a call after a failed one, the reader finds an attribute that was never appended.
* **C55 next_event is decided by the bytes ahead.** `Spec/Decision.lean` is a pure decision table `Ahead.next` over (open nodes with the offsets their
  headers declare, offset, bytes ahead): verdict, warning with position, what is left. `C55_next_event`: after any calls on any bytes of a seekable source
  the call answers what the table says, including the panic of the debug build and, at the end of the document, what becomes of the footer
  (`footerSays`). `C55_ahead`: the input of the table is determined by the file and by the events observed. `C55_markers`: the two end marker warnings in terms
  of observed events only. Assumes a handler that does not object and that the source can seek to the end of the attributes (`canPass`).
* **C56 Positions on plain sources lag behind by what was skipped.** `Client.unread`, `offset` and `lag` (`Spec/Sources.lean`) are defined from the state of the parser and the bytes of the file. Potential argument: tracked position plus remaining bytes never grows, and shrinks by what is skipped; invariant over all histories.
* **C57 load_next with DirectLoader is decided by the bytes ahead.** `Spec/Attribute.lean` is a pure table from the bytes at an attribute's offset to value or error, oddness, bytes read and declared extent (`attrInFront`), iterated over the attributes of a node (`attributes`). Symbolic execution of `load_next` for every type, then induction over the number of attributes. Assumes a decoder contract only through the parameter `Z`.
* **C58 A file is decided by its bytes.** `Spec/Reference.lean` iterates the tables of C55 and C57 into a reader of whole files (`reading`, `readBody`). Induction over the number of calls of `next_event`, carrying the bound on seek targets; trees through C46/C52; written files through C21. Files whose headers order a seek beyond what the source allows are excluded (`canSeek`).
* **C59 Errors name their kind, cause and message.** `Model/ErrorApi.lean`: error objects with their concrete type, `source` and `Display`. `Spec/ErrorApi.lean`: following causes, and which errors tell about an I/O error. Case analysis and induction over causes; for AnyTree induction over the reference reader of C58.
* **C60 Loaders for one type are DirectLoader with a check of the type in front.** `Spec/Typed.lean`: table of the thirteen loaders with their type, description and contents. Computations are compared step by step (`Passes`: one computation is another one followed by a pure function; `Stops`: it fails where the other one fails); the position of the error uses the invariant of C17.
* **C61 A file is decided by its bytes, whatever the source can do.** Generalises C55, C57 and C58: `Spec/AnySource.lean` adds to the tables the way a source skips (`reads`: bytes dropped, offset not updated; `seeks far`: as far as the offset `far`, in parts of `i64::MAX`). No hypothesis about the source is left. `Proof/AnySource.lean`: the skip is computed exactly (`skipTo_skips`), the rest is the same induction as for C58.
* **C62 Writing that is interrupted never looks finished, and keeps what was finished.** A crash is a fault of the device: the operation fails after storing any part of its bytes, and nothing is called later. `Spec/Crash.lean`: `Wrote`, `goOn`, `staysOpen`. `Proof/Crash.lean`: invariant `Above P k` (the device begins with `P`; the position and the headers of all but the `k` outermost open nodes are beyond it) kept by every operation whatever its outcome; `Extends` for operations which only append. `Proof/CrashRead.lean`: what `next_event` does on a placeholder header, a cut header and a cut name; no strict prefix of a footer is a footer. The case of an open node without a name is a defect (`C62_open_nameless`). `Props/Torn.lean`, for every sequence of calls: `TornRead` (a body is torn if it is cut in a header, has a placeholder header with a name, or has a node with a proper end offset before a torn rest; no history of a client on a torn body has `EndFbx`), `TornWrite`/`TornRun` (every call keeps the body torn, also a `close_node` that fails in the middle of the header, provided each field is stored whole or not at all; `C62_torn_field` is the witness that this is needed).
* **C63 A tree may be edited while it is traversed.** `Spec/Walk.lean`: `Walked`, the histories of calls and adding edits; `TreeOp.moved`. `Proof/Walk.lean`: the tour of the edited tree, restricted to the nodes not concerned, is the old one (`tour_kept`, `Grown.tour`, `Moved.tour`); what lies between two kept items therefore corresponds (`kept_split`). Invariant `Ahead` by induction over the history. The case of a cursor in a moved subtree is a defect with witnesses (`C63_cursor_moved`).
* **C64 == of trees compares the internal state, up to floats, and cannot be told apart by the API.** `Model/TreeEq.lean`: the derived `PartialEq`. `Spec/TreeEq.lean`: `SameDoc`, `SameOps`. `Proof/TreeEq.lean`: relation `Like` (all links and names equal, attributes equal one by one) is a congruence for each call (`run_agree`). Witnesses show that `==` and `strict_eq` are independent.
* **C65 write_tree and write_v7400_binary! anywhere in a session.** `Spec/Mixed.lean`: mixed programs (`Item`), the single calls they stand for (`Spelled`), documents put together from parts (`Plan`). The computations are equal as functions of the state of the writer (`C65_anywhere`), so that everything proved about sessions applies.
* **C66 finalize_and_flush is finalize followed by a flush.** `Model/Flush.lean` adds the operation to the device. Monad laws reduce it to the session of C06.
* **C67 debug_tree shows the document.** `Model/Debug.lean`: the code and the text written by the helpers of `core::fmt::builders` (`PadAdapter` character by character); the `Debug` formats of `str`, `f32` and `f64` are parameters. `Spec/Debug.lean`: the text of a document on one line and as a list of indented lines. Induction on documents; for the converse, induction with a text behind each part.
* **C68 A document is no larger than its file.** `Spec/Size.lean`: the least number of bytes of names, values, nodes and documents. For any calls by induction on histories; for clients loading everything and for trees through the reference reader of C61, where every part is shown to consume its size. That a loaded tree has no other nodes is an invariant of the loop of the loader: every node but the root has a parent.
* **C69 Parsing does not depend on how the source splits its reads.** `Model/ShortReads.lean` transcribes the parser, the attribute readers, the loaders and the tree loader once more, on a device that gives its bytes in pieces; every access to the source is one of std's loops of C48. `Tracks` relates a function of this model to the corresponding one of the main model (same result, same state, with enough fuel); it is preserved by sequencing, error conversion and `match` on results, so that the proof follows the code.
* **C70 A file determines the document written to it.** Both files are parsed: by C21's lemma the client sees the document of the first and the document of the second session, and a client that has ended has only one result; the events determine names, nesting and values. With these equal the layouts are compared field by field, which gives the encodings, and then the footer.
* **C71 Writing does not depend on how the device splits its writes.** `Model/ShortWrites.lean` transcribes the writer once more, on a device whose single operations store pieces, are interrupted or fail; `write_all` is std's loop. `Mimics` relates a function of this model to the corresponding one of the main model: there is a failure schedule, without failures if the device works, for which the result and the state are the same. It is preserved by sequencing, error conversion and looking at the state, so that the proof follows the code.
* **C72 load_next with any loader is decided by the bytes ahead.** `Spec/AnyLoader.lean` runs the loader's programs on the bytes ahead: `pulling` for arrays (plain, or through the zlib decoder whose state survives errors), `reads` for strings and binary data, functions for numbers. The proof shows by induction on the loader's program that the attribute reader does the same, and carries it to every client of every file as for C61.
* **C73 Loading does not influence later events of any file, within the bounds of the node.** The counterpart of C32 for arbitrary bytes: loads that do not fail only move forward (C72), and `next_event` first goes to the declared end of the attributes (C61). `C73_beyond` shows that the bound is needed.
* **C74 The example program prints the outline of a file.** `Model/Dump.lean` transcribes the program; the standard output is a list of characters. `Spec/Dump.lean`: `outline`, a reader over the tables of C61 and C72 which prints as it goes, with the number of open nodes as the indentation, and `forestText` for documents. Induction over the turns of the loop with the invariant that `depth` is the number of open nodes; that the loop ends by C27; written files through C19 and C72.
* **C75 What has been reported does not depend on bytes not yet consumed.** Two parsers on `pre ++ x` and `pre ++ y`, compared step by step (`Proof/Local.lean`: every operation gives equal results and related states, or the first source has been consumed into `x`, which cannot be undone); so a history which leaves `x` unread is a history of both. `C75_end` shows that `x` must not be empty.
* **C76 What the writer does is decided by the calls, whatever they are.** `Spec/Draft.lean`: a document under construction as a stack of unfinished nodes, `Draft.act` gives the result of any call and the new document. Refinement (`Proof/Draft.lean`): the writer state is a function `ofDraft` of the draft; each call commutes with it. `C76_layout` shows the specification agrees with `Spec/Layout.lean`; `C76_left_out` is the consequence for files beyond 4 GiB (finding 25).
* **C77 What can be seen of a tree is decided by the calls.** `Spec/Outline.lean`: a tree as lists of siblings (`below`, `loose`), `Rows.act` gives the answer of any call and the new lists. Refinement (`Proof/Outline.lean`): the links of the arena are those of the lists (`Depicts`); each call keeps this.
* **C78 Loading, editing and writing.** `Spec/Edited.lean`: `Rows.ofForest` (the outline of a document, ids in document order), `Rows.document` (the document of an outline). The loader's loop is shown to make the calls `append_new`, `set_attributes` in document order (`Proof/Edited.lean`), so that its tree depicts the outline; C77 then gives the edits, `Depicts.rep` the document which `write_tree` writes, C58 the document of the file.
* **C79 Compressed arrays.** `Spec/Deflate.lean` transcribes RFC 1950/1951 as relations between bits and data (which strings are compressed forms), `Model/Inflate.lean` is a decoder that reads bit by bit, as an instance `Zlib.rfc` of the codec which is a parameter everywhere else. `Proof/Inflate.lean`: the decoder inverts the relation, by induction over codes, tokens, code lengths, blocks; bits are regrouped into bytes (`run_steps`). `Proof/Packed.lean`: reading does not depend on the encoder, so that each array may have its own. The order of checks at the end of a stream is assumed to be that of libflate (the checksum is read when data is asked for after the last block).
* **C80 Leaving nodes out.** `Spec/Select.lean`: the client (a policy decides by all that was kept so far, the name, the number and, if it wants, the values of the attributes), the table `selecting` over the bytes, `prune` on documents, and the program that copies what it keeps to a writer. `Proof/Select.lean`: the client follows the table (steps from C31, C55, C57); reading through a node leads to the state where leaving it leads (`walks_leave`, by induction over the document), hence selecting prunes; parser and writer share nothing, so that the interleaved program is one session.
* **C81 Any client.** `Spec/Standing.lean`: a machine over the bytes (`Standing.call`, on top of the tables of C61 and C72, with the footer and the objections of handlers) and adaptive clients (`Routine`). `Proof/Standing.lean`: the footer, the objections of `next_event` and every call by a simulation (`Stands`), then induction over the client. This subsumes, in one statement, what C55, C57, C61 and C72 say about runs without objections.
* **C82 Whatever failed.** `Spec/Written.lean`: the client's notes (`Record.note`), from the calls and their results only; `prudent` readers. `Proof/Written.lean`: the draft of C76 is the layout of the noted nodes, with end markers also where a child was refused or given up (`Tells`, by induction over the calls). `Proof/Marked.lean`: the reader on such layouts, which warns about those markers. Assumes a handler that does not object (a superfluous end marker is a warning).
* **C83 Memory set aside.** `Model/Memory.lean`: what a hook sets aside is found out by a loader in its place which only looks at its `len` argument (`Loader.meter`), in the same state. `Spec/Memory.lean`: loaders which read strings and binary data to the end or not at all (`Thorough`; `C83_thorough` for those of the library). By induction over the client: a request is covered by the bytes consumed, or nothing is left to read afterwards (`load_aside`, with the machine of C81). Only explicit requests are counted: vectors of arrays grow as elements are read; names need at most 255 bytes.
* **C84 BufRead.** `Model/Buffered.lean`: programs over a `BufRead` (`BufCons`: `read`, `fill`, `consume`), a device with a buffer and a plan for further requests (`Dev`), std's `io::Take` over it, and `load_next_buffered` with such loaders. `Spec/Buffered.lean`: the rule of `consume` (`Polite`), what a program may be shown, take and answer (`Served`), histories of clients with such loaders. By induction over the program: it is served, and it does what some program which only reads does on a source which delivers all that is asked for; the choice of that program is moved to the front of the call (`M.bind_choose`).
* **C85 One source, several documents.** `Model/Stream.lean`: `takeTree`, `AnyTree::from_*` with the source as it is left. `Spec/Stream.lean`: where the source stands (`behindFooter`), loading again and again (`takeTrees`), what a finished document is. For arbitrary clients: induction over histories with the effects of calls (`Did`), `readFooter_inv` for the last step. For documents: the exact state of C21/C30's parser in front of the footer, the footer accepted, then induction over the list.
* **C86 Prompt errors.** `Spec/Prompt.lean`: `Prompt packing own r s s'` relates the result of a call to the schedule of failures of the device before and after. Closed under sequencing (`Prompts.bind`), proved for every method. Which error it is (`C86_packing`): a list with one entry for every operation of the device in the call (`Shape`), closed under sequencing as well; the call is compared with the same call on a device without failures.
* **C87 Expansion.** `Spec/Bomb.lean`: `Zlib.Expands c` and the size of a document with its elements. For the RFC decoder (`Model/Inflate.lean`) an invariant over single bits: the data made so far and what is kept for the copy being read is at most 129 bytes per bit (`Proof/DeflateBound.lean`). For the parser as C68, by the reference reading of C61. `C87_reached`: the worst stream is built by the specification of RFC 1951 and read by C79.
* **C88 Gaps.** `Spec/Gaps.lean`: where a call goes before it reads, and a history with the gaps. A call that goes somewhere equals the same call from there (`call_from`); a call that passes over nothing depends only on the bytes it consumes (by the locality lemmas of C75); induction over the history.
* **C89 Names and the interner.** `Model/Symbols.lean`: the functions which intern names once more, with the panic of the interner. For files: every new name costs a node of 13 bytes (invariant of the loop of the loader, with C68 for single events). For trees: no call adds more names than nodes. For exactness: the table holds exactly the names of the nodes.
* **C90 Skipping after anything.** Inside a node the parser only moves on, and the stack below the node is kept (as in C28); `skip_current_node` from both states consumes up to the declared end, and these ends are the same.
* **C91 Unsteady sources.** `Spec/Unsteady.lean`: before each call the device shows arbitrary bytes, an arbitrary ending, cursor and seek limit. The invariant of C24 does not depend on what the device shows; induction over the history with the effect of each call (`Did`). Witnesses (decide) for what follows a failing skip.
* **C92 Growing files.** `Spec/Growing.lean`: before each call the device shows a prefix of the rest of the file, as told by its cursor. One call: the locality of C75 between the part shown and the whole; induction over the history, with the invariant that the complete source stands in the file where its cursor says. Witness (decide) for a call that reaches the present end.
* **C93 Any destination, BufWriter.** `Model/AnyDest.lean` is the writer for an arbitrary type of destination, and std's `BufWriter` over a `Sink` (a `BufWriter` refuses bytes beyond offset 2^64 at once, std when they are flushed; `io::copy` into a `BufWriter` is taken as one `write_all` per chunk). `Spec/AnyDest.lean`: the contract `Sound`. Each function simulates the one of `Model/Writer.lean` on a sink whose failure schedule is found on the way (as for C71). `BufWriter` is shown to be sound, with the device content overlaid with the held bytes as content. Witness (decide) for `finalize` without flush losing the end.
* **C94 Crashes through a BufWriter.** Model as for C93, statements in `Props/BufCrash.lean`. The simulation of `Proof/AnyDest.lean` (`Plays`) carries a second part: whatever may be on the device (what was passed on, with any beginning of the held bytes after a torn write) is all that was written, or what the plain writer leaves that fails at a suitable operation (`Crashes`), or was possible before. It composes over `?`. Then C62 applies. (b) and (c) need that failing writes store nothing, as a buffer joins the fields of a header to one write which a device may tear apart (C62_torn_field shows why that matters).
* **C95 Any source, BufReader.** `Model/AnyRead.lean` has the parser, loaders and tree loader once more, on a source given by its `read` and `seek`; `BufReader` and a file with short reads are such sources. `Spec/AnyRead.lean` states the contract (`Delivers`) in terms of a tape: the bytes of a file and an offset. Simulation as for C69 (`Heeds` in `Proof/AnyRead.lean`), with the well-founded order of interrupted reads instead of a fair schedule. The instances are proved by cases on the state of the buffer.
* **C96 From one stream to another.** Composition of C93, C95, C23 and C47; `Loads` (`Spec/Relay.lean`) says that loading from a source ends with a result, whatever fuel beyond some bound the model is given.
* **C97 Event by event from one stream to another.** Composition of C93, C21/C22 and C95: the client `drive` of C21 is a history (`Proof/DriveRuns.lean`), a history is what `observe` shows, and what `observe` shows is seen from any source. `perusal` and `told` (`Spec/Passage.lean`) are the calls and what is to be returned, by recursion on the forest.
* **C98 Sources that fail at any time.** `Spec/Shaky.lean` states the contract of `Read` and `Seek` with no clause on when an operation may fail or what it leaves behind. A relation between the parser on the whole source and on the failing one (`Proof/Shaky.lean`): the same result and a matching state, or an error. It is kept by every function of `Model/AnyRead.lean`; only `EndFbx` turns an error into a value. After an error the parser is not running, so that later calls are refused. That nothing fails without need is C95.
* **C99 From one stream to another, whatever fails.** Composition of C93, C23/C21 and C98, as C96 and C97 compose C93 with C95. `Glimpses` (`Spec/Mishaps.lean`) is what a client may be told.

## 3. What is modelled and what is not

Modelled (file: Lean module):

| Rust | Lean |
|---|---|
| `low/version.rs`, `low/fbx_header.rs`, `low/v7400/{array_attribute,node_header,special_attribute}.rs`, `low/v7400/attribute/{type_,value}.rs`, `pull_parser/version.rs` | `Model/Low` |
| `pull_parser/error.rs`, `error/*.rs`, `position.rs` | `Model/Error` |
| `pull_parser/reader.rs`, `v7400/read.rs` | `Model/Reader`, `Model/Chunked` (short reads), `Model/Buffered` (`BufRead`); the whole parser on short reads: `Model/ShortReads`, on any source and through std's `BufReader`: `Model/AnyRead` |
| `pull_parser/v7400/parser.rs`, `event.rs`, `low/v7400/fbx_footer.rs`, `pull_parser/any.rs` | `Model/Parser` |
| `pull_parser/v7400/attribute.rs`, `attribute/{array,iter,loader}.rs` | `Model/Attribute` |
| `pull_parser/v7400/attribute/loaders/*.rs` | `Model/Loaders` |
| `writer/v7400/binary.rs`, `binary/{attributes,footer,error}.rs`, `binary/attributes/array.rs` | `Model/Sink`, `Model/Writer`, `Model/Flush`; the whole writer on short writes: `Model/ShortWrites`, on any destination and through std's `BufWriter`: `Model/AnyDest` |
| `tree/v7400.rs`, `tree/v7400/node/*.rs` | `Model/Tree`, `Model/TreeEq` (`==`) |
| `tree/v7400/loader.rs`, `tree/any.rs`, `Writer::write_tree` | `Model/TreeIO` |
| error types of all modules: `kind`, `get_ref`, `downcast_ref`, `source`, `Display`, conversions | `Model/ErrorApi` |
| `tree/v7400/macros.rs`, `writer/v7400/binary/macros.rs`, `From` conversions | `Model/Macros` |
| `debug_tree`, `Debug` of `AttributeValue` | `Model/Debug` |
| zlib streams (RFC 1950, 1951), in place of libflate's decoder | `Model/Inflate` (an instance of the abstract `Model/Zlib`) |
| documents one after the other in one stream | `Model/Stream` |
| `tree/v7400/node/name.rs`: the number of symbols there are for node names | `Model/Symbols` |
| `with_capacity` in `loaders/{direct,single}.rs` | `Model/Memory` |
| `examples/dump-pull-parser-events.rs`, `Debug` of `AttributeType`, `FbxFooter`, `FbxVersion` | `Model/Dump` |

Not modelled: `Debug` of the errors, `log` output, memory exhaustion (only what the loaders set aside for strings and binary data, C83), `examples/load-tree.rs`, the derived `Debug` of `Tree`, the layout of the structs, `Clone`/`Hash` of ids, time and space.

Simplifications:

* The `io::Error` of a failing sink is recorded with the failure (`Fault.error`), as a value of `IoErr`: its kind, or a number which stands for any other error (`WriteZero` of `write_all` is `.other 0`, a sink that is full `.other 1`); a sink refuses a `write_all` beyond `u64` offsets as a whole.
  libflate's encoder writes its output by `write_all`; `io::copy` passes what it reads at once (at most 255 zeros, or the pieces of the user's reader) by `write_all`.
* The interactions of a loader with an array, string or binary are finite (the loader terminates); a loader that loops forever is not covered.
* In the model of the parser a `BufRead` consumer (`load_*_buffered`) is a sequence of `read` calls, each delivering what is available up to the buffer size;
  C84 shows that programs over `fill_buf` and `consume`, on devices with buffers and pieces of any size, do nothing else. That results do not
  depend on shorter reads is proved for `read_exact`, skipping by `io::copy` and `read_to_end` (C48), which are all the ways the library itself reads,
  and for the whole parser (C69). There, libflate is modelled as asking its source for one byte at a time. Its bit reader does so; the contents of a
  stored block, which are copied in bulk, may be asked for in larger pieces. Loaders calling raw `read` see the pieces; they are outside of C69 and covered by C84.
* `AttributesWriter` calls take finite lists of items; an iterator that never ends is not covered. User errors are numbers.
* Error objects of other crates (`io::Error`, `FromUtf8Error`, user errors) are opaque: their texts are parameters, their own causes are not followed.
* A fault schedule of a sink is consumed by its primitive operations; a sink offset is below 2^64.
* The `Children` iterator is the next-sibling chain; it borrows the tree. A traversal does not: it is run on changing trees in C63.
* `has_ancestor`-like loops run with fuel `size`; this only differs on cyclic arenas (which C43 shows can be made).
* The expressions in a macro literal are values (no effects, no early `return`).
* In `Model/AnyRead` the fields `rest`, `ending`, `cursor` and `seekLimit` of `Reader` are ghosts: no function there looks at them.
* The ghost field `log` of the parser records the warnings raised; it influences nothing but the argument of the handler.

## 4. Findings: documented or expected behaviour the code does not have

Each is a theorem with a concrete witness (or, where the whole claim fails, a theorem for all states).

1. Skipping on a plain (non seekable) source does not advance the tracked position; later positions and skips are wrong (`C30_plain_source_derails`). Compressed arrays are always left by a skip, so a file with one is not read back even by a client that loads everything, when the decompressor does not need the last bytes (`C30_compressed_derails`).
2. `Tree::insert_before` inserts after (`C44_*`).
3. `append_string_from_iter` / `append_string_from_result_iter` write four bytes per character, not UTF-8 (`C15_disagree`).
4. `iter_buffered` / `into_iter_buffered` never call the buffered hooks (`C37_*`).
5. The upper bounds of `size_hint` are exceeded after an error; element iterators yield errors forever after the end of the stream (`C38_*`).
6. A header with a huge attribute length panics in builds with overflow checks (`C24_overflow_panic`), and is accepted with a wrapped offset otherwise.
7. `skip_current_node` panics if the declared end lies before the position, and works on an aborted parser (`C29_*`).
8. A `new_node` that fails because of its name still changes the document: the parent gets an end marker (`C17_*`).
9. After a sink error, `close_node` can panic (`C12_close_panics_after_io_error`).
10. A failed `append_*` is not undone: the attribute stays, reads back as empty without any warning, and its bytes can be taken for the attribute appended next (`C54_*`).
11. `insert_after` accepts an ancestor and creates a cycle; inserting a sibling of the root is not refused (`C43_insert_after_can_make_a_cycle`,
    `C43_new_sibling_of_root`).
12. Attribute setters other than `append_attribute` work on the root; such attributes are lost by `write_tree` (`C45_root`, `C23_root_attributes_lost`).
13. An error of the warning handler about the footer does not abort the parser (`C34_footer_not_aborted`).
14. After `NodeLengthMismatch` the reported depth is one less than the open nodes (`C25_depth_after_failure`).
15. The writer does not truncate the sink: old bytes stay behind the document (`C13_previous_content`); the parser ignores them.
16. A truncated seekable source may report `EndNode` before the end of the file is noticed (`C33_end_node_is_no_evidence`).
17. `HeaderError` does not implement `source`: an I/O error in the header cannot be found by walking the causes (`C59_header_hides`).
18. `Display` of data errors shows the `Debug` text of the cause (`C59_messages`).
19. An interrupted session that left a top-level node without a name open leaves a file which is read as a complete document without that node: its placeholder header equals the end marker. `AnyTree` succeeds; only the footer shows an error, or not even that if the bytes of the node look like a footer (`C62_open_nameless`).
20. A traversal leaves its subtree and panics if the node at a cursor is detached or moved away between two calls; neither is documented (`C63_cursor_moved`).
21. `close_node` rewrites the placeholder of the end offset in place. If the device stores a part of this field only, the file can be read as a finished document (without a proper footer) in which the children are outside of their parent (`C62_torn_field`: first of four bytes stored).
22. Memory requests (see also 28 and C83). `Vec::with_capacity(len)` and `String::with_capacity(len)` in `loaders/direct.rs:99,106` and `loaders/single.rs:85,104` ask for the length which the file claims, up to 4 GiB, before any byte of the data is read. C68 bounds what is delivered, not what is requested meanwhile.
23. `load_next` does not check the declared length of the attribute list: a node whose attributes exceed it is read differently depending on which attributes are loaded, without error or warning (`C73_beyond`).
24. `examples/dump-pull-parser-events.rs:144` unwraps the result of `load_next`, so that a malformed attribute panics there, while the two other formats return the error (`C74_type_unwraps`). This is in an example, not in the library.
25. `close_node` of a node which does not fit 32-bit offsets (version < 7500) fails with `FileTooLarge`, but has already popped the node and left the device positioned at its header: the node is silently dropped, later calls overwrite it, and for a top-level node `finalize` then succeeds with a document without it (C76_left_out).
26. **The checksum of compressed arrays is never verified** (C79). The element iterator stops after the announced number of elements; libflate compares the Adler-32 checksum only when it is asked for more. So a damaged compressed array, or one without checksum, is loaded without an error or a warning (`C79_checksum`, `C79_damage_unnoticed`).
27. After a refused `new_node` (name too long), or a node given up as too large, the enclosing node gets an end marker even if it has attributes and no children. Reading the file then raises the warning `ExtraNodeEndMarker`: a strict handler rejects a file the writer reported as complete (C82 allows the warning).
28. `DirectLoader`, `BinaryLoader` and `StringLoader` trust the declared length of a string or of binary data: `Vec::with_capacity(len as usize)` before anything is read. A file of 46 bytes makes them, and so `AnyTree`, request up to 4 GiB - 1 (C83_reached), which aborts the process where memory is limited. It happens at most once per file (C83_before).
29. The position tracked by `Reader::consume` is advanced by the number given, whatever the source consumes: a `load_*_buffered` hook which consumes more than it was shown (a logic error by the rules of `BufRead`, which std's readers tolerate) makes the tracked position differ from that of the source (C84_rule_needed); the rest of the file is then misread.
30. After a footer which is reported as broken (for example with 16 or more bytes of padding, which the writer can be told to produce), the source is left inside the footer, so that a document behind it in the same source is not found, although the tree was loaded successfully (C85_broken_footer).
31. **The loader panics on documents with 2^32 or more different names** (with that of the root: `C89_exactly`, `C89_used_up`), instead of returning an error. Only files of more than 55 GB can have so many (`C89_files`).
32. A failing `skip_current_node` (an I/O error, or a declared end beyond the range of file offsets) closes the node but does not abort the parser: the following `next_event` calls report the children of that node one level too high, and its end marker as the end of the parent or of the document, without an error (`C91_skip_failure_goes_on`, `C91_skip_failure_steady`). On a source that cannot seek, a read that fails in the middle of the skipped node leaves the source inside that node, and the next event may be of a node that is not in the document (`C98_skip_astray`).
33. `Writer::finalize` does not flush (documented: "You may want to use finalize_and_flush()"). Through a `BufWriter` over a device that becomes full, all calls up to and including `finalize` may return `Ok` and the end of the document is nevertheless lost when the `BufWriter` is dropped (`C93_unflushed_lost`).

## 5. Trusted base

* Lean 4.33.0's kernel and elaborator; the axioms used by every property theorem are at most `propext`,
  `Classical.choice` and `Quot.sound` (listed theorem by theorem in `AXIOMS.md`). No axioms are added; no `sorry`, `admit`, `native_decide`, `bv_decide`.
* The faithfulness of the hand transcription in `Verif/Model` (each definition cites its source lines).
* The assumed behaviour of external code: `std::io` (Read/Write/Seek contracts), libflate (as `Zlib.Lawful`),
  indextree 4, string-interner, the helpers of `core::fmt::builders` (`debug_struct`, `debug_tuple`, `debug_list`) and decimal integers.

