{"id": "C01", "title": "Header recognition is exact", "statement": "FbxHeader::load succeeds exactly on inputs whose first 27 bytes are the 23-byte FBX magic followed by 4 bytes; the reported version is those 4 bytes read little-endian and exactly 27 bytes are consumed. A full 23-byte mismatch gives MagicNotDetected after consuming 23 bytes and nothing more; a shorter input or a failing device gives an I/O error.", "quantifier": "every byte string and every device ending (EOF or I/O fault)", "why_tests_cant": "the input space is all byte strings; the test checks one good and one bad header", "anchors": ["src/low/fbx_header.rs: FbxHeader::load, FbxHeader::len"]}
{"id": "C02", "title": "Reader and writer accept the same FBX versions", "statement": "A v7400 parser can be created for an FBX version iff 7000 <= raw <= 7999; Writer::new accepts exactly the same set and otherwise returns UnsupportedFbxVersion without touching the sink; AnyParser::from_reader/from_seekable_reader never hit their 'Should never fail' panic.", "quantifier": "every 32-bit version number", "why_tests_cant": "2^32 versions; the two gates are written with different arithmetic in different modules", "anchors": ["src/pull_parser/version.rs: ParserVersion::from_fbx_version", "src/pull_parser/v7400/parser.rs: Parser::create", "src/pull_parser/any.rs: AnyParser::from_reader", "src/writer/v7400/binary.rs: Writer::new", "src/low/version.rs"]}
{"id": "C03", "title": "Attribute type codes are a bijection onto the 13 documented bytes", "statement": "Decoding the code written for a type gives that type back; a byte decodes to a type iff it is one of CYILFDbilfdRS; distinct types have distinct codes; array encodings likewise round-trip and any other u32 is rejected.", "quantifier": "every attribute type, every byte, every u32 encoding value", "why_tests_cant": "whole table plus all rejected codes; a wrong code was shipped once (CHANGELOG 0.8.0)", "anchors": ["src/low/v7400/attribute/type_.rs: from_type_code, type_code", "src/low/v7400/array_attribute.rs: from_u32, to_u32"]}
{"id": "C04", "title": "strict_eq is bitwise equality of attribute values", "statement": "AttributeValue::strict_eq(a,b) is true iff a and b have the same variant and the same bits (floats compared by bit pattern, arrays elementwise with equal length). It is reflexive, symmetric and transitive, unlike ==, which it implies except on NaN payloads.", "quantifier": "every pair/triple of attribute values, including NaNs and arrays of any length", "why_tests_cant": "infinitely many values; NaN payloads and length mismatches are easy to miss", "anchors": ["src/low/v7400/attribute/value.rs: AttributeValue::strict_eq, PartialEq"]}
{"id": "C05", "title": "Typed getters return the value or its real type", "statement": "For each of the 13 types, get_X returns Some(v) iff the value is of variant X with content v; get_X_or_type returns Ok(v) in exactly that case and otherwise Err(type_()).", "quantifier": "every attribute value and every getter", "why_tests_cant": "13 x 13 combinations times all contents", "anchors": ["src/low/v7400/attribute/value.rs: impl_val_getter, impl_ref_getter, type_"]}
{"id": "C06", "title": "Writer output is exactly the FBX binary layout of the document", "statement": "For every forest of nodes written through new_node / append_* / close_node / finalize with all calls returning Ok, the sink holds exactly: magic, version, for each node a header whose end offset, attribute count and attribute byte length are the true ones, the name, the attributes, the children and (iff required) an end marker; then the root marker and the footer. The back-patching never leaves a placeholder behind or damages neighbouring bytes.", "quantifier": "every forest, every depth and width, every attribute list, both header widths, any previous content of the sink", "why_tests_cant": "unbounded nesting and sizes; back-patching errors only show at particular offsets", "anchors": ["src/writer/v7400/binary.rs: Writer::{new,new_node,close_node,finalize_attributes,write_node_header,finalize_impl}", "src/writer/v7400/binary/attributes.rs", "src/writer/v7400/binary/attributes/array.rs"]}
{"id": "C07", "title": "End marker is written iff children exist or attributes are absent", "statement": "close_node emits an all-zero end marker (13 bytes below 7.5, 25 from 7.5) exactly for nodes that have at least one child or no attributes; hence files written by the writer raise neither MissingNodeEndMarker nor ExtraNodeEndMarker when parsed.", "quantifier": "every forest", "why_tests_cant": "depends on the whole history of calls for the node", "anchors": ["src/writer/v7400/binary.rs: Writer::close_node", "src/pull_parser/v7400/parser.rs: next_event_impl"]}
{"id": "C08", "title": "Unbalanced writer use is reported and harmless", "statement": "close_node with no open node returns NoNodesToClose and leaves the sink and the writer unchanged; finalize with k > 0 open nodes returns UnclosedNode(k) and writes nothing.", "quantifier": "every writer state reached by any call sequence", "why_tests_cant": "every history of calls", "anchors": ["src/writer/v7400/binary.rs: Writer::close_node, finalize_impl"]}
{"id": "C09", "title": "Node names longer than 255 bytes are rejected", "statement": "new_node returns NodeNameTooLong(len) iff the UTF-8 name is longer than 255 bytes (on a working sink), writes no byte and opens no node; a name of up to 255 bytes is written completely.", "quantifier": "every name and every writer state", "why_tests_cant": "boundary at 255 bytes of UTF-8, any nesting", "anchors": ["src/writer/v7400/binary.rs: Writer::new_node"]}
{"id": "C10", "title": "Sizes that do not fit the header are errors, never truncated", "statement": "Below version 7.5, a node header whose end offset, attribute count or attribute byte length exceeds 2^32-1 makes close_node return FileTooLarge / TooManyAttributes / AttributeTooLong; a special or array attribute whose byte length exceeds 2^32-1 makes append_* return AttributeTooLong, and more than 2^32-1 elements TooManyArrayAttributeElements. No written header field is ever a truncated value.", "quantifier": "every size", "why_tests_cant": "needs >4 GiB inputs", "anchors": ["src/writer/v7400/binary.rs: write_node_header", "src/writer/v7400/binary/attributes.rs: finalize_special", "src/writer/v7400/binary/attributes/array.rs"]}
{"id": "C11", "title": "A well-used writer with room to write never fails or panics", "statement": "On a sink that accepts writes, any balanced sequence of calls whose names, counts and sizes fit the format succeeds; close_node's internal assertion (attribute count zero iff attribute bytes zero) holds in every state reached without an I/O error.", "quantifier": "every balanced call sequence within the format limits", "why_tests_cant": "all histories; the assertion is a cross-call invariant", "anchors": ["src/writer/v7400/binary.rs: Writer::close_node (assert_eq)", "src/writer/v7400/binary/attributes.rs: update_node_header"]}
{"id": "C12", "title": "After a sink I/O error close_node may panic", "statement": "The claim 'writer methods only return errors, never panic' fails: if the sink rejects the type-code byte of a node's first attribute, a following close_node hits the assertion 'Length of attributes can be zero iff there are no attributes' and panics. Without an I/O error it cannot.", "quantifier": "every sink capacity and call sequence", "why_tests_cant": "needs a sink failing at one exact byte", "anchors": ["src/writer/v7400/binary.rs: Writer::close_node", "src/writer/v7400/binary/attributes.rs: impl_single_attr_append"]}
{"id": "C13", "title": "Writer starts at offset 0 and leaves old bytes beyond the document", "statement": "Writer::new seeks to offset 0; after finalize, the sink is the document followed by whatever the previous content had beyond the document's length. Nothing before or inside the document depends on the previous content, and the parser's result does not depend on the trailing bytes.", "quantifier": "every previous sink content, every document", "why_tests_cant": "any previous content", "anchors": ["src/writer/v7400/binary.rs: Writer::new, finalize_impl"]}
{"id": "C14", "title": "All ways of appending a binary attribute agree", "statement": "append_binary_direct(bytes), append_binary_from_iter(bytes), append_binary_from_reader over the same bytes, and append_binary_from_result_iter over all-Ok items leave the writer and sink in the same state.", "quantifier": "every byte string and every writer state with an open attribute list", "why_tests_cant": "unbounded contents", "anchors": ["src/writer/v7400/binary/attributes.rs: append_binary_*"]}
{"id": "C15", "title": "append_string_from_iter agrees with append_string_direct", "statement": "append_string_from_iter(s.chars()) should write the same attribute as append_string_direct(s). It does for empty strings and strings of 4-byte characters only; for other strings the code writes the whole 4-byte scratch buffer per character while counting only the encoded length, so the attribute is corrupted.", "quantifier": "every string", "why_tests_cant": "the failing strings are exactly those with a character shorter than four bytes; no existing test calls it", "anchors": ["src/writer/v7400/binary/attributes.rs: append_string_from_iter, append_string_from_result_iter"]}
{"id": "C16", "title": "User errors in result iterators are propagated", "statement": "append_arr_*_from_result_iter and append_*_from_result_iter return UserDefined(e) for the first Err(e) item, after writing exactly the elements before it, and never pull further items; with no Err item they behave like the plain iterator versions.", "quantifier": "every item sequence and every position of the first error", "why_tests_cant": "every failure point", "anchors": ["src/writer/v7400/binary/attributes/array.rs: write_elements_result_iter", "src/writer/v7400/binary/attributes.rs"]}
{"id": "C17", "title": "A failed new_node is not without effect", "statement": "The claim 'a new_node rejected for a too-long name leaves the document unaffected' fails: the parent is marked as having a child, so closing it emits an end marker after its attributes and a parser warns ExtraNodeEndMarker. The sink itself is untouched by the failing call.", "quantifier": "every writer state with an open node", "why_tests_cant": "needs error recovery paths", "anchors": ["src/writer/v7400/binary.rs: Writer::new_node"]}
{"id": "C18", "title": "Finalized files are 16-byte aligned with the default footer", "statement": "With the default padding, finalize appends the terminator, 16+pad+4+4+120+16 footer bytes with pad in 0..15 making the total length of the document a multiple of 16.", "quantifier": "every document length", "why_tests_cant": "all residues and offsets", "anchors": ["src/writer/v7400/binary.rs: finalize_impl", "src/writer/v7400/binary/footer.rs"]}
{"id": "C19", "title": "Footer round-trip", "statement": "For default unknown2/unknown3 and any unknown1, a footer written by finalize is parsed back as Ok with the same unknown1, padding length, version and unknown3 whenever the padding is Default or Forced(n) with n <= 15; Forced(n) with n >= 16 is parsed as Err(BrokenFbxFooter). A padding-length warning is raised iff the forced length differs from the default one, and a field warning iff an upper nibble of unknown1 is unusual.", "quantifier": "every document, every unknown1, every padding 0..=255", "why_tests_cant": "16^16 x 256 combinations and every alignment", "anchors": ["src/writer/v7400/binary.rs: finalize_impl", "src/low/v7400/fbx_footer.rs: read_from_parser"]}
{"id": "C20", "title": "Footer acceptance is exactly the documented layout", "statement": "Reading the footer returns Ok iff the bytes are 16 bytes, p zeros (p <= 15), 4 zeros, the header's version, 120 zeros and the fixed 16-byte tail (and no warning handler objects); the returned fields are those bytes. It never panics, whatever the bytes.", "quantifier": "every byte string after the terminator and every position", "why_tests_cant": "all byte strings; the two internal asserts must hold for each", "anchors": ["src/low/v7400/fbx_footer.rs: FbxFooter::read_from_parser"]}
{"id": "C21", "title": "Everything written is parsed back", "statement": "For every document written successfully, the pull parser (seekable source) emits exactly StartNode/EndNode events of the forest in document order followed by EndFbx, and loading each node's attributes with DirectLoader yields exactly the written values, bit for bit, for both array encodings.", "quantifier": "every forest, every attribute value, every array encoding choice, versions 7000..7999", "why_tests_cant": "unbounded documents; tests check three small ones", "anchors": ["src/writer/v7400/binary.rs", "src/pull_parser/v7400/parser.rs", "src/pull_parser/v7400/attribute.rs", "tests/write-and-parse-v7400-binary.rs"]}
{"id": "C22", "title": "Parsing a written document raises no warning", "statement": "With non-empty node names and a default (or SDK-style) footer, parsing a document produced by the writer calls the warning handler zero times.", "quantifier": "every such document", "why_tests_cant": "every document", "anchors": ["src/pull_parser/v7400/parser.rs: Parser::warn", "src/writer/v7400/binary.rs"]}
{"id": "C23", "title": "write_tree then Loader::load gives a strictly equal tree", "statement": "Writing any tree whose root has no attributes with write_tree, finalizing and loading the bytes with the tree loader yields a tree strict_eq to the original, an Ok footer, and no warnings for non-empty names. (Attributes set on the root, which the API allows, are lost.)", "quantifier": "every tree within the format limits", "why_tests_cant": "unbounded trees", "anchors": ["src/writer/v7400/binary.rs: Writer::write_tree", "src/tree/v7400/loader.rs: Loader::load", "tests/write-tree-and-parse-v7400-binary.rs"]}
{"id": "C24", "title": "next_event never panics on any input", "statement": "With a release build (wrapping arithmetic), no sequence of next_event and attribute-loading calls panics on any byte stream shorter than 2^64 - 2^33 bytes, whatever the loader does. In a build with overflow checks the single exception is a >=7.5 node header whose attribute byte length overflows the offset (a crafted file then panics).", "quantifier": "every byte stream, device fault, warning handler, loader and call sequence", "why_tests_cant": "all malformed inputs", "anchors": ["src/pull_parser/v7400/parser.rs: next_event, next_event_impl, position", "src/pull_parser/v7400/attribute.rs: update_next_attr_start_offset"]}
{"id": "C25", "title": "Events are balanced on any input", "statement": "On every input, as long as next_event and attribute loading have not failed, current_depth equals the number of StartNode events minus the nodes ended (by EndNode or skip_current_node), never negative; after a failure it is that number or one less (a node whose length does not match is dropped before the error is reported). EndFbx is only emitted at depth 0, at most once and last.", "quantifier": "every byte stream and call sequence", "why_tests_cant": "all malformed inputs", "anchors": ["src/pull_parser/v7400/parser.rs: next_event, current_depth"]}
{"id": "C26", "title": "Failure and completion are sticky", "statement": "After next_event or load_next returned an error, every later next_event / load_next returns AlreadyAborted carrying the position of the first failure, and reads nothing; after EndFbx every later call returns AlreadyFinished.", "quantifier": "every byte stream, error cause and later call sequence", "why_tests_cant": "every history after every failure point", "anchors": ["src/pull_parser/v7400/parser.rs: ensure_continuable, set_aborted", "src/pull_parser/v7400/attribute.rs: do_with_health_check"]}
{"id": "C27", "title": "Parsing terminates", "statement": "On an input of n bytes the parser emits at most 2*(n/13)+1 events before it finishes or fails; in particular the tree loader terminates on every input.", "quantifier": "every byte stream and every interleaving with attribute loading", "why_tests_cant": "non-termination is not observable by a test", "anchors": ["src/pull_parser/v7400/parser.rs: next_event_impl", "src/tree/v7400/loader.rs: Loader::load"]}
{"id": "C28", "title": "skip_current_node equals draining the node's events", "statement": "On a seekable source, if draining the current node with next_event up to its EndNode succeeds without critical warnings, then skip_current_node succeeds and leaves the parser in the same state (position, depth, open nodes, remaining input).", "quantifier": "every byte stream and parser state", "why_tests_cant": "every input and node", "anchors": ["src/pull_parser/v7400/parser.rs: skip_current_node"]}
{"id": "C29", "title": "skip_current_node can panic on malformed data", "statement": "The claim 'skip_current_node panics only when there is no open node' fails: a node whose declared end offset lies before the current position makes it panic ('Attempt to skip backward').", "quantifier": "every byte stream", "why_tests_cant": "needs a crafted header", "anchors": ["src/pull_parser/v7400/parser.rs: skip_current_node", "src/pull_parser/reader.rs: skip_to"]}
{"id": "C30", "title": "Seekable and plain sources are equivalent", "statement": "from_reader and from_seekable_reader should give the same events. They do as long as nothing is skipped: every attribute of every node is loaded, and loading it reads all of its bytes. A file left by the writer with uncompressed arrays is read back from a plain source as from a seekable one, footer and AnyTree included, by a client that loads everything. As soon as bytes are skipped on a plain source the tracked position is not advanced and parsing derails: a node with one unread attribute suffices, and so does a compressed array whose decompressor leaves some of its bytes unread.", "quantifier": "every byte stream and call sequence", "why_tests_cant": "tests only use seekable sources", "anchors": ["src/pull_parser/reader.rs: skip_distance_plain, skip_distance_seekable"]}
{"id": "C31", "title": "The tracked position is the true stream offset", "statement": "On a seekable source, after any sequence of calls the parser's byte position equals 27 plus the number of bytes consumed or skipped since creation; positions never decrease.", "quantifier": "every byte stream and call sequence", "why_tests_cant": "every history", "anchors": ["src/pull_parser/reader.rs: Reader::position, advance", "src/pull_parser/v7400/parser.rs: position"]}
{"id": "C32", "title": "Unread attributes do not influence later events", "statement": "On a seekable source, for a document produced by the writer, the events after a node start are the same however many of its attributes are loaded and with whatever loaders (as long as none fails) before the next next_event call.", "quantifier": "every document, every number of loaded attributes, every non-failing loader consuming any part of each attribute", "why_tests_cant": "all loaders and partial reads", "anchors": ["src/pull_parser/v7400/parser.rs: skip_unread_attributes", "src/pull_parser/v7400/attribute.rs: read_next_attr_type"]}
{"id": "C33", "title": "Truncated files are never taken for complete", "statement": "Let a file be cut at any point (a crash during the write or the download), after which the source ends or fails. What the client sees in the cut file is what it sees in the whole file, up to some call; that call starts no node, and after it no node starts and no end of the document is reported. If the parser reports EndFbx for the cut file then the same calls report EndFbx for the whole file and the terminator of the top level nodes lies before the cut; so a file cut before the end of that terminator is never taken for complete.", "quantifier": "every byte stream and every cut point (crash during write or download)", "why_tests_cant": "every cut point of every file", "anchors": ["src/pull_parser/v7400/parser.rs: next_event"]}
{"id": "C34", "title": "Warnings are advisory unless the handler objects", "statement": "With no handler, or a handler that always returns Ok, the events, values and errors are the same as with any other always-Ok handler, and the handler is told the same warnings. If the handler returns Err(e) for some warning raised before the footer then the call fails with e (its position replaced by the position of the failure) and the parser is aborted; for a warning about the footer the end event carries e and the parser is finished. Afterwards the handler is not called again.", "quantifier": "every byte stream, every (stateful) warning handler", "why_tests_cant": "handlers are arbitrary functions of the history", "anchors": ["src/pull_parser/v7400/parser.rs: warn, next_event"]}
{"id": "C35", "title": "Attribute counting", "statement": "total_count is the number declared in the node header; each successful load decrements rest_count by one; at most total_count loads return a value; when rest_count is 0 load_next returns None and reads nothing.", "quantifier": "every byte stream, loader sequence", "why_tests_cant": "every history", "anchors": ["src/pull_parser/v7400/attribute.rs: Attributes::{total_count,rest_count,load_next,read_next_attr_type}"]}
{"id": "C36", "title": "Loaders reject exactly the other types", "statement": "PrimitiveLoader<T>, ArrayLoader<Vec<T>>, BinaryLoader and StringLoader succeed on a well-formed attribute iff it has their type and then return the written value; otherwise they fail with UnexpectedAttribute and the parser is aborted. TypeLoader returns the type of the value DirectLoader would return.", "quantifier": "every attribute value and loader", "why_tests_cant": "13 x 13 combinations with all contents", "anchors": ["src/pull_parser/v7400/attribute/loaders/single.rs", "src/pull_parser/v7400/attribute/loaders/type_.rs", "src/pull_parser/v7400/attribute/loader.rs"]}
{"id": "C37", "title": "Buffered attribute iterators use the buffered loader hooks", "statement": "iter_buffered / into_iter_buffered should call load_binary_buffered / load_string_buffered as load_next_buffered does. They do not: the iterators call the unbuffered load_next, so a loader overriding only the buffered hooks is never invoked. For loaders that do not override the buffered hooks the two agree.", "quantifier": "every loader and attribute", "why_tests_cant": "needs a loader overriding the hooks", "anchors": ["src/pull_parser/v7400/attribute/iter.rs: load_next_buffered"]}
{"id": "C38", "title": "Attribute iterators honour their size_hint", "statement": "The number of items an attribute iterator yields should lie within size_hint. The lower bound holds; the upper bound fails: after an error the iterator keeps yielding AlreadyAborted errors for every remaining loader, and the iterators over array elements keep yielding errors without end after the stream has ended.", "quantifier": "every byte stream and loader sequence", "why_tests_cant": "needs error paths", "anchors": ["src/pull_parser/v7400/attribute/iter.rs: make_size_hint_for_attrs", "src/pull_parser/v7400/attribute/array.rs: size_hint"]}
{"id": "C39", "title": "Node lengths are enforced", "statement": "Whenever EndNode is emitted, the stream position equals the end offset declared in the header of the node being closed; a node that ends elsewhere (explicit marker at another offset, or reading beyond the declared end) is reported as NodeLengthMismatch.", "quantifier": "every byte stream (seekable)", "why_tests_cant": "all malformed inputs", "anchors": ["src/pull_parser/v7400/parser.rs: next_event_impl"]}
{"id": "C40", "title": "Tree::strict_eq compares the represented documents", "statement": "Two trees are strict_eq iff their node names, attribute bits and ordered children agree recursively, regardless of the history (node ids, interning order, detached nodes) that produced them; hence strict_eq is an equivalence relation.", "quantifier": "every pair of trees", "why_tests_cant": "unbounded trees and histories", "anchors": ["src/tree/v7400/node/handle.rs: nodes_strict_eq", "src/tree/v7400.rs: Tree::strict_eq"]}
{"id": "C41", "title": "Depth-first traversal visits every node exactly once, in order", "statement": "next_forward yields the Euler tour of the subtree (Open in preorder, Close in postorder) and then None; next_backward yields its reverse; any interleaving of the two yields a prefix and a reversed suffix that partition the tour; the internal expect never fires.", "quantifier": "every tree, subtree and interleaving of forward and backward steps", "why_tests_cant": "all interleavings of all tree shapes", "anchors": ["src/tree/v7400.rs: DepthFirstTraversed::{next,prev}, DepthFirstTraverseSubtree"]}
{"id": "C42", "title": "children_by_name is the filtered children list", "statement": "children_by_name(name) yields, in order, exactly the children whose name equals name, also when the name was never interned; first_child_by_name is its first item.", "quantifier": "every tree, node and name", "why_tests_cant": "all trees and names", "anchors": ["src/tree/v7400/node/handle.rs: children_by_name, first_child_by_name"]}
{"id": "C43", "title": "Node insertion puts nodes where documented", "statement": "append_new/prepend_new/insert_new_after/insert_new_before (and append/prepend/insert_after) change exactly the sibling list concerned, placing the node last/first/right after/right before, keep every other node's name, attributes and order, and keep the tree well linked. (insert_after of an ancestor that is not the parent is not refused and makes a cycle; witness proved.)", "quantifier": "every tree state and target", "why_tests_cant": "every history of manipulations", "anchors": ["src/tree/v7400.rs: Tree::{append,prepend,insert_after,append_new,prepend_new,insert_new_after,insert_new_before}"]}
{"id": "C44", "title": "insert_before inserts before", "statement": "Tree::insert_before(new, base) should place new immediately before base. It places it immediately after base (it calls insert_after): proved for every tree state, with a witness that the documented position is missed.", "quantifier": "every tree state", "why_tests_cant": "no test calls it", "anchors": ["src/tree/v7400.rs: Tree::insert_before"]}
{"id": "C45", "title": "Attribute editing touches only the addressed node", "statement": "append_attribute, set_attributes_vec, take_attributes_vec and get_attribute_mut affect only the given node's attribute list and act on it as push, replace, take and indexed update; names, structure and other nodes are unchanged. append_attribute panics on the root; contrary to the documentation set_attributes_vec and take_attributes_vec do not.", "quantifier": "every tree, node and attribute list", "why_tests_cant": "every history", "anchors": ["src/tree/v7400.rs: append_attribute, set_attributes_vec, take_attributes_vec, get_attribute_mut"]}
{"id": "C46", "title": "Loader requires an unused parser", "statement": "Loader::load returns BadParser without reading iff the parser has already emitted an event; otherwise it consumes the events to EndFbx or fails with the parser's error; it never hits its internal assertions.", "quantifier": "every parser state and input", "why_tests_cant": "every history", "anchors": ["src/tree/v7400/loader.rs: Loader::load"]}
{"id": "C47", "title": "Load, write, load is the identity", "statement": "If a file loads into a tree, writing that tree (same version, within the format limits) and loading the result gives a strictly equal tree.", "quantifier": "every loadable input", "why_tests_cant": "unbounded inputs", "anchors": ["src/tree/v7400/loader.rs", "src/writer/v7400/binary.rs: write_tree"]}
{"id": "C48", "title": "Results do not depend on how the source splits reads", "statement": "The values returned by exact reads do not depend on the sizes of the chunks in which the underlying reader delivers its bytes (including interrupted reads).", "quantifier": "every byte stream and every chunking schedule", "why_tests_cant": "all schedules of short reads", "anchors": ["src/pull_parser/reader.rs: impl io::Read for Reader", "src/pull_parser/v7400/read.rs"]}
{"id": "C49", "title": "Errors carry the syntactic position of the failure", "statement": "An error returned by next_event carries the current byte position, the path of the open nodes (index among siblings and name) and the offset at which the innermost of them begins; an error returned by load_next additionally carries the attribute's index and start offset.", "quantifier": "every byte stream and call sequence", "why_tests_cant": "every failure point", "anchors": ["src/pull_parser/v7400/parser.rs: position, next_event", "src/pull_parser/v7400/attribute.rs: position, do_with_health_check", "src/pull_parser/position.rs"]}
{"id": "C50", "title": "Node ids and names persist", "statement": "No call of the tree API makes an existing node id invalid, changes the name of an existing node, or makes another node the root; the root of every tree has the empty name.", "quantifier": "every history of tree API calls", "why_tests_cant": "histories are unbounded; names are interned and shared between nodes", "anchors": ["src/tree/v7400.rs: Tree", "src/tree/v7400.rs: create_node, append_new, detach"]}
{"id": "C51", "title": "Version numbers decompose", "statement": "For every version, major() and minor() are the digits before and after the point in the usual notation: a version is 1000 * major + 100 * minor + a rest below 100, minor is below 10, and ordering versions is ordering the numbers.", "quantifier": "every 32 bit version number", "why_tests_cant": "2^32 versions", "anchors": ["src/low/version.rs: FbxVersion::major, FbxVersion::minor"]}
{"id": "C52", "title": "AnyTree classifies every byte stream", "statement": "For every byte stream AnyTree::from_reader / from_seekable_reader returns a header error iff there is no FBX header, an unsupported version error iff there is one of another major version, and otherwise a tree or a load error; the tree is well linked, has a plain root and is the document the pull parser reports; it never panics in builds without overflow checks.", "quantifier": "every byte stream, I/O fault and kind of source", "why_tests_cant": "all malformed inputs", "anchors": ["src/tree/any.rs: AnyTree::from_reader, from_seekable_reader", "src/pull_parser/any.rs: AnyParser", "src/tree/v7400/loader.rs: Loader::load"]}
{"id": "C53", "title": "The macros build what their literals say", "statement": "tree_v7400! never panics and makes exactly the tree its literal describes, however it is spelled; write_v7400_binary! has the same result and writes the same bytes as write_tree for the tree tree_v7400! makes from the same literal, on every sink; the file loads as that tree.", "quantifier": "every literal (names, attribute lists, nesting), every sink, fault schedule, version and footer", "why_tests_cant": "unboundedly many literals and sinks", "anchors": ["src/tree/v7400/macros.rs: tree_v7400", "src/writer/v7400/binary/macros.rs: write_v7400_binary", "src/low/v7400/attribute/value.rs: impl_from"]}
{"id": "C54", "title": "A failed append is not undone", "statement": "An append_* call that fails because of its arguments (an error of the user's iterator or reader, too many elements, too many bytes) on a working device has already counted the attribute and written its type code and a zero header: the node keeps an attribute the user was told had failed. The file can still be finished, and if the failed call was the last one of its node a reader finds an empty array, string or binary in its place, without any warning. An attribute appended to the node after the failed one is not read back: the bytes left behind are read instead.", "quantifier": "every writer state and every failing append; every session that ignores such errors; every client reading the file", "why_tests_cant": "needs the combination of an ignored error and a later read", "anchors": ["src/writer/v7400/binary.rs: update_node_header", "src/writer/v7400/binary/attributes.rs: AttributesWriter"]}
{"id": "C55", "title": "next_event is decided by the bytes ahead", "statement": "On a seekable source the event, error or panic next_event reports, and the warnings it raises with their positions, are a function of the open nodes (as declared by their headers), the position and the bytes that follow: each error kind and each warning (missing and extra end marker, empty name, footer) is raised exactly in the documented case, with 'has children' meaning that a child node was started.", "quantifier": "every byte stream and call sequence", "why_tests_cant": "all malformed inputs", "anchors": ["src/pull_parser/v7400/parser.rs: next_event_impl", "src/low/v7400/fbx_footer.rs", "src/pull_parser/error/warning.rs", "tests/missing-and-extra-node-end-marker.rs"]}
{"id": "C56", "title": "Positions on plain sources lag behind by what was skipped", "statement": "On a parser made by from_reader the byte position it tracks and reports never exceeds the true offset in the file. The difference never shrinks during any sequence of calls. A successful call that has n bytes to skip (unread attributes, the rest of the previous attribute, or the rest of a skipped node) increases it by at least n, or by what is left of the source. An EndNode event is given only when the source is past the node's declared end by exactly the accumulated difference, so after any skip no node is ended where it ends.", "quantifier": "every byte stream, every sequence of calls and every loader on a non-seekable source", "why_tests_cant": "the effect depends on which attributes a client leaves unread anywhere in an arbitrary document; tests use seekable sources", "anchors": ["src/pull_parser/reader.rs: skip_distance_plain, PlainReader, skip_to", "src/pull_parser/v7400/parser.rs: next_event_impl, skip_current_node", "src/pull_parser/v7400/attribute.rs: read_next_attr_type"]}
{"id": "C57", "title": "load_next with DirectLoader is decided by the bytes ahead", "statement": "On a seekable source the answer of load_next or load_next_buffered with DirectLoader is a function of the bytes at the offset of the next attribute: the value or the error kind, whether the incorrect-boolean warning is raised and with which position, how far the reader advances and where the following attribute is expected, for each of the thirteen type codes, both encodings and every way of being cut short or malformed. The attributes of a node loaded one after the other give exactly the values, warnings and error of that table.", "quantifier": "every byte stream and ending of the source, every history of calls, every node and number of attributes", "why_tests_cant": "all malformed and truncated attribute encodings, at every offset", "anchors": ["src/pull_parser/v7400/attribute.rs: Attributes::load_next, load_next_buffered, read_next_attr_type", "src/pull_parser/v7400/attribute/array.rs", "src/pull_parser/v7400/attribute/loaders/direct.rs"]}
{"id": "C58", "title": "A file is decided by its bytes", "statement": "There is a reader of whole files without parser state, loaders, trees, handlers or I/O (tables over the bytes) such that, for every file with a supported header on a source that can seek: a client which pulls events and loads every attribute with DirectLoader sees exactly the events, values, error (kind and position) and warnings (kinds, positions and order) of that reader, whatever the indulgent handler and the buffering; AnyTree returns exactly the tree of the nodes it finds, or its error; and on written files the reader finds what was written.", "quantifier": "every byte string with a supported header, every ending of the source, every number of calls, every decompressor", "why_tests_cant": "all files, well-formed or not", "anchors": ["src/pull_parser/any.rs", "src/pull_parser/v7400/parser.rs", "src/pull_parser/v7400/attribute.rs", "src/tree/any.rs", "src/tree/v7400/loader.rs"]}
{"id": "C59", "title": "Errors name their kind, cause and message", "statement": "For every parser error, kind() tells which of the four types downcast_ref succeeds for, with the value get_ref shows. Asking any error of the library for its source() again and again ends after at most four steps with one last cause; an error that stems from an I/O error has that I/O error as its last cause, except errors about the file header, which name no cause. A failing AnyTree load of a file with a supported header always reports a parser error with a position, of kind Data or Io, and its last cause is the I/O error, the encoding error of a name, or the data error. The message of an error ends with the message of its cause (data errors: with its Debug text), and that of a parser error begins with its kind. Messages about a mismatch name the expected value first and then the actual one, and the messages about sizes and counts show the number they are about. A cast of any error succeeds for its own type alone. Errors of one type with the same message are of the same variant, whatever the texts of foreign objects are, except errors about the header. Errors that carry no values have fixed messages, and errors about an unsupported version show the version in decimal.", "quantifier": "every error value of the library, every device error; every byte string with a supported header and every ending of the source", "why_tests_cant": "all error values and all files that make loading fail", "anchors": ["src/pull_parser/error.rs", "src/pull_parser/error/data.rs", "src/pull_parser/error/operation.rs", "src/pull_parser/error/warning.rs", "src/pull_parser/any/error.rs", "src/tree/any/error.rs", "src/tree/v7400/error.rs", "src/writer/v7400/binary/error.rs", "src/low/fbx_header.rs"]}
{"id": "C60", "title": "Loaders for one type are DirectLoader with a check of the type in front", "statement": "On any attribute of any input, each of the thirteen loaders for one type (PrimitiveLoader<bool|i16|i32|i64|f32|f64>, ArrayLoader<bool|i32|i64|f32|f64>, BinaryLoader, StringLoader) behaves as DirectLoader after a check of the type: if the attribute has its type, it returns the contents of the value DirectLoader returns, or fails as DirectLoader does, and leaves the same parser state; if the attribute has another type, it fails with UnexpectedAttribute naming what was expected and what was found, at the position of the attribute, having read only what TypeLoader reads; in all other cases (no attribute left, bad header of the attribute, parser stopped before) no loader at all differs from TypeLoader. TypeLoader returns the type of the value DirectLoader would have returned.", "quantifier": "every byte string, source kind, handler, history of calls before, buffered or not; every loader (for the last part)", "why_tests_cant": "all inputs, states and pairs of types", "anchors": ["src/pull_parser/v7400/attribute/loaders/single.rs", "src/pull_parser/v7400/attribute/loaders/direct.rs", "src/pull_parser/v7400/attribute/loaders/type_.rs", "src/pull_parser/v7400/attribute/loader.rs", "src/pull_parser/v7400/attribute.rs"]}
{"id": "C61", "title": "A file is decided by its bytes, whatever the source can do", "statement": "For any bytes after the header of a file and any source - one that cannot seek, or one that can seek only so far - the answers of next_event and of load_next with DirectLoader, the events and values a client sees who loads everything, the error with its position, all warnings with their positions, and the tree or error that AnyTree returns are those which a reference reader finds in the bytes. The only thing about the source that matters is how it passes over unread bytes: a source that cannot seek drops them without counting them in the offset and notices a device error among them; a source that can seek fails with an I/O error if the offset is out of its reach and keeps the offset reached so far.", "quantifier": "every byte string, version, device error at the end, plain sources and seekable sources with any reach, start offset, build with or without overflow checks, indulgent handler, buffered or not, number of calls and history of calls before", "why_tests_cant": "all inputs, sources and histories; malformed files with padding between attributes and children behave differently on plain sources", "anchors": ["src/pull_parser/reader.rs (skip_distance_plain, skip_distance_seekable, skip_to)", "src/pull_parser/v7400/parser.rs (Parser::next_event, skip_unread_attributes)", "src/pull_parser/v7400/attribute.rs (Attributes::load_next)", "src/pull_parser/any.rs (from_reader, from_seekable_reader)", "src/tree/any.rs (AnyTree)"]}
{"id": "C62", "title": "Writing that is interrupted never looks finished, and keeps what was finished", "statement": "Once the calls that write some top-level nodes have succeeded, these nodes are safe: whatever is called afterwards (successful or not, also finalize) and wherever the device fails or the process crashes, a client that reads what is on the device, from a seekable source, sees exactly these nodes first. If the writing stops while a top-level node with a non-empty name is open, the client sees the nodes finished before, the start of the open node and then NodeLengthMismatch, never the end of the document, and AnyTree returns an error. On a device that was empty at first, the same holds if the writing stops between top-level nodes or while one is being started (the error may also be the end of the data); if it stops in finalize, the client sees the end of the data, or EndFbx with an error instead of a footer, unless the document is complete; if it stops in FbxWriter::new, the file cannot be opened or has no event. Exception (a defect): an open top-level node with an empty name makes the file look like a complete document whose footer starts there. Whatever calls were made on a writer of an empty device, successful or not (also a close_node that fails while it rewrites a header): as long as finalize was not called, no client that reads the device from a seekable source ever sees EndFbx and AnyTree loads nothing, provided that top-level nodes have names and that the device stores a failing field of a header as a whole or not at all. Without this last condition the claim fails (a defect): one byte of an end offset can make the file look finished, with a node outside its parent.", "quantifier": "every version, forest, sequence of calls, failure schedule of the device with partial writes (every crash point), footer, reading client (any sequence of calls) and its options", "why_tests_cant": "all crash points of all sessions", "anchors": ["src/writer/v7400/binary.rs (Writer::new, new_node, close_node, finalize, write_node_header)", "src/writer/v7400/binary/attributes.rs", "src/pull_parser/v7400/parser.rs (next_event)", "src/low/v7400/fbx_footer.rs", "src/tree/any.rs"]}
{"id": "C63", "title": "A tree may be edited while it is traversed", "statement": "A DepthFirstTraverseSubtree does not borrow the tree, so that the tree may be edited between its calls. At any time, its calls yield what lies between its two cursors in the depth-first tour of the tree as it is then, if the cursors are in the tour in this order. While nodes are created and attributes are changed, no call panics, nothing is yielded twice, everything is in the order of the current tour, and every original item of the subtree is yielded. When a node is detached or put elsewhere and no cursor is in its subtree, the traversal goes on with all other items as before; when it is the traversed node or one above, the traversal is not influenced. When a cursor is in the moved subtree, the traversal may leave the traversed subtree, and panic.", "quantifier": "every well-formed tree, traversed node, history of forward and backward calls and edits", "why_tests_cant": "interleavings of edits and calls are unbounded", "anchors": ["src/tree/v7400.rs (DepthFirstTraverseSubtree::{next_forward, next_backward}, DepthFirstTraversed::{next, prev}, create_node, append, prepend, insert_*, detach)"]}
{"id": "C64", "title": "== of trees compares the internal state, up to floats, and cannot be told apart by the API", "statement": "Trees that are == have the same node ids, and at each node the same name, neighbours and children and attributes that are equal one by one (floats as IEEE 754 prescribes), so that they represent the same document up to floats. The same calls made on them with equal attributes return or panic alike and leave trees that are ==; programs that make the same calls build trees that are ==. == is symmetric and transitive; a tree is == to itself or its clone exactly if none of its nodes, also the detached ones, has an attribute with NaN. Neither == nor strict_eq implies the other one. Strictly equal trees become == by being saved and loaded, unless there are NaNs.", "quantifier": "all well-formed trees, all sequences of calls", "why_tests_cant": "ranges over all trees and all continuations", "anchors": ["src/tree/v7400.rs (Tree, derive(PartialEq), strict_eq)", "src/tree/v7400/node/data.rs (NodeData, derive(PartialEq))", "src/low/v7400/attribute/value.rs (AttributeValue, derive(PartialEq))"]}
{"id": "C65", "title": "write_tree and write_v7400_binary! anywhere in a session", "statement": "At any place of a session, with any calls before and after, at any depth and on any device, write_tree(tree) and write_v7400_binary!(writer, tree = ..) do exactly what the single calls (new_node, append_*, close_node) for their document do: same bytes, same errors, same state of the writer. A document put together from nodes, trees and literals, nested in any way, is written as the file of the document it describes, and loading it gives that document.", "quantifier": "all sequences of calls, trees, literals, devices and fault schedules", "why_tests_cant": "all mixtures and all states of the writer", "anchors": ["src/writer/v7400/binary.rs (Writer::write_tree)", "src/writer/v7400/binary/macros.rs (write_v7400_binary!)"]}
{"id": "C66", "title": "finalize_and_flush is finalize followed by a flush", "statement": "A session that ends with finalize_and_flush leaves the same bytes as one that ends with finalize. It fails with the error of finalize, without flushing, if finalize fails, and otherwise exactly if flushing fails, with an I/O error; the complete document has been written in this case too.", "quantifier": "all sessions, devices and fault schedules", "why_tests_cant": "all sessions and failures", "anchors": ["src/writer/v7400/binary.rs (Writer::finalize, Writer::finalize_and_flush)"]}
{"id": "C67", "title": "debug_tree shows the document", "statement": "format!(\"{:?}\", tree.debug_tree()) and format!(\"{:#?}\", ..) can be made for every tree a program can build, and do not panic. They print the document: names, attributes and children of every node, in order, on one line or with four spaces of indentation for each level. Trees that are strictly equal print the same text. Trees that print the same text on one line have the same names, the same structure and the same attributes, up to floating point numbers that are shown alike (such as NaNs with different bits).", "quantifier": "all trees, and all formats of strings and floating point numbers with the stated properties", "why_tests_cant": "all trees; that no two different documents have the same text is a claim about all pairs", "anchors": ["src/tree/v7400.rs (Tree::debug_tree, DebugNodeHandle, DebugNodeHandleChildren)", "src/low/v7400/attribute/value.rs (AttributeValue)"]}
{"id": "C68", "title": "A document is no larger than its file", "statement": "Whatever the bytes of a file and whatever kind of source they come from, what is read fits into the file: the names of all nodes that a client of the pull parser was told about, with 13 bytes (25 from version 7.5 on) for each node, take no more bytes than the parser has consumed; the same holds together with all strings, binary data and other values when a client loads every attribute, counting 13 bytes for an array, which may be compressed; and a tree that was loaded has exactly the nodes of its document, so that a file of n bytes gives at most (n - 27) / 13 of them, the root included.", "quantifier": "all byte sequences, sources and call histories", "why_tests_cant": "a claim about hostile files; no sample of files bounds what the others make the parser deliver", "anchors": ["src/pull_parser/v7400/parser.rs (Parser::next_event)", "src/pull_parser/v7400/attribute/loaders/direct.rs (DirectLoader)", "src/tree/v7400/loader.rs (Loader::load)", "src/tree/any.rs (AnyTree)"]}
{"id": "C69", "title": "Parsing does not depend on how the source splits its reads", "statement": "On a source whose `read` returns fewer bytes than asked for or `Interrupted`, in any pattern that does not return `Interrupted` for ever: opening a file, any sequence of next_event, load_next, load_next_buffered, skip_current_node and set_warning_handler calls, and AnyTree all end, with exactly the results they have on a source that delivers whatever is asked for: the same events, values, trees, errors with positions, warnings and panics. Loaders may read a string or binary attribute with read_to_end / read_to_string, as those of the crate do, or not at all.", "quantifier": "every byte sequence and ending of the source, every fair pattern of short and interrupted reads, every size of std's buffers, every call sequence", "why_tests_cant": "the patterns of short reads are infinitely many; the tests of the crate read from memory or files, which hardly ever split reads", "anchors": ["src/pull_parser/reader.rs (Reader)", "src/pull_parser/v7400/parser.rs (Parser::next_event, Parser::skip_current_node)", "src/pull_parser/v7400/attribute.rs (Attributes::load_next)", "src/pull_parser/any.rs (AnyParser)", "src/tree/any.rs (AnyTree)"]}
{"id": "C70", "title": "A file determines the document written to it", "statement": "If the file left by one successful writer session equals, or is the beginning of, the file left by another, then both sessions declared the same version and wrote the same nodes with the same names, nesting, attribute values and array encodings. If moreover both devices were empty and the files are equal, the footers have the same unknown fields and the same number of padding bytes. So no two different documents share a file, and no file is a proper beginning of the file of another document.", "quantifier": "every pair of successful sessions (any versions, documents, footers, previous contents of the device), any lawful zlib", "why_tests_cant": "it compares all pairs of documents", "anchors": ["src/writer/v7400/binary.rs (Writer)", "src/writer/v7400/binary/attributes.rs (AttributesWriter)", "src/writer/v7400/binary/footer.rs (FbxFooter)"]}
{"id": "C71", "title": "Writing does not depend on how the device splits its writes", "statement": "On a sink whose `write` stores only a part of the bytes it is given or returns `Interrupted`, in any pattern that is not interrupted for ever: Writer::new, any sequence of calls, write_tree, finalize and finalize_and_flush end with exactly the results they have on a sink that stores everything at once, and leave exactly the same bytes and cursor. If the sink may also fail at any operation, or store nothing (`Ok(0)`), in the middle of a `write_all` or elsewhere, everything ends, and the results, call by call and also after errors, and the bytes are those on a sink that stores everything at once but fails at some operation after storing some part, with an error which the device reported (WriteZero for `Ok(0)`), which is what the other properties are about; in particular, if all calls of a session succeed then the sink holds exactly the document.", "quantifier": "every pattern of short, interrupted, empty and failing operations of the sink, every previous content, version, call sequence (with calls after errors), tree and footer", "why_tests_cant": "the patterns are infinitely many; the tests of the crate write to memory, which never splits writes", "anchors": ["src/writer/v7400/binary.rs (Writer)", "src/writer/v7400/binary/attributes.rs (AttributesWriter)", "src/writer/v7400/binary/attributes/array.rs (write_array_attr_result_iter)"]}
{"id": "C72", "title": "load_next with any loader is decided by the bytes ahead", "statement": "After any calls on any bytes of any source, while the parser is running and its warning handler does not object, load_next and load_next_buffered with any loader (any functions of numbers and booleans, any programs pulling elements of arrays, going on after errors or stopping early, any programs reading from the streams of strings and binary data) return what a table over the bytes ahead says: the value, or the error with its position (whatever position the loader supplied), the warning about odd booleans, what was consumed, and where the next attribute is. The next attribute is found at the same place whatever the loader read. An error of an array element cannot be hidden by the loader. TypeLoader answers the type exactly if the number, or the lengths and the zlib header, are there. So the results of every client with any plan of loaders on any file are those of a reference reader.", "quantifier": "every byte stream, source (seekable or not, failing or not), earlier history, loader, plan of loaders", "why_tests_cant": "loaders are arbitrary programs and inputs arbitrary bytes", "anchors": ["src/pull_parser/v7400/attribute.rs (Attributes::load_next, load_next_buffered)", "src/pull_parser/v7400/attribute/array.rs", "src/pull_parser/v7400/attribute/loader.rs (LoadAttribute)", "src/pull_parser/v7400/attribute/loaders/type_.rs (TypeLoader)"]}
{"id": "C73", "title": "Loading does not influence later events of any file, within the bounds of the node", "statement": "On a seekable source with any bytes and after any calls: whichever attributes of the current node are loaded, with whichever loaders, as long as none fails and nothing is read beyond the end of the attributes declared by the node's header (and the device can seek there), the next next_event returns the same event or error, raises the same warning and leaves the same state ahead. Beyond the declared end this is false: a file whose node declares fewer attribute bytes than its attributes have yields different events depending on what was loaded, without any error or warning from loading.", "quantifier": "every byte stream, history, pair of load sequences, loaders", "why_tests_cant": "arbitrary malformed inputs and arbitrary loaders", "anchors": ["src/pull_parser/v7400/attribute.rs (Attributes::load_next)", "src/pull_parser/v7400/parser.rs (Parser::next_event)"]}
{"id": "C74", "title": "The example program prints the outline of a file", "statement": "The program dump-pull-parser-events prints, whatever the bytes of the file, the version and then one line for the beginning of each node, for each attribute and for the end of each node, each indented by four spaces for each node open around it, as far as the file can be read; it always ends, its depth never goes below zero, and it ends successfully (after the lines about the footer) exactly if the end of the document is reached. Of a file that was written it prints the outline of the forest written, with its attributes in the format chosen (types, lengths, or full values) and the footer. A malformed attribute makes it return the error, but panic in the format with types only.", "quantifier": "every byte stream (below 2^64 - 2^32 bytes), every format, every written document", "why_tests_cant": "arbitrary malformed files", "anchors": ["examples/dump-pull-parser-events.rs (main, dump_fbx_7400, dump_v7400_attributes_type, dump_v7400_attributes_length, dump_v7400_attributes_full)"]}
{"id": "C75", "title": "What has been reported does not depend on bytes not yet consumed", "statement": "A parser can be given a stream that is still being produced: what the calls made so far have returned (events, attribute values of any loader, errors, panics), the warnings raised, the open nodes and the position are the same whatever bytes follow the consumed ones and however the stream ends, as long as at least one byte is left unread. The same holds for loading a tree: what follows the footer does not matter. At the end of the stream this fails: a string or binary that is cut there is loaded without an error as a shorter one.", "quantifier": "every stream (seekable or not), every history of calls with any loaders and handlers, every continuation and ending of the stream", "why_tests_cant": "all continuations of all streams after all histories", "anchors": ["src/pull_parser/v7400/parser.rs (next_event, skip_current_node)", "src/pull_parser/v7400/attribute.rs (load_next, load_next_buffered)", "src/pull_parser/reader.rs", "src/pull_parser/any.rs (AnyParser)", "src/tree/any.rs (AnyTree), src/tree/v7400/loader.rs (Loader::load)"]}
{"id": "C76", "title": "What the writer does is decided by the calls, whatever they are", "statement": "On a working device with enough room, the result of every call of the writer and every byte of the device are decided by the version, the previous content of the device and the calls made so far, also when the client goes on after calls that failed: a refused name only makes its parent a parent, a failing append_* call leaves an attribute of the same type and counts, closing too often and finalizing too early change nothing, and a close_node whose node does not fit 32-bit offsets discards that node, so that finalize then succeeds without it. The specification has no device, positions or overwriting, and agrees with the layout of documents for calls that all succeed.", "quantifier": "every device content, version, zlib, every sequence of calls the borrow checker accepts (failing or not), every footer", "why_tests_cant": "all interleavings of failing and succeeding calls with all contents", "anchors": ["src/writer/v7400/binary.rs (Writer::new, new_node, close_node, finalize_attributes, finalize)", "src/writer/v7400/binary/attributes.rs (append_*)"]}
{"id": "C77", "title": "What can be seen of a tree is decided by the calls", "statement": "The answers of the mutating calls of the tree API (ids of new nodes, replaced and taken attributes, panics) and everything that can be seen of every node afterwards (name, attributes, parent, previous and next sibling, first and last child, children) are those of a specification in which a tree is nothing but lists of siblings, for any calls on a new tree or on any well-formed one, also when the client goes on after panicking calls (append_new and the other *_new calls with an invalid id leave a node behind). Excluded are insert_after and insert_before next to a descendant of the node, which make a cycle.", "quantifier": "every sequence of calls of the tree API with any ids, names and values, every well-formed starting tree", "why_tests_cant": "all histories of edits", "anchors": ["src/tree/v7400.rs (create_node, append, prepend, insert_after, insert_before, append_new, prepend_new, insert_new_after, insert_new_before, detach, append_attribute, get_attribute_mut, take_attributes_vec, set_attributes_vec)", "src/tree/v7400/node/handle.rs"]}
{"id": "C78", "title": "Loading, editing and writing a file is decided by the file and the calls", "statement": "The nodes of a loaded tree are numbered in document order and show what the document says, and there are no other nodes. Whatever calls a client then makes on the loaded tree (or on a new one), the answers, what can be seen of every node, and every byte and error of writing the tree are those of a specification without trees: the document read from the bytes, the calls on lists of siblings, the document they give. What is written and loaded again shows that document, with ids in document order: nothing of detached nodes, of attributes of the root or of refused calls. A loaded tree that is written and loaded again shows the same under the same ids.", "quantifier": "all bytes of a file, all sequences of tree calls with any ids and values (without a cycle, C43), all sinks, versions, footers, zlib implementations", "why_tests_cant": "all files and all histories of edits", "anchors": ["src/tree/v7400/loader.rs", "src/tree/any.rs", "src/tree/v7400.rs", "src/writer/v7400/binary.rs (write_tree)"]}
{"id": "C79", "title": "Compressed arrays made by any zlib compressor are read", "statement": "A file in which each compressed array is stored as any zlib stream for its elements (RFC 1950, RFC 1951: stored blocks, fixed codes, codes of their own, copies, any number of blocks, any header without a dictionary) is parsed and loaded with exactly these elements from a seekable source, whoever compressed them, even if two equal arrays are compressed differently. The checksum after the data is not looked at: it may be wrong or missing, and damaged elements are delivered without an error. From a source that cannot seek, such a file is not read. With any compressor whose output is such a stream, everything proved about written files holds.", "quantifier": "all documents, all compressed forms of every array, all bytes in place of the checksum, all clients whose loaders accept the values, all versions 7.0 to 7.x", "why_tests_cant": "infinitely many compressed forms of the same data; tests use one compressor", "anchors": ["src/pull_parser/v7400/attribute/array.rs (AttributeStreamDecoder)", "src/pull_parser/v7400/attribute.rs", "src/writer/v7400/binary/attributes/array.rs"]}
{"id": "C80", "title": "Leaving nodes out with skip_current_node, and filters", "statement": "A client that decides for every node, by what it has seen, whether to go into it or to leave it with skip_current_node (before or after loading its attributes) keeps, on any bytes and a source that can seek, exactly what a table over the bytes selects, with the same warnings, errors and panics. If the whole file can be read and says the document F, then the client keeps exactly F without the nodes left out and nothing fails; and a program that repeats on a writer, as they come, the nodes it keeps does to the sink exactly what one writing session of the pruned document does. The written file loads as the pruned document.", "quantifier": "all bytes with a supported header, all adaptive policies, all handlers that do not object, all sinks, versions, footers, zlib implementations", "why_tests_cant": "infinitely many files and policies; errors inside skipped nodes, offsets and the state after a skip at any depth", "anchors": ["src/pull_parser/v7400/parser.rs (skip_current_node, next_event)", "src/writer/v7400/binary.rs (Writer)"]}
{"id": "C81", "title": "What any client sees is decided by the bytes of the file and its calls", "statement": "Whatever the bytes of a file with a supported header, whatever source it is read from, and whatever a client does (next_event, load_next and load_next_buffered with any loaders, skip_current_node, set_warning_handler with any handlers which may object to any warning, in any order, each call chosen by all that was seen before): every outcome (event, value, end, error with its kind and position, panic), every warning with its position, and everything the accessors show after each call (version, depth, name of the innermost open node, position, whether the parser is in use, total and remaining attribute counts) is what a small machine over the bytes says. In particular a handler's objection is the error, the position after it is fixed, an aborted parser refuses but can still leave nodes, and sources with the same bytes, end and way to skip cannot be told apart.", "quantifier": "all bytes, all sources (plain or seekable, any limits, any ending), all adaptive clients of any length, all loaders, all handlers, builds with and without overflow checks, all zlib implementations", "why_tests_cant": "infinitely many files, clients and handlers; every interleaving of errors, objections, skips and loads", "anchors": ["src/pull_parser/v7400/parser.rs (next_event, skip_current_node, set_warning_handler, position, current_depth, current_node_name, is_used)", "src/pull_parser/v7400/attribute.rs (load_next, load_next_buffered, total_count, rest_count)", "src/low/v7400/fbx_footer.rs (FbxFooter)"]}
{"id": "C82", "title": "What was written is there, whatever failed", "statement": "A client of the writer on a working device makes any calls in any order and goes on whatever they return (refused names, failing iterators and readers, attributes that are too long, closes without a node, nodes given up as too large). finalize succeeds exactly if, by what the calls returned, no node is left open. If it succeeds, a reader finds exactly the nodes which were closed successfully inside nodes closed successfully, with their names, nesting and order, each with as many attributes as append calls were made for it, whether these failed or not; the attributes before the first failed one of a node load with the values appended; the document ends with a regular footer; the only warnings are about empty names and superfluous end markers.", "quantifier": "all sequences of calls which the borrow checker accepts, failing or not, all supported versions, all previous contents of the device, all footers with default padding, all reading clients which stay before failed attributes, all lawful zlib implementations", "why_tests_cant": "every interleaving of successful and failed calls; nodes of any number and depth", "anchors": ["src/writer/v7400/binary.rs (Writer::new_node, close_node, finalize)", "src/writer/v7400/binary/attributes.rs (AttributesWriter)", "src/pull_parser/v7400/parser.rs (next_event)", "src/pull_parser/v7400/attribute.rs (load_next)"]}
{"id": "C83", "title": "Memory set aside for strings and binary data", "statement": "The loaders of the library set aside, with with_capacity, the declared length of a string or of binary data before they read any of it. Whatever the bytes, the source, the warning handlers and the calls of a client (adaptive, of any length, also after errors), each such request is less than 4 GiB, everything requested before a request is in the file, and all requests together are less than the bytes of the file and 4 GiB: a file cannot ask for more than one string or binary that is not there. The bound is reached (a defect): for every length below 4 GiB a file of 46 bytes makes DirectLoader set aside so much at the first attribute.", "quantifier": "all bytes, all sources, all adaptive clients which use the loaders of the library (or any loaders which read strings and binary data to the end or not at all), all handlers, all zlib implementations", "why_tests_cant": "every file and every order of calls; a test sees single allocations of single files", "anchors": ["src/pull_parser/v7400/attribute/loaders/direct.rs (DirectLoader::load_binary, load_string)", "src/pull_parser/v7400/attribute/loaders/single.rs (BinaryLoader, StringLoader)", "src/pull_parser/v7400/attribute.rs (load_next, load_next_buffered)"]}
{"id": "C84", "title": "Loaders over a BufRead, on any device", "statement": "load_binary_buffered and load_string_buffered get the declared bytes of the attribute as an io::BufRead. Whatever the device below does (it has a buffer with any number of bytes in it, delivers pieces of any size, and fails now and then), a loader which keeps the rule of consume (not more than fill_buf showed) is shown, by read and fill_buf, nothing but what comes next of the declared bytes, and something as long as any of them are left; it never makes the parser panic; and afterwards the position and the source are behind exactly what was taken. In every state a client can reach, load_next_buffered answers what the loader answers. Every history of a client with such loaders is one with loaders which only read from a source which delivers all that is asked for, so the properties of histories hold for it as well. The usual loop (fill_buf, consume all) gets exactly the declared bytes, however they are cut into pieces. The rule is needed: a loader which consumes more than it was shown makes the tracked position wrong. Even such a loader does no more harm than that: it does not make the parser panic, and neither the source nor the position goes beyond the declared bytes.", "quantifier": "all programs over a BufRead which keep the rule, all devices with buffers (contents, piece sizes, transient and final errors), all positions and lengths, all histories of clients", "why_tests_cant": "every loader and every way in which a device cuts its data into pieces", "anchors": ["src/pull_parser/reader.rs (Reader: Read::read, BufRead::fill_buf, BufRead::consume, advance)", "src/pull_parser/v7400/attribute.rs (load_next_buffered, load_next_buffered_impl)", "src/pull_parser/v7400/attribute/loader.rs (load_binary_buffered, load_string_buffered)"]}
{"id": "C85", "title": "The parser stops behind the footer: documents one behind the other", "statement": "The parser never reads ahead. Once next_event has returned EndFbx with a footer, the source stands exactly behind that footer: what was read ends with the end marker and the footer, everything behind is still to come, and no later call reads any of it; this holds for any client, with any loaders and handlers, on any bytes and any source. Hence documents can stand one behind the other in one source (`&mut reader`): if each was written with write_tree and finalize (any trees, versions, first footer fields, paddings up to 15), loading trees from the source again and again returns exactly these documents in order, with their versions, strictly equal trees and footers, and leaves the bytes behind the last one; on sources which seek (which may start anywhere) as well as on sources which only read. It does not hold for a footer which is reported as broken: then the source stands somewhere in the footer and the next document is not found.", "quantifier": "all histories of all clients on all bytes and sources; all lists of documents (trees, versions, footers), all bytes behind them, all start positions, both kinds of sources, all lawful compressors", "why_tests_cant": "every sequence of documents and every client", "anchors": ["src/pull_parser/v7400/parser.rs (next_event)", "src/low/v7400/fbx_footer.rs (FbxFooter::read_from_parser)", "src/tree/any.rs (AnyTree::from_reader, from_seekable_reader)", "src/pull_parser/any.rs (AnyParser)", "src/tree/v7400/loader.rs (Loader::load)", "src/pull_parser/reader.rs"]}
{"id": "C86", "title": "Failures of the device are reported at once, by the call in which they happen", "statement": "In whatever state a writer is, every call (new, new_node, close_node, each append_*, finalize, finalize_and_flush, write_tree) stops at the first operation of the device (write, seek, question for the position, flush) which fails: it does no further operation and returns exactly the error of this one, as an I/O error. Conversely, a call in which no operation failed reports no error of the device, unless the device is full or the error is one the client handed in through an iterator or a reader. So if a whole session (new, calls, finalize or finalize_and_flush) succeeds, every operation of the device succeeded. There is one exception to `as an I/O error`: for an array to be compressed, the failure is a compression error if, and only if, it concerns the very operation by which the encoder is finished; a failure before or behind it in the same call is an I/O error.", "quantifier": "all states of a writer, all calls with all arguments, all devices and all schedules of failures, all sessions, trees, versions and compressors", "why_tests_cant": "every position of a failure in every history", "anchors": ["src/writer/v7400/binary.rs (Writer, write_tree)", "src/writer/v7400/binary/attributes.rs (AttributesWriter)", "src/writer/v7400/binary/attributes/array.rs (write_array_attr_result_iter)", "src/writer/v7400/binary/error.rs (Error, CompressionError)"]}
{"id": "C87", "title": "A document is at most 1032 times as large as its file", "statement": "Whatever bytes are read, from any source: all nodes with their names, attributes and all array elements which a client of the pull parser loads, or which the tree of AnyTree holds, take together at most 1032 times the bytes of the file, whatever numbers of elements and lengths the file claims. This is the factor of zlib (RFC 1951): however a stream goes on, not more than 1032 bytes come out for each byte that is read. The factor is reached: for every m (as long as the number of elements fits its field) there is a file of m + 84 bytes whose document has an array of 1032 * m + 4 bytes, and it is loaded. For another decompressor with factor c the bound is c.", "quantifier": "all byte strings, all sources, endings, supported versions, warning handlers that do not stop; all continuations of a zlib stream; all decompressors by their factor", "why_tests_cant": "a bound over all inputs; the worst input is not known to a test", "anchors": ["src/pull_parser/v7400/attribute/array.rs (AttributeStreamDecoder, ArrayAttributeValues)", "src/pull_parser/v7400/attribute/loaders/direct.rs (DirectLoader)", "src/pull_parser/v7400/parser.rs (Parser::next_event)", "src/tree/any.rs (AnyTree::from_reader, from_seekable_reader)"]}
{"id": "C88", "title": "Bytes which are passed over do not matter", "statement": "On a seekable source: next_event passes over the attributes of the current node which were not read, load_next over the rest of the previous attribute, skip_current_node over the rest of the current node. Whatever was called on a parser, if another file of the same length has the same bytes except where bytes were passed over, all the calls return the same on it, warnings included, and the states are the same up to the bytes of the second file ahead. In particular, after skip_current_node the parser is in the same state whatever the rest of that node contained, so that damage in nodes which are skipped cannot be noticed, and does no harm.", "quantifier": "all byte strings, all histories of calls with all loaders and handlers, all pairs of files which agree outside of the gaps, all versions and endings", "why_tests_cant": "a relation between two runs for all replacements of the skipped bytes and all histories", "anchors": ["src/pull_parser/v7400/parser.rs (Parser::next_event, skip_current_node)", "src/pull_parser/v7400/attribute.rs (Attributes::load_next)", "src/pull_parser/reader.rs (skip_to, skip_distance)"]}
{"id": "C89", "title": "The interner does not run out of symbols", "statement": "Node names are kept in an interner with 2^32 - 1 symbols; creating a node with a new name panics when they are used up. Loading a tree from any file of at most 13 * (2^32 - 1) + 26 bytes (about 55 GB), whatever it contains and whether loading succeeds or fails, never gets there: the result is that of an interner without a limit. With any number of symbols, exactly the documents are loaded which have at most so many different names (with the empty one of the root); for the others the loader panics. No call of the tree API on a tree with less than 2^32 - 1 nodes, loaded or made and edited in any way, uses up the symbols. The limit is there: creating nodes with 2^32 - 1 different names makes the last call panic and none before.", "quantifier": "all bytes, sources, endings; all trees reachable by loading and by any calls, whatever these return; all numbers of symbols", "why_tests_cant": "the limit is far beyond what a test can reach", "anchors": ["src/tree/v7400/node/name.rs (NodeNameSym)", "src/tree/v7400/loader.rs (Loader::load, add_node)", "src/tree/v7400.rs (create_node, append_new, prepend_new, insert_new_after, insert_new_before)"]}
{"id": "C90", "title": "skip_current_node leads to one place, whatever was done inside the node", "statement": "On a seekable source, with any bytes and after any calls: let a client do anything inside the current node that does not fail and does not leave the node (load attributes with any loaders, read some of its children, skip others). If skip_current_node then succeeds, it also succeeds when called at once, and leaves the parser in the same state; and if it succeeds at once, it later either leaves the same state or panics because something was read beyond the declared end of the node. Such a panic is possible: loading an attribute that reaches beyond the end of its node is no error and raises no warning, but makes a skip_current_node panic that would have succeeded before.", "quantifier": "every byte stream, every history before, every history inside the node, all loaders and handlers", "why_tests_cant": "a relation between two runs for all files and all histories inside a node", "anchors": ["src/pull_parser/v7400/parser.rs (Parser::skip_current_node)", "src/pull_parser/reader.rs (skip_to)", "src/pull_parser/v7400/attribute.rs (Attributes::load_next)"]}
{"id": "C91", "title": "The parser does not rely on the source standing still", "statement": "The source may change in any way between two calls (bytes appear, vanish or are replaced, the device fails and recovers, its cursor is moved). Still: the only panics are those possible on a steady source; current_depth is the number of nodes started less those ended or skipped (possibly one less after a failure), and position() reports the path given by the events and offsets that never decrease; after the first failing next_event or load_next all later ones return AlreadyAborted with the position of that failure, even if the source has recovered; after EndFbx all return AlreadyFinished, even if the file grows. A failing skip_current_node is different: it leaves the node but the parser goes on, and reports the children of the node that was to be skipped as nodes of the level above, and its end as the end of that level or of the document. For that no broken device is needed: a declared end beyond the range of file offsets will do.", "quantifier": "every initial byte stream, every sequence of contents shown by the device, every history of calls, all loaders and handlers", "why_tests_cant": "arbitrary changes of the source between arbitrary calls", "anchors": ["src/pull_parser/v7400/parser.rs (Parser::next_event, ensure_continuable, set_aborted, skip_current_node, position)", "src/pull_parser/v7400/attribute.rs (Attributes)", "src/pull_parser/reader.rs (Reader)"]}
{"id": "C92", "title": "A file can be followed while it is being written", "statement": "If the source shows, at each call, only the part of a file that is there by then (with any ending: end of file or an error), and no call comes to the end of what is shown to it, then everything observed is what is observed on the complete file, and the state differs only in the bytes still to come. Conversely a call can be made as soon as one byte more is there than it consumes on the complete file. A call which does come to the present end may succeed with something else: a string of which only a part is there is returned shortened, without an error.", "quantifier": "every file and every way in which it grows between the calls, seekable or plain sources, every history of calls with any loaders and handlers", "why_tests_cant": "all interleavings of a growing file with the calls of a client", "anchors": ["src/pull_parser/reader.rs (Reader)", "src/pull_parser/v7400/parser.rs (Parser::next_event, skip_current_node)", "src/pull_parser/v7400/attribute.rs (Attributes::load_next)", "src/pull_parser/v7400/attribute/loaders"]}
{"id": "C93", "title": "The writer works on any destination that keeps its promises; through a BufWriter the document is in the file after finalize_and_flush", "statement": "For every type of destination whose write_all, seek, stream_position and flush do what Write and Seek promise (with failures at any time), every session of Writer::new, calls, write_tree, finalize or finalize_and_flush, and every sequence of calls also after errors, has the results and leaves the content and cursor it has on a simple byte device with some failure schedule, so that the other properties hold for it. A BufWriter of any capacity over any device is such a destination. If all calls succeed through a BufWriter, finalize_and_flush included, then the device itself (not just the buffer) holds the complete document (and a written tree can be loaded from it); after finalize alone the end of the document may be only in the buffer, and may be lost silently when the BufWriter is dropped.", "quantifier": "all destinations meeting the contract; for BufWriter all capacities, devices, previous contents and failure schedules; all versions, calls, trees and footers", "why_tests_cant": "all destinations, buffer capacities and failure schedules", "anchors": ["src/writer/v7400/binary.rs (Writer::new, Writer::new_node, Writer::close_node, Writer::write_tree, Writer::finalize, Writer::finalize_and_flush)", "src/writer/v7400/binary/attributes.rs (AttributesWriter)"]}
{"id": "C94", "title": "A crash while writing through a BufWriter leaves what a crash without it leaves; closed nodes are safe; nothing unfinished is taken for a document", "statement": "The writer writes through a BufWriter of any capacity to a device that may fail at any operation, and the process may die at any moment (or the BufWriter be dropped). What is then on the device is what the same calls leave on a device without a buffer which fails at some operation. In particular: (a) once the calls for some nodes have succeeded, these nodes are on the device itself, without any explicit flush, and a client sees exactly them at the beginning of whatever is left after any later calls; (b) on a device whose failing writes store nothing, and if the file was empty and top-level nodes have names, no client is told that the document is complete and no tree is loaded before finalize is called; (c) if then a tree with a proper footer can be loaded, whether finalize succeeded or not, the complete document is on the device.", "quantifier": "all capacities, devices, failure schedules and crash points; all versions, calls, trees, footers, clients of the parser and loaders", "why_tests_cant": "every crash point and buffer capacity, with every document", "anchors": ["src/writer/v7400/binary.rs (Writer::new, Writer::new_node, Writer::close_node, Writer::write_tree, Writer::finalize, Writer::finalize_and_flush)", "src/pull_parser/v7400/parser.rs (Parser::next_event)", "src/tree/v7400/loader.rs (Loader::load)"]}
{"id": "C95", "title": "Any source that keeps the contract of Read and Seek is as good as the bytes it stands for, also through a BufReader", "statement": "The parser, the attribute loaders and the tree loader can be used with any type that implements Read and Seek. If it keeps their contract (a read returns the next bytes, at most as many as there is room for, nothing only at the end, and is not interrupted for ever; a relative seek moves the offset) then opening, every sequence of calls and loading a tree end, and give what they give for the bytes from the current offset on: the same events, values, warnings and errors with their positions, and the same tree. A file that splits its reads in any way keeps the contract. So does std's BufReader, of any capacity, on any source that keeps it: also where the parser seeks within or beyond what is buffered.", "quantifier": "all source types and states that keep the contract, all bytes, offsets, buffer capacities, read schedules; all call sequences and loaders that read strings and binaries to the end or not at all", "why_tests_cant": "every implementation of Read and Seek, every capacity and every way to split reads", "anchors": ["src/pull_parser/reader.rs (Reader, skip_distance_plain, skip_distance_seekable)", "src/pull_parser/v7400/parser.rs (Parser::next_event, skip_current_node)", "src/pull_parser/v7400/attribute.rs (Attributes::load_next)", "src/tree/any.rs (AnyTree::from_seekable_reader)"]}
{"id": "C96", "title": "A tree survives the way from one stream to another, whatever their types and buffers", "statement": "Loading a tree from a source of any type that keeps the contract of Read and Seek ends, with one result. If a tree was written with success to a destination of any type that keeps the contract of Write and Seek, then loading from any source that stands for what the destination contains gives a strictly equal tree, with the version written. If a tree was loaded from any source (seekable or not) and copied in that way to any destination, in any version, then the copy is strictly equal and is written anywhere with the same results and bytes as the first tree. A tree written through a BufWriter with finalize_and_flush is loaded from the file through a BufReader, whatever the two capacities.", "quantifier": "all trees, source and destination types that keep the contracts, versions, footers, buffer capacities, ways to split reads, failures while writing", "why_tests_cant": "every pair of stream types and every pair of capacities", "anchors": ["src/tree/any.rs (AnyTree::from_seekable_reader, from_reader)", "src/writer/v7400/binary.rs (Writer::write_tree, finalize, finalize_and_flush)", "src/tree/v7400.rs (Tree::strict_eq)"]}
{"id": "C97", "title": "A document written call by call to any stream is read call by call from any stream", "statement": "If a document was written with success by calls of new_node, appends, close_node and finalize to a destination of any type that keeps the contract of Write and Seek, then a client that opens with AnyParser any source that keeps the contract of Read and Seek and stands for what the destination contains, and then asks for each node for an event, all its attributes (load_next or load_next_buffered with DirectLoader), the children and the end, is told exactly the nodes, attribute counts and values that were written, in their order, then the end of the document; every call ends, and the parser has the version that was written. With non-empty names and a default footer the footer is Ok. In particular this holds from a BufWriter (with finalize_and_flush) to a BufReader, whatever the two capacities. If no array was compressed, it also holds for sources that cannot seek (from_reader).", "quantifier": "all forests, values, array encodings, source and destination types that keep the contracts, versions, footers, buffer capacities, ways to split and interrupt reads, failures while writing", "why_tests_cant": "every pair of stream types, every pair of capacities and every document", "anchors": ["src/pull_parser/any.rs (AnyParser::from_seekable_reader)", "src/pull_parser/v7400/parser.rs (Parser::next_event)", "src/pull_parser/v7400/attribute.rs (Attributes::load_next, load_next_buffered)", "src/writer/v7400/binary.rs (Writer::new, new_node, close_node, finalize, finalize_and_flush)"]}
{"id": "C98", "title": "A source that fails at any point never yields a wrong tree or wrong events", "statement": "On a source of which any read and any seek may fail with any error, and any later one succeed again, loading a tree ends. It returns what it returns for the bytes for which the source stands, or an error, or the same tree with an error in the place of the footer; so a tree that is returned is complete. A client that calls the parser gets the outcomes of the whole source up to a call during which the source fails; that call is an error (or EndFbx with an error for the footer), and unless it was skip_current_node all later calls but skip_current_node are refused with AlreadyAborted or AlreadyFinished. For loaders that report an error of an element, as DirectLoader does. The contract is kept by a BufReader of any capacity.", "quantifier": "all sources, points and numbers of failures, errors, ways to split and interrupt reads, buffer capacities, documents, sequences of calls", "why_tests_cant": "every point of failure of every source, alone or with others, in every sequence of calls", "anchors": ["src/pull_parser/any.rs (AnyParser)", "src/tree/any.rs (AnyTree)", "src/pull_parser/v7400/parser.rs (Parser::next_event)", "src/pull_parser/v7400/attribute.rs (Attributes::load_next, load_next_buffered)", "src/pull_parser/v7400/attribute/iter.rs", "src/tree/v7400/loader.rs"]}
{"id": "C99", "title": "From one stream to another, whatever fails: success on both sides means equality", "statement": "A tree is written to a destination of any type that keeps the contract of Write and Seek and may fail at any time. If all calls succeed, then loading from a source of any type that stands for what the destination contains, and of which any read and any seek may fail, ends with an error or with a strictly equal tree of the version that was written. The same holds for copying: a tree loaded from a source that may fail is the tree of the document in that source, and loading the copy gives an error or a strictly equal tree. A document written call by call and read call by call from such a source is told exactly (nodes, attribute counts, values, order, end), or opening is an error, or a beginning of it is told, then the error, and then only AlreadyAborted or AlreadyFinished.", "quantifier": "all destinations, sources, failures on either side, trees, forests, values, array encodings, versions and footers", "why_tests_cant": "every combination of points of failure on both sides, for every document", "anchors": ["src/tree/any.rs (AnyTree::from_seekable_reader)", "src/pull_parser/any.rs (AnyParser::from_seekable_reader)", "src/pull_parser/v7400/parser.rs (Parser::next_event)", "src/pull_parser/v7400/attribute.rs (Attributes::load_next, load_next_buffered)", "src/writer/v7400/binary.rs (Writer::new, new_node, close_node, write_tree, finalize)"]}
