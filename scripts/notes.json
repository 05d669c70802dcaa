{
 "C17": {
  "note": "the claim fails: witness session and parse; sink untouched by the failing call proved"
 },
 "C30": {
  "status": "partial",
  "note": "false in general (C30_plain_source_derails and C30_compressed_derails are counterexamples); proved for all histories in which no call has bytes to skip, and for files left by the writer read by clients that leave nothing unread"
 },
 "C37": {
  "note": "the code deviates: C37_differs is a witness, C37_hooks_unused shows the buffered hooks are never used by the iterators, C37_agree_partial is the agreement for loaders without such hooks"
 },
 "C38": {
  "status": "partial",
  "note": "lower bound proved; the upper bound is false (C38_upper_fails, C38_endless, C38_elements_endless) and proved for successful items; fused only with fused loaders (C38_not_fused)"
 },
 "C34": {
  "note": "a handler's error about a footer warning is wrapped in EndFbx(Err) and does not abort the parser (C34_footer_not_aborted); C34_objection covers both cases"
 },
 "C62": {
  "note": "C62_open_nameless and C62_torn_field are the witnesses of the two exceptions named in the statement"
 },
 "C23": {
  "note": "C23_root_attributes_lost is the witness for attributes of the root, which are not written"
 },
 "C24": {
  "note": "C24_no_panic names the only possible panics of any history; C24_overflow_panic is the witness of the exception for builds with overflow checks"
 },
 "C29": {
  "note": "the statement gives the exact condition for the panic; C29_skip_can_panic is a witness that it can be met"
 },
 "C43": {
  "note": "C43_insert_after_can_make_a_cycle and C43_new_sibling_of_root show why the calls must be legal"
 },
 "C44": {
  "note": "the code deviates from its documentation: insert_before is proved to insert after the sibling, in every state"
 },
 "C48": {
  "note": "C48_starved shows why a source that interrupts every read is excluded; reads inside libflate and raw reads of user loaders are outside"
 },
 "C54": {
  "note": "C54_reads_empty and C54_forged are witnesses of what the file looks like after a failed append"
 },
 "C56": {
  "note": "the positions of a plain source lag behind; C56_ends_too_late is a witness of the effect"
 },
 "C59": {
  "note": "C59_header_hides is the exception named in the statement; C59_any_tree is for sources that can seek everywhere, C59_any_source for all"
 },
 "C63": {
  "note": "C63_cursor_moved is the witness of the case named last in the statement"
 }
}