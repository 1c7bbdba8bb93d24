{
 "claims": [
  {
   "property": "C01",
   "status": "proved",
   "theorems": [
    "Goast.C01_lossless"
   ],
   "note": "C01_lossless: The concatenated texts of the nodes are the text."
  },
  {
   "property": "C02",
   "status": "proved",
   "theorems": [
    "Goast.C02_total"
   ],
   "note": "C02_total: Splitting never fails; the result is one complete finite chain, made of exactly the nodes that were added to the heap, and no earlier node is changed."
  },
  {
   "property": "C03",
   "status": "proved",
   "theorems": [
    "Goast.C03_deterministic"
   ],
   "note": "C03_deterministic: The order of map iteration does not matter."
  },
  {
   "property": "C04",
   "status": "proved",
   "theorems": [
    "Goast.C04_flat"
   ],
   "note": "C04_flat: The nodes are, in order, the pieces of the flat scanner: same texts, and the kind of each is `Comment` for a closed comment and what `kind.New` makes of the text otherwise."
  },
  {
   "property": "C05",
   "status": "proved",
   "theorems": [
    "Goast.C05_shape",
    "Goast.C05_nonempty"
   ],
   "note": "C05_shape: No node is empty; a node is one separator byte, or a word without separators and quotes, or begins like a comment or literal. | C05_nonempty: No node of the tokenised text is empty."
  },
  {
   "property": "C06",
   "status": "proved",
   "theorems": [
    "Goast.C06_lines",
    "Goast.C06_exact",
    "Goast.C06_bracket_behind_word",
    "Goast.C06_paren_line_stale"
   ],
   "note": "C06_lines: The line of a node is the number of newlines before it, except that the line of a `(` or `{` may be smaller and that the last node may have the line of the end of the text. | C06_exact: Every line, exactly: the specification is `lineList` of Spec/Lines. | C06_bracket_behind_word: A bracket directly behind a word, as in a call or a parameter list, has its own line. | C06_paren_line_stale: `(` in the third line: its node says line 0."
  },
  {
   "property": "C07",
   "status": "proved",
   "theorems": [
    "Goast.C07_kind",
    "Goast.C07_comment_kind"
   ],
   "note": "C07_kind: The kind of a node is `kind.New` of its text, or it is `Comment` and the text is a complete comment. | C07_comment_kind: A node that begins like a comment is one, unless it is the last node."
  },
  {
   "property": "C08",
   "status": "proved",
   "theorems": [
    "Goast.C08_line_comment",
    "Goast.C08_block_comment",
    "Goast.C08_string",
    "Goast.C08_raw_string",
    "Goast.C08_rune_quote",
    "Goast.C08_escaped_backslash",
    "Goast.C08_overlap",
    "Goast.C08_unterminated"
   ],
   "note": "C08_line_comment: Where the nodes before it end, a line comment is one node of kind `Comment`, up to the end of the line and without the line feed. | C08_block_comment: The comment ends at the first `*/` that ends behind the byte after the opening slash: `body` and the `*` around it hold no `*/`. | C08_string: A string literal in which every `\"` is escaped and which does not end in a backslash. | C08_raw_string: Where the nodes before it end, a raw string literal is one node of kind `String`, quotes included, whatever lies between them. | C08_rune_quote: Known trap: rune literals are not known, so the quote in `'\"'` opens a string. | C08_escaped_backslash: Known trap: a string that ends with an escaped backslash is not closed (`hb` in `C08_string`). | C08_overlap: Known trap: `/*/` is taken for a whole comment (`hb` in `C08_block_comment`). | C08_unterminated: Known trap: a line comment that ends the text without a line break does not get the kind of a comment."
  },
  {
   "property": "C09",
   "status": "proved",
   "theorems": [
    "Goast.C09_total",
    "Goast.C09_deterministic"
   ],
   "note": "C09_total: `ParseScope` terminates without panic (the model's error value is always nil, see DESIGN.md). | C09_deterministic: It is deterministic: Go's map iteration order does not matter."
  },
  {
   "property": "C10",
   "status": "proved",
   "theorems": [
    "Goast.C10_partition"
   ],
   "note": "C10_partition: The nodes `l` of the text are divided, in order, into those before the first scope (`lead`) and the nodes `gs` of the scopes: no node is lost or shared, so the texts of the scopes, in order, are the text behind `lead`."
  },
  {
   "property": "C11",
   "status": "proved",
   "theorems": [
    "Goast.C11_heads"
   ],
   "note": "C11_heads: The kind of a scope is the one whose keyword the text of its first node begins with, and `Line()` is one more than the line of that node (in the state `ParseScope` returns)."
  },
  {
   "property": "C12",
   "status": "proved",
   "theorems": [
    "Goast.C12_separate"
   ],
   "note": "C12_separate: The scopes are pairwise disjoint complete chains of fresh nodes; all links are consistent, every chain is finite, and every node that existed before is as it was."
  },
  {
   "property": "C13",
   "status": "proved",
   "theorems": [
    "Goast.C13_where",
    "Goast.C13_first_line",
    "Goast.C13_identifier_opens",
    "Goast.C13_stale_line",
    "Goast.C13_start_line",
    "Goast.C13_start_low",
    "Goast.C13_start_one",
    "Goast.C13_start_one_other"
   ],
   "note": "C13_where: `l` being the nodes of the text in order, a scope begins exactly at each node whose line differs from the line of the node before it (for the first node: from `startLine - 1`) and whose text begins with one of the eight keywords; scopes come in the order of the text. | C13_first_line: With start line 0 a text is split as expected; with start line 1 the first line is dropped. | C13_identifier_opens: An identifier that merely begins with a keyword opens a scope. | C13_stale_line: Because the line of a '(' node can be stale (C06), a `func` literal behind a parenthesis that opens a line is taken for a scope of its own. | C13_start_line: The start line has no influence on what `ParseScope` returns, unless it is 1: for a text that does not begin with a block comment all start lines other than 1 give scopes of the same kinds and lines with the same nodes and names. | C13_start_low: Start lines up to 0 (`ParseAst` uses 0) all give the same, whatever the text begins with. | C13_start_one: Start line 1 and a text that begins with a scope word (and not with a block comment): `ParseScope` returns what it returns for start line 0 without the first scope. | C13_start_one_other: And if the text does not begin with a scope word, start line 1 is like all others."
  },
  {
   "property": "C14",
   "status": "proved",
   "theorems": [
    "Goast.C14_scope",
    "Goast.C14_text",
    "Goast.C14_identical",
    "Goast.C14_plain"
   ],
   "note": "C14_scope: scope by scope. | C14_text: the whole text. | C14_identical: byte for byte. | C14_plain: on plain text: a text without comments, and without the keyword `type` or without `(`, comes out byte for byte, from the first scope on."
  },
  {
   "property": "C15",
   "status": "proved",
   "theorems": [
    "Goast.C15_comment_lost",
    "Goast.C15_duplicated",
    "Goast.C15_not_preserved"
   ],
   "note": "C15_comment_lost: A comment can disappear. | C15_duplicated: Text can be duplicated. | C15_not_preserved: So parsing does not keep the text of every scope."
  },
  {
   "property": "C16",
   "status": "proved",
   "theorems": [
    "Goast.C16_resetKind_total"
   ],
   "note": "C16_resetKind_total: `resetKind` terminates without panic on every heap whose links are consistent and acyclic, whatever the texts, kinds and lines, and for every node (or nil)."
  },
  {
   "property": "C17",
   "status": "proved",
   "theorems": [
    "Goast.C17_resetKind_local",
    "Goast.C17_resetKind_other"
   ],
   "note": "C17_resetKind_local: `resetKind` on a node of the chain `l` keeps the links of the whole heap consistent and acyclic, allocates nothing, changes nothing about any node that is not in `l`, changes no line number, and never links a node of `l` to a node outside `l`. | C17_resetKind_other: A node whose kind is neither `Func` nor `Type` is left alone, with all of the heap."
  },
  {
   "property": "C18",
   "status": "proved",
   "theorems": [
    "Goast.C18_resetKind_relabels"
   ],
   "note": "C18_resetKind_relabels: `resetKind` makes no node a comment and no comment something else, and every kind it changes becomes one of the six kinds of names and types."
  },
  {
   "property": "C19",
   "status": "proved",
   "theorems": [
    "Goast.C19_func_name",
    "Goast.C19_other"
   ],
   "note": "C19_func_name: A scope whose text is `func NAME` followed by a separator (space, bracket, comma, colon, semicolon, tab or line end) and anything: `GetFuncName` returns NAME. | C19_other: On a scope that is no func scope it returns `(\"\", false)`."
  },
  {
   "property": "C20",
   "status": "proved",
   "theorems": [
    "Goast.C20_named",
    "Goast.C20_single",
    "Goast.C20_no_receiver",
    "Goast.C20_other",
    "Goast.C20_called_at_once"
   ],
   "note": "C20_named: A scope whose text is `func (r T) NAME` followed by a separator and anything that is not a call of the function on the spot: `GetMethodReceiver` returns T, `GetMethodName` and `GetFuncName` return NAME. | C20_single: A scope whose text is `func (T) NAME` followed by a separator and anything that is not a call of the function on the spot: `GetMethodReceiver` returns T, `GetMethodName` and `GetFuncName` return NAME. | C20_no_receiver: `GetMethodName` reports false whenever `GetMethodReceiver` does. | C20_other: On a scope that is no func scope both return `(\"\", false)`. | C20_called_at_once: The condition of C20 is needed: a literal called on the spot is not taken for a method."
  },
  {
   "property": "C21",
   "status": "proved",
   "theorems": [
    "Goast.C21_type_name",
    "Goast.C21_other"
   ],
   "note": "C21_type_name: A scope whose text is `type NAME` followed by a separator and anything: `GetTypeName` returns NAME. | C21_other: On a scope that is no type scope it returns `(\"\", false)`."
  },
  {
   "property": "C22",
   "status": "proved",
   "theorems": [
    "Goast.C22_struct",
    "Goast.C22_interface",
    "Goast.C22_other",
    "Goast.C22_both",
    "Goast.C22_last_text"
   ],
   "note": "C22_struct: `GetStructName` of a type scope with the nodes `l` reports true exactly when some node, wherever it is, has kind `Struct`; the name is the one `GetTypeName` returns. | C22_interface: The same for `GetInterfaceName` and kind `Interface`. | C22_other: On a scope of another kind every getter of type names returns `(\"\", false)`. | C22_both: A struct with an interface-typed field is reported as a struct and as an interface. | C22_last_text: When there is no name the getter returns the text of the last node, with false."
  },
  {
   "property": "C23",
   "status": "proved",
   "theorems": [
    "Goast.C23_links_consistent",
    "Goast.C23_links_preserved"
   ],
   "note": "C23_links_consistent: Whatever sequence of calls a client makes, starting with no nodes at all, `Next` and `Prev` are inverse to each other and no node is its own neighbour. | C23_links_preserved: The same from any consistent heap, for any restriction on the calls."
  },
  {
   "property": "C24",
   "status": "proved",
   "theorems": [
    "Goast.C24_insertNext",
    "Goast.C24_insertNext_noop",
    "Goast.C24_insertNext_chains",
    "Goast.C24_insertNext_from_behind",
    "Goast.C24_insertNext_from_before",
    "Goast.C24_insertNext_frame"
   ],
   "note": "C24_insertNext: For every consistent heap and all nodes `n`, `m` (nil included): `m` sits between `n` and `n`'s old successor, `m`'s old neighbours lose it, and nothing else changes. | C24_insertNext_noop: Inserting a node that is already there (or the receiver itself) does nothing. | C24_insertNext_chains: From another chain. | C24_insertNext_from_behind: From behind `n` in the same chain: `m` moves forward, what was behind `m` is cut off. | C24_insertNext_from_before: From before `n` in the same chain: `m` moves back, what was before `m` is cut off. | C24_insertNext_frame: Every other chain stays."
  },
  {
   "property": "C25",
   "status": "proved",
   "theorems": [
    "Goast.C25_insertPrev",
    "Goast.C25_insertPrev_noop",
    "Goast.C25_insertPrev_chains",
    "Goast.C25_insertPrev_from_behind",
    "Goast.C25_insertPrev_from_before",
    "Goast.C25_insertPrev_frame"
   ],
   "note": "C25_insertPrev: Mirror image of `C24_insertNext`. | C25_insertPrev_noop: Inserting a node that is already there (or the receiver itself) does nothing. | C25_insertPrev_chains: From another chain. | C25_insertPrev_from_behind: From behind `n` in the same chain: what was behind `m` is cut off. | C25_insertPrev_from_before: From before `n` in the same chain (not its neighbour): what was before `m` is cut off. | C25_insertPrev_frame: Every other chain stays."
  },
  {
   "property": "C26",
   "status": "proved",
   "theorems": [
    "Goast.C26_replaceNext",
    "Goast.C26_replaceNext_noop",
    "Goast.C26_replaceNext_chains",
    "Goast.C26_replaceNext_skip",
    "Goast.C26_replacePrev",
    "Goast.C26_replacePrev_noop",
    "Goast.C26_replacePrev_chains",
    "Goast.C26_replacePrev_skip"
   ],
   "note": "C26_replaceNext: For every consistent heap and all nodes: `m` follows `n`; `n`'s old successor and `m`'s old predecessor (returned) lose their link; nothing else changes. | C26_replaceNext_noop: Replacing by what is already there (or by the receiver itself) does nothing. | C26_replaceNext_chains: Between two chains: tails are exchanged. | C26_replaceNext_skip: Forward in the same chain: the nodes in between are cut out, as a chain of their own. | C26_replacePrev: Mirror image of `C26_replaceNext`. | C26_replacePrev_noop: Replacing by what is already there (or by the receiver itself) does nothing. | C26_replacePrev_chains: Between two chains: fronts are exchanged. | C26_replacePrev_skip: Backward in the same chain: the nodes in between are cut out, as a chain of their own."
  },
  {
   "property": "C27",
   "status": "proved",
   "theorems": [
    "Goast.C27_takeNext_chain",
    "Goast.C27_takeNext_none",
    "Goast.C27_takePrev_chain",
    "Goast.C27_takePrev_none"
   ],
   "note": "C27_takeNext_chain: In a chain, `TakeNext` returns the successor, isolated, and closes the gap. | C27_takeNext_none: `TakeNext` of the last node (or of nil) returns nil and changes nothing. | C27_takePrev_chain: In a chain, `TakePrev` returns the predecessor, isolated, and closes the gap. | C27_takePrev_none: `TakePrev` of the first node (or of nil) returns nil and changes nothing."
  },
  {
   "property": "C28",
   "status": "proved",
   "theorems": [
    "Goast.C28_removeNext_chain",
    "Goast.C28_removePrev_chain",
    "Goast.C28_remove_edges"
   ],
   "note": "C28_removeNext_chain: In a chain, `RemoveNext` cuts behind `n` and returns the head of the tail; both parts are chains. | C28_removePrev_chain: In a chain, `RemovePrev` cuts before `n` and returns the last node of the front; both parts are chains. | C28_remove_edges: Edge-level statement, for every node (nil included)."
  },
  {
   "property": "C29",
   "status": "proved",
   "theorems": [
    "Goast.C29_isolate",
    "Goast.C29_isolate_chain"
   ],
   "note": "C29_isolate: For every node: only the links to and from `n` disappear. | C29_isolate_chain: A chain falls into its front, the node, and its tail."
  },
  {
   "property": "C30",
   "status": "proved",
   "theorems": [
    "Goast.C30_combineNext",
    "Goast.C30_combinePrev",
    "Goast.C30_combineNext_nil",
    "Goast.C30_combinePrev_nil",
    "Goast.C30_panics_iff"
   ],
   "note": "C30_combineNext: `CombineNext` on a node `a`: its kind becomes `k`, its text is followed by the texts of the incoming nodes in order, those nodes are isolated. | C30_combinePrev: `CombinePrev` on a node `a`: as `CombineNext`, texts in reverse order in front. | C30_combineNext_nil: On a nil receiver the first argument takes its place, keeping its kind. | C30_combinePrev_nil: The same for `CombinePrev`. | C30_panics_iff: The only panic: receiver and first argument both nil."
  },
  {
   "property": "C31",
   "status": "proved",
   "theorems": [
    "Goast.C31_copy_chain",
    "Goast.C31_copy_terminates_iff",
    "Goast.C31_copy_single",
    "Goast.C31_ring"
   ],
   "note": "C31_copy_chain: `Copy(true)` of a node of a finite chain: a chain of fresh nodes with the same data in the same order, at the same position; every old node is as it was. | C31_copy_terminates_iff: `Copy(true)` returns exactly when the node lies on a finite chain. | C31_copy_single: `Copy()`: one fresh unlinked node with the same data; nothing else changes. | C31_ring: `Copy(true)` of a node on a ring never returns: the recursion has no bottom (the program dies of stack overflow)."
  },
  {
   "property": "C32",
   "status": "proved",
   "theorems": [
    "Goast.C32_iterNext",
    "Goast.C32_iterPrev",
    "Goast.C32_iterNext_all",
    "Goast.C32_iterNext_returns",
    "Goast.C32_first_last",
    "Goast.C32_ring",
    "Goast.C32_returns_iff"
   ],
   "note": "C32_iterNext: `IterNext` on a chain that is finite from `p` on, with any callback: the callback sees exactly the nodes of the chain in order until it returns false; the result is the node it stopped at, or nil. | C32_iterPrev: The same for `IterPrev`. | C32_iterNext_all: A callback that never stops sees every node exactly once, in order, and `IterNext` returns nil. | C32_iterNext_returns: If iteration with a callback that never stops returns at all, the chain was finite. | C32_first_last: `First` and `Last` return the two ends of the chain. | C32_ring: On a ring no walk ends, however long one waits (`F` is the number of rounds): not `IterNext` with a callback that never stops, whatever it computes, and not `Last`. | C32_returns_iff: When `IterNext` returns, for a callback that stops at the nodes with a certain property: exactly if the chain ends or a node with the property can be reached."
  },
  {
   "property": "C33",
   "status": "proved",
   "theorems": [
    "Goast.C33_newNodes",
    "Goast.C33_newNodes_empty"
   ],
   "note": "C33_newNodes: `NewNodes(L, t, ts...)`: a chain of fresh nodes, one per text, in order, with the kind of their text. | C33_newNodes_empty: No texts: nil."
  },
  {
   "property": "C34",
   "status": "proved",
   "theorems": [
    "Goast.C34_nil",
    "Goast.C34_nil_receiver",
    "Goast.C34_nil_argument"
   ],
   "note": "C34_nil: Observers, setters and one-argument operations on nil. | C34_nil_receiver: Link operations on a nil receiver: `Insert` isolates the argument, `ReplaceNext` cuts it from what precedes it, `ReplacePrev` from what follows it; the data of all nodes and all other links stay. | C34_nil_argument: A nil argument to `Insert`/`Replace` cuts the receiver's link on that side."
  },
  {
   "property": "C35",
   "status": "proved",
   "theorems": [
    "Goast.C35_acyclic",
    "Goast.C35_acyclic_preserved",
    "Goast.C35_replaceNext_cycle_iff",
    "Goast.C35_replaceNext_nil",
    "Goast.C35_replacePrev_cycle_iff",
    "Goast.C35_cycle_exists",
    "Goast.C35_chain_or_ring",
    "Goast.C35_not_both"
   ],
   "note": "C35_acyclic: Any history without `Replace*` keeps every chain finite, in both directions. | C35_acyclic_preserved: The same from any consistent heap without cycles. | C35_replaceNext_cycle_iff: `n.ReplaceNext(m)` in a heap without cycles: a cycle is closed exactly when `n` is reachable from `m`. | C35_replaceNext_nil: With a nil argument or receiver no cycle can arise. | C35_replacePrev_cycle_iff: `n.ReplacePrev(m)`: a cycle is closed exactly when `m` is reachable from `n`. | C35_cycle_exists: A cycle is really reachable: after `c.ReplaceNext(a)` on the chain a, b, c, iteration from `a` never ends. | C35_chain_or_ring: Whatever was done with `Replace*`: a node lies on a finite chain, or on a ring, where `Next` leads from the node back to it. | C35_not_both: And never both."
  },
  {
   "property": "C36",
   "status": "proved",
   "theorems": [
    "Goast.C36_no_package",
    "Goast.C36_package_name",
    "Goast.C36_parsed_name"
   ],
   "note": "C36_no_package: `NewAst` and `Package` fail, with `ErrNoPackage`, exactly when no scope has kind `Package`. | C36_package_name: With a package scope (`sc` the first, `l` its nodes) `NewAst` keeps the scopes, and `Package` returns the text of the first `Raw` node behind the first package keyword of `sc` (the empty string if there is none). | C36_parsed_name: In a file that begins `package NAME` the package scope is found and its name is NAME."
  },
  {
   "property": "C37",
   "status": "proved",
   "theorems": [
    "Goast.C37_save_writes_scopes",
    "Goast.C37_save_empty",
    "Goast.C37_save_ok"
   ],
   "note": "C37_save_writes_scopes: For all environments: `Save` hands exactly the concatenated node texts of all scopes, in order, to `SaveFile`. | C37_save_empty: Empty data: an error, nothing touched. | C37_save_ok: For all environments: `SaveFile` returns nil exactly when there was data and every OS call succeeded; then the `.go` file holds the output and every other file is as before."
  },
  {
   "property": "C38",
   "status": "proved",
   "theorems": [
    "Goast.C38_early_failure",
    "Goast.C38_other_files",
    "Goast.C38_failed_write",
    "Goast.C38_old_content_lost"
   ],
   "note": "C38_early_failure: Failures before the file is created leave the file system as it was. | C38_other_files: Whatever happens, no other file ever changes. | C38_failed_write: A failing write leaves a prefix of the new content, whatever the old content was. | C38_old_content_lost: \"A failed `Save` keeps the old file\" is false: the old content is gone."
  },
  {
   "property": "C39",
   "status": "proved",
   "theorems": [
    "Goast.C39_not_exist",
    "Goast.C39_read_errors",
    "Goast.C39_parsed"
   ],
   "note": "C39_not_exist: `ParseAst` returns `ErrNotExist` exactly when the file does not exist (`.go` added to its name if missing) and that is what the operating system says (it may also refuse for another reason, such as permissions). | C39_read_errors: Other errors of reading and formatting are passed on. | C39_parsed: Otherwise, `data` being the formatted contents, and `scs` the scopes of `ParseScope(0, data)`: `ErrNoPackage` exactly when none of them is a package clause; else an `Ast` with the given path, the path fields of package `filepath` and these scopes, in a slice of its own."
  },
  {
   "property": "C40",
   "status": "proved",
   "theorems": [
    "Goast.C40_copy",
    "Goast.C40_independent",
    "Goast.C40_snapshot"
   ],
   "note": "C40_copy: `Copy` of an `Ast` whose scopes have the nodes `lss`: the same path fields, the same lines and kinds of scopes, nodes with the same data in the same order, all of them fresh and none of them in two places; the original, its nodes and its array are as they were. | C40_independent: No later sequence of node calls on nodes other than those that existed before `Copy` (the copy, and whatever nodes are made later) changes anything about the nodes that existed before; and no sequence of calls on nodes other than the copies changes anything about the copies. | C40_snapshot: A copy is a snapshot."
  },
  {
   "property": "C41",
   "status": "proved",
   "theorems": [
    "Goast.C41_setScope",
    "Goast.C41_appendScope",
    "Goast.C41_append_isolated",
    "Goast.C41_append_overwrites"
   ],
   "note": "C41_setScope: `SetScope` returns an `Ast` with the given scopes and the receiver's path fields; being a function of the receiver, it leaves it as it was. | C41_appendScope: `AppendScope` appends exactly the given scopes, in order, whatever the slice and whatever capacity Go chooses for a new array; path fields and nodes stay, and the new slice is again well-formed. | C41_append_isolated: `AppendScope` on one `Ast` is not seen through a slice `t` of another array, nor through one that ends where the appended part begins or earlier. | C41_append_overwrites: Whenever a slice has spare capacity, two `Ast`s on it overwrite each other's appended scope: after `a.AppendScope(x)` and `b.AppendScope(y)` the first `Ast` ends in `y`."
  },
  {
   "property": "C42",
   "status": "proved",
   "theorems": [
    "Goast.C42_iterScope",
    "Goast.C42_iterScope_visited"
   ],
   "note": "C42_iterScope: `IterScope` calls the callback on the scopes in order, and stops after the first call that returned false. | C42_iterScope_visited: With a callback deciding by `p`: the scopes up to and including the first on which `p` is false."
  },
  {
   "property": "C43",
   "status": "proved",
   "theorems": [
    "Goast.C43_kind_new",
    "Goast.C43_table_deterministic",
    "Goast.C43_never",
    "Goast.C43_ident_raw",
    "Goast.C43_blank_is_symbol"
   ],
   "note": "C43_kind_new: `kind.New` gives every string the kind of the decision table. | C43_table_deterministic: The decision table leaves no choice: it is a function of the text. | C43_never: `kind.New` never returns one of the kinds only the resetters assign, and never `Comment`, `Pointer`, `Address`, `Method`, `TypeAliasType` or a user-made kind. | C43_ident_raw: A declarable identifier is `Raw`. | C43_blank_is_symbol: Underscores alone are an operator symbol for `kind.New`, not an identifier."
  },
  {
   "property": "C44",
   "status": "proved",
   "theorems": [
    "Goast.C44_getClose_pairs",
    "Goast.C44_getClose_involutive",
    "Goast.C44_getClose_other"
   ],
   "note": "C44_getClose_pairs: `GetClose` finds the counterpart of a bracket in either direction. | C44_getClose_involutive: It is an involution on brackets. | C44_getClose_other: Everything else is refused."
  },
  {
   "property": "C45",
   "status": "proved",
   "theorems": [
    "Goast.C45_keywords_prefix_free",
    "Goast.C45_newScopeKind_some",
    "Goast.C45_newScopeKind_unknown",
    "Goast.C45_toKind",
    "Goast.C45_string_injective"
   ],
   "note": "C45_keywords_prefix_free: No scope keyword begins another one. | C45_newScopeKind_some: `newScopeKind` finds the scope kind whose keyword the text begins with. | C45_newScopeKind_unknown: It is `Unknown` exactly when the text begins with none of the eight keywords. | C45_toKind: `ToKind` is the kind `kind.New` gives to the keyword (a comment marker: `Comment`). | C45_string_injective: `String` tells the nine declared scope kinds apart."
  },
  {
   "property": "C46",
   "status": "proved",
   "theorems": [
    "Goast.C46_hasSuffix_exact",
    "Goast.C46_hasPrefix_exact_of_ascii",
    "Goast.C46_hasPrefix_complete",
    "Goast.C46_hasPrefix_inexact",
    "Goast.C46_hasPrefix_runes",
    "Goast.C46_first_bytes",
    "Goast.C46_utf8"
   ],
   "note": "C46_hasSuffix_exact: `HasSuffix` is exact for every byte slice and every suffix. | C46_hasPrefix_exact_of_ascii: `HasPrefix` is exact for every ASCII prefix. | C46_hasPrefix_complete: `HasPrefix` never misses a real prefix, whatever its bytes. | C46_hasPrefix_inexact: Exactness fails for multi-byte prefixes: only the first byte of each rune is compared. | C46_hasPrefix_runes: What `HasPrefix` decides, for every prefix: the string is long enough and agrees with the prefix at the first byte of every rune of the prefix. | C46_first_bytes: The bytes a Go loop `for i := range s` meets at its positions are the first bytes of the runes. | C46_utf8: In a UTF-8 text these are the first bytes of the characters."
  },
  {
   "property": "C47",
   "status": "proved",
   "theorems": [
    "Goast.C47_tidyText_eq",
    "Goast.C47_tidyText_no_control",
    "Goast.C47_tidyText_spaces",
    "Goast.C47_tidyText_id"
   ],
   "note": "C47_tidyText_eq: `TidyText` rewrites byte by byte, for every text. | C47_tidyText_no_control: The output never contains a newline, carriage return or tab. | C47_tidyText_spaces: Every space of the output belongs to the arrow of a tab: there are exactly two per tab. | C47_tidyText_id: Text without blanks is unchanged."
  },
  {
   "property": "C48",
   "status": "proved",
   "theorems": [
    "Goast.C48_appendUnrepeatable"
   ],
   "note": "C48_appendUnrepeatable: The first element is dropped exactly when it repeats the current last element."
  },
  {
   "property": "C49",
   "status": "proved",
   "theorems": [
    "Goast.C49_new",
    "Goast.C49_newSlice",
    "Goast.C49_nil"
   ],
   "note": "C49_new: `New(l...)` contains exactly the members of `l`. | C49_newSlice: `NewSlice(ls...)` contains exactly the members of the union. | C49_nil: The nil set contains nothing."
  },
  {
   "property": "C50",
   "status": "proved",
   "theorems": [
    "Goast.Trie.C50_findText_addText",
    "Goast.Trie.C50_byte_lookups",
    "Goast.Trie.C50_find_added",
    "Goast.Trie.C50_lookups_agree",
    "Goast.Trie.C50_lookup_history",
    "Goast.Trie.C50_multibyte_collision"
   ],
   "note": "C50_findText_addText: `FindText` after `AddText`, completely: the added key is found with its value; a key whose path is a non-empty proper prefix of the added one is found with the zero value; every other key is found or not found as before. | C50_byte_lookups: What the three lookups by byte give after `AddText`, for every key and every query: the path of the key are the first bytes of its runes, the path of the query are all its bytes, forwards or backwards. | C50_find_added: The key just added is found. | C50_lookups_agree: For ASCII text the four lookups agree: by text, by bytes, and the reverse lookups of the reversed text. | C50_lookup_history: The history of a trie decides every lookup: the last added key that has the looked-up path as a prefix gives its value (if it is that path) or the zero value (if it is longer); a non-empty path that is a prefix of no added key is not found. | C50_multibyte_collision: Keys that differ only inside a rune collide, and a lookup by bytes misses what a lookup by text finds."
  },
  {
   "property": "C51",
   "status": "proved",
   "theorems": [
    "Goast.Trie.C51_order_independent",
    "Goast.Trie.C51_order_dependent"
   ],
   "note": "C51_order_independent: `newTrie` does not depend on the order in which the map is iterated, when the paths of its keys are distinct and none is a (non-empty) proper prefix of another: every lookup gives the same answer. | C51_order_dependent: Otherwise the result can depend on the order: with \"go\" and \"gofmt\", the value of \"go\" survives only if \"gofmt\" happens to be inserted first."
  },
  {
   "property": "C52",
   "status": "proved",
   "theorems": [
    "Goast.C52_decimal",
    "Goast.C52_title",
    "Goast.C52_title_unknown",
    "Goast.C52_names",
    "Goast.C52_node",
    "Goast.C52_node_one_line",
    "Goast.C52_scope",
    "Goast.C52_ast",
    "Goast.C52_print",
    "Goast.C52_debugText"
   ],
   "note": "C52_decimal: the number printed is the decimal numeral of the value: digits only, no leading zero, value right; a minus sign exactly for negative numbers. | C52_title: The title in a scope's description is that of the keyword the text begins with. | C52_title_unknown: Any other text: `Unknown`. | C52_names: The names in the descriptions of nodes: of the words with kinds of their own, of the classes of all other words, and of the labels. | C52_node: `Description` of a node: its line plus one, its tidied text and the name of its kind, separated by ` .... | C52_node_one_line: A node's description is one line of output whatever its text, as long as the name of its kind has no newline (a kind made by `NewKind` from a multi-line text can have one). | C52_scope: `Description` of a scope made by the scope splitter or by `NewScope(n.Line(), …)`: one more than the line shown for its first node. | C52_ast: `Description` of an `Ast` returns whenever its chains are finite; it is the descriptions of each scope and of its nodes, in order, with nothing between them. | C52_print: `Print` of a node writes a tab, a blank, its description and a newline: one line of output, as long as the name of its kind has no newline. | C52_debugText: `debugText(k)`, which every resetter evaluates on entry, returns on every finite chain and has no effect: it is the tidied texts of the node and of at most `k` nodes behind it."
  },
  {
   "property": "C53",
   "status": "proved",
   "theorems": [
    "Goast.C53_skip_group"
   ],
   "note": "C53_skip_group: From an opener with the nodes `l` behind it, skipping the group stops at the node that closes it, and reports nil exactly when no node closes it; the heap is unchanged."
  },
  {
   "property": "C54",
   "status": "proved",
   "theorems": [
    "Goast.C54_roundtrip",
    "Goast.C54_plain"
   ],
   "note": "C54_roundtrip: Parse and save. | C54_plain: A formatted file without comments that begins `package NAME` and holds no keyword `type` or no `(`: parsing it and saving it under the same name leaves all files as they were."
  },
  {
   "property": "C55",
   "status": "proved",
   "theorems": [
    "Goast.C55_func",
    "Goast.C55_func_front",
    "Goast.C55_method",
    "Goast.C55_method_front",
    "Goast.C55_named_params",
    "Goast.C55_func_results",
    "Goast.C55_unnamed_func",
    "Goast.C55_grouped",
    "Goast.C55_unnamed_slice"
   ],
   "note": "C55_func: The nodes of a function declaration after `ParseScope`: `func`, a space, the name, and then the signature with its labels, as the specification `Sig` reads it; what follows the end of the declaration is unchanged. | C55_func_front: A beginning of a declaration is labelled alike whatever follows it. | C55_method: The nodes of a method declaration after `ParseScope`: the receiver is labelled too. | C55_method_front: A beginning of a method declaration is labelled alike whatever follows it. | C55_named_params: In a scope `func NAME(a T, b U, …)` followed by anything, every parameter name becomes a node of kind `ParamName` and every parameter type (here: one word) a node of kind `ParamType`. | C55_func_results: Quirk: results in parentheses of a function-typed parameter end the parameter list. | C55_unnamed_func: Quirk: the result of an unnamed function-typed parameter is labelled as a name. | C55_grouped: Quirk: in `func f(a, b T)` the name `a` is labelled as a type. | C55_unnamed_slice: Quirk: in `func f([]T)` the type is labelled as a name."
  },
  {
   "property": "C56",
   "status": "proved",
   "theorems": [
    "Goast.C56_struct",
    "Goast.C56_fields",
    "Goast.C56_embedded_tag"
   ],
   "note": "C56_struct: The fields of a struct declaration after `ParseScope`, whatever follows its closing bracket. | C56_fields: In a scope `type NAME struct {`, lines of fields, `}` and anything behind it, every field name becomes a node of kind `ParamName` and every field type or embedded type (here: one word) a node of kind `ParamType`; in a field of function type the parameter names become `ParamName`, the parameter types and the results `ParamType`. | C56_embedded_tag: Quirk: an embedded type with a tag is labelled as a field name."
  },
  {
   "property": "C57",
   "status": "proved",
   "theorems": [
    "Goast.C57_interface",
    "Goast.C57_members",
    "Goast.C57_one_line"
   ],
   "note": "C57_interface: The methods of an interface declaration after `ParseScope`, whatever follows its closing bracket. | C57_members: In a scope `type NAME interface {`, lines of methods and embedded interfaces, `}` and anything behind it, every method name becomes a node of kind `FuncName`, parameters and results are labelled as in a function declaration and every embedded name becomes a node of kind `TypeName`. | C57_one_line: Quirk: in an interface on one line the closing bracket is labelled as a result type."
  },
  {
   "property": "C58",
   "status": "proved",
   "theorems": [
    "Goast.C58_type",
    "Goast.C58_type_front",
    "Goast.C58_word",
    "Goast.C58_alias",
    "Goast.C58_func_type",
    "Goast.C58_comment",
    "Goast.C58_group"
   ],
   "note": "C58_type: The nodes of a type declaration after `ParseScope`: `type`, a space, the name, type parameters and a space, and then the definition with its labels, as the specification `Def` reads it. | C58_type_front: A beginning of a type declaration is labelled alike whatever follows it. | C58_word: `type NAME T` at the end of a line: the name is a `TypeName`, the type a `ParamType`, whatever follows the line. | C58_alias: `type NAME = T` at the end of a line is labelled alike. | C58_func_type: Quirk: the result of a function type is labelled as the name of a function. | C58_comment: Quirk: a comment behind the type puts the space in front of it into the node of the type. | C58_group: Quirk: a group of type declarations gets no labels at all."
  },
  {
   "property": "C59",
   "status": "proved",
   "theorems": [
    "Goast.C59_parse",
    "Goast.C59_view",
    "Goast.C59_history",
    "Goast.C59_reparse",
    "Goast.C59_ast"
   ],
   "note": "C59_parse: `ParseScope` never looks at or changes what was there before it: in any state `o` of the program's nodes (also one with cycles or broken links), and in whatever order Go iterates over its map, it returns, all earlier nodes stay as they are, and the new nodes and scopes are those of a parse in the empty state, at other addresses. | C59_view: What the API shows of the result is a function of the start line and the text: two parses, in any two states and with any two map orders, show the same; and every call returns. | C59_history: Parses do not disturb each other. | C59_reparse: Parsing what was printed. | C59_ast: `ParseAst` depends on the file's contents only: on two file systems with the same contents at the path, in any two states, it returns the same error, or two `Ast`s with the same paths and the same scopes as the API shows them."
  },
  {
   "property": "C60",
   "status": "proved",
   "theorems": [
    "Goast.C60_concat",
    "Goast.C60_replace",
    "Goast.C60_file",
    "Goast.C60_bracket_first",
    "Goast.C60_same_line"
   ],
   "note": "C60_concat: Let `a` be a text of whole lines with all its brackets closed, and let `b` begin with the first word of a declaration. | C60_replace: Replacing a declaration (or several) by another changes nothing else: the scopes before it (`P`) stay, and those behind it (`Q`) stay up to their lines. | C60_file: A file of any number of declarations: its scopes are those of the declarations, each parsed alone, with the lines of the file. | C60_bracket_first: A bracket without a word before it reports the line of the last word of the text before: here line 0, not 1. | C60_same_line: A declaration on the same line as the one before is not a scope of its own."
  },
  {
   "property": "C61",
   "status": "proved",
   "theorems": [
    "Goast.C61_setText",
    "Goast.C61_setKind",
    "Goast.C61_insertNext",
    "Goast.C61_insertPrev",
    "Goast.C61_insertPrev_first",
    "Goast.C61_takeNext",
    "Goast.C61_takePrev",
    "Goast.C61_takePrev_first",
    "Goast.C61_removeNext",
    "Goast.C61_removePrev",
    "Goast.C61_isolate",
    "Goast.C61_replaceNext",
    "Goast.C61_combineNext",
    "Goast.C61_combineNext_following",
    "Goast.C61_copy",
    "Goast.C61_appendScope",
    "Goast.C61_parsed",
    "Goast.C61_parse_edit_save",
    "Goast.C61_file",
    "Goast.C61_combinePrev",
    "Goast.C61_combinePrev_preceding",
    "Goast.C61_replacePrev"
   ],
   "note": "C61_setText: `SetText` on a node: what is saved changes at the place of that node and nowhere else. | C61_setKind: `SetKind` on any node changes nothing that is saved. | C61_insertNext: `n.InsertNext(m)`, `m` a node of no scope: its text is saved directly behind that of `n`, and nothing else changes. | C61_insertPrev: `n.InsertPrev(m)`, `m` a node of no scope and `n` not the first node of its scope: the text of `m` is saved directly before that of `n`, and nothing else changes. | C61_insertPrev_first: Known trap: `n.InsertPrev(m)` on the first node of a scope. | C61_takeNext: `n.TakeNext()` takes the text of the next node out of what is saved, and nothing else. | C61_takePrev: `n.TakePrev()` takes the text of the node before out of what is saved, and nothing else, if that node is not the first of its scope. | C61_takePrev_first: Known trap: taking out the first node of a scope. | C61_removeNext: `n.RemoveNext()`: nothing behind `n` in its scope is saved any more; all the rest is. | C61_removePrev: Known trap: `n.RemovePrev()`. | C61_isolate: `n.Isolate()` on a node that is not the first of its scope: what is behind it is not saved any more either. | C61_replaceNext: `n.ReplaceNext(m)`, `m` and the nodes `M` behind it belonging to no scope: `m` and `M` are saved in place of everything behind `n` in its scope. | C61_combineNext: `n.CombineNext(k, ms...)` with nodes of no scope: their texts are saved directly behind that of `n`, and nothing else changes. | C61_combineNext_following: Known trap: `n.CombineNext(k, ms...)` with the nodes that follow `n` in its scope. | C61_copy: `Copy` of a document is a document of other nodes that saves the same bytes, and so does the original still. | C61_appendScope: `AppendScope` adds the texts of the new scopes at the end of what is saved, and nothing else. | C61_parsed: Whatever `ParseAst` returns is a document, made of the scopes of the text it read. | C61_parse_edit_save: Parse, edit, save. | C61_file: Parse, edit, save, for every formatted file whose sections keep their text (C64): package clause, imports, functions with comments in their bodies, types, ... | C61_combinePrev: `n.CombinePrev(k, ms...)` with nodes of no scope: their texts, the last first, are saved directly before that of `n`, and nothing else changes. | C61_combinePrev_preceding: Known trap: `n.CombinePrev(k, ms...)` with the nodes directly before `n` in its scope, none of them the first. | C61_replacePrev: Known trap: `n.ReplacePrev(m)`, `n` not the first node of its scope and `m` in no scope."
  },
  {
   "property": "C62",
   "status": "proved",
   "theorems": [
    "Goast.C62_steps",
    "Goast.C62_unique",
    "Goast.C62_stable",
    "Goast.C62_takePrev",
    "Goast.C62_relabel",
    "Goast.C62_takeNext",
    "Goast.C62_insertPrev",
    "Goast.C62_insertNext_forever",
    "Goast.C62_isolate"
   ],
   "note": "C62_steps: What `IterNext` does, whatever the callback changes: nothing on nil; else it calls back for the node and stops there if told to; else it goes on with the node that is next *after* the call. | C62_unique: There is at most one outcome. | C62_stable: A callback that leaves alone the links from the current node on: it is called for exactly the nodes that were in the chain at the start, in order, until it says stop. | C62_takePrev: `TakePrev` of the current node, under any condition, does not disturb the iteration. | C62_relabel: `SetKind` and `SetText` on any nodes do not disturb it either. | C62_takeNext: `TakeNext` on the current node: the node that is taken out is not visited. | C62_insertPrev: `InsertPrev` of a new node before every node visited: the new nodes are not visited, and stand where they were put. | C62_insertNext_forever: Known trap: a callback that inserts a new node behind every node visited never ends (the new nodes are visited too). | C62_isolate: Known trap: a callback that takes the current node out (here with `Isolate`) ends the iteration there."
  },
  {
   "property": "C63",
   "status": "proved",
   "theorems": [
    "Goast.C63_strip",
    "Goast.C63_left",
    "Goast.C63_example"
   ],
   "note": "C63_strip: The example program on any document in which the scopes kept do not begin with a comment: it returns an `Ast` of the same name whose scopes are the ones kept, and what it saves is the texts of their nodes without the comments. | C63_left: The only comments left are at the very end of a scope. | C63_example: From the file: whatever `ParseAst` returned, the example program returns, and saves the scopes kept without their comments (`lss`: the nodes of the scopes as parsed)."
  },
  {
   "property": "C64",
   "status": "proved",
   "theorems": [
    "Goast.C64_scope",
    "Goast.C64_text",
    "Goast.C64_sections",
    "Goast.C64_file",
    "Goast.C64_save",
    "Goast.C64_declarations",
    "Goast.C64_check",
    "Goast.C64_keepsText",
    "Goast.C64_trie_go"
   ],
   "note": "C64_scope: The sections of a text, as the specification divides it, are its scopes, and every scope whose section `Survives` has exactly the text of its section after `ParseScope`, whatever the other sections are. | C64_text: If every section of a text survives, what `Save` concatenates is the text from its first section on. | C64_sections: The sections of a file are those of its declarations. | C64_file: A file of declarations that survive: what `Save` concatenates is the text of the file. | C64_save: Parse and save: if a file is formatted, begins with a section, has a package clause, and all its sections survive, all files stay as they were. | C64_declarations: A file put together from declarations that survive is such a file. | C64_check: The program is right: what it accepts survives. | C64_keepsText: Parsing and saving a formatted file that the program accepts leaves all files as they were. | C64_trie_go: Parsing and saving goast's own trie.go leaves it as it is."
  },
  {
   "property": "C65",
   "status": "proved",
   "theorems": [
    "Goast.C65_labels",
    "Goast.C65_all",
    "Goast.C65_file",
    "Goast.C65_check",
    "Goast.C65_program"
   ],
   "note": "C65_labels: The scopes of a text are its sections, and every scope whose section the specification can read has after `ParseScope` the tokens the specification gives it, whatever the other sections are. | C65_all: All sections at once: the nodes of the scopes, scope by scope, have the tokens the specification gives them. | C65_file: A file put together from declarations: each of them gets the labels it would get on its own. | C65_check: The program is right: the labels it computes are those of the specification. | C65_program: If the program labels all sections of a text, `ParseScope` gives exactly these labels."
  },
  {
   "property": "C66",
   "status": "proved",
   "theorems": [
    "Goast.C66_names",
    "Goast.C66_contents",
    "Goast.C66_file",
    "Goast.C66_struct",
    "Goast.C66_check",
    "Goast.C66_program",
    "Goast.C66_trie_go"
   ],
   "note": "C66_names: The scopes of a text are its sections, and the getters of every scope answer with what its section declares, whatever follows the name and whatever the other sections are. | C66_contents: The table of contents of a text: if each section declares something, the getters of the scopes say just that, in the same order. | C66_file: The table of contents of a file that is put together from declarations: what each of them would declare on its own, in the same order. | C66_struct: A type scope whose section the specification can read is reported as a struct if and only if there is a `struct` keyword among its tokens after the parse, and as an interface if and only if there is an `interface` keyword. | C66_check: The program is right: it reads what the section declares. | C66_program: If the program reads what all sections of a text declare, that is what the getters say. | C66_trie_go: What the getters say about goast's own trie.go (the receiver is cut off at the type parameters)."
  },
  {
   "property": "C67",
   "status": "proved",
   "theorems": [
    "Goast.C67_rename",
    "Goast.C67_trie_go"
   ],
   "note": "C67_rename: Rename, save and parse again. | C67_trie_go: Rename a function of goast's own trie.go: parse, rename, save, parse again."
  },
  {
   "property": "C68",
   "status": "proved",
   "theorems": [
    "Goast.C68_rewrite",
    "Goast.C68_file",
    "Goast.C68_rename",
    "Goast.C68_again",
    "Goast.C68_rename_type",
    "Goast.C68_trie_go"
   ],
   "note": "C68_rewrite: The loop on any document: it ends, the nodes stay in their places with their kinds and lines, every node has the text that the tool computed from its kind and text, and that is what is saved. | C68_file: Parse, rewrite, save: for a formatted file that begins with a section, has a package clause, and whose sections the specification can read, what is saved is the text of its tokens after the parse, each rewritten by its label. | C68_rename: Renaming a function: if exactly one word of the file is labelled as the name of a function called `old`, the tool saves the file with that word replaced. | C68_again: Rewrite the words of a file by their labels, save and parse again, for every tool `g`: the saved file is the text of the labelled tokens, each rewritten; and if that is formatted and its sections declare `ens`, the getters of the new `Ast` answer so. | C68_rename_type: The instance: the type `T` is renamed in a file where it is declared, receiver, parameter and result; the field called `T` is left alone. | C68_trie_go: A tool that rewrites the words of trie.go by their labels, whatever it writes instead."
  },
  {
   "property": "C69",
   "status": "proved",
   "theorems": [
    "Goast.C69_any_schedule",
    "Goast.C69_fresh",
    "Goast.C69_scopes",
    "Goast.C69_shared"
   ],
   "note": "C69_any_schedule: Any number of goroutines use the API on nodes of their own (no node belongs to two), each running any program, which may depend on everything it was shown. | C69_fresh: Goroutines that start with nothing in their variables have nothing in common, whatever nodes the program made before. | C69_scopes: The scopes of one parse can be given to different goroutines: they have nothing in common. | C69_shared: (witness) The nodes must be of their own: if two goroutines hold the same node, what one of them reads depends on the schedule."
  },
  {
   "property": "C70",
   "status": "proved",
   "theorems": [
    "Goast.Assert.C70_equal",
    "Goast.Assert.C70_notEqual",
    "Goast.Assert.C70_equal_iff",
    "Goast.Assert.C70_symmetric",
    "Goast.Assert.C70_types",
    "Goast.Assert.C70_slice",
    "Goast.Assert.C70_examples"
   ],
   "note": "C70_equal: `Equal(value, expected)`: if the two are equal and Go can compare them, the test goes on; if they differ and Go can compare them, the test fails with the text that shows both; whenever the test goes on, the two are equal and can be compared. | C70_notEqual: `NotEqual` is the opposite: it goes on exactly when `Equal` fails, fails exactly when `Equal` goes on, panics exactly when `Equal` panics. | C70_equal_iff: `Equal` lets the test go on if and only if the two are equal and can be compared. | C70_symmetric: It does not matter which of the two is the expected one. | C70_types: Values of different dynamic types are never equal, and never make it panic: the test fails. | C70_slice: The trap: a slice, map or function is never `Equal` to itself, nor `NotEqual`: both panic. | C70_examples: (witnesses) `Equal(1, int64(1))` and `Equal(NaN, NaN)` fail, `Equal(0.0, -0.0)` goes on."
  },
  {
   "property": "C71",
   "status": "proved",
   "theorems": [
    "Goast.Assert.C71_nil",
    "Goast.Assert.C71_examples",
    "Goast.Assert.C71_error",
    "Goast.Assert.C71_require",
    "Goast.Assert.C71_no_test"
   ],
   "note": "C71_nil: `Nil` and `NotNil` are opposites, except that both panic on an array: on nil (also a nil pointer, map, channel or slice) `Nil` goes on and `NotNil` fails; on all else `NotNil` goes on and `Nil` fails. | C71_examples: (witnesses) A nil pointer is nil; a nil function is not nil for `Nil` (the test fails); an array makes both panic. | C71_error: `Error` and `NoError` are opposites: a nil error lets `NoError` go on and `Error` fail, any other error (also a nil pointer in an error) the other way round. | C71_require: `Require(ok)` goes on if `ok` is true, and fails otherwise. | C71_no_test: Without a test (`New(nil)`) an assertion that would go on goes on, and one that would fail panics: nothing goes unnoticed."
  },
  {
   "property": "C72",
   "status": "proved",
   "theorems": [
    "Goast.Assert.C72_panic"
   ],
   "note": "C72_panic: `NoPanic(fn)` and `Panic(fn)` call `fn` once and keep all it did."
  },
  {
   "property": "C73",
   "status": "proved",
   "theorems": [
    "Goast.Assert.C73_in_order"
   ],
   "note": "C73_in_order: A test that makes assertions one after another: if all go on it returns and is not marked as failed by them; otherwise the first that does not go on decides, whatever stands behind it: a failing one ends the test, marked as failed, with its text as the only one logged, a panicking one panics with nothing logged."
  },
  {
   "property": "C74",
   "status": "proved",
   "theorems": [
    "Goast.C74_any_schedule",
    "Goast.C74_fresh",
    "Goast.C74_shared_file",
    "Goast.C74_shared_array"
   ],
   "note": "C74_any_schedule: Any number of goroutines use the API on nodes, scopes, slices and `Ast`s of their own, and none writes a file that another reads or writes; what each does may depend on everything it was shown. | C74_fresh: Goroutines that start with nothing in their variables have nothing in common, whatever the program did before. | C74_shared_file: (witness) The files must be of their own: if two goroutines save the same file, its content depends on the schedule. | C74_shared_array: (witness) The backing arrays must be of their own, too: two goroutines, each with an `Ast` of its own, made from one `Ast` by `SetScope(a.Scope())`, each append a scope of its own to it and save it to a file of its own."
  },
  {
   "property": "C75",
   "status": "proved",
   "theorems": [
    "Goast.C75_complete",
    "Goast.C75_killed",
    "Goast.C75_not_atomic",
    "Goast.C75_killed_many",
    "Goast.C75_run_again",
    "Goast.C75_interleaved",
    "Goast.C75_source_lost",
    "Goast.C75_same_file"
   ],
   "note": "C75_complete: Left alone, the changes on disk are those of `SaveFile`, in whatever pieces the bytes are taken. | C75_killed: A process killed at any moment while it saves: every other file is as it was, and the file itself is as it was or holds a beginning (perhaps nothing, perhaps all) of the new content. | C75_not_atomic: Saving is never atomic: whenever `SaveFile` gets as far as to create the file, there is a moment at which a process that is killed leaves an empty file, whatever the file held before. | C75_killed_many: A process that saves one file after another, killed at any moment: some first calls are complete, at most one file is in between (as it was, or a beginning of what it is to hold), and the later calls have changed nothing. | C75_run_again: Running again repairs everything: a process that saves given data to files may be killed any number of times, at any moments (and the bytes may be taken in other pieces each time); when it then runs to its end, every file is as if it had run to its end the first time. | C75_interleaved: Processes (or goroutines) that save at the same time, none a file of another: in whatever order their changes on disk happen, in the end every file is as if they had run one after another. | C75_source_lost: A program that reads its own output is not repaired by running it again: whenever `SaveFile` gets as far as to create the file, there is a moment at which a process that is killed leaves a file that `ParseAst` reads, parses and rejects as having no package (if the formatter, like `format.Source`, leaves the empty text as it is). | C75_same_file: (witness) Two processes that save the same file at the same time can leave a file that neither of them wrote."
  },
  {
   "property": "C76",
   "status": "proved",
   "theorems": [
    "Goast.C76_func",
    "Goast.C76_type",
    "Goast.C76_receiver",
    "Goast.C76_method",
    "Goast.C76_alike",
    "Goast.C76_rename",
    "Goast.C76_mark"
   ],
   "note": "C76_func: On any function scope, whatever was done to its nodes: `GetFuncName` answers with the text of the first node of kind `FuncName`, and with `(\"\", false)` if there is none. | C76_type: On any type scope: `GetTypeName` answers with the text of the first node of kind `TypeName`; if there is none, with the text of the last node and false. | C76_receiver: On any function scope: `GetMethodReceiver` answers with the text of the first node of kind `MethodReceiverType`; if there is none, with the text of the last node and false. | C76_method: On any function scope: if some node has kind `MethodReceiverType`, `GetMethodName` answers with the text of the first node of kind `FuncName` (or the text of the last node and false), and otherwise with `(\"\", false)`. | C76_alike: Two scopes of the same kind whose nodes have the same kinds and texts, in whatever place of whatever program, get the same answers. | C76_rename: Renaming: after `SetText(t)` on the first node of kind `FuncName` of a function scope, `GetFuncName` answers `(t, true)`, and so does `GetMethodName` if the function is a method; on the first node of kind `TypeName` of a type scope, `GetTypeName` does; and on the first node of kind `MethodReceiverType`, `GetMethodReceiver` does. | C76_mark: Marking: after `SetKind(FuncName)` on a node of a function scope with no node of that kind before it, `GetFuncName` answers with that node's text; likewise `SetKind(TypeName)` on a type scope and `GetTypeName`."
  },
  {
   "property": "C77",
   "status": "proved",
   "theorems": [
    "Goast.C77_prints",
    "Goast.C77_parsed",
    "Goast.C77_none"
   ],
   "note": "C77_prints: On every `Ast` whose scopes are finite lists of nodes, the program ends and prints, in order, exactly the scopes that are type declarations with an `interface` among their words: a line for the scope and one for each of its nodes. | C77_parsed: It does so on whatever `ParseAst` returns, for any file and any state of the program. | C77_none: A file with no type declaration that has an `interface` among its words gets no output, and no text or comment can make a function, a variable or an import be printed."
  },
  {
   "property": "C78",
   "status": "proved",
   "theorems": [
    "Goast.C78_print",
    "Goast.C78_frame",
    "Goast.C78_silent",
    "Goast.C78_last"
   ],
   "note": "C78_print: After any history of calls (the program starts with debugging off), `DebugPrint` writes nothing unless the last `SetDebug` said true, in which case it writes its arguments and a tab, a blank after each, then a word of the stack, and a newline. | C78_frame: Every stack has such a word, so `C78_print` says what is written in every case. | C78_silent: A program that never calls `SetDebug(true)` gets no debug output at all. | C78_last: `SetDebug` itself writes nothing, and of several calls in a row only the last counts."
  },
  {
   "property": "C79",
   "status": "proved",
   "theorems": [
    "Goast.C79_strings",
    "Goast.C79_equal",
    "Goast.C79_declared",
    "Goast.C79_new",
    "Goast.C79_getClose",
    "Goast.C79_node",
    "Goast.C79_scope",
    "Goast.C79_scope_string"
   ],
   "note": "C79_strings: The strings of `kind.Kind{lit, name}` are these two, and `String` (also through a pointer) is the second. | C79_equal: Two kinds are equal exactly if both strings are: what a program builds by hand can be compared with the declared kinds. | C79_declared: A kind built with the strings of a declared one is that one; the zero value is `None`. | C79_new: `kind.New` never makes a kind other than the declared ones: its result is the kind of its own strings. | C79_getClose: `GetClose` of any kind, however it was made: the counterpart of a bracket, by its strings, and refused for all others. | C79_node: A node keeps the kind it is given, also a user-made one: `Kind().String()` is its second string, and `Description` ends with it. | C79_scope: The string of `scope.Kind(s)` is `s`; two scope kinds are equal exactly if their strings are; a declared one is recognised by its string. | C79_scope_string: `String` and `ToKind` of any scope kind: the table for the declared strings, `\"\"` and the zero kind for any other string."
  },
  {
   "property": "C80",
   "status": "proved",
   "theorems": [
    "Goast.C80_visits",
    "Goast.C80_plain",
    "Goast.C80_append",
    "Goast.C80_assign",
    "Goast.C80_assign_seen"
   ],
   "note": "C80_visits: A callback that leaves the elements of the slice as they are is called for exactly the scopes the `Ast` had at the start, in order, until it says stop; this covers all changes of nodes and of other `Ast`s. | C80_plain: The plain `IterScope` (callbacks that only change what they capture) is the same loop. | C80_append: Appending to the very `Ast` one iterates over, whatever is appended under whatever conditions and whatever capacity Go chooses: the iteration ends, the callback is called for the scopes the `Ast` had at the start and for none of the new ones, and afterwards the `Ast` has the old scopes followed by all that was appended; nodes and path fields stay. | C80_assign: `ast.Scope()[i] = x` replaces exactly that scope, in every `Ast` that shares the slice, and panics exactly if there is none. | C80_assign_seen: A trap: an element that the callback assigns before its turn comes is visited as assigned."
  },
  {
   "property": "C81",
   "status": "proved",
   "theorems": [
    "Goast.C81_alone",
    "Goast.C81_no_race",
    "Goast.C81_no_stop",
    "Goast.C81_careful",
    "Goast.C81_calls_careful",
    "Goast.C81_call",
    "Goast.C81_iter",
    "Goast.C81_look",
    "Goast.C81_getters",
    "Goast.C81_seq",
    "Goast.C81_results",
    "Goast.C81_schedules",
    "Goast.C81_readers",
    "Goast.C81_look_only",
    "Goast.C81_changes_make_none",
    "Goast.C81_careful_seq",
    "Goast.C81_look_careful",
    "Goast.C81_islands",
    "Goast.C81_shared_panic",
    "Goast.C81_shared_lost"
   ],
   "note": "C81_alone: Any number of goroutines, each running any code, none of which writes what another one reads or writes, under any schedule that interleaves their single reads, writes and allocations: every one is exactly where it would be if it had run alone (so it gets the same results), the nodes it uses are as if it had run alone, and nodes that none of them writes are as before. | C81_no_race: There is no data race: never are two goroutines about to touch the same node unless both are about to read it. | C81_no_stop: No goroutine is stopped by the others: at any moment it is done, it has panicked as it would have alone, or it can make its next step, with any address the allocator may choose among the free ones. | C81_careful: The conditions hold for goroutines that write only nodes of their own and read also nodes that none of them writes, if these sets of nodes are not linked with each other: code that is careful about where its pointers come from stays where it may go. | C81_calls_careful: All calls that make or change nodes are careful: called with nodes of its own (or nil) a goroutine writes nodes of its own only, and gets nodes of its own (or nil). | C81_call: The single steps of a call, made one after the other by the only goroutine, have exactly the effect and the results of the call, and panic exactly if the call does. | C81_iter: The same for iteration, with any callback made of single steps (that keeps the lists in order, as all calls do: C24): it is the iteration of `loop`, which calls the callback at once and then asks for the next node in the heap the callback leaves. | C81_look: The same for the methods that look at one node. | C81_getters: The same for the getters of a scope. | C81_seq: Code after code, alone: the second starts where the first ended. | C81_results: So goroutines that change nodes of their own, read nodes that nobody changes and make no nodes get, under every schedule, the results their calls give when each of them is the only one and runs from beginning to end; and each finds its nodes as these calls leave them. | C81_schedules: The results do not depend on the schedule. | C81_readers: Goroutines that only read may all share the same nodes: nothing changes, each gets what it gets alone, and there is no race. | C81_look_only: The methods that look at nodes only read, iteration too if the callback only reads, and so does code made of them. | C81_changes_make_none: The calls that change nodes make none, but for `NewNode`, `NewNodes` and `Copy`. | C81_careful_seq: Careful calls may be made one after the other, the later ones on nodes the earlier ones returned. | C81_look_careful: Looking is careful as well: a goroutine may look at its own nodes and at the shared ones (the getters of scopes included), the neighbours of its own nodes are its own and those of shared nodes are shared; and it may iterate over both kinds of nodes, with a callback that is careful (and may change the own nodes and make new ones). | C81_islands: A chain of nodes is an island, and so are the sets of nodes of goroutines that have nothing in common (C69), for example those that got different scopes of one parse (`C69_scopes`). | C81_shared_panic: (witness) The nodes must be of their own. | C81_shared_lost: (witness) And a node can get lost: two goroutines insert a node each behind the same node; whichever call comes first, both are then in the list; but there is a schedule under which both calls end and one of the nodes is in no list."
  },
  {
   "property": "C82",
   "status": "proved",
   "theorems": [
    "Goast.C82_call",
    "Goast.C82_careful",
    "Goast.C82_parallel"
   ],
   "note": "C82_call: The single steps of `ParseScope`, made one after the other by the only goroutine, in any state of the program's nodes: it returns, with exactly the scopes and the nodes of the function `parseScopeOrd` that all other theorems are about, and all nodes it touches exist. | C82_careful: `ParseScope` is careful in the sense of C81, whatever nodes the goroutine and the others have: it reads and writes only nodes it makes itself, and so do the scopes it returns consist of nodes of the goroutine's own. | C82_parallel: Any number of goroutines call `ParseScope` at the same time, each with a text of its own, in any state of the memory; their single memory accesses are interleaved by any schedule, the allocator gives any free addresses, and Go iterates over its map in any orders."
  },
  {
   "property": "C83",
   "status": "proved",
   "theorems": [
    "Goast.C83_nodes",
    "Goast.C83_parallel",
    "Goast.C83_alone"
   ],
   "note": "C83_nodes: `ParseScope` makes at most one node for each byte of the text, in any state of the program's nodes. | C83_parallel: Any number of goroutines that parse at the same time, as in C82: whatever the schedule, goroutine `i` is scheduled for at most `50000 (n + 1)³` memory accesses, `n` being the length of its own text, and can go on until it has returned: none waits for another, and no schedule makes the work of one longer. | C83_alone: A goroutine that calls `ParseScope`, alone and in any state of the memory, with any free addresses for the new nodes and any order of Go's map iteration: it makes a fixed number of memory accesses, at most `50000 (n + 1)³` for a text of `n` bytes; until it has made them it can go on, whatever address the allocator gives it next, and then it has returned."
  },
  {
   "property": "C84",
   "status": "proved",
   "theorems": [
    "Goast.C84_bounded",
    "Goast.C84_look_bounded",
    "Goast.C84_never_stuck",
    "Goast.C84_honest",
    "Goast.C84_wait_free",
    "Goast.C84_walks",
    "Goast.C84_getters",
    "Goast.C84_readers",
    "Goast.C84_ring",
    "Goast.C84_iterate"
   ],
   "note": "C84_bounded: A call that makes or changes nodes, `Copy(true)` apart, makes at most a fixed number of steps (`Op.steps`: it depends only on the number of arguments), whatever the other goroutines do in between, be it on the same nodes, and whatever links there are: it never waits, and it cannot be kept busy. | C84_look_bounded: The same for the methods that look at one node: one step, and three for `Description`. | C84_never_stuck: Goroutines that forge no pointers, on any nodes, shared or not, and without any synchronisation: however their steps are interleaved, there are no dangling pointers at any time, and each goroutine has returned, or has panicked on a nil pointer, or can make its next step, whichever free address the allocator gives it. | C84_honest: All calls are honest: those that make or change nodes, on nodes that exist; `ParseScope`; the methods that look at one node; and the getters of a scope. | C84_wait_free: So a call that makes or changes nodes, `Copy(true)` apart, is over after a fixed number of its own steps, whatever other calls are going on, on the same nodes too: until then it can go on at any time. | C84_walks: `Last` makes two steps for each node from the receiver to the end of the list, less one; `First` likewise towards the front; `Copy(true)` makes seven steps for each node of the list, and one more. | C84_getters: The getters of a scope make at most six steps for each of its nodes. | C84_readers: And goroutines that only read do not make each other slower: if one of them returns after `n` steps alone, then so it does among many, on the same nodes and under every schedule. | C84_ring: (witness) The walks have no bound if the list is changed by others at the same time. | C84_iterate: `IterNext` and `IterPrev` with a callback that only reads and returns after at most `c` steps, whatever node of the list it is given: the iteration returns after at most `c + 1` steps for each node from the receiver to the end of the list; one for each node if the callback makes none."
  },
  {
   "property": "C85",
   "status": "proved",
   "theorems": [
    "Goast.C85_text",
    "Goast.C85_save",
    "Goast.C85_append",
    "Goast.C85_package"
   ],
   "note": "C85_text: What a program gets that parses any number of texts one after another (from any state, each with any map order) and then puts the scopes of some of them together, in any order, also several times. | C85_save: Assemble, save, parse again. | C85_append: How such an `Ast` comes about: `NewAst` with the scopes of the first part (in a slice of any spare capacity) and one `AppendScope` for each of the others, whatever capacity Go chooses for the arrays. | C85_package: The package of such an `Ast` is that of its first part."
  },
  {
   "property": "C86",
   "status": "proved",
   "theorems": [
    "Goast.C86_made",
    "Goast.C86_generate"
   ],
   "note": "C86_made: A program that makes scopes by hand, from any texts in any pieces, with any lines and any kinds, and puts them in an `Ast`: `Save` writes the texts one after another; no node that existed before changes; `NewAst` accepts the scopes if one was made with the kind `Package`. | C86_generate: Generate, save, parse."
  },
  {
   "property": "C87",
   "status": "proved",
   "theorems": [
    "Goast.C87_edit"
   ],
   "note": "C87_edit: A formatted file is put together from declarations `ds₁`, then `ds₀`, then `ds₂`; those of `ds₁` and `ds₂` keep their text (C64), and there is a package clause in `ds₁`."
  },
  {
   "property": "C88",
   "status": "proved",
   "theorems": [
    "Goast.C88_pick",
    "Goast.C88_save"
   ],
   "note": "C88_pick: A program parses any number of files made of declarations, one after another, from any state. | C88_save: Reorganise two files."
  },
  {
   "property": "C89",
   "status": "proved",
   "theorems": [
    "Goast.C89_join",
    "Goast.C89_read",
    "Goast.C89_ext",
    "Goast.C89_save_back",
    "Goast.C89_mkdir",
    "Goast.C89_same_dir",
    "Goast.C89_no_name",
    "Goast.C89_example",
    "Goast.C89_other_ext",
    "Goast.C89_slash",
    "Goast.C89_mkdir_example",
    "Goast.C89_only_place",
    "Goast.C89_saved_read",
    "Goast.C89_saved_example"
   ],
   "note": "C89_join: `Dir()` and `Filename()` joined name the file whose path was given to `ParseAst` (a path with a name in it: not empty and without a slash at its end). | C89_read: The file that `ParseAst` read lies in `Dir()`; it is called `Filename()` if the path given ends in `.go`, otherwise `Filename()` with `.go` behind it. | C89_ext: `Ext()` is the end of `Filename()` from its last dot on, or empty if there is no dot; it is `.go` exactly when the path given ends in `.go`. | C89_save_back: Saving under `Dir()` and `Filename()` joined writes the file that `ParseAst` read, as saving under `File()` does. | C89_mkdir: The directory that `Save` makes is the one the file lies in that it writes. | C89_same_dir: One directory has one spelling: two Asts whose files lie in the same directory, wherever the process runs, have the same `Dir()`, however the two paths were spelled. | C89_no_name: A path without a name in it (empty, or with a slash at its end): `Dir()` names what the path names, and the file that was read is `.go` in there. | C89_example: The hypotheses are met: a file whose path has detours. | C89_other_ext: `Filename()` and `Ext()` speak about the path given, not about the file read: `./src/x.v1` is read from `src/x.v1.go`. | C89_slash: Without a name in the path the claim of `C89_join` is false: `src/` is read from `src/.go`, `Dir()` and `Filename()` joined name `src/src`. | C89_mkdir_example: `C89_same_dir` and `C89_mkdir` are about something. | C89_only_place: Whether `SaveFile` succeeds or not, a file at another place is as before. | C89_saved_read: An Ast that is saved without error under `Dir()` and `Filename()` joined is what is found under the path it was parsed from, and under every other spelling of that path; files at other places are as before (also when there is an error: `C89_only_place`). | C89_saved_example: The hypotheses are met: saved under `src/x.go`, found under `a/../src//x.go`."
  },
  {
   "property": "C90",
   "status": "proved",
   "theorems": [
    "Goast.C90_save",
    "Goast.C90_save_only",
    "Goast.C90_save_panic",
    "Goast.C90_package",
    "Goast.C90_no_package",
    "Goast.C90_description",
    "Goast.C90_copy",
    "Goast.C90_embedded",
    "Goast.C90_example",
    "Goast.C90_met"
   ],
   "note": "C90_save: `Save` calls `Node()` on each scope once, in order, and nothing else; what is saved is the texts of the nodes found from the answers, each as it was when the call returned. | C90_save_only: There is no other way for `Save` to return. | C90_save_panic: If a `Node()` does not return (it panics, say), then neither does `Save`: it has not touched a file. | C90_package: `NewAst` and `Package` call `Kind()` on the scopes in order up to the first that answers `Package`, then `Node()` on that one, and nothing else; the name is the text of the first `Raw` node behind the first package keyword found from that answer. | C90_no_package: They fail, with `ErrNoPackage`, when every scope was asked and none answered `Package`. | C90_description: `Description` calls `Description()` and then `Node()` on each scope, in order. | C90_copy: `Copy` calls `Copy()` on each scope once, in order; the copy has the answers for scopes. | C90_embedded: Scopes that answer `Kind()` and `Node()` as the scopes of /repo do (values that embed such a scope and replace other methods) are as good as these: `NewAst`, `Package` and `Save` do the same. | C90_example: What such an `Ast` does: the texts are those of the nodes made for this call. | C90_met: The hypotheses of `C90_save`, `C90_save_panic` are met by them."
  },
  {
   "property": "C91",
   "status": "proved",
   "theorems": [
    "Goast.C91_saved",
    "Goast.C91_failed",
    "Goast.C91_works",
    "Goast.C91_back",
    "Goast.C91_as_env",
    "Goast.C91_example",
    "Goast.C91_detour"
   ],
   "note": "C91_saved: When `Save` returns nil the place that the path names holds the formatted text; every other file is as it was; the directories are the old ones and those on the way to that place. | C91_failed: When `Save` fails no file has changed, and if it failed before it came to the file no directory has been made. | C91_works: Saving under a directory as `Dir()` spells it and a name: it works exactly when there is something to save, no file lies where a directory is needed, and no directory where the file is to be. | C91_back: An Ast parsed from a file can be saved back under `Dir()` and `Filename()`: it works, no directory is made, and the file that was read is the one that is replaced. | C91_as_env: This file system is one of the environments that all other theorems quantify over: `SaveFile` there and here give the same error, and the same contents under the name that is written. | C91_example: The hypotheses are met: two directories are made, the file is found under another spelling; below a file nothing can be saved. | C91_detour: The directory that is made is that of the cleaned path: a detour through a directory that does not exist makes `Save` fail, though the place it names could be written."
  },
  {
   "property": "C92",
   "status": "proved",
   "theorems": [
    "Goast.C92_saves",
    "Goast.C92_readable",
    "Goast.C92_determined",
    "Goast.C92_again",
    "Goast.C92_again_fails",
    "Goast.C92_example"
   ],
   "note": "C92_saves: After any row of calls of `Save` — some may have failed, paths may be spelled in any way, the working directory may have changed in between — every place holds what the last successful call for it left, or what it held before. | C92_readable: No file is lost: a path that can be read can be read after any row of calls of `Save`, and gives what the last successful call for its place left there. | C92_determined: What a row of calls leaves at a place is determined by the calls and their errors. | C92_again: When all calls of a row have returned nil, making them all once more changes nothing, and all return nil again. | C92_again_fails: Without that condition it need not be so: the first call fails as long as the second has not made its directory. | C92_example: The file is saved under three spellings (once in vain), another one in between."
  },
  {
   "property": "C93",
   "status": "proved",
   "theorems": [
    "Goast.C93_not_exist",
    "Goast.C93_answers",
    "Goast.C93_os",
    "Goast.C93_saved",
    "Goast.C93_example"
   ],
   "note": "C93_not_exist: `ParseAst` returns `ErrNotExist` exactly when, on the way along the path (`.go` added if missing), one comes to a place where there is nothing. | C93_answers: All answers: nothing at some place on the way; a file where the path goes on; a directory at the end; or the path leads through directories to a file, then the errors are those of the formatter and `ErrNoPackage`, and else there is an `Ast` over the scopes of the formatted text. | C93_os: The answer is an error of the operating system (other than that there is no such file) exactly when a file is met where the path goes on, or the path leads to a directory. | C93_saved: A path that could be read is never answered with an error of the operating system after any row of calls of `Save`, whatever their paths. | C93_example: A file on the way, nothing there, a directory with the name of a file, and a file under a detour."
  }
 ]
}