{"id": "C01", "title": "Tokenisation is lossless", "statement": "Splitting any source text into nodes loses, adds and reorders nothing: concatenating Text() of the nodes in IterNext order gives back the text byte for byte, balanced or not, valid Go or not.", "quantifier": "every byte string", "why_tests_cant": "Inputs are unbounded byte strings; tests sample a handful.", "anchors": ["extractor.go: extract, (*extractor).Run"]}
{"id": "C02", "title": "Tokenisation is total", "statement": "Splitting a text into nodes terminates, never panics and never reports an error, for every byte string, however its brackets, quotes and comments are nested or left open; the produced chain is a finite, consistently linked list of fresh nodes.", "quantifier": "every byte string, every earlier heap", "why_tests_cant": "Inputs are unbounded byte strings; tests sample a handful.", "anchors": ["extractor.go: extract, (*extractor).Run, insertNode, pushNode"]}
{"id": "C03", "title": "Tokenisation is deterministic", "statement": "The nodes produced do not depend on Go's randomised map iteration order in the opener lookup.", "quantifier": "every byte string and every sequence of map iteration orders", "why_tests_cant": "Map order is chosen by the runtime at random on every range statement; a test run sees one order.", "anchors": ["extractor.go: deeperExtract.PrefixFit, _commonDeeperExtract"]}
{"id": "C04", "title": "Bracket nesting does not change the tokens", "statement": "The recursive descent into ( and { produces, for every text, exactly the texts and kinds that a flat one-pass scanner with the five modes code / line comment / block comment / string / raw string produces.", "quantifier": "every byte string", "why_tests_cant": "Inputs are unbounded byte strings; tests sample a handful.", "anchors": ["extractor.go: (*extractor).Run, _parenthesisExtractor, _curlyBracketExtractor"]}
{"id": "C05", "title": "Shape of tokens", "statement": "No node has empty text, and every node that is not a comment or string literal is either a single separator byte or contains no separator byte at all.", "quantifier": "every byte string, every node produced", "why_tests_cant": "Inputs are unbounded byte strings; tests sample a handful.", "anchors": ["extractor.go: (*extractor).Run", "charset/charset.go: SeparatorCharset"]}
{"id": "C06", "title": "Line numbers", "statement": "The line of every node is determined by the pieces of the text: it is the number of newlines before the node, with two exceptions. A comment or literal that is cut off by the end of the text has the line of the end of the text. A '(' or '{' has the line of the last word before it inside the same pair of brackets (of the opening bracket if there is none, 0 outside all brackets), so never a later line than its own, and exactly its own if it directly follows a word.", "quantifier": "every byte string, every node produced", "why_tests_cant": "Inputs are unbounded byte strings; tests sample a handful.", "anchors": ["extractor.go: (*extractor).Run (lineStep, bufLine, pushNode)"]}
{"id": "C07", "title": "Kind of a fresh node", "statement": "Every node produced by tokenisation has the kind kind.New assigns to its text, except that a closed comment has kind Comment.", "quantifier": "every byte string, every node produced", "why_tests_cant": "Inputs are unbounded byte strings; tests sample a handful.", "anchors": ["extractor.go: pushNode, (*extractor).Kind", "node.go: NewNode"]}
{"id": "C08", "title": "Comments and string literals are single nodes", "statement": "In code position: a // comment up to (not including) its newline, a /* */ comment up to its first closing, a \"...\" literal without backslash and a raw literal each become exactly one node of kind Comment resp. String, whatever bytes they contain. Known traps: a quote in a rune literal opens a string, a string ending in an escaped backslash is not closed, /*/ counts as a whole comment, and a line comment at the end of the text without a line break is not of kind Comment.", "quantifier": "every content, every preceding text that ends in code position, every following text", "why_tests_cant": "Inputs are unbounded byte strings; tests sample a handful.", "anchors": ["extractor.go: _commentExtractor, _innerCommentExtractor, _stringExtractor, _multilineStringExtractor"]}
{"id": "C09", "title": "ParseScope is total", "statement": "ParseScope terminates without panic and returns a nil error for every start line and every byte string.", "quantifier": "every start line, every byte string", "why_tests_cant": "Termination of nested mutating loops over a linked list must hold for every input; a test that passes says nothing about the next input hanging.", "anchors": ["scope.go: ParseScope", "kind_resetter_all.go: resetKind"]}
{"id": "C10", "title": "Scopes partition the text", "statement": "The nodes of the text are divided, in order, into those before the first scope-opening node and one non-empty group per returned scope: no node is lost or shared, so the concatenated text of the groups, in order, is exactly the part of the text from the first scope-opening node on. Every scope starts at the first node of its group and only nodes of its group are reachable from it.", "quantifier": "every byte string, every start line", "why_tests_cant": "Inputs are unbounded byte strings; tests sample a handful.", "anchors": ["scope.go: ParseScope, tryAppendScope"]}
{"id": "C11", "title": "Scope heads", "statement": "Every scope returned by ParseScope has a kind other than Unknown, its kind is the one whose keyword the text of its first node begins with, and Line() is that node's line plus one.", "quantifier": "every byte string, every start line, every scope returned", "why_tests_cant": "Inputs are unbounded byte strings; tests sample a handful.", "anchors": ["scope.go: ParseScope, newScopeKind, isScopeKind, Line"]}
{"id": "C12", "title": "Scopes are separate lists", "statement": "After ParseScope the node chains of different scopes are disjoint, finite, consistently doubly linked lists, and the first node of each has no previous node.", "quantifier": "every byte string, every start line, every pair of scopes", "why_tests_cant": "Inputs are unbounded byte strings; tests sample a handful.", "anchors": ["scope.go: ParseScope", "node.go: RemovePrev"]}
{"id": "C13", "title": "Where scopes begin", "statement": "A scope begins exactly at each node whose line differs from that of the node before it (for the first node: from startLine-1) and whose text begins with one of the eight scope keywords; in particular a startLine of 1 makes ParseScope ignore the first line, and any identifier that merely begins with a keyword opens a scope. The start line has no other influence: all start lines up to 0 give the same result, and so do all but 1 unless the text begins with a block comment; with start line 1 the result is that of start line 0, without the first scope if the text begins with a scope keyword.", "quantifier": "every byte string, every start line", "why_tests_cant": "Inputs are unbounded byte strings; tests sample a handful.", "anchors": ["scope.go: ParseScope, newScopeKind"]}
{"id": "C14", "title": "Parsing and printing loses only comments", "statement": "Concatenating the texts of all scopes after ParseScope (what Save writes before formatting) gives the text from the first scope on with nothing changed except that some comment nodes of func and type scopes may be missing; with no comment in func and type scopes it is byte for byte the same. This is guaranteed whenever every scope that begins with the keyword `type` is safe: reading it as a type declaration (a small automaton over the kinds of its nodes, Spec/Alias) never meets a '(' between the first identifier of an aliased type and the end of its line. A type scope without '(' is always safe, as are struct, interface, func-type declarations and type groups in the usual layout; the claim is false without the condition, see the next property.", "quantifier": "every byte string, every start line", "why_tests_cant": "Inputs are unbounded byte strings; tests sample a handful.", "anchors": ["scope.go: ParseScope", "kind_resetter_func.go: handleSingleReturnType", "kind_resetter_all.go: paramResetter.Run", "ast.go: Save"]}
{"id": "C15", "title": "Known text corruption", "statement": "The unrestricted claim 'ParseScope preserves the text of every scope' is false: there are inputs on which a comment disappears and inputs on which part of a type declaration is duplicated.", "quantifier": "existence of inputs (negated universal)", "why_tests_cant": "The existing tests never compare the text after a reset.", "anchors": ["kind_resetter_func.go: handleSingleReturnType", "kind_resetter_all.go: paramResetter.Run"]}
{"id": "C16", "title": "Resetting kinds terminates", "statement": "resetKind terminates without panic on every consistently linked acyclic chain with arbitrary texts, kinds and lines.", "quantifier": "every heap with consistent links, every acyclic chain in it", "why_tests_cant": "Nested loops that modify the list they walk; non-termination on some token order cannot be excluded by examples.", "anchors": ["kind_resetter_all.go: resetKind, paramResetter.Run", "kind_resetter_func.go", "kind_resetter_parenthesis.go", "kind_resetter_type.go"]}
{"id": "C17", "title": "Resetting kinds is local", "statement": "resetKind changes no node outside the chain it was given, never changes a line number, keeps all links consistent and acyclic, and leaves chains whose first node is neither 'func' nor 'type' untouched.", "quantifier": "every heap with consistent links, every acyclic chain", "why_tests_cant": "Unbounded histories of API calls and aliasing patterns between chains; tests check a few fixed lists.", "anchors": ["kind_resetter_all.go: resetKind"]}
{"id": "C18", "title": "Resetting kinds only relabels identifiers", "statement": "resetKind never changes a node into a comment nor a comment into something else, and a kind it assigns is one of FuncName, TypeName, ParamName, ParamType, MethodReceiverName, MethodReceiverType.", "quantifier": "every heap with consistent links, every acyclic chain, every node", "why_tests_cant": "Inputs are unbounded byte strings; tests sample a handful.", "anchors": ["kind_resetter_func.go", "kind_resetter_parenthesis.go", "kind_resetter_type.go"]}
{"id": "C19", "title": "GetFuncName finds the declared name", "statement": "For every scope text 'func NAME' followed by a separator (space, bracket, comma, colon, semicolon, tab, line end) and anything, with NAME an identifier that is no keyword or basic type, GetFuncName returns NAME; for a scope that is not a func it returns (\"\", false).", "quantifier": "every identifier, every continuation", "why_tests_cant": "Inputs are unbounded byte strings; tests sample a handful.", "anchors": ["scope.go: GetFuncName", "kind_resetter_func.go: funcResetter.Run, handleGeneralFunc"]}
{"id": "C20", "title": "Method receiver and name", "statement": "For every scope 'func (r T) NAME' or 'func (T) NAME' followed by a separator and anything, where r, T, NAME are words (identifiers, also *T or pkg.T) and the function is not called on the spot ('}' directly followed by '('), GetMethodReceiver returns T and GetMethodName and GetFuncName return NAME; GetMethodName reports false whenever GetMethodReceiver does, and both return (\"\", false) on scopes that are no func.", "quantifier": "every identifier, every continuation", "why_tests_cant": "Inputs are unbounded byte strings; tests sample a handful.", "anchors": ["scope.go: GetMethodReceiver, GetMethodName", "kind_resetter_parenthesis.go: handleParenthesisParam"]}
{"id": "C21", "title": "GetTypeName finds the declared name", "statement": "For every scope text 'type NAME' with NAME an identifier followed by a separator and anything, GetTypeName returns NAME; for a scope that is not a type it returns (\"\", false).", "quantifier": "every identifier, every continuation", "why_tests_cant": "Inputs are unbounded byte strings; tests sample a handful.", "anchors": ["scope.go: GetTypeName", "kind_resetter_type.go: typeResetter.Run"]}
{"id": "C22", "title": "Struct and interface tests look at the whole scope", "statement": "GetStructName reports true exactly when some node of the type scope has kind Struct, GetInterfaceName exactly when some node has kind Interface; the name both return is GetTypeName's. Consequently both can be true for one scope.", "quantifier": "every heap, every type scope with an acyclic chain", "why_tests_cant": "Inputs are unbounded byte strings; tests sample a handful.", "anchors": ["scope.go: GetStructName, GetInterfaceName"]}
{"id": "C23", "title": "Links stay consistent", "statement": "Under any sequence of NewNode, NewNodes, Insert*, Replace*, Take*, Remove*, Isolate, Combine*, Copy, SetKind and SetText calls on any nodes (nil included), Next and Prev stay inverse to each other: a.Next()==b exactly when b.Prev()==a, for non-nil a, b; and no node is its own neighbour.", "quantifier": "every finite sequence of API calls with every choice of arguments", "why_tests_cant": "Unbounded histories of API calls and aliasing patterns between chains; tests check a few fixed lists.", "anchors": ["node.go: setPrev, setNext and all exported Node methods"]}
{"id": "C24", "title": "InsertNext", "statement": "Inserting m after n (m not n and not already n's successor) puts m between n and n's old successor, detaches m's old neighbours from it (returned as a pair), whether m comes from another chain, from before n or from behind n; nothing else changes.", "quantifier": "every consistent heap and every pair of nodes", "why_tests_cant": "Unbounded histories of API calls and aliasing patterns between chains; tests check a few fixed lists.", "anchors": ["node.go: InsertNext"]}
{"id": "C25", "title": "InsertPrev", "statement": "Mirror image of InsertNext.", "quantifier": "every consistent heap and every pair of nodes", "why_tests_cant": "Unbounded histories of API calls and aliasing patterns between chains; tests check a few fixed lists.", "anchors": ["node.go: InsertPrev"]}
{"id": "C26", "title": "ReplaceNext and ReplacePrev", "statement": "ReplaceNext(m) makes m (with everything behind it) the successor of n, cutting n's old tail and m's old front off (returned); ReplacePrev mirrors it; nothing else changes.", "quantifier": "every consistent heap and every pair of nodes", "why_tests_cant": "Unbounded histories of API calls and aliasing patterns between chains; tests check a few fixed lists.", "anchors": ["node.go: ReplaceNext, ReplacePrev"]}
{"id": "C27", "title": "TakeNext and TakePrev", "statement": "TakeNext removes exactly the node after n, closing the gap, and returns it isolated; TakePrev mirrors it.", "quantifier": "every consistent heap and every node", "why_tests_cant": "Unbounded histories of API calls and aliasing patterns between chains; tests check a few fixed lists.", "anchors": ["node.go: TakeNext, TakePrev"]}
{"id": "C28", "title": "RemoveNext and RemovePrev", "statement": "RemoveNext cuts the chain after n and returns the head of the cut-off tail, both parts intact; RemovePrev mirrors it.", "quantifier": "every consistent heap and every node", "why_tests_cant": "Unbounded histories of API calls and aliasing patterns between chains; tests check a few fixed lists.", "anchors": ["node.go: RemoveNext, RemovePrev"]}
{"id": "C29", "title": "Isolate", "statement": "Isolate detaches a node from both neighbours, leaving a gap between them, and changes nothing else.", "quantifier": "every consistent heap and every node", "why_tests_cant": "Unbounded histories of API calls and aliasing patterns between chains; tests check a few fixed lists.", "anchors": ["node.go: Isolate"]}
{"id": "C30", "title": "Combine", "statement": "CombineNext(k, m1..mj) gives the receiver kind k and the concatenation of its text and the m's texts in order (CombinePrev: reversed order), skipping nil and the receiver itself, and isolates each m; on a nil receiver the first argument takes the receiver's place but keeps its kind; it panics exactly when receiver and first argument are both nil.", "quantifier": "every consistent heap, every receiver and argument list of distinct nodes", "why_tests_cant": "Unbounded histories of API calls and aliasing patterns between chains; tests check a few fixed lists.", "anchors": ["node.go: CombineNext, CombinePrev"]}
{"id": "C31", "title": "Copy", "statement": "Copy(true) of a node of a finite chain yields a chain of fresh nodes with the same lines, kinds and texts in the same order, positioned at the copied node, sharing no node with the original, which is unchanged; Copy() yields one fresh unlinked node with the same data. Copy(true) of a node on a ring never returns.", "quantifier": "every consistent heap, every node of a finite chain", "why_tests_cant": "Unbounded histories of API calls and aliasing patterns between chains; tests check a few fixed lists.", "anchors": ["node.go: Copy, deepCopy", "scope.go: Copy"]}
{"id": "C32", "title": "Iteration", "statement": "IterNext visits exactly the nodes from the receiver to the end of a finite chain, each once and in order, and returns the first node on which the callback returned false, or nil; IterPrev mirrors it; First and Last return the ends of the chain. IterNext with a callback that stops at certain nodes returns exactly if the chain ends or such a node can be reached; on a ring neither Last nor IterNext with a callback that never stops ever returns.", "quantifier": "every finite chain, every callback", "why_tests_cant": "Inputs are unbounded byte strings; tests sample a handful.", "anchors": ["node.go: loop, IterNext, IterPrev, First, Last"]}
{"id": "C33", "title": "NewNodes", "statement": "NewNodes builds one chain of fresh nodes with exactly the given texts in order; the line of node k>0 is startLine plus the newlines in texts 1..k-1 (those of text 0 are not counted).", "quantifier": "every start line and list of texts", "why_tests_cant": "Inputs are unbounded byte strings; tests sample a handful.", "anchors": ["node.go: NewNodes"]}
{"id": "C34", "title": "Nil nodes are safe", "statement": "Every Node method except Combine* can be called on nil, and setters and link operations on nil change nothing but the links of the other argument.", "quantifier": "every heap, every argument", "why_tests_cant": "Inputs are unbounded byte strings; tests sample a handful.", "anchors": ["node.go"]}
{"id": "C35", "title": "Cycles", "statement": "Insert*, Take*, Remove*, Isolate, Combine* and Copy keep every chain finite; ReplaceNext(m) on n closes a cycle exactly when n is reachable from m by Next (m not already n's successor), and otherwise keeps every chain finite. Whatever was done, every node lies either on a finite chain or on a ring (Next leads from it back to it), never both.", "quantifier": "every consistent acyclic heap and every pair of nodes", "why_tests_cant": "An infinite loop shows up only for the aliasing pattern that causes it.", "anchors": ["node.go: ReplaceNext, ReplacePrev, InsertNext"]}
{"id": "C36", "title": "Package name", "statement": "NewAst fails with ErrNoPackage exactly when no scope has kind Package; Package() returns the text of the first Raw node after the first package keyword of the first package scope, and for a file beginning 'package NAME' that is NAME.", "quantifier": "every list of scopes, every heap", "why_tests_cant": "Inputs are unbounded byte strings; tests sample a handful.", "anchors": ["ast.go: NewAst, findPackageName, Package"]}
{"id": "C37", "title": "Save writes the scopes", "statement": "Save writes to SaveFile exactly the concatenated node texts of all scopes in order, reports 'save empty data' without touching the file system when that is empty, and when it returns nil the file named with the .go suffix holds the formatter's output, or the raw text if the formatter failed; no other file changes.", "quantifier": "every Ast, every file system, every behaviour of formatter and OS", "why_tests_cant": "Requires every OS/formatter outcome, including failures that tests cannot provoke.", "anchors": ["ast.go: Save", "helper/helper.go: SaveFile"]}
{"id": "C38", "title": "Save and failures", "statement": "If SaveFile fails before the file is created nothing changed on disk; if the write fails the target holds a prefix of the new content and its old content is lost; no other file ever changes.", "quantifier": "every failure point, every file system", "why_tests_cant": "Crash points and disk failures are not reachable from unit tests.", "anchors": ["helper/helper.go: SaveFile"]}
{"id": "C39", "title": "ParseAst errors", "statement": "ParseAst returns ErrNotExist exactly when the file (with .go appended if missing) does not exist and the operating system does not refuse for another reason, passes on other read and format errors, returns ErrNoPackage exactly when the formatted text has no package scope, and otherwise an Ast with the given path whose scopes are those of ParseScope(0, formatted text).", "quantifier": "every file system, every behaviour of formatter and OS", "why_tests_cant": "Needs every outcome of the OS and the formatter.", "anchors": ["ast.go: ParseAst", "helper/helper.go: ReadFile"]}
{"id": "C40", "title": "Ast.Copy is independent", "statement": "A copy of an Ast has the same path fields and scopes with equal lines, kinds and node data, and no later mutation of nodes of one chain or AppendScope on one of them is visible through the other. In particular the copy is a snapshot: whatever calls are made afterwards on nodes outside the copy, Save of the copy writes the text the original had when it was copied and its scopes show what they showed then, and the other way round.", "quantifier": "every Ast with finite chains, every later mutation", "why_tests_cant": "Unbounded histories of API calls and aliasing patterns between chains; tests check a few fixed lists.", "anchors": ["ast.go: Copy", "scope.go: Copy"]}
{"id": "C41", "title": "SetScope and AppendScope", "statement": "SetScope returns an Ast with the given scopes and the same path fields, leaving the receiver as it was; AppendScope appends exactly the given scopes in order. Two Asts that share a backing array with spare capacity can overwrite each other's appended scopes; Asts on different arrays cannot.", "quantifier": "every slice layout, every growth policy", "why_tests_cant": "Aliasing through spare slice capacity depends on the runtime's growth policy and on call history.", "anchors": ["ast.go: SetScope, AppendScope"]}
{"id": "C42", "title": "IterScope", "statement": "IterScope calls the callback on the scopes in order up to and including the first on which it returns false.", "quantifier": "every list of scopes, every callback", "why_tests_cant": "Inputs are unbounded byte strings; tests sample a handful.", "anchors": ["ast.go: IterScope"]}
{"id": "C43", "title": "kind.New", "statement": "kind.New classifies every string by the documented precedence: empty, fixed separators and keywords, all digits, other single separator (carriage return), string literal prefix, other Go keyword, basic type, all operator bytes, else Raw; it never returns a resetter kind.", "quantifier": "every byte string", "why_tests_cant": "Inputs are unbounded byte strings; tests sample a handful.", "anchors": ["kind/kind.go: New"]}
{"id": "C44", "title": "GetClose", "statement": "GetClose is an involution on the six brackets, pairs each with its counterpart, and reports false for everything else.", "quantifier": "every kind", "why_tests_cant": "Finite but open to user-made kinds.", "anchors": ["kind/kind.go: GetClose"]}
{"id": "C45", "title": "Scope kinds", "statement": "newScopeKind returns the unique scope keyword the text begins with, or Unknown if there is none; ToKind and String agree with the keyword.", "quantifier": "every byte string", "why_tests_cant": "Inputs are unbounded byte strings; tests sample a handful.", "anchors": ["scope.go: newScopeKind", "scope/scope_kind.go"]}
{"id": "C46", "title": "HasPrefix and HasSuffix", "statement": "HasSuffix is exact for every suffix; HasPrefix is exact for every ASCII prefix (so for every key the extractor uses), and is not exact for multi-byte prefixes.", "quantifier": "every pair of byte strings", "why_tests_cant": "Inputs are unbounded byte strings; tests sample a handful.", "anchors": ["helper/helper.go: HasPrefix, HasSuffix"]}
{"id": "C47", "title": "TidyText", "statement": "TidyText output contains no newline, carriage return or tab byte, and a space only as part of the arrow standing for a tab; text without blanks is unchanged.", "quantifier": "every byte string", "why_tests_cant": "Inputs are unbounded byte strings; tests sample a handful.", "anchors": ["helper/helper.go: TidyText"]}
{"id": "C48", "title": "AppendUnrepeatable", "statement": "AppendUnrepeatable appends the elements, dropping the first one exactly when it repeats the current last element.", "quantifier": "every pair of lists", "why_tests_cant": "Inputs are unbounded byte strings; tests sample a handful.", "anchors": ["helper/helper.go: AppendUnrepeatable"]}
{"id": "C49", "title": "Character sets", "statement": "Contain reports membership in the arguments of New / the union of the arguments of NewSlice; a nil set contains nothing.", "quantifier": "every list of elements", "why_tests_cant": "Inputs are unbounded byte strings; tests sample a handful.", "anchors": ["charset/charset.go"]}
{"id": "C50", "title": "Trie lookup", "statement": "After AddText(s, v), FindText(s) is (v, true); a key none of whose non-empty paths was a prefix of an added key is not found; adding s leaves lookups of keys that are not prefixes of s unchanged, but resets the values of non-empty proper prefixes of s to zero. Keys count by their paths (the first bytes of their runes), so different multi-byte keys can collide; for ASCII keys the path is the key and FindText, FindByte and the reverse lookups agree.", "quantifier": "every trie, every key", "why_tests_cant": "Inputs are unbounded byte strings; tests sample a handful.", "anchors": ["trie.go: AddText, FindText, FindByte"]}
{"id": "C51", "title": "Trie construction order", "statement": "newTrie is independent of map iteration order when no key is a proper prefix of another, and can depend on it otherwise.", "quantifier": "every map, every iteration order", "why_tests_cant": "Random map order.", "anchors": ["trie.go: newTrie"]}
{"id": "C52", "title": "Descriptions", "statement": "Node.Description shows line+1, the tidied text and the kind name (\"<nil>\" for nil); Scope.Description shows Line()+1, one more than the line shown for its first node. Print writes exactly one line: a tab, a blank and the description of a node, or the description of a scope. The debug text that every resetter computes on entry is read-only, returns on every finite chain, and covers at most the next five nodes.", "quantifier": "every node, every scope", "why_tests_cant": "Inputs are unbounded byte strings; tests sample a handful.", "anchors": ["node.go: Description, Print, debugText", "scope.go: Description, Print", "ast.go: Description"]}
{"id": "C53", "title": "Bracket skipping", "statement": "Skipping a bracketed group from its opener stops at the matching closer: the first position where closers have caught up with openers, and reports nil when there is none.", "quantifier": "every chain of kinds", "why_tests_cant": "Inputs are unbounded byte strings; tests sample a handful.", "anchors": ["node.go: skipNestNext"]}
{"id": "C54", "title": "Parse-save round trip", "statement": "For a file whose formatted text has a package clause, no comments in func and type scopes and only safe type scopes (see 'Parsing and printing loses only comments'), ParseAst succeeds and Save hands exactly that text from its first scope on to the formatter and the file system; in particular parsing and saving an already formatted file that begins with `package` under its own name leaves every file as it was.", "quantifier": "every file content, every behaviour of the formatter", "why_tests_cant": "Inputs are unbounded byte strings; tests sample a handful.", "anchors": ["ast.go: ParseAst, Save"]}
{"id": "C55", "title": "Labels of a function declaration", "statement": "In a scope that begins `func NAME` or `func (RECEIVER) NAME`, ParseScope labels the nodes of the signature as a small grammar says: NAME is FuncName; in the parentheses of parameters and results the first word of each parameter is ParamName and the other words outside square brackets are ParamType, a parameter of a single word is ParamType, the receiver gets MethodReceiverName/MethodReceiverType; in a function-typed parameter or result `func(...)` the inner parameters are labelled in the same way, to any depth; a single unparenthesised result becomes one ParamType node; type parameters in square brackets, bodies in curly brackets and everything behind the end of the declaration are unchanged. In particular every `func NAME(a T, b U, ...)` with anything behind it gets exactly one ParamName and one ParamType per parameter. Known exceptions: in `func f(a, b T)` the name a is labelled as a type, in `func f([]T)` the type is labelled as a name, in `func f(func(A) B)` the type B is labelled as a name, and in `func f(g func(A) (B, C), d D) E {}` the list ends at the inner `)`: d becomes a type and `D)` one node.", "quantifier": "every source text, every number and form of parameters the grammar covers, every map iteration order, every heap", "why_tests_cant": "Parameter lists, bodies and what follows are unbounded; tests sample a handful.", "anchors": ["kind_resetter_func.go", "kind_resetter_parenthesis.go: parenthesisResetter", "scope.go: ParseScope"]}
{"id": "C56", "title": "Labels of struct fields", "statement": "In a scope `type NAME struct { ... }` ParseScope labels NAME as TypeName and each line between the brackets as a small grammar says: in a line that begins with n names separated by commas, a space and a type, those n names become ParamName and every later word ParamType; a word standing alone is an embedded type and becomes ParamType; in a field of function type the names and types between the parentheses are labelled as the parameters of a function are (but words in square brackets become ParamType, too), over several lines if need be, and the results become ParamType; tags, comments, brackets, basic types and blanks keep their kinds and no text changes. In particular every struct whose lines are `a, b T`, `E`, `f func(x X, y Y)`, `f func(x X) R` or `f func(x X) (R, S)` gets exactly these labels whatever stands behind the closing bracket. Known exception: an embedded type followed by a tag or a comment is labelled as a name.", "quantifier": "every source text, every number of lines, names and type tokens the grammar covers, every map iteration order, every heap", "why_tests_cant": "Structs are unbounded in lines and in what a line contains; tests sample a handful.", "anchors": ["kind_resetter_type.go: structResetter, typeResetter", "scope.go: ParseScope"]}
{"id": "C57", "title": "Labels of interface members", "statement": "In a scope `type NAME interface { ... }` with one member per line ParseScope labels each method name as FuncName, its parameters and results as in a function declaration, and the first word of an embedded interface or union as TypeName; all other nodes and all texts of the lines stay, except that a single unparenthesised result becomes one ParamType node. Known exception: in an interface written on one line the closing bracket can be labelled as a result.", "quantifier": "every source text, every number and form of members the grammar covers, every map iteration order, every heap", "why_tests_cant": "Interfaces are unbounded in members and parameters; tests sample a handful.", "anchors": ["kind_resetter_type.go: interfaceResetter, typeResetter", "kind_resetter_func.go", "scope.go: ParseScope"]}
{"id": "C58", "title": "Labels of other type declarations", "statement": "In a scope `type NAME DEFINITION`, with or without type parameters, ParseScope labels NAME as TypeName, leaves type parameters, `=`, basic types and everything within square brackets unchanged, and merges the named type at the end of the definition into one ParamType node; structs and interfaces inside the definition are labelled as above. Known exceptions: the result of a function type is labelled FuncName, a trailing comment's leading space is merged into the type, and a parenthesised group of type declarations gets no labels.", "quantifier": "every source text the grammar covers, every map iteration order, every heap", "why_tests_cant": "Definitions are unbounded; tests sample a handful.", "anchors": ["kind_resetter_type.go: typeResetter", "kind_resetter_all.go: paramResetter", "scope.go: ParseScope"]}
{"id": "C59", "title": "A parse is a function of the text", "statement": "ParseScope(startLine, text) neither reads nor changes any node that existed before: whatever other nodes, parses or edits the program made (even cyclic or broken links), and whatever order Go iterates over its map in, it returns, leaves all earlier nodes as they were, and shows through the API (scopes, kinds, lines, texts, labels, links, the six name getters, Description, package name, the text Save writes) exactly what a parse of the same text alone in a fresh program shows; later parses do not change what is shown of earlier results. Re-parsing an output that equals its input shows the same result. ParseAst likewise depends only on the file's contents.", "quantifier": "every text, start line, prior heap (no well-formedness assumed), map iteration order, and every finite sequence of parses", "why_tests_cant": "The claim compares runs in all possible program states and histories; tests run each input in a fresh process.", "anchors": ["scope.go: ParseScope", "extractor.go: extract", "kind_resetter_all.go: resetKind", "ast.go: ParseAst"]}
{"id": "C60", "title": "Each declaration is parsed as if it were alone", "statement": "If a text is put together from declarations, each of whole lines with its round and curly brackets closed and each beginning with a declaration keyword (or comment) that is followed by a word before its first bracket, then ParseScope returns the scopes of each declaration parsed on its own, in order: same kind, same nodes with the same texts and labels, same answers of the six name getters, and all lines (of the scopes and of their nodes) further down by the number of lines before. Hence adding, removing or replacing a declaration never changes how any other declaration is parsed. Exceptions shown: a bracket with no word before it reports a line of the text before, and a declaration on the same line as the previous one is not a scope of its own.", "quantifier": "every number of declarations, every text of each, every start line, every prior heap and map iteration order", "why_tests_cant": "The claim compares the parses of all combinations of unboundedly many texts; a test fixes one file.", "anchors": ["scope.go: ParseScope", "extractor.go: extract", "kind_resetter_all.go: resetKind"]}
{"id": "C61", "title": "What Save writes after an edit", "statement": "Take an Ast whose scopes hold chains of nodes, each node in one scope (every Ast that ParseAst returns is one). The bytes that Save hands to SaveFile change with an edit of a node exactly at the place of the edit: SetText replaces that node's text; SetKind changes nothing; InsertNext and InsertPrev (not on the first node of a scope) add the new node's text next to it; TakeNext and TakePrev take one node's text out; RemoveNext and Isolate drop what is behind the node in its scope; ReplaceNext writes the new nodes in place of what was behind; CombineNext with fresh nodes adds their texts behind that of the node; CombinePrev with fresh nodes adds their texts, the last first, before it; Copy saves the same bytes; AppendScope adds at the end. Exceptions shown: InsertPrev on the first node of a scope is not saved, TakePrev of and RemovePrev up to the first node save only what was cut off, CombineNext with the nodes that follow loses what was behind them, CombinePrev with the nodes before loses the node itself, their texts and what is behind, ReplacePrev loses the node and what is behind. End to end: for a formatted file without comments that begins with package NAME and holds no keyword type or no '(', parsing, SetText on any one node and saving writes the file with that piece replaced. The same holds for every formatted file whose sections keep their text (C64: also with comments, types, imports), and a new node put behind any node with InsertNext adds its text at that place.", "quantifier": "every document (number of scopes, length of each, texts, kinds, lines), every node in it, every new text, kind and node list, every environment and file system", "why_tests_cant": "The claim ranges over unboundedly large documents and every position in them, in every heap; a test edits one node of one file.", "anchors": ["node.go: SetText, SetKind, InsertNext, InsertPrev, TakeNext, TakePrev, RemoveNext, RemovePrev, Isolate, ReplaceNext, CombineNext", "ast.go: ParseAst, Save, Copy, AppendScope"]}
{"id": "C62", "title": "Iterating while editing", "statement": "IterNext calls back for a node and then goes on with the node that is next after the call. A callback that leaves the links from the current node on alone is called for exactly the nodes of the chain as it was at the start, in order, until it says stop; this covers TakePrev on the current node under any condition, SetKind and SetText on any nodes. TakeNext in the callback skips the node taken out: what is visited is what remains. InsertPrev of a new node before each node visited leaves the new nodes unvisited and in place. Traps shown: a callback that inserts a new node behind every node never ends; one that takes the current node out (Isolate) ends the iteration there.", "quantifier": "every heap with consistent links, every chain, every callback (any condition, any captured state), every stopping point", "why_tests_cant": "Callbacks are arbitrary programs, chains unbounded, and non-termination cannot be observed by a test.", "anchors": ["node.go: loop, IterNext, TakePrev, TakeNext, InsertPrev, InsertNext, Isolate"]}
{"id": "C63", "title": "Taking the comments out of a file", "statement": "The repository's example program (iterate over the scopes, keep those that are not comments, TakePrev behind every comment node in them, SetScope with the scopes kept, Save): on every Ast that ParseAst returned it ends without panic; the new Ast has the scopes kept, in order, and the same file name; what it saves is exactly the texts of the nodes of these scopes, in order, without the comment nodes. The only comments left stand at the very end of a scope.", "quantifier": "every file content, prior heap, environment, number of scopes and nodes, position of comments", "why_tests_cant": "The claim covers every file and every placement of comments; the example runs on one file and checks no output.", "anchors": ["exported/main_test.go: TestExample", "ast.go: IterScope, SetScope, Save", "node.go: IterNext, TakePrev"]}
{"id": "C64", "title": "Files of ordinary declarations keep their text", "statement": "ParseScope divides a text into sections (at every piece that begins a new line with a scope keyword), one scope each. A scope has after the parse exactly the text of its section if the section is not a function or type; or has no comments (and is no type with a ( inside an aliased type); or is a function, method or type declaration of the usual form, with comments anywhere except inside a single result type or an aliased type: before and in bodies, between and behind parameters, results, fields and methods. So parsing and saving a formatted file whose sections are all of these forms, and which has a package clause, leaves the file as it is, byte for byte; a program that recognises the forms is proved right and accepts, for example, goast's own trie.go.", "quantifier": "every text, start line, prior heap, map order and environment; any number of declarations, parameters, fields, methods and comments", "why_tests_cant": "The claim is about every file of a large class and about every byte of it; a test can compare a few files.", "anchors": ["scope.go: ParseScope", "kind_resetter_func.go, kind_resetter_parenthesis.go, kind_resetter_type.go", "ast.go: ParseAst, Save"]}
{"id": "C65", "title": "Labels of every section of a file", "statement": "ParseScope makes one scope of each section of a text. For every section that the token grammars of functions, methods and types can read, and for every section that is neither a function nor a type, the nodes of its scope have after the parse exactly the kinds and texts that the grammar gives: names of functions, types, parameters, receivers and fields, types of parameters, receivers, results and fields; all other tokens unchanged. This holds section by section whatever the other sections are; a file put together from declarations gets the labels the declarations get on their own. A program that computes the labels is proved right and labels all of goast's trie.go.", "quantifier": "every text, start line, prior heap and map order; any number of sections, parameters, fields, methods", "why_tests_cant": "The labels of one declaration must not depend on any of its neighbours, for every file; tests check a handful of files node by node.", "anchors": ["scope.go: ParseScope", "kind_resetter_func.go, kind_resetter_parenthesis.go, kind_resetter_type.go"]}
{"id": "C66", "title": "Table of contents of a file", "statement": "After ParseScope the getters of every scope whose section begins as a declaration answer with what it declares, whatever follows the name and whatever the other sections are: GetFuncName with the name of a function or method, GetMethodName and GetMethodReceiver only for methods (with the first word labelled as the receiver's type), GetTypeName only for types, none of them for other sections; GetStructName and GetInterfaceName report the name of a type and whether its labelled tokens contain struct or interface. Plain functions have no receiver whatever their bodies contain. For goast's trie.go the whole table is computed.", "quantifier": "every text, start line, prior heap and map order; any number of sections; any tokens behind the names", "why_tests_cant": "The answer must not depend on the body of a function or on other declarations, which range over all token sequences.", "anchors": ["scope.go: ParseScope, GetFuncName, GetMethodName, GetMethodReceiver, GetTypeName, GetStructName, GetInterfaceName", "kind_resetter_func.go, kind_resetter_type.go"]}
{"id": "C67", "title": "Rename, save and parse again", "statement": "A client parses a formatted file of declarations, visits all nodes and sets the text of those labelled as the name of a function called OLD to NEW, and saves. If the file declares exactly one such name, the saved file is the old one with that name replaced, no other file changes, and ParseAst on it returns an Ast whose getters answer for every scope as the sections of the old file declare, except that the function is called NEW. Proved for every NEW for goast's own trie.go as an instance.", "quantifier": "every file built of declarations that the grammar reads, every old and new name, environment and prior state", "why_tests_cant": "It is a property of the composition parse, edit, save, parse on a class of files and on all names.", "anchors": ["ast.go: ParseAst, IterScope, Save", "node.go: IterNext, Kind, Text, SetText", "scope.go: ParseScope and getters", "ast.go: save, Save"]}
{"id": "C68", "title": "Rewriting the words of a file by their labels", "statement": "The loop of a client that visits every node of every scope and replaces its text by any function of its kind and text: on every Ast it ends; nodes, links, kinds, lines and scopes stay as they are; every node is visited exactly once, so what Save writes is, in order, the replaced texts. On a parsed file whose sections the grammar reads this is the replaced texts of the labelled tokens; renaming the only function called OLD writes the file with exactly this word replaced. And from file to file: the rewritten file is saved, and if it is formatted and its sections declare certain names, the getters of the Ast parsed from it answer with those, whatever the tool did (renaming a type at its declaration, receivers, parameters and results, but not a field of that name, is the worked instance).", "quantifier": "every Ast, every replacement function, every file content, environment and prior state", "why_tests_cant": "It quantifies over all callbacks, all documents and all visits.", "anchors": ["ast.go: IterScope, Save", "node.go: IterNext, SetText, Kind, Text", "ast.go: ParseAst"]}
{"id": "C69", "title": "Goroutines with nodes of their own do not disturb each other", "statement": "When several goroutines call the API on nodes of their own (no node can be reached by two of them), each is shown exactly what it is shown when it runs alone, none of them panics or hangs if none does alone, and nodes belonging to none of them stay as they were. Goroutines that start with nothing (and make their nodes by ParseScope, NewNode, NewNodes) and goroutines that each get one scope of the same parse are in this situation. If a node is shared, what a goroutine reads depends on the schedule.", "quantifier": "every number of goroutines, every program of each (any function from what was shown so far to the next call), every finite schedule, every heap of nodes and every division of nodes that is closed under Next and Prev", "why_tests_cant": "It quantifies over all schedules and all programs; a test run sees one interleaving.", "anchors": ["node.go: NewNode, NewNodes, InsertNext, TakeNext, CombineNext, Copy, SetText", "scope.go: ParseScope, NewScope, Copy", "extractor.go: extract", "kind_resetter_all.go: resetKind"]}
{"id": "C70", "title": "assert.Equal and assert.NotEqual", "statement": "Equal(value, expected) lets the test go on exactly when both have the same dynamic type and are equal part by part (== of Go) and hold nothing Go cannot compare; if they differ and can be compared the test fails, is ended, and the logged text shows the test's name, both values and the messages. Values of different dynamic types always fail and never panic (1 and int64(1) differ). Two slices, maps or functions of one type always panic, even when identical. Equal is symmetric; NotEqual goes on exactly when Equal fails, fails exactly when Equal goes on, and panics exactly when Equal panics.", "quantifier": "every pair of Go values (any nesting of arrays, structs, interfaces), every test name, all messages", "why_tests_cant": "It quantifies over all Go values of all types.", "anchors": ["assert/assert.go: Equal, NotEqual"]}
{"id": "C71", "title": "assert.Nil, NotNil, Error, NoError and Require", "statement": "Nil goes on exactly for nil and for nil pointers, maps, channels and slices; NotNil is its opposite; both panic on arrays, and a nil function counts as not nil. Error/NoError are opposites decided by err != nil; Require goes on exactly for true. A failing one logs its text with the test's name and the messages, marks the test as failed and ends it. With a nil testing.T an assertion that would go on goes on and one that would fail panics.", "quantifier": "every Go value, error, test name, messages", "why_tests_cant": "It quantifies over all Go values of all types.", "anchors": ["assert/assert.go: Nil, NotNil, Error, NoError, Require, isNil"]}
{"id": "C72", "title": "assert.Panic and assert.NoPanic", "statement": "Both call the function once and keep all it did. If it returns, NoPanic goes on and Panic fails; if it panics, the panic is stopped, Panic goes on and NoPanic fails with the panic's value in the text; if it ends the goroutine (a failing assertion inside), both end with it and log nothing more.", "quantifier": "every function (any effect on the program and the test), every state", "why_tests_cant": "It quantifies over all functions and states.", "anchors": ["assert/assert.go: Panic, NoPanic, Call"]}
{"id": "C73", "title": "Assertions one after another", "statement": "A test that makes assertions one after another returns, not marked as failed by them, if all go on; otherwise the first that does not go on decides: a failing one ends the test with its text as the only one logged, a panicking one panics, and nothing behind it is run.", "quantifier": "every list of assertions, every state", "why_tests_cant": "It quantifies over all sequences.", "anchors": ["assert/assert.go: Nil, NotNil, Equal, NotEqual, Error, NoError, Require"]}
{"id": "C74", "title": "Goroutines with files of their own do not disturb each other", "statement": "Goroutines that each parse, build, edit, copy, append to and save Ast values of their own, on nodes, scopes and scope slices of their own, and of which none saves a file another one reads or saves, do not disturb each other: under every schedule each is shown exactly what it is shown when it runs alone (errors included), and every file ends up with the content the goroutine that can touch it leaves there when it runs alone; files nobody saves stay as they were. Two Ast values made from one by SetScope(a.Scope()) are not apart: they share a backing array, and AppendScope on them in two goroutines can put the scope of one into the file of the other.", "quantifier": "every number of goroutines, every program (which may depend on all it was shown), every schedule, every initial heap, file system, operating system and formatter behaviour, every slice capacity the runtime chooses", "why_tests_cant": "The number of schedules grows exponentially and the runtime picks one; the race detector sees only the schedule that ran.", "anchors": ["ast.go: ParseAst, NewAst, SetScope, AppendScope, Copy, Save", "helper/helper.go: ReadFile, SaveFile", "scope.go: ParseScope, NewScope", "node.go: Node"]}
{"id": "C75", "title": "Save killed at any moment, and run again", "statement": "If the process is killed at any moment while Save or SaveFile runs, every other file is as it was, and the file itself is as it was or holds a beginning of the new content; there always is a moment at which it is empty (saving is not atomic), and a file killed at that moment is rejected by ParseAst with ErrNoPackage. A program that saves given data to any list of files may be killed any number of times at any moments: the calls before the one that was killed are complete and the later ones have changed nothing, and when it finally runs to its end every file is as if it had never been killed. Programs that save at the same time, none a file of another, leave the files as if they had run one after another, in whatever order their changes on disk happen; if two save the same file, it can end up with a content neither of them wrote.", "quantifier": "every file system, every operating system and formatter behaviour, every list of calls, every crash point, every history of crashes, every way the kernel takes the bytes in pieces, every interleaving of the changes on disk", "why_tests_cant": "A test cannot stop the process between two system calls at every point, nor enumerate the orders in which the kernel serves several processes.", "anchors": ["helper/helper.go: SaveFile, ReadFile", "ast.go: Save, ParseAst"]}
{"id": "C76", "title": "Name getters answer for the nodes as they are now", "statement": "GetFuncName, GetTypeName and GetMethodReceiver answer with the text of the first node of kind FuncName, TypeName or MethodReceiverType the scope has at the moment of the call, with true; if there is none GetFuncName answers (\"\", false) and the others with the text of the last node and false. GetMethodName answers with the text of the first FuncName node if some node is a MethodReceiverType, and with (\"\", false) otherwise. So SetText on that first node renames the function, type or receiver for these getters at once, SetText on any other node does not change their answers, and SetKind can make a node the name. Two scopes of one kind with the same kinds and texts of nodes get the same answers.", "quantifier": "every scope, every list of nodes with any kinds and texts, every node, every text", "why_tests_cant": "The getters are called on scopes that programs have edited arbitrarily; a test sees a few parsed ones.", "anchors": ["scope.go: GetFuncName, GetTypeName, GetMethodName, GetMethodReceiver", "node.go: SetText, SetKind"]}
{"id": "C77", "title": "The program that prints a file's interfaces", "statement": "The program of TestUsecase (iterate over the scopes, skip those for which GetInterfaceName does not say true, Print the others and all their nodes) ends on every Ast ParseAst returns and on every Ast with finite chains, and prints, in order, exactly the scopes that are type declarations with an interface among their words: one line for the scope, one for every node.", "quantifier": "every Ast, every parsed file, every state of the program", "why_tests_cant": "The test prints one file and looks at nothing; it must hold for every file.", "anchors": ["exported/main_test.go: TestUsecase", "scope.go: GetInterfaceName, Print", "node.go: Print, IterNext", "ast.go: IterScope"]}
{"id": "C78", "title": "Debug output only after SetDebug(true)", "statement": "After any history of SetDebug and DebugPrint calls, DebugPrint writes nothing to standard output unless the last SetDebug said true; then it writes its (string) arguments and a tab, a blank after each, the first word of the seventh line of the stack (nothing if the stack has fewer lines) and a newline. SetDebug writes nothing, and of several in a row the last counts. A program that never says SetDebug(true) gets no debug output.", "quantifier": "every history of calls, every stack, every list of string arguments", "why_tests_cant": "It is about every sequence of calls and every stack the runtime may report; the repository has no test for it.", "anchors": ["helper/helper.go: SetDebug, DebugPrint"]}
{"id": "C79", "title": "Kinds are values, user-made ones too", "statement": "A program may make its own kinds (kind.Kind{lit, name}, scope.Kind(s)). Two node kinds are equal exactly if both strings are, so a kind made with the strings of a declared one is that one and the zero value is None. String, also through a pointer, gives the second string, and \"\" for a nil pointer. GetClose answers by the strings: the counterpart for a bracket kind, (None, false) for every other kind. kind.New returns declared kinds only. A node keeps the kind given to SetKind, and its Description ends with that kind's name. Scope kinds are equal exactly if their strings are; String and ToKind follow the table for declared strings and give \"\" and None for all others.", "quantifier": "every pair of strings, every node, every string of a scope kind", "why_tests_cant": "The set of kinds a program can make is infinite; tests compare a few declared ones.", "anchors": ["kind/kind.go: Kind, String, PointerString, GetClose, New", "scope/scope_kind.go: Kind, String, ToKind", "node.go: SetKind, Description"]}
{"id": "C80", "title": "Iterating over scopes while editing the Ast", "statement": "IterScope calls a callback that leaves the scope slice's elements alone for exactly the scopes the Ast had at the start, in order, until it says stop, whatever it does to nodes and to other Asts. A callback that calls AppendScope on the Ast it iterates over does not make the loop go on: the appended scopes are not visited, and afterwards the Ast has the old scopes followed by all appended ones. ast.Scope()[i] = x replaces exactly that scope in every Ast that shares the slice and panics exactly if there is none; a scope assigned by the callback before its turn is visited as assigned.", "quantifier": "every Ast, every callback, every list of appended scopes, every growth of slices", "why_tests_cant": "Callbacks are arbitrary programs; whether the loop sees what they change depends on slice aliasing, lengths and capacities that no finite set of tests covers.", "anchors": ["ast.go: IterScope, AppendScope, Scope"]}
{"id": "C81", "title": "Goroutines interleaved at single memory accesses", "statement": "Any number of goroutines run code made of API calls on nodes; the scheduler may switch after every single read, write or allocation of a node. If no goroutine writes a node another one reads or writes, there is no data race under any schedule, nobody is stopped by another one, and every goroutine gets exactly what it gets alone. All calls that make or change nodes write only nodes of the island of their arguments (nodes linked to them) and new nodes, and return such nodes; looking at nodes, iterating, the getters of scopes and Copy may also be used on nodes that are shared and not written. Goroutines that only look may share all nodes. The single steps of a call, run to their end, are the call. Goroutines that change the same nodes can panic or lose a node although every order of whole calls is harmless.", "quantifier": "every number of goroutines, every code made of calls and callbacks, every heap of nodes, every schedule, every choice of addresses by the allocator", "why_tests_cant": "The number of interleavings of single accesses is astronomical; the race detector sees only schedules that happen.", "anchors": ["node.go: all methods of Node, NewNode, NewNodes", "scope.go: GetFuncName, GetTypeName, GetStructName, GetInterfaceName, GetMethodReceiver, GetMethodName"]}
{"id": "C82", "title": "Many goroutines call ParseScope at once", "statement": "Any number of goroutines may call ParseScope at the same time, each with a text of its own, in any state of the program's nodes, while the scheduler may switch after every single read, write or allocation of a node. No two of them ever are about to touch the same node, no node that existed before is read or written, none panics or is held up by another one; each makes a number of steps that depends on its text only and then has returned scopes that look exactly as if the text had been parsed alone: same kinds and lines of scopes, same lines, kinds and texts of nodes, in doubly linked lists of new nodes that no two scopes, of one or of two goroutines, share. A goroutine may go on working with what it got.", "quantifier": "every number of goroutines, every texts and start lines, every memory, every schedule, every choice of addresses by the allocator, every iteration order of Go's maps", "why_tests_cant": "The interleavings of single accesses of several parses cannot be enumerated; the race detector sees only the schedules that happen and says nothing about results.", "anchors": ["scope.go: ParseScope", "extractor.go: extract, extractor.Run", "kind_resetter_all.go: resetKind and all resetters", "node.go: NewNode and the methods the parser uses"]}
{"id": "C83", "title": "How long ParseScope takes, and how many nodes it makes", "statement": "For a text of n bytes ParseScope makes at most n nodes, and it has returned after at most 50000 (n+1)^3 memory accesses (reads and writes of fields of nodes, and allocations of nodes): the time is bounded by a polynomial, whatever the text, in whatever state the program is, whatever order Go iterates over its map in and whatever addresses the allocator gives. The number of accesses is fixed by the text; with other goroutines parsing at the same time each keeps its own bound, under every schedule, and until it has returned it can always go on: none ever waits for another.", "quantifier": "every text and start line, every memory, every schedule of any number of parsing goroutines, every choice of addresses, every iteration order of Go's maps", "why_tests_cant": "A test or benchmark times some texts; nested resetters that each walk over what their callees walked over may be quick on all of them and exponential on another.", "anchors": ["scope.go: ParseScope", "extractor.go: extract, extractor.Run", "kind_resetter_all.go: resetKind, paramResetter", "kind_resetter_func.go: funcResetter", "kind_resetter_parenthesis.go: parenthesisResetter", "kind_resetter_type.go: typeResetter, interfaceResetter, structResetter", "node.go: Node.IterNext, Node.Last"]}
{"id": "C84", "title": "How long the calls on nodes take, whoever else works on the same nodes", "statement": "Every method of Node that makes or changes nodes, Copy(true) apart, makes at most a fixed number of memory accesses (28 for InsertNext, 19 for ReplaceNext, 18 for TakeNext and Isolate, 9 for RemoveNext, one for SetKind, 19 per argument and three more for CombineNext, ...), whatever other goroutines do at the same time to the same nodes; no interleaving makes a dangling pointer, and a call that has not returned and has not panicked on a nil pointer can always go on: no call ever waits for another. On a list nobody changes, Last makes two accesses for each node behind it, less one, First likewise, Copy(true) seven for each node and one more, the getters of a scope at most six for each node, and IterNext and IterPrev with a callback that only reads and takes at most c steps at most c+1 for each node, however many goroutines read at the same time. A walk has no such bound when others change the list: two unsynchronised InsertNext calls can make a ring, and Last then never returns.", "quantifier": "every state of the nodes, every call and argument, every set of goroutines and every schedule of their single memory accesses, every choice of addresses by the allocator", "why_tests_cant": "A test sees a few interleavings and a few lists; a call that loops or dereferences a stale pointer under one rare interleaving, or is slow on a long list, passes it.", "anchors": ["node.go: NewNode, NewNodes, Node.Copy, Node.InsertPrev, Node.InsertNext, Node.ReplacePrev, Node.ReplaceNext, Node.TakePrev, Node.TakeNext, Node.RemovePrev, Node.RemoveNext, Node.CombinePrev, Node.CombineNext, Node.Isolate, Node.First, Node.Last, Node.IterNext, Node.Description", "scope.go: Scope.GetFuncName, GetTypeName, GetStructName, GetInterfaceName, GetMethodReceiver, GetMethodName"]}
{"id": "C85", "title": "A file assembled from parts that were parsed on their own", "statement": "A program may parse any number of texts one after another (snippets with ParseScope, files with ParseAst) and then put the scopes of some of them together in one Ast with NewAst, SetScope or AppendScope, in any order, leaving some out and using some several times. If each selected text consists of whole lines with closed brackets, begins with the first word of a declaration and has only sections that keep their text (C64), and one of them is a package clause, NewAst accepts the scopes, Package is the name in the first part if that is a package clause, and Save writes exactly the selected texts one below the other and changes no other file. If what it writes is formatted, ParseAst on the new file returns an Ast that shows the very scopes that were put in: the same kinds, nodes, labels and names, only with the lines they have in the new file.", "quantifier": "every state, every list of texts and start-up history, every selection, order and repetition of the parts, every iteration order of Go's maps, every capacity Go gives to the slices", "why_tests_cant": "A test assembles a few files from a few parts; scopes of different parses share the heap and the backing arrays of slices, and a later parse or append might disturb an earlier part only in some order.", "anchors": ["scope.go: ParseScope", "ast.go: NewAst, ParseAst, Ast.SetScope, Ast.AppendScope, Ast.Save, Ast.Package"]}
{"id": "C86", "title": "A file generated from scopes made by hand", "statement": "A code generator may make scopes with NewScope(line, kind, NewNodes(startLine, texts...)), with texts cut into pieces in any way and with any lines and kinds, and put them in an Ast. Save writes the texts one after another, and no node that existed before changes; NewAst accepts the scopes if one was made with kind Package. If the texts make up whole declarations with closed brackets, one of them a package clause, and what is written is formatted, ParseAst on the file returns an Ast that shows the scopes of the declarations, each as it would be parsed alone, with their lines in the file; the lines, kinds and pieces the generator chose play no part.", "quantifier": "every state, every list of hand-made scopes, every cutting of the texts into pieces, every line and kind given to them, every environment", "why_tests_cant": "A test generates a few files; how the texts are cut into nodes, and which lines and kinds they are given, could matter for some combination.", "anchors": ["node.go: NewNodes", "scope.go: NewScope", "ast.go: NewAst, ParseAst, Ast.Save"]}
{"id": "C87", "title": "Edits in some declarations leave the others alone, also after saving and parsing again", "statement": "A program parses a formatted file made of declarations and makes any number of calls on nodes (insert, take, replace, combine, SetText, new nodes, ...), none of them on a node of certain declarations. Then the scopes of these declarations show exactly what they showed before, and Save writes their text as it was, around what the edited scopes say now. If what the edited scopes say are again whole declarations (none, one or several) and the result is formatted, ParseAst on the saved file shows the untouched declarations with the same kinds, nodes, labels and names, only moved by the number of lines added or removed before them, and the edited ones as their new text would be parsed alone.", "quantifier": "every file of declarations that keep their text, every choice of a block of them, every history of calls that avoids the nodes of the others, every new text", "why_tests_cant": "A test tries a few edits; links between the lists, or labels that depend on neighbouring declarations, would show only for some edit in some file.", "anchors": ["node.go: all editing methods of Node", "scope.go: ParseScope", "ast.go: ParseAst, Ast.Save"]}
{"id": "C88", "title": "Declarations can be moved between files", "statement": "A program parses any files made of declarations and puts together the scopes of any of these declarations, from any of the files, in any order, also several times (to move a declaration to another file, sort or split a file). The scopes of a file are those of its declarations one after another. If the picked declarations keep their text and there is a package clause among them, NewAst accepts such a list of scopes; after Save of one such Ast under one name and of another under a second name both files hold exactly the picked texts and no other file has changed; and ParseAst on each of them shows the picked scopes with the same kinds, nodes, labels and names as before, only on their new lines.", "quantifier": "every number of files of any declarations that keep their text, every two selections of declarations, every state, file system and pair of names", "why_tests_cant": "A test moves one declaration between two fixed files; a label or a line that depends on the neighbours of a declaration in its file shows only for some selection.", "anchors": ["scope.go: ParseScope", "ast.go: NewAst, ParseAst, Ast.Save"]}
{"id": "C89", "title": "The path fields of an Ast, and what files ParseAst and Save touch", "statement": "On Unix, for a path with a name in it (not empty, no slash at its end): Dir() and Filename() of the parsed Ast joined name the file whose path was given, however the path was spelled (doubled slashes, `.`, `..`); the file that ParseAst read lies in Dir() and is called Filename(), with `.go` behind it if the path did not end in `.go`. Ext() is Filename() from its last dot on, empty without a dot, and `.go` exactly when the path ends in `.go`. Saving under Dir() and Filename() joined writes the very file that was read, so ParseAst on any spelling of the original path (that leads through existing directories) finds what was saved, and no file at another place changes. The directory that Save makes is the one the file lies in that it writes. Two files in one directory have the same Dir(), however their paths were spelled. For a path without a name in it Dir() names what the path names and the file read is `.go` in there; Filename() then does not name it.", "quantifier": "every path, every working directory, every file system and environment, every Ast that ParseAst returns", "why_tests_cant": "The path is an arbitrary string; a test tries a few spellings.", "anchors": ["ast.go: ParseAst, ast.File, ast.Dir, ast.Filename, ast.Ext, ast.Save", "helper/helper.go: ReadFile, SaveFile"]}
{"id": "C90", "title": "An Ast over scopes of the program's own types", "statement": "Scope is an interface that any type can implement. Whatever its methods do (answer differently each time, change nodes, have effects of their own): Save calls Node() on each scope once, in the order of the scopes, and nothing else, and saves the texts of the nodes reached from each answer as they were when that call returned; if a call does not return (panics), neither does Save, and no file was touched. NewAst and Package call Kind() in order up to the first scope that answers Package, then Node() on that one, and nothing else, also not on the scopes behind it; they fail with ErrNoPackage when none answers Package. Description calls Description() and Node() on each scope in turn; Copy calls Copy() on each once and has the answers as its scopes. Scopes that embed a scope made by this package and replace other methods than Kind and Node are as good as that scope: NewAst, Package and Save do the same.", "quantifier": "every implementation of Scope, every list of scopes, every state of the program, every environment", "why_tests_cant": "The code behind an interface is arbitrary; a test has a few implementations.", "anchors": ["scope.go: Scope", "ast.go: NewAst, findPackageName, ast.Package, ast.Save, ast.Description, ast.Copy"]}
{"id": "C91", "title": "Saving on a file system with directories", "statement": "On a Unix file system where nothing but its contents makes a call fail: when Save returns nil, the place that the path names holds the formatted text and can be read under that path, every other file is as it was, and the directories are the old ones and those on the way to that place. When it fails no file has changed; it fails while making directories exactly when a file lies where a directory is needed, and then no directory has been made. Under a path whose directory is spelled as Dir() spells it, Save works exactly when there is something to save, no file lies where a directory is needed and no directory lies where the file is to be. An Ast parsed from a file can always be saved back under Dir() and Filename() joined, without making a directory. A path with a detour through a directory that does not exist makes Save fail although its place could be written.", "quantifier": "every file system with directories, every working directory in it, every path, every data, every answer of the formatter", "why_tests_cant": "Trees of directories and paths are unbounded; a test saves into a few temporary directories.", "anchors": ["helper/helper.go: SaveFile", "ast.go: ParseAst, ast.Save, ast.Dir, ast.Filename"]}
{"id": "C92", "title": "Any row of saves on a file system with directories", "statement": "After any number of calls of Save one after the other, on a Unix file system where nothing but its contents makes a call fail: every place holds the formatted text of the last call whose path names it and that returned nil, or what it held before if there was none; calls that returned an error have left no trace in any file; no directory and no file is lost, so that every path that could be read can still be read. This holds however the paths are spelled and if the working directory is changed between the calls; the contents are determined by the calls and the errors they returned. When all calls of a row have returned nil, making them all once more returns nil for each and changes nothing, no file and no directory; when some failed this need not hold.", "quantifier": "every file system with directories, every row of calls, every working directory, path and data in each, every answer of the formatter", "why_tests_cant": "Histories of calls, trees and spellings of paths are unbounded; a test makes a few saves into a temporary directory.", "anchors": ["helper/helper.go: SaveFile", "ast.go: ast.Save"]}
{"id": "C93", "title": "What ParseAst answers on a file system with directories", "statement": "On a Unix file system where nothing but its contents makes a call fail, following the path (with .go added if missing) part by part: ParseAst returns ErrNotExist exactly when one comes to a place where there is nothing, even if the path goes on and would come back; it returns another error of the operating system exactly when a file is met where the path goes on or the path leads to a directory; otherwise the path leads through directories to a file, and the answer is the formatter's error, ErrNoPackage, or an Ast with the given path over the scopes of the file's formatted text. A path that could be read is never answered with an error of the operating system after any row of calls of Save, whatever their paths.", "quantifier": "every file system with directories, every working directory, every path, every answer of the formatter, every row of saves", "why_tests_cant": "Trees of directories, paths and histories are unbounded; a test asks for one missing file.", "anchors": ["ast.go: ParseAst", "helper/helper.go: ReadFile", "helper/helper.go: SaveFile"]}
