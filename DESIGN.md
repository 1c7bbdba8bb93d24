# Formal model of yanun0323/goast

## Layout

* `lean/Verif/Model/*` – executable model of the Go code, function by function, each definition with the
  lines of /repo it models.
* `lean/Verif/Spec/*` – small independent specifications (chains, flat lexer, text reduction, ...). `Spec/Division.lean` says, by the pieces of a text and their lines alone, what the sections of a text are (`sectionsOf`); C14, C19–C21, C54–C58 and C64–C68 speak of scope number *i* as section number *i*, never of the model's own intermediate states.
* `lean/Verif/Proofs/*` – helper lemmas.
* `lean/Verif/Props/*` – the property theorems (the ones named in MANIFEST.json), each with a concrete
  non-trivial instance next to it.
* `lean/Verif/Tests.lean` – the repo's own unit tests replayed on the model (tests, not proofs).

## What is modelled

| code | model |
|---|---|
| helper/helper.go pure part, charset/charset.go | Model/Helper.lean |
| helper/helper.go ReadFile, SaveFile | Model/File.lean (OS, go/format, x/tools/imports are parameters `Env`); Model/SaveSteps.lean: the changes of SaveFile on disk one by one |
| kind/kind.go, scope/scope_kind.go | Model/Kind.lean |
| node.go (all of Node) | Model/Heap.lean: nodes are addresses in a heap, nil is `none` |
| node.go, the getters of scope.go, one memory access at a time | Model/Steps.lean: a call is a program of single reads, writes and allocations |
| extractor.go, kind_resetter*.go, ParseScope, one memory access at a time | Model/ParseSteps.lean |
| extractor.go | Model/Extract.lean; Go's random map order is the argument `ord` |
| node.go:460-555, kind_resetter_*.go | Model/Resetter.lean |
| scope.go | Model/Scope.lean |
| path/filepath (Go standard library): Clean, Dir, Base, Ext, called in ast.go:88-90 and helper.go:89 | Model/Path.lean |
| ast.go | Model/Ast.lean: Go slices with backing array, offset, length, capacity; Model/IterScope.lean: IterScope with callbacks that edit, assignment to `Scope()[i]` |
| scope.go: Scope as an interface that other types implement | Model/UserScope.lean |
| trie.go | Model/Trie.lean |
| exported/main_test.go (the two example programs, clients of the API) | Model/Example.lean |
| helper.go: SetDebug, DebugPrint | Model/Debug.lean |
| Description, Print, debugText | Model/Describe.lean |
| assert/assert.go | Model/Assert.lean: Go values as `reflect` shows them, a call in a test goroutine returns, panics or ends the goroutine; `reflect.Value.Equal`, `IsNil`, `testing.T.Fatalf`, `recover` after the Go 1.23 standard library; what `fmt` makes of a value is an argument; the stack text that `Call` returns is not modelled |

Not modelled: `_test.go` files (Verif/Tests.lean replays what they check); what the resetters pass to
`helper.DebugPrint` (the function itself is modelled, Model/Debug); `parenthesisResetter2`
(kind_resetter_parenthesis.go:169-255: dead code, no caller); `slog` calls; nil `*ast` / nil
`*scopeStruct` receivers (not obtainable through the API); overflow of Go `int` (line numbers are `Int`,
lengths `Nat`); memory and stack exhaustion; concurrent use of the same nodes is modelled as interleaving of
single accesses (C81; Go promises nothing more once there is a data race); user types that implement the `Scope` interface, outside C90; programs that reassign
the exported package variables (`kind.*`, `charset.*` maps). The file system is a map from names to
contents; two spellings of one path (`./a.go`, `a.go`) are one file only in C89 and C91–C93 (Model/Places, Model/Tree; directories only in C91–C93); links are not modelled. A `Kind.other` that carries
the strings of a declared kind stands for no Go value (`Kind.ofPair` never makes one).

## Trusted base

* Lean 4.33.0's kernel; the axioms `propext`, `Classical.choice`, `Quot.sound` (at most; no theorem uses
  others, `vcheck` prints them).  No `native_decide`, no compiled evaluation: closed terms are evaluated by the
  kernel (`decide +kernel`) or by `cbv`, which builds a proof term that the kernel checks.
* The reading of the Go code into `Verif/Model`, and of the Go language used there: `range` over a string
  visits rune starts (`rangeBytes`), `string(byte)` is UTF-8 encoding (`byteToString`), slices alias as in
  `AState.append`, map iteration order is arbitrary.
* Loops and recursion carry fuel; running out of fuel is a distinguished result `none`, and totality theorems
  (C02, C09, C16, C32) show it never happens under the stated conditions, so no other theorem is true because of it.
* `Env` (file system calls, formatter) is universally quantified in every theorem: no assumption on it.

## Conventions

* `none` as result of a modelled function = the Go code panics or does not terminate.
* `WF h`: links are in bounds, `next` and `prev` are inverse, no node is its own neighbour. Established from
  the empty heap and kept by every operation (C23), so hypotheses `WF h` are met by every heap a client can
  build with the API.
* `fwd h p l`: following `next` from `p` visits exactly the addresses `l` and ends at nil.

## Plan per property

| id | property | model and proof |
|---|---|---|
| C01 | Tokenisation is lossless | extract in an arbitrary heap; `runLoop` refined to a list-level run, then to the flat lexer spec, whose token texts concatenate to the input (induction on the text). |
| C02 | Tokenisation is total | same refinement: the fuel of the model is never exhausted; the resulting chain is a forward list of exactly the freshly allocated addresses, old cells untouched. |
| C03 | Tokenisation is deterministic | `extractOrd ord` for any iteration order `ord` that is a permutation of the map's entries at every position; keys are mutually non-prefix on ASCII, so `find?` is order independent. |
| C04 | Bracket nesting does not change the tokens | `Spec/Lexer.lean`: a 5-mode one-pass scanner without nesting; equality of (text, kind) sequences. |
| C05 | Shape of tokens | induction over the flat lexer. |
| C06 | Line numbers | `Spec/Lines.lean`: the line of every piece from the pieces alone, with a stack of open brackets; exact equality, by an invariant of the list-level run that holds for every continuation (`LinePost`). |
| C07 | Kind of a fresh node | from C04: every token's kind in the flat lexer. |
| C08 | Comments and string literals are single nodes | statements about the flat lexer at a code position, transported to `extract` on `pre ++ comment ++ post`. |
| C09 | ParseScope is total | C02 + loop termination of splitScopes + C16 on every scope chain. |
| C10 | Scopes partition the text | list-level description of splitScopes on a forward chain: text of scopes = suffix of tokens. |
| C11 | Scope heads | invariant of the split loop. |
| C12 | Scopes are separate lists | heap invariant of splitScopes, preserved by resetAll (C17). |
| C13 | Where scopes begin | list-level spec `splitPoints`, refinement of the loop; concrete counterexamples by kernel evaluation. |
| C14 | Parsing and printing loses only comments | C10 + Tier 2 of the resetters: every resetter step only drops comments or merges neighbours (`Reduct`, Proofs/Reduct); for `type` scopes the resetter's run is simulated by the automaton of Spec/Alias over the kinds of the nodes (Proofs/Conf, Alias*), which excludes the one step that damages text. |
| C15 | Known text corruption | concrete counterexamples evaluated by the kernel (negation of the universal claim). |
| C16 | Resetting kinds terminates | Tier 1 of the resetters: total correctness over any WF acyclic chain, well-founded on the remaining chain length; depth `8*(size+1)` is enough. |
| C17 | Resetting kinds is local | Tier 1 frame: outside the chain nothing changes, lines unchanged, WF kept. |
| C18 | Resetting kinds only relabels identifiers | Tier 1 contract also records kind changes. |
| C19 | GetFuncName finds the declared name | Tier 3: symbolic evaluation of `parseScope` on 'func NAME...' with arbitrary rest, using Tier 1 for the calls that follow. |
| C20 | Method receiver and name | as C19. |
| C21 | GetTypeName finds the declared name | as C19. |
| C22 | Struct and interface tests look at the whole scope | getters characterised over the forward list of the scope. |
| C23 | Links stay consistent | `WF` invariant: per-operation preservation, induction over arbitrary operation histories (`Op` list, arguments unrestricted). |
| C24 | InsertNext | edge-level specification of next/prev after the call, for all heaps satisfying WF and all argument pairs; plus list-level corollaries. |
| C25 | InsertPrev | mirror image (through a heap mirror symmetry or a direct proof). |
| C26 | ReplaceNext and ReplacePrev | edge-level specification. |
| C27 | TakeNext and TakePrev | edge-level specification + list-level corollary. |
| C28 | RemoveNext and RemovePrev | edge-level specification + list-level corollary. |
| C29 | Isolate | edge-level specification. |
| C30 | Combine | induction over the argument list; panic iff. |
| C31 | Copy | induction on the two directions of the chain. |
| C32 | Iteration | induction on the forward list; callbacks arbitrary. |
| C33 | NewNodes | induction on the list of texts. |
| C34 | Nil nodes are safe | each operation with nil receiver. |
| C35 | Cycles | acyclicity as 'every address has a finite forward list'; preservation per operation; iff for ReplaceNext. |
| C36 | Package name | findPackageName characterised over the scope list; text-level corollary through the lexer. |
| C37 | Save writes the scopes | saveFile/Save for all environments. |
| C38 | Save and failures | saveFile for all environments. |
| C39 | ParseAst errors | parseAst for all environments, using C09. |
| C40 | Ast.Copy is independent | copyScopes allocates fresh cells only; any later history of operations on one side is invisible on the other. |
| C41 | SetScope and AppendScope | slice model with backing arrays, all growth policies; aliasing counterexample. |
| C42 | IterScope | induction over the scopes. |
| C43 | kind.New | decision table with independent predicates. |
| C44 | GetClose | finite table (all constants) + `other`. |
| C45 | Scope kinds | pairwise non-prefix keywords. |
| C46 | HasPrefix and HasSuffix | induction; the runes of a Go string are defined by the UTF-8 encodings of characters (`RuneLen`, Spec/Text), so `HasPrefix` is characterised for every prefix; counterexample for multibyte. |
| C47 | TidyText | per-byte characterisation by flatMap. |
| C48 | AppendUnrepeatable | case analysis on arbitrary lists. |
| C49 | Character sets | fold induction. |
| C50 | Trie lookup | induction on the path; all tries, keys, values. |
| C51 | Trie construction order | commutation of insertions for prefix-free keys, lifted to permutations; counterexample otherwise. |
| C52 | Descriptions | definition unfolding against an independent format specification. |
| C53 | Bracket skipping | balance-count specification over the forward list of kinds. |
| C54 | Parse-save round trip | composition of C39, C14 and C37. |
| C55 | Labels of a function declaration | grammar with labels over token lists in Spec/Labels (`Params`, `Param`, `Sig`; function types nest); the resetters are run symbolically along a derivation of the grammar (Proofs/Labels, FuncDecl, FuncReset), then transported to `ParseScope` with the flat lexer (Proofs/Reads). |
| C56 | Labels of struct fields | grammar with labels in Spec/TypeLabels (`Names`, `Field`, `Row`, `Fields`; `Row.func` reads fields of function type); struct resetter run symbolically along a derivation (Proofs/StructDecl; Proofs/LabelsHook for the hooked parameter and bracket resetters). |
| C57 | Labels of interface members | grammar `Methods` (uses `Sig`); Proofs/InterfaceDecl. |
| C58 | Labels of other type declarations | grammar `Def`, `TypeParams`; Proofs/TypeDecl, transported with Proofs/Reads. |
| C59 | A parse is a function of the text | simulation: the whole parse (scanner, splitting, all resetters) commutes with moving the nodes behind an arbitrary heap (`Heap.beside`); Spec/Relocate, Spec/View (what the API shows, without addresses), Proofs/Relocate*, Props/Pure. |
| C60 | Each declaration is parsed as if it were alone | simulation `Like` (lines ignored, arbitrary placement) through all resetters (Proofs/Like, LikeReset): a scope is what `resetKind` makes of its own nodes (Proofs/Alone); append lemmas for scanner, lines and division (Proofs/Compose); Spec/Compose, Props/Compose. |
| C61 | What Save writes after an edit | `Doc` (chains of nodes, pairwise disjoint) and `Saves` (bytes handed to `SaveFile`) in Props/Edit; each edit's frame from the C24–C31 link theorems, text from C37; `C61_parsed` shows every parsed file is a `Doc`, `C61_parse_edit_save` goes from file to file; the traps are theorems too (`C61_insertPrev_first`, `C61_takePrev_first`, `C61_removePrev`, `C61_combineNext_following`) |
| C62 | Iterating while editing | `IterReturns` = the model's `loop` with some fuel, on worlds heap × captured state; `C62_steps` gives its three rules, the rest by induction on the chain; non-termination as "no fuel suffices" (Props/Iterate) |
| C63 | Taking the comments out of a file | client program of exported/main_test.go in Model/Example; loop invariant over one scope (`strip_run`), frame over the scopes, `Doc`/`Saves` of C61; heads of parsed scopes are no comments by C07, C18, C43, C45 (Props/Strip) |
| C64 | Files of ordinary declarations keep their text | token level specification of sections and of declarations that survive (Spec/Survive: the grammars `Sig`, `Params`, `Def` of C55–C58, or no comments and `Ok` of C14); labelling keeps texts by induction over the grammars; C60 for files of declarations; a checker with a soundness proof (Props/Survive, Props/SurviveCheck) |
| C65 | Labels of every section of a file | `Labelled` (Spec/Sections) puts the grammars of C55–C58 together for a section; `section_tokens` takes the state in which a section is labelled to and from the whole parse, so that the theorems on single declarations apply; C60 for files of declarations; a labeller with a soundness proof (Props/Sections, Props/SectionsCheck) |
| C66 | Table of contents of a file | `Declares` (Spec/Sections) reads a section up to its name; receivers by C55; that a plain function never gets a receiver by an invariant over all resetters (Proofs/NoReceiver, Proofs/PlainFunc); getters by C19–C22 (Props/Sections, Props/SectionsCheck) |
| C67 | Rename, save and parse again | composition of C39, C65, C68, C37, C64 (sections of a file of declarations) and C66 (Props/Rewrite, instance Props/RewriteCheck) |
| C68 | Rewriting the words of a file by their labels | client loop as a program over the modelled API; loop invariant over one scope, frame over the scopes, `Doc`/`Saves` of C61, C65 for the labels (Props/Rewrite) |
| C69 | Goroutines with nodes of their own do not disturb each other | goroutines, programs and schedules in Spec/Goroutines; every call of the API is shown to run the same under any embedding of its nodes into a larger heap (Proofs/Place, Proofs/PlaceNew), so that a goroutine's part of the shared heap stays an image of the heap it would have alone; induction on the schedule (Proofs/Goroutines, Props/Goroutines). One API call is one step of the schedule; interleaving inside the calls on nodes is C81. A call only reads and writes nodes reachable from its arguments and nodes it makes itself (the frame part of the same simulation), and the only package level variable the library writes after initialisation is `_debug` of helper/helper.go (`SetDebug`), which decides on terminal output only (C78). Files and the arrays behind `AppendScope` are not part of C69; the order of map iteration is fixed there (C09, C59: it does not matter) |
| C70 | assert.Equal and assert.NotEqual | `HasType`, `Same`, `Plain` (Spec/Assert) say which values are of a type, equal, comparable, without an order of evaluation; three-way invariant of the comparison by induction on the value (Proofs/Assert, Props/Assert) |
| C71 | assert.Nil, NotNil, Error, NoError, Require | case analysis over all values (Props/Assert) |
| C72 | assert.Panic and assert.NoPanic | for every function as a state transformer with three outcomes (Props/Assert) |
| C73 | Assertions one after another | induction on the list (Props/Assert) |
| C74 | Goroutines with files of their own do not disturb each other | the goroutines of C69 extended by `Ast`s, slices (make, cut, write an element, read) and files (Spec/AstGoroutines); the embedding of nodes is extended by an embedding of backing arrays, and the files a program can touch agree with those of the run alone (Proofs/AstGoroutines); induction on the schedule. One call is one step. `imports.Process` is a function of its arguments in the model: a `Save` with automatic imports whose answer depends on files other goroutines write is not covered |
| C75 | Save killed at any moment, and run again | the changes `SaveFile` makes on disk, one by one (Model/SaveSteps), proved to add up to `saveFile`; a crash is any beginning of the list of changes (Props/Crash). A crash is the end of the process (kill, panic elsewhere, power cut after the data reached the disk): what the page cache loses in a power cut is not modelled, and `SaveFile` calls no `fsync`. Directories are not modelled |
| C76 | Name getters answer for the nodes as they are now | the getters of Model/Scope on any heap with a finite chain; the answer is stated by the tokens (kind, text) of the chain alone (`FirstOf`, `NoneOf`); `SetText`/`SetKind` by the frame lemmas of the heap (Props/Live) |
| C77 | The program that prints a file's interfaces | the client `TestUsecase` (Model/Example) over `IterScope`, `GetInterfaceName`, `Print`; induction over the scopes (Props/Usecase) |
| C78 | Debug output only after SetDebug(true) | `SetDebug`/`DebugPrint` as a machine over histories of calls (Model/Debug), `strings.Split` and `fmt.Println` of strings modelled; the stack is an input; induction over the history (Props/Debug) |
| C79 | Kinds are values, user-made ones too | `Kind.ofPair` and `ScopeKind.ofStr` map Go's strings to the model's kinds; equality, `String`, `GetClose`, `ToKind` are stated on the strings; case analysis over the declared table (Props/KindValues) |
| C80 | Iterating over scopes while editing the Ast | `for range` over the slice evaluated once, elements read at their turn (Model/IterScope); induction over the remaining length with the invariant of C41 (Props/IterScope) |
| C81 | Goroutines interleaved at single memory accesses | every method of a node and every getter of a scope as a program of single reads, writes and allocations (Model/Steps); a schedule picks who makes the next step and which free address the allocator gives. Goroutines that stay in their sets: invariant over the schedule (Proofs/Steps). The methods stay in the island of their arguments: `Careful`, a predicate on programs (Proofs/StepsCareful). The programs compute what Model/Heap computes: Proofs/StepsExec, Proofs/StepsMake. Reads and writes of a field are taken as atomic: without a data race (C81_no_race) Go promises that no program can tell |
| C82 | Many goroutines call ParseScope at once | `ParseScope` with the extractor and all resetters as a program of single reads, writes and allocations (Model/ParseSteps). Run to its end it computes Model/Scope's function (Proofs/ParseExec). It does not depend on addresses: a relational predicate `Alike` on pairs of programs over a growing partial bijection of addresses (Proofs/Alike, AlikeReset, AlikeParse); on the diagonal this gives `Careful` of C81, and a simulation carries one run from the empty heap over to every run under every schedule and allocator (Proofs/AlikeSim, ParseShown), with the same number of steps. The debug flag (helper.go:17-23, a plain variable) is left out: a `SetDebug` while others parse is a data race on it |
| C83 | How long ParseScope takes, and how many nodes it makes | the steps of Model/ParseSteps are counted. A callback of a resetter either goes on, or jumps to where a nested resetter stopped; by a potential argument the calls made by one loop pass over disjoint stretches of the list, so a resetter at nesting depth `d` takes at most `100 N d` steps for each node it passes over, `N` bounding the nodes (Proofs/Cost, CostReset, CostFns, by induction on the depth, which is at most `8 N`); `funcResetter` may go back once to its start, which costs a factor 2 (Proofs/CostType), the merge after `paramResetter` is paid for by the nodes it has collected; scopes are disjoint; the extractor makes a bounded number of `Last` walks for each byte (Proofs/CostAll). The bound for all schedules follows with the simulation of C82. Not counted: work on values a call keeps to itself (building strings, comparing keywords, sets), and reads of the package's constant tables |
| C84 | How long the calls on nodes take, whoever else works on the same nodes | the steps of Model/Steps. Calls that do not walk: a bound on every path of the program, whatever is read (`AtMost`, Proofs/WaitFree), so for every schedule and any code in the other goroutines. Never stuck: code that is `Careful` (C81) for every set of own nodes that contains the existing ones keeps the memory free of dangling pointers under any interleaving. Walks: exact counts by induction on the list (Proofs/WaitWalk). Reads and writes of a field are taken as atomic; with a data race Go promises this for pointers, not for the two words of a `string` or an interface (`text`, `kind`), so for racing `SetText`/`SetKind` the theorem speaks about the model only |
| C85 | A file assembled from parts that were parsed on their own | `parseMany` (C59) for the parses one after another; any list of (text, scopes) pairs among its results is a selection. The texts: C64 on each part alone, carried into the common heap by the views of C59. The looks of the file parsed again: C60 (`oneByOne`). `Spec/Assemble` (`stacked`) says what is expected: the looks the scopes show in the common heap before `Save`, each part moved down by the lines above it |
| C86 | A file generated from scopes made by hand | `makeScopes`: `NewScope` on `NewNodes`, one after another; the text by C33; saving and parsing again by `save_again` (C37, C39, C59, C60), which speaks about any `Ast` with that text |
| C87 | Edits in some declarations leave the others alone, also after saving and parsing again | any history of calls (`Run`, Spec/History) whose arguments avoid the nodes of the other scopes; the frame theorem for closed sets of nodes (Proofs/Frame), closedness from C12; texts from C64, the second parse from C60 |
| C88 | Declarations can be moved between files | any number of parses (`parseMany`), the scopes of each file cut into those of its declarations (C60), texts from C64, lists of picked declarations put one below the other (`restacked`, Spec/Pick), `Save` twice, `ParseAst` twice |
| C89 | The path fields of an Ast, and what files ParseAst and Save touch | `filepath.Clean`, `Dir`, `Base`, `Ext` of Go 1.23 on Unix as functions (Model/Path; in `Env` they stay arbitrary, here `OnUnix env`); the meaning of a path is the list of names it leads to from the working directory (Spec/Path). The loop of `Clean` keeps the meaning, and its buffer is always some `..` or the root with plain names behind it, which gives one spelling per meaning (Proofs/Path, induction over the loop with the buffer as an inductive predicate). Files that lie at places: Model/Places |
| C90 | An Ast over scopes of the program's own types | the methods of `Scope` that ast.go calls are arbitrary functions of an arbitrary world that contains the heap (`Scopes World`, Model/UserScope); the calls made, with their answers, are a chain of worlds (`Calls`, Spec/UserScope); induction over the scopes. Callbacks that overwrite the slice being iterated over are left out |
| C91 | Saving on a file system with directories | directories and files by their places, names looked up part by part, `os.MkdirAll` after Go 1.23 (Model/Tree); the well-formedness of the tree (`Ok`: everything lies in a directory) is kept by `Save` (in C91_saved). `MkdirAll` by induction on the place; that a cleaned path is found from the form of `Clean`'s buffer (Proofs/Path). C91_as_env: with `Tree.env` this is one of the environments of Model/File, so the theorems over every environment speak of it too. Permissions, space, links and other processes are left out |
| C92 | Any row of saves | `Leaves` (Spec/Saves) says what the calls, with the errors they returned, make of the contents of one place; C92_saves by induction on the calls from C91_saved, C91_failed and that `Save` keeps `Ok` and every directory (also when it fails at `os.Create`, after `MkdirAll`); C92_readable: with more directories every name is still found; C92_determined: the relation is a function; C92_again: a call that worked works again in every tree with at least those directories and files (`Tree.save_again`), and the contents are determined; C92_again_fails: not so if a call failed. The calls come one after the other; each takes effect at once (crashes: C75) |
| C93 | What `ParseAst` answers | `Follows` (Spec/Path): following the parts of a path through directories; `Tree.stuck` (Model/Tree): ENOTDIR and EISDIR; C93_answers and C93_os by induction on the parts and C39; C93_saved from C92 (directories and files are not lost) |

All 91 are expressible in the model; none is "not applicable". What the model cannot exhibit: real OS failure
modes beyond `Env` (power loss between truncate and write is covered only as a failing write), time in seconds (C83 and C84 count accesses),
stack overflow by deep recursion.

## Disagreements between the code and natural expectations (found while modelling)

See C06, C13, C15, C22, C33, C35, C38, C41, C46, C50, C51, C52: each keeps the natural claim in view, proves what is
true and exhibits a kernel-checked counterexample for what is false.
