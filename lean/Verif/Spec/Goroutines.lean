import Verif.Spec.History
import Verif.Spec.View

/-!
# Goroutines that use the API at the same time

A goroutine has variables holding nodes and scopes.  It can only call the API on what is in its variables, and what it does next
may depend, in any way, on everything it was shown before.  The goroutines share one heap of nodes; a schedule says whose turn it
is.  A call is one step of the schedule.
-/

namespace Goast

/-- The same call on other nodes. -/
def Op.mapArgs (f : Ptr → Ptr) : Op → Op
  | .newNode l t ks => .newNode l t ks
  | .newNodes l ts => .newNodes l ts
  | .insertNext n m => .insertNext (f n) (f m)
  | .insertPrev n m => .insertPrev (f n) (f m)
  | .replaceNext n m => .replaceNext (f n) (f m)
  | .replacePrev n m => .replacePrev (f n) (f m)
  | .takeNext n => .takeNext (f n)
  | .takePrev n => .takePrev (f n)
  | .removeNext n => .removeNext (f n)
  | .removePrev n => .removePrev (f n)
  | .isolate n => .isolate (f n)
  | .combineNext n k ms => .combineNext (f n) k (ms.map f)
  | .combinePrev n k ms => .combinePrev (f n) k (ms.map f)
  | .copy n r => .copy (f n) r
  | .setKind n k => .setKind (f n) k
  | .setText n t => .setText (f n) t

/-- The effect of a call on the nodes, and the nodes it returns; `none` is a panic or non-termination. -/
def Op.perform (h : Heap) : Op → Option (Heap × List Ptr)
  | .newNode l t ks => let r := h.newNode l t ks; some (r.1, [some r.2])
  | .newNodes l ts => let r := h.newNodes l ts; some (r.1, [r.2])
  | .insertNext n m => let r := h.insertNext n m; some (r.1, [r.2.1, r.2.2])
  | .insertPrev n m => let r := h.insertPrev n m; some (r.1, [r.2.1, r.2.2])
  | .replaceNext n m => let r := h.replaceNext n m; some (r.1, [r.2.1, r.2.2])
  | .replacePrev n m => let r := h.replacePrev n m; some (r.1, [r.2.1, r.2.2])
  | .takeNext n => let r := h.takeNext n; some (r.1, [r.2])
  | .takePrev n => let r := h.takePrev n; some (r.1, [r.2])
  | .removeNext n => let r := h.removeNext n; some (r.1, [r.2])
  | .removePrev n => let r := h.removePrev n; some (r.1, [r.2])
  | .isolate n => some (h.isolate n, [])
  | .combineNext n k ms => (h.combineNext n k ms).map fun r => (r.1, [r.2])
  | .combinePrev n k ms => (h.combinePrev n k ms).map fun r => (r.1, [r.2])
  | .copy n r => (h.copy n r).map fun r => (r.1, [r.2])
  | .setKind n k => some (h.setKind n k, [])
  | .setText n t => some (h.setText n t, [])

/-- What a goroutine does in one step.  Nodes are named by the position of the variable that holds them (`none` is nil), scopes
likewise. -/
inductive Act
  /-- a call on nodes that makes or changes nodes; the nodes it returns are put into new variables -/
  | call (op : Op)
  /-- `Next()`, into a new variable -/
  | next (i : Option Nat)
  /-- `Prev()`, into a new variable -/
  | prev (i : Option Nat)
  /-- `Line()`, `Kind()`, `Text()` and `Description()` of a node -/
  | look (i : Option Nat)
  /-- whether two variables hold the same node -/
  | same (i j : Option Nat)
  /-- `ParseScope(startLine, text)`; the scopes are put into new variables -/
  | parse (startLine : Int) (text : Bytes)
  /-- `NewScope(line, kind, node)`, into a new variable -/
  | newScope (line : Int) (kind : ScopeKind) (i : Option Nat)
  /-- `Copy()` of a scope, into a new variable -/
  | copyScope (i : Nat)
  /-- `Node()` of a scope, into a new variable -/
  | node (i : Nat)
  /-- all that the methods of some scopes show, and of an `Ast` made of them the text that `Save` writes, `Description()` and `Package()` -/
  | view (is : List Nat)

/-- What a goroutine is shown. -/
inductive Obs
  /-- which of the nodes put into new variables are not nil -/
  | got (l : List Bool)
  | node (v : NodeView)
  | same (b : Bool)
  | scopes (n : Nat)
  | view (v : ParseView)

/-- A goroutine: its variables, and what it was shown so far. -/
structure Gor where
  nodes : List Ptr
  scopes : List ScopeRec
  seen : List Obs

/-- What a variable holds. -/
def Gor.var (g : Gor) : Option Nat → Ptr
  | none => none
  | some i => (g.nodes[i]?).join

/-- Which scopes some variables hold. -/
def Gor.scopeVars (g : Gor) (is : List Nat) : List ScopeRec := is.filterMap (g.scopes[·]?)

/-- Nodes are put into new variables. -/
def Gor.put (g : Gor) (ps : List Ptr) : Gor := { g with nodes := g.nodes ++ ps, seen := g.seen ++ [.got (ps.map Option.isSome)] }

/-- Scopes are put into new variables. -/
def Gor.putScopes (g : Gor) (scs : List ScopeRec) : Gor := { g with scopes := g.scopes ++ scs, seen := g.seen ++ [.scopes scs.length] }

/-- Something is shown. -/
def Gor.see (g : Gor) (o : Obs) : Gor := { g with seen := g.seen ++ [o] }

/-- One step of a goroutine; `none` is a panic or non-termination. -/
def Act.step (h : Heap) (g : Gor) : Act → Option (Heap × Gor)
  | .call op => ((op.mapArgs g.var).perform h).map fun r => (r.1, g.put r.2)
  | .next i => some (h, g.put [h.next (g.var i)])
  | .prev i => some (h, g.put [h.prev (g.var i)])
  | .look i => some (h, g.see (.node (h.nodeView (g.var i))))
  | .same i j => some (h, g.see (.same (g.var i == g.var j)))
  | .parse sl text => (parseScope h sl text).map fun r => (r.1, g.putScopes r.2)
  | .newScope l k i => some (h, g.putScopes [Goast.newScope l k (g.var i)])
  | .copyScope i => match g.scopes[i]? with
    | none => none
    | some sc => (sc.copy h).map fun r => (r.1, g.putScopes [r.2])
  | .node i => some (h, g.put [(g.scopes[i]?).bind ScopeRec.node])
  | .view is => match scopesText h (g.scopeVars is) with
    | none => none
    | some _ => some (h, g.see (.view (scopesView h (g.scopeVars is))))

/-- The program of a goroutine: what it does next, given what it was shown so far. -/
abbrev Prog := List Obs → Act

/-- One goroutine alone, for `n` steps. -/
def solo (prog : Prog) : Nat → Heap → Gor → Option (Heap × Gor)
  | 0, h, g => some (h, g)
  | n + 1, h, g => match (prog g.seen).step h g with
    | none => none
    | some (h, g) => solo prog n h g

/-- Many goroutines on one heap: the schedule says who makes the next step. -/
def together (progs : Nat → Prog) : List Nat → Heap → (Nat → Gor) → Option (Heap × (Nat → Gor))
  | [], h, gs => some (h, gs)
  | i :: sched, h, gs => match (progs i (gs i).seen).step h (gs i) with
    | none => none
    | some (h, g) => together progs sched h (fun j => if j = i then g else gs j)

/-- The goroutines have nothing in common: to each belongs a set of nodes, which holds the nodes of its variables and the neighbours
of its nodes, and no node belongs to two. -/
structure Apart (h : Heap) (gs : Nat → Gor) (own : Nat → Addr → Prop) : Prop where
  exist : ∀ i a, own i a → a < h.size
  next : ∀ i a b, own i a → h.next (some a) = some b → own i b
  prev : ∀ i a b, own i a → h.prev (some a) = some b → own i b
  nodes : ∀ i a, some a ∈ (gs i).nodes → own i a
  scopes : ∀ i a, ∀ sc ∈ (gs i).scopes, sc.node = some a → own i a
  disjoint : ∀ i j a, own i a → own j a → i = j

end Goast
