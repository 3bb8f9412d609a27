import Verif.HashTree.Model

/-!
# Specification: a finite map as an association list, and histories of API calls
-/

namespace Kefir.HashTree

variable {K V : Type}

/-- What the client must guarantee about the operations it passes in: `compareKeys` is an
equivalence, and equivalent keys hash alike. -/
structure Lawful (ops : Ops K) : Prop where
  refl : ∀ a, ops.compareKeys a a = true
  symm : ∀ a b, ops.compareKeys a b = true → ops.compareKeys b a = true
  trans : ∀ a b c, ops.compareKeys a b = true → ops.compareKeys b c = true →
    ops.compareKeys a c = true
  hash_eq : ∀ a b, ops.compareKeys a b = true → ops.hash a = ops.hash b

/-- One API call. -/
inductive Call (K V : Type) where
  | insert (k : K) (v : V)
  | delete (k : K)
  | at (k : K)
  | has (k : K)
  | empty
  | clean

/-- What a call reports to its caller (`delete` reports the pair passed to the removal callback). -/
inductive Reply (K V : Type) where
  | ok
  | pair (k : K) (v : V)
  | bool (b : Bool)
  | error (e : Err)
  deriving DecidableEq

/-- Abstract finite map: the stored key/value pairs. -/
abbrev Map (K V : Type) := List (K × V)

/-- Abstract semantics of each call. -/
def specStep (eqv : K → K → Bool) (m : Map K V) : Call K V → Map K V × Reply K V
  | .insert k v =>
    if m.any (fun p => eqv p.1 k) then (m, .error .alreadyExists) else ((k, v) :: m, .ok)
  | .delete k =>
    match m.find? (fun p => eqv p.1 k) with
    | some p => (m.filter (fun q => !eqv q.1 k), .pair p.1 p.2)
    | none => (m, .error .notFound)
  | .at k =>
    match m.find? (fun p => eqv p.1 k) with
    | some p => (m, .pair p.1 p.2)
    | none => (m, .error .notFound)
  | .has k => (m, .bool (m.any (fun p => eqv p.1 k)))
  | .empty => (m, .bool m.isEmpty)
  | .clean => ([], .ok)

/-- The same call on the model of the C code (allocation succeeds). -/
def implStep (ops : Ops K) (t : Node K V) : Call K V → Node K V × Reply K V
  | .insert k v =>
    match insert ops true k v t with
    | .ok t' => (t', .ok)
    | .error c => (t, .error c)
  | .delete k =>
    match delete ops k t with
    | .ok (t', e) => (t', .pair e.key e.value)
    | .error c => (t, .error c)
  | .at k =>
    match at' ops k t with
    | .ok e => (t, .pair e.key e.value)
    | .error c => (t, .error c)
  | .has k => (t, .bool (has ops k t))
  | .empty => (t, .bool (empty t))
  | .clean => ((clean t).1, .ok)

/-- Run a history from a state, collecting the replies. -/
def runCalls {S R C : Type} (step : S → C → S × R) : S → List C → S × List R
  | s, [] => (s, [])
  | s, c :: cs =>
    let (s', r) := step s c
    let (s'', rs) := runCalls step s' cs
    (s'', r :: rs)

/-- The pairs handed to the `node_remove` callback during one call. -/
def callbacks (ops : Ops K) (t : Node K V) : Call K V → List (K × V)
  | .delete k =>
    match delete ops k t with
    | .ok (_, e) => [(e.key, e.value)]
    | .error _ => []
  | .clean => (clean t).2.map (fun e => (e.key, e.value))
  | _ => []

/-- The pairs handed to the callback during a history that ends by freeing the tree. -/
def callbackLog (ops : Ops K) : Node K V → List (Call K V) → List (K × V)
  | t, [] => callbacks ops t .clean
  | t, c :: cs => callbacks ops t c ++ callbackLog ops (implStep ops t c).1 cs

/-- The pairs whose insertion was reported successful during a history. -/
def insertedPairs (ops : Ops K) : Node K V → List (Call K V) → List (K × V)
  | _, [] => []
  | t, c :: cs =>
    (match c, (implStep ops t c).2 with
      | .insert k v, .ok => [(k, v)]
      | _, _ => []) ++ insertedPairs ops (implStep ops t c).1 cs

end Kefir.HashTree
