import Verif.BlockTree.Model

/-! # Specification: memory as a function of the position -/

namespace Kefir.BlockTree

variable {β : Type}

inductive Call (β : Type) where
  | write (position : Nat) (v : β)
  | read (position : Nat)

/-- `none`: nothing was ever stored in the block of that position. -/
inductive Reply (β : Type) where
  | done
  | value (v : β)
  | absent
  | failure
  deriving DecidableEq

/-- The memory contents, and which blocks have been touched. -/
structure Mem (β : Type) where
  cell : Nat → β
  touched : Nat → Bool

def specStep (blockSize : Nat) (m : Mem β) : Call β → Mem β × Reply β
  | .write p v =>
    (⟨fun q => if q = p then v else m.cell q,
      fun b => b == p / blockSize || m.touched b⟩, .done)
  | .read p => (m, if m.touched (p / blockSize) then .value (m.cell p) else .absent)

def specRun (blockSize : Nat) : Mem β → List (Call β) → Mem β × List (Reply β)
  | m, [] => (m, [])
  | m, c :: cs =>
    let (m', r) := specStep blockSize m c
    let (m'', rs) := specRun blockSize m' cs
    (m'', r :: rs)

def implStep (fill : Nat → Nat → β) (t : BT β) : Call β → BT β × Reply β
  | .write p v =>
    match write fill t p v with
    | .ok t' => (t', .done)
    | .error _ => (t, .failure)
  | .read p =>
    match read t p with
    | .ok v => (t, .value v)
    | .error .notFound => (t, .absent)
    | .error _ => (t, .failure)

def implRun (fill : Nat → Nat → β) : BT β → List (Call β) → BT β × List (Reply β)
  | t, [] => (t, [])
  | t, c :: cs =>
    let (t', r) := implStep fill t c
    let (t'', rs) := implRun fill t' cs
    (t'', r :: rs)

/-- Initially every position holds what the initialisation callback puts there. -/
def Mem.init (fill : Nat → Nat → β) (blockSize : Nat) : Mem β :=
  ⟨fun p => fill (p / blockSize) (p % blockSize), fun _ => false⟩

end Kefir.BlockTree
