/-!
# Jumps and variable length arrays

C17 6.8.6.1p1: "A goto statement shall not jump from outside the scope of an identifier having a variably modified type to
inside the scope of that identifier."  6.2.4p7: the storage of an array lasts until execution leaves its scope.
-/

namespace Kefir.JumpVla

/-- One of the statements around a point of a function: which one, whether it is a block, how many variable length arrays it
declares, and how many of them in front of the point. -/
structure Level where
  id : Nat
  block : Bool
  total : Nat
  before : Nat
  deriving DecidableEq

/-- A point in a function: the statements around it, the innermost first. -/
abbrev Point := List Level

/-- The `v.2`-th array of block `v.1` is in scope. -/
def InScope (p : Point) (v : Nat × Nat) : Prop := ∃ l ∈ p, l.id = v.1 ∧ v.2 < l.before

/-- The jump obeys the constraint. -/
def Allowed (origin target : Point) : Prop := ∀ v, InScope target v → InScope origin v

/-- The jump leaves the scope of an array of the block. -/
def Leaves (origin target : Point) (id : Nat) : Prop := ∃ j, InScope origin (id, j) ∧ ¬ InScope target (id, j)

/-- Two points of a function: they have the statements of `rest` in common, and `o` and `t` are the same statement, the
innermost that is around both; `inner` and `entered` are around one of them only. -/
structure InFunction (inner entered rest : List Level) (o t : Level) : Prop where
  same : o.id = t.id ∧ o.block = t.block ∧ o.total = t.total
  distinct : ((inner ++ o :: rest).map (·.id)).Nodup ∧ ((entered ++ t :: rest).map (·.id)).Nodup
  apart : ∀ a ∈ inner, ∀ b ∈ entered, a.id ≠ b.id
  count : ∀ l ∈ inner ++ entered ++ [o, t], l.before ≤ l.total
  onlyBlocks : ∀ l ∈ inner ++ entered ++ [o, t], l.block = false → l.total = 0

end Kefir.JumpVla
