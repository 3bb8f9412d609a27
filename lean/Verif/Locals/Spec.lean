import Verif.Layout.Spec

/-!
# Specification: storage of automatic objects

Nested scopes with the objects they declare, when two of these objects are alive at the same time, and
what it means to give each object its own storage.  Nothing here refers to the code that places objects.
-/

namespace Kefir.Locals

open Kefir.Layout

/-- What an identifier declared in a block denotes: an object of automatic storage duration (with its
type), a label, or something that needs no storage in the frame (an object of static or thread storage
duration, a function, a typedef name, an enumeration constant). -/
inductive Ident where
  | auto (ty : Ty)
  | label
  | other

/-- A scope: the identifiers declared in it and the scopes nested in it. -/
inductive Scope where
  | node (ids : List Ident) (subs : List Scope)

/-- `Declares s path k ty`: in the scope reached from `s` by entering the nested scopes numbered
`path`, the `k`-th identifier is an automatic object of type `ty`. -/
inductive Declares : Scope → List Nat → Nat → Ty → Prop
  | here {ids subs k ty} : ids[k]? = some (.auto ty) → Declares (.node ids subs) [] k ty
  | sub {ids subs s path k ty} {i : Nat} : subs[i]? = some s → Declares s path k ty →
      Declares (.node ids subs) (i :: path) k ty

/-- Objects are alive at the same time if the scope of one of them is nested in (or is) the scope of the
other: C17 6.2.4p6, the lifetime extends from entry into the block until its execution ends. -/
def Coexist (p q : List Nat) : Prop := p <+: q ∨ q <+: p

/-- Storage assigned to an object: its first byte and its number of bytes. -/
structure Extent where
  start : Nat
  size : Nat
  deriving DecidableEq, Repr

def Extent.Disjoint (a b : Extent) : Prop := a.start + a.size ≤ b.start ∨ b.start + b.size ≤ a.start

mutual
/-- Scopes of a function: every automatic object has a complete object type, and labels are not among the
identifiers (they are kept in a scope of their own, one per function). -/
inductive Proper : Scope → Prop
  | node {ids subs} : (∀ ty, Ident.auto ty ∈ ids → WF ty ∧ ty.isBits = false) → Ident.label ∉ ids →
      ProperAll subs → Proper (.node ids subs)

inductive ProperAll : List Scope → Prop
  | nil : ProperAll []
  | cons {s ss} : Proper s → ProperAll ss → ProperAll (s :: ss)
end

/-- `ty` is the type of an automatic object declared somewhere in `s`. -/
def Scope.Uses (s : Scope) (ty : Ty) : Prop := ∃ path k, Declares s path k ty

mutual
/-- The alignments requested in the type are powers of two (C17 6.2.8p4). -/
inductive Pow2Aligned : Ty → Prop
  | leaf {k al p} : al = 0 ∨ (∃ e, al = 2 ^ e) → Pow2Aligned (.leaf k al p)
  | struct {al ms} : al = 0 ∨ (∃ e, al = 2 ^ e) → Pow2AlignedAll ms → Pow2Aligned (.struct al ms)
  | union {al ms} : al = 0 ∨ (∃ e, al = 2 ^ e) → Pow2AlignedAll ms → Pow2Aligned (.union al ms)
  | array {al n elem} : al = 0 ∨ (∃ e, al = 2 ^ e) → Pow2Aligned elem → Pow2Aligned (.array al n elem)

inductive Pow2AlignedAll : List Ty → Prop
  | nil : Pow2AlignedAll []
  | cons {ty ts} : Pow2Aligned ty → Pow2AlignedAll ts → Pow2AlignedAll (ty :: ts)
end

end Kefir.Locals
