import Verif.Layout.Spec

/-!
# Specification of bit-field placement

Members of a structure as declared, what is recorded about each, and what it means that the members
occupy disjoint ranges of bits.  (C17 6.7.2.1, System V ABI section 3.1.2 "Bit-Fields".)
-/

namespace Kefir.Layout

/-- A member declaration: a bit-field (with a declarator or without; its declared type; its width) or
another member, given by its type. -/
inductive Field where
  | bit (named : Bool) (type : Leaf) (width : Nat)
  | member (t : Ty)

/-- Bits of the integer types that bit-fields can have. -/
def unitBits : Leaf → Option Nat
  | .bool | .char | .int8 => some 8
  | .short | .int16 => some 16
  | .int | .int32 => some 32
  | .long | .word | .int64 => some 64
  | _ => none

/-- Bit-fields are not wider than their declared type; other members are well-formed. -/
def Field.WF : Field → Prop
  | .bit _ k w => ∃ u, unitBits k = some u ∧ w ≤ u
  | .member t => Kefir.Layout.WF t

/-- What is recorded about a member: the number of the entry that holds it (`kefir_ast_type_layout`,
field `value`) and, for a bit-field, its offset in bits from the start of that entry and its width
(`bitfield_props`). -/
structure Placement where
  storage : Nat
  offset : Nat
  width : Nat
  deriving DecidableEq, Repr

/-- `Placed lay start fs ps stop`: the members `fs`, placed as `ps` says, where the entries are laid out
as `lay` says, occupy disjoint ranges of bits from `start` to `stop`, in the order of declaration; every
bit-field has its declared width and lies in one storage unit of its declared type.  Nothing is recorded
for the declaration of a bit-field of width 0; what follows it does not share a byte with what comes
before. -/
inductive Placed (lay : List (Option Data)) : Nat → List Field → List (Option Placement) → Nat → Prop
  | nil {start} : Placed lay start [] [] start
  | zero {start named k fs ps stop} : Placed lay (8 * ((start + 7) / 8)) fs ps stop →
      Placed lay start (.bit named k 0 :: fs) (none :: ps) stop
  | bit {start named k w fs ps stop u d lo} {p : Placement} : 0 < w →
      lay[p.storage]? = some (some d) → lo = 8 * d.offset + p.offset → start ≤ lo →
      p.width = w → unitBits k = some u → lo / u = (lo + w - 1) / u →
      Placed lay (lo + w) fs ps stop → Placed lay start (.bit named k w :: fs) (some p :: ps) stop
  | member {start t fs ps stop d} {p : Placement} :
      lay[p.storage]? = some (some d) → start ≤ 8 * d.offset →
      Placed lay (8 * (d.offset + d.size)) fs ps stop →
      Placed lay start (.member t :: fs) (some p :: ps) stop

end Kefir.Layout
