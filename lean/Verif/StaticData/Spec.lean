import Verif.Abi.Spec

/-!
# Specification of the images of static objects

The values an object can be initialised with and the bytes that represent the object.  Nothing here refers
to the code that emits static data.
-/

namespace Kefir.StaticData

open Kefir.Layout Kefir.Abi

/-- What an address is relative to. -/
inductive Target where
  | symbol (name : String)
  | literal (id : Nat)
  deriving DecidableEq, Repr

/-- A value of a slot (`headers/kefir/ir/data.h:51-62`).  Integers are bit patterns of 64 bits, floating
values the bit patterns of their representations, of a long double those of its two eightbytes. -/
inductive Value where
  | undefined
  | integer (v : Nat)
  | float32 (bits : Nat)
  | float64 (bits : Nat)
  | longDouble (low high : Nat)
  | string (bytes : List Nat)
  | pointer (t : Target) (offset : Int)
  | raw (bytes : List Nat)
  | aggregate
  deriving DecidableEq, Repr

/-- A byte of an image: a number, or the `i`-th byte of an address that the linker computes. -/
inductive Cell where
  | byte (b : Nat)
  | address (t : Target) (offset : Int) (i : Nat)
  deriving DecidableEq, Repr

/-- `n` zero bytes. -/
def zeros (n : Nat) : List Cell := List.replicate n (.byte 0)

/-- The `n` bytes of a number, the least significant one first. -/
def le (n v : Nat) : List Cell := (List.range n).map fun i => .byte (v / 256 ^ i % 256)

/-- The eight bytes of an address. -/
def addressBytes (t : Target) (offset : Int) : List Cell := (List.range 8).map fun i => .address t offset i

/-- Given bytes, followed by zeros. -/
def padded (n : Nat) (bytes : List Nat) : List Cell := bytes.map .byte ++ zeros (n - bytes.length)

/-- A value that a scalar of this kind can have. -/
def LeafSuits (k : Leaf) (n : Nat) (v : Value) : Prop :=
  match k with
  | .pad | .builtin => v = .undefined
  | .memory =>
    v = .undefined ∨ (∃ bs, v = .string bs ∧ bs.length ≤ n) ∨ ∃ bs, v = .raw bs ∧ bs.length ≤ n
  | .float32 => v = .undefined ∨ ∃ b, v = .float32 b
  | .float64 => v = .undefined ∨ ∃ b, v = .float64 b
  | .longDouble => v = .undefined ∨ ∃ l h, v = .longDouble l h
  | .int64 | .long | .word => v = .undefined ∨ (∃ x, v = .integer x) ∨ ∃ t o, v = .pointer t o
  | .bits => n ≤ 64 ∧ (v = .undefined ∨ ∃ x, v = .integer x)
  | _ => v = .undefined ∨ ∃ x, v = .integer x

/-- The bytes of a scalar. -/
def encode (k : Leaf) (n : Nat) (v : Value) : List Cell :=
  match v with
  | .integer x => le (leafSize k n) x
  | .float32 b => le 4 b
  | .float64 b => le 8 b
  | .longDouble l h => le 8 l ++ le 8 h
  | .pointer t o => addressBytes t o
  | .string bs | .raw bs => padded (leafSize k n) bs
  | .undefined | .aggregate => zeros (leafSize k n)

/-- An image of `size` bytes made of pieces, each with its offset; bytes that belong to no piece are zero. -/
def place (size : Nat) (pieces : List (Nat × List Cell)) : List Cell :=
  (List.range size).map fun p =>
    match pieces.find? (fun x => decide (x.1 ≤ p ∧ p < x.1 + x.2.length)) with
    | some (o, cs) => cs[p - o]?.getD (.byte 0)
    | none => .byte 0

/-- The values of the object whose first slot is `slot` are not all undefined.  (An object has as many slots
as it has parts, itself included.) -/
def Init (vals : Nat → Value) (t : Ty) (slot : Nat) : Prop :=
  ∃ j, slot ≤ j ∧ j < slot + objects t ∧ vals j ≠ .undefined

/-- Decides `Init`. -/
def init (vals : Nat → Value) (t : Ty) (slot : Nat) : Bool :=
  (List.range (objects t)).any fun i => decide (vals (slot + i) ≠ .undefined)

mutual
/-- The bytes of an object of type `t` with layout `l`, whose first slot is `slot`: those of its members at
their offsets and zeros elsewhere; for an array, those of its elements one after the other, or the bytes of a
string; for a union, those of the first member that has a value. -/
def image (vals : Nat → Value) : Ty → LTree → Nat → List Cell
  | .leaf k _ n, _, slot => encode k n (vals slot)
  | .struct _ ms, .node d ls, slot => place d.size (pieces vals ms ls (slot + 1))
  | .union _ ms, .node d ls, slot => place d.size (unionPieces vals ms ls (slot + 1))
  | .array _ n e, .node d ls, slot =>
    match vals slot with
    | .string bs | .raw bs => padded d.size bs
    | _ =>
      match ls with
      | [l] => (List.range n).flatMap fun i => image vals e l (slot + 1 + i * objects e)
      | _ => []

/-- The members of a structure. -/
def pieces (vals : Nat → Value) : List Ty → List LTree → Nat → List (Nat × List Cell)
  | t :: ts, l :: ls, slot => (l.data.offset, image vals t l slot) :: pieces vals ts ls (slot + objects t)
  | _, _, _ => []

/-- The member of a union that has a value. -/
def unionPieces (vals : Nat → Value) : List Ty → List LTree → Nat → List (Nat × List Cell)
  | t :: ts, l :: ls, slot =>
    if init vals t slot then [(0, image vals t l slot)] else unionPieces vals ts ls (slot + objects t)
  | _, _, _ => []
end

/-- Not a value of an object (`aggregate` marks objects whose parts have values). -/
def NoValue (v : Value) : Prop := v = .undefined ∨ v = .aggregate

mutual
/-- The values fit the type: every scalar has a value of its kind, arrays have a value of their own only if it
is a string that is not longer than the array, structures and unions have none. -/
def Suits (vals : Nat → Value) : Ty → LTree → Nat → Prop
  | .leaf k _ n, _, slot => LeafSuits k n (vals slot)
  | .struct _ ms, .node _ ls, slot => NoValue (vals slot) ∧ SuitsAll vals ms ls (slot + 1)
  | .union _ ms, .node _ ls, slot => NoValue (vals slot) ∧ SuitsAll vals ms ls (slot + 1)
  | .array _ n e, .node d ls, slot =>
    ((∃ bs, (vals slot = .string bs ∨ vals slot = .raw bs) ∧ bs.length ≤ d.size ∧
      ∀ j, slot < j → j ≤ slot + n * objects e → vals j = .undefined) ∨ NoValue (vals slot)) ∧
    match ls with
    | [l] => ∀ i, i < n → Suits vals e l (slot + 1 + i * objects e)
    | _ => False

def SuitsAll (vals : Nat → Value) : List Ty → List LTree → Nat → Prop
  | t :: ts, l :: ls, slot => Suits vals t l slot ∧ SuitsAll vals ts ls (slot + objects t)
  | _, _, _ => True
end

/-- What a slot holds after a sequence of assignments: the last value assigned to it. -/
def valueOf (writes : List (Nat × Value)) (slot : Nat) : Value :=
  match writes.reverse.find? (fun w => decide (w.1 = slot)) with
  | some w => w.2
  | none => .undefined

/-- An object with static storage duration: its name and whether there is one for each thread. -/
structure Object where
  name : String
  threadLocal : Bool

/-- The section of an object that has (`true`) or does not have (`false`) a value in some part. -/
def sectionOf (threadLocal initialised : Bool) : String :=
  match threadLocal, initialised with
  | false, true => ".data"
  | true, true => ".tdata"
  | false, false => ".bss"
  | true, false => ".tbss"

/-- The bits `offset`, …, `offset + width - 1` of a number. -/
def field (x offset width : Nat) : Nat := x / 2 ^ offset % 2 ^ width

/-- Bit-fields (value, offset, width) of one unit of 64 bits, from the offset `start` on, in the order of their
offsets, of at least one and fewer than 63 bits. -/
def Ascending : Nat → List (Nat × Nat × Nat) → Prop
  | _, [] => True
  | start, (_, o, w) :: fs => start ≤ o ∧ w < 63 ∧ o + w ≤ 64 ∧ 0 < w ∧ Ascending (o + w) fs

end Kefir.StaticData
