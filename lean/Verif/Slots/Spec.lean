import Verif.StaticData.Spec
/-!
# Specification: where the values of initialisers go

An object with static storage duration is initialised by a list of designations with values.  This says
which bytes of the object a designation stands for.  Nothing here refers to the numbering of values that the
compiler uses.
-/

namespace Kefir.Slots

open Kefir.Layout Kefir.Abi Kefir.StaticData

/-- One step of a designation (6.7.9): the `i`-th member of a structure or union, or the `i`-th element of an
array. -/
inductive Step where
  | member (i : Nat)
  | element (i : Nat)
  deriving DecidableEq, Repr

/-- The part of an object that a step leads to: its type, its layout and its offset in the object. -/
def step : Ty → LTree → Step → Option (Ty × LTree × Nat)
  | .struct _ ms, .node _ ls, .member i | .union _ ms, .node _ ls, .member i =>
    match ms[i]?, ls[i]? with
    | some t, some l => some (t, l, l.data.offset)
    | _, _ => none
  | .array _ n e, .node _ [l], .element i => if i < n then some (e, l, i * l.data.size) else none
  | _, _, _ => none

/-- The part of an object that a designation leads to. -/
def part : Ty → LTree → List Step → Option (Ty × LTree × Nat)
  | t, l, [] => some (t, l, 0)
  | t, l, s :: p =>
    match step t l s with
    | some (t', l', o) => (part t' l' p).map fun x => (x.1, x.2.1, o + x.2.2)
    | none => none

/-- An element of an initialiser: a value for the part that a designation leads to, or a list of
initialisers for it, whose designations begin there. -/
inductive Init where
  | value (p : List Step) (v : Value)
  | list (p : List Step) (is : List Init)

mutual
/-- The values of an initialiser, with their designations from the whole object on. -/
def Init.values : List Step → Init → List (List Step × Value)
  | r, .value p v => [(r ++ p, v)]
  | r, .list p is => valuesAll (r ++ p) is

def valuesAll : List Step → List Init → List (List Step × Value)
  | _, [] => []
  | r, i :: is => i.values r ++ valuesAll r is
end

/-- The values of the initialisers of several objects, the objects given by their numbers. -/
def designated : List (Nat × List Init) → List ((Nat × List Step) × Value)
  | [] => []
  | (k, is) :: more => (valuesAll [] is).map (fun x => ((k, x.1), x.2)) ++ designated more

mutual
/-- The designations of an initialiser lead to parts of the object. -/
def Init.Valid (t : Ty) (l : LTree) : Init → Prop
  | .value p _ => ∃ x, part t l p = some x
  | .list p is => ∃ x, part t l p = some x ∧ ValidAll x.1 x.2.1 is

def ValidAll (t : Ty) (l : LTree) : List Init → Prop
  | [] => True
  | i :: is => i.Valid t l ∧ ValidAll t l is
end

/-- A value that the part of an object can have: a scalar a value of its kind, an array a string that is not
longer, structures and unions none. -/
def Fits : Ty → LTree → Value → Prop
  | .leaf k _ n, _, v => LeafSuits k n v
  | .array _ _ _, l, v => ∃ bs, (v = .string bs ∨ v = .raw bs) ∧ bs.length ≤ l.data.size
  | _, _, _ => False

/-- A value is given for an array as a whole only if none is given for a part of it. -/
def NoMixture (vs : List ((Nat × List Step) × Value)) : Prop :=
  ∀ x ∈ vs, ∀ y ∈ vs, ∀ s q, x.1.1 = y.1.1 → y.1.2 ≠ x.1.2 ++ s :: q

/-- All the values fit the parts that they are given for. -/
def FitsAll (ts : List Ty) (ls : List LTree) (vs : List ((Nat × List Step) × Value)) : Prop :=
  ∀ x ∈ vs, x.2 ≠ .undefined ∧ ∀ t l t' l' o, ts[x.1.1]? = some t → ls[x.1.1]? = some l →
    part t l x.1.2 = some (t', l', o) → Fits t' l' x.2

/-- The bytes of a part of an object that has this value. -/
def bytesFor : Ty → LTree → Value → List Cell
  | .leaf k _ n, _, v => encode k n v
  | .array _ _ _, l, .string bs | .array _ _ _, l, .raw bs => padded l.data.size bs
  | _, _, _ => []

def Ty.isUnion : Ty → Bool
  | .union _ _ => true
  | _ => false

/-- The value at `q` leaves the part at `p` visible: it is no value for the whole of an object that contains
it, and does not belong to another member of a union. -/
def Clear : Ty → LTree → List Step → List Step → Prop
  | _, _, [], _ => True
  | _, _, _ :: _, [] => False
  | t, l, s :: p, s' :: q =>
    (Ty.isUnion t = true → s' = s) ∧
      (s' = s → ∀ t' l' o, step t l s = some (t', l', o) → Clear t' l' p q)

end Kefir.Slots
