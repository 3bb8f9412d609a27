import Verif.Layout.Spec

/-!
# Specification of parameter passing

The classes of the System V ABI (section 3.2.3), the scalars of an aggregate and the eightbytes they
belong to, and what "the parameters do not collide" means.  Nothing here refers to the code that assigns
registers and stack offsets.
-/

namespace Kefir.Abi

open Kefir.Layout

/-- Classes of eightbytes (`headers/kefir/codegen/amd64/system-v/abi/data.h:31-40`). -/
inductive Class where
  | integer | sse | sseup | x87 | x87up | complexX87 | noClass | memory
  deriving DecidableEq, Repr

/-- System V ABI 3.2.3, the rules (a) to (f) for merging two classes. -/
def abiMerge (a b : Class) : Class :=
  if a = b then a                                                                     -- (a)
  else if a = .noClass then b else if b = .noClass then a                             -- (b)
  else if a = .memory ∨ b = .memory then .memory                                      -- (c)
  else if a = .integer ∨ b = .integer then .integer                                   -- (d)
  else if a ∈ [.x87, .x87up, .complexX87] ∨ b ∈ [.x87, .x87up, .complexX87] then .memory  -- (e)
  else .sse                                                                           -- (f)

/-- A scalar at a place in an aggregate. -/
structure Scalar where
  kind : Leaf
  offset : Nat
  size : Nat
  deriving DecidableEq, Repr

/-- Class of the part of a scalar that lies in the eightbyte `i`. -/
def Scalar.classIn (s : Scalar) (i : Nat) : Class :=
  match s.kind with
  | .float32 | .float64 => .sse
  | .longDouble => if s.offset / 8 = i then .x87 else .x87up
  | .memory => .memory
  | .pad => .noClass
  | _ => .integer

/-- The scalar has a byte in the eightbyte `i`. -/
def Scalar.touches (s : Scalar) (i : Nat) : Bool :=
  decide (s.offset < 8 * i + 8 ∧ 8 * i < s.offset + s.size)

mutual
/-- The objects in an object of type `t` with layout `l` that starts at `base`, in order: an aggregate
followed by its members, or by its elements.  A scalar is given with its place, an aggregate by `none`. -/
def contents : Ty → LTree → Nat → List (Option Scalar)
  | .leaf k _ _, .node d _, base => [some ⟨k, base, d.size⟩]
  | .struct _ ms, .node _ ls, base => none :: contentsAll ms ls base
  | .union _ ms, .node _ ls, base => none :: contentsAll ms ls base
  | .array _ n e, .node _ ls, base =>
    none :: (match ls with
      | [l] => (List.range n).flatMap (fun i => contents e l (base + l.data.offset + i * l.data.size))
      | _ => [])

def contentsAll : List Ty → List LTree → Nat → List (Option Scalar)
  | t :: ts, l :: ls, base => contents t l (base + l.data.offset) ++ contentsAll ts ls base
  | _, _, _ => []
end

/-- The scalars of an object. -/
def scalars (t : Ty) (l : LTree) : List Scalar := (contents t l 0).filterMap id

/-- Class of the eightbyte `i`: the merge of the classes of the scalars in it, in their order. -/
def eightbyteClass (ss : List Scalar) (i : Nat) : Class :=
  (ss.filter (·.touches i)).foldl (fun c s => abiMerge c (s.classIn i)) .noClass

/-- Number of eightbytes of an object. -/
def eightbytes (size : Nat) : Nat := (size + 7) / 8

mutual
/-- Number of objects in an object, itself included. -/
def objects : Ty → Nat
  | .leaf _ _ _ => 1
  | .struct _ ms => 1 + objectsAll ms
  | .union _ ms => 1 + objectsAll ms
  | .array _ n e => 1 + n * objects e

def objectsAll : List Ty → Nat
  | [] => 0
  | t :: ts => objects t + objectsAll ts
end

/-- System V ABI 3.2.3, the post merger clean-up for an aggregate of at most two eightbytes with these
classes: it is passed in memory if an eightbyte has class MEMORY, or X87UP without X87 before it. -/
def InMemory (classes : List Class) : Prop :=
  .memory ∈ classes ∨
  ∃ i : Nat, classes[i]? = some .x87up ∧ (i = 0 ∨ classes[i - 1]? ≠ some .x87)

/-- Smallest multiple of `a` that is not less than `p`. -/
def roundUp (p a : Nat) : Nat := (p + a - 1) / a * a

mutual
/-- `Packed t l base p p'`: every scalar of the object `t` with layout `l` that starts at `base` is at the
first suitably aligned place after the scalar before it (no aggregate has padding around it that its
scalars do not require).  The scalar before the object ends at `p`, its last one at `p'`.  The members of a
union follow the scalar before the union. -/
inductive Packed : Ty → LTree → Nat → Nat → Nat → Prop
  | leaf {k al n d ls base p} :
      k ≠ .pad → k ≠ .builtin → k ≠ .bits → 0 < d.size → base = roundUp p d.alignment →
      (d.alignment ∈ [1, 2, 4, 8] ∨ p % 8 = 0 ∧ base = p) →
      (k = .longDouble → base % 8 = 0) → Packed (.leaf k al n) (.node d ls) base p (base + d.size)
  | bits {al n d ls p} : 0 < n → Packed (.leaf .bits al n) (.node d ls) p p (p + d.size)
  | struct {al ms d ls base p p'} : PackedAll ms ls base p p' → Packed (.struct al ms) (.node d ls) base p p'
  | union {al ms d ls base p p'} : PackedUnion ms ls base p p p' → Packed (.union al ms) (.node d ls) base p p'
  | array {al n e d l base p p'} : PackedN e l (base + l.data.offset) n p p' →
      Packed (.array al n e) (.node d [l]) base p p'

inductive PackedAll : List Ty → List LTree → Nat → Nat → Nat → Prop
  | nil {base p} : PackedAll [] [] base p p
  | cons {t l ts ls base p p' p''} : Packed t l (base + l.data.offset) p p' → PackedAll ts ls base p' p'' →
      PackedAll (t :: ts) (l :: ls) base p p''

/-- The last argument but one is the greatest end so far. -/
inductive PackedUnion : List Ty → List LTree → Nat → Nat → Nat → Nat → Prop
  | nil {base p m} : PackedUnion [] [] base p m m
  | cons {t l ts ls base p m p' m'} : Packed t l (base + l.data.offset) p p' →
      PackedUnion ts ls base p (max m p') m' → PackedUnion (t :: ts) (l :: ls) base p m m'

inductive PackedN : Ty → LTree → Nat → Nat → Nat → Nat → Prop
  | zero {e l base p} : PackedN e l base 0 p p
  | succ {e l base n p p' p''} : Packed e l base p p' → PackedN e l (base + l.data.size) n p' p'' →
      PackedN e l base (n + 1) p p''
end

/-- A scalar that has a value: not padding, not a `va_list`. -/
def ValueLeaf (k : Leaf) (n : Nat) : Prop := k ∉ [.pad, .builtin, .bits] ∧ 0 < leafSize k n

/-- A scalar, a run of bit-fields or an array of scalars, without alignment specifier. -/
inductive PlainMember : Ty → Prop
  | scalar {k n} : ValueLeaf k n → PlainMember (.leaf k 0 n)
  | bits {al n} : 0 < n → PlainMember (.leaf .bits al n)
  | array {k n m} : ValueLeaf k n → 0 < m → PlainMember (.array 0 m (.leaf k 0 n))

/-- A structure or union of such members. -/
inductive Plain : Ty → Prop
  | struct {al ms} : (∀ t ∈ ms, PlainMember t) → Plain (.struct al ms)
  | union {al ms} : (∀ t ∈ ms, PlainMember t) → Plain (.union al ms)

/-- Where (a part of) a parameter is passed. -/
inductive Place where
  /-- the `n`-th integer register -/
  | int (n : Nat)
  /-- the `n`-th SSE register -/
  | sse (n : Nat)
  /-- bytes of the stack -/
  | stack (offset size : Nat)
  deriving DecidableEq, Repr

/-- Two places have nothing in common. -/
def Place.Disjoint : Place → Place → Prop
  | .int m, .int n => m ≠ n
  | .sse m, .sse n => m ≠ n
  | .stack o s, .stack o' s' => o + s ≤ o' ∨ o' + s' ≤ o
  | _, _ => True

/-- The place exists; the first `reserved` integer registers are not available to parameters. -/
def Place.Valid (reserved : Nat) : Place → Prop
  | .int n => reserved ≤ n ∧ n < 6
  | .sse n => n < 8
  | .stack _ _ => True

/-- Size of what is passed for a parameter: the object, for a `va_list` (which is an array) a pointer. -/
def passedSize : Ty → LTree → Nat
  | .leaf .builtin _ _, _ => 8
  | _, l => l.data.size

/-- Alignment of a parameter in memory.  (C17 6.7.5p2 does not allow alignment specifiers in the
declaration of a parameter, scalars have their natural alignment.) -/
def passedAlignment : Ty → LTree → Nat
  | .leaf .memory _ _, l => l.data.alignment
  | .leaf k _ _, _ => leafAlign k
  | _, l => l.data.alignment

/-- The register is of the kind of the scalar (for aggregates see `eightbyteClass`). -/
def RegisterFor : Ty → Place → Prop
  | .leaf .float32 _ _, p | .leaf .float64 _ _, p => ∃ n, p = .sse n
  | .leaf _ _ _, p => ∃ n, p = .int n
  | _, p => ∃ n, p = .int n ∨ p = .sse n

/-- The places of one parameter: one piece of the stack that is large enough and aligned for it (and to
eight bytes), or a suitable register for each of its eightbytes.  Padding is not passed. -/
def Passed (t : Ty) (l : LTree) (ps : List Place) : Prop :=
  match t with
  | .leaf .pad _ _ => ps = []
  | t =>
    (∃ off n, ps = [.stack off n] ∧ passedSize t l ≤ n ∧ off % max (passedAlignment t l) 8 = 0) ∨
    ((∀ p ∈ ps, RegisterFor t p) ∧ ps.length = eightbytes (passedSize t l))

/-- Every parameter is passed. -/
inductive PassedAll : List Ty → List LTree → List (List Place) → Prop
  | nil : PassedAll [] [] []
  | cons {t l ps ts ls pss} : Passed t l ps → PassedAll ts ls pss → PassedAll (t :: ts) (l :: ls) (ps :: pss)

end Kefir.Abi
