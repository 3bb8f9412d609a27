import Verif.Base

/-!
# Specification of memory layouts

Types as trees, the tree of sizes, alignments and offsets that a layout assigns to them, and what the
System V ABI (section 3.1.2) and C17 6.7.2.1 require of it.  Nothing here refers to the code that
computes layouts.
-/

namespace Kefir.Layout

/-- Kinds of objects without parts (`headers/kefir/ir/type.h:28-57`). -/
inductive Leaf where
  | pad | memory
  | int8 | int16 | int32 | int64
  | float32 | float64
  | bool | char | short | int | long | word
  | longDouble
  | bits
  | builtin
  deriving DecidableEq, Repr

/-- A type.  `al` is an explicitly requested alignment (0: none requested); `param` is the number of
bytes of `pad` and `memory`, the number of bits of `bits`, the number of the `builtin` type. -/
inductive Ty where
  | leaf (l : Leaf) (al param : Nat)
  | struct (al : Nat) (ms : List Ty)
  | union (al : Nat) (ms : List Ty)
  | array (al n : Nat) (elem : Ty)

/-- What a layout says about one object: its size, its alignment, whether everything in it is
naturally aligned, and its offset in the object that contains it. -/
structure Data where
  size : Nat
  alignment : Nat
  aligned : Bool
  offset : Nat
  deriving DecidableEq, Repr, Inhabited

/-- A layout of a type: the data of the object and the layouts of its members.  (An array has one
member, its first element.) -/
inductive LTree where
  | node (d : Data) (ms : List LTree)

def LTree.data : LTree → Data
  | .node d _ => d

def LTree.members : LTree → List LTree
  | .node _ ms => ms

/-- First byte after an object, relative to the containing object. -/
def LTree.stop (l : LTree) : Nat := l.data.offset + l.data.size

/-- Sizes of the scalar types, System V ABI figure 3.1. -/
def leafSize : Leaf → Nat → Nat
  | .pad, p => p
  | .memory, p => p
  | .int8, _ => 1 | .int16, _ => 2 | .int32, _ => 4 | .int64, _ => 8
  | .float32, _ => 4 | .float64, _ => 8
  | .bool, _ => 1 | .char, _ => 1 | .short, _ => 2 | .int, _ => 4 | .long, _ => 8 | .word, _ => 8
  | .longDouble, _ => 16
  | .bits, p => (p + 7) / 8
  | .builtin, _ => 24

/-- Alignments of the scalar types, System V ABI figure 3.1.  Raw bytes and runs of bit-fields have no
alignment of their own. -/
def leafAlign : Leaf → Nat
  | .pad => 1 | .memory => 1
  | .int8 => 1 | .int16 => 2 | .int32 => 4 | .int64 => 8
  | .float32 => 4 | .float64 => 8
  | .bool => 1 | .char => 1 | .short => 2 | .int => 4 | .long => 8 | .word => 8
  | .longDouble => 16
  | .bits => 1
  | .builtin => 8

/-- A run of bit-fields. -/
def Ty.isBits : Ty → Bool
  | .leaf .bits _ _ => true
  | _ => false

/-- The requested alignment. -/
def Ty.al : Ty → Nat
  | .leaf _ al _ => al
  | .struct al _ => al
  | .union al _ => al
  | .array al _ _ => al

/-- A requested alignment replaces the natural one. -/
def effective (al natural : Nat) : Nat := if al = 0 then natural else al

/-- `n` is the greatest of the alignments of the objects. -/
def GreatestAlignment (ls : List LTree) (n : Nat) : Prop :=
  (∀ l ∈ ls, l.data.alignment ≤ n) ∧ ∃ l ∈ ls, l.data.alignment = n

/-- Members of a structure one after the other, starting at `start`: in the order of declaration,
without overlap, each (except runs of bit-fields, which are placed at the next byte) at the first
suitably aligned offset after its predecessor. -/
inductive Consecutive : Nat → List Ty → List LTree → Prop
  | nil {start} : Consecutive start [] []
  | cons {start t l ts ls} :
      start ≤ l.data.offset →
      (t.isBits = true → l.data.offset = start) →
      (t.isBits = false → l.data.offset % l.data.alignment = 0) →
      (t.isBits = false → l.data.offset < start + l.data.alignment) →
      Consecutive l.stop ts ls → Consecutive start (t :: ts) (l :: ls)

/-- Where the last member of a structure ends. -/
def lastStop : List LTree → Nat
  | [] => 0
  | [l] => l.stop
  | _ :: ls => lastStop ls

mutual
/-- `Laid t l`: `l` is a layout of the type `t` as the ABI requires it. -/
inductive Laid : Ty → LTree → Prop
  | leaf {k al p d} : d.size = leafSize k p → d.alignment = effective al (leafAlign k) →
      Laid (.leaf k al p) (.node d [])
  | struct {al ms d ls n} : LaidAll ms ls → Consecutive 0 ms ls → GreatestAlignment ls n →
      d.alignment = effective al n →
      d.size % n = 0 → lastStop ls ≤ d.size → d.size < lastStop ls + n →
      Laid (.struct al ms) (.node d ls)
  | union {al ms d ls n} : LaidAll ms ls → (∀ l ∈ ls, l.data.offset = 0) → GreatestAlignment ls n →
      d.alignment = effective al n →
      d.size % n = 0 → (∀ l ∈ ls, l.data.size ≤ d.size) → (∃ l ∈ ls, d.size < l.data.size + n) →
      Laid (.union al ms) (.node d ls)
  | array {al n elem d l} : Laid elem l → l.data.offset = 0 →
      d.alignment = effective al l.data.alignment → d.size = n * l.data.size →
      Laid (.array al n elem) (.node d [l])

inductive LaidAll : List Ty → List LTree → Prop
  | nil : LaidAll [] []
  | cons {t ts l ls} : Laid t l → LaidAll ts ls → LaidAll (t :: ts) (l :: ls)
end

mutual
/-- Structures and unions have members; there is one builtin type. -/
inductive WF : Ty → Prop
  | leaf {k al p} : (k = .builtin → p = 0) → WF (.leaf k al p)
  | struct {al ms} : ms ≠ [] → WFAll ms → WF (.struct al ms)
  | union {al ms} : ms ≠ [] → WFAll ms → WF (.union al ms)
  | array {al n elem} : WF elem → WF (.array al n elem)

inductive WFAll : List Ty → Prop
  | nil : WFAll []
  | cons {t ts} : WF t → WFAll ts → WFAll (t :: ts)
end

/-! ## The sequence of entries that represents a type -/

/-- `headers/kefir/ir/type.h:28-57`. -/
inductive TypeCode where
  | leaf (l : Leaf)
  | struct
  | array
  | union
  deriving DecidableEq, Repr

/-- `headers/kefir/ir/type.h:59-63`, `kefir_ir_typeentry`.  The alignment is an 8-bit and the parameter
a 64-bit field there. -/
structure Entry where
  code : TypeCode
  alignment : Nat
  param : Nat
  deriving DecidableEq, Repr

mutual
/-- A type is represented by its entries in prefix order; the parameter of a structure or union is the
number of its members, the parameter of an array the number of its elements. -/
def flatten : Ty → List Entry
  | .leaf l al p => [⟨.leaf l, al, p⟩]
  | .struct al ms => ⟨.struct, al, ms.length⟩ :: flattenAll ms
  | .union al ms => ⟨.union, al, ms.length⟩ :: flattenAll ms
  | .array al n elem => ⟨.array, al, n⟩ :: flatten elem

def flattenAll : List Ty → List Entry
  | [] => []
  | t :: ts => flatten t ++ flattenAll ts
end

mutual
/-- The data of a layout in the same order. -/
def LTree.flat : LTree → List Data
  | .node d ms => d :: flatL ms

def flatL : List LTree → List Data
  | [] => []
  | l :: ls => l.flat ++ flatL ls
end

/-! ## Positions of the scalars -/

/-- `ScalarAt t l base k off`: an object of type `t` with layout `l` that starts at `base` contains a
scalar of kind `k` at address `off`. -/
inductive ScalarAt : Ty → LTree → Nat → Leaf → Nat → Prop
  | leaf {k al p d base} : ScalarAt (.leaf k al p) (.node d []) base k base
  | struct {al ms d ls base t l k off} {i : Nat} : ms[i]? = some t → ls[i]? = some l →
      ScalarAt t l (base + l.data.offset) k off → ScalarAt (.struct al ms) (.node d ls) base k off
  | union {al ms d ls base t l k off} {i : Nat} : ms[i]? = some t → ls[i]? = some l →
      ScalarAt t l (base + l.data.offset) k off → ScalarAt (.union al ms) (.node d ls) base k off
  | array {al n elem d l base k off} {i : Nat} : i < n →
      ScalarAt elem l (base + l.data.offset + i * l.data.size) k off →
      ScalarAt (.array al n elem) (.node d [l]) base k off

mutual
/-- No alignment is lowered, every requested alignment is a power of two, and none is requested for
the elements of arrays. -/
inductive Unpacked : Ty → LTree → Prop
  | leaf {k al p d} : (al = 0 ∨ ∃ e, al = 2 ^ e) → leafAlign k ≤ d.alignment →
      Unpacked (.leaf k al p) (.node d [])
  | struct {al ms d ls} : (al = 0 ∨ ∃ e, al = 2 ^ e) → (∀ l ∈ ls, l.data.alignment ≤ d.alignment) →
      UnpackedAll ms ls → Unpacked (.struct al ms) (.node d ls)
  | union {al ms d ls} : (al = 0 ∨ ∃ e, al = 2 ^ e) → (∀ l ∈ ls, l.data.alignment ≤ d.alignment) →
      UnpackedAll ms ls → Unpacked (.union al ms) (.node d ls)
  | array {al n elem d l} : (al = 0 ∨ ∃ e, al = 2 ^ e) → l.data.alignment ≤ d.alignment →
      elem.al = 0 → Unpacked elem l → Unpacked (.array al n elem) (.node d [l])

inductive UnpackedAll : List Ty → List LTree → Prop
  | nil : UnpackedAll [] []
  | cons {t ts l ls} : Unpacked t l → UnpackedAll ts ls → UnpackedAll (t :: ts) (l :: ls)
end

end Kefir.Layout
