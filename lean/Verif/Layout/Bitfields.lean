import Verif.Layout.Model
import Verif.Layout.BitSpec

/-!
# Model of bit-field allocation

`source/codegen/amd64/system-v/bitfields.c` and the translation of structure and union types in
`source/ast-translator/type_translate.c`.  Bit positions are natural numbers (`kefir_size_t` in the
code); the offset and width of `struct kefir_ir_bitfield` (`headers/kefir/ir/bitfields.h:28-31`) are
`uint8_t` and are reduced modulo 256 here too.  Checks for null pointers and failing allocations are
not modelled.
-/

namespace Kefir.Layout

/-- `bitfields.c:27-34`, `struct bitfield_allocator_payload` without the pointer to the type. -/
structure Allocator where
  hasLast : Bool
  head : Nat
  tail : Nat
  deriving DecidableEq, Repr

/-- `bitfields.c:51-84`, `amd64_sysv_bitfield_props`: size and alignment in bits. -/
def bitfieldProps : Leaf → Res (Nat × Nat)
  | .char | .bool | .int8 => .ok (8, 8)
  | .short | .int16 => .ok (16, 16)
  | .int | .int32 => .ok (32, 32)
  | .long | .word | .int64 => .ok (64, 64)
  | _ => .error .invalidParameter

/-- `source/ir/type.c:237-283`, `kefir_ir_type_visitor_list_nodes`, with the callback
`visit_struct_layout` (`bitfields.c:91-102`) for every type of node. -/
def maxStop (t : List Entry) (lay : List (Option Data)) (i count acc : Nat) : Res Nat :=
  match count with
  | 0 => .ok acc
  | n + 1 =>
    if _h : i < t.length then
      if (t[i].code = .struct ∨ t[i].code = .union) ∧ t[i].param = 0 then .error .invalidState
      else
        match lay[i]? with
        | some (some d) => maxStop t lay (i + nodeLen t i) n (max acc (d.offset + d.size))
        | _ => .error .internalError
    else .ok acc

/-- `bitfields.c:104-125`, `struct_current_offset`. -/
def structCurrentOffset (t : List Entry) (index : Nat) : Res Nat :=
  match t[index]? with
  | none => .error .invalidParameter
  | some e =>
    if e.param > 0 ∧ e.code = .struct then do
      let lay ← typeLayoutOf t index 1
      maxStop t lay (index + 1) e.param 0
    else .ok 0

/-- `bitfields.c:127-175`, `amd64_sysv_bitfield_next`: the new state of the allocator, the entry and
offset and width of the bit-field. -/
def bitfieldNext (t : List Entry) (index : Nat) (named : Bool) (base : Leaf) (width : Nat) :
    Res (Allocator × Entry × Nat × Nat) :=
  if width = 0 then .error .invalidParameter
  else do
    let bytes ← structCurrentOffset t index
    let current := bytes * 8
    let (size, alignment) ← bitfieldProps base
    if width ≤ size then
      let tail := if (current &&& (alignment - 1)) + width > size then padAligned current alignment
        else current
      let e : Entry :=
        { code := .leaf .bits, alignment := if named then alignment / 8 else 0,
          param := tail + width - current }
      .ok ({ hasLast := true, head := current, tail := tail + width }, e, (tail - current) % 256, width % 256)
    else .error .outOfBounds

/-- `bitfields.c:177-209`, `amd64_sysv_bitfield_next_colocated`; `e` is the entry of the run. -/
def bitfieldNextColocated (a : Allocator) (named : Bool) (base : Leaf) (width : Nat) (e : Entry) :
    Res (Allocator × Entry × Nat × Nat) :=
  if width = 0 then .error .invalidParameter
  else if a.hasLast = false then .error .invalidChange
  else do
    let (size, alignment) ← bitfieldProps base
    if width ≤ size then
      if (a.tail &&& (alignment - 1)) + width ≤ size then
        let tail := a.tail + width
        let e := { e with
          alignment := if named then max e.alignment (alignment / 8) else e.alignment
          param := tail - a.head }
        .ok ({ a with tail }, e, (a.tail - a.head) % 256, width % 256)
      else .error .outOfSpace
    else .error .outOfBounds

/-- The local variables of `translate_struct_type` (`type_translate.c:278-304`): the vector of the IR
type under construction and `struct bitfield_manager` (`:206-210`).  (`last_bitfield_layout` is never
read.) -/
structure Build where
  entries : List Entry
  alloc : Allocator
  lastStorage : Nat

/-- `kefir_ir_type_at(builder->type, type_index)->param++`. -/
def bumpParam (t : List Entry) (index : Nat) : List Entry :=
  t.modify index fun e => { e with param := e.param + 1 }

/-- `KEFIR_IR_BITFIELD_ALLOCATOR_RESET` (`bitfields.c:43-49`) and the two assignments that go with it
(`type_translate.c:216-218`, `:312-314`, `:318-320`). -/
def Build.reset (b : Build) : Build :=
  { b with alloc := { b.alloc with hasLast := false }, lastStorage := 0 }

/-- `type_translate.c:246-262`: a bit-field that starts a run. -/
def startRun (index : Nat) (b : Build) (named : Bool) (k : Leaf) (width : Nat) :
    Res (Build × Option Placement) := do
  let (alloc, e, offset, w) ← bitfieldNext b.entries index named k width
  let storage := b.entries.length
  .ok ({ entries := bumpParam (b.entries ++ [e]) index, alloc, lastStorage := storage },
    some { storage, offset, width := w })

/-- `type_translate.c:212-276`, `translate_bitfield`. -/
def translateBitfield (index : Nat) (b : Build) (named : Bool) (k : Leaf) (width : Nat) :
    Res (Build × Option Placement) :=
  if width = 0 then .ok (b.reset, none)
  else if b.alloc.hasLast then
    match b.entries[b.lastStorage]? with
    | none => .error .invalidParameter
    | some e =>
      match bitfieldNextColocated b.alloc named k width e with
      | .ok (alloc, e, offset, w) =>
        .ok ({ b with entries := b.entries.set b.lastStorage e, alloc },
          some { storage := b.lastStorage, offset, width := w })
      | .error .outOfSpace => startRun index b named k width
      | .error err => .error err
  else startRun index b named k width

/-- `type_translate.c:179-204`, `translate_normal_struct_field`.  The translation of the type of the
member (`kefir_ast_translate_object_type`) is represented by the entries it appends. -/
def translateNormal (index : Nat) (b : Build) (t : Ty) : Build × Option Placement :=
  ({ b with entries := bumpParam (b.entries ++ flatten t) index },
    some { storage := b.entries.length, offset := 0, width := 0 })

/-- One pass of the loop of `type_translate.c:306-323`. -/
def translateField (isUnion : Bool) (index : Nat) (b : Build) : Field → Res (Build × Option Placement)
  | .bit named k w => translateBitfield index (if isUnion then b.reset else b) named k w
  | .member t => .ok (translateNormal index b.reset t)

/-- The loop of `type_translate.c:306-323`. -/
def translateFields (isUnion : Bool) (index : Nat) (b : Build) :
    List Field → Res (Build × List (Option Placement))
  | [] => .ok (b, [])
  | f :: fs => do
    let (b, p) ← translateField isUnion index b f
    let (b, ps) ← translateFields isUnion index b fs
    .ok (b, p :: ps)

/-- `type_translate.c:278-341`, `translate_struct_type`, for a complete type: the vector with the new
entries and what is recorded about the members.  (The extension that gives an empty structure a `char`
member, `:325-328`, is not modelled.) -/
def translateStruct (pre : List Entry) (isUnion : Bool) (al : Nat) (fs : List Field) :
    Res (List Entry × List (Option Placement)) := do
  let b : Build :=
    { entries := pre ++ [⟨if isUnion then .union else .struct, al, 0⟩]
      alloc := { hasLast := false, head := 0, tail := 0 }, lastStorage := 0 }
  let (b, ps) ← translateFields isUnion pre.length b fs
  .ok (b.entries, ps)

end Kefir.Layout
