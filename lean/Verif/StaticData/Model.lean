import Verif.StaticData.Spec
import Verif.Abi.Model

/-!
# Model of initialised data and of the emission of static objects

`source/ir/data.c` (the values of the slots of an object, and the pass that marks which of its parts have
values), the block iterator of `source/core/block_tree.c`, and
`source/codegen/amd64/system-v/abi/static_data.c` (the assembler directives for an object).

The functions recurse over the tree of a type and of its layout, where the code visits the entries of the
flat representation; that the two traversals agree is proved for the layout, the classification and the
allocation of registers (`Layout.Flat`, `Abi.Flat`) and assumed here.  What a directive assembles to
(`KEFIR_AMD64_BYTE`, `_WORD`, `_DOUBLE`, `_QUAD`: 1, 2, 4 and 8 bytes, the least significant one first) is
assumed.  Sizes, slots and offsets are natural numbers; allocation does not fail.
-/

namespace Kefir.StaticData

open Kefir.Layout Kefir.Abi

/-- `data.c:26`. -/
def blockCapacity : Nat := 128

/-- `headers/kefir/ir/data.h:64-73`, `kefir_ir_data`.  `blocks` are the identifiers of the blocks of
`value_tree` in the order of its iterator (ascending), `vals` and `flags` the types and values and the
`defined` fields of the entries; entries of blocks that do not exist are undefined (`data.c:431`). -/
structure DataMap where
  total : Nat
  blocks : List Nat
  vals : Nat → Value
  flags : Nat → Bool
  finalized : Bool
  defined : Bool

/-- `data.c:44-59`, `kefir_ir_data_alloc`. -/
def alloc (total : Nat) : DataMap := ⟨total, [], fun _ => .undefined, fun _ => false, false, false⟩

/-- `block_tree.c:103-132`, `kefir_block_tree_block`: creates the block if there is none. -/
def addBlock (b : Nat) : List Nat → List Nat
  | [] => [b]
  | x :: xs => if b < x then b :: x :: xs else if b = x then x :: xs else x :: addBlock b xs

/-- `data.c:81-97`, `value_get_entry`: whether there is an entry. -/
def DataMap.mapped (d : DataMap) (slot : Nat) : Bool := d.blocks.contains (slot / blockCapacity)

def DataMap.setVal (d : DataMap) (slot : Nat) (v : Value) : DataMap :=
  { d with vals := fun i => if i = slot then v else d.vals i }

def DataMap.setFlag (d : DataMap) (slot : Nat) (b : Bool) : DataMap :=
  { d with flags := fun i => if i = slot then b else d.flags i }

/-- `data.c:99-109`, `:140-243`, `kefir_ir_data_set_*` (with `value_entry_at`, `data.c:69-79`). -/
def setValue (d : DataMap) (slot : Nat) (v : Value) : Out DataMap :=
  if d.finalized then .error (.err .invalidChange)
  else
    let d := { d with blocks := addBlock (slot / blockCapacity) d.blocks }
    .ok (d.setVal slot v)

/-- `data.c:111-138`, `kefir_ir_data_set_bitfield`.  Shifting a 64-bit number by 64 or more is undefined. -/
def setBitfield (d : DataMap) (slot value offset width : Nat) : Out DataMap :=
  if d.finalized then .error (.err .invalidChange)
  else
    let d := { d with blocks := addBlock (slot / blockCapacity) d.blocks }
    let store (current : Nat) : Out DataMap :=
      if width > 64 then .error (.err .invalidParameter)
      else if width = 64 then .ok (d.setVal slot (.integer value))
      else if width + 1 ≥ 64 ∨ offset ≥ 64 then .error .undefined
      else
        let mask := 1 <<< (width + 1) - 1
        let current := current &&& (2 ^ 64 - 1 - (mask <<< offset) % 2 ^ 64)
        let current := current ||| ((value &&& mask) <<< offset) % 2 ^ 64
        .ok (d.setVal slot (.integer current))
    match d.vals slot with
    | .integer x => store x
    | .undefined => store 0
    | _ => .error (.err .invalidState)

/-- Several calls to `kefir_ir_data_set_*`, until one fails. -/
def setAll (d : DataMap) : List (Nat × Value) → Out DataMap
  | [] => .ok d
  | (slot, v) :: ws =>
    match setValue d slot v with
    | .ok d => setAll d ws
    | .error e => .error e

/-- Several calls to `kefir_ir_data_set_bitfield` for the same slot (value, offset, width), until one fails. -/
def setBitfields (d : DataMap) (slot : Nat) : List (Nat × Nat × Nat) → Out DataMap
  | [] => .ok d
  | (v, o, w) :: ws =>
    match setBitfield d slot v o w with
    | .ok d => setBitfields d slot ws
    | .error e => .error e

/-- `block_tree.c:161-170`, `kefir_block_tree_iter_skip_to`.  The iterator is the list of the blocks that it has
not passed; its first element is the current block. -/
def skipTo : List Nat → Nat → List Nat
  | [], _ => []
  | b :: bs, slot => if (b + 1) * blockCapacity ≤ slot then skipTo bs slot else b :: bs

/-! ## Finalisation -/

/-- `data.c:245-251`, `finalize_param`. -/
structure Fin where
  data : DataMap
  slot : Nat
  defined : Bool
  iter : List Nat

/-- `data.c:273-288`, `finalize_scalar`; `:262-271`, `finalize_pad`; `:375-398`, `finalize_builtin`. -/
def finLeaf (k : Leaf) (n : Nat) (s : Fin) : Out Fin :=
  match k with
  | .pad => .ok { s with slot := s.slot + 1 }
  | .builtin =>
    if n ≠ 0 then .error (.err .invalidState)
    else if s.data.mapped s.slot ∧ s.data.vals s.slot ≠ .undefined then .error (.err .invalidState)
    else .ok { s with slot := s.slot + 1 }
  | _ =>
    if s.data.mapped s.slot then
      let flag := decide (s.data.vals s.slot ≠ .undefined)
      .ok ⟨s.data.setFlag s.slot flag, s.slot + 1, s.defined || flag, s.iter⟩
    else .ok { s with slot := s.slot + 1 }

/-- `data.c:338-357`, the loop of `finalize_array`.  Every iteration increases `i`, so that `fuel` iterations
suffice if `n ≤ i + fuel`. -/
def finLoop (f : Fin → Out Fin) (n elemSlots endSlot fuel i : Nat) (s : Fin) : Out Fin :=
  match fuel with
  | 0 => .ok s
  | fuel + 1 =>
    if i < n then
      let iter := skipTo s.iter s.slot
      match iter with
      | [] => .ok { s with iter := iter }
      | b :: _ =>
        if s.slot < b * blockCapacity then
          let elems := (min endSlot (b * blockCapacity) - s.slot) / elemSlots
          if elems > 0 then
            finLoop f n elemSlots endSlot fuel (i + elems)
              { s with iter := iter, slot := s.slot + elems * elemSlots }
          else finLoop f n elemSlots endSlot fuel (i + 1) { s with iter := iter }
        else
          match f { s with iter := iter } with
          | .ok s => finLoop f n elemSlots endSlot fuel (i + 1) s
          | .error e => .error e
    else .ok s

/-- `data.c:303-320`, the end of `finalize_struct_union`. -/
def finAggregate (entry : Bool) (slot : Nat) (defined : Bool) (sub : Fin) : Fin :=
  let data :=
    if entry then
      let data := sub.data.setFlag slot sub.defined
      if sub.defined then data.setVal slot .aggregate else data
    else sub.data
  ⟨data, sub.slot, defined || sub.defined, sub.iter⟩

/-- `data.c:359-372`, the end of `finalize_array`. -/
def finArray (entry : Bool) (slot : Nat) (defined : Bool) (sub : Fin) : Out Fin :=
  if entry then
    let flag := sub.defined || decide (sub.data.vals slot ≠ .undefined)
    let data := sub.data.setFlag slot flag
    if sub.defined then
      if sub.data.vals slot ≠ .undefined then .error (.err .invalidChange)
      else .ok ⟨data.setVal slot .aggregate, sub.slot, defined || flag, sub.iter⟩
    else .ok ⟨data, sub.slot, defined || flag, sub.iter⟩
  else .ok ⟨sub.data, sub.slot, defined, sub.iter⟩

mutual
/-- The visitor of `data.c:400-420`: `:290-321`, `finalize_struct_union`; `:323-373`, `finalize_array`. -/
def fin : Ty → Fin → Out Fin
  | .leaf k _ n, s => finLeaf k n s
  | .struct _ ms, s =>
    let entry := s.data.mapped s.slot
    if entry ∧ s.data.vals s.slot ≠ .undefined then .error (.err .invalidChange)
    else
      match finAll ms { s with slot := s.slot + 1, defined := false } with
      | .ok sub => .ok (finAggregate entry s.slot s.defined sub)
      | .error e => .error e
  | .union _ ms, s =>
    let entry := s.data.mapped s.slot
    if entry ∧ s.data.vals s.slot ≠ .undefined then .error (.err .invalidChange)
    else
      match finAll ms { s with slot := s.slot + 1, defined := false } with
      | .ok sub => .ok (finAggregate entry s.slot s.defined sub)
      | .error e => .error e
  | .array _ n e, s =>
    let entry := s.data.mapped s.slot
    match finLoop (fun s => fin e s) n (objects e) (s.slot + 1 + objects e * n) n 0
        { s with slot := s.slot + 1, defined := false } with
    | .ok sub => finArray entry s.slot s.defined sub
    | .error e => .error e

def finAll : List Ty → Fin → Out Fin
  | [], s => .ok s
  | t :: ts, s =>
    match fin t s with
    | .ok s => finAll ts s
    | .error e => .error e
end

/-- `data.c:400-420`, `kefir_ir_data_finalize`. -/
def finalize (ts : List Ty) (d : DataMap) : Out DataMap :=
  match finAll ts ⟨d, 0, false, d.blocks⟩ with
  | .ok s => .ok { s.data with finalized := true, defined := s.defined }
  | .error e => .error e

/-! ## Emission -/

/-- `static_data.c:32-40`, `static_data_param`, and the bytes emitted so far. -/
structure Emit where
  slot : Nat
  offset : Nat
  iter : List Nat
  out : List Cell

/-- `data.c:422-437`, `kefir_ir_data_value_at`: the index is checked. -/
def valueAt (d : DataMap) (slot : Nat) : Out (Value × Bool) :=
  if slot < d.total then
    .ok (if d.mapped slot then (d.vals slot, d.flags slot) else (.undefined, false))
  else .error (.err .outOfBounds)

/-- The bytes of a directive of `n` bytes with the argument `v` converted to `8 n` bits. -/
def directive (n v : Nat) : List Cell := le n (v % 2 ^ (8 * n))

/-- Emits bytes and advances the offset by `size`. -/
def Emit.put (s : Emit) (cs : List Cell) (size : Nat) : Emit :=
  { s with offset := s.offset + size, out := s.out ++ cs }

/-- `static_data.c:51-59`, `align_offset`. -/
def alignOffset (d : Data) (s : Emit) : Emit :=
  let offset := padAligned s.offset d.alignment
  if offset > s.offset then { s with offset := offset, out := s.out ++ zeros (offset - s.offset) } else s

/-- `static_data.c:61-72`, `trailing_padding`. -/
def trailing (start : Nat) (d : Data) (s : Emit) : Out Emit :=
  let stop := start + d.size
  if stop > s.offset then .ok { s with offset := stop, out := s.out ++ zeros (stop - s.offset) }
  else if stop = s.offset then .ok s
  else .error (.err .outOfBounds)

/-- `static_data.c:146-187`, the directive for an integer. -/
def integralCells (k : Leaf) (n v : Nat) : Out (List Cell) :=
  match k with
  | .bool | .char | .int8 => .ok (directive 1 v)
  | .short | .int16 => .ok (directive 2 v)
  | .int | .int32 => .ok (directive 4 v)
  | .long | .int64 => .ok (directive 8 v)
  | .bits =>
    let bytes := n / 8 + (if n % 8 ≠ 0 then 1 else 0)
    if bytes > 8 then .error .undefined   -- shift of a 64-bit number by 64 or more
    else .ok ((List.range bytes).map fun i => .byte ((v >>> (i <<< 3)) &&& 0xff))
  | _ => .error (.err .internalError)

/-- `static_data.c:74-190`, `integral_static_data`, after the entry is read and the slot advanced. -/
def emitIntegral (k : Leaf) (n : Nat) (d : Data) (v : Value) (s : Emit) : Out Emit :=
  let number (x : Nat) : Out Emit :=
    let s := if k ≠ .bits then alignOffset d s else s
    match integralCells k n x with
    | .ok cs => .ok (s.put cs d.size)
    | .error e => .error e
  match v with
  | .undefined => number 0
  | .integer x => number x
  | .pointer t o =>
    if k = .long ∨ k = .int64 then .ok ((alignOffset d s).put (addressBytes t o) d.size)
    else .error (.err .invalidState)
  | _ => .error (.err .invalidParameter)

/-- `static_data.c:192-245`, `word_static_data`. -/
def emitWord (d : Data) (v : Value) (s : Emit) : Out Emit :=
  let s := alignOffset d s
  match v with
  | .undefined => .ok (s.put (directive 8 0) d.size)
  | .integer x => .ok (s.put (directive 8 x) d.size)
  | .pointer t o => .ok (s.put (addressBytes t o) d.size)
  | _ => .error (.err .invalidParameter)

/-- `static_data.c:247-287`, `float32_static_data`. -/
def emitFloat32 (d : Data) (v : Value) (s : Emit) : Out Emit :=
  match v with
  | .undefined => .ok ((alignOffset d s).put (directive 4 0) d.size)
  | .float32 b => .ok ((alignOffset d s).put (directive 4 b) d.size)
  | _ => .error (.err .invalidParameter)

/-- `static_data.c:289-329`, `float64_static_data`. -/
def emitFloat64 (d : Data) (v : Value) (s : Emit) : Out Emit :=
  match v with
  | .undefined => .ok ((alignOffset d s).put (directive 8 0) d.size)
  | .float64 b => .ok ((alignOffset d s).put (directive 8 b) d.size)
  | _ => .error (.err .invalidParameter)

/-- `static_data.c:331-372`, `long_double_static_data`. -/
def emitLongDouble (d : Data) (v : Value) (s : Emit) : Out Emit :=
  match v with
  | .undefined => .ok ((alignOffset d s).put (directive 8 0 ++ directive 8 0) d.size)
  | .longDouble l h => .ok ((alignOffset d s).put (directive 8 l ++ directive 8 h) d.size)
  | _ => .error (.err .invalidParameter)

/-- `static_data.c:423-430`, `dump_binary`. -/
def dumpBinary (bytes : List Nat) (s : Emit) : Emit := s.put (bytes.map .byte) bytes.length

/-- `static_data.c:497-530`, `memory_static_data`. -/
def emitMemory (d : Data) (v : Value) (s : Emit) : Out Emit :=
  let s := alignOffset d s
  match v with
  | .undefined => trailing s.offset d s
  | .string bs => trailing s.offset d (dumpBinary bs s)
  | .raw bs => trailing s.offset d (dumpBinary bs s)
  | _ => .error (.err .invalidParameter)

/-- `static_data.c:532-546`, `pad_static_data`. -/
def emitPad (d : Data) (s : Emit) : Out Emit := .ok ((alignOffset d s).put (zeros d.size) d.size)

/-- The visitor of `static_data.c:608-620` on scalars; `:548-569`, `builtin_static_data`. -/
def emitLeaf (data : DataMap) (k : Leaf) (n : Nat) (d : Data) (s : Emit) : Out Emit :=
  match k with
  | .pad => emitPad d { s with slot := s.slot + 1 }
  | .builtin =>
    if n = 0 then emitPad d { s with slot := s.slot + 1 } else .error (.err .invalidState)
  | _ =>
    match valueAt data s.slot with
    | .error e => .error e
    | .ok (v, _) =>
      let s := { s with slot := s.slot + 1 }
      match k with
      | .word => emitWord d v s
      | .float32 => emitFloat32 d v s
      | .float64 => emitFloat64 d v s
      | .longDouble => emitLongDouble d v s
      | .memory => emitMemory d v s
      | _ => emitIntegral k n d v s

/-- `static_data.c:455-475`, the loop of `array_static_data`.  Every iteration increases `i`, so that `fuel`
iterations suffice if `n ≤ i + fuel`. -/
def emitLoop (f : Emit → Out Emit) (n elemSlots elemSize endSlot fuel i : Nat) (s : Emit) : Out Emit :=
  match fuel with
  | 0 => .ok s
  | fuel + 1 =>
    if i < n then
      let iter := skipTo s.iter s.slot
      match iter with
      | [] => .ok { s with iter := iter, slot := endSlot }
      | b :: _ =>
        let missing := (min (b * blockCapacity) endSlot - s.slot) / elemSlots
        if s.slot < b * blockCapacity ∧ missing > 0 then
          emitLoop f n elemSlots elemSize endSlot fuel (i + missing)
            ⟨s.slot + missing * elemSlots, s.offset + missing * elemSize, iter,
              s.out ++ zeros (missing * elemSize)⟩
        else
          match f { s with iter := iter } with
          | .ok s => emitLoop f n elemSlots elemSize endSlot fuel (i + 1) s
          | .error e => .error e
    else .ok s

mutual
/-- The visitor of `static_data.c:608-620`: `:374-390`, `struct_static_data`; `:392-421`,
`union_static_data`; `:432-495`, `array_static_data`. -/
def emit (data : DataMap) : Ty → LTree → Emit → Out Emit
  | .leaf k _ n, .node d _, s => emitLeaf data k n d s
  | .struct _ ms, .node d ls, s =>
    let s := alignOffset d { s with slot := s.slot + 1 }
    match emitAll data ms ls s with
    | .ok s' => trailing s.offset d s'
    | .error e => .error e
  | .union _ ms, .node d ls, s =>
    let s := alignOffset d { s with slot := s.slot + 1 }
    match emitUnion data false ms ls s with
    | .ok s' => trailing s.offset d s'
    | .error e => .error e
  | .array _ n e, .node d [l], s =>
    match valueAt data s.slot with
    | .error e => .error e
    | .ok (v, _) =>
      let s := alignOffset d { s with slot := s.slot + 1 }
      let res :=
        match v with
        | .undefined | .aggregate =>
          emitLoop (fun s => emit data e l s) n (objects e) l.data.size (s.slot + n * objects e) n 0 s
        | .string bs | .raw bs =>
          let s := dumpBinary bs s
          .ok { s with slot := s.slot + n * objects e }
        | _ => .error (.err .invalidParameter)
      match res with
      | .ok s' => trailing s.offset d s'
      | .error e => .error e
  | .array _ _ _, _, _ => .error (.err .internalError)

/-- `kefir_ir_type_visitor_list_nodes` over the members (`static_data.c:386`). -/
def emitAll (data : DataMap) : List Ty → List LTree → Emit → Out Emit
  | t :: ts, l :: ls, s =>
    match emit data t l s with
    | .ok s => emitAll data ts ls s
    | .error e => .error e
  | _, _, s => .ok s

/-- `static_data.c:405-417`, the loop of `union_static_data`. -/
def emitUnion (data : DataMap) (defined : Bool) : List Ty → List LTree → Emit → Out Emit
  | t :: ts, l :: ls, s =>
    match valueAt data s.slot with
    | .error e => .error e
    | .ok (_, flag) =>
      if !defined && flag then
        match emit data t l s with
        | .ok s => emitUnion data true ts ls s
        | .error e => .error e
      else emitUnion data defined ts ls { s with slot := s.slot + objects t }
  | _, _, s => .ok s
end

/-- `static_data.c:577-599`, `calculate_type_properties`: the total size. -/
def totalSize (ls : List LTree) : Nat :=
  ls.foldl (fun size l => padAligned size l.data.alignment + l.data.size) 0

/-- `static_data.c:601-653`, `kefir_amd64_sysv_static_data`: the bytes after the label (`.align` and the
label itself are not modelled). -/
def staticData (data : DataMap) (ts : List Ty) (ls : List LTree) : Out (List Cell) :=
  if !data.finalized then .error (.err .invalidParameter)
  else
    match emitAll data ts ls ⟨0, 0, data.blocks, []⟩ with
    | .error e => .error e
    | .ok s =>
      if s.offset < totalSize ls then .ok (s.out ++ zeros (totalSize ls - s.offset)) else .ok s.out

/-! ## Sections -/

/-- `amd64-sysv.c:242-265`, `cg_translate_data_storage`: the objects of one storage class that have, or do not
have, values, with the section they are emitted into. -/
def translateStorage (items : List (Object × DataMap)) (threadLocal defined : Bool) (sect : String) :
    List (String × Object × DataMap) :=
  (items.filter fun x => x.1.threadLocal == threadLocal && x.2.defined == defined).map fun x => (sect, x)

/-- `amd64-sysv.c:267-275`, `cg_translate_data` (without the string literals). -/
def translateData (items : List (Object × DataMap)) : List (String × Object × DataMap) :=
  translateStorage items false true ".data" ++ translateStorage items true true ".tdata" ++
    translateStorage items false false ".bss" ++ translateStorage items true false ".tbss"

end Kefir.StaticData
