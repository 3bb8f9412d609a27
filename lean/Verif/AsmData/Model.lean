import Verif.StaticData.Model
import Verif.AsmData.Spec

/-!
# Model of the assembly text of data

`source/codegen/amd64/asmgen.c` (what data uses), the calls of `source/codegen/amd64/system-v/abi/static_data.c` and of
`source/codegen/amd64/amd64-sysv.c` 191-275 to it.

Simplified: the calls are collected in a list, which is then written out (the program writes each at once); `printf`
conversions are functions on numbers; `isprint` is that of the "C" locale, also for negative `char`s (where C leaves it
undefined); the offset of a pointer is a mathematical integer.
-/
namespace Kefir.AsmData
open Kefir.StaticData Kefir.Layout Kefir.Abi

/-! ### printf -/

/-- A digit of `%x`, `%o`, `%d`. -/
def digitChar (d : Nat) : Char := if d < 10 then Char.ofNat (48 + d) else Char.ofNat (87 + d)

/-- `%0nx` and `%0no`, of a number with at most `n` digits. -/
def fixed (base n v : Nat) : Text :=
  match n with
  | 0 => []
  | n + 1 => fixed base n (v / base) ++ [digitChar (v % base)]

/-- `%u`, `%zu`. -/
def dec (n : Nat) : Text := Nat.toDigits 10 n

/-- `%d`. -/
def decInt (i : Int) : Text := if i < 0 then '-' :: dec i.natAbs else dec i.natAbs

/-! ### asmgen.c -/

/-- `kefir_amd64_asmgen_datawidth_t`, `headers/kefir/codegen/amd64/asmgen.h` 29-35. -/
inductive Width where
  | byte | word | double | quad | ascii
  deriving DecidableEq, Repr

/-- The state, `headers/kefir/codegen/amd64/asmgen.h` 55-58, and the output. -/
structure Gen where
  empty : Bool
  arguments : Nat
  out : Text

/-- `fprintf`. -/
def Gen.print (g : Gen) (t : Text) : Gen := { g with out := g.out ++ t }

/-- The newline before a line: `if (!asmgen->state.empty) …`, e.g. `asmgen.c` 72-75. -/
def Gen.line (g : Gen) : Gen :=
  let g := if !g.empty then g.print ['\n'] else g
  { g with empty := false }

/-- `amd64_prologue`, `asmgen.c` 33-38, after `kefir_amd64_gas_gen_init`, 352-377. -/
def genInit : Gen := ⟨true, 0, []⟩

/-- `amd64_newline`, `asmgen.c` 40-48. -/
def Gen.newline (g : Gen) (count : Nat) : Gen := g.print (List.replicate count '\n')

/-- `amd64_label`, `asmgen.c` 68-82. -/
def Gen.label (g : Gen) (t : Text) : Gen := (g.line.print t).print [':']

/-- `amd64_section`, `asmgen.c` 112-122. -/
def Gen.sect (g : Gen) (t : Text) : Gen := g.line.print (".section ".toList ++ t)

/-- `INDENTATION`, `asmgen.c` 31 (`enable_identation` is set by 375). -/
def indentation : Text := "    ".toList

/-- `amd64_instr`, `asmgen.c` 124-138. -/
def Gen.instr (g : Gen) (t : Text) : Gen := { ((g.line.print indentation).print t) with arguments := 0 }

/-- `amd64_rawdata`, `asmgen.c` 140-174. -/
def Gen.rawdata (g : Gen) (w : Width) : Gen :=
  let g := g.line.print indentation
  let g := match w with
    | .byte => g.print ".byte".toList
    | .word => g.print ".word".toList
    | .double => g.print ".long".toList
    | .quad => g.print ".quad".toList
    | .ascii => g.print ".ascii".toList
  { g with arguments := 0 }

/-- `amd64_zerodata`, `asmgen.c` 214-229. -/
def Gen.zerodata (g : Gen) (count : Nat) : Gen :=
  { ((g.line.print indentation).print (".zero ".toList ++ dec count)) with arguments := 0 }

/-- The separator before an argument, `asmgen.c` 235-240, 279-284. -/
def Gen.separator (g : Gen) : Gen :=
  let g := if g.arguments > 0 then g.print ", ".toList else g.print " ".toList
  { g with arguments := g.arguments + 1 }

/-- `amd64_argument`, `asmgen.c` 231-246. -/
def Gen.argument (g : Gen) (t : Text) : Gen := g.separator.print t

/-- The switch of `amd64_string_literal`, `asmgen.c` 289-337, on a byte of the literal (`char` is signed; none of the
`case`s is negative). -/
def stringChar (b : Nat) : Text :=
  if b = 0 then ['\\', '0', '0', '0']
  else if b = 34 then ['\\', '"']
  else if b = 92 then ['\\', '\\']
  else if b = 7 then '\\' :: fixed 8 3 7
  else if b = 8 then ['\\', 'b']
  else if b = 9 then ['\\', 't']
  else if b = 10 then ['\\', 'n']
  else if b = 11 then '\\' :: fixed 8 3 11
  else if b = 12 then ['\\', 'f']
  else if b = 13 then ['\\', 'r']
  else if 32 ≤ b ∧ b < 127 then [Char.ofNat b]
  else '\\' :: fixed 8 3 b

/-- `amd64_string_literal`, `asmgen.c` 274-341. -/
def Gen.stringLiteral (g : Gen) (bytes : List Nat) : Gen :=
  ((g.separator.print ['"']).print (bytes.flatMap stringChar)).print ['"']

/-- `amd64_close`, `asmgen.c` 343-350. -/
def Gen.close (g : Gen) : Gen := g.print ['\n']

/-! ### Calls -/

/-- An argument. -/
inductive Arg where
  /-- `"0x%0nx"` -/
  | hex (n v : Nat)
  /-- `"%u"` -/
  | dec (v : Nat)
  /-- `"%d"` -/
  | int (v : Int)
  /-- `"%s + %d"`, whatever the number -/
  | sum (name : Text) (v : Nat)
  /-- `"%s + %d"`, `"%s %d"`, `"%s"`, with the identifier or with `"__kefirrt_string_literal%u"` -/
  | address (t : Target) (offset : Int)
  /-- a string literal -/
  | str (bytes : List Nat)
  deriving DecidableEq, Repr

inductive Call where
  | sect (name : Text)
  | align (n : Nat)
  | label (name : Text)
  /-- a directive with its arguments -/
  | raw (w : Width) (args : List Arg)
  | zero (n : Nat)
  | newline
  deriving DecidableEq, Repr

/-- The name in an argument: `%s`, or `KEFIR_AMD64_SYSTEM_V_RUNTIME_STRING_LITERAL`
(`headers/kefir/codegen/amd64/system-v/runtime.h` 34). -/
def targetText : Target → Text
  | .symbol n => n.toList
  | .literal id => "__kefirrt_string_literal".toList ++ dec id

/-- The formats of addresses, `static_data.c` 101-109, 123-132, 215-223, 227-236. -/
def addressText (t : Target) (offset : Int) : Text :=
  if offset > 0 then targetText t ++ " + ".toList ++ decInt offset
  else if offset < 0 then targetText t ++ " ".toList ++ decInt offset
  else targetText t

def Gen.arg (g : Gen) : Arg → Gen
  | .hex n v => g.argument ("0x".toList ++ fixed 16 n v)
  | .dec v => g.argument (AsmData.dec v)
  | .int v => g.argument (decInt v)
  | .sum n v => g.argument (n ++ " + ".toList ++ AsmData.dec v)
  | .address t o => g.argument (addressText t o)
  | .str bytes => g.stringLiteral bytes

/-- `ASMGEN_INSTR` with `KEFIR_AMD64_ALIGN` and its argument: `static_data.c` 634-635. -/
def Gen.call (g : Gen) : Call → Gen
  | .sect n => g.sect n
  | .align n => (g.instr ".align".toList).argument (dec n)
  | .label n => g.label n
  | .raw w args => args.foldl Gen.arg (g.rawdata w)
  | .zero n => g.zerodata n
  | .newline => g.newline 1

/-- The text of a list of calls, from the state `g` on. -/
def Gen.calls (g : Gen) (cs : List Call) : Gen := cs.foldl Gen.call g

/-! ### static_data.c: the calls

The functions of `Verif.StaticData.Model` with the calls instead of the bytes they stand for. -/

/-- `static_data_param`, `static_data.c` 32-40, and the calls made so far. -/
structure EmitC where
  slot : Nat
  offset : Nat
  iter : List Nat
  out : List Call

def EmitC.put (s : EmitC) (cs : List Call) (size : Nat) : EmitC :=
  { s with offset := s.offset + size, out := s.out ++ cs }

/-- `static_data.c` 51-59, `align_offset`. -/
def alignOffsetC (d : Data) (s : EmitC) : EmitC :=
  let offset := padAligned s.offset d.alignment
  if offset > s.offset then { s with offset := offset, out := s.out ++ [.zero (offset - s.offset)] } else s

/-- `static_data.c` 61-72, `trailing_padding`. -/
def trailingC (start : Nat) (d : Data) (s : EmitC) : Abi.Out EmitC :=
  let stop := start + d.size
  if stop > s.offset then .ok { s with offset := stop, out := s.out ++ [.zero (stop - s.offset)] }
  else if stop = s.offset then .ok s
  else .error (.err .outOfBounds)

/-- `static_data.c` 146-187, the directive for an integer; the conversions to `kefir_uint8_t`, `kefir_uint16_t`,
`kefir_uint32_t` reduce it. -/
def integralCalls (k : Leaf) (n v : Nat) : Abi.Out (List Call) :=
  match k with
  | .bool | .char | .int8 => .ok [.raw .byte [.hex 2 (v % 2 ^ 8)]]
  | .short | .int16 => .ok [.raw .word [.hex 4 (v % 2 ^ 16)]]
  | .int | .int32 => .ok [.raw .double [.hex 8 (v % 2 ^ 32)]]
  | .long | .int64 => .ok [.raw .quad [.hex 16 (v % 2 ^ 64)]]
  | .bits =>
    let bytes := n / 8 + (if n % 8 ≠ 0 then 1 else 0)
    if bytes > 8 then .error .undefined   -- shift of a 64-bit number by 64 or more
    else .ok ((List.range bytes).map fun i => .raw .byte [.hex 2 ((v >>> (i <<< 3)) &&& 0xff)])
  | _ => .error (.err .internalError)

/-- `static_data.c` 74-190, `integral_static_data`, after the entry is read and the slot advanced. -/
def emitIntegralC (k : Leaf) (n : Nat) (d : Data) (v : Value) (s : EmitC) : Abi.Out EmitC :=
  let number (x : Nat) : Abi.Out EmitC :=
    let s := if k ≠ .bits then alignOffsetC d s else s
    match integralCalls k n x with
    | .ok cs => .ok (s.put cs d.size)
    | .error e => .error e
  match v with
  | .undefined => number 0
  | .integer x => number x
  | .pointer t o =>
    if k = .long ∨ k = .int64 then .ok ((alignOffsetC d s).put [.raw .quad [.address t o]] d.size)
    else .error (.err .invalidState)
  | _ => .error (.err .invalidParameter)

/-- `static_data.c` 192-245, `word_static_data`. -/
def emitWordC (d : Data) (v : Value) (s : EmitC) : Abi.Out EmitC :=
  let s := alignOffsetC d s
  match v with
  | .undefined => .ok (s.put [.raw .quad [.hex 16 0]] d.size)
  | .integer x => .ok (s.put [.raw .quad [.hex 16 (x % 2 ^ 64)]] d.size)
  | .pointer t o => .ok (s.put [.raw .quad [.address t o]] d.size)
  | _ => .error (.err .invalidParameter)

/-- `static_data.c` 247-287, `float32_static_data`. -/
def emitFloat32C (d : Data) (v : Value) (s : EmitC) : Abi.Out EmitC :=
  match v with
  | .undefined => .ok ((alignOffsetC d s).put [.raw .double [.hex 8 0]] d.size)
  | .float32 b => .ok ((alignOffsetC d s).put [.raw .double [.hex 8 (b % 2 ^ 32)]] d.size)
  | _ => .error (.err .invalidParameter)

/-- `static_data.c` 289-329, `float64_static_data`. -/
def emitFloat64C (d : Data) (v : Value) (s : EmitC) : Abi.Out EmitC :=
  match v with
  | .undefined => .ok ((alignOffsetC d s).put [.raw .quad [.hex 16 0]] d.size)
  | .float64 b => .ok ((alignOffsetC d s).put [.raw .quad [.hex 16 (b % 2 ^ 64)]] d.size)
  | _ => .error (.err .invalidParameter)

/-- `static_data.c` 331-372, `long_double_static_data`. -/
def emitLongDoubleC (d : Data) (v : Value) (s : EmitC) : Abi.Out EmitC :=
  match v with
  | .undefined => .ok ((alignOffsetC d s).put [.raw .quad [.hex 16 0, .hex 16 0]] d.size)
  | .longDouble l h =>
    .ok ((alignOffsetC d s).put [.raw .quad [.hex 16 (l % 2 ^ 64), .hex 16 (h % 2 ^ 64)]] d.size)
  | _ => .error (.err .invalidParameter)

/-- `static_data.c` 423-430, `dump_binary`. -/
def dumpBinaryC (bytes : List Nat) (s : EmitC) : EmitC :=
  s.put [.raw .byte (bytes.map fun b => .hex 2 b)] bytes.length

/-- `static_data.c` 497-530, `memory_static_data`. -/
def emitMemoryC (d : Data) (v : Value) (s : EmitC) : Abi.Out EmitC :=
  let s := alignOffsetC d s
  match v with
  | .undefined => trailingC s.offset d s
  | .string bs => trailingC s.offset d (dumpBinaryC bs s)
  | .raw bs => trailingC s.offset d (dumpBinaryC bs s)
  | _ => .error (.err .invalidParameter)

/-- `static_data.c` 532-546, `pad_static_data`. -/
def emitPadC (d : Data) (s : EmitC) : Abi.Out EmitC :=
  .ok ((alignOffsetC d s).put [.zero d.size] d.size)

/-- The visitor of `static_data.c` 608-620 on scalars; 548-569, `builtin_static_data`. -/
def emitLeafC (data : DataMap) (k : Leaf) (n : Nat) (d : Data) (s : EmitC) : Abi.Out EmitC :=
  match k with
  | .pad => emitPadC d { s with slot := s.slot + 1 }
  | .builtin =>
    if n = 0 then emitPadC d { s with slot := s.slot + 1 } else .error (.err .invalidState)
  | _ =>
    match valueAt data s.slot with
    | .error e => .error e
    | .ok (v, _) =>
      let s := { s with slot := s.slot + 1 }
      match k with
      | .word => emitWordC d v s
      | .float32 => emitFloat32C d v s
      | .float64 => emitFloat64C d v s
      | .longDouble => emitLongDoubleC d v s
      | .memory => emitMemoryC d v s
      | _ => emitIntegralC k n d v s

/-- `static_data.c` 455-475, the loop of `array_static_data`. -/
def emitLoopC (f : EmitC → Abi.Out EmitC) (n elemSlots elemSize endSlot fuel i : Nat) (s : EmitC) :
    Abi.Out EmitC :=
  match fuel with
  | 0 => .ok s
  | fuel + 1 =>
    if i < n then
      let iter := skipTo s.iter s.slot
      match iter with
      | [] => .ok { s with iter := iter, slot := endSlot }
      | b :: _ =>
        let missing := (min (b * blockCapacity) endSlot - s.slot) / elemSlots
        if s.slot < b * blockCapacity ∧ missing > 0 then
          emitLoopC f n elemSlots elemSize endSlot fuel (i + missing)
            ⟨s.slot + missing * elemSlots, s.offset + missing * elemSize, iter,
              s.out ++ [.zero (missing * elemSize)]⟩
        else
          match f { s with iter := iter } with
          | .ok s => emitLoopC f n elemSlots elemSize endSlot fuel (i + 1) s
          | .error e => .error e
    else .ok s

mutual
/-- `static_data.c` 374-390, `struct_static_data`; 392-421, `union_static_data`; 432-495, `array_static_data`. -/
def emitC (data : DataMap) : Ty → LTree → EmitC → Abi.Out EmitC
  | .leaf k _ n, .node d _, s => emitLeafC data k n d s
  | .struct _ ms, .node d ls, s =>
    let s := alignOffsetC d { s with slot := s.slot + 1 }
    match emitAllC data ms ls s with
    | .ok s' => trailingC s.offset d s'
    | .error e => .error e
  | .union _ ms, .node d ls, s =>
    let s := alignOffsetC d { s with slot := s.slot + 1 }
    match emitUnionC data false ms ls s with
    | .ok s' => trailingC s.offset d s'
    | .error e => .error e
  | .array _ n e, .node d [l], s =>
    match valueAt data s.slot with
    | .error e => .error e
    | .ok (v, _) =>
      let s := alignOffsetC d { s with slot := s.slot + 1 }
      let res :=
        match v with
        | .undefined | .aggregate =>
          emitLoopC (fun s => emitC data e l s) n (objects e) l.data.size (s.slot + n * objects e) n 0 s
        | .string bs | .raw bs =>
          let s := dumpBinaryC bs s
          .ok { s with slot := s.slot + n * objects e }
        | _ => .error (.err .invalidParameter)
      match res with
      | .ok s' => trailingC s.offset d s'
      | .error e => .error e
  | .array _ _ _, _, _ => .error (.err .internalError)

/-- `kefir_ir_type_visitor_list_nodes` over the members (`static_data.c` 386). -/
def emitAllC (data : DataMap) : List Ty → List LTree → EmitC → Abi.Out EmitC
  | t :: ts, l :: ls, s =>
    match emitC data t l s with
    | .ok s => emitAllC data ts ls s
    | .error e => .error e
  | _, _, s => .ok s

/-- `static_data.c` 405-417, the loop of `union_static_data`. -/
def emitUnionC (data : DataMap) (defined : Bool) : List Ty → List LTree → EmitC → Abi.Out EmitC
  | t :: ts, l :: ls, s =>
    match valueAt data s.slot with
    | .error e => .error e
    | .ok (_, flag) =>
      if !defined && flag then
        match emitC data t l s with
        | .ok s => emitUnionC data true ts ls s
        | .error e => .error e
      else emitUnionC data defined ts ls { s with slot := s.slot + objects t }
  | _, _, s => .ok s
end

/-- `static_data.c` 577-599, `calculate_type_properties`: the alignment. -/
def totalAlignment (ls : List LTree) : Nat := ls.foldl (fun a l => max a l.data.alignment) 0

/-- `static_data.c` 601-653, `kefir_amd64_sysv_static_data`, with an identifier. -/
def staticDataC (data : DataMap) (ts : List Ty) (ls : List LTree) (identifier : Text) : Abi.Out (List Call) :=
  if !data.finalized then .error (.err .invalidParameter)
  else
    let head := (if totalAlignment ls > 1 then [.align (totalAlignment ls)] else []) ++ [.label identifier]
    match emitAllC data ts ls ⟨0, 0, data.blocks, head⟩ with
    | .error e => .error e
    | .ok s =>
      let s := if s.offset < totalSize ls then s.out ++ [.zero (totalSize ls - s.offset)] else s.out
      .ok (s ++ [.newline])

/-! ### amd64-sysv.c -/

/-- An object of the module: name, storage, data, type and layout. -/
structure Datum where
  name : String
  threadLocal : Bool
  data : DataMap
  types : List Ty
  layouts : List LTree

/-- The loop of `cg_translate_data_storage`, `amd64-sysv.c` 249-263, on the objects that are not skipped. -/
def objectCalls : List Datum → Abi.Out (List Call)
  | [] => .ok []
  | x :: xs =>
    match staticDataC x.data x.types x.layouts x.name.toList with
    | .error e => .error e
    | .ok cs =>
      match objectCalls xs with
      | .error e => .error e
      | .ok cs' => .ok (cs ++ cs')

/-- `cg_translate_data_storage`, `amd64-sysv.c` 242-265: the section is opened before the first object. -/
def storageCalls (items : List Datum) (threadLocal defined : Bool) (sect : Text) : Abi.Out (List Call) :=
  match items.filter fun x => x.threadLocal == threadLocal && x.data.defined == defined with
  | [] => .ok []
  | x :: xs =>
    match objectCalls (x :: xs) with
    | .error e => .error e
    | .ok cs => .ok (.sect sect :: cs)

/-- `cg_translate_strings`, `amd64-sysv.c` 214-236, one literal. -/
def literalCalls (l : Literal) : List Call :=
  [.label ("__kefirrt_string_literal".toList ++ dec l.id),
    if l.width = 1 then .raw .ascii [.str l.elements]
    else if l.width = 2 then .raw .word (l.elements.map .dec)
    else .raw .double (l.elements.map .dec)]

/-- `cg_translate_strings`, `amd64-sysv.c` 191-240, on the public literals. -/
def stringCalls (ls : List Literal) : List Call :=
  match ls with
  | [] => []
  | l :: ls => .sect ".rodata".toList :: (l :: ls).flatMap literalCalls

/-- `cg_translate_data`, `amd64-sysv.c` 267-275. -/
def dataCalls (items : List Datum) (literals : List Literal) : Abi.Out (List Call) :=
  match storageCalls items false true ".data".toList, storageCalls items true true ".tdata".toList,
    storageCalls items false false ".bss".toList, storageCalls items true false ".tbss".toList with
  | .ok a, .ok b, .ok c, .ok d => .ok (a ++ b ++ c ++ d ++ stringCalls literals)
  | .error e, _, _, _ => .error e
  | _, .error e, _, _ => .error e
  | _, _, .error e, _ => .error e
  | _, _, _, .error e => .error e

/-- The text of the data: the state of the generator after the code, the calls, `cg_close`. -/
def dataText (g : Gen) (calls : List Call) : Text := (g.calls calls).close.out

end Kefir.AsmData
