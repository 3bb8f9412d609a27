import Verif.AsmData.Spec

/-!
# Specification: the code of a function

The generated code is a table that the run-time walks through (`source/runtime/amd64_sysv.s` 43-60): entries of 16 bytes,
the address of a routine and an operand of eight bytes.  A routine ends by going on to the entry 16 bytes further, or, for
jumps, to the entry at the address in its operand.

This file says which entry each instruction of the intermediate representation needs.  The assembler's reading of text is
that of `Verif.AsmData.Spec`.
-/
namespace Kefir.AsmCode
open Kefir.StaticData Kefir.AsmData

/-- An instruction: its opcode (`headers/kefir/ir/opcodes.h` 27-155) and its argument, 64 bits.  Numbers of
declarations, types, names and literals have 32 bits. -/
structure Ins where
  opcode : Nat
  arg : Nat
  deriving DecidableEq, Repr

/-- The two halves of the argument. -/
def Ins.lo (i : Ins) : Nat := i.arg % 2 ^ 32
def Ins.hi (i : Ins) : Nat := i.arg / 2 ^ 32 % 2 ^ 32

/-- A declaration of a function. -/
structure Decl where
  name : Option String
  variadic : Bool

/-- A node of a type: its code and parameter (`headers/kefir/ir/type.h` 28-61), its size, its offset in the node it
belongs to. -/
structure Node where
  code : Nat
  param : Nat
  size : Nat
  offset : Nat

/-- What instructions refer to by numbers. -/
structure Program where
  decls : Nat → Option Decl
  types : Nat → Option (List Node)
  symbols : Nat → Option String
  /-- whether a string literal is public -/
  literals : Nat → Option Bool

structure Func where
  name : String
  body : List Ins
  /-- the offset of the local variables in the frame -/
  locals : Nat

/-! ### Names -/

def bodyLabel (f : String) : String := "__" ++ f ++ "_body"
def epilogueLabel (f : String) : String := "__" ++ f ++ "_epilogue"
def tlsLabel (s : String) : String := "__kefirrt_tls_entry_" ++ s

/-- The code that calls a function with given parameters. -/
def gateLabel (id : Nat) (d : Decl) : String :=
  match d.name, d.variadic with
  | some n, false => "__kefirrt_sfunction_" ++ n ++ "_gate" ++ toString id
  | _, _ => "__kefirrt_ifunction_gate" ++ toString id

/-- The code that calls a function by a pointer. -/
def pointerGateLabel (id : Nat) (d : Decl) : String :=
  match d.name with
  | some n => "__kefirrt_sfunction_" ++ n ++ "_vgate"
  | none => "__kefirrt_ifunction_vgate" ++ toString id

/-- Routines for variable arguments that belong to the function. -/
inductive VaKey where
  | start
  | stop
  /-- fetches an argument of a scalar type -/
  | scalar (code : Nat)
  /-- fetches an argument of the type with the number `t`, the node `k` -/
  | typed (t k : Nat)
  deriving DecidableEq, Repr

def vaLabel (f : String) : VaKey → String
  | .start => "__" ++ f ++ "_vararg_start"
  | .stop => "__" ++ f ++ "_vararg_end"
  | .scalar c => "__" ++ f ++ "_vararg_" ++ toString c ++ "_type"
  | .typed t k => "__" ++ f ++ "_vararg_type" ++ toString t ++ "_" ++ toString k

/-- What `va_arg` fetches, by the code of the type: integers, floating-point numbers, `long double`, structures, unions and
arrays, `va_list`. -/
inductive Fetch where
  | integer | floating | longDouble | aggregate | vaList
  deriving DecidableEq, Repr

def Node.fetch (n : Node) : Option Fetch :=
  match n.code with
  | 5 | 6 | 7 | 8 | 11 | 12 | 13 | 14 | 15 | 16 | 18 => some .integer
  | 9 | 10 => some .floating
  | 17 => some .longDouble
  | 1 | 3 => if n.param > 0 then some .aggregate else none
  | 2 | 4 => some .aggregate
  | 19 => if n.param = 0 then some .vaList else none
  | _ => none

/-- Code that is appended to the function: what it does.  The code for integers depends on the type code and, for bits,
on their number (`source/codegen/amd64/system-v/abi/vararg.c` 133-195). -/
inductive Routine where
  | start | stop
  | integer (code bits : Nat)
  | sse (code : Nat)
  | aggregate (t k : Nat)
  | vaList
  deriving DecidableEq, Repr

/-! ### Entries -/

/-- The routines of the run-time, by opcodes (`source/runtime/amd64_sysv.s` 62-191). -/
def routines : List (Nat × String) := [
  (0x01, "__kefirrt_nop_impl"), (0x02, "__kefirrt_jmp_impl"), (0x03, "__kefirrt_ijmp_impl"),
  (0x04, "__kefirrt_branch_impl"), (0x10, "__kefirrt_push_impl"), (0x14, "__kefirrt_pop_impl"),
  (0x15, "__kefirrt_pick_impl"), (0x16, "__kefirrt_put_impl"), (0x17, "__kefirrt_insert_impl"),
  (0x18, "__kefirrt_xchg_impl"), (0x19, "__kefirrt_drop_impl"), (0x20, "__kefirrt_iadd_impl"),
  (0x21, "__kefirrt_iadd1_impl"), (0x22, "__kefirrt_isub_impl"), (0x23, "__kefirrt_imul_impl"),
  (0x24, "__kefirrt_idiv_impl"), (0x25, "__kefirrt_imod_impl"), (0x26, "__kefirrt_udiv_impl"),
  (0x27, "__kefirrt_umod_impl"), (0x28, "__kefirrt_ineg_impl"), (0x29, "__kefirrt_inot_impl"),
  (0x2a, "__kefirrt_iand_impl"), (0x2b, "__kefirrt_ior_impl"), (0x2c, "__kefirrt_ixor_impl"),
  (0x2d, "__kefirrt_ishl_impl"), (0x2e, "__kefirrt_ishr_impl"), (0x2f, "__kefirrt_isar_impl"),
  (0x30, "__kefirrt_iequals_impl"), (0x31, "__kefirrt_igreater_impl"), (0x32, "__kefirrt_ilesser_impl"),
  (0x33, "__kefirrt_iabove_impl"), (0x34, "__kefirrt_ibelow_impl"), (0x35, "__kefirrt_band_impl"),
  (0x36, "__kefirrt_bor_impl"), (0x37, "__kefirrt_bnot_impl"), (0x40, "__kefirrt_trunc1_impl"),
  (0x41, "__kefirrt_extend8_impl"), (0x42, "__kefirrt_extend16_impl"), (0x43, "__kefirrt_extend32_impl"),
  (0x50, "__kefirrt_offsetptr_impl"), (0x51, "__kefirrt_elementptr_impl"), (0x53, "__kefirrt_getlocals_impl"),
  (0x54, "__kefirrt_load8u_impl"), (0x55, "__kefirrt_load8i_impl"), (0x56, "__kefirrt_load16u_impl"),
  (0x57, "__kefirrt_load16i_impl"), (0x58, "__kefirrt_load24u_impl"), (0x59, "__kefirrt_load32u_impl"),
  (0x5a, "__kefirrt_load32i_impl"), (0x5b, "__kefirrt_load40u_impl"), (0x5c, "__kefirrt_load48u_impl"),
  (0x5d, "__kefirrt_load56u_impl"), (0x5e, "__kefirrt_load64_impl"), (0x5f, "__kefirrt_loadld_impl"),
  (0x60, "__kefirrt_store8_impl"), (0x61, "__kefirrt_store16_impl"), (0x62, "__kefirrt_store24_impl"),
  (0x63, "__kefirrt_store32_impl"), (0x64, "__kefirrt_store40_impl"), (0x65, "__kefirrt_store48_impl"),
  (0x66, "__kefirrt_store56_impl"), (0x67, "__kefirrt_store64_impl"), (0x68, "__kefirrt_storeld_impl"),
  (0x69, "__kefirrt_bzero_impl"), (0x6a, "__kefirrt_bcopy_impl"), (0x6b, "__kefirrt_extubits_impl"),
  (0x6c, "__kefirrt_extsbits_impl"), (0x6d, "__kefirrt_insertbits_impl"), (0x74, "__kefirrt_alloca_impl"),
  (0x75, "__kefirrt_pushscope_impl"), (0x76, "__kefirrt_popscope_impl"), (0x83, "__kefirrt_f32add_impl"),
  (0x84, "__kefirrt_f32sub_impl"), (0x85, "__kefirrt_f32mul_impl"), (0x86, "__kefirrt_f32div_impl"),
  (0x87, "__kefirrt_f32neg_impl"), (0x88, "__kefirrt_f64add_impl"), (0x89, "__kefirrt_f64sub_impl"),
  (0x8a, "__kefirrt_f64mul_impl"), (0x8b, "__kefirrt_f64div_impl"), (0x8c, "__kefirrt_f64neg_impl"),
  (0x8d, "__kefirrt_ldadd_impl"), (0x8e, "__kefirrt_ldsub_impl"), (0x8f, "__kefirrt_ldmul_impl"),
  (0x90, "__kefirrt_lddiv_impl"), (0x91, "__kefirrt_ldneg_impl"), (0xa0, "__kefirrt_f32equals_impl"),
  (0xa1, "__kefirrt_f32greater_impl"), (0xa2, "__kefirrt_f32lesser_impl"), (0xa3, "__kefirrt_f64equals_impl"),
  (0xa4, "__kefirrt_f64greater_impl"), (0xa5, "__kefirrt_f64lesser_impl"), (0xa6, "__kefirrt_ldequals_impl"),
  (0xa7, "__kefirrt_ldgreater_impl"), (0xa8, "__kefirrt_ldlesser_impl"), (0xa9, "__kefirrt_ldtrunc1_impl"),
  (0xb0, "__kefirrt_f32cint_impl"), (0xb1, "__kefirrt_f64cint_impl"), (0xb2, "__kefirrt_ldcint_impl"),
  (0xb3, "__kefirrt_intcf32_impl"), (0xb4, "__kefirrt_intcf64_impl"), (0xb5, "__kefirrt_intcld_impl"),
  (0xb6, "__kefirrt_uintcf32_impl"), (0xb7, "__kefirrt_uintcf64_impl"), (0xb8, "__kefirrt_uintcld_impl"),
  (0xb9, "__kefirrt_f32cf64_impl"), (0xba, "__kefirrt_f32cld_impl"), (0xbb, "__kefirrt_f64cf32_impl"),
  (0xbc, "__kefirrt_f64cld_impl"), (0xbd, "__kefirrt_ldcf32_impl"), (0xbe, "__kefirrt_ldcf64_impl")]

def routine (opcode : Nat) : Option String := routines.lookup opcode

/-- The routine that pushes its operand. -/
def push : String := "__kefirrt_push_impl"

/-- An address as an operand. -/
def toLabel (s : String) (offset : Nat) : List Cell := addressBytes (.symbol s) offset

structure Entry where
  routine : String
  operand : List Cell
  deriving DecidableEq, Repr

def Entry.cells (e : Entry) : List Cell := addressBytes (.symbol e.routine) 0 ++ e.operand

/-- The node that the two halves of an argument stand for. -/
def nodeOf (P : Program) (i : Ins) : Option Node := (P.types i.lo).bind fun ns => ns[i.hi]?

/-- The entry for `va_arg`. -/
def fetchEntry (f : Func) (i : Ins) (n : Node) : Option Entry :=
  n.fetch.map fun
    | .integer | .floating => ⟨vaLabel f.name (.scalar n.code), le 8 0⟩
    | .longDouble => ⟨"__kefirrt_load_long_double_vararg", le 8 0⟩
    | .aggregate | .vaList => ⟨vaLabel f.name (.typed i.lo i.hi), le 8 0⟩

/-- The entry of an instruction, where `next` is the one after it; `none` if it makes no sense. -/
def entry (P : Program) (f : Func) (i : Ins) (next : Option Ins) : Option Entry :=
  match i.opcode with
  -- jumps: to the entry with the number in the argument, or to the one after the last
  | 0x02 | 0x04 =>
    if i.arg ≤ f.body.length then
      (routine i.opcode).map fun r => ⟨r, toLabel (bodyLabel f.name) (16 * i.arg)⟩
    else none
  -- return
  | 0x05 => some ⟨epilogueLabel f.name, le 8 0⟩
  -- calls
  | 0x06 => (P.decls i.lo).map fun d => ⟨gateLabel i.lo d, le 8 0⟩
  | 0x07 => (P.decls i.lo).map fun d => ⟨pointerGateLabel i.lo d, le 8 0⟩
  -- constants: integers, `float`, `double`, the halves of a `long double`
  | 0x10 | 0x11 | 0x81 => some ⟨push, le 8 i.arg⟩
  | 0x80 => some ⟨push, le 8 i.lo⟩
  | 0x82 =>
    match next with
    | some j => if j.opcode = 0x11 then some ⟨push, le 8 i.arg⟩ else none
    | none => none
  -- addresses: of a string literal, of an entry, of an object or function, of a thread-local object
  | 0x12 =>
    match P.literals i.lo with
    | some true => some ⟨push, toLabel (literalName i.lo) 0⟩
    | _ => none
  | 0x13 => if i.arg ≤ f.body.length then some ⟨push, toLabel (bodyLabel f.name) (16 * i.arg)⟩ else none
  | 0x52 => (P.symbols i.lo).map fun s => ⟨push, toLabel s 0⟩
  | 0x6e => (P.symbols i.lo).map fun s => ⟨tlsLabel s, le 8 0⟩
  -- the offset of a member, the size of an element, the size of what is cleared or copied
  | 0x50 => (nodeOf P i).map fun n => ⟨"__kefirrt_offsetptr_impl", le 8 n.offset⟩
  | 0x51 => (nodeOf P i).map fun n => ⟨"__kefirrt_elementptr_impl", le 8 n.size⟩
  | 0x69 => (nodeOf P i).map fun n => ⟨"__kefirrt_bzero_impl", le 8 n.size⟩
  | 0x6a => (nodeOf P i).map fun n => ⟨"__kefirrt_bcopy_impl", le 8 n.size⟩
  -- the local variables
  | 0x53 => some ⟨"__kefirrt_getlocals_impl", le 8 f.locals⟩
  -- variable arguments
  | 0x70 => some ⟨vaLabel f.name .start, le 8 0⟩
  | 0x71 => some ⟨"__kefirrt_copy_vararg", le 8 0⟩
  | 0x72 => (nodeOf P i).bind (fetchEntry f i)
  | 0x73 => some ⟨vaLabel f.name .stop, le 8 0⟩
  -- everything else: the argument as it is
  | op => (routine op).map fun r => ⟨r, le 8 i.arg⟩

/-- The entry of the `k`-th instruction. -/
def entryAt (P : Program) (f : Func) (k : Nat) : Option Entry :=
  match f.body[k]? with
  | some i => entry P f i f.body[k + 1]?
  | none => none

/-- The appended code that an instruction needs: its label, and what it has to do. -/
def needs (P : Program) (i : Ins) : Option (VaKey × Routine) :=
  match i.opcode with
  | 0x70 => some (.start, .start)
  | 0x73 => some (.stop, .stop)
  | 0x72 =>
    (nodeOf P i).bind fun n =>
      match n.fetch with
      | some .integer => some (.scalar n.code, .integer n.code (if n.code = 18 then n.param else 0))
      | some .floating => some (.scalar n.code, .sse n.code)
      | some .aggregate => some (.typed i.lo i.hi, .aggregate i.lo i.hi)
      | some .vaList => some (.typed i.lo i.hi, .vaList)
      | _ => none
  | _ => none

/-! ### Conditions -/

/-- Names that mean something else to the assembler (Using as, "i386-Syntax"; the operators of `.intel_syntax`). -/
def operatorNames : List String :=
  ["and", "eq", "ge", "gt", "le", "lt", "mod", "ne", "not", "offset", "or", "shl", "shr", "xor"]

/-- Valid names, none of them an operator. -/
def Names (P : Program) : Prop :=
  (∀ k d n, P.decls k = some d → d.name = some n → isName n.toList = true) ∧
  (∀ k s, P.symbols k = some s → isName s.toList = true ∧ s.map Char.toLower ∉ operatorNames)

/-- A function of the usual size, with a name that is not too long. -/
def Usual (f : Func) : Prop :=
  isName f.name.toList = true ∧ f.name.length ≤ 219 ∧ f.body.length < 2 ^ 59 ∧ ∀ i ∈ f.body, i.arg < 2 ^ 64

/-- `va_arg` is not used for padding, nor for the place behind the last node of a type. -/
def FetchesValues (P : Program) (f : Func) : Prop :=
  ∀ i ∈ f.body, i.opcode = 0x72 → ∀ ns, P.types i.lo = some ns →
    i.hi ≠ ns.length ∧ ∀ n, ns[i.hi]? = some n → n.code ≠ 0

end Kefir.AsmCode
