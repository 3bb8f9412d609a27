import Verif.AsmData.Model
import Verif.AsmCode.Spec

/-!
# Model of the assembly text of code

`source/codegen/amd64/system-v/instr.c`, `source/codegen/amd64/opcodes.c`, what
`source/codegen/amd64/system-v/abi/vararg.c` and `builtins/vararg.c` write into the body of a function, and
`cg_function_body` of `source/codegen/amd64/amd64-sysv.c`.

Simplified: names are strings of bytes; the layout of a type and its nodes are one list; the trees of gates, entries for
thread-local objects and appended routines are lists, and the routines themselves (machine instructions) are represented by
what they are for; the classification of aggregates succeeds; allocations succeed.
-/
namespace Kefir.AsmCode
open Kefir.StaticData Kefir.AsmData

/-! ### opcodes.c -/

/-- `HANDLER`, `LABEL`, `opcodes.c` 25-27. -/
def handler (opcode : Nat) (mnemonic : String) : Nat × String := (opcode, "__kefirrt_" ++ mnemonic ++ "_impl")

/-- `OPCODE_HANDLERS`, `opcodes.c` 29-55, with the opcodes of `headers/kefir/ir/opcodes.h` 27-155 and the mnemonics of
`headers/kefir/ir/mnemonic.h`. -/
def opcodeHandlers : List (Nat × String) := [
  handler 0x01 "nop", handler 0x02 "jmp", handler 0x03 "ijmp", handler 0x04 "branch", handler 0x10 "push",
  handler 0x14 "pop", handler 0x15 "pick", handler 0x16 "put", handler 0x17 "insert", handler 0x18 "xchg",
  handler 0x19 "drop", handler 0x20 "iadd", handler 0x21 "iadd1", handler 0x22 "isub", handler 0x23 "imul",
  handler 0x24 "idiv", handler 0x25 "imod", handler 0x26 "udiv", handler 0x27 "umod", handler 0x28 "ineg",
  handler 0x29 "inot", handler 0x2a "iand", handler 0x2b "ior", handler 0x2c "ixor", handler 0x2e "ishr",
  handler 0x2f "isar", handler 0x2d "ishl", handler 0x30 "iequals", handler 0x31 "igreater", handler 0x32 "ilesser",
  handler 0x33 "iabove", handler 0x34 "ibelow", handler 0x35 "band", handler 0x36 "bor", handler 0x37 "bnot",
  handler 0x40 "trunc1", handler 0x41 "extend8", handler 0x42 "extend16", handler 0x43 "extend32",
  handler 0x50 "offsetptr", handler 0x51 "elementptr", handler 0x54 "load8u", handler 0x55 "load8i",
  handler 0x56 "load16u", handler 0x57 "load16i", handler 0x58 "load24u", handler 0x59 "load32u",
  handler 0x5a "load32i", handler 0x5b "load40u", handler 0x5c "load48u", handler 0x5d "load56u",
  handler 0x5e "load64", handler 0x5f "loadld", handler 0x60 "store8", handler 0x61 "store16",
  handler 0x62 "store24", handler 0x63 "store32", handler 0x64 "store40", handler 0x65 "store48",
  handler 0x66 "store56", handler 0x67 "store64", handler 0x68 "storeld", handler 0x69 "bzero",
  handler 0x6a "bcopy", handler 0x6b "extubits", handler 0x6c "extsbits", handler 0x6d "insertbits",
  handler 0x53 "getlocals", handler 0x83 "f32add", handler 0x84 "f32sub", handler 0x85 "f32mul",
  handler 0x86 "f32div", handler 0x87 "f32neg", handler 0x88 "f64add", handler 0x89 "f64sub", handler 0x8a "f64mul",
  handler 0x8b "f64div", handler 0x8c "f64neg", handler 0x8d "ldadd", handler 0x8e "ldsub", handler 0x8f "ldmul",
  handler 0x90 "lddiv", handler 0x91 "ldneg", handler 0xa0 "f32equals", handler 0xa1 "f32greater",
  handler 0xa2 "f32lesser", handler 0xa3 "f64equals", handler 0xa4 "f64greater", handler 0xa5 "f64lesser",
  handler 0xa6 "ldequals", handler 0xa7 "ldgreater", handler 0xa8 "ldlesser", handler 0xa9 "ldtrunc1",
  handler 0xb0 "f32cint", handler 0xb1 "f64cint", handler 0xb3 "intcf32", handler 0xb4 "intcf64",
  handler 0xb6 "uintcf32", handler 0xb7 "uintcf64", handler 0xb9 "f32cf64", handler 0xbb "f64cf32",
  handler 0x74 "alloca", handler 0xb5 "intcld", handler 0xb8 "uintcld", handler 0xb2 "ldcint",
  handler 0xba "f32cld", handler 0xbc "f64cld", handler 0xbd "ldcf32", handler 0xbe "ldcf64",
  handler 0x75 "pushscope", handler 0x76 "popscope"]

/-- The loop of `kefir_amd64_iropcode_handler`, `opcodes.c` 58-62. -/
def findHandler (opcode : Nat) : List (Nat × String) → Option String
  | [] => none
  | (o, h) :: rest => if o = opcode then some h else findHandler opcode rest

/-- `kefir_amd64_iropcode_handler`, `opcodes.c` 57-64. -/
def iropcodeHandler (opcode : Nat) : Option String := findHandler opcode opcodeHandlers

/-! ### The state -/

/-- The trees of `struct kefir_codegen_amd64_sysv_module` and the appendix of `struct kefir_amd64_sysv_function`. -/
structure St where
  gates : List Nat
  vgates : List Nat
  tls : List String
  appendix : List (String × Routine)

inductive Err where
  | outOfBounds | notFound | memallocFailure | invalidParameter | invalidState | internalError | alreadyExists
  deriving DecidableEq, Repr

abbrev Out := Except Err

/-- `kefir_codegen_amd64_sysv_module_function_decl`, `abi/module.c` 86-117. -/
def functionDecl (P : Program) (st : St) (id : Nat) (virtualDecl : Bool) : Option St :=
  if virtualDecl then
    if id ∈ st.vgates then some st
    else
      match P.decls id with
      | none => none
      | some _ => some { st with vgates := st.vgates ++ [id] }
  else
    if id ∈ st.gates then some st
    else
      match P.decls id with
      | none => none
      | some _ => some { st with gates := st.gates ++ [id] }

/-- `kefir_codegen_amd64_sysv_module_declare_tls`, `abi/module.c` 151-168. -/
def declareTls (st : St) (s : String) : St :=
  if s ∈ st.tls then st else { st with tls := st.tls ++ [s] }

/-- `kefir_amd64_sysv_function_insert_appendix`, `abi/function.c` 300-337; the flag is `KEFIR_ALREADY_EXISTS`. -/
def insertAppendix (st : St) (r : Routine) (identifier : String) : Bool × St :=
  if st.appendix.any (fun p => p.1 == identifier) then (true, st)
  else (false, { st with appendix := st.appendix ++ [(identifier, r)] })

/-! ### Formats -/

/-- `snprintf(buffer, BUF_SIZE - 1, …)` with a buffer of 256 characters, e.g. `vararg.c` 756. -/
def buffered (s : String) : String := String.ofList (s.toList.take 254)

/-- `%u`, `%d` of a number that is not negative. -/
def decS (n : Nat) : String := String.ofList (dec n)

/-- `KEFIR_INT64_FMT` of 64 bits. -/
def signed (n : Nat) : Int :=
  let v : Nat := n % 2 ^ 64
  if v < 2 ^ 63 then v else (v : Int) - 2 ^ 64

/-- `ASMGEN_ARG0`, `ASMGEN_ARG` with a name. -/
def nameArg (s : String) : Arg := .address (.symbol s) 0

/-- `"0"` -/
def zeroArg : Arg := .dec 0

/-- `amd64_symbol_arg`, `asmgen.c` 248-272. -/
def symbolArg (s : String) : Arg :=
  if s.map Char.toLower = "mod" then nameArg ("$" ++ s) else nameArg s

/-- `ASMGEN_RAW` with `KEFIR_AMD64_QUAD` and two arguments. -/
def quad (a b : Arg) : Call := .raw .quad [a, b]

/-! ### vararg.c -/

/-- `vararg_visit_integer`, `vararg.c` 230-255; `vararg_visit_sse`, 300-327. -/
def visitScalar (f : Func) (st : St) (n : Node) (r : Routine) : Out (List Call × St) :=
  let buffer := buffered ("__" ++ f.name ++ "_vararg_" ++ decS n.code ++ "_type")
  .ok ([quad (nameArg buffer) zeroArg], (insertAppendix st r buffer).2)

/-- `vararg_visit_memory_aggregate`, `vararg_visit_register_aggregate` and the end of `vararg_visit_aggregate`,
`vararg.c` 618-689. -/
def visitAggregate (st : St) (t k : Nat) (identifier : String) : Out (List Call × St) :=
  .ok ([quad (nameArg identifier) zeroArg], (insertAppendix st (.aggregate t k) identifier).2)

/-- `vararg_visit_builtin`, `vararg.c` 700-741; `vararg_load_vararg`, `builtins/vararg.c` 195-215, which returns
`KEFIR_ALREADY_EXISTS`. -/
def visitBuiltin (st : St) (n : Node) (identifier : String) : Out (List Call × St) :=
  if n.param = 0 then
    let r := insertAppendix st .vaList identifier
    if r.1 then .error .alreadyExists
    else .ok ([quad (nameArg identifier) zeroArg], r.2)
  else .error .internalError

/-- The visitor of `vararg.c` 783-794 on a node; `kefir_ir_type_visitor_list_nodes`, `source/ir/type.c` 258-275, for
structures and unions. -/
def visitNode (f : Func) (st : St) (t k : Nat) (identifier : String) (n : Node) : Out (List Call × St) :=
  match n.code with
  | 0 => .ok ([], st)
  | 1 | 3 => if n.param > 0 then visitAggregate st t k identifier else .error .invalidState
  | 2 | 4 => visitAggregate st t k identifier
  | 5 | 6 | 7 | 8 | 11 | 12 | 13 | 14 | 15 | 16 => visitScalar f st n (.integer n.code 0)
  | 18 => visitScalar f st n (.integer n.code n.param)
  | 9 | 10 => visitScalar f st n (.sse n.code)
  | 17 => .ok ([quad (nameArg "__kefirrt_load_long_double_vararg") zeroArg], st)
  | 19 => visitBuiltin st n identifier
  | _ => .error .internalError

/-- `kefir_codegen_amd64_sysv_vararg_instruction`, `vararg.c` 743-814, for `KEFIR_IROPCODE_VARARG_GET`. -/
def varargGet (P : Program) (f : Func) (st : St) (i : Ins) : Out (List Call × St) :=
  let buffer := buffered ("__" ++ f.name ++ "_vararg_type" ++ decS i.lo ++ "_" ++ decS i.hi)
  match P.types i.lo with
  | none => .error .invalidParameter
  | some ns =>
    -- `kefir_ir_type_visitor_list_nodes(…, type_index, 1)`
    if i.hi ≤ ns.length then
      match ns[i.hi]? with
      | none => .ok ([], st)
      | some n => visitNode f st i.lo i.hi buffer n
    else .error .outOfBounds

/-! ### instr.c -/

/-- An instruction that has a routine of its own, with its argument. -/
def withHandler (opcode : Nat) (calls : Arg → List Call) (st : St) : Out (List Call × Nat × St) :=
  match iropcodeHandler opcode with
  | none => .error .notFound
  | some h => .ok (calls (nameArg h), 1, st)

/-- `KEFIR_AMD64_SYSV_PROCEDURE_BODY_LABEL " + " KEFIR_INT64_FMT`, `instr.c` 61-62. -/
def jumpArg (f : Func) (target : Nat) : Arg := .sum ("__" ++ f.name ++ "_body").toList (2 * 8 * target % 2 ^ 64)

/-- The layout entry for the argument, `instr.c` 123-128, 151-156. -/
def layoutEntry (P : Program) (i : Ins) : Out Node :=
  match P.types i.lo with
  | none => .error .invalidParameter
  | some ns =>
    match ns[i.hi]? with
    | none => .error .invalidParameter
    | some n => .ok n

/-- `kefir_amd64_sysv_instruction`, `instr.c` 36-280: the calls, the width, the state. -/
def instruction (P : Program) (f : Func) (st : St) (index : Nat) : Out (List Call × Nat × St) :=
  match f.body[index]? with
  | none => .error .internalError
  | some i =>
    match i.opcode with
    | 0x02 | 0x04 =>
      if i.arg ≤ f.body.length then withHandler i.opcode (fun h => [quad h (jumpArg f i.arg)]) st
      else .error .outOfBounds
    | 0x05 => .ok ([quad (nameArg ("__" ++ f.name ++ "_epilogue")) zeroArg], 1, st)
    | 0x06 =>
      match functionDecl P st i.lo false with
      | none => .error .memallocFailure
      | some st' =>
        match P.decls i.lo with
        | none => .error .internalError
        | some d =>
          let label :=
            match d.name with
            | none => "__kefirrt_ifunction_gate" ++ decS i.lo
            | some n =>
              if d.variadic then "__kefirrt_ifunction_gate" ++ decS i.lo
              else "__kefirrt_sfunction_" ++ n ++ "_gate" ++ decS i.lo
          .ok ([quad (nameArg label) zeroArg], 1, st')
    | 0x07 =>
      match functionDecl P st i.lo true with
      | none => .error .memallocFailure
      | some st' =>
        match P.decls i.lo with
        | none => .error .internalError
        | some d =>
          let label :=
            match d.name with
            | none => "__kefirrt_ifunction_vgate" ++ decS i.lo
            | some n => "__kefirrt_sfunction_" ++ n ++ "_vgate"
          .ok ([quad (nameArg label) zeroArg], 1, st')
    | 0x12 =>
      match P.literals i.lo with
      | none => .error .notFound
      | some isPublic =>
        if isPublic then
          withHandler 0x10 (fun h => [quad h (nameArg ("__kefirrt_string_literal" ++ decS i.lo))]) st
        else .error .invalidParameter
    | 0x69 | 0x6a =>
      match layoutEntry P i with
      | .error e => .error e
      | .ok n => withHandler i.opcode (fun h => [quad h (.int (signed n.size))]) st
    | 0x6b | 0x6c | 0x6d =>
      withHandler i.opcode (fun h => [.raw .quad [h], .raw .double [.dec i.lo, .dec i.hi]]) st
    | 0x50 =>
      match layoutEntry P i with
      | .error e => .error e
      | .ok n => withHandler 0x50 (fun h => [quad h (.int (signed n.offset))]) st
    | 0x51 =>
      match layoutEntry P i with
      | .error e => .error e
      | .ok n => withHandler 0x51 (fun h => [quad h (.int (signed n.size))]) st
    | 0x53 => withHandler i.opcode (fun h => [quad h (.int (signed f.locals))]) st
    | 0x52 =>
      match P.symbols i.lo with
      | none => .error .invalidParameter
      | some s => withHandler 0x10 (fun h => [quad h (symbolArg s)]) st
    | 0x6e =>
      match P.symbols i.lo with
      | none => .error .invalidParameter
      | some s => .ok ([quad (nameArg ("__kefirrt_tls_entry_" ++ s)) zeroArg], 1, declareTls st s)
    | 0x70 =>
      let buffer := buffered ("__" ++ f.name ++ "_vararg_start")
      .ok ([quad (nameArg buffer) zeroArg], 1, (insertAppendix st .start buffer).2)
    | 0x71 => .ok ([quad (nameArg "__kefirrt_copy_vararg") zeroArg], 1, st)
    | 0x72 =>
      match varargGet P f st i with
      | .error e => .error e
      | .ok (cs, st') => .ok (cs, 1, st')
    | 0x73 =>
      let buffer := buffered ("__" ++ f.name ++ "_vararg_end")
      .ok ([quad (nameArg buffer) zeroArg], 1, (insertAppendix st .stop buffer).2)
    | 0x80 => withHandler 0x10 (fun h => [.raw .quad [h], .raw .double [.hex 8 i.lo, zeroArg]]) st
    | 0x81 => withHandler 0x10 (fun h => [quad h (.hex 16 (i.arg % 2 ^ 64))]) st
    | 0x11 => withHandler 0x10 (fun h => [quad h (.dec (i.arg % 2 ^ 64))]) st
    | 0x82 =>
      match f.body[index + 1]? with
      | none => .error .invalidState
      | some j =>
        if j.opcode = 0x11 then
          match iropcodeHandler 0x10 with
          | none => .error .notFound
          | some h =>
            .ok ([quad (nameArg h) (.dec (i.arg % 2 ^ 64)), quad (nameArg h) (.dec (j.arg % 2 ^ 64))], 2, st)
        else .error .invalidState
    | 0x13 =>
      if i.arg ≤ f.body.length then withHandler 0x10 (fun h => [quad h (jumpArg f i.arg)]) st
      else .error .outOfBounds
    | op => withHandler op (fun h => [quad h (.int (signed i.arg))]) st

/-! ### amd64-sysv.c -/

/-- The loop of `cg_function_body`, `amd64-sysv.c` 94-98; the width is positive, so that there are at most as many turns as
instructions. -/
def bodyLoop (P : Program) (f : Func) : Nat → Nat → St → Out (List Call × St)
  | 0, _, st => .ok ([], st)
  | turns + 1, pc, st =>
    if pc < f.body.length then
      match instruction P f st pc with
      | .error e => .error e
      | .ok (cs, width, st') =>
        match bodyLoop P f turns (pc + width) st' with
        | .error e => .error e
        | .ok (rest, st'') => .ok (cs ++ rest, st'')
    else .ok ([], st)

/-- `cg_function_body`, `amd64-sysv.c` 85-103, from the label on. -/
def functionBody (P : Program) (f : Func) (st : St) : Out (List Call × St) :=
  match bodyLoop P f f.body.length 0 st with
  | .error e => .error e
  | .ok (cs, st') =>
    .ok (.label ("__" ++ f.name ++ "_body").toList :: (cs ++ [quad (nameArg ("__" ++ f.name ++ "_epilogue")) zeroArg]), st')

/-- The text of the body. -/
def bodyText (g : Gen) (cs : List Call) : Text := dataText g cs

/-- `cg_translate`, `amd64-sysv.c` 286-289: functions one after the other, each with an appendix of its own
(`cg_translate_function`, 109-137); the calls and the appendix of each, and the gates at the end. -/
def functions (P : Program) : List Func → St → Out (List (List Call × List (String × Routine)) × St)
  | [], st => .ok ([], st)
  | f :: fs, st =>
    match functionBody P f { st with appendix := [] } with
    | .error e => .error e
    | .ok (cs, st') =>
      match functions P fs st' with
      | .error e => .error e
      | .ok (rest, st'') => .ok ((cs, st'.appendix) :: rest, st'')

/-- The labels of `cg_translate_function_gates`, `amd64-sysv.c` 139-159. -/
def gateLabels (P : Program) (ids : List Nat) (virtualDecl : Bool) : List String :=
  ids.map fun id =>
    match P.decls id with
    | none => ""
    | some d =>
      if virtualDecl then
        match d.name with
        | none => "__kefirrt_ifunction_vgate" ++ decS id
        | some n => "__kefirrt_sfunction_" ++ n ++ "_vgate"
      else
        match d.name with
        | none => "__kefirrt_ifunction_gate" ++ decS id
        | some n =>
          if d.variadic then "__kefirrt_ifunction_gate" ++ decS id
          else "__kefirrt_sfunction_" ++ n ++ "_gate" ++ decS id

/-- The labels of `cg_translate_tls_entries`, `amd64-sysv.c` 171-189. -/
def tlsLabels (names : List String) : List String := names.map fun s => "__kefirrt_tls_entry_" ++ s

end Kefir.AsmCode
