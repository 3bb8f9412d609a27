import Verif.Call.Model
import Verif.Call.ReturnSpec

/-!
# Model of the results of calls

`source/codegen/amd64/system-v/abi/epilogue.c` (the called function), the part of `abi/invoke.c` after the call
(the calling function) and the `va_list` callbacks of `abi/builtins/vararg.c` they use.  As in
`Verif.Call.Model` a definition models the function that emits instructions together with the effect of these
instructions.  Here all memory is one address space, because the called function writes to the frame of the
calling function; only the words on the operand stacks are kept apart.  `restore_state` (`epilogue.c:220-240`)
and `__kefirrt_restore_state` (`source/runtime/amd64_sysv.s:1178-1188`) do not touch the registers below.
-/

namespace Kefir.Call

open Kefir.Layout Kefir.Abi

/-- The state between the two functions: the registers for results (`registers.c:39-47`: `rax` and `rdx`,
`xmm0` and `xmm1`), the ten bytes of `st(0)`, and memory. -/
structure Machine where
  int : Nat → Word
  sse : Nat → Word
  st0 : Fin 10 → UInt8
  mem : Mem

/-- The number of registers for results, `registers.c:41-42` and `:46-47`. -/
def integerReturnRegisters : Nat := 2
def sseReturnRegisters : Nat := 2

/-- `mov byte [a], b`. -/
def Mem.setByte (m : Mem) (a : Nat) (b : UInt8) : Mem := fun x => if x = a then b else m x

/-- `cld; rep movsb` with `rdi = dst`, `rsi = src` and `rcx = n`, byte by byte. -/
def Mem.movsb (dst src : Nat) : Nat → Mem → Mem
  | 0, m => m
  | n + 1, m => Mem.movsb (dst + 1) (src + 1) n (Mem.setByte m dst (m src))

/-- `fld tbyte [a]`. -/
def Mem.tbyte (m : Mem) (a : Nat) : Fin 10 → UInt8 := fun i => m (a + i.val)

/-- `fstp tbyte [a]`. -/
def Mem.storeTbyte (m : Mem) (a : Nat) (b : Fin 10 → UInt8) : Mem :=
  fun x => if h : a ≤ x ∧ x < a + 10 then b ⟨x - a, by omega⟩ else m x

/-! ## The called function -/

/-- `epilogue.c:86-103`, `return_memory_aggregate`; `r14` is the address of the frame. -/
def returnMemoryAggregate (r14 : Nat) (stack : Nat → Word) (d : Data) (s : Machine) : Machine :=
  let rdi := Mem.load s.mem (r14 + 0 * 8)
  let rsi := stack 0
  { s with int := setReg s.int 0 rdi, mem := Mem.movsb rdi.toNat rsi.toNat d.size s.mem }

/-- The loop of `epilogue.c:111-156`, `return_register_aggregate`: the eightbytes from `i` on, `ir` and `sr` are
the numbers of registers used. -/
def returnQwords (src : Nat) : List Qword → Nat → Nat → Nat → Machine → Out Machine
  | [], _, _, _, s => .ok s
  | w :: ws, i, ir, sr, s =>
    match w.klass with
    | .integer =>
      if ir ≥ integerReturnRegisters then .error (.err .internalError)
      else returnQwords src ws (i + 1) (ir + 1) sr { s with int := setReg s.int ir (Mem.load s.mem (src + i * 8)) }
    | .sse =>
      if sr ≥ sseReturnRegisters then .error (.err .internalError)
      else returnQwords src ws (i + 1) ir (sr + 1) { s with sse := setReg s.sse sr (Mem.load s.mem (src + i * 8)) }
    | .x87 =>
      match ws with
      | [] => .error (.err .invalidState)
      | w' :: ws =>
        if w'.klass = .x87up then returnQwords src ws (i + 2) ir sr { s with st0 := Mem.tbyte s.mem (src + i * 8) }
        else .error (.err .invalidState)
    | _ => .error (.err .notSupported)

/-- `epilogue.c:160-177`, `return_aggregate`. -/
def returnAggregate (r14 : Nat) (stack : Nat → Word) (_ : Entry) (d : Data) (a : Alloc) (s : Machine) : Out Machine :=
  if a.klass = .memory then .ok (returnMemoryAggregate r14 stack d s)
  else match a.content with
    | .qwords q => returnQwords (stack 0).toNat q.qwords 0 0 0 s
    | _ => .error .undefined

/-- `epilogue.c:188-201`, `return_builtin`, with `builtins/vararg.c:114-124`, `vararg_store_function_return`; also
`invoke.c:398-411`, `builtin_return`, with `builtins/vararg.c:153-162`, `vararg_load_function_return`. -/
def builtinResult {σ : Type} (param : Nat) : Out σ :=
  if param < 1 then .error (.err .notSupported) else .error (.err .internalError)

/-- The callbacks of `epilogue.c:206-214`, with `return_integer` (`:46-55`), `return_float` (`:57-70`) and
`return_long_double` (`:72-84`).  `stack` are the words from the operand stack pointer on. -/
def returnEntry (params : Typed) (vec : List Alloc) (r14 : Nat) (stack : Nat → Word) (i : Nat) (e : Entry)
    (s : Machine) : Out Machine :=
  match e.code with
  | .leaf .float32 | .leaf .float64 => .ok { s with sse := setReg s.sse 0 (stack 0) }
  | .leaf .longDouble =>
    .ok { s with st0 := fun i => if h : i.val < 8 then stack 0 ⟨i.val, h⟩ else stack 1 ⟨i.val - 8, by omega⟩ }
  | .leaf .memory => withParam params.type params.layout vec (returnAggregate r14 stack) i e s
  | .leaf .pad => .ok s
  | .leaf .builtin => builtinResult e.param
  | .leaf _ => .ok { s with int := setReg s.int 0 (stack 0) }
  | _ => withParam params.type params.layout vec (returnAggregate r14 stack) i e s

/-- `epilogue.c:203-218`, `return_values`, as the part of `kefir_amd64_sysv_function_epilogue` (`:242-251`) that
is about the result. -/
def functionEpilogue (result : Typed) (vec : List Alloc) (r14 : Nat) (stack : Nat → Word) (s : Machine) : Out Machine :=
  listNodes (returnEntry result vec r14 stack) result.type 0 1 s

/-! ## The calling function -/

/-- The state after the call: memory, and the words pushed (in this order). -/
structure Result where
  mem : Mem
  pushed : List Word

/-- The loop of `invoke.c:326-371`, `register_aggregate_return`. -/
def fetchQwords (base : Nat) (s : Machine) : List Qword → Nat → Nat → Nat → Mem → Out Mem
  | [], _, _, _, m => .ok m
  | w :: ws, i, ir, sr, m =>
    match w.klass with
    | .integer =>
      if ir ≥ integerReturnRegisters then .error (.err .internalError)
      else fetchQwords base s ws (i + 1) (ir + 1) sr (Mem.store m (base + i * 8) (s.int ir))
    | .sse =>
      if sr ≥ sseReturnRegisters then .error (.err .internalError)
      else fetchQwords base s ws (i + 1) ir (sr + 1) (Mem.store m (base + i * 8) (s.sse sr))
    | .x87 =>
      match ws with
      | [] => .error (.err .invalidState)
      | w' :: ws =>
        if w'.klass = .x87up then fetchQwords base s ws (i + 2) ir sr (Mem.storeTbyte m (base + i * 8) s.st0)
        else .error (.err .invalidState)
    | _ => .error (.err .notSupported)

/-- `invoke.c:379-396`, `aggregate_return`, with the end of `register_aggregate_return` (`:372-376`); `r14` is the
address of the frame of the calling function. -/
def aggregateReturn (r14 : Nat) (s : Machine) (_ : Entry) (_ : Data) (a : Alloc) (r : Result) : Out Result :=
  if a.klass = .memory then .ok { r with pushed := r.pushed ++ [s.int 0] }
  else match a.content with
    | .qwords q => do
      let m ← fetchQwords (r14 + internalBound) s q.qwords 0 0 0 r.mem
      pure { mem := m, pushed := r.pushed ++ [Word.ofNat (r14 + internalBound)] }
    | _ => .error .undefined

/-- The callbacks of `invoke.c:425-433`, with `integer_return` (`:282-291`), `sse_return` (`:293-306`) and
`long_double_return` (`:308-320`).  `junk` is what has been on the stack where the last six bytes of a
`long double` are. -/
def fetchEntry (params : Typed) (vec : List Alloc) (r14 : Nat) (junk : Word) (s : Machine) (i : Nat) (e : Entry)
    (r : Result) : Out Result :=
  match e.code with
  | .leaf .float32 | .leaf .float64 => .ok { r with pushed := r.pushed ++ [s.sse 0] }
  | .leaf .longDouble =>
    let low : Word := fun i => s.st0 ⟨i.val, by omega⟩
    let high : Word := fun i => if h : i.val < 2 then s.st0 ⟨8 + i.val, by omega⟩ else junk i
    .ok { r with pushed := r.pushed ++ [high, low] }
  | .leaf .memory => withParam params.type params.layout vec (aggregateReturn r14 s) i e r
  | .leaf .pad => .ok r
  | .leaf .builtin => builtinResult e.param
  | .leaf _ => .ok { r with pushed := r.pushed ++ [s.int 0] }
  | _ => withParam params.type params.layout vec (aggregateReturn r14 s) i e r

/-- `invoke.c:413-439`, `invoke_epilogue` after the arguments have been removed from the stack (`:415-422`; the
callee preserves `r12`, where the stack pointer has been saved). -/
def invokeEpilogue (result : Typed) (vec : List Alloc) (r14 : Nat) (junk : Word) (s : Machine) : Out Result :=
  if nodes result.type ≤ 1 then
    listNodes (fetchEntry result vec r14 junk s) result.type 0 1 ⟨s.mem, []⟩
  else .error (.err .invalidState)

end Kefir.Call
