import Verif.Call.Model

/-!
# Model of variable arguments

`source/codegen/amd64/system-v/abi/vararg.c`, the part of `abi/prologue.c` and `abi/function.c` that is for
functions with variable arguments, the `va_list` callbacks of `abi/builtins/vararg.c`, and the routines of
`source/runtime/amd64_sysv.s` they use.  As in `Verif.Call.Model` a definition models the function that emits
instructions together with the effect of these instructions, and sizes and addresses are natural numbers.
The address `rbp` is a number here, because objects are aligned by their addresses; what is stored from
there on is `atRbp out`.  The register save area and the temporary storage are in the frame.
-/

namespace Kefir.Call

open Kefir.Layout Kefir.Abi

/-! ## The register save area -/

/-- `amd64_sysv.s:1201-1208`, `__kefirrt_save_int_registers`: the first `n` of the six stores. -/
def saveInts (int : Nat → Word) (area : Nat) : Nat → Mem → Mem
  | 0, m => m
  | n + 1, m => Mem.store (saveInts int area n m) (area + 8 * n) (int n)

/-- `amd64_sysv.s:1193-1200`: the first `n` of the eight `movaps`; `upper` are the upper halves of the
registers. -/
def saveSses (sse upper : Nat → Word) (area : Nat) : Nat → Mem → Mem
  | 0, m => m
  | n + 1, m =>
    Mem.store (Mem.store (saveSses sse upper area n m) (area + 48 + 16 * n) (sse n)) (area + 48 + 16 * n + 8) (upper n)

/-- `prologue.c:322-331`, `save_registers`, with `amd64_sysv.s:1190-1208`, `__kefirrt_save_registers`; `al` is
whether the register `al` is not zero. -/
def saveRegisters (al : Bool) (int sse upper : Nat → Word) (area : Nat) (m : Mem) : Mem :=
  saveInts int area integerRegisters (if al then saveSses sse upper area sseRegisters m else m)

/-! ## Lists of variable arguments -/

/-- An object of type `va_list` (`builtins/vararg.c:27-37`, `vararg.c:30-79`): the offsets of the next integer
and SSE register in the save area, the address of the next argument on the stack, and the save area (as an
offset from `r14`). -/
structure VaList where
  gp : Nat
  fp : Nat
  overflow : Nat
  save : Nat
  deriving DecidableEq, Repr

/-- `vararg.c:30-79`, `vararg_start`; `loc` is `decl.parameters.location` of the function. -/
def varargStart (rbp area : Nat) (loc : Location) : VaList :=
  { gp := 8 * loc.int
    fp := 8 * integerRegisters + 2 * 8 * loc.sse
    overflow := rbp + (2 * 8 + loc.stack)
    save := area }

/-- The state of `va_arg`: the list, the frame, and what has been pushed. -/
structure VaState where
  ap : VaList
  frame : Mem
  pushed : List Item

/-- `amd64_sysv.s:1210-1224`, `__kefirrt_load_integer_vararg`. -/
def loadIntegerVararg (rbp : Nat) (out frame : Mem) (ap : VaList) : Word × VaList :=
  if ap.gp ≥ 48 then (Mem.load (atRbp out) (ap.overflow - rbp), { ap with overflow := ap.overflow + 8 })
  else (Mem.load frame (ap.save + ap.gp), { ap with gp := ap.gp + 8 })

/-- `amd64_sysv.s:1226-1240`, `__kefirrt_load_sse_vararg`. -/
def loadSseVararg (rbp : Nat) (out frame : Mem) (ap : VaList) : Word × VaList :=
  if ap.fp ≥ 176 then (Mem.load (atRbp out) (ap.overflow - rbp), { ap with overflow := ap.overflow + 8 })
  else (Mem.load frame (ap.save + ap.fp), { ap with fp := ap.fp + 16 })

/-- `vararg.c:230-255` and `:197-228`, `vararg_visit_integer` with `vararg_get_int`. -/
def varargInteger (rbp : Nat) (out : Mem) (k : Leaf) (param : Nat) (s : VaState) : Out VaState := do
  let (w, ap) := loadIntegerVararg rbp out s.frame s.ap
  let (w, _) ← maskArgument k param w
  pure { s with ap := ap, pushed := s.pushed ++ [.word w] }

/-- `vararg.c:300-327` and `:257-298`, `vararg_visit_sse` with `vararg_get_sse`; `movd` moves four bytes. -/
def varargSse (rbp : Nat) (out : Mem) (k : Leaf) (param : Nat) (s : VaState) : Out VaState := do
  let (w, ap) := loadSseVararg rbp out s.frame s.ap
  let w := if k = .float64 then w else keepBytes 4 w
  let (w, _) ← maskArgument k param w
  pure { s with ap := ap, pushed := s.pushed ++ [.word w] }

/-- `vararg.c:329-341`, `vararg_visit_long_double`, with `amd64_sysv.s:1242-1251`,
`__kefirrt_load_long_double_vararg`. -/
def varargLongDouble (rbp : Nat) (out : Mem) (s : VaState) : VaState :=
  { s with
    ap := { s.ap with overflow := s.ap.overflow + 16 }
    pushed := s.pushed ++ [.word (Mem.load (atRbp out) (s.ap.overflow - rbp + 8)),
                           .word (Mem.load (atRbp out) (s.ap.overflow - rbp))] }

/-- `vararg.c:352-380`, `vararg_load_memory_aggregate`.  The conjunction with the negated alignment is
written as a division (alignments are powers of two). -/
def varargMemoryAggregate (rbp : Nat) (d : Data) (s : VaState) : VaState :=
  let a := s.ap.overflow
  let a := if d.alignment > 8 then (a + (d.alignment - 1)) / d.alignment * d.alignment else a
  { s with ap := { s.ap with overflow := a + padAligned d.size 8 }, pushed := s.pushed ++ [.rbp (a - rbp)] }

/-- `vararg.c:410-432`, `register_aggregate_requirements`: the numbers of integer and SSE registers. -/
def aggregateRequirements : List Qword → Nat × Nat → Out (Nat × Nat)
  | [], r => .ok r
  | w :: ws, r =>
    match w.klass with
    | .integer => aggregateRequirements ws (r.1 + 1, r.2)
    | .sse => aggregateRequirements ws (r.1, r.2 + 1)
    | _ => .error (.err .notSupported)

/-- The loop of `vararg.c:537-573`, from the eightbyte `i` on; `rdx` and `rcx` are the places of the first
integer and SSE register, `io` and `so` the numbers of those already copied. -/
def copyQwords (rdx rcx : Nat) : List Qword → Nat → Nat → Nat → Mem → Out Mem
  | [], _, _, _, m => .ok m
  | w :: ws, i, io, so, m =>
    match w.klass with
    | .integer =>
      copyQwords rdx rcx ws (i + 1) (io + 1) so (Mem.store m (internalBound + i * 8) (Mem.load m (rdx + io * 8)))
    | .sse =>
      copyQwords rdx rcx ws (i + 1) io (so + 1) (Mem.store m (internalBound + i * 8) (Mem.load m (rcx + so * 2 * 8)))
    | _ => .error (.err .notSupported)

/-- `vararg.c:580-606`, `vararg_get_register_aggregate` with `vararg_get_register_aggregate_intro` (`:434-474`)
and `vararg_get_register_aggregate_load` (`:475-578`). -/
def varargRegisterAggregate (rbp : Nat) (d : Data) (ws : List Qword) (s : VaState) : Out VaState := do
  let (ni, ns) ← aggregateRequirements ws (0, 0)
  if s.ap.gp + ni * 8 > integerRegisters * 8 ∨
      s.ap.fp + ns * 2 * 8 > integerRegisters * 8 + 2 * sseRegisters * 8 then
    pure (varargMemoryAggregate rbp d s)
  else do
    let m ← copyQwords (s.ap.save + s.ap.gp) (s.ap.save + s.ap.fp) ws 0 0 0 s.frame
    pure { ap := { s.ap with gp := s.ap.gp + ni * 8, fp := s.ap.fp + ns * 2 * 8 }
           frame := m, pushed := s.pushed ++ [.frame internalBound] }

/-- `vararg.c:641-689`, `vararg_visit_aggregate` with `vararg_visit_memory_aggregate` and
`vararg_visit_register_aggregate` (`:618-639`): the type is classified and allocated on its own. -/
def varargAggregate (rbp : Nat) (t : List Entry) (i : Nat) (s : VaState) : Out VaState := do
  let layout ← liftRes (typeLayout t)
  let vec ← parameterClassify t layout
  let (_, vec) ← parameterAllocate t layout vec ⟨0, 0, 0⟩
  let d ← layoutAt layout i
  let slot ← gotoSlot t i 0 t.length 0
  match vec[slot]? with
  | none => .error (.err .internalError)
  | some a =>
    if a.klass = .memory then pure (varargMemoryAggregate rbp d s)
    else match a.content with
      | .qwords q => varargRegisterAggregate rbp d q.qwords s
      | _ => .error .undefined

/-- `vararg.c:714-741` and `:700-712`, `vararg_visit_builtin`, with `builtins/vararg.c:195-215`,
`vararg_load_vararg`, and `:164-193`.  (The classification there has no effect.) -/
def varargBuiltin (rbp : Nat) (out : Mem) (param : Nat) (s : VaState) : Out VaState :=
  if param < 1 then
    let (w, ap) := loadIntegerVararg rbp out s.frame s.ap
    .ok { s with ap := ap, pushed := s.pushed ++ [.word w] }
  else .error (.err .internalError)

/-- The callbacks of `vararg.c:782-790`. -/
def varargEntry (rbp : Nat) (out : Mem) (t : List Entry) (i : Nat) (e : Entry) (s : VaState) : Out VaState :=
  match e.code with
  | .leaf .float32 => varargSse rbp out .float32 e.param s
  | .leaf .float64 => varargSse rbp out .float64 e.param s
  | .leaf .longDouble => .ok (varargLongDouble rbp out s)
  | .leaf .memory => varargAggregate rbp t i s
  | .leaf .pad => .ok s
  | .leaf .builtin => varargBuiltin rbp out e.param s
  | .leaf k => varargInteger rbp out k e.param s
  | _ => varargAggregate rbp t i s

/-- `vararg.c:772-797`, `VARARG_GET` in `kefir_codegen_amd64_sysv_vararg_instruction`, for a type that is the
first of its IR type (`source/ast-translator/nodes/builtin.c:66-90`). -/
def varargGet (rbp : Nat) (out : Mem) (t : List Entry) (s : VaState) : Out VaState :=
  listNodes (varargEntry rbp out t) t 0 1 s

/-- `amd64_sysv.s:1253-1259`, `__kefirrt_copy_vararg`: the three words are copied. -/
def varargCopy (ap : VaList) : VaList := ap

/-- `function.c:83-103`: what `update_frame_temporaries_type` finds out about the type of a `VARARG_GET`
instruction. -/
def varargUse (t : List Entry) : Out TempUse := do
  match t[0]? with
  | none => .error (.err .outOfBounds)
  | some e => do
    let layout ← liftRes (typeLayout t)
    let vec ← parameterClassify t layout
    let d ← layoutAt layout 0
    match vec[0]? with
    | none => .error (.err .outOfBounds)
    | some a => pure (.varargGet e.code a.klass d)

/-! ## A function that fetches its variable arguments -/

/-- What an address or a word means. -/
def VaState.received (s : VaState) (out : Mem) : Item → Received
  | .word w => .word w
  | .rbp n => .bytes (fun i => atRbp out (n + i))
  | .frame n => .bytes (fun i => s.frame (n + i))

/-- A function fetches variable arguments of these types one after the other, each time looking at what it
has got before it continues; `work n` is what it does to its frame before it fetches the `n`-th. -/
def fetchAll (rbp : Nat) (out : Mem) (work : Nat → Mem → Mem) : List Ty → Nat → VaList → Mem →
    Out (List (List Received))
  | [], _, _, _ => .ok []
  | t :: ts, n, ap, m => do
    let s ← varargGet rbp out (flatten t) ⟨ap, work n m, []⟩
    let rss ← fetchAll rbp out work ts (n + 1) s.ap s.frame
    pure (s.pushed.map (s.received out) :: rss)

end Kefir.Call
