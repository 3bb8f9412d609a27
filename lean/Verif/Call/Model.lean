import Verif.Call.Spec
import Verif.Abi.Model

/-!
# Model of stack frames, of the arguments of calls and of variable arguments

`source/codegen/amd64/system-v/abi/function.c` (`calculate_frame`), `abi/invoke.c` (the arguments),
`abi/prologue.c`, `abi/vararg.c`, the `va_list` callbacks of `abi/builtins/vararg.c` and the routines of
`source/runtime/amd64_sysv.s` they use.  What the generated instructions do is written down directly: a
definition models the function that emits the instructions and the effect of the instructions it emits.
Sizes and addresses are natural numbers.  Memory is divided into pieces that are addressed separately: the
operand stack of the calling function, the objects its arguments point to (`heap`), the bytes from the stack
pointer of the call upwards (`out`), the frame of the called function, and its register save area.
-/

namespace Kefir.Call

open Kefir.Layout Kefir.Abi

/-! ## Traversals -/

/-- `source/ir/type.c:237-283`, `kefir_ir_type_visitor_list_nodes`; `f` is the callback, which is given the
index of the node and its entry. -/
def listNodes {σ : Type} (f : Nat → Entry → σ → Out σ) (t : List Entry) (i count : Nat) (s : σ) : Out σ :=
  match count with
  | 0 => .ok s
  | n + 1 =>
    if _h : i < t.length then do
      let e := t[i]
      if (e.code = .struct ∨ e.code = .union) ∧ e.param = 0 then .error (.err .invalidState)
      else do
        let s ← f i e s
        listNodes f t (i + nodeLen t i) n s
    else .ok s

/-- What the callbacks begin with (for example `prologue.c:120-124` and `:247-248`): the allocation in the
slot of the node, and its layout. -/
def withParam {σ : Type} (t : List Entry) (layout : List (Option Data)) (vec : List Alloc)
    (g : Entry → Data → Alloc → σ → Out σ) (i : Nat) (e : Entry) (s : σ) : Out σ := do
  let slot ← gotoSlot t i 0 t.length 0
  match vec[slot]? with
  | none => .error .undefined
  | some a => do
    let d ← layoutAt layout i
    g e d a s

/-! ## The frame of a function -/

/-- `headers/kefir/codegen/amd64/system-v/abi/function.h:53-63`, the `frame` of
`kefir_amd64_sysv_function`. -/
structure Frame where
  size : Nat
  alignment : Nat
  temporary : Nat
  parameters : Nat
  registerSaveArea : Nat
  locals : Nat
  deriving DecidableEq, Repr

/-- The instructions of a function that matter for its frame. -/
inductive TempUse where
  /-- `INVOKE` and `INVOKEV`: the code and the layout of the result, if there is one -/
  | invoke (result : Option (TypeCode × Data))
  /-- `VARARG_GET`: the code, the class and the layout of the type -/
  | varargGet (code : TypeCode) (klass : Class) (d : Data)

/-- `function.c:66-81`, `update_frame_temporaries`: size and alignment. -/
def updateFrameTemporaries (result : Option (TypeCode × Data)) (s : Nat × Nat) : Nat × Nat :=
  match result with
  | none => s
  | some (c, d) =>
    if c = .struct ∨ c = .union ∨ c = .array ∨ c = .leaf .memory ∨ c = .leaf .builtin then
      (max s.1 d.size, max s.2 d.alignment)
    else s

/-- `function.c:83-114`, `update_frame_temporaries_type`.  The new alignment is the maximum of the *size*
and the alignment of the type. -/
def updateFrameTemporariesType (c : TypeCode) (klass : Class) (d : Data) (s : Nat × Nat) : Nat × Nat :=
  if (c = .struct ∨ c = .union ∨ c = .array ∨ c = .leaf .builtin) ∧ klass ≠ .memory then
    let size := max s.1 d.size
    (size, max size d.alignment)
  else s

/-- The loop of `function.c:122-143`. -/
def temporaries : List TempUse → Nat × Nat → Nat × Nat
  | [], s => s
  | .invoke r :: us, s => temporaries us (updateFrameTemporaries r s)
  | .varargGet c k d :: us, s => temporaries us (updateFrameTemporariesType c k d s)

/-- `function.c:118-148`, `calculate_frame_temporaries`. -/
def calculateFrameTemporaries (us : List TempUse) (f : Frame) : Frame :=
  let (size, alignment) := temporaries us (0, 0)
  let temporary := padAligned f.size alignment
  { f with temporary := temporary, size := temporary + size, alignment := max f.alignment alignment }

/-- `function.c:116`, `PAD_DQWORD`. -/
def padDqword (n : Nat) : Nat := padAligned n (2 * 8)

/-- Room for an object, `function.c:46-48` and `:60-62`. -/
def reserve (d : Data) (f : Frame) : Frame :=
  let alignment := max f.alignment d.alignment
  { f with alignment := alignment, size := padAligned f.size alignment + d.size }

/-- `function.c:32-51`, `frame_parameter_visitor`. -/
def frameParameter (_ : Entry) (d : Data) (a : Alloc) (f : Frame) : Out Frame :=
  if a.type = .owningContainer then .ok (reserve d f) else .ok f

/-- `function.c:53-64`, `frame_local_visitor`. -/
def frameLocal (layout : List (Option Data)) (i : Nat) (_ : Entry) (f : Frame) : Out Frame := do
  let d ← layoutAt layout i
  pure (reserve d f)

/-- A type with its layout. -/
structure Typed where
  type : List Entry
  layout : List (Option Data)

/-- `headers/kefir/codegen/amd64/system-v/abi.h:32-40`, `KEFIR_AMD64_SYSV_INTERNAL_BOUND`. -/
def internalBound : Nat := 2 * 8

/-- `function.c:150-177`, `calculate_frame`.  `params` with `vec` are the parameters of the function,
`locals` its local objects, if it has any. -/
def calculateFrame (us : List TempUse) (params : Typed) (vec : List Alloc) (vararg : Bool)
    (locals : Option Typed) : Out Frame := do
  let f : Frame := { size := internalBound, alignment := 8, temporary := 0, parameters := 0,
                     registerSaveArea := 0, locals := 0 }
  let f := calculateFrameTemporaries us f
  let f := { f with size := padDqword f.size }
  let f := { f with parameters := f.size }
  let f ← listNodes (withParam params.type params.layout vec frameParameter) params.type 0 (nodes params.type) f
  let f := { f with size := padDqword f.size }
  let f := if vararg then
      let f := { f with registerSaveArea := f.size, size := f.size + (8 * integerRegisters + 2 * 8 * sseRegisters) }
      { f with size := padDqword f.size }
    else f
  let f := { f with locals := f.size }
  match locals with
  | none => pure f
  | some l => do
    let f ← listNodes (frameLocal l.layout) l.type 0 (nodes l.type) f
    pure { f with size := padDqword f.size }

/-- `source/runtime/amd64_sysv.s:1155-1166`, `__kefirrt_preserve_state`, `prologue.c:281-297` and
`amd64_sysv.s:1168-1171`: the address of the frame (`r14`) of a function that is entered with the stack
pointer `rsp`: `rbp` and five registers are pushed, 24 bytes and the frame are reserved. -/
def frameAddress (rsp : Nat) (f : Frame) : Nat := rsp - 8 - 5 * 8 - 24 - f.size

/-! ## Words in memory -/

/-- `mov [a], w`. -/
def Mem.store (m : Mem) (a : Nat) (w : Word) : Mem :=
  fun x => if h : a ≤ x ∧ x < a + 8 then w ⟨x - a, by omega⟩ else m x

/-- `mov w, [a]`. -/
def Mem.load (m : Mem) (a : Nat) : Word := fun i => m (a + i.val)

/-- `rep movsb`. -/
def Mem.copy (m : Mem) (dst : Nat) (src : Mem) (n : Nat) : Mem :=
  fun x => if dst ≤ x ∧ x < dst + n then src (x - dst) else m x

/-- A change of one register. -/
def setReg (r : Nat → Word) (n : Nat) (w : Word) : Nat → Word := fun m => if m = n then w else r m

/-! ## The calling function -/

/-- The state of `invoke_prologue`: the counter `argument` of `struct invoke_info` (`invoke.c:29-34`), the
registers for arguments, and the bytes from the stack pointer on. -/
structure Caller where
  argument : Nat
  int : Nat → Word
  sse : Nat → Word
  out : Mem

/-- `invoke.c:441-459`, `argument_counter`. -/
def argumentCounter (_ : Nat) (e : Entry) (n : Nat) : Out Nat :=
  if e.code = .leaf .longDouble then .ok (n + 2) else .ok (n + 1)

/-- `invoke.c:51-94`, `scalar_argument`.  `stack` are the words from the operand stack pointer (`r12`) on,
`total` is `total_arguments`. -/
def scalarArgument (total : Nat) (stack : Nat → Word) (a : Alloc) (s : Caller) : Out Caller :=
  let w := stack (total - s.argument - 1)
  match a.klass with
  | .integer => .ok { s with int := setReg s.int a.location.int w, argument := s.argument + 1 }
  | .sse => .ok { s with sse := setReg s.sse a.location.sse w, argument := s.argument + 1 }
  | .memory => .ok { s with out := Mem.store s.out a.location.stack w, argument := s.argument + 1 }
  | _ => .error (.err .internalError)

/-- `invoke.c:96-128`, `long_double_argument`. -/
def longDoubleArgument (total : Nat) (stack : Nat → Word) (a : Alloc) (s : Caller) : Out Caller :=
  if a.klass = .memory then
    let out := Mem.store s.out a.location.stack (stack (total - s.argument - 2))
    let out := Mem.store out (a.location.stack + 8) (stack (total - s.argument - 1))
    .ok { s with out := out, argument := s.argument + 2 }
  else .error (.err .invalidState)

/-- `invoke.c:130-162`, `memory_aggregate_argument`.  (`rdi`, `rsi` and `rcx` are saved on the stack below
the arguments while the object is copied, and restored.) -/
def memoryAggregateArgument (total : Nat) (stack : Nat → Word) (heap : Word → Mem) (d : Data) (a : Alloc)
    (s : Caller) : Caller :=
  if d.size > 0 then
    { s with out := Mem.copy s.out a.location.stack (heap (stack (total - s.argument - 1))) d.size }
  else s

/-- `invoke.c:164-193`, `register_aggregate_argument`; `src` are the bytes of the object, `i` is the index
of the first of the eightbytes. -/
def registerAggregateArgument (src : Mem) : List Qword → Nat → Caller → Out Caller
  | [], _, s => .ok s
  | w :: ws, i, s =>
    match w.klass with
    | .integer => registerAggregateArgument src ws (i + 1)
        { s with int := setReg s.int w.location (Mem.load src (i * 8)) }
    | .sse => registerAggregateArgument src ws (i + 1)
        { s with sse := setReg s.sse w.location (Mem.load src (i * 8)) }
    | _ => .error (.err .notSupported)

/-- `invoke.c:195-213`, `aggregate_argument`. -/
def aggregateArgument (total : Nat) (stack : Nat → Word) (heap : Word → Mem) (d : Data) (a : Alloc)
    (s : Caller) : Out Caller := do
  let s ← (if a.klass = .memory then .ok (memoryAggregateArgument total stack heap d a s)
    else match a.content with
      | .qwords q => registerAggregateArgument (heap (stack (total - s.argument - 1))) q.qwords 0 s
      | _ => .error .undefined)
  pure { s with argument := s.argument + 1 }

/-- `invoke.c:224-240`, `builtin_argument`, with `builtins/vararg.c:125-151`,
`vararg_store_function_argument`. -/
def builtinArgument (total : Nat) (stack : Nat → Word) (param : Nat) (a : Alloc) (s : Caller) : Out Caller :=
  if param < 1 then
    let w := stack (total - s.argument - 1)
    match a.klass with
    | .integer => .ok { s with int := setReg s.int a.location.int w, argument := s.argument + 1 }
    | .memory => .ok { s with out := Mem.store s.out a.location.stack w, argument := s.argument + 1 }
    | _ => .error (.err .invalidState)
  else .error (.err .internalError)

/-- The callbacks of `invoke.c:244-254`. -/
def invokeArgument (total : Nat) (stack : Nat → Word) (heap : Word → Mem) (e : Entry) (d : Data) (a : Alloc)
    (s : Caller) : Out Caller :=
  match e.code with
  | .leaf .longDouble => longDoubleArgument total stack a s
  | .leaf .memory => aggregateArgument total stack heap d a s
  | .leaf .pad => .ok s
  | .leaf .builtin => builtinArgument total stack e.param a s
  | .leaf _ => scalarArgument total stack a s
  | _ => aggregateArgument total stack heap d a s

/-- `invoke.c:461-469` and `:242-280`, the part of `kefir_amd64_sysv_function_invoke` before the call.
`result` is the address of the storage for the result.  The second component is `rax`, the number of SSE
registers used, if the function has variable arguments. -/
def invokePrologue (params : Typed) (vec : List Alloc) (loc : Location) (implicit vararg : Bool)
    (stack : Nat → Word) (heap : Word → Mem) (result : Word) (s : Caller) : Out (Caller × Option Nat) := do
  let total ← listNodes argumentCounter params.type 0 params.type.length 0
  let s ← listNodes (withParam params.type params.layout vec (invokeArgument total stack heap)) params.type 0
    total { s with argument := 0 }
  let s := if implicit then { s with int := setReg s.int 0 result } else s
  pure (s, if vararg then some loc.sse else none)

/-- `invoke.c:256-265`: the stack pointer at the call, from the operand stack pointer. -/
def callStack (rsp stackOffset : Nat) : Nat := (rsp - stackOffset) / 16 * 16

/-! ## The called function -/

/-- What is pushed for a parameter: a word, the address `rbp + n`, or the address `r14 + n`. -/
inductive Item where
  | word (w : Word)
  | rbp (n : Nat)
  | frame (n : Nat)

/-- Memory from `rbp` on: the saved `rbp`, the return address, the arguments on the stack
(`amd64_sysv.s:1156-1158`).  What the first sixteen bytes are does not matter. -/
def atRbp (out : Mem) : Mem := fun x => if x < 2 * 8 then 0 else out (x - 2 * 8)

/-- The state while arguments are loaded: `frame_offset` of `struct argument_load` (`prologue.c:38-42`), the
frame, the words pushed so far (in the order of pushing), and whether `al` has been set to a value other
than zero by `mask_argument`. -/
structure Callee where
  frameOffset : Nat
  frame : Mem
  pushed : List Item
  clobbered : Bool

/-- `and` with a mask of `n` bytes. -/
def keepBytes (n : Nat) (w : Word) : Word := fun i => if i.val < n then w i else 0

/-- `shl` and `shr` by `64 - n`. -/
def keepBits (n : Nat) (w : Word) : Word := fun i =>
  if 8 * i.val + 8 ≤ n then w i
  else if 8 * i.val < n then w i &&& UInt8.ofNat (2 ^ (n - 8 * i.val) - 1)
  else 0

/-- `prologue.c:53-115`, `mask_argument` (also `vararg.c:133-195`): the word, and whether `eax` is used for
the mask, whose low byte is not zero. -/
def maskArgument (k : Leaf) (param : Nat) (w : Word) : Out (Word × Bool) :=
  match k with
  | .bool | .char | .int8 => .ok (keepBytes 1 w, true)
  | .short | .int16 => .ok (keepBytes 2 w, true)
  | .int | .float32 | .int32 => .ok (keepBytes 4 w, true)
  | .int64 | .float64 | .long | .word => .ok (w, false)
  | .bits => .ok (if param > 0 then keepBits param w else w, false)
  | _ => .error (.err .invalidParameter)

/-- `prologue.c:117-164`, `load_integer_argument` (`register` is INTEGER) and `load_sse_argument` (SSE). -/
def loadScalar (register : Class) (regs : Alloc → Word) (out : Mem) (k : Leaf) (param : Nat) (a : Alloc)
    (s : Callee) : Out Callee :=
  if a.klass = register then .ok { s with pushed := s.pushed ++ [.word (regs a)] }
  else do
    let (w, c) ← maskArgument k param (Mem.load (atRbp out) (a.location.stack + 2 * 8))
    pure { s with pushed := s.pushed ++ [.word w], clobbered := s.clobbered || c }

/-- `prologue.c:166-192`, `load_long_double_argument`. -/
def loadLongDouble (out : Mem) (a : Alloc) (s : Callee) : Out Callee :=
  if a.klass = .memory then
    .ok { s with pushed := s.pushed ++
      [.word (Mem.load (atRbp out) (a.location.stack + 2 * 8 + 8)),
       .word (Mem.load (atRbp out) (a.location.stack + 2 * 8))] }
  else .error (.err .invalidState)

/-- The loop of `prologue.c:197-221`, from the eightbyte `i` on. -/
def loadQwords (int sse : Nat → Word) (base : Nat) : List Qword → Nat → Mem → Out Mem
  | [], _, m => .ok m
  | w :: ws, i, m =>
    match w.klass with
    | .integer => loadQwords int sse base ws (i + 1) (Mem.store m (base + 8 * i) (int w.location))
    | .sse => loadQwords int sse base ws (i + 1) (Mem.store m (base + 8 * i) (sse w.location))
    | _ => .error (.err .notSupported)

/-- `prologue.c:194-253`, `load_aggregate_argument` with `load_reg_aggregate`. -/
def loadAggregate (int sse : Nat → Word) (d : Data) (a : Alloc) (s : Callee) : Out Callee :=
  if a.klass = .memory then
    .ok { s with pushed := s.pushed ++ [.rbp (a.location.stack + 2 * 8)] }
  else
    let offset := padAligned s.frameOffset d.alignment
    match a.content with
    | .qwords q => do
      let m ← loadQwords int sse offset q.qwords 0 s.frame
      pure { s with frame := m, frameOffset := offset + d.size, pushed := s.pushed ++ [.frame offset] }
    | _ => .error .undefined

/-- `prologue.c:264-277`, `load_builtin_argument`, with `builtins/vararg.c:88-112`,
`vararg_load_function_argument`. -/
def loadBuiltin (int : Nat → Word) (out : Mem) (param : Nat) (a : Alloc) (s : Callee) : Out Callee :=
  if param < 1 then
    match a.klass with
    | .integer => .ok { s with pushed := s.pushed ++ [.word (int a.location.int)] }
    | .memory => .ok { s with pushed := s.pushed ++ [.word (Mem.load (atRbp out) (a.location.stack + 2 * 8))] }
    | _ => .error (.err .invalidState)
  else .error (.err .internalError)

/-- The callbacks of `prologue.c:307-317`. -/
def loadArgument (int sse : Nat → Word) (out : Mem) (e : Entry) (d : Data) (a : Alloc) (s : Callee) :
    Out Callee :=
  match e.code with
  | .leaf .float32 => loadScalar .sse (fun a => sse a.location.sse) out .float32 e.param a s
  | .leaf .float64 => loadScalar .sse (fun a => sse a.location.sse) out .float64 e.param a s
  | .leaf .longDouble => loadLongDouble out a s
  | .leaf .memory => loadAggregate int sse d a s
  | .leaf .pad => .ok s
  | .leaf .builtin => loadBuiltin int out e.param a s
  | .leaf k => loadScalar .integer (fun a => int a.location.int) out k e.param a s
  | _ => loadAggregate int sse d a s

/-- `prologue.c:279-320`, `load_arguments` after the frame has been set up; `base` is `base.parameters` of
the frame, `frame` what the frame contains before.  The address of the storage for the result is saved in
the frame (`abi.h:33-34`). -/
def loadArguments (params : Typed) (vec : List Alloc) (implicit : Bool) (base : Nat) (int sse : Nat → Word)
    (out frame : Mem) : Out Callee :=
  let frame := if implicit then Mem.store frame (0 * 8) (int 0) else frame
  listNodes (withParam params.type params.layout vec (loadArgument int sse out)) params.type 0
    (nodes params.type) ⟨base, frame, [], false⟩

/-- What an address or a word means for the called function. -/
def Callee.received (s : Callee) (out : Mem) : Item → Received
  | .word w => .word w
  | .rbp n => .bytes (fun i => atRbp out (n + i))
  | .frame n => .bytes (fun i => s.frame (n + i))

/-- Number of words that are pushed for a parameter. -/
def pushes : Ty → Nat
  | .leaf .pad _ _ => 0
  | .leaf .longDouble _ _ => 2
  | _ => 1

/-- The objects in the frame that hold the parameters which have been passed in registers: `ls` are the
layouts of the parameters, the last argument is what has been pushed for them. -/
def paramObjects : List Ty → List LTree → List Item → List Object
  | t :: ts, l :: ls, is =>
    (is.take (pushes t)).filterMap (fun | .frame n => some ⟨⟨n, l.data.size⟩, l.data.alignment⟩ | _ => none) ++
      paramObjects ts ls (is.drop (pushes t))
  | _, _, _ => []

end Kefir.Call
