import Verif.Base

/-! The run-time of the generated code: a direct-threaded stack machine,
`source/runtime/amd64_sysv.s`.  The code generator emits one 16-byte cell (address of the opcode routine,
8-byte argument) per IR instruction (`codegen/amd64/system-v/instr.c` 46-260), so an IR block is modelled as a
list of instructions and a jump target as an index into it.

Simplifications, common to the whole file:
* the operand stack (addressed by `rsp` in the assembly) is a list of 64-bit words, top first, disjoint from data
  memory; running out of words is a fault (`none`);
* data memory is a total map from 64-bit addresses to bytes: every address is accessible;
* layout arguments of `OFFSETPTR`/`ELEMENTPTR`/`BZERO`/`BCOPY`, which `instr.c` 124-171 resolves to numbers, are
  those numbers;
* floating-point arithmetic of the processor is a parameter (`FP`);
* invocations, `alloca`, variadic opcodes and the scope opcodes are not included here. -/
namespace Kefir.IR

abbrev Word := BitVec 64
abbrev Byte := BitVec 8
abbrev Mem := Word → Byte

/-- The three floating-point formats: SSE single, SSE double, x87 extended. -/
inductive Fmt
  | f32 | f64 | f80
  deriving DecidableEq, Repr

@[reducible] def Fmt.bits : Fmt → Nat
  | .f32 => 32
  | .f64 => 64
  | .f80 => 80

inductive FArith
  | add | sub | mul | div
  deriving DecidableEq, Repr

/-- The processor's floating-point unit, left abstract: `addss`… / `cmpeqss`, `cmpltss`, `comiss` / `cvtt…`,
`fistp` / `cvtsi2ss`, `fild` / format conversions.  Values are bit patterns. -/
structure FP where
  arith : FArith → (f : Fmt) → BitVec f.bits → BitVec f.bits → BitVec f.bits
  eq : (f : Fmt) → BitVec f.bits → BitVec f.bits → Bool
  lt : (f : Fmt) → BitVec f.bits → BitVec f.bits → Bool
  /-- value truncated toward zero, `none` for NaN and infinities -/
  trunc : (f : Fmt) → BitVec f.bits → Option Int
  ofInt : (f : Fmt) → Int → BitVec f.bits
  cvt : (f g : Fmt) → BitVec f.bits → BitVec g.bits

/-- The binary integer opcodes: `iadd` … `ishl`, compares, `band`, `bor`
(`amd64_sysv.s` 263-321, 335-375, 404-472). -/
inductive Bin
  | add | sub | mul | idiv | imod | udiv | umod
  | and | or | xor | shr | sar | shl
  | eq | gt | lt | above | below
  | band | bor
  deriving DecidableEq, Repr

/-- The unary integer opcodes: `ineg`, `inot`, `trunc1`, `extend8/16/32`, `bnot`. -/
inductive Un
  | neg | not | trunc1 | ext8 | ext16 | ext32 | bnot
  deriving DecidableEq, Repr

/-- IR instructions as seen by the run-time (`headers/kefir/ir/opcodes.h`). -/
inductive Instr
  | nop
  | jmp (t : Nat)
  | branch (t : Nat)
  | push (w : Word)
  | pop
  | pick (n : Nat)
  | put (n : Nat)
  | xchg (n : Nat)
  | drop (n : Nat)
  | bin (op : Bin)
  | un (op : Un)
  | iadd1 (imm : Word)
  | offsetptr (n : Nat)
  | elementptr (n : Nat)
  | load (bytes : Nat) (sx : Bool)
  | loadld
  | store (bytes : Nat)
  | storeld
  | bzero (n : Nat)
  | bcopy (n : Nat)
  | extubits (off w : Nat)
  | extsbits (off w : Nat)
  | insertbits (off w : Nat)
  | getlocals
  | getglobal (id : Nat)
  | fbin (op : FArith) (f : Fmt)
  | fneg (f : Fmt)
  | feq (f : Fmt)
  | fgt (f : Fmt)
  | flt (f : Fmt)
  | ldtrunc1
  | fcint (f : Fmt)
  | intcf (f : Fmt)
  | uintcf (f : Fmt)
  | fcf (f g : Fmt)
  /-- `RET`, and the epilogue cell behind a function's block (`instr.c` 65-69, `amd64-sysv.c` 85-103): the machine
  stops there; what the epilogue does with the stack is not part of the machine -/
  | ret
  deriving DecidableEq, Repr

/-- What the generated code sees of the rest of the program: the processor's FPU, the address of the local
variable area (`STACK_BASE_REG` + frame offset, `instr.c` 173-179) and of the global symbols and string literals. -/
structure Env where
  fp : FP
  locals : Word
  globals : Nat → Word

/-- `0`/`1` of a processor flag. -/
def ofBool (b : Bool) : Word := if b then 1 else 0

/-- The shifts `shlx`/`shrx`/`sarx` use the low six bits of the count. -/
def shlx (a n : Word) : Word := a <<< (n.toNat % 64)
def shrx (a n : Word) : Word := a >>> (n.toNat % 64)
def sarx (a n : Word) : Word := a.sshiftRight (n.toNat % 64)

/-- `amd64_sysv.s` 263-321 (`iadd` … `umod`), 335-375 (`iand` … `ishl`), 404-472 (compares, `band`, `bor`).
`a` was pushed first, `b` is the top of the stack.  `none` is the processor's divide error. -/
def Bin.exec : Bin → Word → Word → Option Word
  | .add, a, b => some (a + b)
  | .sub, a, b => some (a - b)
  | .mul, a, b => some (a * b)
  | .idiv, a, b => if b = 0 ∨ (a = BitVec.intMin 64 ∧ b = -1) then none else some (a.sdiv b)
  | .imod, a, b => if b = 0 ∨ (a = BitVec.intMin 64 ∧ b = -1) then none else some (a.srem b)
  | .udiv, a, b => if b = 0 then none else some (a.udiv b)
  | .umod, a, b => if b = 0 then none else some (a.umod b)
  | .and, a, b => some (a &&& b)
  | .or, a, b => some (a ||| b)
  | .xor, a, b => some (a ^^^ b)
  | .shr, a, b => some (shrx a b)
  | .sar, a, b => some (sarx a b)
  | .shl, a, b => some (shlx a b)
  | .eq, a, b => some (ofBool (a == b))
  | .gt, a, b => some (ofBool (b.slt a))
  | .lt, a, b => some (ofBool (a.slt b))
  | .above, a, b => some (ofBool (b.ult a))
  | .below, a, b => some (ofBool (a.ult b))
  | .band, a, b => some (ofBool (a &&& b != 0))
  | .bor, a, b => some (ofBool (a ||| b != 0))

/-- `amd64_sysv.s` 323-333 (`ineg`, `inot`), 377-402 (`trunc1`, `extend*`), 474-481 (`bnot`). -/
def Un.exec : Un → Word → Word
  | .neg, a => -a
  | .not, a => ~~~a
  | .trunc1, a => ofBool (a != 0)
  | .ext8, a => (a.setWidth 8).signExtend 64
  | .ext16, a => (a.setWidth 16).signExtend 64
  | .ext32, a => (a.setWidth 32).signExtend 64
  | .bnot, a => ofBool (a == 0)

/-- Little-endian load of `n` bytes, zero-extended (`load8u` … `load64`, `amd64_sysv.s` 497-577; the wider odd
sizes are assembled from smaller loads there). -/
def loadLE (m : Mem) (a : Word) : Nat → Word
  | 0 => 0
  | n + 1 => (loadLE m (a + 1) n <<< 8) ||| (m a).setWidth 64

/-- Sign extension of a value of `n` bytes (`movsx`). -/
def sextBytes (n : Nat) (w : Word) : Word := (w.setWidth (8 * n)).signExtend 64

/-- Little-endian store of the low `n` bytes (`store8` … `store64`, `amd64_sysv.s` 587-643). -/
def storeLE (m : Mem) (a : Word) (n : Nat) (w : Word) : Mem :=
  fun x => if (x - a).toNat < n then w.extractLsb' (8 * (x - a).toNat) 8 else m x

/-- `bzero`, `amd64_sysv.s` 653-664: byte by byte upwards. -/
def bzeroM (m : Mem) (a : Word) : Nat → Mem
  | 0 => m
  | n + 1 => bzeroM (fun x => if x = a then 0 else m x) (a + 1) n

/-- `bcopy`, `amd64_sysv.s` 666-671: `rep movsb` upwards. -/
def bcopyM (m : Mem) (dst src : Word) : Nat → Mem
  | 0 => m
  | n + 1 => bcopyM (fun x => if x = dst then m src else m x) (dst + 1) (src + 1) n

/-- `extubits`, `amd64_sysv.s` 673-683. -/
def extubits (off w : Nat) (v : Word) : Word :=
  let mask := shlx 1 (BitVec.ofNat 64 w) - 1
  shrx v (BitVec.ofNat 64 off) &&& mask

/-- `extsbits`, `amd64_sysv.s` 685-697. -/
def extsbits (off w : Nat) (v : Word) : Word :=
  let rdx := 64 - (BitVec.ofNat 64 off + BitVec.ofNat 64 w)
  let rcx := 64 - BitVec.ofNat 64 w
  sarx (shlx v rdx) rcx

/-- `insertbits`, `amd64_sysv.s` 699-723. -/
def insertbits (off w : Nat) (bf v : Word) : Word :=
  let r1 := 64 - BitVec.ofNat 64 w
  let v := shlx v r1
  let r2 := r1 - BitVec.ofNat 64 off
  let v := shrx v r2
  let mask := ~~~ (shlx (shlx 1 (BitVec.ofNat 64 w) - 1) (BitVec.ofNat 64 off))
  (bf &&& mask) ||| v

/-- A single-precision value lives in the low half of its slot (`movss`); the other half is whatever was there. -/
def lo32 (w : Word) : BitVec 32 := w.setWidth 32
def setLo32 (old : Word) (x : BitVec 32) : Word := old.extractLsb' 32 32 ++ x

/-- An extended value takes two slots: the top one holds the 64-bit significand, the one below sign and exponent in
its low 16 bits (`fld TBYTE PTR [rsp]`); the other 48 bits are whatever was there. -/
def ldOf (w0 w1 : Word) : BitVec 80 := w1.setWidth 16 ++ w0
def ldLo (x : BitVec 80) : Word := x.setWidth 64
def ldHi (old : Word) (x : BitVec 80) : Word := old.extractLsb' 16 48 ++ x.extractLsb' 64 16

/-- Conversion to a 64-bit integer by `cvttss2si`, `cvttsd2si`, `fistp`: out of range gives the
"integer indefinite" pattern. -/
def toInt64 (v : Option Int) : Word :=
  match v with
  | some v => if -2 ^ 63 ≤ v ∧ v < 2 ^ 63 then BitVec.ofInt 64 v else BitVec.intMin 64
  | none => BitVec.intMin 64

/-- Sign bit flip (`xorps` with the sign mask, `fchs`). -/
def flipSign {n : Nat} (x : BitVec n) : BitVec n := x ^^^ BitVec.intMin n

/-- The non-control opcodes.  Lines of `amd64_sysv.s`: `push`…`drop` 201-261 (`insert` is never emitted), integer opcodes see
`Bin.exec`, `Un.exec`, `iadd1` 270-275, `offsetptr`/`elementptr` 483-495, loads 497-585, stores 587-651,
`bzero`/`bcopy` 653-671, bit-field opcodes 673-723, `getlocals` 725-729, floating-point 731-1095.  In the commutative `f64add`,
`f64mul` (`amd64_sysv.s` 775, 791) the operands are loaded in the opposite order; modelled in source order (only the
payload of a NaN could differ).  `uintcf*` for values ≥ 2^63 (halving trick, 990-1024, 1056-1069) is modelled by its purpose,
the conversion of the unsigned value. -/
def exec (E : Env) : Instr → List Word → Mem → Option (List Word × Mem)
  | .nop, s, m => some (s, m)
  | .push w, s, m => some (w :: s, m)
  | .pop, _ :: s, m => some (s, m)
  | .pick n, s, m =>
    match s[n]? with
    | some w => some (w :: s, m)
    | none => none
  | .put n, v :: s, m =>
    -- the slot is addressed before the pop: slot `n` of the stack with the value still on it
    if n = 0 then some (s, m)
    else if n - 1 < s.length then some (s.set (n - 1) v, m) else none
  | .xchg n, s, m =>
    match s[n]?, s[0]? with
    | some w, some t => some ((s.set 0 w).set n t, m)
    | _, _ => none
  | .drop n, s, m => if n < s.length then some (s.eraseIdx n, m) else none
  | .bin op, b :: a :: s, m => (op.exec a b).map (fun r => (r :: s, m))
  | .un op, a :: s, m => some (op.exec a :: s, m)
  | .iadd1 i, a :: s, m => some ((a + i) :: s, m)
  | .offsetptr n, a :: s, m => some ((a + BitVec.ofNat 64 n) :: s, m)
  | .elementptr n, i :: a :: s, m => some ((a + i * BitVec.ofNat 64 n) :: s, m)
  | .load n sx, a :: s, m =>
    some ((if sx then sextBytes n (loadLE m a n) else loadLE m a n) :: s, m)
  | .loadld, a :: s, m => some (loadLE m a 8 :: loadLE m (a + 8) 8 :: s, m)
  | .store n, v :: a :: s, m => some (s, storeLE m a n v)
  | .storeld, w0 :: w1 :: a :: s, m => some (s, storeLE (storeLE m a 8 w0) (a + 8) 8 w1)
  | .bzero n, a :: s, m => some (s, bzeroM m a n)
  | .bcopy n, src :: dst :: s, m => some (s, bcopyM m dst src n)
  | .extubits off w, v :: s, m => some (extubits off w v :: s, m)
  | .extsbits off w, v :: s, m => some (extsbits off w v :: s, m)
  | .insertbits off w, v :: bf :: s, m => some (insertbits off w bf v :: s, m)
  | .getlocals, s, m => some (E.locals :: s, m)
  | .getglobal i, s, m => some (E.globals i :: s, m)
  | .fbin op .f32, b :: a :: s, m => some (setLo32 a (E.fp.arith op .f32 (lo32 a) (lo32 b)) :: s, m)
  | .fbin op .f64, b :: a :: s, m => some (E.fp.arith op .f64 a b :: s, m)
  | .fbin op .f80, b0 :: b1 :: a0 :: a1 :: s, m =>
    let r := E.fp.arith op .f80 (ldOf a0 a1) (ldOf b0 b1)
    some (ldLo r :: ldHi a1 r :: s, m)
  | .fneg .f32, a :: s, m => some (setLo32 a (flipSign (lo32 a)) :: s, m)
  | .fneg .f64, a :: s, m => some (flipSign a :: s, m)
  | .fneg .f80, a0 :: a1 :: s, m =>
    let r := flipSign (ldOf a0 a1)
    some (ldLo r :: ldHi a1 r :: s, m)
  | .feq .f32, b :: a :: s, m => some (ofBool (E.fp.eq .f32 (lo32 a) (lo32 b)) :: s, m)
  | .feq .f64, b :: a :: s, m => some (ofBool (E.fp.eq .f64 a b) :: s, m)
  | .feq .f80, b0 :: b1 :: a0 :: a1 :: s, m => some (ofBool (E.fp.eq .f80 (ldOf a0 a1) (ldOf b0 b1)) :: s, m)
  | .fgt .f32, b :: a :: s, m => some (ofBool (E.fp.lt .f32 (lo32 b) (lo32 a)) :: s, m)
  | .fgt .f64, b :: a :: s, m => some (ofBool (E.fp.lt .f64 b a) :: s, m)
  | .fgt .f80, b0 :: b1 :: a0 :: a1 :: s, m => some (ofBool (E.fp.lt .f80 (ldOf b0 b1) (ldOf a0 a1)) :: s, m)
  | .flt .f32, b :: a :: s, m => some (ofBool (E.fp.lt .f32 (lo32 a) (lo32 b)) :: s, m)
  | .flt .f64, b :: a :: s, m => some (ofBool (E.fp.lt .f64 a b) :: s, m)
  | .flt .f80, b0 :: b1 :: a0 :: a1 :: s, m => some (ofBool (E.fp.lt .f80 (ldOf a0 a1) (ldOf b0 b1)) :: s, m)
  -- `fldz; fucomip`: equal to zero exactly when significand and exponent are zero
  | .ldtrunc1, a0 :: a1 :: s, m => some (ofBool ((ldOf a0 a1).setWidth 79 != 0) :: s, m)
  | .fcint .f32, a :: s, m => some (toInt64 (E.fp.trunc .f32 (lo32 a)) :: s, m)
  | .fcint .f64, a :: s, m => some (toInt64 (E.fp.trunc .f64 a) :: s, m)
  | .fcint .f80, a0 :: a1 :: s, m => some (toInt64 (E.fp.trunc .f80 (ldOf a0 a1)) :: s, m)
  | .intcf .f32, a :: s, m => some (setLo32 a (E.fp.ofInt .f32 a.toInt) :: s, m)
  | .intcf .f64, a :: s, m => some (E.fp.ofInt .f64 a.toInt :: s, m)
  | .intcf .f80, a :: s, m =>
    let r := E.fp.ofInt .f80 a.toInt
    some (ldLo r :: ldHi a r :: s, m)
  | .uintcf .f32, a :: s, m => some (setLo32 a (E.fp.ofInt .f32 a.toNat) :: s, m)
  | .uintcf .f64, a :: s, m => some (E.fp.ofInt .f64 a.toNat :: s, m)
  | .uintcf .f80, a :: s, m =>
    let r := E.fp.ofInt .f80 a.toNat
    some (ldLo r :: ldHi a r :: s, m)
  | .fcf .f32 .f64, a :: s, m => some (E.fp.cvt .f32 .f64 (lo32 a) :: s, m)
  | .fcf .f64 .f32, a :: s, m => some (setLo32 a (E.fp.cvt .f64 .f32 a) :: s, m)
  | .fcf .f32 .f80, a :: s, m =>
    let r := E.fp.cvt .f32 .f80 (lo32 a)
    some (ldLo r :: ldHi a r :: s, m)
  | .fcf .f64 .f80, a :: s, m =>
    let r := E.fp.cvt .f64 .f80 a
    some (ldLo r :: ldHi a r :: s, m)
  | .fcf .f80 .f32, a0 :: a1 :: s, m => some ((E.fp.cvt .f80 .f32 (ldOf a0 a1)).setWidth 64 :: s, m)
  | .fcf .f80 .f64, a0 :: a1 :: s, m => some (E.fp.cvt .f80 .f64 (ldOf a0 a1) :: s, m)
  | _, _, _ => none

/-- Straight-line execution. -/
def execs (E : Env) : List Instr → List Word → Mem → Option (List Word × Mem)
  | [], s, m => some (s, m)
  | i :: is, s, m => (exec E i s m).bind fun (s, m) => execs E is s m

/-- Machine configuration: index of the next instruction, operand stack, memory. -/
structure Config where
  pc : Nat
  stk : List Word
  mem : Mem

/-- One dispatch of the interpreter: `jmp` 187-189, `branch` 195-199, `end_opcode` (advance to the next
cell), other opcodes as above.  `none`: fault, or past the end of the block. -/
def step (E : Env) (P : List Instr) (c : Config) : Option Config :=
  match P[c.pc]? with
  | none => none
  | some (.jmp t) => some ⟨t, c.stk, c.mem⟩
  | some (.branch t) =>
    match c.stk with
    | [] => none
    | w :: s => some ⟨if w != 0 then t else c.pc + 1, s, c.mem⟩
  | some i => (exec E i c.stk c.mem).map fun (s, m) => ⟨c.pc + 1, s, m⟩

/-- Any number of dispatches. -/
inductive Steps (E : Env) (P : List Instr) : Config → Config → Prop
  | refl (c) : Steps E P c c
  | head {a b c} : step E P a = some b → Steps E P b c → Steps E P a c

theorem Steps.trans {E P a b c} (h1 : Steps E P a b) (h2 : Steps E P b c) : Steps E P a c := by
  induction h1 with
  | refl => exact h2
  | head h _ ih => exact .head h (ih h2)

/-- Dispatches of instructions at indices from `lo` up to, but not including, `hi` only. -/
inductive StepsIn (E : Env) (P : List Instr) (lo hi : Nat) : Config → Config → Prop
  | refl (c) : StepsIn E P lo hi c c
  | head {a b c} : lo ≤ a.pc ∧ a.pc < hi → step E P a = some b → StepsIn E P lo hi b c → StepsIn E P lo hi a c

theorem StepsIn.steps {E P lo hi a b} (h : StepsIn E P lo hi a b) : Steps E P a b := by
  induction h with
  | refl => exact .refl _
  | head _ h _ ih => exact .head h ih

theorem StepsIn.mono {E P lo hi lo' hi' a b} (h : StepsIn E P lo hi a b) (h1 : lo' ≤ lo) (h2 : hi ≤ hi') :
    StepsIn E P lo' hi' a b := by
  induction h with
  | refl => exact .refl _
  | head hp h _ ih => exact .head (by omega) h ih

theorem StepsIn.trans {E P lo hi a b c} (h1 : StepsIn E P lo hi a b) (h2 : StepsIn E P lo hi b c) :
    StepsIn E P lo hi a c := by
  induction h1 with
  | refl => exact h2
  | head hp h _ ih => exact .head hp h (ih h2)

theorem StepsIn.one {E P lo hi a b} (hp : lo ≤ a.pc ∧ a.pc < hi) (h : step E P a = some b) : StepsIn E P lo hi a b :=
  .head hp h (.refl _)

theorem Steps.one {E P a b} (h : step E P a = some b) : Steps E P a b := .head h (.refl _)

end Kefir.IR
