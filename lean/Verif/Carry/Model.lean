import Verif.Carry.Spec

/-!
# Model of the opcodes that move the stack of operands

`source/runtime/amd64_sysv.s:1097-1152`.  The stack of operands is the processor's stack; it grows downwards from the base.
-/

namespace Kefir.Carry
open Kefir.Vla (place)

/-- Memory, the stack pointer, and the cells `[r14 - 8]` and `[r14 - 16]`, which lie above the stack of operands
(`amd64_sysv.s:1169-1176`) and are kept apart here. -/
structure Machine where
  mem : Mem
  rsp : Nat
  base : Nat
  scope : Nat

def setByte (m : Mem) (a v : Nat) : Mem := fun x => if x = a then v else m x

/-- A store of eight bytes. -/
def setWord (m : Mem) (a w : Nat) : Mem := fun x => if a ≤ x ∧ x < a + 8 then w / 256 ^ (x - a) % 256 else m x

/-- `rep movsb` with the direction flag clear: `(memory, rdi, rsi)`. -/
def movsUp (m : Mem) (rdi rsi : Nat) : Nat → Mem × Nat × Nat
  | 0 => (m, rdi, rsi)
  | n + 1 => movsUp (setByte m rdi (m rsi)) (rdi + 1) (rsi + 1) n

/-- `rep movsb` with the direction flag set. -/
def movsDown (m : Mem) (rdi rsi : Nat) : Nat → Mem × Nat × Nat
  | 0 => (m, rdi, rsi)
  | n + 1 => movsDown (setByte m rdi (m rsi)) (rdi - 1) (rsi - 1) n

/-- `push`.  `none`: the stack is exhausted. -/
def push (s : Machine) (w : Nat) : Option Machine :=
  if 8 < s.rsp then some { s with rsp := s.rsp - 8, mem := setWord s.mem (s.rsp - 8) w } else none

/-- `amd64_sysv.s:1097-1125`.  The address is `place` of `Verif.Vla` (`:1106-1113`). -/
def alloca (reset : Bool) (s : Machine) : Option Machine :=
  let s := if reset then { s with scope := 0 } else s
  let align := word s.mem s.rsp
  let size := word s.mem (s.rsp + 8)
  let rsp := s.rsp + 16
  let rax := place s.base size align
  let rcx := s.base - rsp
  if size ≤ s.base ∧ rcx < rax then
    let rdi := rax - rcx
    push { s with mem := (movsUp s.mem rdi rsp rcx).1, rsp := rdi, base := rax } rax
  else none

/-- `amd64_sysv.s:1127-1132`. -/
def pushscope (s : Machine) : Option Machine :=
  (push s s.scope).map fun s => { s with scope := s.base }

/-- `amd64_sysv.s:1134-1152`. -/
def popscope (s : Machine) : Machine :=
  let rax := word s.mem s.rsp
  let rsp := s.rsp + 8
  if s.scope = 0 then { s with rsp := rsp }
  else
    let rcx := s.base - rsp
    let r := movsDown s.mem (s.scope - 1) (s.base - 1) rcx
    { mem := r.1, rsp := r.2.1 + 1, base := s.scope, scope := rax }

/-- The instructions.  Pushing and dropping a value stands for all other opcodes, as `pushu64` and `pop`
(`amd64_sysv.s:201-208`). -/
def exec (s : Machine) : Op → Option Machine
  | .push w => push s w
  | .pop => some { s with rsp := s.rsp + 8 }
  | .alloca reset => alloca reset s
  | .pushscope => pushscope s
  | .popscope => some (popscope s)

def execs (s : Machine) : List Op → Option Machine
  | [] => some s
  | op :: ops => (exec s op).bind fun s => execs s ops

end Kefir.Carry
