import Verif.Vla.Model

/-!
# Intermediate values while storage is taken and given back

The intermediate values of the expressions that are being evaluated are a list.  Taking storage for an array and giving it
back must change that list only by its operands and its result, and must not change any byte of an object.
-/

namespace Kefir.Carry
open Kefir.Vla (State alloca popscope)

/-- Memory, a number below 256 per byte. -/
abbrev Mem := Nat → Nat

/-- The number in eight bytes, the least significant first. -/
def word (m : Mem) (a : Nat) : Nat :=
  m a + 0x100 * m (a + 1) + 0x10000 * m (a + 2) + 0x1000000 * m (a + 3) + 0x100000000 * m (a + 4) +
    0x10000000000 * m (a + 5) + 0x1000000000000 * m (a + 6) + 0x100000000000000 * m (a + 7)

/-- The words from one address to another. -/
def Holds (m : Mem) : Nat → Nat → List Nat → Prop
  | a, b, [] => a = b
  | a, b, w :: ws => word m a = w ∧ Holds m (a + 8) b ws

/-- An instruction: a value is pushed or dropped, storage is taken (`reset`: by the built-in function), a scope begins or
ends. -/
inductive Op where
  | push (w : Nat)
  | pop
  | alloca (reset : Bool)
  | pushscope
  | popscope
  deriving DecidableEq

/-- The effect on the storage (`Verif.Vla`) and on the values. -/
def effect (st : State) (ws : List Nat) : Op → Option (State × List Nat)
  | .push w => if w < 2 ^ 64 then some (st, w :: ws) else none
  | .pop =>
    match ws with
    | _ :: ws => some (st, ws)
    | [] => none
  | .alloca reset =>
    match ws with
    | align :: size :: ws =>
      (alloca (if reset then { st with scope := 0 } else st) size align).map fun (st, p) => (st, p :: ws)
    | _ => none
  | .pushscope => some ({ st with scope := st.base }, st.scope :: ws)
  | .popscope =>
    match ws with
    | saved :: ws => if st.scope = 0 ∨ st.base ≤ st.scope then some (popscope saved st, ws) else none
    | [] => none

def effects (st : State) (ws : List Nat) : List Op → Option (State × List Nat)
  | [] => some (st, ws)
  | op :: ops => (effect st ws op).bind fun (st, ws) => effects st ws ops

end Kefir.Carry
