import Verif.Call.Spec

/-!
# Specification of results

What it means that a function that calls another gets the value the other returns.
-/

namespace Kefir.Call

open Kefir.Layout

mutual
/-- There is a `long double` in an object of the type. -/
def hasLong : Ty → Bool
  | .leaf k _ _ => k == .longDouble
  | .struct _ ms => hasLongAny ms
  | .union _ ms => hasLongAny ms
  | .array _ _ e => hasLong e

def hasLongAny : List Ty → Bool
  | [] => false
  | t :: ts => hasLong t || hasLongAny ts
end

/-- The number a word stands for. -/
def Word.toNat (w : Word) : Nat :=
  (w 0).toNat + 2 ^ 8 * (w 1).toNat + 2 ^ 16 * (w 2).toNat + 2 ^ 24 * (w 3).toNat + 2 ^ 32 * (w 4).toNat +
    2 ^ 40 * (w 5).toNat + 2 ^ 48 * (w 6).toNat + 2 ^ 56 * (w 7).toNat

/-- A number as a word. -/
def Word.ofNat (n : Nat) : Word := fun i => UInt8.ofNat (n / 2 ^ (8 * i.val) % 2 ^ 8)

/-- `Returned before after t size bytes v ws`: the function has returned `v` (for an aggregate the address of an
object in the memory `before`), and the calling function finds the words `ws` (in the order of pushing) and the
memory `after`.  A scalar is the same word, a `long double` the same ten bytes.  For an aggregate there is the
address of an object with the same bytes; of those only the first `bytes` are compared. -/
def Returned (before after : Mem) (t : Ty) (bytes : Nat) (v : Arg) (ws : List Word) : Prop :=
  match t, v with
  | .leaf .longDouble _ _, .ext low high => ∃ h : Word, ws = [h, low] ∧ h 0 = high 0 ∧ h 1 = high 1
  | .leaf .longDouble _ _, .word _ => False
  | .leaf .memory _ _, .word w => ∃ a : Word, ws = [a] ∧ ∀ i < bytes, after (a.toNat + i) = before (w.toNat + i)
  | .leaf _ _ _, .word w => ws = [w]
  | _, .word w => ∃ a : Word, ws = [a] ∧ ∀ i < bytes, after (a.toNat + i) = before (w.toNat + i)
  | _, .ext _ _ => False

end Kefir.Call
