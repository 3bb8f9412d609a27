import Verif.Abi.Spec

/-!
# Specification of calls

What it means that the pieces of storage of a function do not overlap, and that a function receives the
values it has been called with.  Nothing here refers to the code that computes frames, stores arguments or
loads them.
-/

namespace Kefir.Call

open Kefir.Layout Kefir.Abi

/-! ## Storage in a stack frame -/

/-- A piece of storage: `size` bytes from `start`. -/
structure Region where
  start : Nat
  size : Nat
  deriving DecidableEq, Repr

/-- No byte belongs to both. -/
def Region.Disjoint (a b : Region) : Prop :=
  ∀ x, ¬ ((a.start ≤ x ∧ x < a.start + a.size) ∧ (b.start ≤ x ∧ x < b.start + b.size))

instance (a b : Region) : Decidable (a.Disjoint b) :=
  decidable_of_iff (a.size = 0 ∨ b.size = 0 ∨ a.start + a.size ≤ b.start ∨ b.start + b.size ≤ a.start) <| by
    constructor
    · intro h x hx; omega
    · intro h
      have h1 := h a.start
      have h2 := h b.start
      omega

/-- All bytes are among the first `n`. -/
def Region.Within (n : Nat) (a : Region) : Prop := a.start + a.size ≤ n

/-- The bytes that are written when an object is stored eight bytes at a time. -/
def Region.roundUp8 (a : Region) : Region := { a with size := 8 * eightbytes a.size }

/-- A piece of storage for an object of a type with this alignment. -/
structure Object where
  region : Region
  alignment : Nat
  deriving DecidableEq, Repr

/-- The byte `x` belongs to it. -/
def Region.Has (a : Region) (x : Nat) : Prop := a.start ≤ x ∧ x < a.start + a.size

/-- A power of two (C17 6.2.8p4: every valid alignment is one). -/
def PowerOfTwo (n : Nat) : Prop := ∃ k, n = 2 ^ k

/-! ## Values -/

/-- A 64-bit word, as its bytes, least significant first. -/
abbrev Word := Fin 8 → UInt8

/-- Bytes by address. -/
abbrev Mem := Nat → UInt8

/-- The value of an argument as the calling function has it: one word (for an aggregate its address), or
the two words of a `long double`. -/
inductive Arg where
  | word (w : Word)
  | ext (low high : Word)

/-- A `long double` is two words, everything else is one. -/
def ArgFor (t : Ty) (a : Arg) : Prop :=
  match t, a with
  | .leaf .longDouble _ _, .ext _ _ => True
  | .leaf .longDouble _ _, .word _ => False
  | _, .word _ => True
  | _, .ext _ _ => False

inductive ArgsFor : List Ty → List Arg → Prop
  | nil : ArgsFor [] []
  | cons {t a ts as} : ArgFor t a → ArgsFor ts as → ArgsFor (t :: ts) (a :: as)

/-- The words of an argument in the order in which they are pushed: the stack grows downwards, so the more
significant word of a `long double` comes first. -/
def Arg.pushed : Arg → List Word
  | .word w => [w]
  | .ext low high => [high, low]

/-- The words have been pushed in this order: the last one is on top of the stack. -/
def OnTop (stack : Nat → Word) (ws : List Word) : Prop :=
  ∀ i (h : i < ws.length), stack (ws.length - 1 - i) = ws[i]

/-- What a function finds for a parameter: a word, or the bytes from an address on. -/
inductive Received where
  | word (w : Word)
  | bytes (m : Mem)

/-- Number of bytes of the value of a scalar parameter; a `va_list` is passed by its address. -/
def valueSize : Leaf → Nat
  | .builtin => 8
  | k => leafSize k 0

/-- `Arrived heap t size a rs`: `rs` is what the function finds for a parameter of type `t` when it is
called with the argument `a`.  A scalar has the value of the argument (the bits of the word beyond the size
of the type are arbitrary), an aggregate the bytes of the object. -/
def Arrived (heap : Word → Mem) (t : Ty) (size : Nat) (a : Arg) (rs : List Received) : Prop :=
  match t, a with
  | .leaf .longDouble _ _, .ext low high => rs = [.word high, .word low]
  | .leaf .longDouble _ _, .word _ => False
  | .leaf .memory _ _, .word w => ∃ m, rs = [.bytes m] ∧ ∀ i < size, m i = heap w i
  | .leaf k _ _, .word w => ∃ v : Word, rs = [.word v] ∧ ∀ i : Fin 8, i.val < valueSize k → v i = w i
  | _, .word w => ∃ m, rs = [.bytes m] ∧ ∀ i < size, m i = heap w i
  | _, .ext _ _ => False

/-- All parameters have arrived; `rss` is what has been found for each of them. -/
inductive ArrivedAll (heap : Word → Mem) : List Ty → List LTree → List Arg → List (List Received) → Prop
  | nil : ArrivedAll heap [] [] [] []
  | cons {t l a rs ts ls as rss} : Arrived heap t l.data.size a rs → ArrivedAll heap ts ls as rss →
      ArrivedAll heap (t :: ts) (l :: ls) (a :: as) (rs :: rss)

end Kefir.Call
