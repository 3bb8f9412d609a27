import Verif.Lexer.Spec
/-!
# Specification of integer constants (C17 6.4.4.1)

Nothing in this file refers to the model of the lexer.  The target has 32-bit `int` and 64-bit `long`
and `long long`.
-/

namespace Kefir.Lexer

/-- The value of a digit; letters count as in hexadecimal notation. -/
def digitVal (c : Chr) : Nat :=
  if ch '0' ≤ c ∧ c ≤ ch '9' then c - ch '0'
  else if ch 'a' ≤ c ∧ c ≤ ch 'f' then c - ch 'a' + 10
  else if ch 'A' ≤ c ∧ c ≤ ch 'F' then c - ch 'A' + 10
  else 0

/-- The digits of a base (8, 10 or 16). -/
def IsDigit (base : Nat) (c : Chr) : Prop :=
  (ch '0' ≤ c ∧ c ≤ ch '9' ∨ ch 'a' ≤ c ∧ c ≤ ch 'f' ∨ ch 'A' ≤ c ∧ c ≤ ch 'F') ∧ digitVal c < base

instance (base c) : Decidable (IsDigit base c) := by unfold IsDigit; infer_instance

/-- The number a digit string denotes: the sum of the digits, each multiplied by the power of the
base its position has. -/
def positional (base : Nat) : List Chr → Nat
  | [] => 0
  | d :: ds => digitVal d * base ^ ds.length + positional base ds

/-- The forms of C17 6.4.4.1: base, prefix and digits. -/
inductive IntForm : Nat → List Chr → List Chr → Prop where
  | decimal (d : Chr) (ds : List Chr) (h : d ≠ ch '0') (hd : ∀ x ∈ d :: ds, IsDigit 10 x) :
      IntForm 10 [] (d :: ds)
  | octal (ds : List Chr) (hd : ∀ x ∈ ds, IsDigit 8 x) : IntForm 8 [] (ch '0' :: ds)
  | hexadecimal (x : Chr) (hx : x = ch 'x' ∨ x = ch 'X') (ds : List Chr) (hn : ds ≠ [])
      (hd : ∀ x ∈ ds, IsDigit 16 x) : IntForm 16 [ch '0', x] ds

/-- What follows does not continue the digits; and a text that begins with `0x` and a hexadecimal
digit is read as a hexadecimal constant. -/
def MaximalDigits (base : Nat) (pre ds after : List Chr) : Prop :=
  (∀ x r, after = x :: r → ¬ IsDigit base x) ∧
  (∀ x d r, pre ++ ds ++ after = ch '0' :: x :: d :: r → (x = ch 'x' ∨ x = ch 'X') →
    IsDigit 16 d → base = 16)

/-- An integer suffix: spelling, whether it has a `u`, and its length part (0, 1 = long,
2 = long long). -/
structure Suffix where
  spelling : List Chr
  unsigned : Bool
  length : Nat
  deriving DecidableEq

def unsignedSuffixes : List (List Chr) := [str "u", str "U"]
def lengthSuffixes : List (List Chr × Nat) := [(str "l", 1), (str "L", 1), (str "ll", 2), (str "LL", 2)]

/-- C17 6.4.4.1: an unsigned suffix and a length suffix, each optional, in either order. -/
def intSuffixes : List Suffix :=
  [⟨[], false, 0⟩] ++
  unsignedSuffixes.map (fun u => ⟨u, true, 0⟩) ++
  lengthSuffixes.map (fun l => ⟨l.1, false, l.2⟩) ++
  unsignedSuffixes.flatMap (fun u => lengthSuffixes.map fun l => ⟨u ++ l.1, true, l.2⟩) ++
  unsignedSuffixes.flatMap (fun u => lengthSuffixes.map fun l => ⟨l.1 ++ u, true, l.2⟩)

/-- The suffix that follows the digits: the longest spelling that is a prefix of the text. -/
def IsLongestSuffix (s : Suffix) (text : List Chr) : Prop :=
  s ∈ intSuffixes ∧ s.spelling <+: text ∧
  ∀ s' ∈ intSuffixes, s'.spelling <+: text → s'.spelling.length ≤ s.spelling.length

/-- The types of integer constants. -/
inductive IntTy where
  | int | uint | long | ulong | llong | ullong
  deriving DecidableEq, Repr

def IntTy.isUnsigned : IntTy → Bool
  | .int => false | .uint => true | .long => false | .ulong => true | .llong => false | .ullong => true

/-- 0 for `int`, 1 for `long`, 2 for `long long`. -/
def IntTy.rank : IntTy → Nat
  | .int => 0 | .uint => 0 | .long => 1 | .ulong => 1 | .llong => 2 | .ullong => 2

/-- The number of value bits. -/
def IntTy.valueBits : IntTy → Nat
  | .int => 31 | .uint => 32 | .long => 63 | .ulong => 64 | .llong => 63 | .ullong => 64

/-- The list of C17 6.4.4.1p5 for a suffix and base: types at least as long as the suffix says;
unsigned ones only with a `u` suffix or if the constant is not decimal; signed ones only without a
`u` suffix. -/
def candidates (s : Suffix) (base : Nat) : List IntTy :=
  [IntTy.int, .uint, .long, .ulong, .llong, .ullong].filter fun t =>
    decide (s.length ≤ t.rank) &&
    (if t.isUnsigned then s.unsigned || base != 10 else !s.unsigned)

/-- The type of a constant of value `v`: the first of the list in which it can be represented. -/
def constantType (s : Suffix) (base : Nat) (v : Nat) : Option IntTy :=
  (candidates s base).find? fun t => v < 2 ^ t.valueBits

/- The rows of the table of C17 6.4.4.1p5, for comparison. -/
example : candidates ⟨[], false, 0⟩ 10 = [.int, .long, .llong] := by decide
example : candidates ⟨[], false, 0⟩ 16 = [.int, .uint, .long, .ulong, .llong, .ullong] := by decide
example : candidates ⟨str "u", true, 0⟩ 10 = [.uint, .ulong, .ullong] := by decide
example : candidates ⟨str "u", true, 0⟩ 8 = [.uint, .ulong, .ullong] := by decide
example : candidates ⟨str "l", false, 1⟩ 10 = [.long, .llong] := by decide
example : candidates ⟨str "l", false, 1⟩ 8 = [.long, .ulong, .llong, .ullong] := by decide
example : candidates ⟨str "lu", true, 1⟩ 10 = [.ulong, .ullong] := by decide
example : candidates ⟨str "ll", false, 2⟩ 10 = [.llong] := by decide
example : candidates ⟨str "ll", false, 2⟩ 16 = [.llong, .ullong] := by decide
example : candidates ⟨str "ull", true, 2⟩ 16 = [.ullong] := by decide

end Kefir.Lexer
