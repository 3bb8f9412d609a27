import Verif.PpToken.FormatSpec
/-!
# What numbers mean (C17 6.4.4.1, 6.4.4.2)
-/

namespace Kefir.PpToken

open Kefir.Lexer

/-- 6.4.4.2: an exponent part (letters `e`, `E`) or binary exponent part (`p`, `P`). -/
inductive Exponent (letters : List Chr) : List Chr → Prop where
  | plain {e : Chr} {ds : List Chr} (he : e ∈ letters) (hn : ds ≠ []) (hd : ∀ x ∈ ds, IsDigit 10 x) :
      Exponent letters (e :: ds)
  | signed {e sg : Chr} {ds : List Chr} (he : e ∈ letters) (hs : sg ∈ str "+-") (hn : ds ≠ [])
      (hd : ∀ x ∈ ds, IsDigit 10 x) : Exponent letters (e :: sg :: ds)

/-- 6.4.4.2: floating constants without their suffix. -/
inductive FloatForm : List Chr → Prop where
  | fraction {a b e : List Chr} (ha : ∀ x ∈ a, IsDigit 10 x) (hb : ∀ x ∈ b, IsDigit 10 x)
      (hn : a ≠ [] ∨ b ≠ []) (he : e = [] ∨ Exponent (str "eE") e) :
      FloatForm (a ++ ch '.' :: (b ++ e))
  | whole {a e : List Chr} (ha : ∀ x ∈ a, IsDigit 10 x) (hn : a ≠ []) (he : Exponent (str "eE") e) :
      FloatForm (a ++ e)
  | hexFraction {x : Chr} {a b e : List Chr} (hx : x = ch 'x' ∨ x = ch 'X') (ha : ∀ x ∈ a, IsDigit 16 x)
      (hb : ∀ x ∈ b, IsDigit 16 x) (hn : a ≠ [] ∨ b ≠ []) (he : Exponent (str "pP") e) :
      FloatForm (ch '0' :: x :: (a ++ ch '.' :: (b ++ e)))
  | hexWhole {x : Chr} {a e : List Chr} (hx : x = ch 'x' ∨ x = ch 'X') (ha : ∀ x ∈ a, IsDigit 16 x)
      (hn : a ≠ []) (he : Exponent (str "pP") e) : FloatForm (ch '0' :: x :: (a ++ e))

/-- 6.4.4.2p4: the suffixes and the types they give. -/
def floatSuffixes : List (List Chr × FloatTy) :=
  [([], .double), (str "f", .float), (str "F", .float), (str "l", .ldouble), (str "L", .ldouble)]

/-- The constant that a preprocessing number is, if any.  The value of a floating constant is given by
its spelling without the suffix. -/
inductive Number : List Chr → Token → Prop where
  | integer {base : Nat} {pre ds : List Chr} {s : Suffix} {ty : IntTy} (h : IntForm base pre ds)
      (hs : s ∈ intSuffixes) (ht : constantType s base (positional base ds) = some ty) :
      Number (pre ++ ds ++ s.spelling) (.intConst ty (positional base ds))
  | floating {s : List Chr} {x : List Chr × FloatTy} (h : FloatForm s) (hx : x ∈ floatSuffixes) :
      Number (s ++ x.1) (.floatConst x.2 s)

/-- What the compiler accepts beyond `Number`. -/
inductive Lax : List Chr → Token → Prop where
  /-- an integer constant of 2^64 or more, which is read modulo 2^64 -/
  | overflow {base : Nat} {pre ds : List Chr} {s : Suffix} {ty : IntTy} (h : IntForm base pre ds)
      (hs : s ∈ intSuffixes) (ho : 2 ^ 64 ≤ positional base ds)
      (ht : constantType s base (positional base ds % 2 ^ 64) = some ty) :
      Lax (pre ++ ds ++ s.spelling) (.intConst ty (positional base ds % 2 ^ 64))
  /-- a hexadecimal floating constant without exponent, where `f` is a digit -/
  | noExponent {y : Chr} {a b : List Chr} {x : List Chr × FloatTy} (hy : y = ch 'x' ∨ y = ch 'X')
      (ha : ∀ x ∈ a, IsDigit 16 x) (hb : ∀ x ∈ b, IsDigit 16 x) (hn : a ≠ [] ∨ b ≠ [])
      (hx : x ∈ floatSuffixes) (hl : ∀ y ∈ x.1, ¬ IsDigit 16 y) :
      Lax (ch '0' :: y :: (a ++ ch '.' :: b) ++ x.1) (.floatConst x.2 (ch '0' :: y :: (a ++ ch '.' :: b)))
  /-- `0x.` before a decimal floating constant that begins with a dot -/
  | twoDots {y : Chr} {b e : List Chr} {x : List Chr × FloatTy} (hy : y = ch 'x' ∨ y = ch 'X')
      (hb : ∀ x ∈ b, IsDigit 10 x) (hn : b ≠ []) (he : e = [] ∨ Exponent (str "eE") e)
      (hx : x ∈ floatSuffixes) :
      Lax (ch '0' :: y :: ch '.' :: ((ch '.' :: (b ++ e)) ++ x.1)) (.floatConst x.2 (ch '.' :: (b ++ e)))

end Kefir.PpToken
