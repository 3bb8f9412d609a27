import Verif.Lexer.IntSpec
/-!
# Specification of escape sequences (C17 6.4.4.4) and universal character names (C17 6.4.3)
-/

namespace Kefir.Lexer

/-- The simple escape sequences and their values in the ASCII execution character set
(C17 5.2.2). -/
def simpleEscapes : List (Chr × Nat) :=
  [(ch '\'', 0x27), (ch '"', 0x22), (ch '?', 0x3f), (ch '\\', 0x5c), (ch 'a', 7), (ch 'b', 8),
   (ch 'f', 0xc), (ch 'n', 0xa), (ch 'r', 0xd), (ch 't', 9), (ch 'v', 0xb)]

/-- `EscapeAt seq rest v`: a text `seq ++ rest` begins with the escape sequence `seq`, which denotes
`v`.  An octal sequence has up to three digits, a hexadecimal one as many as follow. -/
inductive EscapeAt : List Chr → List Chr → Nat → Prop where
  | simple (c : Chr) (v : Nat) (rest : List Chr) (h : (c, v) ∈ simpleEscapes) :
      EscapeAt [ch '\\', c] rest v
  | octal (ds rest : List Chr) (h1 : 1 ≤ ds.length) (h3 : ds.length ≤ 3) (hd : ∀ x ∈ ds, IsDigit 8 x)
      (hr : ds.length = 3 ∨ ∀ x r, rest = x :: r → ¬ IsDigit 8 x) :
      EscapeAt (ch '\\' :: ds) rest (positional 8 ds)
  | hexadecimal (ds rest : List Chr) (h1 : ds ≠ []) (hd : ∀ x ∈ ds, IsDigit 16 x)
      (hr : ∀ x r, rest = x :: r → ¬ IsDigit 16 x) :
      EscapeAt (ch '\\' :: ch 'x' :: ds) rest (positional 16 ds)
  | universal4 (ds rest : List Chr) (h : ds.length = 4) (hd : ∀ x ∈ ds, IsDigit 16 x) :
      EscapeAt (ch '\\' :: ch 'u' :: ds) rest (positional 16 ds)
  | universal8 (ds rest : List Chr) (h : ds.length = 8) (hd : ∀ x ∈ ds, IsDigit 16 x) :
      EscapeAt (ch '\\' :: ch 'U' :: ds) rest (positional 16 ds)

end Kefir.Lexer
