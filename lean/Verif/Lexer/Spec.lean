/-!
# Vocabulary of the lexical properties

Nothing in this file refers to the model of the lexer.
-/

namespace Kefir.Lexer

/-- `kefir_char32_t`: a character code.  Simplification: not bounded by 2^32 (decoders only return
smaller codes; arithmetic on characters in the modelled code is wrapped explicitly). -/
abbrev Chr := Nat

/-- Code of a character literal. -/
@[reducible] def ch (c : Char) : Chr := c.toNat

/-- Codes of a string literal. -/
def str (s : String) : List Chr := s.toList.map ch

/-- Translation phase 2 of C17 5.1.1.2: each backslash immediately followed by a newline is
deleted. -/
def splice : List Chr → List Chr
  | [] => []
  | [c] => [c]
  | c :: d :: r => if c = ch '\\' ∧ d = ch '\n' then splice r else c :: splice (d :: r)

/-- Number of the line a position is on, given the (physical) text before it. -/
def lineAfter (p : List Chr) : Nat := 1 + p.count (ch '\n')

/-- Column of a position, given the (physical) text before it: one plus the number of characters
after the last newline. -/
def columnAfter (p : List Chr) : Nat := 1 + (p.reverse.takeWhile (· ≠ ch '\n')).length

end Kefir.Lexer
