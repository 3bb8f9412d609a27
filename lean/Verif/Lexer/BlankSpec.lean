import Verif.Lexer.Spec
/-!
# Specification of whitespace and comments (C17 6.4p3, 6.4.9)
-/

namespace Kefir.Lexer

/-- Space, horizontal and vertical tab, newline, form feed and carriage return. -/
def whitespaceChars : List Chr := [ch ' ', 9, 11, ch '\n', 12, 13]

/-- One whitespace character or one comment at the beginning of a text, and what remains after it.
A block comment ends at the first `*/` after its opening; a line comment ends with its line. -/
inductive Blank : List Chr → List Chr → Prop where
  | space (c : Chr) (r : List Chr) (h : c ∈ whitespaceChars) : Blank (c :: r) r
  | block (body r : List Chr) (h : ¬ str "*/" <:+: body ++ str "*") :
      Blank (str "/*" ++ (body ++ (str "*/" ++ r))) r
  | line (body r : List Chr) (h : ch '\n' ∉ body) : Blank (str "//" ++ (body ++ ch '\n' :: r)) r
  | lastLine (body : List Chr) (h : ch '\n' ∉ body) : Blank (str "//" ++ body) []

/-- A number of whitespace characters and comments. -/
inductive Blanks : List Chr → List Chr → Prop where
  | nil (t : List Chr) : Blanks t t
  | cons {t t' t'' : List Chr} (h : Blank t t') (hs : Blanks t' t'') : Blanks t t''

/-- A block comment that is never closed. -/
def Unterminated (t : List Chr) : Prop := ∃ body, t = str "/*" ++ body ∧ ¬ str "*/" <:+: body

/-- `r` is what remains of `t` after the longest run of whitespace characters and comments. -/
def BlankRun (t r : List Chr) : Prop := Blanks t r ∧ ∀ r', ¬ Blank r r'

end Kefir.Lexer
