import Verif.Lexer.Spec
/-!
# Specification: character constants that are not closed
-/

namespace Kefir.Lexer

/-- The inside of a character constant: plain characters, and backslashes each with the character that
follows it. -/
inductive CharBody : List Chr → Prop where
  | nil : CharBody []
  | plain (c : Chr) (r : List Chr) (h1 : c ≠ ch '\'') (h2 : c ≠ ch '\\') (h : CharBody r) :
      CharBody (c :: r)
  | escaped (d : Chr) (r : List Chr) (h : CharBody r) : CharBody (ch '\\' :: d :: r)

/-- The text after an opening quote contains the closing one. -/
def Closed (t : List Chr) : Prop := ∃ body rest, t = body ++ ch '\'' :: rest ∧ CharBody body

/-- A text begins with a character constant that is never closed: a quote, possibly after one of the
prefixes `L`, `u` and `U`, and no closing quote in all that follows. -/
def UnclosedChar (t : List Chr) : Prop :=
  ∃ pre u, pre ∈ [str "'", str "L'", str "u'", str "U'"] ∧ t = pre ++ u ∧ ¬ Closed u

end Kefir.Lexer
