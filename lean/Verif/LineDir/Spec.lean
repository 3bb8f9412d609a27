import Verif.Directive.Spec
/-!
# Specification: line control (C17 6.10.4, 6.10.8.1)

`# line digit-sequence` "causes the implementation to behave as if the following sequence of source lines
begins with a source line that has a line number as specified by the digit sequence"; with a string
literal it "changes the presumed name of the source file to be the contents of the character string
literal".  `__LINE__` is "the presumed line number (within the current source file) of the current source
line (an integer constant)", `__FILE__` "the presumed name of the current source file (a character string
literal)".
-/

namespace Kefir.LineDir

open Kefir.Lexer Kefir.PpToken Kefir.Directive

/-- The value of one decimal digit. -/
def digitValue (b : UInt8) : Option Nat := if 48 ≤ b.toNat ∧ b.toNat ≤ 57 then some (b.toNat - 48) else none

/-- A digit sequence and the number that it denotes.  "interpreted as a decimal integer" (6.10.4p3), so a
leading zero does not make it octal. -/
inductive Denotes : List UInt8 → Nat → Prop where
  | one {b : UInt8} {d : Nat} (h : digitValue b = some d) : Denotes [b] d
  | snoc {bs : List UInt8} {b : UInt8} {n d : Nat} (hs : Denotes bs n) (h : digitValue b = some d) :
      Denotes (bs ++ [b]) (10 * n + d)

/-- A decimal integer constant (6.4.4.1): a digit sequence that does not begin with 0.  Zero itself is
the octal constant `0`. -/
def Constant (bs : List UInt8) (n : Nat) : Prop := Denotes bs n ∧ (bs.head? = some 48 → bs = [48])

/-- 6.10.4p3, p4: what the tokens after `line` say, white space left out, when all macros have been
replaced.  The file name has no null character. -/
inductive Control : List Token → Nat → Option (List UInt8) → Prop where
  | number {ds : List UInt8} {n : Nat} (hd : Denotes ds n) (hn : 1 ≤ n ∧ n ≤ 2147483647) :
      Control [.ppNumber ds] n none
  | named {ds name : List UInt8} {n : Nat} (hd : Denotes ds n) (hn : 1 ≤ n ∧ n ≤ 2147483647) (h0 : 0 ∉ name) :
      Control [.ppNumber ds, .string .multibyte name] n (some name)

/-- The number of new lines in a text. -/
def newlines (s : List Chr) : Nat := s.count (ch '\n')

/-- A line that is a directive `#line`: it begins at `c`, the tokens after the name and after blanks are
`τs`, and the next line begins at `c'`, after the first newline that follows the tokens.  White space and
comments may stand before the newline.  `plain` says that the tokenizer, too, ends a token there: the next
line does not begin with a comment. -/
def LineDirective (sc : StrCodec) (t : Tries) (plain : Prop) (c : Cursor) (τs : List Token) (c' : Cursor) :
    Prop :=
  ∃ h n a b e c2 : Cursor,
    OnlyBlanks c h ∧ (∃ r, h.text = ch '#' :: r) ∧ OnlyBlanks (h.adv 1) n ∧ PlainName "line" n a ∧
    OnlyBlanks a b ∧ (∃ x r, b.text = x :: r ∧ ¬ IsBlank x) ∧ Steps sc t b τs e ∧
    (∃ s r, e.text = s ++ ch '\n' :: r ∧ ch '\n' ∉ s ∧ c' = e.adv (s.length + 1)) ∧
    Next sc t e (.ppWhitespace true) c2 ∧ (plain → c2 = c')

end Kefir.LineDir
