import Verif.PpToken.Spec
import Verif.PpToken.Model
import Verif.PpToken.Format
/-!
# Specification: text that is read back as the tokens it was printed from

What the preprocessor writes is the input of a later translation: reading it has to give the tokens
again.  `Printable` lists the tokens for which this holds, `Separated` says that no token runs into the
next, `Reads` is the repeated reading of the tokenizer.
-/

namespace Kefir.PpToken

open Kefir.Lexer

/-- An encoding of source files that agrees with ASCII on ASCII. -/
structure AsciiCodec (cd : Codec) : Prop where
  chr : ∀ (b : UInt8) (r : List UInt8), 1 ≤ b.toNat → b.toNat < 128 → cd.dec (b :: r) = .chr b.toNat 1

/-- A locale that prints the printable ASCII characters as they are. -/
def GoodLocale (l : Locale) : Prop := ∀ v : Nat, 0x20 ≤ v → v ≤ 0x7e → l.wide v = some [UInt8.ofNat v]

/-- The tokens that are printed the way they are spelled. -/
inductive Printable (l : Locale) : Token → Prop where
  | identifier (bs : List UInt8) (x : Chr) (s : List Chr) (h : bs.map UInt8.toNat = x :: s)
      (hx : IsNondigit x) (hs : ∀ y ∈ s, IsNondigit y ∨ IsDigit 10 y) (hl : bs.length ≤ 255) :
      Printable l (.identifier bs)
  | number (bs : List UInt8) (d : Chr) (s : List Chr) (h : bs.map UInt8.toNat = d :: s)
      (hd : IsDigit 10 d) (hs : NumTail s s) (hb : ch '\\' ∉ s) : Printable l (.ppNumber bs)
  | dotNumber (bs : List UInt8) (d : Chr) (s : List Chr) (h : bs.map UInt8.toNat = ch '.' :: d :: s)
      (hd : IsDigit 10 d) (hs : NumTail s s) (hb : ch '\\' ∉ s) : Printable l (.ppNumber bs)
  | punctuator (p : Punct) : Printable l (.punct p)
  | whitespace (nl : Bool) : Printable l (.ppWhitespace nl)
  /-- a character constant with the value of an ASCII character -/
  | character (v : BitVec 32) (h : v.toNat < 128) : Printable l (.charConst v)
  /-- a string of ASCII characters, without a null character before an octal digit -/
  | narrow (m : Mode) (bs : List UInt8) (hm : m = .multibyte ∨ m = .unicode8) (h : ∀ b ∈ bs, b.toNat < 128)
      (hz : ∀ p q x, bs = p ++ 0 :: x :: q → ¬ IsDigit 8 x.toNat) : Printable l (.string m bs)
  | unicode16 (us : List Nat) (h : ∀ u ∈ us, u < 256 ^ 2) :
      Printable l (.string .unicode16 (us.flatMap (littleEndian 2)))
  | unicode32 (us : List Nat) (h : ∀ u ∈ us, u < 256 ^ 4) :
      Printable l (.string .unicode32 (us.flatMap (littleEndian 4)))
  /-- a wide string of printable ASCII characters other than `"` and the backslash, and of numbers that
  are no printable character, none of them before a hexadecimal digit -/
  | wide (us : List Nat)
      (h : ∀ v ∈ us, (0x20 ≤ v ∧ v ≤ 0x7e ∧ v ≠ ch '"' ∧ v ≠ ch '\\') ∨ (l.wide v = none ∧ v < 2 ^ 31))
      (hz : ∀ p q v x, us = p ++ v :: x :: q → l.wide v = none → l.wide x ≠ none → ¬ IsDigit 16 x) :
      Printable l (.string .wide (us.flatMap (littleEndian 4)))

/-- 6.4.6p3: a digraph behaves as the punctuator it stands for. -/
def primary : Punct → Punct
  | .digraphLeftBracket => .leftBracket
  | .digraphRightBracket => .rightBracket
  | .digraphLeftBrace => .leftBrace
  | .digraphRightBrace => .rightBrace
  | .digraphHash => .hash
  | .digraphDoubleHash => .doubleHash
  | p => p

/-- What the printed text does not preserve: digraphs, and newlines if they are not wanted. -/
def normalise (ws : WsFormat) : Token → Token
  | .punct p => .punct (primary p)
  | .ppWhitespace nl => .ppWhitespace (nl && decide (ws = .original))
  | τ => τ

/-- The first character of a token, a space for whitespace. -/
def opens : Token → Chr
  | .identifier bs => (bs.map UInt8.toNat).headD 0
  | .ppNumber bs => (bs.map UInt8.toNat).headD 0
  | .punct p => (primary p).spelling.headD 0
  | .charConst _ => ch '\''
  | .string m _ => (stringPrefix m ++ str "\"").headD 0
  | _ => ch ' '

/-- `Continues τ x`: in a text, the token `τ` may not be followed by the character `x`, because a longer
token, a comment or more whitespace would begin with it. -/
def Continues : Token → Chr → Prop
  | .identifier bs, x => IsNondigit x ∨ IsDigit 10 x ∨ bs.map UInt8.toNat ++ [x] ∈ openings
  | .ppNumber bs, x => IsNondigit x ∨ IsDigit 10 x ∨ x = ch '.' ∨
      (x ∈ str "+-" ∧ ∃ e ∈ str "eEpP", (bs.map UInt8.toNat).getLast? = some e)
  | .punct p, x => (∃ q : Punct, (primary p).spelling ++ [x] <+: q.spelling) ∨
      (p = .dot ∧ IsDigit 10 x) ∨ (p = .slash ∧ x ∈ str "/*")
  | .ppWhitespace _, x => x = ch ' '
  | _, _ => False

/-- No token runs into the next. -/
def Separated : List Token → Prop
  | τ :: τ' :: τs => ¬ Continues τ (opens τ') ∧ Separated (τ' :: τs)
  | _ => True

/-- The tokens read one after the other up to the end of the text. -/
inductive Reads (sc : StrCodec) (t : Tries) : Cursor → List Token → Prop where
  | stop {c c' : Cursor} {i j : Nat} (h : ppNext sc t c = some (.ok ⟨.sentinel, i, j⟩, c')) : Reads sc t c []
  | next {c c' : Cursor} {i j : Nat} {τ : Token} {τs : List Token} (hn : τ ≠ .sentinel)
      (h : ppNext sc t c = some (.ok ⟨τ, i, j⟩, c')) (hs : Reads sc t c' τs) : Reads sc t c (τ :: τs)

end Kefir.PpToken
