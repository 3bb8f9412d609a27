import Verif.Lexer.IdentProps
import Verif.Lexer.EscapeSpec
import Verif.Lexer.BlankSpec
/-!
# Specification: preprocessing tokens (C17 6.4)

The grammar of C17 6.4, 6.4.2.1, 6.4.3, 6.4.4.4, 6.4.5, 6.4.6 and 6.4.8: which texts spell a
preprocessing token, and which token they spell.  Nothing here refers to the functions of the lexer;
the types of characters, tokens, punctuators and escape sequences are shared with the other lexical
specifications.

What the implementation defines is a parameter or left open: `enc` is how a character is encoded in a
literal of each kind, and the value of a character constant with more than one character is not
constrained.
-/

namespace Kefir.PpToken

open Kefir.Lexer

/-- 6.4.3p2: the universal character names that may be used. -/
def ValidUcn (v : Nat) : Prop :=
  (0xA0 ≤ v ∨ v = 0x24 ∨ v = 0x40 ∨ v = 0x60) ∧ ¬ (0xD800 ≤ v ∧ v ≤ 0xDFFF)

instance (v) : Decidable (ValidUcn v) := by unfold ValidUcn; infer_instance

/-- 6.4.3: a universal character name and the character it names. -/
inductive Ucn : List Chr → Chr → Prop where
  | short (ds : List Chr) (hl : ds.length = 4) (hd : ∀ x ∈ ds, IsDigit 16 x)
      (hv : ValidUcn (positional 16 ds)) : Ucn (ch '\\' :: ch 'u' :: ds) (positional 16 ds)
  | long (ds : List Chr) (hl : ds.length = 8) (hd : ∀ x ∈ ds, IsDigit 16 x)
      (hv : ValidUcn (positional 16 ds)) : Ucn (ch '\\' :: ch 'U' :: ds) (positional 16 ds)

/-- 6.4.2.1 identifier-nondigit: spelling and character. -/
inductive Nondigit : List Chr → Chr → Prop where
  | letter (c : Chr) (h : IsNondigit c) : Nondigit [c] c
  | ucn {s : List Chr} {c : Chr} (h : Ucn s c) : Nondigit s c

/-- 6.4.2.1: what may follow the first identifier-nondigit, spelling and characters. -/
inductive IdTail : List Chr → List Chr → Prop where
  | nil : IdTail [] []
  | digit {c : Chr} {s cs : List Chr} (h : IsDigit 10 c) (ht : IdTail s cs) : IdTail (c :: s) (c :: cs)
  | nondigit {a : List Chr} {c : Chr} {s cs : List Chr} (h : Nondigit a c) (ht : IdTail s cs) :
      IdTail (a ++ s) (c :: cs)

/-- 6.4.8: what may follow the first digit of a pp-number. -/
inductive NumTail : List Chr → List Chr → Prop where
  | nil : NumTail [] []
  | digit {c : Chr} {s cs : List Chr} (h : IsDigit 10 c) (ht : NumTail s cs) : NumTail (c :: s) (c :: cs)
  | nondigit {a : List Chr} {c : Chr} {s cs : List Chr} (h : Nondigit a c) (ht : NumTail s cs) :
      NumTail (a ++ s) (c :: cs)
  | exponent {e g : Chr} {s cs : List Chr} (he : e ∈ str "eEpP") (hg : g ∈ str "+-")
      (ht : NumTail s cs) : NumTail (e :: g :: s) (e :: g :: cs)
  | dot {s cs : List Chr} (ht : NumTail s cs) : NumTail (ch '.' :: s) (ch '.' :: cs)

/-- An element of a literal: a character, or a number given by an octal or hexadecimal escape. -/
inductive Elem where
  | chr (c : Chr)
  | code (v : Nat)
  deriving DecidableEq

def Elem.value : Elem → Nat
  | .chr c => c
  | .code v => v

/-- 6.4.4.4 escape-sequence: `Escape seq rest e` says that a text `seq ++ rest` begins with the escape
sequence `seq`.  An octal sequence has up to three digits, a hexadecimal one as many as follow. -/
inductive Escape : List Chr → List Chr → Elem → Prop where
  | simple (c : Chr) (v : Nat) (rest : List Chr) (h : (c, v) ∈ simpleEscapes) :
      Escape [ch '\\', c] rest (.chr v)
  | octal (ds rest : List Chr) (h1 : 1 ≤ ds.length) (h3 : ds.length ≤ 3) (hd : ∀ x ∈ ds, IsDigit 8 x)
      (hr : ds.length = 3 ∨ ∀ x r, rest = x :: r → ¬ IsDigit 8 x) :
      Escape (ch '\\' :: ds) rest (.code (positional 8 ds))
  | hexadecimal (ds rest : List Chr) (h1 : ds ≠ []) (hd : ∀ x ∈ ds, IsDigit 16 x)
      (hr : ∀ x r, rest = x :: r → ¬ IsDigit 16 x) :
      Escape (ch '\\' :: ch 'x' :: ds) rest (.code (positional 16 ds))
  | ucn {s : List Chr} {v : Nat} (rest : List Chr) (h : Ucn s v) : Escape s rest (.chr v)

/-- 6.4.4.4 c-char-sequence and 6.4.5 s-char-sequence: what stands between two quotes `q`. -/
inductive Body (q : Chr) : List Chr → List Elem → Prop where
  | nil : Body q [] []
  | plain {c : Chr} {s : List Chr} {es : List Elem} (h1 : c ≠ q) (h2 : c ≠ ch '\\') (h3 : c ≠ ch '\n')
      (hb : Body q s es) : Body q (c :: s) (.chr c :: es)
  | escape {a s : List Chr} {e : Elem} {es : List Elem} (h : Escape a s e) (hb : Body q s es) :
      Body q (a ++ s) (e :: es)

/-- The size of an element of a string literal: `char`, `char16_t`, `char32_t` and `wchar_t`. -/
def unitSize : Mode → Nat
  | .multibyte => 1
  | .unicode8 => 1
  | .unicode16 => 2
  | .unicode32 => 4
  | .wide => 4

/-- A number as `n` bytes, least significant first. -/
def littleEndian (n v : Nat) : List UInt8 := (List.range n).map fun i => UInt8.ofNat (v / 256 ^ i % 256)

/-- The bytes of an element of a literal; a number has to fit (6.4.4.4p9). -/
def elemBytes (enc : Mode → Chr → Option (List UInt8)) (m : Mode) : Elem → Option (List UInt8)
  | .chr c => enc m c
  | .code v => if v < 256 ^ unitSize m then some (littleEndian (unitSize m) v) else none

/-- The bytes of the elements of a literal. -/
inductive Bytes (enc : Mode → Chr → Option (List UInt8)) (m : Mode) : List Elem → List UInt8 → Prop where
  | nil : Bytes enc m [] []
  | cons {e : Elem} {es : List Elem} {b bs : List UInt8} (h : elemBytes enc m e = some b)
      (hs : Bytes enc m es bs) : Bytes enc m (e :: es) (b ++ bs)

/-- The encoding of the characters of an identifier or number. -/
def Encoded (enc : Mode → Chr → Option (List UInt8)) (cs : List Chr) (bs : List UInt8) : Prop :=
  Bytes enc .multibyte (cs.map .chr) bs

/-- 6.4.4.4p10: the value of an integer character constant.  One byte has the value of a `char`
(signed) converted to `int`; otherwise the implementation defines it. -/
def NarrowValue (bs : List UInt8) (v : BitVec 32) : Prop :=
  ∀ b, bs = [b] → v.toInt = if b.toNat < 128 then (b.toNat : Int) else (b.toNat : Int) - 256

/-- 6.4.4.4p9, p11: the value of a prefixed character constant whose type has `n` bytes.  Numbers have
to fit; one element that fits has its value, otherwise the implementation defines it. -/
def WideValue (n : Nat) (es : List Elem) (v : Nat) : Prop :=
  (∀ x, .code x ∈ es → x < 256 ^ n) ∧ (∀ e, es = [e] → e.value < 256 ^ n → v = e.value)

/-- 6.4.5: the prefixes of string literals. -/
def stringPrefix : Mode → List Chr
  | .multibyte => []
  | .unicode8 => str "u8"
  | .unicode16 => str "u"
  | .unicode32 => str "U"
  | .wide => str "L"

/-- `Spelled enc s τ`: the text `s` spells the preprocessing token `τ` (6.4p1). -/
inductive Spelled (enc : Mode → Chr → Option (List UInt8)) : List Chr → Token → Prop where
  | identifier {a : List Chr} {c : Chr} {s cs : List Chr} {bs : List UInt8} (h : Nondigit a c)
      (ht : IdTail s cs) (hb : Encoded enc (c :: cs) bs) : Spelled enc (a ++ s) (.identifier bs)
  | number {d : Chr} {s cs : List Chr} {bs : List UInt8} (h : IsDigit 10 d) (ht : NumTail s cs)
      (hb : Encoded enc (d :: cs) bs) : Spelled enc (d :: s) (.ppNumber bs)
  | dotNumber {d : Chr} {s cs : List Chr} {bs : List UInt8} (h : IsDigit 10 d) (ht : NumTail s cs)
      (hb : Encoded enc (ch '.' :: d :: cs) bs) : Spelled enc (ch '.' :: d :: s) (.ppNumber bs)
  | character {s : List Chr} {es : List Elem} {bs : List UInt8} {v : BitVec 32} (h : Body (ch '\'') s es)
      (hn : es ≠ []) (hb : Bytes enc .multibyte es bs) (hv : NarrowValue bs v) :
      Spelled enc (str "'" ++ (s ++ str "'")) (.charConst v)
  | wideCharacter {s : List Chr} {es : List Elem} {v : Nat} (h : Body (ch '\'') s es)
      (hn : es ≠ []) (hv : WideValue 4 es v) : Spelled enc (str "L'" ++ (s ++ str "'")) (.wideChar v)
  | character16 {s : List Chr} {es : List Elem} {v : Nat} (h : Body (ch '\'') s es)
      (hn : es ≠ []) (hv : WideValue 2 es v) : Spelled enc (str "u'" ++ (s ++ str "'")) (.unicode16Char v)
  | character32 {s : List Chr} {es : List Elem} {v : Nat} (h : Body (ch '\'') s es)
      (hn : es ≠ []) (hv : WideValue 4 es v) : Spelled enc (str "U'" ++ (s ++ str "'")) (.unicode32Char v)
  | string {m : Mode} {s : List Chr} {es : List Elem} {bs : List UInt8} (h : Body (ch '"') s es)
      (hb : Bytes enc m es bs) :
      Spelled enc (stringPrefix m ++ (str "\"" ++ (s ++ str "\""))) (.string m bs)
  | punctuator (p : Punct) : Spelled enc p.spelling (.punct p)

/-- 6.4p4: the next preprocessing token is the longest sequence of characters that could constitute
one. -/
def Longest (enc : Mode → Chr → Option (List UInt8)) (text s : List Chr) : Prop :=
  (s <+: text ∧ ∃ τ, Spelled enc s τ) ∧
  ∀ s', s' <+: text → (∃ τ, Spelled enc s' τ) → s'.length ≤ s.length

/-- What a character constant or string literal begins with. -/
def openings : List (List Chr) :=
  [str "'", str "L'", str "u'", str "U'", str "\"", str "u8\"", str "u\"", str "U\"", str "L\""]

/-- The text begins with a quote, possibly with a prefix, that does not open a character constant or
string literal.  A lone quote makes the behaviour undefined (6.4p3). -/
def StrayQuote (enc : Mode → Chr → Option (List UInt8)) (text : List Chr) : Prop :=
  ∃ o ∈ openings, o <+: text ∧ ¬ ∃ s τ, s <+: text ∧ o <+: s ∧ Spelled enc s τ

/-- The text begins with a newline, or with a line comment that a newline ends. -/
inductive NewlineAt : List Chr → List Chr → Prop where
  | newline (r : List Chr) : NewlineAt (ch '\n' :: r) r
  | comment (body r : List Chr) (h : ch '\n' ∉ body) : NewlineAt (str "//" ++ (body ++ ch '\n' :: r)) r

/-- A number of whitespace characters and comments, and whether a newline is among them.  A newline
inside a block comment does not count (6.10p5, translation phase 3). -/
inductive Gap : List Chr → List Chr → Bool → Prop where
  | nil (t : List Chr) : Gap t t false
  | newline {t t' t'' : List Chr} {nl : Bool} (h : NewlineAt t t') (hs : Gap t' t'' nl) : Gap t t'' true
  | blank {t t' t'' : List Chr} {nl : Bool} (h : Blank t t') (hn : ¬ NewlineAt t t') (hs : Gap t' t'' nl) :
      Gap t t'' nl

end Kefir.PpToken
