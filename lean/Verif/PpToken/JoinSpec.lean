import Verif.PpToken.FormatSpec
import Verif.StringBuffer.Spec
/-!
# What adjacent string literals mean (C17 5.1.1.2 phase 6, 6.4.5p5)
-/

namespace Kefir.PpToken

open Kefir.Lexer

/-- The conversion functions of the C library fit together: what is encoded can be decoded, and a character
that the locale has is stored as one unit in wide strings and, up to U+FFFF, in UTF-16 strings.
Surrogates are no characters. -/
structure FitStrings (sc : StrCodec) : Prop where
  trip : StringBuffer.RoundTrip sc.cd
  utf16 : ∀ c : Nat, c < 0x10000 → sc.enc16 c = (sc.cd.enc c).map fun _ => littleEndian 2 c
  wide : ∀ c, sc.encWide c = (sc.cd.enc c).map fun _ => littleEndian 4 c
  surrogate : ∀ c : Nat, 0xD800 ≤ c → c < 0xE000 → sc.cd.enc c = none

/-- The content of a string literal with the characters `cs`. -/
def encodeStr (sc : StrCodec) (m : Mode) : List Chr → Option (List UInt8)
  | [] => some []
  | c :: cs =>
    match sc.encode m c, encodeStr sc m cs with
    | some e, some r => some (e ++ r)
    | _, _ => none

/-- A sequence of string literals with the characters `cs` altogether, each without prefix or with the
prefix `p`, and whitespace in between. -/
inductive Run (sc : StrCodec) (p : Mode) : List Token → List Chr → Prop where
  | one {m : Mode} {cs : List Chr} {bs : List UInt8} (hm : m = .multibyte ∨ m = p)
      (h : encodeStr sc m cs = some bs) : Run sc p [.string m bs] cs
  | more {m : Mode} {cs cs' : List Chr} {bs : List UInt8} {τs : List Token} (hm : m = .multibyte ∨ m = p)
      (h : encodeStr sc m cs = some bs) (r : Run sc p τs cs') : Run sc p (.string m bs :: τs) (cs ++ cs')
  | blank {b : Bool} {τs : List Token} {cs : List Chr} (r : Run sc p τs cs) :
      Run sc p (.ppWhitespace b :: τs) cs

/-- The next token, whitespace aside, is no string literal. -/
def NoStringNext : List Token → Prop
  | [] => True
  | .ppWhitespace _ :: τs => NoStringNext τs
  | .string _ _ :: _ => False
  | _ :: _ => True

def IsString : Token → Prop
  | .string _ _ => True
  | _ => False

/-- Phases 6 and 7: whitespace is dropped, the other tokens are converted as `conv` says, and adjacent
string literals become one literal with all their characters; it has a prefix if one of them has. -/
inductive Translated (sc : StrCodec) (conv : Token → Token → Prop) : List Token → List Token → Prop where
  | done : Translated sc conv [] []
  | blank {b : Bool} {τs out : List Token} (h : Translated sc conv τs out) :
      Translated sc conv (.ppWhitespace b :: τs) out
  | token {τ τ' : Token} {τs out : List Token} (hn : ¬ IsString τ) (hc : conv τ τ')
      (h : Translated sc conv τs out) : Translated sc conv (τ :: τs) (τ' :: out)
  | strings {p : Mode} {run τs out : List Token} {cs : List Chr} {bs bs' : List UInt8} (hr : Run sc p run cs)
      (hp : .string p bs' ∈ run) (hb : encodeStr sc p cs = some bs)
      (hc : ∀ c ∈ cs, c < 2 ^ 32 ∧ (p = .unicode16 → c < 0x10000)) (hn : NoStringNext τs)
      (h : Translated sc conv τs out) : Translated sc conv (run ++ τs) (.string p bs :: out)

end Kefir.PpToken
