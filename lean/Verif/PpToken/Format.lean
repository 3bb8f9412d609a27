import Verif.Lexer.Matchers
/-!
# Printing of preprocessing tokens (`source/preprocessor/format.c`)

The text written to the file is a list of bytes.
-/

namespace Kefir.PpToken

open Kefir.Lexer

/-- The bytes of a string literal of the source code. -/
def lit (s : String) : List UInt8 := (str s).map UInt8.ofNat

/-- What the C library contributes, beside `isprint`, which is that of the "C" locale. -/
structure Locale where
  /-- what `%lc` prints for a wide character that `iswprint` accepts; `none` if it does not -/
  wide : Nat → Option (List UInt8)
  /-- the bytes `c16rtomb` stores; `none` if it fails -/
  c16 : Nat → Option (List UInt8)
  /-- the bytes `c32rtomb` stores; `none` if it fails -/
  c32 : Nat → Option (List UInt8)

/-- `kefir_preprocessor_whitespace_format_t` (headers/kefir/preprocessor/format.h:27-30). -/
inductive WsFormat where
  | original | singleSpace
  deriving DecidableEq

/-- source/preprocessor/format.c:35-92 `format_punctuator`: the table. -/
def punctText : Punct → String
  | .leftBracket => "["
  | .rightBracket => "]"
  | .leftParenthese => "("
  | .rightParenthese => ")"
  | .leftBrace => "{"
  | .rightBrace => "}"
  | .dot => "."
  | .rightArrow => "->"
  | .doublePlus => "++"
  | .doubleMinus => "--"
  | .ampersand => "&"
  | .star => "*"
  | .plus => "+"
  | .minus => "-"
  | .tilde => "~"
  | .exclamationMark => "!"
  | .slash => "/"
  | .percent => "%"
  | .leftShift => "<<"
  | .rightShift => ">>"
  | .lessThan => "<"
  | .greaterThan => ">"
  | .lessOrEqual => "<="
  | .greaterOrEqual => ">="
  | .equal => "=="
  | .notEqual => "!="
  | .caret => "^"
  | .vbar => "|"
  | .doubleAmpersand => "&&"
  | .doubleVbar => "||"
  | .questionMark => "?"
  | .colon => ":"
  | .semicolon => ";"
  | .ellipsis => "..."
  | .assign => "="
  | .assignMultiply => "*="
  | .assignDivide => "/="
  | .assignModulo => "%="
  | .assignAdd => "+="
  | .assignSubtract => "-="
  | .assignShiftLeft => "<<="
  | .assignShiftRight => ">>="
  | .assignAnd => "&="
  | .assignXor => "^="
  | .assignOr => "|="
  | .comma => ","
  | .hash => "#"
  | .doubleHash => "##"
  | .digraphLeftBracket => "["
  | .digraphRightBracket => "]"
  | .digraphLeftBrace => "{"
  | .digraphRightBrace => "}"
  | .digraphHash => "#"
  | .digraphDoubleHash => "##"

/-- The digit characters of `%o` and `%x`. -/
def digitByte (d : Nat) : UInt8 := UInt8.ofNat (if d < 10 then 48 + d else 87 + d)

/-- The digits of `%o` and `%x`, at most the given number of them. -/
def radixDigits : Nat → Nat → Nat → List UInt8
  | 0, _, _ => []
  | n + 1, base, v =>
    if v < base then [digitByte v] else radixDigits n base (v / base) ++ [digitByte (v % base)]

/-- `%x` of a 32-bit value. -/
def hexText (v : Nat) : List UInt8 := radixDigits 32 16 v

/-- `%03o` of a 32-bit value. -/
def octText (v : Nat) : List UInt8 :=
  let ds := radixDigits 32 8 v
  List.replicate (3 - ds.length) 48 ++ ds

/-- The cases of the switch of source/preprocessor/format.c:95-144 and 156-204. -/
def escapeText (v : Nat) : Option String :=
  if v = 0x27 then some "\\'"
  else if v = 0x22 then some "\\\""
  else if v = 0x3f then some "\\?"
  else if v = 0x5c then some "\\\\"
  else if v = 7 then some "\\a"
  else if v = 8 then some "\\b"
  else if v = 0xc then some "\\f"
  else if v = 0xa then some "\\n"
  else if v = 0xd then some "\\r"
  else if v = 9 then some "\\t"
  else if v = 0xb then some "\\v"
  else if v = 0 then some "\\0"
  else none

/-- source/preprocessor/format.c:94-153 `format_char`.  `char` is signed, so that a byte from 128 on is
passed to `%03o` as a negative `int`; `isprint` is taken to reject it. -/
def formatChar (b : UInt8) : List UInt8 :=
  match escapeText b.toNat with
  | some s => lit s
  | none =>
    if 0x20 ≤ b.toNat ∧ b.toNat ≤ 0x7e then [b]
    else lit "\\" ++ octText (if b.toNat < 128 then b.toNat else b.toNat + (2 ^ 32 - 256))

/-- source/preprocessor/format.c:155-214 `format_wchar`. -/
def formatWchar (l : Locale) (v : Nat) : List UInt8 :=
  match escapeText v with
  | some s => lit s
  | none =>
    match l.wide v with
    | some bs => bs
    | none => lit "\\x" ++ hexText v

/-- Reading a string as `char16_t`. -/
def units16 : List UInt8 → List Nat
  | a :: b :: r => (a.toNat + 256 * b.toNat) :: units16 r
  | _ => []

/-- Reading a string as `char32_t` or `wchar_t`. -/
def units32 : List UInt8 → List Nat
  | a :: b :: c :: d :: r =>
    (a.toNat + 256 * (b.toNat + 256 * (c.toNat + 256 * d.toNat))) :: units32 r
  | _ => []

/-- source/preprocessor/format.c:292-303: one element of a wide string literal. -/
def formatWideUnit (l : Locale) (v : Nat) : List UInt8 :=
  match l.wide v with
  | some bs => bs
  | none => lit "\\x" ++ hexText v

/-- source/preprocessor/format.c:262-308 `format_string_literal`.  The length recorded in the token
counts a terminator, which the model leaves out. -/
def formatString (l : Locale) : Mode → List UInt8 → List UInt8
  | .unicode8, bs => lit "u8" ++ (lit "\"" ++ (bs.flatMap formatChar ++ lit "\""))
  | .multibyte, bs => lit "\"" ++ (bs.flatMap formatChar ++ lit "\"")
  | .unicode16, bs =>
    lit "u\"" ++ ((units16 bs).flatMap (fun u => lit "\\x" ++ hexText u) ++ lit "\"")
  | .unicode32, bs =>
    lit "U\"" ++ ((units32 bs).flatMap (fun u => lit "\\x" ++ hexText u) ++ lit "\"")
  | .wide, bs => lit "L\"" ++ ((units32 bs).flatMap (formatWideUnit l) ++ lit "\"")

/-- source/preprocessor/format.c:216-260 `format_constant` and 310-365 `format_token`.  The character of
a constant is converted to `char`.  For a `char16_t` or `char32_t` constant the code prints the string in
a buffer that is not terminated; the model takes it to be.  Placemakers and extension tokens are not
modelled. -/
def formatToken (l : Locale) (ws : WsFormat) : Token → Res (List UInt8)
  | .sentinel => .ok []
  | .keyword _ => .error .invalidState
  | .identifier bs => .ok bs
  | .intConst _ _ => .error .invalidState
  | .floatConst _ _ => .error .invalidState
  | .charConst v => .ok (lit "'" ++ (formatChar (UInt8.ofNat v.toNat) ++ lit "'"))
  | .wideChar v => .ok (lit "'" ++ (formatWchar l v ++ lit "'"))
  | .unicode16Char v =>
    match l.c16 v with
    | some bs => .ok bs
    | none => .error .invalidState
  | .unicode32Char v =>
    match l.c32 v with
    | some bs => .ok bs
    | none => .error .invalidState
  | .string m bs => .ok (formatString l m bs)
  | .punct p => .ok (lit (punctText p))
  | .ppWhitespace nl => .ok (if nl = true ∧ ws = .original then lit "\n" else lit " ")
  | .ppNumber bs => .ok bs
  | .ppHeader sys bs => .ok (if sys then lit "<" ++ (bs ++ lit ">") else lit "\"" ++ (bs ++ lit "\""))

/-- source/preprocessor/format.c:367-376 `kefir_preprocessor_format`. -/
def format (l : Locale) (ws : WsFormat) : List Token → Res (List UInt8)
  | [] => .ok []
  | τ :: τs =>
    match formatToken l ws τ with
    | .error e => .error e
    | .ok a =>
      match format l ws τs with
      | .error e => .error e
      | .ok b => .ok (a ++ b)

/-- source/preprocessor/user_macro.c:93-125 `fn_macro_parameter_stringification`: the token made for
`#` and a parameter with these tokens, using source/preprocessor/format.c:378-410
`kefir_preprocessor_format_string`. -/
def stringify (l : Locale) (arg : List Token) : Res Token :=
  match format l .singleSpace arg with
  | .error e => .error e
  | .ok bs => .ok (.string .multibyte bs)

end Kefir.PpToken
