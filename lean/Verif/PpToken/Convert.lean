import Verif.PpToken.Format
import Verif.Lexer.CursorProps
/-!
# From preprocessing tokens to tokens (`source/preprocessor/convert.c`)

Translation phases 6 and 7: numbers become constants, identifiers may become keywords, adjacent string
literals are joined, whitespace is dropped.
-/

namespace Kefir.PpToken

open Kefir.Lexer

/-- The check `cursor.index == cursor.length` after a scan (source/preprocessor/convert.c:29-33, 44-48).
Simplification: the bytes of a token are taken to be decodable, so that the end of the decoded text is
the end of the string. -/
def wholeToken : Option (Res Token × Cursor) → Option (Res Token)
  | none => none
  | some (.error e, _) => some (.error e)
  | some (.ok τ, c) => if c.rest = [] then some (.ok τ) else some (.error .lexerError)

/-- source/preprocessor/convert.c:16-35: the case of numbers. -/
def convertNumber (cd : Codec) (bs : List UInt8) : Option (Res Token) :=
  let c := view cd (start bs)
  match scanFloat c with
  | some (.error .noMatch, _) => wholeToken (scanIntegral c)
  | r => wholeToken r

/-- source/preprocessor/convert.c:37-50: the case of identifiers. -/
def convertIdentifier (cd : Codec) (t : Tries) (bs : List UInt8) : Option (Res Token) :=
  wholeToken (scanIdentifier cd (some t.kws) (view cd (start bs)))

/-- source/preprocessor/convert.c:8-67 `kefir_preprocessor_token_convert`.  Placemakers and extension
tokens are not modelled. -/
def convertToken (cd : Codec) (t : Tries) : Token → Option (Res Token)
  | .ppNumber bs => convertNumber cd bs
  | .identifier bs => convertIdentifier cd t bs
  | .ppWhitespace _ => some (.error .invalidParameter)
  | .ppHeader _ _ => some (.error .invalidParameter)
  | τ => some (.ok τ)

/-! ## Joining string literals -/

/-- `c16rtomb` on successive code units: what the state keeps back, then the character that is complete,
if any; `none` if the call fails. -/
def c16Step : Option Nat → Nat → Option (Option Nat × Option Chr)
  | none, u =>
    if 0xD800 ≤ u ∧ u < 0xDC00 then some (some u, none)
    else if 0xDC00 ≤ u ∧ u < 0xE000 then none
    else some (none, some u)
  | some hi, u =>
    if 0xDC00 ≤ u ∧ u < 0xE000 then
      some (none, some (0x10000 + (hi - 0xD800) * 0x400 + (u - 0xDC00)))
    else none

/-- source/core/string_buffer.c:444-463, the case of unicode16 sources of `kefir_string_buffer_merge`;
`acc` is the destination, of mode `m`. -/
def merge16 (sc : StrCodec) (m : Mode) : Option Nat → List Nat → List UInt8 → Res (List UInt8)
  | _, [], acc => .ok acc
  | st, u :: us, acc =>
    match c16Step st u with
    | none => .error .invalidState
    | some (st', none) => merge16 sc m st' us acc
    | some (st', some c) =>
      match sc.cd.enc c with
      | none => .error .invalidState
      | some b =>
        match reencode sc m b acc with
        | (.error e, _) => .error e
        | (.ok (), acc) => merge16 sc m st' us acc

/-- source/core/string_buffer.c:465-470: the case of unicode32 sources. -/
def merge32 (sc : StrCodec) (m : Mode) : List Nat → List UInt8 → Res (List UInt8)
  | [], acc => .ok acc
  | u :: us, acc =>
    match sc.encode m u with
    | none => .error .invalidState
    | some b => merge32 sc m us (acc ++ b)

/-- source/core/string_buffer.c:472-487: the case of wide sources.  `wcrtomb` is taken to encode like
`c32rtomb`. -/
def mergeWide (sc : StrCodec) (m : Mode) : List Nat → List UInt8 → Res (List UInt8)
  | [], acc => .ok acc
  | u :: us, acc =>
    match sc.cd.enc u with
    | none => .error .invalidState
    | some b =>
      match reencode sc m b acc with
      | (.error e, _) => .error e
      | (.ok (), acc) => mergeWide sc m us acc

/-- source/core/string_buffer.c:431-490 `kefir_string_buffer_merge`, on the contents of the buffers
without terminators. -/
def mergeStrings (sc : StrCodec) (m m2 : Mode) (acc bs : List UInt8) : Res (List UInt8) :=
  match m2 with
  | .multibyte | .unicode8 =>
    match reencode sc m bs acc with
    | (.error e, _) => .error e
    | (.ok (), acc) => .ok acc
  | .unicode16 => merge16 sc m none (units16 bs) acc
  | .unicode32 => merge32 sc m (units32 bs) acc
  | .wide => mergeWide sc m (units32 bs) acc

/-- source/preprocessor/convert.c:101-167 `join_string_literals_impl`: mode and content of the joined
literal.  Memory does not run out. -/
def joinStrings (sc : StrCodec) (m1 m2 : Mode) (b1 b2 : List UInt8) : Res (Mode × List UInt8) :=
  let converted : Res Buf :=
    if m1 = .multibyte ∧ m1 ≠ m2 then
      match convertBuffer sc m2 ⟨m1, b1⟩ with
      | (.error e, _) => .error e
      | (.ok (), b) => .ok b
    else .ok ⟨m1, b1⟩
  match converted with
  | .error e => .error e
  | .ok b =>
    match mergeStrings sc b.mode m2 b.bytes b2 with
    | .error e => .error e
    | .ok bs => .ok (b.mode, bs)

/-- source/preprocessor/convert.c:169-218 `append_string_literal`.  The destination is in reverse order;
`none` is KEFIR_NO_MATCH. -/
def appendString (sc : StrCodec) (dst : List Token) (m2 : Mode) (b2 : List UInt8) :
    Option (Res (List Token)) :=
  match dst with
  | .string m1 b1 :: r =>
    if m1 = .multibyte ∨ m2 = .multibyte ∨ m1 = m2 then
      match joinStrings sc m1 m2 b1 b2 with
      | .error e => some (.error e)
      | .ok (m, bs) => some (.ok (.string m bs :: r))
    else none
  | _ => none

/-- source/preprocessor/convert.c:220-272 `kefir_preprocessor_token_convert_buffer`; the destination is
in reverse order. -/
def convertLoop (sc : StrCodec) (t : Tries) : List Token → List Token → Option (Res (List Token))
  | [], dst => some (.ok dst)
  | τ :: τs, dst =>
    match τ with
    | .ppWhitespace _ => convertLoop sc t τs dst
    | .ppHeader _ _ => some (.error .invalidParameter)
    | .string m bs =>
      match appendString sc dst m bs with
      | none => convertLoop sc t τs (.string m bs :: dst)
      | some (.error e) => some (.error e)
      | some (.ok dst) => convertLoop sc t τs dst
    | τ =>
      match convertToken sc.cd t τ with
      | none => none
      | some (.error e) => some (.error e)
      | some (.ok τ') => convertLoop sc t τs (τ' :: dst)

/-- `kefir_preprocessor_token_convert_buffer` into an empty buffer. -/
def convertTokens (sc : StrCodec) (t : Tries) (τs : List Token) : Option (Res (List Token)) :=
  match convertLoop sc t τs [] with
  | none => none
  | some (.error e) => some (.error e)
  | some (.ok dst) => some (.ok dst.reverse)

end Kefir.PpToken
