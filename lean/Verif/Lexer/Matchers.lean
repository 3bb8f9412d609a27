import Verif.Lexer.Monad
import Verif.Lexer.Chars
import Verif.Lexer.Tables
import Verif.Lexer.Trie
import Verif.Lexer.IntSpec
/-!
# Token matchers (`source/lexer/tokens/*.c`, `source/lexer/lexer.c`)

Simplifications common to all matchers: null-pointer checks and allocation failures are left out, no
lexer extensions are installed, and `lexer->context` is the default context
(source/lexer/context.c:25-36).
-/

namespace Kefir.Lexer

/-- Types of floating constants. -/
inductive FloatTy where
  | float | double | ldouble
  deriving DecidableEq, Repr

/-- String literal kinds (`kefir_string_buffer_mode_t`, `kefir_string_literal_token_type_t`). -/
inductive Mode where
  | multibyte | unicode8 | unicode16 | unicode32 | wide
  deriving DecidableEq, Repr

/-- headers/kefir/lexer/lexem.h:233-251 `struct kefir_token`, without the source location.  A floating
constant carries the text passed to `strtof`/`strtod`/`strtold` instead of their result
(and the buffer insertions of its characters, all of them basic characters, are taken to succeed).  An
identifier carries the bytes of its (null-terminated) name.  A string literal carries the bytes of the
buffer without the terminator. -/
inductive Token where
  | sentinel
  | identifier (name : List UInt8)
  | keyword (k : Keyword)
  | punct (p : Punct)
  | intConst (t : IntTy) (v : Nat)
  | floatConst (t : FloatTy) (literal : List Chr)
  | charConst (v : BitVec 32)
  | wideChar (v : Nat)
  | unicode16Char (v : Nat)
  | unicode32Char (v : Nat)
  | string (m : Mode) (bytes : List UInt8)
  | ppNumber (bytes : List UInt8)
  | ppHeader (system : Bool) (bytes : List UInt8)
  | ppWhitespace (newline : Bool)
  deriving DecidableEq, Repr

/-! ## Whitespace -/

/-- source/lexer/tokens/whitespace.c:27 `enum whitespace_match`, ordered by `MAX`. -/
inductive WsMatch where
  | noMatch | blank | newline
  deriving DecidableEq, Repr

def WsMatch.max : WsMatch → WsMatch → WsMatch
  | .newline, _ => .newline
  | _, .newline => .newline
  | .blank, _ => .blank
  | _, .blank => .blank
  | .noMatch, .noMatch => .noMatch

/-- source/lexer/tokens/whitespace.c:29-41 `skip_whitespaces`. -/
def skipWhitespaces (m : WsMatch) : Lex WsMatch := do
  let chr ← peek 0
  if isspace chr then do
    let m := if chr = ch '\n' then m.max .newline else m.max .blank
    skip 1
    pure m
  else pure m

/-- source/lexer/tokens/whitespace.c:48-51: the loop of `skip_multiline_comment`. -/
def blockCommentLoop : Lex Unit := do
  let c0 ← peek 0
  let c1 ← peek 1
  if ¬ (c0 = ch '*' ∧ c1 = ch '/') ∧ c0 ≠ 0 then do
    skip 1
    blockCommentLoop
  else pure ()
partial_fixpoint

/-- source/lexer/tokens/whitespace.c:43-57 `skip_multiline_comment`. -/
def skipMultilineComment (m : WsMatch) : Lex WsMatch := do
  let c0 ← peek 0
  let c1 ← peek 1
  if c0 = ch '/' ∧ c1 = ch '*' then do
    skip 2
    blockCommentLoop
    let c0 ← peek 0
    let c1 ← peek 1
    if c0 = ch '*' ∧ c1 = ch '/' then do
      skip 2
      pure (m.max .blank)
    else fail .lexerError
  else pure m

/-- source/lexer/tokens/whitespace.c:65-68: the loop of `skip_oneline_comment`. -/
def lineCommentLoop : Lex Unit := do
  let c0 ← peek 0
  if c0 ≠ ch '\n' ∧ c0 ≠ 0 then do
    skip 1
    lineCommentLoop
  else pure ()
partial_fixpoint

/-- source/lexer/tokens/whitespace.c:59-76 `skip_oneline_comment`. -/
def skipOnelineComment (m : WsMatch) : Lex WsMatch := do
  let c0 ← peek 0
  let c1 ← peek 1
  if c0 = ch '/' ∧ c1 = ch '/' then do
    skip 2
    lineCommentLoop
    let c0 ← peek 0
    if c0 = ch '\n' then do
      skip 1
      pure ((m.max .blank).max .newline)
    else pure (m.max .blank)
  else pure m

/-- One round of the loop of `kefir_lexer_cursor_match_whitespace`
(source/lexer/tokens/whitespace.c:87-90). -/
def whitespaceRound : Lex WsMatch := do
  let m ← skipWhitespaces .noMatch
  let m ← skipMultilineComment m
  skipOnelineComment m

/-- source/lexer/tokens/whitespace.c:78-101 `kefir_lexer_cursor_match_whitespace` with no token. -/
def skipWhitespace : Lex Unit := do
  let m ← whitespaceRound
  if m ≠ .noMatch then skipWhitespace else pure ()
partial_fixpoint

/-- `kefir_lexer_cursor_match_whitespace` with a token: one round only. -/
def matchWhitespace : Lex Token := do
  let m ← whitespaceRound
  if m = .noMatch then fail .noMatch else pure (.ppWhitespace (m = .newline))

/-! ## Escape sequences -/

/-- source/lexer/tokens/characters.c:15-49 `kefir_lexer_cursor_next_universal_character`. -/
def nextUniversal : Lex Chr := do
  let c0 ← peek 0
  let c1 ← peek 1
  if c0 = ch '\\' ∧ c1 = ch 'u' then do
    let h1 ← peek 2
    let h2 ← peek 3
    let h3 ← peek 4
    let h4 ← peek 5
    if ishexdigit h1 && ishexdigit h2 && ishexdigit h3 && ishexdigit h4 then do
      skip 6
      pure (hex32todec h4 ||| (hex32todec h3 <<< 4) ||| (hex32todec h2 <<< 8) |||
        (hex32todec h1 <<< 12))
    else fail .lexerError
  else if c0 = ch '\\' ∧ c1 = ch 'U' then do
    let h1 ← peek 2
    let h2 ← peek 3
    let h3 ← peek 4
    let h4 ← peek 5
    let h5 ← peek 6
    let h6 ← peek 7
    let h7 ← peek 8
    let h8 ← peek 9
    if ishexdigit h1 && ishexdigit h2 && ishexdigit h3 && ishexdigit h4 && ishexdigit h5 &&
        ishexdigit h6 && ishexdigit h7 && ishexdigit h8 then do
      skip 10
      pure (hex32todec h8 ||| (hex32todec h7 <<< 4) ||| (hex32todec h6 <<< 8) |||
        (hex32todec h5 <<< 12) ||| (hex32todec h4 <<< 16) ||| (hex32todec h3 <<< 20) |||
        (hex32todec h2 <<< 24) ||| (hex32todec h1 <<< 28))
    else fail .lexerError
  else fail .noMatch

/-- The table of source/lexer/tokens/characters.c:51-112 `next_simple_escape_sequence`. -/
def simpleEscape (c : Chr) : Option Chr :=
  if c = ch '\'' then some (ch '\'')
  else if c = ch '\"' then some (ch '\"')
  else if c = ch '?' then some (ch '?')
  else if c = ch '\\' then some (ch '\\')
  else if c = ch 'a' then some 7
  else if c = ch 'b' then some 8
  else if c = ch 'f' then some 12
  else if c = ch 'n' then some 10
  else if c = ch 'r' then some 13
  else if c = ch 't' then some 9
  else if c = ch 'v' then some 11
  else none

/-- source/lexer/tokens/characters.c:51-112 `next_simple_escape_sequence`. -/
def nextSimpleEscape : Lex Chr := do
  let c1 ← peek 1
  match simpleEscape c1 with
  | some r => do
    skip 2
    pure r
  | none => fail .noMatch

/-- source/lexer/tokens/characters.c:114-132 `next_octal_escape_sequence`. -/
def nextOctalEscape : Lex Chr := do
  let c1 ← peek 1
  let c2 ← peek 2
  let c3 ← peek 3
  if isoctdigit c1 && isoctdigit c2 && isoctdigit c3 then do
    skip 4
    pure ((octToDigit c1 <<< 6) ||| (octToDigit c2 <<< 3) ||| octToDigit c3)
  else if isoctdigit c1 && isoctdigit c2 then do
    skip 3
    pure ((octToDigit c1 <<< 3) ||| octToDigit c2)
  else if isoctdigit c1 then do
    skip 2
    pure (octToDigit c1)
  else fail .noMatch

/-- source/lexer/tokens/characters.c:145-148: one step of the loop, in 32-bit arithmetic. -/
def hexStep32 (acc : Chr) (c : Chr) : Chr := (acc * 16 + hex32todec c) % 2 ^ 32

/-- source/lexer/tokens/characters.c:134-150 `next_hexadecimal_escape_sequence`. -/
def nextHexEscape : Lex Chr := do
  let c1 ← peek 1
  if c1 = ch 'x' then do
    skip 2
    let chr ← peek 0
    if ishexdigit chr then scanWhile ishexdigit hexStep32 0 else fail .lexerError
  else fail .noMatch

/-- source/lexer/tokens/characters.c:152-167 `kefir_lexer_cursor_next_escape_sequence`. -/
def nextEscape : Lex Chr := do
  let c0 ← peek 0
  if c0 = ch '\\' then
    orElse nextSimpleEscape (orElse nextOctalEscape (orElse nextHexEscape nextUniversal))
  else fail .noMatch

/-! ## Integer constants -/

/-- source/lexer/tokens/integer_constant.c:35-97 `get_permitted_constant_types`. -/
def permittedTypes (t : IntTy) (decimal : Bool) : List IntTy :=
  match t with
  | .int => if decimal then [.int, .long, .llong] else [.int, .uint, .long, .ulong, .llong, .ullong]
  | .uint => [.uint, .ulong, .ullong]
  | .long => if decimal then [.long, .llong] else [.long, .ulong, .llong, .ullong]
  | .ulong => [.ulong, .ullong]
  | .llong => if decimal then [.llong] else [.llong, .ullong]
  | .ullong => [.ullong]

/-- source/lexer/context.c:25-36 `kefir_lexer_context_default`: the largest value of each type. -/
def maxValue : IntTy → Nat
  | .int => 2 ^ 31 - 1
  | .uint => 2 ^ 32 - 1
  | .long => 2 ^ 63 - 1
  | .ulong => 2 ^ 64 - 1
  | .llong => 2 ^ 63 - 1
  | .ullong => 2 ^ 64 - 1

/-- source/lexer/tokens/integer_constant.c:99-139 `make_integral_constant`. -/
def makeIntegral (t : IntTy) (v : Nat) : Res Token :=
  if v ≤ maxValue t then .ok (.intConst t v) else .error .noMatch

/-- source/lexer/tokens/integer_constant.c:141-156 `build_integral_constant`: the loop. -/
def firstFitting (v : Nat) : List IntTy → Res Token
  | [] => .error .outOfBounds
  | t :: ts =>
    match makeIntegral t v with
    | .ok tok => .ok tok
    | .error .noMatch => firstFitting v ts
    | .error e => .error e

/-- source/lexer/tokens/integer_constant.c:141-156 `build_integral_constant`. -/
def buildIntegral (t : IntTy) (decimal : Bool) (v : Nat) : Lex Token := fun c =>
  some (firstFitting v (permittedTypes t decimal), c)

/-- source/lexer/tokens/integer_constant.c:166-167: one step, in 64-bit arithmetic. -/
def decStep (acc : Nat) (c : Chr) : Nat := (acc * 10 + (c - ch '0')) % 2 ^ 64

/-- source/lexer/tokens/integer_constant.c:183-184: one step, in 64-bit arithmetic. -/
def hexStep (acc : Nat) (c : Chr) : Nat := (acc * 16 + hex32todec c) % 2 ^ 64

/-- source/lexer/tokens/integer_constant.c:196-197: one step, in 64-bit arithmetic. -/
def octStep (acc : Nat) (c : Chr) : Nat := (acc * 8 + (c - ch '0')) % 2 ^ 64

/-- source/lexer/tokens/integer_constant.c:158-170 `next_decimal_constant`. -/
def nextDecimal : Lex Nat := do
  let chr ← peek 0
  if isdigit chr ∧ chr ≠ ch '0' then scanWhile isdigit decStep 0 else fail .noMatch

/-- source/lexer/tokens/integer_constant.c:172-187 `next_hexadecimal_constant`. -/
def nextHexadecimal : Lex Nat := do
  let c0 ← peek 0
  let c1 ← peek 1
  let c2 ← peek 2
  if c0 = ch '0' ∧ (c1 = ch 'x' ∨ c1 = ch 'X') ∧ ishexdigit c2 then do
    skip 2
    scanWhile ishexdigit hexStep 0
  else fail .noMatch

/-- source/lexer/tokens/integer_constant.c:189-200 `next_octal_constant`. -/
def nextOctal : Lex Nat := do
  let chr ← peek 0
  if chr = ch '0' then scanWhile isoctdigit octStep 0 else fail .noMatch

/-- source/lexer/tokens/integer_constant.c:205-231 `SUFFIXES`. -/
def suffixes : List (List Chr × IntTy) := [
  (str "uLL", .ullong), (str "ull", .ullong), (str "LLu", .ullong), (str "llu", .ullong),
  (str "ULL", .ullong), (str "Ull", .ullong), (str "LLU", .ullong), (str "llU", .ullong),
  (str "uL", .ulong), (str "ul", .ulong), (str "Lu", .ulong), (str "lu", .ulong),
  (str "UL", .ulong), (str "Ul", .ulong), (str "LU", .ulong), (str "lU", .ulong),
  (str "u", .uint), (str "U", .uint),
  (str "LL", .llong), (str "ll", .llong),
  (str "L", .long), (str "l", .long)]

/-- source/lexer/source_cursor.c:172-183 `kefir_lexer_cursor_match_string`. -/
def matchString (s : List Chr) (i : Nat := 0) : Lex Bool :=
  match s with
  | [] => pure true
  | x :: s => do
    let c ← peek i
    if c ≠ x then pure false else matchString s (i + 1)

/-- source/lexer/tokens/integer_constant.c:234-244: the search for a suffix. -/
def findSuffix : List (List Chr × IntTy) → Lex (Option IntTy)
  | [] => pure none
  | (s, t) :: r => do
    let m ← matchString s
    if m then do
      skip s.length
      pure (some t)
    else findSuffix r

/-- source/lexer/tokens/integer_constant.c:202-252 `scan_suffix`. -/
def scanSuffix (decimal : Bool) (v : Nat) : Lex Token := do
  let s ← findSuffix suffixes
  match s with
  | none => buildIntegral .int decimal v
  | some t => buildIntegral t decimal v

/-- source/lexer/tokens/integer_constant.c:254-277 `kefir_lexer_scan_integral_constant`. -/
def scanIntegral : Lex Token := do
  let (decimal, v) ← orElse (do let v ← nextDecimal; pure (true, v))
    (orElse (do let v ← nextHexadecimal; pure (false, v)) (do let v ← nextOctal; pure (false, v)))
  scanSuffix decimal v

/-! ## Floating constants -/

/-- Appending to the literal text. -/
def push (acc : List Chr) (c : Chr) : List Chr := acc ++ [c]

/-- source/lexer/tokens/floating_constant.c:28-57 `match_fractional_part` (`isd` = digit test,
`ise` = exponent character test) and 152-180 `match_hexadecimal_fractional_part`: the same code with
other character classes.  Returns the literal text so far. -/
def matchFractional (isd ise : Chr → Bool) (lit : List Chr) : Lex (List Chr) := do
  let ds ← scanWhile isd push []
  let chr ← peek 0
  if chr = ch '.' then do
    skip 1
    let fs ← scanWhile isd push []
    if ds.length > 0 ∨ fs.length > 0 then pure (lit ++ ds ++ [chr] ++ fs) else fail .noMatch
  else if ds.length > 0 ∧ ise chr then pure (lit ++ ds)
  else fail .noMatch

/-- source/lexer/tokens/floating_constant.c:59-81 `match_exponent` and 182-204
`match_hexadecimal_exponent` (the same code with `p` instead of `e`). -/
def matchExponent (ise : Chr → Bool) (lit : List Chr) : Lex (List Chr) := do
  let chr ← peek 0
  if ise chr then do
    skip 1
    let sgn ← peek 0
    let lit := lit ++ [chr]
    let lit ← (if sgn = ch '+' ∨ sgn = ch '-' then do
      skip 1
      pure (lit ++ [sgn])
      else pure lit)
    let ds ← scanWhile isdigit push []
    if ds.length > 0 then pure (lit ++ ds) else fail .lexerError
  else pure lit

/-- source/lexer/tokens/floating_constant.c:85-106 `match_suffix`. -/
def matchFloatSuffix : Lex FloatTy := do
  let chr ← peek 0
  if chr = ch 'l' ∨ chr = ch 'L' then do
    skip 1
    pure .ldouble
  else if chr = ch 'f' ∨ chr = ch 'F' then do
    skip 1
    pure .float
  else pure .double

def isDecExp (c : Chr) : Bool := c = ch 'e' || c = ch 'E'
def isHexExp (c : Chr) : Bool := c = ch 'p' || c = ch 'P'

/-- source/lexer/tokens/floating_constant.c:108-150 `match_decimal_impl`,
`match_decimal_floating_constant`. -/
def matchDecimalFloat : Lex Token := do
  let lit ← matchFractional isdigit isDecExp []
  let lit ← matchExponent isDecExp lit
  let t ← matchFloatSuffix
  pure (.floatConst t lit)

/-- source/lexer/tokens/floating_constant.c:206-256 `match_hexadecimal_impl`,
`match_hexadecimal_floating_constant`. -/
def matchHexFloat : Lex Token := do
  let c0 ← peek 0
  let c1 ← peek 1
  if c0 = ch '0' ∧ (c1 = ch 'x' ∨ c1 = ch 'X') then do
    skip 2
    let lit ← matchFractional ishexdigit isHexExp [c0, c1]
    let lit ← matchExponent isHexExp lit
    let t ← matchFloatSuffix
    pure (.floatConst t lit)
  else fail .noMatch

/-- source/lexer/tokens/floating_constant.c:258-268 `kefir_lexer_scan_floating_point_constant`. -/
def scanFloat : Lex Token := orElse matchHexFloat matchDecimalFloat

/-! ## Character constants -/

/-- Sign extension of a byte: `*value += *iter` with `char` signed. -/
def byteSext (b : UInt8) : BitVec 32 := (BitVec.ofNat 8 b.toNat).signExtend 32

/-- source/lexer/tokens/character_constant.c:56-61: folding the bytes of a character into the value.
Simplification: `kefir_int_t` arithmetic wraps (it overflows only in constants of more than four
bytes, where the C code has undefined behaviour). -/
def foldBytes (v : BitVec 32) (bs : List UInt8) : BitVec 32 :=
  bs.foldl (fun v b => (v <<< 8) + byteSext b) v

/-- source/lexer/tokens/character_constant.c:27-64 `next_character`. -/
def nextCharacter (cd : Codec) (v : BitVec 32) : Lex (BitVec 32 × Bool) := do
  let chr ← peek 0
  let nextChr ← peek 1
  if chr = ch '\\' then do
    let raw := nextChr = ch 'x' ∨ isoctdigit nextChr ∨ ishexdigit nextChr
    let e ← nextEscape
    if raw then
      if e ≤ 255 then pure (foldBytes v [UInt8.ofNat e], true) else fail .lexerError
    else
      match cd.enc e with
      | some bs => pure (foldBytes v bs, true)
      | none => fail .lexerError
  else if chr = ch '\'' then pure (v, false)
  else do
    skip 1
    match cd.enc chr with
    | some bs => pure (foldBytes v bs, true)
    | none => fail .lexerError

/-- source/lexer/tokens/character_constant.c:90-92: the loop. -/
def narrowLoop (cd : Codec) (v : BitVec 32) : Lex (BitVec 32) := do
  let r ← nextCharacter cd v
  if r.2 then narrowLoop cd r.1 else pure r.1
partial_fixpoint

/-- source/lexer/tokens/character_constant.c:81-99 `match_narrow_character`. -/
def matchNarrowChar (cd : Codec) : Lex Token := do
  let c0 ← peek 0
  if c0 = ch '\'' then do
    skip 1
    let chr ← peek 0
    if chr ≠ ch '\'' then do
      let v ← narrowLoop cd 0
      let chr ← peek 0
      if chr = ch '\'' then do
        skip 1
        pure (.charConst v)
      else fail .lexerError
    else fail .lexerError
  else fail .noMatch

/-- source/lexer/tokens/character_constant.c:65-79 `next_wide_character`. -/
def nextWideCharacter (v : Chr) : Lex (Chr × Bool) := do
  let chr ← peek 0
  if chr = ch '\\' then do
    let e ← nextEscape
    pure (e, true)
  else if chr = ch '\'' then pure (v, false)
  else do
    skip 1
    pure (chr, true)

/-- source/lexer/tokens/character_constant.c:105-107: the loop. -/
def wideLoop (v : Chr) : Lex Chr := do
  let r ← nextWideCharacter v
  if r.2 then wideLoop r.1 else pure r.1
partial_fixpoint

/-- source/lexer/tokens/character_constant.c:101-113 `scan_wide_character`. -/
def scanWideChar : Lex Chr := do
  let chr ← peek 0
  if chr ≠ ch '\'' then do
    let v ← wideLoop 0
    let chr ← peek 0
    if chr = ch '\'' then do
      skip 1
      pure v
    else fail .lexerError
  else fail .lexerError

/-- source/lexer/tokens/character_constant.c:115-152 `match_wide_character`,
`match_unicode16_character`, `match_unicode32_character` (the same code for the prefixes `L`, `u`,
`U`; the last step narrows the value to the type).  The value of an `L` constant is given as an unsigned
32-bit number. -/
def matchPrefixedChar (pre : Chr) (mk : Chr → Token) : Lex Token := do
  let c0 ← peek 0
  let c1 ← peek 1
  if c0 = pre ∧ c1 = ch '\'' then do
    skip 2
    let v ← scanWideChar
    pure (mk v)
  else fail .noMatch

/-- source/lexer/tokens/character_constant.c:154-169 `match_impl`. -/
def scanCharConst (cd : Codec) : Lex Token :=
  orElse (matchNarrowChar cd)
    (orElse (matchPrefixedChar (ch 'L') .wideChar)
      (orElse (matchPrefixedChar (ch 'u') fun v => .unicode16Char (v % 2 ^ 16))
        (orElse (matchPrefixedChar (ch 'U') .unicode32Char) (fail .noMatch))))

/-! ## Identifiers and keywords -/

/-- source/lexer/tokens/identifier.c:29-38 `scan_identifier_nondigit`. -/
def scanNondigit : Lex Chr := do
  let chr ← peek 0
  if isnondigit chr then do
    skip 1
    pure chr
  else nextUniversal

/-- source/lexer/tokens/identifier.c:40-49 `scan_identifier_digit`. -/
def scanIdDigit : Lex Chr := do
  let chr ← peek 0
  if isdigit chr then do
    skip 1
    pure chr
  else scanNondigit

/-- source/lexer/tokens/identifier.c:67-80: the loop; the array has room for 255 characters. -/
def identifierLoop (id : List Chr) : Lex (List Chr) := do
  let r ← attempt scanIdDigit
  match r with
  | .error .noMatch => pure id
  | .error e => fail e
  | .ok chr => if id.length < 255 then identifierLoop (id ++ [chr]) else fail .lexerError
partial_fixpoint

/-- source/lexer/tokens/keyword.c:121-133 `match_keyword`. -/
def matchKeyword {V : Type} : List Chr → Trie V → Res V
  | [], t =>
    match t.value with
    | some v => .ok v
    | none => .error .notFound
  | k :: s, t =>
    match Trie.findChild k t.children with
    | some t' => matchKeyword s t'
    | none => .error .notFound

/-- `c32rtomb` over the characters of an identifier (source/lexer/tokens/identifier.c:85-93). -/
def encodeAll (cd : Codec) : List Chr → Option (List UInt8)
  | [] => some []
  | c :: r =>
    match cd.enc c, encodeAll cd r with
    | some b, some bs => some (b ++ bs)
    | _, _ => none

/-- A C string ends at the first null: what `identifier` holds as a string. -/
def cstr (l : List Chr) : List Chr := l.takeWhile (· ≠ 0)

/-- source/lexer/tokens/identifier.c:56-100 `kefir_lexer_scan_identifier_or_keyword`; `kws` is the
keyword trie, or `none`.  All characters and the terminator are encoded; the name is the C string in
the buffer, the part before the first null byte. -/
def scanIdentifier (cd : Codec) (kws : Option (Trie Keyword)) : Lex Token := do
  let c ← scanNondigit
  let id ← identifierLoop [c]
  let kw : Res Keyword := match kws with
    | some t => matchKeyword (cstr id) t
    | none => .error .notFound
  match kw with
  | .ok k => pure (.keyword k)
  | .error _ =>
    match encodeAll cd (id ++ [0]) with
    | some bs => pure (.identifier (bs.takeWhile (· ≠ 0)))
    | none => fail .invalidState

/-! ## Punctuators -/

/-- source/lexer/tokens/punctuator.c:128-142 `match_punctuator`. -/
def walkPunct {V : Type} (t : Trie V) : Lex V := do
  let chr ← peek 0
  match Trie.findChild chr t.children with
  | none => fail .notFound
  | some t' => do
    skip 1
    let r ← attempt (walkPunct t')
    match r with
    | .ok v => pure v
    | .error .notFound =>
      match t'.value with
      | some v => pure v
      | none => fail .noMatch
    | .error e => fail e
partial_fixpoint

/-- source/lexer/tokens/punctuator.c:144-156 `match_impl`. -/
def scanPunctuator (t : Trie Punct) : Lex Token := do
  let r ← attempt (walkPunct t)
  match r with
  | .ok p => pure (.punct p)
  | .error .notFound => fail .noMatch
  | .error e => fail e

/-! ## String literals -/

/-- The bytes `kefir_string_buffer_insert` appends for a character (source/core/string_buffer.c:147-318);
see `Verif.StrBuf` for the buffer itself. -/
structure StrCodec where
  cd : Codec
  /-- `c32rtomb` followed by `mbrtoc16` until the bytes are used up -/
  enc16 : Chr → Option (List UInt8)
  /-- `c32rtomb` followed by `mbtowc` until the bytes are used up -/
  encWide : Chr → Option (List UInt8)

/-- The `n` bytes of a little-endian number. -/
def leBytes : Nat → Nat → List UInt8
  | 0, _ => []
  | n + 1, v => UInt8.ofNat (v % 256) :: leBytes n (v / 256)

def StrCodec.encode (sc : StrCodec) : Mode → Chr → Option (List UInt8)
  | .multibyte, c => sc.cd.enc c
  | .unicode8, c => sc.cd.enc c
  | .unicode16, c => sc.enc16 c
  | .unicode32, c => some (leBytes 4 c)
  | .wide, c => sc.encWide c

/-- source/core/string_buffer.c:320-365 `kefir_string_buffer_insert_raw`: the bytes appended, or
`none` for KEFIR_OUT_OF_BOUNDS. -/
def rawBytes : Mode → Chr → Option (List UInt8)
  | .multibyte, c => if c ≤ 255 then some (leBytes 1 c) else none
  | .unicode8, c => if c ≤ 255 then some (leBytes 1 c) else none
  | .unicode16, c => if c ≤ 2 ^ 16 - 1 then some (leBytes 2 c) else none
  | .unicode32, c => if c ≤ 2 ^ 32 - 1 then some (leBytes 4 c) else none
  | .wide, c => if c ≤ 2 ^ 31 - 1 then some (leBytes 4 c) else none

/-- source/lexer/tokens/string_literal/impl.c:43-75: the loop of
`kefir_lexer_next_string_literal_impl`; `bs` is the buffer.  The cursor and the buffer are both
changed by a call that fails, so the loop returns the buffer with the error code. -/
def literalLoop (sc : StrCodec) (m : Mode) (bs : List UInt8) : Lex (Res Unit × List UInt8) := do
  let chr ← peek 0
  if chr = ch '\"' then do
    let r ← attempt (skip 1)
    pure (r, bs)
  else if chr = 0 then pure (.error .lexerError, bs)
  else if chr = ch '\n' then pure (.error .lexerError, bs)
  else if chr = ch '\\' then do
    let nextChr ← peek 1
    let raw := nextChr = ch 'x' ∨ isoctdigit nextChr ∨ ishexdigit nextChr
    let r ← attempt nextEscape
    match r with
    | .error e => pure (.error e, bs)
    | .ok v =>
      if raw then
        match rawBytes m v with
        | some b => literalLoop sc m (bs ++ b)
        | none => pure (.error .lexerError, bs)
      else
        match sc.encode m v with
        | some b => literalLoop sc m (bs ++ b)
        | none => pure (.error .invalidState, bs)
  else
    match sc.encode m chr with
    | none => pure (.error .invalidState, bs)
    | some b => do
      let r ← attempt (skip 1)
      match r with
      | .error e => pure (.error e, bs ++ b)
      | .ok () => literalLoop sc m (bs ++ b)
partial_fixpoint

/-- source/lexer/tokens/string_literal/impl.c:27-77 `kefir_lexer_next_string_literal_impl`. -/
def nextLiteral (sc : StrCodec) (m : Mode) (pre : List Chr) (bs : List UInt8) :
    Lex (Res Unit × List UInt8) := do
  let ok ← matchString pre
  if ok then do
    let r ← attempt (skip pre.length)
    match r with
    | .error e => pure (.error e, bs)
    | .ok () => literalLoop sc m bs
  else pure (.error .noMatch, bs)

/-- source/lexer/tokens/string_literal/impl.c:90-101: the loop over adjacent literals. -/
def adjacentLoop (sc : StrCodec) (m : Mode) (pre : List Chr) (bs : List UInt8) :
    Lex (Res Unit × List UInt8) := do
  let w ← attempt skipWhitespace
  match w with
  | .error e => pure (.error e, bs)
  | .ok () => do
    let r ← nextLiteral sc m pre bs
    match r with
    | (.ok (), bs) => adjacentLoop sc m pre bs
    | (.error .noMatch, bs) => do
      let r ← nextLiteral sc m (str "\"") bs
      match r with
      | (.ok (), bs) => adjacentLoop sc m pre bs
      | (.error .noMatch, bs) => pure (.ok (), bs)
      | (.error e, bs) => pure (.error e, bs)
    | (.error e, bs) => pure (.error e, bs)
partial_fixpoint

/-- source/lexer/tokens/string_literal/impl.c:79-103 `kefir_lexer_next_string_literal_sequence_impl`. -/
def literalSequence (sc : StrCodec) (m : Mode) (pre : List Chr) (bs : List UInt8) (merge : Bool) :
    Lex (Res Unit × List UInt8) := do
  let r ← nextLiteral sc m pre bs
  match r with
  | (.error e, bs) => pure (.error e, bs)
  | (.ok (), bs) => if merge then adjacentLoop sc m pre bs else pure (.ok (), bs)

/-- source/core/string_buffer.c:367-390 `insert_multibyte`: decoding a multibyte buffer and inserting
the characters into a buffer of another mode, which holds `acc`. -/
def reencode (sc : StrCodec) (m : Mode) (bs : List UInt8) (acc : List UInt8) :
    Res Unit × List UInt8 :=
  match bs with
  | [] => (.ok (), acc)
  | b :: r =>
    match _h : sc.cd.dec (b :: r) with
    | .bad => (.error .invalidState, acc)
    | .nul =>
      match sc.encode m 0 with
      | some x => reencode sc m r (acc ++ x)
      | none => (.error .invalidState, acc)
    | .chr c n =>
      match sc.encode m c with
      | some x => reencode sc m ((b :: r).drop n) (acc ++ x)
      | none => (.error .invalidState, acc)
termination_by bs.length
decreasing_by
  · simp
  · have := sc.cd.dec_chr _h
    simp only [List.length_drop]
    omega

/-- A string buffer: mode and bytes (without the terminator). -/
structure Buf where
  mode : Mode
  bytes : List UInt8

/-- The size of a character in a buffer (source/core/string_buffer.c:88-113
`kefir_string_buffer_value` divides the length by it). -/
def Mode.unit : Mode → Nat
  | .multibyte => 1
  | .unicode8 => 1
  | .unicode16 => 2
  | .unicode32 => 4
  | .wide => 4

/-- source/core/string_buffer.c:392-429 `kefir_string_buffer_convert`. -/
def convertBuffer (sc : StrCodec) (m : Mode) (b : Buf) : Res Unit × Buf :=
  if b.mode ≠ .multibyte then (.error .invalidParameter, b)
  else
    match m with
    | .multibyte => (.ok (), b)
    | .unicode8 => (.ok (), ⟨.unicode8, b.bytes⟩)
    | m => ((reencode sc m b.bytes []).1, ⟨m, (reencode sc m b.bytes []).2⟩)

/-- source/lexer/tokens/string_literal/narrow.c:28-35 `try_convert_string`. -/
def tryConvert (sc : StrCodec) (m : Mode) (pre : List Chr) (b : Buf) : Lex (Res Unit × Buf) := do
  let ok ← matchString pre
  if ok then
    match convertBuffer sc m b with
    | (.error e, b') => pure (.error e, b')
    | (.ok (), b') => do
      let r ← literalSequence sc m pre b'.bytes true
      pure (r.1, ⟨b'.mode, r.2⟩)
  else pure (.error .noMatch, b)

/-- source/lexer/tokens/string_literal/narrow.c:44-83: the four attempts, in order.  At the end the
buffer is made a multibyte literal whatever its mode is; the number of bytes copied is the number of
characters in it and one more for the terminator, which the model leaves out. -/
def narrowTail (sc : StrCodec) (b : Buf) : List (List Chr × Mode) → Lex Token
  | [] => pure (.string .multibyte (b.bytes.take (b.bytes.length / b.mode.unit)))
  | (pre, m) :: r => do
    let x ← tryConvert sc m pre b
    match x with
    | (.ok (), b') => pure (.string m b'.bytes)
    | (.error .noMatch, b') => narrowTail sc b' r
    | (.error e, _) => fail e

/-- source/lexer/tokens/string_literal/narrow.c:37-110 `next_string_literal`,
`kefir_lexer_next_narrow_string_literal`. -/
def narrowString (sc : StrCodec) (merge : Bool) : Lex Token := do
  let c0 ← peek 0
  if c0 = ch '\"' then do
    let r ← literalSequence sc .multibyte (str "\"") [] merge
    match r with
    | (.error e, _) => fail e
    | (.ok (), bs) =>
      if merge then
        narrowTail sc ⟨.multibyte, bs⟩ [(str "u8\"", .unicode8), (str "u\"", .unicode16),
          (str "U\"", .unicode32), (str "L\"", .wide)]
      else pure (.string .multibyte bs)
  else fail .noMatch

/-- source/lexer/tokens/string_literal/wide.c:28-58 `kefir_lexer_next_wide_string_literal`, and the same
code in unicode8.c, unicode16.c and unicode32.c: a literal with a prefix. -/
def prefixedString (sc : StrCodec) (pre : List Chr) (m : Mode) (merge : Bool) : Lex Token := do
  let ok ← matchString pre
  if ok then do
    let r ← literalSequence sc m pre [] merge
    match r with
    | (.error e, _) => fail e
    | (.ok (), bs) => pure (.string m bs)
  else fail .noMatch

/-- source/lexer/tokens/string_literal/string_literal.c:30-47 `match_impl`. -/
def scanString (sc : StrCodec) (merge : Bool) : Lex Token :=
  orElse (narrowString sc merge)
    (orElse (prefixedString sc (str "u8\"") .unicode8 merge)
      (orElse (prefixedString sc (str "u\"") .unicode16 merge)
        (orElse (prefixedString sc (str "U\"") .unicode32 merge)
          (orElse (prefixedString sc (str "L\"") .wide merge) (fail .noMatch)))))

/-! ## The lexer -/

/-- source/lexer/lexer.c:28-55 `kefir_lexer_init`: the tries. -/
structure Tries where
  puncts : Trie Punct
  kws : Trie Keyword

/-- `kefir_lexer_match_integer_constant`, integer_constant.c:289-297. -/
def matchInteger : Lex Token := apply scanIntegral
/-- `kefir_lexer_match_floating_constant`, floating_constant.c:280-288. -/
def matchFloat : Lex Token := apply scanFloat
/-- `kefir_lexer_match_character_constant`, character_constant.c:171-179. -/
def matchChar (cd : Codec) : Lex Token := apply (scanCharConst cd)
/-- `kefir_lexer_match_constant`, constant.c:25-47. -/
def matchConstant (cd : Codec) : Lex Token :=
  apply (orElse matchFloat (orElse matchInteger (orElse (matchChar cd) (fail .noMatch))))
/-- `kefir_lexer_match_string_literal`, string_literal.c:49-58. -/
def matchStringLiteral (sc : StrCodec) (merge : Bool) : Lex Token := apply (scanString sc merge)
/-- `kefir_lexer_match_identifier_or_keyword`, identifier.c:102-122. -/
def matchIdentifierOrKeyword (cd : Codec) (t : Tries) : Lex Token :=
  apply (scanIdentifier cd (some t.kws))
/-- `kefir_lexer_match_identifier`, identifier.c:124-133. -/
def matchIdentifier (cd : Codec) : Lex Token := apply (scanIdentifier cd none)
/-- `kefir_lexer_match_punctuator`, punctuator.c:158-166. -/
def matchPunctuator (t : Tries) : Lex Token := apply (scanPunctuator t.puncts)

/-- A token and its location. -/
structure LocToken where
  token : Token
  line : Nat
  col : Nat
  deriving DecidableEq, Repr

/-- source/lexer/lexer.c:86-138 `lexer_next_impl`, without extensions. -/
def lexNextImpl (sc : StrCodec) (t : Tries) : Lex LocToken := do
  skipWhitespace
  let loc ← location
  let c0 ← peek 0
  if c0 = 0 then pure ⟨.sentinel, loc.1, loc.2⟩
  else do
    let tok ← orElse (matchConstant sc.cd) (orElse (matchStringLiteral sc true)
      (orElse (matchIdentifierOrKeyword sc.cd t) (orElse (matchPunctuator t) (fail .lexerError))))
    pure ⟨tok, loc.1, loc.2⟩

/-- source/lexer/lexer.c:140-147 `kefir_lexer_next`. -/
def lexNext (sc : StrCodec) (t : Tries) : Lex LocToken := apply (lexNextImpl sc t)

/-- source/lexer/lexer.c:149-163 `kefir_lexer_populate_buffer`: the tokens appended to the buffer. -/
def populate (sc : StrCodec) (t : Tries) (acc : List LocToken) : Lex (List LocToken) := do
  let tok ← lexNext sc t
  if tok.token = .sentinel then pure (acc ++ [tok]) else populate sc t (acc ++ [tok])
partial_fixpoint

/-! ## Preprocessing tokens -/

/-- source/lexer/tokens/pp_number.c:44-64: the loop; `bs` is the multibyte buffer. -/
def ppNumberLoop (cd : Codec) (bs : List UInt8) : Lex (List UInt8) := do
  let c1 ← peek 0
  let c2 ← peek 1
  if (c1 = ch 'e' ∨ c1 = ch 'E' ∨ c1 = ch 'p' ∨ c1 = ch 'P') ∧ (c2 = ch '+' ∨ c2 = ch '-') then
    match cd.enc c1, cd.enc c2 with
    | some b1, some b2 => do
      skip 2
      ppNumberLoop cd (bs ++ b1 ++ b2)
    | _, _ => fail .invalidState
  else if isdigit c1 ∨ isnondigit c1 ∨ c1 = ch '.' then
    match cd.enc c1 with
    | some b1 => do
      skip 1
      ppNumberLoop cd (bs ++ b1)
    | none => fail .invalidState
  else do
    let r ← attempt nextUniversal
    match r with
    | .error .noMatch => pure bs
    | .error e => fail e
    | .ok u =>
      match cd.enc u with
      | some b => ppNumberLoop cd (bs ++ b)
      | none => fail .invalidState
partial_fixpoint

/-- source/lexer/tokens/pp_number.c:27-92 `match_pp_number`. -/
def scanPpNumber (cd : Codec) : Lex Token := do
  let c1 ← peek 0
  let c2 ← peek 1
  if isdigit c1 then
    match cd.enc c1 with
    | some b1 => do
      skip 1
      let bs ← ppNumberLoop cd b1
      pure (.ppNumber bs)
    | none => fail .invalidState
  else if c1 = ch '.' ∧ isdigit c2 then
    match cd.enc c1, cd.enc c2 with
    | some b1, some b2 => do
      skip 2
      let bs ← ppNumberLoop cd (b1 ++ b2)
      pure (.ppNumber bs)
    | _, _ => fail .invalidState
  else fail .noMatch

/-- `kefir_lexer_match_pp_number`, pp_number.c:94-102. -/
def matchPpNumber (cd : Codec) : Lex Token := apply (scanPpNumber cd)

/-- source/lexer/tokens/pp_header_name.c:42-54: the loop. -/
def headerLoop (cd : Codec) (terminator : Chr) (bs : List UInt8) : Lex (List UInt8) := do
  let chr ← peek 0
  if chr = ch '\n' then fail .lexerError
  else if chr ≠ terminator then do
    skip 1
    match cd.enc chr with
    | some b => headerLoop cd terminator (bs ++ b)
    | none => fail .invalidState
  else pure bs
partial_fixpoint

/-- source/lexer/tokens/pp_header_name.c:28-62 `match_header_name`.  `kefir_string_buffer_value`
returns the length including the terminator, so the check `header_name_length > 0` never fails and
an empty name is accepted; the model has no check. -/
def scanHeaderName (cd : Codec) : Lex Token := do
  let chr ← peek 0
  if chr = ch '<' then do
    skip 1
    let bs ← headerLoop cd (ch '>') []
    skip 1
    pure (.ppHeader true bs)
  else if chr = ch '\"' then do
    skip 1
    let bs ← headerLoop cd (ch '\"') []
    skip 1
    pure (.ppHeader false bs)
  else fail .noMatch

/-- `kefir_lexer_match_pp_header_name`, pp_header_name.c:85-93. -/
def matchHeaderName (cd : Codec) : Lex Token := apply (scanHeaderName cd)

end Kefir.Lexer
