import Verif.Json.Spec
import Verif.Lexer.Cursor

/-!
# Model of the JSON printer

source/util/json.c, headers/kefir/util/json.h.
-/

namespace Kefir.Json

open Kefir.Lexer (Codec Dec)

/-- headers/kefir/util/json.h:28-35 `kefir_json_state_t`. -/
inductive St where
  | init
  | objectEmpty
  | objectField
  | object
  | arrayEmpty
  | array
  deriving DecidableEq, Repr

/-- headers/kefir/util/json.h:26 `KEFIR_JSON_MAX_DEPTH`. -/
def maxDepth : Nat := 1024

/-- headers/kefir/util/json.h:37-42 `kefir_json_output_t`.  `file` says that the file pointer is not
NULL and `out` is what has been written to it.  `top` is `state[level]`, `below` are the entries under
it, innermost first; `level` is the length of `below`.  Simplification: the entries above `level`
are not kept, since `++level` always overwrites the entry it moves to; writing to the file does not
fail. -/
structure J where
  file : Bool
  indent : Nat
  top : St
  below : List St
  out : Text

/-- The field `level`. -/
def J.level (j : J) : Nat := j.below.length

/-- `fprintf`/`fwrite`/`fputc` to the file. -/
def J.write (j : J) (t : Text) : J := { j with out := j.out ++ t }

/-- source/util/json.c:27-36 `kefir_json_output_init`. -/
def J.init (indent : Nat) : J := ⟨true, indent, .init, [], []⟩

/-- source/util/json.c:38-45 `kefir_json_output_finalize`. -/
def finalize (j : J) : Res Unit × J :=
  if j.level = 0 then (.ok (), { j with file := false }) else (.error .invalidChange, j)

/-- source/util/json.c:53-61 `write_indent`. -/
def writeIndent (j : J) : J :=
  if j.indent > 0 then
    (j.write (lit "\n")).write (List.replicate (j.indent * j.level) (b ' '))
  else j

/-- source/util/json.c:63-88 `write_separator`. -/
def writeSeparator (j : J) : J :=
  match j.top with
  | .objectEmpty | .arrayEmpty => writeIndent j
  | .init => j
  | .objectField =>
    let j := j.write (lit ":")
    if j.indent > 0 then j.write (lit " ") else j
  | .object | .array => writeIndent (j.write (lit ","))

/-- The state change that opening a container (source/util/json.c:96-112 and 140-156) and
`validate_value` (source/util/json.c:246-265) share; `none` is KEFIR_INVALID_CHANGE. -/
def valueState : St → Option St
  | .objectField => some .object
  | .arrayEmpty => some .array
  | .init => some .init
  | .array => some .array
  | .objectEmpty => none
  | .object => none

/-- source/util/json.c:90-116 `kefir_json_output_object_begin` and 134-160
`kefir_json_output_array_begin`, which differ in the state they enter and the bracket. -/
def beginContainer (st : St) (bracket : Text) (j : J) : Res Unit × J :=
  if !j.file then (.error .invalidParameter, j)
  else if j.level + 1 < maxDepth then
    let j := writeSeparator j
    match valueState j.top with
    | none => (.error .invalidChange, j)
    | some s => (.ok (), ({ j with top := st, below := s :: j.below }).write bracket)
  else (.error .outOfBounds, j)

/-- source/util/json.c:118-132 `kefir_json_output_object_end` and 162-176
`kefir_json_output_array_end`, which differ in the states and the bracket. -/
def endContainer (empty full : St) (bracket : Text) (j : J) : Res Unit × J :=
  if !j.file then (.error .invalidParameter, j)
  else
    match j.below with
    | [] => (.error .invalidChange, j)
    | s :: below =>
      if j.top = empty ∨ j.top = full then
        let indent : Bool := j.top = full
        let j := { j with top := s, below := below }
        let j := if indent then writeIndent j else j
        (.ok (), j.write bracket)
      else (.error .invalidChange, j)

/-- source/util/json.c:186-226: what `format_string` writes for one character.  `raw` are the bytes
of the character. -/
def escapeChar (c : Nat) (raw : Text) : Text :=
  if c = 0x22 then lit "\\\""
  else if c = 0x5c then lit "\\\\"
  else if c = 0x2f then lit "\\/"
  else if c = 0x08 then lit "\\b"
  else if c = 0x0c then lit "\\f"
  else if c = 0x0a then lit "\\n"
  else if c = 0x0d then lit "\\r"
  else if c = 0x09 then lit "\\t"
  else if c = 0x07 then lit "\\a"
  else raw

/-- source/util/json.c:181-228, the loop of `format_string`; `bs` are the bytes from `string` to
`end`.  If `mbrtoc32` fails, its result (size_t) -1, -2 or -3 is used as a size by `fwrite`:
undefined behaviour, `none`. -/
def formatChars (cd : Codec) (bs : Text) : Option Text :=
  match bs with
  | [] => some []
  | x :: r =>
    match h : cd.dec (x :: r) with
    | .nul => some []
    | .bad => none
    | .chr c n => (formatChars cd ((x :: r).drop n)).map (escapeChar c ((x :: r).take n) ++ ·)
termination_by bs.length
decreasing_by
  have := cd.dec_chr h
  simp only [List.length_drop, List.length_cons]
  omega

/-- source/util/json.c:178-231 `format_string`.  The argument is the string without its terminating
null character. -/
def formatString (cd : Codec) (s : Text) : Option Text :=
  (formatChars cd s).map fun t => lit "\"" ++ (t ++ lit "\"")

/-- source/util/json.c:345-398: what `kefir_json_output_raw_string` writes for one byte. -/
def rawChar (c : UInt8) : Text :=
  if c = 0x22 then lit "\\\""
  else if c = 0x5c then lit "\\\\"
  else if c = 0x2f then lit "\\/"
  else if c = 0x08 then lit "\\b"
  else if c = 0x0c then lit "\\f"
  else if c = 0x0a then lit "\\n"
  else if c = 0x0d then lit "\\r"
  else if c = 0x09 then lit "\\t"
  else if c = 0x07 then lit "\\a"
  else if c = 0x0b then lit "\\v"
  else if c = 0x3f then lit "\\?"
  else if c = 0x00 then lit "\\u0000"
  else [c]

/-- `printf` of an unsigned number in decimal (C standard, not kefir code). -/
def decimal (n : Nat) : Text :=
  if n < 10 then [UInt8.ofNat (0x30 + n)] else decimal (n / 10) ++ [UInt8.ofNat (0x30 + n % 10)]
termination_by n
decreasing_by omega

/-- `printf` of a signed number in decimal (C standard, not kefir code). -/
def signedDecimal (i : Int) : Text :=
  if i < 0 then lit "-" ++ decimal i.natAbs else decimal i.natAbs

/-- The text that a scalar call writes after the separator: the last statements of
`kefir_json_output_integer` (source/util/json.c:272), `_uinteger` (281), `_float` (290),
`_long_double` (299-303), `_hexfloat` (312), `_hex_long_double` (321-325), `_string` (334),
`_raw_string` (343-400), `_boolean` (409), `_null` (418).  `none` is undefined behaviour. -/
def scalarText (cd : Codec) : Call → Option Text
  | .integer v => some (signedDecimal v.toInt)
  | .uinteger v => some (decimal v.toNat)
  | .float t => some t
  | .longDouble t => some t
  | .hexfloat t => some (lit "\"" ++ (t ++ lit "\""))
  | .hexLongDouble t => some (lit "\"" ++ (t ++ lit "\""))
  | .string s => formatString cd s
  | .rawString s => some (lit "\"" ++ (s.flatMap rawChar ++ lit "\""))
  | .boolean v => some (if v then lit "true" else lit "false")
  | .null => some (lit "null")
  | _ => some []

/-- source/util/json.c:267-420: the scalar calls, which all begin with `valid_json`,
`write_separator` and `validate_value`. -/
def scalarCall (cd : Codec) (c : Call) (j : J) : Option (Res Unit × J) :=
  if !j.file then some (.error .invalidParameter, j)
  else
    let j := writeSeparator j
    match valueState j.top with
    | none => some (.error .invalidChange, j)
    | some s => (scalarText cd c).map fun t => (.ok (), ({ j with top := s }).write t)

/-- source/util/json.c:233-244 `kefir_json_output_object_key`. -/
def keyCall (cd : Codec) (k : Text) (j : J) : Option (Res Unit × J) :=
  if !j.file then some (.error .invalidParameter, j)
  else
    let j := writeSeparator j
    if j.top = .objectEmpty ∨ j.top = .object then
      (formatString cd k).map fun t => (.ok (), ({ j with top := .objectField }).write t)
    else some (.error .invalidChange, j)

/-- The printing calls of headers/kefir/util/json.h:47-62.  `none` is undefined behaviour. -/
def step (cd : Codec) (j : J) : Call → Option (Res Unit × J)
  | .objectBegin => some (beginContainer .objectEmpty (lit "{") j)
  | .objectEnd => some (endContainer .objectEmpty .object (lit "}") j)
  | .arrayBegin => some (beginContainer .arrayEmpty (lit "[") j)
  | .arrayEnd => some (endContainer .arrayEmpty .array (lit "]") j)
  | .objectKey k => keyCall cd k j
  | c => scalarCall cd c j

/-- A sequence of calls all of which return KEFIR_OK. -/
def run (cd : Codec) : J → List Call → Option J
  | j, [] => some j
  | j, c :: cs =>
    match step cd j c with
    | some (.ok (), j') => run cd j' cs
    | _ => none

end Kefir.Json
