import Verif.Directive.Model
import Verif.LineDir.Spec
/-!
# `#line`, `__LINE__` and `__FILE__` (`source/preprocessor/preprocessor.c`, `predefined_macro.c`)

Simplifications: the name of the source file in the location of the cursor is kept beside the cursor
(`Lexer.Cursor` has line and column only).  Lines are natural numbers; the code counts modulo 2^32
(`kefir_uint_t`, headers/kefir/core/source_location.h:26).  Macro replacement is a parameter
(`kefir_preprocessor_run_substitutions`).
-/

namespace Kefir.LineDir

open Kefir.Lexer Kefir.PpToken Kefir.Directive

/-- `isdigit` on a byte. -/
def isDigitByte (b : UInt8) : Bool := 48 ≤ b.toNat && b.toNat ≤ 57

/-- `strtoul` with base 10: the value and the number of characters used.  Numbers larger than `ULONG_MAX`
give `ULONG_MAX`.  Simplified: white space and a sign before the digits, with which no number token
begins. -/
def strtoul (bs : List UInt8) : Nat × Nat :=
  let ds := bs.takeWhile isDigitByte
  (min (ds.foldl (fun n b => 10 * n + (b.toNat - 48)) 0) 18446744073709551615, ds.length)

/-- source/preprocessor/preprocessor.c:454-467: the loop of `process_line`, on the tokens after the first.
A string literal carries its bytes, of which the symbol table keeps those before the first null. -/
def sourceFile : List Token → Except Err (Option (List UInt8))
  | [] => .ok none
  | .ppWhitespace _ :: τs => sourceFile τs
  | .string .multibyte bs :: _ => .ok (some (bs.takeWhile (· ≠ 0)))
  | _ :: _ => .error .lexerError

/-- source/preprocessor/preprocessor.c:438-473 `process_line`: the new name of the source file.  `subst`
is `kefir_preprocessor_run_substitutions`. -/
def processLine (subst : List Token → Except Err (List Token)) (file : List UInt8) (τs : List Token) :
    Lex (List UInt8) := fun c =>
  match subst τs with
  | .error e => some (.error e, c)
  | .ok (.ppNumber bs :: rest) =>
    if (strtoul bs).2 = bs.length then
      match sourceFile rest with
      | .error e => some (.error e, c)
      | .ok name => some (.ok (name.getD file), { c with line := (strtoul bs).1 % 2 ^ 32 })
    else some (.error .lexerError, c)
  | .ok _ => some (.error .lexerError, c)

/-- source/preprocessor/preprocessor.c:577-579, in `run_directive`, after
`kefir_preprocessor_directive_scanner_next`: one step of `kefir_preprocessor_run_group_impl` (597-620).  Other directives are not
modelled here. -/
def lineStep (sc : StrCodec) (t : Tries) (subst : List Token → Except Err (List Token)) (file : List UInt8) :
    Lex (List UInt8) := do
  let d ← scannerNext sc t true
  match d with
  | (.line τs, _) => processLine subst file τs
  | _ => pure file

/-- `snprintf` with `KEFIR_UINT_FMT` ("%u", headers/kefir/core/basic-types.h:58). -/
def printU (n : Nat) : List UInt8 := ((Nat.toDigits 10 (n % 2 ^ 32)).map fun c => UInt8.ofNat c.toNat)

/-- source/preprocessor/predefined_macro.c:57-80 `macro_line_apply`; the location is that of the name
`__LINE__`. -/
def lineMacro (location : LocToken) : Token := .ppNumber (printU location.line)

/-- source/preprocessor/predefined_macro.c:34-55 `macro_file_apply`; `file` is the name in the location of
the name `__FILE__`. -/
def fileMacro (file : List UInt8) : Token := .string .multibyte file

end Kefir.LineDir
