import Verif.Directive.Model
import Verif.Skip.Spec
/-!
# `kefir_preprocessor_skip_group` (`source/preprocessor/preprocessor.c`)

Simplification: the counter `nested_ifs` is a natural number; it cannot exceed the length of the text.
-/

namespace Kefir.Skip

open Kefir.Lexer Kefir.Directive

/-- source/preprocessor/preprocessor.c:171-228 `kefir_preprocessor_skip_group`: the loop, with the flag
`newline_flag` of the scanner, which is the result, and `nested_ifs`.  The state of the scanner
(source/preprocessor/directives.c:40-64) is the cursor and the flag. -/
def skipGroup (flag : Bool) (nested : Nat) : Lex Bool := do
  let state ← save
  let (directive, flag') ← matchDirective
  match directive with
  | .ifD | .ifdef | .ifndef => do
    skipLine
    skipGroup true (nested + 1)
  | .elif | .elseD =>
    if nested = 0 then do
      restore state
      pure flag
    else skipGroup flag' nested
  | .endif =>
    if nested > 0 then do
      skipLine
      skipGroup true (nested - 1)
    else do
      restore state
      pure flag
  | .sentinel => pure flag'
  | .include | .define | .undef | .line | .error | .empty | .non | .ppToken => do
    skipLine
    skipGroup true nested
partial_fixpoint

end Kefir.Skip
