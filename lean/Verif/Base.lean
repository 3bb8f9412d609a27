/-!
# Result codes

`headers/kefir/core/basic-types.h` / `headers/kefir/core/error.h`: every kefir function returns a
`kefir_result_t`.  `KEFIR_OK` is modelled by `Except.ok`, every other code by `Except.error`.
Only the codes that occur in the modelled functions are listed.
-/

namespace Kefir

/-- The `kefir_result_t` codes other than `KEFIR_OK` used by the modelled code
(`headers/kefir/core/basic-types.h`). -/
inductive Err where
  | invalidParameter
  | invalidRequest
  | invalidChange
  | invalidState
  | internalError
  | memallocFailure
  | objallocFailure
  | outOfBounds
  | outOfSpace
  | notFound
  | notSupported
  | notImplemented
  | alreadyExists
  | iteratorEnd
  | noMatch
  | lexerError
  | syntaxError
  | analysisError
  | notConstant
  | yieldCode
  deriving DecidableEq, Repr

/-- Result of a kefir call: a value (the out-parameters) or an error code. -/
abbrev Res (α : Type) := Except Err α

end Kefir
