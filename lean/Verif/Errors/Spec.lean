/-!
# Specification: the record of errors

The library reports errors with one of six functions and keeps them; a caller reads them afterwards,
beginning with the latest.  This is what a caller should find, for a history of calls.
-/

namespace Kefir.Errors

abbrev Text := List Char

/-- A place in a source file. -/
structure Location where
  source : Text
  line : Nat
  column : Nat
  deriving DecidableEq, Repr

/-- The calls of a history.  `text` is what the format and the arguments of a call amount to, `reason` the
text of the operating system for the last error, `file` and `line` the place in the compiler. -/
inductive Call where
  | error (code : Nat) (message file : Text) (line : Nat)
  | errorf (code : Nat) (text file : Text) (line : Nat)
  | source (code : Nat) (location : Option Location) (message file : Text) (line : Nat)
  | sourcef (code : Nat) (location : Option Location) (text file : Text) (line : Nat)
  | os (message : Option Text) (reason file : Text) (line : Nat)
  | clear

/-- What a caller reads of an error. -/
structure Report where
  code : Nat
  message : Text
  file : Text
  line : Nat
  location : Option Location
  deriving DecidableEq, Repr

/-- headers/kefir/core/basic-types.h:135-137: codes that are no errors. -/
def Normal (code : Nat) : Prop := code < 2

/-- headers/kefir/core/basic-types.h:138-143: codes of minor importance, which the next report replaces. -/
def Warning (code : Nat) : Prop := 2 ≤ code ∧ code < 7

instance (c : Nat) : Decidable (Normal c) := inferInstanceAs (Decidable (_ < _))
instance (c : Nat) : Decidable (Warning c) := inferInstanceAs (Decidable (_ ∧ _))

/-- The code of errors of the operating system. -/
def osError : Nat := 9

/-- A number in decimal. -/
def decimal (n : Nat) : Text := Nat.toDigits 10 n

/-- `source@line:column ` -/
def Location.prefix (l : Location) : Text :=
  l.source ++ '@' :: (decimal l.line ++ ':' :: (decimal l.column ++ [' ']))

/-- There is room for 255 characters, or 239 beside a location; the end of longer messages is lost. -/
def Call.report : Call → Option Report
  | .error code message file line => some ⟨code, message, file, line, none⟩
  | .errorf code text file line => some ⟨code, text.take 255, file, line, none⟩
  | .source code (some l) message file line => some ⟨code, (l.prefix ++ message).take 239, file, line, some l⟩
  | .source code none message file line => some ⟨code, message, file, line, none⟩
  | .sourcef code (some l) text file line => some ⟨code, (l.prefix ++ text).take 239, file, line, some l⟩
  | .sourcef code none text file line => some ⟨code, text.take 239, file, line, none⟩
  | .os (some message) reason file line =>
    some ⟨osError, (message ++ ' ' :: '(' :: (reason ++ [')'])).take 255, file, line, none⟩
  | .os none reason file line => some ⟨osError, reason, file, line, none⟩
  | .clear => none

/-- The reports without a warning at their head. -/
def settled : List Report → List Report
  | r :: l => if Warning r.code then l else r :: l
  | [] => []

/-- A report is kept, in place of a warning that is the latest, as long as there is room for it. -/
def keep (l : List Report) (r : Report) : List Report :=
  if Normal r.code then l else if (settled l).length < 32 then r :: settled l else l

/-- What is kept after a history that began with `l`, the latest first. -/
def reports (l : List Report) : List Call → List Report
  | [] => l
  | c :: cs =>
    reports (match c.report with
      | some r => keep l r
      | none => []) cs

/-- The texts of a call are strings of C: without null characters. -/
def Call.Strings : Call → Prop
  | .error _ m _ _ => '\x00' ∉ m
  | .errorf _ m _ _ => '\x00' ∉ m
  | .source _ l m _ _ => '\x00' ∉ m ∧ ∀ x ∈ l, '\x00' ∉ x.source
  | .sourcef _ l m _ _ => '\x00' ∉ m ∧ ∀ x ∈ l, '\x00' ∉ x.source
  | .os m r _ _ => '\x00' ∉ r ∧ ∀ x ∈ m, '\x00' ∉ x
  | .clear => True

end Kefir.Errors
