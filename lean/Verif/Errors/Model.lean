import Verif.Errors.Spec
/-!
# The record of errors (`source/core/error.c`, `source_error.c`, `os_error.c`)

Simplifications: characters are `Char`.  The place of a source location in the payload (its first 16
bytes) is a component of its own; the message behind it is in the payload from offset 16.  A write outside
the payload makes the whole run undefined (`none`).  The errors belong to one thread (`_Thread_local`).
-/

namespace Kefir.Errors

/-- Where the message of an error is: a string of the caller, or the payload from an offset on. -/
inductive Message where
  | literal (text : Text)
  | payload (offset : Nat)

/-- headers/kefir/core/error.h:35-46 `struct kefir_error`.  `location` is `some` if `payload_type` is
KEFIR_ERROR_PAYLOAD_SOURCE_LOCATION; an empty location in it is `some none`. -/
structure Entry where
  code : Nat
  message : Message
  file : Text
  line : Nat
  location : Option (Option Location)
  payload : Text
  overflow : Bool
  prev : Option Nat

/-- headers/kefir/core/error.h:26 KEFIR_ERROR_STACK_SIZE. -/
def stackSize : Nat := 32

/-- headers/kefir/core/error.h:27 KEFIR_ERROR_PAYLOAD_LENGTH. -/
def payloadLength : Nat := 256

/-- headers/kefir/core/source_error.h:29-34: the offset of `message` in `struct kefir_source_error`, behind a
pointer and two unsigned integers (headers/kefir/core/source_location.h:29-33). -/
def messageOffset : Nat := 16

/-- headers/kefir/core/source_error.h:34 KEFIR_SOURCE_ERROR_MESSAGE_LENGTH. -/
def messageLength : Nat := payloadLength - messageOffset

/-- source/core/error.c:26-27: `next_error_index` and `error_stack`. -/
structure State where
  next : Nat
  stack : Nat → Entry

inductive Category where
  | unknown | normal | warning | genericError | languageError
  deriving DecidableEq

/-- source/core/basic-types.c:3-41 `kefir_result_get_category`; the numbers are those of the enumeration
in headers/kefir/core/basic-types.h:133-165. -/
def category : Nat → Category
  | 0 | 1 => .normal
  | 2 | 3 | 4 | 5 | 6 => .warning
  | 7 | 8 | 9 | 10 | 11 | 12 | 13 | 14 | 15 | 16 | 17 | 18 | 19 => .genericError
  | 20 | 21 | 22 | 23 | 24 | 25 => .languageError
  | _ => .unknown

def update (stack : Nat → Entry) (i : Nat) (e : Entry) : Nat → Entry := fun j => if j = i then e else stack j

/-- source/core/error.c:29-35 `kefir_current_error`. -/
def currentError (st : State) : Option Nat := if st.next ≠ 0 then some (st.next - 1) else none

/-- source/core/error.c:37-39 `kefir_clear_error`. -/
def clearError (st : State) : State := { st with next := 0 }

/-- source/core/error.c:41-70 `kefir_set_error`: the state and what is stored in `*error_ptr`, if anything.
The code that it returns is its argument. -/
def setError (st : State) (code : Nat) (message file : Text) (line : Nat) : State × Option Nat :=
  if st.next = stackSize ∨ category code = .normal then (st, none)
  else
    let i := if st.next > 0 ∧ category (st.stack (st.next - 1)).code = .warning then st.next - 1 else st.next
    let e : Entry :=
      { code, message := .literal message, file, line, location := none
        payload := List.replicate payloadLength '\x00'
        overflow := decide (i + 1 = stackSize)
        prev := if i ≠ 0 then some (i - 1) else none }
    ({ next := i + 1, stack := update st.stack i e }, some i)

/-- `snprintf` and `vsnprintf` into the payload: `text`, cut to `size - 1` characters, and a null character are
stored from `offset` on, or nothing if `size` is 0 (7.21.6.5). -/
def snprintf (payload : Text) (offset size : Nat) (text : Text) : Option Text :=
  if size = 0 then some payload
  else
    let s := text.take (size - 1) ++ ['\x00']
    if offset + s.length ≤ payloadLength then
      some (payload.take offset ++ s ++ payload.drop (offset + s.length))
    else none

/-- source/core/error.c:72-90 `kefir_set_errorf`. -/
def setErrorf (st : State) (code : Nat) (text file : Text) (line : Nat) : Option State :=
  match setError st code text file line with
  | (st, none) => some st
  | (st, some i) =>
    match snprintf (st.stack i).payload 0 payloadLength text with
    | none => none
    | some p => some { st with stack := update st.stack i { st.stack i with payload := p, message := .payload 0 } }

/-- The text of `"%s@%u:%u "`. -/
def locationText (l : Location) : Text :=
  l.source ++ '@' :: (decimal l.line ++ ':' :: (decimal l.column ++ [' ']))

/-- source/core/source_error.c:25-48 `kefir_set_source_error`. -/
def setSourceError (st : State) (code : Nat) (location : Option Location) (message file : Text) (line : Nat) :
    Option (State × Option Nat) :=
  match setError st code message file line with
  | (st, none) => some (st, none)
  | (st, some i) =>
    match location with
    | some l =>
      match snprintf (st.stack i).payload messageOffset messageLength (locationText l ++ message) with
      | none => none
      | some p =>
        some ({ st with stack := update st.stack i { st.stack i with
                  payload := p, message := .payload messageOffset, location := some (some l) } }, some i)
    | none => some ({ st with stack := update st.stack i { st.stack i with location := some none } }, some i)

/-- source/core/source_error.c:65-74: where the text begins and the room for it.  `%n` gives the number of
characters of the location, also of those that were cut; the room is a `kefir_size_t`. -/
def textRoom (location : Option Location) : Nat × Nat :=
  match location with
  | some l => ((locationText l).length, (messageLength + 2 ^ 64 - (locationText l).length) % 2 ^ 64)
  | none => (0, messageLength)

/-- source/core/source_error.c:50-80 `kefir_set_source_errorf`; `fmt` is the format, `text` what it amounts
to with the arguments. -/
def setSourceErrorf (st : State) (code : Nat) (location : Option Location) (fmt text file : Text) (line : Nat) :
    Option State :=
  match setSourceError st code location fmt file line with
  | none => none
  | some (st, none) => some st
  | some (st, some i) =>
    let written := match location with
      | some l => snprintf (st.stack i).payload messageOffset messageLength (locationText l)
      | none => some (st.stack i).payload
    match written with
    | none => none
    | some p =>
      match snprintf p (messageOffset + (textRoom location).1) (textRoom location).2 text with
      | none => none
      | some p =>
        some { st with stack := update st.stack i { st.stack i with
                 payload := p, message := .payload messageOffset } }

/-- source/core/os_error.c:26-42 `kefir_set_os_error`; `reason` is `strerror(errno)`. -/
def setOsError (st : State) (message : Option Text) (reason file : Text) (line : Nat) : Option State :=
  match setError st 9 reason file line with
  | (st, none) => some st
  | (st, some i) =>
    match message with
    | none => some st
    | some m =>
      match snprintf (st.stack i).payload 0 payloadLength (m ++ ' ' :: '(' :: (reason ++ [')'])) with
      | none => none
      | some p =>
        some { st with stack := update st.stack i { st.stack i with payload := p, message := .payload 0 } }

/-- One call.  `fmt` gives the format of a call with arguments. -/
def step (fmt : Call → Text) (st : State) : Call → Option State
  | .error code message file line => some (setError st code message file line).1
  | .errorf code text file line => setErrorf st code text file line
  | .source code location message file line =>
    (setSourceError st code location message file line).map (·.1)
  | .sourcef code location text file line =>
    setSourceErrorf st code location (fmt (.sourcef code location text file line)) text file line
  | .os message reason file line => setOsError st message reason file line
  | .clear => some (clearError st)

/-- A history of calls. -/
def run (fmt : Call → Text) (st : State) : List Call → Option State
  | [] => some st
  | c :: cs =>
    match step fmt st c with
    | none => none
    | some st' => run fmt st' cs

/-- The string that `message` points to. -/
def Entry.text (e : Entry) : Text :=
  match e.message with
  | .literal t => t
  | .payload offset => (e.payload.drop offset).takeWhile (· ≠ '\x00')

/-- source/core/error_format.c:220-330: what is printed of an error, with the location if there is one. -/
def Entry.view (e : Entry) : Report := ⟨e.code, e.text, e.file, e.line, e.location.getD none⟩

/-- source/core/error_format.c:38-46, the loop that follows `prev_error`: the errors and their
`error_overflow`. -/
def follow (stack : Nat → Entry) : Nat → Option Nat → List (Report × Bool)
  | fuel + 1, some i => ((stack i).view, (stack i).overflow) :: follow stack fuel (stack i).prev
  | _, _ => []

/-- What a caller reads: from `kefir_current_error` on, along `prev_error`.  There are not more than
`stackSize` errors. -/
def read (st : State) : List (Report × Bool) := follow st.stack stackSize (currentError st)

end Kefir.Errors
