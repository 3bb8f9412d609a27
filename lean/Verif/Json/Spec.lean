import Verif.Base

/-!
# Specification of JSON

The grammar of RFC 8259 over bytes, together with the value a text denotes.  Nothing here refers to
the printer.  A string denotes a sequence of bytes; bytes from 0x80 on stand for themselves (they are
UTF-8 in the text exactly if they are in the denoted string).
-/

namespace Kefir.Json

abbrev Text := List UInt8

/-- Code of a 7-bit character. -/
@[reducible] def b (c : Char) : UInt8 := UInt8.ofNat c.toNat

/-- Codes of a literal. -/
def lit (s : String) : Text := s.toList.map b

/-- RFC 8259 section 2, `ws`. -/
def Ws (t : Text) : Prop := ∀ x ∈ t, x = 0x20 ∨ x = 0x09 ∨ x = 0x0a ∨ x = 0x0d

/-- RFC 8259 section 7: the two-character escapes, with the byte each denotes. -/
def escapes : List (UInt8 × UInt8) :=
  [(b '"', 0x22), (b '\\', 0x5c), (b '/', 0x2f), (b 'b', 0x08), (b 'f', 0x0c), (b 'n', 0x0a),
    (b 'r', 0x0d), (b 't', 0x09)]

/-- Value of a hexadecimal digit. -/
def hexVal (x : UInt8) : Option Nat :=
  if 0x30 ≤ x ∧ x ≤ 0x39 then some (x.toNat - 0x30)
  else if 0x41 ≤ x ∧ x ≤ 0x46 then some (x.toNat - 0x41 + 10)
  else if 0x61 ≤ x ∧ x ≤ 0x66 then some (x.toNat - 0x61 + 10)
  else none

/-- RFC 8259 section 7: the characters between the quotation marks of a string, and the bytes they
denote.  Of the `\uXXXX` escapes only the 7-bit ones are given a meaning. -/
inductive StrBody : Text → Text → Prop
  | nil : StrBody [] []
  | plain {x t s} : 0x20 ≤ x → x ≠ 0x22 → x ≠ 0x5c → StrBody t s → StrBody (x :: t) (x :: s)
  | esc {e x t s} : (e, x) ∈ escapes → StrBody t s → StrBody (0x5c :: e :: t) (x :: s)
  | uni {a c n m t s} : hexVal a = some n → hexVal c = some m → 16 * n + m < 128 → StrBody t s →
      StrBody (0x5c :: b 'u' :: b '0' :: b '0' :: a :: c :: t) (UInt8.ofNat (16 * n + m) :: s)

/-- A string with its quotation marks. -/
def StrText (s t : Text) : Prop := ∃ body, StrBody body s ∧ t = 0x22 :: (body ++ [0x22])

/-- Decimal digits. -/
def Digits (t : Text) : Prop := ∀ x ∈ t, 0x30 ≤ x ∧ x ≤ 0x39

/-- RFC 8259 section 6, `int` without its sign: no superfluous leading zero. -/
def IntPart (t : Text) : Prop := Digits t ∧ (t = [b '0'] ∨ ∃ x r, t = x :: r ∧ x ≠ b '0')

/-- RFC 8259 section 6, `number`. -/
def Number (t : Text) : Prop :=
  ∃ sign int frac exp, t = sign ++ (int ++ (frac ++ exp)) ∧
    (sign = [] ∨ sign = [b '-']) ∧ IntPart int ∧
    (frac = [] ∨ ∃ ds, frac = b '.' :: ds ∧ ds ≠ [] ∧ Digits ds) ∧
    (exp = [] ∨ ∃ e s ds, exp = e :: (s ++ ds) ∧ (e = b 'e' ∨ e = b 'E') ∧
      (s = [] ∨ s = [b '+'] ∨ s = [b '-']) ∧ ds ≠ [] ∧ Digits ds)

/-- Positional value of a sequence of decimal digits. -/
def digitsValue (t : Text) : Nat := t.foldl (fun a x => 10 * a + (x.toNat - 0x30)) 0

/-- A number without fraction and exponent, and the integer it denotes. -/
def IntText (i : Int) (t : Text) : Prop :=
  (∃ ds, IntPart ds ∧ t = ds ∧ i = digitsValue ds) ∨
  (∃ ds, IntPart ds ∧ t = b '-' :: ds ∧ i = -(digitsValue ds : Int))

/-- JSON values.  `num` is a number known by its spelling. -/
inductive JVal where
  | null
  | bool (v : Bool)
  | int (i : Int)
  | num (spelling : Text)
  | str (s : Text)
  | obj (ms : List (Text × JVal))
  | arr (es : List JVal)

mutual
/-- Number of nested objects and arrays. -/
def JVal.depth : JVal → Nat
  | .obj ms => depthMembers ms + 1
  | .arr es => depthElems es + 1
  | _ => 0

/-- Largest depth of the members of an object. -/
def depthMembers : List (Text × JVal) → Nat
  | [] => 0
  | (_, v) :: ms => max v.depth (depthMembers ms)

/-- Largest depth of the elements of an array. -/
def depthElems : List JVal → Nat
  | [] => 0
  | v :: es => max v.depth (depthElems es)
end

/- RFC 8259: `value`, and the inside of a non-empty object or array. -/
mutual
/-- `JsonText v t`: `t` is a JSON text (without surrounding white space) of the value `v`. -/
inductive JsonText : JVal → Text → Prop
  | null : JsonText .null (lit "null")
  | true : JsonText (.bool true) (lit "true")
  | false : JsonText (.bool false) (lit "false")
  | int {i t} : IntText i t → JsonText (.int i) t
  | num {t} : Number t → JsonText (.num t) t
  | str {s t} : StrText s t → JsonText (.str s) t
  | objNil {w} : Ws w → JsonText (.obj []) (b '{' :: (w ++ [b '}']))
  | obj {ms t} : MembersText ms t → JsonText (.obj ms) (b '{' :: (t ++ [b '}']))
  | arrNil {w} : Ws w → JsonText (.arr []) (b '[' :: (w ++ [b ']']))
  | arr {es t} : ElemsText es t → JsonText (.arr es) (b '[' :: (t ++ [b ']']))

/-- Comma-separated members. -/
inductive MembersText : List (Text × JVal) → Text → Prop
  | one {k kt v vt w1 w2 w3 w4} : StrText k kt → JsonText v vt → Ws w1 → Ws w2 → Ws w3 → Ws w4 →
      MembersText [(k, v)] (w1 ++ (kt ++ (w2 ++ (b ':' :: (w3 ++ (vt ++ w4))))))
  | cons {k kt v vt w1 w2 w3 w4 ms t} : StrText k kt → JsonText v vt → Ws w1 → Ws w2 → Ws w3 →
      Ws w4 → MembersText ms t →
      MembersText ((k, v) :: ms)
        (w1 ++ (kt ++ (w2 ++ (b ':' :: (w3 ++ (vt ++ (w4 ++ (b ',' :: t))))))))

/-- Comma-separated elements. -/
inductive ElemsText : List JVal → Text → Prop
  | one {v vt w1 w2} : JsonText v vt → Ws w1 → Ws w2 → ElemsText [v] (w1 ++ (vt ++ w2))
  | cons {v vt w1 w2 es t} : JsonText v vt → Ws w1 → Ws w2 → ElemsText es t →
      ElemsText (v :: es) (w1 ++ (vt ++ (w2 ++ (b ',' :: t))))
end

/-- The calls of the printing interface.  The argument of the floating-point calls is the text that
`printf` makes of the number (`%lf`, `%La`, …): the numbers themselves are not modelled. -/
inductive Call where
  | objectBegin
  | objectEnd
  | arrayBegin
  | arrayEnd
  | objectKey (k : Text)
  | integer (v : BitVec 64)
  | uinteger (v : BitVec 64)
  | float (text : Text)
  | longDouble (text : Text)
  | hexfloat (text : Text)
  | hexLongDouble (text : Text)
  | string (s : Text)
  | rawString (s : Text)
  | boolean (v : Bool)
  | null

/-- The value that a call printing a scalar stands for. -/
def Call.scalar : Call → Option JVal
  | .integer v => some (.int v.toInt)
  | .uinteger v => some (.int v.toNat)
  | .float t => some (.num t)
  | .longDouble t => some (.num t)
  | .hexfloat t => some (.str t)
  | .hexLongDouble t => some (.str t)
  | .string s => some (.str s)
  | .rawString s => some (.str s)
  | .boolean v => some (.bool v)
  | .null => some .null
  | _ => none

mutual
/-- The value that a sequence of calls describes. -/
inductive Describes : List Call → JVal → Prop
  | scalar {c v} : c.scalar = some v → Describes [c] v
  | obj {cs ms} : DescribesMembers cs ms → Describes (.objectBegin :: (cs ++ [.objectEnd])) (.obj ms)
  | arr {cs es} : DescribesElems cs es → Describes (.arrayBegin :: (cs ++ [.arrayEnd])) (.arr es)

/-- The members that a sequence of calls describes. -/
inductive DescribesMembers : List Call → List (Text × JVal) → Prop
  | nil : DescribesMembers [] []
  | cons {k v cs cs' ms} : Describes cs v → DescribesMembers cs' ms →
      DescribesMembers (.objectKey k :: (cs ++ cs')) ((k, v) :: ms)

/-- The elements that a sequence of calls describes. -/
inductive DescribesElems : List Call → List JVal → Prop
  | nil : DescribesElems [] []
  | cons {v cs cs' es} : Describes cs v → DescribesElems cs' es →
      DescribesElems (cs ++ cs') (v :: es)
end

end Kefir.Json
