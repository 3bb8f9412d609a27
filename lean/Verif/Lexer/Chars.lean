import Verif.Lexer.Spec
/-!
# Character classes (`source/util/char32.c`)
-/

namespace Kefir.Lexer

/-- source/util/char32.c:33-46 `kefir_isspace32`. -/
def isspace (c : Chr) : Bool :=
  c = ch ' ' || c = 12 || c = 11 || c = ch '\t' || c = ch '\n' || c = ch '\r'

/-- source/util/char32.c:48-65 `kefir_isdigit32` (the switch lists '0' to '9'). -/
def isdigit (c : Chr) : Bool := (str "0123456789").contains c

/-- source/util/char32.c:67-82 `kefir_isoctdigit32`. -/
def isoctdigit (c : Chr) : Bool := (str "01234567").contains c

/-- source/util/char32.c:84-103 `kefir_ishexdigit32`. -/
def ishexdigit (c : Chr) : Bool := (str "aAbBcCdDeEfF").contains c || isdigit c

/-- source/util/char32.c:105-165 `kefir_isnondigit32`. -/
def isnondigit (c : Chr) : Bool :=
  (str "_abcdefghijklmnopqrstuvwxyzABCDEFGHIJKLMNOPQRSTUVWXYZ").contains c

/-- source/util/char32.c:185-219 `kefir_hex32todec`: the value of a hexadecimal digit; for other
characters `(kefir_uint32_t) -1`. -/
def hex32todec (c : Chr) : Nat :=
  if c = ch 'a' ∨ c = ch 'A' then 10
  else if c = ch 'b' ∨ c = ch 'B' then 11
  else if c = ch 'c' ∨ c = ch 'C' then 12
  else if c = ch 'd' ∨ c = ch 'D' then 13
  else if c = ch 'e' ∨ c = ch 'E' then 14
  else if c = ch 'f' ∨ c = ch 'F' then 15
  else if ch '0' ≤ c ∧ c ≤ ch '9' then c - ch '0'
  else 2 ^ 32 - 1

/-- source/lexer/tokens/characters.c:7-13 `oct_to_digit`. -/
def octToDigit (c : Chr) : Nat := if ch '0' ≤ c ∧ c ≤ ch '7' then c - ch '0' else 2 ^ 32 - 1

end Kefir.Lexer
