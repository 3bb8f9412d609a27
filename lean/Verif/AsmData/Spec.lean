import Verif.StaticData.Spec

/-!
# Specification: the assembler's reading of data

The part of the syntax of the GNU assembler that data is written in (Using as: "Comments", "Strings", "Integers",
".ascii", ".byte", ".zero", ".align"): statements end at a newline, `#` starts a comment, an integer is hexadecimal after
`0x`, octal after `0`, decimal otherwise, a string has the escapes `\b \f \n \r \t \\ \"` and `\` with up to three digits.
What does not belong to this part is refused.

Text is a list of characters.
-/
namespace Kefir.AsmData
open Kefir.StaticData

abbrev Text := List Char

/-! ### Tokens -/

inductive Tok where
  /-- a name, a number or a directive -/
  | word (w : Text)
  | str (bytes : List Nat)
  | punct (c : Char)
  | newline
  deriving DecidableEq, Repr

/-- Characters of names and numbers. -/
def wordChar (c : Char) : Bool :=
  c.isAlphanum || c = '_' || c = '.' || c = '$' || 128 ≤ c.toNat

/-- What the assembler is in the middle of. -/
inductive Mode where
  | start
  | word (w : Text)
  | str (bytes : List Nat)
  /-- after `\` -/
  | escape (bytes : List Nat)
  /-- after `\` and digits -/
  | digits (bytes : List Nat) (count value : Nat)
  | comment
  deriving DecidableEq, Repr

/-- A character outside words, strings and comments. -/
def startStep (c : Char) : List Tok × Mode :=
  if c = '\n' then ([.newline], .start)
  else if c = ' ' ∨ c = '\t' then ([], .start)
  else if c = '#' then ([], .comment)
  else if c = '"' then ([], .str [])
  else if wordChar c then ([], .word [c])
  else ([.punct c], .start)

/-- A character in a string.  A string does not extend over a line. -/
def strStep (bytes : List Nat) (c : Char) : Option (List Tok × Mode) :=
  if c = '"' then some ([.str bytes], .start)
  else if c = '\\' then some ([], .escape bytes)
  else if c = '\n' then none
  else if c.toNat < 128 then some ([], .str (bytes ++ [c.toNat]))
  else none

/-- A character after `\`. -/
def escapeStep (bytes : List Nat) (c : Char) : Option (List Tok × Mode) :=
  if c.isDigit then some ([], .digits bytes 1 (c.toNat - 48))
  else
    match c with
    | 'b' => some ([], .str (bytes ++ [8]))
    | 't' => some ([], .str (bytes ++ [9]))
    | 'n' => some ([], .str (bytes ++ [10]))
    | 'f' => some ([], .str (bytes ++ [12]))
    | 'r' => some ([], .str (bytes ++ [13]))
    | '\\' => some ([], .str (bytes ++ [92]))
    | '"' => some ([], .str (bytes ++ [34]))
    | _ => none

def step (m : Mode) (c : Char) : Option (List Tok × Mode) :=
  match m with
  | .start => some (startStep c)
  | .word w =>
    if wordChar c then some ([], .word (w ++ [c]))
    else
      let r := startStep c
      some (.word w :: r.1, r.2)
  | .str bytes => strStep bytes c
  | .escape bytes => escapeStep bytes c
  | .digits bytes n v =>
    if n < 3 ∧ c.isDigit then some ([], .digits bytes (n + 1) (v * 8 + (c.toNat - 48)))
    else strStep (bytes ++ [v % 256]) c
  | .comment => if c = '\n' then some ([.newline], .start) else some ([], .comment)

/-- The tokens of a text. -/
def tokens : Mode → Text → Option (List Tok)
  | .start, [] | .comment, [] => some []
  | .word w, [] => some [.word w]
  | _, [] => none
  | m, c :: cs =>
    match step m c with
    | none => none
    | some (ts, m') =>
      match tokens m' cs with
      | none => none
      | some ts' => some (ts ++ ts')

/-! ### Numbers and operands -/

/-- The value of a digit. -/
def digitOf (base : Nat) (c : Char) : Option Nat :=
  let v :=
    if '0' ≤ c ∧ c ≤ '9' then c.toNat - 48
    else if 'a' ≤ c ∧ c ≤ 'f' then c.toNat - 87
    else if 'A' ≤ c ∧ c ≤ 'F' then c.toNat - 55
    else 99
  if v < base then some v else none

/-- The value of digits after those with the value `acc`. -/
def digitsValue (base : Nat) : Nat → Text → Option Nat
  | acc, [] => some acc
  | acc, c :: cs =>
    match digitOf base c with
    | none => none
    | some d => digitsValue base (acc * base + d) cs

/-- An integer. -/
def number : Text → Option Nat
  | '0' :: 'x' :: c :: cs => digitsValue 16 0 (c :: cs)
  | '0' :: cs => digitsValue 8 0 cs
  | c :: cs => digitsValue 10 0 (c :: cs)
  | [] => none

/-- A name: it does not start with a digit. -/
def isName : Text → Bool
  | [] => false
  | c :: cs => wordChar c && !c.isDigit && cs.all wordChar

/-- The bytes of an operand of a directive of `n` bytes: a number is reduced to `n` bytes, an address takes eight. -/
def operand (n : Nat) : List Tok → Option (List Cell)
  | [.word w] =>
    if isName w then
      if n = 8 then some (addressBytes (.symbol (String.ofList w)) 0) else none
    else (number w).map fun v => le n (v % 2 ^ (8 * n))
  | [.word w, .punct '+', .word d] =>
    if isName w ∧ n = 8 then
      match number d with
      | some v => some (addressBytes (.symbol (String.ofList w)) v)
      | none => none
    else none
  | [.word w, .punct '-', .word d] =>
    if isName w ∧ n = 8 then
      match number d with
      | some v => some (addressBytes (.symbol (String.ofList w)) (-(v : Int)))
      | none => none
    else none
  | [.punct '-', .word d] => (number d).map fun v => le n ((2 ^ (8 * n) - v % 2 ^ (8 * n)) % 2 ^ (8 * n))
  | _ => none

/-- Operands, separated by commas; `cur` are the tokens of the current one. -/
def operands (n : Nat) : List Tok → List Tok → Option (List Cell)
  | cur, [] => operand n cur
  | cur, t :: ts =>
    if t = .punct ',' then
      match operand n cur, operands n [] ts with
      | some a, some b => some (a ++ b)
      | _, _ => none
    else operands n (cur ++ [t]) ts

/-- A list of operands; it can be empty. -/
def operandList (n : Nat) : List Tok → Option (List Cell)
  | [] => some []
  | t :: ts => operands n [] (t :: ts)

/-! ### Statements -/

inductive Item where
  | cell (c : Cell)
  | label (name : String)
  | align (n : Nat)
  | sect (name : String)
  deriving DecidableEq, Repr

/-- A statement. -/
def statement : List Tok → Option (List Item)
  | [] => some []
  | [.word w, .punct ':'] => if isName w then some [.label (String.ofList w)] else none
  | .word w :: ts =>
    if w = ".byte".toList then (operandList 1 ts).map (·.map .cell)
    else if w = ".word".toList then (operandList 2 ts).map (·.map .cell)
    else if w = ".long".toList then (operandList 4 ts).map (·.map .cell)
    else if w = ".quad".toList then (operandList 8 ts).map (·.map .cell)
    else
      match ts with
      | [.str bs] => if w = ".ascii".toList then some (bs.map fun b => .cell (.byte b)) else none
      | [.word a] =>
        if w = ".zero".toList then (number a).map fun n => (zeros n).map .cell
        else if w = ".align".toList then (number a).map fun n => [.align n]
        else if w = ".section".toList then some [.sect (String.ofList a)]
        else none
      | _ => none
  | _ => none

/-- The statements of a text; `cur` are the tokens of the current line. -/
def statements : List Tok → List Tok → Option (List Item)
  | cur, [] => statement cur
  | cur, t :: ts =>
    if t = .newline then
      match statement cur, statements [] ts with
      | some a, some b => some (a ++ b)
      | _, _ => none
    else statements (cur ++ [t]) ts

/-- What a text defines. -/
def assemble (text : Text) : Option (List Item) :=
  match tokens .start text with
  | none => none
  | some ts => statements [] ts

/-! ### Places -/

/-- The labels of the items with their offsets in their sections: a section starts at 0, `.align n` goes on to a multiple of
`n`.  (Each section is opened once.) -/
def offsets : Nat → List Item → List (String × Nat)
  | _, [] => []
  | o, .cell _ :: is => offsets (o + 1) is
  | o, .label n :: is => (n, o) :: offsets o is
  | o, .align n :: is => offsets ((o + (n - 1)) / n * n) is
  | _, .sect _ :: is => offsets 0 is

/-! ### What is to be defined -/

/-- A string literal: its number and its elements, of one, two or four bytes. -/
structure Literal where
  id : Nat
  width : Nat
  elements : List Nat

/-- The name the literal has in the object file. -/
def literalName (id : Nat) : String := "__kefirrt_string_literal" ++ toString id

/-- References to literals by their names. -/
def named : Cell → Cell
  | .address (.literal id) o i => .address (.symbol (literalName id)) o i
  | c => c

/-- An object: its alignment, its name, its bytes. -/
def objectItems (name : String) (alignment : Nat) (image : List Cell) : List Item :=
  (if alignment > 1 then [.align alignment] else []) ++ .label name :: (image.map named).map .cell

/-- An object of the program. -/
structure Obj where
  name : String
  threadLocal : Bool
  /-- it has initialised parts -/
  hasValues : Bool
  alignment : Nat
  image : List Cell

/-- A section with its objects, if there are any. -/
def sectionItems (sect : String) (objs : List Obj) : List Item :=
  if objs.isEmpty then [] else .sect sect :: objs.flatMap fun o => objectItems o.name o.alignment o.image

/-- A literal. -/
def literalItems (l : Literal) : List Item :=
  .label (literalName l.id) :: (l.elements.flatMap fun e => le l.width e).map .cell

/-- The objects and the string literals of a program, each in the section for its kind. -/
def dataItems (objs : List Obj) (literals : List Literal) : List Item :=
  sectionItems ".data" (objs.filter fun o => !o.threadLocal && o.hasValues) ++
  sectionItems ".tdata" (objs.filter fun o => o.threadLocal && o.hasValues) ++
  sectionItems ".bss" (objs.filter fun o => !o.threadLocal && !o.hasValues) ++
  sectionItems ".tbss" (objs.filter fun o => o.threadLocal && !o.hasValues) ++
  (if literals.isEmpty then [] else .sect ".rodata" :: literals.flatMap literalItems)

end Kefir.AsmData
