import Verif.Directive.Spec
/-!
# Specification: skipped groups (C17 6.10.1p6)

"If it evaluates to false (zero), the group that it controls is skipped: directives are processed only to
determine the directive names in order to keep track of the level of nested conditionals; the rest of the
directives' preprocessing tokens are ignored, as are the other preprocessing tokens in the group."

The specification is about the text of the file: its lines, their comments (translation phase 3) and the
names of their directives.  Spliced lines are one line already (phase 2).  Universal character names in
the name of a directive are not considered.
-/

namespace Kefir.Skip

open Kefir.Lexer Kefir.Directive

/-! ## Lines and comments -/

/-- Where a character of the text is: outside of comments and literals, inside a literal with the given
quote, after a backslash in such a literal, in a comment that ends with its line, in the opening, the body
or the closing of a comment `/* … */`. -/
inductive Mode where
  | code
  | literal (quote : Chr)
  | escape (quote : Chr)
  | lineComment
  | opening
  | comment
  | closing
  deriving DecidableEq, Repr

/-- A line: its characters, with comments and the newline, and what it is when each comment is one
space. -/
structure Line where
  raw : List Chr
  text : List Chr
  deriving DecidableEq, Repr

/-- The lines of a text.  A line ends with a newline that is not in a comment `/* … */`, or with the text.
The first argument tells where the text begins, the second is the part of the line that precedes it. -/
def linesFrom : Mode → Line → List Chr → List Line
  | _, l, [] => if l.raw = [] then [] else [l]
  | m, l, x :: r =>
    let keep : Line := ⟨l.raw ++ [x], l.text ++ [x]⟩
    let hide : Line := ⟨l.raw ++ [x], l.text⟩
    let space : Line := ⟨l.raw ++ [x], l.text ++ [ch ' ']⟩
    match m with
    | .opening => linesFrom .comment hide r
    | .comment => if x = ch '*' ∧ r.head? = some (ch '/') then linesFrom .closing hide r else linesFrom .comment hide r
    | .closing => linesFrom .code hide r
    | m =>
      if x = ch '\n' then hide :: linesFrom .code ⟨[], []⟩ r
      else match m with
        | .lineComment => linesFrom .lineComment hide r
        | .literal q =>
          if x = ch '\\' then linesFrom (.escape q) keep r
          else if x = q then linesFrom .code keep r
          else linesFrom (.literal q) keep r
        | .escape q => linesFrom (.literal q) keep r
        | _ =>
          if x = ch '/' ∧ r.head? = some (ch '*') then linesFrom .opening space r
          else if x = ch '/' ∧ r.head? = some (ch '/') then linesFrom .lineComment space r
          else if x = ch '"' ∨ x = ch '\'' then linesFrom (.literal x) keep r
          else linesFrom .code keep r

/-- The lines of a text that begins outside of comments and literals. -/
def lines (s : List Chr) : List Line := linesFrom .code ⟨[], []⟩ s

/-! ## Directives -/

instance (x : Chr) : Decidable (IsBlank x) := inferInstanceAs (Decidable (_ ∧ _))

/-- White space at the beginning is dropped. -/
def dropBlanks (s : List Chr) : List Chr := s.dropWhile fun x => decide (IsBlank x)

/-- What follows the `#` of a line, or the digraph `%:`, and white space after it. -/
def afterHash (s : List Chr) : Option (List Chr) :=
  match dropBlanks s with
  | x :: r =>
    if x = ch '#' then some (dropBlanks r)
    else if x = ch '%' ∧ r.head? = some (ch ':') then some (dropBlanks r.tail)
    else none
  | [] => none

/-- Letters, underscores, digits. -/
def IsIdent (x : Chr) : Prop := IsNondigit x ∨ IsDigit 10 x

instance (x : Chr) : Decidable (IsIdent x) := inferInstanceAs (Decidable (_ ∨ _))

/-- The name of the directive of a line, if the line is a directive. -/
def directiveName (s : List Chr) : Option (List Chr) := (afterHash s).map fun r => r.takeWhile fun x => decide (IsIdent x)

/-- The directives that begin a conditional, those that begin another group of it, those that end it. -/
def begins : List (List Chr) := [str "if", str "ifdef", str "ifndef"]
def alternatives : List (List Chr) := [str "elif", str "else"]
def ends : List (List Chr) := [str "endif"]

/-- The line is a directive of one of the names. -/
def Line.is (l : Line) (names : List (List Chr)) : Prop := ∃ n ∈ names, directiveName l.text = some n

instance (l : Line) (names : List (List Chr)) : Decidable (l.is names) :=
  inferInstanceAs (Decidable (∃ n ∈ names, _))

/-- 6.10.1p6: the lines of a group that is skipped, where `depth` conditionals have begun in the group and
not ended.  The group ends before an `#elif`, `#else` or `#endif` of its own conditional, or with the
file. -/
def group : Nat → List Line → List Line
  | _, [] => []
  | depth, l :: ls =>
    if l.is begins then l :: group (depth + 1) ls
    else if depth = 0 ∧ (l.is alternatives ∨ l.is ends) then []
    else if l.is ends then l :: group (depth - 1) ls
    else l :: group depth ls

/-- The number of characters of lines. -/
def size (ls : List Line) : Nat := (ls.map fun l => l.raw.length).sum

/-! ## Plain lines

The program does not look at comments in a skipped group, nor at digraphs.  The theorem is about lines that
are plain in the following respects; where one of them is missing, a theorem shows what goes wrong. -/

structure PlainLine (l : Line) : Prop where
  /-- No comment goes over the end of the line. -/
  newline : ch '\n' ∉ l.raw.dropLast
  /-- Comments do not come before the name of a directive. -/
  comments : directiveName l.raw = directiveName l.text
  /-- The line does not begin with a digraph. -/
  digraph : ∀ r, dropBlanks l.raw = ch '%' :: r → r.head? ≠ some (ch ':')
  /-- The name of a conditional directive is not part of a longer name. -/
  name : ∀ r, afterHash l.raw = some r → leadingLetters r ∈ begins ++ alternatives ++ ends →
    directiveName l.raw = some (leadingLetters r)
  /-- `#elif` and `#else` are not followed by a `#`. -/
  rest : ∀ r n s, afterHash l.raw = some r → n ∈ alternatives → r = n ++ s →
    ∀ r', dropBlanks s ≠ ch '#' :: r'

end Kefir.Skip
