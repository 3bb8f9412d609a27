import Verif.PpToken.Props
/-!
# Specification: preprocessing directives (C17 6.10)

Which lines of a source file are preprocessing directives, and what they say.  A file is read token by
token; a line ends with the first newline that no comment hides.  "A preprocessing directive consists of
a sequence of preprocessing tokens that begins with a `#` preprocessing token that is either the first
character in the source file (optionally after white space containing no new-line characters) or that
follows white space containing at least one new-line character, and is ended by the next new-line
character."

The tokens are those that the tokenizer reads (`ppNext`; what it reads is the subject of C78).
-/

namespace Kefir.Directive

open Kefir.Lexer Kefir.PpToken

/-- A directive, or a token of a text line, or the end of the file.  The identifiers are those of macros,
`params` are the parameters of a function-like macro and whether `...` follows them. -/
inductive Directive where
  | ifD (cond : List Token)
  | ifdef (x : List UInt8)
  | ifndef (x : List UInt8)
  | elif (cond : List Token)
  | elseD
  | endif
  | include (τs : List Token)
  | define (x : List UInt8) (params : Option (List (List UInt8) × Bool)) (replacement : List Token)
  | undef (x : List UInt8)
  | error (τs : List Token)
  | line (τs : List Token)
  | pragma (τs : List Token)
  | empty
  | non (τs : List Token)
  | token (τ : Token)
  | sentinel
  deriving DecidableEq, Repr

def isWhite : Token → Bool
  | .ppWhitespace _ => true
  | _ => false

/-- The tokens other than white space. -/
def significant (τs : List Token) : List Token := τs.filter fun τ => !isWhite τ

/-- White space around a list is dropped. -/
def trim (τs : List Token) : List Token := ((τs.dropWhile isWhite).reverse.dropWhile isWhite).reverse

/-- What matters of a directive: white space does not, except inside a replacement list, where the
operator `#` makes it visible. -/
def Directive.observe : Directive → Option Directive
  | .ifD τs => some (.ifD (significant τs))
  | .elif τs => some (.elif (significant τs))
  | .include τs => some (.include (significant τs))
  | .error τs => some (.error (significant τs))
  | .line τs => some (.line (significant τs))
  | .pragma τs => some (.pragma (significant τs))
  | .non τs => some (.non (significant τs))
  | .token τ => if isWhite τ then none else some (.token τ)
  | d => some d

/-! ## Lines -/

section
variable (sc : StrCodec) (t : Tries)

/-- The token `τ` is read at `c`. -/
def Next (c : Cursor) (τ : Token) (c' : Cursor) : Prop :=
  ∃ i j, ppNext sc t c = some (.ok ⟨τ, i, j⟩, c')

/-- Tokens of one line are read one after the other: no newline, not the end. -/
inductive Steps : Cursor → List Token → Cursor → Prop where
  | nil (c : Cursor) : Steps c [] c
  | cons {c c1 c' : Cursor} {τ : Token} {τs : List Token} (hn : τ ≠ .ppWhitespace true)
      (he : τ ≠ .sentinel) (h : Next sc t c τ c1) (hs : Steps c1 τs c') : Steps c (τ :: τs) c'

/-- The tokens from `c` to the end of the line.  The next line begins at `c'`. -/
inductive LineTokens : Cursor → List Token → Cursor → Prop where
  | newline {c c1 c' : Cursor} {τs : List Token} (hs : Steps sc t c τs c1)
      (h : Next sc t c1 (.ppWhitespace true) c') : LineTokens c τs c'
  | lastLine {c c' : Cursor} {τs : List Token} (hs : Steps sc t c τs c') (h : c'.text = []) :
      LineTokens c τs c'

/-- White space without a newline. -/
def White (c c' : Cursor) : Prop := ∃ τs, Steps sc t c τs c' ∧ significant τs = []

end

/-! ## The contents of a directive -/

/-- The tokens between the parentheses of a function-like macro. -/
def paramTokens (ps : List (List UInt8)) (va : Bool) : List Token :=
  List.intercalate [.punct .comma] (ps.map (fun x => [.identifier x]) ++ if va then [[.punct .ellipsis]] else [])

/-- 6.10: what a directive says whose name is followed by the tokens `τs`. -/
inductive Meaning : String → List Token → Directive → Prop where
  | ifD (τs) : Meaning "if" τs (.ifD (significant τs))
  | elif (τs) : Meaning "elif" τs (.elif (significant τs))
  | error (τs) : Meaning "error" τs (.error (significant τs))
  | line (τs) : Meaning "line" τs (.line (significant τs))
  | pragma (τs) : Meaning "pragma" τs (.pragma (significant τs))
  | include (τs) : Meaning "include" τs (.include (significant τs))
  /-- the white space after the name is required (6.10.3p3) -/
  | object (ws : List Token) (x : List UInt8) (r : List Token) (hw : significant ws = [])
      (hr : ∀ τ r', r = τ :: r' → isWhite τ = true) :
      Meaning "define" (ws ++ .identifier x :: r) (.define x none (trim r))
  /-- the parenthesis follows the name immediately (6.10.3p10) -/
  | function (ws : List Token) (x : List UInt8) (inner r : List Token) (ps : List (List UInt8)) (va : Bool)
      (hw : significant ws = []) (hp : significant inner = paramTokens ps va) :
      Meaning "define" (ws ++ .identifier x :: .punct .leftParenthese :: (inner ++ .punct .rightParenthese :: r))
        (.define x (some (ps, va)) (trim r))

/-- The names of 6.10p1. -/
def directiveNames : List String :=
  ["if", "ifdef", "ifndef", "elif", "else", "endif", "include", "define", "undef", "line", "error", "pragma"]

/-- A name as the bytes of an identifier token. -/
def nameBytes (name : String) : List UInt8 := (str name).map UInt8.ofNat

/-- The directives that have one identifier. -/
def named (x : List UInt8) : List (String × Directive) :=
  [("ifdef", .ifdef x), ("ifndef", .ifndef x), ("undef", .undef x)]

/-- The directives that have nothing. -/
def bare : List (String × Directive) := [("else", .elseD), ("endif", .endif)]

/-! ## Plain lines

The scanner does not follow 6.10 everywhere.  The theorem is about files whose lines are plain in the
following respects; where one of them is missing, a theorem shows what goes wrong. -/

/-- A blank: white space other than a newline. -/
def IsBlank (x : Chr) : Prop := x ∈ whitespaceChars ∧ x ≠ ch '\n'

/-- Between `c` and `c'` there are only blanks, no comments. -/
def OnlyBlanks (c c' : Cursor) : Prop :=
  ∃ bl, (∀ x ∈ bl, IsBlank x) ∧ c.text = bl ++ c'.text ∧ c' = c.adv bl.length

/-- The first character that is not a blank is `x`. -/
def FirstChar (s : List Chr) (x : Chr) : Prop :=
  ∃ bl r, (∀ y ∈ bl, IsBlank y) ∧ s = bl ++ x :: r ∧ ¬ IsBlank x

/-- The text is empty or its first character other than blanks is not `#`. -/
def NoHash (s : List Chr) : Prop := s = [] ∨ ∃ x, FirstChar s x ∧ x ≠ ch '#' ∧ x ≠ 0

/-- The line ends at the next newline character, whatever it is part of.  The next line begins after it,
or after white space that the tokenizer reads together with the newline; then `#` is not the first
character before or after that white space. -/
def PlainEnd (sc : StrCodec) (t : Tries) (c c' : Cursor) : Prop :=
  (ch '\n' ∉ c.text ∧ 0 ∉ c.text ∧ c'.text = []) ∨
  ∃ s r, c.text = s ++ ch '\n' :: r ∧ ch '\n' ∉ s ∧ 0 ∉ s ∧
    (c' = c.adv (s.length + 1) ∨
      ((∃ nl, Next sc t (c.adv (s.length + 1)) (.ppWhitespace nl) c') ∧
        NoHash (c.adv (s.length + 1)).text ∧ NoHash c'.text))

/-- The letters and underscores at the beginning of a text. -/
def leadingLetters (s : List Chr) : List Chr := s.takeWhile fun x => decide (IsNondigit x)

/-- The name is spelled with its own characters, and no letter follows it. -/
def PlainName (name : String) (c c' : Cursor) : Prop :=
  ∃ r, c.text = str name ++ r ∧ c' = c.adv (str name).length ∧
    ∀ x r', r = x :: r' → ¬ IsNondigit x

/-! ## Files -/

section
variable (sc : StrCodec) (t : Tries) (plain : Prop)

/-- What follows the name of a directive: `Contents name c c' d` says that the directive `d` has the
given name, that `c` is the place after the name, and that the next line begins at `c'`. -/
inductive Contents : String → Cursor → Cursor → Directive → Prop where
  | tokens {name : String} {c c' : Cursor} {τs : List Token} {d : Directive}
      (hl : LineTokens sc t c τs c') (hm : Meaning name τs d)
      (hh : name = "include" → ∀ c1 x r, White sc t c c1 → c1.text = x :: r → x ∉ str "<\"")
      (hp : plain → (name ≠ "pragma" ∧ (name = "include" → ∃ x, FirstChar c.text x ∧ x ∉ str "<\""))) :
      Contents name c c' d
  | bare {name : String} {c c' : Cursor} {τs : List Token} {d : Directive}
      (hl : LineTokens sc t c τs c') (hτ : significant τs = []) (hd : (name, d) ∈ bare)
      (hp : plain → PlainEnd sc t c c') : Contents name c c' d
  | named {name : String} {c c1 c2 c' : Cursor} {x : List UInt8} {τs : List Token} {d : Directive}
      (hw : White sc t c c1) (hx : Next sc t c1 (.identifier x) c2) (hl : LineTokens sc t c2 τs c')
      (hτ : significant τs = []) (hd : (name, d) ∈ named x)
      (hp : plain → PlainEnd sc t c2 c') : Contents name c c' d
  /-- 6.4.7: a header name; `sys` tells the two forms apart -/
  | header {c c1 c' : Cursor} {sys : Bool} {s r : List Chr} {bs : List UInt8} {τs : List Token}
      (hw : White sc t c c1)
      (ht : c1.text = ch (if sys then '<' else '"') :: (s ++ ch (if sys then '>' else '"') :: r))
      (hs : s ≠ []) (hc : ∀ x ∈ s, x ≠ ch '\n' ∧ x ≠ ch (if sys then '>' else '"'))
      (hb : Encoded sc.encode s bs)
      (hl : LineTokens sc t (c1.adv (s.length + 2)) τs c') (hτ : significant τs = [])
      (hp : plain → OnlyBlanks c c1 ∧ PlainEnd sc t (c1.adv (s.length + 2)) c') :
      Contents "include" c c' (.include [.ppHeader sys bs])

/-- A `#` that begins a directive at the line that begins at `c`: it stands at `ch`, its directive goes
on at `c1`. -/
structure Hash (c ch c1 : Cursor) : Prop where
  white : White sc t c ch
  hash : Next sc t ch (.punct .hash) c1 ∨ Next sc t ch (.punct .digraphHash) c1
  plain : plain → OnlyBlanks c ch ∧ (∃ r, ch.text = Lexer.ch '#' :: r) ∧ c1 = ch.adv 1

/-- A file from `c`, the beginning of a line, to its end: the directives and the tokens of the other
lines. -/
inductive File : Cursor → List Directive → Prop where
  | stop (c : Cursor) (h : c.text = []) : File c []
  | text {c c' : Cursor} {τs : List Token} {ds : List Directive} (hl : LineTokens sc t c τs c')
      (hne : c.text ≠ [])
      (hh : ∀ τ r, significant τs = τ :: r → τ ≠ .punct .hash ∧ τ ≠ .punct .digraphHash)
      (hp : plain → NoHash c.text) (hf : File c' ds) :
      File c ((significant τs).map .token ++ ds)
  | directive {c ch c1 c2 c3 c' : Cursor} {name : String} {d : Directive} {ds : List Directive}
      (hh : Hash sc t plain c ch c1) (hw : White sc t c1 c2) (hn : Next sc t c2 (.identifier (nameBytes name)) c3)
      (hd : Contents sc t plain name c3 c' d) (hp : plain → OnlyBlanks c1 c2 ∧ PlainName name c2 c3)
      (hf : File c' ds) : File c (d :: ds)
  | empty {c ch c1 c' : Cursor} {τs : List Token} {ds : List Directive}
      (hh : Hash sc t plain c ch c1) (hl : LineTokens sc t c1 τs c') (hτ : significant τs = [])
      (hp : plain → ∃ c2, OnlyBlanks c1 c2 ∧ (∃ r, c2.text = Lexer.ch '\n' :: r) ∧
        Next sc t c2 (.ppWhitespace true) c')
      (hf : File c' ds) : File c (.empty :: ds)
  | non {c ch c1 c' : Cursor} {τ0 τ : Token} {τs r : List Token} {ds : List Directive}
      (hh : Hash sc t plain c ch c1) (hl : LineTokens sc t ch (τ0 :: τs) c') (h0 : isWhite τ0 = false)
      (hτ : significant τs = τ :: r)
      (hn : ∀ name ∈ directiveNames, τ ≠ .identifier (nameBytes name))
      (hp : plain → ∃ c2 x r, OnlyBlanks c1 c2 ∧ c2.text = x :: r ∧ x ∉ whitespaceChars ∧
        ∀ name ∈ directiveNames, leadingLetters c2.text ≠ str name)
      (hf : File c' ds) : File c (.non (significant (τ0 :: τs)) :: ds)

end

end Kefir.Directive
