import Verif.Preproc.Token

/-!
# C17 6.10.3.1–6.10.3.3: the replacement list with parameters, `#` and `##`

Texts are written without white space, except for what the `#` operator is applied to.
-/

namespace Kefir.Preproc.Spec

open Kefir.Preproc Kefir.Lexer

/-- An operand in a replacement list: a token, or a parameter. -/
inductive Operand where
  | tok (t : Tok)
  | param (n : Name)

/-- A part of a replacement list: an operand on its own, `# n`, or `o ## o₁ ## … ## oₖ`. -/
inductive Piece where
  | plain (o : Operand)
  | str (n : Name)
  | paste (o o₁ : Operand) (os : List Operand)

/-- The tokens of an operand. -/
def Operand.write : Operand → Tok
  | .tok t => t
  | .param n => .ident n false

/-- The tokens of a replacement list. -/
def Piece.write : Piece → List Tok
  | .plain o => [o.write]
  | .str n => [.punct .hash, .ident n false]
  | .paste o o₁ os => o.write :: (o₁ :: os).flatMap fun o => [.punct .doubleHash, o.write]

/-- Characters of identifiers (C17 6.4.2.1). -/
def identChar (c : Char) : Bool := c.isAlphanum || c = '_'

/-- C17 6.10.3.3p3: the token that results from joining two tokens: the one spelled like the two
tokens written one after the other, placemakers being spelled like nothing. -/
inductive Joins : Tok → Tok → Tok → Prop where
  | left (t) : Joins .placemaker t t
  | right (t) : Joins t .placemaker t
  | identIdent (a s b s') : Joins (.ident a s) (.ident b s') (.ident (a ++ b) false)
  | identNumber (a s b) : (∀ c ∈ b, identChar c = true) →
    Joins (.ident a s) (.number b) (.ident (a ++ b) false)
  | numberIdent (a b s) : Joins (.number a) (.ident b s) (.number (a ++ b))
  | numberNumber (a b) : Joins (.number a) (.number b) (.number (a ++ b))
  | punct (p q r : Punct) : p.spelling ++ q.spelling = r.spelling →
    Joins (.punct p) (.punct q) (.punct r)

/-- The tokens without white space. -/
def noWs (l : List Tok) : List Tok := l.filter fun t => !t.isWs

/-- C17 6.10.3.3p2: what an operand of `##` stands for: the tokens of the argument, or a placemaker
if there are none. -/
def Operand.tokens (value : Name → Option (List Tok)) : Operand → Option (List Tok)
  | .tok t => some [t]
  | .param n =>
    match value n with
    | none => none
    | some v => some (if noWs v = [] then [.placemaker] else noWs v)

/-- `Pastes value allowed acc os out`: `out` results from joining `acc` with the operands `os` from
left to right: the last token with the first one of the operand.  All the joined tokens are
`allowed`. -/
inductive Pastes (value : Name → Option (List Tok)) (allowed : Tok → Prop) :
    List Tok → List Operand → List Tok → Prop where
  | nil (acc) : Pastes value allowed acc [] acc
  | cons {xs x y ys z o os out} : o.tokens value = some (y :: ys) → Joins x y z → allowed z →
    Pastes value allowed (xs ++ z :: ys) os out →
    Pastes value allowed (xs ++ [x]) (o :: os) out

/-- `Replaced fmt value allowed pieces out`: `out` is the replacement list `pieces` with the
parameters replaced by the arguments (6.10.3.1), `# n` replaced by the string `fmt` makes of the
argument (6.10.3.2), and the operators `##` applied and placemakers removed (6.10.3.3). -/
inductive Replaced (fmt : List Tok → Option (List Char)) (value : Name → Option (List Tok))
    (allowed : Tok → Prop) : List Piece → List Tok → Prop where
  | nil : Replaced fmt value allowed [] []
  | tok {t rest out} : Replaced fmt value allowed rest out →
    Replaced fmt value allowed (.plain (.tok t) :: rest) (t :: out)
  | param {n v rest out} : value n = some v → Replaced fmt value allowed rest out →
    Replaced fmt value allowed (.plain (.param n) :: rest) (noWs v ++ out)
  | str {n v text rest out} : value n = some v → fmt v = some text →
    Replaced fmt value allowed rest out →
    Replaced fmt value allowed (.str n :: rest) (.string text :: out)
  | paste {o o₁ os acc joined rest out} : o.tokens value = some acc →
    Pastes value allowed acc (o₁ :: os) joined →
    Replaced fmt value allowed rest out →
    Replaced fmt value allowed (.paste o o₁ os :: rest) (joined.filter (· ≠ .placemaker) ++ out)

/-- The name of the macro is not replaced again (6.10.3.4p2). -/
def hide (name : Name) (l : List Tok) : List Tok :=
  l.map fun t => match t with
    | .ident n s => .ident n (s || decide (n = name))
    | t => t

/-- A token that is not taken for a parameter, for `##`, or, in a function-like macro, for `#`. -/
def Literal (formals : List Name) (functionLike : Bool) (t : Tok) : Prop :=
  t ≠ .punct .doubleHash ∧ (functionLike = true → t ≠ .punct .hash) ∧
    ∀ n s, t = .ident n s → n ∉ formals

/-- Tokens of operands are literal tokens; parameters exist. -/
def Operand.ok (formals : List Name) (functionLike : Bool) : Operand → Prop
  | .tok t => Literal formals functionLike t ∧ t.isWs = false
  | .param n => n ∈ formals

/-- The tokens of the arguments of pasted operands are literal. -/
def Operand.pasteOk (formals : List Name) (functionLike : Bool) (value : Name → Option (List Tok))
    (o : Operand) : Prop :=
  o.ok formals functionLike ∧
    ∀ n v, o = .param n → value n = some v → ∀ t ∈ v, Literal formals functionLike t

/-- The operands are as they should be, replacement lists are written without placemakers, and only
function-like macros have the operator `#`. -/
def Piece.ok (formals : List Name) (functionLike : Bool) (value : Name → Option (List Tok)) :
    Piece → Prop
  | .plain o => o.ok formals functionLike ∧ o.write ≠ .placemaker
  | .str n => functionLike = true ∧ n ∈ formals
  | .paste o o₁ os => ∀ x ∈ o :: o₁ :: os, x.pasteOk formals functionLike value

/-- An argument neither begins nor ends with white space, and contains no placemaker. -/
def Trimmed (v : List Tok) : Prop :=
  (∀ t, v.head? = some t → t.isWs = false) ∧ (∀ t, v.getLast? = some t → t.isWs = false) ∧
    .placemaker ∉ v

end Kefir.Preproc.Spec
