import Verif.Preproc.Token

/-!
# C17 6.10.3: what a text containing macro invocations is replaced by

White space plays no role here: texts are written without it.  A text is a list of items: a token
that is not the name of a macro, the name of an object-like macro, or an invocation of a
function-like macro with its arguments.
-/

namespace Kefir.Preproc.Spec

open Kefir.Preproc Kefir.Lexer

inductive Item where
  | plain (t : Tok)
  | object (name : Name)
  | call (name : Name) (args : List (List Item))

/-- A macro definition; the body is a text in which the parameters are plain identifiers. -/
structure Def where
  /-- `none` for an object-like macro -/
  params : Option (List Name × Bool)
  body : List Item

/-- The names that stand for arguments: the parameters and, for a variadic macro, `__VA_ARGS__`
(C17 6.10.3.1p2). -/
def formals (params : List Name) (variadic : Bool) : List Name :=
  params ++ if variadic then [['_', '_', 'V', 'A', '_', 'A', 'R', 'G', 'S', '_', '_']] else []

/-- The value of a name in a list of formals and arguments. -/
def valueOf : List Name → List (List Tok) → Name → Option (List Tok)
  | f :: fs, v :: vs, n => if f = n then some v else valueOf fs vs n
  | _, _, _ => none

mutual
/-- C17 6.10.3.1: the body of a macro with the arguments in place of the parameters.  The tokens of
an argument have been completely replaced already; as values they are plain. -/
def instItem (value : Name → Option (List Tok)) : Item → List Item
  | .plain (.ident n skip) =>
    match value n with
    | some v => v.map .plain
    | none => [.plain (.ident n skip)]
  | .plain t => [.plain t]
  | .object n => [.object n]
  | .call n args => [.call n (instArgs value args)]
def instText (value : Name → Option (List Tok)) : List Item → List Item
  | [] => []
  | i :: is => instItem value i ++ instText value is
def instArgs (value : Name → Option (List Tok)) : List (List Item) → List (List Item)
  | [] => []
  | a :: as => instText value a :: instArgs value as
end

/-- Token lists separated by commas. -/
def joinCommas : List (List Tok) → List Tok
  | [] => []
  | [a] => a
  | a :: b :: rest => a ++ .punct .comma :: joinCommas (b :: rest)

/-- C17 6.10.3.1, 6.10.3.4: `Expands defs hidden text result` — `result` is the complete macro
replacement of `text`, where the macros named in `hidden` are being replaced (so their names are not
replaced again and are marked as unavailable, 6.10.3.4p2).  The arguments of an invocation are
completely replaced first, then the body of the macro, with the arguments in place of the parameters,
is replaced with the macro's name hidden. -/
inductive Expands (defs : Name → Option Def) : List Name → List Item → List Tok → Prop where
  | nil (hidden) : Expands defs hidden [] []
  | plain {hidden t rest out} :
    Expands defs hidden rest out → Expands defs hidden (.plain t :: rest) (t :: out)
  | object {hidden n d b rest out} :
    n ∉ hidden → defs n = some d → d.params = none →
    Expands defs (n :: hidden) d.body b →
    Expands defs hidden rest out →
    Expands defs hidden (.object n :: rest) (b ++ out)
  | objectHidden {hidden n rest out} :
    n ∈ hidden → Expands defs hidden rest out →
    Expands defs hidden (.object n :: rest) (.ident n true :: out)
  | call {hidden n d params variadic args b rest out} (vals : List (List Tok)) :
    n ∉ hidden → defs n = some d → d.params = some (params, variadic) →
    vals.length = args.length →
    (∀ i (h : i < args.length) (h' : i < vals.length), Expands defs hidden args[i] vals[i]) →
    Expands defs (n :: hidden) (instText (valueOf (formals params variadic) vals) d.body) b →
    Expands defs hidden rest out →
    Expands defs hidden (.call n args :: rest) (b ++ out)
  | callHidden {hidden n args rest out} (vals : List (List Tok)) :
    n ∈ hidden →
    vals.length = args.length →
    (∀ i (h : i < args.length) (h' : i < vals.length), Expands defs hidden args[i] vals[i]) →
    Expands defs hidden rest out →
    Expands defs hidden (.call n args :: rest)
      (.ident n true :: .punct .leftParenthese :: joinCommas vals ++
        .punct .rightParenthese :: out)

mutual
/-- The tokens a text is written with; the names of hidden macros are marked. -/
def writeItem (hidden : List Name) : Item → List Tok
  | .plain t => [t]
  | .object n => [.ident n (decide (n ∈ hidden))]
  | .call n args =>
    .ident n (decide (n ∈ hidden)) :: .punct .leftParenthese ::
      joinCommas (writeArgs hidden args) ++ [.punct .rightParenthese]
def writeText (hidden : List Name) : List Item → List Tok
  | [] => []
  | i :: is => writeItem hidden i ++ writeText hidden is
def writeArgs (hidden : List Name) : List (List Item) → List (List Tok)
  | [] => []
  | a :: as => writeText hidden a :: writeArgs hidden as
end

/-- `toks` is the text `items`, with white space anywhere between the tokens. -/
def Writes (hidden : List Name) (items : List Item) (toks : List Tok) : Prop :=
  toks.filter (fun t => !t.isWs) = writeText hidden items

/-! ## First-order definitions -/

/-- Scanning a text at parenthesis depth `depth`: parentheses match, and commas (and the variadic
argument, which may contain some) occur at depth 0 only if `commas` allows it. -/
def Closed (variadic commas : Bool) : Nat → List Item → Prop
  | depth, [] => depth = 0
  | depth, .plain t :: rest =>
    if t = .punct .leftParenthese then Closed variadic commas (depth + 1) rest
    else if t = .punct .rightParenthese then 0 < depth ∧ Closed variadic commas (depth - 1) rest
    else if t = .punct .comma ∨
        variadic = true ∧ ∃ s, t = .ident ['_', '_', 'V', 'A', '_', 'A', 'R', 'G', 'S', '_', '_'] s then
      (0 < depth ∨ commas = true) ∧ Closed variadic commas depth rest
    else Closed variadic commas depth rest
  | depth, .object _ :: rest => Closed variadic commas depth rest
  | depth, .call _ _ :: rest => Closed variadic commas depth rest

/-- A token that macro replacement leaves alone: not white space or an internal marker, not
`_Pragma`, and not an available macro name, unless it is one of the `params`. -/
def Inert (defs : Name → Option Def) (params : List Name) : Tok → Prop
  | .ident n skip =>
    n ∈ params ∨ (n ≠ ['_', 'P', 'r', 'a', 'g', 'm', 'a'] ∧ (skip = true ∨ defs n = none))
  | .ws _ => False
  | .placemaker => False
  | .sentinel => False
  | _ => True

mutual
/-- A text in which every function-like macro name is followed by its arguments, each argument being
closed; `names` restricts the macros mentioned. -/
def FirstOrderItem (defs : Name → Option Def) (params : List Name) (variadic : Bool)
    (names : Name → Prop) : Item → Prop
  | .plain t => Inert defs params t
  | .object n => names n ∧ n ∉ params ∧ ∃ d, defs n = some d ∧ d.params = none
  | .call n args => names n ∧ n ∉ params ∧ ∃ d ps v, defs n = some d ∧ d.params = some (ps, v) ∧
      args.length = ps.length + (if v then 1 else 0) ∧
      FirstOrderArgs defs params variadic names v args
def FirstOrderText (defs : Name → Option Def) (params : List Name) (variadic : Bool)
    (names : Name → Prop) : List Item → Prop
  | [] => True
  | i :: is => FirstOrderItem defs params variadic names i ∧
      FirstOrderText defs params variadic names is
/-- Only the last argument of a variadic macro may contain commas. -/
def FirstOrderArgs (defs : Name → Option Def) (params : List Name) (variadic : Bool)
    (names : Name → Prop) (lastCommas : Bool) : List (List Item) → Prop
  | [] => True
  | a :: as => FirstOrderText defs params variadic names a ∧
      Closed variadic (lastCommas && as.isEmpty) 0 a ∧
      FirstOrderArgs defs params variadic names lastCommas as
end

/-- First-order macro definitions: no `#` or `##`; closed bodies in which every function-like macro
name is followed by its arguments; distinct parameters; and a rank that decreases from a macro to
the other macros its body mentions (it may mention itself). -/
structure FirstOrderDef (defs : Name → Option Def) (rank : Name → Nat) (n : Name) (d : Def) :
    Prop where
  notPragma : n ≠ ['_', 'P', 'r', 'a', 'g', 'm', 'a']
  pasting : .punct .doubleHash ∉ writeText [] d.body
  stringizing : d.params ≠ none → .punct .hash ∉ writeText [] d.body
  closed : Closed (match d.params with | some (_, v) => v | none => false) false 0 d.body
  distinct : ∀ ps v, d.params = some (ps, v) → (formals ps v).Nodup
  named : ∀ ps v, d.params = some (ps, v) → n ∉ formals ps v
  text : FirstOrderText defs (match d.params with | some (ps, v) => formals ps v | none => [])
    (match d.params with | some (_, v) => v | none => false)
    (fun k => k = n ∨ rank k < rank n) d.body

end Kefir.Preproc.Spec
