import Verif.Preproc.Token

/-!
# Model of macro application: `source/preprocessor/user_macro.c`

Simplifications: allocation succeeds; token sequences are lists (`C58_sequence_is_a_list`); the
hash tree of arguments is an association list (`C01_hashtree_is_finite_map`); the text produced by
the `#` operator is a parameter `format` (it is `kefir_preprocessor_format_string`, which depends on
the C library's locale); no extension tokens.

The loop of `run_replacement_list_substitutions_impl` need not terminate (a theorem below), so it
takes the number of iterations allowed: `Out.fuel` says that they did not suffice.
-/

namespace Kefir.Preproc

open Kefir.Lexer (Punct)

/-- Outcome of a computation with an iteration bound. -/
inductive Out (α : Type) where
  | ok (a : α)
  | err (e : Err)
  | fuel
  deriving Repr, DecidableEq

/-- Sequencing: `REQUIRE_OK`. -/
@[simp] def Out.bind {α β : Type} : Out α → (α → Out β) → Out β
  | .ok a, f => f a
  | .err e, _ => .err e
  | .fuel, _ => .fuel

/-- `struct kefir_preprocessor_user_macro`, `headers/kefir/preprocessor/user_macro.h`: `params` is
`none` for an object-like macro, otherwise the parameter list and the `vararg` flag. -/
structure Macro where
  name : Name
  params : Option (List Name × Bool)
  body : List Tok
  deriving DecidableEq, Repr

/-- The arguments of an invocation by parameter name (`arg_tree`). -/
abbrev Args := List (Name × List Tok)

/-- `kefir_hashtree_at` on `arg_tree`. -/
def Args.find (args : Args) (n : Name) : Option (List Tok) :=
  match args with
  | [] => none
  | (m, v) :: rest => if m = n then some v else Args.find rest n

/-- `"__VA_ARGS__"`, `source/preprocessor/user_macro.c:65`. -/
def vaArgs : Name := ['_', '_', 'V', 'A', '_', 'A', 'R', 'G', 'S', '_', '_']

/-- `kefir_hashtree_insert` on `arg_tree`. -/
def Args.insert (args : Args) (n : Name) (v : List Tok) : Res Args :=
  match args.find n with
  | some _ => .error .alreadyExists
  | none => .ok (args ++ [(n, v)])

/-- `build_function_macro_args_tree`, `source/preprocessor/user_macro.c:44-69`. -/
def buildArgs (vararg : Bool) : List Name → List (List Tok) → Args → Res Args
  | [], args, tree =>
    if vararg then
      match args with
      | [] => .error .outOfBounds
      | a :: _ => tree.insert vaArgs a
    else .ok tree
  | _ :: _, [], _ => .error .outOfBounds
  | p :: ps, a :: as, tree =>
    match tree.insert p a with
    | .error e => .error e
    | .ok tree' => buildArgs vararg ps as tree'

/-- `concat_resolve_left_argument`, `source/preprocessor/user_macro.c:130-161`: the tokens before
the operand and the operand. -/
def resolveLeft (args : Option Args) (t : Tok) : List Tok × Tok :=
  match t, args with
  | .ident n _, some as =>
    match as.find n with
    | none => ([], t)
    | some v =>
      match v.getLast? with
      | none => ([], .placemaker)
      | some l => (v.dropLast, l)
  | _, _ => ([], t)

/-- `concat_resolve_right_argument`, `source/preprocessor/user_macro.c:163-194`: the operand and the
tokens after it. -/
def resolveRight (args : Option Args) (t : Tok) : Tok × List Tok :=
  match t, args with
  | .ident n _, some as =>
    match as.find n with
    | none => (t, [])
    | some v =>
      match v with
      | [] => (.placemaker, [])
      | h :: r => (h, r)
  | _, _ => (t, [])

/-- The `Combinations` table of `macro_concat_punctuators`,
`source/preprocessor/user_macro.c:252-282`. -/
def combinations : List (Punct × Punct × Punct) := [
  (.minus, .greaterThan, .rightArrow),
  (.minus, .minus, .doubleMinus),
  (.plus, .plus, .doublePlus),
  (.lessThan, .lessThan, .leftShift),
  (.greaterThan, .greaterThan, .rightShift),
  (.lessThan, .assign, .lessOrEqual),
  (.greaterThan, .assign, .greaterOrEqual),
  (.assign, .assign, .equal),
  (.exclamationMark, .assign, .notEqual),
  (.ampersand, .ampersand, .doubleAmpersand),
  (.vbar, .vbar, .doubleVbar),
  (.star, .assign, .assignMultiply),
  (.slash, .assign, .assignDivide),
  (.percent, .assign, .assignModulo),
  (.plus, .assign, .assignAdd),
  (.minus, .assign, .assignSubtract),
  (.leftShift, .assign, .assignShiftLeft),
  (.lessThan, .lessOrEqual, .assignShiftLeft),
  (.rightShift, .assign, .assignShiftRight),
  (.greaterThan, .greaterOrEqual, .assignShiftRight),
  (.ampersand, .assign, .assignAnd),
  (.caret, .assign, .assignXor),
  (.vbar, .assign, .assignOr),
  (.hash, .hash, .doubleHash),
  (.lessThan, .colon, .digraphLeftBracket),
  (.colon, .greaterThan, .digraphRightBracket),
  (.lessThan, .percent, .digraphLeftBrace),
  (.percent, .greaterThan, .digraphRightBrace),
  (.percent, .colon, .digraphHash),
  (.digraphHash, .digraphHash, .digraphDoubleHash)]

/-- The search of `macro_concat_punctuators`, `source/preprocessor/user_macro.c:284-295`. -/
def concatPunct (p q : Punct) : List (Punct × Punct × Punct) → Option Punct
  | [] => none
  | (l, r, res) :: rest => if l = p ∧ r = q then some res else concatPunct p q rest

/-- `concat_tokens_impl` and `macro_concatenation_impl`,
`source/preprocessor/user_macro.c:206-240, 312-397`. -/
def concatTokens (left right : Tok) : Res Tok :=
  match left, right with
  | .placemaker, r => .ok r
  | l, .placemaker => .ok l
  | .ident a _, .ident b _ => .ok (.ident (a ++ b) false)
  | .ident a _, .number b => .ok (.ident (a ++ b) false)
  | .number a, .ident b _ => .ok (.number (a ++ b))
  | .number a, .number b => .ok (.number (a ++ b))
  | .punct p, .punct q =>
    match concatPunct p q combinations with
    | some r => .ok (.punct r)
    | none => .error .lexerError
  | _, _ => .error .lexerError

/-- `macro_concatenation`, `source/preprocessor/user_macro.c:399-417`. -/
def macroConcatenation (args : Option Args) (l r : Tok) : Res (List Tok) :=
  let left := resolveLeft args l
  let right := resolveRight args r
  match concatTokens left.2 right.1 with
  | .error e => .error e
  | .ok t => .ok (left.1 ++ [t] ++ right.2)

/-- `match_concatenation`, `source/preprocessor/user_macro.c:419-468`: `none` is `KEFIR_NO_MATCH`
(the sequence is then unchanged), otherwise the new sequence. -/
def matchConcatenation (args : Option Args) (left : Tok) (seq : List Tok) :
    Res (Option (List Tok)) :=
  if left.isWs then .ok none
  else
    match seq.dropWhile Tok.isWs with
    | .punct .doubleHash :: rest =>
      match rest.dropWhile Tok.isWs with
      | [] => .error .lexerError
      | right :: rest' =>
        match macroConcatenation args left right with
        | .error e => .error e
        | .ok result => .ok (some (result ++ rest'))
    | _ => .ok none

/-- `run_replacement_list_substitutions_impl`, `source/preprocessor/user_macro.c:470-535`. -/
def substBody (format : List Tok → Res (List Char)) (args : Option Args) :
    Nat → List Tok → List Tok → Out (List Tok)
  | 0, _, _ => .fuel
  | _ + 1, [], result => .ok result
  | n + 1, t :: seq, result =>
    match matchConcatenation args t seq with
    | .error e => .err e
    | .ok (some seq') => substBody format args n seq' result
    | .ok none =>
      match args, t with
      | some as, .ident name skip =>
        match as.find name with
        | some v => substBody format args n seq (result ++ v)
        | none => substBody format args n seq (result ++ [.ident name skip])
      | some as, .punct .hash =>
        match seq.dropWhile Tok.isWs with
        | .ident name _ :: rest =>
          match as.find name with
          | none => .err .lexerError
          | some v =>
            match format v with
            | .error e => .err e
            | .ok text => substBody format args n rest (result ++ [.string text])
        | _ => .err .lexerError
      | _, t => substBody format args n seq (result ++ [t])

/-- Marking in `user_macro_apply`, `source/preprocessor/user_macro.c:607-612`. -/
def paint (name : Name) : Tok → Tok
  | .ident n skip => if n = name then .ident n true else .ident n skip
  | t => t

/-- The loop of `user_macro_apply`, `source/preprocessor/user_macro.c:607-621`. -/
def finish (name : Name) (inner : List Tok) : List Tok :=
  (inner.map (paint name)).filter (fun t => t ≠ .placemaker)

/-- `user_macro_apply`, `apply_function_macro`, `apply_object_macro`,
`source/preprocessor/user_macro.c:556-625`. -/
def applyMacro (format : List Tok → Res (List Char)) (fuel : Nat) (m : Macro)
    (args : Option (List (List Tok))) : Out (List Tok) :=
  match m.params, args with
  | some (params, vararg), some as =>
    if as.length < params.length + (if vararg then 1 else 0) then .err .outOfBounds
    else
      match buildArgs vararg params as [] with
      | .error e => .err e
      | .ok tree => (substBody format (some tree) fuel m.body []).bind fun r => .ok (finish m.name r)
  | none, none => (substBody format none fuel m.body []).bind fun r => .ok (finish m.name r)
  | _, _ => .err .invalidParameter

end Kefir.Preproc
