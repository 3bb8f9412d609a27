import Verif.Preproc.Macro

/-!
# Model of macro substitution: `source/preprocessor/substitutions.c`

Simplifications: as in `Macro`; the macro scope is a function from names to macros; predefined
macros are object-like macros of that function (their replacement, `__LINE__` included, is taken as
a fixed token list, and their application does not mark identifiers, of which they produce none).
The scan need not terminate, so it takes a bound on the number of iterations.
-/

namespace Kefir.Preproc

open Kefir.Lexer (Punct)

/-- `kefir_preprocessor_substitution_context_t`. -/
inductive Ctx where
  | normal
  | ifCondition
  deriving DecidableEq, Repr

/-- `function_macro_argument_buffer_append`, `source/preprocessor/substitutions.c:56-80`: the next
token is moved into the last argument (the first one is created on demand). -/
def appendTok (args : List (List Tok)) (t : Tok) : List (List Tok) :=
  match args.getLast? with
  | none => [[t]]
  | some l => args.dropLast ++ [l ++ [t]]

/-- The loop of `scan_function_macro_arguments`, `source/preprocessor/substitutions.c:122-164`, and
the check for a right parenthesis after it (166-168): the arguments and the sequence after the
parenthesis. -/
def scanArgs (vararg : Bool) : List Tok → List (List Tok) → Nat → Nat → Res (List (List Tok) × List Tok)
  | [], _, _, _ => .error .lexerError
  | t :: seq, args, remaining, nested =>
    match t with
    | .punct .leftParenthese => scanArgs vararg seq (appendTok args t) remaining (nested + 1)
    | .punct .rightParenthese =>
      if nested > 0 then scanArgs vararg seq (appendTok args t) remaining (nested - 1)
      else .ok (args, seq)
    | .punct .comma =>
      if nested = 0 then
        if remaining = 0 then
          if vararg then scanArgs vararg seq (appendTok args t) remaining nested
          else .error .lexerError
        else
          if remaining - 1 > 0 || vararg then
            let args' := if args.length = 0 then [[]] else args
            scanArgs vararg (seq.dropWhile Tok.isWs) (args' ++ [[]]) (remaining - 1) nested
          else .error .lexerError
      else scanArgs vararg seq (appendTok args t) remaining nested
    | .sentinel => .error .lexerError
    | _ => scanArgs vararg seq (appendTok args t) remaining nested
termination_by seq => seq.length
decreasing_by
  all_goals simp_wf
  all_goals try omega
  exact Nat.lt_succ_of_le (List.dropWhile_sublist _).length_le

/-- Trailing white space is dropped by `prepare_function_macro_argument`,
`source/preprocessor/substitutions.c:104-108`. -/
def dropTrailingWs (l : List Tok) : List Tok := (l.reverse.dropWhile Tok.isWs).reverse

/-- `run_pragma_operator`, `source/preprocessor/substitutions.c:393-424`. -/
def pragmaOperator (seq : List Tok) : Res (List Tok) :=
  match seq.dropWhile Tok.isWs with
  | .punct .leftParenthese :: r1 =>
    match r1.dropWhile Tok.isWs with
    | .string _ :: r2 =>
      match r2.dropWhile Tok.isWs with
      | .punct .rightParenthese :: r3 => .ok r3
      | _ => .error .lexerError
    | _ => .error .lexerError
  | _ => .error .lexerError

/-- `"_Pragma"`, `source/preprocessor/substitutions.c:445`. -/
def pragmaName : Name := ['_', 'P', 'r', 'a', 'g', 'm', 'a']

theorem dropWs_len (l : List Tok) : (l.dropWhile Tok.isWs).length ≤ l.length :=
  (List.dropWhile_sublist _).length_le

theorem pragmaOperator_len {seq r : List Tok} (h : pragmaOperator seq = .ok r) :
    r.length ≤ seq.length := by
  rw [pragmaOperator] at h
  have h1 := dropWs_len seq
  split at h
  · rename_i r1 e1
    have h2 := dropWs_len r1
    rw [e1] at h1
    split at h
    · rename_i r2 e2
      have h3 := dropWs_len r2
      rw [e2] at h2
      split at h
      · rename_i r3 e3
        rw [e3] at h3
        simp only [Except.ok.injEq] at h
        subst h
        simp only [List.length_cons] at h1 h2 h3
        omega
      · simp at h
    · simp at h
  · simp at h

/-- The second loop of `run_substitutions_impl`, `source/preprocessor/substitutions.c:433-458`. -/
def pragmaPass (l : List Tok) (buffer : List Tok) : Res (List Tok) :=
  match l with
  | [] => .ok buffer
  | .ident n skip :: seq =>
    if n = pragmaName then
      match _h : pragmaOperator seq with
      | .error e => .error e
      | .ok seq' => pragmaPass seq' buffer
    else pragmaPass seq (buffer ++ [.ident n skip])
  | t :: seq => pragmaPass seq (buffer ++ [t])
termination_by l.length
decreasing_by
  · have := pragmaOperator_len _h
    simp; omega
  · simp
  · simp

/-- `Res` into `Out`. -/
@[simp] def liftRes {α : Type} : Res α → Out α
  | .ok a => .ok a
  | .error e => .err e

/-- `f` on every element, stopping at the first failure. -/
def mapOut {α β : Type} (f : α → Out β) : List α → Out (List β)
  | [] => .ok []
  | a :: as => (f a).bind fun b => (mapOut f as).bind fun bs => .ok (b :: bs)

/-- `substitute_defined_operator`, `source/preprocessor/substitutions.c:281-337`: the sequence with
the result pushed in front. -/
def definedOperator (macros : Name → Option Macro) (seq : List Tok) : Res (List Tok) :=
  let answer (n : Name) : Tok := .number (if (macros n).isSome then ['1'] else ['0'])
  match seq.dropWhile Tok.isWs with
  | .ident n _ :: rest => .ok (answer n :: rest)
  | .punct .leftParenthese :: rest =>
    match rest.dropWhile Tok.isWs with
    | .ident n _ :: rest' =>
      match rest'.dropWhile Tok.isWs with
      | .punct .rightParenthese :: rest'' => .ok (answer n :: rest'')
      | _ => .error .lexerError
    | _ => .error .lexerError
  | _ => .error .lexerError

/-- `"defined"`, `source/preprocessor/substitutions.c:343`. -/
def definedName : Name := ['d', 'e', 'f', 'i', 'n', 'e', 'd']

/-- `scan_function_macro_arguments`, `source/preprocessor/substitutions.c:112-180`, on the sequence
whose first token is the left parenthesis; `run` is `kefir_preprocessor_run_substitutions` on an
argument. -/
def scanArguments (run : List Tok → Out (List Tok)) (argc : Nat) (vararg : Bool) (seq : List Tok) :
    Out (List (List Tok) × List Tok) :=
  match scanArgs vararg ((seq.drop 1).dropWhile Tok.isWs) [] argc 0 with
  | .error e => .err e
  | .ok (args, rest) =>
    let args := if args.length = 0 && (argc = 1 || vararg) then [[]] else args
    if args.length = argc + (if vararg then 1 else 0) then
      (mapOut (fun a => (run a).bind fun r => .ok (dropTrailingWs r)) args).bind fun as =>
        .ok (as, rest)
    else .err .lexerError

/-- `substitute_identifier` with `substitute_object_macro`, `substitute_function_macro` and
`substitute_unknown_identifier`, `source/preprocessor/substitutions.c:26-40, 182-236, 270-279,
339-361`: `none` is `KEFIR_NO_MATCH` (the sequence is then unchanged). -/
def substIdentifier (format : List Tok → Res (List Char)) (macros : Name → Option Macro)
    (run : List Tok → Out (List Tok)) (fuel : Nat) (ctx : Ctx) (name : Name) (seq : List Tok) :
    Out (Option (List Tok)) :=
  if name = definedName && ctx = .ifCondition then
    (liftRes (definedOperator macros seq)).bind fun s => .ok (some s)
  else
    match macros name with
    | none => if ctx = .ifCondition then .ok (some (.number ['0'] :: seq)) else .ok none
    | some m =>
      match m.params with
      | none => (applyMacro format fuel m none).bind fun b => .ok (some (b ++ seq))
      | some (params, vararg) =>
        match seq.dropWhile Tok.isWs with
        | .punct .leftParenthese :: rest =>
          (scanArguments run params.length vararg (.punct .leftParenthese :: rest)).bind
            fun (args, rest') =>
              (applyMacro format fuel m (some args)).bind fun b => .ok (some (b ++ rest'))
        | _ => .ok none

/-- `run_substitutions`, `source/preprocessor/substitutions.c:363-391`.  Arguments of function-like
macros are processed by `kefir_preprocessor_run_substitutions` (462-479), which is this loop followed
by `pragmaPass`. -/
def expand (format : List Tok → Res (List Char)) (macros : Name → Option Macro) :
    Nat → Ctx → List Tok → List Tok → Out (List Tok)
  | 0, _, _, _ => .fuel
  | _ + 1, _, [], result => .ok result
  | n + 1, ctx, t :: seq, result =>
    match t with
    | .ident name skip =>
      if !skip || ctx = .ifCondition then
        (substIdentifier format macros
          (fun a => (expand format macros n .normal a []).bind fun r => liftRes (pragmaPass r []))
          n ctx name seq).bind fun s =>
            match s with
            | none => expand format macros n ctx seq (result ++ [.ident name skip])
            | some seq' => expand format macros n ctx seq' result
      else expand format macros n ctx seq (result ++ [.ident name skip])
    | t => expand format macros n ctx seq (result ++ [t])

/-- `kefir_preprocessor_run_substitutions`, `source/preprocessor/substitutions.c:426-479`. -/
def runSubstitutions (format : List Tok → Res (List Char)) (macros : Name → Option Macro)
    (fuel : Nat) (ctx : Ctx) (buffer : List Tok) : Out (List Tok) :=
  (expand format macros fuel ctx buffer []).bind fun r => liftRes (pragmaPass r [])

end Kefir.Preproc
