import Verif.Directive.Spec
/-!
# The directive scanner (`source/preprocessor/directives.c`)

Simplifications: tokens and directives are without their source locations.  The flag `newline_flag` of
the scanner is a parameter and a result; its value after an error is not modelled.  Symbol table and
memory do not fail. `lexer->context->newline` is the newline character, as
source/lexer/context.c:34 sets it.
-/

namespace Kefir.Directive

open Kefir.Lexer Kefir.PpToken

/-- `kefir_lexer_source_cursor_save`. -/
def save : Lex Cursor := fun c => some (.ok c, c)

/-- `kefir_lexer_source_cursor_restore`. -/
def restore (c : Cursor) : Lex Unit := fun _ => some (.ok (), c)

/-- `kefir_preprocessor_tokenize_next`, without the source location. -/
def nextToken (sc : StrCodec) (t : Tries) : Lex Token := do
  let τ ← ppNext sc t
  pure τ.token

/-- source/preprocessor/directives.c:66-80 `kefir_preprocessor_directive_scanner_skip_line`; the flag
becomes true. -/
def skipLine : Lex Unit := do
  let chr ← peek 0
  if chr = 0 then pure ()
  else do
    skip 1
    if chr ≠ ch '\n' then skipLine else pure ()
partial_fixpoint

/-- source/preprocessor/directives.c:82-95 `skip_whitespaces`. -/
def skipWhitespaces (sc : StrCodec) (t : Tries) : Lex Token := do
  let τ ← nextToken sc t
  if τ ≠ .ppWhitespace false then pure τ else skipWhitespaces sc t
partial_fixpoint

/-- source/preprocessor/directives.c:97-115 `scan_pp_tokens`; the flag becomes true. -/
def scanPpTokens (sc : StrCodec) (t : Tries) (buffer : List Token) : Lex (List Token) := do
  let τ ← nextToken sc t
  if τ = .sentinel ∨ τ = .ppWhitespace true then pure buffer
  else scanPpTokens sc t (buffer ++ [τ])
partial_fixpoint

/-- source/preprocessor/directives.c:117-124 `skip_whitespaces_until`, with the newline as terminator. -/
def skipBlanks : Lex Unit := do
  let chr ← peek 0
  if isspace chr ∧ chr ≠ ch '\n' then do
    skip 1
    skipBlanks
  else pure ()
partial_fixpoint

/-- `kefir_preprocessor_directive_type_t`, headers/kefir/preprocessor/directives.h.  PRAGMA is a type
that `match` never returns. -/
inductive Kind where
  | ifD | ifdef | ifndef | elif | elseD | endif | include | define | undef | error | line
  | empty | non | ppToken | sentinel
  deriving DecidableEq, Repr

/-- source/preprocessor/directives.c:164-169: the loop that reads the name; `directive_name` has room for
`room` more characters. -/
def readName : Nat → List Chr → Lex (List Chr)
  | 0, name => pure name
  | room + 1, name => do
    let chr ← peek 0
    if isnondigit chr then do
      skip 1
      readName room (name ++ [chr])
    else pure name

/-- source/preprocessor/directives.c:172-180 `KnownDirectives`. -/
def knownDirectives : List (List Chr × Kind) :=
  [(str "if", .ifD), (str "ifdef", .ifdef), (str "ifndef", .ifndef), (str "elif", .elif),
   (str "else", .elseD), (str "endif", .endif), (str "include", .include), (str "define", .define),
   (str "undef", .undef), (str "error", .error), (str "line", .line)]

/-- source/preprocessor/directives.c:126-193 `kefir_preprocessor_directive_scanner_match`: the type and the
flag. -/
def matchDirective : Lex (Kind × Bool) := do
  let initial ← save
  skipBlanks
  let chr ← peek 0
  if chr = 0 then pure (.sentinel, true)
  else if chr ≠ ch '#' then do
    restore initial
    pure (.ppToken, true)
  else do
    let hash ← save
    skip 1
    skipBlanks
    let chr ← peek 0
    if chr = ch '\n' then pure (.empty, true)
    else do
      let name ← readName 63 []
      match knownDirectives.find? (fun e => e.1 = name) with
      | some e => pure (e.2, false)
      | none => do
        restore hash
        pure (.non, false)

/-- source/preprocessor/directives.c:221-240 `next_ifdef`, 424-443 `next_undef`: the identifier. -/
def nextIdentifier (sc : StrCodec) (t : Tries) : Lex (List UInt8) := do
  let τ ← skipWhitespaces sc t
  match τ with
  | .identifier x => do
    skipLine
    pure x
  | _ => fail .lexerError

/-- source/preprocessor/directives.c:256-295 `next_include`. -/
def nextInclude (sc : StrCodec) (t : Tries) : Lex (List Token) := do
  let state ← save
  let r ← attempt (do skipBlanks; matchHeaderName sc.cd)
  match r with
  | .error .noMatch => do
    restore state
    skipBlanks
    scanPpTokens sc t []
  | .error e => fail e
  | .ok τ => do
    skipLine
    pure [τ]

/-- source/preprocessor/directives.c:306-321: the loop of `next_define_replacement_list`. -/
def replacementLoop (sc : StrCodec) (t : Tries) (buffer : List Token) (τ : Token) : Lex (List Token) := do
  if τ ≠ .sentinel ∧ τ ≠ .ppWhitespace true then do
    let τ' ← nextToken sc t
    replacementLoop sc t (buffer ++ [τ]) τ'
  else pure buffer
partial_fixpoint

/-- source/preprocessor/directives.c:328-340: tokens are popped from the end of the buffer while they are
whitespace. -/
def dropWhitespace (buffer : List Token) : List Token := (buffer.reverse.dropWhile isWhite).reverse

/-- source/preprocessor/directives.c:297-342 `next_define_replacement_list`; the flag becomes true. -/
def replacementList (sc : StrCodec) (t : Tries) (τ : Token) : Lex (List Token) := do
  let τ ← if τ = .ppWhitespace false then skipWhitespaces sc t else pure τ
  let buffer ← replacementLoop sc t [] τ
  pure (dropWhitespace buffer)

/-- source/preprocessor/directives.c:350-378: the loop of `scan_define_parameters`: the parameters,
`vararg`, and the last token. -/
def parameterLoop (sc : StrCodec) (t : Tries) (params : List (List UInt8)) :
    Lex (List (List UInt8) × Bool × Token) := do
  let τ ← skipWhitespaces sc t
  match τ with
  | .identifier x => do
    let τ ← skipWhitespaces sc t
    if τ = .punct .rightParenthese then pure (params ++ [x], false, τ)
    else if τ = .punct .comma then parameterLoop sc t (params ++ [x])
    else fail .lexerError
  | .punct .ellipsis => pure (params, true, .punct .ellipsis)
  | .punct .rightParenthese => pure (params, false, .punct .rightParenthese)
  | _ => fail .lexerError
partial_fixpoint

/-- source/preprocessor/directives.c:344-385 `scan_define_parameters`: the parameters, `vararg`, and the
first token after the parenthesis and whitespace. -/
def defineParameters (sc : StrCodec) (t : Tries) : Lex (List (List UInt8) × Bool × Token) := do
  let (params, vararg, τ) ← parameterLoop sc t []
  let τ ← if τ ≠ .punct .rightParenthese then skipWhitespaces sc t else pure τ
  if τ = .punct .rightParenthese then do
    let τ ← skipWhitespaces sc t
    pure (params, vararg, τ)
  else fail .lexerError

/-- source/preprocessor/directives.c:401-422 `next_define`, 387-399 `next_define_function`. -/
def nextDefine (sc : StrCodec) (t : Tries) : Lex Directive := do
  let τ ← skipWhitespaces sc t
  match τ with
  | .identifier x => do
    let τ ← nextToken sc t
    if τ = .punct .leftParenthese then do
      let (params, vararg, τ) ← defineParameters sc t
      let replacement ← replacementList sc t τ
      pure (.define x (some (params, vararg)) replacement)
    else do
      let replacement ← replacementList sc t τ
      pure (.define x none replacement)
  | _ => fail .lexerError

/-- source/preprocessor/directives.c:504-518 `next_pp_token`: the directive and the flag. -/
def nextPpToken (sc : StrCodec) (t : Tries) : Lex (Directive × Bool) := do
  let τ ← nextToken sc t
  if τ = .sentinel then pure (.sentinel, true)
  else pure (.token τ, τ = .ppWhitespace true)

/-- source/preprocessor/directives.c:520-606 `kefir_preprocessor_directive_scanner_next`, with
`next_if` (195-206), `next_elif` (208-219), `next_else` (242-247), `next_endif` (249-254), `next_error`
(445-458), `next_line` (475-488) and `next_non_directive` (490-502): the directive and the flag. -/
def scannerNext (sc : StrCodec) (t : Tries) (newline : Bool) : Lex (Directive × Bool) := do
  if newline = false then nextPpToken sc t
  else do
    let (kind, flag) ← matchDirective
    match kind with
    | .ifD => do
      let τs ← scanPpTokens sc t []
      pure (.ifD τs, true)
    | .ifdef => do
      let x ← nextIdentifier sc t
      pure (.ifdef x, true)
    | .ifndef => do
      let x ← nextIdentifier sc t
      pure (.ifndef x, true)
    | .elif => do
      let τs ← scanPpTokens sc t []
      pure (.elif τs, true)
    | .elseD => do
      skipLine
      pure (.elseD, true)
    | .endif => do
      skipLine
      pure (.endif, true)
    | .include => do
      let τs ← nextInclude sc t
      pure (.include τs, true)
    | .define => do
      let d ← nextDefine sc t
      pure (d, true)
    | .undef => do
      let x ← nextIdentifier sc t
      pure (.undef x, true)
    | .error => do
      skipBlanks
      let τs ← scanPpTokens sc t []
      pure (.error τs, true)
    | .line => do
      skipBlanks
      let τs ← scanPpTokens sc t []
      pure (.line τs, true)
    | .empty => pure (.empty, flag)
    | .non => do
      let τs ← scanPpTokens sc t []
      pure (.non τs, true)
    | .ppToken => nextPpToken sc t
    | .sentinel => pure (.sentinel, flag)

/-- The results of `kefir_preprocessor_directive_scanner_next`, called again and again until it returns
the sentinel (source/preprocessor/preprocessor.c `kefir_preprocessor_run`, with the files that it reads
by itself).  The scanner begins with `newline_flag` true, directives.c:28-38. -/
inductive Scans (sc : StrCodec) (t : Tries) : Bool → Cursor → List Directive → Prop where
  | stop {newline flag : Bool} {c c' : Cursor}
      (h : scannerNext sc t newline c = some (.ok (.sentinel, flag), c')) : Scans sc t newline c []
  | next {newline flag : Bool} {c c' : Cursor} {d : Directive} {ds : List Directive}
      (h : scannerNext sc t newline c = some (.ok (d, flag), c')) (hd : d ≠ .sentinel)
      (hs : Scans sc t flag c' ds) : Scans sc t newline c (d :: ds)

end Kefir.Directive
