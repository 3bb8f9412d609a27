import Verif.Parser.Spec

/-! The expression rules of `source/parser/rules/*.c`, in the default configuration (`source/parser/parser.c` 26-31:
no label addresses, no statement expressions, no omitted conditional operand, no `field:` designators, so
`statement_expression` never matches).

A rule takes the remaining tokens and returns a tree with the tokens that follow, or fails.  `KEFIR_NO_MATCH` is
`noMatch`; `kefir_parser_apply` and `kefir_parser_try_invoke` (`source/parser/parser.c` 77-124) put the cursor back on
it, so a failed rule consumes nothing.  `KEFIR_SYNTAX_ERROR` and `KEFIR_INVALID_CHANGE` are `error`.  The stack of
`struct kefir_parser_ast_builder` holds the nodes that are arguments here.  Memory failures, source locations and
parser extensions are left out.  Rules refer to each other through the function `rec`, as through
`parser->ruleset`; `parse` ties the knot with a bound on the depth of calls, and `fuel` means that the bound was
too small. -/
namespace Kefir.Parser
open Kefir.Lexer (Punct Keyword)

/-- The outcome of a rule. -/
inductive Res (α : Type) where
  | ok (a : α) (rest : List Tok)
  | noMatch
  | error
  | fuel

namespace Res
variable {α β : Type}

/-- `REQUIRE_OK(r)` and what follows it. -/
def andThen : Res α → (α → List Tok → Res β) → Res β
  | ok a r, k => k a r
  | noMatch, _ => noMatch
  | error, _ => error
  | fuel, _ => fuel

/-- `REQUIRE_MATCH_OK(&res, r, KEFIR_SYNTAX_ERROR)` and what follows it. -/
def must : Res α → (α → List Tok → Res β) → Res β
  | ok a r, k => k a r
  | noMatch, _ => error
  | error, _ => error
  | fuel, _ => fuel

/-- `if (res == KEFIR_NO_MATCH) res = r2`. -/
def orElse : Res α → Res α → Res α
  | noMatch, r => r
  | r, _ => r

end Res

/-- `REQUIRE(test of the next token, fail)`, `PARSER_SHIFT` and what follows. -/
def expect {α : Type} (f : Tok → Bool) (ts : List Tok) (fail : Res α) (k : List Tok → Res α) : Res α :=
  match ts with
  | t :: r => if f t then k r else fail
  | [] => fail

/-- `PARSER_TOKEN_IS_PUNCTUATOR`, `headers/kefir/parser/rule_helpers.h`. -/
def tokIs (p : Punct) : Tok → Bool
  | .punct q => q == p
  | _ => false

/-- `PARSER_TOKEN_IS_LEFT_BRACKET`. -/
def tokLBracket (t : Tok) : Bool := tokIs .leftBracket t || tokIs .digraphLeftBracket t
/-- `PARSER_TOKEN_IS_RIGHT_BRACKET`. -/
def tokRBracket (t : Tok) : Bool := tokIs .rightBracket t || tokIs .digraphRightBracket t
/-- `PARSER_TOKEN_IS_LEFT_BRACE`. -/
def tokLBrace (t : Tok) : Bool := tokIs .leftBrace t || tokIs .digraphLeftBrace t
/-- `PARSER_TOKEN_IS_RIGHT_BRACE`. -/
def tokRBrace (t : Tok) : Bool := tokIs .rightBrace t || tokIs .digraphRightBrace t

/-- A test of the next token. -/
def headIs (f : Tok → Bool) : List Tok → Bool
  | t :: _ => f t
  | [] => false

/-- The state the expression rules read: which identifiers the parser scope knows as typedef names
(`kefir_parser_scope_is_typedef`, an unknown identifier is none) and the rule for type names
(`source/parser/rules/type_name.c`), which is a parameter here. -/
structure Env (τ : Type) where
  isTypedef : String → Bool
  typeName : List Tok → Res τ

/-- Tokens that may start a type name: declaration specifiers (6.7p1, 6.7.6p1) and attributes,
`source/parser/rules/declaration_specifier.c` 34-51, 215, 400-475, 496-507, 531-536, 559. -/
def typeStart (isTypedef : String → Bool) : Tok → Bool
  | .ident s => isTypedef s
  | .kw k => k ∈ ([.kTypedef, .kExtern, .kStatic, .kThreadLocal, .kAuto, .kRegister, .kVoid, .kChar, .kShort, .kInt,
      .kLong, .kFloat, .kDouble, .kSigned, .kUnsigned, .kBool, .kComplex, .kAtomic, .kStruct, .kUnion, .kEnum, .kConst,
      .kRestrict, .kVolatile, .kInline, .kNoreturn, .kAlignas, .kAttribute] : List Keyword)
  | _ => false

/-- The rule for type names finds exactly the type names `IsType`: it consumes nothing else, it finds one that is
followed by `)`, `,` or `:`, and without a declaration specifier it does not match.  Names of built-in operators are
reserved and are no typedef names. -/
structure Env.Lawful {τ : Type} (E : Env τ) (IsType : List Tok → τ → Prop) : Prop where
  sound : ∀ ts t r, E.typeName ts = .ok t r → ∃ pre, ts = pre ++ r ∧ IsType pre t
  complete : ∀ pre t f r, IsType pre t → f ∈ [rp, comma, colon] → E.typeName (pre ++ f :: r) = .ok t (f :: r)
  start : ∀ pre t, IsType pre t → ∃ h pre', pre = h :: pre' ∧ typeStart E.isTypedef h = true
  other : ∀ ts, headIs (typeStart E.isTypedef) ts = false → E.typeName ts = .noMatch
  total : ∀ ts, E.typeName ts ≠ .fuel
  reserved : ∀ s, E.isTypedef s = true → builtinNames.lookup s = none

/-- The rule for type names consumes only type names `IsType`. -/
structure Env.Sound {τ : Type} (E : Env τ) (IsType : List Tok → τ → Prop) : Prop where
  sound : ∀ ts t r, E.typeName ts = .ok t r → ∃ pre, ts = pre ++ r ∧ IsType pre t

/-- The rule for type names finds the type names `IsType`, and possibly more. -/
structure Env.Accepts {τ : Type} (E : Env τ) (IsType : List Tok → τ → Prop) : Prop where
  complete : ∀ pre t f r, IsType pre t → f ∈ [rp, comma, colon] → E.typeName (pre ++ f :: r) = .ok t (f :: r)
  start : ∀ pre t, IsType pre t → ∃ h pre', pre = h :: pre' ∧ typeStart E.isTypedef h = true
  other : ∀ ts, headIs (typeStart E.isTypedef) ts = false → E.typeName ts = .noMatch
  total : ∀ ts, E.typeName ts ≠ .fuel
  progress : ∀ ts t r, E.typeName ts = .ok t r → r.length < ts.length
  reserved : ∀ s, E.isTypedef s = true → builtinNames.lookup s = none

theorem Env.Lawful.toSound {τ : Type} {E : Env τ} {IsType : List Tok → τ → Prop} (h : E.Lawful IsType) :
    E.Sound IsType := ⟨h.sound⟩

theorem Env.Lawful.accepts {τ : Type} {E : Env τ} {IsType : List Tok → τ → Prop} (h : E.Lawful IsType) :
    E.Accepts IsType where
  complete := h.complete
  start := h.start
  other := h.other
  total := h.total
  progress ts t r he := by
    obtain ⟨pre, rfl, ht⟩ := h.sound _ _ _ he
    obtain ⟨x, pre', rfl, -⟩ := h.start _ _ ht
    simp
    omega
  reserved := h.reserved

/-- The rules and, for each loop, what the loop has built so far. -/
inductive NT (τ : Type) where
  | primary
  | genericTail (c : Expr τ) (assocs : List (τ × Expr τ)) (dflt : Option (Expr τ))
  | post
  | postTail (e : Expr τ)
  | argTail (f : Expr τ) (args : List (Expr τ))
  | builtinTail (op : BuiltinOp) (args : List (Expr τ))
  | unary
  | cast
  | bin (l : Level)
  | binTail (l : Level) (e : Expr τ)
  | cond
  | reduceAssign
  | assign
  | expr
  | exprTail (e : Expr τ)
  | init
  | initList
  | initTail (items : List (List (Desig (Expr τ)) × Expr τ))
  | desigTail (ds : List (Desig (Expr τ)))

/-- What the rules build. -/
abbrev NT.Val {τ : Type} : NT τ → Type
  | .desigTail _ => List (Desig (Expr τ))
  | _ => Expr τ

/-- The rules as `parser->ruleset` offers them. -/
abbrev Rec (τ : Type) := (nt : NT τ) → List Tok → Res nt.Val

variable {τ : Type}

/-- `kefir_parser_get_builtin_operation`, `source/parser/builtins.c` 25-49. -/
def builtinOp (s : String) : Option BuiltinOp :=
  if s == "__builtin_va_start" then some .vaStart
  else if s == "__builtin_va_end" then some .vaEnd
  else if s == "__builtin_va_copy" then some .vaCopy
  else if s == "__builtin_va_arg" then some .vaArg
  else if s == "__builtin_alloca" then some .alloca
  else if s == "__builtin_alloca_with_align" then some .allocaWithAlign
  else if s == "__builtin_alloca_with_align_and_max" then some .allocaWithAlignAndMax
  else none

/-- The node of a string literal, `rules/string_literal.c` 31-59. -/
def strNode : StrKind → StrKind
  | .multibyte => .multibyte
  | .unicode8 => .multibyte
  | .unicode16 => .unicode16
  | .unicode32 => .unicode32
  | .wide => .wide

/-- The operators that the loop of each binary rule looks for: `rules/multiplicative_expression.c` 34-57,
`additive_expression.c` 36-55, `shift_expression.c` 35-54, `relational_expression.c` 35-66, `equality_expression.c`
35-54, `bitwise_expression.c` 52-57, `logical_expression.c` 52-55. -/
def binTable : Level → Punct → Option BinOp
  | .mul, .star => some .multiply
  | .mul, .slash => some .divide
  | .mul, .percent => some .modulo
  | .add, .plus => some .add
  | .add, .minus => some .subtract
  | .shift, .leftShift => some .shiftLeft
  | .shift, .rightShift => some .shiftRight
  | .rel, .lessThan => some .less
  | .rel, .greaterThan => some .greater
  | .rel, .lessOrEqual => some .lessEqual
  | .rel, .greaterOrEqual => some .greaterEqual
  | .eq, .equal => some .equal
  | .eq, .notEqual => some .notEqual
  | .band, .ampersand => some .bitAnd
  | .bxor, .caret => some .bitXor
  | .bor, .vbar => some .bitOr
  | .land, .doubleAmpersand => some .logicalAnd
  | .lor, .doubleVbar => some .logicalOr
  | _, _ => none

/-- The rule for the operands of each binary rule (same lines). -/
def operandRule (rec : Rec τ) : Level → List Tok → Res (Expr τ)
  | .mul => rec .cast
  | .add => rec (.bin .mul)
  | .shift => rec (.bin .add)
  | .rel => rec (.bin .shift)
  | .eq => rec (.bin .rel)
  | .band => rec (.bin .eq)
  | .bxor => rec (.bin .band)
  | .bor => rec (.bin .bxor)
  | .land => rec (.bin .bor)
  | .lor => rec (.bin .land)

/-- `rules/assignment_expression.c` 32-124. -/
def assignTable : Punct → Option AssignOp
  | .assign => some .simple
  | .assignMultiply => some .multiply
  | .assignDivide => some .divide
  | .assignModulo => some .modulo
  | .assignAdd => some .add
  | .assignSubtract => some .subtract
  | .assignShiftLeft => some .shiftLeft
  | .assignShiftRight => some .shiftRight
  | .assignAnd => some .bitAnd
  | .assignXor => some .bitXor
  | .assignOr => some .bitOr
  | _ => none

/-- The operators of `rules/unary_expression.c` 30-86 whose operand is a cast expression. -/
def unaryTable : Punct → Option UnOp
  | .doublePlus => some .preInc
  | .doubleMinus => some .preDec
  | .ampersand => some .address
  | .star => some .indirection
  | .plus => some .plus
  | .minus => some .negate
  | .tilde => some .invert
  | .exclamationMark => some .logicalNegate
  | _ => none

/-- The start of `rules/generic_selection.c` 31-45, after the keyword. -/
def scanGeneric (rec : Rec τ) (ts : List Tok) : Res (Expr τ) :=
  expect (tokIs .leftParenthese) ts .error fun r =>
    (rec .assign r).must fun c r =>
      if headIs (tokIs .comma) r then rec (.genericTail c [] none) r else .error

/-- The expression of an association and `kefir_ast_generic_selection_append` (`source/ast/nodes/generic_selection.c`
193-220), `rules/generic_selection.c` 59-73. -/
def scanAssoc (rec : Rec τ) (c : Expr τ) (assocs : List (τ × Expr τ)) (dflt : Option (Expr τ)) (t : Option τ)
    (ts : List Tok) : Res (Expr τ) :=
  expect (tokIs .colon) ts .error fun r =>
    (rec .assign r).must fun e r =>
      match t, dflt with
      | some t, dflt => rec (.genericTail c (assocs ++ [(t, e)]) dflt) r
      | none, none => rec (.genericTail c assocs (some e)) r
      | none, some _ => .error

/-- The loop of `rules/generic_selection.c` 46-78. -/
def genericTail (E : Env τ) (rec : Rec τ) (c : Expr τ) (assocs : List (τ × Expr τ)) (dflt : Option (Expr τ))
    (ts : List Tok) : Res (Expr τ) :=
  expect (tokIs .comma) ts
    (expect (tokIs .rightParenthese) ts .error fun r => .ok (.generic c assocs dflt) r) fun r =>
    match E.typeName r with
    | .ok t r => scanAssoc rec c assocs dflt (some t) r
    | .noMatch => expect (· == .kw .kDefault) r .error fun r => scanAssoc rec c assocs dflt none r
    | .error => .error
    | .fuel => .fuel

/-- `rules/primary_expression.c` 23-45 with `identifier.c` 25-42, `constant.c` 25-102, `string_literal.c` 25-62.
A missing `)` is reported as "no match". -/
def primary (E : Env τ) (rec : Rec τ) (ts : List Tok) : Res (Expr τ) :=
  match ts with
  | .ident s :: r => if E.isTypedef s then .noMatch else .ok (.ident s) r
  | .const k v :: r => .ok (.const k v) r
  | .str k v :: r => .ok (.str (strNode k) v) r
  | .kw .kGeneric :: r => scanGeneric rec r
  | .punct .leftParenthese :: r =>
    (rec .expr r).andThen fun e r => expect (tokIs .rightParenthese) r .noMatch fun r => .ok e r
  | _ => .noMatch

/-- `rules/compound_literal.c` 25-48. -/
def compoundLiteral (E : Env τ) (rec : Rec τ) (ts : List Tok) : Res (Expr τ) :=
  expect (tokIs .leftParenthese) ts .noMatch fun r =>
    (E.typeName r).andThen fun t r =>
      expect (tokIs .rightParenthese) r .error fun r =>
        (rec .initList r).andThen fun i r => .ok (.compound t i) r

/-- The name of a member, `rules/postfix_expression.c` 62-72. -/
def scanMember {α : Type} (ts : List Tok) (k : String → List Tok → Res α) : Res α :=
  match ts with
  | .ident s :: r => k s r
  | _ => .error

/-- `scan_postfixes`, `rules/postfix_expression.c` 74-105, with `scan_subscript` (26-37). -/
def postTail (rec : Rec τ) (e : Expr τ) (ts : List Tok) : Res (Expr τ) :=
  match ts with
  | t :: r =>
    if tokLBracket t then
      (rec .expr r).must fun i r => expect tokRBracket r .error fun r => rec (.postTail (.subscript e i)) r
    else if tokIs .leftParenthese t then
      (rec (.argTail e []) r).andThen fun e r => rec (.postTail e) r
    else if tokIs .dot t then scanMember r fun s r => rec (.postTail (.member e s)) r
    else if tokIs .rightArrow t then scanMember r fun s r => rec (.postTail (.arrow e s)) r
    else if tokIs .doublePlus t then rec (.postTail (.unary .postInc e)) r
    else if tokIs .doubleMinus t then rec (.postTail (.unary .postDec e)) r
    else .ok e ts
  | [] => .ok e ts

/-- The loop of `scan_argument_list`, `rules/postfix_expression.c` 39-60.  Without a comma the next token must be the
`)` that ends the loop. -/
def argTail (rec : Rec τ) (f : Expr τ) (args : List (Expr τ)) (ts : List Tok) : Res (Expr τ) :=
  expect (tokIs .rightParenthese) ts
    ((rec .assign ts).must fun a r =>
      expect (tokIs .comma) r
        (expect (tokIs .rightParenthese) r .error fun r => .ok (.call f (args ++ [a])) r)
        fun r => rec (.argTail f (args ++ [a])) r)
    fun r => .ok (.call f args) r

/-- What follows an argument in the loop of `scan_builtin`, `rules/postfix_expression.c` 129-137 and, when the next
token is the `)` that ends the loop, 138-140. -/
def builtinNext (rec : Rec τ) (op : BuiltinOp) (args : List (Expr τ)) (ts : List Tok) : Res (Expr τ) :=
  expect (tokIs .comma) ts
    (expect (tokIs .rightParenthese) ts .error fun r => .ok (.builtin op args) r)
    fun r => rec (.builtinTail op args) r

/-- The loop of `scan_builtin`, `rules/postfix_expression.c` 116-140. -/
def builtinTail (E : Env τ) (rec : Rec τ) (op : BuiltinOp) (args : List (Expr τ)) (ts : List Tok) : Res (Expr τ) :=
  expect (tokIs .rightParenthese) ts
    (match E.typeName ts with
      | .ok t r => builtinNext rec op (args ++ [.typeName t]) r
      | .noMatch => (rec .assign ts).must fun a r => builtinNext rec op (args ++ [a]) r
      | .error => .error
      | .fuel => .fuel)
    fun r => .ok (.builtin op args) r

/-- The part of `rules/postfix_expression.c` 157-166 for texts that do not start with a built-in operator.  `lit` tells
whether postfix operators are scanned after a compound literal; kefir does not, so it is `false` there, and `true`
serves only to show that the grammar of C is unambiguous. -/
def postfixRest (lit : Bool) (E : Env τ) (rec : Rec τ) (ts : List Tok) : Res (Expr τ) :=
  match compoundLiteral E rec ts with
  | .noMatch => (rec .primary ts).andThen fun e r => rec (.postTail e) r
  | .ok e r => if lit then rec (.postTail e) r else .ok e r
  | .error => .error
  | .fuel => .fuel

/-- The call of a built-in operator and what follows, `rules/postfix_expression.c` 107-141 and 152-153. -/
def scanBuiltin (rec : Rec τ) (op : BuiltinOp) (ts : List Tok) : Res (Expr τ) :=
  expect (tokIs .leftParenthese) ts .error fun r =>
    (rec (.builtinTail op []) r).andThen fun e r => rec (.postTail e) r

/-- `rules/postfix_expression.c` 143-170. -/
def postfixExpr (lit : Bool) (E : Env τ) (rec : Rec τ) (ts : List Tok) : Res (Expr τ) :=
  match ts with
  | .ident s :: r =>
    match builtinOp s with
    | some op => scanBuiltin rec op r
    | none => postfixRest lit E rec ts
  | _ => postfixRest lit E rec ts

/-- The type name of `sizeof`, `rules/unary_expression.c` 92-103. -/
def sizeofType (E : Env τ) (ts : List Tok) : Res (Expr τ) :=
  expect (tokIs .leftParenthese) ts .error fun r =>
    (E.typeName r).must fun t r =>
      expect (tokIs .rightParenthese) r .error fun r => .ok (.typeName t) r

/-- The operand of `_Alignof`, `rules/unary_expression.c` 109-128. -/
def alignofOperand (E : Env τ) (rec : Rec τ) (ts : List Tok) : Res (Expr τ) :=
  expect (tokIs .leftParenthese) ts .error fun r =>
    (match E.typeName r with
      | .ok t r => .ok (.typeName t) r
      | .noMatch => (rec .assign r).must fun e r => .ok e r
      | .error => .error
      | .fuel => .fuel : Res (Expr τ)).andThen fun e r =>
      expect (tokIs .rightParenthese) r .error fun r => .ok e r

/-- `rules/unary_expression.c` 25-133. -/
def unary (E : Env τ) (rec : Rec τ) (ts : List Tok) : Res (Expr τ) :=
  match ts with
  | .punct p :: r =>
    match unaryTable p with
    | some op => (rec .cast r).must fun e r => .ok (.unary op e) r
    | none => rec .post ts
  | .kw .kSizeof :: r =>
    ((rec .unary r).orElse (sizeofType E r)).andThen fun e r => .ok (.unary .sizeof e) r
  | .kw .kAlignof :: r => (alignofOperand E rec r).andThen fun e r => .ok (.unary .alignof e) r
  | _ => rec .post ts

/-- `scan_cast`, `rules/cast_expression.c` 25-44. -/
def scanCast (E : Env τ) (rec : Rec τ) (ts : List Tok) : Res (Expr τ) :=
  expect (tokIs .leftParenthese) ts .noMatch fun r =>
    (E.typeName r).andThen fun t r =>
      expect (tokIs .rightParenthese) r .error fun r =>
        ((rec .cast r).orElse (if headIs tokLBrace r then .noMatch else .error)).andThen fun e r => .ok (.cast t e) r

/-- `rules/cast_expression.c` 46-59. -/
def castExpr (E : Env τ) (rec : Rec τ) (ts : List Tok) : Res (Expr τ) := (scanCast E rec ts).orElse (rec .unary ts)

/-- The binary rules (see `binTable`) up to their loop. -/
def binExpr (rec : Rec τ) (l : Level) (ts : List Tok) : Res (Expr τ) :=
  (operandRule rec l ts).andThen fun e r => rec (.binTail l e) r

/-- The loop of the binary rules (see `binTable`). -/
def binTail (rec : Rec τ) (l : Level) (e : Expr τ) (ts : List Tok) : Res (Expr τ) :=
  match ts with
  | .punct p :: r =>
    match binTable l p with
    | some op => (operandRule rec l r).must fun b r => rec (.binTail l (.binary op e b)) r
    | none => .ok e ts
  | _ => .ok e ts

/-- `rules/conditional_expression.c` 25-62. -/
def condExpr (rec : Rec τ) (ts : List Tok) : Res (Expr τ) :=
  (rec (.bin .lor) ts).andThen fun c r =>
    expect (tokIs .questionMark) r (.ok c r) fun r =>
      (rec .expr r).must fun a r =>
        expect (tokIs .colon) r .error fun r =>
          (rec .cond r).must fun b r => .ok (.cond c a b) r

/-- What follows the left operand in `rules/assignment_expression.c` 32-127. -/
def assignRest (rec : Rec τ) (a : Expr τ) (ts : List Tok) : Res (Expr τ) :=
  match ts with
  | .punct p :: r =>
    match assignTable p with
    | some op => (rec .assign r).must fun b r => .ok (.assign op a b) r
    | none => .noMatch
  | _ => .noMatch

/-- `reduce_assignment`, `rules/assignment_expression.c` 27-135. -/
def reduceAssign (rec : Rec τ) (ts : List Tok) : Res (Expr τ) :=
  (rec .unary ts).andThen fun a r => assignRest rec a r

/-- `rules/assignment_expression.c` 137-146. -/
def assignExpr (rec : Rec τ) (ts : List Tok) : Res (Expr τ) :=
  (show Res (Expr τ) from rec .reduceAssign ts).orElse (rec .cond ts)

/-- `rules/expression.c` 27-46 up to its loop. -/
def expr (rec : Rec τ) (ts : List Tok) : Res (Expr τ) := (rec .assign ts).andThen fun e r => rec (.exprTail e) r

/-- The loop of `rules/expression.c` 32-43. -/
def exprTail (rec : Rec τ) (e : Expr τ) (ts : List Tok) : Res (Expr τ) :=
  expect (tokIs .comma) ts (.ok e ts) fun r => (rec .assign r).must fun b r => rec (.exprTail (.comma e b)) r

/-- `rules/initializer.c` 24-46. -/
def initializer (rec : Rec τ) (ts : List Tok) : Res (Expr τ) :=
  (show Res (Expr τ) from rec .initList ts).orElse ((rec .assign ts).must fun e r => .ok e r)

/-- The loop of `scan_designation`, `rules/initializer_designation.c` 88-96, with `scan_index` (4-33) and `scan_member`
(35-50): a new designator is put before the ones already read. -/
def desigTail (rec : Rec τ) (ds : List (Desig (Expr τ))) (ts : List Tok) : Res (List (Desig (Expr τ))) :=
  match ts with
  | t :: r =>
    if tokLBracket t then
      (rec .cond r).must fun e r => expect tokRBracket r .error fun r => rec (.desigTail (.index e :: ds)) r
    else if tokIs .dot t then scanMember r fun s r => rec (.desigTail (.member s :: ds)) r
    else .ok ds ts
  | [] => .ok ds ts

/-- `scan_designation`, `rules/initializer_designation.c` 67-120. -/
def designation (rec : Rec τ) (ts : List Tok) : Res (List (Desig (Expr τ))) :=
  if headIs tokLBracket ts || headIs (tokIs .dot) ts then
    (show Res (List (Desig (Expr τ))) from rec (.desigTail []) ts).andThen fun ds r =>
      expect (tokIs .assign) r .error fun r => .ok ds r
  else .noMatch

/-- The end of `scan_initializer_list`, `rules/initializer_list.c` 80-91. -/
def initEnd (items : List (List (Desig (Expr τ)) × Expr τ)) (ts : List Tok) : Res (Expr τ) :=
  expect tokRBrace ts .error fun r => .ok (.initList items) r

/-- The initializer of an item and what follows, `rules/initializer_list.c` 31-46 and 61-79. -/
def initItem (rec : Rec τ) (items : List (List (Desig (Expr τ)) × Expr τ)) (ds : List (Desig (Expr τ)))
    (ts : List Tok) : Res (Expr τ) :=
  (rec .init ts).andThen fun i r =>
    expect (tokIs .comma) r (initEnd (items ++ [(ds, i)]) r) fun r =>
      if headIs tokRBrace r then initEnd (items ++ [(ds, i)]) r else rec (.initTail (items ++ [(ds, i)])) r

/-- The loop of `scan_initializer_list`, `rules/initializer_list.c` 60-79. -/
def initTail (rec : Rec τ) (items : List (List (Desig (Expr τ)) × Expr τ)) (ts : List Tok) : Res (Expr τ) :=
  match designation rec ts with
  | .ok ds r => initItem rec items ds r
  | .noMatch => initItem rec items [] ts
  | .error => .error
  | .fuel => .fuel

/-- `scan_initializer_list`, `rules/initializer_list.c` 49-92. -/
def initList (rec : Rec τ) (ts : List Tok) : Res (Expr τ) :=
  expect tokLBrace ts .noMatch fun r =>
    if headIs tokRBrace r then initEnd [] r else rec (.initTail []) r

/-- The table of rules, `source/parser/ruleset.c`. -/
def step (lit : Bool) (E : Env τ) (rec : Rec τ) : Rec τ
  | .primary, ts => primary E rec ts
  | .genericTail c as d, ts => genericTail E rec c as d ts
  | .post, ts => postfixExpr lit E rec ts
  | .postTail e, ts => postTail rec e ts
  | .argTail f args, ts => argTail rec f args ts
  | .builtinTail op args, ts => builtinTail E rec op args ts
  | .unary, ts => unary E rec ts
  | .cast, ts => castExpr E rec ts
  | .bin l, ts => binExpr rec l ts
  | .binTail l e, ts => binTail rec l e ts
  | .cond, ts => condExpr rec ts
  | .reduceAssign, ts => reduceAssign rec ts
  | .assign, ts => assignExpr rec ts
  | .expr, ts => expr rec ts
  | .exprTail e, ts => exprTail rec e ts
  | .init, ts => initializer rec ts
  | .initList, ts => initList rec ts
  | .initTail items, ts => initTail rec items ts
  | .desigTail ds, ts => desigTail rec ds ts

/-- The rules with a bound on the depth of calls. -/
def parse (lit : Bool) (E : Env τ) : Nat → Rec τ
  | 0 => fun _ _ => .fuel
  | n + 1 => step lit E (parse lit E n)

end Kefir.Parser
