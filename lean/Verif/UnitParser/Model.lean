import Verif.UnitParser.Spec
import Verif.DeclParser.Knot

/-! # The rules for declarations, statements and translation units

`source/parser/rules/declaration.c`, `static_assertion.c`, the rules for statements, `function_definition.c`,
`external_declaration.c` and `translation_unit.c`, in the style of `Verif.DeclParser.Model`.

The parser scope (`source/parser/scope.c`) is passed from rule to rule; it is represented by what it declares, which is
justified by C64 (`Verif.Scope`).  Entering a name again as what it is already changes nothing, so a name may be listed
twice here.

Simplifications, besides those of `Verif.DeclParser.Model`: the default configuration (`source/parser/parser.c` 26-38), so
no `goto *`, no implicit `int` and no statement expressions.  `asm` is always rejected, see `compound`.  What a rule that
does not match has entered into the scope is dropped: that happens where `function_definition` has read declarations of
old-style parameters and finds no body, and `declaration` then finds no `;`, `,` or `=` after the declarator.  Names of
enumeration constants are not entered (they would only exclude a typedef of that name in the same block).  The
declaration without declarators has an empty list of them, and not the one without a name. -/

namespace Kefir.UnitParser
open Kefir.Lexer (Punct Keyword)
open Kefir.Parser (Tok Expr Res lp rp comma colon expect tokIs tokLBrace tokRBrace headIs strNode)
open Kefir.Declr
open Kefir.DeclParser (Syn caseOf tokKw skipAttrs decls exprs)

/-- The rule `expression` in a scope. -/
def exprRule (σ : Scope) (ts : List Tok) : Res (Expr Syn) := Parser.run false (exprs σ.names) .expr ts

/-- The rule `constant_expression` in a scope, `source/parser/rules/constant_expression.c` 24-29. -/
def condRule (σ : Scope) (ts : List Tok) : Res (Expr Syn) := Parser.run false (exprs σ.names) .cond ts

/-- The rule `initializer` in a scope. -/
def initRule (σ : Scope) (ts : List Tok) : Res (Expr Syn) := Parser.run false (exprs σ.names) .init ts

/-- The rule `declaration_specifier_list` in a scope. -/
def specsRule (σ : Scope) (ts : List Tok) : Res (List (Spec Syn)) := DeclParser.run (decls σ.names) (.specs []) ts

/-- The rule `declarator` in a scope. -/
def dtorRule (σ : Scope) (ts : List Tok) : Res (Dtor Syn) := DeclParser.run (decls σ.names) .declarator ts

/-! ## Declarations -/

/-- The string literal of a static assertion, `rules/static_assertion.c` 44-53, `rules/string_literal.c` 25-62. -/
def assertMessage (e : Expr Syn) (σ : Scope) (ts : List Tok) : Res (Decl × Scope) :=
  match ts with
  | .str k v :: r =>
    expect (tokIs .rightParenthese) r .error fun r =>
      expect (tokIs .semicolon) r .error fun r => .ok (.assertion e (.str (strNode k) v), σ) r
  | _ => .error

/-- `rules/static_assertion.c` 25-62. -/
def staticAssertion (σ : Scope) (ts : List Tok) : Res (Decl × Scope) :=
  expect (tokKw .kStaticAssert) ts .noMatch fun r =>
    expect (tokIs .leftParenthese) r .error fun r =>
      (condRule σ r).must fun e r => expect (tokIs .comma) r .error fun r => assertMessage e σ r

/-- The end of the loop in `rules/declaration.c` 97-102. -/
def initNext (again : List (Dtor Syn × Option (Expr Syn)) → List Tok → Res (List (Dtor Syn × Option (Expr Syn))))
    (acc : List (Dtor Syn × Option (Expr Syn))) (ts : List Tok) : Res (List (Dtor Syn × Option (Expr Syn))) :=
  expect (tokIs .comma) ts (.ok acc ts) fun r => again acc r

/-- The loop in `rules/declaration.c` 93-103 with `scan_init_declaration`, 45-73; `n` bounds its length. -/
def initDtors (σ : Scope) : Nat → List (Dtor Syn × Option (Expr Syn)) → List Tok →
    Res (List (Dtor Syn × Option (Expr Syn)))
  | 0, _, _ => .fuel
  | n + 1, acc, ts =>
    (dtorRule σ ts).must fun d r =>
      expect (tokIs .assign) r (initNext (initDtors σ n) (acc ++ [(d, none)]) r) fun r =>
        (initRule σ r).must fun e r => initNext (initDtors σ n) (acc ++ [(d, some e)]) r

/-- The loop over the specifiers in `update_scope`, `rules/declaration.c` 114-125. -/
def hasTypedef : List (Spec Syn) → Bool
  | [] => false
  | .storage .typedef :: _ => true
  | _ :: r => hasTypedef r

/-- `kefir_parser_scope_declare_typedef` and `kefir_parser_scope_declare_variable`, `source/parser/scope.c` 45-89,
167-191. -/
def declareName (isTypedef : Bool) (s : String) (σ : Scope) : Option Scope :=
  match σ with
  | [] => none
  | b :: r => match b.lookup s with
    | some k => if k = isTypedef then some (((s, isTypedef) :: b) :: r) else none
    | none => some (((s, isTypedef) :: b) :: r)

/-- The loop over the declarators in `update_scope`, `rules/declaration.c` 127-139. -/
def declareAll (isTypedef : Bool) : List (Dtor Syn × Option (Expr Syn)) → Scope → Option Scope
  | [], σ => some σ
  | (d, _) :: r, σ => match d.ident with
    | some s => match declareName isTypedef s σ with
      | some σ' => declareAll isTypedef r σ'
      | none => none
    | none => declareAll isTypedef r σ

/-- `update_scope`, `rules/declaration.c` 112-141, after the semicolon. -/
def updateScope (σ : Scope) (ss : List (Spec Syn)) (ds : List (Dtor Syn × Option (Expr Syn))) (ts : List Tok) :
    Res (Decl × Scope) :=
  match declareAll (hasTypedef ss) ds σ with
  | some σ' => .ok (.decl ss ds, σ') ts
  | none => .error

/-- `rules/declaration.c` 75-110, 143-167. -/
def declaration (σ : Scope) (ts : List Tok) : Res (Decl × Scope) :=
  (staticAssertion σ ts).orElse <|
    (specsRule σ ts).andThen fun ss r =>
      expect (tokIs .semicolon) r
        ((initDtors σ (r.length + 1) [] r).andThen fun ds r =>
          expect (tokIs .semicolon) r .error fun r => updateScope σ ss ds r)
        fun r => updateScope σ ss [] r

/-! ## Statements -/

/-- The rules and, for the loop, what it has built so far. -/
inductive NT where
  | statement
  | items (acc : List Item)

/-- What the rules build. -/
abbrev NT.Val : NT → Type
  | .statement => Stmt
  | .items _ => List Item

/-- The rules as `parser->ruleset` offers them. -/
abbrev Rec := (nt : NT) → Scope → List Tok → Res (nt.Val × Scope)

/-- The rule `statement` where it has to match, followed by the construction of a statement. -/
def body (R : Rec) (σ : Scope) (ts : List Tok) (k : Stmt → Stmt) : Res (Stmt × Scope) :=
  (R .statement σ ts : Res (Stmt × Scope)).must fun x r => .ok (k x.1, x.2) r

/-- `rules/labeled_statement.c` 25-80. -/
def labeled (R : Rec) (σ : Scope) (ts : List Tok) : Res (Stmt × Scope) :=
  match ts with
  | .ident s :: .punct .colon :: r => skipAttrs r (body R σ r (.label s))
  | .kw .kCase :: r =>
    (condRule σ r).must fun e r => expect (tokIs .colon) r .error fun r => body R σ r (.case e)
  | .kw .kDefault :: r => expect (tokIs .colon) r .error fun r => body R σ r .default
  | _ => .noMatch

/-- `rules/compound_statement.c` 25-68. -/
def compound (R : Rec) (σ : Scope) (ts : List Tok) : Res (List Item × Scope) :=
  if headIs (tokKw .kAsm) ts then .error
  else expect tokLBrace ts .noMatch fun r =>
    (R (.items []) ([] :: σ) r : Res (List Item × Scope)).andThen fun x r => .ok (x.1, x.2.tail) r

/-- The loop in `rules/compound_statement.c` 40-58. -/
def items (R : Rec) (acc : List Item) (σ : Scope) (ts : List Tok) : Res (List Item × Scope) :=
  expect tokRBrace ts
    ((((declaration σ ts).andThen fun x r => .ok (Item.decl x.1, x.2) r).orElse
      ((R .statement σ ts : Res (Stmt × Scope)).andThen fun x r => .ok (Item.stmt x.1, x.2) r)).must fun x r =>
        R (.items (acc ++ [x.1])) x.2 r)
    fun r => .ok (acc, σ) r

/-- `rules/expression_statement.c` 24-62. -/
def expressionStatement (σ : Scope) (ts : List Tok) : Res (Stmt × Scope) :=
  skipAttrs ts <|
    expect (tokIs .semicolon) ts
      ((exprRule σ ts).andThen fun e r =>
        expect (tokIs .semicolon) r .error fun r => .ok (.expr (some e), σ) r)
      fun r => .ok (.expr none, σ) r

/-- An expression in parentheses, `rules/selection_statement.c` 37-46, `rules/iteration_statement.c` 28-37, 55-63. -/
def parenExpr (σ : Scope) (ts : List Tok) (k : Expr Syn → List Tok → Res (Stmt × Scope)) : Res (Stmt × Scope) :=
  expect (tokIs .leftParenthese) ts .error fun r =>
    (exprRule σ r).must fun e r => expect (tokIs .rightParenthese) r .error fun r => k e r

/-- `rules/selection_statement.c` 25-73. -/
def selection (R : Rec) (σ : Scope) (ts : List Tok) : Res (Stmt × Scope) :=
  match ts with
  | .kw .kIf :: r => parenExpr σ r fun e r =>
    (R .statement σ r : Res (Stmt × Scope)).must fun x r =>
      expect (tokKw .kElse) r (.ok (.ifThen e x.1, x.2) r) fun r => body R x.2 r (.ifElse e x.1)
  | .kw .kSwitch :: r => parenExpr σ r fun e r => body R σ r (.switch e)
  | _ => .noMatch

/-- An optional expression up to a token, `rules/iteration_statement.c` 82-91, 97-106, 108-117,
`rules/jump_statement.c` 28-39. -/
def optExpr (p : Punct) (σ : Scope) (ts : List Tok) (k : Option (Expr Syn) → List Tok → Res (Stmt × Scope)) :
    Res (Stmt × Scope) :=
  expect (tokIs p) ts
    ((exprRule σ ts).must fun e r => expect (tokIs p) r .error fun r => k (some e) r)
    fun r => k none r

/-- The end of `scan_for`, `rules/iteration_statement.c` 97-123. -/
def forRest (R : Rec) (i : ForInit) (σ : Scope) (ts : List Tok) : Res (Stmt × Scope) :=
  optExpr .semicolon σ ts fun c r => optExpr .rightParenthese σ r fun n r => body R σ r (.for i c n)

/-- `scan_for`, `rules/iteration_statement.c` 71-124, after the keyword. -/
def scanFor (R : Rec) (σ : Scope) (ts : List Tok) : Res (Stmt × Scope) :=
  expect (tokIs .leftParenthese) ts .error fun r =>
    caseOf (declaration σ r) (fun x r => forRest R (.decl x.1) x.2 r)
      (optExpr .semicolon σ r fun i r => forRest R (i.elim .none .expr) σ r)

/-- `rules/iteration_statement.c` 25-150. -/
def iteration (R : Rec) (σ : Scope) (ts : List Tok) : Res (Stmt × Scope) :=
  match ts with
  | .kw .kWhile :: r => parenExpr σ r fun e r => body R σ r (.while e)
  | .kw .kDo :: r =>
    (R .statement σ r : Res (Stmt × Scope)).must fun x r =>
      expect (tokKw .kWhile) r .error fun r => parenExpr x.2 r fun e r =>
        expect (tokIs .semicolon) r .error fun r => .ok (.doWhile x.1 e, x.2) r
  | .kw .kFor :: r => scanFor R σ r
  | _ => .noMatch

/-- The semicolon of a jump statement, `rules/jump_statement.c` 54-56, 80-82, 90-92. -/
def jumpEnd (st : Stmt) (σ : Scope) (ts : List Tok) : Res (Stmt × Scope) :=
  expect (tokIs .semicolon) ts .error fun r => .ok (st, σ) r

/-- `rules/jump_statement.c` 25-122. -/
def jump (σ : Scope) (ts : List Tok) : Res (Stmt × Scope) :=
  match ts with
  | .kw .kReturn :: r => optExpr .semicolon σ r fun e r => .ok (.ret e, σ) r
  | .kw .kGoto :: .ident s :: r => jumpEnd (.goto s) σ r
  | .kw .kGoto :: _ => .error
  | .kw .kBreak :: r => jumpEnd .break σ r
  | .kw .kContinue :: r => jumpEnd .continue σ r
  | _ => .noMatch

/-- `rules/statement.c` 23-41; `assembly` matches only `asm`, which `compound_statement` has rejected. -/
def statement (R : Rec) (σ : Scope) (ts : List Tok) : Res (Stmt × Scope) :=
  (labeled R σ ts).orElse <|
  ((compound R σ ts).andThen fun x r => .ok (.compound x.1, x.2) r).orElse <|
  (expressionStatement σ ts).orElse <|
  (selection R σ ts).orElse <|
  (iteration R σ ts).orElse <|
  jump σ ts

/-- The table of rules, `source/parser/ruleset.c`. -/
def step (R : Rec) : Rec
  | .statement, σ, ts => statement R σ ts
  | .items acc, σ, ts => items R acc σ ts

/-- The rules with a bound on the depth of calls. -/
def parse : Nat → Rec
  | 0 => fun _ _ _ => .fuel
  | n + 1 => step (parse n)

/-- The depth that a rule needs. -/
def NT.bound : NT → List Tok → Nat
  | .statement, ts => 2 * ts.length
  | .items _, ts => 2 * ts.length + 1

/-- The rules. -/
def run : Rec := fun nt σ ts => parse (nt.bound ts + 1) nt σ ts

/-! ## External declarations -/

/-- `scan_declaration_list`, `rules/function_definition.c` 60-86; `n` bounds the length of the loop. -/
def declarationList : Nat → List Decl → Scope → List Tok → Res (List Decl × Scope)
  | 0, _, _, _ => .fuel
  | n + 1, acc, σ, ts =>
    caseOf (declaration σ ts) (fun x r => declarationList n (acc ++ [x.1]) x.2 r) (.ok (acc, σ) ts)

/-- `rules/function_definition.c` 24-46, 88-177. -/
def functionDefinition (σ : Scope) (ts : List Tok) : Res (External × Scope) :=
  (specsRule σ ts).andThen fun ss r =>
    (dtorRule σ r).andThen fun d r =>
      (declarationList (r.length + 1) [] σ r).andThen fun ks r =>
        (compound run ks.2 r).andThen fun x r => .ok (.fn ss d ks.1 x.1, x.2) r

/-- `rules/external_declaration.c` 23-30. -/
def external (σ : Scope) (ts : List Tok) : Res (External × Scope) :=
  (functionDefinition σ ts).orElse ((declaration σ ts).andThen fun x r => .ok (.decl x.1, x.2) r)

/-- The loop in `rules/translation_unit.c` 37-44; `n` bounds its length.  There are no more tokens before the
sentinel. -/
def externals : Nat → List External → Scope → List Tok → Res (List External)
  | 0, _, _, _ => .fuel
  | n + 1, acc, σ, ts =>
    match ts with
    | [] => .ok acc []
    | _ => (external σ ts).must fun x r => externals n (acc ++ [x.1]) x.2 r

/-- `rules/translation_unit.c` 25-53, from the scope that `kefir_parser_scope_init` (`source/parser/scope.c` 116-126)
makes. -/
def translationUnit (ts : List Tok) : Res (List External) :=
  (external [[]] ts).must fun x r => externals (r.length + 1) [x.1] x.2 r

end Kefir.UnitParser
