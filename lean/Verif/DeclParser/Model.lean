import Verif.DeclParser.Spec
import Verif.Parser.Fuel

/-! # The rules for declarations

`source/parser/rules/declaration_specifier.c`, `declarator.c`, `type_name.c` and `static_assertion.c`, in the style of
`Verif.Parser.Model`: a rule takes the remaining tokens and returns a tree with the tokens that follow, or fails.

Simplifications: attributes are rejected, as with the option `fail-on-attributes`
(`source/parser/rules/attribute.c` 60-63).  The parser scope is fixed: an enumeration constant that has the name of a
visible typedef, which would hide it, is rejected (other enumeration constants do not change which names are typedef
names).  Memory failures and source locations are left out.  Each loop is a rule of its own, `NT`, with what it has built
so far. -/

namespace Kefir.DeclParser
open Kefir.Lexer (Punct Keyword)
open Kefir.Parser (Tok Expr Res lp rp comma colon expect tokIs tokLBracket tokRBracket tokLBrace tokRBrace headIs
  strNode)
open Kefir.Declr

/-- Results of rules whose failure to match is handled: `if (res == KEFIR_NO_MATCH) …; else REQUIRE_OK(res)`. -/
def caseOf {α β : Type} : Res α → (α → List Tok → Res β) → Res β → Res β
  | .ok a r, k, _ => k a r
  | .noMatch, _, z => z
  | .error, _, _ => .error
  | .fuel, _, _ => .fuel

/-- `PARSER_TOKEN_IS_KEYWORD`, `headers/kefir/parser/rule_helpers.h`. -/
def tokKw (k : Keyword) : Tok → Bool
  | .kw q => q == k
  | _ => false

/-- `PARSER_TOKEN_IS_IDENTIFIER`. -/
def tokIdent : Tok → Bool
  | .ident _ => true
  | _ => false

/-- The state the rules read: the typedef names of the parser scope and the rules `assignment_expression` and
`constant_expression` (`source/parser/rules/constant_expression.c` 24-29), which are parameters here. -/
structure Env where
  isTypedef : String → Bool
  assign : List Tok → Res (Expr Syn)
  cond : List Tok → Res (Expr Syn)

/-- The rules and, for each loop, what it has built so far. -/
inductive NT where
  | spec (has : Bool)
  | specs (acc : List (Spec Syn))
  | declarator
  | tail (abstract : Bool) (d : Dtor Syn)
  | abstract
  | ptrTail
  | param
  | params (acc : List (List (Spec Syn) × Dtor Syn))
  | members (acc : List (Member Syn))
  | member
  | mdtors (acc : List (Dtor Syn × Option Syn))
  | enums (acc : List (String × Option Syn))
  | typeName

/-- What the rules build. -/
abbrev NT.Val : NT → Type
  | .spec _ => Spec Syn
  | .specs _ => List (Spec Syn)
  | .declarator | .tail .. | .abstract | .ptrTail => Dtor Syn
  | .param => List (Spec Syn) × Dtor Syn
  | .params _ => List (List (Spec Syn) × Dtor Syn) × Bool
  | .members _ => List (Member Syn)
  | .member => Member Syn
  | .mdtors _ => List (Dtor Syn × Option Syn)
  | .enums _ => List (String × Option Syn)
  | .typeName => Syn

/-- The rules as `parser->ruleset` offers them. -/
abbrev Rec := (nt : NT) → List Tok → Res nt.Val

/-- `SKIP_ATTRIBUTES`, `headers/kefir/parser/rule_helpers.h` 74-87, with `rules/attribute.c` 54-63. -/
def skipAttrs {α : Type} (ts : List Tok) (k : Res α) : Res α :=
  if headIs (tokKw .kAttribute) ts then .error else k

/-! ## Specifiers -/

/-- The end of `scan_struct_specifier` with a body, `declaration_specifier.c` 238-265. -/
def structBody (R : Rec) (k : TagKind) (n : Option String) (ts : List Tok) : Res (Spec Syn) :=
  (show Res (List (Member Syn)) from R (.members []) ts).andThen fun ms r =>
    skipAttrs r (.ok (.type (.tag k n (some (.members ms)))) r)

/-- `scan_struct_specifier`, `declaration_specifier.c` 209-265, after the keyword. -/
def structSpec (R : Rec) (k : TagKind) (ts : List Tok) : Res (Spec Syn) :=
  skipAttrs ts <|
    match ts with
    | .ident s :: r => expect tokLBrace r (.ok (.type (.tag k (some s) none)) r) fun r => structBody R k (some s) r
    | _ => expect tokLBrace ts .error fun r => structBody R k none r

/-- The end of `scan_enum_specifier` with a body, `declaration_specifier.c` 351-373. -/
def enumBody (R : Rec) (n : Option String) (ts : List Tok) : Res (Spec Syn) :=
  (show Res (List (String × Option Syn)) from R (.enums []) ts).andThen fun es r =>
    skipAttrs r (.ok (.type (.tag .enum n (some (.enumerators es)))) r)

/-- `scan_enum_specifier`, `declaration_specifier.c` 323-373, after the keyword. -/
def enumSpec (R : Rec) (ts : List Tok) : Res (Spec Syn) :=
  skipAttrs ts <|
    match ts with
    | .ident s :: r => expect tokLBrace r (.ok (.type (.tag .enum (some s) none)) r) fun r => enumBody R (some s) r
    | _ => expect tokLBrace ts .error fun r => enumBody R none r

/-- `scan_alignment_specifier`, `declaration_specifier.c` 552-603, after the keyword. -/
def alignSpec (E : Env) (R : Rec) (ts : List Tok) : Res (Spec Syn) :=
  expect (tokIs .leftParenthese) ts .error fun r =>
    (((E.cond r).andThen fun e r => .ok (Syn.expr e) r).orElse (R .typeName r)).must fun a r =>
      expect (tokIs .rightParenthese) r .error fun r => .ok (.align a) r

/-- The `_Atomic` branches, `declaration_specifier.c` 433-447 and 505-507, after the keyword; the closing parenthesis
is not consumed. -/
def atomicSpec (R : Rec) (ts : List Tok) : Res (Spec Syn) :=
  expect (tokIs .leftParenthese) ts (.ok (.qual .atomic) ts) fun r =>
    (show Res Syn from R .typeName r).must fun t r => .ok (.type (.atomic t)) r

/-- `scan_storage_class`, `scan_type_specifier`, `scan_type_qualifier`, `scan_function_specifier` and
`scan_alignment_specifier` on a keyword, `declaration_specifier.c` 26-65, 392-452, 488-603. -/
def keywordSpec (E : Env) (R : Rec) (k : Keyword) (r : List Tok) : Res (Spec Syn) :=
  match k with
  | .kTypedef => .ok (.storage .typedef) r
  | .kExtern => .ok (.storage .extern) r
  | .kStatic => .ok (.storage .static) r
  | .kThreadLocal => .ok (.storage .threadLocal) r
  | .kAuto => .ok (.storage .auto) r
  | .kRegister => .ok (.storage .register) r
  | .kVoid => .ok (.type (.word .void)) r
  | .kChar => .ok (.type (.word .char)) r
  | .kShort => .ok (.type (.word .short)) r
  | .kInt => .ok (.type (.word .int)) r
  | .kLong => .ok (.type (.word .long)) r
  | .kFloat => .ok (.type (.word .float)) r
  | .kDouble => .ok (.type (.word .double)) r
  | .kSigned => .ok (.type (.word .signed)) r
  | .kUnsigned => .ok (.type (.word .unsigned)) r
  | .kBool => .ok (.type (.word .bool)) r
  | .kComplex => .ok (.type .complex) r
  | .kAtomic => atomicSpec R r
  | .kStruct => structSpec R .struct r
  | .kUnion => structSpec R .union r
  | .kEnum => enumSpec R r
  | .kConst => .ok (.qual .const) r
  | .kRestrict => .ok (.qual .restrict) r
  | .kVolatile => .ok (.qual .volatile) r
  | .kInline => .ok (.fn .inline) r
  | .kNoreturn => .ok (.fn .noreturn) r
  | .kAlignas => alignSpec E R r
  | _ => .noMatch

/-- `kefir_parser_scan_declaration_specifier`, `declaration_specifier.c` 605-626; identifiers are handled in
`scan_type_specifier`, 453-474.  `has` is the result of `has_type_specifiers`, 375-390. -/
def specifier (E : Env) (R : Rec) (has : Bool) (ts : List Tok) : Res (Spec Syn) :=
  skipAttrs ts <|
    match ts with
    | .kw k :: r => keywordSpec E R k r
    | .ident s :: r =>
      if s = "__builtin_va_list" then .ok (.type .vaList) r
      else if !has && E.isTypedef s then .ok (.type (.typedefName s)) r
      else .noMatch
    | _ => .noMatch

/-- `has_type_specifiers`, `declaration_specifier.c` 375-390. -/
def hasTypeSpecifiers (ss : List (Spec Syn)) : Bool :=
  ss.any fun s => match s with
    | .type _ => true
    | _ => false

/-- `kefir_parser_scan_declaration_specifier_list`, `declaration_specifier.c` 628-646. -/
def specList (R : Rec) (acc : List (Spec Syn)) (ts : List Tok) : Res (List (Spec Syn)) :=
  caseOf (show Res (Spec Syn) from R (.spec (hasTypeSpecifiers acc)) ts)
    (fun s r => R (.specs (acc ++ [s])) r) (if acc.isEmpty then .noMatch else .ok acc ts)

/-! ## Members -/

/-- The end of the loop of `scan_struct_field_declaration`, `declaration_specifier.c` 122-137. -/
def mdtorsNext (R : Rec) (acc : List (Dtor Syn × Option Syn)) (ts : List Tok) :
    Res (List (Dtor Syn × Option Syn)) :=
  expect (tokIs .comma) ts (.ok acc ts) fun r => R (.mdtors acc) r

/-- The width of a bit-field, `declaration_specifier.c` 107-120. -/
def mdtorWidth (E : Env) (R : Rec) (acc : List (Dtor Syn × Option Syn)) (d : Dtor Syn) (ts : List Tok) :
    Res (List (Dtor Syn × Option Syn)) :=
  expect (tokIs .colon) ts (mdtorsNext R (acc ++ [(d, none)]) ts) fun r =>
    (E.cond r).must fun e r => mdtorsNext R (acc ++ [(d, some (.expr e))]) r

/-- The loop of `scan_struct_field_declaration`, `declaration_specifier.c` 84-137. -/
def mdtors (E : Env) (R : Rec) (acc : List (Dtor Syn × Option Syn)) (ts : List Tok) :
    Res (List (Dtor Syn × Option Syn)) :=
  caseOf (show Res (Dtor Syn) from R .declarator ts) (fun d r => mdtorWidth E R acc d r)
    (if headIs (tokIs .colon) ts then mdtorWidth E R acc (.name none) ts else .error)

/-- `scan_struct_field_declaration`, `declaration_specifier.c` 67-149. -/
def memberDecl (R : Rec) (ts : List Tok) : Res (Member Syn) :=
  (show Res (List (Spec Syn)) from R (.specs []) ts).andThen fun ss r =>
    expect (tokIs .semicolon) r
      ((show Res (List (Dtor Syn × Option Syn)) from R (.mdtors []) r).andThen fun ds r =>
        expect (tokIs .semicolon) r .error fun r => .ok (.decl ss ds) r)
      fun r => .ok (.decl ss []) r

/-- The string literal of a static assertion, `rules/static_assertion.c` 42-52, `rules/string_literal.c` 25-62. -/
def assertMessage (e : Expr Syn) (ts : List Tok) : Res (Member Syn) :=
  match ts with
  | .str k v :: r =>
    expect (tokIs .rightParenthese) r .error fun r =>
      expect (tokIs .semicolon) r .error fun r => .ok (.assertion (.expr e) (.expr (.str (strNode k) v))) r
  | _ => .error

/-- `scan_struct_static_assert`, `declaration_specifier.c` 151-176, with `rules/static_assertion.c` 25-62. -/
def memberAssert (E : Env) (ts : List Tok) : Res (Member Syn) :=
  expect (tokKw .kStaticAssert) ts .noMatch fun r =>
    expect (tokIs .leftParenthese) r .error fun r =>
      (E.cond r).must fun e r => expect (tokIs .comma) r .error fun r => assertMessage e r

/-- The loop of `scan_struct_specifier_body`, `declaration_specifier.c` 178-207. -/
def members (R : Rec) (acc : List (Member Syn)) (ts : List Tok) : Res (List (Member Syn)) :=
  caseOf (show Res (Member Syn) from R .member ts) (fun m r => R (.members (acc ++ [m])) r)
    (expect tokRBrace ts .error fun r => .ok acc r)

/-- The end of the loop of `scan_enum_specifier_body`, `declaration_specifier.c` 309-320. -/
def enumsNext (R : Rec) (acc : List (String × Option Syn)) (ts : List Tok) : Res (List (String × Option Syn)) :=
  expect (tokIs .comma) ts (expect tokRBrace ts .error fun r => .ok acc r) fun r =>
    expect tokRBrace r (R (.enums acc) r) fun r => .ok acc r

/-- The loop of `scan_enum_specifier_body` with `scan_enum_field_declaration`, `declaration_specifier.c` 267-321. -/
def enums (E : Env) (R : Rec) (acc : List (String × Option Syn)) (ts : List Tok) : Res (List (String × Option Syn)) :=
  match ts with
  | .ident s :: r =>
    if E.isTypedef s then .error
    else skipAttrs r <|
      expect (tokIs .assign) r (enumsNext R (acc ++ [(s, none)]) r) fun r =>
        (E.cond r).must fun e r => enumsNext R (acc ++ [(s, some (.expr e))]) r
  | _ => .error

/-! ## Declarators -/

/-- `scan_type_qualifier_list`, `declarator.c` 24-42. -/
def quals : List Tok → List Qual × List Tok
  | .kw .kConst :: r => (.const :: (quals r).1, (quals r).2)
  | .kw .kVolatile :: r => (.volatile :: (quals r).1, (quals r).2)
  | .kw .kRestrict :: r => (.restrict :: (quals r).1, (quals r).2)
  | .kw .kAtomic :: r => (.atomic :: (quals r).1, (quals r).2)
  | ts => ([], ts)

/-- `scan_pointer`, `declarator.c` 44-91. -/
def pointer (sub : List Tok → Res (Dtor Syn)) (ts : List Tok) : Res (Dtor Syn) :=
  expect (tokIs .star) ts .noMatch fun r =>
    (sub (quals r).2).andThen fun d r' => .ok (.ptr (quals r).1 d) r'

/-- `scan_direct`, `declarator.c` 424-431, with `scan_direct_declarator_base`, 93-128. -/
def direct (R : Rec) (ts : List Tok) : Res (Dtor Syn) :=
  expect (tokIs .leftParenthese) ts
    (match ts with
      | .ident s :: r => R (.tail false (.name (some s))) r
      | _ => .noMatch)
    fun r => (show Res (Dtor Syn) from R .declarator r).andThen fun d r =>
      expect (tokIs .rightParenthese) r .error fun r => R (.tail false d) r

/-- `kefir_parser_scan_declarator`, `declarator.c` 433-463. -/
def declarator (R : Rec) (ts : List Tok) : Res (Dtor Syn) :=
  skipAttrs ts <|
    (if headIs (tokIs .star) ts then pointer (R .declarator) ts else direct R ts).andThen fun d r =>
      skipAttrs r (.ok d r)

/-- The end of `scan_array_impl`, `declarator.c` 174-208. -/
def arrayEnd (st : Bool) (q : List Qual) (b : Bound Syn) (ts : List Tok) : Res (Bool × List Qual × Bound Syn) :=
  expect tokRBracket ts .error fun r => .ok (st, q, b) r

/-- The length in `scan_array_impl`, `declarator.c` 153-172. -/
def arrayLength (E : Env) (st : Bool) (q : List Qual) (ts : List Tok) : Res (Bool × List Qual × Bound Syn) :=
  expect (tokIs .star) ts
    (caseOf (E.assign ts) (fun e r => arrayEnd st q (.expr (.expr e)) r)
      (if st then .error else arrayEnd st q .unbounded ts))
    fun r => if st then .error else arrayEnd st q .star r

/-- `scan_array_impl`, `declarator.c` 130-208, after the bracket. -/
def array (E : Env) (ts : List Tok) : Res (Bool × List Qual × Bound Syn) :=
  expect (tokKw .kStatic) ts
    (expect (tokKw .kStatic) (quals ts).2 (arrayLength E false (quals ts).1 (quals ts).2) fun r =>
      arrayLength E true (quals ts).1 r)
    fun r => expect (tokKw .kStatic) (quals r).2 (arrayLength E true (quals r).1 (quals r).2) fun _ => .error

/-- `scan_function_parameter`, `declarator.c` 255-305, with `scan_function_parameter_declarator`, 228-253. -/
def param (R : Rec) (ts : List Tok) : Res (List (Spec Syn) × Dtor Syn) :=
  (show Res (List (Spec Syn)) from R (.specs []) ts).andThen fun ss r =>
    ((show Res (Dtor Syn) from R .declarator r).orElse
      ((show Res (Dtor Syn) from R .abstract r).orElse (.ok (.name none) r))).andThen fun d r => .ok (ss, d) r

/-- The loop of `scan_function_parameter_list`, `declarator.c` 307-327. -/
def params (R : Rec) (acc : List (List (Spec Syn) × Dtor Syn)) (ts : List Tok) :
    Res (List (List (Spec Syn) × Dtor Syn) × Bool) :=
  expect (tokIs .comma) ts (.ok (acc, false) ts) fun r =>
    caseOf (show Res (List (Spec Syn) × Dtor Syn) from R .param r) (fun p r => R (.params (acc ++ [p])) r)
      (expect (tokIs .ellipsis) r .error fun r => .ok (acc, true) r)

/-- The loop of `scan_function_identifier_list`, `declarator.c` 329-353, with `rules/identifier.c` 25-43. -/
def identTail (isTypedef : String → Bool) : List Tok → Res (List String)
  | .ident s :: .punct .comma :: r =>
    if isTypedef s then .error else (identTail isTypedef r).andThen fun l r => .ok (s :: l) r
  | .ident s :: r => if isTypedef s then .error else .ok [s] r
  | _ => .error

/-- `scan_function_identifier_list`, `declarator.c` 329-353. -/
def identList (E : Env) (ts : List Tok) : Res (List String) :=
  if headIs tokIdent ts then identTail E.isTypedef ts else .ok [] ts

/-- The list of parameters in the tree, `kefir_list_insert_after` in `declarator.c` 297-299. -/
def declParams : List (List (Spec Syn) × Dtor Syn) → Params Syn
  | [] => .nil
  | p :: r => .decl p.1 p.2 (declParams r)

/-- The list of parameters in the tree, `kefir_list_insert_after` in `declarator.c` 338-339. -/
def identParams : List String → Params Syn
  | [] => .nil
  | s :: r => .ident s (identParams r)

/-- `scan_function_impl`, `declarator.c` 355-384, after the parenthesis. -/
def parens (E : Env) (R : Rec) (abstract : Bool) (ts : List Tok) : Res (Params Syn × Bool) :=
  caseOf (show Res (List (Spec Syn) × Dtor Syn) from R .param ts)
    (fun p r => (show Res (List (List (Spec Syn) × Dtor Syn) × Bool) from R (.params [p]) r).must fun ps r =>
      expect (tokIs .rightParenthese) r .error fun r => .ok (declParams ps.1, ps.2) r)
    (if abstract then expect (tokIs .rightParenthese) ts .error fun r => .ok (.nil, false) r
     else (identList E ts).must fun ids r =>
      expect (tokIs .rightParenthese) r .error fun r => .ok (identParams ids, false) r)

/-- The loop of `scan_direct_declarator_tail`, `declarator.c` 401-422. -/
def dtorTail (E : Env) (R : Rec) (abstract : Bool) (d : Dtor Syn) (ts : List Tok) : Res (Dtor Syn) :=
  expect tokLBracket ts
    (expect (tokIs .leftParenthese) ts (.ok d ts) fun r =>
      (parens E R abstract r).andThen fun ps r => R (.tail abstract (.fn d ps.1 ps.2)) r)
    fun r => (array E r).andThen fun b r => R (.tail abstract (.arr d b.1 b.2.1 b.2.2)) r

/-- `scan_direct_abstract_declarator_base`, `declarator.c` 465-504. -/
def abstractBase (R : Rec) (ts : List Tok) : Res (Dtor Syn) :=
  (expect (tokIs .leftParenthese) ts .noMatch fun r =>
    (show Res (Dtor Syn) from R .abstract r).andThen fun d r =>
      expect (tokIs .rightParenthese) r .error fun r => .ok d r).orElse (.ok (.name none) ts)

/-- The test of `scan_direct_abstract`, `declarator.c` 511-516. -/
def notEmpty (permitEmpty : Bool) (d : Dtor Syn) (ts : List Tok) : Res (Dtor Syn) :=
  match d with
  | .name none => if permitEmpty then .ok d ts else .noMatch
  | _ => .ok d ts

/-- `scan_direct_abstract`, `declarator.c` 506-519. -/
def directAbstract (R : Rec) (permitEmpty : Bool) (ts : List Tok) : Res (Dtor Syn) :=
  (abstractBase R ts).andThen fun d r =>
    (show Res (Dtor Syn) from R (.tail true d) r).andThen fun d r => notEmpty permitEmpty d r

/-- `scan_abstract_declarator_pointer_tail`, `declarator.c` 521-530. -/
def ptrTail (R : Rec) (ts : List Tok) : Res (Dtor Syn) :=
  (pointer (R .ptrTail) ts).orElse (directAbstract R true ts)

/-- `kefir_parser_scan_abstract_declarator`, `declarator.c` 532-563. -/
def abstractDeclarator (R : Rec) (ts : List Tok) : Res (Dtor Syn) :=
  skipAttrs ts <|
    (if headIs (tokIs .star) ts then pointer (R .ptrTail) ts else directAbstract R false ts).andThen fun d r =>
      skipAttrs r (.ok d r)

/-- `rules/type_name.c` 25-75. -/
def typeName (R : Rec) (ts : List Tok) : Res Syn :=
  (show Res (List (Spec Syn)) from R (.specs []) ts).andThen fun ss r =>
    ((show Res (Dtor Syn) from R .abstract r).orElse (.ok (.name none) r)).andThen fun d r => .ok (.typeName ss d) r

/-- The table of rules, `source/parser/ruleset.c`. -/
def step (E : Env) (R : Rec) : Rec
  | .spec has, ts => specifier E R has ts
  | .specs acc, ts => specList R acc ts
  | .declarator, ts => declarator R ts
  | .tail a d, ts => dtorTail E R a d ts
  | .abstract, ts => abstractDeclarator R ts
  | .ptrTail, ts => ptrTail R ts
  | .param, ts => param R ts
  | .params acc, ts => params R acc ts
  | .members acc, ts => members R acc ts
  | .member, ts => (memberDecl R ts).orElse (memberAssert E ts)
  | .mdtors acc, ts => mdtors E R acc ts
  | .enums acc, ts => enums E R acc ts
  | .typeName, ts => typeName R ts

/-- The rules with a bound on the depth of calls. -/
def parse (E : Env) : Nat → Rec
  | 0 => fun _ _ => .fuel
  | n + 1 => step E (parse E n)

end Kefir.DeclParser
