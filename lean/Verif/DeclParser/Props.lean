import Verif.DeclParser.Knot
import Verif.DeclParser.Mono
import Verif.DeclParser.Balance
import Verif.Parser.Props

/-! # C73: declarations and type names are parsed as the C17 grammar says

The rules of the parser for declaration specifiers, declarators, parameters, members and type names, together with
those for expressions, against the grammar of `Verif.DeclParser.Spec`. -/

namespace Kefir.DeclParser
open Kefir.Lexer (Punct Keyword)
open Kefir.Parser (Tok Expr Res lp rp comma colon headIs tokIs tokLBracket afterExpr afterItem Balanced)
open Kefir.Declr

variable {td : String → Bool}

/-! ### What is accepted -/

/-- C73, the part of acceptance that holds: a type name in the common grammar, before a token that can follow type
names, is accepted with its tree.  Missing: the other C17 type names, see the theorems named `false`. -/
theorem C73_type_names_partial (hs : Scope td) {ts : List Tok} {t : Syn} (h : IsTypeName .kefir .common td ts t)
    {f : Tok} (hf : f ∈ [rp, comma, colon]) (r : List Tok) : typeNameRule td (ts ++ f :: r) = .ok t (f :: r) :=
  (exprs_accept hs).complete ts t f r h hf

/-- The same for declaration specifiers: as many as there are, up to a token that starts no other one. -/
theorem C73_specifiers_partial (hs : Scope td) {ts : List Tok} {ss : List (Spec Syn)}
    (h : IsDecl .kefir .common td (.specs false) ts ss) (hn : ss ≠ []) {rest : List Tok}
    (he : SpecsEnd td (ss.any isType) rest) (hg : SpecsGlue ss rest) :
    run (decls td) (.specs []) (ts ++ rest) = .ok ss rest := by
  have := complete (decls_accept hs (exprs_accept hs)) (s := .specs false) h [] rest rfl he hg hn
  exact this

/-- The same for declarators. -/
theorem C73_declarators_partial (hs : Scope td) {ts : List Tok} {v : Dtor Syn}
    (h : IsDecl .kefir .common td .dtor ts v) {rest : List Tok} (he : DEnd rest) :
    run (decls td) .declarator (ts ++ rest) = .ok v rest :=
  complete (decls_accept hs (exprs_accept hs)) (s := .dtor) h rest he

/-- The same for parameters. -/
theorem C73_parameters_partial (hs : Scope td) {ts : List Tok} {p : List (Spec Syn) × Dtor Syn}
    (h : IsDecl .kefir .common td .param ts p) {f : Tok} (hf : f ∈ [rp, comma]) (r : List Tok) :
    run (decls td) .param (ts ++ f :: r) = .ok p (f :: r) :=
  complete (decls_accept hs (exprs_accept hs)) (s := .param) h (f :: r) ⟨f, r, rfl, hf⟩

/-- The same for member declarations. -/
theorem C73_members_partial (hs : Scope td) {ts : List Tok} {m : Member Syn}
    (h : IsDecl .kefir .common td .member ts m) (rest : List Tok) :
    run (decls td) .member (ts ++ rest) = .ok m rest :=
  complete (decls_accept hs (exprs_accept hs)) (s := .member) h rest

/-- The same for expressions with type names of the common grammar in them. -/
theorem C73_expressions_partial (hs : Scope td) {ts : List Tok} {e : Expr Syn}
    (h : IsExpr .kefir .common td .expr ts e) {rest : List Tok} (hr : afterExpr rest = true) :
    Parser.run false (exprs td) .expr (ts ++ rest) = .ok e rest := by
  obtain ⟨h1, h2⟩ := Parser.afterExpr_item hr
  rw [Parser.der_complete (lit := false) (exprs_accept hs) h rest (Parser.rank_afterItem h1)]
  exact Parser.exprTail_end (exprs_accept hs) e h2

/-- The same for initializers. -/
theorem C73_initializers_partial (hs : Scope td) {ts : List Tok} {e : Expr Syn}
    (h : IsExpr .kefir .common td .init ts e) {rest : List Tok} (hr : afterItem rest = true) :
    Parser.run false (exprs td) .init (ts ++ rest) = .ok e rest :=
  Parser.der_complete (lit := false) (exprs_accept hs) h rest (Parser.rank_afterItem hr)

/-- C73: what the common grammar derives, C17 derives, with the same tree. -/
theorem C73_common_is_c17 {s : Sym} {ts : List Tok} {v : s.Val} (h : IsDecl .common .common td s ts v) :
    IsDecl .c17 .c17 td s ts v := h.mono (Parser.Dialect.common_le _) (Dialect.common_le _)

/-- C73: what the common grammar derives is what the theorems named `partial` ask for. -/
theorem C73_common_is_accepted {s : Sym} {ts : List Tok} {v : s.Val} (h : IsDecl .common .common td s ts v) :
    IsDecl .kefir .common td s ts v := h.mono (Parser.Dialect.common_le _) (Dialect.common_le _)

/-! ### Only that -/

/-- C73: what is consumed as a type name is one of kefir's dialect, and the tree is the one it has there. -/
theorem C73_type_names_accepted (hs : Scope td) {ts r : List Tok} {t : Syn} (h : typeNameRule td ts = .ok t r) :
    ∃ pre, ts = pre ++ r ∧ IsTypeName .kefir .kefir td pre t :=
  (exprs_sound hs).sound ts t r h

/-- C73: the same for declaration specifiers; there is at least one. -/
theorem C73_specifiers_accepted (hs : Scope td) {ts r : List Tok} {ss : List (Spec Syn)}
    (h : run (decls td) (.specs []) ts = .ok ss r) :
    ∃ pre, ts = pre ++ r ∧ IsDecl .kefir .kefir td (.specs false) pre ss ∧ ss ≠ [] ∧ SpecsGlue ss r := by
  obtain ⟨pre, h1, ss', h2, h3, h4, h5⟩ := run_sound (decls_sound hs) (.specs []) ts ss r h
  rw [List.nil_append] at h2
  subst h2
  exact ⟨pre, h1, h4, h3, h5 (fun h => by simp at h)⟩

/-- C73: the same for declarators. -/
theorem C73_declarators_accepted (hs : Scope td) {ts r : List Tok} {v : Dtor Syn}
    (h : run (decls td) .declarator ts = .ok v r) :
    ∃ pre, ts = pre ++ r ∧ IsDecl .kefir .kefir td .dtor pre v :=
  run_sound (decls_sound hs) .declarator ts v r h

/-- C73: the same for parameters. -/
theorem C73_parameters_accepted (hs : Scope td) {ts r : List Tok} {p : List (Spec Syn) × Dtor Syn}
    (h : run (decls td) .param ts = .ok p r) : ∃ pre, ts = pre ++ r ∧ IsDecl .kefir .kefir td .param pre p :=
  run_sound (decls_sound hs) .param ts p r h

/-- C73: the same for member declarations. -/
theorem C73_members_accepted (hs : Scope td) {ts r : List Tok} {m : Member Syn}
    (h : run (decls td) .member ts = .ok m r) : ∃ pre, ts = pre ++ r ∧ IsDecl .kefir .kefir td .member pre m :=
  run_sound (decls_sound hs) .member ts m r h

/-- C73: the same for expressions. -/
theorem C73_expressions_accepted (hs : Scope td) {ts r : List Tok} {e : Expr Syn}
    (h : Parser.run false (exprs td) .expr ts = .ok e r) :
    ∃ pre, ts = pre ++ r ∧ IsExpr .kefir .kefir td .expr pre e :=
  run_expr_sound (exprs_sound hs) .expr ts e r h

/-! ### In general -/

/-- C73: every rule for declarations gives a result on every sequence of tokens, in every scope. -/
theorem C73_terminates (nt : NT) (ts : List Tok) : run (decls td) nt ts ≠ .fuel := (run_fits _ decls_fits nt ts).1

/-- C73: so does every rule for expressions. -/
theorem C73_expressions_terminate (nt : Parser.NT Syn) (ts : List Tok) :
    Parser.run false (exprs td) nt ts ≠ .fuel := (Parser.run_fits false _ exprs_fits nt ts).1

/-- C73: the rule for type names that expressions use is the one of the declarations. -/
theorem C73_one_rule (ts : List Tok) : typeNameRule td ts = run (decls td) .typeName ts := typeNameRule_eq ts

/-- C73: the type names in expressions are those of the grammar, however deep they are nested. -/
theorem C73_grammar_closed {p : Parser.Dialect} {d : Dialect} {ts : List Tok} {t : Syn} :
    IsTypeName p d td ts t ↔ IsDecl p d td .typeName ts t := isTypeName_iff

/-- C73: in the common grammar a sequence of tokens is a type name, a declarator or specifiers in at most one way. -/
theorem C73_unambiguous (hs : Scope td) {ts : List Tok} :
    (∀ t t', IsTypeName .kefir .common td ts t → IsTypeName .kefir .common td ts t' → t = t') ∧
    (∀ v v', IsDecl .kefir .common td .dtor ts v → IsDecl .kefir .common td .dtor ts v' → v = v') ∧
    (∀ p p', IsDecl .kefir .common td .param ts p → IsDecl .kefir .common td .param ts p' → p = p') ∧
    (∀ m m', IsDecl .kefir .common td .member ts m → IsDecl .kefir .common td .member ts m' → m = m') := by
  have key : ∀ {α : Type} {x : Res α} {a b : α} {r : List Tok}, x = .ok a r → x = .ok b r → a = b := by
    rintro α x a b r rfl h; cases h; rfl
  refine ⟨fun t t' h h' => ?_, fun v v' h h' => ?_, fun p p' h h' => ?_, fun m m' h h' => ?_⟩
  · exact key (C73_type_names_partial hs h (f := rp) (by simp) []) (C73_type_names_partial hs h' (f := rp) (by simp) [])
  · have he : DEnd [rp] := ⟨rfl, rfl, rfl⟩
    exact key (C73_declarators_partial hs h he) (C73_declarators_partial hs h' he)
  · exact key (C73_parameters_partial hs h (f := rp) (by simp) []) (C73_parameters_partial hs h' (f := rp) (by simp) [])
  · exact key (C73_members_partial hs h []) (C73_members_partial hs h' [])

/-! ### A scope -/

/-- The scope of `typedef … T;`. -/
def demo (s : String) : Bool := s == "T" || s == vaListName

theorem demo_scope : Scope demo := by
  refine ⟨fun s h => ?_, rfl⟩
  simp only [demo, Bool.or_eq_true, beq_iff_eq] at h
  rcases h with rfl | rfl <;> rfl

private abbrev kw (k : Keyword) : Tok := .kw k
private abbrev pt (p : Punct) : Tok := .punct p
private abbrev id' (s : String) : Tok := .ident s
private abbrev num (n : Nat) : Tok := .const .integer n
private abbrev lb : Tok := .punct .leftBracket
private abbrev rb : Tok := .punct .rightBracket
private abbrev tInt : Spec Syn := .type (.word .int)

theorem int_specs {p : Parser.Dialect} {d : Dialect} :
    IsDecl p d demo (.specs false) [.kw .kInt] [.type (.word .int)] :=
  Der.specsCons (.word .int) .specsNil

theorem int_ok {d : Dialect} {r : Bool} : SpecsOk d r [.type (.word .int)] :=
  ⟨by simp, .inr rfl, fun _ => .inr rfl⟩

theorem num_assign {p : Parser.Dialect} {d : Dialect} (n : Nat) :
    IsExpr p d demo .assign [.const .integer n] (.const .integer n) :=
  .assignCond (.condBin (.binOperand (.binOperand (.binOperand (.binOperand (.binOperand (.binOperand (.binOperand
    (.binOperand (.binOperand (.binOperand (.castUnary (.unaryPostfix (.postfixPrimary .const))))))))))))))

/-- `int (*[3])(int, T)`: derived by the common grammar, hence C17, and accepted. -/
def exType : List Tok :=
  [kw .kInt, lp, star, lb, num 3, rb, rp, lp, kw .kInt, comma, id' "T", rp]

/-- Its tree: an array of 3 pointers to functions. -/
def exTree : Syn :=
  .typeName [tInt] (.fn (.ptr [] (.arr (.name none) false [] (.expr (.expr (.const .integer 3)))))
    (.decl [tInt] (.name none) (.decl [.type (.typedefName "T")] (.name none) .nil)) false)

theorem exType_common : IsTypeName .common .common demo exType exTree := by
  rw [isTypeName_iff]
  have h1 : IsDecl .common .common demo .abs [lb, num 3, rb] (.arr (.name none) false []
      (.expr (.expr (.const .integer 3)))) :=
    .absDirect (.dabsArr (ts := []) .odabsNone (Brackets.expr (q := []) (te := [num 3]) rfl rfl (num_assign 3) (.inr (by simp))
      (.inr (by simp))))
  have h2 : IsDecl .common .common demo .abs [star, lb, num 3, rb] (.ptr [] (.arr (.name none) false []
      (.expr (.expr (.const .integer 3))))) := .absPtrAbs (q := []) h1 (.inr (by simp))
  have hT : IsDecl .common .common demo (.specs false) [id' "T"] [.type (.typedefName "T")] :=
    .specsCons (.typedefName rfl (by decide)) .specsNil
  have h3 : IsDecl .common .common demo .params [kw .kInt, comma, id' "T"]
      [([tInt], .name none), ([.type (.typedefName "T")], .name none)] :=
    .paramsCons (ts := [kw .kInt]) (.paramNone int_specs int_ok)
      (.paramsOne (.paramNone hT ⟨by simp, .inr rfl, fun _ => .inr rfl⟩))
  have h4 : IsDecl .common .common demo .abs (exType.drop 1) _ :=
    .absDirect (.dabsFunc (.odabsSome (.dabsParen h2)) (.parensList (a := true) h3))
  exact .typeNameAbs int_specs int_ok h4 (fun h => by simp at h)

example : IsTypeName .c17 .c17 demo exType exTree :=
  exType_common.mono (Parser.Dialect.common_le _) (Dialect.common_le _)

example : typeNameRule demo (exType ++ [rp]) = .ok exTree [rp] :=
  C73_type_names_partial demo_scope (exType_common.mono (Parser.Dialect.common_le _) (Dialect.common_le _)) (by simp) []

/-- `(int (*[3])(int, T)) 3` is an expression. -/
example : Parser.run false (exprs demo) .expr (lp :: exType ++ [rp, num 3, semi]) =
    .ok (.cast exTree (.const .integer 3)) [semi] :=
  C73_expressions_partial demo_scope (ts := lp :: exType ++ [rp, num 3]) (rest := [semi])
    (.exprAssign (.assignCond (.condBin (.binOperand (.binOperand (.binOperand (.binOperand (.binOperand (.binOperand
      (.binOperand (.binOperand (.binOperand (.binOperand (.cast (ts := [num 3])
        (exType_common.mono (Parser.Dialect.common_le _) (Dialect.common_le _))
        (.castUnary (.unaryPostfix (.postfixPrimary .const))))))))))))))))) rfl

/-- `int x[sizeof(int [3])]` -/
example : ∃ v, run (decls demo) .declarator
    ([id' "x", lb, kw .kSizeof, lp, kw .kInt, lb, num 3, rb, rp, rb] ++ [semi]) = .ok v [semi] ∧ v.ident = some "x" :=
  ⟨.arr (.name (some "x")) false [] (.expr (.expr (.unary .sizeof (.typeName (.typeName [tInt]
    (.arr (.name none) false [] (.expr (.expr (.const .integer 3))))))))),
    by rfl, rfl⟩

/-- `struct { int a : 3, *b; T c; _Static_assert(3, ""); }` -/
example : run (decls demo) (.specs [])
    [kw .kStruct, pt .leftBrace, kw .kInt, id' "a", colon, num 3, comma, star, id' "b", semi, id' "T", id' "c", semi,
      kw .kStaticAssert, lp, num 3, comma, .str .multibyte [0], rp, semi, pt .rightBrace, id' "x"] =
    .ok [.type (.tag .struct none (some (.members
      [.decl [tInt] [(.name (some "a"), some (.expr (.const .integer 3))), (.ptr [] (.name (some "b")), none)],
       .decl [.type (.typedefName "T")] [(.name (some "c"), none)],
       .assertion (.expr (.const .integer 3)) (.expr (.str .multibyte [0]))])))] [id' "x"] := by rfl

/-! ### Where C17 and kefir differ -/

/-- Abstract declarators declare no identifier. -/
def AbsIdent : (s : Sym) → s.Val → Prop
  | .abs, v | .dabs, v | .odabs, v => v.ident = none
  | _, _ => True

theorem Der.abs_ident' {d : Dialect} {A C : List Tok → Expr Syn → Prop} {s : Sym} {ts : List Tok} {v : s.Val}
    (h : Der d td A C s ts v) : AbsIdent s v := by
  induction h <;> first | trivial | rfl | assumption

theorem Der.abs_ident {d : Dialect} {A C : List Tok → Expr Syn → Prop} {ts : List Tok} {v : Dtor Syn}
    (h : Der d td A C .abs ts v) : v.ident = none := h.abs_ident'

/-- C73 fails: `int [*p]` is a C17 type name, and rejected. -/
theorem C73_star_bound_false :
    (∃ t, IsTypeName .c17 .c17 demo [kw .kInt, lb, star, id' "p", rb] t) ∧
    typeNameRule demo ([kw .kInt, lb, star, id' "p", rb] ++ [rp]) = .error := by
  refine ⟨⟨.typeName [tInt] (.arr (.name none) false [] (.expr (.expr (.unary .indirection (.ident "p"))))), ?_⟩, by rfl⟩
  rw [isTypeName_iff]
  have he : IsExpr .c17 .c17 demo .assign [star, id' "p"] (.unary .indirection (.ident "p")) :=
    .assignCond (.condBin (.binOperand (.binOperand (.binOperand (.binOperand (.binOperand (.binOperand (.binOperand
      (.binOperand (.binOperand (.binOperand (.castUnary (.unaryOp (by decide) (.castUnary (.unaryPostfix (.postfixPrimary
        (.ident (by decide) (by decide))))))))))))))))))
  have h1 : IsDecl .c17 .c17 demo .abs [lb, star, id' "p", rb] _ :=
    .absDirect (.dabsArr (ts := []) .odabsNone (Brackets.expr (q := []) (te := [star, id' "p"]) rfl rfl he (.inl rfl)
      (.inr (by simp))))
  exact .typeNameAbs int_specs int_ok h1 (fun h => by simp at h)

/-- C73 fails: of the C17 type name `_Atomic(int)` the parenthesis is not consumed, so that the type name, before `)`,
is read with another `)` after it. -/
theorem C73_atomic_false :
    ∃ t, IsTypeName .c17 .c17 demo [kw .kAtomic, lp, kw .kInt, rp] t ∧
      typeNameRule demo ([kw .kAtomic, lp, kw .kInt, rp] ++ [rp]) = .ok t [rp, rp] := by
  refine ⟨.typeName [.type (.atomic (.typeName [tInt] (.name none)))] (.name none), ?_, by rfl⟩
  rw [isTypeName_iff]
  exact .typeNameNone (.specsCons (.atomicType rfl (.typeNameNone int_specs int_ok)) .specsNil)
    ⟨by simp, .inr rfl, fun _ => .inr rfl⟩

/-- C73 fails: `_Atomic(int` is accepted as a type name and is none of C17. -/
theorem C73_atomic_open_false :
    (∃ t, typeNameRule demo ([kw .kAtomic, lp, kw .kInt] ++ [rp]) = .ok t [rp]) ∧
    ∀ t, ¬ IsTypeName .c17 .c17 demo [kw .kAtomic, lp, kw .kInt] t := by
  refine ⟨⟨.typeName [.type (.atomic (.typeName [tInt] (.name none)))] (.name none), by rfl⟩, fun t h => ?_⟩
  have := IsTypeName.balanced rfl h
  simp [Balanced] at this

/-- C73 fails: where `T` is a typedef name, `int (T)` is in C17 the parameter of type function with a parameter of type
`T` (6.7.6.3p11), and is parsed as a parameter of type `int` with the name `T`. -/
theorem C73_parameter_false :
    ∃ p p', IsDecl .c17 .c17 demo .param [kw .kInt, lp, id' "T", rp] p ∧
      run (decls demo) .param ([kw .kInt, lp, id' "T", rp] ++ [rp]) = .ok p' [rp] ∧
      p.2.ident = none ∧ p'.2.ident = some "T" ∧ p'.2 = .name (some "T") ∧
      ¬ IsDecl .c17 .c17 demo .param [kw .kInt, lp, id' "T", rp] p' := by
  refine ⟨([tInt], .fn (.name none) (.decl [.type (.typedefName "T")] (.name none) .nil) false),
    ([tInt], .name (some "T")), ?_, by rfl, rfl, rfl, rfl, ?_⟩
  · have hT : IsDecl .c17 .c17 demo (.specs false) [id' "T"] [.type (.typedefName "T")] :=
      .specsCons (.typedefName rfl (by decide)) .specsNil
    have h1 : IsDecl .c17 .c17 demo .abs [lp, id' "T", rp] _ :=
      .absDirect (.dabsFunc (ts := []) .odabsNone (.parensList (a := true) (.paramsOne (.paramNone hT
        ⟨by simp, .inr rfl, fun _ => .inr rfl⟩))))
    exact .paramAbs int_specs int_ok h1 (fun h => by simp at h) (.inl rfl)
  · intro h
    have key : ∀ {ts : List Tok}, IsDecl .c17 .c17 demo (.specs false) ts [tInt] → ts = [kw .kInt] := by
      intro ts h
      generalize hv : [tInt] = ss at h
      cases h with
      | specsNil => cases hv
      | specsCons h h' =>
        cases hv
        cases h with
        | word w =>
          cases h'
          rfl
    generalize hts : [kw .kInt, lp, id' "T", rp] = ts at h
    cases h with
    | paramDtor h1 _ h2 _ h3 =>
      cases key h1
      cases hts
      rcases h3 with h3 | h3 <;> cases h3
    | paramAbs h1 _ h2 =>
      have := Der.abs_ident h2
      cases this

/-- C73 fails: where `T` is a typedef name, the C17 parameter `int (T *)` is rejected. -/
theorem C73_parameter_star_false :
    (∃ p, IsDecl .c17 .c17 demo .param [kw .kInt, lp, id' "T", star, rp] p) ∧
      run (decls demo) .param ([kw .kInt, lp, id' "T", star, rp] ++ [rp]) = .error := by
  refine ⟨⟨([tInt], .fn (.name none) (.decl [.type (.typedefName "T")] (.ptr [] (.name none)) .nil) false), ?_⟩, by rfl⟩
  have hT : IsDecl .c17 .c17 demo (.specs false) [id' "T"] [.type (.typedefName "T")] :=
    .specsCons (.typedefName rfl (by decide)) .specsNil
  have h1 : IsDecl .c17 .c17 demo .abs [lp, id' "T", star, rp] _ :=
    .absDirect (.dabsFunc (ts := []) .odabsNone (.parensList (a := true) (.paramsOne (.paramAbs hT
      ⟨by simp, .inr rfl, fun _ => .inr rfl⟩ (.absPtr (q := [])) (fun h => by simp at h) (.inl rfl)))))
  exact .paramAbs int_specs int_ok h1 (fun h => by simp at h) (.inl rfl)

/-- C73 fails: type names with storage classes, without type specifiers, and of structures without members are
accepted, with trees that no C17 type name has. -/
theorem C73_specifiers_false :
    (∃ t, typeNameRule demo ([kw .kStatic, kw .kInt] ++ [rp]) = .ok t [rp] ∧ ∀ ts, ¬ IsTypeName .c17 .c17 demo ts t) ∧
    (∃ t, typeNameRule demo ([kw .kConst] ++ [rp]) = .ok t [rp] ∧ ∀ ts, ¬ IsTypeName .c17 .c17 demo ts t) ∧
    (∃ t, typeNameRule demo ([kw .kStruct, pt .leftBrace, pt .rightBrace] ++ [rp]) = .ok t [rp] ∧
      ∀ ts, ¬ IsTypeName .c17 .c17 demo ts t) := by
  refine ⟨⟨.typeName [.storage .static, tInt] (.name none), by rfl, fun ts h => ?_⟩,
    ⟨.typeName [.qual .const] (.name none), by rfl, fun ts h => ?_⟩,
    ⟨.typeName [.type (.tag .struct none (some (.members [])))] (.name none), by rfl, fun ts h => ?_⟩⟩
  · rw [isTypeName_iff] at h
    have key : ¬ SpecsOk .c17 true [.storage .static, tInt] := by rintro ⟨-, -, h⟩; rcases h rfl with h | h <;> cases h
    cases h <;> exact key (by assumption)
  · rw [isTypeName_iff] at h
    have key : ¬ SpecsOk .c17 true [.qual .const] := by rintro ⟨-, h, -⟩; rcases h with h | h <;> cases h
    cases h <;> exact key (by assumption)
  · rw [isTypeName_iff] at h
    have key : ∀ ts, ¬ IsDecl .c17 .c17 demo (.specs false) ts [.type (.tag .struct none (some (.members [])))] := by
      intro ts h
      cases h with
      | specsCons h _ => cases h with
        | tagMembers _ _ _ _ h => cases h rfl
    cases h <;> exact key _ (by assumption)

end Kefir.DeclParser
