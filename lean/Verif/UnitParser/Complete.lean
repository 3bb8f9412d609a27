import Verif.UnitParser.Fuel
import Verif.DeclParser.Props

/-! The rules find what the grammar derives. -/

namespace Kefir.UnitParser
open Kefir.Lexer (Punct Keyword)
open Kefir.Parser (Tok Expr Res lp rp comma colon expect tokIs tokLBrace tokRBrace tokLBracket headIs strNode exprStart
  builtinNames afterExpr afterItem)
open Kefir.Declr
open Kefir.DeclParser (Syn caseOf tokKw skipAttrs decls exprs exprs_fits decls_fits exprs_accept decls_accept IsDecl
  IsExpr SpecsOk SpecsGlue SpecsEnd DEnd semi vaListName specTok dtorTok specKw expect_hit expect_miss skipAttrs_miss)

/-! ### Scopes -/

theorem names_scope (σ : Scope) : DeclParser.Scope σ.names := by
  refine ⟨fun s h => ?_, by simp [Scope.names]⟩
  simp only [Scope.names, Bool.or_eq_true, beq_iff_eq, Bool.and_eq_true, Option.isNone_iff_eq_none] at h
  rcases h with rfl | h
  · rfl
  · exact h.2

theorem enter_ne_nil {k : Bool} {o : Option String} {σ : Scope} (h : σ ≠ []) : σ.enter k o ≠ [] := by
  cases o with
  | none => exact h
  | some s => cases σ <;> simp [Scope.enter, Scope.declare]

theorem enter_tail {k : Bool} {o : Option String} {σ : Scope} (h : σ ≠ []) : (σ.enter k o).tail = σ.tail := by
  cases o with
  | none => rfl
  | some s =>
    cases σ with
    | nil => exact absurd rfl h
    | cons b r => rfl

/-- `σ'` has the same outer blocks as `σ`. -/
def SameTail (σ σ' : Scope) : Prop := σ ≠ [] → σ' ≠ [] ∧ σ'.tail = σ.tail

theorem SameTail.refl (σ : Scope) : SameTail σ σ := fun h => ⟨h, rfl⟩

theorem SameTail.trans {σ σ' σ'' : Scope} (h : SameTail σ σ') (h' : SameTail σ' σ'') : SameTail σ σ'' := fun hn =>
  ⟨(h' (h hn).1).1, (h' (h hn).1).2.trans (h hn).2⟩

theorem SameTail.enter (k : Bool) (o : Option String) (σ : Scope) : SameTail σ (σ.enter k o) := fun h =>
  ⟨enter_ne_nil h, enter_tail h⟩

theorem InitDtor.sameTail {D : Dialect} {k : Bool} {σ0 σ σ' : Scope} {ts v} (h : InitDtor D k σ0 σ ts v σ') :
    SameTail σ σ' := by cases h <;> exact .enter _ _ _

theorem InitDtors.sameTail {D : Dialect} {k : Bool} {σ0 σ σ' : Scope} {ts vs} (h : InitDtors D k σ0 σ ts vs σ') :
    SameTail σ σ' := by
  induction h with
  | one h => exact h.sameTail
  | cons h _ ih => exact h.sameTail.trans ih

theorem Declaration.sameTail {D : Dialect} {σ σ' : Scope} {ts d} (h : Declaration D σ ts d σ') : SameTail σ σ' := by
  cases h with
  | decl _ _ _ h => exact h.sameTail
  | specs | assertion => exact .refl _

theorem Statement.sameTail {D : Dialect} {s : Sym} {σ σ' : Scope} {ts v} (h : Statement D s σ ts v σ') :
    SameTail σ σ' := by
  induction h with
  | label _ ih | case _ _ ih | default _ ih | ifThen _ _ ih | switch _ _ ih | «while» _ _ ih | doWhile _ _ ih
  | forExpr _ _ _ _ ih => exact ih
  | compound | itemsNil | expr | goto | «continue» | «break» | ret => exact .refl _
  | itemDecl h _ ih => exact h.sameTail.trans ih
  | itemStmt _ _ _ ih ih' => exact ih.trans ih'
  | ifElse _ _ _ _ ih ih' => exact ih.trans ih'
  | forDecl h _ _ _ _ ih =>
    unfold Dialect.view
    split
    · exact h.sameTail.trans ih
    · exact .refl _

theorem Declarations.sameTail {D : Dialect} {σ σ' : Scope} {ts ds} (h : Declarations D σ ts ds σ') : SameTail σ σ' := by
  induction h with
  | nil => exact .refl _
  | cons h _ ih => exact h.sameTail.trans ih

theorem declareName_eq {k : Bool} {s : String} {σ : Scope} (hn : σ ≠ []) (h : σ.clash k (some s) = false) :
    declareName k s σ = some (σ.declare k s) := by
  cases σ with
  | nil => exact absurd rfl hn
  | cons b r =>
    simp only [Scope.clash] at h
    unfold declareName
    cases hl : b.lookup s with
    | none => simp [Scope.declare, hl]
    | some k' => cases k <;> cases k' <;> simp_all [Scope.declare]

theorem hasTypedef_eq (ss : List (Spec Syn)) : hasTypedef ss = ss.any isTypedefSpec := by
  induction ss with
  | nil => rfl
  | cons s r ih =>
    unfold hasTypedef
    split
    · rename_i h; cases h
    · rename_i h; cases h; rfl
    · rename_i hs h
      cases h
      rw [ih, List.any_cons]
      cases hk : isTypedefSpec s with
      | false => rfl
      | true =>
        cases s with
        | storage x => cases x <;> first | exact absurd rfl hs | cases hk
        | _ => cases hk

/-! ### The rules for expressions and declarators -/

theorem exprRule_ok {σ : Scope} {ts : List Tok} {e : Expr Syn} (h : IsExpr .kefir .common σ.names .expr ts e)
    {rest : List Tok} (hr : afterExpr rest = true) : exprRule σ (ts ++ rest) = .ok e rest :=
  DeclParser.C73_expressions_partial (names_scope σ) h hr

theorem initRule_ok {σ : Scope} {ts : List Tok} {e : Expr Syn} (h : IsExpr .kefir .common σ.names .init ts e)
    {rest : List Tok} (hr : afterItem rest = true) : initRule σ (ts ++ rest) = .ok e rest :=
  DeclParser.C73_initializers_partial (names_scope σ) h hr

theorem condRule_ok {σ : Scope} {ts : List Tok} {e : Expr Syn} (h : IsExpr .kefir .common σ.names .cond ts e)
    {rest : List Tok} (hr : afterItem rest = true) : condRule σ (ts ++ rest) = .ok e rest :=
  (Parser.der_complete (lit := false) (exprs_accept (names_scope σ)) (s := .cond) h).1 rest
    (Nat.lt_of_succ_lt (Parser.rank_afterItem hr))

theorem dtorRule_ok {σ : Scope} {ts : List Tok} {v : Dtor Syn} (h : IsDecl .kefir .common σ.names .dtor ts v)
    {rest : List Tok} (he : DEnd rest) : dtorRule σ (ts ++ rest) = .ok v rest :=
  DeclParser.C73_declarators_partial (names_scope σ) h he

theorem specsRule_ok {σ : Scope} {ts : List Tok} {ss : List (Spec Syn)}
    (h : IsDecl .kefir .common σ.names (.specs false) ts ss) (ho : SpecsOk .common false ss) {rest : List Tok}
    (he : SpecsEnd σ.names true rest) (hg : SpecsGlue ss rest) : specsRule σ (ts ++ rest) = .ok ss rest := by
  have ht : ss.any DeclParser.isType = true := by
    rcases ho.2.1 with h | h
    · cases h
    · exact h
  exact DeclParser.C73_specifiers_partial (names_scope σ) h ho.1 (by rw [ht]; exact he) hg

theorem exprRule_noMatch {σ : Scope} {ts : List Tok} (h : headIs (exprStart σ.names) ts = false) :
    exprRule σ ts = .noMatch :=
  Parser.expr_noMatch (lit := false) (exprs_accept (names_scope σ)) h

/-- No declaration starts here. -/
def NoDecl (σ : Scope) (ts : List Tok) : Prop :=
  headIs (specTok σ.names) ts = false ∧ headIs (tokKw .kAttribute) ts = false

theorem specsRule_noMatch {σ : Scope} {ts : List Tok} (h : NoDecl σ ts) : specsRule σ ts = .noMatch := by
  have hs : DeclParser.run (decls σ.names) (.spec false) ts = .noMatch := by
    rw [DeclParser.run_eq _ decls_fits]
    show DeclParser.specifier _ _ false ts = .noMatch
    unfold DeclParser.specifier
    rw [skipAttrs_miss h.2]
    match ts, h with
    | [], _ => rfl
    | .kw k :: r, h =>
      have : specKw k = false := h.1
      cases k <;> first | rfl | (exact absurd this (by decide))
    | .ident s :: r, h =>
      have h1 : (s == vaListName || σ.names s) = false := h.1
      rw [Bool.or_eq_false_iff] at h1
      have h2 : (s = vaListName) = False := by simpa using h1.1
      simp only [vaListName] at h2
      simp [h2, show (decls σ.names).isTypedef s = false from h1.2]
    | .punct _ :: _, _ => rfl
    | .const _ _ :: _, _ => rfl
    | .str _ _ :: _, _ => rfl
  show DeclParser.run (decls σ.names) (.specs []) ts = .noMatch
  rw [DeclParser.run_eq _ decls_fits]
  show DeclParser.specList _ [] ts = .noMatch
  unfold DeclParser.specList
  rw [show DeclParser.run (decls σ.names) (.spec (DeclParser.hasTypeSpecifiers [])) ts = .noMatch from hs]
  rfl

theorem dtorRule_semi (σ : Scope) (r : List Tok) : dtorRule σ (semi :: r) = .noMatch := by
  show DeclParser.run (decls σ.names) .declarator _ = .noMatch
  rw [DeclParser.run_eq _ decls_fits]
  rfl

theorem declaration_noMatch {σ : Scope} {ts : List Tok} (h : NoDecl σ ts)
    (ha : headIs (tokKw .kStaticAssert) ts = false) : declaration σ ts = .noMatch := by
  unfold declaration staticAssertion
  rw [expect_miss ha, specsRule_noMatch h]
  rfl

/-! ### First tokens -/

theorem head_append {f : Tok → Bool} {ts : List Tok} (h : headIs f ts = true) (us : List Tok) :
    headIs f (ts ++ us) = true := by
  cases ts with
  | nil => cases h
  | cons t r => exact h

/-- First tokens of declarations. -/
def declTok (σ : Scope) (t : Tok) : Bool := specTok σ.names t || tokKw .kStaticAssert t

theorem Declaration.head {D : Dialect} {σ σ' : Scope} {ts d} (h : Declaration D σ ts d σ') :
    headIs (declTok σ) ts = true := by
  have key : ∀ {ts ss}, IsDecl D.p D.d σ.names (.specs false) ts ss → SpecsOk D.d false ss → ∀ us,
      headIs (declTok σ) (ts ++ us) = true := by
    intro ts ss h ho us
    rcases h.head with ⟨-, h⟩ | h
    · exact absurd h ho.1
    · cases ts with
      | nil => cases h
      | cons t r => simp only [List.cons_append, headIs, declTok] at *; simp [h]
  cases h with
  | decl h1 h2 => rw [List.append_assoc]; exact key h1 h2 _
  | specs h1 h2 => exact key h1 h2 _
  | assertion => rfl

theorem declTok_facts {σ : Scope} {ts : List Tok} (h : headIs (declTok σ) ts = true) :
    DEnd ts ∧ headIs (tokKw .kElse) ts = false ∧ headIs tokRBrace ts = false := by
  cases ts with
  | nil => cases h
  | cons t r =>
    cases t with
    | kw k => cases k <;> first | exact ⟨⟨rfl, rfl, rfl⟩, rfl, rfl⟩ | cases h
    | ident s => exact ⟨⟨rfl, rfl, rfl⟩, rfl, rfl⟩
    | _ => cases h

/-- First tokens of statements, other than labels. -/
def stmtTok (σ : Scope) (t : Tok) : Bool :=
  exprStart σ.names t || t.isLBrace || tokIs .semicolon t ||
    match t with
    | .kw k => [.kCase, .kDefault, .kIf, .kSwitch, .kWhile, .kDo, .kFor, .kGoto, .kContinue, .kBreak, .kReturn].contains k
    | _ => false

theorem expr_head {p d} {σ : Scope} {ts : List Tok} {e : Expr Syn} (h : IsExpr p d σ.names .expr ts e) :
    headIs (exprStart σ.names) ts = true := by
  obtain ⟨t, r, rfl, ht⟩ := Parser.der_head (names_scope σ).1 h
  exact ht

theorem Statement.head {D : Dialect} {σ σ' : Scope} {ts st} (h : Statement D .stmt σ ts st σ') :
    headIs (stmtTok σ) ts = true ∨ ∃ s r, ts = .ident s :: colon :: r := by
  cases h with
  | label => exact .inr ⟨_, _, rfl⟩
  | compound h => refine .inl ?_; simp [headIs, stmtTok, h]
  | expr h =>
    refine .inl ?_
    cases h with
    | none => rfl
    | some h =>
      have := expr_head h
      rename_i te _
      cases te with
      | nil => cases this
      | cons t r => simp only [List.cons_append, headIs, stmtTok] at *; simp [this]
  | _ => exact .inl rfl

theorem stmtTok_facts {σ : Scope} {ts : List Tok} (h : headIs (stmtTok σ) ts = true) :
    NoDecl σ ts ∧ headIs (tokKw .kStaticAssert) ts = false ∧ headIs (tokKw .kElse) ts = false ∧
      headIs tokRBrace ts = false := by
  cases ts with
  | nil => cases h
  | cons t r =>
    cases t with
    | kw k => cases k <;> first | exact ⟨⟨rfl, rfl⟩, rfl, rfl, rfl⟩ | cases h
    | punct p => cases p <;> first | exact ⟨⟨rfl, rfl⟩, rfl, rfl, rfl⟩ | cases h
    | ident s =>
      refine ⟨⟨?_, rfl⟩, rfl, rfl, rfl⟩
      have h : σ.names s = false := by
        simp only [headIs, stmtTok, exprStart] at h
        cases hn : σ.names s with
        | false => rfl
        | true => rw [hn] at h; cases h
      have hv : s ≠ vaListName := by rintro rfl; rw [(names_scope σ).2] at h; cases h
      simp [headIs, specTok, h, hv]
    | _ => exact ⟨⟨rfl, rfl⟩, rfl, rfl, rfl⟩

/-! ### Labels are no expressions -/

/-- Not the start of a labeled statement. -/
def NotLabel (ts : List Tok) : Prop := ts ≠ [] ∧ ∀ s r, ts ≠ .ident s :: colon :: r

theorem NotLabel.append {ts : List Tok} (h : NotLabel ts) {t : Tok} (ht : t ≠ colon) (us : List Tok) :
    NotLabel (ts ++ t :: us) := by
  match ts, h with
  | [], h => exact absurd rfl h.1
  | [a], _ => exact ⟨by simp, fun s r hr => ht (by simp at hr; exact hr.2.1)⟩
  | a :: b :: r, h => exact ⟨by simp, fun s r' hr => by simp at hr; exact h.2 s r (by rw [hr.1, hr.2.1])⟩

theorem notLabel_cons {t : Tok} (h : ∀ s, t ≠ .ident s) (r : List Tok) : NotLabel (t :: r) :=
  ⟨by simp, fun s r' hr => by simp at hr; exact h s hr.1⟩

theorem ne_ident_of_punct {t : Tok} {f : Tok → Bool} (h : f t = true) (hf : ∀ s, f (.ident s) = false) (s : String) :
    t ≠ .ident s := by
  rintro rfl
  rw [hf] at h; cases h

theorem der_notLabel {p : Parser.Dialect} {td : String → Bool} {I : List Tok → Syn → Prop} {s : Parser.Sym}
    {ts : List Tok} {e : Expr Syn} (h : Parser.Der p td I s ts e) : NotLabel ts := by
  induction h with
  | ident => exact ⟨by simp, fun _ _ h => by simp at h⟩
  | const | str | paren | generic | literal | prefixOp | unaryOp | sizeofExpr | sizeofType | alignofType | alignofExpr
  | cast => exact notLabel_cons (fun s => by simp [lp]) _
  | postfixPrimary _ ih | postfixLiteral _ _ ih | unaryPostfix _ ih | unaryLiteral _ ih | castUnary _ ih
  | binOperand _ ih | condBin _ ih | assignCond _ ih | exprAssign _ ih | initExpr _ ih | initBraces _ ih => exact ih
  | builtin => exact ⟨by simp, fun s r h => by simp [lp, colon] at h⟩
  | subscript _ hl _ _ ih =>
    rw [List.append_assoc]
    exact ih.append (by rintro rfl; cases hl) _
  | call _ _ _ ih =>
    rw [List.append_assoc, List.append_assoc]
    exact ih.append (by decide) _
  | member _ ih | arrow _ ih => exact ih.append (by decide) _
  | postfixOp _ hp ih =>
    refine ih.append ?_ _
    rintro h; cases h; simp [Parser.postfixOps] at hp
  | @binOp l _ _ _ _ _ _ _ hp _ ih =>
    refine ih.append ?_ _
    rintro h; cases h; cases l <;> simp [Parser.Level.ops] at hp
  | cond _ _ _ ih =>
    rw [List.append_assoc]
    exact ih.append (by decide) _
  | assign _ hp _ ih =>
    refine ih.append ?_ _
    rintro h; cases h; simp [Parser.assignOps] at hp
  | comma _ _ ih => exact ih.append (by decide) _
  | braces hl => exact notLabel_cons (ne_ident_of_punct hl fun _ => rfl) _

end Kefir.UnitParser
