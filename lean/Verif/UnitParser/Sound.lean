import Verif.UnitParser.Accept

/-! What the rules accept is derived by the grammar of the kefir dialect, with the tree they build. -/

namespace Kefir.UnitParser
open Kefir.Lexer (Punct Keyword)
open Kefir.Parser (Tok Expr Res lp rp comma colon expect tokIs tokLBrace tokRBrace tokLBracket headIs strNode exprStart
  builtinNames tokIs_eq tokLBrace_eq tokRBrace_eq expect_ok)
open Kefir.Parser.Res (andThen_ok must_ok orElse_ok)
open Kefir.Declr
open Kefir.DeclParser (Syn caseOf tokKw skipAttrs decls exprs IsDecl IsExpr SpecsOk SpecsGlue semi vaListName caseOf_ok
  skipAttrs_ok tokKw_eq exprs_sound run_expr_sound head?_append headIs_ne_nil expect_hit expect_miss)

/-! ### The rules for expressions and declarators -/

theorem exprRule_sound {σ : Scope} {ts r : List Tok} {e : Expr Syn} (h : exprRule σ ts = .ok e r) :
    ∃ pre, ts = pre ++ r ∧ IsExpr .kefir .kefir σ.names .expr pre e :=
  DeclParser.C73_expressions_accepted (names_scope σ) h

theorem condRule_sound {σ : Scope} {ts r : List Tok} {e : Expr Syn} (h : condRule σ ts = .ok e r) :
    ∃ pre, ts = pre ++ r ∧ IsExpr .kefir .kefir σ.names .cond pre e :=
  run_expr_sound (exprs_sound (names_scope σ)) .cond ts e r h

theorem initRule_sound {σ : Scope} {ts r : List Tok} {e : Expr Syn} (h : initRule σ ts = .ok e r) :
    ∃ pre, ts = pre ++ r ∧ IsExpr .kefir .kefir σ.names .init pre e :=
  run_expr_sound (exprs_sound (names_scope σ)) .init ts e r h

theorem dtorRule_sound {σ : Scope} {ts r : List Tok} {v : Dtor Syn} (h : dtorRule σ ts = .ok v r) :
    ∃ pre, ts = pre ++ r ∧ IsDecl .kefir .kefir σ.names .dtor pre v :=
  DeclParser.C73_declarators_accepted (names_scope σ) h

theorem specsRule_sound {σ : Scope} {ts r : List Tok} {ss : List (Spec Syn)} (h : specsRule σ ts = .ok ss r) :
    ∃ pre, ts = pre ++ r ∧ IsDecl .kefir .kefir σ.names (.specs false) pre ss ∧ SpecsOk .kefir false ss ∧
      SpecsGlue ss r := by
  obtain ⟨pre, h1, h2, h3, h4⟩ := DeclParser.C73_specifiers_accepted (names_scope σ) h
  exact ⟨pre, h1, h2, ⟨h3, .inl rfl, fun h => by cases h⟩, h4⟩

/-! ### Declarations -/

theorem staticAssertion_sound {σ : Scope} {ts r : List Tok} {v : Decl × Scope} (h : staticAssertion σ ts = .ok v r) :
    ∃ pre, ts = pre ++ r ∧ Declaration .kefir σ pre v.1 v.2 := by
  unfold staticAssertion at h
  rcases expect_ok.1 h with ⟨t, r1, rfl, ht, h⟩ | ⟨-, h⟩
  · rw [tokKw_eq ht]
    rcases expect_ok.1 h with ⟨t, r2, rfl, ht, h⟩ | ⟨-, h⟩
    · rw [tokIs_eq ht]
      obtain ⟨e, r3, h3, h'⟩ := must_ok.1 h
      obtain ⟨pe, rfl, hc⟩ := condRule_sound h3
      rcases expect_ok.1 h' with ⟨t, r4, rfl, ht, h⟩ | ⟨-, h⟩
      · rw [tokIs_eq ht]
        unfold assertMessage at h
        split at h
        · rename_i k v' r5
          rcases expect_ok.1 h with ⟨t, r6, rfl, ht, h⟩ | ⟨-, h⟩
          · rw [tokIs_eq ht]
            rcases expect_ok.1 h with ⟨t, r6, rfl, ht, h⟩ | ⟨-, h⟩
            · rw [tokIs_eq ht]
              cases h
              rw [Kefir.Parser.strNode_eq]
              exact ⟨_, by simp, Declaration.assertion hc⟩
            · cases h
          · cases h
        · cases h
      · cases h
    · cases h
  · cases h

theorem declareName_some {k : Bool} {s : String} {σ σ' : Scope} (h : declareName k s σ = some σ') :
    σ.clash k (some s) = false ∧ σ' = σ.declare k s := by
  unfold declareName at h
  split at h
  · cases h
  · rename_i b r
    split at h
    · rename_i k' hk
      split at h
      · rename_i hkk
        cases h
        subst hkk
        refine ⟨?_, rfl⟩
        simp only [Scope.clash, hk]
        cases k' <;> rfl
      · cases h
    · rename_i hk
      cases h
      exact ⟨by simp [Scope.clash, hk], rfl⟩

theorem declareAll_cons {k : Bool} {d : Dtor Syn} {e : Option (Expr Syn)} {r : List (Dtor Syn × Option (Expr Syn))}
    {σ σ' : Scope} (h : declareAll k ((d, e) :: r) σ = some σ') :
    Dialect.kefir.May k d.ident σ ∧ declareAll k r (σ.enter k d.ident) = some σ' := by
  rw [declareAll] at h
  split at h
  · rename_i s hs
    split at h
    · rename_i σ1 h1
      obtain ⟨h2, rfl⟩ := declareName_some h1
      rw [hs]
      exact ⟨fun _ => h2, h⟩
    · cases h
  · rename_i hs
    rw [hs]
    refine ⟨fun _ => ?_, h⟩
    cases σ <;> rfl

theorem initDtors_sound {σ0 : Scope} (n : Nat) : ∀ (acc : List (Dtor Syn × Option (Expr Syn))) (ts r : List Tok)
    (vs : List (Dtor Syn × Option (Expr Syn))), initDtors σ0 n acc ts = .ok vs r →
    ∃ pre ds, ts = pre ++ r ∧ vs = acc ++ ds ∧ pre ≠ [] ∧
      ∀ k σ σ', declareAll k ds σ = some σ' → InitDtors .kefir k σ0 σ pre ds σ' := by
  induction n with
  | zero => intro acc ts r vs h; cases h
  | succ n ih =>
    intro acc ts r vs h
    -- what follows an init-declarator
    have next : ∀ (pre : List Tok) (v : Dtor Syn × Option (Expr Syn)) (ts' : List Tok), pre ≠ [] →
        (∀ k σ, Dialect.kefir.May k v.1.ident σ → InitDtor .kefir k σ0 σ pre v (σ.enter k v.1.ident)) →
        initNext (initDtors σ0 n) (acc ++ [v]) ts' = .ok vs r →
        ∃ pre' ds, pre ++ ts' = pre' ++ r ∧ vs = acc ++ ds ∧ pre' ≠ [] ∧
          ∀ k σ σ', declareAll k ds σ = some σ' → InitDtors .kefir k σ0 σ pre' ds σ' := by
      intro pre v ts' hne hv h
      unfold initNext at h
      rcases expect_ok.1 h with ⟨t, r1, rfl, ht, h⟩ | ⟨-, h⟩
      · obtain ⟨pre', ds, rfl, rfl, -, hds⟩ := ih _ _ _ _ h
        refine ⟨pre ++ comma :: pre', v :: ds, by simp [tokIs_eq ht, comma], by simp, by simp, fun k σ σ' hd => ?_⟩
        obtain ⟨hm, hd⟩ := declareAll_cons (d := v.1) (e := v.2) hd
        exact .cons (hv k σ hm) (hds _ _ _ hd)
      · cases h
        refine ⟨pre, [v], rfl, rfl, hne, fun k σ σ' hd => ?_⟩
        obtain ⟨hm, hd⟩ := declareAll_cons (d := v.1) (e := v.2) hd
        cases hd
        exact .one (hv k σ hm)
    unfold initDtors at h
    obtain ⟨d, r1, h1, h'⟩ := must_ok.1 h
    obtain ⟨pre, rfl, hd⟩ := dtorRule_sound h1
    have hne := headIs_ne_nil hd.head
    rcases expect_ok.1 h' with ⟨t, r2, rfl, ht, h2⟩ | ⟨-, h2⟩
    · obtain ⟨e, r3, h3, h4⟩ := must_ok.1 h2
      obtain ⟨pe, rfl, he⟩ := initRule_sound h3
      obtain ⟨pre', ds, h6, h5⟩ := next (pre ++ .punct .assign :: pe) (d, some e) r3 (by simp)
        (fun k σ hm => .init ⟨hd, fun h => by cases h⟩ hm ⟨he, fun h => by cases h⟩) h4
      exact ⟨pre', ds, by rw [← h6, tokIs_eq ht]; simp, h5⟩
    · exact next pre (d, none) r1 hne (fun k σ hm => .plain ⟨hd, fun h => by cases h⟩ hm) h2

theorem declaration_sound {σ : Scope} {ts r : List Tok} {v : Decl × Scope} (h : declaration σ ts = .ok v r) :
    ∃ pre, ts = pre ++ r ∧ Declaration .kefir σ pre v.1 v.2 := by
  unfold declaration at h
  rcases orElse_ok.1 h with h | ⟨-, h⟩
  · exact staticAssertion_sound h
  · obtain ⟨ss, r1, h1, h'⟩ := andThen_ok.1 h
    obtain ⟨pre, rfl, h2, h3, h4⟩ := specsRule_sound h1
    rcases expect_ok.1 h' with ⟨t, r2, rfl, ht, h6⟩ | ⟨-, h6⟩
    · cases h6
      exact ⟨pre ++ [semi], by simp [tokIs_eq ht, semi], .specs h2 h3⟩
    · obtain ⟨ds, r2, h5, h7⟩ := andThen_ok.1 h6
      obtain ⟨pre', ds', rfl, rfl, hne, hd⟩ := initDtors_sound _ _ _ _ _ h5
      rcases expect_ok.1 h7 with ⟨t, r3, rfl, ht, h8⟩ | ⟨-, h8⟩
      · unfold updateScope at h8
        split at h8
        · rename_i σ' hσ
          cases h8
          rw [hasTypedef_eq] at hσ
          exact ⟨pre ++ pre' ++ [semi], by simp [tokIs_eq ht, semi],
            .decl h2 h3 (fun hl => by rw [← head?_append (us := t :: r) hne]; exact h4 hl) (hd _ _ _ hσ)⟩
        · cases h8
      · cases h8

/-- A typedef name before a colon is taken for the start of a declaration. -/
theorem declaration_label {σ : Scope} {s : String} (r : List Tok) (h : σ.names s = true) :
    declaration σ (.ident s :: colon :: r) = .error := by
  have hs : ∃ ss, specsRule σ (.ident s :: colon :: r) = .ok ss (colon :: r) := by
    have key : ∀ x, IsDecl .kefir .common σ.names (.spec false) [.ident s] (.type x) →
        ∃ ss, specsRule σ (.ident s :: colon :: r) = .ok ss (colon :: r) := by
      intro x hx
      have h1 : IsDecl .kefir .common σ.names (.specs false) ([.ident s] ++ []) [.type x] := .specsCons hx .specsNil
      exact ⟨_, specsRule_ok h1 ⟨by simp, .inr rfl, fun h => by cases h⟩
        (DeclParser.specsEnd_of_punct _ _ rfl) (glue_cons (by decide) _)⟩
    by_cases hv : s = vaListName
    · subst hv
      exact key _ .vaList
    · exact key _ (.typedefName h hv)
  obtain ⟨ss, hs⟩ := hs
  have hd : dtorRule σ (colon :: r) = .noMatch := by
    show DeclParser.run (decls σ.names) .declarator _ = .noMatch
    rw [DeclParser.run_eq _ DeclParser.decls_fits]
    rfl
  unfold declaration staticAssertion
  rw [expect_miss rfl, noMatch_orElse, hs, ok_andThen, expect_miss rfl]
  unfold initDtors
  rw [hd]
  rfl

/-! ### Statements -/

/-- What a rule that accepts has read. -/
def Claim : (nt : NT) → Scope → List Tok → nt.Val × Scope → List Tok → Prop
  | .statement, σ, ts, v, r => ∃ pre, ts = pre ++ r ∧ Statement .kefir .stmt σ pre v.1 v.2 ∧
      (v.1.isOpen = true → headIs (tokKw .kElse) r = false)
  | .items acc, σ, ts, v, r => ∃ pre is t, ts = pre ++ t :: r ∧ t.isRBrace = true ∧ v.1 = acc ++ is ∧
      Statement .kefir .items σ pre is v.2

/-- The rules that are called do so. -/
def RecSound (R : Rec) : Prop := ∀ nt σ ts v r, R nt σ ts = .ok v r → Claim nt σ ts v r

section
variable {R : Rec} (hR : RecSound R) {σ : Scope} {ts r : List Tok} {v : Stmt × Scope}
include hR

theorem recStatement (h : (R .statement σ ts : Res (Stmt × Scope)) = .ok v r) :
    ∃ pre, ts = pre ++ r ∧ Statement .kefir .stmt σ pre v.1 v.2 ∧ (v.1.isOpen = true → headIs (tokKw .kElse) r = false) :=
  hR .statement σ ts v r h

theorem body_sound {k : Stmt → Stmt} (h : body R σ ts k = .ok v r) :
    ∃ pre st, ts = pre ++ r ∧ Statement .kefir .stmt σ pre st v.2 ∧ v.1 = k st ∧
      (st.isOpen = true → headIs (tokKw .kElse) r = false) := by
  unfold body at h
  obtain ⟨x, r1, h1, h2⟩ := must_ok.1 h
  obtain ⟨pre, h3, h4, h5⟩ := recStatement hR h1
  cases h2
  exact ⟨pre, x.1, h3, h4, rfl, h5⟩

theorem labeled_sound (h : labeled R σ ts = .ok v r) : Claim .statement σ ts v r := by
  obtain ⟨w, σ'⟩ := v
  unfold labeled at h
  split at h
  · obtain ⟨-, h1⟩ := skipAttrs_ok.1 h
    obtain ⟨pre, st, rfl, h3, h4, h5⟩ := body_sound hR h1
    cases h4
    exact ⟨.ident _ :: colon :: pre, rfl, .label h3, h5⟩
  · obtain ⟨e, r1, h1, h2⟩ := must_ok.1 h
    obtain ⟨pe, rfl, he⟩ := condRule_sound h1
    rcases expect_ok.1 h2 with ⟨t, r2, rfl, ht, h3⟩ | ⟨-, h3⟩
    · obtain ⟨pre, st, rfl, h5, h6, h7⟩ := body_sound hR h3
      cases h6
      exact ⟨.kw .kCase :: pe ++ colon :: pre, by simp [tokIs_eq ht, colon], .case he h5, h7⟩
    · cases h3
  · rcases expect_ok.1 h with ⟨t, r2, rfl, ht, h3⟩ | ⟨-, h3⟩
    · obtain ⟨pre, st, rfl, h5, h6, h7⟩ := body_sound hR h3
      cases h6
      exact ⟨.kw .kDefault :: colon :: pre, by simp [tokIs_eq ht, colon], .default h5, h7⟩
    · cases h3
  · cases h

theorem compound_sound {v : List Item × Scope} (h : UnitParser.compound R σ ts = .ok v r) :
    ∃ l pre t σ', ts = l :: pre ++ t :: r ∧ l.isLBrace = true ∧ t.isRBrace = true ∧
      Statement .kefir .items ([] :: σ) pre v.1 σ' ∧ v.2 = σ := by
  unfold UnitParser.compound at h
  split at h
  · cases h
  · rcases expect_ok.1 h with ⟨t, r1, rfl, ht, h1⟩ | ⟨-, h1⟩
    · obtain ⟨x, r2, h2, h3⟩ := andThen_ok.1 h1
      obtain ⟨pre, is, t', rfl, ht', h4, h5⟩ := hR (.items []) _ _ _ _ h2
      cases h3
      rw [List.nil_append] at h4
      exact ⟨t, pre, t', x.2, by simp, by rw [← tokLBrace_eq, ht], ht', by rw [h4]; exact h5, (h5.sameTail (by simp)).2⟩
    · cases h1

theorem items_sound {acc : List Item} {v : List Item × Scope} (h : items R acc σ ts = .ok v r) :
    Claim (.items acc) σ ts v r := by
  unfold items at h
  rcases expect_ok.1 h with ⟨t, r1, rfl, ht, h1⟩ | ⟨-, h1⟩
  · cases h1
    exact ⟨[], [], t, rfl, by rw [← tokRBrace_eq, ht], by simp, .itemsNil⟩
  · obtain ⟨x, r1, h2, h3⟩ := must_ok.1 h1
    obtain ⟨pre, is, t, rfl, ht, h4, h5⟩ := hR (.items _) _ _ _ _ h3
    rcases orElse_ok.1 h2 with h6 | ⟨h6, h7⟩
    · obtain ⟨y, r2, h8, h9⟩ := andThen_ok.1 h6
      obtain ⟨pre', rfl, h10⟩ := declaration_sound h8
      cases h9
      exact ⟨pre' ++ pre, .decl y.1 :: is, t, by simp, ht, by rw [h4]; simp, .itemDecl h10 h5⟩
    · obtain ⟨y, r2, h8, h9⟩ := andThen_ok.1 h7
      obtain ⟨pre', rfl, h10, h11⟩ := recStatement hR h8
      cases h9
      refine ⟨pre' ++ pre, .stmt y.1 :: is, t, by simp, ht, by rw [h4]; simp, .itemStmt h10 (.inr ?_) h5⟩
      rintro s q rfl
      cases hs : σ.names s with
      | false => rfl
      | true =>
        rw [List.cons_append, List.cons_append, declaration_label _ hs] at h6
        cases h6

omit hR in
theorem expressionStatement_sound (h : expressionStatement σ ts = .ok v r) : Claim .statement σ ts v r := by
  unfold expressionStatement at h
  obtain ⟨-, h0⟩ := skipAttrs_ok.1 h
  rcases expect_ok.1 h0 with ⟨t, r1, rfl, ht, h1⟩ | ⟨-, h1⟩
  · cases h1
    exact ⟨[semi], by simp [tokIs_eq ht, semi], .expr .none, fun h => by cases h⟩
  · obtain ⟨e, r1, h2, h3⟩ := andThen_ok.1 h1
    obtain ⟨pe, rfl, he⟩ := exprRule_sound h2
    rcases expect_ok.1 h3 with ⟨t, r2, rfl, ht, h4⟩ | ⟨-, h4⟩
    · cases h4
      exact ⟨pe ++ [semi], by simp [tokIs_eq ht, semi], .expr (.some he), fun h => by cases h⟩
    · cases h4

omit hR in
theorem parenExpr_sound {k : Expr Syn → List Tok → Res (Stmt × Scope)} (h : parenExpr σ ts k = .ok v r) :
    ∃ te e r1, ts = lp :: te ++ rp :: r1 ∧ IsExpr .kefir .kefir σ.names .expr te e ∧ k e r1 = .ok v r := by
  unfold parenExpr at h
  rcases expect_ok.1 h with ⟨t, r1, rfl, ht, h1⟩ | ⟨-, h1⟩
  · obtain ⟨e, r2, h2, h3⟩ := must_ok.1 h1
    obtain ⟨pe, rfl, he⟩ := exprRule_sound h2
    rcases expect_ok.1 h3 with ⟨t', r3, rfl, ht', h4⟩ | ⟨-, h4⟩
    · exact ⟨pe, e, r3, by simp [tokIs_eq ht, tokIs_eq ht', lp, rp], he, h4⟩
    · cases h4
  · cases h1

omit hR in
theorem optExpr_sound {p : Punct} {k : Option (Expr Syn) → List Tok → Res (Stmt × Scope)}
    (h : optExpr p σ ts k = .ok v r) :
    ∃ te e r1, ts = te ++ .punct p :: r1 ∧ OptExpr .kefir σ te e ∧ k e r1 = .ok v r := by
  unfold optExpr at h
  rcases expect_ok.1 h with ⟨t, r1, rfl, ht, h1⟩ | ⟨-, h1⟩
  · exact ⟨[], none, r1, by rw [tokIs_eq ht]; rfl, .none, h1⟩
  · obtain ⟨e, r2, h2, h3⟩ := must_ok.1 h1
    obtain ⟨pe, rfl, he⟩ := exprRule_sound h2
    rcases expect_ok.1 h3 with ⟨t', r3, rfl, ht', h4⟩ | ⟨-, h4⟩
    · exact ⟨pe, some e, r3, by rw [tokIs_eq ht'], .some he, h4⟩
    · cases h4

theorem selection_sound (h : selection R σ ts = .ok v r) : Claim .statement σ ts v r := by
  obtain ⟨w, σ'⟩ := v
  unfold selection at h
  split at h
  · obtain ⟨te, e, r1, rfl, he, h1⟩ := parenExpr_sound h
    obtain ⟨x, r2, h2, h3⟩ := must_ok.1 h1
    obtain ⟨pre, rfl, h4, h5⟩ := recStatement hR h2
    rcases expect_ok.1 h3 with ⟨t, r3, rfl, ht, h6⟩ | ⟨ht, h6⟩
    · obtain ⟨pre', st, rfl, h7, h8, h9⟩ := body_sound hR h6
      cases h8
      have ho : x.1.isOpen = false := by
        cases ho : x.1.isOpen with
        | false => rfl
        | true => exact absurd (h5 ho) (by simp [headIs, ht])
      exact ⟨.kw .kIf :: lp :: te ++ rp :: pre ++ .kw .kElse :: pre', by simp [tokKw_eq ht], .ifElse he h4 ho h7, h9⟩
    · cases h6
      exact ⟨.kw .kIf :: lp :: te ++ rp :: pre, by simp, .ifThen he h4, fun _ => ht⟩
  · obtain ⟨te, e, r1, rfl, he, h1⟩ := parenExpr_sound h
    obtain ⟨pre, st, rfl, h7, h8, h9⟩ := body_sound hR h1
    cases h8
    exact ⟨.kw .kSwitch :: lp :: te ++ rp :: pre, by simp, .switch he h7, h9⟩
  · cases h

theorem forRest_sound {i : ForInit} (h : forRest R i σ ts = .ok v r) :
    ∃ tc c tn n pre st, ts = tc ++ semi :: tn ++ rp :: pre ++ r ∧ OptExpr .kefir σ tc c ∧ OptExpr .kefir σ tn n ∧
      Statement .kefir .stmt σ pre st v.2 ∧ v.1 = .for i c n st ∧
      (st.isOpen = true → headIs (tokKw .kElse) r = false) := by
  unfold forRest at h
  obtain ⟨tc, c, r1, rfl, hc, h1⟩ := optExpr_sound h
  obtain ⟨tn, n, r2, rfl, hn, h2⟩ := optExpr_sound h1
  obtain ⟨pre, st, rfl, h7, h8, h9⟩ := body_sound hR h2
  exact ⟨tc, c, tn, n, pre, st, by simp [semi, rp], hc, hn, h7, h8, h9⟩

theorem scanFor_sound (h : scanFor R σ ts = .ok v r) : Claim .statement σ (.kw .kFor :: ts) v r := by
  obtain ⟨w, σ'⟩ := v
  unfold scanFor at h
  rcases expect_ok.1 h with ⟨t, r1, rfl, ht, h1⟩ | ⟨-, h1⟩
  · rcases caseOf_ok.1 h1 with ⟨x, r2, h2, h3⟩ | ⟨-, h3⟩
    · obtain ⟨pre, rfl, hd⟩ := declaration_sound h2
      obtain ⟨tc, c, tn, n, pre', st, rfl, hc, hn, hst, h4, ho⟩ := forRest_sound hR h3
      cases h4
      have := Statement.forDecl hd hc hn hst (fun h => by cases h)
      exact ⟨.kw .kFor :: lp :: pre ++ tc ++ semi :: tn ++ rp :: pre', by simp [tokIs_eq ht, lp], this, ho⟩
    · obtain ⟨ti, i, r2, rfl, hi, h2⟩ := optExpr_sound h3
      obtain ⟨tc, c, tn, n, pre', st, rfl, hc, hn, hst, h4, ho⟩ := forRest_sound hR h2
      cases h4
      refine ⟨.kw .kFor :: lp :: ti ++ semi :: tc ++ semi :: tn ++ rp :: pre', by simp [tokIs_eq ht, lp, semi], ?_, ho⟩
      have := Statement.forExpr hi hc hn hst
      cases i <;> exact this
  · cases h1

theorem iteration_sound (h : iteration R σ ts = .ok v r) : Claim .statement σ ts v r := by
  unfold iteration at h
  split at h
  · obtain ⟨w, σ'⟩ := v
    obtain ⟨te, e, r1, rfl, he, h1⟩ := parenExpr_sound h
    obtain ⟨pre, st, rfl, h7, h8, h9⟩ := body_sound hR h1
    cases h8
    exact ⟨.kw .kWhile :: lp :: te ++ rp :: pre, by simp, .while he h7, h9⟩
  · obtain ⟨x, r2, h2, h3⟩ := must_ok.1 h
    obtain ⟨pre, rfl, h4, h5⟩ := recStatement hR h2
    rcases expect_ok.1 h3 with ⟨t, r3, rfl, ht, h6⟩ | ⟨ht, h6⟩
    · obtain ⟨te, e, r1, rfl, he, h7⟩ := parenExpr_sound h6
      rcases expect_ok.1 h7 with ⟨t', r3, rfl, ht', h8⟩ | ⟨-, h8⟩
      · cases h8
        exact ⟨.kw .kDo :: pre ++ .kw .kWhile :: lp :: te ++ [rp, semi], by simp [tokKw_eq ht, tokIs_eq ht', semi],
          .doWhile h4 he, fun h => by cases h⟩
      · cases h8
    · cases h6
  · exact scanFor_sound hR h
  · cases h

omit hR in
theorem jumpEnd_sound {st : Stmt} (h : jumpEnd st σ ts = .ok v r) : ts = semi :: r ∧ v = (st, σ) := by
  unfold jumpEnd at h
  rcases expect_ok.1 h with ⟨t, r1, rfl, ht, h1⟩ | ⟨-, h1⟩
  · cases h1
    exact ⟨by rw [tokIs_eq ht], rfl⟩
  · cases h1

omit hR in
theorem jump_sound (h : jump σ ts = .ok v r) : Claim .statement σ ts v r := by
  unfold jump at h
  split at h
  · obtain ⟨te, e, r1, rfl, he, h1⟩ := optExpr_sound h
    cases h1
    exact ⟨.kw .kReturn :: te ++ [semi], by simp [semi], .ret he, fun h => by cases h⟩
  · obtain ⟨rfl, rfl⟩ := jumpEnd_sound h
    exact ⟨[.kw .kGoto, .ident _, semi], rfl, .goto, fun h => by cases h⟩
  · cases h
  · obtain ⟨rfl, rfl⟩ := jumpEnd_sound h
    exact ⟨[.kw .kBreak, semi], rfl, .break, fun h => by cases h⟩
  · obtain ⟨rfl, rfl⟩ := jumpEnd_sound h
    exact ⟨[.kw .kContinue, semi], rfl, .continue, fun h => by cases h⟩
  · cases h

theorem statement_sound (h : statement R σ ts = .ok v r) : Claim .statement σ ts v r := by
  unfold statement at h
  rcases orElse_ok.1 h with h1 | ⟨-, h1⟩
  · exact labeled_sound hR h1
  rcases orElse_ok.1 h1 with h2 | ⟨-, h2⟩
  · obtain ⟨x, r1, h3, h4⟩ := andThen_ok.1 h2
    obtain ⟨l, pre, t, σ', rfl, hl, ht, h5, h6⟩ := compound_sound hR h3
    cases h4
    refine ⟨l :: pre ++ [t], by simp, ?_, fun h => by cases h⟩
    have h7 : Statement .kefir .stmt σ (l :: pre ++ [t]) (Stmt.compound x.1) σ := .compound hl h5 ht
    rw [← h6] at h7
    rw [← h6]
    exact h7
  rcases orElse_ok.1 h2 with h3 | ⟨-, h3⟩
  · exact expressionStatement_sound h3
  rcases orElse_ok.1 h3 with h4 | ⟨-, h4⟩
  · exact selection_sound hR h4
  rcases orElse_ok.1 h4 with h5 | ⟨-, h5⟩
  · exact iteration_sound hR h5
  · exact jump_sound h5

end

theorem parse_sound (n : Nat) : RecSound (parse n) := by
  induction n with
  | zero => intro nt σ ts v r h; cases h
  | succ n ih =>
    intro nt σ ts v r h
    cases nt with
    | statement => exact statement_sound ih h
    | items acc => exact items_sound ih h

theorem run_sound : RecSound run := fun nt σ ts v r h => parse_sound _ nt σ ts v r h

/-! ### External declarations -/

theorem declarationList_sound (n : Nat) : ∀ (acc : List Decl) (σ : Scope) (ts r : List Tok) (v : List Decl × Scope),
    declarationList n acc σ ts = .ok v r →
    ∃ pre ds, ts = pre ++ r ∧ v.1 = acc ++ ds ∧ Declarations .kefir σ pre ds v.2 := by
  induction n with
  | zero => intro acc σ ts r v h; cases h
  | succ n ih =>
    intro acc σ ts r v h
    unfold declarationList at h
    rcases caseOf_ok.1 h with ⟨x, r1, h1, h2⟩ | ⟨-, h2⟩
    · obtain ⟨pre, rfl, hd⟩ := declaration_sound h1
      obtain ⟨pre', ds, rfl, h3, h4⟩ := ih _ _ _ _ _ h2
      exact ⟨pre ++ pre', x.1 :: ds, by simp, by rw [h3]; simp, .cons hd h4⟩
    · cases h2
      exact ⟨[], [], rfl, by simp, .nil⟩

theorem functionDefinition_sound {σ : Scope} {ts r : List Tok} {v : External × Scope}
    (h : functionDefinition σ ts = .ok v r) : ∃ pre, ts = pre ++ r ∧ ExternalDecl .kefir σ pre v.1 v.2 := by
  unfold functionDefinition at h
  obtain ⟨ss, r1, h1, h2⟩ := andThen_ok.1 h
  obtain ⟨pre, rfl, hs, hso, hg⟩ := specsRule_sound h1
  obtain ⟨d, r2, h3, h4⟩ := andThen_ok.1 h2
  obtain ⟨pd, rfl, hd⟩ := dtorRule_sound h3
  have hne := headIs_ne_nil hd.head
  obtain ⟨ks, r3, h5, h6⟩ := andThen_ok.1 h4
  obtain ⟨pk, ds, rfl, hk, hds⟩ := declarationList_sound _ _ _ _ _ _ h5
  obtain ⟨x, r4, h7, h8⟩ := andThen_ok.1 h6
  obtain ⟨l, pb, t, σb, rfl, hl, ht, hb, hσ⟩ := compound_sound run_sound h7
  cases h8
  rw [List.nil_append] at hk
  refine ⟨pre ++ pd ++ pk ++ l :: pb ++ [t], by simp, ?_⟩
  rw [hk, hσ]
  exact ExternalDecl.fn (D := .kefir) hs hso hd
    (fun hl => by rw [← head?_append (us := pk ++ (l :: pb ++ t :: r)) hne]; exact hg hl)
    hds hl hb ht (fun h => by cases h) (fun h => by cases h)

theorem external_sound {σ : Scope} {ts r : List Tok} {v : External × Scope} (h : external σ ts = .ok v r) :
    ∃ pre, ts = pre ++ r ∧ ExternalDecl .kefir σ pre v.1 v.2 := by
  unfold external at h
  rcases orElse_ok.1 h with h1 | ⟨-, h1⟩
  · exact functionDefinition_sound h1
  · obtain ⟨x, r1, h2, h3⟩ := andThen_ok.1 h1
    obtain ⟨pre, rfl, hd⟩ := declaration_sound h2
    cases h3
    exact ⟨pre, rfl, .decl hd⟩

theorem externals_sound (n : Nat) : ∀ (acc : List External) (σ : Scope) (ts r : List Tok) (v : List External),
    externals n acc σ ts = .ok v r →
    ∃ xs σ', r = [] ∧ v = acc ++ xs ∧ Externals .kefir σ ts xs σ' := by
  induction n with
  | zero => intro acc σ ts r v h; cases h
  | succ n ih =>
    intro acc σ ts r v h
    unfold externals at h
    split at h
    · cases h
      exact ⟨[], σ, rfl, by simp, .nil⟩
    · obtain ⟨x, r1, h1, h2⟩ := must_ok.1 h
      obtain ⟨pre, rfl, hx⟩ := external_sound h1
      obtain ⟨xs, σ', rfl, h3, h4⟩ := ih _ _ _ _ _ h2
      exact ⟨x.1 :: xs, σ', rfl, by rw [h3]; simp, .cons hx h4⟩

theorem translationUnit_sound {ts r : List Tok} {xs : List External} (h : translationUnit ts = .ok xs r) :
    r = [] ∧ IsUnit .kefir ts xs := by
  unfold translationUnit at h
  obtain ⟨x, r1, h1, h2⟩ := must_ok.1 h
  obtain ⟨pre, rfl, hx⟩ := external_sound h1
  obtain ⟨xs, σ', rfl, rfl, h4⟩ := externals_sound _ _ _ _ _ _ h2
  exact ⟨rfl, by simp, σ', .cons hx h4⟩

end Kefir.UnitParser
