import Verif.UnitParser.Complete

/-! The rules find the declarations, statements and translation units that the grammar derives. -/

namespace Kefir.UnitParser
open Kefir.Lexer (Punct Keyword)
open Kefir.Parser (Tok Expr Res lp rp comma colon expect tokIs tokLBrace tokRBrace tokLBracket headIs strNode exprStart
  builtinNames afterExpr afterItem tokLBrace_eq tokRBrace_eq)
open Kefir.Declr
open Kefir.DeclParser (Syn caseOf tokKw skipAttrs decls exprs exprs_fits decls_fits exprs_accept decls_accept IsDecl
  IsExpr SpecsOk SpecsGlue SpecsEnd DEnd semi vaListName specTok dtorTok specKw expect_hit expect_miss skipAttrs_miss
  head?_append)

/-! ### Declarations -/

theorem ok_must {α β : Type} (a : α) (r : List Tok) (k : α → List Tok → Res β) : (Res.ok a r).must k = k a r := rfl

theorem ok_andThen {α β : Type} (a : α) (r : List Tok) (k : α → List Tok → Res β) : (Res.ok a r).andThen k = k a r := rfl

theorem ok_caseOf {α β : Type} (a : α) (r : List Tok) (k : α → List Tok → Res β) (z : Res β) :
    caseOf (Res.ok a r) k z = k a r := rfl

theorem noMatch_caseOf {α β : Type} (k : α → List Tok → Res β) (z : Res β) : caseOf (Res.noMatch) k z = z := rfl

theorem noMatch_orElse {α : Type} (x : Res α) : (Res.noMatch : Res α).orElse x = x := rfl

theorem Dialect.accept_sees {σ0 σ : Scope} {P : (String → Bool) → Prop} (h : Dialect.accept.Sees σ0 σ P) : P σ0.names :=
  h.1

theorem InitDtor.dtor_head {k : Bool} {σ0 σ σ' : Scope} {ts v} (h : InitDtor .accept k σ0 σ ts v σ') :
    headIs (dtorTok false) ts = true := by
  cases h with
  | plain h => exact (Dialect.accept_sees h).head
  | init h => exact head_append (Dialect.accept_sees h).head _

theorem InitDtors.dtor_head {k : Bool} {σ0 σ σ' : Scope} {ts vs} (h : InitDtors .accept k σ0 σ ts vs σ') :
    headIs (dtorTok false) ts = true := by
  cases h with
  | one h => exact h.dtor_head
  | cons h => exact head_append h.dtor_head _

/-- `,` or `;`. -/
def Sep (t : Tok) : Prop := t = comma ∨ t = semi

theorem InitDtor.ok {k : Bool} {σ0 σ σ' : Scope} {ts v} (h : InitDtor .accept k σ0 σ ts v σ') (n : Nat)
    (acc : List (Dtor Syn × Option (Expr Syn))) {t : Tok} (ht : Sep t) (r : List Tok) :
    initDtors σ0 (n + 1) acc (ts ++ t :: r) = initNext (initDtors σ0 n) (acc ++ [v]) (t :: r) := by
  have hd : ∀ {t : Tok} {r : List Tok}, Sep t ∨ t = .punct .assign → DEnd (t :: r) := by
    rintro t r ((rfl | rfl) | rfl) <;> exact ⟨rfl, rfl, rfl⟩
  unfold initDtors
  cases h with
  | plain h hm =>
    rw [dtorRule_ok (Dialect.accept_sees h) (hd (.inl ht))]
    rw [ok_must, expect_miss (by rcases ht with rfl | rfl <;> rfl)]
  | init h hm he =>
    rw [List.append_assoc, List.cons_append, dtorRule_ok (Dialect.accept_sees h) (hd (.inr rfl)), ok_must,
      expect_hit rfl, initRule_ok (Dialect.accept_sees he) (by rcases ht with rfl | rfl <;> rfl)]
    rfl

theorem InitDtors.ok {k : Bool} {σ0 σ σ' : Scope} {ts vs} (h : InitDtors .accept k σ0 σ ts vs σ') (n : Nat)
    (acc : List (Dtor Syn × Option (Expr Syn))) (r : List Tok) (hn : ts.length < n) :
    initDtors σ0 n acc (ts ++ semi :: r) = .ok (acc ++ vs) (semi :: r) := by
  induction h generalizing n acc with
  | one h =>
    obtain ⟨n, rfl⟩ : ∃ m, n = m + 1 := ⟨n - 1, by omega⟩
    rw [h.ok n acc (.inr rfl)]
    rfl
  | cons h _ ih =>
    obtain ⟨n, rfl⟩ : ∃ m, n = m + 1 := ⟨n - 1, by omega⟩
    rw [List.append_assoc, List.cons_append, h.ok n acc (.inl rfl)]
    unfold initNext
    rw [expect_hit rfl, ih n _ (by simp at hn; omega)]
    simp

theorem InitDtor.declare {k : Bool} {σ0 σ σ' : Scope} {ts v} (h : InitDtor .accept k σ0 σ ts v σ') (hn : σ ≠ [])
    (r : List (Dtor Syn × Option (Expr Syn))) : declareAll k (v :: r) σ = declareAll k r σ' := by
  have key : ∀ {v : Dtor Syn} {e : Option (Expr Syn)}, Dialect.accept.May k v.ident σ →
      declareAll k ((v, e) :: r) σ = declareAll k r (σ.enter k v.ident) := by
    intro v e hm
    have hm := hm rfl
    rw [declareAll]
    cases hi : v.ident with
    | none => rfl
    | some s =>
      rw [hi] at hm
      simp only [declareName_eq hn hm]
      rfl
  cases h with
  | plain _ hm => exact key hm
  | init _ hm => exact key hm

theorem InitDtors.declare {k : Bool} {σ0 σ σ' : Scope} {ts vs} (h : InitDtors .accept k σ0 σ ts vs σ') (hn : σ ≠ []) :
    declareAll k vs σ = some σ' := by
  induction h with
  | one h => rw [h.declare hn]; rfl
  | cons h _ ih => rw [h.declare hn, ih (h.sameTail hn).1]

theorem glue_append {ss : List (Spec Syn)} {ts : List Tok} (h : SpecsGlue ss ts) (hn : ts ≠ []) (us : List Tok) :
    SpecsGlue ss (ts ++ us) := by
  intro hl
  rw [head?_append hn]
  exact h hl

theorem glue_cons {ss : List (Spec Syn)} {t : Tok} (h : t ≠ lp) (us : List Tok) : SpecsGlue ss (t :: us) := by
  intro _ hc; simp at hc; exact h hc

theorem ne_nil_of_head {f : Tok → Bool} {ts : List Tok} (h : headIs f ts = true) : ts ≠ [] := by
  rintro rfl; cases h

theorem specs_not_assert {D : Dialect} {σ : Scope} {ts : List Tok} {ss : List (Spec Syn)}
    (h : IsDecl D.p D.d σ.names (.specs false) ts ss) (ho : SpecsOk D.d false ss) (us : List Tok) :
    headIs (tokKw .kStaticAssert) (ts ++ us) = false := by
  rcases h.head with ⟨-, h⟩ | h
  · exact absurd h ho.1
  · cases ts with
    | nil => cases h
    | cons t r =>
      cases t with
      | kw k => cases k <;> first | rfl | cases h
      | _ => rfl

theorem Declaration.ok {σ σ' : Scope} {ts d} (h : Declaration .accept σ ts d σ') (hn : σ ≠ []) (rest : List Tok) :
    declaration σ (ts ++ rest) = .ok (d, σ') rest := by
  unfold declaration
  cases h with
  | @decl t1 ss t2 ds _ h1 h2 h3 h4 =>
    have ha : staticAssertion σ (t1 ++ t2 ++ [semi] ++ rest) = .noMatch := by
      unfold staticAssertion
      rw [List.append_assoc, List.append_assoc, expect_miss (specs_not_assert h1 h2 _)]
    have hd := h4.dtor_head
    rw [ha]
    show ((specsRule σ (t1 ++ t2 ++ [semi] ++ rest)).andThen _) = _
    rw [show t1 ++ t2 ++ [semi] ++ rest = t1 ++ (t2 ++ semi :: rest) by simp,
      specsRule_ok h1 h2 (DeclParser.specsEnd_of_dtor hd) (glue_append h3 (ne_nil_of_head hd) _)]
    show expect (tokIs .semicolon) (t2 ++ semi :: rest) _ _ = _
    rw [expect_miss (DeclParser.dtorTok_facts (decls_accept (names_scope σ) (exprs_accept (names_scope σ))) hd _).2.2,
      h4.ok _ [] rest (by simp; omega), ok_andThen, expect_hit rfl]
    unfold updateScope
    rw [hasTypedef_eq, List.nil_append, h4.declare hn]
  | @specs t1 ss h1 h2 =>
    have ha : staticAssertion σ (t1 ++ [semi] ++ rest) = .noMatch := by
      unfold staticAssertion
      rw [List.append_assoc, expect_miss (specs_not_assert h1 h2 _)]
    rw [ha]
    show ((specsRule σ (t1 ++ [semi] ++ rest)).andThen _) = _
    rw [show t1 ++ [semi] ++ rest = t1 ++ (semi :: rest) by simp,
      specsRule_ok h1 h2 (DeclParser.specsEnd_of_punct _ _ rfl) (glue_cons (by decide) _)]
    rfl
  | @assertion te e k v h1 =>
    have ha : staticAssertion σ (.kw .kStaticAssert :: lp :: te ++ [comma, .str k v, rp, semi] ++ rest)
        = .ok (.assertion e (.str k.elements v), σ) rest := by
      unfold staticAssertion
      rw [show Tok.kw .kStaticAssert :: lp :: te ++ [comma, .str k v, rp, semi] ++ rest
        = .kw .kStaticAssert :: lp :: (te ++ comma :: .str k v :: rp :: semi :: rest) by simp,
        expect_hit rfl, expect_hit rfl, condRule_ok h1 rfl, ok_must, expect_hit rfl]
      simp only [assertMessage, Parser.strNode_eq]
      rfl
    rw [ha]
    rfl

/-! ### Statements -/

theorem run_statement (σ : Scope) (ts : List Tok) : run .statement σ ts = statement run σ ts := run_eq .statement σ ts

theorem run_items (acc : List Item) (σ : Scope) (ts : List Tok) : run (.items acc) σ ts = items run acc σ ts :=
  run_eq (.items acc) σ ts

theorem statement_kw {σ : Scope} {k : Keyword}
    (hk : k ∈ [.kIf, .kSwitch, .kWhile, .kDo, .kFor, .kGoto, .kContinue, .kBreak, .kReturn]) (r : List Tok) :
    statement run σ (.kw k :: r) = ((selection run σ (.kw k :: r)).orElse ((iteration run σ (.kw k :: r)).orElse
      (jump σ (.kw k :: r)))) := by
  unfold statement
  have he : expressionStatement σ (.kw k :: r) = .noMatch := by
    unfold expressionStatement
    have h1 : headIs (exprStart σ.names) (.kw k :: r) = false := by
      simp at hk
      rcases hk with rfl | rfl | rfl | rfl | rfl | rfl | rfl | rfl | rfl <;> rfl
    rw [skipAttrs_miss (by simp at hk; rcases hk with rfl | rfl | rfl | rfl | rfl | rfl | rfl | rfl | rfl <;> rfl),
      expect_miss rfl, exprRule_noMatch h1]
    rfl
  rw [he]
  simp at hk
  rcases hk with rfl | rfl | rfl | rfl | rfl | rfl | rfl | rfl | rfl <;> rfl

theorem parenExpr_ok {σ : Scope} {te : List Tok} {e : Expr Syn} (h : IsExpr .kefir .common σ.names .expr te e)
    (r : List Tok) (k : Expr Syn → List Tok → Res (Stmt × Scope)) : parenExpr σ (lp :: (te ++ rp :: r)) k = k e r := by
  unfold parenExpr
  rw [expect_hit rfl, exprRule_ok h rfl]
  rfl

theorem optExpr_ok {σ : Scope} {te : List Tok} {e : Option (Expr Syn)} (h : OptExpr .accept σ te e) {p : Punct}
    (hp : p = .semicolon ∨ p = .rightParenthese) (r : List Tok) (k : Option (Expr Syn) → List Tok → Res (Stmt × Scope)) :
    optExpr p σ (te ++ .punct p :: r) k = k e r := by
  unfold optExpr
  cases h with
  | none => rcases hp with rfl | rfl <;> exact expect_hit rfl
  | some h =>
    have hh := expr_head h
    rw [expect_miss, exprRule_ok h (by rcases hp with rfl | rfl <;> rfl)]
    · show expect (tokIs p) (.punct p :: r) _ _ = _
      rcases hp with rfl | rfl <;> exact expect_hit rfl
    · cases te with
      | nil => cases hh
      | cons t r' =>
        cases t with
        | punct q => rcases hp with rfl | rfl <;> cases q <;> first | rfl | cases hh
        | _ => rfl

theorem body_ok {σ σ' : Scope} {ts r : List Tok} {st : Stmt} (h : run .statement σ ts = .ok (st, σ') r)
    (k : Stmt → Stmt) : body run σ ts k = .ok (k st, σ') r := by
  unfold body; rw [h]; rfl

/-- What the rules have to do. -/
def Goal : (s : Sym) → Scope → List Tok → s.Val → Scope → Prop
  | .stmt, σ, ts, st, σ' => σ ≠ [] → ∀ rest, (st.isOpen = true → headIs (tokKw .kElse) rest = false) →
      run .statement σ (ts ++ rest) = .ok (st, σ') rest
  | .items, σ, ts, is, σ' => σ ≠ [] → ∀ acc r rest, r.isRBrace = true →
      run (.items acc) σ (ts ++ r :: rest) = .ok (acc ++ is, σ') rest

theorem Statement.no_attribute {D : Dialect} {σ σ' : Scope} {ts st} (h : Statement D .stmt σ ts st σ')
    (rest : List Tok) : headIs (tokKw .kAttribute) (ts ++ rest) = false := by
  rcases h.head with h | ⟨s, r, rfl⟩
  · exact (stmtTok_facts (head_append h rest)).1.2
  · rfl

theorem Statement.items_head {D : Dialect} {σ σ' : Scope} {ts is} (h : Statement D .items σ ts is σ') {r : Tok}
    (hr : r.isRBrace = true) (rest : List Tok) : headIs (tokKw .kElse) (ts ++ r :: rest) = false := by
  cases h with
  | itemsNil =>
    cases r with
    | kw k => cases hr
    | _ => rfl
  | itemDecl h =>
    rw [List.append_assoc]
    exact (declTok_facts (head_append h.head _)).2.1
  | itemStmt h =>
    rw [List.append_assoc]
    rcases h.head with h | ⟨s, r, rfl⟩
    · exact (stmtTok_facts (head_append h _)).2.2.1
    · rfl

theorem statement_expr {σ : Scope} {te rest : List Tok} {e : Option (Expr Syn)} (h : OptExpr .accept σ te e) :
    statement run σ (te ++ semi :: rest) = .ok (.expr e, σ) rest := by
  cases h with
  | none => rfl
  | @some te e h =>
    have hh := head_append (expr_head h) (semi :: rest)
    have hl := (der_notLabel h).append (t := semi) (by decide) rest
    have he : expressionStatement σ (te ++ semi :: rest) = .ok (.expr (some e), σ) rest := by
      have hf := stmtTok_facts (σ := σ) (ts := te ++ semi :: rest)
      have hs : headIs (stmtTok σ) (te ++ semi :: rest) = true := by
        cases hx : te ++ semi :: rest with
        | nil => rw [hx] at hh; cases hh
        | cons t r => rw [hx] at hh; simp only [headIs, stmtTok] at *; simp [hh]
      unfold expressionStatement
      rw [skipAttrs_miss (hf hs).1.2, expect_miss, exprRule_ok h rfl]
      · rfl
      · cases te with
        | nil => exact absurd rfl (ne_nil_of_head (expr_head h))
        | cons t r' =>
          cases t with
          | punct q => cases q <;> first | rfl | cases hh
          | _ => rfl
    unfold statement
    rw [he]
    have h1 : labeled run σ (te ++ semi :: rest) = .noMatch := by
      cases hx : te ++ semi :: rest with
      | nil => rfl
      | cons t r =>
        rw [hx] at hh hl
        unfold labeled
        split
        · rename_i h; exact absurd h (hl.2 _ _)
        · rename_i h; cases h; cases hh
        · rename_i h; cases h; cases hh
        · rfl
    have h2 : compound run σ (te ++ semi :: rest) = .noMatch := by
      cases hx : te ++ semi :: rest with
      | nil => rfl
      | cons t r =>
        rw [hx] at hh
        unfold compound
        cases t with
        | punct q => cases q <;> first | rfl | cases hh
        | kw k => cases k <;> first | rfl | cases hh
        | _ => rfl
    rw [h1, h2]
    rfl

theorem Statement.ok {s : Sym} {σ σ' : Scope} {ts : List Tok} {v : s.Val} (h : Statement .accept s σ ts v σ') :
    Goal s σ ts v σ' := by
  induction h with
  | @label σ s ts st σ' h ih =>
    intro hn rest hr
    rw [run_statement]
    have h1 : labeled run σ (.ident s :: colon :: ts ++ rest) = .ok (.label s st, σ') rest := by
      show skipAttrs (ts ++ rest) (body run σ (ts ++ rest) (.label s)) = _
      rw [skipAttrs_miss (h.no_attribute rest)]
      exact body_ok (ih hn rest hr) _
    unfold statement
    rw [h1]
    rfl
  | @case σ te e ts st σ' he h ih =>
    intro hn rest hr
    rw [run_statement]
    have h1 : labeled run σ (.kw .kCase :: te ++ colon :: ts ++ rest) = .ok (.case e st, σ') rest := by
      simp only [List.cons_append, List.append_assoc]
      show (condRule σ (te ++ colon :: (ts ++ rest))).must _ = _
      rw [condRule_ok he rfl]
      exact body_ok (ih hn rest hr) _
    unfold statement
    rw [h1]
    rfl
  | @default σ ts st σ' h ih =>
    intro hn rest hr
    rw [run_statement]
    have h1 : labeled run σ (.kw .kDefault :: colon :: ts ++ rest) = .ok (.default st, σ') rest :=
      body_ok (ih hn rest hr) _
    unfold statement
    rw [h1]
    rfl
  | @compound σ l ts is σ' r hl h hr' ih =>
    intro hn rest hr
    rw [run_statement]
    have h1 : UnitParser.compound run σ (l :: ts ++ [r] ++ rest) = .ok (is, σ) rest := by
      have hc := ih (by simp) [] r rest hr'
      have ht := (h.sameTail (by simp)).2
      simp only [List.cons_append, List.append_assoc, List.nil_append]
      unfold UnitParser.compound
      rw [if_neg (by cases l <;> first | cases hl | (intro h; cases h)),
        expect_hit (show tokLBrace l = true by rw [tokLBrace_eq]; exact hl), hc]
      show Res.ok (is, σ'.tail) rest = _
      rw [ht]
      rfl
    have h2 : labeled run σ (l :: ts ++ [r] ++ rest) = .noMatch := by
      cases l with
      | punct p => rfl
      | _ => cases hl
    unfold statement
    rw [h1, h2]
    rfl
  | itemsNil =>
    intro hn acc r rest hr
    rw [run_items]
    show items run acc _ (r :: rest) = _
    unfold items
    rw [expect_hit (show tokRBrace r = true by rw [tokRBrace_eq]; exact hr)]
    simp
  | @itemDecl σ ts d σ' ts' is σ'' hd h ih =>
    intro hn acc r rest hr
    rw [run_items, List.append_assoc]
    unfold items
    rw [expect_miss (declTok_facts (head_append hd.head _)).2.2, hd.ok hn]
    show run (.items (acc ++ [.decl d])) σ' (ts' ++ r :: rest) = _
    rw [ih (hd.sameTail hn).1 _ r rest hr]
    simp
  | @itemStmt σ ts st σ' ts' is σ'' h hl h' ih ih' =>
    intro hn acc r rest hr
    have hb : headIs tokRBrace (ts ++ (ts' ++ r :: rest)) = false ∧
        declaration σ (ts ++ (ts' ++ r :: rest)) = .noMatch := by
      rcases h.head with hh | ⟨s, u, rfl⟩
      · obtain ⟨h1, h2, -, h3⟩ := stmtTok_facts (head_append hh (ts' ++ r :: rest))
        exact ⟨h3, declaration_noMatch h1 h2⟩
      · refine ⟨rfl, declaration_noMatch ⟨?_, rfl⟩ rfl⟩
        rcases hl with hl | hl
        · cases hl
        · have hl := hl s u rfl
          have hv : s ≠ vaListName := by rintro rfl; rw [(names_scope σ).2] at hl; cases hl
          simp [headIs, specTok, hl, hv]
    have hs := ih hn (ts' ++ r :: rest) fun _ => h'.items_head hr rest
    rw [run_items, List.append_assoc]
    unfold items
    rw [expect_miss hb.1, hb.2, hs]
    show run (.items (acc ++ [.stmt st])) σ' (ts' ++ r :: rest) = _
    rw [ih' (h.sameTail hn).1 _ r rest hr]
    simp
  | expr h =>
    intro hn rest hr
    rw [run_statement, List.append_assoc]
    exact statement_expr h
  | @ifThen σ te e ts st σ' he h ih =>
    intro hn rest hr
    rw [run_statement]
    simp only [List.cons_append, List.append_assoc]
    rw [statement_kw (by simp)]
    show (parenExpr _ _ _).orElse _ = _
    rw [parenExpr_ok he, ih hn rest fun _ => hr rfl, ok_must, expect_miss (hr rfl)]
    rfl
  | @ifElse σ te e ts st σ' ts' st' σ'' he h ho h' ih ih' =>
    intro hn rest hr
    rw [run_statement]
    simp only [List.cons_append, List.append_assoc]
    rw [statement_kw (by simp)]
    show (parenExpr _ _ _).orElse _ = _
    rw [parenExpr_ok he, ih hn (.kw .kElse :: (ts' ++ rest)) (fun hc => by rw [ho] at hc; cases hc), ok_must,
      expect_hit rfl, body_ok (ih' (h.sameTail hn).1 rest hr)]
    rfl
  | @switch σ te e ts st σ' he h ih =>
    intro hn rest hr
    rw [run_statement]
    simp only [List.cons_append, List.append_assoc]
    rw [statement_kw (by simp)]
    show (parenExpr _ _ _).orElse _ = _
    rw [parenExpr_ok he, body_ok (ih hn rest hr)]
    rfl
  | @«while» σ te e ts st σ' he h ih =>
    intro hn rest hr
    rw [run_statement]
    simp only [List.cons_append, List.append_assoc]
    rw [statement_kw (by simp)]
    show (parenExpr _ _ _).orElse _ = _
    rw [parenExpr_ok he, body_ok (ih hn rest hr)]
    rfl
  | @doWhile σ ts st σ' te e h he ih =>
    intro hn rest hr
    rw [run_statement]
    simp only [List.cons_append, List.append_assoc, List.nil_append]
    rw [statement_kw (by simp)]
    show ((run .statement σ (ts ++ _)).must _).orElse _ = _
    rw [ih hn (.kw .kWhile :: lp :: (te ++ rp :: semi :: rest)) fun _ => rfl, ok_must, expect_hit rfl, parenExpr_ok he]
    rfl
  | @forExpr σ ti i tc c tn n ts st σ' hi hc hn' h ih =>
    intro hn rest hr
    have hd : ∀ us, declaration σ (ti ++ semi :: us) = .noMatch := by
      intro us
      cases hi with
      | none => exact declaration_noMatch ⟨rfl, rfl⟩ rfl
      | some hi =>
        have hh := head_append (expr_head hi) (semi :: us)
        have hs : headIs (stmtTok σ) (ti ++ semi :: us) = true := by
          cases hx : ti ++ semi :: us with
          | nil => rw [hx] at hh; cases hh
          | cons t r => rw [hx] at hh; simp only [headIs, stmtTok] at *; simp [hh]
        exact declaration_noMatch (stmtTok_facts hs).1 (stmtTok_facts hs).2.1
    rw [run_statement]
    simp only [List.cons_append, List.append_assoc]
    rw [statement_kw (by simp)]
    show (scanFor _ _ _).orElse _ = _
    unfold scanFor
    rw [expect_hit rfl, hd, noMatch_caseOf, show semi = Tok.punct .semicolon from rfl, optExpr_ok hi (.inl rfl)]
    unfold forRest
    rw [optExpr_ok hc (.inl rfl), show rp = Tok.punct .rightParenthese from rfl, optExpr_ok hn' (.inr rfl),
      body_ok (ih hn rest hr)]
    cases i <;> rfl
  | @forDecl σ td d σ1 tc c tn n ts st σ' hd hc hn' h ha ih =>
    intro hn rest hr
    rw [run_statement]
    simp only [List.cons_append, List.append_assoc]
    rw [statement_kw (by simp)]
    show (scanFor _ _ _).orElse _ = _
    unfold scanFor
    rw [expect_hit rfl, hd.ok hn, ok_caseOf]
    unfold forRest
    rw [show semi = Tok.punct .semicolon from rfl, optExpr_ok hc (.inl rfl),
      show rp = Tok.punct .rightParenthese from rfl, optExpr_ok hn' (.inr rfl), body_ok (ih (hd.sameTail hn).1 rest hr)]
    rfl
  | goto =>
    intro hn rest hr
    rw [run_statement]
    simp only [List.cons_append, List.nil_append]
    rw [statement_kw (by simp)]
    rfl
  | «continue» =>
    intro hn rest hr
    rw [run_statement]
    simp only [List.cons_append, List.nil_append]
    rw [statement_kw (by simp)]
    rfl
  | «break» =>
    intro hn rest hr
    rw [run_statement]
    simp only [List.cons_append, List.nil_append]
    rw [statement_kw (by simp)]
    rfl
  | @ret σ te e h =>
    intro hn rest hr
    rw [run_statement]
    simp only [List.cons_append, List.append_assoc, List.nil_append]
    rw [statement_kw (by simp)]
    have h1 : jump σ (.kw .kReturn :: (te ++ semi :: rest)) = .ok (.ret e, σ) rest :=
      optExpr_ok h (.inl rfl) rest fun e r => .ok (.ret e, σ) r
    rw [h1]
    rfl

/-! ### External declarations -/

theorem compound_ok {σ σ' : Scope} {l r : Tok} {ts : List Tok} {is : List Item} (hl : l.isLBrace = true)
    (h : Statement .accept .items ([] :: σ) ts is σ') (hr : r.isRBrace = true) (rest : List Tok) :
    compound run σ (l :: (ts ++ r :: rest)) = .ok (is, σ) rest := by
  have hc := h.ok (by simp) [] r rest hr
  have ht := (h.sameTail (by simp)).2
  unfold compound
  rw [if_neg (by cases l <;> first | cases hl | (intro h; cases h)), expect_hit (show tokLBrace l = true by rw [tokLBrace_eq]; exact hl), hc]
  show Res.ok (is, σ'.tail) rest = _
  rw [ht]
  rfl

theorem Declarations.ok {σ σ' : Scope} {ts ds} (h : Declarations .accept σ ts ds σ') (hn : σ ≠ []) (n : Nat)
    (acc : List Decl) {l : Tok} (hl : l.isLBrace = true) (rest : List Tok) (hb : ts.length < n) :
    declarationList n acc σ (ts ++ l :: rest) = .ok (acc ++ ds, σ') (l :: rest) := by
  induction h generalizing n acc with
  | nil =>
    obtain ⟨n, rfl⟩ : ∃ m, n = m + 1 := ⟨n - 1, by omega⟩
    unfold declarationList
    rw [List.nil_append, declaration_noMatch]
    · simp [caseOf]
    · cases l with
      | punct p => exact ⟨rfl, rfl⟩
      | _ => cases hl
    · cases l with
      | punct p => rfl
      | _ => cases hl
  | cons h _ ih =>
    obtain ⟨n, rfl⟩ : ∃ m, n = m + 1 := ⟨n - 1, by omega⟩
    unfold declarationList
    rw [List.append_assoc, h.ok hn]
    have hp : 0 < List.length _ := List.length_pos_iff.2 (ne_nil_of_head h.head)
    show declarationList n _ _ _ = _
    rw [ih (h.sameTail hn).1 n _ (by simp at hb; omega)]
    simp

theorem functionDefinition_noMatch {σ σ' : Scope} {ts d} (h : Declaration .accept σ ts d σ') (rest : List Tok) :
    functionDefinition σ (ts ++ rest) = .noMatch := by
  unfold functionDefinition
  cases h with
  | @decl t1 ss t2 ds _ h1 h2 h3 h4 =>
    have hd := h4.dtor_head
    rw [show t1 ++ t2 ++ [semi] ++ rest = t1 ++ (t2 ++ semi :: rest) by simp,
      specsRule_ok h1 h2 (DeclParser.specsEnd_of_dtor hd) (glue_append h3 (ne_nil_of_head hd) _)]
    show (dtorRule σ (t2 ++ semi :: rest)).andThen _ = _
    have key : ∀ {us : List Tok} {v : Dtor Syn}, IsDecl .kefir .common σ.names .dtor us v → ∀ t r,
        (Sep t ∨ t = .punct .assign) → (dtorRule σ (us ++ t :: r)).andThen (fun d r =>
          (declarationList (r.length + 1) [] σ r).andThen fun ks r =>
            (compound run ks.2 r).andThen fun x r => Res.ok (External.fn ss d ks.1 x.1, x.2) r) = .noMatch := by
      intro us v h t r ht
      rw [dtorRule_ok h (by rcases ht with (rfl | rfl) | rfl <;> exact ⟨rfl, rfl, rfl⟩)]
      show (declarationList ((t :: r).length + 1) [] σ (t :: r)).andThen _ = _
      unfold declarationList
      rw [declaration_noMatch (by rcases ht with (rfl | rfl) | rfl <;> exact ⟨rfl, rfl⟩)
        (by rcases ht with (rfl | rfl) | rfl <;> rfl)]
      rcases ht with (rfl | rfl) | rfl <;> rfl
    have key1 : ∀ {k σ1 us v σ2}, InitDtor .accept k σ σ1 us v σ2 → ∀ t r, Sep t →
        (dtorRule σ (us ++ t :: r)).andThen (fun d r =>
          (declarationList (r.length + 1) [] σ r).andThen fun ks r =>
            (compound run ks.2 r).andThen fun x r => Res.ok (External.fn ss d ks.1 x.1, x.2) r) = .noMatch := by
      intro k σ1 us v σ2 h t r ht
      cases h with
      | plain h => exact key (Dialect.accept_sees h) _ _ (.inl ht)
      | init h => rw [List.append_assoc]; exact key (Dialect.accept_sees h) _ _ (.inr rfl)
    cases h4 with
    | one h => exact key1 h _ _ (.inr rfl)
    | cons h => rw [List.append_assoc]; exact key1 h _ _ (.inl rfl)
  | @specs t1 ss h1 h2 =>
    rw [show t1 ++ [semi] ++ rest = t1 ++ (semi :: rest) by simp,
      specsRule_ok h1 h2 (DeclParser.specsEnd_of_punct _ _ rfl) (glue_cons (by decide) _)]
    rw [ok_andThen, dtorRule_semi]
    rfl
  | assertion =>
    rw [specsRule_noMatch ⟨rfl, rfl⟩]
    rfl

theorem ExternalDecl.ok {σ σ' : Scope} {ts x} (h : ExternalDecl .accept σ ts x σ') (hn : σ ≠ []) (rest : List Tok) :
    external σ (ts ++ rest) = .ok (x, σ') rest := by
  unfold external
  cases h with
  | decl h =>
    rw [functionDefinition_noMatch h, h.ok hn]
    rfl
  | @fn t1 ss t2 v tk ks σk l tb body σb r h1 h2 h3 h4 h5 hl h6 hr h7 h8 =>
    have hf : functionDefinition σ (t1 ++ t2 ++ tk ++ l :: tb ++ [r] ++ rest) = .ok (.fn ss v ks body, σk) rest := by
      unfold functionDefinition
      have hd : headIs (dtorTok false) t2 = true := h3.head
      rw [show t1 ++ t2 ++ tk ++ l :: tb ++ [r] ++ rest = t1 ++ (t2 ++ (tk ++ l :: (tb ++ r :: rest))) by simp,
        specsRule_ok h1 h2 (DeclParser.specsEnd_of_dtor hd) (glue_append h4 (ne_nil_of_head hd) _)]
      show (dtorRule σ (t2 ++ _)).andThen _ = _
      have he : DEnd (tk ++ l :: (tb ++ r :: rest)) := by
        cases h5 with
        | nil =>
          cases l with
          | punct p => cases p <;> first | exact ⟨rfl, rfl, rfl⟩ | cases hl
          | _ => cases hl
        | cons h => rw [List.append_assoc]; exact (declTok_facts (head_append h.head _)).1
      rw [dtorRule_ok h3 he]
      show (declarationList _ [] σ (tk ++ l :: (tb ++ r :: rest))).andThen _ = _
      rw [Declarations.ok (σ := σ) h5 hn _ [] hl _ (by simp; omega)]
      show (compound run σk _).andThen _ = _
      rw [compound_ok hl h6 hr]
      rfl
    rw [hf]
    rfl

theorem ExternalDecl.ne_nil {D : Dialect} {σ σ' : Scope} {ts x} (h : ExternalDecl D σ ts x σ') : ts ≠ [] := by
  cases h with
  | decl h => exact ne_nil_of_head h.head
  | fn => simp

theorem ExternalDecl.sameTail {σ σ' : Scope} {ts x} (h : ExternalDecl .accept σ ts x σ') : SameTail σ σ' := by
  cases h with
  | decl h => exact h.sameTail
  | fn _ _ _ _ h => exact Declarations.sameTail (σ := σ) h

theorem Externals.ok {σ σ' : Scope} {ts xs} (h : Externals .accept σ ts xs σ') (hn : σ ≠ []) (n : Nat)
    (acc : List External) (hb : ts.length < n) : externals n acc σ ts = .ok (acc ++ xs) [] := by
  induction h generalizing n acc with
  | nil =>
    obtain ⟨n, rfl⟩ : ∃ m, n = m + 1 := ⟨n - 1, by omega⟩
    simp [externals]
  | @cons σ ts x σ' ts' xs σ'' h _ ih =>
    obtain ⟨n, rfl⟩ : ∃ m, n = m + 1 := ⟨n - 1, by omega⟩
    have hne := h.ne_nil
    have hp := List.length_pos_iff.2 hne
    unfold externals
    split
    · rename_i hx; simp at hx; exact absurd hx.1 hne
    · rw [h.ok hn]
      show externals n (acc ++ [x]) σ' ts' = _
      rw [ih (h.sameTail hn).1 n _ (by simp at hb; omega)]
      simp

theorem IsUnit.ok {ts : List Tok} {xs : List External} (h : IsUnit .accept ts xs) : translationUnit ts = .ok xs [] := by
  obtain ⟨hne, σ, h⟩ := h
  cases h with
  | nil => exact absurd rfl hne
  | @cons _ ts x σ' ts' xs σ'' h h' =>
    unfold translationUnit
    rw [h.ok (by simp)]
    show externals _ [x] σ' ts' = _
    rw [h'.ok (h.sameTail (by simp)).1 _ _ (Nat.lt_succ_self _)]
    rfl

end Kefir.UnitParser
