import Verif.UnitParser.Model

/-! The rules always end, so the bounds in the model change nothing. -/

namespace Kefir.UnitParser
open Kefir.Lexer (Punct Keyword)
open Kefir.Parser (Tok Expr Res lp rp comma colon expect tokIs tokLBrace tokRBrace headIs strNode expect_le expect_fits)
open Kefir.Declr
open Kefir.DeclParser (Syn caseOf tokKw skipAttrs decls exprs exprs_fits decls_fits caseOf_le caseOf_fits skipAttrs_le
  skipAttrs_fits)

/-! ### The rules for expressions and declarators -/

theorem exprRule_fits (σ : Scope) (ts : List Tok) : (exprRule σ ts).fits ts.length :=
  Parser.run_fits false _ exprs_fits .expr ts

theorem condRule_fits (σ : Scope) (ts : List Tok) : (condRule σ ts).fits ts.length :=
  Parser.run_fits false _ exprs_fits .cond ts

theorem initRule_fits (σ : Scope) (ts : List Tok) : (initRule σ ts).fits ts.length :=
  Parser.run_fits false _ exprs_fits .init ts

theorem specsRule_fits (σ : Scope) (ts : List Tok) : (specsRule σ ts).fits ts.length :=
  DeclParser.run_fits _ decls_fits (.specs []) ts

theorem dtorRule_fits (σ : Scope) (ts : List Tok) : (dtorRule σ ts).fits ts.length :=
  DeclParser.run_fits _ decls_fits .declarator ts

/-! ### Declarations -/

theorem staticAssertion_fits (σ : Scope) (ts : List Tok) : (staticAssertion σ ts).fits ts.length := by
  unfold staticAssertion
  refine expect_fits (Res.noMatch_fits _) fun r hr => expect_fits (Res.error_fits _) fun r' hr' => ?_
  refine Res.must_fits (condRule_fits σ r') fun e r2 h2 => expect_fits (Res.error_fits _) fun r3 h3 => ?_
  unfold assertMessage
  split
  · rename_i h
    simp at h3
    exact expect_fits (Res.error_fits _) fun r4 h4 => expect_fits (Res.error_fits _) fun r5 h5 => Res.ok_fits (by omega)
  · exact Res.error_fits _

theorem initDtors_fits (σ : Scope) (n : Nat) (acc : List (Dtor Syn × Option (Expr Syn))) (ts : List Tok)
    (h : ts.length < n) : (initDtors σ n acc ts).fits ts.length := by
  induction n generalizing acc ts with
  | zero => omega
  | succ n ih =>
    have next : ∀ acc r, r.length < ts.length → (initNext (initDtors σ n) acc r).fits ts.length := by
      intro acc r hr
      unfold initNext
      exact expect_fits (Res.ok_fits hr) fun r' hr' => Res.fits_mono (ih acc r' (by omega)) (by omega)
    unfold initDtors
    refine Res.must_fits (dtorRule_fits σ ts) fun d r hr => expect_fits (next _ _ hr) fun r' hr' => ?_
    exact Res.must_fits (initRule_fits σ r') fun e r2 h2 => next _ _ (by omega)

theorem updateScope_fits (σ : Scope) (ss ds) (ts : List Tok) {n : Nat} (h : ts.length < n) :
    (updateScope σ ss ds ts).fits n := by
  unfold updateScope
  split
  · exact Res.ok_fits h
  · exact Res.error_fits _

theorem declaration_fits (σ : Scope) (ts : List Tok) : (declaration σ ts).fits ts.length := by
  unfold declaration
  refine Res.orElse_fits (staticAssertion_fits σ ts) ?_
  refine Res.andThen_fits (specsRule_fits σ ts) fun ss r hr => expect_fits ?_ fun r' hr' => updateScope_fits _ _ _ _ (by omega)
  refine Res.andThen_fits (initDtors_fits σ _ [] r (by omega)) fun ds r2 h2 => ?_
  exact expect_fits (Res.error_fits _) fun r3 h3 => updateScope_fits _ _ _ _ (by omega)

/-! ### Statements -/

/-- More results. -/
def Rec.le (f g : Rec) : Prop := ∀ nt σ ts, (f nt σ ts).le (g nt σ ts)

theorem body_le {f g : Rec} (h : f.le g) (σ : Scope) (ts : List Tok) (k : Stmt → Stmt) :
    (body f σ ts k).le (body g σ ts k) :=
  Res.must_le (h .statement σ ts) fun _ _ => Res.le_refl _

/-- Take the rules apart. -/
macro "stmt_le" h:ident : tactic => `(tactic|
  repeat' first
    | exact Res.le_refl _
    | exact body_le $h _ _ _
    | exact $h _ _ _
    | apply Res.andThen_le
    | apply Res.must_le
    | apply Res.orElse_le
    | apply caseOf_le
    | apply skipAttrs_le
    | apply expect_le
    | intro _
    | split)

theorem statement_le {f g : Rec} (h : f.le g) (σ : Scope) (ts : List Tok) : (statement f σ ts).le (statement g σ ts) := by
  unfold statement
  refine Res.orElse_le ?_ (Res.orElse_le ?_ (Res.orElse_le (Res.le_refl _) (Res.orElse_le ?_
    (Res.orElse_le ?_ (Res.le_refl _)))))
  · unfold labeled; stmt_le h
  · unfold compound; stmt_le h
  · unfold selection parenExpr; stmt_le h
  · unfold iteration parenExpr scanFor forRest optExpr; stmt_le h

theorem step_le {f g : Rec} (h : f.le g) : (step f).le (step g) := by
  intro nt σ ts
  cases nt with
  | statement => exact statement_le h σ ts
  | items acc => simp only [step]; unfold items; stmt_le h

theorem parse_le_succ (n : Nat) : (parse n).le (parse (n + 1)) := by
  induction n with
  | zero => intro nt σ ts; exact .inl rfl
  | succ n ih => exact step_le ih

theorem parse_le {n m : Nat} (h : n ≤ m) : (parse n).le (parse m) := by
  induction m with
  | zero => cases Nat.le_zero.1 h; intro nt σ ts; exact .inr rfl
  | succ m ih =>
    rcases Nat.lt_or_ge m n with hm | hm
    · cases Nat.le_antisymm h hm; intro nt σ ts; exact .inr rfl
    · intro nt σ ts
      rcases ih hm nt σ ts with h1 | h1
      · exact .inl h1
      · rw [h1]; exact parse_le_succ m nt σ ts

/-- `f` gives a result wherever less depth than `n` is needed. -/
def Rec.fits (f : Rec) (n : Nat) : Prop := ∀ nt σ ts, nt.bound ts < n → (f nt σ ts).fits ts.length

theorem body_fits {f : Rec} {n : Nat} (h : f.fits n) (σ : Scope) (ts : List Tok) (k : Stmt → Stmt)
    (hb : 2 * ts.length < n) {m : Nat} (hm : ts.length ≤ m) : (body f σ ts k).fits m :=
  Res.must_fits (h .statement σ ts hb) fun _ _ hr => Res.ok_fits (by omega)

theorem labeled_fits {f : Rec} {n : Nat} (h : f.fits n) (σ : Scope) (ts : List Tok) (hb : 2 * ts.length ≤ n) :
    (labeled f σ ts).fits ts.length := by
  unfold labeled
  split
  · simp at hb
    exact skipAttrs_fits (body_fits h _ _ _ (by omega) (by simp; omega))
  · simp at hb
    refine Res.must_fits (condRule_fits _ _) fun e r hr => expect_fits (Res.error_fits _) fun r' hr' => ?_
    exact body_fits h _ _ _ (by omega) (by simp; omega)
  · simp at hb
    exact expect_fits (Res.error_fits _) fun r hr => body_fits h _ _ _ (by omega) (by simp; omega)
  · exact Res.noMatch_fits _

theorem compound_fits {f : Rec} {n : Nat} (h : f.fits n) (σ : Scope) (ts : List Tok) (hb : 2 * ts.length ≤ n) :
    (compound f σ ts).fits ts.length := by
  unfold compound
  split
  · exact Res.error_fits _
  · refine expect_fits (Res.noMatch_fits _) fun r hr => ?_
    exact Res.andThen_fits (h (.items []) ([] :: σ) r (by simp [NT.bound]; omega)) fun _ _ h' => Res.ok_fits (by omega)

theorem items_fits {f : Rec} {n : Nat} (h : f.fits n) (acc : List Item) (σ : Scope) (ts : List Tok)
    (hb : 2 * ts.length < n) : (items f acc σ ts).fits ts.length := by
  unfold items
  refine expect_fits ?_ fun r hr => Res.ok_fits (by omega)
  refine Res.must_fits (m := ts.length) (Res.orElse_fits ?_ ?_) fun x r hr => ?_
  · exact Res.andThen_fits (declaration_fits σ ts) fun _ _ h' => Res.ok_fits h'
  · exact Res.andThen_fits (h .statement σ ts hb) fun _ _ h' => Res.ok_fits h'
  · exact Res.fits_mono (h (.items (acc ++ [x.1])) x.2 r (by simp [NT.bound]; omega)) (by omega)

theorem parenExpr_fits (σ : Scope) (ts : List Tok) (k : Expr Syn → List Tok → Res (Stmt × Scope)) {n : Nat}
    (hk : ∀ e r, r.length < ts.length → (k e r).fits n) : (parenExpr σ ts k).fits n := by
  unfold parenExpr
  refine expect_fits (Res.error_fits _) fun r hr => Res.must_fits (exprRule_fits σ r) fun e r' hr' => ?_
  exact expect_fits (Res.error_fits _) fun r2 h2 => hk e r2 (by omega)

theorem optExpr_fits (p : Punct) (σ : Scope) (ts : List Tok) (k : Option (Expr Syn) → List Tok → Res (Stmt × Scope))
    {n : Nat} (hk : ∀ e r, r.length < ts.length → (k e r).fits n) : (optExpr p σ ts k).fits n := by
  unfold optExpr
  refine expect_fits (Res.must_fits (exprRule_fits σ ts) fun e r' hr' => ?_) fun r hr => hk none r (by omega)
  exact expect_fits (Res.error_fits _) fun r2 h2 => hk (some e) r2 (by omega)

theorem selection_fits {f : Rec} {n : Nat} (h : f.fits n) (σ : Scope) (ts : List Tok) (hb : 2 * ts.length ≤ n) :
    (selection f σ ts).fits ts.length := by
  unfold selection
  split
  · refine parenExpr_fits _ _ _ fun e r hr => ?_
    simp at hb
    refine Res.must_fits (h .statement σ r (by simp [NT.bound]; omega)) fun x r' hr' => ?_
    refine expect_fits (Res.ok_fits (by simp; omega)) fun r2 h2 => ?_
    exact body_fits h _ _ _ (by omega) (by simp; omega)
  · refine parenExpr_fits _ _ _ fun e r hr => ?_
    simp at hb
    exact body_fits h _ _ _ (by omega) (by simp; omega)
  · exact Res.noMatch_fits _

theorem forRest_fits {f : Rec} {n : Nat} (h : f.fits n) (i : ForInit) (σ : Scope) (ts : List Tok) {m : Nat}
    (hb : 2 * ts.length ≤ n) (hm : ts.length ≤ m) : (forRest f i σ ts).fits m := by
  unfold forRest
  refine optExpr_fits _ _ _ _ fun c r hr => optExpr_fits _ _ _ _ fun n r' hr' => ?_
  exact body_fits h _ _ _ (by omega) (by omega)

theorem iteration_fits {f : Rec} {n : Nat} (h : f.fits n) (σ : Scope) (ts : List Tok) (hb : 2 * ts.length ≤ n) :
    (iteration f σ ts).fits ts.length := by
  unfold iteration
  split
  · refine parenExpr_fits _ _ _ fun e r hr => ?_
    simp at hb
    exact body_fits h _ _ _ (by omega) (by simp; omega)
  · rename_i r
    simp at hb
    refine Res.must_fits (h .statement σ r (by simp [NT.bound]; omega)) fun x r' hr' => ?_
    refine expect_fits (Res.error_fits _) fun r2 h2 => parenExpr_fits _ _ _ fun e r3 h3 => ?_
    exact expect_fits (Res.error_fits _) fun r4 h4 => Res.ok_fits (by simp; omega)
  · rename_i r
    simp at hb
    unfold scanFor
    refine expect_fits (Res.error_fits _) fun r' hr' => ?_
    refine caseOf_fits (declaration_fits σ r') (fun x r2 h2 => ?_) ?_
    · exact forRest_fits h _ _ _ (by omega) (by simp; omega)
    · exact optExpr_fits _ _ _ _ fun i r2 h2 => forRest_fits h _ _ _ (by omega) (by simp; omega)
  · exact Res.noMatch_fits _

theorem jump_fits (σ : Scope) (ts : List Tok) : (jump σ ts).fits ts.length := by
  unfold jump jumpEnd
  split
  · exact optExpr_fits _ _ _ _ fun e r hr => Res.ok_fits (by simp; omega)
  · exact expect_fits (Res.error_fits _) fun r hr => Res.ok_fits (by simp; omega)
  · exact Res.error_fits _
  · exact expect_fits (Res.error_fits _) fun r hr => Res.ok_fits (by simp; omega)
  · exact expect_fits (Res.error_fits _) fun r hr => Res.ok_fits (by simp; omega)
  · exact Res.noMatch_fits _

theorem expressionStatement_fits (σ : Scope) (ts : List Tok) : (expressionStatement σ ts).fits ts.length := by
  unfold expressionStatement
  refine skipAttrs_fits (expect_fits (Res.andThen_fits (exprRule_fits σ ts) fun e r hr => ?_) fun r hr =>
    Res.ok_fits (by omega))
  exact expect_fits (Res.error_fits _) fun r' hr' => Res.ok_fits (by omega)

theorem step_fits {f : Rec} {n : Nat} (h : f.fits n) : (step f).fits (n + 1) := by
  intro nt σ ts hb
  cases nt with
  | statement =>
    simp only [NT.bound] at hb
    have hb : 2 * ts.length ≤ n := by omega
    refine Res.orElse_fits (labeled_fits h σ ts hb) (Res.orElse_fits ?_ (Res.orElse_fits (expressionStatement_fits σ ts)
      (Res.orElse_fits (selection_fits h σ ts hb) (Res.orElse_fits (iteration_fits h σ ts hb) (jump_fits σ ts)))))
    exact Res.andThen_fits (compound_fits h σ ts hb) fun _ _ h' => Res.ok_fits h'
  | items acc => exact items_fits h acc σ ts (by simp only [NT.bound] at hb; omega)

theorem parse_fits (n : Nat) : (parse n).fits n := by
  induction n with
  | zero => intro nt σ ts h; exact absurd h (Nat.not_lt_zero _)
  | succ n ih => exact step_fits ih

theorem run_fits (nt : NT) (σ : Scope) (ts : List Tok) : (run nt σ ts).fits ts.length :=
  parse_fits _ nt σ ts (Nat.lt_succ_self _)

theorem parse_le_run (n : Nat) : (parse n).le run := by
  intro nt σ ts
  rcases Nat.le_total n (nt.bound ts + 1) with h | h
  · exact parse_le h nt σ ts
  · rcases parse_le h nt σ ts with h1 | h1
    · exact absurd h1 (run_fits nt σ ts).1
    · exact .inr h1.symm

/-- The rules satisfy their equations. -/
theorem run_eq (nt : NT) (σ : Scope) (ts : List Tok) : run nt σ ts = step run nt σ ts := by
  rcases step_le (parse_le_run (nt.bound ts)) nt σ ts with h | h
  · exact absurd h (run_fits nt σ ts).1
  · exact h

/-! ### External declarations -/

theorem declarationList_fits (n : Nat) (acc : List Decl) (σ : Scope) (ts : List Tok) (h : ts.length < n) :
    (declarationList n acc σ ts).fits (ts.length + 1) := by
  induction n generalizing acc σ ts with
  | zero => omega
  | succ n ih =>
    unfold declarationList
    refine caseOf_fits (declaration_fits σ ts) (fun x r hr => ?_) (Res.ok_fits (by omega))
    exact Res.fits_mono (ih _ _ r (by omega)) (by omega)

theorem run_any_fits (n : Nat) : Rec.fits run n := fun nt σ ts _ => run_fits nt σ ts

theorem external_fits (σ : Scope) (ts : List Tok) : (external σ ts).fits ts.length := by
  unfold external
  refine Res.orElse_fits ?_ (Res.andThen_fits (declaration_fits σ ts) fun _ _ h => Res.ok_fits h)
  unfold functionDefinition
  refine Res.andThen_fits (specsRule_fits σ ts) fun ss r hr => Res.andThen_fits (dtorRule_fits σ r) fun d r1 h1 => ?_
  refine Res.andThen_fits (declarationList_fits _ [] σ r1 (Nat.lt_succ_self _)) fun ks r2 h2 => ?_
  exact Res.andThen_fits (compound_fits (run_any_fits _) _ _ (Nat.le_refl _)) fun _ _ h3 => Res.ok_fits (by omega)

theorem externals_fits (n : Nat) (acc : List External) (σ : Scope) (ts : List Tok) (h : ts.length < n) :
    (externals n acc σ ts).fits (ts.length + 1) := by
  induction n generalizing acc σ ts with
  | zero => omega
  | succ n ih =>
    unfold externals
    split
    · exact Res.ok_fits (by simp)
    · refine Res.must_fits (external_fits σ ts) fun x r hr => Res.fits_mono (ih _ _ r (by omega)) (by omega)

theorem translationUnit_fits (ts : List Tok) : (translationUnit ts).fits (ts.length + 1) :=
  Res.must_fits (external_fits [[]] ts) fun x r hr =>
    Res.fits_mono (externals_fits _ _ _ r (Nat.lt_succ_self _)) (by omega)

end Kefir.UnitParser
