import Verif.Parser.Sound

/-! What the grammar derives is accepted by the rules, with the same tree. -/
namespace Kefir.Parser
open Kefir.Lexer (Punct Keyword)
variable {τ α β : Type}

/-- Where a binary level stands. -/
def Level.idx : Level → Nat
  | .mul => 1
  | .add => 2
  | .shift => 3
  | .rel => 4
  | .eq => 5
  | .band => 6
  | .bxor => 7
  | .bor => 8
  | .land => 9
  | .lor => 10

theorem Level.idx_bounds (l : Level) : 1 ≤ l.idx ∧ l.idx ≤ 10 := by cases l <;> simp [Level.idx]

/-- Which expressions a token can continue: 0 a postfix expression (or a parenthesised type name), 1 to 10 a binary one,
11 a conditional, 12 an assignment, 13 none of these. -/
def contRank : Tok → Nat
  | .punct p =>
    match p with
    | .leftBracket | .digraphLeftBracket | .leftBrace | .digraphLeftBrace | .leftParenthese | .dot | .rightArrow
    | .doublePlus | .doubleMinus => 0
    | .star | .slash | .percent => 1
    | .plus | .minus => 2
    | .leftShift | .rightShift => 3
    | .lessThan | .greaterThan | .lessOrEqual | .greaterOrEqual => 4
    | .equal | .notEqual => 5
    | .ampersand => 6
    | .caret => 7
    | .vbar => 8
    | .doubleAmpersand => 9
    | .doubleVbar => 10
    | .questionMark => 11
    | .assign | .assignMultiply | .assignDivide | .assignModulo | .assignAdd | .assignSubtract | .assignShiftLeft
    | .assignShiftRight | .assignAnd | .assignXor | .assignOr => 12
    | _ => 13
  | _ => 13

/-- The same for what follows an expression. -/
def restRank : List Tok → Nat
  | t :: _ => contRank t
  | [] => 13

theorem binTable_rank {l : Level} {p : Punct} {op : BinOp} (h : binTable l p = some op) :
    contRank (.punct p) = l.idx := by
  revert h; cases l <;> cases p <;> simp [binTable, contRank, Level.idx]

theorem binTable_none {l : Level} {p : Punct} (h : contRank (.punct p) ≠ l.idx) : binTable l p = none := by
  cases hb : binTable l p with
  | none => rfl
  | some op => exact absurd (binTable_rank hb) h

theorem assignTable_rank {p : Punct} {op : AssignOp} (h : assignTable p = some op) : contRank (.punct p) = 12 := by
  revert h; cases p <;> simp [assignTable, contRank]

/-- Tokens that start an expression. -/
def exprStart (isTypedef : String → Bool) : Tok → Bool
  | .ident s => !isTypedef s
  | .const .. => true
  | .str .. => true
  | .kw k => k == .kGeneric || k == .kSizeof || k == .kAlignof
  | .punct p => p == .leftParenthese || (unaryTable p).isSome

attribute [local irreducible] run

set_option linter.unusedSectionVars false

/-- After the operand of a unary operator, or of nothing, comes what follows or an operator that is no assignment. -/
def UEnd (rest : List Tok) (x : Res (Expr τ)) : Prop :=
  x = .noMatch ∨ ∃ e r, x = .ok e r ∧ (r = rest ∨ 1 ≤ restRank r ∧ restRank r ≤ 11)

/-- The claim for each nonterminal. -/
def Goal (lit : Bool) (E : Env τ) (s : Sym) (ts : List Tok) (e : Expr τ) : Prop :=
  match s with
  | .primary => (∀ rest, run lit E .primary (ts ++ rest) = .ok e rest) ∧
      (∀ rest, compoundLiteral E (run lit E) (ts ++ rest) = .noMatch) ∧
      (∀ rest, scanCast E (run lit E) (ts ++ rest) = .noMatch) ∧
      (∀ s r, ts = .ident s :: r → builtinNames.lookup s = none) ∧
      (∀ rest, run lit E .unary (ts ++ rest) = run lit E .post (ts ++ rest))
  | .literal => (∀ rest, compoundLiteral E (run lit E) (ts ++ rest) = .ok e rest) ∧
      (∀ rest, scanCast E (run lit E) (ts ++ rest) = .noMatch) ∧
      (∀ rest, run lit E .unary (ts ++ rest) = run lit E .post (ts ++ rest)) ∧
      ∀ rest, run lit E .post (ts ++ rest) = if lit then run lit E (.postTail e) rest else .ok e rest
  | .postfix => (∀ rest, run lit E .post (ts ++ rest) = run lit E (.postTail e) rest) ∧
      (∀ rest, scanCast E (run lit E) (ts ++ rest) = .noMatch) ∧
      (∀ rest, run lit E .unary (ts ++ rest) = run lit E .post (ts ++ rest))
  | .unary => (∀ rest, 0 < restRank rest → run lit E .unary (ts ++ rest) = .ok e rest) ∧
      (∀ rest, scanCast E (run lit E) (ts ++ rest) = .noMatch)
  | .cast => (∀ rest, 0 < restRank rest → run lit E .cast (ts ++ rest) = .ok e rest) ∧
      ∀ rest, 0 < restRank rest → UEnd rest (run lit E .unary (ts ++ rest))
  | .bin l => (∀ rest, l.idx ≤ restRank rest → run lit E (.bin l) (ts ++ rest) = run lit E (.binTail l e) rest) ∧
      ∀ rest, 0 < restRank rest → UEnd rest (run lit E .unary (ts ++ rest))
  | .cond => (∀ rest, 11 < restRank rest → run lit E .cond (ts ++ rest) = .ok e rest) ∧
      ∀ rest, 0 < restRank rest → UEnd rest (run lit E .unary (ts ++ rest))
  | .assign => ∀ rest, 12 < restRank rest → run lit E .assign (ts ++ rest) = .ok e rest
  | .expr => ∀ rest, 12 < restRank rest → run lit E .expr (ts ++ rest) = run lit E (.exprTail e) rest
  | .braces => ∀ rest, run lit E .initList (ts ++ rest) = .ok e rest
  | .init => ∀ rest, 12 < restRank rest → run lit E .init (ts ++ rest) = .ok e rest

section
variable {lit : Bool} {E : Env τ} {IsType : List Tok → τ → Prop}

local notation "D" => Der (Dialect.ofLit lit) E.isTypedef IsType
local notation "R" => run lit E

theorem Env.Accepts.fits (hE : E.Accepts IsType) : E.fits := fun ts => ⟨hE.total ts, hE.progress ts⟩

section
variable (hE : E.Accepts IsType)
include hE

theorem R_primary (ts : List Tok) : R .primary ts = primary E R ts := run_eq lit E hE.fits .primary ts
theorem R_genericTail (c as d) (ts : List Tok) : R (.genericTail c as d) ts = genericTail E R c as d ts :=
  run_eq lit E hE.fits (.genericTail c as d) ts
theorem R_post (ts : List Tok) : R .post ts = postfixExpr lit E R ts := run_eq lit E hE.fits .post ts
theorem R_postTail (e) (ts : List Tok) : R (.postTail e) ts = postTail R e ts := run_eq lit E hE.fits (.postTail e) ts
theorem R_argTail (f args) (ts : List Tok) : R (.argTail f args) ts = argTail R f args ts :=
  run_eq lit E hE.fits (.argTail f args) ts
theorem R_builtinTail (op args) (ts : List Tok) : R (.builtinTail op args) ts = builtinTail E R op args ts :=
  run_eq lit E hE.fits (.builtinTail op args) ts
theorem R_unary (ts : List Tok) : R .unary ts = unary E R ts := run_eq lit E hE.fits .unary ts
theorem R_cast (ts : List Tok) : R .cast ts = castExpr E R ts := run_eq lit E hE.fits .cast ts
theorem R_bin (l) (ts : List Tok) : R (.bin l) ts = binExpr R l ts := run_eq lit E hE.fits (.bin l) ts
theorem R_binTail (l e) (ts : List Tok) : R (.binTail l e) ts = binTail R l e ts :=
  run_eq lit E hE.fits (.binTail l e) ts
theorem R_cond (ts : List Tok) : R .cond ts = condExpr R ts := run_eq lit E hE.fits .cond ts
theorem R_reduceAssign (ts : List Tok) : R .reduceAssign ts = reduceAssign R ts := run_eq lit E hE.fits .reduceAssign ts
theorem R_assign (ts : List Tok) : R .assign ts = assignExpr R ts := run_eq lit E hE.fits .assign ts
theorem R_expr (ts : List Tok) : R .expr ts = expr R ts := run_eq lit E hE.fits .expr ts
theorem R_exprTail (e) (ts : List Tok) : R (.exprTail e) ts = exprTail R e ts := run_eq lit E hE.fits (.exprTail e) ts
theorem R_init (ts : List Tok) : R .init ts = initializer R ts := run_eq lit E hE.fits .init ts
theorem R_initList (ts : List Tok) : R .initList ts = initList R ts := run_eq lit E hE.fits .initList ts
theorem R_initTail (items) (ts : List Tok) : R (.initTail items) ts = initTail R items ts :=
  run_eq lit E hE.fits (.initTail items) ts
theorem R_desigTail (ds) (ts : List Tok) : R (.desigTail ds) ts = desigTail R ds ts :=
  run_eq lit E hE.fits (.desigTail ds) ts

/-! ### Texts that are no expressions -/

theorem typeStart_not_expr {t : Tok} (h : typeStart E.isTypedef t = true) : exprStart E.isTypedef t = false := by
  cases t with
  | ident s => simpa [typeStart, exprStart] using h
  | kw k => cases k <;> simp_all [typeStart, exprStart]
  | _ => cases h

theorem exprStart_not_type {t : Tok} (h : exprStart E.isTypedef t = true) : typeStart E.isTypedef t = false := by
  cases ht : typeStart E.isTypedef t with
  | false => rfl
  | true => rw [typeStart_not_expr hE ht] at h; cases h

theorem primary_noMatch {ts : List Tok} (h : headIs (exprStart E.isTypedef) ts = false) :
    R .primary ts = .noMatch := by
  rw [R_primary hE]
  unfold primary
  split
  · rename_i s r
    simp [headIs, exprStart] at h
    simp [h]
  · simp [headIs, exprStart] at h
  · simp [headIs, exprStart] at h
  · simp [headIs, exprStart] at h
  · simp [headIs, exprStart] at h
  · rfl

theorem compoundLiteral_noMatch {ts : List Tok} (h : headIs (tokIs .leftParenthese) ts = false) :
    compoundLiteral E R ts = .noMatch := by
  unfold compoundLiteral expect
  split
  · simp only [headIs] at h; simp [h]
  · rfl

theorem scanCast_noMatch {ts : List Tok} (h : headIs (tokIs .leftParenthese) ts = false) :
    scanCast E R ts = .noMatch := by
  unfold scanCast expect
  split
  · simp only [headIs] at h; simp [h]
  · rfl

theorem headIs_lp_of_expr {ts : List Tok} (h : headIs (exprStart E.isTypedef) ts = false) :
    headIs (tokIs .leftParenthese) ts = false := by
  cases ts with
  | nil => rfl
  | cons t ts =>
    cases t with
    | punct p => cases p <;> simp_all [headIs, exprStart, tokIs, unaryTable]
    | _ => rfl

theorem post_noMatch {ts : List Tok} (h : headIs (exprStart E.isTypedef) ts = false) : R .post ts = .noMatch := by
  have hr : postfixRest lit E R ts = .noMatch := by
    unfold postfixRest
    rw [compoundLiteral_noMatch hE (headIs_lp_of_expr hE h)]
    simp only [primary_noMatch hE h]
    rfl
  rw [R_post hE]
  unfold postfixExpr
  split
  · rename_i s r
    have hs : E.isTypedef s = true := by simpa [headIs, exprStart] using h
    rw [builtinOp_eq, hE.reserved s hs]
    exact hr
  · exact hr

theorem unary_noMatch {ts : List Tok} (h : headIs (exprStart E.isTypedef) ts = false) : R .unary ts = .noMatch := by
  rw [R_unary hE]
  unfold unary
  split
  · rename_i p r
    split
    · rename_i hp
      simp [headIs, exprStart, hp] at h
    · exact post_noMatch hE h
  · simp [headIs, exprStart] at h
  · simp [headIs, exprStart] at h
  · exact post_noMatch hE h

theorem cast_noMatch {ts : List Tok} (h : headIs (exprStart E.isTypedef) ts = false) : R .cast ts = .noMatch := by
  rw [R_cast hE]
  unfold castExpr
  rw [scanCast_noMatch hE (headIs_lp_of_expr hE h)]
  exact unary_noMatch hE h

theorem bin_noMatch {ts : List Tok} (h : headIs (exprStart E.isTypedef) ts = false) (l : Level) :
    R (.bin l) ts = .noMatch := by
  have hm : R (.bin .mul) ts = .noMatch := by
    rw [R_bin hE]; unfold binExpr operandRule; simp only [cast_noMatch hE h]; rfl
  have ha : R (.bin .add) ts = .noMatch := by rw [R_bin hE]; unfold binExpr operandRule; simp only [hm]; rfl
  have h3 : R (.bin .shift) ts = .noMatch := by rw [R_bin hE]; unfold binExpr operandRule; simp only [ha]; rfl
  have h4 : R (.bin .rel) ts = .noMatch := by rw [R_bin hE]; unfold binExpr operandRule; simp only [h3]; rfl
  have h5 : R (.bin .eq) ts = .noMatch := by rw [R_bin hE]; unfold binExpr operandRule; simp only [h4]; rfl
  have h6 : R (.bin .band) ts = .noMatch := by rw [R_bin hE]; unfold binExpr operandRule; simp only [h5]; rfl
  have h7 : R (.bin .bxor) ts = .noMatch := by rw [R_bin hE]; unfold binExpr operandRule; simp only [h6]; rfl
  have h8 : R (.bin .bor) ts = .noMatch := by rw [R_bin hE]; unfold binExpr operandRule; simp only [h7]; rfl
  have h9 : R (.bin .land) ts = .noMatch := by rw [R_bin hE]; unfold binExpr operandRule; simp only [h8]; rfl
  have h10 : R (.bin .lor) ts = .noMatch := by rw [R_bin hE]; unfold binExpr operandRule; simp only [h9]; rfl
  cases l with
  | mul => exact hm
  | add => exact ha
  | shift => exact h3
  | rel => exact h4
  | eq => exact h5
  | band => exact h6
  | bxor => exact h7
  | bor => exact h8
  | land => exact h9
  | lor => exact h10

theorem cond_noMatch {ts : List Tok} (h : headIs (exprStart E.isTypedef) ts = false) : R .cond ts = .noMatch := by
  rw [R_cond hE]; unfold condExpr; simp only [bin_noMatch hE h]; rfl

theorem assign_noMatch {ts : List Tok} (h : headIs (exprStart E.isTypedef) ts = false) : R .assign ts = .noMatch := by
  rw [R_assign hE]
  unfold assignExpr
  have : R .reduceAssign ts = .noMatch := by
    rw [R_reduceAssign hE]; unfold reduceAssign; simp only [unary_noMatch hE h]; rfl
  rw [show R .reduceAssign ts = .noMatch from this]
  exact cond_noMatch hE h

theorem expr_noMatch {ts : List Tok} (h : headIs (exprStart E.isTypedef) ts = false) : R .expr ts = .noMatch := by
  rw [R_expr hE]; unfold expr; simp only [assign_noMatch hE h]; rfl

/-! ### Heads of expressions -/

omit hE in
theorem der_head {d : Dialect} {td : String → Bool} (hr : ∀ s, td s = true → builtinNames.lookup s = none) {s : Sym}
    {ts : List Tok} {e : Expr τ} (h : Der d td IsType s ts e) :
    match s with
    | .braces => ∃ t r, ts = t :: r ∧ t.isLBrace = true
    | .init => ∃ t r, ts = t :: r ∧ (t.isLBrace = true ∨ exprStart td t = true)
    | _ => ∃ t r, ts = t :: r ∧ exprStart td t = true := by
  induction h with
  | ident h _ => exact ⟨_, _, rfl, by simp [exprStart, h]⟩
  | const => exact ⟨_, _, rfl, rfl⟩
  | str => exact ⟨_, _, rfl, rfl⟩
  | paren _ _ => exact ⟨_, _, rfl, rfl⟩
  | generic _ _ _ _ _ _ _ => exact ⟨_, _, rfl, rfl⟩
  | postfixPrimary _ ih => exact ih
  | @builtin s op args tc h _ _ _ _ =>
    refine ⟨_, _, rfl, ?_⟩
    cases ht : td s with
    | false => simp [exprStart, ht]
    | true => rw [hr s ht] at h; cases h
  | subscript _ _ _ _ ih _ => obtain ⟨t, r, rfl, h⟩ := ih; exact ⟨t, _, rfl, h⟩
  | call _ _ _ ih _ => obtain ⟨t, r, rfl, h⟩ := ih; exact ⟨t, _, rfl, h⟩
  | member _ ih => obtain ⟨t, r, rfl, h⟩ := ih; exact ⟨t, _, rfl, h⟩
  | arrow _ ih => obtain ⟨t, r, rfl, h⟩ := ih; exact ⟨t, _, rfl, h⟩
  | postfixOp _ _ ih => obtain ⟨t, r, rfl, h⟩ := ih; exact ⟨t, _, rfl, h⟩
  | literal _ _ _ => exact ⟨_, _, rfl, rfl⟩
  | postfixLiteral _ _ ih => exact ih
  | unaryPostfix _ ih => exact ih
  | unaryLiteral _ ih => exact ih
  | prefixOp hp _ _ => exact ⟨_, _, rfl, by simp [exprStart, unaryTable_iff.2 (.inl hp)]⟩
  | unaryOp hp _ _ => exact ⟨_, _, rfl, by simp [exprStart, unaryTable_iff.2 (.inr hp)]⟩
  | sizeofExpr _ _ => exact ⟨_, _, rfl, rfl⟩
  | sizeofType _ => exact ⟨_, _, rfl, rfl⟩
  | alignofType _ => exact ⟨_, _, rfl, rfl⟩
  | alignofExpr _ _ _ => exact ⟨_, _, rfl, rfl⟩
  | castUnary _ ih => exact ih
  | cast _ _ _ => exact ⟨_, _, rfl, rfl⟩
  | @binOperand l ts e _ ih => cases l <;> exact ih
  | binOp _ _ _ ih _ => obtain ⟨t, r, rfl, h⟩ := ih; exact ⟨t, _, rfl, h⟩
  | condBin _ ih => exact ih
  | cond _ _ _ ih _ _ => obtain ⟨t, r, rfl, h⟩ := ih; exact ⟨t, _, rfl, h⟩
  | assignCond _ ih => exact ih
  | assign _ _ _ ih _ => obtain ⟨t, r, rfl, h⟩ := ih; exact ⟨t, _, rfl, h⟩
  | exprAssign _ ih => exact ih
  | comma _ _ ih _ => obtain ⟨t, r, rfl, h⟩ := ih; exact ⟨t, _, rfl, h⟩
  | initExpr _ ih => obtain ⟨t, r, rfl, h⟩ := ih; exact ⟨t, _, rfl, .inr h⟩
  | initBraces _ ih => obtain ⟨t, r, rfl, h⟩ := ih; exact ⟨t, _, rfl, .inl h⟩
  | braces h _ _ _ _ _ _ _ _ => exact ⟨_, _, rfl, h⟩

theorem exprStart_punct {t : Tok} (h : exprStart E.isTypedef t = true) :
    tokIs .rightParenthese t = false ∧ tokLBrace t = false ∧ tokRBrace t = false ∧ tokLBracket t = false ∧
      tokIs .dot t = false := by
  cases t with
  | punct p => cases p <;> simp_all [exprStart, unaryTable, tokIs, tokLBrace, tokRBrace, tokLBracket]
  | _ => exact ⟨rfl, rfl, rfl, rfl, rfl⟩

/-! ### Ends of loops -/

theorem postTail_end (e : Expr τ) {rest : List Tok} (h : 0 < restRank rest) : R (.postTail e) rest = .ok e rest := by
  rw [R_postTail hE]
  unfold postTail
  cases rest with
  | nil => rfl
  | cons t r =>
    cases t with
    | punct p => cases p <;> first | rfl | (simp [restRank, contRank] at h)
    | _ => rfl

theorem binTail_end (l : Level) (e : Expr τ) {rest : List Tok} (h : restRank rest ≠ l.idx) :
    R (.binTail l e) rest = .ok e rest := by
  rw [R_binTail hE]
  unfold binTail
  split
  · rw [binTable_none h]
  · rfl

theorem exprTail_end (e : Expr τ) {rest : List Tok} (h : headIs (tokIs .comma) rest = false) :
    R (.exprTail e) rest = .ok e rest := by
  rw [R_exprTail hE]
  unfold exprTail expect
  split
  · simp only [headIs] at h; simp [h]
  · rfl

/-! ### What each rule does on a derived text -/

local notation "G" => Goal lit E

theorem typeName_noMatch {s : Sym} {ts : List Tok} {e : Expr τ} (h : D s ts e) (hs : s ≠ .braces ∧ s ≠ .init)
    (rest : List Tok) : E.typeName (ts ++ rest) = .noMatch := by
  have := der_head hE.reserved h
  have : ∃ t r, ts = t :: r ∧ exprStart E.isTypedef t = true := by
    cases s <;> first | exact this | exact absurd rfl hs.1 | exact absurd rfl hs.2
  obtain ⟨t, r, rfl, ht⟩ := this
  exact hE.other _ (exprStart_not_type hE ht)

theorem typeName_ok {tt : List Tok} {t : τ} (h : IsType tt t) (f : Tok) (hf : f ∈ [rp, comma, colon]) (r : List Tok) :
    E.typeName (tt ++ f :: r) = .ok t (f :: r) := hE.complete tt t f r h hf

theorem expr_end {ts : List Tok} {e : Expr τ} (h : G .expr ts e) {t : Tok} {r : List Tok} (ht : 12 < contRank t)
    (hc : tokIs .comma t = false) : R .expr (ts ++ t :: r) = .ok e (t :: r) := by
  rw [h (t :: r) ht]
  exact exprTail_end hE e hc

/-- A parenthesised type name is no expression. -/
theorem paren_type_primary {tt : List Tok} {t : τ} (h : IsType tt t) (rest : List Tok) :
    R .primary (lp :: (tt ++ rest)) = .noMatch := by
  obtain ⟨x, pre, rfl, hx⟩ := hE.start _ _ h
  rw [R_primary hE]
  unfold primary
  simp only
  rw [show R .expr (x :: pre ++ rest) = .noMatch from expr_noMatch hE (typeStart_not_expr hE hx)]
  rfl

/-- Without braces it is no unary expression either. -/
theorem paren_type_unary {tt : List Tok} {t : τ} (h : IsType tt t) {rest : List Tok}
    (hr : headIs tokLBrace rest = false) : R .unary (lp :: (tt ++ rp :: rest)) = .noMatch := by
  rw [R_unary hE]
  have hi : R .initList rest = .noMatch := by
    rw [R_initList hE]
    unfold initList expect
    split
    · simp only [headIs] at hr; simp [hr]
    · rfl
  have hc : compoundLiteral E R (lp :: (tt ++ rp :: rest)) = .noMatch := by
    unfold compoundLiteral expect
    simp only [tokIs, beq_self_eq_true, if_true]
    rw [typeName_ok hE h rp (by simp)]
    simp only [Res.andThen, beq_self_eq_true, if_true]
    rw [show R .initList rest = .noMatch from hi]
  show R .post (lp :: (tt ++ rp :: rest)) = .noMatch
  rw [R_post hE]
  show postfixRest lit E R (lp :: (tt ++ rp :: rest)) = .noMatch
  unfold postfixRest
  rw [hc]
  simp only
  rw [show R .primary (lp :: (tt ++ rp :: rest)) = .noMatch from paren_type_primary hE h (rp :: rest)]
  rfl

theorem post_of_primary {ts : List Tok} {e : Expr τ} (h : G .primary ts e) (hd : ∃ t r, ts = t :: r) (rest : List Tok) :
    R .post (ts ++ rest) = R (.postTail e) rest := by
  obtain ⟨h1, h2, h3, h4, h5⟩ := h
  have hr : postfixRest lit E R (ts ++ rest) = R (.postTail e) rest := by
    unfold postfixRest
    rw [h2]
    simp only
    rw [h1]
    rfl
  rw [R_post hE]
  unfold postfixExpr
  obtain ⟨t, r, rfl⟩ := hd
  split
  · rename_i s r' heq
    cases heq
    rw [builtinOp_eq, h4 s r rfl]
    exact hr
  · exact hr

theorem argTail_ok {f : Expr τ} {W : List (List Tok × Expr τ)} {tc : List Tok}
    (h : ∀ a ∈ W, D .assign a.1 a.2) (hg : ∀ a ∈ W, G .assign a.1 a.2) (hc : optComma true W.isEmpty tc)
    (args : List (Expr τ)) (rest : List Tok) :
    R (.argTail f args) (sepComma (W.map (·.1)) ++ tc ++ rp :: rest) = .ok (.call f (args ++ W.map (·.2))) rest := by
  induction W generalizing args with
  | nil =>
    have : tc = [] := by cases tc <;> simp_all [optComma]
    subst this
    rw [R_argTail hE]
    simp [sepComma, argTail, expect, tokIs]
  | cons w W ih =>
    have hw := hg w (by simp)
    obtain ⟨x, r, hx, hx'⟩ := der_head hE.reserved (h w (by simp))
    have key : ∀ us, R (.argTail f args) (w.1 ++ us) =
        (R .assign (w.1 ++ us)).must fun a r =>
          expect (tokIs .comma) r
            (expect (tokIs .rightParenthese) r .error fun r => .ok (.call f (args ++ [a])) r)
            fun r => R (.argTail f (args ++ [a])) r := by
      intro us
      rw [R_argTail hE]
      unfold argTail
      rw [hx]
      simp [expect, (exprStart_punct hE hx').1]
    cases W with
    | nil =>
      simp only [List.map_cons, List.map_nil, sepComma, List.append_assoc]
      rw [key]
      have htc : tc = [] ∨ tc = [comma] := by cases tc <;> simp_all [optComma]
      rcases htc with rfl | rfl
      · rw [hw _ (by simp [restRank, contRank])]
        simp [Res.must, expect, tokIs]
      · rw [hw _ (by simp [restRank, contRank])]
        simp only [Res.must, expect, tokIs, List.cons_append, List.nil_append, beq_self_eq_true, if_true]
        rw [R_argTail hE]
        simp [argTail, expect, tokIs]
    | cons w' W =>
      have := ih (fun a ha => h a (by simp [ha])) (fun a ha => hg a (by simp [ha])) (by simpa using hc) (args ++ [w.2])
      rw [List.map_cons, sepComma_cons _ (by simp)]
      simp only [List.append_assoc, List.cons_append]
      rw [key, hw _ (by simp [restRank, contRank])]
      simp only [Res.must, expect, tokIs, beq_self_eq_true, if_true]
      simpa using this

theorem builtinTail_ok {op : BuiltinOp} {W : List (BArg τ)} {tc : List Tok}
    (ht : ∀ ts t, BArg.type ts t ∈ W → IsType ts t)
    (h : ∀ ts e, BArg.expr ts e ∈ W → D .assign ts e) (hg : ∀ ts e, BArg.expr ts e ∈ W → G .assign ts e)
    (hc : optComma true W.isEmpty tc) (args : List (Expr τ)) (rest : List Tok) :
    R (.builtinTail op args) (sepComma (W.map BArg.toks) ++ tc ++ rp :: rest) =
      .ok (.builtin op (args ++ W.map BArg.node)) rest := by
  induction W generalizing args with
  | nil =>
    have : tc = [] := by cases tc <;> simp_all [optComma]
    subst this
    rw [R_builtinTail hE]
    simp [sepComma, builtinTail, expect, tokIs]
  | cons w W ih =>
    have key : ∀ f us, f ∈ [rp, comma] → R (.builtinTail op args) (w.toks ++ f :: us) =
        builtinNext R op (args ++ [w.node]) (f :: us) := by
      intro f us hf
      rw [R_builtinTail hE]
      unfold builtinTail
      have hrank : 12 < contRank f := by
        rcases List.mem_cons.1 hf with rfl | hf
        · simp [contRank]
        · cases List.mem_singleton.1 hf; simp [contRank]
      cases w with
      | type tt t =>
        have h1 := ht tt t (by simp)
        have h2 := typeName_ok hE h1 f (by simp at hf ⊢; rcases hf with hf | hf <;> simp [hf]) us
        obtain ⟨x, r, rfl, hx⟩ := hE.start _ _ h1
        have hx' : tokIs .rightParenthese x = false := by cases x <;> first | rfl | cases hx
        simp only [BArg.toks, BArg.node]
        rw [h2]
        simp [expect, hx']
      | expr te e =>
        have h1 := h te e (by simp)
        have h2 := typeName_noMatch hE h1 (by simp) (f :: us)
        have h3 := hg te e (by simp) (f :: us) hrank
        obtain ⟨x, r, rfl, hx⟩ := der_head hE.reserved h1
        simp only [BArg.toks, BArg.node]
        rw [h2]
        simp only
        rw [h3]
        simp [expect, (exprStart_punct hE hx).1, Res.must]
    cases W with
    | nil =>
      simp only [List.map_cons, List.map_nil, sepComma, List.append_assoc]
      have htc : tc = [] ∨ tc = [comma] := by cases tc <;> simp_all [optComma]
      rcases htc with rfl | rfl
      · rw [List.nil_append, key _ _ (by simp)]
        simp [builtinNext, expect, tokIs]
      · rw [List.cons_append, key _ _ (by simp)]
        simp only [builtinNext, expect, tokIs, List.nil_append, beq_self_eq_true, if_true]
        rw [R_builtinTail hE]
        simp [builtinTail, expect, tokIs]
    | cons w' W =>
      have := ih (fun ts t ha => ht ts t (by simp [ha])) (fun ts t ha => h ts t (by simp [ha]))
        (fun ts t ha => hg ts t (by simp [ha])) (by simpa using hc) (args ++ [w.node])
      rw [List.map_cons, sepComma_cons _ (by simp)]
      simp only [List.append_assoc, List.cons_append]
      rw [key _ _ (by simp)]
      simp only [builtinNext, expect, tokIs, beq_self_eq_true, if_true]
      simpa using this

theorem genericTail_ok {c : Expr τ} {As : List (Assoc τ)} (hg : ∀ a ∈ As, G .assign a.toks a.expr)
    (ht : ∀ a ∈ As, match a.head with
        | some t => IsType a.headToks t
        | none => a.headToks = [.kw .kDefault])
    (as : List (τ × Expr τ)) (d : Option (Expr τ)) (hl : (defaultAssocs As).length + d.toList.length ≤ 1)
    (rest : List Tok) :
    R (.genericTail c as d) (As.flatMap Assoc.all ++ rp :: rest) =
      .ok (.generic c (as ++ typedAssocs As) (d.toList ++ defaultAssocs As).head?) rest := by
  induction As generalizing as d with
  | nil =>
    rw [R_genericTail hE]
    cases d <;> simp [genericTail, expect, tokIs, typedAssocs, defaultAssocs]
  | cons a As ih =>
    obtain ⟨th, o, te, e⟩ := a
    have hrank : ∀ as : List (Assoc τ), 12 < restRank (as.flatMap Assoc.all ++ rp :: rest) := by
      intro as; cases as <;> simp [restRank, contRank, Assoc.all]
    have h1 := hg ⟨th, o, te, e⟩ (by simp) (As.flatMap Assoc.all ++ rp :: rest) (hrank As)
    have h2 := ht ⟨th, o, te, e⟩ (by simp)
    have ih' := fun as d hl => ih (fun a ha => hg a (by simp [ha])) (fun a ha => ht a (by simp [ha])) as d hl
    rw [R_genericTail hE]
    simp only [List.flatMap_cons, Assoc.all, List.cons_append, List.append_assoc, genericTail, expect, tokIs,
      beq_self_eq_true, if_true]
    simp only at h1
    cases o with
    | some t =>
      rw [typeName_ok hE h2 colon (by simp)]
      simp only [scanAssoc, expect, tokIs, beq_self_eq_true, if_true]
      rw [h1]
      simp only [Res.must]
      rw [ih' _ _ (by simpa [defaultAssocs] using hl)]
      simp [typedAssocs, defaultAssocs]
    | none =>
      simp only at h2
      subst h2
      rw [hE.other _ rfl]
      simp only [List.cons_append, List.nil_append, beq_self_eq_true, if_true, scanAssoc, expect, tokIs]
      rw [h1]
      cases d with
      | some _ => simp [defaultAssocs] at hl
      | none =>
        simp only [Res.must]
        rw [ih' _ _ (by simpa [defaultAssocs] using hl)]
        simp [typedAssocs, defaultAssocs]

theorem desigTail_ok {W : List (WDesig τ)}
    (hb : ∀ l ts e r, WDesig.index l ts e r ∈ W → l.isLBracket = true ∧ r.isRBracket = true)
    (hg : ∀ l ts e r, WDesig.index l ts e r ∈ W → G .cond ts e) (ds : List (Desig (Expr τ))) (rest : List Tok) :
    R (.desigTail ds) (W.flatMap WDesig.toks ++ .punct .assign :: rest) =
      .ok ((W.map WDesig.node).reverse ++ ds) (.punct .assign :: rest) := by
  induction W generalizing ds with
  | nil =>
    rw [R_desigTail hE]
    rfl
  | cons w W ih =>
    have ih' := ih (fun l ts e r h => hb l ts e r (by simp [h])) (fun l ts e r h => hg l ts e r (by simp [h]))
    rw [R_desigTail hE]
    cases w with
    | index l ts e r =>
      obtain ⟨h1, h2⟩ := hb l ts e r (by simp)
      have h3 := (hg l ts e r (by simp)).1
      have hr : 11 < contRank r := by
        cases r with
        | punct p => cases p <;> first | (simp [contRank]; done) | cases h2
        | _ => simp [contRank]
      rw [← tokLBracket_eq] at h1
      rw [← tokRBracket_eq] at h2
      simp only [List.flatMap_cons, WDesig.toks, List.cons_append, List.append_assoc, List.nil_append, desigTail, h1,
        if_true]
      rw [h3 (r :: _) hr]
      simp only [Res.must, expect, h2, if_true]
      have := ih' (.index e :: ds)
      simpa [WDesig.node] using this
    | member s =>
      have := ih' (.member s :: ds)
      simpa [desigTail, WDesig.toks, WDesig.node, tokLBracket, tokIs, scanMember] using this

/-- The start of an item of a braced initializer. -/
theorem item_start {it : WItem τ} (h : D .init it.toks it.init)
    (hb : ∀ l ts e r, WDesig.index l ts e r ∈ it.desigs → l.isLBracket = true ∧ r.isRBracket = true)
    (hg : ∀ l ts e r, WDesig.index l ts e r ∈ it.desigs → G .cond ts e) (hi : G .init it.toks it.init)
    {rest : List Tok} (hr : 12 < restRank rest) (items : List (List (Desig (Expr τ)) × Expr τ)) :
    headIs tokRBrace (it.all ++ rest) = false ∧
    R (.initTail items) (it.all ++ rest) =
      expect (tokIs .comma) rest (initEnd (items ++ [it.node]) rest) fun r =>
        if headIs tokRBrace r then initEnd (items ++ [it.node]) r else R (.initTail (items ++ [it.node])) r := by
  have hitem : ∀ ds, initItem R items ds (it.toks ++ rest) =
      expect (tokIs .comma) rest (initEnd (items ++ [(ds, it.init)]) rest) fun r =>
        if headIs tokRBrace r then initEnd (items ++ [(ds, it.init)]) r
        else R (.initTail (items ++ [(ds, it.init)])) r := by
    intro ds
    unfold initItem
    rw [hi rest hr]
    rfl
  obtain ⟨W, ti, i⟩ := it
  rw [R_initTail hE]
  cases W with
  | nil =>
    obtain ⟨t, r, hti, ht⟩ := der_head hE.reserved h
    simp only at hti
    subst hti
    have h1 : tokRBrace t = false ∧ tokLBracket t = false ∧ tokIs .dot t = false := by
      rcases ht with ht | ht
      · cases t with
        | punct p => cases p <;> first | exact ⟨rfl, rfl, rfl⟩ | cases ht
        | _ => cases ht
      · have := exprStart_punct hE ht
        exact ⟨this.2.2.1, this.2.2.2.1, this.2.2.2.2⟩
    have hd : designation R (t :: r ++ rest) = .noMatch := by
      unfold designation
      simp [headIs, h1.2.1, h1.2.2]
    refine ⟨h1.1, ?_⟩
    unfold initTail
    simp only [WItem.all]
    rw [hd]
    exact hitem []
  | cons w W =>
    have hd := desigTail_ok hE hb hg [] (ti ++ rest)
    have hall : (WItem.mk (w :: W) ti i).all ++ rest =
        (w :: W).flatMap WDesig.toks ++ .punct .assign :: (ti ++ rest) := by simp [WItem.all]
    have hstart : headIs tokRBrace ((w :: W).flatMap WDesig.toks ++ .punct .assign :: (ti ++ rest)) = false ∧
        (headIs tokLBracket ((w :: W).flatMap WDesig.toks ++ .punct .assign :: (ti ++ rest)) ||
          headIs (tokIs .dot) ((w :: W).flatMap WDesig.toks ++ .punct .assign :: (ti ++ rest))) = true := by
      cases w with
      | index l ts e r =>
        have h1 := (hb l ts e r (by simp)).1
        simp only [List.flatMap_cons, WDesig.toks, List.cons_append, headIs]
        rw [← tokLBracket_eq] at h1
        refine ⟨?_, by simp [h1]⟩
        cases l with
        | punct p => cases p <;> first | rfl | cases h1
        | _ => rfl
      | member s => exact ⟨rfl, rfl⟩
    rw [hall]
    refine ⟨hstart.1, ?_⟩
    have hdes : designation R ((w :: W).flatMap WDesig.toks ++ .punct .assign :: (ti ++ rest)) =
        .ok ((w :: W).map WDesig.node).reverse (ti ++ rest) := by
      unfold designation
      rw [hstart.2]
      simp only [if_true]
      rw [show R (.desigTail []) _ = _ from hd]
      simp [Res.andThen, expect, tokIs]
    unfold initTail
    rw [hdes]
    exact hitem _

theorem initTail_ok {W : List (WItem τ)} {tc : List Tok} {b : Tok} (hb' : b.isRBrace = true) (hW : W ≠ [])
    (h : ∀ it ∈ W, D .init it.toks it.init)
    (hb : ∀ it ∈ W, ∀ l ts e r, WDesig.index l ts e r ∈ it.desigs → l.isLBracket = true ∧ r.isRBracket = true)
    (hg : ∀ it ∈ W, ∀ l ts e r, WDesig.index l ts e r ∈ it.desigs → G .cond ts e)
    (hi : ∀ it ∈ W, G .init it.toks it.init) (hc : optComma true W.isEmpty tc)
    (items : List (List (Desig (Expr τ)) × Expr τ)) (rest : List Tok) :
    headIs tokRBrace (sepComma (W.map WItem.all) ++ tc ++ b :: rest) = false ∧
    R (.initTail items) (sepComma (W.map WItem.all) ++ tc ++ b :: rest) =
      .ok (.initList (items ++ W.map WItem.node)) rest := by
  have hbr : tokRBrace b = true := by rw [tokRBrace_eq]; exact hb'
  have hbc : tokIs .comma b = false := by
    cases b with
    | punct p => cases p <;> first | rfl | cases hb'
    | _ => rfl
  have hrank : 12 < contRank b := by
    cases b with
    | punct p => cases p <;> first | (simp [contRank]; done) | cases hb'
    | _ => simp [contRank]
  induction W generalizing items with
  | nil => exact absurd rfl hW
  | cons w W ih =>
    have key := fun us (hu : 12 < restRank us) => item_start hE (h w (by simp)) (hb w (by simp)) (hg w (by simp))
      (hi w (by simp)) hu items
    cases W with
    | nil =>
      have htc : tc = [] ∨ tc = [comma] := by cases tc <;> simp_all [optComma]
      simp only [List.map_cons, List.map_nil, sepComma, List.append_assoc]
      rcases htc with rfl | rfl
      · obtain ⟨k1, k2⟩ := key (b :: rest) hrank
        refine ⟨k1, ?_⟩
        rw [List.nil_append, k2]
        simp [expect, hbc, initEnd, hbr]
      · obtain ⟨k1, k2⟩ := key (comma :: b :: rest) (by simp [restRank, contRank])
        refine ⟨k1, ?_⟩
        rw [List.cons_append, List.nil_append, k2]
        simp [expect, tokIs, headIs, hbr, initEnd]
    | cons w' W =>
      obtain ⟨i1, i2⟩ := ih (by simp) (fun a ha => h a (by simp [ha])) (fun a ha => hb a (by simp [ha]))
        (fun a ha => hg a (by simp [ha])) (fun a ha => hi a (by simp [ha])) (by simpa using hc) (items ++ [w.node])
      rw [List.map_cons, sepComma_cons _ (by simp)]
      simp only [List.append_assoc, List.cons_append]
      simp only [List.append_assoc] at i1 i2
      obtain ⟨k1, k2⟩ := key (comma :: (sepComma ((w' :: W).map WItem.all) ++ (tc ++ b :: rest)))
        (by simp [restRank, contRank])
      refine ⟨k1, ?_⟩
      rw [k2]
      simp only [expect, tokIs, beq_self_eq_true, if_true, i1]
      simpa using i2

theorem unary_post {t : Tok} {r : List Tok} (hp : ∀ p, t = .punct p → unaryTable p = none)
    (hs : t ≠ .kw .kSizeof) (ha : t ≠ .kw .kAlignof) : R .unary (t :: r) = R .post (t :: r) := by
  rw [R_unary hE]
  unfold unary
  split
  · rename_i p r' heq
    cases heq
    rw [hp p rfl]
  · rename_i heq; cases heq; exact absurd rfl hs
  · rename_i heq; cases heq; exact absurd rfl ha
  · rfl

theorem binOk {l : Level} {ts : List Tok} {e : Expr τ} (h : G (.bin l) ts e) {rest : List Tok}
    (hr : l.idx < restRank rest) : R (.bin l) (ts ++ rest) = .ok e rest := by
  rw [h.1 rest (Nat.le_of_lt hr)]
  exact binTail_end hE l e (by omega)

theorem operandOk {l : Level} {ts : List Tok} {e : Expr τ} (h : G l.operand ts e) {rest : List Tok}
    (hr : l.idx ≤ restRank rest) : operandRule R l (ts ++ rest) = .ok e rest := by
  cases l with
  | mul => exact h.1 rest hr
  | add => exact binOk hE h (by simp [Level.idx] at *; omega)
  | shift => exact binOk hE h (by simp [Level.idx] at *; omega)
  | rel => exact binOk hE h (by simp [Level.idx] at *; omega)
  | eq => exact binOk hE h (by simp [Level.idx] at *; omega)
  | band => exact binOk hE h (by simp [Level.idx] at *; omega)
  | bxor => exact binOk hE h (by simp [Level.idx] at *; omega)
  | bor => exact binOk hE h (by simp [Level.idx] at *; omega)
  | land => exact binOk hE h (by simp [Level.idx] at *; omega)
  | lor => exact binOk hE h (by simp [Level.idx] at *; omega)

theorem operandU {l : Level} {ts : List Tok} {e : Expr τ} (h : G l.operand ts e) :
    ∀ rest, 0 < restRank rest → UEnd rest (R .unary (ts ++ rest)) := by
  cases l <;> exact h.2

/-- An operator after the first operand. -/
theorem uend_op {ts : List Tok} (h : ∀ rest, 0 < restRank rest → UEnd rest (R .unary (ts ++ rest))) {p : Tok}
    (hp : 1 ≤ contRank p ∧ contRank p ≤ 11) (tb rest : List Tok) :
    UEnd rest (R .unary (ts ++ p :: tb ++ rest)) := by
  have := h (p :: tb ++ rest) (by simp only [List.cons_append, restRank]; omega)
  rw [List.append_assoc]
  rcases this with h1 | ⟨e, r, h1, h2⟩
  · exact .inl h1
  · refine .inr ⟨e, r, h1, .inr ?_⟩
    rcases h2 with rfl | h2
    · exact hp
    · exact h2

theorem literal_goal {tt tb : List Tok} {t : τ} {i : Expr τ} (ht : IsType tt t) (hd : D .braces tb i)
    (hg : G .braces tb i) : G .literal (lp :: tt ++ rp :: tb) (.compound t i) := by
  have hc : ∀ rest, compoundLiteral E R (lp :: tt ++ rp :: tb ++ rest) = .ok (.compound t i) rest := by
    intro rest
    unfold compoundLiteral expect
    simp only [List.cons_append, List.append_assoc, tokIs, beq_self_eq_true, if_true]
    rw [typeName_ok hE ht rp (by simp)]
    simp only [Res.andThen, beq_self_eq_true, if_true]
    rw [show R .initList (tb ++ rest) = _ from hg rest]
  refine ⟨hc, ?_, ?_, ?_⟩
  · intro rest
    obtain ⟨x, r, rfl, hx⟩ := der_head hE.reserved hd
    rw [← tokLBrace_eq] at hx
    unfold scanCast expect
    simp only [List.cons_append, List.append_assoc, tokIs, beq_self_eq_true, if_true]
    rw [typeName_ok hE ht rp (by simp)]
    simp only [Res.andThen, beq_self_eq_true, if_true]
    rw [show R .cast (x :: (r ++ rest)) = .noMatch from cast_noMatch hE (by
      cases hs : exprStart E.isTypedef x with
      | false => exact hs
      | true => rw [(exprStart_punct hE hs).2.1] at hx; cases hx)]
    simp [Res.orElse, headIs, hx]
  · intro rest
    exact unary_post hE (by rintro p ⟨⟩; rfl) (by simp) (by simp)
  · intro rest
    rw [R_post hE]
    show postfixRest lit E R (lp :: tt ++ rp :: tb ++ rest) = _
    unfold postfixRest
    rw [hc rest]

/-- The rules find what the grammar derives. -/
theorem der_complete {s : Sym} {ts : List Tok} {e : Expr τ} (h : D s ts e) : G s ts e := by
  induction h with
  | @ident s h hb =>
    refine ⟨fun rest => ?_, fun rest => compoundLiteral_noMatch hE rfl, fun rest => scanCast_noMatch hE rfl, ?_, ?_⟩
    · rw [R_primary hE]; simp [primary, h]
    · rintro _ _ ⟨⟩; exact hb
    · intro rest; exact unary_post hE (by rintro p ⟨⟩) (by simp) (by simp)
  | const =>
    refine ⟨fun rest => ?_, fun rest => compoundLiteral_noMatch hE rfl, fun rest => scanCast_noMatch hE rfl, ?_, ?_⟩
    · rw [R_primary hE]; rfl
    · rintro _ _ ⟨⟩
    · intro rest; exact unary_post hE (by rintro p ⟨⟩) (by simp) (by simp)
  | str =>
    refine ⟨fun rest => ?_, fun rest => compoundLiteral_noMatch hE rfl, fun rest => scanCast_noMatch hE rfl, ?_, ?_⟩
    · rw [R_primary hE]; simp [primary, strNode_eq]
    · rintro _ _ ⟨⟩
    · intro rest; exact unary_post hE (by rintro p ⟨⟩) (by simp) (by simp)
  | @paren ts e hd ih =>
    have htn := typeName_noMatch hE hd (by simp)
    refine ⟨fun rest => ?_, fun rest => ?_, fun rest => ?_, ?_, ?_⟩
    · rw [R_primary hE]
      simp only [List.cons_append, List.append_assoc, List.nil_append, primary]
      rw [expr_end hE ih (by simp [contRank]) rfl]
      simp [Res.andThen, expect, tokIs]
    · simp only [List.cons_append, List.append_assoc, compoundLiteral, expect, tokIs, beq_self_eq_true, if_true]
      rw [htn]; rfl
    · simp only [List.cons_append, List.append_assoc, scanCast, expect, tokIs, beq_self_eq_true, if_true]
      rw [htn]; rfl
    · rintro _ _ ⟨⟩
    · intro rest; exact unary_post hE (by rintro p ⟨⟩; rfl) (by simp) (by simp)
  | @generic tc c as hd hne hda ht hl ihc iha =>
    refine ⟨fun rest => ?_, fun rest => compoundLiteral_noMatch hE rfl, fun rest => scanCast_noMatch hE rfl, ?_, ?_⟩
    · rw [R_primary hE]
      simp only [List.cons_append, List.append_assoc, List.nil_append, primary, scanGeneric, expect, tokIs,
        beq_self_eq_true, if_true]
      cases as with
      | nil => exact absurd rfl hne
      | cons a as =>
        rw [ihc _ (by simp [Assoc.all, restRank, contRank])]
        simp only [Res.must]
        rw [if_pos (by simp [headIs, Assoc.all, tokIs])]
        have := genericTail_ok hE (c := c) iha ht [] none (by simpa using hl) rest
        simpa using this
    · rintro _ _ ⟨⟩
    · intro rest; exact unary_post hE (by rintro p ⟨⟩) (by simp) (by simp)
  | postfixPrimary hd ih =>
    refine ⟨fun rest => post_of_primary hE ih ?_ rest, ih.2.2.1, ih.2.2.2.2⟩
    obtain ⟨t, r, h, -⟩ := der_head hE.reserved hd
    exact ⟨t, r, h⟩
  | @builtin s op args tc hs ht hd hc ih =>
    refine ⟨fun rest => ?_, fun rest => scanCast_noMatch hE rfl, ?_⟩
    · rw [R_post hE]
      simp only [List.cons_append, postfixExpr, builtinOp_eq, hs, scanBuiltin, expect, tokIs,
        beq_self_eq_true, if_true]
      have := builtinTail_ok hE (op := op) ht hd ih hc [] rest
      rw [show sepComma (args.map BArg.toks) ++ tc ++ [rp] ++ rest = sepComma (args.map BArg.toks) ++ tc ++ rp :: rest by
        simp, this]
      simp [Res.andThen]
    · intro rest; exact unary_post hE (by rintro p ⟨⟩) (by simp) (by simp)
  | @subscript l r ta a ti i _ hl _ hr iha ihi =>
    refine ⟨fun rest => ?_, fun rest => ?_, fun rest => ?_⟩
    · have hr' : 12 < contRank r ∧ tokIs .comma r = false := by
        cases r with
        | punct p => cases p <;> first | (refine ⟨?_, rfl⟩; simp [contRank]; done) | cases hr
        | _ => cases hr
      rw [List.append_assoc, List.append_assoc, iha.1, R_postTail hE]
      rw [← tokLBracket_eq] at hl
      rw [← tokRBracket_eq] at hr
      simp only [postTail, List.cons_append, List.nil_append, hl, if_true]
      rw [expr_end hE ihi hr'.1 hr'.2]
      simp [Res.must, expect, hr]
    · rw [List.append_assoc, List.append_assoc]; exact iha.2.1 _
    · rw [List.append_assoc, List.append_assoc]; exact iha.2.2 _
  | @call tf f args tc _ hda hc ihf iha =>
    refine ⟨fun rest => ?_, fun rest => ?_, fun rest => ?_⟩
    · have := argTail_ok hE (f := f) hda iha hc [] rest
      simp only [List.append_assoc, List.cons_append, List.nil_append]
      rw [ihf.1, R_postTail hE]
      simp only [List.append_assoc] at this
      unfold postTail
      dsimp only
      rw [if_neg (by simp [tokLBracket, tokIs]), if_pos (by simp [tokIs])]
      rw [show R (.argTail f []) _ = _ from this]
      simp [Res.andThen]
    · simp only [List.append_assoc]; exact ihf.2.1 _
    · simp only [List.append_assoc]; exact ihf.2.2 _
  | @member ts e s _ ih =>
    refine ⟨fun rest => ?_, fun rest => ?_, fun rest => ?_⟩
    · rw [List.append_assoc, ih.1, R_postTail hE]
      simp [postTail, tokLBracket, tokIs, scanMember]
    · rw [List.append_assoc]; exact ih.2.1 _
    · rw [List.append_assoc]; exact ih.2.2 _
  | @arrow ts e s _ ih =>
    refine ⟨fun rest => ?_, fun rest => ?_, fun rest => ?_⟩
    · rw [List.append_assoc, ih.1, R_postTail hE]
      simp [postTail, tokLBracket, tokIs, scanMember]
    · rw [List.append_assoc]; exact ih.2.1 _
    · rw [List.append_assoc]; exact ih.2.2 _
  | @postfixOp ts e p op _ hp ih =>
    refine ⟨fun rest => ?_, fun rest => ?_, fun rest => ?_⟩
    · rw [List.append_assoc, ih.1, R_postTail hE]
      simp only [postfixOps, List.mem_cons, Prod.mk.injEq, List.not_mem_nil, or_false] at hp
      rcases hp with ⟨rfl, rfl⟩ | ⟨rfl, rfl⟩
      · simp [postTail, tokLBracket, tokIs]
      · simp [postTail, tokLBracket, tokIs]
    · rw [List.append_assoc]; exact ih.2.1 _
    · rw [List.append_assoc]; exact ih.2.2 _
  | literal ht hd ih => exact literal_goal hE ht hd ih
  | postfixLiteral hl _ ih =>
    refine ⟨fun rest => ?_, ih.2.1, ih.2.2.1⟩
    have hl : lit = true := hl
    rw [ih.2.2.2, if_pos hl]
  | @unaryPostfix ts e _ ih =>
    refine ⟨fun rest hr => ?_, ih.2.1⟩
    rw [ih.2.2, ih.1]
    exact postTail_end hE e hr
  | @unaryLiteral ts e _ ih =>
    refine ⟨fun rest hr => ?_, ih.2.1⟩
    rw [ih.2.2.1, ih.2.2.2]
    split
    · exact postTail_end hE e hr
    · rfl
  | @prefixOp ts e p op hp _ ih =>
    have ih : G .cast ts e := ih
    have hp' := unaryTable_iff.2 (.inl hp)
    refine ⟨fun rest hr => ?_, fun rest => scanCast_noMatch hE ?_⟩
    · rw [R_unary hE]
      simp only [List.cons_append, unary, hp']
      rw [ih.1 rest hr]
      rfl
    · cases p <;> first | rfl | cases hp'
  | @unaryOp ts e p op hp _ ih =>
    have hp' := unaryTable_iff.2 (.inr hp)
    refine ⟨fun rest hr => ?_, fun rest => scanCast_noMatch hE ?_⟩
    · rw [R_unary hE]
      simp only [List.cons_append, unary, hp']
      rw [ih.1 rest hr]
      rfl
    · cases p <;> first | rfl | cases hp'
  | @sizeofExpr ts e _ ih =>
    refine ⟨fun rest hr => ?_, fun rest => scanCast_noMatch hE rfl⟩
    rw [R_unary hE]
    simp only [List.cons_append, unary]
    rw [ih.1 rest hr]
    rfl
  | @sizeofType tt t ht =>
    refine ⟨fun rest hr => ?_, fun rest => scanCast_noMatch hE rfl⟩
    rw [R_unary hE]
    simp only [List.cons_append, List.append_assoc, List.nil_append, unary]
    rw [paren_type_unary hE ht (rest := rest) (by
      cases rest with
      | nil => rfl
      | cons x r =>
        cases x with
        | punct p => cases p <;> first | rfl | (simp [restRank, contRank] at hr)
        | _ => rfl)]
    simp only [Res.orElse, sizeofType, expect, tokIs, beq_self_eq_true, if_true]
    rw [typeName_ok hE ht rp (by simp)]
    simp [Res.must, Res.andThen]
  | @alignofType tt t ht =>
    refine ⟨fun rest hr => ?_, fun rest => scanCast_noMatch hE rfl⟩
    rw [R_unary hE]
    simp only [List.cons_append, List.append_assoc, List.nil_append, unary, alignofOperand, expect, tokIs,
      beq_self_eq_true, if_true]
    rw [typeName_ok hE ht rp (by simp)]
    simp [Res.andThen]
  | @alignofExpr ts e _ hd ih =>
    refine ⟨fun rest hr => ?_, fun rest => scanCast_noMatch hE rfl⟩
    rw [R_unary hE]
    simp only [List.cons_append, List.append_assoc, List.nil_append, unary, alignofOperand, expect, tokIs,
      beq_self_eq_true, if_true]
    rw [typeName_noMatch hE hd (by simp)]
    simp only
    rw [ih (rp :: rest) (by simp [restRank, contRank])]
    simp [Res.andThen, Res.must]
  | @castUnary ts e _ ih =>
    refine ⟨fun rest hr => ?_, fun rest hr => ?_⟩
    · rw [R_cast hE]
      unfold castExpr
      rw [ih.2]
      exact ih.1 rest hr
    · exact .inr ⟨e, rest, ih.1 rest hr, .inl rfl⟩
  | @cast tt t ts e ht hd ih =>
    refine ⟨fun rest hr => ?_, fun rest hr => ?_⟩
    · rw [R_cast hE]
      unfold castExpr
      have : scanCast E R (lp :: tt ++ rp :: ts ++ rest) = .ok (.cast t e) rest := by
        simp only [List.cons_append, List.append_assoc, scanCast, expect, tokIs, beq_self_eq_true, if_true]
        rw [typeName_ok hE ht rp (by simp)]
        simp only [Res.andThen, beq_self_eq_true, if_true]
        rw [ih.1 rest hr]
        rfl
      rw [this]
      rfl
    · refine .inl ?_
      obtain ⟨x, r, rfl, hx⟩ := der_head hE.reserved hd
      have := paren_type_unary (lit := lit) hE ht (rest := x :: r ++ rest) (exprStart_punct hE hx).2.1
      simpa using this
  | @binOperand l ts e _ ih =>
    refine ⟨fun rest hr => ?_, operandU hE ih⟩
    rw [R_bin hE]
    unfold binExpr
    rw [operandOk hE ih hr]
    rfl
  | @binOp l ta a p op tb b _ hp _ iha ihb =>
    have hp' := binTable_iff.2 hp
    have hrank := binTable_rank hp'
    have hb := l.idx_bounds
    refine ⟨fun rest hr => ?_, fun rest hr => uend_op hE iha.2 (by omega) tb rest⟩
    rw [List.append_assoc, iha.1 _ (by simp [restRank, hrank]), R_binTail hE]
    simp only [List.cons_append, binTail, hp']
    rw [operandOk hE ihb hr]
    rfl
  | @condBin ts e _ ih =>
    refine ⟨fun rest hr => ?_, ih.2⟩
    rw [R_cond hE]
    unfold condExpr
    rw [binOk hE ih (by simp only [Level.idx]; omega)]
    simp only [Res.andThen, expect]
    cases rest with
    | nil => rfl
    | cons x r =>
      cases x with
      | punct p => cases p <;> first | rfl | (simp [restRank, contRank] at hr)
      | _ => rfl
  | @cond tc c ta a tb b _ _ _ ihc iha ihb =>
    refine ⟨fun rest hr => ?_, fun rest hr => ?_⟩
    · rw [R_cond hE]
      unfold condExpr
      simp only [List.append_assoc, List.cons_append]
      rw [binOk hE ihc (by simp [restRank, contRank, Level.idx])]
      simp only [Res.andThen, expect, tokIs, beq_self_eq_true, if_true]
      rw [expr_end hE iha (by simp [contRank]) rfl]
      simp only [Res.must, beq_self_eq_true, if_true]
      rw [ihb.1 rest hr]
    · have := uend_op hE ihc.2 (p := .punct .questionMark) (by simp [contRank]) (ta ++ colon :: tb) rest
      simpa using this
  | @assignCond ts e _ ih =>
    intro rest hr
    rw [R_assign hE]
    unfold assignExpr
    have : R .reduceAssign (ts ++ rest) = .noMatch := by
      rw [R_reduceAssign hE]
      unfold reduceAssign
      rcases ih.2 rest (by omega) with h | ⟨a, r, h, h'⟩
      · rw [h]; rfl
      · rw [h]
        simp only [Res.andThen]
        have hr' : restRank r ≠ 12 := by rcases h' with rfl | h' <;> omega
        unfold assignRest
        split
        · rename_i p r'
          split
          · rename_i op hop
            exact absurd (assignTable_rank hop) hr'
          · rfl
        · rfl
    rw [show R .reduceAssign (ts ++ rest) = .noMatch from this]
    exact ih.1 rest (by omega)
  | @assign ta a p op tb b _ hp _ iha ihb =>
    intro rest hr
    have hp' := assignTable_iff.2 hp
    rw [R_assign hE]
    unfold assignExpr
    have : R .reduceAssign (ta ++ .punct p :: tb ++ rest) = .ok (.assign op a b) rest := by
      rw [R_reduceAssign hE]
      unfold reduceAssign
      rw [List.append_assoc, iha.1 _ (by simp [restRank, assignTable_rank hp'])]
      simp only [Res.andThen, List.cons_append, assignRest, hp']
      rw [ihb rest hr]
      rfl
    rw [show R .reduceAssign (ta ++ .punct p :: tb ++ rest) = .ok (.assign op a b) rest from this]
    rfl
  | @exprAssign ts e _ ih =>
    intro rest hr
    rw [R_expr hE]
    unfold expr
    rw [ih rest hr]
    rfl
  | @comma ta a tb b _ _ iha ihb =>
    intro rest hr
    rw [List.append_assoc, iha _ (by simp [restRank, contRank]), R_exprTail hE]
    simp only [exprTail, expect, tokIs, List.cons_append, beq_self_eq_true, if_true]
    rw [ihb rest hr]
    rfl
  | @initExpr ts e hd ih =>
    intro rest hr
    rw [R_init hE]
    unfold initializer
    have : R .initList (ts ++ rest) = .noMatch := by
      rw [R_initList hE]
      obtain ⟨x, r, rfl, hx⟩ := der_head hE.reserved hd
      simp [initList, expect, (exprStart_punct hE hx).2.1]
    rw [show R .initList (ts ++ rest) = .noMatch from this]
    simp only [Res.orElse]
    rw [ih rest hr]
    rfl
  | initBraces _ ih =>
    intro rest hr
    rw [R_init hE]
    unfold initializer
    rw [show R .initList _ = _ from ih rest]
    rfl
  | @braces l r items tc hl hr _ hd hb _ hc ihi ihd =>
    intro rest
    rw [R_initList hE]
    rw [← tokLBrace_eq] at hl
    simp only [initList, expect, List.cons_append, hl, if_true]
    cases items with
    | nil =>
      have : tc = [] := by cases tc <;> simp_all [optComma]
      subst this
      rw [← tokRBrace_eq] at hr
      simp [sepComma, headIs, hr, initEnd, expect]
    | cons it items =>
      have := initTail_ok hE hr (by simp) hd hb ihd ihi hc [] rest
      simp only [List.append_assoc] at this
      simp only [List.append_assoc, List.cons_append, List.nil_append, this.1]
      simpa using this.2

end

end

end Kefir.Parser
