import Verif.Parser.Complete

/-! C34: expressions are parsed into the trees the C17 grammar gives them. -/
namespace Kefir.Parser
open Kefir.Lexer (Punct Keyword)
variable {τ : Type}

/-- What follows a full expression in a program: the end of the tokens or `;`, `)`, `]`, `}` or `:`. -/
def afterExpr : List Tok → Bool
  | [] => true
  | t :: _ => t == .punct .semicolon || t == rp || t == colon || t.isRBracket || t.isRBrace

/-- What follows an argument, an association or an initializer: also `,`. -/
def afterItem : List Tok → Bool
  | t :: r => t == comma || afterExpr (t :: r)
  | [] => true

/-- `d` allows no more than `d'`. -/
def Dialect.le (d d' : Dialect) : Prop :=
  (d.literalPostfix = true → d'.literalPostfix = true) ∧ (d.trailingComma = true → d'.trailingComma = true) ∧
  (d.emptyBraces = true → d'.emptyBraces = true) ∧ (d.castOperand = true → d'.castOperand = true) ∧
  (d.alignofExpr = true → d'.alignofExpr = true)

theorem optComma_mono {a b : Bool} (h : a = true → b = true) {e : Bool} {ts : List Tok} (ho : optComma a e ts) :
    optComma b e ts := by
  cases ts with
  | nil => trivial
  | cons t ts => exact ⟨ho.1, h ho.2.1, ho.2.2⟩

theorem Der.mono {d d' : Dialect} (hd : d.le d') {isTypedef : String → Bool} {IsType : List Tok → τ → Prop} {s : Sym}
    {ts : List Tok} {e : Expr τ} (h : Der d isTypedef IsType s ts e) : Der d' isTypedef IsType s ts e := by
  induction h with
  | ident h hb => exact .ident h hb
  | const => exact .const
  | str => exact .str
  | paren _ ih => exact .paren ih
  | generic _ hne _ ht hl ihc iha => exact .generic ihc hne iha ht hl
  | postfixPrimary _ ih => exact .postfixPrimary ih
  | builtin hs ht _ hc ih => exact .builtin hs ht ih (optComma_mono hd.2.1 hc)
  | subscript _ hl _ hr iha ihi => exact .subscript iha hl ihi hr
  | call _ _ hc ihf iha => exact .call ihf iha (optComma_mono hd.2.1 hc)
  | member _ ih => exact .member ih
  | arrow _ ih => exact .arrow ih
  | postfixOp _ hp ih => exact .postfixOp ih hp
  | literal ht _ ih => exact .literal ht ih
  | postfixLiteral hl _ ih => exact .postfixLiteral (hd.1 hl) ih
  | unaryPostfix _ ih => exact .unaryPostfix ih
  | unaryLiteral _ ih => exact .unaryLiteral ih
  | @prefixOp ts e p op hp h ih =>
    refine .prefixOp hp ?_
    have h4 := hd.2.2.2.1
    cases hc : d.castOperand with
    | true => rw [h4 hc]; rw [hc] at ih; exact ih
    | false =>
      rw [hc] at ih
      cases d'.castOperand with
      | true => exact .castUnary ih
      | false => exact ih
  | unaryOp hp _ ih => exact .unaryOp hp ih
  | sizeofExpr _ ih => exact .sizeofExpr ih
  | sizeofType ht => exact .sizeofType ht
  | alignofType ht => exact .alignofType ht
  | alignofExpr ha _ ih => exact .alignofExpr (hd.2.2.2.2 ha) ih
  | castUnary _ ih => exact .castUnary ih
  | cast ht _ ih => exact .cast ht ih
  | binOperand _ ih => exact .binOperand ih
  | binOp _ hp _ iha ihb => exact .binOp iha hp ihb
  | condBin _ ih => exact .condBin ih
  | cond _ _ _ ihc iha ihb => exact .cond ihc iha ihb
  | assignCond _ ih => exact .assignCond ih
  | assign _ hp _ iha ihb => exact .assign iha hp ihb
  | exprAssign _ ih => exact .exprAssign ih
  | comma _ _ iha ihb => exact .comma iha ihb
  | initExpr _ ih => exact .initExpr ih
  | initBraces _ ih => exact .initBraces ih
  | braces hl hr he _ hb _ hc ihi ihd => exact .braces hl hr (fun h => hd.2.2.1 (he h)) ihi hb ihd hc

theorem Dialect.le_union (d : Dialect) : d.le .union :=
  ⟨fun _ => rfl, fun _ => rfl, fun _ => rfl, fun _ => rfl, fun _ => rfl⟩

theorem rank_afterItem {ts : List Tok} (h : afterItem ts = true) : 12 < restRank ts := by
  cases ts with
  | nil => simp [restRank]
  | cons t r =>
    cases t with
    | punct p => cases p <;> first | (simp [restRank, contRank]; done) | cases h
    | _ => simp [restRank, contRank]

theorem afterExpr_item {ts : List Tok} (h : afterExpr ts = true) :
    afterItem ts = true ∧ headIs (tokIs .comma) ts = false := by
  cases ts with
  | nil => exact ⟨rfl, rfl⟩
  | cons t r =>
    refine ⟨by simp only [afterItem, h, Bool.or_true], ?_⟩
    cases t with
    | punct p => cases p <;> first | rfl | cases h
    | _ => rfl

theorem Goal.unique {lit : Bool} {E : Env τ} {IsType : List Tok → τ → Prop} (hE : E.Lawful IsType) {s : Sym}
    {ts : List Tok} {e e' : Expr τ} (h : Goal lit E s ts e) (h' : Goal lit E s ts e') : e = e' := by
  have key : ∀ {x y : Res (Expr τ)}, x = .ok e [] → y = .ok e' [] → x = y → e = e' := by
    rintro x y rfl rfl h; cases h; rfl
  cases s with
  | primary => exact key (h.1 []) (h'.1 []) rfl
  | literal => exact key (h.1 []) (h'.1 []) rfl
  | «postfix» =>
    exact key (postTail_end hE.accepts e (rest := []) (by simp [restRank]))
      (postTail_end hE.accepts e' (rest := []) (by simp [restRank])) ((h.1 []).symm.trans (h'.1 []))
  | unary => exact key (h.1 [] (by simp [restRank])) (h'.1 [] (by simp [restRank])) rfl
  | cast => exact key (h.1 [] (by simp [restRank])) (h'.1 [] (by simp [restRank])) rfl
  | bin l =>
    have hl : l.idx < restRank [] := by have := l.idx_bounds; simp only [restRank]; omega
    exact key (binOk hE.accepts h hl) (binOk hE.accepts h' hl) rfl
  | cond => exact key (h.1 [] (by simp [restRank])) (h'.1 [] (by simp [restRank])) rfl
  | assign => exact key (h [] (by simp [restRank])) (h' [] (by simp [restRank])) rfl
  | expr =>
    exact key (exprTail_end hE.accepts e (rest := []) rfl) (exprTail_end hE.accepts e' (rest := []) rfl)
      ((h [] (by simp [restRank])).symm.trans (h' [] (by simp [restRank])))
  | braces => exact key (h []) (h' []) rfl
  | init => exact key (h [] (by simp [restRank])) (h' [] (by simp [restRank])) rfl

/-- C34 (and the grammar itself): a sequence of tokens has at most one tree, in C17 and in every dialect. -/
theorem C34_unambiguous {E : Env τ} {IsType : List Tok → τ → Prop} (hE : E.Lawful IsType) {d : Dialect} {s : Sym}
    {ts : List Tok} {e e' : Expr τ} (h : Der d E.isTypedef IsType s ts e) (h' : Der d E.isTypedef IsType s ts e') :
    e = e' :=
  Goal.unique (lit := true) hE (der_complete hE.accepts (h.mono d.le_union)) (der_complete hE.accepts (h'.mono d.le_union))

/-- C34: the rule for expressions accepts exactly the expressions of kefir's dialect, each with its tree, with any depth
of calls beyond a bound linear in the number of tokens. -/
theorem C34_expression_exact {E : Env τ} {IsType : List Tok → τ → Prop} (hE : E.Lawful IsType) {ts rest : List Tok}
    {e : Expr τ} {n : Nat} (hr : afterExpr rest = true) (hn : 20 * (ts ++ rest).length + 16 < n) :
    parse false E n .expr (ts ++ rest) = .ok e rest ↔ Der .kefir E.isTypedef IsType .expr ts e := by
  obtain ⟨h1, h2⟩ := afterExpr_item hr
  constructor
  · intro h
    obtain ⟨pre, hp, hd⟩ := parse_sound (lit := false) hE.toSound n .expr _ _ _ h
    cases List.append_cancel_right hp
    exact hd
  · intro h
    rw [parse_eq_run false E hE.accepts.fits (nt := .expr) (by simpa only [NT.bound, NT.rank] using hn)]
    have := der_complete (lit := false) hE.accepts h rest (rank_afterItem h1)
    rw [this]
    exact exprTail_end hE.accepts e h2

/-- The same for the rule for assignment expressions: arguments, associations. -/
theorem C34_assignment_exact {E : Env τ} {IsType : List Tok → τ → Prop} (hE : E.Lawful IsType) {ts rest : List Tok}
    {e : Expr τ} {n : Nat} (hr : afterItem rest = true) (hn : 20 * (ts ++ rest).length + 16 < n) :
    parse false E n .assign (ts ++ rest) = .ok e rest ↔ Der .kefir E.isTypedef IsType .assign ts e := by
  constructor
  · intro h
    obtain ⟨pre, hp, hd⟩ := parse_sound (lit := false) hE.toSound n .assign _ _ _ h
    cases List.append_cancel_right hp
    exact hd
  · intro h
    rw [parse_eq_run false E hE.accepts.fits (nt := .assign) (by simp only [NT.bound, NT.rank]; omega)]
    exact der_complete (lit := false) hE.accepts h rest (rank_afterItem hr)

/-- The same for the rule for constant expressions: array sizes, bit-field widths, enumerators, case labels. -/
theorem C34_constant_exact {E : Env τ} {IsType : List Tok → τ → Prop} (hE : E.Lawful IsType) {ts rest : List Tok}
    {e : Expr τ} {n : Nat} (hr : afterItem rest = true) (hn : 20 * (ts ++ rest).length + 16 < n) :
    parse false E n .cond (ts ++ rest) = .ok e rest ↔ Der .kefir E.isTypedef IsType .cond ts e := by
  constructor
  · intro h
    obtain ⟨pre, hp, hd⟩ := parse_sound (lit := false) hE.toSound n .cond _ _ _ h
    cases List.append_cancel_right hp
    exact hd
  · intro h
    rw [parse_eq_run false E hE.accepts.fits (nt := .cond) (by simp only [NT.bound, NT.rank]; omega)]
    exact (der_complete (lit := false) hE.accepts h).1 rest (by have := rank_afterItem hr; omega)

/-- The same for the rule for initializers. -/
theorem C34_initializer_exact {E : Env τ} {IsType : List Tok → τ → Prop} (hE : E.Lawful IsType) {ts rest : List Tok}
    {e : Expr τ} {n : Nat} (hr : afterItem rest = true) (hn : 20 * (ts ++ rest).length + 16 < n) :
    parse false E n .init (ts ++ rest) = .ok e rest ↔ Der .kefir E.isTypedef IsType .init ts e := by
  constructor
  · intro h
    obtain ⟨pre, hp, hd⟩ := parse_sound (lit := false) hE.toSound n .init _ _ _ h
    cases List.append_cancel_right hp
    exact hd
  · intro h
    rw [parse_eq_run false E hE.accepts.fits (nt := .init) (by simp only [NT.bound, NT.rank]; omega)]
    exact der_complete (lit := false) hE.accepts h rest (rank_afterItem hr)

/-- C34: the tree of an accepted C17 expression is the one the C17 grammar gives it: precedence, associativity and the
distinction of casts, compound literals, `sizeof` of types and of expressions are C17's. -/
theorem C34_c17_tree {E : Env τ} {IsType : List Tok → τ → Prop} (hE : E.Lawful IsType) {ts rest : List Tok}
    {e e' : Expr τ} {n : Nat} (hc : Der .c17 E.isTypedef IsType .expr ts e)
    (h : parse false E n .expr (ts ++ rest) = .ok e' rest) : e' = e := by
  obtain ⟨pre, hp, hd⟩ := parse_sound (lit := false) hE.toSound n .expr _ _ _ h
  cases List.append_cancel_right hp
  exact C34_unambiguous hE (d := .union) (hd.mono (Dialect.le_union _)) (hc.mono (Dialect.le_union _))

/-- C34, the part of acceptance that holds: a C17 expression in which no postfix operator is applied to a compound
literal is accepted with its tree.  Missing: the other C17 expressions, see `C34_literal_postfix_false`. -/
theorem C34_c17_accepted_partial {E : Env τ} {IsType : List Tok → τ → Prop} (hE : E.Lawful IsType) {ts rest : List Tok}
    {e : Expr τ} {n : Nat} (hr : afterExpr rest = true) (hn : 20 * (ts ++ rest).length + 16 < n)
    (hc : Der .common E.isTypedef IsType .expr ts e) : parse false E n .expr (ts ++ rest) = .ok e rest :=
  (C34_expression_exact hE hr hn).2 (hc.mono (d := .common) (d' := .kefir) ⟨fun h => h, fun _ => rfl, fun _ => rfl, fun _ => rfl,
    fun _ => rfl⟩)

/-- C34: every rule gives a result on every sequence of tokens, with calls nested no deeper than linear in the number
of tokens. -/
theorem C34_terminates {E : Env τ} {IsType : List Tok → τ → Prop} (hE : E.Lawful IsType) (nt : NT τ) (ts : List Tok)
    {n : Nat} (hn : 20 * ts.length + 17 < n) : parse false E n nt ts ≠ .fuel := by
  refine (parse_fits false E hE.accepts.fits n nt ts (Nat.lt_of_le_of_lt ?_ hn)).1
  have : nt.rank ≤ 17 := by
    cases nt with
    | bin l => cases l <;> simp [NT.rank, Level.rank]
    | _ => simp [NT.rank]
  simp only [NT.bound]
  omega

/-! ### A lawful environment -/

/-- `int` or the typedef name `T`, followed by stars. -/
def demoType : List Tok → (Bool × Nat) → Prop := fun ts t =>
  ts = (if t.1 then .ident "T" else .kw .kInt) :: List.replicate t.2 (.punct .star)

/-- Counts stars. -/
def demoStars (b : Bool) (n : Nat) : List Tok → Res (Bool × Nat)
  | .punct .star :: r => demoStars b (n + 1) r
  | r => .ok (b, n) r

/-- An environment with these type names. -/
def demoEnv : Env (Bool × Nat) where
  isTypedef s := s == "T"
  typeName ts := match ts with
    | .kw k :: r => if k = .kInt then demoStars false 0 r else .noMatch
    | .ident s :: r => if s == "T" then demoStars true 0 r else .noMatch
    | _ => .noMatch

theorem demoStars_ok {b : Bool} {n : Nat} {ts : List Tok} {t : Bool × Nat} {r : List Tok}
    (h : demoStars b n ts = .ok t r) :
    ∃ k, t = (b, n + k) ∧ ts = List.replicate k (.punct .star) ++ r := by
  induction ts generalizing n with
  | nil => simp only [demoStars, Res.ok.injEq] at h; exact ⟨0, by simp [← h.1], by simp [← h.2]⟩
  | cons x ts ih =>
    by_cases hx : x = .punct .star
    · subst hx
      obtain ⟨k, hk, hr⟩ := ih h
      exact ⟨k + 1, by rw [hk]; congr 1; omega, by rw [hr]; simp [List.replicate_succ]⟩
    · rw [demoStars] at h
      · cases h; exact ⟨0, rfl, rfl⟩
      · intro r hr; cases hr; exact hx rfl

theorem demoStars_all (b : Bool) (n k : Nat) (f : Tok) (hf : f ≠ .punct .star) (r : List Tok) :
    demoStars b n (List.replicate k (.punct .star) ++ f :: r) = .ok (b, n + k) (f :: r) := by
  induction k generalizing n with
  | zero =>
    simp only [List.replicate_zero, List.nil_append]
    rw [demoStars]
    · rfl
    · intro r hr; cases hr; exact hf rfl
  | succ k ih =>
    simp only [List.replicate_succ, List.cons_append, demoStars]
    rw [ih]
    congr 2; omega

theorem demoStars_total (b : Bool) (n : Nat) (ts : List Tok) : demoStars b n ts ≠ .fuel := by
  induction ts generalizing n with
  | nil => simp [demoStars]
  | cons x ts ih =>
    by_cases hx : x = .punct .star
    · subst hx; exact ih (n + 1)
    · rw [demoStars]
      · simp
      · intro r hr; cases hr; exact hx rfl

theorem demo_lawful : demoEnv.Lawful demoType where
  sound := by
    intro ts t r h
    cases ts with
    | nil => cases h
    | cons x ts =>
      cases x with
      | kw k =>
        simp only [demoEnv] at h
        split at h
        · rename_i hk
          obtain ⟨j, rfl, rfl⟩ := demoStars_ok h
          subst hk
          exact ⟨_ :: List.replicate j _, rfl, by simp [demoType]⟩
        · cases h
      | ident s =>
        simp only [demoEnv] at h
        split at h
        · rename_i hk
          obtain ⟨j, rfl, rfl⟩ := demoStars_ok h
          simp only [beq_iff_eq] at hk
          subst hk
          exact ⟨_ :: List.replicate j _, rfl, by simp [demoType]⟩
        · cases h
      | punct _ => cases h
      | const _ _ => cases h
      | str _ _ => cases h
  complete := by
    rintro pre ⟨b, k⟩ f r h hf
    have hf' : f ≠ .punct .star := by
      rintro rfl; simp at hf
    cases h
    cases b
    · have := demoStars_all false 0 k f hf' r
      simpa [demoEnv] using this
    · have := demoStars_all true 0 k f hf' r
      simpa [demoEnv] using this
  start := by
    rintro pre ⟨b, k⟩ h
    cases h
    refine ⟨_, _, rfl, ?_⟩
    cases b <;> rfl
  other := by
    intro ts h
    cases ts with
    | nil => rfl
    | cons x ts =>
      cases x with
      | kw k =>
        simp only [demoEnv]
        rw [if_neg]
        rintro rfl
        simp [headIs, typeStart] at h
      | ident s => simp only [headIs, typeStart, demoEnv] at h; simp only [demoEnv, h]; rfl
      | punct _ => rfl
      | const _ _ => rfl
      | str _ _ => rfl
  total := by
    intro ts
    cases ts with
    | nil => simp [demoEnv]
    | cons x ts =>
      cases x <;> simp only [demoEnv, ne_eq] <;> first | (split <;> first | exact demoStars_total _ _ _ | simp) | simp
  reserved := by
    intro s h
    simp only [demoEnv, beq_iff_eq] at h
    subst h
    decide +kernel

/-! ### Examples and refutations -/

/-- An identifier. -/
abbrev id' (s : String) : Tok := .ident s
/-- A punctuator. -/
abbrev pt (p : Punct) : Tok := .punct p
/-- An integer constant. -/
abbrev num (n : Nat) : Tok := .const .integer n

/-- `a = b - c - d * -e` -/
example : parse false demoEnv 300 .expr
    [id' "a", pt .assign, id' "b", pt .minus, id' "c", pt .minus, id' "d", pt .star, pt .minus, id' "e",
      pt .semicolon] =
    .ok (.assign .simple (.ident "a") (.binary .subtract (.binary .subtract (.ident "b") (.ident "c"))
      (.binary .multiply (.ident "d") (.unary .negate (.ident "e"))))) [pt .semicolon] := by rfl

/-- `(T) -x` is a cast and `(y) -x` a difference. -/
example : parse false demoEnv 300 .expr [lp, id' "T", rp, pt .minus, id' "x"] =
      .ok (.cast (true, 0) (.unary .negate (.ident "x"))) [] ∧
    parse false demoEnv 300 .expr [lp, id' "y", rp, pt .minus, id' "x"] =
      .ok (.binary .subtract (.ident "y") (.ident "x")) [] := ⟨by rfl, by rfl⟩

/-- `a ? b, c : d ? e : f` -/
example : parse false demoEnv 400 .expr
    [id' "a", pt .questionMark, id' "b", comma, id' "c", colon, id' "d", pt .questionMark, id' "e", colon, id' "f"] =
    .ok (.cond (.ident "a") (.comma (.ident "b") (.ident "c")) (.cond (.ident "d") (.ident "e") (.ident "f"))) [] := by
  rfl

/-- `sizeof (int *)` followed by `* p` is a product. -/
example : parse false demoEnv 300 .expr [.kw .kSizeof, lp, .kw .kInt, pt .star, rp, pt .star, id' "p"] =
    .ok (.binary .multiply (.unary .sizeof (.typeName (false, 1))) (.ident "p")) [] := by rfl

/-- `f(a, b)[i].m++` -/
example : parse false demoEnv 400 .expr
    [id' "f", lp, id' "a", comma, id' "b", rp, pt .leftBracket, id' "i", pt .rightBracket, pt .dot, id' "m",
      pt .doublePlus] =
    .ok (.unary .postInc (.member (.subscript (.call (.ident "f") [.ident "a", .ident "b"]) (.ident "i")) "m")) [] := by
  rfl

/-- The hypotheses of `C34_expression_exact` and `C34_c17_tree`: `(int *){0}` is an expression of C17 and accepted. -/
example : Der .c17 demoEnv.isTypedef demoType .expr
      [lp, .kw .kInt, pt .star, rp, pt .leftBrace, num 0, pt .rightBrace]
      (.compound (false, 1) (.initList [([], .const .integer 0)])) ∧
    parse false demoEnv 300 .expr [lp, .kw .kInt, pt .star, rp, pt .leftBrace, num 0, pt .rightBrace, rp] =
      .ok (.compound (false, 1) (.initList [([], .const .integer 0)])) [rp] := by
  have hb : Der .c17 demoEnv.isTypedef demoType .expr
      [lp, .kw .kInt, pt .star, rp, pt .leftBrace, num 0, pt .rightBrace]
      (.compound (false, 1) (.initList [([], .const .integer 0)])) := by
    have h0 : Der .c17 demoEnv.isTypedef demoType .init [num 0] (.const .integer 0) :=
      .initExpr (.assignCond (.condBin (.binOperand (.binOperand (.binOperand (.binOperand (.binOperand (.binOperand
        (.binOperand (.binOperand (.binOperand (.binOperand (.castUnary (.unaryPostfix (.postfixPrimary
          .const)))))))))))))))
    have h1 := Der.braces (d := .c17) (isTypedef := demoEnv.isTypedef) (IsType := demoType) (l := pt .leftBrace)
      (r := pt .rightBrace) (items := [⟨[], [num 0], .const .integer 0⟩]) (tc := []) rfl rfl (by simp)
      (by simpa using h0) (by simp) (by simp) trivial
    have h2 := Der.literal (d := .c17) (isTypedef := demoEnv.isTypedef) (IsType := demoType)
      (tt := [.kw .kInt, pt .star]) (t := (false, 1)) rfl h1
    exact .exprAssign (.assignCond (.condBin (.binOperand (.binOperand (.binOperand (.binOperand (.binOperand
      (.binOperand (.binOperand (.binOperand (.binOperand (.binOperand (.castUnary (.unaryLiteral h2))))))))))))))
  exact ⟨hb, by rfl⟩

/-- `(T){0}.m` -/
def literalMember : List Tok :=
  [lp, id' "T", rp, pt .leftBrace, num 0, pt .rightBrace, pt .dot, id' "m"]

/-- C34 fails: a C17 expression that applies a postfix operator to a compound literal is not accepted. -/
theorem C34_literal_postfix_false :
    (∃ e, Der .c17 demoEnv.isTypedef demoType .expr literalMember e) ∧
    ∀ n e rest, afterExpr rest = true → parse false demoEnv n .expr (literalMember ++ rest) ≠ .ok e rest := by
  constructor
  · have h0 : Der .c17 demoEnv.isTypedef demoType .init [num 0] (.const .integer 0) :=
      .initExpr (.assignCond (.condBin (.binOperand (.binOperand (.binOperand (.binOperand (.binOperand (.binOperand
        (.binOperand (.binOperand (.binOperand (.binOperand (.castUnary (.unaryPostfix (.postfixPrimary
          .const)))))))))))))))
    have h1 := Der.braces (d := .c17) (isTypedef := demoEnv.isTypedef) (IsType := demoType) (l := pt .leftBrace)
      (r := pt .rightBrace) (items := [⟨[], [num 0], .const .integer 0⟩]) (tc := []) rfl rfl (by simp)
      (by simpa using h0) (by simp) (by simp) trivial
    have h2 := Der.literal (d := .c17) (isTypedef := demoEnv.isTypedef) (IsType := demoType)
      (tt := [id' "T"]) (t := (true, 0)) rfl h1
    exact ⟨_, .exprAssign (.assignCond (.condBin (.binOperand (.binOperand (.binOperand (.binOperand (.binOperand
      (.binOperand (.binOperand (.binOperand (.binOperand (.binOperand (.castUnary (.unaryPostfix
        (.member (s := "m") (.postfixLiteral rfl h2))))))))))))))))⟩
  · intro n e rest hr h
    obtain ⟨pre, hp, hd⟩ := parse_sound (lit := false) demo_lawful.toSound n .expr _ _ _ h
    cases List.append_cancel_right hp
    have := (C34_expression_exact (rest := []) (n := 300) demo_lawful rfl (by simp [literalMember])).2 hd
    have h' : parse false demoEnv 300 .expr (literalMember ++ []) =
      .ok (.compound (true, 0) (.initList [([], .const .integer 0)])) [pt .dot, id' "m"] := by rfl
    rw [h'] at this
    cases this

end Kefir.Parser
