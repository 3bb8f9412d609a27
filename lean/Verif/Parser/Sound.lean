import Verif.Parser.Fuel

/-! What the rules accept is derived by the grammar, with the tree they build. -/
namespace Kefir.Parser
open Kefir.Lexer (Punct Keyword)
variable {τ α β : Type}

theorem Res.andThen_ok {x : Res α} {k : α → List Tok → Res β} {b : β} {r : List Tok} :
    x.andThen k = .ok b r ↔ ∃ a r1, x = .ok a r1 ∧ k a r1 = .ok b r := by
  cases x <;> simp [Res.andThen, and_assoc]

theorem Res.must_ok {x : Res α} {k : α → List Tok → Res β} {b : β} {r : List Tok} :
    x.must k = .ok b r ↔ ∃ a r1, x = .ok a r1 ∧ k a r1 = .ok b r := by
  cases x <;> simp [Res.must, and_assoc]

theorem Res.orElse_ok {x y : Res α} {b : α} {r : List Tok} :
    x.orElse y = .ok b r ↔ x = .ok b r ∨ x = .noMatch ∧ y = .ok b r := by
  cases x <;> simp [Res.orElse]

theorem expect_ok {f : Tok → Bool} {ts : List Tok} {x : Res α} {k : List Tok → Res α} {b : α} {r : List Tok} :
    expect f ts x k = .ok b r ↔
      (∃ t r1, ts = t :: r1 ∧ f t = true ∧ k r1 = .ok b r) ∨ headIs f ts = false ∧ x = .ok b r := by
  cases ts with
  | nil => simp [expect, headIs]
  | cons t r1 =>
    simp only [expect, headIs]
    cases h : f t <;> simp [h, and_assoc]

theorem scanMember_ok {ts : List Tok} {k : String → List Tok → Res α} {b : α} {r : List Tok} :
    scanMember ts k = .ok b r ↔ ∃ s r1, ts = .ident s :: r1 ∧ k s r1 = .ok b r := by
  unfold scanMember
  split
  · simp [and_assoc]
  · simp only [reduceCtorEq, false_iff, not_exists, not_and]
    intro s r1 h
    exact absurd h (by rename_i hn; exact hn s r1)

theorem tokIs_eq {p : Punct} {t : Tok} (h : tokIs p t = true) : t = .punct p := by
  cases t <;> simp_all [tokIs]

theorem tokLBracket_eq (t : Tok) : tokLBracket t = t.isLBracket := by
  cases t with
  | punct p => cases p <;> rfl
  | _ => rfl

theorem tokRBracket_eq (t : Tok) : tokRBracket t = t.isRBracket := by
  cases t with
  | punct p => cases p <;> rfl
  | _ => rfl

theorem tokLBrace_eq (t : Tok) : tokLBrace t = t.isLBrace := by
  cases t with
  | punct p => cases p <;> rfl
  | _ => rfl

theorem tokRBrace_eq (t : Tok) : tokRBrace t = t.isRBrace := by
  cases t with
  | punct p => cases p <;> rfl
  | _ => rfl

theorem builtinOp_eq (s : String) : builtinOp s = builtinNames.lookup s := by
  unfold builtinOp builtinNames
  simp only [List.lookup]
  repeat' split
  all_goals simp_all

theorem strNode_eq (k : StrKind) : strNode k = k.elements := by cases k <;> rfl

theorem binTable_iff {l : Level} {p : Punct} {op : BinOp} : binTable l p = some op ↔ (p, op) ∈ l.ops := by
  cases l <;> cases p <;> simp [binTable, Level.ops, eq_comm]

theorem assignTable_iff {p : Punct} {op : AssignOp} : assignTable p = some op ↔ (p, op) ∈ assignOps := by
  cases p <;> cases op <;> decide

theorem unaryTable_iff {p : Punct} {op : UnOp} :
    unaryTable p = some op ↔ (p, op) ∈ prefixOps ∨ (p, op) ∈ unaryOps := by
  cases p <;> cases op <;> decide

/-- The dialect that the model with `lit` parses. -/
def Dialect.ofLit (lit : Bool) : Dialect := ⟨lit, true, true, true, true⟩

section
variable (lit : Bool) (isTypedef : String → Bool) (IsType : List Tok → τ → Prop)

/-- What the result `v` of a rule that consumed `pre` says. -/
def Claim (nt : NT τ) (pre : List Tok) (v : nt.Val) : Prop :=
  let D := Der (.ofLit lit) isTypedef IsType
  match nt, v with
  | .primary, v => (∀ s, pre = [.ident s] → builtinNames.lookup s = none) → D .primary pre v
  | .genericTail c as d, v => ∃ As : List (Assoc τ),
      pre = As.flatMap Assoc.all ++ [rp] ∧ (∀ a ∈ As, D .assign a.toks a.expr) ∧
      (∀ a ∈ As, match a.head with
        | some t => IsType a.headToks t
        | none => a.headToks = [.kw .kDefault]) ∧
      (defaultAssocs As).length + d.toList.length ≤ 1 ∧
      v = .generic c (as ++ typedAssocs As) (d.toList ++ defaultAssocs As).head?
  | .post, v => D .postfix pre v ∨ D .literal pre v
  | .postTail e, v => ∀ pre0, D .postfix pre0 e → D .postfix (pre0 ++ pre) v
  | .argTail f args, v => ∃ (W : List (List Tok × Expr τ)) (tc : List Tok),
      pre = sepComma (W.map (·.1)) ++ tc ++ [rp] ∧ optComma true W.isEmpty tc ∧ (∀ a ∈ W, D .assign a.1 a.2) ∧
      v = .call f (args ++ W.map (·.2))
  | .builtinTail op args, v => ∃ (W : List (BArg τ)) (tc : List Tok),
      pre = sepComma (W.map BArg.toks) ++ tc ++ [rp] ∧ optComma true W.isEmpty tc ∧
      (∀ ts t, BArg.type ts t ∈ W → IsType ts t) ∧ (∀ ts e, BArg.expr ts e ∈ W → D .assign ts e) ∧
      v = .builtin op (args ++ W.map BArg.node)
  | .unary, v => D .unary pre v
  | .cast, v => D .cast pre v
  | .bin l, v => D (.bin l) pre v
  | .binTail l e, v => ∀ pre0, D (.bin l) pre0 e → D (.bin l) (pre0 ++ pre) v
  | .cond, v => D .cond pre v
  | .reduceAssign, v => D .assign pre v
  | .assign, v => D .assign pre v
  | .expr, v => D .expr pre v
  | .exprTail e, v => ∀ pre0, D .expr pre0 e → D .expr (pre0 ++ pre) v
  | .init, v => D .init pre v
  | .initList, v => D .braces pre v
  | .initTail items, v => ∃ (W : List (WItem τ)) (tc : List Tok) (r : Tok),
      pre = sepComma (W.map WItem.all) ++ tc ++ [r] ∧ r.isRBrace = true ∧ W ≠ [] ∧ optComma true W.isEmpty tc ∧
      (∀ it ∈ W, D .init it.toks it.init) ∧
      (∀ it ∈ W, ∀ l ts e r, WDesig.index l ts e r ∈ it.desigs → l.isLBracket = true ∧ r.isRBracket = true) ∧
      (∀ it ∈ W, ∀ l ts e r, WDesig.index l ts e r ∈ it.desigs → D .cond ts e) ∧
      v = .initList (items ++ W.map WItem.node)
  | .desigTail ds, v => ∃ W : List (WDesig τ),
      pre = W.flatMap WDesig.toks ∧ v = (W.map WDesig.node).reverse ++ ds ∧
      (∀ l ts e r, WDesig.index l ts e r ∈ W → l.isLBracket = true ∧ r.isRBracket = true) ∧
      (∀ l ts e r, WDesig.index l ts e r ∈ W → D .cond ts e)

/-- All results are as claimed. -/
def Rec.sound (f : Rec τ) : Prop :=
  ∀ nt ts v r, f nt ts = .ok v r → ∃ pre, ts = pre ++ r ∧ Claim lit isTypedef IsType nt pre v

end

section
variable {lit : Bool} {E : Env τ} {IsType : List Tok → τ → Prop} {f : Rec τ}

local notation "S" => Rec.sound lit E.isTypedef IsType
local notation "D" => Der (Dialect.ofLit lit) E.isTypedef IsType
local notation "C" => Claim lit E.isTypedef IsType

theorem Rec.sound.assign (h : S f) {ts v r} (he : f .assign ts = .ok v r) : ∃ pre, ts = pre ++ r ∧ D .assign pre v :=
  h .assign ts v r he
theorem Rec.sound.cast (h : S f) {ts v r} (he : f .cast ts = .ok v r) : ∃ pre, ts = pre ++ r ∧ D .cast pre v :=
  h .cast ts v r he
theorem Rec.sound.unary (h : S f) {ts v r} (he : f .unary ts = .ok v r) : ∃ pre, ts = pre ++ r ∧ D .unary pre v :=
  h .unary ts v r he
theorem Rec.sound.cond (h : S f) {ts v r} (he : f .cond ts = .ok v r) : ∃ pre, ts = pre ++ r ∧ D .cond pre v :=
  h .cond ts v r he
theorem Rec.sound.expr (h : S f) {ts v r} (he : f .expr ts = .ok v r) : ∃ pre, ts = pre ++ r ∧ D .expr pre v :=
  h .expr ts v r he
theorem Rec.sound.init (h : S f) {ts v r} (he : f .init ts = .ok v r) : ∃ pre, ts = pre ++ r ∧ D .init pre v :=
  h .init ts v r he
theorem Rec.sound.initList (h : S f) {ts v r} (he : f .initList ts = .ok v r) :
    ∃ pre, ts = pre ++ r ∧ D .braces pre v :=
  h .initList ts v r he
theorem Rec.sound.bin (h : S f) {l ts v r} (he : f (.bin l) ts = .ok v r) : ∃ pre, ts = pre ++ r ∧ D (.bin l) pre v :=
  h (.bin l) ts v r he

theorem Rec.sound.operand (h : S f) {l ts v r} (he : operandRule f l ts = .ok v r) :
    ∃ pre, ts = pre ++ r ∧ D l.operand pre v := by
  cases l <;> first | exact h.cast he | exact h.bin he

theorem primary_sound (h : S f) {ts v r} (he : primary E f ts = .ok v r) :
    ∃ pre, ts = pre ++ r ∧ C .primary pre v := by
  unfold primary at he
  split at he
  · split at he
    · cases he
    · rename_i s r' hs
      cases he
      exact ⟨[.ident s], rfl, fun hb => .ident (by simpa using hs) (hb s rfl)⟩
  · cases he; exact ⟨[_], rfl, fun _ => .const⟩
  · cases he
    rw [strNode_eq]
    exact ⟨[_], rfl, fun _ => .str⟩
  · unfold scanGeneric at he
    simp only [expect_ok, Res.must_ok] at he
    obtain ⟨t, r1, rfl, ht, c, r2, hc, he⟩ | ⟨-, he⟩ := he
    · cases tokIs_eq ht
      obtain ⟨tc, rfl, dc⟩ := h.assign hc
      split at he
      · rename_i hcomma
        obtain ⟨pre, rfl, As, rfl, h1, h2, h3, rfl⟩ := h (.genericTail c [] none) _ _ _ he
        refine ⟨.kw .kGeneric :: lp :: tc ++ As.flatMap Assoc.all ++ [rp], by simp, fun _ => ?_⟩
        have := @Der.generic τ (.ofLit lit) E.isTypedef IsType tc c As dc (by
          rintro rfl; simp [headIs, tokIs] at hcomma) h1 h2 (by simpa using h3)
        simpa using this
      · cases he
    · cases he
  · simp only [expect_ok, Res.andThen_ok] at he
    obtain ⟨e, r1, h1, ⟨t, r2, rfl, ht, he⟩ | ⟨-, he⟩⟩ := he
    · cases he
      cases tokIs_eq ht
      obtain ⟨pre, rfl, d⟩ := h.expr h1
      exact ⟨lp :: pre ++ [rp], by simp, fun _ => .paren d⟩
    · cases he
  · cases he

theorem scanAssoc_sound (h : S f) {c as d o ts v r} (he : scanAssoc f c as d o ts = .ok v r) :
    ∃ te e pre, ts = colon :: te ++ pre ++ r ∧ D .assign te e ∧
      match (generalizing := false) o, d with
      | some t, d => C (.genericTail c (as ++ [(t, e)]) d) pre v
      | none, none => C (.genericTail c as (some e)) pre v
      | none, some _ => False := by
  unfold scanAssoc at he
  simp only [expect_ok, Res.must_ok] at he
  obtain ⟨t, r1, rfl, ht, e, r2, h1, he⟩ | ⟨-, he⟩ := he
  · cases tokIs_eq ht
    obtain ⟨te, rfl, de⟩ := h.assign h1
    cases o with
    | some t =>
      obtain ⟨pre, rfl, hp⟩ := h (.genericTail ..) _ _ _ he
      exact ⟨te, e, pre, by simp, de, hp⟩
    | none =>
      cases d with
      | none =>
        obtain ⟨pre, rfl, hp⟩ := h (.genericTail ..) _ _ _ he
        exact ⟨te, e, pre, by simp, de, hp⟩
      | some _ => cases he
  · cases he

theorem genericTail_sound (hE : E.Sound IsType) (h : S f) {c as d ts v r}
    (he : genericTail E f c as d ts = .ok v r) : ∃ pre, ts = pre ++ r ∧ C (.genericTail c as d) pre v := by
  unfold genericTail at he
  rw [expect_ok] at he
  obtain ⟨t, r1, rfl, ht, he⟩ | ⟨-, he⟩ := he
  · cases tokIs_eq ht
    split at he
    · rename_i t r2 ht
      obtain ⟨tt, rfl, dt⟩ := hE.sound _ _ _ ht
      obtain ⟨te, e, pre, rfl, de, As, rfl, h1, h2, h3, rfl⟩ := scanAssoc_sound h he
      refine ⟨comma :: tt ++ colon :: te ++ As.flatMap Assoc.all ++ [rp], by simp,
        ⟨tt, some t, te, e⟩ :: As, by simp [Assoc.all], ?_, ?_, ?_, ?_⟩
      · rintro a (_ | ⟨_, ha⟩)
        · exact de
        · exact h1 a ha
      · rintro a (_ | ⟨_, ha⟩)
        · exact dt
        · exact h2 a ha
      · simpa [defaultAssocs] using h3
      · simp [typedAssocs, defaultAssocs]
    · rw [expect_ok] at he
      obtain ⟨t, r2, rfl, ht, he⟩ | ⟨-, he⟩ := he
      · cases of_decide_eq_true ht
        obtain ⟨te, e, pre, rfl, de, hp⟩ := scanAssoc_sound h he
        cases d with
        | some _ => exact hp.elim
        | none =>
          obtain ⟨As, rfl, h1, h2, h3, rfl⟩ := hp
          refine ⟨comma :: .kw .kDefault :: colon :: te ++ As.flatMap Assoc.all ++ [rp], by simp,
            ⟨[.kw .kDefault], none, te, e⟩ :: As, by simp [Assoc.all], ?_, ?_, ?_, ?_⟩
          · rintro a (_ | ⟨_, ha⟩)
            · exact de
            · exact h1 a ha
          · rintro a (_ | ⟨_, ha⟩)
            · rfl
            · exact h2 a ha
          · simpa [defaultAssocs] using h3
          · simp [typedAssocs, defaultAssocs]
      · cases he
    · cases he
    · cases he
  · rw [expect_ok] at he
    obtain ⟨t, r1, rfl, ht, he⟩ | ⟨-, he⟩ := he
    · cases tokIs_eq ht
      cases he
      refine ⟨[rp], rfl, [], rfl, by simp, by simp, ?_, ?_⟩
      · cases d <;> simp [defaultAssocs]
      · cases d <;> simp [typedAssocs, defaultAssocs]
    · cases he

theorem postTail_sound (h : S f) {e ts v r} (he : postTail f e ts = .ok v r) :
    ∃ pre, ts = pre ++ r ∧ C (.postTail e) pre v := by
  unfold postTail at he
  split at he
  · rename_i t r1
    split at he
    · rename_i hb
      simp only [Res.must_ok, expect_ok] at he
      obtain ⟨i, r2, hi, ⟨t', r3, rfl, ht', he⟩ | ⟨-, he⟩⟩ := he
      · obtain ⟨ti, rfl, di⟩ := h.expr hi
        obtain ⟨pre, rfl, hp⟩ := h (.postTail _) _ _ _ he
        refine ⟨t :: ti ++ t' :: pre, by simp, fun pre0 d0 => ?_⟩
        rw [tokLBracket_eq] at hb
        rw [tokRBracket_eq] at ht'
        have := hp _ (.subscript d0 hb di ht')
        simpa using this
      · cases he
    · split at he
      · rename_i hb
        cases tokIs_eq hb
        simp only [Res.andThen_ok] at he
        obtain ⟨e1, r2, h1, he⟩ := he
        obtain ⟨pre1, rfl, W, tc, rfl, h2, h3, rfl⟩ := h (.argTail e []) _ _ _ h1
        obtain ⟨pre, rfl, hp⟩ := h (.postTail _) _ _ _ he
        refine ⟨lp :: sepComma (W.map (·.1)) ++ tc ++ [rp] ++ pre, by simp, fun pre0 d0 => ?_⟩
        have := hp _ (.call d0 h3 h2)
        simpa using this
      · split at he
        · rename_i hb
          cases tokIs_eq hb
          rw [scanMember_ok] at he
          obtain ⟨s, r2, rfl, he⟩ := he
          obtain ⟨pre, rfl, hp⟩ := h (.postTail _) _ _ _ he
          refine ⟨.punct .dot :: .ident s :: pre, by simp, fun pre0 d0 => ?_⟩
          have := hp _ (.member d0)
          simpa using this
        · split at he
          · rename_i hb
            cases tokIs_eq hb
            rw [scanMember_ok] at he
            obtain ⟨s, r2, rfl, he⟩ := he
            obtain ⟨pre, rfl, hp⟩ := h (.postTail _) _ _ _ he
            refine ⟨.punct .rightArrow :: .ident s :: pre, by simp, fun pre0 d0 => ?_⟩
            have := hp _ (.arrow d0)
            simpa using this
          · split at he
            · rename_i hb
              cases tokIs_eq hb
              obtain ⟨pre, rfl, hp⟩ := h (.postTail _) _ _ _ he
              refine ⟨.punct .doublePlus :: pre, by simp, fun pre0 d0 => ?_⟩
              have := hp _ (.postfixOp (p := .doublePlus) d0 (by simp [postfixOps]))
              simpa using this
            · split at he
              · rename_i hb
                cases tokIs_eq hb
                obtain ⟨pre, rfl, hp⟩ := h (.postTail _) _ _ _ he
                refine ⟨.punct .doubleMinus :: pre, by simp, fun pre0 d0 => ?_⟩
                have := hp _ (.postfixOp (p := .doubleMinus) d0 (by simp [postfixOps]))
                simpa using this
              · cases he
                exact ⟨[], rfl, fun pre0 d0 => by simpa using d0⟩
  · cases he
    exact ⟨[], rfl, fun pre0 d0 => by simpa using d0⟩

theorem sepComma_cons (x : List Tok) {xs : List (List Tok)} (h : xs ≠ []) :
    sepComma (x :: xs) = x ++ comma :: sepComma xs := by
  cases xs with
  | nil => exact absurd rfl h
  | cons y ys => rfl

theorem argTail_sound (h : S f) {fn args ts v r} (he : argTail f fn args ts = .ok v r) :
    ∃ pre, ts = pre ++ r ∧ C (.argTail fn args) pre v := by
  unfold argTail at he
  rw [expect_ok] at he
  obtain ⟨t, r1, rfl, ht, he⟩ | ⟨-, he⟩ := he
  · cases tokIs_eq ht
    cases he
    exact ⟨[rp], rfl, [], [], rfl, trivial, by simp, by simp⟩
  · simp only [Res.must_ok, expect_ok] at he
    obtain ⟨a, r1, ha, ⟨t, r2, rfl, ht, he⟩ | ⟨-, ⟨t, r2, rfl, ht, he⟩ | ⟨-, he⟩⟩⟩ := he
    · cases tokIs_eq ht
      obtain ⟨ta, rfl, da⟩ := h.assign ha
      obtain ⟨pre, rfl, W, tc, rfl, h2, h3, rfl⟩ := h (.argTail ..) _ _ _ he
      refine ⟨ta ++ comma :: (sepComma (W.map (·.1)) ++ tc ++ [rp]), by simp, ?_⟩
      cases W with
      | nil =>
        cases tc with
        | cons t tc => simp [optComma] at h2
        | nil => exact ⟨[(ta, a)], [comma], by simp [sepComma], by simp [optComma], by simpa using da, by simp⟩
      | cons w W =>
        refine ⟨(ta, a) :: w :: W, tc, by simp [sepComma], by simpa using h2, ?_, by simp⟩
        rintro x (_ | ⟨_, hx⟩)
        · exact da
        · exact h3 x hx
    · cases tokIs_eq ht
      cases he
      obtain ⟨ta, rfl, da⟩ := h.assign ha
      exact ⟨ta ++ [rp], by simp, [(ta, a)], [], by simp [sepComma], trivial, by simpa using da, by simp⟩
    · cases he

theorem builtinNext_sound (h : S f) {op args ts v r} (he : builtinNext f op args ts = .ok v r) (ta : List Tok) :
    ∃ pre, ts = pre ++ r ∧ ∃ (W : List (BArg τ)) (tc : List Tok),
      ta ++ pre = sepComma (ta :: W.map BArg.toks) ++ tc ++ [rp] ∧ optComma true false tc ∧
      (∀ ts t, BArg.type ts t ∈ W → IsType ts t) ∧ (∀ ts e, BArg.expr ts e ∈ W → D .assign ts e) ∧
      v = .builtin op (args ++ W.map BArg.node) := by
  unfold builtinNext at he
  simp only [expect_ok] at he
  obtain ⟨t, r2, rfl, ht, he⟩ | ⟨-, ⟨t, r2, rfl, ht, he⟩ | ⟨-, he⟩⟩ := he
  · cases tokIs_eq ht
    obtain ⟨pre, rfl, W, tc, rfl, h2, h3, h4, rfl⟩ := h (.builtinTail ..) _ _ _ he
    refine ⟨comma :: (sepComma (W.map BArg.toks) ++ tc ++ [rp]), by simp, ?_⟩
    cases W with
    | nil =>
      cases tc with
      | cons t tc => simp [optComma] at h2
      | nil => exact ⟨[], [comma], by simp [sepComma], by simp [optComma], by simp, by simp, by simp⟩
    | cons w W => exact ⟨w :: W, tc, by simp [sepComma], by simpa using h2, h3, h4, rfl⟩
  · cases tokIs_eq ht
    cases he
    exact ⟨[rp], by simp, [], [], by simp [sepComma], trivial, by simp, by simp, by simp⟩
  · cases he

theorem builtinTail_sound (hE : E.Sound IsType) (h : S f) {op args ts v r}
    (he : builtinTail E f op args ts = .ok v r) : ∃ pre, ts = pre ++ r ∧ C (.builtinTail op args) pre v := by
  unfold builtinTail at he
  rw [expect_ok] at he
  obtain ⟨t, r1, rfl, ht, he⟩ | ⟨-, he⟩ := he
  · cases tokIs_eq ht
    cases he
    exact ⟨[rp], rfl, [], [], rfl, trivial, by simp, by simp, by simp⟩
  · split at he
    · rename_i t r1 ht
      obtain ⟨ta, rfl, dt⟩ := hE.sound _ _ _ ht
      obtain ⟨pre, rfl, W, tc, h1, h2, h3, h4, rfl⟩ := builtinNext_sound h he ta
      refine ⟨ta ++ pre, by simp, .type ta t :: W, tc, by simpa [BArg.toks] using h1, by simpa using h2, ?_, ?_,
        by simp [BArg.node]⟩
      · rintro x t (_ | ⟨_, hx⟩)
        · exact dt
        · exact h3 _ _ hx
      · rintro x t (_ | ⟨_, hx⟩)
        exact h4 _ _ hx
    · rw [Res.must_ok] at he
      obtain ⟨a, r1, ha, he⟩ := he
      obtain ⟨ta, rfl, da⟩ := h.assign ha
      obtain ⟨pre, rfl, W, tc, h1, h2, h3, h4, rfl⟩ := builtinNext_sound h he ta
      refine ⟨ta ++ pre, by simp, .expr ta a :: W, tc, by simpa [BArg.toks] using h1, by simpa using h2, ?_, ?_,
        by simp [BArg.node]⟩
      · rintro x t (_ | ⟨_, hx⟩)
        exact h3 _ _ hx
      · rintro x t (_ | ⟨_, hx⟩)
        · exact da
        · exact h4 _ _ hx
    · cases he
    · cases he

theorem compoundLiteral_sound (hE : E.Sound IsType) (h : S f) {ts v r}
    (he : compoundLiteral E f ts = .ok v r) : ∃ pre, ts = pre ++ r ∧ D .literal pre v := by
  unfold compoundLiteral at he
  simp only [Res.andThen_ok, expect_ok] at he
  obtain ⟨t, r1, rfl, ht, ty, r2, hty, ⟨t2, r3, rfl, ht2, i, r4, hi, he⟩ | ⟨-, he⟩⟩ | ⟨-, he⟩ := he
  · cases tokIs_eq ht
    cases tokIs_eq ht2
    cases he
    obtain ⟨tt, rfl, dt⟩ := hE.sound _ _ _ hty
    obtain ⟨ti, rfl, di⟩ := h.initList hi
    exact ⟨lp :: tt ++ rp :: ti, by simp, .literal dt di⟩
  · cases he
  · cases he

theorem postfixRest_sound (hE : E.Sound IsType) (h : S f) {ts v r}
    (hs : ∀ s r, ts = .ident s :: r → builtinNames.lookup s = none)
    (he : postfixRest lit E f ts = .ok v r) : ∃ pre, ts = pre ++ r ∧ C .post pre v := by
  unfold postfixRest at he
  split at he
  · rw [Res.andThen_ok] at he
    obtain ⟨e, r1, h1, he⟩ := he
    obtain ⟨pre, rfl, hp⟩ := h .primary _ _ _ h1
    obtain ⟨pre', rfl, hp'⟩ := h (.postTail _) _ _ _ he
    refine ⟨pre ++ pre', by simp, .inl (hp' _ (.postfixPrimary (hp ?_)))⟩
    rintro s rfl
    exact hs s _ rfl
  · rename_i hc
    obtain ⟨pre, rfl, d⟩ := compoundLiteral_sound hE h hc
    split at he
    · rename_i hl
      obtain ⟨pre', rfl, hp'⟩ := h (.postTail _) _ _ _ he
      exact ⟨pre ++ pre', by simp, .inl (hp' _ (.postfixLiteral hl d))⟩
    · cases he
      exact ⟨pre, rfl, .inr d⟩
  · cases he
  · cases he

theorem postfix_sound (hE : E.Sound IsType) (h : S f) {ts v r}
    (he : postfixExpr lit E f ts = .ok v r) : ∃ pre, ts = pre ++ r ∧ C .post pre v := by
  unfold postfixExpr at he
  split at he
  · rename_i s r1
    split at he
    · rename_i op hop
      rw [builtinOp_eq] at hop
      unfold scanBuiltin at he
      simp only [Res.andThen_ok, expect_ok] at he
      obtain ⟨t, r2, rfl, ht, e, r3, h1, he⟩ | ⟨-, he⟩ := he
      · cases tokIs_eq ht
        obtain ⟨pre, rfl, W, tc, rfl, h2, h3, h4, rfl⟩ := h (.builtinTail op []) _ _ _ h1
        obtain ⟨pre', rfl, hp'⟩ := h (.postTail _) _ _ _ he
        refine ⟨.ident s :: lp :: sepComma (W.map BArg.toks) ++ tc ++ [rp] ++ pre', by simp, .inl (hp' _ ?_)⟩
        simpa using Der.builtin (d := .ofLit lit) hop h3 h4 h2
      · cases he
    · rename_i hop
      rw [builtinOp_eq] at hop
      refine postfixRest_sound hE h ?_ he
      intro s' r' hs
      cases hs
      exact hop
  · rename_i hn
    refine postfixRest_sound hE h ?_ he
    intro s' r' hs
    exact absurd hs (hn s' r')

theorem Rec.sound.post (h : S f) {ts v r} (he : f .post ts = .ok v r) : ∃ pre, ts = pre ++ r ∧ D .unary pre v := by
  obtain ⟨pre, rfl, d | d⟩ := h .post _ _ _ he
  · exact ⟨pre, rfl, .unaryPostfix d⟩
  · exact ⟨pre, rfl, .unaryLiteral d⟩

theorem unary_sound (hE : E.Sound IsType) (h : S f) {ts v r}
    (he : unary E f ts = .ok v r) : ∃ pre, ts = pre ++ r ∧ D .unary pre v := by
  unfold unary at he
  split at he
  · rename_i p r1
    split at he
    · rename_i op hop
      rw [Res.must_ok] at he
      obtain ⟨e, r2, h1, he⟩ := he
      cases he
      obtain ⟨pre, rfl, d⟩ := h.cast h1
      rcases unaryTable_iff.1 hop with hop | hop
      · exact ⟨.punct p :: pre, rfl, .prefixOp hop d⟩
      · exact ⟨.punct p :: pre, rfl, .unaryOp hop d⟩
    · exact h.post he
  · rw [Res.andThen_ok] at he
    obtain ⟨e, r2, h1, he⟩ := he
    cases he
    rw [Res.orElse_ok] at h1
    rcases h1 with h1 | ⟨-, h1⟩
    · obtain ⟨pre, rfl, d⟩ := h.unary h1
      exact ⟨.kw .kSizeof :: pre, rfl, .sizeofExpr d⟩
    · unfold sizeofType at h1
      simp only [Res.must_ok, expect_ok] at h1
      obtain ⟨t, r1, rfl, ht, ty, r2, hty, ⟨t2, r3, rfl, ht2, he⟩ | ⟨-, he⟩⟩ | ⟨-, he⟩ := h1
      · cases tokIs_eq ht
        cases tokIs_eq ht2
        cases he
        obtain ⟨tt, rfl, dt⟩ := hE.sound _ _ _ hty
        exact ⟨.kw .kSizeof :: lp :: tt ++ [rp], by simp, .sizeofType dt⟩
      · cases he
      · cases he
  · rw [Res.andThen_ok] at he
    obtain ⟨e, r2, h1, he⟩ := he
    cases he
    unfold alignofOperand at h1
    rw [expect_ok] at h1
    obtain ⟨t, r1, rfl, ht, h1⟩ | ⟨-, he⟩ := h1
    · cases tokIs_eq ht
      rw [Res.andThen_ok] at h1
      obtain ⟨e1, r2, h1, h2⟩ := h1
      rw [expect_ok] at h2
      obtain ⟨t2, r3, rfl, ht2, he⟩ | ⟨-, he⟩ := h2
      · cases tokIs_eq ht2
        cases he
        split at h1
        · rename_i hty
          cases h1
          obtain ⟨tt, rfl, dt⟩ := hE.sound _ _ _ hty
          exact ⟨.kw .kAlignof :: lp :: tt ++ [rp], by simp, .alignofType dt⟩
        · rw [Res.must_ok] at h1
          obtain ⟨a, r4, ha, he⟩ := h1
          cases he
          obtain ⟨ta, rfl, da⟩ := h.assign ha
          exact ⟨.kw .kAlignof :: lp :: ta ++ [rp], by simp, .alignofExpr rfl da⟩
        · cases h1
        · cases h1
      · cases he
    · cases he
  · exact h.post he

theorem cast_sound (hE : E.Sound IsType) (h : S f) {ts v r}
    (he : castExpr E f ts = .ok v r) : ∃ pre, ts = pre ++ r ∧ D .cast pre v := by
  unfold castExpr at he
  rw [Res.orElse_ok] at he
  rcases he with he | ⟨-, he⟩
  · unfold scanCast at he
    simp only [Res.andThen_ok, expect_ok] at he
    obtain ⟨t, r1, rfl, ht, ty, r2, hty, ⟨t2, r3, rfl, ht2, i, r4, hi, he⟩ | ⟨-, he⟩⟩ | ⟨-, he⟩ := he
    · cases tokIs_eq ht
      cases tokIs_eq ht2
      cases he
      obtain ⟨tt, rfl, dt⟩ := hE.sound _ _ _ hty
      rw [Res.orElse_ok] at hi
      rcases hi with hi | ⟨-, hi⟩
      · obtain ⟨ti, rfl, di⟩ := h.cast hi
        exact ⟨lp :: tt ++ rp :: ti, by simp, .cast dt di⟩
      · split at hi <;> cases hi
    · cases he
    · cases he
  · obtain ⟨pre, rfl, d⟩ := h.unary he
    exact ⟨pre, rfl, .castUnary d⟩

theorem binTail_sound (h : S f) {l e ts v r} (he : binTail f l e ts = .ok v r) :
    ∃ pre, ts = pre ++ r ∧ C (.binTail l e) pre v := by
  unfold binTail at he
  split at he
  · rename_i p r1
    split at he
    · rename_i op hop
      rw [Res.must_ok] at he
      obtain ⟨b, r2, h1, he⟩ := he
      obtain ⟨tb, rfl, db⟩ := h.operand h1
      obtain ⟨pre, rfl, hp⟩ := h (.binTail ..) _ _ _ he
      refine ⟨.punct p :: tb ++ pre, by simp, fun pre0 d0 => ?_⟩
      simpa using hp _ (.binOp d0 (binTable_iff.1 hop) db)
    · cases he
      exact ⟨[], rfl, fun pre0 d0 => by simpa using d0⟩
  · cases he
    exact ⟨[], rfl, fun pre0 d0 => by simpa using d0⟩

theorem cond_sound (h : S f) {ts v r} (he : condExpr f ts = .ok v r) :
    ∃ pre, ts = pre ++ r ∧ D .cond pre v := by
  unfold condExpr at he
  simp only [Res.andThen_ok, Res.must_ok, expect_ok] at he
  obtain ⟨c, r1, h1, ⟨t, r2, rfl, ht, a, r3, h2, ⟨t2, r4, rfl, ht2, b, r5, h3, he⟩ | ⟨-, he⟩⟩ | ⟨-, he⟩⟩ := he
  · cases tokIs_eq ht
    cases tokIs_eq ht2
    cases he
    obtain ⟨tc, rfl, dc⟩ := h.bin h1
    obtain ⟨ta, rfl, da⟩ := h.expr h2
    obtain ⟨tb, rfl, db⟩ := h.cond h3
    exact ⟨tc ++ .punct .questionMark :: ta ++ colon :: tb, by simp, .cond dc da db⟩
  · cases he
  · cases he
    obtain ⟨tc, rfl, dc⟩ := h.bin h1
    exact ⟨tc, rfl, .condBin dc⟩

theorem reduceAssign_sound (h : S f) {ts v r} (he : reduceAssign f ts = .ok v r) :
    ∃ pre, ts = pre ++ r ∧ D .assign pre v := by
  unfold reduceAssign at he
  rw [Res.andThen_ok] at he
  obtain ⟨a, r1, h1, he⟩ := he
  obtain ⟨ta, rfl, da⟩ := h.unary h1
  unfold assignRest at he
  split at he
  · rename_i p r2
    split at he
    · rename_i op hop
      rw [Res.must_ok] at he
      obtain ⟨b, r3, h2, he⟩ := he
      cases he
      obtain ⟨tb, rfl, db⟩ := h.assign h2
      exact ⟨ta ++ .punct p :: tb, by simp, .assign da (assignTable_iff.1 hop) db⟩
    · cases he
  · cases he

theorem exprTail_sound (h : S f) {e ts v r} (he : exprTail f e ts = .ok v r) :
    ∃ pre, ts = pre ++ r ∧ C (.exprTail e) pre v := by
  unfold exprTail at he
  simp only [Res.must_ok, expect_ok] at he
  obtain ⟨t, r1, rfl, ht, b, r2, h1, he⟩ | ⟨-, he⟩ := he
  · cases tokIs_eq ht
    obtain ⟨tb, rfl, db⟩ := h.assign h1
    obtain ⟨pre, rfl, hp⟩ := h (.exprTail ..) _ _ _ he
    refine ⟨comma :: tb ++ pre, by simp, fun pre0 d0 => ?_⟩
    simpa using hp _ (.comma d0 db)
  · cases he
    exact ⟨[], rfl, fun pre0 d0 => by simpa using d0⟩

theorem desigTail_sound (h : S f) {ds ts v r} (he : desigTail f ds ts = .ok v r) :
    ∃ pre, ts = pre ++ r ∧ C (.desigTail ds) pre v := by
  unfold desigTail at he
  split at he
  · rename_i t r1
    split at he
    · rename_i hb
      simp only [Res.must_ok, expect_ok] at he
      obtain ⟨i, r2, hi, ⟨t', r3, rfl, ht', he⟩ | ⟨-, he⟩⟩ := he
      · obtain ⟨ti, rfl, di⟩ := h.cond hi
        obtain ⟨pre, rfl, W, rfl, rfl, h1, h2⟩ := h (.desigTail _) _ _ _ he
        rw [tokLBracket_eq] at hb
        rw [tokRBracket_eq] at ht'
        refine ⟨t :: ti ++ t' :: W.flatMap WDesig.toks, by simp, .index t ti i t' :: W, by simp [WDesig.toks],
          by simp [WDesig.node], ?_, ?_⟩
        · rintro _ _ _ _ (_ | ⟨_, hx⟩)
          · exact ⟨hb, ht'⟩
          · exact h1 _ _ _ _ hx
        · rintro _ _ _ _ (_ | ⟨_, hx⟩)
          · exact di
          · exact h2 _ _ _ _ hx
      · cases he
    · split at he
      · rename_i hb
        cases tokIs_eq hb
        rw [scanMember_ok] at he
        obtain ⟨s, r2, rfl, he⟩ := he
        obtain ⟨pre, rfl, W, rfl, rfl, h1, h2⟩ := h (.desigTail _) _ _ _ he
        refine ⟨.punct .dot :: .ident s :: W.flatMap WDesig.toks, by simp, .member s :: W, by simp [WDesig.toks],
          by simp [WDesig.node], ?_, ?_⟩
        · rintro _ _ _ _ (_ | ⟨_, hx⟩)
          exact h1 _ _ _ _ hx
        · rintro _ _ _ _ (_ | ⟨_, hx⟩)
          exact h2 _ _ _ _ hx
      · cases he
        exact ⟨[], rfl, [], rfl, rfl, by simp, by simp⟩
  · cases he
    exact ⟨[], rfl, [], rfl, rfl, by simp, by simp⟩

theorem designation_sound (h : S f) {ts v r} (he : designation f ts = .ok v r) :
    ∃ W : List (WDesig τ), ts = W.flatMap WDesig.toks ++ .punct .assign :: r ∧ W ≠ [] ∧
      v = (W.map WDesig.node).reverse ∧
      (∀ l ts e r, WDesig.index l ts e r ∈ W → l.isLBracket = true ∧ r.isRBracket = true) ∧
      (∀ l ts e r, WDesig.index l ts e r ∈ W → D .cond ts e) := by
  unfold designation at he
  split at he
  · rename_i hd
    simp only [Res.andThen_ok, expect_ok] at he
    obtain ⟨ds, r1, h1, ⟨t, r2, rfl, ht, he⟩ | ⟨-, he⟩⟩ := he
    · cases tokIs_eq ht
      cases he
      obtain ⟨pre, rfl, W, rfl, rfl, h1, h2⟩ := h (.desigTail _) _ _ _ h1
      refine ⟨W, rfl, ?_, by simp, h1, h2⟩
      rintro rfl
      simp [headIs, tokLBracket, tokIs] at hd
    · cases he
  · cases he

theorem initItem_sound (h : S f) {items ds ts v r} (he : initItem f items ds ts = .ok v r) :
    ∃ ti i pre, ts = ti ++ pre ++ r ∧ D .init ti i ∧
      ((∃ tc b, pre = tc ++ [b] ∧ b.isRBrace = true ∧ optComma true false tc ∧ v = .initList (items ++ [(ds, i)])) ∨
        ∃ pre', pre = comma :: pre' ∧ C (.initTail (items ++ [(ds, i)])) pre' v) := by
  unfold initItem initEnd at he
  simp only [Res.andThen_ok, expect_ok] at he
  obtain ⟨i, r1, h1, ⟨t, r2, rfl, ht, he⟩ | ⟨-, ⟨t, r2, rfl, ht, he⟩ | ⟨-, he⟩⟩⟩ := he
  · cases tokIs_eq ht
    obtain ⟨ti, rfl, di⟩ := h.init h1
    split at he
    · rw [expect_ok] at he
      obtain ⟨t, r3, rfl, ht, he⟩ | ⟨-, he⟩ := he
      · cases he
        rw [tokRBrace_eq] at ht
        exact ⟨ti, i, [comma, t], by simp, di, .inl ⟨[comma], t, rfl, ht, by simp [optComma], rfl⟩⟩
      · cases he
    · obtain ⟨pre, rfl, hp⟩ := h (.initTail _) _ _ _ he
      exact ⟨ti, i, comma :: pre, by simp, di, .inr ⟨pre, rfl, hp⟩⟩
  · cases he
    obtain ⟨ti, rfl, di⟩ := h.init h1
    rw [tokRBrace_eq] at ht
    exact ⟨ti, i, [t], by simp, di, .inl ⟨[], t, rfl, ht, trivial, rfl⟩⟩
  · cases he

theorem initItem_claim (h : S f) {items ts v r} {W : List (WDesig τ)}
    (h1 : ∀ l ts e r, WDesig.index l ts e r ∈ W → l.isLBracket = true ∧ r.isRBracket = true)
    (h2 : ∀ l ts e r, WDesig.index l ts e r ∈ W → D .cond ts e)
    (he : initItem f items (W.map WDesig.node).reverse ts = .ok v r) :
    ∃ pre, (WItem.mk W [] v).all ++ ts = pre ++ r ∧ C (.initTail items) pre v := by
  obtain ⟨ti, i, pre, rfl, di, ⟨tc, b, rfl, hb, hc, rfl⟩ | ⟨pre', rfl, W', tc, b, rfl, hb, hw, hc, g1, g2, g3, rfl⟩⟩ :=
    initItem_sound h he
  · refine ⟨(WItem.mk W ti i).all ++ tc ++ [b], ?_, [⟨W, ti, i⟩], tc, b, by simp [sepComma], hb, by simp,
      by simpa using hc, by simpa using di, by simpa using h1, by simpa using h2, by simp [WItem.node]⟩
    cases W <;> simp [WItem.all]
  · refine ⟨(WItem.mk W ti i).all ++ comma :: (sepComma (W'.map WItem.all) ++ tc ++ [b]), ?_, ⟨W, ti, i⟩ :: W', tc, b, ?_,
      hb, by simp, ?_, ?_, ?_, ?_, by simp [WItem.node]⟩
    · cases W <;> simp [WItem.all]
    · rw [List.map_cons, sepComma_cons _ (by simpa using hw)]; simp
    · cases W' with
      | nil => exact absurd rfl hw
      | cons w W' => simpa using hc
    · rintro x (_ | ⟨_, hx⟩)
      · exact di
      · exact g1 x hx
    · rintro x (_ | ⟨_, hx⟩)
      · exact h1
      · exact g2 x hx
    · rintro x (_ | ⟨_, hx⟩)
      · exact h2
      · exact g3 x hx

theorem initTail_sound (h : S f) {items ts v r} (he : initTail f items ts = .ok v r) :
    ∃ pre, ts = pre ++ r ∧ C (.initTail items) pre v := by
  unfold initTail at he
  split at he
  · rename_i ds r1 hd
    obtain ⟨W, rfl, hW, rfl, h1, h2⟩ := designation_sound h hd
    obtain ⟨pre, hp, hc⟩ := initItem_claim h h1 h2 he
    refine ⟨pre, ?_, hc⟩
    rw [← hp]
    cases W with
    | nil => exact absurd rfl hW
    | cons w W => simp [WItem.all]
  · obtain ⟨pre, hp, hc⟩ := initItem_claim (W := []) h (by simp) (by simp) he
    exact ⟨pre, hp, hc⟩
  · cases he
  · cases he

theorem initList_sound (h : S f) {ts v r} (he : initList f ts = .ok v r) :
    ∃ pre, ts = pre ++ r ∧ D .braces pre v := by
  unfold initList initEnd at he
  rw [expect_ok] at he
  obtain ⟨t, r1, rfl, ht, he⟩ | ⟨-, he⟩ := he
  · rw [tokLBrace_eq] at ht
    split at he
    · rw [expect_ok] at he
      obtain ⟨t2, r2, rfl, ht2, he⟩ | ⟨-, he⟩ := he
      · cases he
        rw [tokRBrace_eq] at ht2
        refine ⟨[t, t2], rfl, ?_⟩
        exact Der.braces (items := []) (tc := []) ht ht2 (fun _ => rfl) (by simp) (by simp) (by simp) trivial
      · cases he
    · obtain ⟨pre, rfl, W, tc, b, rfl, hb, hW, hc, g1, g2, g3, rfl⟩ := h (.initTail _) _ _ _ he
      refine ⟨t :: sepComma (W.map WItem.all) ++ tc ++ [b], by simp, ?_⟩
      exact Der.braces ht hb (fun h0 => absurd h0 hW) g1 g2 g3 hc
  · cases he

theorem step_sound (hE : E.Sound IsType) (h : S f) : S (step lit E f) := by
  intro nt ts v r he
  cases nt with
  | primary => exact primary_sound h he
  | genericTail c as d => exact genericTail_sound hE h he
  | post => exact postfix_sound hE h he
  | postTail e => exact postTail_sound h he
  | argTail fn args => exact argTail_sound h he
  | builtinTail op args => exact builtinTail_sound hE h he
  | unary => exact unary_sound hE h he
  | cast => exact cast_sound hE h he
  | bin l =>
    obtain ⟨e, r1, h1, h2⟩ := Res.andThen_ok.1 he
    obtain ⟨pre, rfl, d⟩ := h.operand h1
    obtain ⟨pre', rfl, hp⟩ := h (.binTail ..) _ _ _ h2
    exact ⟨pre ++ pre', by simp, hp _ (.binOperand d)⟩
  | binTail l e => exact binTail_sound h he
  | cond => exact cond_sound h he
  | reduceAssign => exact reduceAssign_sound h he
  | assign =>
    rcases Res.orElse_ok.1 he with he | ⟨-, he⟩
    · exact h .reduceAssign _ _ _ he
    · obtain ⟨pre, rfl, d⟩ := h.cond he
      exact ⟨pre, rfl, .assignCond d⟩
  | expr =>
    obtain ⟨e, r1, h1, h2⟩ := Res.andThen_ok.1 he
    obtain ⟨pre, rfl, d⟩ := h.assign h1
    obtain ⟨pre', rfl, hp⟩ := h (.exprTail ..) _ _ _ h2
    exact ⟨pre ++ pre', by simp, hp _ (.exprAssign d)⟩
  | exprTail e => exact exprTail_sound h he
  | init =>
    rcases Res.orElse_ok.1 he with he | ⟨-, he⟩
    · obtain ⟨pre, rfl, d⟩ := h.initList he
      exact ⟨pre, rfl, .initBraces d⟩
    · obtain ⟨e, r1, h1, he⟩ := Res.must_ok.1 he
      cases he
      obtain ⟨pre, rfl, d⟩ := h.assign h1
      exact ⟨pre, rfl, .initExpr d⟩
  | initList => exact initList_sound h he
  | initTail items => exact initTail_sound h he
  | desigTail ds => exact desigTail_sound h he

theorem parse_sound (hE : E.Sound IsType) (n : Nat) : S (parse lit E n) := by
  induction n with
  | zero => intro nt ts v r he; cases he
  | succ n ih => exact step_sound hE ih

end

end Kefir.Parser
