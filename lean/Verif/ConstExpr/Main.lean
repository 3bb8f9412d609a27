import Verif.ConstExpr.Lemmas

/-! Induction over expressions. -/
namespace Kefir.ConstExpr
open Kefir.Types (Basic)
open Kefir.Expr Kefir.C17 Kefir.CSpec
open Kefir.IR (Word Mem)

theorem exact_bfw {e : Expr} (h : exactOps e = true) : e.bfw = none := by
  cases e <;> first | rfl | cases h

theorem exact_const : (e : Expr) → exactOps e = true → e.isConst = true
  | .const _ _, _ => rfl
  | .cast (.arith _) e, h => by
    simp only [exactOps, Bool.and_eq_true] at h
    simpa only [Expr.isConst] using exact_const e h.2
  | .un _ e, h => by
    simp only [exactOps, Bool.and_eq_true] at h
    simpa only [Expr.isConst] using exact_const e h.1
  | .bin _ a b, h => by
    simp only [exactOps, Bool.and_eq_true] at h
    simp only [Expr.isConst, exact_const a h.1.1, exact_const b h.1.2, Bool.and_self]
  | .land a b, h => by
    simp only [exactOps, Bool.and_eq_true] at h
    simp only [Expr.isConst, exact_const a h.1, exact_const b h.2, Bool.and_self]
  | .lor a b, h => by
    simp only [exactOps, Bool.and_eq_true] at h
    simp only [Expr.isConst, exact_const a h.1, exact_const b h.2, Bool.and_self]
  | .cond c a b, h => by
    simp only [exactOps, Bool.and_eq_true] at h
    simp only [Expr.isConst, exact_const c h.1.1.1, exact_const a h.1.1.2, exact_const b h.1.2, Bool.and_self]
  | .elvis c b, h => by
    simp only [exactOps, Bool.and_eq_true] at h
    simp only [Expr.isConst, exact_const c h.1.1, exact_const b h.1.2, Bool.and_self]

theorem exact_noSizeof : (e : Expr) → exactOps e = true → noSizeof e = true
  | .const _ _, _ => rfl
  | .cast (.arith _) e, h => by
    simp only [exactOps, Bool.and_eq_true] at h
    simpa only [noSizeof] using exact_noSizeof e h.2
  | .un _ e, h => by
    simp only [exactOps, Bool.and_eq_true] at h
    simpa only [noSizeof] using exact_noSizeof e h.1
  | .bin _ a b, h => by
    simp only [exactOps, Bool.and_eq_true] at h
    simp only [noSizeof, exact_noSizeof a h.1.1, exact_noSizeof b h.1.2, Bool.and_self]
  | .land a b, h => by
    simp only [exactOps, Bool.and_eq_true] at h
    simp only [noSizeof, exact_noSizeof a h.1, exact_noSizeof b h.2, Bool.and_self]
  | .lor a b, h => by
    simp only [exactOps, Bool.and_eq_true] at h
    simp only [noSizeof, exact_noSizeof a h.1, exact_noSizeof b h.2, Bool.and_self]
  | .cond c a b, h => by
    simp only [exactOps, Bool.and_eq_true] at h
    simp only [noSizeof, exact_noSizeof c h.1.1.1, exact_noSizeof a h.1.1.2, exact_noSizeof b h.1.2, Bool.and_self]
  | .elvis c b, h => by
    simp only [exactOps, Bool.and_eq_true] at h
    simp only [noSizeof, exact_noSizeof c h.1.1, exact_noSizeof b h.1.2, Bool.and_self]

theorem req_of {e : Expr} (h : exactOps e = true) (k : Out Word) : req e k = k := by
  unfold req; rw [exact_const e h]; rfl

theorem promote_mem {b : Basic} (h : isInteger b = true) : promote b ∈ promoted := by
  cases b <;> first | (cases h; done) | decide

theorem promoteW_none {b : Basic} (h : isInteger b = true) : promoteW b none = promote b := by
  simp [promoteW, h]

theorem common_none {b c : Basic} (hb : isInteger b = true) (hc : isInteger c = true) :
    common b none c none = commonReal (promote b) (promote c) := by
  simp [common, promoteW_none, hb, hc]

theorem common_mem {b c : Basic} (hb : isInteger b = true) (hc : isInteger c = true) :
    commonReal (promote b) (promote c) ∈ promoted := by
  revert hb hc
  cases b <;> cases c <;> decide

theorem promote_inRange {b : Basic} (hb : isInteger b = true) {v : Int} (h : InRange b v) : InRange (promote b) v := by
  unfold InRange at h ⊢
  cases b <;> first | (cases hb; done) | skip
  all_goals simp [minVal, maxVal, signed, width, promote, convRank] at h ⊢
  all_goals omega

/-- The signedness the evaluator computes is that of the C common type. -/
theorem commonSigned_eq {a b : Expr} {t1 t2 : Basic} (ha : exactOps a = true) (hb : exactOps b = true)
    (h1 : cty a = some (.arith t1)) (h2 : cty b = some (.arith t2)) (i1 : isInteger t1 = true) (i2 : isInteger t2 = true) :
    commonSigned a b = signed (commonReal (promote t1) (promote t2)) := by
  obtain ⟨t1', e1, n1⟩ := kty_agrees a _ (exact_noSizeof a ha) h1
  obtain ⟨t2', e2, n2⟩ := kty_agrees b _ (exact_noSizeof b hb) h2
  obtain ⟨c', hk, hn⟩ := commonT_agrees (w1 := none) (w2 := none) n1 n2 (fun _ _ _ h => by cases h)
    (fun _ _ _ h => by cases h) (c := .arith (commonReal (promote t1) (promote t2)))
    (by simp only [commonT, common_none i1 i2])
  obtain ⟨d, rfl, hd⟩ := norm_eq_arith hn
  unfold commonSigned
  rw [exact_bfw ha, exact_bfw hb, kt, kt, e1, e2, Option.getD_some, Option.getD_some, hk]
  have hf := normB_facts hd
  have hii := (promoted_facts (common_mem i1 i2)).1
  simp only [normB_integral hd, hii, Bool.true_and]
  rw [← hf.2.1]
  cases d <;> rfl

theorem ct_of {e : Expr} {t : Ty} (h : cty e = some t) : ct e = t := by simp [ct, h]
theorem bt_of {e : Expr} {b : Basic} (h : cty e = some (.arith b)) : bt e = b := by simp [bt, ct, h, basic]

theorem fmtOf_none {b : Basic} (h : isInteger b = true) : fmtOf b = none := by
  cases b <;> first | rfl | cases h

theorem conv_int (F : IR.FP) {b : Basic} (h : isInteger b = true) (v : Int) :
    conv F (.arith b) (.int v) = some (.int (wrap b v)) := by
  simp [conv, fmtOf_none h]

theorem word_truth {b : Basic} (hb : isInteger b = true) {v : Int} (h : InRange b v) :
    (BitVec.ofInt 64 v != 0) = (v != 0) := by
  have := ofInt64_eq_zero (W64_of_inRange h hb)
  rw [Bool.eq_iff_iff]
  simp only [bne_iff_ne, ne_eq, this]

/-- Complement. -/
theorem bnot_word {c : Basic} (hc : c ∈ promoted) (hu : c ≠ .uint) {a : Int} (ha : InRange c a) :
    BitVec.ofInt 64 (valOf (signed c) (~~~ BitVec.ofInt (width c) a)) = ~~~ BitVec.ofInt 64 a := by
  have hw := (promoted_facts hc).2.2.1
  rw [ofInt_valOf (signed c) (by omega)]
  by_cases hs : signed c = true
  · rw [if_pos hs]
    have := ofInt_ext hc ha
    rw [if_pos hs] at this
    rw [this, BitVec.signExtend_not]
    rcases hw with h | h <;> rw [h] <;> decide
  · have h64 : width c = 64 := by
      simp only [promoted, List.mem_cons, List.not_mem_nil, or_false] at hc
      rcases hc with rfl | rfl | rfl | rfl | rfl | rfl <;> simp_all [signed, width]
    rw [if_neg hs]
    have := ofInt_ext hc ha
    rw [if_neg hs] at this
    rw [this, h64]
    simp

theorem Agrees.ok {w : Word} {v : Int} {s : Bool} (h : w = BitVec.ofInt 64 v) : Agrees (.ok w) v s := h

theorem Agrees.weaken {r : Out Word} {v : Int} {s s' : Bool} (h : Agrees r v s) (hs : s = false → s' = false) :
    Agrees r v s' := by
  cases r with
  | ok w => exact h
  | error f => exact ⟨h.1, hs h.2⟩

/-- The result of the induction for one expression. -/
structure Sound (e : Expr) (t : Ty) (v : Val) (m m' : Mem) (b : Basic) (x : Int) : Prop where
  ty : t = .arith b
  int : isInteger b = true
  val : v = .int x
  range : InRange b x
  mem : m' = m
  word : Agrees (ceval e) x (noUnsignedLong e)

theorem sound_cast (C : Ctx) {b : Basic} {e : Expr} {t : Ty} {v : Val} {m m' : Mem} (hx : exactOps (.cast (.arith b) e) = true)
    (ht : cty (.cast (.arith b) e) = some t) (hv : eval C (.cast (.arith b) e) m = some (v, m'))
    (ih : ∀ t v m', cty e = some t → eval C e m = some (v, m') → ∃ b x, Sound e t v m m' b x) :
    ∃ b' x, Sound (.cast (.arith b) e) t v m m' b' x := by
  have hq := req_of hx
  simp only [exactOps, Bool.and_eq_true] at hx
  simp only [cty, Option.bind_eq_some_iff] at ht
  obtain ⟨u, hu, ht⟩ := ht
  simp only [eval, Option.bind_eq_some_iff] at hv
  obtain ⟨⟨v1, m1⟩, he, hv⟩ := hv
  obtain ⟨b1, x, rfl, hi, rfl, hr, rfl, hw⟩ := ih _ _ _ hu he
  split at ht <;> cases ht
  simp only [conv_int C.fp hx.1, Option.map_some, Option.some.injEq, Prod.mk.injEq] at hv
  obtain ⟨rfl, rfl⟩ := hv
  refine ⟨b, wrap b x, rfl, hx.1, rfl, wrap_inRange b hx.1 x, rfl, ?_⟩
  have hin : b.isIntegral = true := by rw [normB_integral (c := b) rfl]; exact hx.1
  simp only [ceval, hin, if_true, hq]
  cases hc : ceval e with
  | ok w =>
    rw [hc] at hw
    have hw : w = BitVec.ofInt 64 x := hw
    subst hw
    exact cast_exact hx.1 (W64_of_inRange hr hi)
  | error f => rw [hc] at hw; exact ⟨hw.1, hw.2⟩

theorem sound_un (C : Ctx) {op : UnOp} {e : Expr} {t : Ty} {v : Val} {m m' : Mem} (hx : exactOps (.un op e) = true)
    (ht : cty (.un op e) = some t) (hv : eval C (.un op e) m = some (v, m'))
    (ih : ∀ t v m', cty e = some t → eval C e m = some (v, m') → ∃ b x, Sound e t v m m' b x) :
    ∃ b' x, Sound (.un op e) t v m m' b' x := by
  have hq := req_of hx
  simp only [exactOps, Bool.and_eq_true] at hx
  simp only [cty, Option.bind_eq_some_iff] at ht
  obtain ⟨u, hu, ht⟩ := ht
  simp only [eval, Option.bind_eq_some_iff] at hv
  obtain ⟨⟨v1, m1⟩, he, hv⟩ := hv
  obtain ⟨b1, x, rfl, hi, rfl, hr, rfl, hw⟩ := ih _ _ _ hu he
  rw [ct_of hu, exact_bfw hx.1] at hv
  rw [exact_bfw hx.1] at ht
  have hbt := bt_of hu
  simp only [Option.map_eq_some_iff, Prod.mk.injEq] at hv
  obtain ⟨r, hv, rfl, rfl⟩ := hv
  have hpm := promote_mem hi
  have hpr := promote_inRange hi hr
  have hpi := (promoted_facts hpm).1
  cases op with
  | plus =>
    simp only [promoteW_none hi] at ht
    cases ht
    cases hv
    refine ⟨_, x, rfl, hpi, rfl, hpr, rfl, ?_⟩
    simp only [ceval, hq, noUnsignedLong]
    cases hc : ceval e <;> rw [hc] at hw
    · exact ⟨hw.1, by simp [hw.2]⟩
    · exact hw
  | neg =>
    simp only [promoteW_none hi] at ht
    cases ht
    simp only [unV, Option.map_eq_some_iff, promoteW_none hi] at hv
    obtain ⟨y, hy, rfl⟩ := hv
    rw [hbt] at hx
    have hnu : promote b1 ≠ .uint := by simpa using hx.2
    obtain ⟨-, hin, -⟩ := chk_wrap hpm hy
    refine ⟨_, y, rfl, hpi, rfl, hin, rfl, ?_⟩
    simp only [ceval, hq, noUnsignedLong, hbt]
    cases hc : ceval e with
    | error f => rw [hc] at hw; exact ⟨hw.1, by simp [hw.2]⟩
    | ok w =>
      rw [hc] at hw
      have hw : w = BitVec.ofInt 64 x := hw
      subst hw
      have := grow_exact hpm hnu (fun a _ => -a) (fun a _ => -a) (fun a _ => BitVec.ofInt_neg) hpr hpr hy
      exact this.weaken (by intro h; simp [h])
  | bnot =>
    simp only [promoteW_none hi, hi, if_true] at ht
    cases ht
    simp only [unV, Option.some.injEq] at hv
    rw [promoteW_none hi] at hv
    subst hv
    rw [hbt] at hx
    have hnu : promote b1 ≠ .uint := by simpa using hx.2
    refine ⟨_, _, rfl, hpi, rfl, valOf_inRange hpm _, rfl, ?_⟩
    simp only [ceval, hq, noUnsignedLong]
    cases hc : ceval e with
    | error f => rw [hc] at hw; exact ⟨hw.1, by simp [hw.2]⟩
    | ok w =>
      rw [hc] at hw
      have hw : w = BitVec.ofInt 64 x := hw
      subst hw
      show ~~~ BitVec.ofInt 64 x = _
      exact (bnot_word hpm hnu hpr).symm
  | lnot =>
    simp only [isScalarT, if_true] at ht
    cases ht
    simp only [unV, truth, Option.map_some, Option.some.injEq] at hv
    subst hv
    refine ⟨.int, _, rfl, rfl, rfl, ?_, rfl, ?_⟩
    · cases (x != 0) <;> decide
    · simp only [ceval, hq, noUnsignedLong]
      cases hc : ceval e with
      | error f => rw [hc] at hw; exact ⟨hw.1, by simp [hw.2]⟩
      | ok w =>
        rw [hc] at hw
        have hw : w = BitVec.ofInt 64 x := hw
        subst hw
        show ofBool _ = _
        have := word_truth hi hr
        have h2 : (BitVec.ofInt 64 x == 0) = !(x != 0) := by
          rw [← this]; simp [bne]
        rw [h2, ofBool_ofInt]

/-- Integer expressions have integer types. -/
theorem exact_int : (e : Expr) → exactOps e = true → (t : Ty) → cty e = some t → ∃ b, t = .arith b ∧ isInteger b = true
  | .const b v, h, t, ht => by
    simp only [cty] at ht
    split at ht <;> cases ht
    exact ⟨b, rfl, h⟩
  | .cast (.arith b) e, h, t, ht => by
    simp only [exactOps, Bool.and_eq_true] at h
    simp only [cty, Option.bind_eq_some_iff] at ht
    obtain ⟨u, -, ht⟩ := ht
    split at ht <;> cases ht
    exact ⟨b, rfl, h.1⟩
  | .un op e, h, t, ht => by
    have hb : (Expr.un op e).bfw = none := rfl
    simp only [exactOps, Bool.and_eq_true] at h
    simp only [cty, Option.bind_eq_some_iff] at ht
    obtain ⟨u, hu, ht⟩ := ht
    obtain ⟨b, rfl, hi⟩ := exact_int e h.1 u hu
    have hp := (promoted_facts (promote_mem hi)).1
    rw [exact_bfw h.1] at ht
    cases op <;> simp only [promoteW_none hi, hi, isScalarT, if_true] at ht <;> cases ht <;>
      first | exact ⟨_, rfl, hp⟩ | exact ⟨_, rfl, rfl⟩
  | .bin op a b, h, t, ht => by
    simp only [exactOps, Bool.and_eq_true] at h
    simp only [cty, Option.bind_eq_some_iff] at ht
    obtain ⟨t1, ht1, t2, ht2, ht⟩ := ht
    obtain ⟨b1, rfl, i1⟩ := exact_int a h.1.1 t1 ht1
    obtain ⟨b2, rfl, i2⟩ := exact_int b h.1.2 t2 ht2
    rw [exact_bfw h.1.1, exact_bfw h.1.2] at ht
    have := binTy_int i1 i2 ht
    obtain ⟨c, rfl, hc⟩ := isInt_arith this
    exact ⟨c, rfl, hc⟩
  | .land a b, h, t, ht => by
    simp only [cty, Option.bind_eq_some_iff] at ht
    obtain ⟨t1, -, t2, -, ht⟩ := ht
    split at ht <;> cases ht
    exact ⟨_, rfl, rfl⟩
  | .lor a b, h, t, ht => by
    simp only [cty, Option.bind_eq_some_iff] at ht
    obtain ⟨t1, -, t2, -, ht⟩ := ht
    split at ht <;> cases ht
    exact ⟨_, rfl, rfl⟩
  | .cond c a b, h, t, ht => by
    simp only [exactOps, Bool.and_eq_true] at h
    simp only [cty, Option.bind_eq_some_iff] at ht
    obtain ⟨t0, -, t1, ht1, t2, ht2, ht⟩ := ht
    obtain ⟨b1, rfl, i1⟩ := exact_int a h.1.1.2 t1 ht1
    obtain ⟨b2, rfl, i2⟩ := exact_int b h.1.2 t2 ht2
    split at ht <;> cases ht
    rw [exact_bfw h.1.1.2, exact_bfw h.1.2]
    exact ⟨_, rfl, isInt_common i1 i2⟩
  | .elvis c b, h, t, ht => by
    simp only [exactOps, Bool.and_eq_true] at h
    simp only [cty, Option.bind_eq_some_iff] at ht
    obtain ⟨t1, ht1, t2, ht2, ht⟩ := ht
    obtain ⟨b1, rfl, i1⟩ := exact_int c h.1.1 t1 ht1
    obtain ⟨b2, rfl, i2⟩ := exact_int b h.1.2 t2 ht2
    split at ht <;> cases ht
    rw [exact_bfw h.1.1, exact_bfw h.1.2]
    exact ⟨_, rfl, isInt_common i1 i2⟩

/-- Evaluation of a binary operator on arithmetic operands. -/
theorem eval_bin {C : Ctx} {op : BinOp} {a b : Expr} {v : Val} {m m' : Mem} {b1 b2 : Basic} (ha : ct a = .arith b1)
    (hb : ct b = .arith b2) (hv : eval C (.bin op a b) m = some (v, m')) :
    ∃ v1 m1 v2, eval C a m = some (v1, m1) ∧ eval C b m1 = some (v2, m') ∧
      binV C.fp op (.arith b1) a.bfw v1 (.arith b2) b.bfw v2 = some v := by
  rw [eval.eq_def] at hv
  dsimp only at hv
  rw [ha, hb] at hv
  cases op <;> simp only [Option.bind_eq_some_iff, Option.map_eq_some_iff, Prod.mk.injEq] at hv <;>
    obtain ⟨⟨v1, m1⟩, h1, ⟨v2, m2⟩, h2, r, h3, rfl, rfl⟩ := hv <;>
    exact ⟨v1, m1, v2, h1, h2, h3⟩

/-- A binary operator on integer values. -/
theorem binV_exact (F : IR.FP) {op : BinOp} {b1 b2 : Basic} (i1 : isInteger b1 = true) (i2 : isInteger b2 = true)
    {x y : Int} (hx : InRange b1 x) (hy : InRange b2 y) {v : Val} {n1 n2 : Bool} {t : Ty}
    (ht : binTy op (.arith b1) none n1 (.arith b2) none n2 = some t)
    (hv : binV F op (.arith b1) none (.int x) (.arith b2) none (.int y) = some v)
    (hc : (if op == .shl || op == .shr then
        (promote b1 != .uint || op == .shr) &&
        signed (promote b1) == signed (commonReal (promote b1) (promote b2))
      else
        let c := commonReal (promote b1) (promote b2)
        fitsIn b1 c && fitsIn b2 c && (c != .uint || !canOverflow op)) = true) :
    ∃ b z, t = .arith b ∧ isInteger b = true ∧ v = .int z ∧ InRange b z ∧
      Agrees (evalBin (signed (commonReal (promote b1) (promote b2))) op (BitVec.ofInt 64 x) (BitVec.ofInt 64 y)) z
        (!(op == .add || op == .sub || op == .mul) || signed (commonReal (promote b1) (promote b2))) := by
  have hcm := common_mem i1 i2
  obtain ⟨hci, _, _, _⟩ := promoted_facts hcm
  have hcn := common_none i1 i2
  have sh : (op = .shl ∨ op = .shr) → ∃ b z, t = .arith b ∧ isInteger b = true ∧ v = .int z ∧ InRange b z ∧
      Agrees (evalBin (signed (commonReal (promote b1) (promote b2))) op (BitVec.ofInt 64 x) (BitVec.ofInt 64 y)) z
        (!(op == .add || op == .sub || op == .mul) || signed (commonReal (promote b1) (promote b2))) := by
    intro hop
    have hb : (op == .shl || op == .shr) = true := by rcases hop with rfl | rfl <;> rfl
    rw [if_pos hb] at hc
    simp only [Bool.and_eq_true, Bool.or_eq_true, bne_iff_ne, beq_iff_eq] at hc
    have hpm := promote_mem i1
    have hpi := (promoted_facts hpm).1
    have ht' : t = .arith (promote b1) := by
      rcases hop with rfl | rfl <;> simp [binTy, isInt, i1, i2, promoteW_none] at ht <;> exact ht.symm
    have hv' : ∃ z, shiftInt op (promote b1) x y = some z ∧ v = .int z := by
      rcases hop with rfl | rfl <;> simp [binV, promoteW_none i1] at hv <;> (obtain ⟨z, h1, h2⟩ := hv; exact ⟨z, h1, h2.symm⟩)
    obtain ⟨z, hz, rfl⟩ := hv'
    obtain ⟨hr, he⟩ := shift_exact hpm hop hc.1 (promote_inRange i1 hx) hz
    rw [hc.2] at he
    exact ⟨promote b1, z, ht', hpi, rfl, hr, by rw [he]; exact Agrees.ok rfl⟩
  have conv1 : (op ≠ .shl ∧ op ≠ .shr) → fitsIn b1 (commonReal (promote b1) (promote b2)) = true ∧
      fitsIn b2 (commonReal (promote b1) (promote b2)) = true ∧
      (commonReal (promote b1) (promote b2) ≠ .uint ∨ canOverflow op = false) := by
    intro hop
    have hb : (op == .shl || op == .shr) = false := by cases op <;> simp_all
    rw [hb] at hc
    simp only [Bool.false_eq_true, if_false, Bool.and_eq_true, Bool.or_eq_true, bne_iff_ne, ne_eq, Bool.not_eq_true'] at hc
    exact ⟨hc.1.1, hc.1.2, hc.2⟩
  have cmp : ∀ r, op ≠ .shl ∧ op ≠ .shr → (!(op == .add || op == .sub || op == .mul) || signed (commonReal (promote b1) (promote b2))) = true →
      t = .arith .int → compareV F op (.int (wrap (commonReal (promote b1) (promote b2)) x))
        (.int (wrap (commonReal (promote b1) (promote b2)) y)) = some r → v = ofBoolV r →
      ∃ b z, t = .arith b ∧ isInteger b = true ∧ v = .int z ∧ InRange b z ∧
      Agrees (evalBin (signed (commonReal (promote b1) (promote b2))) op (BitVec.ofInt 64 x) (BitVec.ofInt 64 y)) z
        (!(op == .add || op == .sub || op == .mul) || signed (commonReal (promote b1) (promote b2))) := by
    rintro r hop - rfl hr rfl
    obtain ⟨f1, f2, -⟩ := conv1 hop
    have h := compare_exact F hcm (wrap_inRange _ hci x) (wrap_inRange _ hci y) hr
    rw [wrap_fits i1 hcm f1 hx, wrap_fits i2 hcm f2 hy] at h
    refine ⟨.int, _, rfl, rfl, rfl, ?_, ?_⟩
    · cases r <;> decide
    · rw [h]; exact ofBool_ofInt r
  have ari : op ≠ .shl ∧ op ≠ .shr → t = .arith (commonReal (promote b1) (promote b2)) →
      ∀ z, arithInt op (commonReal (promote b1) (promote b2)) (wrap (commonReal (promote b1) (promote b2)) x)
        (wrap (commonReal (promote b1) (promote b2)) y) = some z → v = .int z →
      ∃ b z, t = .arith b ∧ isInteger b = true ∧ v = .int z ∧ InRange b z ∧
      Agrees (evalBin (signed (commonReal (promote b1) (promote b2))) op (BitVec.ofInt 64 x) (BitVec.ofInt 64 y)) z
        (!(op == .add || op == .sub || op == .mul) || signed (commonReal (promote b1) (promote b2))) := by
    rintro hop rfl z hz rfl
    obtain ⟨f1, f2, f3⟩ := conv1 hop
    obtain ⟨hr, ha⟩ := arith_exact hcm f3 (wrap_inRange _ hci x) (wrap_inRange _ hci y) hz
    rw [wrap_fits i1 hcm f1 hx, wrap_fits i2 hcm f2 hy] at ha
    exact ⟨_, z, rfl, hci, rfl, hr, ha⟩
  cases op
  case shl => exact sh (Or.inl rfl)
  case shr => exact sh (Or.inr rfl)
  case lt | gt | le | ge | eq | ne =>
    simp only [binV, hcn, conv_int F hci, Option.bind_some, Option.map_eq_some_iff] at hv
    obtain ⟨r, h1, rfl⟩ := hv
    exact cmp r (by decide) (by rfl) (by simp [binTy, isArithT] at ht; exact ht.symm) h1 rfl
  all_goals
    simp only [binV, hcn, conv_int F hci, Option.bind_some, arithV, Option.map_eq_some_iff] at hv
    obtain ⟨z, h1, rfl⟩ := hv
    exact ari (by decide) (by simp [binTy, commonT, hcn, isInt, i1, i2] at ht; exact ht.symm) z h1 rfl

theorem sound_bin (C : Ctx) {op : BinOp} {a b : Expr} {t : Ty} {v : Val} {m m' : Mem} (hx : exactOps (.bin op a b) = true)
    (ht : cty (.bin op a b) = some t) (hv : eval C (.bin op a b) m = some (v, m'))
    (iha : ∀ t v m', cty a = some t → eval C a m = some (v, m') → ∃ b x, Sound a t v m m' b x)
    (ihb : ∀ t v m', cty b = some t → eval C b m = some (v, m') → ∃ c x, Sound b t v m m' c x) :
    ∃ b' x, Sound (.bin op a b) t v m m' b' x := by
  have hq := req_of hx
  simp only [exactOps, Bool.and_eq_true] at hx
  obtain ⟨⟨xa, xb⟩, hx⟩ := hx
  simp only [cty, Option.bind_eq_some_iff] at ht
  obtain ⟨t1, ht1, t2, ht2, ht⟩ := ht
  obtain ⟨b1, rfl, i1⟩ := exact_int a xa _ ht1
  obtain ⟨b2, rfl, i2⟩ := exact_int b xb _ ht2
  obtain ⟨v1, m1, v2, e1, e2, hb⟩ := eval_bin (ct_of ht1) (ct_of ht2) hv
  obtain ⟨b1', x, h1, -, rfl, r1, rfl, w1⟩ := iha _ _ _ ht1 e1
  cases h1
  obtain ⟨b2', y, h2, -, rfl, r2, rfl, w2⟩ := ihb _ _ _ ht2 e2
  cases h2
  rw [exact_bfw xa, exact_bfw xb] at ht hb
  rw [bt_of ht1, bt_of ht2] at hx
  obtain ⟨c, z, rfl, ic, rfl, rz, hag⟩ := binV_exact C.fp i1 i2 r1 r2 ht hb hx
  refine ⟨c, z, rfl, ic, rfl, rz, rfl, ?_⟩
  simp only [ceval, hq, noUnsignedLong, bt_of ht1, bt_of ht2]
  cases hca : ceval a with
  | error f => rw [hca] at w1; exact ⟨w1.1, by simp [w1.2]⟩
  | ok w =>
    rw [hca] at w1
    cases hcb : ceval b with
    | error f => rw [hcb] at w2; exact ⟨w2.1, by simp [w2.2]⟩
    | ok w' =>
      rw [hcb] at w2
      have w1 : w = BitVec.ofInt 64 x := w1
      have w2 : w' = BitVec.ofInt 64 y := w2
      subst w1 w2
      simp only [commonSigned_eq xa xb ht1 ht2 i1 i2]
      exact hag.weaken (by intro h; rw [h]; simp)

theorem branch_word {b c : Basic} {x : Int} (hb : isInteger b = true) (hc : c ∈ promoted) (hf : fitsIn b c = true)
    (hr : InRange b x) {r : Out Word} {s s' : Bool} (h : Agrees r x s) (hs : s = false → s' = false) :
    Agrees r (wrap c x) s' := by
  cases r with
  | ok w =>
    have h : w = BitVec.ofInt 64 x := h
    exact h.trans (wrap_fits hb hc hf hr).symm
  | error f => exact ⟨h.1, hs h.2⟩

/-- Constant evaluation agrees with C. -/
theorem sound (C : Ctx) : (e : Expr) → exactOps e = true → (t : Ty) → (v : Val) → (m m' : Mem) → cty e = some t →
    eval C e m = some (v, m') → ∃ b x, Sound e t v m m' b x
  | .const b v, h, t, r, m, m', ht, hv => by
    simp only [cty] at ht
    split at ht <;> cases ht
    rename_i hb
    simp only [eval, Option.some.injEq, Prod.mk.injEq] at hv
    obtain ⟨rfl, rfl⟩ := hv
    refine ⟨b, v, rfl, hb.1, rfl, hb.2, rfl, ?_⟩
    have hin : b.isIntegral = true := by rw [normB_integral (c := b) rfl]; exact hb.1
    simp only [ceval, hin, if_true]
    exact Agrees.ok rfl
  | .cast (.arith b) e, h, t, v, m, m', ht, hv => by
    have hx := h
    simp only [exactOps, Bool.and_eq_true] at hx
    exact sound_cast C h ht hv (fun t v m' h1 h2 => sound C e hx.2 t v m m' h1 h2)
  | .un op e, h, t, v, m, m', ht, hv => by
    have hx := h
    simp only [exactOps, Bool.and_eq_true] at hx
    exact sound_un C h ht hv (fun t v m' h1 h2 => sound C e hx.1 t v m m' h1 h2)
  | .bin op a b, h, t, v, m, m', ht, hv => by
    have hx := h
    simp only [exactOps, Bool.and_eq_true] at hx
    exact sound_bin C h ht hv (fun t v m' h1 h2 => sound C a hx.1.1 t v m m' h1 h2)
      (fun t v m' h1 h2 => sound C b hx.1.2 t v m m' h1 h2)
  | .land a b, h, t, v, m, m', ht, hv => by
    have hq := req_of h
    simp only [exactOps, Bool.and_eq_true] at h
    simp only [cty, Option.bind_eq_some_iff] at ht
    obtain ⟨t1, ht1, t2, ht2, ht⟩ := ht
    split at ht <;> cases ht
    simp only [eval, Option.bind_eq_some_iff] at hv
    obtain ⟨⟨v1, m1⟩, e1, b1, hb1, hv⟩ := hv
    obtain ⟨c1, x, rfl, i1, rfl, r1, rfl, w1⟩ := sound C a h.1 _ _ _ _ ht1 e1
    simp only [truth, Option.some.injEq] at hb1
    subst hb1
    have tr := word_truth i1 r1
    by_cases hx : (x != 0) = true
    · simp only [hx, if_true, Option.bind_eq_some_iff] at hv
      obtain ⟨⟨v2, m2⟩, e2, hv⟩ := hv
      obtain ⟨c2, y, rfl, i2, rfl, r2, rfl, w2⟩ := sound C b h.2 _ _ _ _ ht2 e2
      simp only [truth, Option.map_some, Option.some.injEq, Prod.mk.injEq] at hv
      obtain ⟨rfl, rfl⟩ := hv
      refine ⟨.int, _, rfl, rfl, rfl, by cases (y != 0) <;> decide, rfl, ?_⟩
      simp only [ceval, hq, noUnsignedLong]
      cases hca : ceval a with
      | error f => rw [hca] at w1; exact ⟨w1.1, by simp [w1.2]⟩
      | ok w =>
        rw [hca] at w1
        have w1 : w = BitVec.ofInt 64 x := w1
        subst w1
        simp only [tr, hx, if_true]
        cases hcb : ceval b with
        | error f => rw [hcb] at w2; exact ⟨w2.1, by simp [w2.2]⟩
        | ok w' =>
          rw [hcb] at w2
          have w2 : w' = BitVec.ofInt 64 y := w2
          subst w2
          simp only [word_truth i2 r2]
          exact ofBool_ofInt _
    · simp only [hx] at hv
      cases hv
      refine ⟨.int, 0, rfl, rfl, rfl, by decide, rfl, ?_⟩
      simp only [ceval, hq, noUnsignedLong]
      cases hca : ceval a with
      | error f => rw [hca] at w1; exact ⟨w1.1, by simp [w1.2]⟩
      | ok w =>
        rw [hca] at w1
        have w1 : w = BitVec.ofInt 64 x := w1
        subst w1
        simp only [tr, hx]
        exact Agrees.ok rfl
  | .lor a b, h, t, v, m, m', ht, hv => by
    have hq := req_of h
    simp only [exactOps, Bool.and_eq_true] at h
    simp only [cty, Option.bind_eq_some_iff] at ht
    obtain ⟨t1, ht1, t2, ht2, ht⟩ := ht
    split at ht <;> cases ht
    simp only [eval, Option.bind_eq_some_iff] at hv
    obtain ⟨⟨v1, m1⟩, e1, b1, hb1, hv⟩ := hv
    obtain ⟨c1, x, rfl, i1, rfl, r1, rfl, w1⟩ := sound C a h.1 _ _ _ _ ht1 e1
    simp only [truth, Option.some.injEq] at hb1
    subst hb1
    have tr := word_truth i1 r1
    by_cases hx : (x != 0) = true
    · simp only [hx, if_true] at hv
      cases hv
      refine ⟨.int, 1, rfl, rfl, rfl, by decide, rfl, ?_⟩
      simp only [ceval, hq, noUnsignedLong]
      cases hca : ceval a with
      | error f => rw [hca] at w1; exact ⟨w1.1, by simp [w1.2]⟩
      | ok w =>
        rw [hca] at w1
        have w1 : w = BitVec.ofInt 64 x := w1
        subst w1
        simp only [tr, hx, if_true]
        exact Agrees.ok rfl
    · simp only [hx, Bool.false_eq_true, if_false, Option.bind_eq_some_iff] at hv
      obtain ⟨⟨v2, m2⟩, e2, hv⟩ := hv
      obtain ⟨c2, y, rfl, i2, rfl, r2, rfl, w2⟩ := sound C b h.2 _ _ _ _ ht2 e2
      simp only [truth, Option.map_some, Option.some.injEq, Prod.mk.injEq] at hv
      obtain ⟨rfl, rfl⟩ := hv
      refine ⟨.int, _, rfl, rfl, rfl, by cases (y != 0) <;> decide, rfl, ?_⟩
      simp only [ceval, hq, noUnsignedLong]
      cases hca : ceval a with
      | error f => rw [hca] at w1; exact ⟨w1.1, by simp [w1.2]⟩
      | ok w =>
        rw [hca] at w1
        have w1 : w = BitVec.ofInt 64 x := w1
        subst w1
        simp only [tr, hx, Bool.false_eq_true, if_false]
        cases hcb : ceval b with
        | error f => rw [hcb] at w2; exact ⟨w2.1, by simp [w2.2]⟩
        | ok w' =>
          rw [hcb] at w2
          have w2 : w' = BitVec.ofInt 64 y := w2
          subst w2
          simp only [word_truth i2 r2]
          exact ofBool_ofInt _
  | .cond c a b, h, t, v, m, m', ht, hv => by
    have hq := req_of h
    simp only [exactOps, Bool.and_eq_true] at h
    obtain ⟨⟨⟨hc, ha⟩, hb⟩, hk⟩ := h
    have hct := ht
    simp only [cty, Option.bind_eq_some_iff] at ht
    obtain ⟨t0, ht0, t1, ht1, t2, ht2, ht⟩ := ht
    obtain ⟨c1, rfl, i1⟩ := exact_int a ha _ ht1
    obtain ⟨c2, rfl, i2⟩ := exact_int b hb _ ht2
    split at ht <;> simp only [condTy, Option.some.injEq, reduceCtorEq] at ht
    rw [exact_bfw ha, exact_bfw hb, common_none i1 i2] at ht
    subst ht
    rw [bt_of ht1, bt_of ht2] at hk
    have hcm := common_mem i1 i2
    obtain ⟨hci, _, _, _⟩ := promoted_facts hcm
    simp only [eval, Option.bind_eq_some_iff] at hv
    obtain ⟨⟨v0, m0⟩, e0, b0, hb0, ⟨v1, m1⟩, e1, hv⟩ := hv
    obtain ⟨c0, z, rfl, i0, rfl, r0, rfl, w0⟩ := sound C c hc _ _ _ _ ht0 e0
    simp only [truth, Option.some.injEq] at hb0
    subst hb0
    rw [ct_of hct] at hv
    have tr := word_truth i0 r0
    by_cases hz : (z != 0) = true
    · rw [if_pos hz] at e1
      obtain ⟨c1', x, h1, -, rfl, r1, rfl, w1⟩ := sound C a ha _ _ _ _ ht1 e1
      cases h1
      simp only [conv_int C.fp hci, Option.map_some, Option.some.injEq, Prod.mk.injEq] at hv
      obtain ⟨rfl, rfl⟩ := hv
      refine ⟨_, _, rfl, hci, rfl, wrap_inRange _ hci x, rfl, ?_⟩
      simp only [ceval, hq, noUnsignedLong]
      cases hcc : ceval c with
      | error f => rw [hcc] at w0; exact ⟨w0.1, by simp [w0.2]⟩
      | ok w =>
        rw [hcc] at w0
        have w0 : w = BitVec.ofInt 64 z := w0
        subst w0
        simp only [tr, hz, if_true]
        exact branch_word i1 hcm hk.1 r1 w1 (by intro h; simp [h])
    · rw [if_neg hz] at e1
      obtain ⟨c1', x, h1, -, rfl, r1, rfl, w1⟩ := sound C b hb _ _ _ _ ht2 e1
      cases h1
      simp only [conv_int C.fp hci, Option.map_some, Option.some.injEq, Prod.mk.injEq] at hv
      obtain ⟨rfl, rfl⟩ := hv
      refine ⟨_, _, rfl, hci, rfl, wrap_inRange _ hci x, rfl, ?_⟩
      simp only [ceval, hq, noUnsignedLong]
      cases hcc : ceval c with
      | error f => rw [hcc] at w0; exact ⟨w0.1, by simp [w0.2]⟩
      | ok w =>
        rw [hcc] at w0
        have w0 : w = BitVec.ofInt 64 z := w0
        subst w0
        simp only [tr, hz, Bool.false_eq_true, if_false]
        exact branch_word i2 hcm hk.2 r1 w1 (by intro h; simp [h])
  | .elvis c b, h, t, v, m, m', ht, hv => by
    have hq := req_of h
    simp only [exactOps, Bool.and_eq_true] at h
    obtain ⟨⟨hc, hb⟩, hk⟩ := h
    have hct := ht
    simp only [cty, Option.bind_eq_some_iff] at ht
    obtain ⟨t1, ht1, t2, ht2, ht⟩ := ht
    obtain ⟨c1, rfl, i1⟩ := exact_int c hc _ ht1
    obtain ⟨c2, rfl, i2⟩ := exact_int b hb _ ht2
    split at ht <;> simp only [condTy, Option.some.injEq, reduceCtorEq] at ht
    rw [exact_bfw hc, exact_bfw hb, common_none i1 i2] at ht
    subst ht
    rw [bt_of ht1, bt_of ht2] at hk
    have hcm := common_mem i1 i2
    obtain ⟨hci, _, _, _⟩ := promoted_facts hcm
    simp only [eval, Option.bind_eq_some_iff] at hv
    obtain ⟨⟨v0, m0⟩, e0, b0, hb0, ⟨v1, m1⟩, e1, hv⟩ := hv
    obtain ⟨c0, z, h0, -, rfl, r0, rfl, w0⟩ := sound C c hc _ _ _ _ ht1 e0
    cases h0
    simp only [truth, Option.some.injEq] at hb0
    subst hb0
    rw [ct_of hct] at hv
    have tr := word_truth i1 r0
    by_cases hz : (z != 0) = true
    · rw [if_pos hz] at e1
      cases e1
      simp only [conv_int C.fp hci, Option.map_some, Option.some.injEq, Prod.mk.injEq] at hv
      obtain ⟨rfl, rfl⟩ := hv
      refine ⟨_, _, rfl, hci, rfl, wrap_inRange _ hci z, rfl, ?_⟩
      simp only [ceval, hq, noUnsignedLong]
      cases hcc : ceval c with
      | error f => rw [hcc] at w0; exact ⟨w0.1, by simp [w0.2]⟩
      | ok w =>
        rw [hcc] at w0
        have w0 : w = BitVec.ofInt 64 z := w0
        subst w0
        simp only [tr, hz, if_true]
        exact (wrap_fits i1 hcm hk.1 r0).symm
    · rw [if_neg hz] at e1
      obtain ⟨c1', x, h1, -, rfl, r1, rfl, w1⟩ := sound C b hb _ _ _ _ ht2 e1
      cases h1
      simp only [conv_int C.fp hci, Option.map_some, Option.some.injEq, Prod.mk.injEq] at hv
      obtain ⟨rfl, rfl⟩ := hv
      refine ⟨_, _, rfl, hci, rfl, wrap_inRange _ hci x, rfl, ?_⟩
      simp only [ceval, hq, noUnsignedLong]
      cases hcc : ceval c with
      | error f => rw [hcc] at w0; exact ⟨w0.1, by simp [w0.2]⟩
      | ok w =>
        rw [hcc] at w0
        have w0 : w = BitVec.ofInt 64 z := w0
        subst w0
        simp only [tr, hz, Bool.false_eq_true, if_false]
        exact branch_word i2 hcm hk.2 r1 w1 (by intro h; simp [h])

end Kefir.ConstExpr
