import Verif.Expr.Shape

/-! The code of a well-typed expression passes the stack check of `Shape.lean`. -/
namespace Kefir.Expr
open Kefir.Types (Basic)
open Kefir.IR

theorem sh_seq {a b : SC} {n m k : Nat} (h1 : a.eff n = some m) (h2 : b.eff m = some k) :
    (a ;; b).eff n = some k := by simp only [SC.eff, h1, Option.bind_some, h2]

theorem up {c : SC} {k : Nat} (h : c.eff 0 = some k) (n : Nat) : c.eff n = some (k + n) := by
  have := SC.eff_mono h n
  rwa [Nat.zero_add] at this

theorem sh_app {a b : List Instr} {n m k : Nat} (h1 : effs a n = some m) (h2 : effs b m = some k) :
    effs (a ++ b) n = some k := by rw [effs_append, h1, Option.bind_some, h2]

theorem kt_of' {e : Expr} {t : Ty} (h : kty e = some t) : kt e = t := by simp [kt, h]
theorem klt_of' {l : LV} {t : Ty} (h : klty l = some t) : klt l = t := by simp [klt, h]

/-- `prologue` then an operation on the two converted operands. -/
theorem sh_bin {a b : SC} {ta tb rt : Ty} {is : List Instr} {k : Nat}
    (ha : a.eff 0 = some (slots ta)) (hb : b.eff 0 = some (slots tb))
    (ca : effs (typeconv ta rt) (slots ta) = some (slots rt)) (cb : effs (typeconv tb rt) (slots tb) = some (slots rt))
    (h : effs is (slots rt + slots rt) = some k) : (prologue a ta b tb rt ;; .prim is).eff 0 = some k :=
  sh_seq (m := slots rt + slots rt)
    (sh_seq ha (sh_seq (m := slots rt) ca (sh_seq (up hb _) (effs_mono cb _)))) h

theorem scalar_slots {t : Ty} (h : t.isScalar = true) : (t = .arith .ldouble ∧ slots t = 2) ∨ (t ≠ .arith .ldouble ∧ slots t = 1) := by
  cases t <;> simp only [Ty.isScalar, Bool.false_eq_true] at h
  · rename_i b; cases b <;> simp [slots]
  · simp [slots]

theorem truncate_shape {t : Ty} (h : t.isScalar = true) : effs (truncate t) (slots t) = some 1 := by
  rcases scalar_slots h with ⟨h1, h2⟩ | ⟨h1, h2⟩ <;> rw [h2] <;> simp [truncate, h1, effs, eff1]

theorem isArith_inv {t : Ty} (h : t.isArith = true) : ∃ b, t = .arith b := by
  cases t <;> simp only [Ty.isArith, Bool.false_eq_true] at h; exact ⟨_, rfl⟩

theorem kCommon_arith (b1 b2 : Basic) (w1 w2 : Option Nat) : ∃ c, kCommon (.arith b1) w1 (.arith b2) w2 = some (.arith c) ∧
    (b1.isIntegral = true → b2.isIntegral = true → c.isIntegral = true) := by
  obtain ⟨c, h, hi⟩ := common_some b1 b2 w1 w2
  exact ⟨c, by simp [kCommon, h], hi⟩

theorem integral_isArith {t : Ty} (h : t.isIntegral = true) : t.isArith = true := by
  obtain ⟨b, rfl, _⟩ := integral_arith h; rfl

theorem shape_arith {op : BinOp} {a b : SC} {b1 b2 c : Basic} {sg : Bool}
    (ha : a.eff 0 = some (slots (.arith b1))) (hb : b.eff 0 = some (slots (.arith b2)))
    (h : (op = .add ∨ op = .sub ∨ op = .mul ∨ op = .div) ∨
      (c.isIntegral = true ∧ (op = .mod ∨ op = .shl ∨ op = .shr ∨ op = .band ∨ op = .bxor ∨ op = .bor))) :
    (prologue a (.arith b1) b (.arith b2) (.arith c) ;;
      .prim (arithInstr op (.arith c) sg ++ normalize (.arith c))).eff 0 = some (slots (.arith c)) :=
  sh_bin ha hb (conv_shape _ _) (conv_shape _ _) (arith_shape h)

theorem shape_rel {op : BinOp} {a b : SC} {b1 b2 c : Basic}
    (ha : a.eff 0 = some (slots (.arith b1))) (hb : b.eff 0 = some (slots (.arith b2)))
    (h : op = .lt ∨ op = .gt ∨ op = .le ∨ op = .ge ∨ op = .eq ∨ op = .ne) :
    (a ;; .prim (typeconv (.arith b1) (.arith c)) ;; b ;;
      .prim (typeconv (.arith b2) (.arith c) ++ relInstr op (.arith c))).eff 0 = some 1 :=
  sh_seq ha (sh_seq (m := slots (.arith c)) (conv_shape _ _) (sh_seq (up hb _)
    (sh_app (effs_mono (conv_shape _ _) _) (rel_shape h))))

theorem shape_rel_ptr {op : BinOp} {a b : SC} {ta : Ty} (ha : a.eff 0 = some 1) (hb : b.eff 0 = some 1)
    (ht : (∃ u, ta = .ptr u) ∨ ∃ c, ta = .arith c ∧ c.isIntegral = true)
    (h : op = .lt ∨ op = .gt ∨ op = .le ∨ op = .ge ∨ op = .eq ∨ op = .ne) :
    (a ;; b ;; .prim (relInstr op ta)).eff 0 = some 1 := by
  refine sh_seq ha (sh_seq (up hb _) ?_)
  rcases ht with ⟨u, rfl⟩ | ⟨c, rfl, hc⟩
  · exact rel_ptr_shape u h
  · have := rel_shape (c := c) h
    rwa [show slots (.arith c) = 1 from integral_slots (t := .arith c) hc] at this

theorem intCase {a b : SC} {t1 t2 t : Ty} {w1 w2 : Option Nat}
    (ha : a.eff 0 = some (slots t1)) (hb : b.eff 0 = some (slots t2)) :
    ∀ {op}, (op = .mod ∨ op = .band ∨ op = .bxor ∨ op = .bor) →
    (if (t1.isIntegral && t2.isIntegral) = true then kCommon t1 w1 t2 w2 else none) = some t →
    (prologue a t1 b t2 t ;; .prim (arithInstr op t t.isSigned ++ normalize t)).eff 0 = some (slots t) := by
  intro op ho hk
  split at hk
  case isFalse => cases hk
  rename_i hi
  rw [Bool.and_eq_true] at hi
  obtain ⟨b1, rfl, i1⟩ := integral_arith hi.1
  obtain ⟨b2, rfl, i2⟩ := integral_arith hi.2
  obtain ⟨c, hc, ic⟩ := kCommon_arith b1 b2 w1 w2
  rw [hc] at hk; cases hk
  exact shape_arith ha hb (.inr ⟨ic i1 i2, by rcases ho with rfl | rfl | rfl | rfl <;> simp⟩)

theorem arCase {a b : SC} {t1 t2 t : Ty} {w1 w2 : Option Nat}
    (ha : a.eff 0 = some (slots t1)) (hb : b.eff 0 = some (slots t2)) :
    ∀ {op} {sg : Bool}, (op = .add ∨ op = .sub ∨ op = .mul ∨ op = .div) →
    (if (t1.isArith && t2.isArith) = true then kCommon t1 w1 t2 w2 else none) = some t →
    (prologue a t1 b t2 t ;; .prim (arithInstr op t sg ++ normalize t)).eff 0 = some (slots t) := by
  intro op sg ho hk
  split at hk
  case isFalse => cases hk
  rename_i hi
  rw [Bool.and_eq_true] at hi
  obtain ⟨b1, rfl⟩ := isArith_inv hi.1
  obtain ⟨b2, rfl⟩ := isArith_inv hi.2
  obtain ⟨c, hc, ic⟩ := kCommon_arith b1 b2 w1 w2
  rw [hc] at hk; cases hk
  exact shape_arith ha hb (.inl ho)

theorem shCase {a b : SC} {t1 t2 t : Ty} {w1 : Option Nat}
    (ha : a.eff 0 = some (slots t1)) (hb : b.eff 0 = some (slots t2)) :
    ∀ {op} {sg : Bool}, (op = .shl ∨ op = .shr) →
    (match t1 with
      | .arith b1 => if (b1.isIntegral && t2.isIntegral) = true then (b1.intPromotion w1).map Ty.arith else none
      | _ => none) = some t →
    (prologue a t1 b t2 t ;; .prim (arithInstr op t sg ++ normalize t)).eff 0 = some (slots t) := by
  intro op sg ho hk
  cases t1 with
  | arith b1 =>
    simp only at hk
    split at hk
    case isFalse => cases hk
    rename_i hi
    rw [Bool.and_eq_true] at hi
    obtain ⟨b2, rfl, i2⟩ := integral_arith hi.2
    rw [Option.map_eq_some_iff] at hk
    obtain ⟨c, hc, rfl⟩ := hk
    exact shape_arith ha hb (.inr ⟨promo_integral hc, by rcases ho with rfl | rfl <;> simp⟩)
  | _ => cases hk

theorem relArith {a b : SC} {t1 t2 : Ty} {w1 w2 : Option Nat}
    (ha : a.eff 0 = some (slots t1)) (hb : b.eff 0 = some (slots t2)) :
    ∀ {op b1 b2}, t1 = .arith b1 → t2 = .arith b2 →
    (op = .lt ∨ op = .gt ∨ op = .le ∨ op = .ge ∨ op = .eq ∨ op = .ne) →
    (match kCommon t1 w1 t2 w2 with
      | some c => a ;; .prim (typeconv t1 c) ;; b ;; .prim (typeconv t2 c ++ relInstr op c)
      | none => a ;; b ;; .prim (relInstr op t1)).eff 0 = some 1 := by
  intro op b1 b2 e1 e2 ho
  subst e1 e2
  obtain ⟨c, hc, _⟩ := kCommon_arith b1 b2 w1 w2
  rw [hc]
  exact shape_rel ha hb ho

theorem relPtr {a b : SC} {t1 t2 : Ty} {w1 w2 : Option Nat}
    (ha : a.eff 0 = some (slots t1)) (hb : b.eff 0 = some (slots t2)) :
    ∀ {op}, kCommon t1 w1 t2 w2 = none → slots t1 = 1 → slots t2 = 1 →
    ((∃ u, t1 = .ptr u) ∨ ∃ c, t1 = .arith c ∧ c.isIntegral = true) →
    (op = .lt ∨ op = .gt ∨ op = .le ∨ op = .ge ∨ op = .eq ∨ op = .ne) →
    (match kCommon t1 w1 t2 w2 with
      | some c => a ;; .prim (typeconv t1 c) ;; b ;; .prim (typeconv t2 c ++ relInstr op c)
      | none => a ;; b ;; .prim (relInstr op t1)).eff 0 = some 1 := by
  intro op hn s1 s2 ht ho
  rw [hn]
  exact shape_rel_ptr (s1 ▸ ha) (s2 ▸ hb) ht ho

theorem ordCase {a b : SC} {t1 t2 t : Ty} {w1 w2 : Option Nat}
    (ha : a.eff 0 = some (slots t1)) (hb : b.eff 0 = some (slots t2)) :
    ∀ {op}, (op = .lt ∨ op = .gt ∨ op = .le ∨ op = .ge) →
    (match t1, t2 with
      | .ptr t, .ptr u => if t == u then some (Ty.arith .int) else none
      | t1, t2 => if (t1.isArith && t2.isArith) = true then some (.arith .int) else none) = some t →
    (match kCommon t1 w1 t2 w2 with
      | some c => a ;; .prim (typeconv t1 c) ;; b ;; .prim (typeconv t2 c ++ relInstr op c)
      | none => a ;; b ;; .prim (relInstr op t1)).eff 0 = some (slots t) := by
  intro op ho hk
  have ho' : op = .lt ∨ op = .gt ∨ op = .le ∨ op = .ge ∨ op = .eq ∨ op = .ne := by
    rcases ho with h | h | h | h <;> simp [h]
  split at hk
  · split at hk <;> cases hk
    exact relPtr (w1 := w1) (w2 := w2) ha hb rfl rfl rfl (.inl ⟨_, rfl⟩) ho'
  · split at hk <;> cases hk
    rename_i hi
    rw [Bool.and_eq_true] at hi
    obtain ⟨b1, e1⟩ := isArith_inv hi.1
    obtain ⟨b2, e2⟩ := isArith_inv hi.2
    exact relArith (w1 := w1) (w2 := w2) ha hb e1 e2 ho'

theorem eqCase {a b : SC} {t1 t2 t : Ty} {w1 w2 : Option Nat}
    (ha : a.eff 0 = some (slots t1)) (hb : b.eff 0 = some (slots t2)) {c1 c2 : Bool} :
    ∀ {op}, (op = .eq ∨ op = .ne) →
    (match t1, t2 with
      | .arith _, .arith _ => some (Ty.arith .int)
      | .ptr t, .ptr u => if (t == u || t == .void || u == .void) = true then some (.arith .int) else none
      | .ptr _, t2 => if (t2.isIntegral && c2) = true then some (.arith .int) else none
      | t1, .ptr _ => if (t1.isIntegral && c1) = true then some (.arith .int) else none
      | _, _ => none) = some t →
    (match kCommon t1 w1 t2 w2 with
      | some c => a ;; .prim (typeconv t1 c) ;; b ;; .prim (typeconv t2 c ++ relInstr op c)
      | none => a ;; b ;; .prim (relInstr op t1)).eff 0 = some (slots t) := by
  intro op ho hk
  have ho' : op = .lt ∨ op = .gt ∨ op = .le ∨ op = .ge ∨ op = .eq ∨ op = .ne := by
    rcases ho with h | h <;> simp [h]
  split at hk
  · cases hk; exact relArith (w1 := w1) (w2 := w2) ha hb rfl rfl ho'
  · split at hk <;> cases hk
    exact relPtr (w1 := w1) (w2 := w2) ha hb rfl rfl rfl (.inl ⟨_, rfl⟩) ho'
  · split at hk <;> cases hk
    rename_i hi
    rw [Bool.and_eq_true] at hi
    exact relPtr (w1 := w1) (w2 := w2) ha hb (by cases t2 <;> rfl) rfl (integral_slots hi.1) (.inl ⟨_, rfl⟩) ho'
  · split at hk <;> cases hk
    rename_i hi
    rw [Bool.and_eq_true] at hi
    obtain ⟨b1, e1, i1⟩ := integral_arith hi.1
    exact relPtr (w1 := w1) (w2 := w2) ha hb (by cases t1 <;> rfl) (integral_slots hi.1) rfl (.inr ⟨_, e1, i1⟩) ho'
  · cases hk

theorem shape_bin {op : BinOp} {a b : SC} {t1 t2 t : Ty} {w1 w2 : Option Nat} {c1 c2 : Bool}
    (ha : a.eff 0 = some (slots t1)) (hb : b.eff 0 = some (slots t2)) (hk : kBin op t1 w1 c1 t2 w2 c2 = some t) :
    (trBin op a t1 w1 b t2 w2 t).eff 0 = some (slots t) := by
  cases op with
  | mod => exact intCase ha hb (by simp) hk
  | band => exact intCase ha hb (by simp) hk
  | bxor => exact intCase ha hb (by simp) hk
  | bor => exact intCase ha hb (by simp) hk
  | mul => exact arCase ha hb (by simp) hk
  | div => exact arCase ha hb (by simp) hk
  | shl => exact shCase ha hb (by simp) hk
  | shr => exact shCase ha hb (by simp) hk
  | lt => exact ordCase ha hb (by simp) hk
  | gt => exact ordCase ha hb (by simp) hk
  | le => exact ordCase ha hb (by simp) hk
  | ge => exact ordCase ha hb (by simp) hk
  | eq => exact eqCase ha hb (by simp) hk
  | ne => exact eqCase ha hb (by simp) hk
  | add =>
    simp only [kBin] at hk
    split at hk
    · split at hk <;> cases hk
      rename_i hi
      rw [Bool.and_eq_true] at hi
      have s2 := integral_slots hi.2
      exact sh_seq ha (sh_seq (m := 2) (by have := up hb 1; rw [s2] at this; exact this) rfl)
    · split at hk <;> cases hk
      rename_i hi
      rw [Bool.and_eq_true] at hi
      obtain ⟨b1, rfl, i1⟩ := integral_arith hi.2
      have s2 := integral_slots hi.2
      exact sh_seq hb (sh_seq (m := 2) (by have := up ha 1; rw [s2] at this; exact this) rfl)
    · have h := arCase ha hb (op := .add) (sg := false) (by simp) hk
      split at hk
      case isFalse => cases hk
      rename_i hi
      rw [Bool.and_eq_true] at hi
      obtain ⟨b1, rfl⟩ := isArith_inv hi.1
      obtain ⟨b2, rfl⟩ := isArith_inv hi.2
      exact h
  | sub =>
    simp only [kBin] at hk
    split at hk
    · split at hk <;> cases hk
      exact sh_bin ha hb rfl rfl rfl
    · split at hk <;> cases hk
      rename_i hi
      rw [Bool.and_eq_true] at hi
      obtain ⟨b2, rfl, i2⟩ := integral_arith hi.2
      have s2 := integral_slots hi.2
      exact sh_bin ha hb (conv_ptr _ rfl) (conv_ptr _ s2) rfl
    · have h := arCase ha hb (op := .sub) (sg := false) (by simp) hk
      split at hk
      case isFalse => cases hk
      rename_i hi
      rw [Bool.and_eq_true] at hi
      obtain ⟨b1, rfl⟩ := isArith_inv hi.1
      obtain ⟨b2, rfl⟩ := isArith_inv hi.2
      exact h

/-- Bit-fields have integer types. -/
def bfTy (t : Ty) (bf : Option (Nat × Nat)) : Prop := bf = none ∨ t.isIntegral = true

theorem dec_integral {t : Ty} (h : t.isIntegral = true) : t.dec = t := by
  obtain ⟨b, rfl, _⟩ := integral_arith h; rfl

theorem resolve_shape {t : Ty} {bf : Option (Nat × Nat)} (h : bfTy t bf) :
    effs (resolveLvalue t bf) 1 = some (slots t.dec) := by
  cases bf with
  | none =>
    cases t with
    | arith b => cases b <;> rfl
    | _ => rfl
  | some p =>
    rcases h with h | h
    · cases h
    · obtain ⟨b, rfl, hi⟩ := integral_arith h
      rw [show slots (Ty.dec (.arith b)) = 1 from integral_slots (t := .arith b) hi]
      simp only [resolveLvalue, resolveBitfield, loadBitfield]
      split <;> rfl

theorem store_shape {t : Ty} {bf : Option (Nat × Nat)} (h : bfTy t bf) (hv : t ≠ .void) :
    effs (storeLvalue t bf) (slots t + 1) = some 0 := by
  cases bf with
  | none =>
    cases t with
    | arith b => cases b <;> rfl
    | void => exact absurd rfl hv
    | _ => rfl
  | some p =>
    rcases h with h | h
    · cases h
    · rw [integral_slots h]; rfl

theorem storeResult_shape {t : Ty} {bf : Option (Nat × Nat)} (h : bfTy t bf) (hv : t ≠ .void) :
    effs (storeResult t bf) (slots t + 1) = some (slots t) := by
  unfold storeResult
  refine sh_app (m := slots t) (sh_app (m := slots t + 1 + slots t) ?_ ?_) ?_
  · by_cases hl : t = .arith .ldouble
    · subst hl; rfl
    · have : slots t = 1 := by
        cases t with
        | arith b => cases b <;> first | rfl | exact absurd rfl hl
        | void => exact absurd rfl hv
        | _ => rfl
      rw [if_neg hl, this]; rfl
  · have := effs_mono (store_shape h hv) (slots t)
    rwa [Nat.zero_add] at this
  · split
    · split
      · rename_i hi
        rw [show slots (.arith _) = 1 from integral_slots (t := .arith _) hi]
        split <;> rfl
      · rfl
    · rfl

theorem compound_shape {op : BinOp} {c : Basic} {value : Ty} {b1 b2 : Basic}
    (hk : kAssignOp op (.arith b1) (.arith b2) = true)
    (hc : b1.isIntegral = true → b2.isIntegral = true → c.isIntegral = true) :
    effs (compoundInstr op (.arith c) value) (slots (.arith c) + slots (.arith c)) = some (slots (.arith c)) := by
  cases op <;> simp only [kAssignOp, Ty.isIntegral, Ty.isArith, Bool.and_eq_true, Bool.false_eq_true] at hk <;>
    simp only [compoundInstr] <;>
    (first
     | (have hi := hc hk.1 hk.2
        revert hi; clear hc hk; cases value.isSigned <;> cases c <;> intro hi <;> first | rfl | cases hi)
     | (cases c <;> rfl))

theorem incdec_shape {t : Ty} (dec : Bool) (h : t.isScalar = true) :
    effs (incdecInstr t dec ++ normalize t) (slots t) = some (slots t) := by
  cases t <;> simp only [Ty.isScalar, Bool.false_eq_true] at h
  · rename_i b; cases b <;> rfl
  · rfl

theorem keep_shape {t : Ty} (h : t.isScalar = true) : effs (keepValue t) (slots t + 1) = some (slots t + 1 + slots t) := by
  unfold keepValue
  rcases scalar_slots h with ⟨h1, h2⟩ | ⟨h1, h2⟩
  · rw [if_pos h1, h2]; rfl
  · rw [if_neg h1, h2]; rfl

theorem reorder_shape (c : Ty) (h : c ≠ .void) : effs (reorder c) (slots c + slots c + 1) = some (slots c + slots c + 1) := by
  unfold reorder
  by_cases hl : c = .arith .ldouble
  · subst hl; rfl
  · rw [if_neg hl]
    have : slots c = 1 := by
      cases c with
      | arith b => cases b <;> first | rfl | exact absurd rfl hl
      | void => exact absurd rfl h
      | _ => rfl
    rw [this]; rfl

theorem offsets_shape (l : List Nat) (n : Nat) : effs (offsets l) (n + 1) = some (n + 1) := by
  induction l with
  | nil => rfl
  | cons o os ih =>
    simp only [offsets]
    refine sh_app (m := n + 1) ?_ ih
    split
    · rfl
    · simp [effs, eff1]

theorem pops_shape (k n : Nat) : effs (List.replicate k .pop) (k + n) = some n := by
  induction k with
  | zero => simp [effs]
  | succ k ih =>
    simp only [List.replicate_succ, effs, eff1]
    rw [if_pos (by omega), Option.bind_some, show k + 1 + n - 1 = k + n from by omega, ih]

theorem assign_conv {lt t : Ty} (h : kAssignable lt t = true) :
    effs (if lt.isScalar then typeconv t lt else []) (slots t) = some (slots lt) := by
  cases lt with
  | void => cases t <;> cases h
  | arith b =>
    rw [if_pos (by rfl)]
    cases t with
    | arith c => exact conv_shape c b
    | ptr u => cases b <;> first | rfl | cases h
    | _ => cases b <;> cases h
  | ptr u =>
    rw [if_pos (by rfl)]
    cases t with
    | ptr v => exact conv_ptr u rfl
    | arith c => exact conv_ptr (t := .arith c) u (integral_slots (t := .arith c) h)
    | _ => cases h
  | agg g s =>
    rw [if_neg (by simp [Ty.isScalar])]
    simp only [kAssignable, beq_iff_eq] at h
    subst h; rfl
  | arr u n => cases t <;> cases h

theorem assignable_nv {lt t : Ty} (h : kAssignable lt t = true) : lt ≠ .void := by
  rintro rfl; cases t <;> cases h

theorem xchg_val {t : Ty} (hv : t ≠ .void) :
    effs (if t = .arith .ldouble then [.xchg 2, .xchg 1] else [.xchg 1]) (1 + slots t) = some (slots t + 1) := by
  by_cases hl : t = .arith .ldouble
  · subst hl; rfl
  · rw [if_neg hl]
    have : slots t = 1 := by
      cases t with
      | arith b => cases b <;> first | rfl | exact absurd rfl hl
      | void => exact absurd rfl hv
      | _ => rfl
    rw [this]; rfl

theorem bfTy_lv {l : LV} {t : Ty} (hb : balancedL l = true) (h : klty l = some t) : bfTy t l.bf := by
  cases l with
  | member e offs u bf =>
    simp only [balancedL, Bool.and_eq_true, Bool.or_eq_true] at hb
    simp only [klty, Option.bind_eq_some_iff] at h
    obtain ⟨_, _, h⟩ := h
    have : u = t := by split at h <;> first | (cases h; rfl) | cases h
    subst this
    rcases hb.2 with hn | hi
    · left; simpa [LV.bf, Option.isNone_iff_eq_none] using hn
    · right; exact hi
  | _ => exact .inl rfl

theorem sh_skip {x : SC} {n : Nat} (h : x.eff n = some n) : (SC.skip x).eff (n + 1) = some n := by
  simp only [SC.eff, Nat.add_sub_cancel]
  rw [if_pos ⟨by omega, h⟩]

theorem sh_ite {y z : SC} {n k : Nat} (h1 : y.eff n = some k) (h2 : z.eff n = some k) :
    (SC.ite y z).eff (n + 1) = some k := by
  simp only [SC.eff, Nat.add_sub_cancel]
  rw [if_pos ⟨by omega, h1.trans h2.symm⟩, h1]

theorem slots_cond {t1 t2 t : Ty} {w1 w2 : Option Nat} {n1 n2 : Bool} (h : kCond t1 w1 n1 t2 w2 n2 = some t)
    (hs : slots t1 = slots t2) : slots t = slots t1 := by
  cases t1 with
  | arith b1 =>
    cases t2 with
    | arith b2 =>
      simp only [kCond, Option.map_eq_some_iff] at h
      obtain ⟨c, hc, rfl⟩ := h
      by_cases i1 : b1 = .ldouble
      · subst i1
        cases hc; rfl
      · by_cases i2 : b2 = .ldouble
        · subst i2; cases b1 <;> first | (cases hs; done) | exact absurd rfl i1
        · have s1 : slots (.arith b1) = 1 := by cases b1 <;> first | rfl | exact absurd rfl i1
          rw [s1]
          have hn : c ≠ .ldouble := by
            by_cases j1 : b1.isIntegral = true
            · by_cases j2 : b2.isIntegral = true
              · obtain ⟨c', hc', hi⟩ := common_some b1 b2 w1 w2
                rw [hc] at hc'; cases hc'
                rintro rfl
                cases hi j1 j2
              · rw [Types.C12_common_floating b1 b2 w1 w2 (.inr (by cases b2 <;> first | rfl | exact absurd rfl j2))] at hc
                cases hc
                cases b1 <;> cases b2 <;> first | (exact absurd rfl i1) | (exact absurd rfl i2) | decide
            · rw [Types.C12_common_floating b1 b2 w1 w2 (.inl (by cases b1 <;> first | rfl | exact absurd rfl j1))] at hc
              cases hc
              cases b1 <;> cases b2 <;> first | (exact absurd rfl i1) | (exact absurd rfl i2) | decide
          cases c <;> first | rfl | exact absurd rfl hn
    | ptr u =>
      simp only [kCond] at h
      split at h <;> cases h
      exact hs.symm
    | _ => cases h
  | ptr u =>
    simp only [kCond] at h
    split at h
    · cases h; rfl
    · split at h
      · split at h
        · cases h; rfl
        · split at h
          · cases h; rfl
          · split at h <;> cases h; rfl
      · cases h
  | void =>
    cases t2 <;> simp only [kCond] at h <;> try cases h
    · rfl
    · cases hs
  | agg g s =>
    cases t2 <;> simp only [kCond] at h <;> try cases h
    · split at h <;> cases h; rfl
    · split at h <;> cases h; rfl
  | arr u n =>
    cases t2 <;> simp only [kCond] at h <;> try cases h
    · split at h <;> cases h; rfl


theorem shape_cast {t u r : Ty} {e : Expr} (hu : kty e = some u) (hr : kty (.cast t e) = some r) :
    r = t ∧ effs (typeconv u t) (slots u) = some (slots t) := by
  simp only [kty, hu, Option.bind_some] at hr
  split at hr
  · rename_i ht
    subst ht; cases hr
    exact ⟨rfl, conv_void u⟩
  · split at hr
    case isFalse => cases hr
    rename_i hs
    rw [Bool.and_eq_true] at hs
    cases t <;> simp only [Ty.isScalar, Bool.false_eq_true, false_and] at hs
    · rename_i b _
      cases u <;> simp only [Bool.false_eq_true, and_false] at hs
      · cases hr; exact ⟨rfl, conv_shape _ _⟩
      · simp only at hr
        split at hr <;> cases hr
        rename_i hi
        refine ⟨rfl, ?_⟩
        rw [show slots (.arith b) = 1 from integral_slots (t := .arith b) hi]
        exact conv_ptr_int _ hi
    · cases u <;> simp only [Bool.false_eq_true, and_false] at hs
      · simp only at hr
        split at hr <;> cases hr
        rename_i hi
        exact ⟨rfl, conv_ptr (t := .arith _) _ (integral_slots (t := .arith _) hi)⟩
      · cases hr; exact ⟨rfl, conv_ptr _ rfl⟩

theorem shape_un {op : UnOp} {e : Expr} {u r : Ty} (hu : kty e = some u) (hr : kty (.un op e) = some r)
    (h : (tr e).eff 0 = some (slots u)) : (tr (.un op e)).eff 0 = some (slots r) := by
  have hk := kt_of' hu
  have hk2 := kt_of' hr
  simp only [kty, hu, Option.bind_some] at hr
  cases op with
  | plus =>
    simp only [tr, hk2]
    refine sh_seq h ?_
    cases u <;> simp only [reduceCtorEq] at hr
    rename_i b
    split at hr
    · rename_i hi
      rw [Option.map_eq_some_iff] at hr
      obtain ⟨c, hc, rfl⟩ := hr
      have ic := promo_integral hc
      rw [show slots (.arith b) = 1 from integral_slots (t := .arith b) hi]
      simp only [SC.eff]
      revert ic; cases c <;> intro ic <;> first | rfl | cases ic
    · cases hr; cases b <;> rfl
  | neg =>
    simp only [tr, hk2, hk]
    refine sh_seq h ?_
    cases u <;> simp only [reduceCtorEq] at hr
    rename_i b
    split at hr
    · rename_i hi
      rw [Option.map_eq_some_iff] at hr
      obtain ⟨c, hc, rfl⟩ := hr
      have ic := promo_integral hc
      simp only [SC.eff]
      revert ic hi; clear hc; cases b <;> intro hi <;> first | cases hi; done | (cases c <;> intro ic <;> first | rfl | cases ic)
    · cases hr; cases b <;> rfl
  | bnot =>
    simp only [tr, hk2]
    refine sh_seq h ?_
    cases u <;> simp only [reduceCtorEq] at hr
    rename_i b
    rw [Option.map_eq_some_iff] at hr
    obtain ⟨c, hc, rfl⟩ := hr
    have ic := promo_integral hc
    have hi : b.isIntegral = true := by
      unfold Types.Basic.intPromotion at hc
      split at hc
      · cases hc
      · rename_i hh; simpa using hh
    rw [show slots (.arith b) = 1 from integral_slots (t := .arith b) hi]
    simp only [SC.eff]
    revert ic; cases c <;> intro ic <;> first | rfl | cases ic
  | lnot =>
    simp only [tr, hk]
    refine sh_seq h ?_
    simp only at hr
    split at hr <;> cases hr
    rename_i hs
    rcases scalar_slots hs with ⟨h1, h2⟩ | ⟨h1, h2⟩ <;> rw [h2] <;> simp [SC.eff, h1, effs, eff1, slots]

theorem scalar_nv {t : Ty} (h : t.isScalar = true) : t ≠ .void := by rintro rfl; cases h

theorem shape_assignOp {op : BinOp} {l : LV} {e : Expr} {lt t r : Ty} (hl : klty l = some lt) (he : kty e = some t)
    (hb : bfTy lt l.bf) (hr : kty (.assignOp op l e) = some r) (sl : (trL l).eff 0 = some 1)
    (se : (tr e).eff 0 = some (slots t)) : (tr (.assignOp op l e)).eff 0 = some (slots r) := by
  simp only [kty, hl, he, Option.bind_some] at hr
  split at hr <;> cases hr
  rename_i hk
  simp only [tr, klt_of' hl, kt_of' he]
  have arithCase : ∀ {b1 : Basic}, lt = .arith b1 → (match kCommon lt (l.bf.map fun x : Nat × Nat => x.2) t e.bfw with
      | some c =>
        tr e ;; .prim (typeconv t c) ;; trL l ;;
          .prim ([Instr.pick 0] ++ resolveLvalue lt l.bf ++ typeconv lt c ++ reorder c ++
            compoundInstr op c t ++ typeconv c lt ++ storeResult lt l.bf)
      | none => .prim []).eff 0 = some (slots lt) := by
    intro b1 h1
    subst h1
    have : t.isArith = true := by
      cases op <;> simp only [kAssignOp, Ty.dec, Bool.and_eq_true, Bool.false_eq_true] at hk <;>
        first | exact integral_isArith hk.2 | exact hk.2
    obtain ⟨b2, rfl⟩ := isArith_inv this
    obtain ⟨c, hc, hi⟩ := kCommon_arith b1 b2 (l.bf.map fun x : Nat × Nat => x.2) e.bfw
    rw [hc]
    refine sh_seq se (sh_seq (m := slots (.arith c)) (conv_shape _ _) (sh_seq (up sl _) ?_))
    refine sh_app (m := slots (.arith b1) + 1) (sh_app (m := slots (.arith c) + 1)
      (sh_app (m := slots (.arith c) + slots (.arith c) + 1) (sh_app (m := slots (.arith c) + (slots (.arith c) + 1))
      (sh_app (m := slots (.arith b1) + (slots (.arith c) + 1)) (sh_app (m := slots (.arith c) + 2) ?_ ?_) ?_) ?_) ?_) ?_)
      (storeResult_shape hb (by simp))
    · simp [effs, eff1]; omega
    · have := effs_mono (resolve_shape hb) (slots (.arith c) + 1)
      rw [show 1 + (slots (Ty.arith c) + 1) = slots (.arith c) + 2 from by omega] at this
      exact this
    · exact effs_mono (conv_shape b1 c) _
    · rw [← Nat.add_assoc]; exact reorder_shape _ (by simp)
    · exact effs_mono (compound_shape hk hi) 1
    · exact effs_mono (conv_shape c b1) 1
  have ptrCase : ∀ {u : Ty}, lt.dec = .ptr u → (tr e ;; .prim (if op = .sub then [.un .neg] else []) ;; trL l ;;
        .prim ([.pick 0] ++ resolveLvalue lt l.bf ++ reorder .void ++ [.elementptr u.size] ++
          storeResult (.ptr u) l.bf)).eff 0 = some 1 := by
    intro u hu
    rw [hu] at hk
    have hi : t.isIntegral = true := by
      cases op <;> simp only [kAssignOp, Bool.and_eq_true, Bool.false_eq_true, Ty.isIntegral, Ty.isArith, false_and] at hk <;>
        exact hk.2
    have hbn : l.bf = none := by
      rcases hb with h | h
      · exact h
      · rw [dec_integral h] at hu; subst hu; cases h
    rw [integral_slots hi] at se
    refine sh_seq se (sh_seq (m := 1) ?_ (sh_seq (up sl _) ?_))
    · show effs _ 1 = some 1
      split <;> rfl
    refine sh_app (m := 2) (sh_app (m := 3) (sh_app (m := 3) (sh_app (m := 3) rfl ?_) rfl) rfl)
      (storeResult_shape (t := .ptr u) (.inl hbn) (by simp))
    have := effs_mono (resolve_shape hb) 2
    rw [hu] at this
    exact this
  cases hlt : lt with
  | arith b1 => simp only [Ty.dec]; rw [← hlt]; exact arithCase hlt
  | ptr u => simp only [Ty.dec]; have h := ptrCase (u := u) (by rw [hlt]; rfl); rw [hlt] at h; exact h
  | arr u n => simp only [Ty.dec]; rw [← hlt]; exact ptrCase (by rw [hlt]; rfl)
  | void => subst hlt; cases op <;> cases hk
  | agg g s => subst hlt; cases op <;> cases hk

mutual
/-- The code of a well-typed balanced expression needs no words and leaves exactly the words of its value. -/
theorem shape : (e : Expr) → balanced e = true → ∀ t, kty e = some t → (tr e).eff 0 = some (slots t)
  | .const b v, hb, t, h => by
    cases h
    rw [show slots (.arith b) = 1 from integral_slots (t := .arith b) hb]; rfl
  | .fconst f x, _, t, h => by cases h; cases f <;> rfl
  | .str id, _, t, h => by cases h; rfl
  | .sizeof u, _, t, h => by
    simp only [kty] at h
    split at h <;> cases h; rfl
  | .lval l, hb, t, h => by
    simp only [kty, Option.map_eq_some_iff] at h
    obtain ⟨lt, hl, rfl⟩ := h
    have sl := shapeL l hb lt hl
    simp only [tr, klt_of' hl]
    exact sh_seq sl (resolve_shape (bfTy_lv hb hl))
  | .addr l, hb, t, h => by
    simp only [kty] at h
    split at h
    · cases h
    rw [Option.map_eq_some_iff] at h
    obtain ⟨lt, hl, rfl⟩ := h
    exact shapeL l hb lt hl
  | .cast t e, hb, r, h => by
    cases hu : kty e with
    | none => simp [kty, hu] at h
    | some u =>
      obtain ⟨rfl, hc⟩ := shape_cast hu h
      simp only [tr, kt_of' hu]
      exact sh_seq (shape e hb u hu) hc
  | .un op e, hb, r, h => by
    cases hu : kty e with
    | none => simp [kty, hu] at h
    | some u => exact shape_un hu h (shape e hb u hu)
  | .bin op a b, hb, r, h => by
    simp only [balanced, Bool.and_eq_true] at hb
    have hr := kt_of' h
    simp only [kty, Option.bind_eq_some_iff] at h
    obtain ⟨t1, h1, t2, h2, hk⟩ := h
    simp only [tr, hr, kt_of' h1, kt_of' h2]
    exact shape_bin (shape a hb.1 t1 h1) (shape b hb.2 t2 h2) hk
  | .land a b, hb, r, h => by
    simp only [balanced, Bool.and_eq_true] at hb
    simp only [kty, Option.bind_eq_some_iff] at h
    obtain ⟨t1, h1, t2, h2, hk⟩ := h
    split at hk <;> cases hk
    rename_i hs
    rw [Bool.and_eq_true] at hs
    simp only [tr, kt_of' h1, kt_of' h2]
    refine sh_seq (shape a hb.1 t1 h1) (sh_seq (m := 2) (sh_app (truncate_shape hs.1) rfl) (sh_skip (n := 1) ?_))
    exact sh_seq (up (shape b hb.2 t2 h2) 1) (sh_app (effs_mono (truncate_shape hs.2) 1) rfl)
  | .lor a b, hb, r, h => by
    simp only [balanced, Bool.and_eq_true] at hb
    simp only [kty, Option.bind_eq_some_iff] at h
    obtain ⟨t1, h1, t2, h2, hk⟩ := h
    split at hk <;> cases hk
    rename_i hs
    rw [Bool.and_eq_true] at hs
    simp only [tr, kt_of' h1, kt_of' h2]
    refine sh_seq (shape a hb.1 t1 h1) (sh_seq (m := 2) (sh_app (truncate_shape hs.1) rfl) (sh_skip (n := 1) ?_))
    exact sh_seq (up (shape b hb.2 t2 h2) 1) (sh_app (effs_mono (truncate_shape hs.2) 1) rfl)
  | .cond c a b, hb, r, h => by
    simp only [balanced, Bool.and_eq_true, beq_iff_eq] at hb
    simp only [kty, Option.bind_eq_some_iff] at h
    obtain ⟨t0, h0, t1, h1, t2, h2, hk⟩ := h
    split at hk
    case isFalse => cases hk
    obtain ⟨⟨⟨⟨b0, b1⟩, b2⟩, s0⟩, s12⟩ := hb
    rw [kt_of' h0] at s0
    rw [kt_of' h1, kt_of' h2] at s12
    have sr := slots_cond hk s12
    have e0 := shape c b0 t0 h0
    have e1 := shape a b1 t1 h1
    have e2 := shape b b2 t2 h2
    rw [s0] at e0
    rw [← sr] at e1
    rw [← s12, ← sr] at e2
    simp only [tr]
    exact sh_seq e0 (sh_ite e1 e2)
  | .elvis c b, hb, r, h => by
    simp only [balanced, Bool.and_eq_true, beq_iff_eq] at hb
    simp only [kty, Option.bind_eq_some_iff] at h
    obtain ⟨t1, h1, t2, h2, hk⟩ := h
    split at hk
    case isFalse => cases hk
    obtain ⟨⟨⟨b1, b2⟩, s1⟩, s2⟩ := hb
    rw [kt_of' h1] at s1
    rw [kt_of' h2] at s2
    have sr := slots_cond hk (s1.trans s2.symm)
    have e1 := shape c b1 t1 h1
    have e2 := shape b b2 t2 h2
    rw [s1] at e1
    rw [s2] at e2
    rw [sr, s1]
    simp only [tr]
    exact sh_seq e1 (sh_seq (m := 2) rfl (sh_skip (n := 1) (sh_seq (m := 0) rfl e2)))
  | .comma a b, hb, r, h => by
    simp only [balanced, Bool.and_eq_true] at hb
    simp only [kty, Option.bind_eq_some_iff] at h
    obtain ⟨t1, h1, h2⟩ := h
    simp only [tr, kt_of' h1]
    exact sh_seq (shape a hb.1 t1 h1) (sh_seq (m := 0) (pops_shape _ 0) (shape b hb.2 r h2))
  | .assign l e, hb, r, h => by
    simp only [balanced, Bool.and_eq_true] at hb
    simp only [kty, Option.bind_eq_some_iff] at h
    obtain ⟨lt, hl, t, he, hk⟩ := h
    split at hk <;> cases hk
    rename_i ha
    simp only [tr, klt_of' hl, kt_of' he]
    have hbf : bfTy lt.dec l.bf := by
      rcases bfTy_lv hb.1 hl with h | h
      · exact .inl h
      · right; rwa [dec_integral h]
    refine sh_seq (shape e hb.2 t he) (sh_seq (m := slots lt.dec) (assign_conv ha) (sh_seq (up (shapeL l hb.1 lt hl) _) ?_))
    exact sh_app (xchg_val (assignable_nv ha)) (storeResult_shape hbf (assignable_nv ha))
  | .assignOp op l e, hb, r, h => by
    simp only [balanced, Bool.and_eq_true] at hb
    have h' := h
    simp only [kty, Option.bind_eq_some_iff] at h'
    obtain ⟨lt, hl, t, he, hk⟩ := h'
    exact shape_assignOp hl he (bfTy_lv hb.1 hl) h (shapeL l hb.1 lt hl) (shape e hb.2 t he)
  | .incdec post dec l, hb, r, h => by
    simp only [kty, Option.bind_eq_some_iff] at h
    obtain ⟨lt, hl, hk⟩ := h
    split at hk <;> cases hk
    rename_i hs
    simp only [tr, klt_of' hl]
    have hbf := bfTy_lv hb hl
    have hd : r.dec = r := by cases r <;> first | rfl | cases hs
    refine sh_seq (shapeL l hb r hl) ?_
    have res := effs_mono (resolve_shape hbf) 1
    rw [hd] at res
    refine sh_app (m := slots r + 1 + slots r) (sh_app (sh_app (m := 2) rfl res) ?_) ?_
    · have i1 := incdec_shape dec hs
      split
      · rw [List.append_assoc]
        refine sh_app (keep_shape hs) ?_
        have := effs_mono i1 (1 + slots r)
        rwa [← Nat.add_assoc] at this
      · exact sh_app (effs_mono i1 1) (keep_shape hs)
    · have := effs_mono (store_shape hbf (scalar_nv hs)) (slots r)
      rwa [Nat.zero_add] at this
theorem shapeL : (l : LV) → balancedL l = true → ∀ t, klty l = some t → (trL l).eff 0 = some 1
  | .auto offs t, _, u, h => by
    simp only [trL, SC.eff, effs, eff1, Option.bind_some]
    exact offsets_shape offs 0
  | .glob id offs t, _, u, h => by
    simp only [trL, SC.eff, effs, eff1, Option.bind_some]
    exact offsets_shape offs 0
  | .deref e, hb, u, h => by
    simp only [klty, Option.bind_eq_some_iff] at h
    obtain ⟨t, he, hk⟩ := h
    split at hk <;> cases hk
    exact shape e hb _ he
  | .index a i, hb, u, h => by
    simp only [balancedL, Bool.and_eq_true] at hb
    simp only [klty, Option.bind_eq_some_iff] at h
    obtain ⟨t1, h1, t2, h2, hk⟩ := h
    simp only [trL, kt_of' h1, kt_of' h2]
    have e1 := shape a hb.1 t1 h1
    have e2 := shape i hb.2 t2 h2
    split at hk
    · split at hk <;> cases hk
      rename_i hi
      rw [integral_slots hi] at e2
      exact sh_seq e1 (sh_seq (m := 2) (up e2 1) rfl)
    · split at hk <;> cases hk
      rename_i hi
      obtain ⟨c, rfl, _⟩ := integral_arith hi
      rw [integral_slots hi] at e1
      exact sh_seq e2 (sh_seq (m := 2) (up e1 1) rfl)
    · cases hk
  | .member e offs t bf, hb, u, h => by
    simp only [balancedL, Bool.and_eq_true] at hb
    simp only [klty, Option.bind_eq_some_iff] at h
    obtain ⟨t1, h1, hk⟩ := h
    simp only [trL]
    have e1 := shape e hb.1 t1 h1
    have : slots t1 = 1 := by split at hk <;> first | rfl | cases hk
    rw [this] at e1
    exact sh_seq e1 (offsets_shape offs 0)
end

end Kefir.Expr
