import Verif.Expr.IncDec

/-! The main induction: the code of an expression computes the C value and the C memory. -/
namespace Kefir.Expr
open Kefir.Types (Basic)
open Kefir.C17 Kefir.CSpec
open Kefir.IR

/-- The C view of a machine environment. -/
def ctxOf (E : Env) : Ctx := ⟨E.fp, E.locals, E.globals⟩

/-- Range of the operand, narrowed by the width for bit-fields. -/
def rangeMin (b : Basic) : Option Nat → Int
  | none => minVal b
  | some w => if signed b then -2 ^ (w - 1) else 0
def rangeMax (b : Basic) : Option Nat → Int
  | none => maxVal b
  | some w => if signed b then 2 ^ (w - 1) - 1 else 2 ^ w - 1

/-- The word of any value of an operand of type `t` is also the word of the value converted to `u`: what a branch of
a conditional operator needs, since kefir does not convert it. -/
def keepsWord (t : Ty) (w : Option Nat) (u : Ty) : Bool :=
  match t, u with
  | .arith b, .arith c =>
    if isInteger b && isInteger c then
      width c == 64 || (decide (minVal c ≤ rangeMin b w) && decide (rangeMax b w ≤ maxVal c))
    else b == c && !isInteger b
  | .arith b, .ptr _ => isInteger b
  | .ptr _, .ptr _ => true
  | .agg g s, .agg g' s' => g == g' && s == s'
  | .void, .void => true
  | _, _ => false

mutual
/-- Expressions for which kefir's code is right for all operand values.  What is excluded is shown to go wrong, or not to
be expressible in the memory model, in `Findings.lean`. -/
def good : Expr → Bool
  | .const _ _ | .fconst _ _ | .str _ => true
  | .lval l | .addr l => goodL l
  | .cast t e => good e && convGood (ct e) t
  | .un op e => good e && (op != .lnot || truthGood (ct e))
  | .bin _ a b => good a && good b
  | .land a b | .lor a b => good a && good b && truthGood (ct a) && truthGood (ct b)
  | .cond c a b =>
    good c && good a && good b && isWordTy (ct c) && keepsWord (ct a) a.bfw (ct (.cond c a b)) &&
      keepsWord (ct b) b.bfw (ct (.cond c a b))
  | .elvis c b =>
    good c && good b && isWordTy (ct c) && keepsWord (ct c) c.bfw (ct (.elvis c b)) && keepsWord (ct b) b.bfw (ct (.elvis c b))
  | .comma a b => good a && good b
  | .assign l e => goodL l && good e && storeGood (clt l) && convGood (ct e) (clt l)
  | .assignOp op l e =>
    goodL l && good e && storeGood (clt l) &&
      (match clt l, ct e with
       | .arith b, .arith b2 => compoundGood op b (l.bf.map (·.2)) b2 e.bfw
       | _, _ => true)
  | .incdec post _ l => goodL l && storeGood (clt l) && (post || l.bf.isNone)
  | .sizeof _ => false
def goodL : LV → Bool
  | .auto _ _ | .glob _ _ _ => true
  | .deref e => good e
  | .index a i => good a && good i
  | .member e _ _ bf => good e && (match bf with | none => true | some (off, w) => bfGood off w)
end

mutual
theorem good_noSizeof : (e : Expr) → good e = true → noSizeof e = true
  | .const _ _, _ => rfl
  | .fconst _ _, _ => rfl
  | .str _, _ => rfl
  | .lval l, h => by simp only [good] at h; simpa only [noSizeof] using goodL_noSizeof l h
  | .addr l, h => by simp only [good] at h; simpa only [noSizeof] using goodL_noSizeof l h
  | .cast t e, h => by
    simp only [good, Bool.and_eq_true] at h; simpa only [noSizeof] using good_noSizeof e h.1
  | .un op e, h => by
    simp only [good, Bool.and_eq_true] at h; simpa only [noSizeof] using good_noSizeof e h.1
  | .bin op a b, h => by
    simp only [good, Bool.and_eq_true] at h
    simp only [noSizeof, Bool.and_eq_true]; exact ⟨good_noSizeof a h.1, good_noSizeof b h.2⟩
  | .land a b, h => by
    simp only [good, Bool.and_eq_true] at h
    simp only [noSizeof, Bool.and_eq_true]; exact ⟨good_noSizeof a h.1.1.1, good_noSizeof b h.1.1.2⟩
  | .lor a b, h => by
    simp only [good, Bool.and_eq_true] at h
    simp only [noSizeof, Bool.and_eq_true]; exact ⟨good_noSizeof a h.1.1.1, good_noSizeof b h.1.1.2⟩
  | .cond c a b, h => by
    simp only [good, Bool.and_eq_true] at h
    simp only [noSizeof, Bool.and_eq_true]
    exact ⟨⟨good_noSizeof c h.1.1.1.1.1, good_noSizeof a h.1.1.1.1.2⟩, good_noSizeof b h.1.1.1.2⟩
  | .elvis c b, h => by
    simp only [good, Bool.and_eq_true] at h
    simp only [noSizeof, Bool.and_eq_true]; exact ⟨good_noSizeof c h.1.1.1.1, good_noSizeof b h.1.1.1.2⟩
  | .comma a b, h => by
    simp only [good, Bool.and_eq_true] at h
    simp only [noSizeof, Bool.and_eq_true]; exact ⟨good_noSizeof a h.1, good_noSizeof b h.2⟩
  | .assign l e, h => by
    simp only [good, Bool.and_eq_true] at h
    simp only [noSizeof, Bool.and_eq_true]; exact ⟨goodL_noSizeof l h.1.1.1, good_noSizeof e h.1.1.2⟩
  | .assignOp op l e, h => by
    simp only [good, Bool.and_eq_true] at h
    simp only [noSizeof, Bool.and_eq_true]; exact ⟨goodL_noSizeof l h.1.1.1, good_noSizeof e h.1.1.2⟩
  | .incdec post dec l, h => by
    simp only [good, Bool.and_eq_true] at h; simpa only [noSizeof] using goodL_noSizeof l h.1.1
  | .sizeof t, h => by simp only [good] at h; cases h
theorem goodL_noSizeof : (l : LV) → goodL l = true → noSizeofL l = true
  | .auto _ _, _ => rfl
  | .glob _ _ _, _ => rfl
  | .deref e, h => by simp only [goodL] at h; simpa only [noSizeofL] using good_noSizeof e h
  | .index a i, h => by
    simp only [goodL, Bool.and_eq_true] at h
    simp only [noSizeofL, Bool.and_eq_true]; exact ⟨good_noSizeof a h.1, good_noSizeof i h.2⟩
  | .member e _ _ bf, h => by
    simp only [goodL, Bool.and_eq_true] at h; simpa only [noSizeofL] using good_noSizeof e h.1
end

/-- Soundness of the code of an expression, of an lvalue. -/
def SE (E : Env) (e : Expr) : Prop := ∀ t v m m', cty e = some t → eval (ctxOf E) e m = some (v, m') →
  HasTy t v ∧ ∃ ws, Rep v ws ∧ ∀ s, (tr e).run E s m = some (ws ++ s, m')
def SL (E : Env) (l : LV) : Prop := ∀ t a m m', clty l = some t → evalL (ctxOf E) l m = some (a, m') →
  ∀ s, (trL l).run E s m = some (a :: s, m')

theorem ct_of {e : Expr} {t : Ty} (h : cty e = some t) : ct e = t := by simp [ct, h]
theorem clt_of {l : LV} {t : Ty} (h : clty l = some t) : clt l = t := by simp [clt, h]
theorem kt_of {e : Expr} {t : Ty} (hg : good e = true) (h : cty e = some t) : (kt e).norm = t.norm := by
  obtain ⟨t', h1, h2⟩ := kty_agrees e t (good_noSizeof e hg) h
  simp [kt, h1, h2]
theorem klt_of {l : LV} {t : Ty} (hg : goodL l = true) (h : clty l = some t) : klt l = t := by
  simp [klt, klty_agrees l t (goodL_noSizeof l hg) h]

theorem bfOk_of {l : LV} {t : Ty} (hg : goodL l = true) (h : clty l = some t) : bfOk t l.bf := by
  intro off w hb
  cases l <;> simp only [LV.bf, reduceCtorEq] at hb
  rename_i e offs u bf
  subst hb
  simp only [goodL, Bool.and_eq_true] at hg
  simp only [clty, Option.bind_eq_some_iff] at h
  obtain ⟨v, hv, h⟩ := h
  have : fieldOk u (some (off, w)) = true ∧ u = t := by
    split at h
    · split at h
      · exact ⟨by assumption, by simpa using h⟩
      · cases h
    · split at h
      · exact ⟨by assumption, by simpa using h⟩
      · cases h
    · cases h
  obtain ⟨h1, rfl⟩ := this
  exact ⟨hg.2, h1⟩

/-- The value of a bit-field lies in the range of its width. -/
theorem load_field {b : Basic} {bf : Option (Nat × Nat)} {m : Mem} {a : Word} {x : Int} (hbf : bfOk (.arith b) bf)
    (hr : InRange b x) (h : load (.arith b) bf m a = some (.int x)) : FieldRange b (bf.map (·.2)) x := by
  cases bf with
  | none => exact hr
  | some p =>
    obtain ⟨off, w⟩ := p
    have hf := (hbf off w rfl).2
    simp only [fieldOk, Bool.and_eq_true, decide_eq_true_eq] at hf
    simp only [load, Option.some.injEq, Val.int.injEq] at h
    subst h
    exact fieldRange_valOf hf.2.1 _

theorem field_value {C : Ctx} {e : Expr} {b : Basic} {m m' : Mem} {x : Int} (hg : good e = true)
    (hc : cty e = some (.arith b)) (h : eval C e m = some (.int x, m')) (hr : InRange b x) : FieldRange b e.bfw x := by
  cases e <;> try exact hr
  rename_i l
  simp only [cty, Option.map_eq_some_iff] at hc
  obtain ⟨u, hu, hd⟩ := hc
  have : u = .arith b := by cases u <;> simp_all [Ty.dec]
  subst this
  simp only [eval, Option.bind_eq_some_iff, Option.map_eq_some_iff, Prod.mk.injEq, clt_of hu] at h
  obtain ⟨⟨a, m1⟩, _, v, hv, rfl, rfl⟩ := h
  simp only [good] at hg
  exact load_field (bfOk_of hg hu) hr hv

theorem keepsWord_ok {F : FP} {t u : Ty} {w : Option Nat} {v v' : Val} {ws : List Word} (hk : keepsWord t w u = true)
    (hT : HasTy t v) (hfr : ∀ b x, t = .arith b → v = .int x → FieldRange b w x) (hr : Rep v ws)
    (hc : conv F u v = some v') : HasTy u v' ∧ Rep v' ws := by
  cases t with
  | void =>
    cases u <;> simp only [keepsWord, Bool.false_eq_true] at hk
    cases v <;> simp only [HasTy] at hT
    simp only [conv, Option.some.injEq] at hc
    subst hc
    exact ⟨trivial, hr⟩
  | arr t n => cases u <;> simp [keepsWord] at hk
  | agg g s =>
    cases u <;> simp only [keepsWord, Bool.false_eq_true, Bool.and_eq_true, beq_iff_eq] at hk
    obtain ⟨rfl, rfl⟩ := hk
    rw [conv_self hT] at hc
    cases hc
    exact ⟨hT, hr⟩
  | ptr t =>
    cases u <;> simp only [keepsWord, Bool.false_eq_true] at hk
    cases v <;> simp only [HasTy] at hT
    rename_i p
    simp only [conv, Option.some.injEq] at hc
    subst hc
    have : p % 2 ^ 64 = p := Int.emod_eq_of_lt hT.1 hT.2
    rw [this]
    exact ⟨hT, hr⟩
  | arith b =>
    cases u <;> simp only [keepsWord, Bool.false_eq_true] at hk
    · rename_i c
      split at hk
      · rename_i hi
        simp only [Bool.and_eq_true] at hi
        cases v with
        | void => exact hT.elim
        | fl f x => simp only [HasTy] at hT; subst hT; cases f <;> cases hi.1
        | int x =>
          rw [conv_int F hi.2] at hc
          simp only [Option.some.injEq] at hc
          subst hc
          refine ⟨⟨hi.2, wrap_inRange c hi.2 x⟩, ?_⟩
          simp only [Rep] at hr ⊢
          rw [hr]
          congr 1
          simp only [Bool.or_eq_true, beq_iff_eq, Bool.and_eq_true, decide_eq_true_eq] at hk
          have hcase : width c = 64 ∨ InRange c x := by
            rcases hk with h | ⟨h1, h2⟩
            · exact .inl h
            · right
              have := hfr b x rfl rfl
              cases w with
              | none => exact ⟨Int.le_trans h1 this.1, Int.le_trans this.2 h2⟩
              | some n =>
                simp only [FieldRange, rangeMin, rangeMax] at this h1 h2
                split at this
                · rename_i hs; rw [if_pos hs] at h1 h2; exact ⟨Int.le_trans h1 this.1, Int.le_trans this.2 h2⟩
                · rename_i hs; rw [if_neg hs] at h1 h2; exact ⟨Int.le_trans h1 this.1, Int.le_trans this.2 h2⟩
          rcases hcase with h64 | hin
          · have hb : c ≠ .bool := by rintro rfl; cases h64
            unfold wrap
            rw [if_neg hb, h64]
            split
            · exact (bmod_64 x).symm
            · exact (emod_64 x).symm
          · rw [wrap_of_inRange hin hi.2]
      · simp only [Bool.and_eq_true, beq_iff_eq] at hk
        obtain ⟨rfl, _⟩ := hk
        rw [conv_self hT] at hc
        cases hc
        exact ⟨hT, hr⟩
    · cases v with
      | void => exact hT.elim
      | fl f x => simp only [HasTy] at hT; subst hT; cases f <;> cases hk
      | int x =>
        simp only [conv, Option.some.injEq] at hc
        subst hc
        refine ⟨by simp only [HasTy]; omega, ?_⟩
        simp only [Rep] at hr ⊢
        rw [hr, emod_64]

/-! ### Operators -/

theorem prologue_ok (E : Env) {A B : SC} {ta tb rt : Ty} {m m1 m2 : Mem} {wa wb wa' wb' : List Word}
    (ha : ∀ s, A.run E s m = some (wa ++ s, m1)) (hb : ∀ s, B.run E s m1 = some (wb ++ s, m2))
    (ca : ∀ s m, execs E (typeconv ta rt) (wa ++ s) m = some (wa' ++ s, m))
    (cb : ∀ s m, execs E (typeconv tb rt) (wb ++ s) m = some (wb' ++ s, m)) (s : List Word) :
    (prologue A ta B tb rt).run E s m = some (wb' ++ (wa' ++ s), m2) := by
  simp only [prologue, SC.run, ha, hb, ca, cb, Option.bind_some]

theorem valid_left {e : Expr} {b : Basic} (h : cty e = some (.arith b)) : validW b e.bfw := bfw_valid h

/-- Both operands converted to the common type. -/
theorem convPair (E : Env) {b1 b2 b1' b2' c' : Basic} {w1 w2 : Option Nat}
    (n1 : normB b1' = normB b1) (n2 : normB b2' = normB b2) (nc : normB c' = normB (common b1 w1 b2 w2))
    {v1 v2 v1' v2' : Val} {wa wb : List Word} (t1 : HasTy (.arith b1) v1) (t2 : HasTy (.arith b2) v2)
    (r1 : Rep v1 wa) (r2 : Rep v2 wb)
    (c1 : conv E.fp (.arith (common b1 w1 b2 w2)) v1 = some v1') (c2 : conv E.fp (.arith (common b1 w1 b2 w2)) v2 = some v2') :
    HasTy (.arith c') v1' ∧ HasTy (.arith c') v2' ∧ ∃ wa' wb', Rep v1' wa' ∧ Rep v2' wb' ∧
      (∀ s m, execs E (typeconv (.arith b1') (.arith c')) (wa ++ s) m = some (wa' ++ s, m)) ∧
      (∀ s m, execs E (typeconv (.arith b2') (.arith c')) (wb ++ s) m = some (wb' ++ s, m)) := by
  have hN : (Ty.arith c').norm = (Ty.arith (common b1 w1 b2 w2)).norm := by simpa [Ty.norm] using nc
  rw [← conv_norm E.fp hN] at c1 c2
  have g1 : convGood (.arith b1') (.arith c') = true := by
    apply convGood_of
    rw [isInteger_norm n1, isInteger_norm nc]
    exact common_float_left
  have g2 : convGood (.arith b2') (.arith c') = true := by
    apply convGood_of
    rw [isInteger_norm n2, isInteger_norm nc]
    exact common_float_right
  have t1' : HasTy (.arith b1') v1 := (hasTy_norm (by simpa [Ty.norm] using n1)).mpr t1
  have t2' : HasTy (.arith b2') v2 := (hasTy_norm (by simpa [Ty.norm] using n2)).mpr t2
  obtain ⟨h1, wa', ra, xa⟩ := typeconv_ok E t1' r1 g1 c1
  obtain ⟨h2, wb', rb, xb⟩ := typeconv_ok E t2' r2 g2 c2
  exact ⟨h1, h2, wa', wb', ra, rb, xa, xb⟩

theorem ofNormArith {t : Ty} {b : Basic} (h : t.norm = (Ty.arith b).norm) : ∃ b', t = .arith b' ∧ normB b' = normB b :=
  norm_eq_arith h

theorem bin_inv {op : BinOp} {a b : Expr} {t : Ty} (h : cty (.bin op a b) = some t) :
    ∃ t1 t2, cty a = some t1 ∧ cty b = some t2 ∧ binTy op t1 a.bfw (isNullConst a) t2 b.bfw (isNullConst b) = some t := by
  simp only [cty, Option.bind_eq_some_iff] at h
  obtain ⟨t1, h1, t2, h2, h3⟩ := h
  exact ⟨t1, t2, h1, h2, h3⟩

theorem commonT_inv {t1 t2 t : Ty} {w1 w2 : Option Nat} (h : commonT t1 w1 t2 w2 = some t) :
    ∃ b1 b2, t1 = .arith b1 ∧ t2 = .arith b2 ∧ t = .arith (common b1 w1 b2 w2) := by
  cases t1 <;> cases t2 <;> simp only [commonT, reduceCtorEq, Option.some.injEq] at h
  exact ⟨_, _, rfl, rfl, h.symm⟩

/-- The evaluation order of the specification for everything but integer plus pointer. -/
theorem eval_bin {C : Ctx} {op : BinOp} {a b : Expr} {m m' : Mem} {v : Val}
    (hne : ¬ (op = .add ∧ (∃ b1, ct a = .arith b1) ∧ ∃ u, ct b = .ptr u)) (h : eval C (.bin op a b) m = some (v, m')) :
    ∃ v1 m1 v2, eval C a m = some (v1, m1) ∧ eval C b m1 = some (v2, m') ∧
      binV C.fp op (ct a) a.bfw v1 (ct b) b.bfw v2 = some v := by
  simp only [eval] at h
  split at h
  · rename_i h1 h2 h3; exact absurd ⟨rfl, ⟨_, h2⟩, _, h3⟩ hne
  · simp only [Option.bind_eq_some_iff, Option.map_eq_some_iff, Prod.mk.injEq] at h
    obtain ⟨⟨v1, m1⟩, e1, ⟨v2, m2⟩, e2, v', e3, rfl, rfl⟩ := h
    exact ⟨v1, m1, v2, e1, e2, e3⟩

theorem eval_add_ptr {C : Ctx} {a b : Expr} {m m' : Mem} {v : Val} {b1 : Basic} {u : Ty}
    (h1 : ct a = .arith b1) (h2 : ct b = .ptr u) (h : eval C (.bin .add a b) m = some (v, m')) :
    ∃ v2 m1 v1, eval C b m = some (v2, m1) ∧ eval C a m1 = some (v1, m') ∧
      binV C.fp .add (ct a) a.bfw v1 (ct b) b.bfw v2 = some v := by
  simp only [eval] at h
  split at h
  · simp only [Option.bind_eq_some_iff, Option.map_eq_some_iff, Prod.mk.injEq] at h
    obtain ⟨⟨v1, m1⟩, e1, ⟨v2, m2⟩, e2, v', e3, rfl, rfl⟩ := h
    exact ⟨v1, m1, v2, e1, e2, e3⟩
  · rename_i hne; exact absurd h2 (hne b1 u rfl h1)

/-- Arithmetic operators at the common type. -/
theorem arithCase (E : Env) {op : BinOp} {a b : Expr} {b1 b2 : Basic} {sg : Bool} {ta tb rt : Ty}
    (ga : good a = true) (gb : good b = true) (sa : SE E a) (sb : SE E b)
    (hca : cty a = some (.arith b1)) (hcb : cty b = some (.arith b2))
    (na : ta.norm = (Ty.arith b1).norm) (nb : tb.norm = (Ty.arith b2).norm)
    (nr : rt.norm = (Ty.arith (common b1 a.bfw b2 b.bfw)).norm)
    (hsg : (op = .div ∨ op = .mod) → sg = rt.isSigned)
    {m m' m1 : Mem} {v v1 v2 : Val} (e1 : eval (ctxOf E) a m = some (v1, m1)) (e2 : eval (ctxOf E) b m1 = some (v2, m'))
    (hv : (conv E.fp (.arith (common b1 a.bfw b2 b.bfw)) v1).bind (fun v1 =>
      (conv E.fp (.arith (common b1 a.bfw b2 b.bfw)) v2).bind fun v2 =>
      arithV E.fp op (common b1 a.bfw b2 b.bfw) v1 v2) = some v) :
    HasTy (.arith (common b1 a.bfw b2 b.bfw)) v ∧ ∃ ws, Rep v ws ∧
      ∀ s, (prologue (tr a) ta (tr b) tb rt ;; .prim (arithInstr op rt sg ++ normalize rt)).run E s m = some (ws ++ s, m') := by
  obtain ⟨b1', rfl, n1⟩ := norm_eq_arith na
  obtain ⟨b2', rfl, n2⟩ := norm_eq_arith nb
  obtain ⟨c', rfl, nc⟩ := norm_eq_arith nr
  obtain ⟨t1, wa, r1, x1⟩ := sa _ _ _ _ hca e1
  obtain ⟨t2, wb, r2, x2⟩ := sb _ _ _ _ hcb e2
  simp only [Option.bind_eq_some_iff] at hv
  obtain ⟨v1', c1, v2', c2, hv⟩ := hv
  obtain ⟨h1, h2, wa', wb', ra, rb, xa, xb⟩ := convPair E n1 n2 nc t1 t2 r1 r2 c1 c2
  rw [← arithV_norm E.fp nc] at hv
  have hop : OpTy c' := opTy_norm nc (common_opTy (valid_left hca) (valid_left hcb))
  obtain ⟨ht, ws, rv, hx⟩ := arithOp_ok E hop (sg := sg) (fun h => .inl (by rw [hsg h, isSigned_arith])) h1 h2 ra rb hv
  refine ⟨(hasTy_norm nr).mp ht, ws, rv, fun s => ?_⟩
  simp only [SC.run]
  rw [prologue_ok E x1 x2 xa xb s, Option.bind_some]
  exact hx s m'

theorem isNullConst_int {e : Expr} {b : Basic} (h : isNullConst e = true) (hc : cty e = some (.arith b)) :
    ∃ b', e = .const b' 0 := by
  unfold isNullConst at h
  split at h
  · simp only [Bool.and_eq_true, beq_iff_eq] at h; rw [h.2]; exact ⟨_, rfl⟩
  · simp only [cty, Option.bind_eq_some_iff] at hc
    obtain ⟨u, hu, hc⟩ := hc
    split at hc <;> cases hc
  · cases h

/-- Comparisons. -/
theorem relCase (E : Env) (L : Lawful E.fp) {op : BinOp} {a b : Expr} {t1 t2 ta tb t : Ty}
    (hop : op = .lt ∨ op = .gt ∨ op = .le ∨ op = .ge ∨ op = .eq ∨ op = .ne)
    (sa : SE E a) (sb : SE E b) (hca : cty a = some t1) (hcb : cty b = some t2)
    (na : ta.norm = t1.norm) (nb : tb.norm = t2.norm)
    (hbt : binTy op t1 a.bfw (isNullConst a) t2 b.bfw (isNullConst b) = some t)
    {m m' m1 : Mem} {v v1 v2 : Val} (e1 : eval (ctxOf E) a m = some (v1, m1)) (e2 : eval (ctxOf E) b m1 = some (v2, m'))
    (hv : binV E.fp op t1 a.bfw v1 t2 b.bfw v2 = some v) (rt : Ty) :
    HasTy t v ∧ ∃ ws, Rep v ws ∧
      ∀ s, (trBin op (tr a) ta a.bfw (tr b) tb b.bfw rt).run E s m = some (ws ++ s, m') := by
  obtain ⟨ht1, wa, r1, x1⟩ := sa _ _ _ _ hca e1
  obtain ⟨ht2, wb, r2, x2⟩ := sb _ _ _ _ hcb e2
  have hint : t = .arith .int := by
    rcases hop with rfl | rfl | rfl | rfl | rfl | rfl <;> simp only [binTy] at hbt <;>
      (split at hbt <;> (try split at hbt)) <;> simp_all
  subst hint
  have hres : ∀ r : Bool, HasTy (.arith .int) (ofBoolV r) := by
    intro r; cases r <;> exact ⟨rfl, by decide⟩
  have htr : ∀ c, kCommon ta a.bfw tb b.bfw = some c → trBin op (tr a) ta a.bfw (tr b) tb b.bfw rt =
      (tr a ;; .prim (typeconv ta c) ;; tr b ;; .prim (typeconv tb c ++ relInstr op c)) := by
    intro c hc
    rcases hop with rfl | rfl | rfl | rfl | rfl | rfl <;> simp only [trBin, hc]
  have htrn : kCommon ta a.bfw tb b.bfw = none → trBin op (tr a) ta a.bfw (tr b) tb b.bfw rt =
      (tr a ;; tr b ;; .prim (relInstr op ta)) := by
    intro hc
    rcases hop with rfl | rfl | rfl | rfl | rfl | rfl <;> simp only [trBin, hc]
  by_cases hab : ∃ b1 b2, t1 = .arith b1 ∧ t2 = .arith b2
  · obtain ⟨b1, b2, rfl, rfl⟩ := hab
    obtain ⟨b1', rfl, n1⟩ := norm_eq_arith na
    obtain ⟨b2', rfl, n2⟩ := norm_eq_arith nb
    obtain ⟨c', hc', nc⟩ := common_agrees n1 n2 (valid_left hca) (valid_left hcb)
    have hv' : (conv E.fp (.arith (common b1 a.bfw b2 b.bfw)) v1).bind (fun v1 =>
        (conv E.fp (.arith (common b1 a.bfw b2 b.bfw)) v2).bind fun v2 => (compareV E.fp op v1 v2).map ofBoolV) = some v := by
      rcases hop with rfl | rfl | rfl | rfl | rfl | rfl <;> exact hv
    simp only [Option.bind_eq_some_iff, Option.map_eq_some_iff] at hv'
    obtain ⟨v1', c1, v2', c2, r, hr, rfl⟩ := hv'
    obtain ⟨h1, h2, wa', wb', ra, rb, xa, xb⟩ := convPair E n1 n2 nc ht1 ht2 r1 r2 c1 c2
    have hopT : OpTy c' := opTy_norm nc (common_opTy (valid_left hca) (valid_left hcb))
    refine ⟨hres r, [IR.ofBool r], rep_ofBool r, fun s => ?_⟩
    rw [htr (.arith c') (by simp [kCommon, hc'])]
    simp only [SC.run, x1, x2, xa, Option.bind_some, execs_append, xb]
    exact compare_ok E L hopT h1 h2 ra rb hr s m'
  · -- pointers
    have hk : kCommon ta a.bfw tb b.bfw = none := by
      unfold kCommon
      split
      · rename_i x y
        exfalso
        apply hab
        obtain ⟨y1, e1, _⟩ := norm_eq_arith (na.symm)
        obtain ⟨y2, e2, _⟩ := norm_eq_arith (nb.symm)
        exact ⟨y1, y2, e1, e2⟩
      · rfl
    have hv' : (compareV E.fp op v1 v2).map ofBoolV = some v := by
      rcases hop with rfl | rfl | rfl | rfl | rfl | rfl <;> simp only [binV] at hv <;> split at hv <;>
        first | exact hv | exact absurd ⟨_, _, rfl, rfl⟩ hab
    simp only [Option.map_eq_some_iff] at hv'
    obtain ⟨r, hr, rfl⟩ := hv'
    refine ⟨hres r, [IR.ofBool r], rep_ofBool r, fun s => ?_⟩
    rw [htrn hk]
    simp only [SC.run, x1, x2, Option.bind_some]
    -- the words compared
    have fin : ∀ p q : Int, v1 = .int p → v2 = .int q → Cls false p → Cls false q →
        (ta.isSigned = false ∨ op = .eq ∨ op = .ne) → isWordTy ta = true →
        execs E (relInstr op ta) (wb ++ (wa ++ s)) m' = some ([IR.ofBool r] ++ s, m') := by
      rintro p q rfl rfl hp hq hs hw
      simp only [Rep] at r1 r2
      subst r1; subst r2
      rcases hs with hs | hs
      · exact relInt_ok E hw (by rw [hs]; exact hp) (by rw [hs]; exact hq) hr s m'
      · have hceq : cmpEq ta = cmpEq (.ptr .void) := by
          unfold cmpEq
          split
          · simp only [isWordTy] at hw; split <;> simp_all
          · rfl
        have : relInstr op ta = relInstr op (.ptr .void) := by
          rcases hs with rfl | rfl <;> simp only [relInstr, hceq]
        rw [this]
        exact relInt_ok E (t := .ptr .void) rfl (by exact hp) (by exact hq) hr s m'
    have hptr : ∀ {u : Ty} {v : Val}, HasTy (.ptr u) v → ∃ p, v = .int p ∧ Cls false p := by
      intro u v h
      cases v <;> simp only [HasTy] at h
      exact ⟨_, rfl, by simpa [Cls] using h⟩
    have hzero : ∀ {e : Expr} {b : Basic} {m m' : Mem} {v : Val}, isNullConst e = true → cty e = some (.arith b) →
        eval (ctxOf E) e m = some (v, m') → v = .int 0 := by
      intro e b m m' v h1 h2 h3
      obtain ⟨b', rfl⟩ := isNullConst_int h1 h2
      simp only [eval, Option.some.injEq, Prod.mk.injEq] at h3
      exact h3.1.symm
    have c0 : Cls false 0 := by simp [Cls]
    cases t1 with
    | ptr u =>
      have hta := norm_eq_ptr na
      subst hta
      obtain ⟨p, hp, kp⟩ := hptr ht1
      cases t2 with
      | ptr u2 =>
        obtain ⟨q, hq, kq⟩ := hptr ht2
        exact fin p q hp hq kp kq (.inl rfl) rfl
      | arith b2 =>
        have hz : isNullConst b = true := by
          rcases hop with rfl | rfl | rfl | rfl | rfl | rfl <;> simp only [binTy, reduceCtorEq] at hbt <;> split at hbt <;> simp_all
        exact fin p 0 hp (hzero hz hcb e2) kp c0 (.inl rfl) rfl
      | void => rcases hop with rfl | rfl | rfl | rfl | rfl | rfl <;> simp [binTy, isInt] at hbt
      | agg _ _ => rcases hop with rfl | rfl | rfl | rfl | rfl | rfl <;> simp [binTy, isInt] at hbt
      | arr _ _ => rcases hop with rfl | rfl | rfl | rfl | rfl | rfl <;> simp [binTy, isInt] at hbt
    | arith b1 =>
      obtain ⟨b1', rfl, n1⟩ := norm_eq_arith na
      cases t2 with
      | arith b2 => exact absurd ⟨_, _, rfl, rfl⟩ hab
      | ptr u2 =>
        obtain ⟨q, hq, kq⟩ := hptr ht2
        have hz : isNullConst a = true ∧ isInteger b1 = true ∧ (op = .eq ∨ op = .ne) := by
          rcases hop with rfl | rfl | rfl | rfl | rfl | rfl <;> simp only [binTy, reduceCtorEq] at hbt <;> split at hbt <;> simp_all [isInt]
        refine fin 0 q (hzero hz.1 hca e1) hq c0 kq (.inr hz.2.2) ?_
        have := isInteger_norm n1
        rw [hz.2.1, isInteger_fmt] at this
        exact this
      | void => rcases hop with rfl | rfl | rfl | rfl | rfl | rfl <;> simp [binTy] at hbt
      | agg _ _ => rcases hop with rfl | rfl | rfl | rfl | rfl | rfl <;> simp [binTy] at hbt
      | arr _ _ => rcases hop with rfl | rfl | rfl | rfl | rfl | rfl <;> simp [binTy] at hbt
    | void => cases t2 <;> rcases hop with rfl | rfl | rfl | rfl | rfl | rfl <;> simp [binTy, isInt] at hbt
    | agg _ _ => cases t2 <;> rcases hop with rfl | rfl | rfl | rfl | rfl | rfl <;> simp [binTy, isInt] at hbt
    | arr _ _ => cases t2 <;> rcases hop with rfl | rfl | rfl | rfl | rfl | rfl <;> simp [binTy, isInt] at hbt

end Kefir.Expr
