import Verif.Expr.Sound

/-! The main induction, continued: the remaining operators, and the theorem for all expressions. -/
namespace Kefir.Expr
open Kefir.Types (Basic)
open Kefir.C17 Kefir.CSpec
open Kefir.IR

theorem isInt_inv {t : Ty} (h : isInt t = true) : ∃ b, t = .arith b ∧ isInteger b = true := by
  cases t <;> simp only [isInt, Bool.false_eq_true] at h
  exact ⟨_, rfl, h⟩

theorem intVal {b : Basic} (hb : isInteger b = true) {v : Val} (h : HasTy (.arith b) v) : ∃ x, v = .int x ∧ InRange b x := by
  cases v with
  | int x => exact ⟨x, rfl, h.2⟩
  | fl f x => simp only [HasTy] at h; subst h; cases f <;> cases hb
  | void => exact h.elim

theorem ptrVal {u : Ty} {v : Val} (h : HasTy (.ptr u) v) : ∃ p, v = .int p ∧ 0 ≤ p ∧ p < 2 ^ 64 := by
  cases v <;> simp only [HasTy] at h
  exact ⟨_, rfl, h⟩

/-- Shifts. -/
theorem shiftCase (E : Env) {op : BinOp} (hop : op = .shl ∨ op = .shr) {a b : Expr} {b1 b2 : Basic} {ta tb rt : Ty}
    (ga : good a = true) (sa : SE E a) (sb : SE E b)
    (hca : cty a = some (.arith b1)) (hcb : cty b = some (.arith b2)) (i1 : isInteger b1 = true) (i2 : isInteger b2 = true)
    (na : ta.norm = (Ty.arith b1).norm) (nb : tb.norm = (Ty.arith b2).norm)
    (nr : rt.norm = (Ty.arith (promoteW b1 a.bfw)).norm) {sg : Bool} (hsg : op = .shr → sg = ta.isSigned)
    {m m' m1 : Mem} {v v1 v2 : Val} (e1 : eval (ctxOf E) a m = some (v1, m1)) (e2 : eval (ctxOf E) b m1 = some (v2, m'))
    (hv : binV E.fp op (.arith b1) a.bfw v1 (.arith b2) b.bfw v2 = some v) :
    HasTy (.arith (promoteW b1 a.bfw)) v ∧ ∃ ws, Rep v ws ∧
      ∀ s, (prologue (tr a) ta (tr b) tb rt ;; .prim (arithInstr op rt sg ++ normalize rt)).run E s m = some (ws ++ s, m') := by
  obtain ⟨b1', rfl, n1⟩ := norm_eq_arith na
  obtain ⟨b2', rfl, n2⟩ := norm_eq_arith nb
  obtain ⟨c', rfl, nc⟩ := norm_eq_arith nr
  obtain ⟨t1, wa, r1, x1⟩ := sa _ _ _ _ hca e1
  obtain ⟨t2, wb, r2, x2⟩ := sb _ _ _ _ hcb e2
  obtain ⟨x, rfl, hx⟩ := intVal i1 t1
  obtain ⟨n, rfl, hn⟩ := intVal i2 t2
  have i1' : isInteger b1' = true := by rw [isInteger_norm n1, i1]
  have i2' : isInteger b2' = true := by rw [isInteger_norm n2, i2]
  have hcm : promoteW b1 a.bfw ∈ promoted := promoteW_mem i1 (valid_left hca)
  have hcm' : c' ∈ promoted := promoted_norm nc hcm
  have hkeep : InRange c' x :=
    (inRange_norm nc x).mpr (promote_keeps i1 (valid_left hca) hx (field_value ga hca e1 hx))
  have hv' : (shiftInt op (promoteW b1 a.bfw) x n).map Val.int = some v := by rcases hop with rfl | rfl <;> exact hv
  simp only [Option.map_eq_some_iff] at hv'
  obtain ⟨r, hr, rfl⟩ := hv'
  rw [← shiftInt_norm nc] at hr
  have hcount : ¬ (n < 0 ∨ (width c' : Int) ≤ n) := by
    intro h; simp only [shiftInt, if_pos h] at hr; cases hr
  have hnc : InRange c' n := count_keeps hcm' hcount
  have ic := (promoted_facts hcm').1
  have ty1 : HasTy (.arith b1') (.int x) := (hasTy_norm na).mpr t1
  have ty2 : HasTy (.arith b2') (.int n) := (hasTy_norm nb).mpr t2
  obtain ⟨_, wa', ra, xa⟩ := typeconv_ok E ty1 r1 (convGood_of (by rw [i1']; intro h; cases h))
    (u := .arith c') (v' := .int x) (by rw [conv_int E.fp ic, wrap_of_inRange hkeep ic])
  obtain ⟨_, wb', rb, xb⟩ := typeconv_ok E ty2 r2 (convGood_of (by rw [i2']; intro h; cases h))
    (u := .arith c') (v' := .int n) (by rw [conv_int E.fp ic, wrap_of_inRange hnc ic])
  simp only [Rep] at ra rb
  subst ra; subst rb
  have fin := fun s => shiftOp_ok E hop hcm' i1' ((inRange_norm n1 x).mpr hx) hkeep hr (sg := sg)
    (fun h => by rw [hsg h, isSigned_arith]) s m'
  refine ⟨⟨(promoted_facts hcm).1, (inRange_norm nc r).mp (fin []).1⟩, _, rfl, fun s => ?_⟩
  simp only [SC.run]
  rw [prologue_ok E x1 x2 xa xb s, Option.bind_some]
  exact (fin s).2

theorem typeconv_ptr (t u : Ty) : typeconv t (.ptr u) = [] := by
  cases t <;> simp [typeconv]
theorem typeconv_ptr_long (t : Ty) : typeconv (.ptr t) (.arith .long) = [] := rfl

theorem norm_long {t : Ty} (h : t.norm = (Ty.arith .long).norm) : t = .arith .long ∨ t = .arith .llong := by
  obtain ⟨b, rfl, hb⟩ := norm_eq_arith h
  cases b <;> simp_all [normB]

theorem arithPair {t1 t2 t : Ty} {w1 w2 : Option Nat} (h : commonT t1 w1 t2 w2 = some t) :
    ∃ b1 b2, t1 = .arith b1 ∧ t2 = .arith b2 := by
  obtain ⟨b1, b2, h1, h2, _⟩ := commonT_inv h
  exact ⟨b1, b2, h1, h2⟩

theorem arithPair' {t1 t2 t : Ty} {w1 w2 : Option Nat} {c : Bool} (h : (if c = true then commonT t1 w1 t2 w2 else none) = some t) :
    ∃ b1 b2, t1 = .arith b1 ∧ t2 = .arith b2 := by
  split at h
  · exact arithPair h
  · cases h

theorem shiftTy_inv {op : BinOp} (hop : op = .shl ∨ op = .shr) {t1 t2 t : Ty} {w1 w2 : Option Nat} {n1 n2 : Bool}
    (h : binTy op t1 w1 n1 t2 w2 n2 = some t) :
    ∃ b1 b2, t1 = .arith b1 ∧ t2 = .arith b2 ∧ isInteger b1 = true ∧ isInteger b2 = true ∧ t = .arith (promoteW b1 w1) := by
  cases t1 with
  | arith b1 =>
    have h' : (if isInteger b1 && isInt t2 then some (Ty.arith (promoteW b1 w1)) else none) = some t := by
      rcases hop with rfl | rfl <;> exact h
    split at h' <;> simp only [reduceCtorEq, Option.some.injEq] at h'
    rename_i hc
    simp only [Bool.and_eq_true] at hc
    obtain ⟨b2, rfl, h2⟩ := isInt_inv hc.2
    exact ⟨_, _, rfl, rfl, hc.1, h2, h'.symm⟩
  | _ => rcases hop with rfl | rfl <;> simp [binTy] at h

theorem binCase (E : Env) (L : Lawful E.fp) {op : BinOp} {a b : Expr} (ga : good a = true) (gb : good b = true)
    (sa : SE E a) (sb : SE E b) : SE E (.bin op a b) := by
  intro t v m m' hc he
  have hgood : good (.bin op a b) = true := by simp [good, ga, gb]
  have hrt := kt_of hgood hc
  obtain ⟨t1, t2, hca, hcb, hbt⟩ := bin_inv hc
  have na := kt_of ga hca
  have nb := kt_of gb hcb
  by_cases hrel : op = .lt ∨ op = .gt ∨ op = .le ∨ op = .ge ∨ op = .eq ∨ op = .ne
  · obtain ⟨v1, m1, v2, e1, e2, hv⟩ := eval_bin (by rintro ⟨rfl, _⟩; simp at hrel) he
    rw [ct_of hca, ct_of hcb] at hv
    simp only [tr]
    exact relCase E L hrel sa sb hca hcb na nb hbt e1 e2 hv _
  by_cases hsh : op = .shl ∨ op = .shr
  · obtain ⟨v1, m1, v2, e1, e2, hv⟩ := eval_bin (by rintro ⟨rfl, _⟩; simp at hsh) he
    rw [ct_of hca, ct_of hcb] at hv
    have hinv : ∃ b1 b2, t1 = .arith b1 ∧ t2 = .arith b2 ∧ isInteger b1 = true ∧ isInteger b2 = true ∧
        t = .arith (promoteW b1 a.bfw) := by
      exact shiftTy_inv hsh hbt
    obtain ⟨b1, b2, rfl, rfl, i1, i2, rfl⟩ := hinv
    simp only [tr]
    rcases hsh with rfl | rfl
    · exact shiftCase E (.inl rfl) ga sa sb hca hcb i1 i2 na nb hrt (by simp) e1 e2 hv
    · exact shiftCase E (.inr rfl) ga sa sb hca hcb i1 i2 na nb hrt (fun _ => rfl) e1 e2 hv
  by_cases hab : ∃ b1 b2, t1 = .arith b1 ∧ t2 = .arith b2
  · obtain ⟨b1, b2, rfl, rfl⟩ := hab
    obtain ⟨v1, m1, v2, e1, e2, hv⟩ := eval_bin (by rintro ⟨_, _, u, hu⟩; rw [ct_of hcb] at hu; cases hu) he
    rw [ct_of hca, ct_of hcb] at hv
    have ht : t = .arith (common b1 a.bfw b2 b.bfw) := by
      cases op <;> simp only [binTy, commonT, Option.some.injEq] at hbt <;>
        first
        | exact hbt.symm
        | (split at hbt
           · simpa using hbt.symm
           · cases hbt)
        | (exfalso; simp at hrel hsh; done)
    subst ht
    have hv' : (conv E.fp (.arith (common b1 a.bfw b2 b.bfw)) v1).bind (fun v1 =>
      (conv E.fp (.arith (common b1 a.bfw b2 b.bfw)) v2).bind fun v2 =>
      arithV E.fp op (common b1 a.bfw b2 b.bfw) v1 v2) = some v := by
      cases op <;> first | exact hv | (exfalso; simp at hrel hsh)
    obtain ⟨b1', hta, _⟩ := norm_eq_arith na
    obtain ⟨b2', htb, _⟩ := norm_eq_arith nb
    have key := fun sg h => arithCase E (op := op) (sg := sg) ga gb sa sb hca hcb na nb hrt h e1 e2 hv'
    simp only [tr]
    cases op <;> simp only [trBin] <;>
      first
      | exact key _ (fun _ => rfl)
      | (exfalso; simp at hrel hsh; done)
      | (rw [hta, htb] at key ⊢; exact key false (by rintro (h | h) <;> cases h))
  · -- pointer arithmetic
    have hadd : op = .add ∨ op = .sub := by
      cases op <;> simp only [binTy] at hbt <;>
        first
        | exact .inl rfl
        | exact .inr rfl
        | (exfalso; simp at hrel hsh; done)
        | (exfalso; exact hab (arithPair hbt))
        | (exfalso; exact hab (arithPair' hbt))
    rcases hadd with rfl | rfl
    · -- addition
      cases t1 with
      | ptr u =>
        have hta := norm_eq_ptr na
        obtain ⟨v1, m1, v2, e1, e2, hv⟩ := eval_bin (by
          rintro ⟨_, ⟨b1, h1⟩, _⟩; rw [ct_of hca] at h1; cases h1) he
        rw [ct_of hca, ct_of hcb] at hv
        simp only [binTy] at hbt
        split at hbt <;> simp only [reduceCtorEq, Option.some.injEq] at hbt
        rename_i hcond
        simp only [Bool.and_eq_true] at hcond
        obtain ⟨b2, rfl, i2⟩ := isInt_inv hcond.2
        subst hbt
        obtain ⟨b2', htb, n2⟩ := norm_eq_arith nb
        obtain ⟨ht1, wa, r1, x1⟩ := sa _ _ _ _ hca e1
        obtain ⟨ht2, wb, r2, x2⟩ := sb _ _ _ _ hcb e2
        obtain ⟨p, rfl, hp⟩ := ptrVal ht1
        obtain ⟨i, rfl, hi⟩ := intVal i2 ht2
        simp only [binV, Option.some.injEq] at hv
        subst hv
        simp only [Rep] at r1 r2
        subst r1; subst r2
        refine ⟨ptrAdd_range _ _ _, _, rfl, fun s => ?_⟩
        simp only [tr, trBin, hta, SC.run, x1, x2, Option.bind_some]
        exact elementptr_ok E p i _ s m'
      | arith b1 =>
        obtain ⟨b1', hta, n1⟩ := norm_eq_arith na
        cases t2 with
        | ptr u =>
          have htb := norm_eq_ptr nb
          obtain ⟨v2, m1, v1, e2, e1, hv⟩ := eval_add_ptr (ct_of hca) (ct_of hcb) he
          rw [ct_of hca, ct_of hcb] at hv
          simp only [binTy] at hbt
          split at hbt <;> simp only [reduceCtorEq, Option.some.injEq] at hbt
          rename_i hcond
          simp only [Bool.and_eq_true] at hcond
          subst hbt
          obtain ⟨ht1, wa, r1, x1⟩ := sa _ _ _ _ hca e1
          obtain ⟨ht2, wb, r2, x2⟩ := sb _ _ _ _ hcb e2
          obtain ⟨p, rfl, hp⟩ := ptrVal ht2
          obtain ⟨i, rfl, hi⟩ := intVal hcond.2 ht1
          simp only [binV, Option.some.injEq] at hv
          subst hv
          simp only [Rep] at r1 r2
          subst r1; subst r2
          refine ⟨ptrAdd_range _ _ _, _, rfl, fun s => ?_⟩
          simp only [tr, trBin, hta, htb, SC.run, x1, x2, Option.bind_some]
          exact elementptr_ok E p i _ s m'
        | arith b2 => exact absurd ⟨_, _, rfl, rfl⟩ hab
        | void => simp [binTy, commonT] at hbt
        | agg _ _ => simp [binTy, commonT] at hbt
        | arr _ _ => simp [binTy, commonT] at hbt
      | void => cases t2 <;> simp [binTy, commonT, isInt] at hbt
      | agg _ _ => cases t2 <;> simp [binTy, commonT, isInt] at hbt
      | arr _ _ => cases t2 <;> simp [binTy, commonT, isInt] at hbt
    · -- subtraction
      obtain ⟨v1, m1, v2, e1, e2, hv⟩ := eval_bin (by rintro ⟨h, _⟩; cases h) he
      rw [ct_of hca, ct_of hcb] at hv
      cases t1 with
      | ptr u =>
        have hta := norm_eq_ptr na
        obtain ⟨ht1, wa, r1, x1⟩ := sa _ _ _ _ hca e1
        obtain ⟨ht2, wb, r2, x2⟩ := sb _ _ _ _ hcb e2
        obtain ⟨p, rfl, hp⟩ := ptrVal ht1
        simp only [Rep] at r1
        subst r1
        cases t2 with
        | ptr u2 =>
          have htb := norm_eq_ptr nb
          obtain ⟨q, rfl, hq⟩ := ptrVal ht2
          simp only [Rep] at r2
          subst r2
          simp only [binTy] at hbt
          split at hbt <;> simp only [reduceCtorEq, Option.some.injEq] at hbt
          subst hbt
          simp only [binV, Option.map_eq_some_iff] at hv
          obtain ⟨r, hr, rfl⟩ := hv
          refine ⟨⟨rfl, (ptrSub_ok E hr [] m').1⟩, _, rfl, fun s => ?_⟩
          have hconv : typeconv (.ptr u) (kt (.bin .sub a b)) = [] ∧ typeconv (.ptr u2) (kt (.bin .sub a b)) = [] := by
            rcases norm_long hrt with h | h <;> rw [h] <;> exact ⟨rfl, rfl⟩
          simp only [tr, trBin, hta, htb, prologue, SC.run, x1, x2, hconv.1, hconv.2, execs_nil, Option.bind_some]
          exact (ptrSub_ok E hr s m').2
        | arith b2 =>
          obtain ⟨b2', htb, n2⟩ := norm_eq_arith nb
          simp only [binTy] at hbt
          split at hbt <;> simp only [reduceCtorEq, Option.some.injEq] at hbt
          rename_i hcond
          simp only [Bool.and_eq_true] at hcond
          subst hbt
          obtain ⟨i, rfl, hi⟩ := intVal hcond.2 ht2
          simp only [Rep] at r2
          subst r2
          simp only [binV, Option.some.injEq] at hv
          subst hv
          have hk := norm_eq_ptr hrt
          refine ⟨ptrAdd_range _ _ _, _, rfl, fun s => ?_⟩
          simp only [tr, trBin, hta, htb, hk, prologue, SC.run, x1, x2, typeconv_ptr, execs_nil, Option.bind_some]
          have hneg : -(BitVec.ofInt 64 i) = BitVec.ofInt 64 (-i) := (BitVec.ofInt_neg).symm
          simp only [execs_cons, List.cons_append, List.nil_append, exec_un, Option.bind_some, Un.exec, hneg]
          have := elementptr_ok E p (-i) u.size s m'
          simpa only [execs_cons] using this
        | void => simp [binTy, isInt] at hbt
        | agg _ _ => simp [binTy, isInt] at hbt
        | arr _ _ => simp [binTy, isInt] at hbt
      | arith b1 =>
        cases t2 with
        | arith b2 => exact absurd ⟨_, _, rfl, rfl⟩ hab
        | _ => simp [binTy, commonT] at hbt
      | void => cases t2 <;> simp [binTy, commonT] at hbt
      | agg _ _ => cases t2 <;> simp [binTy, commonT] at hbt
      | arr _ _ => cases t2 <;> simp [binTy, commonT] at hbt

/-! ### Unary operators -/

theorem unCase (E : Env) {op : UnOp} {e : Expr} (ge : good e = true) (ht : op = .lnot → truthGood (ct e) = true)
    (se : SE E e) : SE E (.un op e) := by
  intro t v m m' hc he
  have hgood : good (.un op e) = true := by
    simp only [good, ge, Bool.true_and, Bool.or_eq_true, bne_iff_ne]
    by_cases h : op = .lnot
    · exact .inr (ht h)
    · exact .inl h
  have hrt := kt_of hgood hc
  simp only [cty, Option.bind_eq_some_iff] at hc
  obtain ⟨u, hce, hc⟩ := hc
  have ne := kt_of ge hce
  simp only [eval, Option.bind_eq_some_iff, Option.map_eq_some_iff, Prod.mk.injEq] at he
  obtain ⟨⟨v0, m1⟩, he, v', hv, rfl, rfl⟩ := he
  rw [ct_of hce] at hv ht
  obtain ⟨hT, ws, hr, hx⟩ := se _ _ _ _ hce he
  cases op with
  | plus =>
    cases u <;> simp only [reduceCtorEq, Option.some.injEq] at hc
    rename_i b
    subst hc
    simp only [unV, Option.some.injEq] at hv
    subst hv
    obtain ⟨c', hk, nc⟩ := norm_eq_arith hrt
    cases hb : isInteger b with
    | true =>
      obtain ⟨x, rfl, hxr⟩ := intVal hb hT
      have hm := promoteW_mem hb (valid_left hce)
      have hkeep := promote_keeps hb (valid_left hce) hxr (field_value ge hce he hxr)
      refine ⟨⟨(promoted_facts hm).1, hkeep⟩, ws, hr, fun s => ?_⟩
      have hm' := promoted_norm nc hm
      simp only [Rep] at hr
      subst hr
      simp only [tr, hk, SC.run, hx, Option.bind_some, List.cons_append, List.nil_append]
      rw [normalize_int (promoted_facts hm').2.2.2, reduceTo_ok E c' (promoted_facts hm').1 x
        (fun h => absurd h (promoted_facts hm').2.1), wrap_of_inRange ((inRange_norm nc x).mpr hkeep) (promoted_facts hm').1]
    | false =>
      rw [promoteW_fl hb] at nc ⊢
      refine ⟨hT, ws, hr, fun s => ?_⟩
      have hnn : normalize (.arith c') = [] := by
        have := isInteger_norm nc
        rw [hb, isInteger_fmt] at this
        simp only [normalize]
        cases h : fmtOf c' with
        | none => rw [h] at this; cases this
        | some f => rfl
      simp only [tr, hk, SC.run, hx, Option.bind_some, hnn, execs_nil]
  | neg =>
    cases u <;> simp only [reduceCtorEq, Option.some.injEq] at hc
    rename_i b
    subst hc
    obtain ⟨b', hkb, nb⟩ := norm_eq_arith ne
    obtain ⟨c', hk, nc⟩ := norm_eq_arith hrt
    have hfb := (normB_facts nb).2.2.2.2.2.1
    cases v0 with
    | void => exact hT.elim
    | int x =>
      have hm := promoteW_mem hT.1 (valid_left hce)
      have hm' := promoted_norm nc hm
      simp only [unV, Option.map_eq_some_iff] at hv
      obtain ⟨r, hk', rfl⟩ := hv
      have hfb0 : fmtOf b' = none := by
        have := hT.1
        rw [hfb]; rw [isInteger_fmt] at this; simpa using this
      refine ⟨⟨(promoted_facts hm).1, (chk_wrap hm hk').2.1⟩, _, rfl, fun s => ?_⟩
      simp only [Rep] at hr
      subst hr
      simp only [tr, hk, hkb, hfb0, SC.run, hx, Option.bind_some, List.cons_append, List.nil_append, execs_cons, exec_un,
        Un.exec]
      rw [show -(BitVec.ofInt 64 x) = BitVec.ofInt 64 (-x) from (BitVec.ofInt_neg).symm,
        normalize_int (promoted_facts hm').2.2.2, reduceTo_ok E c' (promoted_facts hm').1 (-x)
        (fun h => absurd h (promoted_facts hm').2.1), wrap_norm nc, (chk_wrap hm hk').1]
    | fl f x =>
      simp only [HasTy] at hT
      subst hT
      simp only [unV, Option.some.injEq] at hv
      subst hv
      have hif : isInteger (ofFmt f) = false := by cases f <;> rfl
      rw [promoteW_fl hif] at nc ⊢
      rw [fmtOf_ofFmt] at hfb
      have hfc : fmtOf c' = some f := by rw [(normB_facts nc).2.2.2.2.2.1, fmtOf_ofFmt]
      have hnn : normalize (.arith c') = [] := by simp only [normalize, hfc]
      obtain ⟨ws', hr', hx'⟩ := fneg_ok E hr
      refine ⟨rfl, ws', hr', fun s => ?_⟩
      simp only [tr, hk, hkb, hfb, SC.run, hx, Option.bind_some, hnn, List.append_nil, hx']
  | bnot =>
    cases u <;> simp only [reduceCtorEq] at hc
    rename_i b
    split at hc <;> simp only [reduceCtorEq, Option.some.injEq] at hc
    rename_i hb
    subst hc
    obtain ⟨x, rfl, hxr⟩ := intVal hb hT
    obtain ⟨c', hk, nc⟩ := norm_eq_arith hrt
    have hm := promoteW_mem hb (valid_left hce)
    have hkeep := promote_keeps hb (valid_left hce) hxr (field_value ge hce he hxr)
    simp only [unV, Option.some.injEq] at hv
    subst hv
    generalize promoteW b e.bfw = c at *
    have hm' := promoted_norm nc hm
    refine ⟨⟨(promoted_facts hm).1, valOf_inRange hm _⟩, _, rfl, fun s => ?_⟩
    simp only [Rep] at hr
    subst hr
    simp only [tr, hk, SC.run, hx, Option.bind_some, List.cons_append, List.nil_append, execs_cons, exec_un, Un.exec]
    have e64 : ~~~(BitVec.ofInt 64 x) = BitVec.ofInt 64 (valOf (signed c) (~~~(BitVec.ofInt (width c) x))) ∨ c = .uint := by
      by_cases hu : c = .uint
      · exact .inr hu
      · left
        rw [ofInt_valOf _ (by rcases (promoted_facts hm).2.2.1 with h | h <;> omega), ofInt_ext hm hkeep]
        by_cases hs : signed c = true
        · simp only [hs, if_true]
          have : 0 < width c := by rcases (promoted_facts hm).2.2.1 with h | h <;> omega
          rw [BitVec.signExtend_not this]
        · simp only [hs, if_false]
          have hw : width c = 64 := by
            rcases (promoted_facts hm).2.2.1 with h | h
            · exfalso
              have : ∀ c ∈ promoted, signed c ≠ true → c ≠ .uint → width c = 64 := by decide +kernel
              have := this c hm hs hu
              omega
            · exact h
          simp only [Bool.false_eq_true, if_false]
          apply BitVec.eq_of_getLsbD_eq
          intro i hi
          simp [hi, hw]
    rw [normalize_int (promoted_facts hm').2.2.2]
    have hred : ∀ y : Int, execs E (reduceTo c') (BitVec.ofInt 64 y :: s) m1 = some (BitVec.ofInt 64 (wrap c y) :: s, m1) := by
      intro y
      rw [reduceTo_ok E c' (promoted_facts hm').1 y (fun h => absurd h (promoted_facts hm').2.1), wrap_norm nc]
    rcases e64 with h | h
    · rw [h, hred, wrap_of_inRange (valOf_inRange hm _) (promoted_facts hm).1]
    · subst h
      have hxx : ~~~(BitVec.ofInt 64 x) = BitVec.ofInt 64 (-x - 1) := by
        apply BitVec.eq_of_toNat_eq
        rw [BitVec.toNat_not, BitVec.toNat_ofInt, BitVec.toNat_ofInt]
        omega
      rw [hxx, hred]
      have h1 : wrap .uint (-x - 1) = (-x - 1) % 2 ^ 32 := rfl
      have h2 : 0 ≤ x ∧ x < 2 ^ 32 := by
        simp only [InRange] at hkeep
        have e1 : minVal .uint = 0 := by decide
        have e2 : maxVal .uint = 2 ^ 32 - 1 := by decide
        rw [e1, e2] at hkeep
        omega
      have h3 : valOf (signed .uint) (~~~(BitVec.ofInt (width .uint) x)) = 2 ^ 32 - 1 - x := by
        show ((~~~(BitVec.ofInt 32 x)).toNat : Int) = _
        rw [BitVec.toNat_not, BitVec.toNat_ofInt]
        omega
      rw [h1, h3]
      have : (-x - 1) % 2 ^ 32 = 2 ^ 32 - 1 - x := by omega
      rw [this]
  | lnot =>
    have hc' : isScalarT u = true ∧ Ty.arith .int = t := by cases u <;> simp_all [isScalarT]
    obtain ⟨hsc, rfl⟩ := hc'
    clear hc
    simp only [unV, Option.map_eq_some_iff] at hv
    obtain ⟨x, hx1, rfl⟩ := hv
    have hT' : HasTy (kt e) v0 := (hasTy_norm ne).mpr hT
    have hg' : truthGood (kt e) = true := by
      have := ht rfl
      cases u with
      | arith b =>
        obtain ⟨b', hb', hn⟩ := norm_eq_arith ne
        rw [hb']
        rcases normB_cases hn with h | h
        all_goals (cases b <;> cases b' <;> simp_all [truthGood, normB])
      | ptr u => rw [norm_eq_ptr ne]; rfl
      | _ => simp_all [isScalarT]
    refine ⟨by cases x <;> exact ⟨rfl, by decide⟩, [IR.ofBool (!x)], rep_ofBool _, fun s => ?_⟩
    simp only [tr, SC.run, hx, Option.bind_some]
    by_cases hl : kt e = .arith .ldouble
    · have := truncate_ok E hT' hr hg' hx1 s m1
      simp only [truncate, hl, if_true] at this
      rw [if_pos hl, execs_append, this, Option.bind_some, execs_cons, exec_un, bnot_bool]
      rfl
    · rw [if_neg hl]
      have hi : ∃ y, v0 = .int y := by
        cases v0 with
        | int y => exact ⟨y, rfl⟩
        | void => exfalso; cases u <;> simp_all [HasTy, isScalarT]
        | fl f y =>
          exfalso
          have hk : kt e = .arith (ofFmt f) := by
            cases hke : kt e <;> rw [hke] at hT' <;> simp only [HasTy] at hT'
            rw [hT']
          rw [hk] at hg' hl
          cases f <;> simp_all [truthGood, ofFmt]
      obtain ⟨y, rfl⟩ := hi
      simp only [Rep] at hr
      subst hr
      simp only [truth, Option.some.injEq] at hx1
      simp only [List.nil_append, List.cons_append, execs_cons, exec_un, Option.bind_some, execs_nil]
      congr 3
      have := branch_ok hT
      rw [← hx1, ← this]
      simp [Un.exec, bne]

/-! ### Control operators -/

theorem truthGood_norm {t u : Ty} (h : t.norm = u.norm) (hs : isScalarT u = true) (hg : truthGood u = true) :
    truthGood t = true := by
  cases u with
  | arith b =>
    obtain ⟨b', hb', hn⟩ := norm_eq_arith h
    subst hb'
    cases b <;> cases b' <;> simp_all [truthGood, normB]
  | ptr u => rw [norm_eq_ptr h]; rfl
  | _ => simp_all [isScalarT]

/-- Operand evaluated, truth value left on the stack. -/
theorem truthOf (E : Env) {e : Expr} {t : Ty} (ge : good e = true) (se : SE E e) (hc : cty e = some t)
    (hs : isScalarT t = true) (hg : truthGood (ct e) = true) {m m1 : Mem} {v : Val} {x : Bool}
    (he : eval (ctxOf E) e m = some (v, m1)) (hx : truth v = some x) :
    ∃ ws, (∀ s, (tr e).run E s m = some (ws ++ s, m1)) ∧
      ∀ s, execs E (truncate (kt e)) (ws ++ s) m1 = some (IR.ofBool x :: s, m1) := by
  obtain ⟨hT, ws, hr, hrun⟩ := se _ _ _ _ hc he
  rw [ct_of hc] at hg
  have ne := kt_of ge hc
  exact ⟨ws, hrun, fun s => truncate_ok E ((hasTy_norm ne).mpr hT) hr (truthGood_norm ne hs hg) hx s m1⟩

theorem hasTy_bool (x : Bool) : HasTy (.arith .int) (ofBoolV x) := by cases x <;> exact ⟨rfl, by decide⟩

theorem ofBool_ne (x : Bool) : (IR.ofBool x != 0) = x := by cases x <;> rfl

theorem landCase (E : Env) {a b : Expr} (ga : good a = true) (gb : good b = true) (ta : truthGood (ct a) = true)
    (tb : truthGood (ct b) = true) (sa : SE E a) (sb : SE E b) : SE E (.land a b) := by
  intro t v m m' hc he
  simp only [cty, Option.bind_eq_some_iff] at hc
  obtain ⟨t1, hca, t2, hcb, hc⟩ := hc
  split at hc <;> simp only [reduceCtorEq, Option.some.injEq] at hc
  rename_i hs
  simp only [Bool.and_eq_true] at hs
  subst hc
  simp only [eval, Option.bind_eq_some_iff] at he
  obtain ⟨⟨v1, m1⟩, e1, x, hx, he⟩ := he
  obtain ⟨wa, ra, qa⟩ := truthOf E ga sa hca hs.1 ta e1 hx
  cases x with
  | false =>
    simp only [Bool.false_eq_true, if_false, Option.some.injEq, Prod.mk.injEq] at he
    obtain ⟨rfl, rfl⟩ := he
    refine ⟨hasTy_bool false, _, rfl, fun s => ?_⟩
    simp only [tr, SC.run, ra, Option.bind_some, execs_append, qa, execs_cons, exec_pick0, exec_un, bnot_bool, execs_nil,
      ofBool_ne, Bool.not_false, if_true]
    rfl
  | true =>
    simp only [if_true, Option.bind_eq_some_iff, Option.map_eq_some_iff, Prod.mk.injEq] at he
    obtain ⟨⟨v2, m2⟩, e2, y, hy, rfl, rfl⟩ := he
    obtain ⟨wb, rb, qb⟩ := truthOf E gb sb hcb hs.2 tb e2 hy
    refine ⟨hasTy_bool y, _, rep_ofBool y, fun s => ?_⟩
    simp only [tr, SC.run, ra, Option.bind_some, execs_append, qa, execs_cons, exec_pick0, exec_un, bnot_bool, execs_nil,
      ofBool_ne, Bool.not_true, Bool.false_eq_true, if_false, rb, qb, exec_bin, band_bool, Bool.true_and, Option.map_some]
    rfl

theorem lorCase (E : Env) {a b : Expr} (ga : good a = true) (gb : good b = true) (ta : truthGood (ct a) = true)
    (tb : truthGood (ct b) = true) (sa : SE E a) (sb : SE E b) : SE E (.lor a b) := by
  intro t v m m' hc he
  simp only [cty, Option.bind_eq_some_iff] at hc
  obtain ⟨t1, hca, t2, hcb, hc⟩ := hc
  split at hc <;> simp only [reduceCtorEq, Option.some.injEq] at hc
  rename_i hs
  simp only [Bool.and_eq_true] at hs
  subst hc
  simp only [eval, Option.bind_eq_some_iff] at he
  obtain ⟨⟨v1, m1⟩, e1, x, hx, he⟩ := he
  obtain ⟨wa, ra, qa⟩ := truthOf E ga sa hca hs.1 ta e1 hx
  cases x with
  | true =>
    simp only [if_true, Option.some.injEq, Prod.mk.injEq] at he
    obtain ⟨rfl, rfl⟩ := he
    refine ⟨hasTy_bool true, _, rfl, fun s => ?_⟩
    simp only [tr, SC.run, ra, Option.bind_some, execs_append, qa, execs_cons, exec_pick0, execs_nil, ofBool_ne, if_true]
    rfl
  | false =>
    simp only [Bool.false_eq_true, if_false, Option.bind_eq_some_iff, Option.map_eq_some_iff, Prod.mk.injEq] at he
    obtain ⟨⟨v2, m2⟩, e2, y, hy, rfl, rfl⟩ := he
    obtain ⟨wb, rb, qb⟩ := truthOf E gb sb hcb hs.2 tb e2 hy
    refine ⟨hasTy_bool y, _, rep_ofBool y, fun s => ?_⟩
    simp only [tr, SC.run, ra, Option.bind_some, execs_append, qa, execs_cons, exec_pick0, execs_nil,
      ofBool_ne, Bool.false_eq_true, if_false, rb, qb, exec_bin, bor_bool, Bool.false_or, Option.map_some]
    rfl

/-- A scalar operand of a word type is an integer. -/
theorem wordVal {t : Ty} {v : Val} (hw : isWordTy t = true) (hs : isScalarT t = true) (hT : HasTy t v) : ∃ x, v = .int x := by
  cases t <;> simp only [isScalarT, Bool.false_eq_true] at hs
  · rename_i b
    simp only [isWordTy, ← isInteger_fmt] at hw
    obtain ⟨x, h, _⟩ := intVal hw hT
    exact ⟨x, h⟩
  · obtain ⟨x, h, _⟩ := ptrVal hT
    exact ⟨x, h⟩

theorem keeps_field {C : Ctx} {e : Expr} {t : Ty} {v : Val} {m m' : Mem} (ge : good e = true) (hc : cty e = some t)
    (he : eval C e m = some (v, m')) (hT : HasTy t v) :
    ∀ b x, t = .arith b → v = .int x → FieldRange b e.bfw x := by
  rintro b x rfl rfl
  exact field_value ge hc he hT.2

theorem condCase (E : Env) {c a b : Expr} (ga : good a = true) (gb : good b = true)
    (hw : isWordTy (ct c) = true) (ka : keepsWord (ct a) a.bfw (ct (.cond c a b)) = true)
    (kb : keepsWord (ct b) b.bfw (ct (.cond c a b)) = true) (sc : SE E c) (sa : SE E a) (sb : SE E b) :
    SE E (.cond c a b) := by
  intro t v m m' hc he
  have hct := ct_of hc
  simp only [cty, Option.bind_eq_some_iff] at hc
  obtain ⟨t0, hcc, t1, hca, t2, hcb, hc⟩ := hc
  split at hc
  case isFalse => cases hc
  rename_i hs
  simp only [eval, Option.bind_eq_some_iff, Option.map_eq_some_iff, Prod.mk.injEq] at he
  obtain ⟨⟨v0, m0⟩, e0, x, hx, ⟨v1, m1⟩, e1, v', hv, rfl, rfl⟩ := he
  rw [hct] at hv ka kb
  rw [ct_of hcc] at hw
  rw [ct_of hca] at ka
  rw [ct_of hcb] at kb
  obtain ⟨hT0, w0, r0, x0⟩ := sc _ _ _ _ hcc e0
  obtain ⟨y, rfl⟩ := wordVal hw hs hT0
  simp only [Rep] at r0
  subst r0
  simp only [truth, Option.some.injEq] at hx
  have hbr := branch_ok hT0
  rw [hx] at hbr
  cases x with
  | true =>
    simp only [if_true] at e1
    obtain ⟨hT1, w1, r1, x1⟩ := sa _ _ _ _ hca e1
    obtain ⟨h1, h2⟩ := keepsWord_ok ka hT1 (keeps_field ga hca e1 hT1) r1 hv
    refine ⟨h1, w1, h2, fun s => ?_⟩
    simp only [tr, SC.run, x0, Option.bind_some, List.cons_append, List.nil_append, hbr, if_true, x1]
  | false =>
    simp only [Bool.false_eq_true, if_false] at e1
    obtain ⟨hT1, w1, r1, x1⟩ := sb _ _ _ _ hcb e1
    obtain ⟨h1, h2⟩ := keepsWord_ok kb hT1 (keeps_field gb hcb e1 hT1) r1 hv
    refine ⟨h1, w1, h2, fun s => ?_⟩
    simp only [tr, SC.run, x0, Option.bind_some, List.cons_append, List.nil_append, hbr, Bool.false_eq_true, if_false, x1]

theorem elvisCase (E : Env) {c b : Expr} (gc : good c = true) (gb : good b = true)
    (hw : isWordTy (ct c) = true) (kc : keepsWord (ct c) c.bfw (ct (.elvis c b)) = true)
    (kb : keepsWord (ct b) b.bfw (ct (.elvis c b)) = true) (sc : SE E c) (sb : SE E b) : SE E (.elvis c b) := by
  intro t v m m' hc he
  have hct := ct_of hc
  simp only [cty, Option.bind_eq_some_iff] at hc
  obtain ⟨t1, hcc, t2, hcb, hc⟩ := hc
  split at hc
  case isFalse => cases hc
  rename_i hs
  simp only [eval, Option.bind_eq_some_iff, Option.map_eq_some_iff, Prod.mk.injEq] at he
  obtain ⟨⟨v0, m0⟩, e0, x, hx, ⟨v1, m1⟩, e1, v', hv, rfl, rfl⟩ := he
  rw [hct] at hv kc kb
  rw [ct_of hcc] at hw kc
  rw [ct_of hcb] at kb
  obtain ⟨hT0, w0, r0, x0⟩ := sc _ _ _ _ hcc e0
  obtain ⟨y, rfl⟩ := wordVal hw hs hT0
  have r0' := r0
  simp only [Rep] at r0
  subst r0
  simp only [truth, Option.some.injEq] at hx
  have hbr := branch_ok hT0
  rw [hx] at hbr
  cases x with
  | true =>
    simp only [if_true, Option.some.injEq, Prod.mk.injEq] at e1
    obtain ⟨rfl, rfl⟩ := e1
    obtain ⟨h1, h2⟩ := keepsWord_ok kc hT0 (keeps_field gc hcc e0 hT0) r0' hv
    refine ⟨h1, _, h2, fun s => ?_⟩
    simp only [tr, SC.run, x0, Option.bind_some, List.cons_append, List.nil_append, execs_cons, exec_pick0, execs_nil, hbr,
      if_true]
  | false =>
    simp only [Bool.false_eq_true, if_false] at e1
    obtain ⟨hT1, w1, r1, x1⟩ := sb _ _ _ _ hcb e1
    obtain ⟨h1, h2⟩ := keepsWord_ok kb hT1 (keeps_field gb hcb e1 hT1) r1 hv
    refine ⟨h1, w1, h2, fun s => ?_⟩
    simp only [tr, SC.run, x0, Option.bind_some, List.cons_append, List.nil_append, execs_cons, exec_pick0, execs_nil, hbr,
      Bool.false_eq_true, if_false, exec_pop, x1]

theorem commaCase (E : Env) {a b : Expr} (ga : good a = true) (sa : SE E a) (sb : SE E b) : SE E (.comma a b) := by
  intro t v m m' hc he
  simp only [cty, Option.bind_eq_some_iff] at hc
  obtain ⟨t1, hca, hcb⟩ := hc
  simp only [eval, Option.bind_eq_some_iff] at he
  obtain ⟨⟨v1, m1⟩, e1, e2⟩ := he
  obtain ⟨hT1, w1, r1, x1⟩ := sa _ _ _ _ hca e1
  obtain ⟨hT2, w2, r2, x2⟩ := sb _ _ _ _ hcb e2
  refine ⟨hT2, w2, r2, fun s => ?_⟩
  have hl := rep_length ((hasTy_norm (kt_of ga hca)).mpr hT1) r1
  simp only [tr, SC.run, x1, Option.bind_some, ← hl, pops_ok, x2]

theorem castCase (E : Env) {t0 : Ty} {e : Expr} (ge : good e = true) (hg : convGood (ct e) t0 = true) (se : SE E e) :
    SE E (.cast t0 e) := by
  intro t v m m' hc he
  simp only [cty, Option.bind_eq_some_iff] at hc
  obtain ⟨u, hce, hc⟩ := hc
  split at hc <;> simp only [reduceCtorEq, Option.some.injEq] at hc
  subst hc
  simp only [eval, Option.bind_eq_some_iff, Option.map_eq_some_iff, Prod.mk.injEq] at he
  obtain ⟨⟨v0, m1⟩, he, v', hv, rfl, rfl⟩ := he
  obtain ⟨hT, ws, hr, hx⟩ := se _ _ _ _ hce he
  have ne := kt_of ge hce
  rw [ct_of hce, ← convGood_norm ne rfl] at hg
  obtain ⟨h1, ws', h2, h3⟩ := typeconv_ok E ((hasTy_norm ne).mpr hT) hr hg hv
  refine ⟨h1, ws', h2, fun s => ?_⟩
  simp only [tr, SC.run, hx, Option.bind_some, h3]

/-! ### Assignments -/

theorem storeGood_dec {t : Ty} (h : storeGood t = true) : t.dec = t := by
  cases t <;> first | rfl | (simp [storeGood] at h)

theorem storeGood_ld {t : Ty} (h : storeGood t = true) : t ≠ .arith .ldouble := by
  rintro rfl; simp [storeGood] at h

theorem storeGood_word {t : Ty} {v : Val} {ws : List Word} (h : storeGood t = true) (hT : HasTy t v) (hr : Rep v ws) :
    ∃ w, ws = [w] := by
  have hl := rep_length hT hr
  have : slots t = 1 := by
    cases t with
    | arith b => cases b <;> simp_all [slots, storeGood]
    | _ => simp_all [slots, storeGood]
  rw [this] at hl
  exact List.length_eq_one_iff.mp hl

theorem assignCase (E : Env) {l : LV} {e : Expr} (gl : goodL l = true) (ge : good e = true) (hs : storeGood (clt l) = true)
    (hg : convGood (ct e) (clt l) = true) (sl : SL E l) (se : SE E e) : SE E (.assign l e) := by
  intro t v m m' hc he
  simp only [cty, Option.bind_eq_some_iff] at hc
  obtain ⟨lt, hl, u, hce, hc⟩ := hc
  split at hc <;> simp only [reduceCtorEq, Option.some.injEq] at hc
  rename_i has
  subst hc
  simp only [eval, clt_of hl, Option.bind_eq_some_iff, Option.map_eq_some_iff, Prod.mk.injEq] at he
  obtain ⟨⟨v0, m1⟩, he, v1, hv, ⟨a, m2⟩, hel, m3, hst, rfl, rfl⟩ := he
  rw [clt_of hl] at hs hg
  rw [ct_of hce] at hg
  obtain ⟨hT, ws, hr, hx⟩ := se _ _ _ _ hce he
  have ne := kt_of ge hce
  have hk := klt_of gl hl
  have hxl := sl _ _ _ _ hl hel
  have hbf := bfOk_of gl hl
  -- the converted value
  have hconv : HasTy lt v1 ∧ ∃ w, Rep v1 [w] ∧
      ∀ s m, execs E (if lt.isScalar then typeconv (kt e) lt else []) (ws ++ s) m = some (w :: s, m) := by
    by_cases hsc : lt.isScalar = true
    · rw [← convGood_norm ne rfl] at hg
      obtain ⟨h1, ws', h2, h3⟩ := typeconv_ok E ((hasTy_norm ne).mpr hT) hr hg hv
      obtain ⟨w, rfl⟩ := storeGood_word hs h1 h2
      refine ⟨h1, w, h2, fun s m => ?_⟩
      rw [if_pos hsc]
      exact h3 s m
    · cases lt <;> simp only [Ty.isScalar, storeGood, Bool.and_false, Bool.false_eq_true, not_true] at hsc hs
      rename_i g n
      have : u = .agg g n := by simpa [assignable] using has
      subst this
      rw [conv_self hT] at hv
      cases hv
      obtain ⟨w, rfl⟩ := storeGood_word (t := .agg g n) rfl hT hr
      exact ⟨hT, w, hr, fun s m => rfl⟩
  obtain ⟨hT1, w, hr1, hx1⟩ := hconv
  obtain ⟨h1, w1, w', e1, h2, h3⟩ := storeResult_ok E hbf hs hT1 hr1 hst
  cases e1
  refine ⟨h1, _, h2, fun s => ?_⟩
  simp only [tr, hk, storeGood_dec hs, SC.run, hx, Option.bind_some, hx1, hxl, if_neg (storeGood_ld hs), execs_append,
    execs_cons, exec_xchg1, execs_nil, h3]
  rfl

theorem opAssign_arith {op : BinOp} {b : Basic} {t : Ty} (h : opAssignable op (.arith b) t = true) : ∃ b2, t = .arith b2 := by
  cases op <;> cases t <;> simp_all [opAssignable, isArithT, isInt]

theorem assignOpCase (E : Env) {op : BinOp} {l : LV} {e : Expr} (gl : goodL l = true) (ge : good e = true)
    (hs : storeGood (clt l) = true)
    (hg : ∀ b b2, clt l = .arith b → ct e = .arith b2 → compoundGood op b (l.bf.map (·.2)) b2 e.bfw = true)
    (sl : SL E l) (se : SE E e) : SE E (.assignOp op l e) := by
  intro t v m m' hc he
  simp only [cty, Option.bind_eq_some_iff] at hc
  obtain ⟨lt, hl, u, hce, hc⟩ := hc
  split at hc <;> simp only [reduceCtorEq, Option.some.injEq] at hc
  rename_i has
  subst hc
  simp only [eval, clt_of hl, ct_of hce, Option.bind_eq_some_iff, Option.map_eq_some_iff, Prod.mk.injEq] at he
  obtain ⟨⟨v0, m1⟩, he, ⟨a, m2⟩, hel, cur, hld, r, hbin, r', hr', m3, hst, rfl, rfl⟩ := he
  rw [clt_of hl] at hs hg
  rw [ct_of hce] at hg
  obtain ⟨hT, ws, hr, hx⟩ := se _ _ _ _ hce he
  have ne := kt_of ge hce
  have hk := klt_of gl hl
  have hxl := sl _ _ _ _ hl hel
  have hbf := bfOk_of gl hl
  obtain ⟨hTc, wc, rc, xc⟩ := load_ok E hbf hld
  rw [storeGood_dec hs] at hTc
  cases lt with
  | void => simp [storeGood] at hs
  | arr _ _ => simp [storeGood] at hs
  | agg _ _ => cases op <;> simp [opAssignable, isArithT, isInt] at has
  | ptr u1 =>
    have hop : (op = .add ∨ op = .sub) ∧ isInt u = true := by
      cases op <;> simp_all [opAssignable, isArithT, isInt]
    obtain ⟨b2, rfl, i2⟩ := isInt_inv hop.2
    obtain ⟨i, rfl, hi⟩ := intVal i2 hT
    obtain ⟨p, rfl, hp⟩ := ptrVal hTc
    simp only [Rep] at hr rc
    subst hr; subst rc
    obtain ⟨j, hj, hjn⟩ : ∃ j, r = .int (ptrAdd p j u1.size) ∧
        ∀ s m, execs E (if op = .sub then [.un .neg] else []) (BitVec.ofInt 64 i :: s) m = some (BitVec.ofInt 64 j :: s, m) := by
      rcases hop.1 with rfl | rfl <;> simp only [binV, Option.some.injEq] at hbin <;> subst hbin
      · exact ⟨i, rfl, fun s m => rfl⟩
      · refine ⟨-i, rfl, fun s m => ?_⟩
        simp only [if_true, execs_cons, exec_un, Un.exec, BitVec.ofInt_neg]; rfl
    subst hj
    simp only [conv, Option.some.injEq] at hr'
    have hrange := ptrAdd_range p j u1.size
    rw [Int.emod_eq_of_lt hrange.1 hrange.2] at hr'
    subst hr'
    obtain ⟨h1, w1, w', e1, h2, h3⟩ := storeResult_ok E (v := .int (ptrAdd p j u1.size)) hbf hs hrange rfl hst
    cases e1
    refine ⟨h1, _, h2, fun s => ?_⟩
    have hel2 := elementptr_ok E p j u1.size (a :: s) m2
    simp only [tr, hk, Ty.dec, SC.run, hx, Option.bind_some, List.cons_append, List.nil_append, hjn, hxl, execs_cons,
      exec_pick0, execs_append, xc, reorder, reduceCtorEq, if_false, exec_xchg1, exec_xchg2, execs_nil] at hel2 ⊢
    rw [hel2]
    simp only [Option.bind_some, h3]
  | arith b =>
    obtain ⟨b2, rfl⟩ := opAssign_arith has
    obtain ⟨b2', hkb, n2⟩ := norm_eq_arith ne
    have vl : validW b (l.bf.map (·.2)) := lbf_valid hl
    have ve := valid_left hce
    obtain ⟨c', hc', nc⟩ := common_agrees (rfl : normB b = normB b) n2 vl ve
    have hfr : ∀ x, cur = .int x → FieldRange b (l.bf.map (·.2)) x := by
      rintro x rfl
      exact load_field hbf hTc.2 hld
    -- conversions to the common type
    have g1 : isInteger b = false → isInteger c' = false := by
      rw [isInteger_norm nc]; exact common_float_left
    have g2 : isInteger b2' = false → isInteger c' = false := by
      rw [isInteger_norm nc, isInteger_norm n2]; exact common_float_right
    have hT2 : HasTy (.arith b2') v0 := by
      rw [hkb] at ne
      exact (hasTy_norm ne).mpr hT
    obtain ⟨cc, hcc⟩ := conv_some E.fp hTc g1
    obtain ⟨vc, hvc⟩ := conv_some E.fp hT2 g2
    obtain ⟨tcc, cw, rcc, xcc⟩ := typeconv_ok E hTc rc (convGood_of g1) hcc
    obtain ⟨tvc, vw, rvc, xvc⟩ := typeconv_ok E hT2 hr (convGood_of g2) hvc
    have hbl : b ≠ .ldouble := by rintro rfl; exact storeGood_ld hs rfl
    obtain ⟨hTr, w, rr, xr⟩ := compoundTail E hbl has vl ve n2 nc (hg b b2 rfl rfl) hTc hfr hT hbin hr' hcc hvc tcc tvc rcc rvc
    obtain ⟨h1, w1, w', e1, h2, h3⟩ := storeResult_ok E hbf hs hTr rr hst
    cases e1
    refine ⟨h1, _, h2, fun s => ?_⟩
    have xr' := xr (a :: s) m2
    rw [execs_append, Option.bind_eq_some_iff] at xr'
    obtain ⟨⟨s1, m4⟩, y1, y2⟩ := xr'
    have hkc : kCommon (Ty.arith b) (l.bf.map (·.2)) (Ty.arith b2') e.bfw = some (.arith c') := by simp [kCommon, hc']
    simp only [tr, hk, Ty.dec, hkb, hkc, SC.run, hx, Option.bind_some, xvc, hxl, execs_append, execs_cons, exec_pick0,
      execs_nil, xc, xcc]
    rw [reorder_ok E tcc tvc rcc rvc a s m2]
    simp only [Option.bind_some, y1, y2, h3]
    rfl

theorem incdecCase (E : Env) (L : Lawful E.fp) {post dec : Bool} {l : LV} (gl : goodL l = true)
    (hs : storeGood (clt l) = true) (hp : post = true ∨ l.bf = none) (sl : SL E l) : SE E (.incdec post dec l) := by
  intro t v m m' hc he
  simp only [cty, Option.bind_eq_some_iff] at hc
  obtain ⟨lt, hl, hc⟩ := hc
  simp only [eval, clt_of hl, Option.bind_eq_some_iff, Option.map_eq_some_iff, Prod.mk.injEq] at he
  obtain ⟨⟨a, m1⟩, hel, cur, hld, r, hr, m2, hst, hres, rfl⟩ := he
  rw [clt_of hl] at hs
  have hsc : lt.isScalar = true ∧ lt = t := by
    cases lt <;> simp only [reduceCtorEq, Option.some.injEq] at hc
    · exact ⟨rfl, hc⟩
    · split at hc <;> simp only [reduceCtorEq, Option.some.injEq] at hc
      exact ⟨rfl, hc⟩
  obtain ⟨hsc, rfl⟩ := hsc
  have hk := klt_of gl hl
  have hxl := sl _ _ _ _ hl hel
  have hbf := bfOk_of gl hl
  obtain ⟨hTc, wc, rc, xc⟩ := load_ok E hbf hld
  rw [storeGood_dec hs] at hTc
  obtain ⟨w0, rfl⟩ := storeGood_word hs hTc rc
  have hfr : ∀ b x, lt = .arith b → cur = .int x → FieldRange b (l.bf.map (·.2)) x := by
    rintro b x rfl rfl
    exact load_field hbf hTc.2 hld
  obtain ⟨hTr, w1, rr, xr⟩ := incdec_ok E L hsc (storeGood_ld hs) (wd := l.bf.map fun x : Nat × Nat => x.2)
    (by rintro b rfl; exact lbf_valid hl) hTc hfr rc hr
  obtain ⟨w2, e2, x2⟩ := store_ok E hbf hs hTr rr hst
  cases e2
  have hkv : keepValue lt = [.xchg 1, .pick 1] := by simp only [keepValue, if_neg (storeGood_ld hs)]
  cases post with
  | true =>
    simp only [if_true] at hres
    subst hres
    refine ⟨hTc, _, rc, fun s => ?_⟩
    have xr' := xr (a :: w0 :: s) m1
    rw [execs_append, Option.bind_eq_some_iff] at xr'
    obtain ⟨⟨s1, m4⟩, y1, y2⟩ := xr'
    simp only [tr, hk, SC.run, hxl, Option.bind_some, execs_append, execs_cons, exec_pick0, execs_nil, xc, if_true, hkv,
      List.cons_append, List.nil_append, exec_xchg1, exec_pick1, y1, y2, x2]
  | false =>
    have hnb : l.bf = none := by simpa using hp
    have hasg : assigned lt l.bf r = r := by rw [hnb]; cases lt <;> cases r <;> rfl
    simp only [Bool.false_eq_true, if_false, hasg] at hres
    subst hres
    refine ⟨hTr, _, rr, fun s => ?_⟩
    have xr' := xr (a :: s) m1
    rw [execs_append, Option.bind_eq_some_iff] at xr'
    obtain ⟨⟨s1, m4⟩, y1, y2⟩ := xr'
    simp only [tr, hk, SC.run, hxl, Option.bind_some, execs_append, execs_cons, exec_pick0, execs_nil, xc,
      Bool.false_eq_true, if_false, hkv, List.cons_append, List.nil_append, exec_xchg1, exec_pick1, y1, y2, x2]

/-! ### Lvalues -/

theorem lvalCase (E : Env) {l : LV} (gl : goodL l = true) (sl : SL E l) : SE E (.lval l) := by
  intro t v m m' hc he
  simp only [cty, Option.map_eq_some_iff] at hc
  obtain ⟨lt, hl, rfl⟩ := hc
  simp only [eval, clt_of hl, Option.bind_eq_some_iff, Option.map_eq_some_iff, Prod.mk.injEq] at he
  obtain ⟨⟨a, m1⟩, hel, v', hld, rfl, rfl⟩ := he
  obtain ⟨hT, ws, hr, hx⟩ := load_ok E (bfOk_of gl hl) hld
  refine ⟨hT, ws, hr, fun s => ?_⟩
  simp only [tr, klt_of gl hl, SC.run, sl _ _ _ _ hl hel, Option.bind_some, hx]

theorem addrCase (E : Env) {l : LV} (sl : SL E l) : SE E (.addr l) := by
  intro t v m m' hc he
  simp only [cty] at hc
  split at hc <;> simp only [reduceCtorEq, Option.map_eq_some_iff] at hc
  obtain ⟨lt, hl, rfl⟩ := hc
  simp only [eval, Option.map_eq_some_iff, Prod.mk.injEq] at he
  obtain ⟨⟨a, m1⟩, hel, rfl, rfl⟩ := he
  refine ⟨⟨Int.natCast_nonneg _, by have := a.isLt; omega⟩, [a], by simp [Rep], fun s => ?_⟩
  simp only [tr, sl _ _ _ _ hl hel, List.cons_append, List.nil_append]

theorem derefCase (E : Env) {e : Expr} (se : SE E e) : SL E (.deref e) := by
  intro t a m m' hc he s
  simp only [clty, Option.bind_eq_some_iff] at hc
  obtain ⟨u, hce, hc⟩ := hc
  simp only [evalL, Option.bind_eq_some_iff] at he
  obtain ⟨⟨v, m1⟩, he, h⟩ := he
  obtain ⟨hT, ws, hr, hx⟩ := se _ _ _ _ hce he
  cases v <;> simp only [reduceCtorEq, Option.some.injEq, Prod.mk.injEq] at h
  obtain ⟨rfl, rfl⟩ := h
  simp only [Rep] at hr
  subst hr
  simp only [trL, hx, List.cons_append, List.nil_append]

theorem memberCase (E : Env) {e : Expr} {offs : List Nat} {u : Ty} {bf : Option (Nat × Nat)} (se : SE E e) :
    SL E (.member e offs u bf) := by
  intro t a m m' hc he s
  simp only [clty, Option.bind_eq_some_iff] at hc
  obtain ⟨u, hce, hc⟩ := hc
  simp only [evalL, Option.bind_eq_some_iff] at he
  obtain ⟨⟨v, m1⟩, he, h⟩ := he
  obtain ⟨hT, ws, hr, hx⟩ := se _ _ _ _ hce he
  cases v <;> simp only [reduceCtorEq, Option.some.injEq, Prod.mk.injEq] at h
  obtain ⟨rfl, rfl⟩ := h
  simp only [Rep] at hr
  subst hr
  simp only [trL, SC.run, hx, List.cons_append, List.nil_append, Option.bind_some]
  exact offsets_ok E _ _ s m1

theorem indexCase (E : Env) {a i : Expr} (ga : good a = true) (gi : good i = true) (sa : SE E a) (si : SE E i) :
    SL E (.index a i) := by
  intro t p m m' hc he s
  simp only [clty, Option.bind_eq_some_iff] at hc
  obtain ⟨t1, hca, t2, hci, hc⟩ := hc
  have na := kt_of ga hca
  have ni := kt_of gi hci
  simp only [evalL, ct_of hca, ct_of hci] at he
  cases t1 with
  | ptr u =>
    have hta := norm_eq_ptr na
    simp only [Option.bind_eq_some_iff] at he
    obtain ⟨⟨v1, m1⟩, e1, ⟨v2, m2⟩, e2, h⟩ := he
    obtain ⟨hT1, w1, r1, x1⟩ := sa _ _ _ _ hca e1
    obtain ⟨hT2, w2, r2, x2⟩ := si _ _ _ _ hci e2
    cases v1 <;> cases v2 <;> simp only [reduceCtorEq, Option.some.injEq, Prod.mk.injEq] at h
    obtain ⟨rfl, rfl⟩ := h
    simp only [Rep] at r1 r2
    subst r1; subst r2
    simp only [trL, hta, SC.run, x1, x2, Option.bind_some]
    exact elementptr_ok E _ _ _ s m2
  | arith b1 =>
    obtain ⟨b1', hta, _⟩ := norm_eq_arith na
    simp only [Option.bind_eq_some_iff] at he
    obtain ⟨⟨v1, m1⟩, e1, ⟨v2, m2⟩, e2, h⟩ := he
    obtain ⟨hT1, w1, r1, x1⟩ := si _ _ _ _ hci e1
    obtain ⟨hT2, w2, r2, x2⟩ := sa _ _ _ _ hca e2
    cases t2 with
    | ptr u =>
      have hti := norm_eq_ptr ni
      cases v1 <;> cases v2 <;> simp only [reduceCtorEq, Option.some.injEq, Prod.mk.injEq] at h
      obtain ⟨rfl, rfl⟩ := h
      simp only [Rep] at r1 r2
      subst r1; subst r2
      simp only [trL, hta, hti, SC.run, x1, x2, Option.bind_some]
      exact elementptr_ok E _ _ _ s m2
    | _ => simp at hc
  | _ => cases t2 <;> simp [isInt] at hc

/-! ### All expressions -/

theorem constCase (E : Env) (b : Basic) (v : Int) : SE E (.const b v) := by
  intro t v' m m' hc he
  simp only [cty] at hc
  split at hc <;> simp only [reduceCtorEq, Option.some.injEq] at hc
  rename_i h
  subst hc
  simp only [eval, Option.some.injEq, Prod.mk.injEq] at he
  obtain ⟨rfl, rfl⟩ := he
  exact ⟨h, _, rfl, fun s => rfl⟩

theorem fconstCase (E : Env) (f : Fmt) (x : BitVec f.bits) : SE E (.fconst f x) := by
  intro t v' m m' hc he
  simp only [cty, Option.some.injEq] at hc
  subst hc
  simp only [eval, Option.some.injEq, Prod.mk.injEq] at he
  obtain ⟨rfl, rfl⟩ := he
  cases f with
  | f32 => exact ⟨rfl, _, ⟨_, rfl, by simp⟩, fun s => rfl⟩
  | f64 => exact ⟨rfl, _, rfl, fun s => rfl⟩
  | f80 =>
    refine ⟨rfl, _, ⟨_, _, rfl, ?_⟩, fun s => rfl⟩
    change BitVec 80 at x
    apply BitVec.eq_of_getLsbD_eq
    intro i hi
    rw [BitVec.getLsbD_append]
    by_cases h : i < 64
    · simp [h]
    · have : i - 64 < 16 := by omega
      simp [h, this, show i - 64 < 64 by omega, show 64 + (i - 64) = i by omega]

theorem strCase (E : Env) (id : Nat) : SE E (.str id) := by
  intro t v' m m' hc he
  simp only [cty, Option.some.injEq] at hc
  subst hc
  simp only [eval, Option.some.injEq, Prod.mk.injEq] at he
  obtain ⟨rfl, rfl⟩ := he
  refine ⟨⟨Int.natCast_nonneg _, by have := ((ctxOf E).symbol id).isLt; omega⟩, [E.globals id], ?_, fun s => rfl⟩
  simp [Rep, ctxOf]

theorem autoCase (E : Env) (offs : List Nat) (u : Ty) : SL E (.auto offs u) := by
  intro t a m m' hc he s
  simp only [evalL, Option.some.injEq, Prod.mk.injEq] at he
  obtain ⟨rfl, rfl⟩ := he
  simp only [trL, SC.run, execs_cons, exec_getlocals, Option.bind_some]
  exact offsets_ok E _ _ s m

theorem globCase (E : Env) (id : Nat) (offs : List Nat) (u : Ty) : SL E (.glob id offs u) := by
  intro t a m m' hc he s
  simp only [evalL, Option.some.injEq, Prod.mk.injEq] at he
  obtain ⟨rfl, rfl⟩ := he
  simp only [trL, SC.run, execs_cons, exec_getglobal, Option.bind_some]
  exact offsets_ok E _ _ s m

mutual
theorem sound (E : Env) (L : Lawful E.fp) : (e : Expr) → good e = true → SE E e
  | .const b v, _ => constCase E b v
  | .fconst f x, _ => fconstCase E f x
  | .str id, _ => strCase E id
  | .lval l, h => by simp only [good] at h; exact lvalCase E h (soundL E L l h)
  | .addr l, h => by simp only [good] at h; exact addrCase E (soundL E L l h)
  | .cast t e, h => by
    simp only [good, Bool.and_eq_true] at h; exact castCase E h.1 h.2 (sound E L e h.1)
  | .un op e, h => by
    simp only [good, Bool.and_eq_true, Bool.or_eq_true, bne_iff_ne] at h
    exact unCase E h.1 (fun ho => h.2.resolve_left (fun hn => hn ho)) (sound E L e h.1)
  | .bin op a b, h => by
    simp only [good, Bool.and_eq_true] at h
    exact binCase E L h.1 h.2 (sound E L a h.1) (sound E L b h.2)
  | .land a b, h => by
    simp only [good, Bool.and_eq_true] at h
    exact landCase E h.1.1.1 h.1.1.2 h.1.2 h.2 (sound E L a h.1.1.1) (sound E L b h.1.1.2)
  | .lor a b, h => by
    simp only [good, Bool.and_eq_true] at h
    exact lorCase E h.1.1.1 h.1.1.2 h.1.2 h.2 (sound E L a h.1.1.1) (sound E L b h.1.1.2)
  | .cond c a b, h => by
    simp only [good, Bool.and_eq_true] at h
    exact condCase E h.1.1.1.1.2 h.1.1.1.2 h.1.1.2 h.1.2 h.2 (sound E L c h.1.1.1.1.1) (sound E L a h.1.1.1.1.2)
      (sound E L b h.1.1.1.2)
  | .elvis c b, h => by
    simp only [good, Bool.and_eq_true] at h
    exact elvisCase E h.1.1.1.1 h.1.1.1.2 h.1.1.2 h.1.2 h.2 (sound E L c h.1.1.1.1) (sound E L b h.1.1.1.2)
  | .comma a b, h => by
    simp only [good, Bool.and_eq_true] at h
    exact commaCase E h.1 (sound E L a h.1) (sound E L b h.2)
  | .assign l e, h => by
    simp only [good, Bool.and_eq_true] at h
    exact assignCase E h.1.1.1 h.1.1.2 h.1.2 h.2 (soundL E L l h.1.1.1) (sound E L e h.1.1.2)
  | .assignOp op l e, h => by
    simp only [good, Bool.and_eq_true] at h
    refine assignOpCase E h.1.1.1 h.1.1.2 h.1.2 ?_ (soundL E L l h.1.1.1) (sound E L e h.1.1.2)
    intro b b2 h1 h2
    have := h.2
    rw [h1, h2] at this
    exact this
  | .incdec post dec l, h => by
    simp only [good, Bool.and_eq_true, Bool.or_eq_true, Option.isNone_iff_eq_none] at h
    exact incdecCase E L h.1.1 h.1.2 h.2 (soundL E L l h.1.1)
  | .sizeof t, h => by simp only [good] at h; cases h
theorem soundL (E : Env) (L : Lawful E.fp) : (l : LV) → goodL l = true → SL E l
  | .auto offs t, _ => autoCase E offs t
  | .glob id offs t, _ => globCase E id offs t
  | .deref e, h => by simp only [goodL] at h; exact derefCase E (sound E L e h)
  | .index a i, h => by
    simp only [goodL, Bool.and_eq_true] at h
    exact indexCase E h.1 h.2 (sound E L a h.1) (sound E L i h.2)
  | .member e offs u bf, h => by
    simp only [goodL, Bool.and_eq_true] at h
    exact memberCase E (sound E L e h.1)
end

end Kefir.Expr
