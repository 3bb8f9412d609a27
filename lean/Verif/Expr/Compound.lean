import Verif.Expr.Ops

/-! Compound assignment and increment: the value computed and converted back. -/
namespace Kefir.Expr
open Kefir.Types (Basic)
open Kefir.C17 Kefir.CSpec
open Kefir.IR

/-- Compound assignments to an arithmetic object for which kefir's code leaves the C value, whatever the operands:
see `Findings.lean` for what goes wrong otherwise. -/
def compoundGood (op : BinOp) (b : Basic) (wl : Option Nat) (b2 : Basic) (we : Option Nat) : Bool :=
  let c := common b wl b2 we
  convGood (.arith c) (.arith b) &&
  (!(grows op && c == .uint) || (b != .uint && b != .bool && decide (width b ≤ 32))) &&
  (op != .mod || signed b2 == signed c || c == .uint) &&
  (op != .shr || (if signed b2 then !(!signed b && width b == 64) else !signed b))

theorem conv_some (F : FP) {b c : Basic} {v : Val} (hT : HasTy (.arith b) v) (h : isInteger b = false → isInteger c = false) :
    ∃ v', conv F (.arith c) v = some v' := by
  cases v with
  | void => exact hT.elim
  | int a => simp only [conv]; split <;> exact ⟨_, rfl⟩
  | fl f x =>
    simp only [HasTy] at hT
    subst hT
    have := h (by cases f <;> rfl)
    simp only [conv]
    rw [isInteger_fmt] at this
    cases hf : fmtOf c with
    | none => rw [hf] at this; simp at this
    | some g => exact ⟨_, rfl⟩

theorem conv_int (F : FP) {c : Basic} (hc : isInteger c = true) (a : Int) : conv F (.arith c) (.int a) = some (.int (wrap c a)) := by
  have : fmtOf c = none := by rw [isInteger_fmt] at hc; simpa using hc
  simp [conv, this]

theorem reorder_ok (E : Env) {c : Basic} {cc vc : Val} {cw vw : List Word} (h1 : HasTy (.arith c) cc) (h2 : HasTy (.arith c) vc)
    (r1 : Rep cc cw) (r2 : Rep vc vw) (a : Word) (s : List Word) (m : Mem) :
    execs E (reorder (.arith c)) (cw ++ (a :: (vw ++ s))) m = some (vw ++ (cw ++ (a :: s)), m) := by
  have l1 := rep_length h1 r1
  have l2 := rep_length h2 r2
  by_cases hc : c = .ldouble
  · subst hc
    obtain ⟨c0, c1, rfl⟩ : ∃ c0 c1, cw = [c0, c1] := by
      match cw, l1 with
      | [c0, c1], _ => exact ⟨c0, c1, rfl⟩
    obtain ⟨v0, v1, rfl⟩ : ∃ c0 c1, vw = [c0, c1] := by
      match vw, l2 with
      | [c0, c1], _ => exact ⟨c0, c1, rfl⟩
    simp only [reorder, if_true, List.cons_append, List.nil_append, execs_cons, execs_nil, exec_xchg1, exec_xchg2, exec_xchg3,
      exec_xchg4, Option.bind_some]
  · have hs : slots (.arith c) = 1 := by cases c <;> simp_all [slots]
    rw [hs] at l1 l2
    obtain ⟨c0, rfl⟩ : ∃ c0, cw = [c0] := List.length_eq_one_iff.mp l1
    obtain ⟨v0, rfl⟩ : ∃ c0, vw = [c0] := List.length_eq_one_iff.mp l2
    have hne : Ty.arith c ≠ .arith .ldouble := by simpa using hc
    simp only [reorder, if_neg hne, List.cons_append, List.nil_append, execs_cons, execs_nil, exec_xchg1, exec_xchg2,
      Option.bind_some]

theorem max_common {p q : Basic} (hp : p ∈ promoted) (hq : q ∈ promoted) : maxVal p ≤ maxVal (commonInteger p q) := by
  have : ∀ p ∈ promoted, ∀ q ∈ promoted, maxVal p ≤ maxVal (commonInteger p q) := by decide +kernel
  exact this p hp q hq

theorem width_common {p q : Basic} (hp : p ∈ promoted) (hq : q ∈ promoted) : width p ≤ width (commonInteger p q) := by
  have : ∀ p ∈ promoted, ∀ q ∈ promoted, width p ≤ width (commonInteger p q) := by decide +kernel
  exact this p hp q hq

theorem min_common {p q : Basic} (hp : p ∈ promoted) (hq : q ∈ promoted) (sp : signed p = true) (sq : signed q = true) :
    minVal (commonInteger p q) ≤ minVal p := by
  have : ∀ p ∈ promoted, ∀ q ∈ promoted, signed p = true → signed q = true → minVal (commonInteger p q) ≤ minVal p := by
    decide +kernel
  exact this p hp q hq sp sq

theorem minVal_nonpos (c : Basic) : minVal c ≤ 0 := by cases c <;> decide

theorem common_int {b1 b2 : Basic} {w1 w2 : Option Nat} (i1 : isInteger b1 = true) (i2 : isInteger b2 = true)
    (v1 : validW b1 w1) (v2 : validW b2 w2) :
    common b1 w1 b2 w2 = commonInteger (promoteW b1 w1) (promoteW b2 w2) := by
  have h1 := promoteW_mem i1 v1
  have h2 := promoteW_mem i2 v2
  have : ∀ p ∈ promoted, ∀ q ∈ promoted, commonReal p q = commonInteger p q := by decide +kernel
  exact this _ h1 _ h2

theorem promoteW_signed {b : Basic} {w : Option Nat} (hi : isInteger b = true) (hs : signed b = true) :
    signed (promoteW b w) = true := by
  unfold promoteW
  simp only [hi, Bool.not_true, Bool.false_eq_true, if_false]
  cases w with
  | none => cases b <;> simp_all [signed, promote, convRank]
  | some n => simp only; split <;> simp_all [signed]

theorem promoteW_unsigned {b : Basic} {w : Option Nat} (hi : isInteger b = true) (hs : signed (promoteW b w) = false) :
    promoteW b w = b := by
  unfold promoteW at hs ⊢
  simp only [hi, Bool.not_true, Bool.false_eq_true, if_false] at hs ⊢
  cases w with
  | none => cases b <;> simp_all [signed, promote, convRank]
  | some n =>
    simp only at hs ⊢
    split at hs
    · simp [signed] at hs
    · rename_i h; rw [if_neg h]

theorem normB_uint {b : Basic} (h : normB b = normB .uint) : b = .uint := by
  rcases normB_cases h with rfl | ⟨_, h⟩ | ⟨_, h⟩ | ⟨_, h⟩ | ⟨_, h⟩
  · rfl
  all_goals cases h

theorem uint_norm {c c' : Basic} (h : normB c' = normB c) : c' = .uint ↔ c = .uint := by
  constructor
  · rintro rfl; exact normB_uint h.symm
  · rintro rfl; exact normB_uint h

theorem single_word {b : Basic} (hb : b ≠ .ldouble) {r : Val} {ws : List Word} (hT : HasTy (.arith b) r) (hr : Rep r ws) :
    ∃ w, ws = [w] := by
  have := rep_length hT hr
  have hs : slots (.arith b) = 1 := by cases b <;> simp_all [slots]
  rw [hs] at this
  exact List.length_eq_one_iff.mp this

/-- What the sequence after the operands computes. -/
theorem compoundTail (E : Env) {op : BinOp} {b b2 b2' c' : Basic} {wl we : Option Nat}
    (hbl : b ≠ .ldouble) (hop : opAssignable op (.arith b) (.arith b2) = true)
    (vl : validW b wl) (ve : validW b2 we) (n2 : normB b2' = normB b2)
    (nc : normB c' = normB (common b wl b2 we)) (hg : compoundGood op b wl b2 we = true)
    {cur v r r' : Val} (hcur : HasTy (.arith b) cur) (hfr : ∀ x, cur = .int x → FieldRange b wl x)
    (hv : HasTy (.arith b2) v)
    (hbin : binV E.fp op (.arith b) wl cur (.arith b2) we v = some r) (hr : conv E.fp (.arith b) r = some r')
    {cc vc : Val} (hcc : conv E.fp (.arith c') cur = some cc) (hvc : conv E.fp (.arith c') v = some vc)
    (tcc : HasTy (.arith c') cc) (tvc : HasTy (.arith c') vc)
    {cw vw : List Word} (rcc : Rep cc cw) (rvc : Rep vc vw) :
    HasTy (.arith b) r' ∧ ∃ w, Rep r' [w] ∧
      ∀ s m, execs E (compoundInstr op (.arith c') (.arith b2') ++ typeconv (.arith c') (.arith b)) (vw ++ (cw ++ s)) m =
        some (w :: s, m) := by
  simp only [compoundGood, Bool.and_eq_true, Bool.or_eq_true, Bool.not_eq_true', bne_iff_ne, ne_eq, beq_iff_eq,
    decide_eq_true_eq] at hg
  obtain ⟨⟨⟨hg1, hg2⟩, hg3⟩, hg4⟩ := hg
  have hconv : convGood (.arith c') (.arith b) = true := by
    rw [convGood_norm (t := .arith (common b wl b2 we)) (u := .arith b) (by simpa [Ty.norm] using nc) rfl]; exact hg1
  have hopT : OpTy c' := opTy_norm nc (common_opTy vl ve)
  have hci : ∀ t', conv E.fp (.arith (common b wl b2 we)) t' = conv E.fp (.arith c') t' := fun t' =>
    (congrFun (conv_norm E.fp (by simpa [Ty.norm] using nc)) t').symm
  -- finish from a canonical intermediate result
  have fin : ∀ (r0 : Val) (ws : List Word) (code : List Instr), HasTy (.arith c') r0 → Rep r0 ws → conv E.fp (.arith b) r0 = some r' →
      (∀ s m, execs E code (vw ++ (cw ++ s)) m = some (ws ++ s, m)) →
      HasTy (.arith b) r' ∧ ∃ w, Rep r' [w] ∧
        ∀ s m, execs E (code ++ typeconv (.arith c') (.arith b)) (vw ++ (cw ++ s)) m = some (w :: s, m) := by
    intro r0 ws code t0 rp0 c0 hx
    obtain ⟨t1, ws', rp, hy⟩ := typeconv_ok E t0 rp0 hconv c0
    obtain ⟨w, rfl⟩ := single_word hbl t1 rp
    exact ⟨t1, w, rp, fun s m => by rw [execs_append, hx s m, Option.bind_some]; exact hy s m⟩
  rcases hopT with hc | ⟨f, rfl⟩
  · -- integers
    have hpf := promoted_facts hc
    obtain ⟨x', rfl, hx'⟩ := int_of_hasTy hc tcc
    obtain ⟨y', rfl, hy'⟩ := int_of_hasTy hc tvc
    have hci' : isInteger (common b wl b2 we) = true := by rw [← isInteger_norm nc]; exact hpf.1
    have ib : isInteger b = true := by
      cases h : isInteger b
      · rw [common_float_left h] at hci'; cases hci'
      · rfl
    have ib2 : isInteger b2 = true := by
      cases h : isInteger b2
      · rw [common_float_right h] at hci'; cases hci'
      · rfl
    obtain ⟨x, rfl, hx⟩ : ∃ x, cur = .int x ∧ InRange b x := by
      cases cur with
      | int x => exact ⟨x, rfl, hcur.2⟩
      | fl f z => simp only [HasTy] at hcur; subst hcur; cases f <;> cases ib
      | void => exact hcur.elim
    obtain ⟨y, rfl, hy⟩ : ∃ x, v = .int x ∧ InRange b2 x := by
      cases v with
      | int x => exact ⟨x, rfl, hv.2⟩
      | fl f z => simp only [HasTy] at hv; subst hv; cases f <;> cases ib2
      | void => exact hv.elim
    rw [conv_int E.fp hpf.1] at hcc hvc
    simp only [Option.some.injEq, Val.int.injEq] at hcc hvc
    simp only [Rep] at rcc rvc
    subst rcc; subst rvc
    simp only [List.cons_append, List.nil_append] at fin ⊢
    -- the non-shift operators
    have plain : ∀ sg, (op = .div ∨ op = .mod → sg = signed c' ∨ c' = .uint) →
        compoundInstr op (.arith c') (.arith b2') = intInstr op sg →
        (conv E.fp (.arith (common b wl b2 we)) (.int x)).bind (fun v1 =>
          (conv E.fp (.arith (common b wl b2 we)) (.int y)).bind fun v2 => arithV E.fp op (common b wl b2 we) v1 v2) = some r →
        HasTy (.arith b) r' ∧ ∃ w, Rep r' [w] ∧
          ∀ s m, execs E (compoundInstr op (.arith c') (.arith b2') ++ typeconv (.arith c') (.arith b))
            (BitVec.ofInt 64 y' :: BitVec.ofInt 64 x' :: s) m = some (w :: s, m) := by
      intro sg hsg hins ha
      simp only [hci, conv_int E.fp hpf.1, hcc, hvc, Option.bind_some, arithV, Option.map_eq_some_iff] at ha
      obtain ⟨z, hz, rfl⟩ := ha
      rw [← arithInt_norm nc] at hz
      obtain ⟨hin, r0, hw, hcan, hexec⟩ := intRaw_ok E hc hsg hx' hy' hz
      by_cases hgu : c' ≠ .uint ∨ grows op = false
      · rw [hins]
        refine fin (.int z) [BitVec.ofInt 64 z] _ ⟨hpf.1, hin⟩ rfl hr (fun s m => ?_)
        rw [hexec s m, hcan hgu]; rfl
      · have hcu : c' = .uint := by
          apply Classical.byContradiction; intro h; exact hgu (.inl h)
        have hgr : grows op = true := by
          cases h : grows op
          · exact absurd (.inr h) hgu
          · rfl
        have hcu' := (uint_norm nc).mp hcu
        subst hcu
        rcases hg2 with h | ⟨⟨h1, h2⟩, h3⟩
        · rw [hgr, hcu'] at h; simp at h
        · have htc : typeconv (.arith .uint) (.arith b) = reduceTo b := by
            have hne : Ty.arith .uint ≠ .arith b := by intro h; injection h with h; exact h1 h.symm
            have hfb : fmtOf b = none := by rw [isInteger_fmt] at ib; simpa using ib
            simp only [typeconv, if_neg hne, hfb, castToInteger]
            rfl
          rw [conv_int E.fp ib] at hr
          simp only [Option.some.injEq] at hr
          have hwb : wrap b r0 = wrap b z := by
            apply wrap_congr h2
            rw [← hw]
            have hwu : wrap .uint r0 = r0 % 2 ^ 32 := rfl
            rw [hwu]
            have hd : (2 : Int) ^ width b ∣ 2 ^ 32 := ⟨2 ^ (32 - width b), by rw [← Int.pow_add]; congr 1; omega⟩
            rw [Int.emod_emod_of_dvd _ hd]
          rw [← hr, ← hwb]
          refine ⟨⟨ib, wrap_inRange b ib _⟩, BitVec.ofInt 64 (wrap b r0), rfl, fun s m => ?_⟩
          rw [execs_append, hins, hexec s m, Option.bind_some, htc, reduceTo_ok E b ib r0 (fun h => absurd h h2)]
    have hins0 : ∀ o, o ≠ BinOp.div → o ≠ .mod → o ≠ .shr →
        compoundInstr o (.arith c') (.arith b2') = intInstr o false := by
      intro o h1 h2 h3
      cases o <;> simp_all [compoundInstr, arithInstr]
    -- facts for shifts
    have hp := promoteW_mem ib vl
    have hq := promoteW_mem ib2 ve
    have hcm := common_int ib ib2 vl ve
    have hxp := promote_keeps ib vl hx (hfr x rfl)
    have hmaxc : maxVal (promoteW b wl) ≤ maxVal c' := by
      rw [(normB_facts nc).2.2.2.2.1, hcm]; exact max_common hp hq
    have hwid : width (promoteW b wl) ≤ width c' := by
      rw [(normB_facts nc).2.2.1, hcm]; exact width_common hp hq
    have up : ∀ z, 0 ≤ z → InRange (promoteW b wl) z → InRange c' z := by
      intro z h0 hz
      exact ⟨Int.le_trans (minVal_nonpos c') h0, Int.le_trans hz.2 hmaxc⟩
    have hpw := (promoted_facts hp).2.2.1
    cases op with
    | add => exact plain false (by simp) (hins0 .add (by decide) (by decide) (by decide)) hbin
    | sub => exact plain false (by simp) (hins0 .sub (by decide) (by decide) (by decide)) hbin
    | mul => exact plain false (by simp) (hins0 .mul (by decide) (by decide) (by decide)) hbin
    | band => exact plain false (by simp) (hins0 .band (by decide) (by decide) (by decide)) hbin
    | bxor => exact plain false (by simp) (hins0 .bxor (by decide) (by decide) (by decide)) hbin
    | bor => exact plain false (by simp) (hins0 .bor (by decide) (by decide) (by decide)) hbin
    | div =>
      exact plain (signed c') (fun _ => .inl rfl)
        (by simp [compoundInstr, arithInstr, hpf.2.2.2, isSigned_arith]) hbin
    | mod =>
      refine plain (signed b2') (fun _ => ?_) (by simp [compoundInstr, isSigned_arith]) hbin
      rw [(normB_facts n2).2.1, (normB_facts nc).2.1]
      rcases hg3 with (h | h) | h
      · exact absurd rfl h
      · exact .inl h
      · exact .inr ((uint_norm nc).mpr h)
    | shl =>
      simp only [binV, Option.map_eq_some_iff] at hbin
      obtain ⟨z, hz, rfl⟩ := hbin
      unfold shiftInt at hz
      split at hz
      · cases hz
      · rename_i hn
        have hyin : InRange c' y := count_keeps hc (by omega)
        have hyy : y' = y := by rw [← hvc]; exact wrap_of_inRange hyin hpf.1
        simp only at hz
        split at hz
        · cases hz
        · rename_i hneg
          have hx0 : 0 ≤ x := by
            cases hsp : signed (promoteW b wl)
            · have := hxp.1; simp only [minVal, hsp] at this; simpa using this
            · simp only [hsp, true_and] at hneg; omega
          have hxx : x' = x := by rw [← hcc]; exact wrap_of_inRange (up x hx0 hxp) hpf.1
          have hins := hins0 .shl (by decide) (by decide) (by decide)
          have hexec := fun s m => shift_ok E (op := .shl) (.inl rfl) (sg := false) (a := x) (n := y) (w := width (promoteW b wl))
            (by rcases hpw with h | h <;> omega) hn (W64_of_inRange hx ib) (by simp) (by simp) s m
          simp only [if_true] at hexec
          rw [hyy, hxx] at fin ⊢
          obtain ⟨k1, k2, k3⟩ := chk_wrap hp hz
          by_cases hcan : BitVec.ofInt 64 (x * 2 ^ y.toNat) = BitVec.ofInt 64 z
          · rw [hins]
            refine fin (.int z) [BitVec.ofInt 64 z] _ ⟨hpf.1, ?_⟩ rfl hr (fun s m => ?_)
            · apply up z _ k2
              cases hsp : signed (promoteW b wl)
              · have := k2.1; simp only [minVal, hsp] at this; simpa using this
              · rw [k3 hsp]; exact Int.mul_nonneg hx0 (Int.le_of_lt (Int.pow_pos (by decide)))
            · rw [hexec s m, hcan]; rfl
          · -- only `unsigned int` can lose bits above its width
            have hpu : promoteW b wl = .uint := by
              apply Classical.byContradiction
              intro hne
              exact hcan (canon_or hp hz hne)
            have hbu : b = .uint := by
              rw [← promoteW_unsigned (w := wl) ib (by rw [hpu]; rfl)]; exact hpu
            subst hbu
            have hcne : c' ≠ .uint := by
              intro h
              have := (uint_norm nc).mp h
              rcases hg2 with h | ⟨⟨h1, h2⟩, h3⟩
              · rw [this] at h; simp [grows] at h
              · exact h1 rfl
            have htc : typeconv (.arith c') (.arith .uint) = reduceTo .uint := by
              have hne : Ty.arith c' ≠ .arith .uint := by intro h; injection h with h; exact hcne h
              simp only [typeconv, if_neg hne, castToInteger, hpf.2.2.2]
              rfl
            rw [conv_int E.fp rfl] at hr
            simp only [Option.some.injEq] at hr
            rw [hpu] at k1 k2
            rw [← hr, wrap_of_inRange k2 rfl]
            refine ⟨⟨rfl, k2⟩, BitVec.ofInt 64 z, rfl, fun s m => ?_⟩
            rw [execs_append, hins, hexec s m, Option.bind_some, htc, reduceTo_ok E .uint rfl _ (by simp), k1]
    | shr =>
      simp only [binV, Option.map_eq_some_iff] at hbin
      obtain ⟨z, hz, rfl⟩ := hbin
      unfold shiftInt at hz
      split at hz
      · cases hz
      · rename_i hn
        have hyin : InRange c' y := count_keeps hc (by omega)
        have hyy : y' = y := by rw [← hvc]; exact wrap_of_inRange hyin hpf.1
        simp only [Option.some.injEq] at hz
        have hg4' : if signed b2 = true then ¬ (signed b = false ∧ width b = 64) else signed b = false := by
          rcases hg4 with h | h
          · exact absurd rfl h
          · clear fin plain hins0 up
            cases hs2 : signed b2 <;> rw [hs2] at h
            · simpa using h
            · simp only [if_true]
              rintro ⟨e1, e2⟩
              simp [e1, e2] at h
        have hxin : InRange c' x := by
          cases hsp : signed (promoteW b wl)
          · apply up x _ hxp
            have := hxp.1; simp only [minVal, hsp] at this; simpa using this
          · cases hs2 : signed b2
            · rw [hs2] at hg4'
              simp only [Bool.false_eq_true, if_false] at hg4'
              apply up x _ hxp
              have := hx.1; simp only [minVal, hg4'] at this; simpa using this
            · refine ⟨?_, Int.le_trans hxp.2 hmaxc⟩
              refine Int.le_trans ?_ hxp.1
              rw [(normB_facts nc).2.2.2.1, hcm]
              exact min_common hp hq hsp (promoteW_signed ib2 hs2)
        have hxx : x' = x := by rw [← hcc]; exact wrap_of_inRange hxin hpf.1
        have hins : compoundInstr .shr (.arith c') (.arith b2') = intInstr .shr (signed b2) := by
          simp [compoundInstr, isSigned_arith, (normB_facts n2).2.1]
        have hexec := fun s m => shift_ok E (op := .shr) (.inr rfl) (sg := signed b2) (a := x) (n := y) (w := width (promoteW b wl))
          (by rcases hpw with h | h <;> omega) hn (W64_of_inRange hx ib)
          (fun _ hs => by
            rw [hs] at hg4'
            simp only [if_true] at hg4'
            have := cls_of_inRange ib hx
            cases hsb : signed b
            · have hw64 : width b ≤ 32 := by cases b <;> simp_all [width, signed, isInteger]
              have := hx.2
              simp only [maxVal, hsb, Bool.false_eq_true, if_false] at this
              have := pow_mono hw64
              omega
            · rw [hsb] at this; simp only [Cls, if_true] at this; exact this.2)
          (fun _ hs => by
            rw [hs] at hg4'
            simp only [Bool.false_eq_true, if_false] at hg4'
            have := hx.1; simp only [minVal, hg4'] at this; simpa using this) s m
        simp only [reduceCtorEq, if_false] at hexec
        rw [hyy, hxx] at fin ⊢
        rw [hins]
        refine fin (.int z) [BitVec.ofInt 64 z] _ ⟨hpf.1, ?_⟩ rfl hr (fun s m => ?_)
        · rw [← hz]; exact shr_inRange hxin _
        · rw [hexec s m, hz]; rfl
    | lt => simp [opAssignable] at hop
    | gt => simp [opAssignable] at hop
    | le => simp [opAssignable] at hop
    | ge => simp [opAssignable] at hop
    | eq => simp [opAssignable] at hop
    | ne => simp [opAssignable] at hop
  · -- floating
    obtain ⟨x, rfl⟩ := fl_of_hasTy tcc
    obtain ⟨y, rfl⟩ := fl_of_hasTy tvc
    have hbin' : (arithFl E.fp op f x y).map (.fl f) = some r := by
      have hnotint : ¬ (isInteger b = true ∧ isInteger b2 = true) := by
        rintro ⟨i1, i2⟩
        have := commonInteger_mem (promoteW_mem i1 vl) (promoteW_mem i2 ve)
        rw [← common_int i1 i2 vl ve] at this
        exact ofFmt_not_promoted f (promoted_norm nc this)
      have hb0 : (conv E.fp (.arith (common b wl b2 we)) cur).bind (fun v1 =>
          (conv E.fp (.arith (common b wl b2 we)) v).bind fun v2 => arithV E.fp op (common b wl b2 we) v1 v2) = some r := by
        cases op <;> simp only [opAssignable, isInt, Bool.and_eq_true, isArithT] at hop <;>
          first | exact hbin | exact absurd hop hnotint | cases hop
      simp only [hci, hcc, hvc, Option.bind_some, arithV, dite_true] at hb0
      exact hb0
    simp only [Option.map_eq_some_iff] at hbin'
    obtain ⟨z, hz, rfl⟩ := hbin'
    have key : ∀ o : FArith, compoundInstr op (.arith (ofFmt f)) (.arith b2') = [.fbin o f] → z = E.fp.arith o f x y →
        HasTy (.arith b) r' ∧ ∃ w, Rep r' [w] ∧
          ∀ s m, execs E (compoundInstr op (.arith (ofFmt f)) (.arith b2') ++ typeconv (.arith (ofFmt f)) (.arith b))
            (vw ++ (cw ++ s)) m = some (w :: s, m) := by
      intro o h1 h2
      rw [h1]
      obtain ⟨ws, rp, hx⟩ := fbin_ok E o rcc rvc
      exact fin (.fl f z) ws _ rfl (by rw [h2]; exact rp) hr hx
    cases op <;> simp only [arithFl, reduceCtorEq, Option.some.injEq] at hz
    · exact key .add (by simp [compoundInstr, arithInstr, fmtOf_ofFmt]) hz.symm
    · exact key .sub (by simp [compoundInstr, arithInstr, fmtOf_ofFmt]) hz.symm
    · exact key .mul (by simp [compoundInstr, arithInstr, fmtOf_ofFmt]) hz.symm
    · exact key .div (by simp [compoundInstr, arithInstr, fmtOf_ofFmt]) hz.symm

end Kefir.Expr
