import Verif.Expr.Compound

/-! Increment and decrement. -/
namespace Kefir.Expr
open Kefir.Types (Basic)
open Kefir.C17 Kefir.CSpec
open Kefir.IR

theorem cvtF_self (F : FP) (f : Fmt) (x : BitVec f.bits) : cvtF F f f x = x := by simp [cvtF]

theorem conv_fl_self (F : FP) (f : Fmt) (x : BitVec f.bits) : conv F (.arith (ofFmt f)) (.fl f x) = some (.fl f x) := by
  simp [conv, fmtOf_ofFmt, cvtF_self]

theorem common_one {b : Basic} {w : Option Nat} (hi : isInteger b = true) (hw : validW b w) :
    common b w .int none = promoteW b w := by
  have h1 := promoteW_mem hi hw
  have : ∀ p ∈ promoted, commonReal p (promoteW .int none) = p := by decide +kernel
  exact this _ h1

theorem common_fl_one (f : Fmt) (w : Option Nat) : common (ofFmt f) w .int none = ofFmt f := by
  cases f <;> rfl

theorem fone_dec32 : (0xbf800000#64 : Word).setWidth 32 = fone .f32 ^^^ BitVec.intMin 32 := by decide
theorem fone_dec64 : (0xbff0000000000000#64 : Word) = fone .f64 ^^^ BitVec.intMin 64 := by decide

theorem fincdec_ok (E : Env) (L : Lawful E.fp) {f : Fmt} (hf : f ≠ .f80) {dec : Bool} {x : BitVec f.bits} {w0 : Word}
    (hr : Rep (.fl f x) [w0]) :
    ∃ w1, Rep (.fl f (E.fp.arith (if dec then .sub else .add) f x (E.fp.ofInt f 1))) [w1] ∧
      ∀ s m, execs E (incdecInstr (.arith (ofFmt f)) dec) (w0 :: s) m = some (w1 :: s, m) := by
  have hsub := L.sub_one f x
  rw [L.ofInt_one]
  cases f with
  | f80 => exact absurd rfl hf
  | f32 =>
    obtain ⟨w, e, rfl⟩ := hr
    simp only [List.cons.injEq, and_true] at e
    subst e
    cases dec
    · refine ⟨setLo32 w0 (E.fp.arith .add .f32 (lo32 w0) (fone .f32)), ⟨_, rfl, lo32_setLo32 _ _⟩, fun s m => rfl⟩
    · refine ⟨setLo32 w0 (E.fp.arith .add .f32 (lo32 w0) (lo32 0xbf800000#64)), ⟨_, rfl, ?_⟩, fun s m => rfl⟩
      rw [lo32_setLo32]
      simp only [if_true]
      rw [hsub, ← fone_dec32]
      rfl
  | f64 =>
    simp only [Rep, List.cons.injEq, and_true] at hr
    subst hr
    cases dec
    · exact ⟨E.fp.arith .add .f64 w0 (fone .f64), rfl, fun s m => rfl⟩
    · refine ⟨E.fp.arith .add .f64 w0 0xbff0000000000000#64, ?_, fun s m => rfl⟩
      simp only [Rep, if_true]
      rw [hsub, ← fone_dec64]

/-- The value stored by `++` and `--`. -/
theorem incdec_ok (E : Env) (L : Lawful E.fp) {t : Ty} (ht : t.isScalar = true) (hl : t ≠ .arith .ldouble)
    {wd : Option Nat} (hw : ∀ b, t = .arith b → validW b wd) {dec : Bool} {cur r : Val} {w0 : Word}
    (hcur : HasTy t cur) (hfr : ∀ b x, t = .arith b → cur = .int x → FieldRange b wd x) (hr : Rep cur [w0])
    (h : incdecV E.fp t wd dec cur = some r) :
    HasTy t r ∧ ∃ w1, Rep r [w1] ∧
      ∀ s m, execs E (incdecInstr t dec ++ normalize t) (w0 :: s) m = some (w1 :: s, m) := by
  cases t with
  | void => cases ht
  | agg _ _ => cases ht
  | arr _ _ => cases ht
  | ptr u =>
    cases cur <;> simp only [HasTy] at hcur
    rename_i p
    simp only [Rep, List.cons.injEq, and_true] at hr
    subst hr
    simp only [normalize, List.append_nil, incdecInstr]
    have hp : ∀ i : Int, r = .int (ptrAdd p i u.size % 2 ^ 64) → (BitVec.ofInt 64 i = if dec then -1 else 1) →
        HasTy (.ptr u) r ∧ ∃ w1, Rep r [w1] ∧
          ∀ s m, execs E [.push (if dec then -1 else 1), .elementptr u.size] (BitVec.ofInt 64 p :: s) m = some (w1 :: s, m) := by
      intro i hi he
      subst hi
      refine ⟨by simp only [HasTy]; omega, _, rfl, fun s m => ?_⟩
      rw [execs_cons, exec_push, Option.bind_some, ← he, elementptr_ok, emod_64]
    cases dec
    · simp only [incdecV, binV, Bool.false_eq_true, if_false, Option.bind_some, conv, Option.some.injEq] at h
      exact hp 1 h.symm (by decide)
    · simp only [incdecV, binV, if_true, Option.bind_some, conv, Option.some.injEq] at h
      exact hp (-1) h.symm (by decide)
  | arith b =>
    cases cur with
    | void => exact hcur.elim
    | fl f x =>
      simp only [HasTy] at hcur
      subst hcur
      have hf : f ≠ .f80 := by rintro rfl; exact hl rfl
      obtain ⟨w1, h1, h2⟩ := fincdec_ok E L hf (dec := dec) hr
      have hn : normalize (.arith (ofFmt f)) = [] := by simp [normalize, fmtOf_ofFmt]
      rw [hn, List.append_nil]
      have hone : conv E.fp (.arith (ofFmt f)) (.int 1) = some (.fl f (E.fp.ofInt f 1)) := by
        simp [conv, fmtOf_ofFmt]
      have : r = .fl f (E.fp.arith (if dec then .sub else .add) f x (E.fp.ofInt f 1)) := by
        cases dec <;>
          simp only [incdecV, binV, Bool.false_eq_true, if_false, if_true, common_fl_one, conv_fl_self, hone,
            Option.bind_some, arithV, dite_true, arithFl, Option.map_some, Option.some.injEq] at h ⊢ <;>
          exact h.symm
      subst this
      exact ⟨rfl, w1, h1, h2⟩
    | int x =>
      obtain ⟨hi, hx⟩ := hcur
      have hv := hw b rfl
      have hp := promoteW_mem hi hv
      have hxp := promote_keeps hi hv hx (hfr b x rfl rfl)
      have hpf := promoted_facts hp
      have hfb : fmtOf b = none := by rw [isInteger_fmt] at hi; simpa using hi
      simp only [Rep, List.cons.injEq, and_true] at hr
      subst hr
      have h1in : InRange (promoteW b wd) 1 := by
        have : ∀ p ∈ promoted, InRange p 1 := by decide +kernel
        exact this _ hp
      have hins : incdecInstr (.arith b) dec = [.iadd1 (if dec then -1 else 1)] := by
        cases b <;> simp [isInteger] at hi <;> rfl
      have key : ∀ d : Int, (d = 1 ∨ d = -1) → BitVec.ofInt 64 d = (if dec then -1 else 1) →
          (((chk (promoteW b wd) (x + d)).map Val.int).bind (conv E.fp (.arith b)) = some r) →
          HasTy (.arith b) r ∧ ∃ w1, Rep r [w1] ∧
            ∀ s m, execs E (incdecInstr (.arith b) dec ++ normalize (.arith b)) (BitVec.ofInt 64 x :: s) m = some (w1 :: s, m) := by
        intro d hd he hk
        simp only [Option.bind_eq_some_iff, Option.map_eq_some_iff] at hk
        obtain ⟨_, ⟨z, hz, rfl⟩, hk⟩ := hk
        rw [conv_int E.fp hi] at hk
        simp only [Option.some.injEq] at hk
        obtain ⟨k1, k2, k3⟩ := chk_wrap hp hz
        have hwz : wrap b (x + d) = wrap b z := by
          cases hsp : signed (promoteW b wd)
          · have hbp := promoteW_unsigned hi hsp
            rw [hbp] at k1 k2 hsp
            rw [wrap_of_inRange k2 hi]; exact k1
          · rw [k3 hsp]
        subst hk
        refine ⟨⟨hi, wrap_inRange b hi _⟩, _, rfl, fun s m => ?_⟩
        have hww := W64_of_inRange hx hi
        have hbr : b = .bool → W64 (x + d) := by
          rintro rfl
          have : x = 0 ∨ x = 1 := by simp [InRange, minVal, maxVal, signed, width] at hx; omega
          unfold W64; omega
        rw [hins, List.singleton_append, execs_cons, exec_iadd1, Option.bind_some, ← he, ← BitVec.ofInt_add,
          normalize_int hfb, reduceTo_ok E b hi _ hbr, hwz]
      cases dec
      · refine key 1 (.inl rfl) (by decide) ?_
        simp only [incdecV, binV, Bool.false_eq_true, if_false, common_one hi hv, conv_int E.fp hpf.1, Option.bind_some, arithV,
          arithInt, wrap_of_inRange hxp hpf.1, wrap_of_inRange h1in hpf.1] at h
        exact h
      · refine key (-1) (.inr rfl) (by decide) ?_
        simp only [incdecV, binV, if_true, common_one hi hv, conv_int E.fp hpf.1, Option.bind_some, arithV,
          arithInt, wrap_of_inRange hxp hpf.1, wrap_of_inRange h1in hpf.1] at h
        rw [Int.sub_eq_add_neg] at h
        exact h

end Kefir.Expr
