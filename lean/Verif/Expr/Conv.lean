import Verif.Expr.Lemmas

/-! Conversions: the code of `kefir_ast_translate_typeconv` computes the C conversion. -/
namespace Kefir.Expr
open Kefir.Types (Basic)
open Kefir.C17 Kefir.CSpec
open Kefir.IR

/-- Conversions kefir translates correctly for all values: not floating to `_Bool` or to a 64-bit unsigned type, and
(never needed in C) not pointer to floating. -/
def convGood (t u : Ty) : Bool :=
  match t, u with
  | t, .agg g s => t == .agg g s
  | .arith b, .arith c => !((fmtOf b).isSome && (c == .bool || c == .ulong || c == .ullong))
  | .ptr _, .arith c => isInteger c
  | .agg _ _, .arith _ => false
  | _, _ => true

theorem isInteger_fmt (b : Basic) : isInteger b = (fmtOf b).isNone := by cases b <;> rfl

theorem fmtOf_ofFmt (f : Fmt) : fmtOf (ofFmt f) = some f := by cases f <;> rfl

theorem fmtOf_some {b : Basic} {f : Fmt} (h : fmtOf b = some f) : b = ofFmt f := by
  cases b <;> cases f <;> simp_all [fmtOf, ofFmt]

theorem isSigned_eq (b : Basic) : b.isSigned = signed b := by cases b <;> rfl

theorem lo32_setLo32 (a : Word) (x : BitVec 32) : (setLo32 a x).setWidth 32 = x := by
  unfold setLo32
  exact BitVec.setWidth_append_eq_right

theorem ldOf_mk (a : Word) (x : BitVec 80) : (ldHi a x).setWidth 16 ++ ldLo x = x := by
  unfold ldHi ldLo
  rw [BitVec.setWidth_append_eq_right]
  apply BitVec.eq_of_getLsbD_eq
  intro i hi
  rw [BitVec.getLsbD_append]
  by_cases h : i < 64
  · simp [h]
  · have : i - 64 < 16 := by omega
    have e : 64 + (i - 64) = i := by omega
    simp [h, this, e]

theorem toNat_ofInt64' {v : Int} (h1 : 0 ≤ v) (h2 : v < 2 ^ 64) : ((BitVec.ofInt 64 v).toNat : Int) = v := by
  rw [toNat_ofInt64]; omega

theorem conv_self {F : FP} {t : Ty} {v : Val} (h : HasTy t v) : conv F t v = some v := by
  cases t <;> cases v <;> simp only [HasTy] at h
  · rfl
  · rename_i b v
    have : fmtOf b = none := by have := isInteger_fmt b; rw [h.1] at this; simpa using this.symm
    simp [conv, this, wrap_of_inRange h.2 h.1]
  · rename_i b f x
    subst h
    simp [conv, fmtOf_ofFmt, cvtF]
  · rename_i t v
    simp [conv]; omega
  · rfl

theorem fcf_ok (E : Env) {f g : Fmt} (hne : f ≠ g) {x : BitVec f.bits} {ws : List Word} (hr : Rep (.fl f x) ws) :
    ∃ ws', Rep (.fl g (E.fp.cvt f g x)) ws' ∧
      ∀ s m, execs E [.fcf f g] (ws ++ s) m = some (ws' ++ s, m) := by
  cases f <;> cases g <;> first | exact absurd rfl hne | skip
  · obtain ⟨w, rfl, rfl⟩ := hr
    exact ⟨[_], rfl, fun s m => rfl⟩
  · obtain ⟨w, rfl, rfl⟩ := hr
    exact ⟨[_, _], ⟨_, _, rfl, ldOf_mk w _⟩, fun s m => rfl⟩
  · subst hr
    exact ⟨[_], ⟨_, rfl, lo32_setLo32 x _⟩, fun s m => rfl⟩
  · subst hr
    exact ⟨[_, _], ⟨_, _, rfl, ldOf_mk x _⟩, fun s m => rfl⟩
  · obtain ⟨w0, w1, rfl, rfl⟩ := hr
    exact ⟨[_], ⟨_, rfl, by simp [ldOf]⟩, fun s m => rfl⟩
  · obtain ⟨w0, w1, rfl, rfl⟩ := hr
    exact ⟨[_], rfl, fun s m => rfl⟩

theorem intcf_ok (E : Env) (g : Fmt) {b : Basic} {v : Int} (hb : isInteger b = true) (h : InRange b v) :
    ∃ ws', Rep (.fl g (E.fp.ofInt g v)) ws' ∧
      ∀ s m, execs E (castToFloat g (.arith b)) (BitVec.ofInt 64 v :: s) m = some (ws' ++ s, m) := by
  have hf : fmtOf b = none := by have := isInteger_fmt b; rw [hb] at this; simpa using this.symm
  simp only [castToFloat, hf, isSigned_eq]
  by_cases hs : signed b = true
  · rw [if_pos hs]
    have e : (BitVec.ofInt 64 v).toInt = v := by
      apply toInt_ofInt64 <;> (unfold InRange at h; cases b <;> simp_all [minVal, maxVal, signed, width] <;> omega)
    cases g
    · exact ⟨[_], ⟨_, rfl, by rw [← e]; exact lo32_setLo32 (BitVec.ofInt 64 v) _⟩, fun s m => by
        show some _ = some _; rw [e]; rfl⟩
    · exact ⟨[_], rfl, fun s m => by show some _ = some _; rw [e]; rfl⟩
    · exact ⟨[_, _], ⟨_, _, rfl, ldOf_mk (BitVec.ofInt 64 v) _⟩, fun s m => by show some _ = some _; rw [e]; rfl⟩
  · rw [if_neg hs]
    have e : ((BitVec.ofInt 64 v).toNat : Int) = v := by
      apply toNat_ofInt64' <;> (unfold InRange at h; cases b <;> simp_all [minVal, maxVal, signed, width] <;> omega)
    cases g
    · exact ⟨[_], ⟨_, rfl, by rw [← e]; exact lo32_setLo32 (BitVec.ofInt 64 v) _⟩, fun s m => by
        show some _ = some _; rw [e]; rfl⟩
    · exact ⟨[_], rfl, fun s m => by show some _ = some _; rw [e]; rfl⟩
    · exact ⟨[_, _], ⟨_, _, rfl, ldOf_mk (BitVec.ofInt 64 v) _⟩, fun s m => by show some _ = some _; rw [e]; rfl⟩

theorem fcint_ok (E : Env) {f : Fmt} {x : BitVec f.bits} {ws : List Word} (hr : Rep (.fl f x) ws) (s : List Word)
    (m : Mem) : execs E [.fcint f] (ws ++ s) m = some (toInt64 (E.fp.trunc f x) :: s, m) := by
  cases f
  · obtain ⟨w, rfl, rfl⟩ := hr; rfl
  · subst hr; rfl
  · obtain ⟨w0, w1, rfl, rfl⟩ := hr; rfl

theorem rep_length {t : Ty} {v : Val} {ws : List Word} (hT : HasTy t v) (hr : Rep v ws) : ws.length = slots t := by
  cases t <;> cases v <;> simp only [HasTy] at hT
  · subst hr; rfl
  · subst hr
    rename_i b v
    cases b <;> simp_all [slots, isInteger]
  · rename_i b f x
    subst hT
    cases f
    · obtain ⟨w, rfl, _⟩ := hr; rfl
    · subst hr; rfl
    · obtain ⟨_, _, rfl, _⟩ := hr; rfl
  · subst hr; rfl
  · subst hr; rfl

/-- Dropping a value. -/
theorem pops_ok (E : Env) (ws s : List Word) (m : Mem) :
    execs E (List.replicate ws.length .pop) (ws ++ s) m = some (s, m) := by
  induction ws with
  | nil => rfl
  | cons w ws ih =>
    simp only [List.length_cons, List.replicate_succ, List.cons_append, execs_cons, exec_pop, Option.bind_some]
    exact ih

theorem typeconv_ok (E : Env) {t u : Ty} {v v' : Val} {ws : List Word} (hT : HasTy t v) (hr : Rep v ws)
    (hg : convGood t u = true) (hc : conv E.fp u v = some v') :
    HasTy u v' ∧ ∃ ws', Rep v' ws' ∧ ∀ s m, execs E (typeconv t u) (ws ++ s) m = some (ws' ++ s, m) := by
  by_cases htu : t = u
  · subst htu
    rw [conv_self hT] at hc
    cases hc
    exact ⟨hT, ws, hr, fun s m => by simp [typeconv, execs_nil]⟩
  · cases u with
    | void =>
      simp only [conv, Option.some.injEq] at hc
      subst hc
      refine ⟨trivial, [], rfl, fun s m => ?_⟩
      have hl := rep_length hT hr
      simp only [typeconv, htu, if_false]
      by_cases hld : t = .arith .ldouble
      · subst hld
        have := pops_ok E ws s m
        rw [hl] at this
        simpa [slots] using this
      · rw [if_neg hld]
        have h1 : slots t = 1 := by
          cases t <;> simp_all [slots]
        have := pops_ok E ws s m
        rw [hl, h1] at this
        simpa using this
    | ptr p =>
      cases v <;> simp only [conv, Option.some.injEq, reduceCtorEq] at hc
      rename_i v
      subst hc
      refine ⟨by simp only [HasTy]; omega, ws, ?_, fun s m => by simp [typeconv, htu, execs_nil]⟩
      simp only [Rep] at hr ⊢
      rw [hr, emod_64]
    | arith c =>
      cases hf : fmtOf c with
      | some g =>
        have hcg := fmtOf_some hf
        cases v with
        | void => simp [conv] at hc
        | int v =>
          simp only [conv, hf, Option.some.injEq] at hc
          subst hc
          simp only [Rep] at hr
          subst hr
          cases t <;> simp only [HasTy] at hT
          · rename_i b
            obtain ⟨ws', h1, h2⟩ := intcf_ok E g hT.1 hT.2
            refine ⟨hcg, ws', h1, fun s m => ?_⟩
            simp only [typeconv, htu, if_false, hf]
            exact h2 s m
          · simp [convGood, isInteger_fmt, hf] at hg
          · simp [convGood] at hg
        | fl f x =>
          simp only [conv, hf, Option.some.injEq] at hc
          subst hc
          cases t <;> simp only [HasTy] at hT
          rename_i b
          subst hT
          have hne : f ≠ g := by rintro rfl; exact htu (by rw [hcg])
          obtain ⟨ws', h1, h2⟩ := fcf_ok E hne hr
          refine ⟨hcg, ws', by simpa [cvtF, hne] using h1, fun s m => ?_⟩
          simp only [typeconv, htu, if_false, hf, castToFloat, fmtOf_ofFmt]
          exact h2 s m
      | none =>
        have hci : isInteger c = true := by simp [isInteger_fmt, hf]
        cases v with
        | void => simp [conv] at hc
        | int v =>
          simp only [conv, hf, Option.some.injEq] at hc
          subst hc
          simp only [Rep] at hr
          subst hr
          have hw : W64 v := by
            cases t <;> simp only [HasTy] at hT
            · exact W64_of_inRange hT.2 hT.1
            all_goals (unfold W64; omega)
          refine ⟨⟨hci, wrap_inRange c hci v⟩, [_], rfl, fun s m => ?_⟩
          have hcode : typeconv t (.arith c) = reduceTo c := by
            simp only [typeconv, htu, if_false, hf, castToInteger]
            cases t <;> simp only [HasTy] at hT <;> simp
            rename_i b
            have : fmtOf b = none := by have := isInteger_fmt b; rw [hT.1] at this; simpa using this.symm
            rw [this]
          rw [hcode]
          exact reduceTo_ok E c hci v (fun _ => hw) s m
        | fl f x =>
          cases t <;> simp only [HasTy] at hT
          rename_i b
          subst hT
          simp only [convGood, fmtOf_ofFmt, Option.isSome_some, Bool.true_and, Bool.not_eq_true', Bool.or_eq_false_iff,
            beq_eq_false_iff_ne] at hg
          obtain ⟨⟨g1, g2⟩, g3⟩ := hg
          simp only [conv, hf, g1, if_false, Option.bind_eq_some_iff] at hc
          obtain ⟨n, hn, hc⟩ := hc
          split at hc
          · rename_i hin
            simp only [Option.some.injEq] at hc
            subst hc
            refine ⟨⟨hci, hin⟩, [_], rfl, fun s m => ?_⟩
            simp only [typeconv, htu, if_false, hf, castToInteger, fmtOf_ofFmt]
            rw [execs_append, fcint_ok E hr s m, Option.bind_some, hn]
            have : toInt64 (some n) = BitVec.ofInt 64 n := by
              simp only [toInt64]
              rw [if_pos]
              unfold InRange at hin
              cases c <;> simp_all [minVal, maxVal, signed, width] <;> omega
            simp only [this]
            rw [reduceTo_ok E c hci n (fun h => absurd h g1) s m, wrap_of_inRange hin hci]
            rfl
          · cases hc
    | agg g sz =>
      cases v <;> simp only [conv, Option.some.injEq, reduceCtorEq] at hc
      simp only [convGood, beq_iff_eq] at hg
      exact absurd hg htu
    | arr => cases v <;> simp [conv] at hc

end Kefir.Expr
