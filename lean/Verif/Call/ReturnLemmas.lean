import Verif.Call.ReturnModel
import Verif.Call.ReturnLong
import Verif.Call.VaFetch
import Verif.Abi.Packed

/-!
# Lemmas on results
-/

namespace Kefir.Call

open Kefir.Layout Kefir.Abi

/-! ## Words and memory -/

theorem toNat_ofNat {n : Nat} (h : n < 2 ^ 64) : (Word.ofNat n).toNat = n := by
  have e : ∀ k : Nat, (UInt8.ofNat (k % 2 ^ 8)).toNat = k % 256 := by
    intro k; simp
  simp only [Word.toNat, Word.ofNat, e]
  simp only [Fin.val_zero, Fin.val_one, show ((2 : Fin 8) : Nat) = 2 from rfl, show ((3 : Fin 8) : Nat) = 3 from rfl,
    show ((4 : Fin 8) : Nat) = 4 from rfl, show ((5 : Fin 8) : Nat) = 5 from rfl, show ((6 : Fin 8) : Nat) = 6 from rfl,
    show ((7 : Fin 8) : Nat) = 7 from rfl, Nat.reduceMul, Nat.reducePow]
  simp only [Nat.reducePow] at h
  omega

theorem movsb_out : ∀ (n dst src : Nat) (m : Mem) (x : Nat), ¬ (dst ≤ x ∧ x < dst + n) → Mem.movsb dst src n m x = m x
  | 0, _, _, _, _, _ => rfl
  | n + 1, dst, src, m, x, h => by
    simp only [Mem.movsb]
    rw [movsb_out n _ _ _ x (by omega)]
    simp only [Mem.setByte]
    rw [if_neg (by omega)]

theorem movsb_in : ∀ (n dst src : Nat) (m : Mem), (dst ≤ src ∨ src + n ≤ dst) → ∀ i < n,
    Mem.movsb dst src n m (dst + i) = m (src + i)
  | 0, _, _, _, _, i, h => by omega
  | n + 1, dst, src, m, hd, i, h => by
    simp only [Mem.movsb]
    cases i with
    | zero =>
      rw [movsb_out n _ _ _ _ (by omega)]
      simp [Mem.setByte]
    | succ i =>
      have := movsb_in n (dst + 1) (src + 1) (Mem.setByte m dst (m src)) (by omega) i (by omega)
      rw [show dst + (i + 1) = dst + 1 + i by omega, this]
      simp only [Mem.setByte]
      rw [if_neg (by omega)]
      congr 1; omega

theorem store_in (m : Mem) (a : Nat) (w : Word) (i : Nat) (h : i < 8) : Mem.store m a w (a + i) = w ⟨i, h⟩ := by
  simp only [Mem.store]
  rw [dif_pos (by omega)]
  congr 1
  apply Fin.ext
  simp

/-! ## One type -/

theorem list_one {t : Ty} (hw : WF t) {σ : Type} (f : Nat → Entry → σ → Out σ) (s : σ) :
    listNodes f (flatten t) 0 1 s = f 0 t.entry s := by
  have hn := not_hollow hw
  rw [flatten_eq]
  simp only [listNodes, List.length_cons, Nat.zero_lt_succ, dif_pos, List.getElem_cons_zero, if_neg hn]
  cases f 0 t.entry s <;> rfl

theorem layout_one {t : Ty} (hw : WF t) {layout} (h : typeLayout (flatten t) = .ok layout) :
    layout = (flatL [ownLayout t]).map some := by
  have hfl : flatten t = flattenAll [t] := by simp [flattenAll]
  rw [hfl, typeLayout_eq [t] (.cons hw .nil), ownLayout_eq] at h
  simp only [Except.ok.injEq] at h
  exact h.symm

theorem laid_one {t : Ty} (hw : WF t) : Laid t (ownLayout t) := by
  have := laidAll [t] (.cons hw .nil) (.fresh true)
  rw [ownLayout_eq] at this
  cases this; assumption

theorem withParam_one {t : Ty} (hw : WF t) {σ : Type} (g : Entry → Data → Alloc → σ → Out σ) (a : Alloc)
    (rest : List Alloc) (s : σ) :
    withParam (flatten t) ((flatL [ownLayout t]).map some) (a :: rest) g 0 t.entry s =
      g t.entry (ownLayout t).data a s := by
  have hn := not_hollow hw
  have hg : gotoSlot (flatten t) 0 0 (flatten t).length 0 = .ok 0 := by
    rw [flatten_eq]
    simp only [List.length_cons, gotoSlot, Nat.zero_lt_succ, dif_pos, List.getElem_cons_zero, if_neg hn,
      Nat.lt_irrefl, if_false, if_true]
  have hla : layoutAt ((flatL [ownLayout t]).map some) 0 = .ok (ownLayout t).data := rfl
  simp only [withParam, hg, bind, Except.bind, List.getElem?_cons_zero, hla]

theorem nodes_one {t : Ty} (hw : WF t) : nodes (flatten t) = 1 := by
  have := nodes_flattenAll [t] (.cons hw .nil)
  simpa [flattenAll] using this

theorem allocReturn_inv {t : Ty} (hw : WF t) {vec implicit}
    (h : functionAllocReturn (flatten t) = .ok (vec, implicit)) :
    ∃ a rest, classify t (ownLayout t) 0 = .ok (a :: rest) ∧ vec = a :: rest ∧
      implicit = decide (a.klass = .memory) := by
  have hfl : flatten t = flattenAll [t] := by simp [flattenAll]
  have hl : LaidAll [t] [ownLayout t] := .cons (laid_one hw) .nil
  simp only [functionAllocReturn, nodes_one hw, Nat.le_refl, if_true] at h
  rw [hfl, typeLayout_eq [t] (.cons hw .nil), ownLayout_eq] at h
  simp only [liftRes, bind, Except.bind, parameterClassify_eq [t] (.cons hw .nil) _ hl] at h
  cases hc : classifyAll [t] [ownLayout t] 0 with
  | error e => rw [hc] at h; simp at h
  | ok ass =>
    have hrow := classifyAll_rows hl hc
    rw [hc] at h
    simp only [classifyAll] at hc
    obtain ⟨as, hc1, hc2⟩ := bind_inv hc
    simp only [Except.bind, Except.ok.injEq] at hc2
    subst hc2
    match as, hc1, hrow, h with
    | [], _, hrow, _ => cases hrow
    | a :: rest, hc1, _, h =>
      simp [pure, Except.pure] at h
      refine ⟨a, rest, hc1, h.1.symm, h.2.symm⟩

/-! ## Aggregates in registers -/

/-- The eightbytes are returned and fetched. -/
theorem qwords_returned {ws : List Qword} (hn : NoUp ws) (hlen : ws.length ≤ 2)
    {rq} (hrq : qwordRequirements ws {} = .ok rq) (hfull : ∀ w ∈ ws, w.klass ≠ .noClass)
    (src base : Nat) (s : Machine) :
    ∃ s' m, returnQwords src ws 0 0 0 s = .ok s' ∧ s'.mem = s.mem ∧ fetchQwords base s' ws 0 0 0 s'.mem = .ok m ∧
      (∀ x, ¬ (base ≤ x ∧ x < base + 8 * ws.length) → m x = s.mem x) ∧
      ∀ i < 8 * ws.length, (¬ NoX87 ws → i < 10) → m (base + i) = s.mem (src + i) := by
  match ws, hn, hlen, hrq, hfull with
  | [], _, _, _, _ => exact ⟨s, s.mem, rfl, rfl, rfl, fun _ _ => rfl, fun i h => by simp at h⟩
  | [a], hn, _, hrq, hfull =>
    have h1 := hn a (by simp)
    have h2 := hfull a (by simp)
    cases hk : a.klass <;> simp only [hk, ne_eq, not_true_eq_false, qwordRequirements] at h1 h2 hrq
    all_goals first
      | (cases hrq; done)
      | skip
    all_goals
      simp only [returnQwords, fetchQwords, hk, integerReturnRegisters, sseReturnRegisters, ge_iff_le]
      refine ⟨_, _, rfl, rfl, rfl, ?_, ?_⟩
      · intro x hx
        simp only [List.length_cons, List.length_nil] at hx
        rw [store_out _ _ _ _ (by omega)]
      · intro i hi _
        simp only [List.length_cons, List.length_nil] at hi
        have hi : i < 8 := by omega
        have := store_in s.mem (base + 0 * 8) (setReg (fun _ => Mem.load s.mem (src + 0 * 8)) 0 (Mem.load s.mem (src + 0 * 8)) 0) i hi
        simp only [Nat.zero_mul, Nat.add_zero, setReg, if_true] at this ⊢
        rw [this]; rfl
  | [a, b], hn, _, hrq, hfull =>
    have h1 := hn a (by simp)
    have h2 := hfull a (by simp)
    have h3 := hn b (by simp)
    have h4 := hfull b (by simp)
    cases hk : a.klass <;> cases hk' : b.klass <;>
      simp only [hk, hk', ne_eq, not_true_eq_false, qwordRequirements, if_true, if_false, reduceCtorEq] at h1 h2 h3 h4 hrq
    all_goals first
      | (cases hrq; done)
      | skip
    all_goals
      simp only [returnQwords, fetchQwords, hk, hk', integerReturnRegisters, sseReturnRegisters, ge_iff_le,
        if_false, if_true, Nat.reduceLeDiff]
      refine ⟨_, _, rfl, rfl, rfl, ?_, ?_⟩
      · intro x hx
        simp only [List.length_cons, List.length_nil] at hx
        first
          | rw [store_out _ _ _ _ (by omega), store_out _ _ _ _ (by omega)]
          | (simp only [Mem.storeTbyte]; rw [dif_neg (by omega)])
      · intro i hi hx
        simp only [List.length_cons, List.length_nil] at hi
        first
          | (have hx : i < 10 := hx (by simp [NoX87, hk])
             simp only [Mem.storeTbyte, Mem.tbyte]
             rw [dif_pos (by omega)]
             congr 1; simp)
          | (by_cases h8 : i < 8
             · rw [store_out _ _ _ _ (by omega)]
               have := fun w => store_in s.mem (base + 0 * 8) w i h8
               simp only [Nat.zero_mul, Nat.add_zero] at this ⊢
               rw [this]; simp [setReg, Mem.load]
             · obtain ⟨j, rfl⟩ : ∃ j, i = 8 + j := ⟨i - 8, by omega⟩
               have hj : j < 8 := by omega
               rw [show base + (8 + j) = base + (0 + 1) * 8 + j by omega, store_in _ _ _ _ hj]
               simp [setReg, Mem.load, Nat.add_assoc])

end Kefir.Call
