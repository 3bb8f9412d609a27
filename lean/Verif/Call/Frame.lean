import Verif.Call.Transfer
import Verif.Locals.Props

/-!
# The frame of a function
-/

namespace Kefir.Call

open Kefir.Layout Kefir.Abi

theorem pad_le {o a r : Nat} (ha : 0 < a) (h : o ≤ r) (hr : r % a = 0) : padAligned o a ≤ r := by
  have h1 := padAligned_mod o a ha
  have h2 := padAligned_lt o a ha
  obtain ⟨k, hk⟩ := Nat.dvd_of_mod_eq_zero h1
  obtain ⟨j, hj⟩ := Nat.dvd_of_mod_eq_zero hr
  have h3 : a * k < a * (j + 1) := by rw [← hk, Nat.mul_add, ← hj]; omega
  have := Nat.lt_of_mul_lt_mul_left h3
  rw [hk, hj]
  exact Nat.mul_le_mul_left _ (by omega)

theorem pow_dvd {a b : Nat} (ha : PowerOfTwo a) (hb : PowerOfTwo b) (h : a ≤ b) : a ∣ b := by
  obtain ⟨i, rfl⟩ := ha
  obtain ⟨j, rfl⟩ := hb
  apply Nat.pow_dvd_pow
  apply Nat.le_of_not_lt
  intro hlt
  have := Nat.pow_lt_pow_right (show 1 < 2 by omega) hlt
  omega

theorem pow_max {a b : Nat} (ha : PowerOfTwo a) (hb : PowerOfTwo b) : PowerOfTwo (max a b) := by
  rcases Nat.le_total a b with h | h
  · rwa [Nat.max_eq_right h]
  · rwa [Nat.max_eq_left h]

theorem pow_pos {a : Nat} (ha : PowerOfTwo a) : 0 < a := by
  obtain ⟨i, rfl⟩ := ha; exact Nat.pow_pos (by omega)

theorem mod_of_dvd {a b r : Nat} (h : a ∣ b) (hr : r % b = 0) : r % a = 0 :=
  Nat.mod_eq_zero_of_dvd (Nat.dvd_trans h (Nat.dvd_of_mod_eq_zero hr))

/-- The storage after a start that is a multiple of eight. -/
theorem roundUp_le {r n m : Nat} (h : r % 8 = 0) (hle : r + n ≤ m) : r + 8 * eightbytes n ≤ 8 * eightbytes m := by
  simp only [eightbytes]
  omega

theorem eight_le (m : Nat) : m ≤ 8 * eightbytes m := by simp only [eightbytes]; omega

theorem padDqword_mod (n : Nat) : padDqword n % 16 = 0 := padAligned_mod _ _ (by omega)

theorem padDqword_ge (n : Nat) : n ≤ padDqword n := padAligned_ge _ _

theorem padDqword_eight (n : Nat) : 8 * eightbytes n ≤ padDqword n := by
  have h1 := padDqword_mod n
  have h2 := padDqword_ge n
  simp only [eightbytes]
  omega

theorem qwords_written {int sse : Nat → Word} {base : Nat} : ∀ {ws : List Qword} {i0 s0 : Nat}, Assigned ws i0 s0 →
    ∀ (i : Nat) (m : Mem), ∃ m', loadQwords int sse base ws i m = .ok m' ∧
      (∀ x < base + 8 * i, m' x = m x) ∧ (∀ x, base + 8 * (i + ws.length) ≤ x → m' x = m x)
  | _, _, _, .nil, i, m => ⟨m, rfl, fun _ _ => rfl, fun _ _ => rfl⟩
  | _, _, _, .int (w := w) (ws := ws) hk hl ha, i, m => by
    obtain ⟨m', h1, h2, h3⟩ := qwords_written (int := int) (sse := sse) (base := base) ha (i + 1)
      (Mem.store m (base + 8 * i) (int w.location))
    refine ⟨m', by simp only [loadQwords, hk]; exact h1, ?_, ?_⟩
    · intro x hx; rw [h2 x (by omega), store_out _ _ _ _ (by omega)]
    · intro x hx
      rw [List.length_cons] at hx
      rw [h3 x (by omega), store_out _ _ _ _ (by omega)]
  | _, _, _, .sse (w := w) (ws := ws) hk hl ha, i, m => by
    obtain ⟨m', h1, h2, h3⟩ := qwords_written (int := int) (sse := sse) (base := base) ha (i + 1)
      (Mem.store m (base + 8 * i) (sse w.location))
    refine ⟨m', by simp only [loadQwords, hk]; exact h1, ?_, ?_⟩
    · intro x hx; rw [h2 x (by omega), store_out _ _ _ _ (by omega)]
    · intro x hx
      rw [List.length_cons] at hx
      rw [h3 x (by omega), store_out _ _ _ _ (by omega)]

/-- What loading a parameter does to the frame. -/
theorem load_frame {int sse : Nat → Word} {out : Mem} {t d c c' a} (h : Shape t d c c' a) (s : Callee) :
    ∃ s' is, loadArgument int sse out t.entry d a s = .ok s' ∧ s'.pushed = s.pushed ++ is ∧ is.length = pushes t ∧
      ((a.type ≠ .owningContainer ∧ s'.frameOffset = s.frameOffset ∧ s'.frame = s.frame ∧ ∀ n, Item.frame n ∉ is) ∨
       (a.type = .owningContainer ∧ is = [.frame (padAligned s.frameOffset d.alignment)] ∧
        s'.frameOffset = padAligned s.frameOffset d.alignment + d.size ∧
        ∀ x, (x < padAligned s.frameOffset d.alignment ∨
          padAligned s.frameOffset d.alignment + 8 * eightbytes d.size ≤ x) → s'.frame x = s.frame x)) := by
  cases h with
  | pad h => exact ⟨s, [], rfl, by simp, rfl, .inl ⟨h, rfl, rfl, by simp⟩⟩
  | @intReg k al p _ _ _ hk hb hlt h1 h2 h3 =>
    have hl : 1 = pushes (.leaf k al p) := by cases k <;> first | rfl | simp [IntLeaf] at hk
    rw [int_entry hk]
    refine ⟨{ s with pushed := s.pushed ++ [.word (int a.location.int)] }, [_], ?_, rfl, hl, .inl ⟨h3, rfl, rfl, by simp⟩⟩
    split
    · rename_i hkb; simp only [loadBuiltin, if_pos (hb hkb), h1]
    · simp only [loadScalar, h1, if_true]
  | @intMem k al p _ _ _ hk hb hlt h1 h2 h3 =>
    have hl : 1 = pushes (.leaf k al p) := by cases k <;> first | rfl | simp [IntLeaf] at hk
    rw [int_entry hk]
    have hk1 : a.klass ≠ .integer := by rw [h1]; decide
    by_cases hkb : k = .builtin
    · refine ⟨{ s with pushed := s.pushed ++ [.word (Mem.load out a.location.stack)] }, [_], ?_, rfl, hl,
        .inl ⟨h3, rfl, rfl, by simp⟩⟩
      rw [if_pos hkb]; simp only [loadBuiltin, if_pos (hb hkb), h1, load_atRbp]
    · obtain ⟨v, c, hm, hv⟩ := mask_keeps (.inl hk) hkb p (Mem.load out a.location.stack)
      refine ⟨{ s with pushed := s.pushed ++ [.word v], clobbered := s.clobbered || c }, [_], ?_, rfl, hl,
        .inl ⟨h3, rfl, rfl, by simp⟩⟩
      rw [if_neg hkb]
      simp only [loadScalar, if_neg hk1, load_atRbp, hm, bind, Except.bind, pure, Except.pure]
  | @sseReg k al p _ _ _ hk hlt h1 h2 h3 =>
    have hl : 1 = pushes (.leaf k al p) := by rcases hk with rfl | rfl <;> rfl
    rw [sse_entry hk]
    refine ⟨{ s with pushed := s.pushed ++ [.word (sse a.location.sse)] }, [_], ?_, rfl, hl, .inl ⟨h3, rfl, rfl, by simp⟩⟩
    simp only [loadScalar, h1, if_true]
  | @sseMem k al p _ _ _ hk hlt h1 h2 h3 =>
    have hl : 1 = pushes (.leaf k al p) := by rcases hk with rfl | rfl <;> rfl
    rw [sse_entry hk]
    have hk1 : a.klass ≠ .sse := by rw [h1]; decide
    have hkb : k ≠ .builtin := by rintro rfl; simp [SseLeaf] at hk
    obtain ⟨v, c, hm, hv⟩ := mask_keeps (.inr hk) hkb p (Mem.load out a.location.stack)
    refine ⟨{ s with pushed := s.pushed ++ [.word v], clobbered := s.clobbered || c }, [_], ?_, rfl, hl,
      .inl ⟨h3, rfl, rfl, by simp⟩⟩
    simp only [loadScalar, if_neg hk1, load_atRbp, hm, bind, Except.bind, pure, Except.pure]
  | @longDouble al p _ _ _ h1 h2 h3 =>
    have hl : 2 = pushes (.leaf .longDouble al p) := rfl
    refine ⟨{ s with pushed := s.pushed ++ [.word (Mem.load (atRbp out) (a.location.stack + 2 * 8 + 8)),
      .word (Mem.load (atRbp out) (a.location.stack + 2 * 8))] }, [_, _], ?_, rfl, hl, .inl ⟨h3, rfl, rfl, by simp⟩⟩
    simp only [loadArgument, Ty.entry, loadLongDouble, if_pos h1]
  | @memory al p _ _ _ h1 h2 h3 =>
    have hl : 1 = pushes (.leaf .memory al p) := rfl
    refine ⟨{ s with pushed := s.pushed ++ [.rbp (a.location.stack + 2 * 8)] }, [_], ?_, rfl, hl,
      .inl ⟨h3, rfl, rfl, by simp⟩⟩
    simp only [loadArgument, Ty.entry, loadAggregate, if_pos h1]
  | aggMem h0 h1 h2 h3 =>
    have hl : 1 = pushes t := by cases t <;> first | rfl | simp [Ty.isLeaf] at h0
    refine ⟨{ s with pushed := s.pushed ++ [.rbp (a.location.stack + 2 * 8)] }, [_], ?_, rfl, hl,
      .inl ⟨h3, rfl, rfl, by simp⟩⟩
    cases t with
    | leaf => simp [Ty.isLeaf] at h0
    | _ => simp only [loadArgument, Ty.entry, loadAggregate, if_pos h1]
  | @aggReg _ _ _ _ q h0 h1 h2 h3 h4 h5 h6 h7 =>
    have hl : 1 = pushes t := by cases t <;> first | rfl | simp [Ty.isLeaf] at h0
    have hk : a.klass ≠ .memory := by rw [h1]; decide
    obtain ⟨m', g1, g2, g3⟩ := qwords_written (int := int) (sse := sse) (base := padAligned s.frameOffset d.alignment)
      h5 0 s.frame
    refine ⟨{ s with frame := m', frameOffset := padAligned s.frameOffset d.alignment + d.size,
                     pushed := s.pushed ++ [.frame (padAligned s.frameOffset d.alignment)] }, [_], ?_, rfl, hl,
      .inr ⟨h2, rfl, rfl, ?_⟩⟩
    · cases t with
      | leaf => simp [Ty.isLeaf] at h0
      | _ => simp only [loadArgument, Ty.entry, loadAggregate, if_neg hk, h3, g1, bind, Except.bind, pure, Except.pure]
    · rintro x (hx | hx)
      · exact g2 x (by omega)
      · exact g3 x (by rw [h4]; omega)

theorem paramObjects_cons {t : Ty} {ts : List Ty} {l : LTree} {ls : List LTree} {is rest : List Item}
    (h : is.length = pushes t) : paramObjects (t :: ts) (l :: ls) (is ++ rest) =
      is.filterMap (fun | .frame n => some ⟨⟨n, l.data.size⟩, l.data.alignment⟩ | _ => none) ++
        paramObjects ts ls rest := by
  simp only [paramObjects, ← h, List.take_left, List.drop_left]
  rfl

theorem paramObjects_none {t : Ty} {ts : List Ty} {l : LTree} {ls : List LTree} {is rest : List Item}
    (hl : is.length = pushes t) (h : ∀ n, Item.frame n ∉ is) :
    paramObjects (t :: ts) (l :: ls) (is ++ rest) = paramObjects ts ls rest := by
  rw [paramObjects_cons hl, List.filterMap_eq_nil_iff.2, List.nil_append]
  intro i hi
  cases i with
  | frame n => exact absurd hi (h n)
  | _ => rfl

/-- The parameters of a function and the room for them. -/
theorem frame_params {int sse : Nat → Word} {out : Mem} {ts ls ass c c'} (h : ShapeAll ts ls ass c c') :
    (∀ l ∈ ls, PowerOfTwo l.data.alignment) → ∀ (f : Frame) (s : Callee), PowerOfTwo f.alignment → 8 ≤ f.alignment →
    s.frameOffset ≤ f.size →
    ∃ size alignment s' is, visitAll frameParameter ts ls ass f = .ok { f with size := size, alignment := alignment } ∧
      visitAll (loadArgument int sse out) ts ls ass s = .ok s' ∧ s'.pushed = s.pushed ++ is ∧
      f.size ≤ size ∧ s'.frameOffset ≤ size ∧ s.frameOffset ≤ s'.frameOffset ∧
      PowerOfTwo alignment ∧ 8 ≤ alignment ∧
      ((paramObjects ts ls is).map (·.region)).Pairwise Region.Disjoint ∧
      (∀ o ∈ paramObjects ts ls is, s.frameOffset ≤ o.region.start ∧
        o.region.start + o.region.size ≤ s'.frameOffset ∧ o.region.start % o.alignment = 0) ∧
      ∀ x, (x < s.frameOffset ∨ 8 * eightbytes size ≤ x) → s'.frame x = s.frame x := by
  induction h with
  | nil =>
    intro _ f s h1 h2 h3
    exact ⟨f.size, f.alignment, s, [], rfl, rfl, by simp, Nat.le_refl _, h3, Nat.le_refl _, h1, h2, .nil, by simp [paramObjects],
      fun _ _ => rfl⟩
  | @cons t l a as ts ls ass c c1 c2 h1 h2 ih =>
    intro hpow f s hA h8 hfo
    have hd := hpow l (List.mem_cons_self ..)
    obtain ⟨s1, is, g1, g2, glen, g3⟩ := load_frame (int := int) (sse := sse) (out := out) h1 s
    rcases g3 with ⟨hty, hf1, hf2, hf3⟩ | ⟨hty, hf1, hf2, hf3⟩
    · obtain ⟨size, al, s2, is2, k1, k2, k3, k4, k5, k6, k7, k8, k9, k10, k12⟩ :=
        ih (fun l hl => hpow l (List.mem_cons_of_mem _ hl)) f s1 hA h8 (by omega)
      refine ⟨size, al, s2, is ++ is2, ?_, ?_, ?_, k4, k5, by omega, k7, k8, ?_, ?_, ?_⟩
      · simp only [visitAll, frameParameter, if_neg hty, Except.bind, k1]
      · simp only [visitAll, g1, Except.bind, k2]
      · rw [k3, g2, List.append_assoc]
      · rw [paramObjects_none glen hf3]; exact k9
      · rw [paramObjects_none glen hf3, ← hf1]; exact k10
      · intro x hx; rw [k12 x (by omega), hf2]
    · have hA' := pow_max hA hd
      have hpos := pow_pos hd
      have h8' : 8 ≤ max f.alignment l.data.alignment := by omega
      have hR := padAligned_mod f.size (max f.alignment l.data.alignment) (by omega)
      have hRge := padAligned_ge f.size (max f.alignment l.data.alignment)
      have hdv : l.data.alignment ∣ max f.alignment l.data.alignment := pow_dvd hd hA' (by omega)
      have h8v : 8 ∣ max f.alignment l.data.alignment := pow_dvd ⟨3, rfl⟩ hA' (by omega)
      have hle : padAligned s.frameOffset l.data.alignment ≤
          padAligned f.size (max f.alignment l.data.alignment) :=
        pad_le hpos (by omega) (mod_of_dvd hdv hR)
      have hge := padAligned_ge s.frameOffset l.data.alignment
      obtain ⟨size, al, s2, is2, k1, k2, k3, k4, k5, k6, k7, k8, k9, k10, k12⟩ :=
        ih (fun l hl => hpow l (List.mem_cons_of_mem _ hl)) (reserve l.data f) s1 hA' h8'
          (by rw [hf2]; simp only [reserve]; omega)
      simp only [reserve] at k1 k4
      refine ⟨size, al, s2, is ++ is2, ?_, ?_, ?_, by omega, k5, by omega, k7, k8, ?_, ?_, ?_⟩
      · simp only [visitAll, frameParameter, if_pos hty, Except.bind, reserve, k1]
      · simp only [visitAll, g1, Except.bind, k2]
      · rw [k3, g2, List.append_assoc]
      · rw [paramObjects_cons glen, hf1]
        simp only [List.filterMap_cons, List.filterMap_nil, List.cons_append, List.nil_append, List.map_cons]
        refine List.Pairwise.cons ?_ k9
        intro r hr x hx
        obtain ⟨o, ho, rfl⟩ := List.mem_map.1 hr
        have := (k10 o ho).1
        simp only at hx
        omega
      · rw [paramObjects_cons glen, hf1]
        simp only [List.filterMap_cons, List.filterMap_nil, List.cons_append, List.nil_append]
        intro r hr
        rcases List.mem_cons.1 hr with rfl | hr
        · exact ⟨hge, by rw [← hf2]; exact k6, padAligned_mod _ _ hpos⟩
        · have := k10 r hr; exact ⟨by omega, this.2⟩
      · intro x hx
        have hru := roundUp_le (mod_of_dvd h8v hR) k4
        rw [k12 x (by omega), hf3 x (by omega)]

/-! ## Temporaries -/

/-- Uses that need no room of a size that is not a power of two: results of calls whose types have
alignments that are powers of two, and variable arguments that are not passed in registers as aggregates. -/
def PlainUse : TempUse → Prop
  | .invoke none => True
  | .invoke (some (_, d)) => PowerOfTwo d.alignment
  | .varargGet c k _ => ¬ ((c = .struct ∨ c = .union ∨ c = .array ∨ c = .leaf .builtin) ∧ k ≠ .memory)

theorem temporaries_pow : ∀ (us : List TempUse), (∀ u ∈ us, PlainUse u) → ∀ (s : Nat × Nat),
    (s.2 = 0 ∨ PowerOfTwo s.2) → ((temporaries us s).2 = 0 ∨ PowerOfTwo (temporaries us s).2) ∧
      s.1 ≤ (temporaries us s).1 ∧
      ∀ c d, TempUse.invoke (some (c, d)) ∈ us →
        (c = .struct ∨ c = .union ∨ c = .array ∨ c = .leaf .memory ∨ c = .leaf .builtin) →
        d.size ≤ (temporaries us s).1
  | [], _, s, hs => ⟨hs, Nat.le_refl _, by simp⟩
  | u :: us, hu, s, hs => by
    have hrest : ∀ u ∈ us, PlainUse u := fun u h => hu u (List.mem_cons_of_mem _ h)
    have h0 := hu u (List.mem_cons_self ..)
    cases u with
    | varargGet c k d =>
      obtain ⟨h1, h2, h3⟩ := temporaries_pow us hrest s hs
      simp only [temporaries, updateFrameTemporariesType, if_neg h0]
      refine ⟨h1, h2, fun c' d' hm hc => h3 c' d' ?_ hc⟩
      simpa using hm
    | invoke r =>
      cases r with
      | none =>
        obtain ⟨h1, h2, h3⟩ := temporaries_pow us hrest s hs
        simp only [temporaries, updateFrameTemporaries]
        refine ⟨h1, h2, fun c' d' hm hc => h3 c' d' ?_ hc⟩
        simpa using hm
      | some r =>
        obtain ⟨c, d⟩ := r
        have h0 : PowerOfTwo d.alignment := h0
        by_cases hc : c = .struct ∨ c = .union ∨ c = .array ∨ c = .leaf .memory ∨ c = .leaf .builtin
        · obtain ⟨h1, h2, h3⟩ := temporaries_pow us hrest (max s.1 d.size, max s.2 d.alignment) (.inr (by
            rcases hs with hs | hs
            · rw [hs]; simpa using h0
            · exact pow_max hs h0))
          simp only [temporaries, updateFrameTemporaries, if_pos hc]
          simp only at h2
          refine ⟨h1, by omega, fun c' d' hm hc' => ?_⟩
          rcases List.mem_cons.1 hm with he | hm
          · cases he; omega
          · exact h3 c' d' hm hc'
        · obtain ⟨h1, h2, h3⟩ := temporaries_pow us hrest s hs
          simp only [temporaries, updateFrameTemporaries, if_neg hc]
          refine ⟨h1, h2, fun c' d' hm hc' => ?_⟩
          rcases List.mem_cons.1 hm with he | hm
          · cases he; exact absurd hc' hc
          · exact h3 c' d' hm hc'

end Kefir.Call
