import Verif.Layout.Lemmas

/-!
# Lemmas: alignment of scalars
-/

namespace Kefir.Layout

theorem pow_dvd_of_le {a b : Nat} (ha : ∃ e, a = 2 ^ e) (hb : ∃ e, b = 2 ^ e) (h : a ≤ b) : a ∣ b := by
  obtain ⟨e, rfl⟩ := ha
  obtain ⟨f, rfl⟩ := hb
  have : e ≤ f := by
    apply Nat.le_of_not_lt
    intro hlt
    have := Nat.pow_lt_pow_right (a := 2) (by omega) hlt
    omega
  exact Nat.pow_dvd_pow 2 this

theorem leafAlign_pow (k : Leaf) : ∃ e, leafAlign k = 2 ^ e := by
  cases k <;> simp only [leafAlign]
  all_goals first
    | exact ⟨0, rfl⟩ | exact ⟨1, rfl⟩ | exact ⟨2, rfl⟩ | exact ⟨3, rfl⟩ | exact ⟨4, rfl⟩

theorem effective_pow {al n : Nat} (h : al = 0 ∨ ∃ e, al = 2 ^ e) (hn : ∃ e, n = 2 ^ e) :
    ∃ e, effective al n = 2 ^ e := by
  simp only [effective]; split
  · exact hn
  · rcases h with h | h
    · contradiction
    · exact h

theorem effective_zero (n : Nat) : effective 0 n = n := rfl

mutual
theorem alignment_pow : ∀ {t l}, Laid t l → Unpacked t l → ∃ e, l.data.alignment = 2 ^ e
  | _, _, .leaf _ ha, .leaf hal _ => by
    simp only [LTree.data]; rw [ha]; exact effective_pow hal (leafAlign_pow _)
  | _, _, .struct hall _ hg ha _ _ _, .struct hal _ hu => by
    simp only [LTree.data]; rw [ha]
    obtain ⟨_, l, hl, e⟩ := hg
    exact effective_pow hal (e ▸ alignment_pow_all hall hu l hl)
  | _, _, .union hall _ hg ha _ _ _, .union hal _ hu => by
    simp only [LTree.data]; rw [ha]
    obtain ⟨_, l, hl, e⟩ := hg
    exact effective_pow hal (e ▸ alignment_pow_all hall hu l hl)
  | _, _, .array hl _ ha _, .array hal _ _ hu => by
    simp only [LTree.data]; rw [ha]
    exact effective_pow hal (alignment_pow hl hu)

theorem alignment_pow_all : ∀ {ts ls}, LaidAll ts ls → UnpackedAll ts ls →
    ∀ l ∈ ls, ∃ e, l.data.alignment = 2 ^ e
  | _, _, .nil, _, l, hl => by cases hl
  | _, _, .cons h hs, .cons hu hus, l, hl => by
    rcases List.mem_cons.1 hl with rfl | hl
    · exact alignment_pow h hu
    · exact alignment_pow_all hs hus l hl
end

/-- The size of an object without requested alignment is a multiple of its alignment. -/
theorem size_mod : ∀ {t l}, Laid t l → Unpacked t l → t.al = 0 → t.isBits = false →
    l.data.alignment ∣ l.data.size
  | .leaf k al p, _, .leaf hs ha, _, h0, hb => by
    simp only [Ty.al] at h0
    subst h0
    simp only [LTree.data]
    rw [ha, hs, effective_zero]
    cases k <;> simp [leafAlign, leafSize] <;> simp [Ty.isBits] at hb
  | .struct al ms, _, .struct _ _ _ ha hm _ _, _, h0, _ => by
    simp only [Ty.al] at h0
    subst h0
    simp only [LTree.data]
    rw [ha, effective_zero]; exact Nat.dvd_of_mod_eq_zero hm
  | .union al ms, _, .union _ _ _ ha hm _ _, _, h0, _ => by
    simp only [Ty.al] at h0
    subst h0
    simp only [LTree.data]
    rw [ha, effective_zero]; exact Nat.dvd_of_mod_eq_zero hm
  | .array al n elem, _, .array (l := l) hl _ ha hs, .array _ _ he hu, h0, _ => by
    simp only [Ty.al] at h0
    subst h0
    simp only [LTree.data]
    rw [ha, effective_zero, hs]
    by_cases hb : elem.isBits = true
    · cases elem with
      | leaf k al p =>
        cases k <;> simp [Ty.isBits] at hb
        simp only [Ty.al] at he
        subst he
        cases hl with
        | leaf hs' ha' => simp only [LTree.data]; rw [ha']; simp [effective, leafAlign]
      | struct => simp [Ty.isBits] at hb
      | union => simp [Ty.isBits] at hb
      | array => simp [Ty.isBits] at hb
    · exact Nat.dvd_trans (size_mod hl hu he (by simpa using hb)) (Nat.dvd_mul_left _ _)

theorem laidAll_get : ∀ {ts ls}, LaidAll ts ls → ∀ (i : Nat) t l, ts[i]? = some t → ls[i]? = some l → Laid t l
  | _, _, .nil, i, t, l, h, _ => by simp at h
  | _, _, .cons h hs, 0, t, l, h1, h2 => by
    simp only [List.getElem?_cons_zero, Option.some.injEq] at h1 h2; subst h1; subst h2; exact h
  | _, _, .cons h hs, i + 1, t, l, h1, h2 => by
    simp only [List.getElem?_cons_succ] at h1 h2; exact laidAll_get hs i t l h1 h2

theorem unpackedAll_get : ∀ {ts ls}, UnpackedAll ts ls → ∀ (i : Nat) t l,
    ts[i]? = some t → ls[i]? = some l → Unpacked t l
  | _, _, .nil, i, t, l, h, _ => by simp at h
  | _, _, .cons h hs, 0, t, l, h1, h2 => by
    simp only [List.getElem?_cons_zero, Option.some.injEq] at h1 h2; subst h1; subst h2; exact h
  | _, _, .cons h hs, i + 1, t, l, h1, h2 => by
    simp only [List.getElem?_cons_succ] at h1 h2; exact unpackedAll_get hs i t l h1 h2

theorem consecutive_get : ∀ {o ts ls}, Consecutive o ts ls → ∀ (i : Nat) t l,
    ts[i]? = some t → ls[i]? = some l → t.isBits = false → l.data.alignment ∣ l.data.offset
  | _, _, _, .nil, i, t, l, h, _ => by simp at h
  | _, _, _, .cons _ _ h3 _ hs, 0, t, l, h1, h2 => by
    simp only [List.getElem?_cons_zero, Option.some.injEq] at h1 h2; subst h1; subst h2
    exact fun hb => Nat.dvd_of_mod_eq_zero (h3 hb)
  | _, _, _, .cons _ _ _ _ hs, i + 1, t, l, h1, h2 => by
    simp only [List.getElem?_cons_succ] at h1 h2; exact consecutive_get hs i t l h1 h2

/-- The scalars of a run of bit-fields. -/
theorem bits_scalar {t l base k off} (h : ScalarAt t l base k off) (hb : t.isBits = true) : k = .bits := by
  cases h with
  | leaf => cases k <;> simp [Ty.isBits] at hb <;> rfl
  | struct => simp [Ty.isBits] at hb
  | union => simp [Ty.isBits] at hb
  | array => simp [Ty.isBits] at hb

theorem scalar_dvd {t l base k off} (h : ScalarAt t l base k off) : Laid t l → Unpacked t l →
    l.data.alignment ∣ base → k ≠ .bits → leafAlign k ∣ off := by
  induction h with
  | leaf =>
    intro hl hu hb _
    have hp := alignment_pow hl hu
    cases hu with
    | leaf hal hle => exact Nat.dvd_trans (pow_dvd_of_le (leafAlign_pow _) hp hle) hb
  | @struct _ _ _ _ _ t _ _ _ _ h1 h2 h3 ih =>
    intro hl hu hb hk
    have hp := alignment_pow hl hu
    cases hl with
    | struct hall hcon _ _ _ _ _ =>
    cases hu with
    | struct _ hle hus =>
      have hl := laidAll_get hall _ _ _ h1 h2
      have hu := unpackedAll_get hus _ _ _ h1 h2
      by_cases hbits : t.isBits = true
      · exact absurd (bits_scalar h3 hbits) hk
      · refine ih hl hu (Nat.dvd_add ?_ ?_) hk
        · exact Nat.dvd_trans (pow_dvd_of_le (alignment_pow hl hu) hp
            (hle _ (List.mem_of_getElem? h2))) hb
        · exact consecutive_get hcon _ _ _ h1 h2 (by simpa using hbits)
  | union h1 h2 h3 ih =>
    intro hl hu hb hk
    have hp := alignment_pow hl hu
    cases hl with
    | union hall hzero _ _ _ _ _ =>
    cases hu with
    | union _ hle hus =>
      have hl := laidAll_get hall _ _ _ h1 h2
      have hu := unpackedAll_get hus _ _ _ h1 h2
      refine ih hl hu (Nat.dvd_add ?_ ?_) hk
      · exact Nat.dvd_trans (pow_dvd_of_le (alignment_pow hl hu) hp
          (hle _ (List.mem_of_getElem? h2))) hb
      · rw [hzero _ (List.mem_of_getElem? h2)]; exact Nat.dvd_zero _
  | @array _ _ t _ _ _ _ _ _ h1 h2 ih =>
    intro hl hu hb hk
    have hp := alignment_pow hl hu
    cases hl with
    | array hl hzero ha hs =>
    cases hu with
    | array _ hle he hu =>
      by_cases hbits : t.isBits = true
      · exact absurd (bits_scalar h2 hbits) hk
      · refine ih hl hu (Nat.dvd_add (Nat.dvd_add ?_ ?_) ?_) hk
        · exact Nat.dvd_trans (pow_dvd_of_le (alignment_pow hl hu) hp hle) hb
        · rw [hzero]; exact Nat.dvd_zero _
        · exact Nat.dvd_trans (size_mod hl hu he (by simpa using hbits)) (Nat.dvd_mul_left _ _)

/-! ## The flag -/

mutual
/-- No alignment is requested for structures, unions, arrays and the elements of arrays; those
requested for scalars are powers of two. -/
inductive PlainAggregates : Ty → Prop
  | leaf {k al p} : (al = 0 ∨ ∃ e, al = 2 ^ e) → PlainAggregates (.leaf k al p)
  | struct {ms} : PlainAll ms → PlainAggregates (.struct 0 ms)
  | union {ms} : PlainAll ms → PlainAggregates (.union 0 ms)
  | array {n elem} : elem.al = 0 → PlainAggregates elem → PlainAggregates (.array 0 n elem)

inductive PlainAll : List Ty → Prop
  | nil : PlainAll []
  | cons {t ts} : PlainAggregates t → PlainAll ts → PlainAll (t :: ts)
end

theorem update_aligned (c : Compound) (d : Data) (e : Entry) :
    (update c d e).2.aligned = if e.alignment = 0 then d.aligned else decide (d.alignment ≤ e.alignment) := by
  simp only [update]; by_cases h : e.alignment = 0 <;> simp [h]

theorem update_allAligned (c : Compound) (d : Data) (e : Entry) :
    (update c d e).1.aligned = (c.aligned && (update c d e).2.aligned) := by
  rw [update_aligned]
  simp only [update]
  by_cases h : e.alignment = 0 <;> by_cases h2 : c.aggregate = true ∧ e.code ≠ .leaf .bits <;>
    by_cases h3 : c.aligned = true <;> by_cases h4 : d.aligned = true <;>
    by_cases h5 : c.aggregate = true <;> by_cases h6 : d.alignment ≤ e.alignment <;>
    simp_all <;> (repeat' split) <;> simp_all <;> omega

theorem layAll_aligned_le : ∀ (ts : List Ty) (c : Compound), (layAll c ts).1.aligned = true → c.aligned = true
  | [], c, h => h
  | t :: ts, c, h => by
    simp only [layAll] at h
    have := layAll_aligned_le ts _ h
    rw [update_allAligned] at this
    simp at this; exact this.1

mutual
theorem unpacked_of_aligned : ∀ (t : Ty), WF t → PlainAggregates t → ∀ (c : Compound),
    (update c (natural t).1 t.entry).2.aligned = true →
    Unpacked t (.node (update c (natural t).1 t.entry).2 (natural t).2)
  | .leaf k al p, _, h, c, ha => by
    have hal : al = 0 ∨ ∃ e, al = 2 ^ e := by cases h; assumption
    simp only [natural] at ha ⊢
    refine .leaf hal ?_
    rw [update_alignment]
    rw [update_aligned] at ha
    simp only [Ty.entry, effective] at ha ⊢
    by_cases h0 : al = 0
    · simp [h0]
    · simp [h0] at ha ⊢; exact of_decide_eq_true ha
  | .struct al ms, hw, h, c, ha => by
    obtain ⟨hne, hws⟩ : ms ≠ [] ∧ WFAll ms := by cases hw; constructor <;> assumption
    obtain ⟨rfl, hs⟩ : al = 0 ∧ PlainAll ms := by cases h; exact ⟨rfl, by assumption⟩
    have hma := layAll_maxAlignment ms (.fresh true)
    rw [update_aligned] at ha
    simp only [natural, compoundData, Ty.entry, if_true] at ha ⊢
    refine .struct (Or.inl rfl) ?_ (unpacked_all ms hws hs _ ha)
    intro l hl
    rw [update_alignment]
    simp only [effective, if_true, hma]
    exact greatestFrom_mem _ _ l hl
  | .union al ms, hw, h, c, ha => by
    obtain ⟨hne, hws⟩ : ms ≠ [] ∧ WFAll ms := by cases hw; constructor <;> assumption
    obtain ⟨rfl, hs⟩ : al = 0 ∧ PlainAll ms := by cases h; exact ⟨rfl, by assumption⟩
    have hma := layAll_maxAlignment ms (.fresh false)
    rw [update_aligned] at ha
    simp only [natural, compoundData, Ty.entry, if_true] at ha ⊢
    refine .union (Or.inl rfl) ?_ (unpacked_all ms hws hs _ ha)
    intro l hl
    rw [update_alignment]
    simp only [effective, if_true, hma]
    exact greatestFrom_mem _ _ l hl
  | .array al n e, hw, h, c, ha => by
    have he : WF e := by cases hw; assumption
    obtain ⟨rfl, h0, hs⟩ : al = 0 ∧ e.al = 0 ∧ PlainAggregates e := by
      cases h; exact ⟨rfl, by assumption, by assumption⟩
    rw [update_aligned] at ha
    simp only [natural, arrayData, Ty.entry, if_true] at ha ⊢
    rw [update_allAligned] at ha
    simp only [Bool.and_eq_true] at ha
    refine .array (Or.inl rfl) ?_ h0 (unpacked_of_aligned e he hs _ ha.2)
    rw [update_alignment]
    simp only [effective, if_true, LTree.data, update_maxAlignment]
    omega

theorem unpacked_all : ∀ (ts : List Ty), WFAll ts → PlainAll ts → ∀ (c : Compound),
    (layAll c ts).1.aligned = true → UnpackedAll ts (layAll c ts).2
  | [], _, _, c, _ => by simp only [layAll]; exact .nil
  | t :: ts, hw, h, c, ha => by
    obtain ⟨hwt, hws⟩ : WF t ∧ WFAll ts := by cases hw; constructor <;> assumption
    obtain ⟨ht, hs⟩ : PlainAggregates t ∧ PlainAll ts := by cases h; constructor <;> assumption
    simp only [layAll] at ha ⊢
    have h1 := layAll_aligned_le ts _ ha
    rw [update_allAligned] at h1
    simp only [Bool.and_eq_true] at h1
    exact .cons (unpacked_of_aligned t hwt ht c h1.2) (unpacked_all ts hws hs _ ha)
end

end Kefir.Layout
