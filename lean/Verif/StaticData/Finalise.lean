import Verif.StaticData.Emission

/-!
# Lemmas: which parts of an object are marked as having values
-/

namespace Kefir.StaticData

open Kefir.Layout Kefir.Abi

/-! ## Which parts have values -/

/-- A member has a value. -/
def initAll (vals : Nat → Value) (ts : List Ty) (slot : Nat) : Bool :=
  (List.range (objectsAll ts)).any fun i => decide (vals (slot + i) ≠ .undefined)

/-- An element has a value. -/
def initElems (vals : Nat → Value) (n : Nat) (e : Ty) (slot : Nat) : Bool :=
  (List.range n).any fun i => init vals e (slot + i * objects e)

theorem init_iff {vals : Nat → Value} {t : Ty} {slot : Nat} : init vals t slot = true ↔ Init vals t slot := by
  simp only [init, List.any_eq_true, List.mem_range, decide_eq_true_eq, Init]
  constructor
  · rintro ⟨i, h1, h2⟩; exact ⟨slot + i, by omega, by omega, h2⟩
  · rintro ⟨j, h1, h2, h3⟩; exact ⟨j - slot, by omega, by rwa [show slot + (j - slot) = j by omega]⟩

theorem initAll_iff {vals : Nat → Value} {ts : List Ty} {slot : Nat} : initAll vals ts slot = true ↔
    ∃ j, slot ≤ j ∧ j < slot + objectsAll ts ∧ vals j ≠ .undefined := by
  simp only [initAll, List.any_eq_true, List.mem_range, decide_eq_true_eq]
  constructor
  · rintro ⟨i, h1, h2⟩; exact ⟨slot + i, by omega, by omega, h2⟩
  · rintro ⟨j, h1, h2, h3⟩; exact ⟨j - slot, by omega, by rwa [show slot + (j - slot) = j by omega]⟩

theorem initElems_iff {vals : Nat → Value} {n : Nat} {e : Ty} {slot : Nat} : initElems vals n e slot = true ↔
    ∃ i, i < n ∧ Init vals e (slot + i * objects e) := by
  simp only [initElems, List.any_eq_true, List.mem_range, init_iff]

theorem initAll_cons (vals : Nat → Value) (t : Ty) (ts : List Ty) (slot : Nat) :
    initAll vals (t :: ts) slot = (init vals t slot || initAll vals ts (slot + objects t)) := by
  rw [Bool.eq_iff_iff, Bool.or_eq_true, initAll_iff, initAll_iff, init_iff]
  simp only [objectsAll, Init]
  constructor
  · rintro ⟨j, h1, h2, h3⟩
    by_cases h : j < slot + objects t
    · exact Or.inl ⟨j, h1, h, h3⟩
    · exact Or.inr ⟨j, by omega, by omega, h3⟩
  · rintro (⟨j, h1, h2, h3⟩ | ⟨j, h1, h2, h3⟩)
    · exact ⟨j, h1, by omega, h3⟩
    · exact ⟨j, by omega, by omega, h3⟩

theorem initAll_nil (vals : Nat → Value) (slot : Nat) : initAll vals [] slot = false := rfl

theorem init_aggregate (vals : Nat → Value) (t : Ty) (ms : List Ty) (slot : Nat) (h : objects t = 1 + objectsAll ms) :
    init vals t slot = (decide (vals slot ≠ .undefined) || initAll vals ms (slot + 1)) := by
  rw [Bool.eq_iff_iff, Bool.or_eq_true, initAll_iff, init_iff, decide_eq_true_eq]
  simp only [Init, h]
  constructor
  · rintro ⟨j, h1, h2, h3⟩
    by_cases h : j = slot
    · subst h; exact Or.inl h3
    · exact Or.inr ⟨j, by omega, by omega, h3⟩
  · rintro (h | ⟨j, h1, h2, h3⟩)
    · exact ⟨slot, by omega, by omega, h⟩
    · exact ⟨j, by omega, by omega, h3⟩

theorem init_struct (vals : Nat → Value) (al : Nat) (ms : List Ty) (slot : Nat) :
    init vals (.struct al ms) slot = (decide (vals slot ≠ .undefined) || initAll vals ms (slot + 1)) :=
  init_aggregate _ _ _ _ (by simp [objects])

theorem init_union (vals : Nat → Value) (al : Nat) (ms : List Ty) (slot : Nat) :
    init vals (.union al ms) slot = (decide (vals slot ≠ .undefined) || initAll vals ms (slot + 1)) :=
  init_aggregate _ _ _ _ (by simp [objects])

theorem init_leaf (vals : Nat → Value) (k : Leaf) (al n slot : Nat) :
    init vals (.leaf k al n) slot = decide (vals slot ≠ .undefined) := by
  simp [init, objects, List.range_one]

theorem init_array (vals : Nat → Value) (al n : Nat) (e : Ty) (slot : Nat) :
    init vals (.array al n e) slot = (decide (vals slot ≠ .undefined) || initElems vals n e (slot + 1)) := by
  rw [Bool.eq_iff_iff, Bool.or_eq_true, initElems_iff, init_iff, decide_eq_true_eq]
  simp only [Init, objects]
  have hp := objects_pos e
  constructor
  · rintro ⟨j, h1, h2, h3⟩
    by_cases h : j = slot
    · subst h; exact Or.inl h3
    · refine Or.inr ⟨(j - slot - 1) / objects e, ?_, j, ?_, ?_, h3⟩
      · rw [Nat.div_lt_iff_lt_mul hp]; omega
      · have := Nat.div_mul_le_self (j - slot - 1) (objects e); omega
      · have := Nat.lt_div_mul_add hp (a := j - slot - 1); omega
  · rintro (h | ⟨i, hi, j, h1, h2, h3⟩)
    · exact ⟨slot, by omega, by omega, h⟩
    · have := elem_slot hi h1 h2
      exact ⟨j, this.1, this.2, h3⟩

theorem init_congr {vals vals' : Nat → Value} {t : Ty} {slot : Nat}
    (h : ∀ j, slot ≤ j → j < slot + objects t → vals j = vals' j) : init vals t slot = init vals' t slot := by
  rw [Bool.eq_iff_iff, init_iff, init_iff]
  simp only [Init]
  constructor
  · rintro ⟨j, h1, h2, h3⟩; exact ⟨j, h1, h2, by rwa [← h j h1 h2]⟩
  · rintro ⟨j, h1, h2, h3⟩; exact ⟨j, h1, h2, by rwa [h j h1 h2]⟩

/-! ## The result of the pass -/

mutual
/-- What the pass leaves in the entries of an object whose values were `v`: the values of scalars are kept,
objects with values in their parts are marked as aggregates, and the marks say which objects have values. -/
def Final (v : Nat → Value) (d : DataMap) : Ty → Nat → Prop
  | .leaf _ _ _, slot => d.vals slot = v slot ∧ d.flagAt slot = decide (v slot ≠ .undefined)
  | .struct _ ms, slot =>
    (d.vals slot = if initAll v ms (slot + 1) then .aggregate else .undefined) ∧
    d.flagAt slot = initAll v ms (slot + 1) ∧ FinalAll v d ms (slot + 1)
  | .union _ ms, slot =>
    (d.vals slot = if initAll v ms (slot + 1) then .aggregate else .undefined) ∧
    d.flagAt slot = initAll v ms (slot + 1) ∧ FinalAll v d ms (slot + 1)
  | .array _ n e, slot =>
    (d.vals slot = if initElems v n e (slot + 1) then .aggregate else v slot) ∧
    d.flagAt slot = (decide (v slot ≠ .undefined) || initElems v n e (slot + 1)) ∧
    ∀ i, i < n → Final v d e (slot + 1 + i * objects e)

def FinalAll (v : Nat → Value) (d : DataMap) : List Ty → Nat → Prop
  | [], _ => True
  | t :: ts, slot => Final v d t slot ∧ FinalAll v d ts (slot + objects t)
end

mutual
theorem Final.congr {v : Nat → Value} {d d' : DataMap} : ∀ {t : Ty} {slot : Nat}, Final v d t slot →
    (∀ j, slot ≤ j → j < slot + objects t → d'.vals j = d.vals j ∧ d'.flagAt j = d.flagAt j) → Final v d' t slot
  | .leaf k al n, slot, h, hc => by
    simp only [Final] at h ⊢
    simp only [objects] at hc
    have := hc slot (Nat.le_refl _) (by omega)
    rw [this.1, this.2]; exact h
  | .struct al ms, slot, h, hc => by
    simp only [Final] at h ⊢
    simp only [objects] at hc
    have := hc slot (Nat.le_refl _) (by omega)
    rw [this.1, this.2]
    exact ⟨h.1, h.2.1, FinalAll.congr h.2.2 (fun j h1 h2 => hc j (by omega) (by omega))⟩
  | .union al ms, slot, h, hc => by
    simp only [Final] at h ⊢
    simp only [objects] at hc
    have := hc slot (Nat.le_refl _) (by omega)
    rw [this.1, this.2]
    exact ⟨h.1, h.2.1, FinalAll.congr h.2.2 (fun j h1 h2 => hc j (by omega) (by omega))⟩
  | .array al n e, slot, h, hc => by
    simp only [Final] at h ⊢
    simp only [objects] at hc
    have := hc slot (Nat.le_refl _) (by omega)
    rw [this.1, this.2]
    refine ⟨h.1, h.2.1, fun i hi => Final.congr (h.2.2 i hi) (fun j h1 h2 => ?_)⟩
    have := elem_slot hi h1 h2
    exact hc j this.1 this.2

theorem FinalAll.congr {v : Nat → Value} {d d' : DataMap} : ∀ {ts : List Ty} {slot : Nat}, FinalAll v d ts slot →
    (∀ j, slot ≤ j → j < slot + objectsAll ts → d'.vals j = d.vals j ∧ d'.flagAt j = d.flagAt j) →
    FinalAll v d' ts slot
  | [], _, _, _ => trivial
  | t :: ts, slot, h, hc => by
    simp only [FinalAll] at h ⊢
    simp only [objectsAll] at hc
    exact ⟨Final.congr h.1 (fun j h1 h2 => hc j h1 (by omega)),
      FinalAll.congr h.2 (fun j h1 h2 => hc j (by omega) (by omega))⟩
end

theorem initAll_of_undefined {v : Nat → Value} {ts : List Ty} {slot : Nat}
    (h : ∀ j, slot ≤ j → v j = .undefined) : initAll v ts slot = false := by
  rw [Bool.eq_false_iff, ne_eq, initAll_iff]
  rintro ⟨j, h1, _, h3⟩; exact h3 (h j h1)

theorem init_of_undefined {v : Nat → Value} {t : Ty} {slot : Nat}
    (h : ∀ j, slot ≤ j → v j = .undefined) : init v t slot = false := by
  rw [Bool.eq_false_iff, ne_eq, init_iff]
  rintro ⟨j, h1, _, h3⟩; exact h3 (h j h1)

theorem initElems_of_undefined {v : Nat → Value} {n : Nat} {e : Ty} {slot : Nat}
    (h : ∀ j, slot ≤ j → v j = .undefined) : initElems v n e slot = false := by
  rw [Bool.eq_false_iff, ne_eq, initElems_iff]
  rintro ⟨i, _, j, h1, _, h3⟩; exact h3 (h j (by omega))

mutual
theorem final_undefined {v : Nat → Value} {d : DataMap} : ∀ (t : Ty) {slot : Nat},
    (∀ j, slot ≤ j → v j = .undefined ∧ d.vals j = .undefined ∧ d.flagAt j = false) → Final v d t slot
  | .leaf k al n, slot, h => by
    have := h slot (Nat.le_refl _)
    simp [Final, this]
  | .struct al ms, slot, h => by
    have h0 := h slot (Nat.le_refl _)
    have hx : initAll v ms (slot + 1) = false := initAll_of_undefined (fun j h1 => (h j (by omega)).1)
    simp only [Final, hx, h0]
    exact ⟨by simp, by simp, finalAll_undefined ms (fun j h1 => h j (by omega))⟩
  | .union al ms, slot, h => by
    have h0 := h slot (Nat.le_refl _)
    have hx : initAll v ms (slot + 1) = false := initAll_of_undefined (fun j h1 => (h j (by omega)).1)
    simp only [Final, hx, h0]
    exact ⟨by simp, by simp, finalAll_undefined ms (fun j h1 => h j (by omega))⟩
  | .array al n e, slot, h => by
    have h0 := h slot (Nat.le_refl _)
    have hx : initElems v n e (slot + 1) = false := initElems_of_undefined (fun j h1 => (h j (by omega)).1)
    simp only [Final, hx, h0]
    exact ⟨rfl, by simp, fun i hi => final_undefined e (fun j h1 => h j (by omega))⟩

theorem finalAll_undefined {v : Nat → Value} {d : DataMap} : ∀ (ts : List Ty) {slot : Nat},
    (∀ j, slot ≤ j → v j = .undefined ∧ d.vals j = .undefined ∧ d.flagAt j = false) → FinalAll v d ts slot
  | [], _, _ => trivial
  | t :: ts, slot, h => ⟨final_undefined t h, finalAll_undefined ts (fun j h1 => h j (by omega))⟩
end

/-! ## Densely mapped objects -/

/-- The blocks that exist are the first `k` ones. -/
def Dense (d : DataMap) (k : Nat) : Prop := d.blocks = List.range k

theorem Dense.mapped_iff {d : DataMap} {k : Nat} (h : Dense d k) (j : Nat) :
    d.mapped j = true ↔ j < k * blockCapacity := by
  have h : d.blocks = List.range k := h
  simp only [DataMap.mapped, h, List.contains_iff_mem, List.mem_range, blockCapacity]
  omega

theorem Dense.skip_beyond {d : DataMap} {k : Nat} (h : Dense d k) {iter : List Nat} {slot : Nat}
    (hi : IterOK d iter slot) (hs : k * blockCapacity ≤ slot) : skipTo iter slot = [] := by
  have h : d.blocks = List.range k := h
  cases hsk : skipTo iter slot with
  | nil => rfl
  | cons b bs =>
    exfalso
    have h1 := skipTo_head hsk
    have h2 := hi.skip
    rw [hsk] at h2
    obtain ⟨p, e, _⟩ := h2
    have : b ∈ d.blocks := by rw [e]; simp
    rw [h, List.mem_range] at this
    have : (b + 1) * blockCapacity ≤ k * blockCapacity := Nat.mul_le_mul_right _ this
    omega

mutual
/-- After the last block nothing is done (except that slots are counted, for arrays not all of them). -/
theorem fin_beyond {k : Nat} : ∀ (t : Ty) (s : Fin), WF t → Dense s.data k → IterOK s.data s.iter s.slot →
    k * blockCapacity ≤ s.slot →
    ∃ slot iter, s.slot ≤ slot ∧ IterOK s.data iter slot ∧ fin t s = .ok ⟨s.data, slot, s.defined, iter⟩
  | .leaf kd al n, s, hw, hd, hi, hk => by
    have hm : s.data.mapped s.slot = false := by
      rw [Bool.eq_false_iff, ne_eq, hd.mapped_iff]; omega
    refine ⟨s.slot + 1, s.iter, by omega, hi.mono (by omega), ?_⟩
    cases kd
    case builtin =>
      have hb : n = 0 := by cases hw; rename_i h; exact h rfl
      simp [fin, finLeaf, hm, hb]
    all_goals simp [fin, finLeaf, hm]
  | .struct al ms, s, hw, hd, hi, hk => by
    have hm : s.data.mapped s.slot = false := by
      rw [Bool.eq_false_iff, ne_eq, hd.mapped_iff]; omega
    have hws : WFAll ms := by cases hw; assumption
    obtain ⟨slot, iter, h1, h2, h3⟩ := finAll_beyond ms { s with slot := s.slot + 1, defined := false } hws hd
      (hi.mono (by simp only; omega)) (by simp only; omega)
    simp only at h1 h2
    refine ⟨slot, iter, by omega, h2, ?_⟩
    simp [fin, hm, h3, finAggregate]
  | .union al ms, s, hw, hd, hi, hk => by
    have hm : s.data.mapped s.slot = false := by
      rw [Bool.eq_false_iff, ne_eq, hd.mapped_iff]; omega
    have hws : WFAll ms := by cases hw; assumption
    obtain ⟨slot, iter, h1, h2, h3⟩ := finAll_beyond ms { s with slot := s.slot + 1, defined := false } hws hd
      (hi.mono (by simp only; omega)) (by simp only; omega)
    simp only at h1 h2
    refine ⟨slot, iter, by omega, h2, ?_⟩
    simp [fin, hm, h3, finAggregate]
  | .array al n e, s, hw, hd, hi, hk => by
    have hm : s.data.mapped s.slot = false := by
      rw [Bool.eq_false_iff, ne_eq, hd.mapped_iff]; omega
    have hsk : skipTo s.iter (s.slot + 1) = [] := hd.skip_beyond (hi.mono (by omega)) (by omega)
    cases n with
    | zero =>
      refine ⟨s.slot + 1, s.iter, by omega, hi.mono (by omega), ?_⟩
      simp [fin, hm, finArray, finLoop]
    | succ n =>
      refine ⟨s.slot + 1, [], by omega, ?_, ?_⟩
      · have := (hi.mono (show s.slot ≤ s.slot + 1 by omega)).skip
        rwa [hsk] at this
      · simp [fin, hm, finArray, finLoop, hsk]

theorem finAll_beyond {k : Nat} : ∀ (ts : List Ty) (s : Fin), WFAll ts → Dense s.data k → IterOK s.data s.iter s.slot →
    k * blockCapacity ≤ s.slot →
    ∃ slot iter, s.slot ≤ slot ∧ IterOK s.data iter slot ∧ finAll ts s = .ok ⟨s.data, slot, s.defined, iter⟩
  | [], s, _, hd, hi, hk => ⟨s.slot, s.iter, by omega, hi, by simp [finAll]⟩
  | t :: ts, s, hw, hd, hi, hk => by
    obtain ⟨hwt, hws⟩ : WF t ∧ WFAll ts := by cases hw; constructor <;> assumption
    obtain ⟨slot, iter, h1, h2, h3⟩ := fin_beyond t s hwt hd hi hk
    obtain ⟨slot', iter', h4, h5, h6⟩ := finAll_beyond ts ⟨s.data, slot, s.defined, iter⟩ hws hd h2
      (by simp only; omega)
    simp only at h4
    exact ⟨slot', iter', by omega, h5, by simp only [finAll, h3, h6]⟩
end

/-- The slots that the pass counts: exact up to the last block. -/
def Sim (k a b : Nat) : Prop := a = b ∨ (k * blockCapacity ≤ a ∧ k * blockCapacity ≤ b)

/-- Entries from `slot` on have not been visited. -/
structure Untouched (v : Nat → Value) (d : DataMap) (slot : Nat) : Prop where
  vals : ∀ j, slot ≤ j → d.vals j = v j
  flags : ∀ j, slot ≤ j → d.flags j = false

theorem Untouched.mono {v : Nat → Value} {d : DataMap} {a b : Nat} (h : Untouched v d a) (hab : a ≤ b) :
    Untouched v d b :=
  ⟨fun j hj => h.vals j (by omega), fun j hj => h.flags j (by omega)⟩

/-- Entries before `slot` have not changed. -/
def Below (d d' : DataMap) (slot : Nat) : Prop :=
  ∀ j, j < slot → d'.vals j = d.vals j ∧ d'.flags j = d.flags j

theorem Below.trans {d d' d'' : DataMap} {a b : Nat} (h1 : Below d d' a) (h2 : Below d' d'' b) (hab : a ≤ b) :
    Below d d'' a := fun j hj => by
  have e1 := h1 j hj
  have e2 := h2 j (by omega)
  exact ⟨e2.1.trans e1.1, e2.2.trans e1.2⟩

/-- What the pass does with an object. -/
def Finished (v : Nat → Value) (k : Nat) (t : Ty) (slot : Nat) (s : Fin) (r : Out Fin) : Prop :=
  ∃ s', r = .ok s' ∧ Sim k s'.slot (slot + objects t) ∧ s'.defined = (s.defined || init v t slot) ∧
    Dense s'.data k ∧ Mapped s'.data ∧ s'.data.total = s.data.total ∧ IterOK s'.data s'.iter s'.slot ∧
    Untouched v s'.data (slot + objects t) ∧ Below s.data s'.data slot ∧ Final v s'.data t slot

theorem mapped_blocks {d d' : DataMap} (h : d'.blocks = d.blocks) (j : Nat) : d'.mapped j = d.mapped j := by
  simp only [DataMap.mapped, h]

theorem Final.below {v : Nat → Value} {d d' : DataMap} {t : Ty} {slot b : Nat} {k : Nat} (h : Final v d t slot)
    (hd : Dense d k) (hd' : Dense d' k) (hb : Below d d' b) (hs : slot + objects t ≤ b) : Final v d' t slot := by
  refine h.congr (fun j h1 h2 => ?_)
  have := hb j (by omega)
  refine ⟨this.1, ?_⟩
  simp only [DataMap.flagAt, this.2]
  rw [mapped_blocks (show d'.blocks = d.blocks from Eq.trans hd' (Eq.symm hd))]

/-- Beyond the last block. -/
theorem finished_beyond {v : Nat → Value} {k : Nat} {t : Ty} {slot : Nat} {s : Fin} (hw : WF t)
    (hsim : Sim k s.slot slot) (hk : k * blockCapacity ≤ slot) (hd : Dense s.data k) (hm : Mapped s.data)
    (hi : IterOK s.data s.iter s.slot) (hu : Untouched v s.data slot) : Finished v k t slot s (fin t s) := by
  have hks : k * blockCapacity ≤ s.slot := by rcases hsim with h | h <;> omega
  obtain ⟨slot', iter', h1, h2, h3⟩ := fin_beyond t s hw hd hi hks
  have hun : ∀ j, slot ≤ j → s.data.mapped j = false := fun j hj => by
    rw [Bool.eq_false_iff, ne_eq, hd.mapped_iff]; omega
  have hv : ∀ j, slot ≤ j → v j = .undefined := fun j hj => by
    rw [← hu.vals j hj]; exact hm.vals_of (hun j hj)
  refine ⟨_, h3, Or.inr ⟨by simp only; omega, by omega⟩, ?_, hd, hm, rfl, h2, hu.mono (by omega), fun j _ => ⟨rfl, rfl⟩, ?_⟩
  · simp [init_of_undefined hv]
  · apply final_undefined
    intro j hj
    exact ⟨hv j hj, hm.vals_of (hun j hj), by simp [DataMap.flagAt, hun j hj]⟩

theorem initElems_split {v : Nat → Value} {n i : Nat} {e : Ty} {slot : Nat} (hi : i < n) :
    ((List.range' i (n - i)).any fun j => init v e (slot + j * objects e)) =
    (init v e (slot + i * objects e) || (List.range' (i + 1) (n - (i + 1))).any fun j => init v e (slot + j * objects e)) := by
  rw [show n - i = (n - (i + 1)) + 1 by omega, List.range'_succ, List.any_cons]

/-- The elements of an array. -/
theorem finLoop_ok {v : Nat → Value} {k : Nat} {e : Ty} {f : Fin → Out Fin} {n first : Nat}
    (hf : ∀ i s, i < n → Sim k s.slot (first + i * objects e) → Dense s.data k → Mapped s.data →
      IterOK s.data s.iter s.slot → Untouched v s.data (first + i * objects e) →
      Finished v k e (first + i * objects e) s (f s)) :
    ∀ (fuel i : Nat) (s : Fin), n ≤ i + fuel → i ≤ n → Sim k s.slot (first + i * objects e) → Dense s.data k →
      Mapped s.data → IterOK s.data s.iter s.slot → Untouched v s.data (first + i * objects e) →
      ∃ s', finLoop f n (objects e) (first + objects e * n) fuel i s = .ok s' ∧
        Sim k s'.slot (first + n * objects e) ∧
        s'.defined = (s.defined || (List.range' i (n - i)).any fun j => init v e (first + j * objects e)) ∧
        Dense s'.data k ∧ Mapped s'.data ∧ s'.data.total = s.data.total ∧ IterOK s'.data s'.iter s'.slot ∧
        Untouched v s'.data (first + n * objects e) ∧ Below s.data s'.data (first + i * objects e) ∧
        ∀ j, i ≤ j → j < n → Final v s'.data e (first + j * objects e) := by
  intro fuel
  induction fuel with
  | zero =>
    intro i s h1 h2 hsim hd hm hi hu
    have : i = n := by omega
    subst this
    exact ⟨s, rfl, hsim, by simp, hd, hm, rfl, hi, hu, fun _ _ => ⟨rfl, rfl⟩, by omega⟩
  | succ fuel ih =>
    intro i s h1 h2 hsim hd hm hi hu
    by_cases hin : i < n
    · have hle : i * objects e + objects e ≤ n * objects e := by
        have := Nat.mul_le_mul_right (objects e) (Nat.succ_le_of_lt hin)
        rwa [Nat.succ_mul] at this
      have hi' := hi.skip
      by_cases hk : k * blockCapacity ≤ s.slot
      · have hsk := hd.skip_beyond hi hk
        have hks : k * blockCapacity ≤ first + i * objects e := by rcases hsim with h | h <;> omega
        rw [hsk] at hi'
        have hun : ∀ j, first + i * objects e ≤ j → s.data.mapped j = false := fun j hj => by
          rw [Bool.eq_false_iff, ne_eq, hd.mapped_iff]; omega
        have hv : ∀ j, first + i * objects e ≤ j → v j = .undefined := fun j hj => by
          rw [← hu.vals j hj]; exact hm.vals_of (hun j hj)
        refine ⟨{ s with iter := [] }, ?_, Or.inr ⟨hk, by omega⟩, ?_, hd, hm, rfl, hi', hu.mono (by omega),
          fun _ _ => ⟨rfl, rfl⟩, ?_⟩
        · simp only [finLoop, if_pos hin, hsk]
        · have : ((List.range' i (n - i)).any fun j => init v e (first + j * objects e)) = false := by
            rw [Bool.eq_false_iff, ne_eq, List.any_eq_true]
            rintro ⟨j, hj, h⟩
            rw [List.mem_range'_1] at hj
            have : i * objects e ≤ j * objects e := Nat.mul_le_mul_right _ hj.1
            rw [init_of_undefined (fun x hx => hv x (by omega))] at h
            cases h
          simp [this]
        · intro j hj1 hj2
          have : i * objects e ≤ j * objects e := Nat.mul_le_mul_right _ hj1
          apply final_undefined
          intro x hx
          exact ⟨hv x (by omega), hm.vals_of (hun x (by omega)), by simp [DataMap.flagAt, hun x (by omega)]⟩
      · have hslot : s.slot = first + i * objects e := by rcases hsim with h | h <;> omega
        have hmap : s.data.mapped s.slot = true := by rw [hd.mapped_iff]; omega
        cases hsk : skipTo s.iter s.slot with
        | nil =>
          exfalso
          rw [hsk] at hi'
          rw [unmapped_nil hi' (Nat.le_refl _)] at hmap; cases hmap
        | cons b bs =>
          rw [hsk] at hi'
          have hnb : ¬ s.slot < b * blockCapacity := by
            intro hlt
            rw [unmapped_cons hm hi' (Nat.le_refl _) hlt] at hmap; cases hmap
          obtain ⟨s1, r1, r2, r3, r4, r5, r6, r7, r8, r9, r10⟩ := hf i { s with iter := b :: bs } hin hsim hd hm hi' hu
          have hsucc : first + i * objects e + objects e = first + (i + 1) * objects e := by
            rw [Nat.add_mul]; omega
          rw [hsucc] at r2 r8
          obtain ⟨s2, q1, q2, q3, q4, q5, q6, q7, q8, q9, q10⟩ := ih (i + 1) s1 (by omega) (by omega) r2 r4 r5 r7 r8
          refine ⟨s2, ?_, q2, ?_, q4, q5, q6.trans r6, q7, q8, r9.trans q9 (by omega), ?_⟩
          · simp only [finLoop, if_pos hin, hsk, if_neg hnb, r1, q1]
          · rw [q3, r3, initElems_split hin, Bool.or_assoc]
          · intro j hj1 hj2
            by_cases hji : j = i
            · subst hji
              exact r10.below r4 q4 q9 (by omega)
            · exact q10 j (by omega) hj2
    · have : i = n := by omega
      subst this
      refine ⟨s, ?_, hsim, by simp, hd, hm, rfl, hi, hu, fun _ _ => ⟨rfl, rfl⟩, by omega⟩
      simp [finLoop]

/-! ### Changing one entry -/

theorem setFlag_vals (d : DataMap) (slot : Nat) (b : Bool) : (d.setFlag slot b).vals = d.vals := rfl
theorem setFlag_flags (d : DataMap) (slot : Nat) (b : Bool) (j : Nat) :
    (d.setFlag slot b).flags j = if j = slot then b else d.flags j := rfl
theorem setVal_vals (d : DataMap) (slot : Nat) (x : Value) (j : Nat) :
    (d.setVal slot x).vals j = if j = slot then x else d.vals j := rfl
theorem setVal_flags (d : DataMap) (slot : Nat) (x : Value) : (d.setVal slot x).flags = d.flags := rfl

/-- Only the entry `slot` differs. -/
def Only (d d' : DataMap) (slot : Nat) : Prop :=
  d'.blocks = d.blocks ∧ d'.total = d.total ∧ ∀ j, j ≠ slot → d'.vals j = d.vals j ∧ d'.flags j = d.flags j

theorem only_flag (d : DataMap) (slot : Nat) (b : Bool) : Only d (d.setFlag slot b) slot :=
  ⟨rfl, rfl, fun j hj => ⟨rfl, by rw [setFlag_flags, if_neg hj]⟩⟩

theorem only_flag_val (d : DataMap) (slot : Nat) (b : Bool) (x : Value) :
    Only d ((d.setFlag slot b).setVal slot x) slot :=
  ⟨rfl, rfl, fun j hj => ⟨by rw [setVal_vals, if_neg hj]; rfl, by rw [setVal_flags, setFlag_flags, if_neg hj]⟩⟩

theorem Only.dense {d d' : DataMap} {slot k : Nat} (h : Only d d' slot) (hd : Dense d k) : Dense d' k :=
  Eq.trans h.1 hd

theorem Only.iter {d d' : DataMap} {slot a : Nat} {iter : List Nat} (h : Only d d' slot) (hi : IterOK d iter a) :
    IterOK d' iter a := by
  obtain ⟨p, e, hp⟩ := hi
  exact ⟨p, h.1.trans e, hp⟩

theorem Only.mapped {d d' : DataMap} {slot : Nat} (h : Only d d' slot) (hm : Mapped d) (hs : d.mapped slot = true) :
    Mapped d' := by
  refine ⟨by rw [h.1]; exact hm.sorted, fun j hj => ?_⟩
  rw [mapped_blocks h.1]
  by_cases hjs : j = slot
  · rw [hjs]; exact hs
  · rw [(h.2.2 j hjs).1] at hj; exact hm.covers j hj

theorem Only.untouched {v : Nat → Value} {d d' : DataMap} {slot a : Nat} (h : Only d d' slot) (hu : Untouched v d a)
    (ha : slot < a) : Untouched v d' a :=
  ⟨fun j hj => by rw [(h.2.2 j (by omega)).1]; exact hu.vals j hj,
    fun j hj => by rw [(h.2.2 j (by omega)).2]; exact hu.flags j hj⟩

theorem Only.below {d d' : DataMap} {slot : Nat} (h : Only d d' slot) : Below d d' slot :=
  fun j hj => h.2.2 j (by omega)

theorem Only.same {d d' : DataMap} {slot : Nat} (h : Only d d' slot) (j : Nat) (hj : j ≠ slot) :
    d'.vals j = d.vals j ∧ d'.flagAt j = d.flagAt j := by
  refine ⟨(h.2.2 j hj).1, ?_⟩
  simp only [DataMap.flagAt, (h.2.2 j hj).2, mapped_blocks h.1]

theorem noValue_undefined {x : Value} (h : NoValue x) (hn : x ≠ .aggregate) : x = .undefined := by
  rcases h with h | h
  · exact h
  · exact absurd h hn

/-- The entry of a structure or union after its members. -/
theorem finished_aggregate {v : Nat → Value} {k : Nat} {t : Ty} {ms : List Ty} {slot : Nat} {s s1 : Fin}
    (hobj : objects t = 1 + objectsAll ms) (hv : v slot = .undefined) (hmap : s.data.mapped slot = true)
    (hsd : Dense s.data k) (hs : s.data.vals slot = v slot)
    (r2 : Sim k s1.slot (slot + 1 + objectsAll ms)) (r3 : s1.defined = initAll v ms (slot + 1))
    (r4 : Dense s1.data k) (r5 : Mapped s1.data) (r6 : s1.data.total = s.data.total)
    (r7 : IterOK s1.data s1.iter s1.slot) (r8 : Untouched v s1.data (slot + 1 + objectsAll ms))
    (r9 : Below s.data s1.data (slot + 1)) (r10 : FinalAll v s1.data ms (slot + 1))
    (hfin : ∀ d, ((d.vals slot = if initAll v ms (slot + 1) then .aggregate else .undefined) ∧
      d.flagAt slot = initAll v ms (slot + 1) ∧ FinalAll v d ms (slot + 1)) → Final v d t slot) :
    Finished v k t slot s (.ok (finAggregate true slot s.defined s1)) := by
  have hmap1 : s1.data.mapped slot = true := by
    rw [mapped_blocks (show s1.data.blocks = s.data.blocks from Eq.trans r4 (Eq.symm hsd))]; exact hmap
  have honly : Only s1.data (finAggregate true slot s.defined s1).data slot := by
    simp only [finAggregate, if_true]
    cases s1.defined with
    | true => exact only_flag_val _ _ _ _
    | false => exact only_flag _ _ _
  have hval : (finAggregate true slot s.defined s1).data.vals slot =
      if initAll v ms (slot + 1) then .aggregate else .undefined := by
    simp only [finAggregate, if_true, r3]
    cases initAll v ms (slot + 1) with
    | true => simp [setVal_vals]
    | false =>
      simp only [Bool.false_eq_true, if_false, setFlag_vals]
      rw [(r9 slot (by omega)).1, hs, hv]
  have hflag : (finAggregate true slot s.defined s1).data.flagAt slot = initAll v ms (slot + 1) := by
    have hm' : (finAggregate true slot s.defined s1).data.mapped slot = true := by
      rw [mapped_blocks honly.1]; exact hmap1
    simp only [DataMap.flagAt, hm', Bool.true_and]
    simp only [finAggregate, if_true, r3]
    cases initAll v ms (slot + 1) with
    | true => simp [setVal_flags, setFlag_flags]
    | false => simp [setFlag_flags]
  refine ⟨_, rfl, ?_, ?_, honly.dense r4, honly.mapped r5 hmap1, honly.2.1.trans r6, ?_, ?_, ?_, ?_⟩
  · rw [hobj, ← Nat.add_assoc]; exact r2
  · have : init v t slot = initAll v ms (slot + 1) := by rw [init_aggregate _ _ _ _ hobj, hv]; simp
    simp only [finAggregate, r3, this]
  · exact honly.iter r7
  · rw [hobj, ← Nat.add_assoc]; exact honly.untouched r8 (by omega)
  · have h1 : Below s.data s1.data slot := fun j hj => r9 j (by omega)
    exact h1.trans honly.below (Nat.le_refl _)
  · exact hfin _ ⟨hval, hflag, r10.congr (fun j h1 h2 => honly.same j (by omega))⟩

mutual
theorem fin_ok {v : Nat → Value} {k : Nat} (hna : ∀ j, v j ≠ .aggregate) : ∀ (t : Ty) {l : LTree} {slot : Nat}
    (s : Fin), Laid t l → WF t → Suits v t l slot → Sim k s.slot slot → Dense s.data k → Mapped s.data →
    IterOK s.data s.iter s.slot → Untouched v s.data slot → Finished v k t slot s (fin t s)
  | .leaf kd al n, l, slot, s, hl, hw, hs, hsim, hd, hm, hi, hu => by
    by_cases hk : k * blockCapacity ≤ slot
    · exact finished_beyond hw hsim hk hd hm hi hu
    have hslot : s.slot = slot := by rcases hsim with h | h <;> omega
    have hmap : s.data.mapped slot = true := by rw [hd.mapped_iff]; omega
    have hval := hu.vals slot (Nat.le_refl _)
    simp only [Suits] at hs
    have hplain : v slot = .undefined → Finished v k (.leaf kd al n) slot s (.ok { s with slot := s.slot + 1 }) := by
      intro hv
      refine ⟨_, rfl, Or.inl (by simp [hslot, objects]), ?_, hd, hm, rfl, hi.mono (by simp only; omega),
        hu.mono (by omega), fun _ _ => ⟨rfl, rfl⟩, ?_⟩
      · simp [init_leaf, hv]
      · simp only [Final, hval, DataMap.flagAt, hmap, hu.flags slot (Nat.le_refl _), hv]
        simp
    have hmain : Finished v k (.leaf kd al n) slot s
        (.ok ⟨s.data.setFlag slot (decide (v slot ≠ .undefined)), s.slot + 1,
          s.defined || decide (v slot ≠ .undefined), s.iter⟩) := by
      have honly := only_flag s.data slot (decide (v slot ≠ .undefined))
      refine ⟨_, rfl, Or.inl (by simp [hslot, objects]), ?_, honly.dense hd, honly.mapped hm hmap, rfl,
        honly.iter (hi.mono (by simp only; omega)), ?_, honly.below, ?_⟩
      · simp [init_leaf]
      · exact honly.untouched (hu.mono (by omega)) (by simp [objects])
      · simp only [Final, setFlag_vals, hval, DataMap.flagAt, setFlag_flags, if_true]
        rw [mapped_blocks honly.1, hmap]
        simp
    cases kd
    case pad => simp only [fin, finLeaf]; exact hplain hs
    case builtin =>
      have hb : n = 0 := by cases hw; rename_i h; exact h rfl
      have hv : v slot = .undefined := hs
      simp only [fin, finLeaf]
      rw [if_neg (by simp [hb]), if_neg (by rw [hslot, hval, hv]; simp)]
      exact hplain hv
    all_goals
      simp only [fin, finLeaf, hslot, hmap, if_true, hval]
      rw [← hslot] at hmain ⊢
      exact hmain
  | .struct al ms, l, slot, s, hl, hw, hs, hsim, hd, hm, hi, hu => by
    by_cases hk : k * blockCapacity ≤ slot
    · exact finished_beyond hw hsim hk hd hm hi hu
    have hslot : s.slot = slot := by rcases hsim with h | h <;> omega
    have hmap : s.data.mapped slot = true := by rw [hd.mapped_iff]; omega
    have hval := hu.vals slot (Nat.le_refl _)
    have hws : WFAll ms := by cases hw; assumption
    cases hl with
    | @struct _ _ d ls g hall hcon hg ha hmd hle hlt =>
    simp only [Suits] at hs
    have hv := noValue_undefined hs.1 (hna slot)
    obtain ⟨s1, r1, r2, r3, r4, r5, r6, r7, r8, r9, r10⟩ := finAll_ok hna ms (slot := slot + 1)
      { s with slot := s.slot + 1, defined := false } hall hws hs.2 (Or.inl (by simp [hslot])) hd hm
      (hi.mono (by simp only; omega)) (hu.mono (by omega))
    simp only [Bool.false_or] at r3
    simp only [fin, hslot, hmap, hval, hv, ne_eq, not_true, and_false, if_false]
    rw [hslot] at r1
    simp only [r1]
    exact finished_aggregate (by simp [objects]) hv hmap hd hval r2 r3 r4 r5 r6 r7 r8 r9 r10
      (fun d h => by simp only [Final]; exact h)
  | .union al ms, l, slot, s, hl, hw, hs, hsim, hd, hm, hi, hu => by
    by_cases hk : k * blockCapacity ≤ slot
    · exact finished_beyond hw hsim hk hd hm hi hu
    have hslot : s.slot = slot := by rcases hsim with h | h <;> omega
    have hmap : s.data.mapped slot = true := by rw [hd.mapped_iff]; omega
    have hval := hu.vals slot (Nat.le_refl _)
    have hws : WFAll ms := by cases hw; assumption
    cases hl with
    | @union _ _ d ls g hall hcon hg ha hmd hle hlt =>
    simp only [Suits] at hs
    have hv := noValue_undefined hs.1 (hna slot)
    obtain ⟨s1, r1, r2, r3, r4, r5, r6, r7, r8, r9, r10⟩ := finAll_ok hna ms (slot := slot + 1)
      { s with slot := s.slot + 1, defined := false } hall hws hs.2 (Or.inl (by simp [hslot])) hd hm
      (hi.mono (by simp only; omega)) (hu.mono (by omega))
    simp only [Bool.false_or] at r3
    simp only [fin, hslot, hmap, hval, hv, ne_eq, not_true, and_false, if_false]
    rw [hslot] at r1
    simp only [r1]
    exact finished_aggregate (by simp [objects]) hv hmap hd hval r2 r3 r4 r5 r6 r7 r8 r9 r10
      (fun d h => by simp only [Final]; exact h)
  | .array al n e, l, slot, s, hl, hw, hs, hsim, hd, hm, hi, hu => by
    by_cases hk : k * blockCapacity ≤ slot
    · exact finished_beyond hw hsim hk hd hm hi hu
    have hslot : s.slot = slot := by rcases hsim with h | h <;> omega
    have hmap : s.data.mapped slot = true := by rw [hd.mapped_iff]; omega
    have hval := hu.vals slot (Nat.le_refl _)
    have hwe : WF e := by cases hw; assumption
    cases hl with
    | @array _ _ _ d l hl hzero ha hsz =>
    simp only [Suits] at hs
    have hse : ∀ i, i < n → Suits v e l (slot + 1 + i * objects e) := hs.2
    obtain ⟨s1, r1, r2, r3, r4, r5, r6, r7, r8, r9, r10⟩ := finLoop_ok (v := v) (k := k)
      (f := fun s => fin e s) (n := n) (first := slot + 1)
      (fun i s' hin hsim hd hm hi hu => fin_ok hna e s' hl hwe (hse i hin) hsim hd hm hi hu) n 0
      { s with slot := s.slot + 1, defined := false } (by omega) (by omega) (Or.inl (by simp [hslot])) hd hm
      (hi.mono (by simp only; omega)) (hu.mono (by omega))
    simp only [Nat.zero_mul, Nat.add_zero] at r9
    have r3' : s1.defined = initElems v n e (slot + 1) := by
      rw [r3, initElems, List.range_eq_range']; simp
    have hmap1 : s1.data.mapped slot = true := by
      rw [mapped_blocks (show s1.data.blocks = s.data.blocks from Eq.trans r4 (Eq.symm hd))]; exact hmap
    have hval1 : s1.data.vals slot = v slot := by rw [(r9 slot (by omega)).1]; exact hval
    simp only [fin, hslot, hmap]
    rw [hslot] at r1
    simp only [r1, finArray, if_true, hval1, r3']
    have hobj : slot + objects (.array al n e) = slot + 1 + n * objects e := by simp only [objects]; omega
    have hinit : (initElems v n e (slot + 1) || decide (v slot ≠ .undefined)) = init v (.array al n e) slot := by
      rw [init_array, Bool.or_comm]
    rw [hinit]
    have key : ∀ d' : DataMap, Only s1.data d' slot →
        (d'.vals slot = if initElems v n e (slot + 1) then .aggregate else v slot) →
        d'.flags slot = init v (.array al n e) slot →
        Finished v k (.array al n e) slot s (.ok ⟨d', s1.slot, s.defined || init v (.array al n e) slot, s1.iter⟩) := by
      intro d' honly h1 h2
      refine ⟨_, rfl, by rw [hobj]; exact r2, rfl, honly.dense r4, honly.mapped r5 hmap1, honly.2.1.trans r6,
        honly.iter r7, by rw [hobj]; exact honly.untouched r8 (by omega), ?_, ?_⟩
      · have h1 : Below s.data s1.data slot := fun j hj => r9 j (by omega)
        exact h1.trans honly.below (Nat.le_refl _)
      · simp only [Final]
        refine ⟨h1, ?_, fun i hi => (r10 i (by omega) hi).congr (fun j h1 h2 => honly.same j (by omega))⟩
        have hm' : d'.mapped slot = true := by rw [mapped_blocks honly.1]; exact hmap1
        simp only [DataMap.flagAt, hm', h2, Bool.true_and, init_array]
    cases hel : initElems v n e (slot + 1) with
    | true =>
      have hv : v slot = .undefined := by
        rcases hs with ⟨⟨bs, hb, _, hund⟩ | h, _⟩
        · exfalso
          rw [initElems_iff] at hel
          obtain ⟨i, hi, j, h1, h2, h3⟩ := hel
          have := elem_slot hi h1 h2
          exact h3 (hund j (by omega) (by omega))
        · exact noValue_undefined h (hna slot)
      simp only [hv, ne_eq, not_true, if_false, if_true]
      refine key _ (only_flag_val _ _ _ _) ?_ ?_
      · simp [setVal_vals, hel]
      · simp [setVal_flags, setFlag_flags]
    | false =>
      simp only [Bool.false_eq_true, if_false]
      refine key _ (only_flag _ _ _) ?_ ?_
      · simp [setFlag_vals, hel, hval1]
      · simp [setFlag_flags]

theorem finAll_ok {v : Nat → Value} {k : Nat} (hna : ∀ j, v j ≠ .aggregate) : ∀ (ts : List Ty) {ls : List LTree}
    {slot : Nat} (s : Fin), LaidAll ts ls → WFAll ts → SuitsAll v ts ls slot → Sim k s.slot slot → Dense s.data k →
    Mapped s.data → IterOK s.data s.iter s.slot → Untouched v s.data slot →
    ∃ s', finAll ts s = .ok s' ∧ Sim k s'.slot (slot + objectsAll ts) ∧
      s'.defined = (s.defined || initAll v ts slot) ∧
      Dense s'.data k ∧ Mapped s'.data ∧ s'.data.total = s.data.total ∧ IterOK s'.data s'.iter s'.slot ∧
      Untouched v s'.data (slot + objectsAll ts) ∧ Below s.data s'.data slot ∧ FinalAll v s'.data ts slot
  | _, _, slot, s, .nil, _, _, hsim, hd, hm, hi, hu =>
    ⟨s, rfl, by simpa [objectsAll] using hsim, by simp [initAll_nil], hd, hm, rfl, hi, hu.mono (by omega),
      fun _ _ => ⟨rfl, rfl⟩, trivial⟩
  | _, _, slot, s, .cons (t := t) (l := l) (ts := ts) (ls := ls) hl hls, hw, hs, hsim, hd, hm, hi, hu => by
    obtain ⟨hwt, hws⟩ : WF t ∧ WFAll ts := by cases hw; constructor <;> assumption
    simp only [SuitsAll] at hs
    obtain ⟨s1, r1, r2, r3, r4, r5, r6, r7, r8, r9, r10⟩ := fin_ok hna t s hl hwt hs.1 hsim hd hm hi hu
    obtain ⟨s2, q1, q2, q3, q4, q5, q6, q7, q8, q9, q10⟩ := finAll_ok hna ts s1 hls hws hs.2 r2 r4 r5 r7 r8
    refine ⟨s2, by simp only [finAll, r1, q1], ?_, ?_, q4, q5, q6.trans r6, q7, ?_, r9.trans q9 (by omega), ?_⟩
    · simpa only [objectsAll, Nat.add_assoc] using q2
    · rw [q3, r3, initAll_cons, Bool.or_assoc]
    · simpa only [objectsAll, Nat.add_assoc] using q8
    · simp only [FinalAll]
      exact ⟨r10.below r4 q4 q9 (Nat.le_refl _), q10⟩
end

/-! ## What does not change -/

mutual
theorem Final.init {v : Nat → Value} {d : DataMap} (hna : ∀ j, v j ≠ .aggregate) : ∀ {t : Ty} {l : LTree} {slot : Nat},
    Laid t l → Suits v t l slot → Final v d t slot →
    StaticData.init d.vals t slot = StaticData.init v t slot ∧ d.flagAt slot = StaticData.init v t slot
  | .leaf k al n, _, slot, _, hs, h => by
    simp only [Final] at h
    rw [init_leaf, init_leaf, h.1, h.2]
    exact ⟨rfl, rfl⟩
  | .struct al ms, _, slot, .struct hall _ _ _ _ _ _, hs, h => by
    simp only [Final] at h
    simp only [Suits] at hs
    have hv := noValue_undefined hs.1 (hna slot)
    rw [init_struct, init_struct, h.1, h.2.1, hv, FinalAll.init hna hall hs.2 h.2.2]
    cases initAll v ms (slot + 1) <;> simp
  | .union al ms, _, slot, .union hall _ _ _ _ _ _, hs, h => by
    simp only [Final] at h
    simp only [Suits] at hs
    have hv := noValue_undefined hs.1 (hna slot)
    rw [init_union, init_union, h.1, h.2.1, hv, FinalAll.init hna hall hs.2 h.2.2]
    cases initAll v ms (slot + 1) <;> simp
  | .array al n e, _, slot, .array hl _ _ _, hs, h => by
    simp only [Final] at h
    simp only [Suits] at hs
    have he : initElems d.vals n e (slot + 1) = initElems v n e (slot + 1) := by
      rw [Bool.eq_iff_iff, initElems_iff, initElems_iff]
      constructor
      · rintro ⟨i, hi, hh⟩
        refine ⟨i, hi, ?_⟩
        rw [← init_iff] at hh ⊢
        rw [← (Final.init hna hl (hs.2 i hi) (h.2.2 i hi)).1]; exact hh
      · rintro ⟨i, hi, hh⟩
        refine ⟨i, hi, ?_⟩
        rw [← init_iff] at hh ⊢
        rw [(Final.init hna hl (hs.2 i hi) (h.2.2 i hi)).1]; exact hh
    rw [init_array, init_array, h.1, h.2.1, he]
    cases initElems v n e (slot + 1) <;> simp

theorem FinalAll.init {v : Nat → Value} {d : DataMap} (hna : ∀ j, v j ≠ .aggregate) : ∀ {ts : List Ty}
    {ls : List LTree} {slot : Nat}, LaidAll ts ls → SuitsAll v ts ls slot → FinalAll v d ts slot →
    initAll d.vals ts slot = initAll v ts slot
  | _, _, _, .nil, _, _ => rfl
  | _, _, slot, .cons (t := t) (l := l) (ts := ts) (ls := ls) hl hls, hs, h => by
    simp only [FinalAll] at h
    simp only [SuitsAll] at hs
    rw [initAll_cons, initAll_cons, (Final.init hna hl hs.1 h.1).1, FinalAll.init hna hls hs.2 h.2]
end

theorem undefined_of_init {v : Nat → Value} {t : Ty} {slot : Nat} (h : StaticData.init v t slot = false) :
    ∀ j, slot ≤ j → j < slot + objects t → v j = .undefined := by
  intro j h1 h2
  cases hv : v j with
  | undefined => rfl
  | _ =>
    exfalso
    have : StaticData.init v t slot = true := init_iff.2 ⟨j, h1, h2, by rw [hv]; simp⟩
    rw [h] at this; cases this

/-- The elements of an array that has a string as its value. -/
theorem Final.rest {v : Nat → Value} {d : DataMap} (hna : ∀ j, v j ≠ .aggregate) {n : Nat} {e : Ty} {l : LTree}
    {slot : Nat} (hl : Laid e l) (hs : ∀ i, i < n → Suits v e l (slot + 1 + i * objects e))
    (h : ∀ i, i < n → Final v d e (slot + 1 + i * objects e))
    (hu : ∀ j, slot < j → j ≤ slot + n * objects e → v j = .undefined) :
    ∀ j, slot < j → j ≤ slot + n * objects e → d.vals j = .undefined := by
  intro j h1 h2
  have hp := objects_pos e
  have hi : (j - slot - 1) / objects e < n := by rw [Nat.div_lt_iff_lt_mul hp]; omega
  have h3 := Nat.div_mul_le_self (j - slot - 1) (objects e)
  have h4 := Nat.lt_div_mul_add hp (a := j - slot - 1)
  refine undefined_of_init (t := e) (slot := slot + 1 + (j - slot - 1) / objects e * objects e) ?_ j (by omega)
    (by omega)
  rw [(Final.init hna hl (hs _ hi) (h _ hi)).1, Bool.eq_false_iff, ne_eq, init_iff]
  rintro ⟨x, h5, h6, h7⟩
  have := elem_slot hi h5 h6
  exact h7 (hu x (by omega) (by omega))

mutual
theorem Final.suits {v : Nat → Value} {d : DataMap} (hna : ∀ j, v j ≠ .aggregate) : ∀ {t : Ty} {l : LTree} {slot : Nat},
    Laid t l → Suits v t l slot → Final v d t slot → Suits d.vals t l slot
  | .leaf k al n, _, slot, _, hs, h => by
    simp only [Final] at h
    simp only [Suits] at hs ⊢
    rw [h.1]; exact hs
  | .struct al ms, _, slot, .struct hall _ _ _ _ _ _, hs, h => by
    simp only [Final] at h
    simp only [Suits] at hs ⊢
    refine ⟨?_, FinalAll.suits hna hall hs.2 h.2.2⟩
    rw [h.1]; cases initAll v ms (slot + 1) <;> simp [NoValue]
  | .union al ms, _, slot, .union hall _ _ _ _ _ _, hs, h => by
    simp only [Final] at h
    simp only [Suits] at hs ⊢
    refine ⟨?_, FinalAll.suits hna hall hs.2 h.2.2⟩
    rw [h.1]; cases initAll v ms (slot + 1) <;> simp [NoValue]
  | .array al n e, _, slot, .array (l := l) hl _ _ _, hs, h => by
    simp only [Final] at h
    simp only [Suits] at hs ⊢
    refine ⟨?_, fun i hi => Final.suits hna hl (hs.2 i hi) (h.2.2 i hi)⟩
    rw [h.1]
    cases hel : initElems v n e (slot + 1) with
    | true => exact Or.inr (Or.inr rfl)
    | false =>
      rcases hs with ⟨⟨bs, hb, hlen, hund⟩ | hv, hs⟩
      · exact Or.inl ⟨bs, by simpa using hb, hlen, Final.rest hna hl hs h.2.2 hund⟩
      · exact Or.inr (by simpa using hv)

theorem FinalAll.suits {v : Nat → Value} {d : DataMap} (hna : ∀ j, v j ≠ .aggregate) : ∀ {ts : List Ty}
    {ls : List LTree} {slot : Nat}, LaidAll ts ls → SuitsAll v ts ls slot → FinalAll v d ts slot →
    SuitsAll d.vals ts ls slot
  | _, _, _, .nil, _, _ => by simp [SuitsAll]
  | _, _, slot, .cons (t := t) (l := l) (ts := ts) (ls := ls) hl hls, hs, h => by
    simp only [FinalAll] at h
    simp only [SuitsAll] at hs ⊢
    exact ⟨Final.suits hna hl hs.1 h.1, FinalAll.suits hna hls hs.2 h.2⟩
end

mutual
theorem Final.image {v : Nat → Value} {d : DataMap} (hna : ∀ j, v j ≠ .aggregate) : ∀ {t : Ty} {l : LTree} {slot : Nat},
    Laid t l → Suits v t l slot → Final v d t slot → StaticData.image d.vals t l slot = StaticData.image v t l slot
  | .leaf k al n, _, slot, _, hs, h => by
    simp only [Final] at h
    simp only [StaticData.image, h.1]
  | .struct al ms, _, slot, .struct hall _ _ _ _ _ _, hs, h => by
    simp only [Final] at h
    simp only [Suits] at hs
    simp only [StaticData.image, (FinalAll.images hna hall hs.2 h.2.2).1]
  | .union al ms, _, slot, .union hall _ _ _ _ _ _, hs, h => by
    simp only [Final] at h
    simp only [Suits] at hs
    simp only [StaticData.image, (FinalAll.images hna hall hs.2 h.2.2).2]
  | .array al n e, _, slot, .array (l := l) hl _ _ _, hs, h => by
    simp only [Final] at h
    simp only [Suits] at hs
    have hels : ((List.range n).flatMap fun i => StaticData.image d.vals e l (slot + 1 + i * objects e)) =
        (List.range n).flatMap fun i => StaticData.image v e l (slot + 1 + i * objects e) := by
      simp only [List.flatMap_def]
      congr 1
      apply List.map_congr_left
      intro i hi
      rw [List.mem_range] at hi
      exact Final.image hna hl (hs.2 i hi) (h.2.2 i hi)
    simp only [StaticData.image, h.1, hels]
    cases hel : initElems v n e (slot + 1) with
    | false => simp
    | true =>
      rcases hs with ⟨⟨bs, hb, hlen, hund⟩ | hv, hs⟩
      · exfalso
        rw [initElems_iff] at hel
        obtain ⟨i, hi, j, h1, h2, h3⟩ := hel
        have := elem_slot hi h1 h2
        exact h3 (hund j (by omega) (by omega))
      · rw [noValue_undefined hv (hna slot)]; simp

theorem FinalAll.images {v : Nat → Value} {d : DataMap} (hna : ∀ j, v j ≠ .aggregate) : ∀ {ts : List Ty}
    {ls : List LTree} {slot : Nat}, LaidAll ts ls → SuitsAll v ts ls slot → FinalAll v d ts slot →
    pieces d.vals ts ls slot = pieces v ts ls slot ∧ unionPieces d.vals ts ls slot = unionPieces v ts ls slot
  | _, _, _, .nil, _, _ => by simp [pieces, unionPieces]
  | _, _, slot, .cons (t := t) (l := l) (ts := ts) (ls := ls) hl hls, hs, h => by
    simp only [FinalAll] at h
    simp only [SuitsAll] at hs
    have h1 := Final.image hna hl hs.1 h.1
    have h2 := FinalAll.images hna hls hs.2 h.2
    have h3 := (Final.init hna hl hs.1 h.1).1
    simp only [pieces, unionPieces, h1, h2.1, h2.2, h3]
    exact ⟨trivial, trivial⟩
end

mutual
theorem Final.flags {v : Nat → Value} {d : DataMap} (hna : ∀ j, v j ≠ .aggregate) : ∀ {t : Ty} {l : LTree} {slot : Nat},
    Laid t l → Suits v t l slot → Final v d t slot → FlagsRight d t slot
  | .leaf k al n, _, slot, _, hs, h => by simp [FlagsRight]
  | .struct al ms, _, slot, .struct hall _ _ _ _ _ _, hs, h => by
    simp only [Final] at h
    simp only [Suits] at hs
    simp only [FlagsRight]
    exact (FinalAll.flags hna hall hs.2 h.2.2).1
  | .union al ms, _, slot, .union hall _ _ _ _ _ _, hs, h => by
    simp only [Final] at h
    simp only [Suits] at hs
    simp only [FlagsRight]
    exact FinalAll.flags hna hall hs.2 h.2.2
  | .array al n e, _, slot, .array (l := l) hl _ _ _, hs, h => by
    simp only [Final] at h
    simp only [Suits] at hs
    simp only [FlagsRight]
    exact fun i hi => Final.flags hna hl (hs.2 i hi) (h.2.2 i hi)

theorem FinalAll.flags {v : Nat → Value} {d : DataMap} (hna : ∀ j, v j ≠ .aggregate) : ∀ {ts : List Ty}
    {ls : List LTree} {slot : Nat}, LaidAll ts ls → SuitsAll v ts ls slot → FinalAll v d ts slot →
    FlagsAll d ts slot ∧ MembersRight d ts slot
  | _, _, _, .nil, _, _ => by simp [FlagsAll, MembersRight]
  | _, _, slot, .cons (t := t) (l := l) (ts := ts) (ls := ls) hl hls, hs, h => by
    simp only [FinalAll] at h
    simp only [SuitsAll] at hs
    have h1 := Final.init hna hl hs.1 h.1
    have h2 := FinalAll.flags hna hls hs.2 h.2
    simp only [FlagsAll, MembersRight]
    exact ⟨⟨Final.flags hna hl hs.1 h.1, h2.1⟩, h1.2.trans h1.1.symm, h2.2⟩
end

end Kefir.StaticData
