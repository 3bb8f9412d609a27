import Verif.Layout.Flat

/-!
# Lemmas about the layout of trees
-/

namespace Kefir.Layout

theorem padAligned_ge (o a : Nat) : o ≤ padAligned o a := by
  simp only [padAligned]; repeat' split
  all_goals omega

theorem padAligned_mod (o a : Nat) (h : 0 < a) : padAligned o a % a = 0 := by
  simp only [padAligned]
  rw [if_neg (by omega)]
  split
  · have hlt := Nat.mod_lt o h
    have : o + (a - o % a) = a * (o / a) + a := by
      have := Nat.div_add_mod o a; omega
    rw [this]; simp
  · omega

theorem padAligned_lt (o a : Nat) (h : 0 < a) : padAligned o a < o + a := by
  simp only [padAligned]
  rw [if_neg (by omega)]
  split <;> omega

theorem update_size (c : Compound) (d : Data) (e : Entry) : (update c d e).2.size = d.size := by
  simp only [update]; repeat' split
  all_goals rfl

theorem update_alignment (c : Compound) (d : Data) (e : Entry) :
    (update c d e).2.alignment = effective e.alignment d.alignment := by
  simp only [update, effective]; by_cases h : e.alignment = 0 <;> simp [h]

theorem update_offset (c : Compound) (d : Data) (e : Entry) :
    (update c d e).2.offset =
      if c.aggregate ∧ e.code ≠ .leaf .bits then padAligned c.offset (effective e.alignment d.alignment)
      else c.offset := by
  simp only [update, effective]
  by_cases h : e.alignment = 0 <;> by_cases h2 : c.aggregate = true ∧ e.code ≠ .leaf .bits <;>
    simp only [h, h2, if_true, if_false, ne_eq, not_true_eq_false, not_false_eq_true] <;>
    ((repeat' split) <;> simp_all)
    <;> (repeat' split) <;> rfl

theorem update_aggregate (c : Compound) (d : Data) (e : Entry) :
    (update c d e).1.aggregate = c.aggregate := by
  simp only [update]; repeat' split
  all_goals rfl

theorem update_maxAlignment (c : Compound) (d : Data) (e : Entry) :
    (update c d e).1.maxAlignment = max c.maxAlignment (update c d e).2.alignment := by
  simp only [update]; repeat' split
  all_goals rfl

theorem update_maxSize (c : Compound) (d : Data) (e : Entry) :
    (update c d e).1.maxSize = max c.maxSize (update c d e).2.size := by
  simp only [update]; repeat' split
  all_goals rfl

theorem update_next (c : Compound) (d : Data) (e : Entry) (h : c.aggregate = true) :
    (update c d e).1.offset = (update c d e).2.offset + (update c d e).2.size := by
  simp only [update, h]
  by_cases h1 : e.alignment = 0 <;> by_cases h2 : e.code = .leaf .bits <;>
    simp only [h1, h2, ne_eq, not_true_eq_false, not_false_eq_true, if_true, if_false,
      and_self, and_false] <;>
    (repeat' split) <;> simp_all

theorem update_stay (c : Compound) (d : Data) (e : Entry) (h : c.aggregate = false) :
    (update c d e).1.offset = c.offset ∧ (update c d e).2.offset = c.offset := by
  simp only [update, h]
  by_cases h1 : e.alignment = 0 <;>
    simp only [h1, ne_eq, not_true_eq_false, not_false_eq_true, if_true, if_false,
      false_and, Bool.false_eq_true] <;>
    (repeat' split) <;> simp_all

theorem entry_alignment (t : Ty) : t.entry.alignment = t.al := by cases t <;> rfl

theorem entry_bits (t : Ty) : t.entry.code = .leaf .bits ↔ t.isBits = true := by
  cases t with
  | leaf k al p => cases k <;> simp [Ty.entry, Ty.isBits]
  | struct => simp [Ty.entry, Ty.isBits]
  | union => simp [Ty.entry, Ty.isBits]
  | array => simp [Ty.entry, Ty.isBits]

theorem effective_pos {al n : Nat} (h : 0 < n) : 0 < effective al n := by
  simp only [effective]; split <;> omega

/-- Greatest alignment, started from `m`. -/
def greatestFrom (m : Nat) : List LTree → Nat
  | [] => m
  | l :: ls => greatestFrom (max m l.data.alignment) ls

theorem layAll_maxAlignment : ∀ (ts : List Ty) (c : Compound),
    (layAll c ts).1.maxAlignment = greatestFrom c.maxAlignment (layAll c ts).2
  | [], c => by simp [layAll, greatestFrom]
  | t :: ts, c => by
    simp only [layAll, greatestFrom, LTree.data]
    rw [layAll_maxAlignment ts, update_maxAlignment]

theorem greatestFrom_ge : ∀ (ls : List LTree) (m : Nat), m ≤ greatestFrom m ls
  | [], _ => Nat.le_refl _
  | l :: ls, m => by
    have := greatestFrom_ge ls (max m l.data.alignment)
    simp only [greatestFrom]; omega

theorem greatestFrom_mem : ∀ (ls : List LTree) (m : Nat), ∀ l ∈ ls, l.data.alignment ≤ greatestFrom m ls
  | [], _, _, h => by cases h
  | l :: ls, m, x, h => by
    cases h with
    | head =>
      have := greatestFrom_ge ls (max m l.data.alignment)
      simp only [greatestFrom]; omega
    | tail _ h => exact greatestFrom_mem ls _ x h

theorem greatestFrom_attained : ∀ (ls : List LTree) (m : Nat),
    greatestFrom m ls = m ∨ ∃ l ∈ ls, l.data.alignment = greatestFrom m ls
  | [], _ => Or.inl rfl
  | l :: ls, m => by
    simp only [greatestFrom]
    rcases greatestFrom_attained ls (max m l.data.alignment) with h | ⟨x, hx, h⟩
    · rw [h]
      by_cases hm : l.data.alignment ≤ m
      · left; omega
      · right; exact ⟨l, by simp, by omega⟩
    · right; exact ⟨x, List.mem_cons_of_mem _ hx, h⟩

theorem greatest_spec (ls : List LTree) (hne : ls ≠ []) : GreatestAlignment ls (greatestFrom 0 ls) := by
  refine ⟨fun l hl => greatestFrom_mem ls 0 l hl, ?_⟩
  rcases greatestFrom_attained ls 0 with h | h
  · cases ls with
    | nil => exact absurd rfl hne
    | cons l ls =>
      refine ⟨l, by simp, ?_⟩
      have := greatestFrom_mem (l :: ls) 0 l (by simp)
      omega
  · exact h

theorem layAll_ne_nil {ts : List Ty} {c : Compound} (h : ts ≠ []) : (layAll c ts).2 ≠ [] := by
  cases ts with
  | nil => exact absurd rfl h
  | cons t ts => simp [layAll]

/-! ## Alignments are positive -/

mutual
theorem natural_pos : ∀ (t : Ty), WF t → 0 < (natural t).1.alignment
  | .leaf k al p, _ => by cases k <;> simp [natural, leafAlign]
  | .struct al ms, h => by
    obtain ⟨hne, hws⟩ : ms ≠ [] ∧ WFAll ms := by cases h; constructor <;> assumption
    simp only [natural, compoundData, layAll_maxAlignment]
    obtain ⟨_, l, hl, e⟩ := greatest_spec _ (layAll_ne_nil (c := .fresh true) hne)
    have := layAll_pos ms hws (.fresh true) l hl
    simp only [Compound.fresh] at e ⊢; omega
  | .union al ms, h => by
    obtain ⟨hne, hws⟩ : ms ≠ [] ∧ WFAll ms := by cases h; constructor <;> assumption
    simp only [natural, compoundData, layAll_maxAlignment]
    obtain ⟨_, l, hl, e⟩ := greatest_spec _ (layAll_ne_nil (c := .fresh false) hne)
    have := layAll_pos ms hws (.fresh false) l hl
    simp only [Compound.fresh] at e ⊢; omega
  | .array al n e, h => by
    have he : WF e := by cases h; assumption
    have := natural_pos e he
    simp only [natural, arrayData, update_maxAlignment, update_alignment]
    have := effective_pos (al := e.entry.alignment) this
    omega

theorem layAll_pos : ∀ (ts : List Ty), WFAll ts → ∀ (c : Compound),
    ∀ l ∈ (layAll c ts).2, 0 < l.data.alignment
  | [], _, c, l, hl => by simp [layAll] at hl
  | t :: ts, h, c, l, hl => by
    obtain ⟨hwt, hws⟩ : WF t ∧ WFAll ts := by cases h; constructor <;> assumption
    simp only [layAll, List.mem_cons] at hl
    rcases hl with rfl | hl
    · simp only [LTree.data, update_alignment]
      exact effective_pos (natural_pos t hwt)
    · exact layAll_pos ts hws _ l hl
end

/-! ## Members of structures -/

/-- Where the last member ends, started from `o`. -/
def stopFrom (o : Nat) : List LTree → Nat
  | [] => o
  | l :: ls => stopFrom l.stop ls

theorem stopFrom_lastStop : ∀ (ls : List LTree) (o : Nat), ls ≠ [] → stopFrom o ls = lastStop ls
  | [], _, h => absurd rfl h
  | [l], _, _ => rfl
  | l :: m :: ls, o, _ => by
    rw [stopFrom, lastStop]
    · exact stopFrom_lastStop (m :: ls) _ (by simp)
    · simp

theorem layAll_aggregate : ∀ (ts : List Ty) (c : Compound),
    (layAll c ts).1.aggregate = c.aggregate
  | [], c => rfl
  | t :: ts, c => by simp only [layAll]; rw [layAll_aggregate ts, update_aggregate]

theorem layAll_offset : ∀ (ts : List Ty) (c : Compound), c.aggregate = true →
    (layAll c ts).1.offset = stopFrom c.offset (layAll c ts).2
  | [], c, _ => rfl
  | t :: ts, c, h => by
    simp only [layAll, stopFrom, LTree.stop, LTree.data]
    rw [layAll_offset ts _ (by rw [update_aggregate, h]), update_next _ _ _ h]

theorem layAll_consecutive : ∀ (ts : List Ty), WFAll ts → ∀ (c : Compound), c.aggregate = true →
    Consecutive c.offset ts (layAll c ts).2
  | [], _, c, _ => by simp only [layAll]; exact .nil
  | t :: ts, h, c, hc => by
    obtain ⟨hwt, hws⟩ : WF t ∧ WFAll ts := by cases h; constructor <;> assumption
    have hp := effective_pos (al := t.entry.alignment) (natural_pos t hwt)
    simp only [layAll]
    refine .cons ?_ ?_ ?_ ?_ ?_
    · simp only [LTree.data, update_offset, hc]
      split
      · exact padAligned_ge _ _
      · exact Nat.le_refl _
    · intro hb
      simp only [LTree.data, update_offset, (entry_bits t).2 hb]
      simp
    · intro hb
      have hb' : t.entry.code ≠ .leaf .bits := fun e => by rw [(entry_bits t).1 e] at hb; cases hb
      simp only [LTree.data, update_offset, update_alignment, hc, ne_eq, hb', not_false_eq_true,
        and_self, if_true]
      exact padAligned_mod _ _ hp
    · intro hb
      have hb' : t.entry.code ≠ .leaf .bits := fun e => by rw [(entry_bits t).1 e] at hb; cases hb
      simp only [LTree.data, update_offset, update_alignment, hc, ne_eq, hb', not_false_eq_true,
        and_self, if_true]
      exact padAligned_lt _ _ hp
    · have := layAll_consecutive ts hws (update c (natural t).1 t.entry).1 (by rw [update_aggregate, hc])
      rw [update_next _ _ _ hc] at this
      exact this

/-! ## Members of unions -/

theorem layAll_stay : ∀ (ts : List Ty) (c : Compound), c.aggregate = false →
    ∀ l ∈ (layAll c ts).2, l.data.offset = c.offset
  | [], c, _, l, hl => by simp [layAll] at hl
  | t :: ts, c, hc, l, hl => by
    have hu := update_stay c (natural t).1 t.entry hc
    simp only [layAll, List.mem_cons] at hl
    rcases hl with rfl | hl
    · exact hu.2
    · rw [layAll_stay ts _ (by rw [update_aggregate, hc]) l hl, hu.1]

theorem layAll_maxSize : ∀ (ts : List Ty) (c : Compound),
    c.maxSize ≤ (layAll c ts).1.maxSize ∧
    (∀ l ∈ (layAll c ts).2, l.data.size ≤ (layAll c ts).1.maxSize) ∧
    ((layAll c ts).1.maxSize = c.maxSize ∨ ∃ l ∈ (layAll c ts).2, l.data.size = (layAll c ts).1.maxSize)
  | [], c => by simp [layAll]
  | t :: ts, c => by
    obtain ⟨h1, h2, h3⟩ := layAll_maxSize ts (update c (natural t).1 t.entry).1
    rw [update_maxSize] at h1 h3
    simp only [layAll, List.mem_cons]
    refine ⟨by omega, ?_, ?_⟩
    · rintro l (rfl | hl)
      · simp only [LTree.data]; omega
      · exact h2 l hl
    · rcases h3 with h3 | ⟨l, hl, h3⟩
      · by_cases hm : (update c (natural t).1 t.entry).2.size ≤ c.maxSize
        · left; omega
        · right; exact ⟨_, Or.inl rfl, by simp only [LTree.data]; omega⟩
      · right; exact ⟨l, Or.inr hl, h3⟩

/-! ## Everything is laid out as the specification says -/

mutual
theorem laid : ∀ (t : Ty), WF t → ∀ (c : Compound),
    Laid t (.node (update c (natural t).1 t.entry).2 (natural t).2)
  | .leaf k al p, _, c => by
    refine .leaf ?_ ?_
    · rw [update_size]; simp [natural]
    · rw [update_alignment]; simp [natural, Ty.entry]
  | .struct al ms, h, c => by
    obtain ⟨hne, hws⟩ : ms ≠ [] ∧ WFAll ms := by cases h; constructor <;> assumption
    have hg := greatest_spec _ (layAll_ne_nil (c := .fresh true) hne)
    have hpos := natural_pos _ h
    have hma : (layAll (.fresh true) ms).1.maxAlignment = greatestFrom 0 (layAll (.fresh true) ms).2 :=
      layAll_maxAlignment ms (.fresh true)
    have hoff := layAll_offset ms (.fresh true) rfl
    rw [stopFrom_lastStop _ _ (layAll_ne_nil hne)] at hoff
    simp only [natural, compoundData, if_true] at hpos ⊢
    refine .struct (laidAll ms hws _) (layAll_consecutive ms hws (.fresh true) rfl) hg ?_ ?_ ?_ ?_
    · rw [update_alignment, hma]; simp [Ty.entry]
    · rw [update_size, ← hma]; exact padAligned_mod _ _ hpos
    · rw [update_size, ← hoff]; exact padAligned_ge _ _
    · rw [update_size, ← hoff, ← hma]; exact padAligned_lt _ _ hpos
  | .union al ms, h, c => by
    obtain ⟨hne, hws⟩ : ms ≠ [] ∧ WFAll ms := by cases h; constructor <;> assumption
    have hg := greatest_spec _ (layAll_ne_nil (c := .fresh false) hne)
    have hpos := natural_pos _ h
    have hma : (layAll (.fresh false) ms).1.maxAlignment = greatestFrom 0 (layAll (.fresh false) ms).2 :=
      layAll_maxAlignment ms (.fresh false)
    obtain ⟨-, hms, hma'⟩ := layAll_maxSize ms (.fresh false)
    simp only [natural, compoundData, Bool.false_eq_true, if_false] at hpos ⊢
    refine .union (laidAll ms hws _) (layAll_stay ms (.fresh false) rfl) hg ?_ ?_ ?_ ?_
    · rw [update_alignment, hma]; simp [Ty.entry]
    · rw [update_size, ← hma]; exact padAligned_mod _ _ hpos
    · intro l hl
      rw [update_size]
      exact Nat.le_trans (hms l hl) (padAligned_ge _ _)
    · rw [update_size, ← hma]
      have hlt := padAligned_lt (layAll (.fresh false) ms).1.maxSize _ hpos
      rcases hma' with h0 | ⟨l, hl, hl2⟩
      · obtain ⟨l, hl⟩ := List.exists_mem_of_ne_nil _ (layAll_ne_nil (c := .fresh false) hne)
        have : (Compound.fresh false).maxSize = 0 := rfl
        exact ⟨l, hl, by simp only; omega⟩
      · exact ⟨l, hl, by simp only; omega⟩
  | .array al n e, h, c => by
    have he : WF e := by cases h; assumption
    have hst := update_stay (.fresh false) (natural e).1 e.entry rfl
    simp only [natural]
    refine .array (laid e he _) hst.2 ?_ ?_
    · rw [update_alignment]
      simp only [arrayData, update_maxAlignment, Compound.fresh, LTree.data, Nat.zero_max]
      rfl
    · rw [update_size]
      simp only [arrayData, update_maxSize, Compound.fresh, LTree.data, Nat.zero_max]
      exact Nat.mul_comm _ _

theorem laidAll : ∀ (ts : List Ty), WFAll ts → ∀ (c : Compound), LaidAll ts (layAll c ts).2
  | [], _, c => by simp only [layAll]; exact .nil
  | t :: ts, h, c => by
    obtain ⟨hwt, hws⟩ : WF t ∧ WFAll ts := by cases h; constructor <;> assumption
    simp only [layAll]
    exact .cons (laid t hwt c) (laidAll ts hws _)
end

end Kefir.Layout
