import Verif.JumpVla.Model

/-!
# C106: jumps and variable length arrays

Specification: `Verif.JumpVla.Spec`.
-/

namespace Kefir.JumpVla

/-! ### Lemmas -/

theorem walk_from (total bt bo : Nat) (hb : bt ≤ total) (fuel i : Nat) (hi : i < bt) (hio : i < bo)
    (ho : bo ≤ total) (hf : total < fuel + i) :
    walk total bt bo fuel (some i) (some i) =
      if bt ≤ bo then some (if bt < total then some bt else none) else none := by
  induction fuel generalizing i with
  | zero => omega
  | succ fuel ih =>
    rw [walk, if_neg (by simp)]
    by_cases h1 : i + 1 = bt
    · rw [if_pos h1, if_pos (by omega), next, h1]
    · rw [if_neg h1]
      by_cases h2 : i + 1 = bo
      · rw [if_pos h2, if_neg (by omega)]
      · rw [if_neg h2, next, if_pos (by omega)]
        exact ih (i + 1) (by omega) (by omega) (by omega)

theorem walk_eq (total bt bo : Nat) (hb : bt ≤ total) (ho : bo ≤ total) :
    walk total bt bo (total + 1) (first bt) (first bo) =
      if bt ≤ bo then some (if bt = 0 then first bo else if bt < total then some bt else none) else none := by
  unfold first
  by_cases h0 : bt = 0
  · subst h0
    simp [walk]
  · rw [if_neg h0, if_neg h0]
    by_cases h1 : bo = 0
    · rw [if_pos h1, if_neg (by omega), walk, if_pos (by simp)]
    · rw [if_neg h1]
      exact walk_from total bt bo hb _ 0 (by omega) (by omega) ho (by omega)

theorem split_eq (l : Level) (rest : List Level) (xs : List Level) (h : ∀ x ∈ xs, x.id ≠ l.id) :
    split l.id (xs ++ l :: rest) = (xs, some l) := by
  induction xs with
  | nil => rw [List.nil_append, split, if_pos rfl]
  | cons x xs ih =>
    rw [List.cons_append, split, if_neg (h x List.mem_cons_self), ih (fun y hy => h y (List.mem_cons_of_mem _ hy))]

theorem common_eq (l : Level) (rest target : List Level) (xs : List Level) (h : ∀ x ∈ xs, ∀ y ∈ target, y.id ≠ x.id)
    (hl : ∃ y ∈ target, y.id = l.id) : commonParent (xs ++ l :: rest) target = some l.id := by
  induction xs with
  | nil =>
    rw [List.nil_append, commonParent, if_pos]
    obtain ⟨y, hy, he⟩ := hl
    exact List.any_eq_true.mpr ⟨y, hy, by simp [he]⟩
  | cons x xs ih =>
    rw [List.cons_append, commonParent, if_neg, ih (fun y hy => h y (List.mem_cons_of_mem _ hy))]
    intro ha
    obtain ⟨y, hy, he⟩ := List.any_eq_true.mp ha
    exact h x List.mem_cons_self y hy (by simpa using he)

theorem notin_of_nodup (xs rest : List Level) (l : Level) (h : ((xs ++ l :: rest).map (·.id)).Nodup) :
    (∀ x ∈ xs, x.id ≠ l.id ∧ ∀ r ∈ rest, r.id ≠ x.id) ∧ ∀ r ∈ rest, r.id ≠ l.id := by
  rw [List.map_append, List.map_cons, List.nodup_append] at h
  obtain ⟨_, h2, h3⟩ := h
  refine ⟨fun x hx => ⟨?_, ?_⟩, ?_⟩
  · exact h3 x.id (List.mem_map_of_mem hx) l.id List.mem_cons_self
  · intro r hr he
    exact h3 x.id (List.mem_map_of_mem hx) r.id (List.mem_cons_of_mem _ (List.mem_map_of_mem hr)) he.symm
  · intro r hr he
    rw [List.nodup_cons] at h2
    exact h2.1 (he ▸ List.mem_map_of_mem hr)

/-- What the translator does, for two points of a function. -/
theorem jump_eq (inner entered rest : List Level) (o t : Level) (h : InFunction inner entered rest o t) :
    jump (inner ++ o :: rest) (entered ++ t :: rest) =
      if (∃ l ∈ entered, 0 < l.total) ∨ o.before < t.before then none
      else some ((inner.filter (fun l => decide (0 < l.total))).map (·.id) ++
        (if (t.before = 0 ∧ 0 < o.before) ∨ (0 < t.before ∧ t.before < t.total) then [o.id] else [])) := by
  obtain ⟨⟨hid, hbl, htot⟩, ⟨hd1, hd2⟩, hap, hcount, hblk⟩ := h
  have n1 := notin_of_nodup inner rest o hd1
  have n2 := notin_of_nodup entered rest t hd2
  have hc : commonParent (inner ++ o :: rest) (entered ++ t :: rest) = some o.id := by
    apply common_eq
    · intro x hx y hy
      rcases List.mem_append.mp hy with hy | hy
      · exact fun he => hap x hx y hy he.symm
      · rcases List.mem_cons.mp hy with rfl | hy
        · rw [← hid]
          exact fun he => (n1.1 x hx).1 he.symm
        · exact (n1.1 x hx).2 y hy
    · exact ⟨t, List.mem_append_right _ List.mem_cons_self, hid.symm⟩
  have hs1 := split_eq o rest inner (fun x hx => (n1.1 x hx).1)
  have hs2 : split o.id (entered ++ t :: rest) = (entered, some t) := by
    rw [hid]
    exact split_eq t rest entered (fun x hx => (n2.1 x hx).1)
  have ho : o.before ≤ t.total := by
    rw [← htot]
    exact hcount o (by simp)
  have ht : t.before ≤ t.total := hcount t (by simp)
  have hp : ∀ l ∈ inner ++ entered, (l.block && decide (0 < l.total)) = decide (0 < l.total) := by
    intro l hl
    cases hb : l.block with
    | true => rfl
    | false =>
      have := hblk l (List.mem_append_left _ hl) hb
      simp [this]
  have hf : inner.filter (fun l => l.block && decide (0 < l.total)) = inner.filter (fun l => decide (0 < l.total)) :=
    List.filter_congr (fun l hl => hp l (List.mem_append_left _ hl))
  unfold jump
  rw [hc]
  dsimp only
  rw [hs1, hs2]
  dsimp only
  rw [walk_eq _ _ _ ht ho, hf]
  by_cases he : ∃ l ∈ entered, 0 < l.total
  · rw [if_pos (Or.inl he), if_pos]
    obtain ⟨l, hl, hl0⟩ := he
    refine List.any_eq_true.mpr ⟨l, hl, ?_⟩
    rw [hp l (List.mem_append_right _ hl)]
    exact decide_eq_true hl0
  · rw [if_neg (fun ha => he (by
      obtain ⟨l, hl, hl0⟩ := List.any_eq_true.mp ha
      rw [hp l (List.mem_append_right _ hl)] at hl0
      exact ⟨l, hl, of_decide_eq_true hl0⟩))]
    by_cases hb : o.before < t.before
    · rw [if_pos (Or.inr hb), if_neg (by omega)]
    · have hle : t.before ≤ o.before := by omega
      have hno : ¬ ((∃ l ∈ entered, 0 < l.total) ∨ o.before < t.before) := fun h => h.elim he hb
      rw [if_pos hle, if_neg hno]
      dsimp only
      congr 2
      unfold first
      by_cases h0 : t.before = 0
      · rw [if_pos h0]
        by_cases h1 : o.before = 0
        · rw [if_pos h1, if_neg (by simp), if_neg (by omega)]
        · rw [if_neg h1, if_pos (by simp), if_pos (by omega)]
      · rw [if_neg h0]
        by_cases h1 : t.before < t.total
        · rw [if_pos h1, if_pos (by simp), if_pos (by omega)]
        · rw [if_neg h1, if_neg (by simp), if_neg (by omega)]

theorem inScope_split (xs rest : List Level) (l : Level) (v : Nat × Nat) :
    InScope (xs ++ l :: rest) v ↔ InScope xs v ∨ (l.id = v.1 ∧ v.2 < l.before) ∨ InScope rest v := by
  simp only [InScope, List.mem_append, List.mem_cons, or_and_right, exists_or, exists_eq_left]

/-! ### Properties -/

/-- C106: a jump that is accepted does not lead into the scope of a variable length array from outside of it. -/
theorem C106_rejects (inner entered rest : List Level) (o t : Level) (h : InFunction inner entered rest o t)
    (pops : List Nat) (hj : jump (inner ++ o :: rest) (entered ++ t :: rest) = some pops) :
    Allowed (inner ++ o :: rest) (entered ++ t :: rest) := by
  rw [jump_eq _ _ _ _ _ h] at hj
  split at hj
  · cases hj
  · rename_i hn
    intro v hv
    rw [inScope_split] at hv ⊢
    rcases hv with hv | hv | hv
    · obtain ⟨l, hl, _, hlt⟩ := hv
      have := h.count l (by simp [hl])
      exact absurd (Or.inl ⟨l, hl, by omega⟩) hn
    · have hb : ¬ o.before < t.before := fun hb => hn (Or.inr hb)
      exact Or.inr (Or.inl ⟨by rw [h.same.1]; exact hv.1, by omega⟩)
    · exact Or.inr (Or.inr hv)

/-- Partial: an allowed jump is accepted, if the statements that it enters contain no declarations of variable length arrays
at all.  Missing: blocks with a declaration behind the target (`C106_accepts_false`). -/
theorem C106_accepts_partial (inner entered rest : List Level) (o t : Level) (h : InFunction inner entered rest o t)
    (hent : ∀ l ∈ entered, l.total = 0) (ha : Allowed (inner ++ o :: rest) (entered ++ t :: rest)) :
    ∃ pops, jump (inner ++ o :: rest) (entered ++ t :: rest) = some pops := by
  rw [jump_eq _ _ _ _ _ h, if_neg]
  · exact ⟨_, rfl⟩
  · rintro (⟨l, hl, h0⟩ | hlt)
    · have := hent l hl
      omega
    · have hin := ha (t.id, o.before) ((inScope_split _ _ _ _).mpr (Or.inr (Or.inl ⟨rfl, hlt⟩)))
      rw [inScope_split] at hin
      have n1 := notin_of_nodup inner rest o h.distinct.1
      have hid := h.same.1
      rcases hin with ⟨l, hl, he, _⟩ | hin | ⟨l, hl, he, _⟩
      · exact (n1.1 l hl).1 (he.trans hid.symm)
      · have := hin.2
        dsimp only at this
        omega
      · exact n1.2 l hl (he.trans hid.symm)

/-- Partial: the jump gives back the storage of exactly the blocks some array of which it leaves the scope of, the innermost
first.  Missing: blocks that are left in front of their first declaration (`C104_jump_false`), and targets in the same block
with declarations in front of both, and others behind (`C106_stays_false`). -/
theorem C106_release_partial (inner entered rest : List Level) (o t : Level) (h : InFunction inner entered rest o t)
    (hreached : ∀ l ∈ inner, 0 < l.total → 0 < l.before)
    (hsame : t.before = o.before → t.before = 0 ∨ t.before = t.total)
    (pops : List Nat) (hj : jump (inner ++ o :: rest) (entered ++ t :: rest) = some pops) :
    pops.Sublist ((inner ++ o :: rest).map (·.id)) ∧
      ∀ id, id ∈ pops ↔ Leaves (inner ++ o :: rest) (entered ++ t :: rest) id := by
  have n1 := notin_of_nodup inner rest o h.distinct.1
  have n2 := notin_of_nodup entered rest t h.distinct.2
  have hid := h.same.1
  rw [jump_eq _ _ _ _ _ h] at hj
  split at hj
  · cases hj
  · rename_i hn
    have hnb : ¬ o.before < t.before := fun hb => hn (Or.inr hb)
    have hne : ∀ l ∈ entered, l.before = 0 := by
      intro l hl
      have h1 := h.count l (by simp [hl])
      have h2 : ¬ 0 < l.total := fun h0 => hn (Or.inl ⟨l, hl, h0⟩)
      omega
    have htt := h.count t (by simp)
    simp only [Option.some.injEq] at hj
    subst hj
    constructor
    · rw [List.map_append, List.map_cons]
      refine List.Sublist.append (List.Sublist.map _ List.filter_sublist) ?_
      split
      · exact List.Sublist.cons_cons _ (List.nil_sublist _)
      · exact List.nil_sublist _
    · intro id
      rw [List.mem_append, List.mem_map]
      constructor
      · rintro (⟨l, hl, rfl⟩ | hm)
        · rw [List.mem_filter] at hl
          obtain ⟨hl, h0⟩ := hl
          have hb := hreached l hl (of_decide_eq_true h0)
          refine ⟨0, (inScope_split _ _ _ _).mpr (Or.inl ⟨l, hl, rfl, hb⟩), ?_⟩
          rw [inScope_split]
          rintro (⟨x, hx, he, _⟩ | ⟨he, _⟩ | ⟨x, hx, he, _⟩)
          · exact h.apart l hl x hx he.symm
          · exact (n1.1 l hl).1 (he.symm.trans hid.symm)
          · exact (n1.1 l hl).2 x hx he
        · split at hm
          · rename_i hc
            rw [List.mem_singleton] at hm
            subst hm
            have hlt : t.before < o.before := by
              by_cases heq : t.before = o.before
              · have := hsame heq
                omega
              · omega
            refine ⟨t.before, (inScope_split _ _ _ _).mpr (Or.inr (Or.inl ⟨rfl, hlt⟩)), ?_⟩
            rw [inScope_split]
            rintro (⟨x, hx, he, _⟩ | ⟨_, he⟩ | ⟨x, hx, he, _⟩)
            · exact (n2.1 x hx).1 (he.trans hid)
            · exact Nat.lt_irrefl _ he
            · exact n1.2 x hx he
          · cases hm
      · rintro ⟨j, h1, h2⟩
        rw [inScope_split] at h1 h2
        rcases h1 with ⟨l, hl, he, hlt⟩ | ⟨he, hlt⟩ | hr
        · refine Or.inl ⟨l, List.mem_filter.mpr ⟨hl, decide_eq_true ?_⟩, he⟩
          have := h.count l (by simp [hl])
          dsimp only at hlt
          omega
        · right
          have hge : t.before ≤ j := by
            apply Nat.le_of_not_lt
            intro hlt2
            exact h2 (Or.inr (Or.inl ⟨hid.symm.trans he, hlt2⟩))
          have hto := h.same.2.2
          have hoc := h.count o (by simp)
          dsimp only at he hlt
          rw [if_pos (by omega)]
          exact List.mem_singleton.mpr he.symm
        · exact absurd (Or.inr (Or.inr hr)) h2

/-- Out of a block with an array, to a label in front of the arrays of the block around it. -/
example : InFunction [⟨2, true, 1, 1⟩, ⟨1, false, 0, 0⟩] [] [⟨9, true, 3, 1⟩] ⟨0, true, 2, 1⟩ ⟨0, true, 2, 0⟩ ∧
    jump ([⟨2, true, 1, 1⟩, ⟨1, false, 0, 0⟩] ++ ⟨0, true, 2, 1⟩ :: [⟨9, true, 3, 1⟩])
      ([] ++ ⟨0, true, 2, 0⟩ :: [⟨9, true, 3, 1⟩]) = some [2, 0] :=
  ⟨⟨by decide, by decide, by decide, by decide, by decide⟩, by decide⟩

/-- Over a declaration: rejected. -/
example : jump [⟨0, true, 1, 0⟩] [⟨0, true, 1, 1⟩] = none := by decide

/-- False in general: `goto l; { l: ; int a[n]; }` is allowed, the array is declared behind the label, but rejected. -/
theorem C106_accepts_false :
    InFunction [] [⟨1, true, 1, 0⟩] [] ⟨0, true, 0, 0⟩ ⟨0, true, 0, 0⟩ ∧
      Allowed [⟨0, true, 0, 0⟩] [⟨1, true, 1, 0⟩, ⟨0, true, 0, 0⟩] ∧
      jump [⟨0, true, 0, 0⟩] [⟨1, true, 1, 0⟩, ⟨0, true, 0, 0⟩] = none := by
  refine ⟨⟨by decide, by decide, by decide, by decide, by decide⟩, ?_, by decide⟩
  rintro v ⟨l, hl, _, hlt⟩
  simp only [List.mem_cons, List.not_mem_nil, or_false] at hl
  rcases hl with rfl | rfl <;> exact absurd hlt (Nat.not_lt_zero _)

/-- False in general: `{ int a[n]; l: ...; goto l; int b[n]; }`: the jump does not leave the scope of `a`, and `b` has not been
declared, but the storage of the block is given back. -/
theorem C106_stays_false :
    InFunction [] [] [] ⟨0, true, 2, 1⟩ ⟨0, true, 2, 1⟩ ∧ jump [⟨0, true, 2, 1⟩] [⟨0, true, 2, 1⟩] = some [0] ∧
      ¬ Leaves [⟨0, true, 2, 1⟩] [⟨0, true, 2, 1⟩] 0 :=
  ⟨⟨by decide, by decide, by decide, by decide, by decide⟩, by decide, fun ⟨_, h1, h2⟩ => h2 h1⟩

end Kefir.JumpVla
