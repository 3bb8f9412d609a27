import Verif.Temps.Model
/-!
# Lemmas about the fields of temporaries
-/

namespace Kefir.Temps

open Kefir.Layout Kefir.Slots Kefir.Locals

/-! ## Names -/

theorem dec_inj {n m : Nat} (h : dec n = dec m) : n = m := by
  have h1 := Nat.ofDigitChars_toDigits (b := 10) (n := n) (by decide) (by decide)
  have h2 := Nat.ofDigitChars_toDigits (b := 10) (n := m) (by decide) (by decide)
  unfold dec at h
  rw [← h1, h, h2]

theorem valueName_inj {n m : Nat} (h : valueName n = valueName m) : n = m :=
  dec_inj (List.append_cancel_left h)

theorem memberName_inj {n m : Nat} (h : memberName n = memberName m) : n = m :=
  dec_inj (List.append_cancel_left h)

theorem split_unique : ∀ {a b c d : Name} {x : Char}, x ∉ a → x ∉ c → a ++ x :: b = c ++ x :: d → a = c ∧ b = d
  | [], b, [], d, x, _, _, h => by simpa using h
  | [], b, y :: c, d, x, _, h2, h => by
    simp only [List.nil_append, List.cons_append, List.cons.injEq] at h
    exact absurd (by rw [h.1]; exact List.mem_cons_self) h2
  | y :: a, b, [], d, x, h1, _, h => by
    simp only [List.nil_append, List.cons_append, List.cons.injEq] at h
    exact absurd (by rw [h.1]; exact List.mem_cons_self) h1
  | y :: a, b, z :: c, d, x, h1, h2, h => by
    simp only [List.cons_append, List.cons.injEq] at h
    obtain ⟨e1, e2⟩ := split_unique (fun hx => h1 (List.mem_cons_of_mem _ hx))
      (fun hx => h2 (List.mem_cons_of_mem _ hx)) h.2
    exact ⟨by rw [h.1, e1], e2⟩

theorem dec_no_underscore (n : Nat) : '_' ∉ dec n := by
  intro h
  have := Nat.isDigit_of_mem_toDigits (b := 10) (n := n) (by decide) (by decide) h
  exact absurd this (by decide)

theorem globalName_inj {a b c d : Nat} (h : globalName a b = globalName c d) : a = c ∧ b = d := by
  have := split_unique (dec_no_underscore a) (dec_no_underscore c) (List.append_cancel_left h)
  exact ⟨dec_inj this.1, dec_inj this.2⟩

/-! ## Positions -/

variable {α : Type}

theorem position_get : ∀ {xs : List (Name × α)} {n : Name} {k : Nat}, position n xs = some k →
    ∃ x, xs[k]? = some (n, x)
  | x :: xs, n, k, h => by
    rw [position] at h
    split at h
    · rename_i he
      cases h
      exact ⟨x.2, by rw [← he]; rfl⟩
    · cases hp : position n xs with
      | none => rw [hp] at h; cases h
      | some i =>
        rw [hp] at h
        cases h
        obtain ⟨y, hy⟩ := position_get hp
        exact ⟨y, by rw [List.getElem?_cons_succ]; exact hy⟩

theorem position_left : ∀ {xs ys : List (Name × α)} {n : Name} {k : Nat}, position n xs = some k →
    position n (xs ++ ys) = some k
  | x :: xs, ys, n, k, h => by
    rw [position] at h
    rw [List.cons_append, position]
    split at h
    · rename_i he
      rw [if_pos he]; exact h
    · rename_i he
      rw [if_neg he]
      cases hp : position n xs with
      | none => rw [hp] at h; cases h
      | some i =>
        rw [hp] at h
        rw [position_left hp]
        exact h

theorem position_new : ∀ {xs : List (Name × α)} {n : Name} {x : α}, position n xs = none →
    position n (xs ++ [(n, x)]) = some xs.length
  | [], n, x, _ => by simp [position]
  | y :: xs, n, x, h => by
    rw [position] at h
    split at h
    · cases h
    · rename_i he
      cases hp : position n xs with
      | some i => rw [hp] at h; cases h
      | none =>
        rw [List.cons_append, position, if_neg he, position_new hp]
        rfl

theorem position_none : ∀ {xs : List (Name × α)} {n : Name}, (∀ x ∈ xs, x.1 ≠ n) → position n xs = none
  | [], n, _ => rfl
  | y :: xs, n, h => by
    rw [position, if_neg (h y List.mem_cons_self), position_none (fun x hx => h x (List.mem_cons_of_mem _ hx))]
    rfl

theorem position_set : ∀ {xs : List (Name × α)} {k : Nat} {m n : Name} {y z : α}, xs[k]? = some (m, y) →
    position n (xs.set k (m, z)) = position n xs
  | [], k, m, n, y, z, h => by simp at h
  | x :: xs, 0, m, n, y, z, h => by
    simp only [List.getElem?_cons_zero, Option.some.injEq] at h
    rw [List.set_cons_zero, position, position, h]
  | x :: xs, k + 1, m, n, y, z, h => by
    rw [List.getElem?_cons_succ] at h
    rw [List.set_cons_succ, position, position, position_set h]

/-! ## The state -/

/-- The field of a temporary. -/
def Found (bs : List (Name × List (Name × Ty))) (id : Id) (k j : Nat) (ty : Ty) : Prop :=
  position (valueName id.identifier) bs = some k ∧ ∃ ms, bs[k]? = some (valueName id.identifier, ms) ∧
    position (memberName id.field) ms = some j ∧ ms[j]? = some (memberName id.field, ty)

structure Inv (t : Temps) : Prop where
  nested : t.current.nested = true
  old : ∀ b ∈ t.blocks, ∃ i, i ≤ t.current.identifier ∧ b.1 = valueName i
  filled : ∀ b ∈ t.blocks, b.2 ≠ []
  fields : ∀ b ∈ t.blocks, b.1 = valueName t.current.identifier → ∀ m ∈ b.2,
    ∃ i, i < t.current.field ∧ m.1 = memberName i

theorem set_member {bs : List (Name × List (Name × Ty))} {k : Nat} {n : Name} {ms : List (Name × Ty)}
    {x : Name × Ty} (hk : bs[k]? = some (n, ms)) {id : Id} {k' j : Nat} {ty : Ty} (h : Found bs id k' j ty) :
    Found (bs.set k (n, ms ++ [x])) id k' j ty := by
  obtain ⟨h1, ms', h2, h3, h4⟩ := h
  refine ⟨by rw [position_set hk]; exact h1, ?_⟩
  by_cases he : k = k'
  · subst he
    rw [hk] at h2
    cases h2
    refine ⟨ms ++ [x], List.getElem?_set_self (List.getElem?_eq_some_iff.1 hk).1, position_left h3, ?_⟩
    rw [List.getElem?_append_left (List.getElem?_eq_some_iff.1 h4).1]
    exact h4
  · exact ⟨ms', by rw [List.getElem?_set_ne he]; exact h2, h3, h4⟩

theorem found_append {bs cs : List (Name × List (Name × Ty))} {id : Id} {k j : Nat} {ty : Ty}
    (h : Found bs id k j ty) : Found (bs ++ cs) id k j ty := by
  obtain ⟨h1, ms', h2, h3, h4⟩ := h
  refine ⟨position_left h1, ms', ?_, h3, h4⟩
  rw [List.getElem?_append_left (List.getElem?_eq_some_iff.1 h2).1]
  exact h2

/-- What a new temporary does. -/
structure Grown (t t' : Temps) (ty : Ty) : Prop where
  inv : Inv t'
  initDone : t'.initDone = t.initDone
  current : t'.current = { t.current with field := t.current.field + 1 }
  found : ∃ k j, Found t'.blocks t.current k j ty
  kept : ∀ id k j ty', Found t.blocks id k j ty' → Found t'.blocks id k j ty'
  types : ∀ b ∈ t'.blocks, ∀ m ∈ b.2, m.2 = ty ∨ ∃ b' ∈ t.blocks, m ∈ b'.2

theorem newTemporary_ok {t : Temps} (h : Inv t) (ty : Ty) :
    ∃ t', newTemporary t ty = some (t', t.current) ∧ Grown t t' ty := by
  have key : ∃ bs k ms, ensureBlock t.blocks (valueName t.current.identifier) = some bs ∧
      position (valueName t.current.identifier) bs = some k ∧ bs[k]? = some (valueName t.current.identifier, ms) ∧
      (∀ m ∈ ms, ∃ i, i < t.current.field ∧ m.1 = memberName i) ∧
      (∀ id k j ty', Found t.blocks id k j ty' → Found bs id k j ty') ∧
      (∀ i b, i ≠ k → bs[i]? = some b → b ∈ t.blocks) ∧ (∀ m ∈ ms, ∃ b' ∈ t.blocks, m ∈ b'.2) := by
    cases hp : position (valueName t.current.identifier) t.blocks with
    | some k =>
      obtain ⟨ms, hms⟩ := position_get hp
      have hm := List.mem_of_getElem? hms
      exact ⟨t.blocks, k, ms, by rw [ensureBlock, hp], hp, hms, h.fields _ hm rfl, fun _ _ _ _ hf => hf,
        fun i b _ hb => List.mem_of_getElem? hb, fun m hmm => ⟨_, hm, hmm⟩⟩
    | none =>
      refine ⟨t.blocks ++ [(valueName t.current.identifier, [])], t.blocks.length, [], ?_, position_new hp, by simp,
        (fun m hm => by cases hm), (fun _ _ _ _ hf => found_append hf), ?_, (fun m hm => by cases hm)⟩
      · rw [ensureBlock, hp]
        simp only [addField, hp]
      · intro i b hi hb
        have hlt := (List.getElem?_eq_some_iff.1 hb).1
        rw [List.length_append, List.length_singleton] at hlt
        rw [List.getElem?_append_left (by omega)] at hb
        exact List.mem_of_getElem? hb
  obtain ⟨bs, k, ms, h1, h2, h3, h4, h5, h6, h7⟩ := key
  have hadd : addField ms (memberName t.current.field) ty = some (ms ++ [(memberName t.current.field, ty)]) := by
    rw [addField, position_none]
    intro x hx he
    obtain ⟨i, hi, hn⟩ := h4 x hx
    have := memberName_inj (hn.symm.trans he)
    omega
  have hnone : position (memberName t.current.field) ms = none := by
    apply position_none
    intro x hx he
    obtain ⟨i, hi, hn⟩ := h4 x hx
    have := memberName_inj (hn.symm.trans he)
    omega
  have hlt := (List.getElem?_eq_some_iff.1 h3).1
  have mem : ∀ b ∈ bs.set k (valueName t.current.identifier, ms ++ [(memberName t.current.field, ty)]),
      b = (valueName t.current.identifier, ms ++ [(memberName t.current.field, ty)]) ∨ b ∈ t.blocks := by
    intro b hb
    obtain ⟨i, hi⟩ := List.getElem?_of_mem hb
    by_cases he : k = i
    · subst he
      rw [List.getElem?_set_self hlt] at hi
      exact Or.inl (by injection hi with hi; exact hi.symm)
    · rw [List.getElem?_set_ne he] at hi
      exact Or.inr (h6 i b (Ne.symm he) hi)
  refine ⟨{ t with blocks := bs.set k (valueName t.current.identifier, ms ++ [(memberName t.current.field, ty)]), current := { t.current with field := t.current.field + 1 } }, ?_, ?_, rfl, rfl, ?_, ?_, ?_⟩
  · rw [newTemporary]
    simp only
    rw [if_pos h.nested, h1]
    simp only
    rw [h2]
    simp only
    rw [h3]
    simp only
    rw [hadd]
  · refine ⟨h.nested, ?_, ?_, ?_⟩
    · intro b hb
      rcases mem b hb with rfl | hb
      · exact ⟨_, Nat.le_refl _, rfl⟩
      · exact h.old b hb
    · intro b hb
      rcases mem b hb with rfl | hb
      · simp
      · exact h.filled b hb
    · intro b hb hn m hm
      rcases mem b hb with rfl | hb
      · rcases List.mem_append.1 hm with hm | hm
        · obtain ⟨i, hi, he⟩ := h4 m hm
          exact ⟨i, Nat.lt_succ_of_lt hi, he⟩
        · rw [List.mem_singleton] at hm
          subst hm
          exact ⟨_, Nat.lt_succ_self _, rfl⟩
      · obtain ⟨i, hi, he⟩ := h.fields b hb hn m hm
        exact ⟨i, Nat.lt_succ_of_lt hi, he⟩
  · refine ⟨k, ms.length, by rw [position_set h3]; exact h2, _, List.getElem?_set_self hlt, position_new hnone, ?_⟩
    simp
  · intro id k' j ty' hf
    exact set_member h3 (h5 id k' j ty' hf)
  · intro b hb m hm
    rcases mem b hb with rfl | hb
    · rcases List.mem_append.1 hm with hm | hm
      · exact Or.inr (h7 m hm)
      · rw [List.mem_singleton] at hm
        subst hm
        exact Or.inl rfl
    · exact Or.inr ⟨b, hb, hm⟩

theorem nextBlock_inv {t : Temps} (h : Inv t) (hi : t.initDone = true) : Inv (nextBlock t) := by
  rw [nextBlock, if_pos hi]
  refine ⟨h.nested, ?_, h.filled, ?_⟩
  · intro b hb
    obtain ⟨i, h1, h2⟩ := h.old b hb
    exact ⟨i, Nat.le_succ_of_le h1, h2⟩
  · intro b hb hn m hm
    obtain ⟨i, h1, h2⟩ := h.old b hb
    have := valueName_inj (h2.symm.trans hn)
    simp only at this
    omega

/-- Later than, in the order of identifiers. -/
def After (x y : Id) : Prop :=
  x.identifier < y.identifier ∨ x.identifier = y.identifier ∧ x.field < y.field

def NotBefore (x y : Id) : Prop :=
  x.identifier < y.identifier ∨ x.identifier = y.identifier ∧ x.field ≤ y.field

theorem analyse_ok : ∀ (es : List Event) {t : Temps} (c : Nat) (Q : Ty → Prop), Inv t → t.initDone = true →
    (∀ b ∈ t.blocks, ∀ m ∈ b.2, Q m.2) → (∀ ty, Event.temporary ty ∈ es → Q ty) →
    ∃ t' ids, analyse t es = some (t', ids) ∧ Inv t' ∧ (∀ b ∈ t'.blocks, ∀ m ∈ b.2, Q m.2) ∧
      (∀ id k j ty, Found t.blocks id k j ty → Found t'.blocks id k j ty) ∧
      ids.length = (temporaries (t.current.identifier + c) es).length ∧
      (∀ (n : Nat) id b ty, ids[n]? = some id → (temporaries (t.current.identifier + c) es)[n]? = some (b, ty) →
        b = id.identifier + c ∧ ∃ k j, Found t'.blocks id k j ty) ∧
      (∀ id ∈ ids, NotBefore t.current id) ∧ ids.Pairwise After
  | [], t, c, Q, hi, _, hw, _ => ⟨t, [], rfl, hi, hw, fun _ _ _ _ h => h, rfl, by simp, by simp, by simp⟩
  | .temporary ty :: es, t, c, Q, hi, hd, hw, he => by
    obtain ⟨t1, h1, g⟩ := newTemporary_ok hi ty
    have hal : allocateLocal t ty = some (t1, t.current) := by
      rw [allocateLocal, init, if_pos hd]
      simp only
      rw [h1]
      simp only
      rw [if_pos hi.nested]
    obtain ⟨t2, ids, k1, k2, k3, k4, k5, k6, k7, k8⟩ := analyse_ok es (t := t1) c Q g.inv (g.initDone.trans hd)
      (by
        intro b hb m hm
        rcases g.types b hb m hm with h | ⟨b', hb', hm'⟩
        · rw [h]; exact he ty List.mem_cons_self
        · exact hw b' hb' m hm')
      (fun ty' h => he ty' (List.mem_cons_of_mem _ h))
    rw [g.current] at k5 k6 k7
    refine ⟨t2, t.current :: ids, ?_, k2, k3, ?_, ?_, ?_, ?_, ?_⟩
    · rw [analyse, hal]
      simp only
      rw [k1]
    · exact fun id k j ty' h => k4 id k j ty' (g.kept id k j ty' h)
    · rw [temporaries, List.length_cons, List.length_cons, k5]
    · intro n id b ty' h2 h3
      rw [temporaries] at h3
      cases n with
      | zero =>
        simp only [List.getElem?_cons_zero, Option.some.injEq, Prod.mk.injEq] at h2 h3
        rw [← h2, ← h3.1, ← h3.2]
        obtain ⟨k, j, hf⟩ := g.found
        exact ⟨rfl, k, j, k4 _ _ _ _ hf⟩
      | succ n =>
        rw [List.getElem?_cons_succ] at h2 h3
        exact k6 n id b ty' h2 h3
    · intro id hid
      rcases List.mem_cons.1 hid with rfl | hid
      · exact Or.inr ⟨rfl, Nat.le_refl _⟩
      · rcases k7 id hid with h | ⟨h, h'⟩
        · exact Or.inl h
        · exact Or.inr ⟨h, by simp only at h'; omega⟩
    · refine List.pairwise_cons.2 ⟨?_, k8⟩
      intro id hid
      rcases k7 id hid with h | ⟨h, h'⟩
      · exact Or.inl h
      · exact Or.inr ⟨h, by simp only at h'; omega⟩
  | .nextBlock :: es, t, c, Q, hi, hd, hw, he => by
    have hn : (nextBlock t).blocks = t.blocks := by rw [nextBlock, if_pos hd]
    have hc : (nextBlock t).current = { t.current with identifier := t.current.identifier + 1, field := 0 } := by
      rw [nextBlock, if_pos hd]
    obtain ⟨t2, ids, k1, k2, k3, k4, k5, k6, k7, k8⟩ := analyse_ok es (t := nextBlock t) c Q (nextBlock_inv hi hd)
      (by rw [nextBlock, if_pos hd]; exact hd) (by rw [hn]; exact hw) (fun ty' h => he ty' (List.mem_cons_of_mem _ h))
    rw [hn] at k4
    rw [hc] at k5 k6 k7
    simp only at k5 k6
    have e : t.current.identifier + 1 + c = t.current.identifier + c + 1 := by omega
    rw [e] at k5 k6
    refine ⟨t2, ids, by rw [analyse]; exact k1, k2, k3, k4, by rw [temporaries]; exact k5,
      by rw [temporaries]; exact k6, ?_, k8⟩
    intro id hid
    rcases k7 id hid with h | ⟨h, h'⟩
    · exact Or.inl (by simp only at h; omega)
    · exact Or.inl (by simp only at h; omega)

end Kefir.Temps
