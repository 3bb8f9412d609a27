import Verif.HashTree.Spec

namespace Kefir.HashTree

variable {K V : Type}

/-- The entries stored in a tree, in symmetric order. -/
def toList : Node K V → List (Entry K V)
  | .nil => []
  | .mk l e r => toList l ++ e :: toList r

/-- Search-tree order: left strictly below, right not below. -/
def BST : Node K V → Prop
  | .nil => True
  | .mk l e r => BST l ∧ BST r ∧ (∀ x ∈ toList l, x.hash < e.hash) ∧
      (∀ x ∈ toList r, e.hash ≤ x.hash)

/-- Representation invariant. -/
structure Inv (ops : Ops K) (t : Node K V) : Prop where
  bst : BST t
  hashed : ∀ x ∈ toList t, x.hash = ops.hash x.key
  distinct : (toList t).Pairwise (fun a b => ops.compareKeys a.key b.key = false)

theorem nodeFind_some {ops : Ops K} {key : K} {h : Nat} {t : Node K V} {e : Entry K V}
    (hf : nodeFind ops h key t = some e) : e ∈ toList t ∧ ops.compareKeys e.key key = true := by
  induction t with
  | nil => simp [nodeFind] at hf
  | mk l x r ihl ihr =>
    simp only [nodeFind] at hf
    split at hf
    · have := ihl hf; simp [toList, this]
    · split at hf
      · have := ihr hf; simp [toList, this]
      · simp_all [toList]

theorem nodeFind_none {ops : Ops K} (law : Lawful ops) {key : K} {t : Node K V}
    (hb : BST t) (hh : ∀ x ∈ toList t, x.hash = ops.hash x.key)
    (hf : nodeFind ops (ops.hash key) key t = none) :
    ∀ x ∈ toList t, ops.compareKeys x.key key = false := by
  induction t with
  | nil => simp [toList]
  | mk l e r ihl ihr =>
    obtain ⟨bl, br, hl, hr⟩ := hb
    simp only [toList, List.mem_append, List.mem_cons] at hh ⊢
    simp only [nodeFind] at hf
    intro x hx
    cases hc : ops.compareKeys x.key key with
    | false => rfl
    | true =>
      have hxe := law.hash_eq _ _ hc
      have hxh := hh x hx
      split at hf
      · rcases hx with hx | rfl | hx
        · rw [← hc]; exact ihl bl (fun y hy => hh y (Or.inl hy)) hf x hx
        · omega
        · have := hr x hx; omega
      · split at hf
        · rcases hx with hx | rfl | hx
          · have := hl x hx; omega
          · simp_all
          · rw [← hc]; exact ihr br (fun y hy => hh y (Or.inr (Or.inr hy))) hf x hx
        · simp at hf

theorem nodeInsert_found {ops : Ops K} (law : Lawful ops) {key : K} {v : V} {t : Node K V} {a : Bool}
    {e : Entry K V} (hh : ∀ x ∈ toList t, x.hash = ops.hash x.key)
    (hb : BST t)
    (hf : nodeFind ops (ops.hash key) key t = some e) :
    nodeInsert ops a (ops.hash key) key v t = .error .alreadyExists := by
  induction t with
  | nil => simp [nodeFind] at hf
  | mk l x r ihl ihr =>
    obtain ⟨bl, br, hl, hr⟩ := hb
    simp only [toList, List.mem_append, List.mem_cons] at hh
    simp only [nodeFind] at hf
    simp only [nodeInsert]
    split at hf
    · rename_i h1
      rw [if_pos h1, ihl (fun y hy => hh y (Or.inl hy)) bl hf]
    · rename_i h1
      rw [if_neg h1]
      split at hf
      · rename_i h2
        have : (ops.hash key > x.hash || !ops.compareKeys x.key key) = true := by
          simp only [Bool.or_eq_true, decide_eq_true_eq] at h2 ⊢
          rcases h2 with h | h
          · exact absurd h h1
          · exact Or.inr h
        rw [if_pos this, ihr (fun y hy => hh y (Or.inr (Or.inr hy))) br hf]
      · rename_i h2
        have hc : ops.compareKeys x.key key = true := by simp_all
        have := law.hash_eq _ _ hc
        have hx := hh x (by simp)
        rw [if_neg]
        simp [hc]; omega

theorem nodeInsert_new {ops : Ops K} {key : K} {v : V} {t : Node K V}
    (hb : BST t)
    (hf : nodeFind ops (ops.hash key) key t = none)
    (hh : ∀ x ∈ toList t, ops.compareKeys x.key key = false) :
    ∃ t', nodeInsert ops true (ops.hash key) key v t = .ok t' ∧ BST t' ∧
      (toList t').Perm (⟨ops.hash key, key, v⟩ :: toList t) := by
  induction t with
  | nil => simp [nodeInsert, BST, toList]
  | mk l x r ihl ihr =>
    obtain ⟨bl, br, hl, hr⟩ := hb
    simp only [toList, List.mem_append, List.mem_cons] at hh
    simp only [nodeFind] at hf
    simp only [nodeInsert]
    split at hf
    · rename_i h1
      obtain ⟨l', e1, e2, e3⟩ := ihl bl hf (fun y hy => hh y (Or.inl hy))
      rw [if_pos h1, e1]
      refine ⟨_, rfl, ⟨e2, br, ?_, hr⟩, ?_⟩
      · intro y hy
        have := (e3.mem_iff).1 hy
        simp only [List.mem_cons] at this
        rcases this with rfl | h
        · exact h1
        · exact hl y h
      · simp only [toList]
        exact (List.Perm.append_right _ e3)
    · rename_i h1
      have hcx := hh x (by simp)
      have h2 : (ops.hash key < x.hash || !ops.compareKeys x.key key) = true := by simp [hcx]
      rw [if_pos h2] at hf
      obtain ⟨r', e1, e2, e3⟩ := ihr br hf (fun y hy => hh y (Or.inr (Or.inr hy)))
      rw [if_neg h1, if_pos (by simp [hcx]), e1]
      refine ⟨_, rfl, ⟨bl, e2, hl, ?_⟩, ?_⟩
      · intro y hy
        have := (e3.mem_iff).1 hy
        simp only [List.mem_cons] at this
        rcases this with rfl | h
        · simp; omega
        · exact hr y h
      · simp only [toList]
        refine (List.Perm.append_left _ (List.Perm.cons _ e3)).trans ?_
        refine (List.Perm.append_left _ (List.Perm.swap _ _ _)).trans ?_
        exact List.perm_middle

theorem nodeInsert_alloc {ops : Ops K} {key : K} {v : V} {t : Node K V} {h : Nat}
    (hf : nodeFind ops h key t = none)
    (hh : ∀ x ∈ toList t, ops.compareKeys x.key key = false) :
    nodeInsert ops false h key v t = .error .memallocFailure := by
  induction t with
  | nil => simp [nodeInsert]
  | mk l x r ihl ihr =>
    simp only [toList, List.mem_append, List.mem_cons] at hh
    simp only [nodeFind] at hf
    simp only [nodeInsert]
    have hcx := hh x (by simp)
    split at hf
    · rename_i h1
      rw [if_pos h1, ihl hf (fun y hy => hh y (Or.inl hy))]
    · rename_i h1
      have h2 : (h < x.hash || !ops.compareKeys x.key key) = true := by simp [hcx]
      rw [if_pos h2] at hf
      rw [if_neg h1, if_pos (by simp [hcx]), ihr hf (fun y hy => hh y (Or.inr (Or.inr hy)))]

/-! ### Deletion -/

theorem nodeMinimum_spec (l : Node K V) (e : Entry K V) (r : Node K V) :
    ∃ m r', nodeMinimum (.mk l e r) = some (m, r') ∧
      toList (.mk l e r) = m :: toList (unlinkMinimum (.mk l e r)) := by
  induction l generalizing e r with
  | nil => exact ⟨e, r, rfl, rfl⟩
  | mk ll le lr ihl _ =>
    obtain ⟨m, r', h1, h2⟩ := ihl le lr
    refine ⟨m, r', by simp only [nodeMinimum]; exact h1, ?_⟩
    rw [toList, h2]
    simp only [unlinkMinimum, toList, List.cons_append]

theorem unlinkMinimum_BST {t : Node K V} (hb : BST t) : BST (unlinkMinimum t) := by
  fun_induction unlinkMinimum t with
  | case1 => trivial
  | case2 e r => exact hb.2.1
  | case3 ll le lr e r ih =>
    obtain ⟨bl, br, hl, hr⟩ := hb
    refine ⟨ih bl, br, ?_, hr⟩
    intro x hx
    obtain ⟨m, r', _, h2⟩ := nodeMinimum_spec ll le lr
    exact hl x (by rw [h2]; exact List.mem_cons_of_mem _ hx)

theorem BST_sorted {t : Node K V} (hb : BST t) :
    (toList t).Pairwise (fun a b => a.hash ≤ b.hash) := by
  induction t with
  | nil => simp [toList]
  | mk l e r ihl ihr =>
    obtain ⟨bl, br, hl, hr⟩ := hb
    simp only [toList, List.pairwise_append, List.pairwise_cons, List.mem_cons]
    refine ⟨ihl bl, ⟨hr, ihr br⟩, ?_⟩
    rintro a ha b (rfl | hb)
    · exact Nat.le_of_lt (hl a ha)
    · exact Nat.le_trans (Nat.le_of_lt (hl a ha)) (hr b hb)

theorem deleteReplacement_toList (l r : Node K V) :
    toList (deleteReplacement l r) = toList l ++ toList r := by
  cases l with
  | nil => cases r <;> simp [deleteReplacement, toList]
  | mk ll le lr =>
    cases r with
    | nil => simp [deleteReplacement, toList]
    | mk rl re rr =>
      obtain ⟨m, r', h1, h2⟩ := nodeMinimum_spec rl re rr
      simp only [deleteReplacement, h1]
      rw [h2]
      simp [toList]

theorem deleteReplacement_BST {l r : Node K V} {e : Entry K V} (hb : BST (.mk l e r)) :
    BST (deleteReplacement l r) := by
  obtain ⟨bl, br, hl, hr⟩ := hb
  cases l with
  | nil => cases r <;> simp_all [deleteReplacement, BST]
  | mk ll le lr =>
    cases r with
    | nil => simpa only [deleteReplacement] using bl
    | mk rl re rr =>
      obtain ⟨m, r', h1, h2⟩ := nodeMinimum_spec rl re rr
      simp only [deleteReplacement, h1]
      have hs := BST_sorted br
      rw [h2] at hs hr
      refine ⟨bl, unlinkMinimum_BST br, ?_, ?_⟩
      · intro x hx
        have := hl x hx
        have := hr m (by simp)
        omega
      · exact (List.pairwise_cons.1 hs).1

theorem nodeDelete_spec {ops : Ops K} {key : K} {h : Nat} {t : Node K V} (hb : BST t) :
    match nodeDelete ops h key t with
    | none => nodeFind ops h key t = none
    | some (t', x) => nodeFind ops h key t = some x ∧ BST t' ∧
        ∃ A B, toList t = A ++ x :: B ∧ toList t' = A ++ B := by
  induction t with
  | nil => simp [nodeDelete, nodeFind]
  | mk l e r ihl ihr =>
    obtain ⟨bl, br, hl, hr⟩ := hb
    have ihl := ihl bl
    have ihr := ihr br
    simp only [nodeDelete, nodeFind]
    by_cases h1 : h < e.hash
    · simp only [h1, if_true]
      cases hd : nodeDelete ops h key l with
      | none => simpa [hd] using ihl
      | some p =>
        obtain ⟨l', x⟩ := p
        rw [hd] at ihl
        obtain ⟨f, b, A, B, e1, e2⟩ := ihl
        refine ⟨f, ⟨b, br, ?_, hr⟩, A, B ++ e :: toList r, by simp [toList, e1], by simp [toList, e2]⟩
        intro y hy
        apply hl; rw [e1]; rw [e2] at hy; simp at hy ⊢; rcases hy with h | h <;> simp [h]
    · simp only [h1, if_false]
      by_cases h2 : (decide False || !ops.compareKeys e.key key) = true
      · simp only [h2, if_true]
        cases hd : nodeDelete ops h key r with
        | none => simpa [hd] using ihr
        | some p =>
          obtain ⟨r', x⟩ := p
          rw [hd] at ihr
          obtain ⟨f, b, A, B, e1, e2⟩ := ihr
          refine ⟨f, ⟨bl, b, hl, ?_⟩, toList l ++ e :: A, B, by simp [toList, e1],
            by simp [toList, e2]⟩
          intro y hy
          apply hr; rw [e1]; rw [e2] at hy; simp at hy ⊢; rcases hy with h | h <;> simp [h]
      · simp only [h2]
        refine ⟨rfl, deleteReplacement_BST ⟨bl, br, hl, hr⟩, toList l, toList r, rfl, ?_⟩
        exact deleteReplacement_toList l r

theorem nodeFree_perm (t : Node K V) : (nodeFree t).Perm (toList t) := by
  induction t with
  | nil => exact List.Perm.refl _
  | mk l e r ihl ihr =>
    simp only [nodeFree, toList, List.append_assoc]
    refine List.Perm.append ihl ?_
    refine List.perm_append_comm.trans ?_
    exact List.Perm.cons _ ihr

/-! ### Refinement -/

/-- Abstraction relation between a tree and an association list. -/
def Rel (ops : Ops K) (t : Node K V) (m : Map K V) : Prop :=
  Inv ops t ∧ ((toList t).map (fun e => (e.key, e.value))).Perm m

theorem pairwise_mem {α : Type} {R : α → α → Prop} {l : List α} (h : l.Pairwise R) {x y : α}
    (hx : x ∈ l) (hy : y ∈ l) : R x y ∨ x = y ∨ R y x := by
  induction h with
  | nil => cases hx
  | cons h1 _ ih =>
    rw [List.mem_cons] at hx hy
    rcases hx with rfl | hx <;> rcases hy with rfl | hy
    · exact Or.inr (Or.inl rfl)
    · exact Or.inl (h1 _ hy)
    · exact Or.inr (Or.inr (h1 _ hx))
    · exact ih hx hy

theorem Inv.uniq {ops : Ops K} (law : Lawful ops) {t : Node K V} (h : Inv ops t)
    {x y : Entry K V} (hx : x ∈ toList t) (hy : y ∈ toList t)
    (hxy : ops.compareKeys x.key y.key = true) : x = y := by
  rcases pairwise_mem h.distinct hx hy with h1 | h1 | h1
  · rw [h1] at hxy; cases hxy
  · exact h1
  · rw [law.symm _ _ hxy] at h1; cases h1

theorem Rel.mem {ops : Ops K} {t : Node K V} {m : Map K V} (h : Rel ops t m) (p : K × V) :
    p ∈ m ↔ ∃ e ∈ toList t, (e.key, e.value) = p := by
  rw [← h.2.mem_iff, List.mem_map]

theorem Rel.find_some {ops : Ops K} (law : Lawful ops) {t : Node K V} {m : Map K V}
    (h : Rel ops t m) {k : K} {e : Entry K V}
    (hf : nodeFind ops (ops.hash k) k t = some e) :
    m.find? (fun p => ops.compareKeys p.1 k) = some (e.key, e.value) := by
  obtain ⟨hm, hc⟩ := nodeFind_some hf
  cases hx : m.find? (fun p => ops.compareKeys p.1 k) with
  | none =>
    have := List.find?_eq_none.1 hx (e.key, e.value) ((h.mem _).2 ⟨e, hm, rfl⟩)
    simp [hc] at this
  | some p =>
    have h1 := List.find?_some hx
    obtain ⟨y, hy, rfl⟩ := (h.mem p).1 (List.mem_of_find?_eq_some hx)
    rw [h.1.uniq law hm hy (law.trans _ _ _ hc (law.symm _ _ h1))]

theorem Rel.find_none {ops : Ops K} (law : Lawful ops) {t : Node K V} {m : Map K V}
    (h : Rel ops t m) {k : K}
    (hf : nodeFind ops (ops.hash k) k t = none) :
    ∀ p ∈ m, ops.compareKeys p.1 k = false := by
  intro p hp
  obtain ⟨y, hy, rfl⟩ := (h.mem p).1 hp
  exact nodeFind_none law h.1.bst h.1.hashed hf y hy

theorem Rel.empty {ops : Ops K} : Rel (V := V) ops .nil [] :=
  ⟨⟨trivial, by simp [toList], by simp [toList]⟩, by simp [toList]⟩

theorem insert_eq_nodeInsert {ops : Ops K} {k : K} {v : V} (t : Node K V) :
    insert ops true k v t = nodeInsert ops true (ops.hash k) k v t := by
  cases t <;> simp [insert, nodeInsert]

theorem filter_perm {α : Type} (A B : List α) (x : α) (p : α → Bool)
    (hA : ∀ a ∈ A, p a = true) (hB : ∀ a ∈ B, p a = true) (hx : p x = false) :
    (A ++ x :: B).filter p = A ++ B := by
  rw [List.filter_append, List.filter_cons, List.filter_eq_self.2 hA, List.filter_eq_self.2 hB]
  simp [hx]

theorem step_refines {ops : Ops K} (law : Lawful ops) {t : Node K V} {m : Map K V}
    (h : Rel ops t m) (c : Call K V) :
    Rel ops (implStep ops t c).1 (specStep ops.compareKeys m c).1 ∧
      (implStep ops t c).2 = (specStep ops.compareKeys m c).2 := by
  cases c with
  | insert k v =>
    simp only [implStep, specStep, insert_eq_nodeInsert]
    cases hf : nodeFind ops (ops.hash k) k t with
    | some e =>
      rw [nodeInsert_found law h.1.hashed h.1.bst hf]
      have := h.find_some law hf
      have ha : m.any (fun p => ops.compareKeys p.1 k) = true := by
        rw [List.any_eq_true]
        exact ⟨_, List.mem_of_find?_eq_some this, by simpa using List.find?_some this⟩
      simp [ha, h]
    | none =>
      have hn := nodeFind_none law h.1.bst h.1.hashed hf
      obtain ⟨t', e1, e2, e3⟩ := nodeInsert_new (v := v) h.1.bst hf hn
      rw [e1]
      have ha : m.any (fun p => ops.compareKeys p.1 k) = false := by
        rw [List.any_eq_false]
        intro p hp; simp [h.find_none law hf p hp]
      simp only [ha]
      refine ⟨⟨⟨e2, ?_, ?_⟩, ?_⟩, rfl⟩
      · intro x hx
        have := e3.mem_iff.1 hx
        simp only [List.mem_cons] at this
        rcases this with rfl | hx
        · rfl
        · exact h.1.hashed x hx
      · refine (List.Perm.pairwise_iff ?_ e3).2 ?_
        · intro x y hxy
          cases hc : ops.compareKeys y.key x.key with
          | false => rfl
          | true => rw [law.symm _ _ hc] at hxy; cases hxy
        · refine List.pairwise_cons.2 ⟨?_, h.1.distinct⟩
          intro x hx
          have := hn x hx
          cases hc : ops.compareKeys k x.key with
          | false => rfl
          | true => rw [law.symm _ _ hc] at this; cases this
      · refine (e3.map _).trans ?_
        simpa using h.2
  | delete k =>
    simp only [implStep, specStep, delete]
    have hd := nodeDelete_spec (ops := ops) (key := k) (h := ops.hash k) h.1.bst
    cases hq : nodeDelete ops (ops.hash k) k t with
    | none =>
      rw [hq] at hd
      have : m.find? (fun p => ops.compareKeys p.1 k) = none := by
        rw [List.find?_eq_none]; intro p hp; simp [h.find_none law hd p hp]
      simp [this, h]
    | some q =>
      obtain ⟨t', x⟩ := q
      rw [hq] at hd
      obtain ⟨f, b, A, B, e1, e2⟩ := hd
      rw [h.find_some law f]
      obtain ⟨hxm, hxc⟩ := nodeFind_some f
      have hd := h.1.distinct
      have hh := h.1.hashed
      rw [e1] at hd hh
      rw [List.pairwise_append, List.pairwise_cons] at hd
      have hu : ∀ a ∈ A ++ B, ops.compareKeys a.key k = false := by
        intro a ha
        cases hc : ops.compareKeys a.key k with
        | false => rfl
        | true =>
          have hax := law.trans _ _ _ hc (law.symm _ _ hxc)
          rw [List.mem_append] at ha
          rcases ha with ha | ha
          · have := hd.2.2 a ha x (by simp); rw [hax] at this; cases this
          · have := hd.2.1.1 a ha; rw [law.symm _ _ hax] at this; cases this
      refine ⟨⟨⟨b, ?_, ?_⟩, ?_⟩, rfl⟩
      · intro y hy; apply hh; rw [e2] at hy; simp at hy ⊢; rcases hy with h | h <;> simp [h]
      · rw [e2, List.pairwise_append]
        exact ⟨hd.1, hd.2.1.2, fun a ha b hb => hd.2.2 a ha b (List.mem_cons_of_mem _ hb)⟩
      · have h2 := h.2.filter (fun q => !ops.compareKeys q.1 k)
        refine List.Perm.trans ?_ h2
        rw [e1, e2, List.map_append, List.map_append, List.map_cons, filter_perm]
        · intro p hp
          obtain ⟨a, ha, rfl⟩ := List.mem_map.1 hp
          simp [hu a (by simp [ha])]
        · intro p hp
          obtain ⟨a, ha, rfl⟩ := List.mem_map.1 hp
          simp [hu a (by simp [ha])]
        · simp [hxc]
  | «at» k =>
    simp only [implStep, specStep, at']
    cases hf : nodeFind ops (ops.hash k) k t with
    | some e => simp [h.find_some law hf, h]
    | none =>
      have : m.find? (fun p => ops.compareKeys p.1 k) = none := by
        rw [List.find?_eq_none]; intro p hp; simp [h.find_none law hf p hp]
      simp [this, h]
  | has k =>
    simp only [implStep, specStep, has]
    refine ⟨h, ?_⟩
    cases hf : nodeFind ops (ops.hash k) k t with
    | some e =>
      have := h.find_some law hf
      have ha : m.any (fun p => ops.compareKeys p.1 k) = true := by
        rw [List.any_eq_true]
        exact ⟨_, List.mem_of_find?_eq_some this, by simpa using List.find?_some this⟩
      simp [ha]
    | none =>
      have ha : m.any (fun p => ops.compareKeys p.1 k) = false := by
        rw [List.any_eq_false]
        intro p hp; simp [h.find_none law hf p hp]
      simp [ha]
  | empty =>
    simp only [implStep, specStep]
    refine ⟨h, ?_⟩
    have := h.2
    cases t with
    | nil => simp [toList] at this; simp [HashTree.empty, this]
    | mk l e r =>
      cases m with
      | nil => simp [toList] at this
      | cons _ _ => simp [HashTree.empty]
  | clean =>
    simp only [implStep, specStep, clean]
    exact ⟨Rel.empty, trivial⟩

theorem run_refines {ops : Ops K} (law : Lawful ops) (cs : List (Call K V)) {t : Node K V}
    {m : Map K V} (h : Rel ops t m) :
    Rel ops (runCalls (implStep ops) t cs).1 (runCalls (specStep ops.compareKeys) m cs).1 ∧
      (runCalls (implStep ops) t cs).2 = (runCalls (specStep ops.compareKeys) m cs).2 := by
  induction cs generalizing t m with
  | nil => exact ⟨h, rfl⟩
  | cons c cs ih =>
    obtain ⟨h1, h2⟩ := step_refines law h c
    obtain ⟨h3, h4⟩ := ih h1
    exact ⟨h3, by simp only [runCalls]; rw [h2, h4]⟩

/-! ### Ownership -/

abbrev pairs (t : Node K V) : List (K × V) := (toList t).map (fun e => (e.key, e.value))

theorem step_ownership {ops : Ops K} (law : Lawful ops) {t : Node K V} (h : Inv ops t)
    (c : Call K V) :
    (callbacks ops t c ++ pairs (implStep ops t c).1).Perm
      ((match c, (implStep ops t c).2 with
        | .insert k v, .ok => [(k, v)]
        | _, _ => []) ++ pairs t) := by
  cases c with
  | insert k v =>
    simp only [callbacks, implStep, insert_eq_nodeInsert, List.nil_append]
    cases hf : nodeFind ops (ops.hash k) k t with
    | some e => rw [nodeInsert_found law h.hashed h.bst hf]; exact List.Perm.refl _
    | none =>
      obtain ⟨t', e1, _, e3⟩ := nodeInsert_new (v := v) h.bst hf (nodeFind_none law h.bst h.hashed hf)
      rw [e1]
      exact e3.map _
  | delete k =>
    have hd := nodeDelete_spec (ops := ops) (key := k) (h := ops.hash k) h.bst
    simp only [callbacks, implStep, delete]
    cases hq : nodeDelete ops (ops.hash k) k t with
    | none => exact List.Perm.refl _
    | some q =>
      obtain ⟨t', x⟩ := q
      rw [hq] at hd
      obtain ⟨_, _, A, B, e1, e2⟩ := hd
      simp only [pairs, e1, e2, List.map_append, List.map_cons, List.nil_append,
        List.singleton_append]
      exact List.perm_middle.symm
  | clean =>
    simp only [callbacks, implStep, clean, pairs, toList, List.map_nil, List.append_nil,
      List.nil_append]
    exact (nodeFree_perm _).map _
  | «at» k =>
    simp only [callbacks, implStep]
    split <;> exact List.Perm.refl _
  | has k => exact List.Perm.refl _
  | empty => exact List.Perm.refl _

theorem log_ownership {ops : Ops K} (law : Lawful ops) (cs : List (Call K V)) {t : Node K V}
    {m : Map K V} (h : Rel ops t m) :
    (callbackLog ops t cs).Perm (insertedPairs ops t cs ++ pairs t) := by
  induction cs generalizing t m with
  | nil =>
    simp only [callbackLog, callbacks, clean, insertedPairs, List.nil_append]
    exact (nodeFree_perm _).map _
  | cons c cs ih =>
    have ih' := ih (step_refines law h c).1
    simp only [callbackLog, insertedPairs]
    refine (List.Perm.append_left _ ih').trans ?_
    refine (List.perm_append_comm_assoc _ _ _).trans ?_
    refine (List.Perm.append_left _ (step_ownership law h.1 c)).trans ?_
    rw [List.append_assoc]
    exact List.perm_append_comm_assoc _ _ _

/-! ### Iteration -/

/-- Hash order between a node with hash `h` and its ancestors. -/
def CtxOK (h : Nat) : Ctx K V → Prop
  | .top => True
  | .left e _ up => h < e.hash ∧ CtxOK h up
  | .right _ e up => e.hash ≤ h ∧ CtxOK h up

def CtxWF : Ctx K V → Prop
  | .top => True
  | .left e r up => BST r ∧ (∀ x ∈ toList r, e.hash ≤ x.hash) ∧
      (∀ x ∈ e :: toList r, CtxOK x.hash up) ∧ CtxWF up
  | .right _ e up => CtxOK e.hash up ∧ CtxWF up

/-- Entries visited after everything below the context's hole. -/
def after : Ctx K V → List (Entry K V)
  | .top => []
  | .left e r up => e :: toList r ++ after up
  | .right _ _ up => after up

structure PosOK (p : Pos K V) : Prop where
  last : p.lastHash = p.entry.hash
  bst : BST p.right
  ge : ∀ x ∈ toList p.right, p.entry.hash ≤ x.hash
  ok : ∀ x ∈ p.entry :: toList p.right, CtxOK x.hash p.ctx
  wf : CtxWF p.ctx

def rest (p : Pos K V) : List (Entry K V) := toList p.right ++ after p.ctx

theorem minNode_spec {t : Node K V} {c : Ctx K V} (hb : BST t)
    (hc : ∀ x ∈ toList t, CtxOK x.hash c) (hw : CtxWF c) :
    match minNode t c with
    | none => t = .nil
    | some p => PosOK p ∧ p.entry :: rest p = toList t ++ after c := by
  induction t generalizing c with
  | nil => simp [minNode]
  | mk l e r ihl _ =>
    obtain ⟨bl, br, hl, hr⟩ := hb
    simp only [toList, List.mem_append, List.mem_cons] at hc
    have hcer : ∀ x ∈ e :: toList r, CtxOK x.hash c := by
      intro x hx; simp at hx; apply hc; exact Or.inr hx
    have := ihl (c := .left e r c) bl
      (fun x hx => ⟨hl x hx, hc x (Or.inl hx)⟩) ⟨br, hr, hcer, hw⟩
    simp only [minNode]
    cases hm : minNode l (.left e r c) with
    | none =>
      rw [hm] at this
      subst this
      exact ⟨⟨rfl, br, hr, hcer, hw⟩, by simp [rest, toList]⟩
    | some p =>
      rw [hm] at this
      exact ⟨this.1, by rw [this.2]; simp [after, toList]⟩

theorem climb_spec {h : Nat} {n : Node K V} {c : Ctx K V} (hc : CtxOK h c) (hw : CtxWF c) :
    match climb h n c with
    | none => after c = []
    | some p => PosOK p ∧ p.entry :: rest p = after c := by
  induction c generalizing n with
  | top => simp [climb, after]
  | left e r up _ =>
    obtain ⟨h1, h2⟩ := hc
    obtain ⟨w1, w2, w3, w4⟩ := hw
    simp only [climb, h1, if_true]
    exact ⟨⟨rfl, w1, w2, w3, w4⟩, by simp [rest, after]⟩
  | right l e up ih =>
    obtain ⟨h1, h2⟩ := hc
    obtain ⟨w1, w2⟩ := hw
    simp only [climb]
    rw [if_neg (by omega)]
    exact ih h2 w2

theorem next_spec {p : Pos K V} (hp : PosOK p) :
    match next p with
    | none => rest p = []
    | some q => PosOK q ∧ q.entry :: rest q = rest p := by
  obtain ⟨l, e, r, c, lh⟩ := p
  obtain ⟨hlast, hb, hge, hok, hwf⟩ := hp
  simp only at hlast hb hge hok hwf
  cases r with
  | nil =>
    simp only [next, rest, toList, List.nil_append]
    subst hlast
    exact climb_spec (hok e (by simp)) hwf
  | mk rl re rr =>
    simp only [next, rest]
    have := minNode_spec (t := .mk rl re rr) (c := .right l e c) hb
      (fun x hx => ⟨hge x hx, hok x (List.mem_cons_of_mem _ hx)⟩)
      ⟨hok e (by simp), hwf⟩
    cases hm : minNode (.mk rl re rr) (.right l e c) with
    | none => rw [hm] at this; simp at this
    | some q =>
      rw [hm] at this
      exact ⟨this.1, by rw [← rest, this.2]; rfl⟩

theorem nth_spec {t : Node K V} (hb : BST t) (n : Nat) :
    match nth t n with
    | none => (toList t).length ≤ n
    | some p => PosOK p ∧ p.entry :: rest p = (toList t).drop n := by
  induction n with
  | zero =>
    have := minNode_spec (c := .top) hb (fun _ _ => trivial) trivial
    simp only [nth, iter]
    cases hm : minNode t .top with
    | none => rw [hm] at this; subst this; simp [toList]
    | some p => rw [hm] at this; simpa [after] using this
  | succ n ih =>
    simp only [nth]
    cases hm : nth t n with
    | none =>
      rw [hm] at ih
      simp only [Option.bind_none]
      simp only at ih
      omega
    | some p =>
      rw [hm] at ih
      obtain ⟨h1, h2⟩ := ih
      simp only [Option.bind_some]
      have hr : rest p = (toList t).drop (n + 1) := by
        have := congrArg (List.drop 1) h2
        simpa [Nat.add_comm] using this
      have := next_spec h1
      cases hn : next p with
      | none =>
        rw [hn] at this
        simp only at this
        rw [this] at hr
        simp only
        exact List.drop_eq_nil_iff.1 hr.symm
      | some q =>
        rw [hn] at this
        exact ⟨this.1, by rw [this.2, hr]⟩

theorem nth_eq {t : Node K V} (hb : BST t) (n : Nat) :
    (nth t n).map Pos.entry = (toList t)[n]? := by
  have := nth_spec hb n
  cases hm : nth t n with
  | none =>
    rw [hm] at this
    simp only at this
    simp [this]
  | some p =>
    rw [hm] at this
    obtain ⟨_, h⟩ := this
    have h2 := congrArg (fun l => l[0]?) h
    simp at h2
    simp [h2]

end Kefir.HashTree
