import Verif.Scope.Lemmas

namespace Kefir.Scope

open Kefir.HashTree (Ops Node Entry Map Lawful Rel runCalls pairs)

variable {K V : Type}

theorem wf_init : WF (blockInit : BlockScope K V).nodes := by
  refine ⟨⟨_, rfl, rfl⟩, ?_, ?_, ?_⟩
  · intro i n h p hp
    cases i with
    | zero => simp [blockInit] at h; subst h; simp at hp
    | succ i => simp [blockInit] at h
  · intro i n h hi
    cases i with
    | zero => omega
    | succ i => simp [blockInit] at h
  · intro i n h
    cases i with
    | zero => simp [blockInit] at h; subst h; simp [blockInit, List.range_succ, parentOf]
    | succ i => simp [blockInit] at h

theorem relB_init {ops : Ops K} : RelB ops (blockInit : BlockScope K V) start := by
  refine ⟨wf_init, ⟨_, rfl, Rel.empty, rfl⟩, ?_, by simp [start, allPairs, blockInit, HashTree.toList]⟩
  intro n hn
  simp [blockInit] at hn
  subst hn
  exact ⟨[], Rel.empty⟩

/-- Node lists that differ in the contents of the scopes only. -/
theorem wf_set_value {nodes : List (TreeNode K V)} (hwf : WF nodes) {top : Nat} {n : TreeNode K V}
    (hn : nodes[top]? = some n) (f : Node K V) : WF (nodes.set top { n with value := f }) := by
  have hget : ∀ (i : Nat) (n' : TreeNode K V), (nodes.set top { n with value := f })[i]? = some n' →
      ∃ n0 : TreeNode K V, nodes[i]? = some n0 ∧ n'.parent = n0.parent ∧ n'.children = n0.children := by
    intro i n' h
    rw [List.getElem?_set] at h
    split at h
    · next he => subst he; split at h
                 · simp at h; subst h; exact ⟨n, hn, rfl, rfl⟩
                 · simp at h
    · exact ⟨n', h, rfl, rfl⟩
  have hpar : ∀ j, parentOf (nodes.set top { n with value := f }) j = parentOf nodes j := by
    intro j
    unfold parentOf
    rw [List.getElem?_set]
    split
    · next he =>
      subst he
      rw [hn]
      have := (List.getElem?_eq_some_iff.1 hn).1
      simp [this]
    · rfl
  refine ⟨?_, ?_, ?_, ?_⟩
  · obtain ⟨r, h1, h2⟩ := hwf.root
    by_cases h0 : top = 0
    · subst h0
      rw [hn] at h1
      injection h1 with h1
      subst h1
      have := (List.getElem?_eq_some_iff.1 hn).1
      exact ⟨{ n with value := f }, by rw [List.getElem?_set_self this], h2⟩
    · exact ⟨r, by rw [List.getElem?_set_ne h0]; exact h1, h2⟩
  · intro i n' h p hp
    obtain ⟨n0, g1, g2, _⟩ := hget i n' h
    exact hwf.older i n0 g1 p (g2 ▸ hp)
  · intro i n' h hi
    obtain ⟨n0, g1, g2, _⟩ := hget i n' h
    rw [g2]
    exact hwf.nonroot i n0 g1 hi
  · intro i n' h
    obtain ⟨n0, g1, _, g3⟩ := hget i n' h
    rw [g3, hwf.children i n0 g1, List.length_set]
    congr 1
    funext j
    rw [hpar]

theorem allPairs_set {nodes : List (TreeNode K V)} {top : Nat} {n n' : TreeNode K V}
    (hn : nodes[top]? = some n) {x : List (K × V)} (hp : (pairs n'.value).Perm (x ++ pairs n.value)) :
    (allPairs (nodes.set top n')).Perm (x ++ allPairs nodes) := by
  unfold allPairs
  induction nodes generalizing top with
  | nil => simp at hn
  | cons a nodes ih =>
    cases top with
    | zero =>
      simp at hn; subst hn
      simp only [List.set_cons_zero, List.flatMap_cons]
      rw [← List.append_assoc]
      exact hp.append_right _
    | succ top =>
      simp at hn
      simp only [List.set_cons_succ, List.flatMap_cons]
      refine ((ih hn).append_left _).trans ?_
      exact List.perm_append_comm_assoc _ _ _

theorem wf_push {nodes : List (TreeNode K V)} (hwf : WF nodes) {top : Nat} {n : TreeNode K V}
    (hn : nodes[top]? = some n) :
    WF (nodes.set top { n with children := n.children ++ [nodes.length] } ++
      [⟨.nil, some top, []⟩]) := by
  have htop := (List.getElem?_eq_some_iff.1 hn).1
  generalize hN : nodes.set top { n with children := n.children ++ [nodes.length] } ++
      [⟨.nil, some top, []⟩] = N
  have hlen : N.length = nodes.length + 1 := by subst hN; simp
  have hlast : N[nodes.length]? = some ⟨.nil, some top, []⟩ := by subst hN; simp
  have hget : ∀ i, i < nodes.length → N[i]? = if top = i then
      some { n with children := n.children ++ [nodes.length] } else nodes[i]? := by
    intro i hi
    subst hN
    rw [List.getElem?_append_left (by simpa using hi), List.getElem?_set]
    simp [htop]
  have hbeyond : ∀ i, nodes.length < i → N[i]? = none := by
    intro i hi
    rw [List.getElem?_eq_none_iff]; omega
  have hpar : ∀ j, j < nodes.length → parentOf N j = parentOf nodes j := by
    intro j hj
    unfold parentOf
    rw [hget j hj]
    split
    · next he => subst he; simp [hn]
    · rfl
  have hparl : parentOf N nodes.length = some top := by simp [parentOf, hlast]
  have hfil : ∀ i, (List.range N.length).filter (fun j => parentOf N j == some i) =
      (List.range nodes.length).filter (fun j => parentOf nodes j == some i) ++
        (if top = i then [nodes.length] else []) := by
    intro i
    rw [hlen, List.range_succ, List.filter_append]
    congr 1
    · apply List.filter_congr
      intro j hj
      rw [hpar j (List.mem_range.1 hj)]
    · simp [List.filter_cons, hparl]
  refine ⟨?_, ?_, ?_, ?_⟩
  · obtain ⟨r, h1, h2⟩ := hwf.root
    have hl := (List.getElem?_eq_some_iff.1 h1).1
    rw [hget 0 hl]
    split
    · next he => subst he; rw [hn] at h1; injection h1 with h1; subst h1; exact ⟨_, rfl, h2⟩
    · exact ⟨r, h1, h2⟩
  · intro i n' h p hp
    rcases Nat.lt_trichotomy i nodes.length with hi | rfl | hi
    · rw [hget i hi] at h
      split at h
      · next he =>
        subst he
        injection h with h; subst h
        exact hwf.older _ n hn p hp
      · exact hwf.older i n' h p hp
    · rw [hlast] at h
      injection h with h; subst h
      simp at hp
      omega
    · rw [hbeyond i hi] at h; simp at h
  · intro i n' h h0
    rcases Nat.lt_trichotomy i nodes.length with hi | rfl | hi
    · rw [hget i hi] at h
      split at h
      · next he =>
        subst he
        injection h with h; subst h
        exact hwf.nonroot _ n hn h0
      · exact hwf.nonroot i n' h h0
    · rw [hlast] at h
      injection h with h; subst h
      simp
    · rw [hbeyond i hi] at h; simp at h
  · intro i n' h
    rw [hfil i]
    rcases Nat.lt_trichotomy i nodes.length with hi | rfl | hi
    · rw [hget i hi] at h
      split at h
      · next he =>
        subst he
        injection h with h; subst h
        simp only [if_true]
        rw [hwf.children _ n hn]
      · next he => rw [if_neg he, List.append_nil]; exact hwf.children i n' h
    · rw [hlast] at h
      injection h with h; subst h
      have : ¬ top = nodes.length := by omega
      simp only [this, if_false, List.append_nil]
      symm
      rw [List.filter_eq_nil_iff]
      intro j hj hc
      have := parentOf_lt hwf (by simpa using hc : parentOf nodes j = some nodes.length)
      omega
    · rw [hbeyond i hi] at h; simp at h

theorem path_cons {ops : Ops K} {nodes : List (TreeNode K V)} {p : Nat} {ms : List (Map K V)}
    (h : Path ops nodes p ms) {i : Nat} {n : TreeNode K V} {m : Map K V} (hn : nodes[i]? = some n)
    (hr : Rel ops n.value m) (hp : n.parent = some p) : Path ops nodes i (m :: ms) := by
  match ms, h with
  | [m'], h => exact ⟨n, p, hn, hr, hp, h⟩
  | m' :: m'' :: ms, h => exact ⟨n, p, hn, hr, hp, h⟩

/-- One call. -/
theorem step_refines {ops : Ops K} (law : Lawful ops) {b : BlockScope K V} {s : Scopes K V}
    (h : RelB ops b s) (c : Call K V) :
    RelB ops (implStep ops b c).1 (specStep ops.compareKeys s c).1 ∧
      (implStep ops b c).2 = (specStep ops.compareKeys s c).2 ∧
      (allPairs (implStep ops b c).1.nodes).Perm
        ((match c, (implStep ops b c).2 with
          | .declare k v, .ok => [(k, v)]
          | _, _ => []) ++ allPairs b.nodes) := by
  obtain ⟨m, ms, n, hst, hn, hr⟩ := path_top h.path
  have htop := (List.getElem?_eq_some_iff.1 hn).1
  cases c with
  | push =>
    simp only [implStep, blockPush, treeInsertChild, hn, specStep]
    have hpairs : (allPairs (b.nodes.set b.top { n with children := n.children ++ [b.nodes.length] } ++
        [⟨.nil, some b.top, []⟩])).Perm (allPairs b.nodes) := by
      have h1 := allPairs_set (n' := { n with children := n.children ++ [b.nodes.length] })
        (x := []) hn (.refl _)
      have : allPairs (b.nodes.set b.top { n with children := n.children ++ [b.nodes.length] } ++
        [(⟨.nil, some b.top, []⟩ : TreeNode K V)]) =
          allPairs (b.nodes.set b.top { n with children := n.children ++ [b.nodes.length] }) := by
        simp [allPairs, HashTree.toList]
      rw [this]; exact h1
    refine ⟨⟨wf_push h.wf hn, ?_, ?_, ?_⟩, trivial, ?_⟩
    · refine path_cons (p := b.top) (n := ⟨.nil, some b.top, []⟩) ?_ (by simp) Rel.empty rfl
      refine path_congr h.wf ?_ h.path
      intro j _ n0 hn0
      have hj := (List.getElem?_eq_some_iff.1 hn0).1
      rw [List.getElem?_append_left (by simpa using hj), List.getElem?_set]
      split
      · next he =>
        subst he
        rw [hn] at hn0
        injection hn0 with hn0
        subst hn0
        simp
      · exact ⟨n0, hn0, rfl, rfl⟩
    · intro n' hn'
      rcases List.mem_append.1 hn' with h' | h'
      · rcases List.mem_or_eq_of_mem_set h' with h' | rfl
        · exact h.inv n' h'
        · exact ⟨m, hr⟩
      · simp at h'; subst h'; exact ⟨[], Rel.empty⟩
    · have he : (allPairs (b.nodes.set b.top { n with children := n.children ++ [b.nodes.length] } ++
          [⟨.nil, some b.top, []⟩])).isEmpty = (allPairs b.nodes).isEmpty := by
        rw [Bool.eq_iff_iff, List.isEmpty_iff, List.isEmpty_iff]
        constructor
        · intro e; rw [e] at hpairs; exact hpairs.symm.eq_nil
        · intro e; rw [e] at hpairs; exact hpairs.eq_nil
      simp only [he]; exact h.declared
    · simpa using hpairs
  | pop =>
    simp only [implStep, blockPop, hn, specStep, hst]
    have hpath := h.path
    rw [hst] at hpath
    cases ms with
    | nil =>
      obtain ⟨n', h1, _, h3⟩ := hpath
      rw [hn] at h1; injection h1 with h1; subst h1
      simp only [h3]
      exact ⟨h, trivial, .refl _⟩
    | cons m' ms =>
      obtain ⟨n', p, h1, _, h3, h4⟩ := hpath
      rw [hn] at h1; injection h1 with h1; subst h1
      simp only [h3]
      exact ⟨⟨h.wf, h4, h.inv, h.declared⟩, trivial, .refl _⟩
  | declare k v =>
    simp only [implStep, blockInsert, hn, specStep, hst]
    rcases flatInsert_spec law hr k v with ⟨h1, h2⟩ | ⟨h1, t', h2, h3⟩
    · simp only [h1, h2, if_true]
      exact ⟨h, trivial, .refl _⟩
    · simp only [h1, h2, Bool.false_eq_true, if_false]
      have hpp : (pairs t').Perm ([(k, v)] ++ pairs n.value) := by
        have e1 : (pairs t').Perm ((k, v) :: m) := h3.2
        have e2 : (pairs n.value).Perm m := hr.2
        exact e1.trans (e2.symm.cons _)
      have hpairs := allPairs_set (n' := { n with value := t' }) hn hpp
      refine ⟨⟨wf_set_value h.wf hn t', ?_, ?_, ?_⟩, trivial, hpairs⟩
      · have hpath := h.path
        rw [hst] at hpath
        have hself : (b.nodes.set b.top { n with value := t' })[b.top]? =
            some { n with value := t' } := by simp [htop]
        cases ms with
        | nil =>
          obtain ⟨n', e1, _, e3⟩ := hpath
          rw [hn] at e1; injection e1 with e1; subst e1
          exact ⟨_, hself, h3, e3⟩
        | cons m' ms =>
          obtain ⟨n', p, e1, _, e3, e4⟩ := hpath
          rw [hn] at e1; injection e1 with e1; subst e1
          refine ⟨_, p, hself, h3, e3, ?_⟩
          have hlt := h.wf.older b.top n hn p e3
          refine path_congr h.wf ?_ e4
          intro j hj n0 hn0
          exact ⟨n0, by rw [List.getElem?_set_ne (by omega)]; exact hn0, rfl, rfl⟩
      · intro n' hn'
        rcases List.mem_or_eq_of_mem_set hn' with h' | rfl
        · exact h.inv n' h'
        · exact ⟨_, h3⟩
      · have : (allPairs (b.nodes.set b.top { n with value := t' })).isEmpty = false := by
          cases he : (allPairs (b.nodes.set b.top { n with value := t' })) with
          | nil => rw [he] at hpairs; exact absurd hpairs.symm.eq_nil (by simp)
          | cons _ _ => rfl
        simp [this]
  | lookup k =>
    have hl := atLoop_spec law h.wf k (fuel := b.nodes.length) htop h.path
    simp only [implStep, blockAt, hl, specStep]
    cases innermost ops.compareKeys k s.stack with
    | some v => exact ⟨h, rfl, .refl _⟩
    | none => exact ⟨h, rfl, .refl _⟩
  | isEmpty =>
    simp only [implStep, blockEmpty_spec law h.wf h.inv, specStep]
    refine ⟨h, ?_, .refl _⟩
    rw [h.declared, Bool.not_not]

theorem run_refines {ops : Ops K} (law : Lawful ops) (cs : List (Call K V)) {b : BlockScope K V}
    {s : Scopes K V} (h : RelB ops b s) :
    RelB ops (runCalls (implStep ops) b cs).1 (runCalls (specStep ops.compareKeys) s cs).1 ∧
      (runCalls (implStep ops) b cs).2 = (runCalls (specStep ops.compareKeys) s cs).2 := by
  induction cs generalizing b s with
  | nil => exact ⟨h, rfl⟩
  | cons c cs ih =>
    obtain ⟨h1, h2, _⟩ := step_refines law h c
    obtain ⟨h3, h4⟩ := ih h1
    exact ⟨h3, by simp only [runCalls]; rw [h2, h4]⟩

theorem runCalls_append {S R C : Type} (step : S → C → S × R) (s : S) (a b : List C) :
    (runCalls step s (a ++ b)).1 = (runCalls step (runCalls step s a).1 b).1 := by
  induction a generalizing s with
  | nil => rfl
  | cons c a ih => simp only [List.cons_append, runCalls]; exact ih _

/-- A balanced history changes at most the innermost scope. -/
theorem balanced_stack {eqv : K → K → Bool} {hist : List (Call K V)} (hb : Balanced hist) :
    ∀ (s : Scopes K V) (m : Map K V) (ms : List (Map K V)), s.stack = m :: ms →
      ∃ m', (runCalls (specStep eqv) s hist).1.stack = m' :: ms := by
  induction hb with
  | nil => intro s m ms h; exact ⟨m, h⟩
  | declare k v _ ih =>
    intro s m ms h
    simp only [runCalls, specStep, h]
    split
    · exact ih s m ms h
    · exact ih _ _ ms rfl
  | lookup k _ ih =>
    intro s m ms h
    simp only [runCalls, specStep]
    split <;> exact ih s m ms h
  | isEmpty _ ih =>
    intro s m ms h
    simp only [runCalls, specStep]
    exact ih s m ms h
  | block _ _ ih1 ih2 =>
    intro s m ms h
    simp only [List.cons_append, runCalls, specStep, runCalls_append]
    obtain ⟨m', hm'⟩ := ih1 { s with stack := [] :: s.stack } [] (m :: ms) (by rw [h])
    rw [hm']
    exact ih2 _ m ms rfl

end Kefir.Scope
