import Verif.Tree.Spec

namespace Kefir.Tree

variable {V : Type}

theorem height_eq (v : V) (cs : List (Node V)) :
    height (.mk v cs) = 1 + (cs.map height).foldr max 0 := by
  rw [height]; simp

theorem foldr_max_le (l : List Nat) (x : Nat) (h : x ∈ l) : x ≤ l.foldr max 0 := by
  induction l with
  | nil => cases h
  | cons y l ih =>
    simp only [List.foldr_cons]
    rcases List.mem_cons.1 h with rfl | h
    · exact Nat.le_max_left _ _
    · exact Nat.le_trans (ih h) (Nat.le_max_right _ _)

theorem height_child {n c : Node V} (h : c ∈ n.children) : height c < height n := by
  cases n with
  | mk v cs =>
    simp only [Node.children] at h
    rw [height_eq]
    have := foldr_max_le (cs.map height) (height c) (List.mem_map_of_mem h)
    omega

/-- Levels of a forest. -/
def flevel (k : Nat) (F : List (Node V)) : List (Node V) := F.flatMap (level k)

theorem flevel_succ (k : Nat) (F : List (Node V)) :
    flevel (k + 1) F = flevel k (F.flatMap Node.children) := by
  simp only [flevel, List.flatMap_assoc]; rfl

theorem flevel_zero (F : List (Node V)) : flevel 0 F = F := by
  simp only [flevel]
  induction F with
  | nil => rfl
  | cons x F _ => simp [level]

/-- Level order of a forest of height at most `N`. -/
def forder (N : Nat) (F : List (Node V)) : List (Node V) :=
  (List.range N).flatMap (fun k => flevel k F)

theorem forder_succ (N : Nat) (F : List (Node V)) :
    forder (N + 1) F = F ++ forder N (F.flatMap Node.children) := by
  simp only [forder, List.range_succ_eq_map, List.flatMap_cons, flevel_zero, List.flatMap_map,
    Nat.succ_eq_add_one, flevel_succ]

/-- The remaining output of an iterator whose queue holds the rest `A` of a level and the children
`B` collected so far from that level. -/
def out (N : Nat) (A B : List (Node V)) : List (Node V) :=
  A ++ forder N (B ++ A.flatMap Node.children)

def FH (N : Nat) (F : List (Node V)) : Prop := ∀ n ∈ F, height n ≤ N

theorem FH.children {N : Nat} {F : List (Node V)} (h : FH (N + 1) F) :
    FH N (F.flatMap Node.children) := by
  intro c hc
  obtain ⟨n, hn, hcn⟩ := List.mem_flatMap.1 hc
  have := height_child hcn
  have := h n hn
  omega

theorem height_pos (n : Node V) : 0 < height n := by
  cases n; rw [height_eq]; omega

/-- The queue `A ++ B` with current level `A` produces `out`. -/
structure Queue (q : List (Node V)) (o : List (Node V)) : Prop where
  ex : ∃ N A B, q = A ++ B ∧ FH (N + 1) A ∧ FH N B ∧ o = out N A B

theorem Queue.empty {o : List (Node V)} (h : Queue [] o) : o = [] := by
  obtain ⟨N, A, B, h1, _, _, rfl⟩ := h.ex
  obtain ⟨rfl, rfl⟩ := List.append_eq_nil_iff.1 h1.symm
  simp only [out, List.flatMap_nil, List.append_nil, List.nil_append]
  simp [forder, flevel]

theorem Queue.pop {x : Node V} {q o : List (Node V)} (h : Queue (x :: q) o) :
    ∃ o', o = x :: o' ∧ Queue (q ++ x.children) o' := by
  obtain ⟨N, A, B, h1, hA, hB, rfl⟩ := h.ex
  cases A with
  | cons a A =>
    simp only [List.cons_append, List.cons.injEq] at h1
    obtain ⟨rfl, rfl⟩ := h1
    refine ⟨out N A (B ++ x.children), ?_, ⟨N, A, B ++ x.children, by simp, ?_, ?_, rfl⟩⟩
    · simp [out]
    · intro n hn; exact hA n (List.mem_cons_of_mem _ hn)
    · intro n hn
      rcases List.mem_append.1 hn with h | h
      · exact hB n h
      · have := height_child h
        have := hA x (by simp)
        omega
  | nil =>
    simp only [List.nil_append] at h1
    subst h1
    cases N with
    | zero => have := hB x (by simp); have := height_pos x; omega
    | succ N =>
      have : out (N + 1) [] (x :: q) = out N (x :: q) [] := by
        simp only [out, List.nil_append, List.flatMap_nil, List.append_nil, forder_succ]
      rw [this]
      refine ⟨out N q x.children, by simp [out], ⟨N, q, x.children, rfl, ?_, ?_, rfl⟩⟩
      · intro n hn; exact hB n (List.mem_cons_of_mem _ hn)
      · intro c hc
        have := height_child hc
        have := hB x (by simp)
        omega

/-- The iterator still has to output `o` (the current node included). -/
def Out (it : Iter V) (o : List (Node V)) : Prop :=
  match it.current with
  | none => o = [] ∧ it.pending = []
  | some c => Queue (c :: it.pending) o

theorem iterNext_out {it : Iter V} {o : List (Node V)} (h : Out it o) :
    Out (iterNext it).1 o.tail ∧
      ((iterNext it).2 = .error .iteratorEnd ↔ ∃ x, o = [x]) := by
  obtain ⟨cur, pend⟩ := it
  cases cur with
  | none =>
    simp only [Out] at h
    obtain ⟨rfl, rfl⟩ := h
    simp [iterNext, Out]
  | some c =>
    simp only [Out] at h
    obtain ⟨o', rfl, hq⟩ := h.pop
    simp only [iterNext]
    cases hp : pend ++ c.children with
    | nil =>
      rw [hp] at hq
      have := hq.empty
      subst this
      simp [Out]
    | cons x q =>
      rw [hp] at hq
      obtain ⟨o'', rfl, hq'⟩ := hq.pop
      refine ⟨hq, by simp⟩

theorem Queue.init (t : Node V) : Queue [t] (levelOrder t) := by
  refine ⟨⟨height t, [t], [], rfl, ?_, (fun n hn => nomatch hn), ?_⟩⟩
  · intro n hn; simp at hn; subst hn; omega
  · simp only [out, List.nil_append, ← forder_succ]
    have h1 : levelOrder t = forder (height t) [t] := by
      simp [levelOrder, forder, flevel]
    rw [h1]
    have h2 : flevel (height t) [t] = [] := by
      have gen : ∀ N (F : List (Node V)), FH N F → flevel N F = [] := by
        intro N
        induction N with
        | zero =>
          intro F hF
          cases F with
          | nil => rfl
          | cons x F => have := hF x (by simp); have := height_pos x; omega
        | succ N ih => intro F hF; rw [flevel_succ]; exact ih _ hF.children
      apply gen
      intro n hn; simp at hn; subst hn; exact Nat.le_refl _
    simp only [forder, List.range_succ, List.flatMap_append, List.flatMap_cons, List.flatMap_nil,
      List.append_nil, h2]

theorem steps_out (t : Node V) (n : Nat) : Out (steps t n) ((levelOrder t).drop n) := by
  induction n with
  | zero => exact Queue.init t
  | succ n ih =>
    have := (iterNext_out ih).1
    simpa [steps] using this

theorem values_eq (v : V) (cs : List (Node V)) :
    values (.mk v cs) = v :: cs.flatMap values := by
  rw [values]; simp

mutual
theorem free_eq : (t : Node V) → free t = values t
  | .mk v cs => by rw [free, values_eq, freeAll_eq cs]
theorem freeAll_eq : (cs : List (Node V)) → freeAll cs = cs.flatMap values
  | [] => rfl
  | c :: cs => by rw [freeAll, free_eq c, freeAll_eq cs]; rfl
end

end Kefir.Tree
