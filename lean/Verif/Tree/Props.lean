import Verif.Tree.Lemmas

namespace Kefir.Tree

variable {V : Type}

/-- C26.  The `n`-th step of the iteration of any tree is at the `n`-th node of the tree in level
order, and at no node once these are exhausted; the end of the iteration is reported exactly by the
step leaving the last node. -/
theorem C26_iteration_level_order (t : Node V) (n : Nat) :
    (steps t n).current = (levelOrder t)[n]? ∧
      ((iterNext (steps t n)).2 = .error .iteratorEnd ↔ n + 1 = (levelOrder t).length) := by
  have h := steps_out t n
  refine ⟨?_, ?_⟩
  · simp only [Out] at h
    cases hc : (steps t n).current with
    | none =>
      rw [hc] at h
      have := List.drop_eq_nil_iff.1 h.1
      simp [this]
    | some c =>
      rw [hc] at h
      obtain ⟨o', e, _⟩ := h.pop
      have := congrArg (fun l => l[0]?) e
      simpa using this.symm
  · rw [(iterNext_out h).2]
    constructor
    · rintro ⟨x, hx⟩
      have := congrArg List.length hx
      simp at this; omega
    · intro hl
      have : ((levelOrder t).drop n).length = 1 := by simp; omega
      exact List.length_eq_one_iff.1 this

/-- C44.  Freeing a tree hands the value of every node of the tree to the removal callback exactly
once. -/
theorem C44_tree_free_releases_all (t : Node V) : free t = values t := free_eq t

/-- The level order really contains every node once: it is a permutation of the values. -/
theorem C26_level_order_complete (t : Node V) :
    ((levelOrder t).map Node.value).Perm (values t) := by
  have gen : ∀ N (F : List (Node V)), FH N F →
      ((forder N F).map Node.value).Perm (F.flatMap values) := by
    intro N
    induction N with
    | zero =>
      intro F hF
      cases F with
      | nil => simp [forder]
      | cons x F => have := hF x (by simp); have := height_pos x; omega
    | succ N ih =>
      intro F hF
      rw [forder_succ, List.map_append]
      refine (List.Perm.append_left _ (ih _ hF.children)).trans ?_
      clear hF
      induction F with
      | nil => simp
      | cons x F ihF =>
        cases x with
        | mk v cs =>
          simp only [List.map_cons, Node.value, List.flatMap_cons, Node.children, values_eq,
            List.cons_append, List.flatMap_append]
          refine List.Perm.cons _ ?_
          refine (List.perm_append_comm_assoc _ _ _).trans ?_
          exact List.Perm.append_left _ ihF
  have h1 : levelOrder t = forder (height t) [t] := by
    simp [levelOrder, forder, flevel]
  rw [h1]
  simpa using gen (height t) [t] (by intro n hn; simp at hn; subst hn; exact Nat.le_refl _)

/-- A tree with three levels, visited level by level. -/
example : ((List.range 6).map (fun n =>
    ((steps (.mk 1 [.mk 2 [.mk 4 []], .mk 3 [.mk 5 []]]) n).current.map Node.value))) =
    [some 1, some 2, some 3, some 4, some 5, none] := by
  simp [steps, iter, iterNext, List.range_succ, Node.value, Node.children]

end Kefir.Tree
