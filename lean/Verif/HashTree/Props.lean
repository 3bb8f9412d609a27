import Verif.HashTree.Lemmas

namespace Kefir.HashTree

variable {K V : Type}

/-- C01.  For every lawful key comparison and every history of calls starting from an empty tree,
every call reports exactly what the same call reports on a finite map. -/
theorem C01_hashtree_is_finite_map (ops : Ops K) (law : Lawful ops) (history : List (Call K V)) :
    (runCalls (implStep ops) .nil history).2 =
      (runCalls (specStep ops.compareKeys) [] history).2 :=
  (run_refines law history Rel.empty).2

/-- C02.  After every history, an iterator started on the tree returns exactly the stored pairs,
each once, in non-descending order of hash, and then NULL forever. -/
theorem C02_iteration_complete (ops : Ops K) (law : Lawful ops) (history : List (Call K V)) :
    ∃ L : List (K × V),
      L.Perm (runCalls (specStep ops.compareKeys) [] history).1 ∧
      L.Pairwise (fun a b => ops.hash a.1 ≤ ops.hash b.1) ∧
      ∀ n, (nth (runCalls (implStep ops) .nil history).1 n).map
        (fun p => (p.entry.key, p.entry.value)) = L[n]? := by
  obtain ⟨⟨hi, hp⟩, _⟩ := run_refines law history (Rel.empty (V := V))
  refine ⟨_, hp, ?_, ?_⟩
  · rw [List.pairwise_map]
    refine (BST_sorted hi.bst).imp_of_mem ?_
    intro a b ha hb hab
    rw [← hi.hashed a ha, ← hi.hashed b hb]; exact hab
  · intro n
    have := nth_eq hi.bst n
    rw [List.getElem?_map, ← this, Option.map_map]; rfl

/-- C41.  Over any history that ends by freeing the tree, the removal callback receives exactly the
pairs whose insertion was reported successful, each once. -/
theorem C41_released_exactly_once (ops : Ops K) (law : Lawful ops) (history : List (Call K V)) :
    (callbackLog ops .nil history).Perm (insertedPairs ops .nil history) := by
  have := log_ownership law history (Rel.empty (V := V))
  simpa [pairs, toList] using this

/-- C42, the part that holds: on a tree reached by any history and holding at least one pair,
inserting a fresh key when the allocator fails reports the failure (and changes nothing).
Missing: the same for an empty tree, which is false (next theorem). -/
theorem C42_alloc_failure_reported_partial (ops : Ops K) (law : Lawful ops)
    (history : List (Call K V)) (k : K) (v : V)
    (hne : (runCalls (specStep ops.compareKeys) [] history).1 ≠ [])
    (hfresh : ∀ p ∈ (runCalls (specStep ops.compareKeys) [] history).1,
      ops.compareKeys p.1 k = false) :
    insert ops false k v (runCalls (implStep ops) .nil history).1 = .error .memallocFailure := by
  obtain ⟨h, _⟩ := run_refines law history (Rel.empty (V := V))
  generalize (runCalls (implStep ops) .nil history).1 = t at *
  generalize (runCalls (specStep ops.compareKeys) [] history).1 = m at *
  have hn : ∀ x ∈ toList t, ops.compareKeys x.key k = false :=
    fun x hx => hfresh _ ((h.mem _).2 ⟨x, hx, rfl⟩)
  have hf : nodeFind ops (ops.hash k) k t = none := by
    cases hf : nodeFind ops (ops.hash k) k t with
    | none => rfl
    | some e =>
      obtain ⟨h1, h2⟩ := nodeFind_some hf
      rw [hn e h1] at h2; cases h2
  cases t with
  | nil => have := h.2; simp [toList] at this; exact absurd this hne
  | mk l e r => simp only [insert]; exact nodeInsert_alloc hf hn

/-- C42 fails of the code for an empty tree: a failed allocation is reported as success and the
pair is not stored. -/
theorem C42_false_of_empty_tree (ops : Ops K) (k : K) (v : V) :
    insert ops false k v (.nil : Node K V) = .ok .nil ∧
      at' ops k (.nil : Node K V) = .error .notFound := by
  simp [insert, at', nodeFind]

/-! ### The hypotheses are met -/

/-- `kefir_hashtree_uint_ops` (`source/core/hashtree.c:300-317`): hash and comparison are those of
the integer itself. -/
def uintOps : Ops Nat := ⟨id, fun a b => a == b⟩

/-- A key type with hash collisions: strings hashed by length. -/
def lenOps : Ops String := ⟨String.length, fun a b => a == b⟩

theorem uintOps_lawful : Lawful uintOps := by
  constructor <;> simp +contextual [uintOps]

theorem lenOps_lawful : Lawful lenOps := by
  constructor <;> simp +contextual [lenOps]

/-- A history with colliding hashes, a duplicate insertion and the deletion of an inner node. -/
example :
    (runCalls (implStep lenOps) .nil
      [.insert "bb" 1, .insert "a" 2, .insert "cc" 3, .insert "dd" 4, .insert "ccc" 5,
       .insert "cc" 9, .delete "bb", .at "dd", .at "bb", .empty]).2 =
      [.ok, .ok, .ok, .ok, .ok, .error .alreadyExists, .pair "bb" 1, .pair "dd" 4,
       .error .notFound, .bool false] := by
  rw [C01_hashtree_is_finite_map lenOps lenOps_lawful]; decide

/-- C41 on a history with a duplicate insertion, a deletion and a clean in the middle. -/
example : insertedPairs lenOps .nil [.insert "bb" 1, .insert "a" 2, .insert "bb" 3, .delete "bb",
    .clean, .insert "bb" 4] = [("bb", 1), ("a", 2), ("bb", 4)] ∧
    callbackLog lenOps .nil [.insert "bb" 1, .insert "a" 2, .insert "bb" 3, .delete "bb",
    .clean, .insert "bb" 4] = [("bb", 1), ("a", 2), ("bb", 4)] := by decide

/-- The hypotheses of `C42_alloc_failure_reported_partial` are met by a real history. -/
example : insert uintOps false 7 () (runCalls (implStep uintOps) .nil
    [.insert 5 (), .insert 3 (), .delete 5]).1 = .error .memallocFailure :=
  C42_alloc_failure_reported_partial uintOps uintOps_lawful _ 7 () (by decide) (by decide)

end Kefir.HashTree
