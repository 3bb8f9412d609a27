import Verif.Layout.Model

/-!
# The layout computation on trees

The traversal of the entries of a type does what a recursion over the type does.
-/

namespace Kefir.Layout

/-- First entry of a type. -/
def Ty.entry : Ty → Entry
  | .leaf l al p => ⟨.leaf l, al, p⟩
  | .struct al ms => ⟨.struct, al, ms.length⟩
  | .union al ms => ⟨.union, al, ms.length⟩
  | .array al n _ => ⟨.array, al, n⟩

/-- The entries after the first. -/
def Ty.rest : Ty → List Entry
  | .leaf _ _ _ => []
  | .struct _ ms => flattenAll ms
  | .union _ ms => flattenAll ms
  | .array _ _ e => flatten e

theorem flatten_eq (t : Ty) : flatten t = t.entry :: t.rest := by
  cases t <;> simp [flatten, Ty.entry, Ty.rest]

mutual
/-- Data of a type before the update, and the layouts of its members. -/
def natural : Ty → Data × List LTree
  | .leaf k _ p => (⟨leafSize k p, leafAlign k, true, 0⟩, [])
  | .struct _ ms => (compoundData true (layAll (.fresh true) ms).1, (layAll (.fresh true) ms).2)
  | .union _ ms => (compoundData false (layAll (.fresh false) ms).1, (layAll (.fresh false) ms).2)
  | .array _ n e =>
    (arrayData (update (.fresh false) (natural e).1 e.entry).1 n,
      [.node (update (.fresh false) (natural e).1 e.entry).2 (natural e).2])

/-- Consecutive types. -/
def layAll : Compound → List Ty → Compound × List LTree
  | c, [] => (c, [])
  | c, t :: ts =>
    ((layAll (update c (natural t).1 t.entry).1 ts).1,
      .node (update c (natural t).1 t.entry).2 (natural t).2 ::
        (layAll (update c (natural t).1 t.entry).1 ts).2)
end

theorem leafLayout_eq (k : Leaf) (p : Nat) (h : k = .builtin → p = 0) :
    leafLayout k p = .ok (leafSize k p, leafAlign k) := by
  cases k <;> simp [leafLayout, leafSize, leafAlign]
  · split <;> omega
  · simp at h; omega

/-! ## Lengths -/

mutual
theorem nodeLen_flatten : ∀ (ty : Ty) (pre post : List Entry),
    nodeLen (pre ++ (flatten ty ++ post)) pre.length = (flatten ty).length
  | .leaf l al p, pre, post => by
    rw [nodeLen]; simp [flatten]
  | .struct al ms, pre, post => by
    have h := childrenLen_flattenAll ms (pre ++ [⟨.struct, al, ms.length⟩]) post
    simp only [flatten, List.append_assoc, List.cons_append, List.nil_append,
      List.length_append, List.length_cons, List.length_nil] at h ⊢
    rw [nodeLen, dif_pos (by simp)]
    simp [h]; omega
  | .union al ms, pre, post => by
    have h := childrenLen_flattenAll ms (pre ++ [⟨.union, al, ms.length⟩]) post
    simp only [flatten, List.append_assoc, List.cons_append, List.nil_append,
      List.length_append, List.length_cons, List.length_nil] at h ⊢
    rw [nodeLen, dif_pos (by simp)]
    simp [h]; omega
  | .array al n e, pre, post => by
    have h := nodeLen_flatten e (pre ++ [⟨.array, al, n⟩]) post
    simp only [flatten, List.append_assoc, List.cons_append, List.nil_append,
      List.length_append, List.length_cons, List.length_nil] at h ⊢
    rw [nodeLen, dif_pos (by simp)]
    simp [h]

theorem childrenLen_flattenAll : ∀ (ts : List Ty) (pre post : List Entry),
    childrenLen (pre ++ (flattenAll ts ++ post)) pre.length ts.length = (flattenAll ts).length
  | [], pre, post => by simp [flattenAll, childrenLen]
  | t :: ts, pre, post => by
    have h := nodeLen_flatten t pre (flattenAll ts ++ post)
    have h2 := childrenLen_flattenAll ts (pre ++ flatten t) post
    simp only [List.length_append, List.append_assoc] at h2
    rw [List.length_cons, childrenLen]
    simp only [flattenAll, List.append_assoc, List.length_append]
    rw [h, h2]
end

theorem flatten_length (t : Ty) : (flatten t).length = t.rest.length + 1 := by
  rw [flatten_eq]; simp

/-! ## The traversal -/

mutual
theorem length_flat : ∀ (t : Ty) (d : Data), (LTree.node d (natural t).2).flat.length = (flatten t).length
  | .leaf l al p, d => by simp [natural, LTree.flat, flatL, flatten]
  | .struct al ms, d => by
    simp only [natural, LTree.flat, flatten, List.length_cons]
    rw [length_flatL ms]
  | .union al ms, d => by
    simp only [natural, LTree.flat, flatten, List.length_cons]
    rw [length_flatL ms]
  | .array al n e, d => by
    have h := length_flat e (update (.fresh false) (natural e).1 e.entry).2
    simp only [natural, LTree.flat, flatL, flatten, List.length_cons, List.append_nil] at h ⊢
    rw [h]

theorem length_flatL : ∀ (ts : List Ty) (c : Compound), (flatL (layAll c ts).2).length = (flattenAll ts).length
  | [], c => by simp [layAll, flatL, flattenAll]
  | t :: ts, c => by
    have h := length_flat t (update c (natural t).1 t.entry).2
    have h2 := length_flatL ts (update c (natural t).1 t.entry).1
    simp only [layAll, flatL, flattenAll, List.length_append]
    rw [h, h2]
end

/-- Writing the first of a row of elements. -/
theorem set_head {α} (a : List α) (x y : α) (r : List α) :
    (a ++ (x :: r)).set a.length y = a ++ (y :: r) := by
  induction a with
  | nil => rfl
  | cons b a ih => simp only [List.cons_append, List.length_cons, List.set_cons_succ, ih]

mutual
/-- Visiting one node writes the data of its tree and goes on behind it. -/
theorem step : ∀ (ty : Ty), WF ty → ∀ (pre post : List Entry) (vpre vmid vpost : List (Option Data))
    (n : Nat) (c : Compound), vpre.length = pre.length → vmid.length = (flatten ty).length →
    layoutNodes (pre ++ (flatten ty ++ post)) pre.length (n + 1) c (vpre ++ (vmid ++ vpost)) =
      layoutNodes (pre ++ (flatten ty ++ post)) (pre ++ flatten ty).length n
        (update c (natural ty).1 ty.entry).1
        (vpre ++ ((LTree.node (update c (natural ty).1 ty.entry).2 (natural ty).2).flat.map some ++ vpost))
  | .leaf k al p, hw, pre, post, vpre, vmid, vpost, n, c, hv, hm => by
    have hl : k = .builtin → p = 0 := by cases hw; assumption
    have hlen := nodeLen_flatten (.leaf k al p) pre post
    obtain ⟨x, r, rfl⟩ : ∃ x r, vmid = x :: r := by
      cases vmid with
      | nil => simp [flatten] at hm
      | cons x r => exact ⟨x, r, rfl⟩
    have hr : r = [] := by simpa [flatten] using hm
    subst hr
    simp only [flatten, List.cons_append, List.nil_append] at hlen ⊢
    rw [layoutNodes, dif_pos (by simp)]
    simp only [List.getElem_append_right (Nat.le_refl _), Nat.sub_self, List.getElem_cons_zero,
      leafLayout_eq k p hl, hlen]
    simp only [bind, Except.bind]
    rw [← hv, set_head]
    simp [Ty.entry, natural, LTree.flat, flatL, hv]
  | .struct al ms, hw, pre, post, vpre, vmid, vpost, n, c, hv, hm => by
    obtain ⟨hne, hws⟩ : ms ≠ [] ∧ WFAll ms := by cases hw; constructor <;> assumption
    have hlen := nodeLen_flatten (.struct al ms) pre post
    obtain ⟨x, r, rfl⟩ : ∃ x r, vmid = x :: r := by
      cases vmid with
      | nil => simp [flatten] at hm
      | cons x r => exact ⟨x, r, rfl⟩
    have hr : r.length = (flattenAll ms).length := by simpa [flatten] using hm
    have ih := steps ms hws (pre ++ [⟨.struct, al, ms.length⟩]) post (vpre ++ [x]) r vpost (.fresh true)
      (by simp [hv]) hr
    simp only [List.append_assoc, List.cons_append, List.nil_append, List.length_append,
      List.length_cons, List.length_nil, Nat.zero_add] at ih
    simp only [flatten, List.cons_append] at hlen ⊢
    rw [layoutNodes, dif_pos (by simp)]
    have hpos : 0 < ms.length := by cases ms with | nil => exact absurd rfl hne | cons => simp
    simp only [List.getElem_append_right (Nat.le_refl _), Nat.sub_self, List.getElem_cons_zero,
      hlen, ih, hpos, if_true]
    simp only [bind, Except.bind]
    rw [← hv, set_head]
    simp [Ty.entry, natural, LTree.flat, hv]
  | .union al ms, hw, pre, post, vpre, vmid, vpost, n, c, hv, hm => by
    obtain ⟨hne, hws⟩ : ms ≠ [] ∧ WFAll ms := by cases hw; constructor <;> assumption
    have hlen := nodeLen_flatten (.union al ms) pre post
    obtain ⟨x, r, rfl⟩ : ∃ x r, vmid = x :: r := by
      cases vmid with
      | nil => simp [flatten] at hm
      | cons x r => exact ⟨x, r, rfl⟩
    have hr : r.length = (flattenAll ms).length := by simpa [flatten] using hm
    have ih := steps ms hws (pre ++ [⟨.union, al, ms.length⟩]) post (vpre ++ [x]) r vpost (.fresh false)
      (by simp [hv]) hr
    simp only [List.append_assoc, List.cons_append, List.nil_append, List.length_append,
      List.length_cons, List.length_nil, Nat.zero_add] at ih
    simp only [flatten, List.cons_append] at hlen ⊢
    rw [layoutNodes, dif_pos (by simp)]
    have hpos : 0 < ms.length := by cases ms with | nil => exact absurd rfl hne | cons => simp
    simp only [List.getElem_append_right (Nat.le_refl _), Nat.sub_self, List.getElem_cons_zero,
      hlen, ih, hpos, if_true]
    simp only [bind, Except.bind]
    rw [← hv, set_head]
    simp [Ty.entry, natural, LTree.flat, hv]
  | .array al k e, hw, pre, post, vpre, vmid, vpost, n, c, hv, hm => by
    have hwe : WF e := by cases hw; assumption
    have hlen := nodeLen_flatten (.array al k e) pre post
    obtain ⟨x, r, rfl⟩ : ∃ x r, vmid = x :: r := by
      cases vmid with
      | nil => simp [flatten] at hm
      | cons x r => exact ⟨x, r, rfl⟩
    have hr : r.length = (flatten e).length := by simpa [flatten] using hm
    have ih := step e hwe (pre ++ [⟨.array, al, k⟩]) post (vpre ++ [x]) r vpost 0 (.fresh false)
      (by simp [hv]) hr
    simp only [List.append_assoc, List.cons_append, List.nil_append, List.length_append,
      List.length_cons, List.length_nil, Nat.zero_add] at ih
    simp only [flatten, List.cons_append] at hlen ⊢
    rw [layoutNodes, dif_pos (by simp)]
    simp only [List.getElem_append_right (Nat.le_refl _), Nat.sub_self, List.getElem_cons_zero,
      hlen, ih]
    conv => lhs; arg 1; rw [layoutNodes]
    simp only [bind, Except.bind]
    rw [← hv, set_head]
    simp [Ty.entry, natural, LTree.flat, flatL, hv]

/-- Visiting all nodes of a list of types. -/
theorem steps : ∀ (ts : List Ty), WFAll ts → ∀ (pre post : List Entry)
    (vpre vmid vpost : List (Option Data)) (c : Compound),
    vpre.length = pre.length → vmid.length = (flattenAll ts).length →
    layoutNodes (pre ++ (flattenAll ts ++ post)) pre.length ts.length c (vpre ++ (vmid ++ vpost)) =
      .ok ((layAll c ts).1, vpre ++ ((flatL (layAll c ts).2).map some ++ vpost))
  | [], _, pre, post, vpre, vmid, vpost, c, hv, hm => by
    have : vmid = [] := by simpa [flattenAll] using hm
    subst this
    rw [List.length_nil, layoutNodes]; simp [layAll, flatL]
  | t :: ts, hw, pre, post, vpre, vmid, vpost, c, hv, hm => by
    obtain ⟨hwt, hws⟩ : WF t ∧ WFAll ts := by cases hw; constructor <;> assumption
    rw [flattenAll, List.length_append] at hm
    obtain ⟨va, vb, rfl, ha, hb⟩ : ∃ va vb, vmid = va ++ vb ∧ va.length = (flatten t).length ∧
        vb.length = (flattenAll ts).length :=
      ⟨vmid.take (flatten t).length, vmid.drop (flatten t).length, by simp, by simp; omega, by simp; omega⟩
    have h1 := step t hwt pre (flattenAll ts ++ post) vpre va (vb ++ vpost) ts.length c hv ha
    have h2 := steps ts hws (pre ++ flatten t) post
      (vpre ++ (LTree.node (update c (natural t).1 t.entry).2 (natural t).2).flat.map some) vb vpost
      (update c (natural t).1 t.entry).1
      (by simp [hv, length_flat]) hb
    simp only [List.append_assoc] at h1 h2
    simp only [flattenAll, List.append_assoc, List.length_cons]
    rw [h1, h2]
    simp [layAll, flatL]
end

/-! ## Whole types -/

mutual
theorem countNodes_all : ∀ (ts : List Ty), WFAll ts → ∀ (pre : List Entry) (count acc : Nat),
    ts.length ≤ count → countNodes (pre ++ flattenAll ts) pre.length count acc = acc + ts.length
  | [], _, pre, count, acc, _ => by
    cases count with
    | zero => rw [countNodes]; simp
    | succ n => rw [countNodes, dif_neg (by simp [flattenAll])]; simp
  | t :: ts, hw, pre, count, acc, hc => by
    obtain ⟨hwt, hws⟩ : WF t ∧ WFAll ts := by cases hw; constructor <;> assumption
    obtain ⟨n, rfl⟩ : ∃ n, count = n + 1 := ⟨count - 1, by simp at hc; omega⟩
    have ih := countNodes_all ts hws (pre ++ flatten t) n (acc + 1) (by simpa using hc)
    have hlen := nodeLen_flatten t pre (flattenAll ts)
    simp only [List.append_assoc, List.length_append] at ih
    rw [countNodes, dif_pos (by simp [flattenAll, flatten_eq])]
    simp only [flattenAll]
    rw [hlen, ih]
    simp only [List.getElem_append_right (Nat.le_refl _), Nat.sub_self]
    cases hwt with
    | leaf _ => simp [flatten]; omega
    | struct hne _ =>
      have hpos := List.length_pos_iff.2 hne
      simp [flatten, hpos]; omega
    | union hne _ =>
      have hpos := List.length_pos_iff.2 hne
      simp [flatten, hpos]; omega
    | array _ => simp [flatten]; omega
end

theorem length_le_flattenAll : ∀ ts : List Ty, ts.length ≤ (flattenAll ts).length
  | [] => by simp
  | t :: ts => by
    have := length_le_flattenAll ts
    simp only [flattenAll, List.length_append, List.length_cons, flatten_length]; omega

theorem nodes_flattenAll (ts : List Ty) (h : WFAll ts) : nodes (flattenAll ts) = ts.length := by
  have := countNodes_all ts h [] (flattenAll ts).length 0 (length_le_flattenAll ts)
  simpa [nodes] using this

/-- The layout of a type is the layout of its tree. -/
theorem typeLayout_eq (ts : List Ty) (h : WFAll ts) :
    typeLayout (flattenAll ts) = .ok ((flatL (layAll (.fresh true) ts).2).map some) := by
  have hs := steps ts h [] [] [] (List.replicate (flattenAll ts).length none) [] (.fresh true) rfl (by simp)
  simp only [List.nil_append, List.append_nil, List.length_nil] at hs
  rw [typeLayout, typeLayoutOf, if_pos (Nat.zero_le _), nodes_flattenAll ts h, hs]
  rfl

/-- The layout of one type that is part of a longer sequence. -/
theorem typeLayoutOf_eq (t : Ty) (h : WF t) (pre post : List Entry) :
    typeLayoutOf (pre ++ (flatten t ++ post)) pre.length 1 =
      .ok (List.replicate pre.length none ++
        ((LTree.node (update (.fresh true) (natural t).1 t.entry).2 (natural t).2).flat.map some ++
          List.replicate post.length none)) := by
  have hs := step t h pre post (List.replicate pre.length none) (List.replicate (flatten t).length none)
    (List.replicate post.length none) 0 (.fresh true) (by simp) (by simp)
  rw [typeLayoutOf, if_pos (by simp)]
  have e : List.replicate (pre ++ (flatten t ++ post)).length (none : Option Data) =
      List.replicate pre.length none ++ (List.replicate (flatten t).length none ++
        List.replicate post.length none) := by
    simp [List.replicate_append_replicate]
  rw [e, hs, layoutNodes]
  rfl

end Kefir.Layout
