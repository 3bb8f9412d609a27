import Verif.Abi.Model
import Verif.Layout.Lemmas

/-!
# Classification on trees

The traversal of the entries of an aggregate does what a recursion over its type does.
-/

namespace Kefir.Abi

open Kefir.Layout

/-- What a nested object without parts leaves in its slot. -/
def nestedEntry (i : Nat) (r : Ref) : Alloc :=
  { Alloc.fresh with type := .nested, klass := .noClass, index := i, content := .ref r }

/-- What a nested aggregate leaves in its slot. -/
def containerEntry (i : Nat) : Alloc :=
  { Alloc.fresh with type := .container, klass := .noClass, index := i }

/-- The elements of an array. -/
def collect : Nat → (Qwords → Out (Qwords × List Alloc)) → Qwords → Out (Qwords × List Alloc)
  | 0, _, q => .ok (q, [])
  | n + 1, f, q =>
    (f q).bind fun r => (collect n f r.1).bind fun r' => .ok (r'.1, r.2 ++ r'.2)

mutual
/-- One nested object; `i` is the position of its entry. -/
def nest : Ty → LTree → Nat → Qwords → Out (Qwords × List Alloc)
  | .leaf k _ p, .node d _, i, q => (nestedLeaf k p d q).bind fun r => .ok (r.1, [nestedEntry i r.2])
  | .struct _ ms, .node _ ls, i, q =>
    (nestAll ms ls (i + 1) q).bind fun r => .ok (r.1, containerEntry i :: r.2)
  | .union _ ms, .node _ ls, i, q =>
    (savePosition q).bind fun p => (nestUnion ms ls (i + 1) p p q).bind fun r =>
      (restorePosition r.1 r.2.1).bind fun q => .ok (q, containerEntry i :: r.2.2)
  | .array _ n e, .node _ ls, i, q =>
    match ls with
    | [l] => (collect n (fun q => nest e l (i + 1) q) q).bind fun r => .ok (r.1, containerEntry i :: r.2)
    | _ => .error .undefined

/-- Members of a structure. -/
def nestAll : List Ty → List LTree → Nat → Qwords → Out (Qwords × List Alloc)
  | t :: ts, l :: ls, i, q =>
    (nest t l i q).bind fun r => (nestAll ts ls (i + (flatten t).length) r.1).bind fun r' =>
      .ok (r'.1, r.2 ++ r'.2)
  | _, _, _, q => .ok (q, [])

/-- Members of a union. -/
def nestUnion : List Ty → List LTree → Nat → Pos → Pos → Qwords → Out (Qwords × Pos × List Alloc)
  | t :: ts, l :: ls, i, init, mx, q =>
    (nest t l i q).bind fun r => (savePosition r.1).bind fun p => (restorePosition r.1 init).bind fun q =>
      (nestUnion ts ls (i + (flatten t).length) init (maxPosition mx p) q).bind fun r' =>
        .ok (r'.1, r'.2.1, r.2 ++ r'.2.2)
  | _, _, _, _, mx, q => .ok (q, mx, [])
end

theorem write_head (vpre vpost : List Alloc) (a : Alloc) (f : Alloc → Alloc) :
    Slots.write ⟨vpre ++ (a :: vpost), vpre.length⟩ f =
      .ok ⟨(vpre ++ [f a]) ++ vpost, (vpre ++ [f a]).length⟩ := by
  simp [Slots.write]

theorem layoutAt_head (lpre lpost : List (Option Data)) (d : Data) (i : Nat) (h : lpre.length = i) :
    layoutAt (lpre ++ (some d :: lpost)) i = .ok d := by
  subst h; simp [layoutAt]

theorem bind_ok {α} (x : Out α) : (x.bind fun r => .ok r) = x := by cases x <;> rfl

theorem bind_bind {α β γ} (x : Out α) (f : α → Out β) (g : β → Out γ) :
    (x.bind f).bind g = x.bind fun a => (f a).bind g := by cases x <;> rfl

theorem bind_congr {α β} (x : Out α) {f g : α → Out β} (h : ∀ a, f a = g a) : x.bind f = x.bind g := by
  cases x <;> simp [Except.bind, h]

theorem posthook_inert {info : Info} (h : ¬ (info.hook = true ∧ info.nested = 0)) (q : Qwords) (s : Slots) :
    posthook ⟨info, q, s⟩ = .ok ⟨info, q, s⟩ := by
  unfold posthook; rw [if_neg h]

theorem replicate_add {α} (a b : Nat) (x : α) (r : List α) :
    List.replicate (a + b) x ++ r = List.replicate a x ++ (List.replicate b x ++ r) := by
  rw [← List.append_assoc, List.replicate_append_replicate]

mutual
/-- A layout has an entry for every entry of the type. -/
theorem flat_length : ∀ {t l}, Laid t l → l.flat.length = (flatten t).length
  | _, _, .leaf _ _ => by simp [LTree.flat, flatL, flatten]
  | _, _, .struct h _ _ _ _ _ _ => by simp [LTree.flat, flatten, flatL_length h]
  | _, _, .union h _ _ _ _ _ _ => by simp [LTree.flat, flatten, flatL_length h]
  | _, _, .array h _ _ _ => by simp [LTree.flat, flatL, flatten, flat_length h]

theorem flatL_length : ∀ {ts ls}, LaidAll ts ls → (flatL ls).length = (flattenAll ts).length
  | _, _, .nil => rfl
  | _, _, .cons h hs => by simp [flatL, flattenAll, flat_length h, flatL_length hs]
end

mutual
/-- Visiting one nested node. -/
theorem nested_step : ∀ (ty : Ty), WF ty → ∀ (l : LTree), Laid ty l →
    ∀ (pre post : List Entry) (lpre lpost : List (Option Data)), lpre.length = pre.length →
    ∀ (vpre vpost : List Alloc) (n : Nat) (info : Info) (q : Qwords),
    nestedNodes (pre ++ (flatten ty ++ post)) (lpre ++ (l.flat.map some ++ lpost)) pre.length (n + 1)
        ⟨info, q, ⟨vpre ++ (List.replicate (objects ty) Alloc.fresh ++ vpost), vpre.length⟩⟩ =
      (nest ty l pre.length q).bind fun r =>
        (posthook ⟨info, r.1, ⟨(vpre ++ r.2) ++ vpost, (vpre ++ r.2).length⟩⟩).bind fun s =>
          nestedNodes (pre ++ (flatten ty ++ post)) (lpre ++ (l.flat.map some ++ lpost))
            (pre ++ flatten ty).length n s
  | .leaf k al p, hw, .node d ls, hl, pre, post, lpre, lpost, hlen, vpre, vpost, n, info, q => by
    have hn := nodeLen_flatten (.leaf k al p) pre post
    simp only [flatten, List.cons_append, List.nil_append, LTree.flat, List.map_cons, objects,
      List.replicate_one] at hn ⊢
    rw [nestedNodes, dif_pos (by simp)]
    simp only [List.getElem_append_right (Nat.le_refl _), Nat.sub_self, List.getElem_cons_zero, hn,
      layoutAt_head _ _ _ _ hlen, bind, nest, bind_bind, pure, Except.pure]
    simp only [Except.bind, write_head]
    cases nestedLeaf k p d q with
    | error f => rfl
    | ok r => simp [nestedEntry, Alloc.fresh]
  | .struct al ms, hw, .node d ls, hl, pre, post, lpre, lpost, hlen, vpre, vpost, n, info, q => by
    obtain ⟨hne, hws⟩ : ms ≠ [] ∧ WFAll ms := by cases hw; constructor <;> assumption
    have hla : LaidAll ms ls := by cases hl; assumption
    have hpos := List.length_pos_iff.2 hne
    have hn := nodeLen_flatten (.struct al ms) pre post
    have ih := nested_steps ms hws ls hla (pre ++ [⟨.struct, al, ms.length⟩]) post (lpre ++ [some d]) lpost
      (by simp [hlen]) (vpre ++ [containerEntry pre.length]) vpost
      { info with nested := info.nested + 1 } (by simp) q
    simp only [List.append_assoc, List.cons_append, List.nil_append, List.length_append,
      List.length_cons, List.length_nil, Nat.zero_add] at ih
    simp only [flatten, List.cons_append, LTree.flat, List.map_cons, objects, replicate_add,
      List.replicate_one, List.nil_append] at hn ⊢
    rw [nestedNodes, dif_pos (by simp)]
    simp only [List.getElem_append_right (Nat.le_refl _), Nat.sub_self, List.getElem_cons_zero, hn, hpos,
      if_true, bind, nest, bind_bind, pure, Except.pure, write_head]
    simp only [Except.bind]
    simp only [containerEntry, Alloc.fresh] at ih ⊢
    simp only [List.append_assoc, List.cons_append, List.nil_append, List.length_append,
      List.length_cons, List.length_nil, Nat.zero_add, ih]
    cases nestAll ms ls (pre.length + 1) q with
    | error f => rfl
    | ok r => simp [Except.bind]
  | .union al ms, hw, .node d ls, hl, pre, post, lpre, lpost, hlen, vpre, vpost, n, info, q => by
    obtain ⟨hne, hws⟩ : ms ≠ [] ∧ WFAll ms := by cases hw; constructor <;> assumption
    have hla : LaidAll ms ls := by cases hl; assumption
    have hpos := List.length_pos_iff.2 hne
    have hn := nodeLen_flatten (.union al ms) pre post
    have ih := fun p => nested_union ms hws ls hla (pre ++ [⟨.union, al, ms.length⟩]) post (lpre ++ [some d])
      lpost (by simp [hlen]) (vpre ++ [containerEntry pre.length]) vpost p p q
    simp only [List.append_assoc, List.cons_append, List.nil_append, List.length_append,
      List.length_cons, List.length_nil, Nat.zero_add] at ih
    simp only [flatten, List.cons_append, LTree.flat, List.map_cons, objects, replicate_add,
      List.replicate_one, List.nil_append] at hn ⊢
    rw [nestedNodes, dif_pos (by simp)]
    simp only [List.getElem_append_right (Nat.le_refl _), Nat.sub_self, List.getElem_cons_zero, hn, hpos,
      if_true, bind, nest, bind_bind, pure, Except.pure, write_head]
    simp only [Except.bind]
    simp only [containerEntry, Alloc.fresh] at ih ⊢
    cases savePosition q with
    | error f => rfl
    | ok p =>
      simp only [List.append_assoc, List.cons_append, List.nil_append, List.length_append,
        List.length_cons, List.length_nil, Nat.zero_add, ih]
      cases nestUnion ms ls (pre.length + 1) p p q with
      | error f => rfl
      | ok r => simp [Except.bind]
  | .array al k e, hw, .node d ls, hl, pre, post, lpre, lpost, hlen, vpre, vpost, n, info, q => by
    have hwe : WF e := by cases hw; assumption
    obtain ⟨l, rfl, hle⟩ : ∃ l, ls = [l] ∧ Laid e l := by cases hl; exact ⟨_, rfl, by assumption⟩
    have hn := nodeLen_flatten (.array al k e) pre post
    have ih := nested_times e hwe l hle (pre ++ [⟨.array, al, k⟩]) post (lpre ++ [some d])
      lpost (by simp [hlen]) vpost { info with nested := info.nested + 1 } (by simp) k
      (vpre ++ [containerEntry pre.length]) q
    simp only [List.append_assoc, List.cons_append, List.nil_append, List.length_append,
      List.length_cons, List.length_nil, Nat.zero_add] at ih
    simp only [flatten, List.cons_append, LTree.flat, flatL, List.append_nil, List.map_cons, objects,
      replicate_add, List.replicate_one, List.nil_append] at hn ⊢
    rw [nestedNodes, dif_pos (by simp)]
    simp only [List.getElem_append_right (Nat.le_refl _), Nat.sub_self, List.getElem_cons_zero, hn,
      bind, nest, bind_bind, pure, Except.pure, write_head]
    simp only [Except.bind]
    simp only [containerEntry, Alloc.fresh] at ih ⊢
    simp only [List.append_assoc, List.cons_append, List.nil_append, List.length_append,
      List.length_cons, List.length_nil, Nat.zero_add, ih]
    cases collect k (fun q => nest e l (pre.length + 1) q) q with
    | error f => rfl
    | ok r => simp [Except.bind]

/-- Visiting the elements of an array. -/
theorem nested_times : ∀ (e : Ty), WF e → ∀ (l : LTree), Laid e l →
    ∀ (pre post : List Entry) (lpre lpost : List (Option Data)), lpre.length = pre.length →
    ∀ (vpost : List Alloc) (info : Info), ¬ (info.hook = true ∧ info.nested = 0) →
    ∀ (n : Nat) (vpre : List Alloc) (q : Qwords),
    times n (fun s => nestedNodes (pre ++ (flatten e ++ post)) (lpre ++ (l.flat.map some ++ lpost))
        pre.length 1 s)
        ⟨info, q, ⟨vpre ++ (List.replicate (n * objects e) Alloc.fresh ++ vpost), vpre.length⟩⟩ =
      (collect n (fun q => nest e l pre.length q) q).bind fun r =>
        .ok ⟨info, r.1, ⟨(vpre ++ r.2) ++ vpost, (vpre ++ r.2).length⟩⟩
  | e, hw, l, hl, pre, post, lpre, lpost, hlen, vpost, info, hi, n, vpre, q => by
    have hs := fun vpre vpost q =>
      nested_step e hw l hl pre post lpre lpost hlen vpre vpost 0 info q
    induction n generalizing vpre q with
    | zero => simp [times, collect, Except.bind]
    | succ n ih =>
      have e1 : (n + 1) * objects e = objects e + n * objects e := by rw [Nat.succ_mul, Nat.add_comm]
      simp only [times, collect, e1, replicate_add, hs, bind, bind_bind]
      refine bind_congr _ fun r => ?_
      simp only [posthook_inert hi, Except.bind]
      rw [nestedNodes.eq_def]
      simp only [ih]
      cases collect n (fun q => nest e l pre.length q) r.1 with
      | error f => rfl
      | ok r' => simp [Except.bind]

/-- Visiting the members of a structure. -/
theorem nested_steps : ∀ (ts : List Ty), WFAll ts → ∀ (ls : List LTree), LaidAll ts ls →
    ∀ (pre post : List Entry) (lpre lpost : List (Option Data)), lpre.length = pre.length →
    ∀ (vpre vpost : List Alloc) (info : Info), ¬ (info.hook = true ∧ info.nested = 0) → ∀ (q : Qwords),
    nestedNodes (pre ++ (flattenAll ts ++ post)) (lpre ++ ((flatL ls).map some ++ lpost)) pre.length ts.length
        ⟨info, q, ⟨vpre ++ (List.replicate (objectsAll ts) Alloc.fresh ++ vpost), vpre.length⟩⟩ =
      (nestAll ts ls pre.length q).bind fun r =>
        .ok ⟨info, r.1, ⟨(vpre ++ r.2) ++ vpost, (vpre ++ r.2).length⟩⟩
  | [], _, ls, hl, pre, post, lpre, lpost, hlen, vpre, vpost, info, hi, q => by
    cases hl
    rw [List.length_nil, nestedNodes]
    simp [nestAll, objectsAll, Except.bind]
  | t :: ts, hw, ls, hl, pre, post, lpre, lpost, hlen, vpre, vpost, info, hi, q => by
    obtain ⟨hwt, hws⟩ : WF t ∧ WFAll ts := by cases hw; constructor <;> assumption
    obtain ⟨l, ls, rfl, hlt, hls⟩ : ∃ l ls', ls = l :: ls' ∧ Laid t l ∧ LaidAll ts ls' := by
      cases hl; exact ⟨_, _, rfl, by assumption, by assumption⟩
    have h1 := nested_step t hwt l hlt pre (flattenAll ts ++ post) lpre ((flatL ls).map some ++ lpost) hlen
      vpre (List.replicate (objectsAll ts) Alloc.fresh ++ vpost) ts.length info q
    have hflat : l.flat.length = (flatten t).length := flat_length hlt
    have h2 := fun vpre q => nested_steps ts hws ls hls (pre ++ flatten t) post
      (lpre ++ l.flat.map some) lpost (by simp [hlen, hflat]) vpre vpost info hi q
    simp only [List.append_assoc] at h1 h2
    simp only [flattenAll, flatL, List.map_append, List.append_assoc, List.length_cons, objectsAll,
      replicate_add, nestAll]
    rw [h1, bind_bind]
    refine bind_congr _ fun r => ?_
    simp only [posthook_inert hi, Except.bind]
    have h3 := h2 (vpre ++ r.2) r.1
    simp only [List.append_assoc] at h3
    rw [h3]
    simp only [List.length_append]
    cases nestAll ts ls (pre.length + (flatten t).length) r.1 with
    | error f => rfl
    | ok r' => simp [Except.bind]

/-- Visiting the members of a union. -/
theorem nested_union : ∀ (ts : List Ty), WFAll ts → ∀ (ls : List LTree), LaidAll ts ls →
    ∀ (pre post : List Entry) (lpre lpost : List (Option Data)), lpre.length = pre.length →
    ∀ (vpre vpost : List Alloc) (init mx : Pos) (q : Qwords),
    nestedNodes (pre ++ (flattenAll ts ++ post)) (lpre ++ ((flatL ls).map some ++ lpost)) pre.length ts.length
        ⟨⟨true, 0, init, mx⟩, q, ⟨vpre ++ (List.replicate (objectsAll ts) Alloc.fresh ++ vpost), vpre.length⟩⟩ =
      (nestUnion ts ls pre.length init mx q).bind fun r =>
        .ok ⟨⟨true, 0, init, r.2.1⟩, r.1, ⟨(vpre ++ r.2.2) ++ vpost, (vpre ++ r.2.2).length⟩⟩
  | [], _, ls, hl, pre, post, lpre, lpost, hlen, vpre, vpost, init, mx, q => by
    cases hl
    rw [List.length_nil, nestedNodes]
    simp [nestUnion, objectsAll, Except.bind]
  | t :: ts, hw, ls, hl, pre, post, lpre, lpost, hlen, vpre, vpost, init, mx, q => by
    obtain ⟨hwt, hws⟩ : WF t ∧ WFAll ts := by cases hw; constructor <;> assumption
    obtain ⟨l, ls, rfl, hlt, hls⟩ : ∃ l ls', ls = l :: ls' ∧ Laid t l ∧ LaidAll ts ls' := by
      cases hl; exact ⟨_, _, rfl, by assumption, by assumption⟩
    have h1 := nested_step t hwt l hlt pre (flattenAll ts ++ post) lpre ((flatL ls).map some ++ lpost) hlen
      vpre (List.replicate (objectsAll ts) Alloc.fresh ++ vpost) ts.length ⟨true, 0, init, mx⟩ q
    have hflat : l.flat.length = (flatten t).length := flat_length hlt
    have h2 := fun vpre mx q => nested_union ts hws ls hls (pre ++ flatten t) post
      (lpre ++ l.flat.map some) lpost (by simp [hlen, hflat]) vpre vpost init mx q
    simp only [List.append_assoc] at h1 h2
    simp only [flattenAll, flatL, List.map_append, List.append_assoc, List.length_cons, objectsAll,
      replicate_add, nestUnion]
    rw [h1, bind_bind]
    refine bind_congr _ fun r => ?_
    simp only [posthook, and_self, if_true, bind, bind_bind]
    refine bind_congr _ fun p => ?_
    refine bind_congr _ fun q' => ?_
    simp only [pure, Except.pure, Except.bind]
    have h3 := h2 (vpre ++ r.2) (maxPosition mx p) q'
    simp only [List.append_assoc] at h3
    rw [h3]
    simp only [List.length_append]
    cases nestUnion ts ls (pre.length + (flatten t).length) init (maxPosition mx p) q' with
    | error f => rfl
    | ok r' => simp [Except.bind]
end

end Kefir.Abi
