import Verif.Abi.Tree

/-!
# Slots, classification and allocation on trees
-/

namespace Kefir.Abi

open Kefir.Layout

/-! ## Slots -/

mutual
theorem slots_step : ∀ (ty : Ty), WF ty → ∀ (pre post : List Entry) (n acc : Nat),
    slotsNodes (pre ++ (flatten ty ++ post)) pre.length (n + 1) acc =
      slotsNodes (pre ++ (flatten ty ++ post)) (pre ++ flatten ty).length n (acc + objects ty)
  | .leaf k al p, _, pre, post, n, acc => by
    have hn := nodeLen_flatten (.leaf k al p) pre post
    simp only [flatten, List.cons_append, List.nil_append] at hn ⊢
    rw [slotsNodes, dif_pos (by simp)]
    simp [hn, bind, Except.bind, objects]
  | .struct al ms, hw, pre, post, n, acc => by
    obtain ⟨hne, hws⟩ : ms ≠ [] ∧ WFAll ms := by cases hw; constructor <;> assumption
    have hpos := List.length_pos_iff.2 hne
    have hn := nodeLen_flatten (.struct al ms) pre post
    have ih := slots_steps ms hws (pre ++ [⟨.struct, al, ms.length⟩]) post (acc + 1)
    simp only [List.append_assoc, List.cons_append, List.nil_append, List.length_append,
      List.length_cons, List.length_nil, Nat.zero_add] at ih
    simp only [flatten, List.cons_append] at hn ⊢
    rw [slotsNodes, dif_pos (by simp)]
    simp only [List.getElem_append_right (Nat.le_refl _), Nat.sub_self, List.getElem_cons_zero, hn, hpos,
      if_true, ih, bind, Except.bind, objects, List.length_append, Nat.add_assoc]
  | .union al ms, hw, pre, post, n, acc => by
    obtain ⟨hne, hws⟩ : ms ≠ [] ∧ WFAll ms := by cases hw; constructor <;> assumption
    have hpos := List.length_pos_iff.2 hne
    have hn := nodeLen_flatten (.union al ms) pre post
    have ih := slots_steps ms hws (pre ++ [⟨.union, al, ms.length⟩]) post (acc + 1)
    simp only [List.append_assoc, List.cons_append, List.nil_append, List.length_append,
      List.length_cons, List.length_nil, Nat.zero_add] at ih
    simp only [flatten, List.cons_append] at hn ⊢
    rw [slotsNodes, dif_pos (by simp)]
    simp only [List.getElem_append_right (Nat.le_refl _), Nat.sub_self, List.getElem_cons_zero, hn, hpos,
      if_true, ih, bind, Except.bind, objects, List.length_append, Nat.add_assoc]
  | .array al k e, hw, pre, post, n, acc => by
    have hwe : WF e := by cases hw; assumption
    have hn := nodeLen_flatten (.array al k e) pre post
    have ih := slots_step e hwe (pre ++ [⟨.array, al, k⟩]) post 0 0
    simp only [List.append_assoc, List.cons_append, List.nil_append, List.length_append,
      List.length_cons, List.length_nil, Nat.zero_add] at ih
    rw [slotsNodes.eq_def _ _ 0] at ih
    simp only [flatten, List.cons_append] at hn ⊢
    rw [slotsNodes, dif_pos (by simp)]
    simp only [List.getElem_append_right (Nat.le_refl _), Nat.sub_self, List.getElem_cons_zero, hn,
      ih, bind, Except.bind, objects, List.length_append, Nat.add_assoc, pure, Except.pure,
      Nat.mul_comm]

theorem slots_steps : ∀ (ts : List Ty), WFAll ts → ∀ (pre post : List Entry) (acc : Nat),
    slotsNodes (pre ++ (flattenAll ts ++ post)) pre.length ts.length acc = .ok (acc + objectsAll ts)
  | [], _, pre, post, acc => by rw [List.length_nil, slotsNodes.eq_def]; simp [objectsAll]
  | t :: ts, hw, pre, post, acc => by
    obtain ⟨hwt, hws⟩ : WF t ∧ WFAll ts := by cases hw; constructor <;> assumption
    have h1 := slots_step t hwt pre (flattenAll ts ++ post) ts.length acc
    have h2 := slots_steps ts hws (pre ++ flatten t) post (acc + objects t)
    simp only [List.append_assoc] at h2
    simp only [flattenAll, List.append_assoc, List.length_cons, objectsAll]
    rw [h1, h2, Nat.add_assoc]
end

theorem nodeSlots_eq (t : Ty) (hw : WF t) (pre post : List Entry) :
    nodeSlots (pre ++ (flatten t ++ post)) pre.length = objects t := by
  rw [nodeSlots, slots_step t hw, slotsNodes.eq_def]; simp

theorem totalSlots_eq (ts : List Ty) (hw : WFAll ts) : totalSlots (flattenAll ts) = objectsAll ts := by
  have h := slots_steps ts hw [] [] 0
  simp only [List.nil_append, List.append_nil, List.length_nil, Nat.zero_add] at h
  rw [totalSlots, nodes_flattenAll ts hw, h]

theorem entry_ok (t : Ty) (hw : WF t) :
    ¬ ((t.entry.code = .struct ∨ t.entry.code = .union) ∧ t.entry.param = 0) := by
  cases hw with
  | leaf => simp [Ty.entry]
  | struct hne => simp [Ty.entry, hne]
  | union hne => simp [Ty.entry, hne]
  | array => simp [Ty.entry]

theorem getElem_entry (t : Ty) (pre post : List Entry)
    (h : pre.length < (pre ++ (flatten t ++ post)).length) :
    (pre ++ (flatten t ++ post))[pre.length] = t.entry := by
  simp [flatten_eq]

theorem flattenAll_append : ∀ (as bs : List Ty), flattenAll (as ++ bs) = flattenAll as ++ flattenAll bs
  | [], bs => rfl
  | a :: as, bs => by simp [flattenAll, flattenAll_append as bs]

theorem objectsAll_append : ∀ (as bs : List Ty), objectsAll (as ++ bs) = objectsAll as + objectsAll bs
  | [], bs => by simp [objectsAll]
  | a :: as, bs => by simp [objectsAll, objectsAll_append as bs, Nat.add_assoc]

theorem gotoSlot_eq : ∀ (as : List Ty), WFAll as → ∀ (t : Ty), WF t →
    ∀ (pre post : List Entry) (count slot : Nat), as.length < count →
    gotoSlot (pre ++ (flattenAll as ++ (flatten t ++ post))) (pre ++ flattenAll as).length pre.length count slot =
      .ok (slot + objectsAll as)
  | [], _, t, hw, pre, post, count, slot, hc => by
    obtain ⟨n, rfl⟩ : ∃ n, count = n + 1 := ⟨count - 1, by simp at hc; omega⟩
    have hlt : pre.length < (pre ++ (flatten t ++ post)).length := by simp [flatten_length]; omega
    simp only [flattenAll, List.nil_append, List.append_nil]
    rw [gotoSlot, dif_pos hlt, getElem_entry t pre post hlt, if_neg (entry_ok t hw), if_neg (by omega),
      if_pos rfl]
    simp [objectsAll]
  | a :: as, ha, t, hw, pre, post, count, slot, hc => by
    obtain ⟨hwa, has⟩ : WF a ∧ WFAll as := by cases ha; constructor <;> assumption
    obtain ⟨n, rfl⟩ : ∃ n, count = n + 1 := ⟨count - 1, by simp at hc; omega⟩
    have ih := gotoSlot_eq as has t hw (pre ++ flatten a) post n (slot + objects a) (by simpa using hc)
    have hn := nodeLen_flatten a pre (flattenAll as ++ (flatten t ++ post))
    have hs := nodeSlots_eq a hwa pre (flattenAll as ++ (flatten t ++ post))
    have hlt : pre.length < (pre ++ (flatten a ++ (flattenAll as ++ (flatten t ++ post)))).length := by
      simp [flatten_length]; omega
    simp only [List.append_assoc] at ih
    simp only [flattenAll, List.append_assoc]
    rw [gotoSlot, dif_pos hlt, getElem_entry a pre _ hlt, if_neg (entry_ok a hwa),
      if_pos (by simp [flatten_length]; omega), hn, hs]
    simp only [List.length_append] at ih ⊢
    rw [ih, objectsAll, Nat.add_assoc]

/-- The slot of a parameter. -/
theorem gotoSlot_param (as : List Ty) (t : Ty) (bs : List Ty) (ha : WFAll as) (hw : WF t) :
    gotoSlot (flattenAll as ++ (flatten t ++ flattenAll bs)) (flattenAll as).length 0
      (flattenAll as ++ (flatten t ++ flattenAll bs)).length 0 = .ok (objectsAll as) := by
  have h := gotoSlot_eq as ha t hw [] (flattenAll bs)
    (flattenAll as ++ (flatten t ++ flattenAll bs)).length 0
    (by have := length_le_flattenAll as; simp [flatten_length]; omega)
  simpa using h

/-! ## Classification -/

/-- Entry of an aggregate passed in memory. -/
def memoryEntry (i : Nat) (d : Data) : Alloc :=
  { Alloc.fresh with
    type := .container, klass := .memory, index := i
    requirements := { memSize := d.size, memAlignment := d.alignment } }

/-- Entry of an aggregate that has been divided into eightbytes. -/
def registerEntry (i : Nat) (q : Qwords) (r : Requirements) : Alloc :=
  { Alloc.fresh with
    type := .owningContainer, klass := .noClass, index := i, content := .qwords q, requirements := r }

def Ty.isStruct : Ty → Bool
  | .struct _ _ => true
  | _ => false

def Ty.isLeaf : Ty → Bool
  | .leaf _ _ _ => true
  | _ => false

/-- An aggregate that is a parameter. -/
def classifyAgg (t : Ty) (l : LTree) (i : Nat) : Out (List Alloc) :=
  if l.data.size > 8 * 8 ∨ ¬ l.data.aligned then
    .ok (memoryEntry i l.data :: List.replicate (objects t - 1) Alloc.fresh)
  else
    (ignoring (Ty.isStruct t) (nest t l i (qwordsAlloc (qwordCount l.data.size)))).bind fun r =>
      match postmerger r.1 with
      | none => .ok (memoryEntry i l.data :: r.2.tail)
      | some q => (qwordRequirements q.qwords {}).bind fun rq => .ok (registerEntry i q rq :: r.2.tail)

/-- One parameter; `i` is the position of its entry. -/
def classify (t : Ty) (l : LTree) (i : Nat) : Out (List Alloc) :=
  match t with
  | .leaf k _ p => (classifyLeaf k i p l.data Alloc.fresh).bind fun a => .ok [a]
  | t => classifyAgg t l i

def classifyAll : List Ty → List LTree → Nat → Out (List (List Alloc))
  | t :: ts, l :: ls, i =>
    (classify t l i).bind fun as => (classifyAll ts ls (i + (flatten t).length)).bind fun r => .ok (as :: r)
  | _, _, _ => .ok []

theorem modify_head (vpre vpost : List Alloc) (a : Alloc) (f : Alloc → Alloc) :
    (vpre ++ (a :: vpost)).modify vpre.length f = vpre ++ (f a :: vpost) := by
  induction vpre with
  | nil => rfl
  | cons b vpre ih => simp [List.modify_succ_cons, ih]

/-- `unwrap` on trees. -/
theorem unwrap_eq (t : Ty) (hw : WF t) (l : LTree) (hl : Laid t l) (hk : Ty.isLeaf t = false)
    (pre post : List Entry) (lpre lpost : List (Option Data)) (hlen : lpre.length = pre.length)
    (vpre vpost : List Alloc) :
    unwrap (pre ++ (flatten t ++ post)) (lpre ++ (l.flat.map some ++ lpost)) pre.length t.entry l.data
        ⟨vpre ++ (List.replicate (objects t - 1) Alloc.fresh ++ vpost), vpre.length⟩ =
      (nest t l pre.length (qwordsAlloc (qwordCount l.data.size))).bind fun r =>
        .ok (r.1, ⟨(vpre ++ r.2.tail) ++ vpost, (vpre ++ r.2.tail).length⟩) := by
  obtain ⟨d, ls⟩ := l
  generalize hq : qwordsAlloc (qwordCount d.size) = q
  cases t with
  | leaf => simp [Ty.isLeaf] at hk
  | struct al ms =>
    obtain ⟨hne, hws⟩ : ms ≠ [] ∧ WFAll ms := by cases hw; constructor <;> assumption
    have hla : LaidAll ms ls := by cases hl; assumption
    have h := nested_steps ms hws ls hla (pre ++ [⟨.struct, al, ms.length⟩]) post (lpre ++ [some d]) lpost
      (by simp [hlen]) vpre vpost ⟨false, 0, ⟨0, 0⟩, ⟨0, 0⟩⟩ (by simp) q
    simp only [List.append_assoc, List.cons_append, List.nil_append, List.length_append,
      List.length_cons, List.length_nil, Nat.zero_add] at h
    simp only [unwrap, Ty.entry, LTree.data, hq, flatten, LTree.flat, List.cons_append, List.map_cons,
      objects, Nat.add_sub_cancel_left, h, nest, bind, bind_bind]
    cases nestAll ms ls (pre.length + 1) q with
    | error f => rfl
    | ok r => simp [Except.bind, pure, Except.pure]
  | union al ms =>
    obtain ⟨hne, hws⟩ : ms ≠ [] ∧ WFAll ms := by cases hw; constructor <;> assumption
    have hla : LaidAll ms ls := by cases hl; assumption
    have h := fun p => nested_union ms hws ls hla (pre ++ [⟨.union, al, ms.length⟩]) post (lpre ++ [some d])
      lpost (by simp [hlen]) vpre vpost p p q
    simp only [List.append_assoc, List.cons_append, List.nil_append, List.length_append,
      List.length_cons, List.length_nil, Nat.zero_add] at h
    simp only [unwrap, Ty.entry, LTree.data, hq, flatten, LTree.flat, List.cons_append, List.map_cons,
      objects, Nat.add_sub_cancel_left, h, nest, bind, bind_bind]
    refine bind_congr _ fun p => ?_
    cases nestUnion ms ls (pre.length + 1) p p q with
    | error f => rfl
    | ok r => simp [Except.bind, pure, Except.pure]
  | array al k e =>
    have hwe : WF e := by cases hw; assumption
    obtain ⟨l, rfl, hle⟩ : ∃ l, ls = [l] ∧ Laid e l := by cases hl; exact ⟨_, rfl, by assumption⟩
    have h := nested_times e hwe l hle (pre ++ [⟨.array, al, k⟩]) post (lpre ++ [some d])
      lpost (by simp [hlen]) vpost ⟨false, 0, ⟨0, 0⟩, ⟨0, 0⟩⟩ (by simp) k vpre q
    simp only [List.append_assoc, List.cons_append, List.nil_append, List.length_append,
      List.length_cons, List.length_nil, Nat.zero_add] at h
    simp only [unwrap, Ty.entry, LTree.data, hq, flatten, LTree.flat, flatL, List.append_nil,
      List.cons_append, List.map_cons, objects, Nat.add_sub_cancel_left, h, nest, bind, bind_bind]
    cases collect k (fun q => nest e l (pre.length + 1) q) q with
    | error f => rfl
    | ok r => simp [Except.bind, pure, Except.pure]

theorem objects_pos (t : Ty) : objects t = 1 + (objects t - 1) := by
  cases t <;> simp [objects]

/-- Classification of an aggregate on trees. -/
theorem classifyAggregate_eq (t : Ty) (hw : WF t) (l : LTree) (hl : Laid t l) (hk : Ty.isLeaf t = false)
    (pre post : List Entry) (lpre lpost : List (Option Data)) (hlen : lpre.length = pre.length)
    (vpre vpost : List Alloc) :
    classifyAggregate (pre ++ (flatten t ++ post)) (lpre ++ (l.flat.map some ++ lpost)) pre.length t.entry
        ⟨vpre ++ (List.replicate (objects t) Alloc.fresh ++ vpost), vpre.length⟩ =
      (classifyAgg t l pre.length).bind fun as => .ok ⟨(vpre ++ as) ++ vpost, (vpre ++ as).length⟩ := by
  have hd : layoutAt (lpre ++ (l.flat.map some ++ lpost)) pre.length = .ok l.data := by
    obtain ⟨d, ls⟩ := l
    simp only [LTree.flat, List.map_cons, List.cons_append, LTree.data]
    exact layoutAt_head _ _ _ _ hlen
  have hs := nodeSlots_eq t hw pre post
  have hu := unwrap_eq t hw l hl hk pre post lpre lpost hlen
    (vpre ++ [{ Alloc.fresh with type := .container, index := pre.length }]) vpost
  have hst : decide (t.entry.code = .struct) = Ty.isStruct t := by
    cases t <;> simp [Ty.entry, Ty.isStruct]
  rw [objects_pos t]
  simp only [classifyAggregate, hd, replicate_add, List.replicate_one, List.cons_append, List.nil_append,
    write_head, bind]
  simp only [Except.bind, classifyAgg]
  by_cases hc : l.data.size > 8 * 8 ∨ ¬ l.data.aligned = true
  · simp only [if_pos hc, hs, pure, Except.pure, List.append_assoc, List.cons_append, List.nil_append,
      modify_head]
    simp only [memoryEntry, Alloc.fresh, List.length_append, List.length_cons, List.length_nil,
      List.length_replicate, Except.ok.injEq, Slots.mk.injEq, true_and]
    omega
  · simp only [if_neg hc, hst]
    rw [hu]
    cases hn : nest t l pre.length (qwordsAlloc (qwordCount l.data.size)) with
    | error f =>
      cases f <;> cases Ty.isStruct t <;> simp [ignoring, Except.bind]
    | ok r =>
      simp only [ignoring, Except.bind]
      cases postmerger r.1 with
      | none =>
        simp only [pure, Except.pure, List.append_assoc, List.cons_append, List.nil_append, modify_head]
        simp [memoryEntry, Alloc.fresh]
      | some q =>
        simp only [pure, Except.pure, List.append_assoc, List.cons_append, List.nil_append, modify_head]
        cases qwordRequirements q.qwords {} with
        | error f => rfl
        | ok rq => simp [registerEntry, Alloc.fresh]

/-- Classification of one parameter on trees. -/
theorem classify_step (t : Ty) (hw : WF t) (l : LTree) (hl : Laid t l)
    (pre post : List Entry) (lpre lpost : List (Option Data)) (hlen : lpre.length = pre.length)
    (vpre vpost : List Alloc) (n : Nat) :
    classifyNodes (pre ++ (flatten t ++ post)) (lpre ++ (l.flat.map some ++ lpost)) pre.length (n + 1)
        ⟨vpre ++ (List.replicate (objects t) Alloc.fresh ++ vpost), vpre.length⟩ =
      (classify t l pre.length).bind fun as =>
        classifyNodes (pre ++ (flatten t ++ post)) (lpre ++ (l.flat.map some ++ lpost))
          (pre ++ flatten t).length n ⟨(vpre ++ as) ++ vpost, (vpre ++ as).length⟩ := by
  have hlt : pre.length < (pre ++ (flatten t ++ post)).length := by simp [flatten_length]; omega
  have hn := nodeLen_flatten t pre post
  have ho := entry_ok t hw
  have ha := fun hk => classifyAggregate_eq t hw l hl hk pre post lpre lpost hlen vpre vpost
  rw [classifyNodes, dif_pos hlt]
  simp only [getElem_entry t pre post hlt, hn, List.length_append]
  cases t with
  | leaf k al p =>
    obtain ⟨d, ls⟩ := l
    simp only [Ty.entry, LTree.flat, List.map_cons, List.cons_append, layoutAt_head _ _ _ _ hlen, bind,
      objects, List.replicate_one, List.nil_append, classify, LTree.data, bind_bind]
    simp only [Except.bind]
    rw [List.getElem?_append_right (Nat.le_refl _)]
    simp only [Nat.sub_self, List.getElem?_cons_zero]
    cases classifyLeaf k pre.length p d Alloc.fresh with
    | error f => rfl
    | ok a => simp [pure, Except.pure]
  | struct al ms =>
    have h0 : ms.length > 0 := by simp [Ty.entry] at ho; exact List.length_pos_iff.2 ho
    have h := ha rfl
    simp only [Ty.entry] at h
    simp only [Ty.entry, h0, if_true, classify, bind]
    rw [h, bind_bind]
    refine bind_congr _ fun as => ?_
    simp [Except.bind]
  | union al ms =>
    have h0 : ms.length > 0 := by simp [Ty.entry] at ho; exact List.length_pos_iff.2 ho
    have h := ha rfl
    simp only [Ty.entry] at h
    simp only [Ty.entry, h0, if_true, classify, bind]
    rw [h, bind_bind]
    refine bind_congr _ fun as => ?_
    simp [Except.bind]
  | array al k e =>
    have h := ha rfl
    simp only [Ty.entry] at h
    simp only [Ty.entry, classify, bind]
    rw [h, bind_bind]
    refine bind_congr _ fun as => ?_
    simp [Except.bind]

theorem classify_steps : ∀ (ts : List Ty), WFAll ts → ∀ (ls : List LTree), LaidAll ts ls →
    ∀ (pre post : List Entry) (lpre lpost : List (Option Data)), lpre.length = pre.length →
    ∀ (vpre vpost : List Alloc),
    classifyNodes (pre ++ (flattenAll ts ++ post)) (lpre ++ ((flatL ls).map some ++ lpost)) pre.length ts.length
        ⟨vpre ++ (List.replicate (objectsAll ts) Alloc.fresh ++ vpost), vpre.length⟩ =
      (classifyAll ts ls pre.length).bind fun ass =>
        .ok ⟨(vpre ++ ass.flatten) ++ vpost, (vpre ++ ass.flatten).length⟩
  | [], _, ls, hl, pre, post, lpre, lpost, hlen, vpre, vpost => by
    cases hl
    rw [List.length_nil, classifyNodes]
    simp [classifyAll, objectsAll, Except.bind]
  | t :: ts, hw, ls, hl, pre, post, lpre, lpost, hlen, vpre, vpost => by
    obtain ⟨hwt, hws⟩ : WF t ∧ WFAll ts := by cases hw; constructor <;> assumption
    obtain ⟨l, ls, rfl, hlt, hls⟩ : ∃ l ls', ls = l :: ls' ∧ Laid t l ∧ LaidAll ts ls' := by
      cases hl; exact ⟨_, _, rfl, by assumption, by assumption⟩
    have h1 := classify_step t hwt l hlt pre (flattenAll ts ++ post) lpre ((flatL ls).map some ++ lpost) hlen
      vpre (List.replicate (objectsAll ts) Alloc.fresh ++ vpost) ts.length
    have hflat : l.flat.length = (flatten t).length := flat_length hlt
    have h2 := fun vpre => classify_steps ts hws ls hls (pre ++ flatten t) post
      (lpre ++ l.flat.map some) lpost (by simp [hlen, hflat]) vpre vpost
    simp only [List.append_assoc] at h1 h2
    simp only [flattenAll, flatL, List.map_append, List.append_assoc, List.length_cons, objectsAll,
      replicate_add, classifyAll]
    rw [h1, bind_bind]
    refine bind_congr _ fun as => ?_
    have h3 := h2 (vpre ++ as)
    simp only [List.append_assoc] at h3
    rw [h3]
    simp only [List.length_append]
    cases classifyAll ts ls (pre.length + (flatten t).length) with
    | error f => rfl
    | ok r' => simp [Except.bind]

/-- Classification of a parameter list on trees. -/
theorem parameterClassify_eq (ts : List Ty) (hw : WFAll ts) (ls : List LTree) (hl : LaidAll ts ls) :
    parameterClassify (flattenAll ts) ((flatL ls).map some) =
      (classifyAll ts ls 0).bind fun ass => .ok ass.flatten := by
  have h := classify_steps ts hw ls hl [] [] [] [] rfl [] []
  simp only [List.nil_append, List.append_nil, List.length_nil] at h
  simp only [parameterClassify, nodes_flattenAll ts hw, totalSlots_eq ts hw, h, bind, bind_bind]
  refine bind_congr _ fun r => ?_
  rfl

/-! ## Allocation -/

/-- One parameter. -/
def allocate (t : Ty) (l : LTree) (cur : Location) (a : Alloc) : Out (Location × Alloc) :=
  match t with
  | .leaf k _ p => allocateLeaf k p cur a
  | _ => allocateAggregate l.data cur a

/-- The parameters; of the slots of each only the first is used. -/
def allocateAll : List Ty → List LTree → Location → List (List Alloc) → Out (Location × List (List Alloc))
  | t :: ts, l :: ls, cur, (a :: as) :: ass =>
    (allocate t l cur a).bind fun r => (allocateAll ts ls r.1 ass).bind fun r' =>
      .ok (r'.1, (r.2 :: as) :: r'.2)
  | _, _, cur, _ => .ok (cur, [])

/-- The rows of slots belong to the types. -/
inductive Rows : List Ty → List (List Alloc) → Prop
  | nil : Rows [] []
  | cons {t ts a as ass} : (a :: as).length = objects t → Rows ts ass → Rows (t :: ts) ((a :: as) :: ass)

theorem rows_length : ∀ {ts ass}, Rows ts ass → ass.flatten.length = objectsAll ts
  | _, _, .nil => rfl
  | _, _, .cons h hs => by
    have := rows_length hs
    simp only [List.flatten_cons, List.length_append, objectsAll, this, h]

theorem allocate_pad (al p : Nat) (l : LTree) (cur : Location) (a : Alloc) :
    allocate (.leaf .pad al p) l cur a = .ok (cur, a) := rfl

theorem entry_pad (t : Ty) : t.entry.code = .leaf .pad ↔ ∃ al p, t = .leaf .pad al p := by
  cases t <;> simp [Ty.entry]

theorem allocate_steps : ∀ (ts : List Ty), WFAll ts → ∀ (ls : List LTree), LaidAll ts ls →
    ∀ (ass : List (List Alloc)), Rows ts ass →
    ∀ (done : List Ty), WFAll done → ∀ (lpre : List (Option Data)), lpre.length = (flattenAll done).length →
    ∀ (vpre : List Alloc), vpre.length = objectsAll done → ∀ (cur : Location),
    allocateNodes (flattenAll done ++ flattenAll ts) (lpre ++ (flatL ls).map some) (flattenAll done).length
        ts.length cur (vpre ++ ass.flatten) =
      (allocateAll ts ls cur ass).bind fun r => .ok (r.1, vpre ++ r.2.flatten)
  | [], _, ls, hl, ass, hr, done, hd, lpre, hlen, vpre, hv, cur => by
    cases hl; cases hr
    rw [List.length_nil, allocateNodes]
    simp [allocateAll, Except.bind]
  | t :: ts, hw, ls, hl, ass, hr, done, hd, lpre, hlen, vpre, hv, cur => by
    obtain ⟨hwt, hws⟩ : WF t ∧ WFAll ts := by cases hw; constructor <;> assumption
    obtain ⟨l, ls, rfl, hlt, hls⟩ : ∃ l ls', ls = l :: ls' ∧ Laid t l ∧ LaidAll ts ls' := by
      cases hl; exact ⟨_, _, rfl, by assumption, by assumption⟩
    obtain ⟨a, as, ass, rfl, hra, hrs⟩ : ∃ a as ass', ass = (a :: as) :: ass' ∧ (a :: as).length = objects t ∧
        Rows ts ass' := by cases hr; exact ⟨_, _, _, rfl, by assumption, by assumption⟩
    have hflat : l.flat.length = (flatten t).length := flat_length hlt
    have hdone : WFAll (done ++ [t]) := wfAll_append hd (.cons hwt .nil)
    have ih := fun b cur => allocate_steps ts hws ls hls ass hrs (done ++ [t]) hdone
      (lpre ++ l.flat.map some) (by simp [hlen, hflat, flattenAll_append, flattenAll])
      (vpre ++ (b :: as)) (by simp [objectsAll_append, objectsAll, hv, ← hra]) cur
    simp only [flattenAll_append, flattenAll, List.append_nil, List.append_assoc] at ih
    have hlt' : (flattenAll done).length < (flattenAll done ++ (flatten t ++ flattenAll ts)).length := by
      simp [flatten_length]; omega
    have hn := nodeLen_flatten t (flattenAll done) (flattenAll ts)
    have hg := gotoSlot_param done t ts hd hwt
    have hdat : layoutAt (lpre ++ (l.flat.map some ++ (flatL ls).map some)) (flattenAll done).length =
        .ok l.data := by
      obtain ⟨d, ms⟩ := l
      simp only [LTree.flat, List.map_cons, List.cons_append, LTree.data]
      exact layoutAt_head _ _ _ _ hlen
    simp only [flattenAll, flatL, List.map_append, List.length_cons, List.flatten_cons]
    rw [allocateNodes, dif_pos hlt']
    simp only [getElem_entry t _ _ hlt', if_neg (entry_ok t hwt), hn, hg, hdat]
    have hget : (vpre ++ (a :: as ++ ass.flatten))[objectsAll done]? = some a := by
      rw [← hv]; simp
    have hset : ∀ b, (vpre ++ (a :: as ++ ass.flatten)).set (objectsAll done) b =
        vpre ++ ((b :: as) ++ ass.flatten) := by
      intro b; rw [← hv, List.cons_append, set_head]; rfl
    simp only [List.length_append] at ih
    by_cases hp : t.entry.code = .leaf .pad
    · obtain ⟨al, p, rfl⟩ := (entry_pad t).1 hp
      rw [if_pos hp]
      simp only [allocateAll, allocate_pad, Except.bind]
      rw [ih a cur]
      cases allocateAll ts ls cur ass with
      | error f => rfl
      | ok r => simp [Except.bind]
    · rw [if_neg hp]
      simp only [bind, allocateAll]
      simp only [Except.bind, hget, hset]
      have fin : ∀ x : Out (Location × Alloc), (x.bind fun v =>
            allocateNodes (flattenAll done ++ (flatten t ++ flattenAll ts))
              (lpre ++ (List.map some l.flat ++ List.map some (flatL ls)))
              ((flattenAll done).length + (flatten t).length) ts.length v.1
              (vpre ++ (v.2 :: as ++ ass.flatten))) =
          ((x.bind fun v => (allocateAll ts ls v.1 ass).bind fun v' => .ok (v'.1, (v.2 :: as) :: v'.2)).bind
            fun v => .ok (v.1, vpre ++ v.2.flatten)) := by
        intro x
        cases x with
        | error f => rfl
        | ok r =>
          simp only [Except.bind, ih]
          cases allocateAll ts ls r.1 ass with
          | error f => rfl
          | ok r' => simp
      cases t <;> exact fin _
where
  wfAll_append : ∀ {as bs : List Ty}, WFAll as → WFAll bs → WFAll (as ++ bs)
  | _, _, .nil, h => h
  | _, _, .cons h hs, hb => .cons h (wfAll_append hs hb)

/-- The places of the arguments. -/
def places (t : Ty) (l : LTree) (a : Alloc) : Out (List Place) :=
  match t with
  | .leaf k _ p => leafPlaces k p l.data a
  | _ => aggregatePlaces l.data a

def placesAll : List Ty → List LTree → List (List Alloc) → Out (List (List Place))
  | t :: ts, l :: ls, (a :: _) :: ass =>
    (places t l a).bind fun ps => (placesAll ts ls ass).bind fun r => .ok (ps :: r)
  | _, _, _ => .ok []

theorem invoke_steps : ∀ (ts : List Ty), WFAll ts → ∀ (ls : List LTree), LaidAll ts ls →
    ∀ (ass : List (List Alloc)), Rows ts ass →
    ∀ (done : List Ty), WFAll done → ∀ (lpre : List (Option Data)), lpre.length = (flattenAll done).length →
    ∀ (vpre : List Alloc), vpre.length = objectsAll done →
    invokeNodes (flattenAll done ++ flattenAll ts) (lpre ++ (flatL ls).map some) (vpre ++ ass.flatten)
        (flattenAll done).length ts.length = placesAll ts ls ass
  | [], _, ls, hl, ass, hr, done, hd, lpre, hlen, vpre, hv => by
    cases hl; cases hr
    rw [List.length_nil, invokeNodes]
    simp [placesAll]
  | t :: ts, hw, ls, hl, ass, hr, done, hd, lpre, hlen, vpre, hv => by
    obtain ⟨hwt, hws⟩ : WF t ∧ WFAll ts := by cases hw; constructor <;> assumption
    obtain ⟨l, ls, rfl, hlt, hls⟩ : ∃ l ls', ls = l :: ls' ∧ Laid t l ∧ LaidAll ts ls' := by
      cases hl; exact ⟨_, _, rfl, by assumption, by assumption⟩
    obtain ⟨a, as, ass, rfl, hra, hrs⟩ : ∃ a as ass', ass = (a :: as) :: ass' ∧ (a :: as).length = objects t ∧
        Rows ts ass' := by cases hr; exact ⟨_, _, _, rfl, by assumption, by assumption⟩
    have hflat : l.flat.length = (flatten t).length := flat_length hlt
    have ih := invoke_steps ts hws ls hls ass hrs (done ++ [t])
      (allocate_steps.wfAll_append hd (.cons hwt .nil))
      (lpre ++ l.flat.map some) (by simp [hlen, hflat, flattenAll_append, flattenAll])
      (vpre ++ (a :: as)) (by simp [objectsAll_append, objectsAll, hv, ← hra])
    simp only [flattenAll_append, flattenAll, List.append_nil, List.append_assoc, List.length_append] at ih
    have hlt' : (flattenAll done).length < (flattenAll done ++ (flatten t ++ flattenAll ts)).length := by
      simp [flatten_length]; omega
    have hn := nodeLen_flatten t (flattenAll done) (flattenAll ts)
    have hg := gotoSlot_param done t ts hd hwt
    have hdat : layoutAt (lpre ++ (l.flat.map some ++ (flatL ls).map some)) (flattenAll done).length =
        .ok l.data := by
      obtain ⟨d, ms⟩ := l
      simp only [LTree.flat, List.map_cons, List.cons_append, LTree.data]
      exact layoutAt_head _ _ _ _ hlen
    have hget : (vpre ++ (a :: as ++ ass.flatten))[objectsAll done]? = some a := by
      rw [← hv]; simp
    simp only [flattenAll, flatL, List.map_append, List.length_cons, List.flatten_cons]
    rw [invokeNodes, dif_pos hlt']
    simp only [getElem_entry t _ _ hlt', if_neg (entry_ok t hwt), hn, hg, hdat]
    by_cases hp : t.entry.code = .leaf .pad
    · obtain ⟨al, p, rfl⟩ := (entry_pad t).1 hp
      simp only [if_pos hp, bind, Except.bind, ih, placesAll, places, leafPlaces]
      cases placesAll ts ls ass <;> rfl
    · simp only [if_neg hp, bind, Except.bind, hget, ih, placesAll]
      cases t <;> rfl

end Kefir.Abi
