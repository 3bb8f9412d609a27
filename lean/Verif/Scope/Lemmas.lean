import Verif.Scope.Model
import Verif.HashTree.Lemmas

namespace Kefir.Scope

open Kefir.HashTree (Ops Node Entry Map Lawful Rel runCalls pairs)

variable {K V : Type}

/-! ### One scope -/

theorem flatAt_spec {ops : Ops K} (law : Lawful ops) {t : Node K V} {m : Map K V}
    (h : Rel ops t m) (k : K) :
    flatAt ops k t = match m.find? (fun p => ops.compareKeys p.1 k) with
      | some p => .ok p.2
      | none => .error .notFound := by
  have hs := (HashTree.step_refines law h (.at k)).2
  simp only [HashTree.implStep, HashTree.specStep] at hs
  unfold flatAt
  cases hf : m.find? (fun p => ops.compareKeys p.1 k) with
  | some p =>
    rw [hf] at hs
    cases ha : HashTree.at' ops k t with
    | ok e => rw [ha] at hs; simp at hs; simp [hs.2]
    | error e => rw [ha] at hs; simp at hs
  | none =>
    rw [hf] at hs
    cases ha : HashTree.at' ops k t with
    | ok e => rw [ha] at hs; simp at hs
    | error e => rw [ha] at hs; simp at hs; simp [hs]

theorem flatInsert_spec {ops : Ops K} (law : Lawful ops) {t : Node K V} {m : Map K V}
    (h : Rel ops t m) (k : K) (v : V) :
    (m.any (fun p => ops.compareKeys p.1 k) = true ∧ flatInsert ops k v t = .error .alreadyExists) ∨
    (m.any (fun p => ops.compareKeys p.1 k) = false ∧
      ∃ t', flatInsert ops k v t = .ok t' ∧ Rel ops t' ((k, v) :: m)) := by
  have hs := HashTree.step_refines law h (.insert k v)
  simp only [HashTree.implStep, HashTree.specStep] at hs
  unfold flatInsert
  cases hf : m.any (fun p => ops.compareKeys p.1 k) with
  | true =>
    left
    rw [hf] at hs
    cases ha : HashTree.insert ops true k v t with
    | ok e => rw [ha] at hs; simp at hs
    | error e => rw [ha] at hs; simp at hs; simp [hs.2]
  | false =>
    right
    rw [hf] at hs
    cases ha : HashTree.insert ops true k v t with
    | ok e => rw [ha] at hs; simp at hs; exact ⟨rfl, e, rfl, hs⟩
    | error e => rw [ha] at hs; simp at hs

theorem flatEmpty_spec {ops : Ops K} (law : Lawful ops) {t : Node K V} {m : Map K V}
    (h : Rel ops t m) : flatEmpty t = m.isEmpty := by
  have hs := (HashTree.step_refines law h .empty).2
  simpa [HashTree.implStep, HashTree.specStep, flatEmpty] using hs

/-! ### The tree -/

def parentOf (nodes : List (TreeNode K V)) (i : Nat) : Option Nat := (nodes[i]?).bind (·.parent)

/-- The scopes from node `i` up to the root. -/
def Path (ops : Ops K) (nodes : List (TreeNode K V)) : Nat → List (Map K V) → Prop
  | _, [] => False
  | i, [m] => ∃ n, nodes[i]? = some n ∧ Rel ops n.value m ∧ n.parent = none
  | i, m :: m' :: ms => ∃ n p, nodes[i]? = some n ∧ Rel ops n.value m ∧ n.parent = some p ∧
      Path ops nodes p (m' :: ms)

/-- Well-formed trees: a node is older than its children, and the lists of children are right. -/
structure WF (nodes : List (TreeNode K V)) : Prop where
  root : ∃ n : TreeNode K V, nodes[0]? = some n ∧ n.parent = none
  older : ∀ (i : Nat) (n : TreeNode K V), nodes[i]? = some n → ∀ p, n.parent = some p → p < i
  nonroot : ∀ (i : Nat) (n : TreeNode K V), nodes[i]? = some n → 0 < i → n.parent ≠ none
  children : ∀ (i : Nat) (n : TreeNode K V), nodes[i]? = some n →
    n.children = (List.range nodes.length).filter (fun j => parentOf nodes j == some i)

/-- All declarations made so far, whether visible or not. -/
def allPairs (nodes : List (TreeNode K V)) : List (K × V) := nodes.flatMap (fun n => pairs n.value)

structure RelB (ops : Ops K) (b : BlockScope K V) (s : Scopes K V) : Prop where
  wf : WF b.nodes
  path : Path ops b.nodes b.top s.stack
  inv : ∀ n ∈ b.nodes, ∃ m, Rel ops n.value m
  declared : s.declared = !(allPairs b.nodes).isEmpty

theorem path_congr {ops : Ops K} {nodes nodes' : List (TreeNode K V)} (hwf : WF nodes) :
    ∀ {ms : List (Map K V)} {i : Nat},
      (∀ j, j ≤ i → ∀ n, nodes[j]? = some n → ∃ n', nodes'[j]? = some n' ∧ n'.value = n.value ∧
        n'.parent = n.parent) → Path ops nodes i ms → Path ops nodes' i ms
  | [], _, _, h => h.elim
  | [m], i, hc, ⟨n, h1, h2, h3⟩ => by
    obtain ⟨n', g1, g2, g3⟩ := hc i (Nat.le_refl _) n h1
    exact ⟨n', g1, by rw [g2]; exact h2, by rw [g3]; exact h3⟩
  | m :: m' :: ms, i, hc, ⟨n, p, h1, h2, h3, h4⟩ => by
    obtain ⟨n', g1, g2, g3⟩ := hc i (Nat.le_refl _) n h1
    refine ⟨n', p, g1, by rw [g2]; exact h2, by rw [g3]; exact h3, ?_⟩
    have := hwf.older i n h1 p h3
    exact path_congr hwf (fun j hj => hc j (by omega)) h4

theorem path_top {ops : Ops K} {nodes : List (TreeNode K V)} {i : Nat} {ms : List (Map K V)}
    (h : Path ops nodes i ms) : ∃ m rest n, ms = m :: rest ∧ nodes[i]? = some n ∧
      Rel ops n.value m := by
  match ms, h with
  | [m], ⟨n, h1, h2, _⟩ => exact ⟨m, [], n, rfl, h1, h2⟩
  | m :: m' :: ms, ⟨n, _, h1, h2, _⟩ => exact ⟨m, m' :: ms, n, rfl, h1, h2⟩

theorem atLoop_spec {ops : Ops K} (law : Lawful ops) {nodes : List (TreeNode K V)} (hwf : WF nodes)
    (k : K) : ∀ {ms : List (Map K V)} {i fuel : Nat}, i < fuel → Path ops nodes i ms →
      blockAtLoop ops k nodes fuel i = some (match innermost ops.compareKeys k ms with
        | some v => .ok v
        | none => .error .notFound)
  | [], _, _, _, h => h.elim
  | [m], i, fuel, hf, ⟨n, h1, h2, h3⟩ => by
    obtain ⟨f, rfl⟩ : ∃ f, fuel = f + 1 := ⟨fuel - 1, by omega⟩
    simp only [blockAtLoop, h1, flatAt_spec law h2, innermost]
    cases m.find? (fun p => ops.compareKeys p.1 k) with
    | some p => rfl
    | none => simp [h3]
  | m :: m' :: ms, i, fuel, hf, ⟨n, p, h1, h2, h3, h4⟩ => by
    obtain ⟨f, rfl⟩ : ∃ f, fuel = f + 1 := ⟨fuel - 1, by omega⟩
    have hp := hwf.older i n h1 p h3
    have ih := atLoop_spec law hwf k (fuel := f) (by omega) h4
    rw [innermost]
    simp only [blockAtLoop, h1, flatAt_spec law h2]
    cases m.find? (fun p => ops.compareKeys p.1 k) with
    | some p => rfl
    | none => simp only [h3]; exact ih

/-! ### Traversal from the root reaches every node once -/

/-- `c` is `j` or an ancestor of `j`. -/
def anc (nodes : List (TreeNode K V)) (c : Nat) : Nat → Nat → Bool
  | 0, _ => false
  | fuel + 1, j => j == c || match parentOf nodes j with
    | some p => anc nodes c fuel p
    | none => false

theorem parentOf_lt {nodes : List (TreeNode K V)} (hwf : WF nodes) {j p : Nat}
    (h : parentOf nodes j = some p) : p < j ∧ j < nodes.length := by
  unfold parentOf at h
  cases hn : nodes[j]? with
  | none => rw [hn] at h; simp at h
  | some n =>
    rw [hn] at h
    exact ⟨hwf.older j n hn p (by simpa using h), (List.getElem?_eq_some_iff.1 hn).1⟩

theorem anc_fuel {nodes : List (TreeNode K V)} (hwf : WF nodes) (c : Nat) :
    ∀ (f g j : Nat), j < f → j < g → anc nodes c f j = anc nodes c g j := by
  intro f
  induction f with
  | zero => intro g j h; omega
  | succ f ih =>
    intro g j h1 h2
    obtain ⟨g, rfl⟩ : ∃ g', g = g' + 1 := ⟨g - 1, by omega⟩
    simp only [anc]
    cases hp : parentOf nodes j with
    | none => rfl
    | some p =>
      have := (parentOf_lt hwf hp).1
      simp only [ih g p (by omega) (by omega)]

theorem anc_le {nodes : List (TreeNode K V)} (hwf : WF nodes) (c : Nat) :
    ∀ (f j : Nat), anc nodes c f j = true → c ≤ j := by
  intro f
  induction f with
  | zero => intro j h; simp [anc] at h
  | succ f ih =>
    intro j h
    simp only [anc, Bool.or_eq_true, beq_iff_eq] at h
    rcases h with rfl | h
    · exact Nat.le_refl _
    · cases hp : parentOf nodes j with
      | none => rw [hp] at h; simp at h
      | some p =>
        rw [hp] at h
        have := (parentOf_lt hwf hp).1
        have := ih p h
        omega

theorem anc_root {nodes : List (TreeNode K V)} (hwf : WF nodes) :
    ∀ (f j : Nat), j < f → j < nodes.length → anc nodes 0 f j = true := by
  intro f
  induction f with
  | zero => intro j h; omega
  | succ f ih =>
    intro j h hl
    simp only [anc, Bool.or_eq_true, beq_iff_eq]
    by_cases h0 : j = 0
    · exact .inl h0
    · right
      have hn : nodes[j]? = some nodes[j] := List.getElem?_eq_some_iff.2 ⟨hl, rfl⟩
      have hne := hwf.nonroot j _ hn (by omega)
      cases hp : parentOf nodes j with
      | none => simp only [parentOf, hn, Option.bind_some] at hp; exact absurd hp hne
      | some p =>
        have := parentOf_lt hwf hp
        exact ih p (by omega) (by omega)

/-- The number of children of `i` that are ancestors of `j` (or `j` itself). -/
theorem children_anc {nodes : List (TreeNode K V)} (hwf : WF nodes) (i : Nat) :
    ∀ (f j : Nat), j < f →
      (((List.range nodes.length).filter (fun c => parentOf nodes c == some i)).map
        (fun c => if anc nodes c f j then 1 else 0)).sum =
        if i ≠ j ∧ anc nodes i f j = true then 1 else 0 := by
  intro f
  induction f with
  | zero => intro j h; omega
  | succ f ih =>
    intro j hj
    -- the sum splits into the child `j` itself and the children that are above its parent
    have key : ∀ L : List Nat, L.Nodup → (∀ c ∈ L, parentOf nodes c = some i) →
        (L.map (fun c => if anc nodes c (f + 1) j then 1 else 0)).sum =
          (if j ∈ L then 1 else 0) + match parentOf nodes j with
            | some p => (L.map (fun c => if anc nodes c f p then 1 else 0)).sum
            | none => 0 := by
      intro L hnd hL
      induction L with
      | nil => cases parentOf nodes j <;> simp
      | cons c L ihL =>
        rw [List.nodup_cons] at hnd
        have ihL' := ihL hnd.2 (fun c hc => hL c (by simp [hc]))
        simp only [List.map_cons, List.sum_cons, ihL']
        simp only [anc]
        by_cases hc : j = c
        · subst hc
          have : j ∉ L := hnd.1
          simp only [beq_self_eq_true, Bool.true_or, if_true, this, if_false, List.mem_cons, true_or]
          have hpi := hL j (by simp)
          rw [hpi]
          have : anc nodes j f i = false := by
            cases h : anc nodes j f i with
            | false => rfl
            | true =>
              have h1 := anc_le hwf _ _ _ h
              have h2 := (parentOf_lt hwf hpi).1
              omega
          simp [this]
        · have hc' : (j == c) = false := by simpa using hc
          simp only [hc', Bool.false_or, List.mem_cons, hc, false_or]
          cases parentOf nodes j with
          | none => simp
          | some p => simp only []; omega
    rw [key _ (List.Pairwise.filter _ List.nodup_range)
      (fun c hc => by simpa using (List.mem_filter.1 hc).2)]
    have hmem : (j ∈ (List.range nodes.length).filter (fun c => parentOf nodes c == some i)) ↔
        parentOf nodes j = some i := by
      rw [List.mem_filter, List.mem_range]
      constructor
      · intro h; simpa using h.2
      · intro h; exact ⟨(parentOf_lt hwf h).2, by simpa using h⟩
    simp only [hmem]
    cases hp : parentOf nodes j with
    | none => simp [anc, hp]; intro h1 h2; exact h1 h2.symm
    | some p =>
      have hlt := (parentOf_lt hwf hp).1
      simp only [Option.some.injEq]
      rw [ih p (by omega)]
      by_cases hpi : p = i
      · subst hpi
        have : anc nodes p (f + 1) j = true := by
          simp only [anc, hp, Bool.or_eq_true]
          right
          obtain ⟨f', rfl⟩ : ∃ f', f = f' + 1 := ⟨f - 1, by omega⟩
          simp [anc]
        have hne : p ≠ j := by omega
        simp [this, hne]
      · have hpi' : i ≠ p := fun h => hpi h.symm
        simp only [hpi, if_false, hpi', ne_eq, not_false_eq_true, true_and, Nat.zero_add]
        by_cases hij : i = j
        · subst hij
          have : anc nodes i f p = false := by
            cases h : anc nodes i f p with
            | false => rfl
            | true => have h1 := anc_le hwf _ _ _ h; omega
          simp [this]
        · have : (j == i) = false := by simpa using fun h => hij h.symm
          simp [anc, this, hp, hij]

/-- The nodes below `i`, in the order in which `kefir_tree_free` visits them. -/
def visit (nodes : List (TreeNode K V)) : Nat → Nat → Option (List Nat)
  | 0, _ => none
  | fuel + 1, i =>
    match nodes[i]? with
    | none => none
    | some n =>
      match freeList (visit nodes fuel) n.children with
      | none => none
      | some l => some (i :: l)

theorem freeList_count {rec' : Nat → Option (List Nat)} {L : List Nat} {g : Nat → Nat} {j : Nat}
    (h : ∀ c ∈ L, ∃ l, rec' c = some l ∧ l.count j = g c) :
    ∃ l, freeList rec' L = some l ∧ l.count j = (L.map g).sum := by
  induction L with
  | nil => exact ⟨[], rfl, rfl⟩
  | cons c L ih =>
    obtain ⟨l, h1, h2⟩ := h c (by simp)
    obtain ⟨l', h3, h4⟩ := ih (fun c hc => h c (by simp [hc]))
    exact ⟨l ++ l', by simp [freeList, h1, h3], by simp [List.count_append, h2, h4]⟩

theorem visit_count {nodes : List (TreeNode K V)} (hwf : WF nodes) (j : Nat)
    (hj : j < nodes.length) :
    ∀ (f i : Nat), i < nodes.length → nodes.length ≤ i + f →
      ∃ l, visit nodes f i = some l ∧
        l.count j = if anc nodes i nodes.length j then 1 else 0 := by
  intro f
  induction f with
  | zero => intro i h1 h2; omega
  | succ f ih =>
    intro i h1 h2
    have hn : nodes[i]? = some nodes[i] := List.getElem?_eq_some_iff.2 ⟨h1, rfl⟩
    have hch := hwf.children i _ hn
    obtain ⟨l, e1, e2⟩ := freeList_count (rec' := visit nodes f) (L := nodes[i].children)
      (g := fun c => if anc nodes c nodes.length j then 1 else 0) (j := j) (by
        intro c hc
        rw [hch, List.mem_filter, List.mem_range] at hc
        have := parentOf_lt hwf (by simpa using hc.2 : parentOf nodes c = some i)
        exact ih c hc.1 (by omega))
    refine ⟨i :: l, by simp only [visit, hn, e1], ?_⟩
    rw [List.count_cons, e2, hch, children_anc hwf i nodes.length j hj]
    by_cases hij : i = j
    · subst hij
      have : anc nodes i nodes.length i = true := by
        obtain ⟨n', hn'⟩ : ∃ n', nodes.length = n' + 1 := ⟨nodes.length - 1, by omega⟩
        rw [hn']; simp [anc]
      simp [this]
    · simp [hij]

theorem visit_perm {nodes : List (TreeNode K V)} (hwf : WF nodes) :
    ∃ l, visit nodes nodes.length 0 = some l ∧ l.Perm (List.range nodes.length) := by
  have h0 : 0 < nodes.length := by
    obtain ⟨n, hn, _⟩ := hwf.root
    exact (List.getElem?_eq_some_iff.1 hn).1
  obtain ⟨l, hl, _⟩ := visit_count hwf 0 h0 nodes.length 0 h0 (by omega)
  refine ⟨l, hl, ?_⟩
  have hbound : ∀ (f i : Nat) (l : List Nat), visit nodes f i = some l →
      ∀ j ∈ l, j < nodes.length := by
    intro f
    induction f with
    | zero => intro i l h; simp [visit] at h
    | succ f ih =>
      intro i l h j hj
      simp only [visit] at h
      cases hn : nodes[i]? with
      | none => rw [hn] at h; simp at h
      | some n =>
        rw [hn] at h
        simp only at h
        have hfl : ∀ (L : List Nat) (l : List Nat), freeList (visit nodes f) L = some l →
            ∀ j ∈ l, j < nodes.length := by
          intro L
          induction L with
          | nil => intro l h j hj; simp [freeList] at h; subst h; simp at hj
          | cons c L ihL =>
            intro l h j hj
            simp only [freeList] at h
            cases hc : visit nodes f c with
            | none => rw [hc] at h; simp at h
            | some a =>
              rw [hc] at h
              cases hd : freeList (visit nodes f) L with
              | none => rw [hd] at h; simp at h
              | some b =>
                rw [hd] at h
                simp at h; subst h
                rcases List.mem_append.1 hj with hj | hj
                · exact ih c a hc j hj
                · exact ihL b hd j hj
        cases hfr : freeList (visit nodes f) n.children with
        | none => rw [hfr] at h; simp at h
        | some l' =>
          rw [hfr] at h
          simp at h; subst h
          rcases List.mem_cons.1 hj with rfl | hj
          · exact (List.getElem?_eq_some_iff.1 hn).1
          · exact hfl _ _ hfr j hj
  rw [List.perm_iff_count]
  intro j
  by_cases hj : j < nodes.length
  · obtain ⟨l', hl', hc⟩ := visit_count hwf j hj nodes.length 0 h0 (by omega)
    rw [hl] at hl'
    injection hl' with hl'
    subst hl'
    rw [hc, anc_root hwf nodes.length j hj hj, if_pos rfl]
    exact ((List.nodup_range).count (a := j)).symm ▸ by simp [hj]
  · rw [List.count_eq_zero.2 (fun hm => hj (hbound _ _ _ hl j hm)),
      List.count_eq_zero.2 (by simpa using hj)]

def valueAt (nodes : List (TreeNode K V)) (j : Nat) : List (Entry K V) :=
  match nodes[j]? with
  | some n => HashTree.nodeFree n.value
  | none => []

theorem freeList_flatMap {E : Type} {r1 : Nat → Option (List E)} {r2 : Nat → Option (List Nat)}
    {g : Nat → List E} (h : ∀ c, r1 c = (r2 c).map (·.flatMap g)) (L : List Nat) :
    freeList r1 L = (freeList r2 L).map (·.flatMap g) := by
  induction L with
  | nil => rfl
  | cons c L ih =>
    simp only [freeList, h c, ih]
    cases r2 c with
    | none => rfl
    | some a => cases freeList r2 L <;> simp

theorem treeFree_visit (nodes : List (TreeNode K V)) : ∀ (f i : Nat),
    treeFree nodes f i = (visit nodes f i).map (·.flatMap (valueAt nodes)) := by
  intro f
  induction f with
  | zero => intro i; rfl
  | succ f ih =>
    intro i
    simp only [treeFree, visit]
    cases hn : nodes[i]? with
    | none => rfl
    | some n =>
      simp only [freeList_flatMap ih]
      cases freeList (visit nodes f) n.children with
      | none => rfl
      | some l => simp [valueAt, hn]

theorem flatMap_range {E : Type} (nodes : List (TreeNode K V)) (g : TreeNode K V → List E) :
    (List.range nodes.length).flatMap (fun j => match nodes[j]? with
      | some n => g n
      | none => []) = nodes.flatMap g := by
  induction nodes with
  | nil => rfl
  | cons n nodes ih =>
    rw [List.length_cons, List.range_succ_eq_map, List.flatMap_cons, List.flatMap_map]
    simp only [List.getElem?_cons_zero, List.getElem?_cons_succ, ih, List.flatMap_cons]

theorem blockFree_spec {b : BlockScope K V} (hwf : WF b.nodes) :
    ∃ log, blockFree b = some log ∧
      (log.map (fun e => (e.key, e.value))).Perm (allPairs b.nodes) := by
  obtain ⟨l, h1, h2⟩ := visit_perm hwf
  refine ⟨l.flatMap (valueAt b.nodes), by rw [blockFree, treeFree_visit, h1]; rfl, ?_⟩
  have h3 : (l.flatMap (valueAt b.nodes)).Perm
      ((List.range b.nodes.length).flatMap (valueAt b.nodes)) := h2.flatMap_right _
  refine (h3.map _).trans ?_
  have h4 : (List.range b.nodes.length).flatMap (valueAt b.nodes) =
      b.nodes.flatMap (fun n => HashTree.nodeFree n.value) := flatMap_range b.nodes _
  rw [h4]
  unfold allPairs
  rw [List.map_flatMap]
  generalize b.nodes = ns
  clear h1 h2 h3 h4
  induction ns with
  | nil => exact .refl _
  | cons n ns ih =>
    simp only [List.flatMap_cons]
    exact ((HashTree.nodeFree_perm n.value).map _).append ih

/-! ### Emptiness -/

theorem allEmpty_spec {r : Nat → Option Bool} {r2 : Nat → Option (List Nat)}
    {p : Nat → Bool} : ∀ {L l : List Nat},
      (∀ c ∈ L, ∀ l, r2 c = some l → r c = some (l.all p)) →
      freeList r2 L = some l → allEmpty r L = some (l.all p)
  | [], l, _, h => by simp [freeList] at h; subst h; rfl
  | c :: L, l, hr, h => by
    simp only [freeList] at h
    cases hc : r2 c with
    | none => rw [hc] at h; simp at h
    | some a =>
      rw [hc] at h
      cases hd : freeList r2 L with
      | none => rw [hd] at h; simp at h
      | some b =>
        rw [hd] at h; simp at h; subst h
        have e1 := hr c (by simp) a hc
        have e2 := allEmpty_spec (fun c hc => hr c (by simp [hc])) hd
        simp only [allEmpty, e1, e2, List.all_append]
        cases a.all p <;> rfl

def emptyAt (nodes : List (TreeNode K V)) (j : Nat) : Bool :=
  match nodes[j]? with
  | some n => flatEmpty n.value
  | none => true

theorem treeEmpty_visit (nodes : List (TreeNode K V)) : ∀ (f i : Nat) (l : List Nat),
    visit nodes f i = some l → blockTreeEmpty nodes f i = some (l.all (emptyAt nodes)) := by
  intro f
  induction f with
  | zero => intro i l h; simp [visit] at h
  | succ f ih =>
    intro i l h
    simp only [visit] at h
    cases hn : nodes[i]? with
    | none => rw [hn] at h; simp at h
    | some n =>
      rw [hn] at h
      simp only at h
      cases hfr : freeList (visit nodes f) n.children with
      | none => rw [hfr] at h; simp at h
      | some l' =>
        rw [hfr] at h; simp at h; subst h
        have := allEmpty_spec (fun c _ l hl => ih c l hl) hfr
        simp only [blockTreeEmpty, hn, this, List.all_cons, emptyAt]
        cases flatEmpty n.value <;> rfl

theorem blockEmpty_spec {ops : Ops K} (law : Lawful ops) {b : BlockScope K V} (hwf : WF b.nodes)
    (hinv : ∀ n ∈ b.nodes, ∃ m, Rel ops n.value m) :
    blockEmpty b = some (allPairs b.nodes).isEmpty := by
  obtain ⟨l, h1, h2⟩ := visit_perm hwf
  rw [blockEmpty, treeEmpty_visit _ _ _ _ h1]
  congr 1
  rw [Bool.eq_iff_iff, List.all_eq_true]
  constructor
  · intro h
    rw [List.isEmpty_iff, allPairs, List.flatMap_eq_nil_iff]
    intro n hn
    obtain ⟨j, hj, rfl⟩ := List.getElem_of_mem hn
    have := h j (h2.mem_iff.2 (List.mem_range.2 hj))
    simp only [emptyAt, List.getElem?_eq_getElem hj] at this
    obtain ⟨m, hm⟩ := hinv _ hn
    rw [flatEmpty_spec law hm, List.isEmpty_iff] at this
    subst this
    have := hm.2
    simpa using this
  · intro h j _
    rw [List.isEmpty_iff, allPairs, List.flatMap_eq_nil_iff] at h
    unfold emptyAt
    cases hn : b.nodes[j]? with
    | none => rfl
    | some n =>
      have hm := List.mem_of_getElem? hn
      obtain ⟨m, hr⟩ := hinv n hm
      have hp : (pairs n.value).Perm m := hr.2
      rw [h n hm] at hp
      show flatEmpty n.value = true
      rw [flatEmpty_spec law hr]
      have := hp.symm.eq_nil
      rw [this]; rfl

end Kefir.Scope
