import Verif.Locals.Parse
import Verif.Layout.Props

/-!
# Where scopes and objects are placed
-/

namespace Kefir.Locals

open Kefir.Layout

/-- No alignment or a power of two. -/
def P2 (x : Nat) : Prop := x = 0 ∨ ∃ e, x = 2 ^ e

theorem P2.max {a b : Nat} (ha : P2 a) (hb : P2 b) : P2 (Nat.max a b) := by
  rcases Nat.le_total a b with h | h
  · rw [show Nat.max a b = b from Nat.max_eq_right h]; exact hb
  · rw [show Nat.max a b = a from Nat.max_eq_left h]; exact ha

/-- Whatever layout the type has, its alignment is a power of two. -/
def PowTy (ty : Ty) : Prop := ∀ l, Laid ty l → ∃ e, l.data.alignment = 2 ^ e

/-- The entries from `q` have the data of the layout. -/
def Sub (v : List (Option Data)) (q : Nat) (l : LTree) : Prop :=
  ∀ (j : Nat) d, l.flat[j]? = some d → v[q + j]? = some (some d)

theorem Sub.head {v : List (Option Data)} {q : Nat} {l : LTree} (h : Sub v q l) : v[q]? = some (some l.data) := by
  cases l with
  | node d ls => exact h 0 d (by rw [LTree.flat]; rfl)

mutual
/-- The entries of a scope from `p` have data `v` such that the scope fits into an area of size `sz` and
alignment `al`, its objects one after the other and the union of nested scopes behind them. -/
def Placed (P : Prop) (v : List (Option Data)) (p sz al : Nat) : Scope → Prop
  | .node ids subs => scopeEmpty (.node ids subs) = false →
    ∃ d ls, v[p]? = some (some d) ∧ d.offset = 0 ∧ d.size ≤ sz ∧ d.alignment ≤ al ∧
      LaidAll (autos ids) ls ∧ Consecutive 0 (autos ids) ls ∧
      (∀ (k : Nat) l, ls[k]? = some l →
        Sub v (p + 1 + (flattenAll ((autos ids).take k)).length) l) ∧
      (∀ l ∈ ls, l.stop ≤ d.size ∧ l.data.alignment ≤ d.alignment) ∧
      (subsEmpty subs = false → ∃ du, v[p + 1 + (flattenAll (autos ids)).length]? = some (some du) ∧
        (∀ l ∈ ls, l.stop ≤ du.offset) ∧ du.offset + du.size ≤ d.size ∧ du.alignment ≤ d.alignment ∧
        (0 < du.alignment → du.offset % du.alignment = 0) ∧ (P → P2 du.alignment) ∧
        PlacedAll P v (p + 1 + (flattenAll (autos ids)).length + 1) du.size du.alignment subs)

def PlacedAll (P : Prop) (v : List (Option Data)) (p sz al : Nat) : List Scope → Prop
  | [] => True
  | s :: ss => Placed P v p sz al s ∧ PlacedAll P v (p + (ent s).length) sz al ss
end

theorem placedAll_append {P v sz al} : ∀ (xs ys : List Scope) (p : Nat),
    PlacedAll P v p sz al (xs ++ ys) ↔ PlacedAll P v p sz al xs ∧ PlacedAll P v (p + (entAll xs).length) sz al ys
  | [], ys, p => by simp [PlacedAll, entAll]
  | x :: xs, ys, p => by
    simp only [List.cons_append, PlacedAll, placedAll_append xs ys, entAll, List.length_append, and_assoc,
      Nat.add_assoc]

/-- A larger area does as well. -/
theorem Placed.mono {P v p sz al sz' al'} : ∀ {s : Scope}, Placed P v p sz al s → sz ≤ sz' → al ≤ al' →
    Placed P v p sz' al' s
  | .node ids subs, h, h1, h2 => by
    simp only [Placed] at h ⊢
    intro he
    obtain ⟨d, ls, a, b, c, e, r⟩ := h he
    exact ⟨d, ls, a, b, by omega, by omega, r⟩

theorem placedAll_mono {P v sz al sz' al'} (h1 : sz ≤ sz') (h2 : al ≤ al') : ∀ (ss : List Scope) (p : Nat),
    PlacedAll P v p sz al ss → PlacedAll P v p sz' al' ss
  | [], _, _ => trivial
  | _ :: ss, _, h => ⟨h.1.mono h1 h2, placedAll_mono h1 h2 ss _ h.2⟩

/-! ## One node -/

theorem layoutNodes_zero (t i c v) : layoutNodes t i 0 c v = .ok (c, v) := by rw [layoutNodes]

theorem layoutNodes_out (t i n c v) (h : t.length ≤ i) : layoutNodes t i n c v = .ok (c, v) := by
  cases n with
  | zero => rw [layoutNodes]
  | succ n => rw [layoutNodes, dif_neg (by omega)]

theorem layoutNodes_succ (t : List Entry) (i n : Nat) (c : Compound) (v : List (Option Data)) :
    layoutNodes t i (n + 1) c v =
      (layoutNodes t i 1 c v).bind (fun r => layoutNodes t (i + nodeLen t i) n r.1 r.2) := by
  by_cases h : i < t.length
  · rw [layoutNodes, layoutNodes.eq_2 t i c v 0, dif_pos h, dif_pos h]
    simp only [bind]
    split
    · split
      · cases layoutNodes t (i + 1) t[i].param (Compound.fresh true) v with
        | error e => rfl
        | ok r => simp only [Except.bind, layoutNodes_zero]
      · rfl
    · split
      · cases layoutNodes t (i + 1) t[i].param (Compound.fresh false) v with
        | error e => rfl
        | ok r => simp only [Except.bind, layoutNodes_zero]
      · rfl
    · cases layoutNodes t (i + 1) 1 (Compound.fresh false) v with
        | error e => rfl
        | ok r => simp only [Except.bind, layoutNodes_zero]
    · rename_i k hk
      cases leafLayout k t[i].param with
        | error e => rfl
        | ok r => simp only [Except.bind, layoutNodes_zero]
  · rw [layoutNodes_out _ _ _ _ _ (by omega), layoutNodes_out _ _ _ _ _ (by omega)]
    simp only [Except.bind]
    rw [layoutNodes_out _ _ _ _ _ (by omega)]

theorem layoutNodes_add (t : List Entry) (b : Nat) : ∀ (a i : Nat) (c : Compound) (v : List (Option Data)),
    layoutNodes t i (a + b) c v =
      (layoutNodes t i a c v).bind (fun r => layoutNodes t (i + childrenLen t i a) b r.1 r.2)
  | 0, i, c, v => by
    rw [layoutNodes_zero, childrenLen.eq_1]; simp [Except.bind]
  | a + 1, i, c, v => by
    rw [show a + 1 + b = (a + b) + 1 by omega, layoutNodes_succ, layoutNodes_succ t i a, childrenLen.eq_2]
    cases layoutNodes t i 1 c v with
    | error e => rfl
    | ok r =>
      simp only [Except.bind]
      rw [layoutNodes_add t b a]
      cases layoutNodes t (i + nodeLen t i) a r.1 r.2 with
      | error e => rfl
      | ok r => simp only [Except.bind, Nat.add_assoc]

theorem layout_struct {pre post : List Entry} {k : Nat} {c cn : Compound} {v vn : List (Option Data)} (hk : 0 < k)
    (h : layoutNodes (pre ++ ⟨.struct, 0, k⟩ :: post) (pre.length + 1) k (.fresh true) v = .ok (cn, vn)) :
    layoutNodes (pre ++ ⟨.struct, 0, k⟩ :: post) pre.length 1 c v =
      .ok ((update c (compoundData true cn) ⟨.struct, 0, k⟩).1,
        vn.set pre.length (some (update c (compoundData true cn) ⟨.struct, 0, k⟩).2)) := by
  rw [layoutNodes, dif_pos (by simp)]
  simp only [List.getElem_append_right (Nat.le_refl _), Nat.sub_self, List.getElem_cons_zero, hk, if_true, h]
  simp only [bind, Except.bind, layoutNodes_zero]

theorem layout_union {pre post : List Entry} {k : Nat} {c cn : Compound} {v vn : List (Option Data)} (hk : 0 < k)
    (h : layoutNodes (pre ++ ⟨.union, 0, k⟩ :: post) (pre.length + 1) k (.fresh false) v = .ok (cn, vn)) :
    layoutNodes (pre ++ ⟨.union, 0, k⟩ :: post) pre.length 1 c v =
      .ok ((update c (compoundData false cn) ⟨.union, 0, k⟩).1,
        vn.set pre.length (some (update c (compoundData false cn) ⟨.union, 0, k⟩).2)) := by
  rw [layoutNodes, dif_pos (by simp)]
  simp only [List.getElem_append_right (Nat.le_refl _), Nat.sub_self, List.getElem_cons_zero, hk, if_true, h]
  simp only [bind, Except.bind, layoutNodes_zero]

/-! ## Objects -/

theorem flatL_at : ∀ (ts : List Ty) (c : Compound) (k : Nat) (l : LTree), (layAll c ts).2[k]? = some l →
    ∀ (j : Nat) d, l.flat[j]? = some d → (flatL (layAll c ts).2)[(flattenAll (ts.take k)).length + j]? = some d
  | [], c, k, l, h, j, d, hj => by simp [layAll] at h
  | t :: ts, c, 0, l, h, j, d, hj => by
    simp only [layAll, List.getElem?_cons_zero, Option.some.injEq] at h
    subst h
    simp only [layAll, List.take_zero, flattenAll, List.length_nil, Nat.zero_add, flatL]
    rw [List.getElem?_append_left (List.getElem?_eq_some_iff.1 hj).1]
    exact hj
  | t :: ts, c, k + 1, l, h, j, d, hj => by
    simp only [layAll, List.getElem?_cons_succ] at h
    have ih := flatL_at ts _ k l h j d hj
    simp only [layAll, List.take_succ_cons, flattenAll, List.length_append, flatL]
    rw [List.getElem?_append_right (by rw [length_flat]; omega), length_flat]
    rw [show (flatten t).length + (flattenAll (ts.take k)).length + j - (flatten t).length =
      (flattenAll (ts.take k)).length + j by omega]
    exact ih

theorem autos_layout (ts : List Ty) (hw : WFAll ts) (pre post : List Entry) (c : Compound)
    (v : List (Option Data)) (hv : v.length = (pre ++ (flattenAll ts ++ post)).length) :
    ∃ v', layoutNodes (pre ++ (flattenAll ts ++ post)) pre.length ts.length c v = .ok ((layAll c ts).1, v') ∧
      v'.length = v.length ∧
      (∀ k, k < pre.length ∨ pre.length + (flattenAll ts).length ≤ k → v'[k]? = v[k]?) ∧
      (∀ (k : Nat) l, (layAll c ts).2[k]? = some l →
        Sub v' (pre.length + (flattenAll (ts.take k)).length) l) := by
  simp only [List.length_append] at hv
  obtain ⟨va, vb, vc, rfl, ha, hb⟩ : ∃ va vb vc, v = va ++ (vb ++ vc) ∧ va.length = pre.length ∧
      vb.length = (flattenAll ts).length :=
    ⟨v.take pre.length, (v.drop pre.length).take (flattenAll ts).length,
      (v.drop pre.length).drop (flattenAll ts).length,
      by rw [List.take_append_drop, List.take_append_drop], by simp; omega, by simp; omega⟩
  have hl := length_flatL ts c
  refine ⟨_, steps ts hw pre post va vb vc c ha hb, ?_, ?_, ?_⟩
  · simp only [List.length_append, List.length_map, hl, hb]
  · intro k hk
    rcases hk with hk | hk
    · rw [List.getElem?_append_left (by omega), List.getElem?_append_left (by omega)]
    · rw [List.getElem?_append_right (l₁ := va) (by omega), List.getElem?_append_right (l₁ := va) (by omega),
        List.getElem?_append_right (l₁ := List.map some _) (by simp only [List.length_map, hl]; omega),
        List.getElem?_append_right (l₁ := vb) (by omega)]
      simp only [List.length_map, hl, hb]
  · intro k l h j d hj
    have := flatL_at ts c k l h j d hj
    have hlt := (List.getElem?_eq_some_iff.1 this).1
    rw [List.getElem?_append_right (by omega), ha]
    rw [show pre.length + (flattenAll (ts.take k)).length + j - pre.length =
      (flattenAll (ts.take k)).length + j by omega]
    rw [List.getElem?_append_left (by simpa using hlt), List.getElem?_map, this]
    rfl

end Kefir.Locals
