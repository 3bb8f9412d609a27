import Verif.Locals.Closed

/-!
# How the type of the frame is read

The parameter of the union of nested scopes counts scopes without entries, so a traversal of the type
takes scopes that follow as further members of the union.  `Eats n rs con rem`: reading `n` nodes where the
entries of the scopes `rs` follow one another takes the scopes `con` and leaves `rem`.
-/

namespace Kefir.Locals

open Kefir.Layout

inductive Eats : Nat → List Scope → List Scope → List Scope → Prop
  | zero {rs} : Eats 0 rs [] rs
  | nil {n} : Eats n [] [] []
  | skip {n s ss con rem} : scopeEmpty s = true → Eats n ss con rem → Eats n (s :: ss) (s :: con) rem
  | flat {n ids subs ss con rem} : scopeEmpty (.node ids subs) = false → subsEmpty subs = true →
      Eats n ss con rem → Eats (n + 1) (.node ids subs :: ss) (.node ids subs :: con) rem
  | deep {n ids subs ss con1 rem1 con2 rem} : scopeEmpty (.node ids subs) = false → subsEmpty subs = false →
      Eats subs.length (subs ++ ss) (subs ++ con1) rem1 → ss = con1 ++ rem1 → Eats n rem1 con2 rem →
      Eats (n + 1) (.node ids subs :: ss) (.node ids subs :: (con1 ++ con2)) rem

theorem Eats.append {n rs con rem} (h : Eats n rs con rem) : rs = con ++ rem := by
  induction h with
  | zero => rfl
  | nil => rfl
  | skip _ _ ih => simp [← ih]
  | flat _ _ _ ih => simp [← ih]
  | deep _ _ _ e _ _ ih2 => simp [e, ← ih2]

mutual
def weight : Scope → Nat
  | .node _ subs => 1 + weightAll subs

def weightAll : List Scope → Nat
  | [] => 0
  | s :: ss => weight s + weightAll ss
end

theorem weightAll_append : ∀ xs ys, weightAll (xs ++ ys) = weightAll xs + weightAll ys
  | [], ys => by simp [weightAll]
  | x :: xs, ys => by simp only [List.cons_append, weightAll, weightAll_append xs ys]; omega

/-- At least `n` scopes are taken if there are so many. -/
theorem eats_exists : ∀ (w : Nat) (n : Nat) (xs ys : List Scope), weightAll (xs ++ ys) ≤ w → xs.length ≤ n →
    ∃ con rem, Eats n (xs ++ ys) (xs ++ con) rem ∧ ys = con ++ rem
  | 0, n, xs, ys, hw, _ => by
    have : xs ++ ys = [] := by
      cases h : xs ++ ys with
      | nil => rfl
      | cons s ss =>
        rw [h] at hw
        cases s; simp only [weightAll, weight] at hw; omega
    have h2 := List.append_eq_nil_iff.1 this
    obtain ⟨rfl, rfl⟩ := h2
    exact ⟨[], [], .nil, rfl⟩
  | w + 1, n, xs, ys, hw, hn => by
    cases hr : xs ++ ys with
    | nil =>
      obtain ⟨rfl, rfl⟩ := List.append_eq_nil_iff.1 hr
      exact ⟨[], [], .nil, rfl⟩
    | cons s ss =>
      rw [hr] at hw
      obtain ⟨ids, subs⟩ := s
      simp only [weightAll, weight] at hw
      by_cases he : scopeEmpty (.node ids subs) = true
      · -- an empty scope
        cases xs with
        | nil =>
          simp only [List.nil_append] at hr; subst hr
          obtain ⟨con, rem, h, e⟩ := eats_exists w n [] ss (by simpa using (by omega : weightAll ss ≤ w)) (by simp)
          exact ⟨.node ids subs :: con, rem, by simpa using Eats.skip he (by simpa using h), by simp [e]⟩
        | cons x xs =>
          simp only [List.cons_append, List.cons.injEq] at hr
          obtain ⟨rfl, rfl⟩ := hr
          obtain ⟨con, rem, h, e⟩ := eats_exists w n xs ys (by omega) (by simp only [List.length_cons] at hn; omega)
          exact ⟨con, rem, Eats.skip he h, e⟩
      · have he' : scopeEmpty (.node ids subs) = false := by simpa using he
        cases n with
        | zero =>
          obtain rfl : xs = [] := by simpa using hn
          simp only [List.nil_append] at hr; subst hr
          exact ⟨[], _, by simpa using Eats.zero, rfl⟩
        | succ n =>
          by_cases hs : subsEmpty subs = true
          · cases xs with
            | nil =>
              simp only [List.nil_append] at hr; subst hr
              obtain ⟨con, rem, h, e⟩ := eats_exists w n [] ss (by simpa using (by omega : weightAll ss ≤ w)) (by simp)
              exact ⟨.node ids subs :: con, rem, by simpa using Eats.flat he' hs (by simpa using h), by simp [e]⟩
            | cons x xs =>
              simp only [List.cons_append, List.cons.injEq] at hr
              obtain ⟨rfl, rfl⟩ := hr
              obtain ⟨con, rem, h, e⟩ := eats_exists w n xs ys (by omega) (by simp only [List.length_cons] at hn; omega)
              exact ⟨con, rem, Eats.flat he' hs h, e⟩
          · have hs' : subsEmpty subs = false := by simpa using hs
            obtain ⟨con1, rem1, h1, e1⟩ := eats_exists w subs.length subs ss (by rw [weightAll_append]; omega)
              (Nat.le_refl _)
            have hwr : weightAll con1 + weightAll rem1 ≤ w := by rw [← weightAll_append, ← e1]; omega
            cases xs with
            | nil =>
              simp only [List.nil_append] at hr; subst hr
              obtain ⟨con, rem, h, e⟩ := eats_exists w n [] rem1 (by simpa using (by omega : weightAll rem1 ≤ w)) (by simp)
              exact ⟨.node ids subs :: (con1 ++ con), rem,
                by simpa using Eats.deep he' hs' h1 e1 (by simpa using h), by simp [e1, e]⟩
            | cons x xs =>
              simp only [List.cons_append, List.cons.injEq] at hr
              obtain ⟨rfl, rfl⟩ := hr
              rcases List.append_eq_append_iff.1 e1 with ⟨a, ha, hb⟩ | ⟨a, ha, hb⟩
              · -- all the wanted ones and `a` were taken
                obtain ⟨con, rem, h, e⟩ := eats_exists w n [] rem1 (by simpa using (by omega : weightAll rem1 ≤ w)) (by simp)
                refine ⟨a ++ con, rem, ?_, by rw [hb, e]; simp⟩
                have := Eats.deep he' hs' h1 e1 (by simpa using h)
                rw [ha] at this
                simpa using this
              · obtain ⟨con, rem, h, e⟩ := eats_exists w n a ys (by rw [← hb]; omega)
                  (by subst ha; simp only [List.length_cons, List.length_append] at hn; omega)
                refine ⟨con, rem, ?_, e⟩
                rw [← hb] at h
                have := Eats.deep he' hs' h1 e1 h
                subst ha
                simpa using this

/-! ## Lengths -/

theorem nodeLen_out (t : List Entry) (i : Nat) (h : t.length ≤ i) : nodeLen t i = 0 := by
  rw [nodeLen, dif_neg (by omega)]

theorem childrenLen_out (t : List Entry) (i : Nat) (h : t.length ≤ i) : ∀ n, childrenLen t i n = 0
  | 0 => by rw [childrenLen]
  | n + 1 => by rw [childrenLen, nodeLen_out t i h, Nat.add_zero, childrenLen_out t i h n]

theorem childrenLen_add (t : List Entry) : ∀ (a i b : Nat),
    childrenLen t i (a + b) = childrenLen t i a + childrenLen t (i + childrenLen t i a) b
  | 0, i, b => by rw [childrenLen.eq_1]; simp
  | a + 1, i, b => by
    rw [show a + 1 + b = (a + b) + 1 by omega, childrenLen, childrenLen_add t a,
      childrenLen.eq_2 t i a]
    simp only [Nat.add_assoc]

theorem childrenLen_one (t : List Entry) (i : Nat) : childrenLen t i 1 = nodeLen t i := by
  rw [childrenLen, childrenLen.eq_1]; simp

theorem getElem_mid (pre post : List Entry) (e : Entry) (h : pre.length < (pre ++ e :: post).length) :
    (pre ++ e :: post)[pre.length] = e := by simp

theorem entAll_append : ∀ xs ys, entAll (xs ++ ys) = entAll xs ++ entAll ys
  | [], ys => by simp [entAll]
  | x :: xs, ys => by simp [entAll, entAll_append xs ys]

theorem nodeLen_struct (pre post : List Entry) (n : Nat) :
    nodeLen (pre ++ ⟨.struct, 0, n⟩ :: post) pre.length =
      1 + childrenLen (pre ++ ⟨.struct, 0, n⟩ :: post) (pre.length + 1) n := by
  rw [nodeLen, dif_pos (by simp)]; simp

theorem nodeLen_union (pre post : List Entry) (n : Nat) :
    nodeLen (pre ++ ⟨.union, 0, n⟩ :: post) pre.length =
      1 + childrenLen (pre ++ ⟨.union, 0, n⟩ :: post) (pre.length + 1) n := by
  rw [nodeLen, dif_pos (by simp)]; simp

theorem childrenLen_autos (pre post : List Entry) (ts : List Ty) :
    childrenLen (pre ++ (flattenAll ts ++ post)) pre.length ts.length = (flattenAll ts).length :=
  childrenLen_flattenAll ts pre post

/-- Length of the node of a scope without nested objects. -/
theorem nodeLen_flat {ids subs} (he : scopeEmpty (.node ids subs) = false) (hs : subsEmpty subs = true)
    (pre post : List Entry) :
    nodeLen (pre ++ (ent (.node ids subs) ++ post)) pre.length = (ent (.node ids subs)).length := by
  simp only [ent, he, hs, Bool.false_eq_true, if_false, if_true, unionCount, Nat.add_zero, List.append_nil,
    List.cons_append, List.length_cons]
  rw [nodeLen_struct]
  have := childrenLen_autos (pre ++ [⟨.struct, 0, (autos ids).length⟩]) post (autos ids)
  simp only [List.append_assoc, List.cons_append, List.nil_append, List.length_append, List.length_cons,
    List.length_nil, Nat.zero_add] at this
  rw [this]; omega

/-- Length of the node of a scope with nested objects, given the length of what the union takes. -/
theorem nodeLen_deep {ids subs} (he : scopeEmpty (.node ids subs) = false) (hs : subsEmpty subs = false)
    (pre post : List Entry) (k : Nat)
    (h : childrenLen (pre ++ (ent (.node ids subs) ++ post))
      (pre.length + 1 + (flattenAll (autos ids)).length + 1) subs.length = k) :
    nodeLen (pre ++ (ent (.node ids subs) ++ post)) (pre.length + 1 + (flattenAll (autos ids)).length) = 1 + k ∧
    nodeLen (pre ++ (ent (.node ids subs) ++ post)) pre.length =
      1 + (flattenAll (autos ids)).length + 1 + k := by
  simp only [ent, he, hs, Bool.false_eq_true, if_false, unionCount,
    List.cons_append, List.append_assoc] at h ⊢
  have h1 := childrenLen_autos (pre ++ [⟨.struct, 0, (autos ids).length + 1⟩])
    (⟨.union, 0, subs.length⟩ :: (entAll subs ++ post)) (autos ids)
  have h2 := nodeLen_union (pre ++ [⟨.struct, 0, (autos ids).length + 1⟩] ++ flattenAll (autos ids))
    (entAll subs ++ post) subs.length
  simp only [List.append_assoc, List.cons_append, List.nil_append, List.length_append, List.length_cons,
    List.length_nil, Nat.zero_add] at h1 h2
  rw [show pre.length + ((flattenAll (autos ids)).length + 1) =
    pre.length + 1 + (flattenAll (autos ids)).length by omega, h] at h2
  refine ⟨h2, ?_⟩
  rw [nodeLen_struct, childrenLen_add, h1, childrenLen_one, h2]
  omega

theorem eats_length {n rs con rem} (h : Eats n rs con rem) : ∀ (pre : List Entry),
    childrenLen (pre ++ entAll rs) pre.length n = (entAll con).length := by
  induction h with
  | zero => intro pre; rw [childrenLen]; simp [entAll]
  | nil => intro pre; rw [childrenLen_out _ _ (by simp [entAll])]; simp [entAll]
  | skip he _ ih => intro pre; simpa [entAll, ent_nil_of_empty _ he] using ih pre
  | @flat n ids subs ss con rem he hs _ ih =>
    intro pre
    have h1 := nodeLen_flat he hs pre (entAll ss)
    have h2 := ih (pre ++ ent (.node ids subs))
    simp only [entAll, List.append_assoc, List.length_append] at h1 h2 ⊢
    rw [childrenLen, h1, h2]
  | @deep n ids subs ss con1 rem1 con2 rem he hs _ e _ ih1 ih2 =>
    intro pre
    have h1 := ih1 (pre ++ [⟨.struct, 0, (autos ids).length + 1⟩] ++ flattenAll (autos ids) ++
      [⟨.union, 0, subs.length⟩])
    have h3 := nodeLen_deep he hs pre (entAll ss) (entAll (subs ++ con1)).length
      (by
        simp only [ent, he, hs, Bool.false_eq_true, if_false, unionCount, List.cons_append, List.append_assoc,
          List.nil_append, List.length_append, List.length_cons, List.length_nil, Nat.zero_add, entAll_append,
          Nat.add_assoc] at h1 ⊢
        rw [show pre.length + (1 + ((flattenAll (autos ids)).length + 1)) =
          pre.length + ((flattenAll (autos ids)).length + (1 + 1)) by omega]
        exact h1)
    have h4 := ih2 (pre ++ ent (.node ids subs) ++ entAll con1)
    have h5 : (ent (.node ids subs)).length = 1 + (flattenAll (autos ids)).length + 1 + (entAll subs).length := by
      simp only [ent, he, hs, Bool.false_eq_true, if_false, List.length_cons, List.length_append]; omega
    subst e
    simp only [entAll, entAll_append, List.append_assoc, List.length_append] at h3 h4 ⊢
    rw [childrenLen, h3.2, h5]
    rw [h5] at h4
    rw [show pre.length + (1 + (flattenAll (autos ids)).length + 1 + ((entAll subs).length + (entAll con1).length)) =
      pre.length + (1 + (flattenAll (autos ids)).length + 1 + (entAll subs).length + (entAll con1).length) by omega, h4]
    omega

end Kefir.Locals
