import Verif.Locals.Model
import Verif.Layout.Aligned

/-!
# The type of the frame in closed form
-/

namespace Kefir.Locals

open Kefir.Layout

/-- Types of the automatic objects among the identifiers. -/
def autos : List Ident → List Ty
  | [] => []
  | .auto ty :: ids => ty :: autos ids
  | .label :: ids => autos ids
  | .other :: ids => autos ids

/-- 1 for the union of the nested scopes, if there is one. -/
def unionCount (subs : List Scope) : Nat := if subsEmpty subs then 0 else 1

mutual
/-- Entries of a scope. -/
def ent : Scope → List Entry
  | .node ids subs =>
    if scopeEmpty (.node ids subs) then []
    else ⟨.struct, 0, (autos ids).length + unionCount subs⟩ :: (flattenAll (autos ids) ++
      (if subsEmpty subs then [] else ⟨.union, 0, subs.length⟩ :: entAll subs))

def entAll : List Scope → List Entry
  | [] => []
  | s :: ss => ent s ++ entAll ss
end

/-- Objects of the identifiers, numbered from `k`, with entries from `i`. -/
def objIds (chain path : List Nat) (i k : Nat) : List Ident → List Obj
  | [] => []
  | .auto ty :: ids => ⟨path, k, chain ++ [i]⟩ :: objIds chain path (i + (flatten ty).length) (k + 1) ids
  | .label :: ids => objIds chain path i (k + 1) ids
  | .other :: ids => objIds chain path i (k + 1) ids

mutual
/-- Objects of a scope whose entries start at `i`. -/
def objs (chain path : List Nat) (i : Nat) : Scope → List Obj
  | .node ids subs =>
    if scopeEmpty (.node ids subs) then []
    else objIds (chain ++ [i]) path (i + 1) 0 ids ++
      (if subsEmpty subs then []
       else objsAll (chain ++ [i] ++ [i + 1 + (flattenAll (autos ids)).length]) path
         (i + 1 + (flattenAll (autos ids)).length + 1) 0 subs)

def objsAll (chain path : List Nat) (i n : Nat) : List Scope → List Obj
  | [] => []
  | s :: ss => objs chain (path ++ [n]) i s ++ objsAll chain path (i + (ent s).length) (n + 1) ss
end

theorem bump_at (pre post : List Entry) (e : Entry) :
    bump (pre ++ e :: post) pre.length = pre ++ { e with param := e.param + 1 } :: post := by
  induction pre with
  | nil => simp [bump]
  | cons a pre ih => simpa [bump] using ih

theorem autos_nil_of_idsEmpty : ∀ ids, idsEmpty ids = true → autos ids = []
  | [], _ => rfl
  | .auto _ :: _, h => by simp [idsEmpty] at h
  | .label :: _, h => by simp [idsEmpty] at h
  | .other :: ids, h => by
    simp only [idsEmpty] at h; simp only [autos]; exact autos_nil_of_idsEmpty ids h

mutual
theorem ent_nil_of_empty : ∀ s, scopeEmpty s = true → ent s = []
  | .node ids subs, h => by simp [ent, h]

theorem entAll_nil_of_empty : ∀ ss, subsEmpty ss = true → entAll ss = []
  | [], _ => by simp [entAll]
  | s :: ss, h => by
    simp only [subsEmpty, Bool.and_eq_true] at h
    simp [entAll, ent_nil_of_empty s h.1, entAll_nil_of_empty ss h.2]
end

theorem objIds_nil : ∀ ids, idsEmpty ids = true → ∀ chain path i k, objIds chain path i k ids = []
  | [], _, _, _, _, _ => rfl
  | .auto _ :: _, h, _, _, _, _ => by simp [idsEmpty] at h
  | .label :: _, h, _, _, _, _ => by simp [idsEmpty] at h
  | .other :: ids, h, _, _, _, _ => by
    simp only [idsEmpty] at h; simp only [objIds]; exact objIds_nil ids h _ _ _ _

theorem traverseIds_eq : ∀ (ids : List Ident) (pre post : List Entry) (e : Entry) (chain path : List Nat) (k : Nat),
    traverseIds (pre ++ e :: post) pre.length chain path k ids =
      (pre ++ { e with param := e.param + (autos ids).length } :: (post ++ flattenAll (autos ids)),
        objIds chain path (pre.length + 1 + post.length) k ids)
  | [], pre, post, e, chain, path, k => by simp [traverseIds, autos, flattenAll, objIds]
  | .auto ty :: ids, pre, post, e, chain, path, k => by
    have ih := traverseIds_eq ids pre (post ++ flatten ty) { e with param := e.param + 1 } chain path (k + 1)
    simp only [traverseIds, bump_at]
    rw [show pre ++ { e with param := e.param + 1 } :: post ++ flatten ty =
      pre ++ { e with param := e.param + 1 } :: (post ++ flatten ty) by simp, ih]
    simp only [autos, flattenAll, List.length_cons, List.append_assoc, objIds, List.length_append]
    refine Prod.ext ?_ ?_
    · simp only [Nat.add_assoc, Nat.add_comm 1]
    · simp only [List.cons.injEq]
      refine ⟨by simp only [Obj.mk.injEq, true_and]; congr 2; omega, ?_⟩
      rw [show pre.length + 1 + (post.length + (flatten ty).length) =
        pre.length + 1 + post.length + (flatten ty).length by omega]
  | .label :: ids, pre, post, e, chain, path, k => by
    simp only [traverseIds, autos, objIds]; exact traverseIds_eq ids pre post e chain path (k + 1)
  | .other :: ids, pre, post, e, chain, path, k => by
    simp only [traverseIds, autos, objIds]; exact traverseIds_eq ids pre post e chain path (k + 1)

/-- Identifiers of an empty scope add nothing. -/
theorem traverseIds_empty : ∀ ids, idsEmpty ids = true → ∀ t scope chain path k,
    traverseIds t scope chain path k ids = (t, [])
  | [], _, _, _, _, _, _ => rfl
  | .auto _ :: _, h, _, _, _, _, _ => by simp [idsEmpty] at h
  | .label :: _, h, _, _, _, _, _ => by simp [idsEmpty] at h
  | .other :: ids, h, _, _, _, _, _ => by
    simp only [idsEmpty] at h; simp only [traverseIds]; exact traverseIds_empty ids h _ _ _ _ _

mutual
theorem traverse_empty : ∀ s, scopeEmpty s = true → ∀ t chain path, traverse t chain path s = (t, [])
  | .node ids subs, h, t, chain, path => by
    have h' := h
    simp only [scopeEmpty, Bool.and_eq_true] at h'
    simp only [traverse, h, if_true, traverseIds_empty ids h'.1, h'.2, traverseSubs_empty subs h'.2,
      List.append_nil]

theorem traverseSubs_empty : ∀ ss, subsEmpty ss = true → ∀ t chain path i,
    traverseSubs t none chain path i ss = (t, [])
  | [], _, _, _, _, _ => by simp [traverseSubs]
  | s :: ss, h, t, chain, path, i => by
    simp only [subsEmpty, Bool.and_eq_true] at h
    simp only [traverseSubs, traverse_empty s h.1, traverseSubs_empty ss h.2, List.append_nil]
end

mutual
theorem traverse_eq : ∀ (s : Scope) (t : List Entry) (chain path : List Nat),
    traverse t chain path s = (t ++ ent s, objs chain path t.length s)
  | .node ids subs, t, chain, path => by
    by_cases h : scopeEmpty (.node ids subs) = true
    · rw [traverse_empty _ h]; simp [ent, objs, h]
    · have h1 := traverseIds_eq ids t [] ⟨.struct, 0, 0⟩ (chain ++ [t.length]) path 0
      simp only [traverse, h, Bool.false_eq_true, if_false]
      rw [h1]
      simp only [List.nil_append, List.length_nil, Nat.add_zero, Nat.zero_add]
      by_cases hs : subsEmpty subs = true
      · simp only [hs, if_true, traverseSubs_empty subs hs, ent, objs, h, Bool.false_eq_true, if_false,
          List.append_nil, unionCount, Nat.add_zero]
      · have h2 := traverseSubs_eq subs (t ++ ⟨.struct, 0, (autos ids).length + 1⟩ :: flattenAll (autos ids))
          [] ⟨.union, 0, 0⟩
          (chain ++ [t.length] ++ [(t ++ ⟨.struct, 0, (autos ids).length + 1⟩ ::
            flattenAll (autos ids)).length]) path 0
        simp only [hs, Bool.false_eq_true, if_false, bump_at]
        simp only [List.length_append, List.length_cons] at h2 ⊢
        rw [h2]
        simp only [ent, objs, h, hs, Bool.false_eq_true, if_false, unionCount, List.nil_append,
          List.append_assoc, List.cons_append, List.length_nil, Nat.zero_add]
        rw [show t.length + ((flattenAll (autos ids)).length + 1) =
          t.length + 1 + (flattenAll (autos ids)).length by omega]

theorem traverseSubs_eq : ∀ (ss : List Scope) (pre post : List Entry) (e : Entry) (chain path : List Nat) (i : Nat),
    traverseSubs (pre ++ e :: post) (some pre.length) chain path i ss =
      (pre ++ { e with param := e.param + ss.length } :: (post ++ entAll ss),
        objsAll chain path (pre.length + 1 + post.length) i ss)
  | [], pre, post, e, chain, path, i => by simp [traverseSubs, entAll, objsAll]
  | s :: ss, pre, post, e, chain, path, i => by
    have ih1 := traverse_eq s (pre ++ { e with param := e.param + 1 } :: post) chain (path ++ [i])
    have ih2 := traverseSubs_eq ss pre (post ++ ent s) { e with param := e.param + 1 } chain path (i + 1)
    simp only [traverseSubs, bump_at, ih1]
    rw [show pre ++ { e with param := e.param + 1 } :: post ++ ent s =
      pre ++ { e with param := e.param + 1 } :: (post ++ ent s) by simp, ih2]
    simp only [entAll, objsAll, List.length_cons, List.append_assoc, List.length_append]
    refine Prod.ext ?_ ?_
    · simp only [Nat.add_assoc, Nat.add_comm 1]
    · rw [show pre.length + (post.length + 1) = pre.length + 1 + post.length by omega,
        show pre.length + 1 + (post.length + (ent s).length) =
          pre.length + 1 + post.length + (ent s).length by omega]
end

end Kefir.Locals
