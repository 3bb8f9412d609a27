import Verif.Enumerators.Lemmas

/-! # Enumerators: items of a unit -/

namespace Kefir.Enumerators
open Kefir.Types (Basic)
open Kefir.Expr Kefir.C17 Kefir.CSpec
open Kefir.IR (Word Mem)
open Kefir.ConstExpr

theorem fits_cons {s : Scopes} {f : List (Name × Decl)} {x : Name} {d : Decl} (h : Fits (f :: s))
    (hd : ∀ v, d = .constant v → InRange .int v) : Fits (((x, d) :: f) :: s) := by
  intro g hg y v hm
  rcases List.mem_cons.mp hg with rfl | hg
  · rcases List.mem_cons.mp hm with he | hm
    · cases he; exact hd v rfl
    · exact h f List.mem_cons_self y v hm
  · exact h g (List.mem_cons_of_mem _ hg) y v hm

theorem fits_tail {s : Scopes} {f : List (Name × Decl)} (h : Fits (f :: s)) : Fits s :=
  fun g hg => h g (List.mem_cons_of_mem _ hg)

/-- The constants of the enumeration are declared in the innermost scope. -/
def Known (known : List (Name × Word)) : Scopes → Prop
  | [] => True
  | f :: _ => ∀ x, f.lookup x = none → known.lookup x = none

theorem defineConstant_enc {x : Name} {v : Int} {s s' : Scopes} (h : declare x (.constant v) s = .ok s') :
    defineConstant x (BitVec.ofInt 64 v) (enc s) = .ok (enc s') := by
  cases s with
  | nil => cases h
  | cons f s =>
    simp only [declare] at h
    split at h
    · cases h
    · rename_i hl
      cases h
      simp only [enc, List.map_cons, defineConstant, lookup_enc, hl, Option.map_none]
      rfl

theorem defineConstant_error {x : Name} {v : Int} {s : Scopes} {w : Why} (h : declare x (.constant v) s = .error w) :
    ∃ c, defineConstant x (BitVec.ofInt 64 v) (enc s) = .error (.err c) := by
  cases s with
  | nil => exact ⟨_, rfl⟩
  | cons f s =>
    simp only [declare] at h
    split at h
    · rename_i d hl
      refine ⟨.analysisError, ?_⟩
      simp only [enc, List.map_cons, defineConstant, lookup_enc, hl, Option.map_some]
    · cases h

theorem lookup_append (x y : Name) (w : Word) (known : List (Name × Word)) (hk : known.lookup x = none) (hxy : x ≠ y) :
    (known ++ [(y, w)]).lookup x = none := by
  rw [List.lookup_append, hk]
  have : (x == y) = false := by simp [hxy]
  simp [List.lookup_cons, this]

theorem known_declare {x : Name} {v : Int} {w : Word} {s s' : Scopes} {known : List (Name × Word)} (hk : Known known s)
    (h : declare x (.constant v) s = .ok s') : known.lookup x = none ∧ Known (known ++ [(x, w)]) s' := by
  cases s with
  | nil => cases h
  | cons f s =>
    simp only [declare] at h
    split at h
    · cases h
    · rename_i hl
      cases h
      refine ⟨hk x hl, fun y hy => ?_⟩
      rw [List.lookup_cons] at hy
      by_cases hxy : y == x
      · rw [hxy] at hy; cases hy
      · rw [Bool.eq_false_iff.mpr hxy] at hy
        exact lookup_append y x w known (hk y hy) (fun he => hxy (by simp [he]))

theorem declare_fits {x : Name} {d : Decl} {s s' : Scopes} (hf : Fits s) (hd : ∀ v, d = .constant v → InRange .int v)
    (h : declare x d s = .ok s') : Fits s' := by
  cases s with
  | nil => cases h
  | cons f s =>
    simp only [declare] at h
    split at h
    · cases h
    · cases h; exact fits_cons hf hd

theorem next_word {v : Int} (h : InRange .int v) : int64 ((BitVec.ofInt 64 v).toInt + 1) = .ok (BitVec.ofInt 64 (v + 1)) := by
  rw [toInt_word h]
  obtain ⟨h1, h2⟩ := h
  have e1 : minVal .int = -2147483648 := by decide
  have e2 : maxVal .int = 2147483647 := by decide
  rw [e1] at h1
  rw [e2] at h2
  rw [int64, if_pos (by omega)]

/-- The word the loop goes on with. -/
theorem entry_value {C : Ctx} {m : Mem} {s : Scopes} (hf : Fits s) {e : Option VExpr} {next v : Int}
    (h : enumerator C m s next e = .ok v)
    (hs : ∀ e', e = some e' → signedExpr e') :
    entryValue (enc s) (BitVec.ofInt 64 next) e = .ok (BitVec.ofInt 64 v) := by
  cases e with
  | none => cases h; rfl
  | some e => exact evaluate_ok hf (hs e rfl) h

theorem entry_error {C : Ctx} {m : Mem} {s : Scopes} (hf : Fits s) {e : Option VExpr} {next : Int} {w : Why}
    (hw : w ≠ .range)
    (h : enumerator C m s next e = .error w) :
    ∃ c, entryValue (enc s) (BitVec.ofInt 64 next) e = .error (.err c) := by
  cases e with
  | none => cases h
  | some e =>
    rw [enumerator] at h
    rw [entryValue]
    rcases valueOf_error h with rfl | rfl
    · exact evaluate_notConstant hf h
    · exact absurd rfl hw

theorem loop_ok {C : Ctx} {m : Mem} : (es : List (Name × Option VExpr)) → {s s' : Scopes} → {next : Int} →
    {vs : List (Name × Int)} → {known : List (Name × Word)} → {min : Word} → Fits s → Known known s →
    (∀ x e, (x, some e) ∈ es → signedExpr e) → enumerators C m s next es = .ok (s', vs) →
    ∃ min', enumLoop (enc s) (BitVec.ofInt 64 next) known min es = .ok (enc s', known ++ vs.map encV, min') ∧
      min'.toInt ≤ min.toInt ∧ Fits s' ∧ ∀ x v, (x, v) ∈ vs → InRange .int v ∧ min'.toInt ≤ v
  | [], s, s', next, vs, known, min, hf, hk, hs, h => by
    cases h
    exact ⟨min, by simp [enumLoop], Int.le_refl _, hf, fun _ _ hm => nomatch hm⟩
  | (x, e) :: es, s, s', next, vs, known, min, hf, hk, hs, h => by
    simp only [enumerators] at h
    split at h
    · cases h
    rename_i v hv
    split at h
    case isFalse => cases h
    rename_i hr
    have hr : InRange .int v := hr
    split at h
    · cases h
    rename_i s1 hd
    split at h
    · cases h
    rename_i s2 vs2 hrest
    cases h
    have hw := entry_value hf hv (fun e' he => hs x e' (by rw [he]; exact List.mem_cons_self))
    have hdc := defineConstant_enc hd
    obtain ⟨hkn, hk1⟩ := known_declare (w := BitVec.ofInt 64 v) hk hd
    have hf1 := declare_fits hf (fun u hu => by cases hu; exact hr) hd
    obtain ⟨min', g1, g2, g3, g4⟩ := loop_ok es
      (min := if min.toInt ≤ (BitVec.ofInt 64 v).toInt then min else BitVec.ofInt 64 v) hf1 hk1
      (fun y e' he => hs y e' (List.mem_cons_of_mem _ he)) hrest
    rw [enumLoop]
    simp only [hw, hkn, Option.isSome_none, Bool.false_eq_true, if_false, next_word hr, hdc, g1]
    have hmin : min'.toInt ≤ min.toInt ∧ min'.toInt ≤ v := by
      rw [toInt_word hr] at g2
      split at g2
      · omega
      · rw [toInt_word hr] at g2; omega
    refine ⟨min', by simp [encV], hmin.1, g3, fun y u hm => ?_⟩
    rcases List.mem_cons.mp hm with he | hm
    · cases he; exact ⟨hr, hmin.2⟩
    · exact g4 y u hm

theorem loop_error {C : Ctx} {m : Mem} {w : Why} (hw : w ≠ .range) : (es : List (Name × Option VExpr)) → {s : Scopes} →
    {next : Int} → {known : List (Name × Word)} → {min : Word} → Fits s →
    (∀ x e, (x, some e) ∈ es → signedExpr e) → enumerators C m s next es = .error w →
    ∃ c, enumLoop (enc s) (BitVec.ofInt 64 next) known min es = .error (.err c)
  | [], s, next, known, min, hf, hs, h => by cases h
  | (x, e) :: es, s, next, known, min, hf, hs, h => by
    simp only [enumerators] at h
    rw [enumLoop]
    split at h
    · rename_i w' hv
      cases h
      obtain ⟨c, hc⟩ := entry_error hf hw hv
      exact ⟨c, by simp only [hc]⟩
    rename_i v hv
    have he := entry_value hf hv (fun e' he => hs x e' (by rw [he]; exact List.mem_cons_self))
    simp only [he]
    split at h
    case isFalse => cases h; exact absurd rfl hw
    rename_i hr
    have hr : InRange .int v := hr
    split
    · exact ⟨_, rfl⟩
    rw [next_word hr]
    split at h
    · rename_i w' hd
      obtain ⟨c, hc⟩ := defineConstant_error hd
      exact ⟨c, by simp only [hc]⟩
    rename_i s1 hd
    have hf1 := declare_fits hf (fun u hu => by cases hu; exact hr) hd
    simp only [defineConstant_enc hd]
    split at h
    · rename_i w' hrest
      cases h
      exact loop_error hw es hf1 (fun y e' he => hs y e' (List.mem_cons_of_mem _ he)) hrest
    · cases h

theorem ShowsAll.append {a b : List Event} {c d : List KEvent} (h : ShowsAll a c) (h' : ShowsAll b d) :
    ShowsAll (a ++ b) (c ++ d) := by
  induction h with
  | nil => exact h'
  | cons h1 _ ih => exact .cons h1 ih

theorem range_int {v : Int} (h : InRange .int v) : -2147483648 ≤ v ∧ v ≤ 2147483647 := by
  obtain ⟨h1, h2⟩ := h
  have e1 : minVal .int = -2147483648 := by decide
  have e2 : maxVal .int = 2147483647 := by decide
  rw [e1] at h1
  rw [e2] at h2
  exact ⟨h1, h2⟩

theorem range_uint {v : Int} (h : InRange .int v) (h0 : 0 ≤ v) : InRange .uint v := by
  have := range_int h
  have e1 : minVal .uint = 0 := by decide
  have e2 : maxVal .uint = 4294967295 := by decide
  exact ⟨by rw [e1]; exact h0, by rw [e2]; omega⟩

theorem object_ok {x : Name} {s s' : Scopes} (hf : Fits s)
    (h : specStep C m s (.object x) = .ok (s', ev)) : ev = [] ∧ defineObject x (enc s) = .ok (enc s') ∧ Fits s' := by
  match s with
  | [] => cases h
  | [f] =>
    simp only [specStep] at h
    split at h
    · rename_i ho
      cases h
      exact ⟨rfl, by simp only [enc, List.map_cons, List.map_nil, defineObject, lookup_enc, ho, Option.map_some]; try rfl, hf⟩
    · rename_i ho
      simp only [declare] at h
      split at h
      · cases h
      · rename_i hl
        cases h
        exact ⟨rfl, by simp only [enc, List.map_cons, List.map_nil, defineObject, lookup_enc, hl, Option.map_none]; try rfl,
          fits_cons hf (fun v hv => by cases hv)⟩
  | f :: g :: s =>
    simp only [specStep, declare] at h
    split at h
    · cases h
    · rename_i hl
      cases h
      exact ⟨rfl, by simp only [enc, List.map_cons, defineObject, lookup_enc, hl, Option.map_none]; try rfl,
        fits_cons hf (fun v hv => by cases hv)⟩

theorem object_error {x : Name} {s : Scopes} {w : Why}
    (h : specStep C m s (.object x) = .error w) : ∃ c, defineObject x (enc s) = .error (.err c) := by
  match s with
  | [] => exact ⟨_, rfl⟩
  | [f] =>
    simp only [specStep] at h
    split at h
    · cases h
    · rename_i ho
      simp only [declare] at h
      split at h
      · rename_i d hl
        cases d with
        | constant v =>
          exact ⟨.analysisError, by simp only [enc, List.map_cons, List.map_nil, defineObject, lookup_enc, hl, Option.map_some]; try rfl⟩
        | object => exact absurd hl ho
      · cases h
  | f :: g :: s =>
    simp only [specStep, declare] at h
    split at h
    · rename_i d hl
      exact ⟨.analysisError, by simp only [enc, List.map_cons, defineObject, lookup_enc, hl, Option.map_some]; try rfl⟩
    · cases h

theorem step_ok {C : Ctx} {m : Mem} (fixed : Bool) {s s' : Scopes} {i : Item} {ev : List Event} (hf : Fits s)
    (hi : signedItem i) (h : specStep C m s i = .ok (s', ev)) :
    ∃ kev, step fixed (enc s) i = .ok (enc s', kev) ∧ ShowsAll ev kev ∧ Fits s' := by
  cases i with
  | enter =>
    cases h
    exact ⟨[], rfl, .nil, fun f hf' => by
      rcases List.mem_cons.mp hf' with rfl | hf'
      · exact fun _ _ hm => nomatch hm
      · exact hf f hf'⟩
  | leave =>
    match s with
    | [] => cases h
    | [_] => cases h
    | _ :: _ :: _ => cases h; exact ⟨[], rfl, .nil, fits_tail hf⟩
  | object x =>
    obtain ⟨rfl, h1, h2⟩ := object_ok hf h
    exact ⟨[], by simp only [step, h1]; rfl, .nil, h2⟩
  | enumeration es =>
    simp only [specStep] at h
    cases hr : enumerators C m s 0 es with
    | error w => rw [hr] at h; cases h
    | ok r =>
      obtain ⟨s1, vs⟩ := r
      rw [hr] at h
      cases h
      have hk : Known [] s := by cases s <;> simp [Known]
      obtain ⟨min', g1, -, g3, g4⟩ := loop_ok (known := []) (min := BitVec.intMax 64) es hf hk hi hr
      have h0 : BitVec.ofInt 64 0 = (0 : Word) := rfl
      rw [h0] at g1
      refine ⟨[.enumeration (vs.map encV) (if !fixed && es.length > 0 then (if 0 ≤ min'.toInt then .uint else .int) else .int)],
        by simp only [step, resolveEnum, g1]; rfl, .cons (show _ ∧ _ from ⟨rfl, fun x v hm => ?_⟩) .nil, g3⟩
      obtain ⟨hr, hle⟩ := g4 x v hm
      split
      · split
        · exact range_uint hr (by omega)
        · exact hr
      · exact hr
  | use e =>
    simp only [specStep] at h
    cases hr : valueOf C m s e with
    | error w => rw [hr] at h; cases h
    | ok v =>
      rw [hr] at h
      cases h
      exact ⟨[.value (BitVec.ofInt 64 v)], by simp only [step, evaluate_ok hf hi hr]; rfl, .cons (show _ = _ from rfl) .nil, hf⟩

theorem step_error {C : Ctx} {m : Mem} (fixed : Bool) {s : Scopes} {i : Item} {w : Why} (hw : w ≠ .range) (hf : Fits s)
    (hi : signedItem i) (h : specStep C m s i = .error w) : ∃ c, step fixed (enc s) i = .error (.err c) := by
  cases i with
  | enter => cases h
  | leave =>
    match s with
    | [] => exact ⟨_, rfl⟩
    | [_] => exact ⟨_, rfl⟩
    | _ :: _ :: _ => cases h
  | object x =>
    obtain ⟨c, hc⟩ := object_error h
    exact ⟨c, by simp only [step, hc]; rfl⟩
  | enumeration es =>
    simp only [specStep] at h
    cases hr : enumerators C m s 0 es with
    | ok r => rw [hr] at h; cases h
    | error w' =>
      rw [hr] at h
      cases h
      obtain ⟨c, hc⟩ := loop_error (known := []) (min := BitVec.intMax 64) hw es hf hi hr
      have h0 : BitVec.ofInt 64 0 = (0 : Word) := rfl
      rw [h0] at hc
      exact ⟨c, by simp only [step, resolveEnum, hc]; rfl⟩
  | use e =>
    simp only [specStep] at h
    cases hr : valueOf C m s e with
    | ok v => rw [hr] at h; cases h
    | error w' =>
      rw [hr] at h
      cases h
      rcases valueOf_error hr with rfl | rfl
      · obtain ⟨c, hc⟩ := evaluate_notConstant hf hr
        exact ⟨c, by simp only [step, hc]; rfl⟩
      · exact absurd rfl hw

theorem run_ok {C : Ctx} {m : Mem} (fixed : Bool) : (is : List Item) → {s : Scopes} → {ev : List Event} → Fits s →
    (∀ i ∈ is, signedItem i) → specRun C m s is = .ok ev →
    ∃ kev, run fixed (enc s) is = .ok kev ∧ ShowsAll ev kev
  | [], s, ev, hf, hi, h => by cases h; exact ⟨[], rfl, .nil⟩
  | i :: is, s, ev, hf, hi, h => by
    simp only [specRun] at h
    split at h
    · cases h
    rename_i s1 ev1 h1
    cases hr : specRun C m s1 is with
    | error w => rw [hr] at h; cases h
    | ok evs =>
      rw [hr] at h
      cases h
      obtain ⟨k1, g1, g2, g3⟩ := step_ok fixed hf (hi i List.mem_cons_self) h1
      obtain ⟨k2, g4, g5⟩ := run_ok fixed is g3 (fun j hj => hi j (List.mem_cons_of_mem _ hj)) hr
      exact ⟨k1 ++ k2, by simp only [run, g1, g4]; rfl, g2.append g5⟩

theorem run_error {C : Ctx} {m : Mem} (fixed : Bool) {w : Why} (hw : w ≠ .range) : (is : List Item) → {s : Scopes} →
    Fits s → (∀ i ∈ is, signedItem i) → specRun C m s is = .error w → ∃ c, run fixed (enc s) is = .error (.err c)
  | [], s, hf, hi, h => by cases h
  | i :: is, s, hf, hi, h => by
    simp only [specRun] at h
    split at h
    · rename_i w' h1
      cases h
      obtain ⟨c, hc⟩ := step_error fixed hw hf (hi i List.mem_cons_self) h1
      exact ⟨c, by simp only [run, hc]⟩
    rename_i s1 ev1 h1
    cases hr : specRun C m s1 is with
    | ok evs => rw [hr] at h; cases h
    | error w' =>
      rw [hr] at h
      cases h
      obtain ⟨k1, g1, -, g3⟩ := step_ok fixed hf (hi i List.mem_cons_self) h1
      obtain ⟨c, hc⟩ := run_error fixed hw is g3 (fun j hj => hi j (List.mem_cons_of_mem _ hj)) hr
      exact ⟨c, by simp only [run, g1, hc]; rfl⟩

theorem fits_start : Fits [[]] := by
  intro f hf x v hm
  rcases List.mem_cons.mp hf with rfl | hf
  · cases hm
  · cases hf

end Kefir.Enumerators
