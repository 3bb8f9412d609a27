import Verif.Generic.Model
import Verif.ExprType.Props

/-! C107: generic selections. -/

namespace Kefir.Generic
open Kefir.Compat Kefir.Compat.Spec Kefir.ExprType Kefir.ExprType.Model

/-- Once an association is chosen, the loop only analyses the others. -/
theorem analyzeLoop_chosen {c : Ty} {q : Which × Part} : ∀ (l : List (Ty × Part)) (i : Nat) (seen : List Which) (r : Analysed),
    analyzeLoop c i l ⟨some q, seen⟩ = some r → r.chosen = some q ∧ ∀ x ∈ seen, x ∈ r.seen := by
  intro l
  induction l with
  | nil => intro i seen r h; cases h; exact ⟨rfl, fun _ h => h⟩
  | cons a l ih =>
    intro i seen r h
    obtain ⟨t, p⟩ := a
    unfold analyzeLoop at h
    split at h
    · cases h
    · obtain ⟨h1, h2⟩ := ih _ _ _ h
      exact ⟨h1, fun x hx => h2 x (List.mem_cons_of_mem _ hx)⟩

theorem analyzeLoop_chosen_ok {c : Ty} {q : Which × Part} : ∀ (l : List (Ty × Part)) (i : Nat) (seen : List Which),
    (∀ a ∈ l, a.2.ok = true) → ∃ seen', analyzeLoop c i l ⟨some q, seen⟩ = some ⟨some q, seen'⟩ := by
  intro l
  induction l with
  | nil => intro i seen _; exact ⟨seen, rfl⟩
  | cons a l ih =>
    intro i seen h
    obtain ⟨t, p⟩ := a
    have hp : p.ok = true := h _ (.head _)
    obtain ⟨s', hs⟩ := ih (i + 1) (some i :: seen) (fun a ha => h a (.tail _ ha))
    refine ⟨s', ?_⟩
    unfold analyzeLoop
    rw [if_neg (by simp [hp])]
    exact hs

/-- The analysis and the other passes choose alike. -/
theorem passes_loop {c : Ty} {s : Selection} : ∀ (l : List (Ty × Part)) (i : Nat) (seen : List Which) (m r : Analysed),
    analyzeLoop c i l ⟨none, seen⟩ = some m → analyzeDefault s m = some r →
    ∃ w p, r.chosen = some (w, p) ∧ w ∈ r.seen ∧ evaluateLoop c s.dflt i l = some w ∧ translateLoop c s.dflt i l = some w := by
  intro l
  induction l with
  | nil =>
    intro i seen m r h hd
    cases h
    unfold analyzeDefault at hd
    cases hq : s.dflt with
    | none => simp [hq] at hd
    | some p =>
      simp only [hq] at hd
      split at hd
      · cases hd
      · cases hd
        exact ⟨none, p, rfl, .head _, by simp [evaluateLoop], by simp [translateLoop]⟩
  | cons a l ih =>
    intro i seen m r h hd
    obtain ⟨t, p⟩ := a
    unfold analyzeLoop at h
    split at h
    · cases h
    · cases hc : compat c t with
      | none => simp [hc] at h
      | some b =>
        cases b with
        | true =>
          simp only [hc] at h
          obtain ⟨h1, h2⟩ := analyzeLoop_chosen _ _ _ _ h
          unfold analyzeDefault at hd
          rw [h1] at hd
          cases hd
          exact ⟨some i, p, h1, h2 _ (.head _), by simp [evaluateLoop, hc], by simp [translateLoop, hc]⟩
        | false =>
          simp only [hc] at h
          obtain ⟨w, q, h1, h2, h3, h4⟩ := ih _ _ _ _ h hd
          exact ⟨w, q, h1, h2, by simp [evaluateLoop, hc, h3], by simp [translateLoop, hc, h4]⟩

/-- C107: if a generic selection is accepted, with the type and properties of one of its expressions, then that expression
has been analysed, it is the one for which code is generated, and it is the one that is evaluated in constant expressions,
which happens exactly if it is constant. -/
theorem C107_passes (s : Selection) (r : Analysed) (h : analyze s = some r) :
    ∃ w p, r.chosen = some (w, p) ∧ w ∈ r.seen ∧ translate s = some w ∧
      evaluate s p.constant = (if p.constant = true then some w else none) := by
  unfold analyze at h
  split at h
  · cases h
  · obtain ⟨m, hm, hd⟩ := Option.bind_eq_some_iff.mp h
    obtain ⟨w, p, h1, h2, h3, h4⟩ := passes_loop _ _ _ _ _ hm hd
    refine ⟨w, p, h1, h2, h4, ?_⟩
    unfold evaluate
    cases p.constant with
    | true => simpa using h3
    | false => rfl

/-- The loop over associations finds the first whose type is compatible. -/
theorem analyzeLoop_find {c : Ty} : ∀ (l : List (Ty × Part)) (i : Nat) (seen : List Which),
    (∀ a ∈ l, a.2.ok = true) → (∀ a ∈ l, compat c a.1 ≠ none) →
    (∃ j a seen', l[j]? = some a ∧ compat c a.1 = some true ∧
      analyzeLoop c i l ⟨none, seen⟩ = some ⟨some (some (i + j), a.2), seen'⟩) ∨
    ((∀ a ∈ l, compat c a.1 = some false) ∧ ∃ seen', analyzeLoop c i l ⟨none, seen⟩ = some ⟨none, seen'⟩) := by
  intro l
  induction l with
  | nil => intro i seen _ _; exact .inr ⟨(fun _ h => nomatch h), seen, rfl⟩
  | cons a l ih =>
    intro i seen hok hne
    obtain ⟨t, p⟩ := a
    have hp : p.ok = true := hok _ (.head _)
    have hn : compat c t ≠ none := hne _ (.head _)
    have hok' : ∀ a ∈ l, a.2.ok = true := fun a ha => hok a (.tail _ ha)
    cases hc : compat c t with
    | none => exact absurd hc hn
    | some b =>
      cases b with
      | true =>
        obtain ⟨s', hs⟩ := analyzeLoop_chosen_ok (c := c) (q := (some i, p)) l (i + 1) (some i :: seen) hok'
        refine .inl ⟨0, (t, p), s', rfl, hc, ?_⟩
        unfold analyzeLoop
        rw [if_neg (by simp [hp])]
        simp only [hc]
        exact hs
      | false =>
        have step : ∀ r, analyzeLoop c (i + 1) l ⟨none, some i :: seen⟩ = some r →
            analyzeLoop c i ((t, p) :: l) ⟨none, seen⟩ = some r := by
          intro r hr
          unfold analyzeLoop
          rw [if_neg (by simp [hp])]
          simp only [hc]
          exact hr
        rcases ih (i + 1) (some i :: seen) hok' (fun a ha => hne a (.tail _ ha)) with ⟨j, a, s', h1, h2, h3⟩ | ⟨h1, s', h2⟩
        · refine .inl ⟨j + 1, a, s', by simpa using h1, h2, ?_⟩
          rw [step _ h3]
          rw [show i + 1 + j = i + (j + 1) by omega]
        · refine .inr ⟨?_, s', step _ h2⟩
          intro a ha
          cases ha with
          | head => exact hc
          | tail _ ha => exact h1 a ha

/-- C107, part: a generic selection whose expressions obey the rules of the language is accepted exactly if C17 gives it a
result expression, and it gets the type and properties of that expression.  The controlling expression has a type for
which the conversions of the compiler agree with C17, and the types are of the class for which their compatibility is
known to be that of C17 (C61, C62); the selection obeys 6.5.1.1p2.  Missing: other types, and that 6.5.1.1p2 is checked
(`C107_ambiguous_false`, `C107_default_false`). -/
theorem C107_result_partial (v : Class) (s : Selection) (c : Ty) (hc : Conv common s.control c)
    (plain : Plain v c ∧ ∀ a ∈ s.assocs, Plain v a.1) (tagged : Tagged c ∧ ∀ a ∈ s.assocs, Tagged a.1)
    (ok : s.controlOk = true ∧ (∀ a ∈ s.assocs, a.2.ok = true) ∧ ∀ p, s.dflt = some p → p.ok = true)
    (one : Unambiguous c s) (w : Which) :
    (∃ r p, analyze s = some r ∧ r.chosen = some (w, p) ∧ s.part w = some p) ↔ Result c s w := by
  have hcc := conv_common hc
  subst hcc
  have exact1 : ∀ a ∈ s.assocs, (compat (conv s.control) a.1 = some true ↔ Compatible (conv s.control) a.1) :=
    fun a ha => C61_exact_partial v _ _ plain.1 (plain.2 a ha)
  unfold analyze
  rw [if_neg (by simp [ok.1])]
  rcases analyzeLoop_find s.assocs 0 [] ok.2.1
      (fun a ha => C62_defined_partial _ _ tagged.1 (tagged.2 a ha)) with ⟨j, a, seen, h1, h2, h3⟩ | ⟨h1, seen, h2⟩
  · rw [h3]
    have hm := List.mem_of_getElem? h1
    have hcomp := (exact1 a hm).mp h2
    rw [Nat.zero_add]
    constructor
    · rintro ⟨r, p, hr, hch, _⟩
      simp only [Option.bind_some, analyzeDefault] at hr
      cases hr
      cases hch
      exact ⟨a, h1, hcomp⟩
    · intro hw
      cases w with
      | none => exact absurd hcomp (hw.2 a hm)
      | some i =>
        obtain ⟨b, hb, hbc⟩ := hw
        cases one i j b a hb h1 hbc hcomp
        exact ⟨_, a.2, rfl, rfl, by simp [Selection.part, h1]⟩
  · rw [h2]
    have hno : ∀ a ∈ s.assocs, ¬ Compatible (conv s.control) a.1 := by
      intro a ha k
      have := (exact1 a ha).mpr k
      rw [h1 a ha] at this
      cases this
    constructor
    · rintro ⟨r, p, hr, hch, hp⟩
      simp only [Option.bind_some, analyzeDefault] at hr
      cases hq : s.dflt with
      | none => simp [hq] at hr
      | some q =>
        simp only [hq] at hr
        split at hr
        · cases hr
        · cases hr
          cases hch
          exact ⟨by simp [hq], hno⟩
    · intro hw
      cases w with
      | some i =>
        obtain ⟨b, hb, hbc⟩ := hw
        exact absurd hbc (hno b (List.mem_of_getElem? hb))
      | none =>
        obtain ⟨q, hq⟩ := Option.isSome_iff_exists.mp hw.1
        have hqok := ok.2.2 q hq
        refine ⟨⟨some (none, q), none :: seen⟩, q, ?_, rfl, hq⟩
        simp [analyzeDefault, hq, hqok]

/-! ### Concrete cases -/

/-- A part that obeys the rules, and one that does not. -/
def good : Part := ⟨true, true, false⟩
def bad : Part := ⟨false, false, false⟩
/-- A variable. -/
def var : Part := ⟨true, false, true⟩

/-- `_Generic("ab", int: x, char *: 1, default: y)`. -/
def demo : Selection := ⟨.array (.fixed false 3) none (.prim (.arith .char)), true, [(.int, var), (.pointer (.prim (.arith .char)), good)], some var⟩

example : Conv common demo.control (.pointer (.prim (.arith .char))) := .array
example : (analyze demo).map (·.chosen) = some (some (some 1, good)) := by decide +kernel
example : translate demo = some (some 1) ∧ evaluate demo true = some (some 1) := by decide +kernel
example : Result (.pointer (.prim (.arith .char))) demo (some 1) := ⟨_, rfl, .pointer (.prim _)⟩
example : Unambiguous (.pointer (.prim (.arith .char))) demo := by
  have h0 : ¬ Compatible (.pointer (.prim (.arith .char))) .int := by intro h; cases h
  intro i j a b hi hj ha hb
  match i, j with
  | 0, _ => cases hi; exact absurd ha h0
  | _, 0 => cases hj; exact absurd hb h0
  | 1, 1 => rfl
  | i + 2, _ => cases hi
  | _, j + 2 => cases hj
example : Plain ⟨false, false⟩ (.pointer (.prim (.arith .char))) ∧ ∀ a ∈ demo.assocs, Plain ⟨false, false⟩ a.1 := by
  refine ⟨trivial, fun a ha => ?_⟩
  rcases List.mem_cons.mp ha with rfl | ha
  · trivial
  · rcases List.mem_cons.mp ha with rfl | ha
    · trivial
    · cases ha

/-- Finding: a selection with two associations of one type is accepted (C17 6.5.1.1p2). -/
theorem C107_ambiguous_false : let s : Selection := ⟨.int, true, [(.int, good), (.int, var)], none⟩
    (analyze s).isSome = true ∧ ¬ Unambiguous .int s := by
  refine ⟨by decide +kernel, fun h => ?_⟩
  cases h 0 1 _ _ rfl rfl (.prim _) (.prim _)

/-- Finding: the default association is not analysed if another one matches, errors in it go unnoticed. -/
theorem C107_default_false : let s : Selection := ⟨.int, true, [(.int, good)], some bad⟩
    (analyze s).isSome = true ∧ s.dflt = some bad ∧ bad.ok = false := by
  exact ⟨by decide +kernel, rfl, rfl⟩

/-- Finding: a generic selection whose result expression is an lvalue is an lvalue (6.5.1.1p4), and the analysis takes it for
one, but it cannot be assigned to and its address cannot be taken: its translation as an lvalue fails. -/
theorem C107_lvalue_false : let s : Selection := ⟨.int, true, [(.int, var)], none⟩
    (analyze s).bind (·.chosen) = some (some 0, var) ∧ var.lvalue = true ∧ Result .int s (some 0) ∧ translateLvalue s = none := by
  exact ⟨by decide +kernel, rfl, ⟨_, rfl, .prim _⟩, rfl⟩

end Kefir.Generic
