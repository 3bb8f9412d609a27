import Verif.Call.Transfer
import Verif.Layout.BitLemmas

/-!
# The beginning of a list of parameters, and the whole way of an argument
-/

namespace Kefir.Call

open Kefir.Layout Kefir.Abi

theorem classifyAll_append : ∀ {ts : List Ty} {ls : List LTree}, LaidAll ts ls → ∀ (vs : List Ty) (ls' : List LTree)
    (i : Nat) {ass}, classifyAll (ts ++ vs) (ls ++ ls') i = .ok ass →
    ∃ ass1 ass2 j, ass = ass1 ++ ass2 ∧ classifyAll ts ls i = .ok ass1 ∧ classifyAll vs ls' j = .ok ass2
  | _, _, .nil, vs, ls', i, ass, h => ⟨[], ass, i, rfl, rfl, h⟩
  | _, _, .cons (t := t) hl hls, vs, ls', i, ass, h => by
    simp only [List.cons_append, classifyAll] at h
    obtain ⟨as, h1, h2⟩ := bind_inv h
    obtain ⟨r, h3, h4⟩ := bind_inv h2
    simp only [Except.ok.injEq] at h4; subst h4
    obtain ⟨ass1, ass2, j, rfl, h5, h6⟩ := classifyAll_append hls vs ls' _ h3
    exact ⟨as :: ass1, ass2, j, rfl, by simp only [classifyAll, h1, h5, Except.bind], h6⟩

theorem allocateAll_append : ∀ {ts : List Ty} {ls : List LTree}, LaidAll ts ls → ∀ {ass1 : List (List Alloc)},
    Rows ts ass1 → ∀ (vs : List Ty) (ls' : List LTree) (ass2) (c : Location) {r},
    allocateAll (ts ++ vs) (ls ++ ls') c (ass1 ++ ass2) = .ok r →
    ∃ c1 a1 a2, r.2 = a1 ++ a2 ∧ allocateAll ts ls c ass1 = .ok (c1, a1) ∧
      allocateAll vs ls' c1 ass2 = .ok (r.1, a2)
  | _, _, .nil, _, .nil, vs, ls', ass2, c, r, h => ⟨c, [], r.2, rfl, rfl, h⟩
  | _, _, .cons hl hls, _, .cons hra hrs, vs, ls', ass2, c, r, h => by
    simp only [List.cons_append, allocateAll] at h
    obtain ⟨r1, h1, h2⟩ := bind_inv h
    obtain ⟨r2, h3, h4⟩ := bind_inv h2
    simp only [Except.ok.injEq] at h4; subst h4
    obtain ⟨c1, a1, a2, h5, h6, h7⟩ := allocateAll_append hls hrs vs ls' ass2 _ h3
    exact ⟨c1, (r1.2 :: _) :: a1, a2, by simp only [h5]; rfl, by simp only [allocateAll, h1, h6, Except.bind], h7⟩

theorem rows_append : ∀ {ts ass vs bss}, Rows ts ass → Rows vs bss → Rows (ts ++ vs) (ass ++ bss)
  | _, _, _, _, .nil, h => h
  | _, _, _, _, .cons h hs, h' => .cons h (rows_append hs h')

theorem wfAll_right : ∀ {a b : List Ty}, WFAll (a ++ b) → WFAll b
  | [], _, h => h
  | _ :: _, _, .cons _ h => wfAll_right h

theorem params_le : ∀ ts : List Ty, ts.length ≤ (flattenAll ts).length
  | [] => Nat.le_refl _
  | t :: ts => by
    have := params_le ts
    have h1 : 1 ≤ (flatten t).length := by cases t <;> simp [flatten]
    simp only [flattenAll, List.length_append, List.length_cons]
    omega

/-- The first parameters of a longer list have the places they have alone. -/
theorem params_split (ts vs : List Ty) (hw : WFAll (ts ++ vs)) (hb : NoBits (ts ++ vs)) (implicit : Bool) {loc vec}
    (h : functionAllocParams (flattenAll (ts ++ vs)) implicit = .ok (loc, vec)) :
    ∃ loc1 ass1 ass2, functionAllocParams (flattenAll ts) implicit = .ok (loc1, ass1.flatten) ∧
      vec = (ass1 ++ ass2).flatten ∧ Rows ts ass1 ∧ Rows (ts ++ vs) (ass1 ++ ass2) ∧
      ShapeAll ts (layAll (.fresh true) ts).2 ass1 ⟨if implicit then 1 else 0, 0, 0⟩ loc1 ∧
      ShapeAll vs (layAll (layAll (.fresh true) ts).1 vs).2 ass2 loc1 loc ∧
      LaidAll vs (layAll (layAll (.fresh true) ts).1 vs).2 := by
  have hwt := wfAll_left hw
  have hwv : WFAll vs := wfAll_right hw
  have hlt := laidAll ts hwt (.fresh true)
  have hlv := laidAll vs hwv (layAll (.fresh true) ts).1
  have hbt : NoBits ts := fun t ht => hb t (List.mem_append_left _ ht)
  have hbv : NoBits vs := fun t ht => hb t (List.mem_append_right _ ht)
  rw [functionAllocParams_eq _ hw, layAll_append] at h
  obtain ⟨ass, hc, h1⟩ := bind_inv h
  obtain ⟨r, ha, h2⟩ := bind_inv h1
  simp only [Except.ok.injEq, Prod.mk.injEq] at h2
  obtain ⟨rfl, rfl⟩ := h2
  obtain ⟨k1, k2, j, rfl, hc1, hc2⟩ := classifyAll_append hlt vs _ _ hc
  obtain ⟨c1, a1, a2, hr, ha1, ha2⟩ := allocateAll_append hlt (classifyAll_rows hlt hc1) vs _ _ _ ha
  obtain ⟨g1, g2⟩ := shape_all hlt hbt hc1 ha1
  obtain ⟨g3, g4⟩ := shape_all hlv hbv hc2 ha2
  refine ⟨c1, a1, a2, ?_, by rw [hr], g1, ?_, g2, g4, hlv⟩
  · rw [functionAllocParams_eq _ hwt, hc1]
    simp only [Except.bind, ha1]
  · exact rows_append g1 g3

theorem shapeAll_append {ts ls ass c c1} (h : ShapeAll ts ls ass c c1) : ∀ {vs ls' bss c2},
    ShapeAll vs ls' bss c1 c2 → ShapeAll (ts ++ vs) (ls ++ ls') (ass ++ bss) c c2 := by
  induction h with
  | nil => intro _ _ _ _ h; exact h
  | cons h _ ih => intro _ _ _ _ h'; exact .cons h (ih h')

theorem argsFor_append : ∀ {ts xs vs ys}, ArgsFor ts xs → ArgsFor vs ys → ArgsFor (ts ++ vs) (xs ++ ys)
  | _, _, _, _, .nil, h => h
  | _, _, _, _, .cons h hs, h' => .cons h (argsFor_append hs h')

theorem heldAll_split {heap int sse out} : ∀ {ts ls ass xs}, ∀ {vs ls' bss ys}, ts.length = ls.length →
    ts.length = ass.length → ts.length = xs.length →
    HeldAll heap int sse out (ts ++ vs) (ls ++ ls') (ass ++ bss) (xs ++ ys) →
    HeldAll heap int sse out ts ls ass xs ∧ HeldAll heap int sse out vs ls' bss ys
  | [], [], [], [], _, _, _, _, _, _, _, h => ⟨.nil, h⟩
  | _ :: _, _ :: _, _ :: _, _ :: _, _, _, _, _, h1, h2, h3, h => by
    cases h with
    | cons h hs =>
      obtain ⟨g1, g2⟩ := heldAll_split (by simpa using h1) (by simpa using h2) (by simpa using h3) hs
      exact ⟨.cons h g1, g2⟩
  | [], _ :: _, _, _, _, _, _, _, h1, _, _, _ => by simp at h1
  | [], [], _ :: _, _, _, _, _, _, _, h2, _, _ => by simp at h2
  | [], [], [], _ :: _, _, _, _, _, _, _, h3, _ => by simp at h3
  | _ :: _, [], _, _, _, _, _, _, h1, _, _, _ => by simp at h1
  | _ :: _, _ :: _, [], _, _, _, _, _, _, h2, _, _ => by simp at h2
  | _ :: _, _ :: _, _ :: _, [], _, _, _, _, _, _, h3, _ => by simp at h3

theorem ShapeAll.lengths {ts ls ass c c'} (h : ShapeAll ts ls ass c c') :
    ts.length = ls.length ∧ ts.length = ass.length := by
  induction h with
  | nil => exact ⟨rfl, rfl⟩
  | cons _ _ ih => simpa using ih

theorem argsFor_length : ∀ {ts xs}, ArgsFor ts xs → ts.length = xs.length
  | _, _, .nil => rfl
  | _, _, .cons _ h => by simp [argsFor_length h]

theorem flatMap_length : ∀ {ts xs}, ArgsFor ts xs → (xs.flatMap Arg.pushed).length = wordCount ts
  | _, _, .nil => rfl
  | _, _, .cons (t := t) (ts := ts) h hs => by
    rw [List.flatMap_cons, List.length_append, pushed_length h, flatMap_length hs, ← wordCount_cons t ts]

/-- The arguments are stored where the locations say. -/
theorem invoke_held (heap : Word → Mem) (ts : List Ty) (hw : WFAll ts)
    (hp : NoPads ts) {ass : List (List Alloc)} (hr : Rows ts ass) {implicit : Bool} {loc loc' : Location}
    (hs : ShapeAll ts (layAll (.fresh true) ts).2 ass ⟨if implicit then 1 else 0, 0, 0⟩ loc) (vararg : Bool)
    {stack : Nat → Word} {xs : List Arg} (hx : ArgsFor ts xs) (hst : OnTop stack (xs.flatMap Arg.pushed))
    (result : Word) (s : Caller) {layout} (hlay : typeLayout (flattenAll ts) = .ok layout) :
    ∃ s', invokePrologue ⟨flattenAll ts, layout⟩ ass.flatten loc' implicit vararg stack heap result s =
        .ok (s', if vararg then some loc'.sse else none) ∧
      HeldAll heap s'.int s'.sse s'.out ts (layAll (.fresh true) ts).2 ass xs ∧
      (implicit = true → s'.int 0 = result) := by
  rw [typeLayout_eq ts hw] at hlay
  cases hlay
  have hc : listNodes argumentCounter (flattenAll ts) 0 (flattenAll ts).length 0 = .ok (wordCount ts) := by
    have hlen : ts.length ≤ (flattenAll ts).length := params_le ts
    have := counter_steps ts hw [] (flattenAll ts).length hlen 0
    simpa only [flattenAll, List.nil_append, List.length_nil, Nat.zero_add] using this
  have ho : Operands (wordCount ts) stack 0 (xs.flatMap Arg.pushed) := by
    intro i hi
    have := hst i hi
    rw [flatMap_length hx] at this
    rw [← this]
    congr 1; omega
  obtain ⟨s1, h1, h2, h3, h4, h5⟩ := stored_all (heap := heap) hs hp hx { s with argument := 0 } ho
  have hv := visit_params (invokeArgument (wordCount ts) stack heap) ts hw hr (wordCount ts)
    (length_le_wordCount ts) { s with argument := 0 }
  refine ⟨if implicit then { s1 with int := setReg s1.int 0 result } else s1, ?_, ?_, ?_⟩
  · simp only [invokePrologue, hc, hv, h1, bind, Except.bind, pure, Except.pure]
  · refine heldAll_congr hs ⟨?_, ?_, ?_⟩ h2
    · intro n hn _
      cases implicit
      · rfl
      · have hn : 1 ≤ n := hn
        exact setReg_other _ _ _ _ (by omega)
    · intro n _ _; cases implicit <;> rfl
    · intro n _ _; cases implicit <;> rfl
  · rintro rfl; exact setReg_same s1.int 0 result

/-- The parameters are loaded from where the locations say. -/
theorem load_held (heap : Word → Mem) (ts : List Ty) (hw : WFAll ts) {ass : List (List Alloc)} (hr : Rows ts ass)
    {int sse : Nat → Word} {out : Mem} {xs : List Arg}
    (hh : HeldAll heap int sse out ts (layAll (.fresh true) ts).2 ass xs) (implicit : Bool) (base : Nat)
    (frame : Mem) {layout} (hlay : typeLayout (flattenAll ts) = .ok layout) :
    ∃ s rss, loadArguments ⟨flattenAll ts, layout⟩ ass.flatten implicit base int sse out frame = .ok s ∧
      s.pushed.map (s.received out) = List.flatten rss ∧ ArrivedAll heap ts (layAll (.fresh true) ts).2 xs rss ∧
      ∀ x < base, s.frame x = (if implicit then Mem.store frame 0 (int 0) else frame) x := by
  rw [typeLayout_eq ts hw] at hlay
  cases hlay
  obtain ⟨s, iss, h1, h2, h3, h4, h5⟩ := loaded_all hh
    ⟨base, if implicit then Mem.store frame (0 * 8) (int 0) else frame, [], false⟩
  have hv := visit_params (loadArgument int sse out) ts hw hr (nodes (flattenAll ts))
    (Nat.le_of_eq (nodes_flattenAll ts hw).symm)
    ⟨base, if implicit then Mem.store frame (0 * 8) (int 0) else frame, [], false⟩
  have hrec : s.received out = receivedIn s.frame out := by funext i; cases i <;> rfl
  refine ⟨s, _, ?_, ?_, h5 s.frame (fun _ _ => rfl), ?_⟩
  · simp only [loadArguments, hv, h1]
  · rw [h2, hrec]; simp [List.map_flatten]
  · intro x hx; rw [h4 x hx]

end Kefir.Call
