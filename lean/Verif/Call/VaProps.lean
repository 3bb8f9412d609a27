import Verif.Call.VaFetched
import Verif.Call.Props

/-!
# Properties of variable arguments

C86: a function that fetches its variable arguments gets the values it has been called with.
-/

namespace Kefir.Call

open Kefir.Layout Kefir.Abi

theorem varargUse_eq {t : Ty} (hw : WF t) {r} (h : functionAllocParams (flattenAll [t]) false = .ok r) :
    ∃ a1 rest1, classify t (ownLayout t) 0 = .ok (a1 :: rest1) ∧
      varargUse (flatten t) = .ok (.varargGet t.entry.code a1.klass (ownLayout t).data) := by
  obtain ⟨a1, rest1, loc0, a0, hc, -, -⟩ := alone hw h
  refine ⟨a1, rest1, hc, ?_⟩
  have hw1 : WFAll [t] := .cons hw .nil
  have hl := laidAll [t] hw1 (.fresh true)
  have hfl : flatten t = flattenAll [t] := by simp [flattenAll]
  have hcl := parameterClassify_eq [t] hw1 _ hl
  have h0 : (flattenAll [t])[0]? = some t.entry := by rw [← hfl, flatten_eq]; rfl
  have hla : layoutAt (List.map some (flatL (layAll (.fresh true) [t]).2)) 0 = .ok (ownLayout t).data := by
    rw [ownLayout_eq]; rfl
  rw [ownLayout_eq] at hcl
  simp only [classifyAll, hc, Except.bind, List.flatten_cons, List.flatten_nil, List.append_nil] at hcl
  rw [hfl]
  simp only [varargUse, h0, typeLayout_eq [t] hw1, liftRes, bind, Except.bind]
  rw [ownLayout_eq] at hla ⊢
  simp only [hcl, hla, List.length_cons, Nat.zero_lt_succ, getElem?_pos, List.getElem_cons_zero, pure, Except.pure]

theorem register_class {t : Ty} (hw : WF t) (hk : Ty.isLeaf t = false) {a1 rest1 loc0 a0}
    (hc : classify t (ownLayout t) 0 = .ok (a1 :: rest1))
    (ha : allocate t (ownLayout t) ⟨0, 0, 0⟩ a1 = .ok (loc0, a0)) (h0 : a0.klass = .noClass) : a1.klass ≠ .memory := by
  have hl : Laid t (ownLayout t) := by
    have := laidAll [t] (.cons hw .nil) (.fresh true)
    rw [ownLayout_eq] at this
    cases this; assumption
  have key : ∀ (h1 : classifyAgg t (ownLayout t) 0 = .ok (a1 :: rest1))
      (h2 : allocateAggregate (ownLayout t).data ⟨0, 0, 0⟩ a1 = .ok (loc0, a0)), a1.klass ≠ .memory := by
    intro h1 h2
    obtain ⟨b, rest', hb, -, hcase⟩ := classifyAgg_inv hl h1
    obtain ⟨rfl, rfl⟩ : a1 = b ∧ rest1 = rest' := by simpa using hb
    rcases hcase with rfl | ⟨q, rq, rfl, -⟩
    · simp [allocateAggregate, memoryEntry, stackAllocate] at h2
      rw [← h2.2] at h0
      cases h0
    · simp [registerEntry]
  cases t with
  | leaf => simp [Ty.isLeaf] at hk
  | _ => exact key hc ha

theorem wfAll_mem : ∀ {ts : List Ty}, WFAll ts → ∀ {t}, t ∈ ts → WF t
  | _, .cons h hs, t, ht => by
    rcases List.mem_cons.1 ht with rfl | ht
    · exact h
    · exact wfAll_mem hs ht

theorem laidAll_mem : ∀ {ts : List Ty} {ls}, LaidAll ts ls → ∀ {l}, l ∈ ls → ∃ t ∈ ts, Laid t l
  | _, _, .cons h hs, l, hl => by
    rcases List.mem_cons.1 hl with rfl | hl
    · exact ⟨_, List.mem_cons_self .., h⟩
    · obtain ⟨t, h1, h2⟩ := laidAll_mem hs hl
      exact ⟨t, List.mem_cons_of_mem _ h1, h2⟩

/-- The full statement of C86 for a function with parameters of the types `ts` that is called with variable
arguments of the types `vs`: `xs` and `ys` are the arguments, `us` are the instructions of the function that
matter for its frame, among them those that fetch the variable arguments, and `lts` are its local objects.
The function is called as any other, computes its frame, loads its parameters and saves the registers.  Then
it fetches arguments of the types `vs`, one after the other, and does what it wants (`work`) in between as
long as it does not touch the register save area.  Each time it gets the value of the argument, whatever the
registers, the stack and the frame contained before, and whatever the address of the frame is (the ABI makes
`rbp` a multiple of sixteen). -/
def VarargsArrive (ts vs : List Ty) : Prop :=
  ∀ (heap : Word → Mem) (xs ys : List Arg), ArgsFor ts xs → ArgsFor vs ys →
    ∀ (implicit : Bool) (loc vec layout), functionAllocParams (flattenAll (ts ++ vs)) implicit = .ok (loc, vec) →
    typeLayout (flattenAll (ts ++ vs)) = .ok layout →
    ∀ us : List TempUse, (∀ v ∈ vs, ∃ u ∈ us, varargUse (flatten v) = .ok u) →
    ∀ (lts : List Ty) (llayout), WFAll lts → typeLayout (flattenAll lts) = .ok llayout →
    ∀ stack : Nat → Word, OnTop stack ((xs ++ ys).flatMap Arg.pushed) → ∀ (result : Word) (before : Caller)
      (rbp : Nat), rbp % 16 = 0 → ∀ frame : Mem,
    ∃ s loc' vec' layout' fr f,
      invokePrologue ⟨flattenAll (ts ++ vs), layout⟩ vec loc implicit true stack heap result before =
        .ok (s, some loc.sse) ∧
      functionAllocParams (flattenAll ts) implicit = .ok (loc', vec') ∧
      typeLayout (flattenAll ts) = .ok layout' ∧
      calculateFrame us ⟨flattenAll ts, layout'⟩ vec' true (some ⟨flattenAll lts, llayout⟩) = .ok fr ∧
      loadArguments ⟨flattenAll ts, layout'⟩ vec' implicit fr.parameters s.int s.sse s.out frame = .ok f ∧
      ∀ (upper : Nat → Word) (work : Nat → Mem → Mem),
        (∀ n m x, Region.Has ⟨fr.registerSaveArea, 6 * 8 + 8 * 16⟩ x → work n m x = m x) →
        ∃ ls rss, LaidAll vs ls ∧
          fetchAll rbp s.out work vs 0 (varargStart rbp fr.registerSaveArea loc')
            (saveRegisters (decide (loc.sse ≠ 0) || f.clobbered) s.int s.sse upper fr.registerSaveArea f.frame) =
              .ok rss ∧ ArrivedAll heap vs ls ys rss

/-- C86 for functions whose named parameters on the stack take a multiple of eight bytes, and whose variable
arguments are no `long double`s and no objects with an alignment above sixteen.  For these it is false:
`C86_stack_false`, `C86_long_double_false`, `C86_alignment_false`. -/
theorem C86_varargs_partial (ts vs : List Ty) (hw : WFAll (ts ++ vs))
    (hb : ∀ t ∈ ts ++ vs, t.isBits = false) (hp : ∀ t ∈ ts ++ vs, t.entry.code ≠ .leaf .pad)
    (hstack : ∀ implicit loc' vec', functionAllocParams (flattenAll ts) implicit = .ok (loc', vec') → loc'.stack % 8 = 0)
    (hlong : ∀ v ∈ vs, v.entry.code ≠ .leaf .longDouble) (halign : ∀ v ∈ vs, ∀ l, Laid v l → l.data.alignment ∣ 16)
    (halone : ∀ v ∈ vs, ∃ r, functionAllocParams (flattenAll [v]) false = .ok r) : VarargsArrive ts vs := by
  intro heap xs ys hx hy implicit loc vec layout hcall hlay us huse lts llayout hlw hllay stack hst result before
    rbp hrbp frame
  have hwt := wfAll_left hw
  have hwv : WFAll vs := wfAll_right hw
  have hlt := laidAll ts hwt (.fresh true)
  have hlv := laidAll vs hwv (layAll (.fresh true) ts).1
  have hbt : NoBits ts := fun t ht => hb t (List.mem_append_left _ ht)
  have hbv : NoBits vs := fun t ht => hb t (List.mem_append_right _ ht)
  rw [functionAllocParams_eq _ hw, layAll_append] at hcall
  obtain ⟨ass, hc, h1⟩ := bind_inv hcall
  obtain ⟨⟨loc1, ass'⟩, ha, h2⟩ := bind_inv h1
  simp only [Except.ok.injEq, Prod.mk.injEq] at h2
  obtain ⟨rfl, rfl⟩ := h2
  obtain ⟨k1, k2, j, rfl, hc1, hc2⟩ := classifyAll_append hlt vs _ _ hc
  obtain ⟨c1, a1, a2, hr, ha1, ha2⟩ := allocateAll_append hlt (classifyAll_rows hlt hc1) vs _ _ _ ha
  simp only at hr ha2
  subst hr
  obtain ⟨g1, g2⟩ := shape_all hlt hbt hc1 ha1
  obtain ⟨g3, g4⟩ := shape_all hlv hbv hc2 ha2
  have hcallee : functionAllocParams (flattenAll ts) implicit = .ok (c1, a1.flatten) := by
    rw [functionAllocParams_eq _ hwt, hc1]
    simp only [Except.bind, ha1]
  have hall : ShapeAll (ts ++ vs) (layAll (.fresh true) (ts ++ vs)).2 (a1 ++ a2)
      ⟨if implicit then 1 else 0, 0, 0⟩ loc1 := by
    rw [layAll_append]; exact shapeAll_append g2 g4
  obtain ⟨s, e1, e2, -⟩ := invoke_held heap (ts ++ vs) hw hp (rows_append g1 g3) (loc' := loc1) hall true
    (argsFor_append hx hy) hst result before hlay
  rw [layAll_append] at e2
  obtain ⟨e4, e5⟩ := heldAll_split (ShapeAll.lengths g2).1 (ShapeAll.lengths g2).2 (argsFor_length hx) e2
  rw [typeLayout_eq lts hlw] at hllay
  cases hllay
  obtain ⟨f1, v1, v2⟩ := frameParameter_mono ts (layAll (.fresh true) ts).2 a1
    { size := padDqword (padAligned 16 (temporaries us (0, 0)).2 + (temporaries us (0, 0)).1)
      alignment := max 8 (temporaries us (0, 0)).2
      temporary := padAligned 16 (temporaries us (0, 0)).2
      parameters := padDqword (padAligned 16 (temporaries us (0, 0)).2 + (temporaries us (0, 0)).1)
      registerSaveArea := 0, locals := 0 }
  have hfr := calculateFrame_eq ts lts hwt hlw us g1 true f1 v1
  simp only [if_true] at hfr
  obtain ⟨f2, w1, w2⟩ := reserve_save lts (layAll (.fresh true) lts).2
    { f1 with size := padDqword (padDqword f1.size + 176), registerSaveArea := padDqword f1.size
              locals := padDqword (padDqword f1.size + 176) }
  rw [w1] at hfr
  simp only [Except.bind] at hfr
  simp only at w2
  obtain ⟨f, rss0, n1, -, -, -⟩ := load_held heap ts hwt g1 e4 implicit f2.parameters frame (typeLayout_eq ts hwt)
  refine ⟨s, c1, _, _, _, f, by simpa using e1, hcallee, typeLayout_eq ts hwt, hfr, n1, ?_⟩
  intro upper work hwork
  simp only [w2] at hwork ⊢
  have hroom : ∀ v ∈ vs, ∀ a1 rest1 loc0 a0, classify v (ownLayout v) 0 = .ok (a1 :: rest1) →
      allocate v (ownLayout v) ⟨0, 0, 0⟩ a1 = .ok (loc0, a0) → Ty.isLeaf v = false → a0.klass = .noClass →
      16 + 8 * eightbytes (ownLayout v).data.size ≤ padDqword f1.size := by
    intro v hv b1 rb l0 a0 p1 p2 p3 p4
    have hwv1 := wfAll_mem hwv hv
    obtain ⟨r, hr⟩ := halone v hv
    obtain ⟨b1', rb', q1, q2⟩ := varargUse_eq hwv1 hr
    rw [p1] at q1
    simp only [Except.ok.injEq, List.cons.injEq] at q1
    rw [← q1.1] at q2
    obtain ⟨u, hu, q3⟩ := huse v hv
    rw [q2] at q3
    simp only [Except.ok.injEq] at q3
    subst q3
    have hcode : v.entry.code = .struct ∨ v.entry.code = .union ∨ v.entry.code = .array := by
      cases v with
      | leaf => simp [Ty.isLeaf] at p3
      | _ => simp [Ty.entry]
    have hsz := temporaries_vararg hcode (register_class hwv1 p3 p1 p2 p4) us (0, 0) hu
    have z1 := padAligned_ge 16 (temporaries us (0, 0)).2
    have z2 := padDqword_ge (padAligned 16 (temporaries us (0, 0)).2 + (temporaries us (0, 0)).1)
    have z3 := padDqword_mod (padAligned 16 (temporaries us (0, 0)).2 + (temporaries us (0, 0)).1)
    have z4 := padDqword_ge f1.size
    simp only at v2
    simp only [eightbytes]
    omega
  have hsaved := registers_saved (decide (loc1.sse ≠ 0) || f.clobbered) s.int s.sse upper (padDqword f1.size) f.frame
  have h8 := hstack _ _ _ hcallee
  obtain ⟨rss, r1, r2⟩ := fetched_all (heap := heap) (int := s.int) (sse := s.sse) (out := s.out) hrbp
    (work := work) (area := padDqword f1.size)
    (fun n m y y1 y2 => hwork n m y ⟨y1, y2⟩) vs _ hwv hbv hlong
    (fun t ht => hp t (List.mem_append_right _ ht))
    (fun l hl => by
      obtain ⟨v, hv, hlv'⟩ := laidAll_mem hlv hl
      exact halign v hv l hlv')
    halone hroom hc2 ha2 e5 (fun h => by simp [show loc1.sse ≠ 0 by omega]) 0 (varargStart rbp (padDqword f1.size) c1) _
    ⟨rfl, by simp only [varargStart, integerRegisters],
      by simp only [varargStart]; rw [StaticData.padAligned_self (by omega) (by omega)]; omega, rfl⟩ hsaved
  exact ⟨_, rss, hlv, r1, r2⟩

/-! ## Refutations -/

/-- The words of arguments on a stack. -/
def stackOf (xs : List Arg) : Nat → Word := fun n => (xs.flatMap Arg.pushed).reverse.getD n (wd 0)

theorem stackOf_top (xs : List Arg) : OnTop (stackOf xs) (xs.flatMap Arg.pushed) := by
  intro i hi
  simp only [stackOf]
  rw [List.getD_eq_getElem?_getD, List.getElem?_reverse (by omega)]
  simp only [show (xs.flatMap Arg.pushed).length - 1 - ((xs.flatMap Arg.pushed).length - 1 - i) = i by omega,
    List.getElem?_eq_getElem hi, Option.getD_some]

/-- What C86 says about a call with one variable argument. -/
theorem one_argument (ts : List Ty) (v : Ty) (hw : WFAll (ts ++ [v])) (hb : NoBits (ts ++ [v]))
    (hp : NoPads (ts ++ [v])) {xs : List Arg} {y : Arg} (hx : ArgsFor ts xs) (hy : ArgFor v y)
    (ha : ∃ r, functionAllocParams (flattenAll (ts ++ [v])) false = .ok r)
    (ha1 : ∃ r, functionAllocParams (flattenAll [v]) false = .ok r) (H : VarargsArrive ts [v]) (heap : Word → Mem)
    (rbp : Nat) (hrbp : rbp % 16 = 0) :
    ∃ loc1 vec1 loc c0 l' a int sse out area m s' rest,
      functionAllocParams (flattenAll ts) false = .ok (loc1, vec1) ∧
      functionAllocParams (flattenAll (ts ++ [v])) false = .ok (loc, vec1 ++ a :: rest) ∧ Shape v (layoutIn c0 v).data loc1 loc a ∧
      Laid v l' ∧ Held heap int sse out v (layoutIn c0 v).data a y ∧
      varargGet rbp out (flatten v) ⟨varargStart rbp area loc1, m, []⟩ = .ok s' ∧
      Arrived heap v l'.data.size y (s'.pushed.map (s'.received out)) := by
  obtain ⟨⟨loc, vec⟩, ha⟩ := ha
  obtain ⟨r1, hr1⟩ := ha1
  have hwv : WF v := wfAll_mem hw (by simp)
  obtain ⟨a0, rest0, -, hu⟩ := varargUse_eq hwv hr1
  obtain ⟨loc1, k1, k2, h1, rfl, h3, h4, h5, h6, h7⟩ := params_split ts [v] hw hb false ha
  have hall : ShapeAll (ts ++ [v]) (layAll (.fresh true) (ts ++ [v])).2 (k1 ++ k2) ⟨0, 0, 0⟩ loc := by
    rw [layAll_append]; exact shapeAll_append h5 h6
  have htop := stackOf_top (xs ++ [y])
  have hyy : ArgsFor [v] [y] := .cons hy .nil
  obtain ⟨s, loc', vec', layout', fr, f, e1, e2, -, -, -, e6⟩ := H heap _ _ hx hyy false loc _ _ ha (typeLayout_eq _ hw)
    [TempUse.varargGet v.entry.code a0.klass (ownLayout v).data]
    (by intro t ht; simp only [List.mem_singleton] at ht; subst ht; exact ⟨_, by simp, hu⟩) [] _ .nil
    (typeLayout_eq [] .nil) _ htop (wd 0) ⟨0, fun _ => wd 0, fun _ => wd 0, fun _ => 0⟩ rbp hrbp (fun _ => 0)
  obtain ⟨s2, g1, g2, -⟩ := invoke_held heap (ts ++ [v]) hw hp h4 (loc' := loc) (implicit := false) hall true
    (argsFor_append hx hyy) htop (wd 0) ⟨0, fun _ => wd 0, fun _ => wd 0, fun _ => 0⟩ (typeLayout_eq _ hw)
  rw [e1] at g1
  simp only [Except.ok.injEq, Prod.mk.injEq] at g1
  obtain ⟨rfl, -⟩ := g1
  rw [h1] at e2
  simp only [Except.ok.injEq, Prod.mk.injEq] at e2
  obtain ⟨rfl, rfl⟩ := e2
  rw [layAll_append] at g2
  obtain ⟨-, g5⟩ := heldAll_split (ShapeAll.lengths h5).1 (ShapeAll.lengths h5).2 (argsFor_length hx) g2
  obtain ⟨ls, rss, f1, f2, f3⟩ := e6 (fun _ => wd 0) (fun _ m => m) (fun _ _ _ _ => rfl)
  simp only [layAll] at h6 h7 g5
  cases h6 with
  | @cons _ _ a as _ _ _ _ _ _ hs hs' =>
    cases hs'
    have hvec : functionAllocParams (flattenAll (ts ++ [v])) false = .ok (loc, k1.flatten ++ a :: as) := by
      rw [ha]; simp
    cases g5 with
    | cons hh _ =>
      cases f3 with
      | cons f3 f4 =>
        cases f4
        cases f1 with
        | cons f1 _ =>
          simp only [fetchAll] at f2
          obtain ⟨s', q1, q2⟩ := bind_inv f2
          simp only [pure, Except.pure, bind, Except.bind, Except.ok.injEq, List.cons.injEq, and_true] at q2
          subst q2
          exact ⟨loc1, _, loc, (layAll (.fresh true) ts).1, _, _, s.int, s.sse, s.out, _, _, s', _, h1, hvec, hs, f1, hh, q1, f3⟩

/-- Seven parameters of type `long`: the last one is on the stack. -/
def longs : List Ty := List.replicate 7 (.leaf .long 0 0)

theorem longs_wf : WFAll (longs ++ [.leaf .longDouble 0 0]) :=
  .cons (.leaf (by simp)) (.cons (.leaf (by simp)) (.cons (.leaf (by simp)) (.cons (.leaf (by simp))
    (.cons (.leaf (by simp)) (.cons (.leaf (by simp)) (.cons (.leaf (by simp)) (.cons (.leaf (by simp)) .nil)))))))

/-- C86 fails for `long double`s: the calling function aligns them to sixteen bytes, `va_arg` does not.  In
`void f(long, long, long, long, long, long, long, ...)`, called with a `long double`, `va_arg` takes the eight
bytes before the argument for its less significant part. -/
theorem C86_long_double_false : ¬ VarargsArrive longs [.leaf .longDouble 0 0] := by
  intro H
  have hw := longs_wf
  have hx : ArgsFor longs (List.replicate 7 (.word (wd 0))) :=
    .cons trivial (.cons trivial (.cons trivial (.cons trivial (.cons trivial (.cons trivial (.cons trivial .nil))))))
  obtain ⟨loc1, vec1, loc, c0, l', a, int, sse, out, area, m, s', -, h1, -, h2, h4, h5, h6, h7⟩ :=
    one_argument longs (.leaf .longDouble 0 0) hw (by simp [NoBits, longs, Ty.isBits])
      (by simp [NoPads, longs, Ty.entry])
      (y := .ext (wd 1) (wd 2)) hx trivial
      (by rw [functionAllocParams_eq _ hw]; exact ok_of (by decide +kernel))
      (by rw [functionAllocParams_eq _ (.cons (.leaf (by simp)) .nil)]; exact ok_of (by decide +kernel)) H
      (fun _ _ => 0) 0 rfl
  have hl1 : loc1.stack = 8 := by
    have h0 : (functionAllocParams (flattenAll longs) false).map (·.1.stack) = .ok 8 := by
      rw [functionAllocParams_eq _ (wfAll_left hw)]
      exact ok_of_some (by decide +kernel)
    rw [h1] at h0
    simpa [Except.map] using h0
  rw [get_eq (.leaf (by simp))] at h6
  simp only [varargEntry, Ty.entry, varargLongDouble, varargStart, hl1, Except.ok.injEq] at h6
  subst h6
  cases h2 with
  | longDouble k1 k2 =>
    rw [hl1] at k2
    cases h5 with
    | longDouble q1 q2 q3 =>
      rw [k2] at q2
      have h : Mem.load out 16 = wd 2 := by
        have : Mem.load (atRbp out) (0 + (2 * 8 + 8) - 0 + 8) = Mem.load out 16 := load_atRbp out 16
        rw [← this]
        simp only [Arrived, List.nil_append, List.map_cons, List.map_nil, List.cons.injEq] at h7
        have := h7.1
        simp only [VaState.received, Received.word.injEq] at this
        exact this
      have e : padAligned 8 16 = 16 := by decide
      rw [e, h] at q2
      have := congrFun q2 0
      simp [wd] at this
  | aggMem q => simp [Ty.isLeaf] at q
  | aggReg q => simp [Ty.isLeaf] at q
  | intReg q => simp [IntLeaf] at q
  | intMem q => simp [IntLeaf] at q
  | sseReg q => simp [SseLeaf] at q
  | sseMem q => simp [SseLeaf] at q

/-- The class of what is allocated for an aggregate on its own. -/
def ownClass (t : Ty) : Out Class :=
  (classify t (ownLayout t) 0).bind fun as => match as with
    | a :: _ => (allocate t (ownLayout t) ⟨0, 0, 0⟩ a).map (·.2.klass)
    | [] => .error .undefined

theorem get_memory {t : Ty} (hw : WF t) (hleaf : Ty.isLeaf t = false) {r}
    (ha : functionAllocParams (flattenAll [t]) false = .ok r) (hc : ownClass t = .ok .memory) (rbp : Nat) (out : Mem)
    (s : VaState) : varargGet rbp out (flatten t) s = .ok (varargMemoryAggregate rbp (ownLayout t).data s) := by
  obtain ⟨a1, rest1, loc0, a0, h1, h2, h3⟩ := alone hw ha
  simp only [ownClass, h1, h2, Except.bind, Except.map, Except.ok.injEq] at hc
  rw [get_eq hw, va_agg_entry (.inl hleaf), h3, if_pos hc]

/-- The class of the last argument. -/
theorem last_class {ts : List Ty} {v : Ty} {loc1 vec1 loc a rest}
    (h1 : functionAllocParams (flattenAll ts) false = .ok (loc1, vec1))
    (h2 : functionAllocParams (flattenAll (ts ++ [v])) false = .ok (loc, vec1 ++ a :: rest)) {n : Nat} {k : Class}
    (hn : (functionAllocParams (flattenAll ts) false).map (·.2.length) = .ok n)
    (hk : (functionAllocParams (flattenAll (ts ++ [v])) false).map (fun r => (r.2[n]?).map (·.klass)) = .ok (some k)) :
    a.klass = k := by
  rw [h1] at hn
  simp only [Except.map, Except.ok.injEq] at hn
  rw [h2] at hk
  simp only [Except.map, Except.ok.injEq, ← hn] at hk
  simpa using hk

/-- What C86 says about a call with an aggregate passed in memory as the only variable argument. -/
theorem one_aggregate (ts : List Ty) (v : Ty) (hw : WFAll (ts ++ [v])) (hb : NoBits (ts ++ [v]))
    (hp : NoPads (ts ++ [v])) (hleaf : Ty.isLeaf v = false) {xs : List Arg} (hx : ArgsFor ts xs)
    (ha : ∃ r, functionAllocParams (flattenAll (ts ++ [v])) false = .ok r)
    (ha1 : ∃ r, functionAllocParams (flattenAll [v]) false = .ok r) (hc : ownClass v = .ok .memory) {n st : Nat}
    (hn : (functionAllocParams (flattenAll ts) false).map (fun r => (r.2.length, r.1.stack)) = .ok (n, st))
    (hk : (functionAllocParams (flattenAll (ts ++ [v])) false).map (fun r => (r.2[n]?).map (·.klass)) = .ok (some .memory))
    (H : VarargsArrive ts [v]) (heap : Word → Mem) (w : Word) (rbp : Nat) (hrbp : rbp % 16 = 0) :
    ∃ out l', Laid v l' ∧
      (∀ i < (ownLayout v).data.size, out (padAligned st (max (ownLayout v).data.alignment 8) + i) = heap w i) ∧
      ∀ i < l'.data.size, atRbp out
        ((if (ownLayout v).data.alignment > 8 then
          (rbp + (2 * 8 + st) + ((ownLayout v).data.alignment - 1)) / (ownLayout v).data.alignment *
            (ownLayout v).data.alignment
          else rbp + (2 * 8 + st)) - rbp + i) = heap w i := by
  have hwv : WF v := wfAll_mem hw (by simp)
  obtain ⟨loc1, vec1, loc, c0, l', a, int, sse, out, area, m, s', rest, h1, h1', h2, h4, h5, h6, h7⟩ :=
    one_argument ts v hw hb hp (y := .word w) hx
      (by cases v with
          | leaf => simp [Ty.isLeaf] at hleaf
          | _ => trivial) ha ha1 H heap rbp hrbp
  obtain ⟨r, hr⟩ := ha1
  rw [h1] at hn
  simp only [Except.map, Except.ok.injEq, Prod.mk.injEq] at hn
  obtain ⟨rfl, rfl⟩ := hn
  rw [h1'] at hk
  have hka : a.klass = .memory := by simpa [Except.map] using hk
  rw [get_memory hwv hleaf hr hc] at h6
  simp only [Except.ok.injEq] at h6
  subst h6
  refine ⟨out, l', h4, ?_, ?_⟩
  · obtain ⟨w', e, hbytes⟩ := held_aggMem hleaf h5 hka
    cases e
    rw [← layoutIn_size c0, ← layoutIn_alignment c0]
    cases h2 with
    | aggMem k1 k2 k3 => rw [k3] at hbytes; exact hbytes
    | aggReg k1 k2 => rw [hka] at k2; cases k2
    | _ => simp [Ty.isLeaf] at hleaf
  · have : ∃ m : Mem, (varargMemoryAggregate rbp (ownLayout v).data ⟨varargStart rbp area loc1, m, []⟩).pushed.map
        ((varargMemoryAggregate rbp (ownLayout v).data ⟨varargStart rbp area loc1, m, []⟩).received out) = [.bytes m] ∧
        ∀ i < l'.data.size, m i = heap w i := by
      cases v with
      | leaf => simp [Ty.isLeaf] at hleaf
      | _ => exact h7
    obtain ⟨m', e1, e2⟩ := this
    intro i hi
    rw [← e2 i hi]
    simp only [varargMemoryAggregate, varargStart, List.nil_append, List.map_cons, List.map_nil, VaState.received,
      List.cons.injEq, and_true, Received.bytes.injEq] at e1
    exact congrFun e1 i

/-- `struct { char c[20]; }` -/
def twenty : Ty := .struct 0 [.array 0 20 (.leaf .char 0 0)]

theorem chars_size {al al' n : Nat} {l : LTree} (h : Laid (.struct al [.array al' n (.leaf .char 0 0)]) l) :
    n ≤ l.data.size := by
  cases h with
  | struct h1 h2 h3 h4 h5 h6 h7 =>
    cases h1 with
    | cons h1 hn =>
      cases hn
      cases h1 with
      | array k1 k2 k3 k4 =>
        cases k1 with
        | leaf q1 q2 =>
          simp only [LTree.data] at k4 q1 h6 ⊢
          rw [q1] at k4
          simp only [leafSize] at k4
          simp only [lastStop, LTree.stop, LTree.data] at h6
          omega

theorem twenty_wf : WF twenty := .struct (by simp) (.cons (.array (.leaf (by simp))) .nil)

/-- C86 fails when the named parameters on the stack do not take a multiple of eight bytes: `va_start` does
not round their size up.  In `void f(struct twenty, ...)`, called with a second `struct twenty`, `va_arg` finds
the second structure four bytes before it starts. -/
theorem C86_stack_false : ¬ VarargsArrive [twenty] [twenty] := by
  intro H
  have hw : WFAll ([twenty] ++ [twenty]) := .cons twenty_wf (.cons twenty_wf .nil)
  have hw1 : WFAll [twenty] := .cons twenty_wf .nil
  obtain ⟨out, l', h1, h2, h3⟩ :=
    one_aggregate [twenty] twenty hw (by simp [NoBits, twenty, Ty.isBits]) (by simp [NoPads, twenty, Ty.entry]) rfl
      (xs := [.word (wd 1)]) (.cons trivial .nil)
      (by rw [functionAllocParams_eq _ hw]; exact ok_of (by decide +kernel))
      (by rw [functionAllocParams_eq _ hw1]; exact ok_of (by decide +kernel)) (ok_of_some (by decide +kernel))
      (n := 22) (st := 20)
      (by rw [functionAllocParams_eq _ hw1]; exact ok_of_some (by decide +kernel))
      (by rw [functionAllocParams_eq _ hw]; exact ok_of_some (by decide +kernel)) H
      (fun _ i => UInt8.ofNat i) (wd 0) 0 rfl
  have e2 := h2 0 (by decide +kernel)
  have e3 := h3 4 (Nat.lt_of_lt_of_le (by decide) (chars_size h1))
  rw [show padAligned 20 (max (ownLayout twenty).data.alignment 8) + 0 = 24 by decide +kernel] at e2
  rw [if_neg (by decide +kernel)] at e3
  rw [show atRbp out (0 + (2 * 8 + 20) - 0 + 4) = out 24 from rfl, e2] at e3
  exact absurd e3 (by decide)

/-- A copy of a `va_list` gives the same arguments: a fetch of any type through it has the same effects. -/
theorem C86_copy (rbp : Nat) (out : Mem) (t : List Entry) (s : VaState) :
    varargGet rbp out t { s with ap := varargCopy s.ap } = varargGet rbp out t s := rfl

/-- `struct { _Alignas(32) char c[32]; }` -/
def aligned32 : Ty := .struct 0 [.array 32 32 (.leaf .char 0 0)]

theorem aligned32_wf : WF aligned32 := .struct (by simp) (.cons (.array (.leaf (by simp))) .nil)

/-- C86 fails for alignments above sixteen: the calling function aligns the offset of the argument, `va_arg`
its address, and the arguments on the stack start at a multiple of sixteen only. -/
theorem C86_alignment_false : ¬ VarargsArrive [.leaf .int 0 0] [aligned32] := by
  intro H
  have hw : WFAll ([.leaf .int 0 0] ++ [aligned32]) := .cons (.leaf (by simp)) (.cons aligned32_wf .nil)
  have hw1 : WFAll [aligned32] := .cons aligned32_wf .nil
  obtain ⟨out, l', h1, h2, h3⟩ :=
    one_aggregate [.leaf .int 0 0] aligned32 hw (by simp [NoBits, aligned32, Ty.isBits])
      (by simp [NoPads, aligned32, Ty.entry]) rfl
      (xs := [.word (wd 1)]) (.cons trivial .nil)
      (by rw [functionAllocParams_eq _ hw]; exact ok_of (by decide +kernel))
      (by rw [functionAllocParams_eq _ hw1]; exact ok_of (by decide +kernel)) (ok_of_some (by decide +kernel))
      (n := 1) (st := 0)
      (by rw [functionAllocParams_eq _ (wfAll_left hw)]; exact ok_of_some (by decide +kernel))
      (by rw [functionAllocParams_eq _ hw]; exact ok_of_some (by decide +kernel)) H
      (fun _ i => UInt8.ofNat i) (wd 0) 0 rfl
  have e2 := h2 16 (by decide +kernel)
  have e3 := h3 0 (Nat.lt_of_lt_of_le (by decide) (chars_size h1))
  rw [show padAligned 0 (max (ownLayout aligned32).data.alignment 8) + 16 = 16 by decide +kernel] at e2
  rw [if_pos (by decide +kernel),
    show (0 + (2 * 8 + 0) + ((ownLayout aligned32).data.alignment - 1)) / (ownLayout aligned32).data.alignment *
      (ownLayout aligned32).data.alignment - 0 + 0 = 32 by decide +kernel,
    show atRbp out 32 = out 16 from rfl, e2] at e3
  exact absurd e3 (by decide)

/-- The classes of the eightbytes of an aggregate on its own. -/
def ownQwords (t : Ty) : Out (Class × List Class) :=
  (classify t (ownLayout t) 0).bind fun as => match as with
    | a :: _ => (allocate t (ownLayout t) ⟨0, 0, 0⟩ a).bind fun r => match r.2.content with
      | .qwords q => .ok (r.2.klass, q.qwords.map (·.klass))
      | _ => .error .undefined
    | [] => .error .undefined

/-- A `struct pair` is fetched from a register. -/
theorem get_pair (rbp : Nat) (out m : Mem) (ap : VaList) (is : List Item) (h1 : ap.gp + 8 ≤ 48) (h2 : ap.fp ≤ 176) :
    varargGet rbp out (flatten pair) ⟨ap, m, is⟩ =
      .ok ⟨{ ap with gp := ap.gp + 8 }, Mem.store m 16 (Mem.load m (ap.save + ap.gp)), is ++ [.frame 16]⟩ := by
  have ha : ∃ r, functionAllocParams (flattenAll [pair]) false = .ok r := by
    rw [functionAllocParams_eq _ (.cons pair_wf .nil)]; exact ok_of (by decide +kernel)
  obtain ⟨r, hr⟩ := ha
  obtain ⟨a1, rest1, loc0, a0, e1, e2, e3⟩ := alone pair_wf hr
  have hq : ownQwords pair = .ok (.noClass, [.integer]) := ok_of_some (by decide +kernel)
  simp only [ownQwords, e1, e2, Except.bind] at hq
  rw [get_eq pair_wf, va_agg_entry (.inl rfl), e3]
  cases hc : a0.content with
  | qwords q =>
    simp only [hc, Except.ok.injEq, Prod.mk.injEq] at hq
    obtain ⟨k1, k2⟩ := hq
    rw [if_neg (by rw [k1]; decide)]
    cases hws : q.qwords with
    | nil => rw [hws] at k2; simp at k2
    | cons w ws =>
      cases ws with
      | cons => rw [hws] at k2; simp at k2
      | nil =>
        rw [hws] at k2
        simp only [List.map_cons, List.map_nil, List.cons.injEq, and_true] at k2
        have hreq : aggregateRequirements [w] (0, 0) = .ok (1, 0) := by simp only [aggregateRequirements, k2]
        have hcond : ¬ (ap.gp + 1 * 8 > integerRegisters * 8 ∨
            ap.fp + 0 * 2 * 8 > integerRegisters * 8 + 2 * sseRegisters * 8) := by
          simp only [integerRegisters, sseRegisters]; omega
        simp only [varargRegisterAggregate, hws, hreq, bind, Except.bind, copyQwords, k2, pure, Except.pure]
        rw [if_neg hcond]
        rfl
  | _ => simp [hc] at hq

/-- C86, with what has been fetched kept: aggregates passed in registers are all put to the same place in the
frame.  In `g(va_arg(ap, struct pair), va_arg(aq, struct pair))`, with two lists of variable arguments, the
structure that is fetched second is passed twice. -/
theorem C86_kept_false : ¬ ∀ (rbp : Nat) (out m : Mem) (ap aq : VaList) (s s' : VaState),
    varargGet rbp out (flatten pair) ⟨ap, m, []⟩ = .ok s →
    varargGet rbp out (flatten pair) ⟨aq, s.frame, s.pushed⟩ = .ok s' →
    (s'.pushed.take s.pushed.length).map (s'.received out) = s.pushed.map (s.received out) := by
  intro H
  have h := H 0 (fun _ => 0) (fun x => if x = 40 then 1 else 0) ⟨0, 48, 0, 32⟩ ⟨8, 48, 0, 32⟩ _ _
    (get_pair _ _ _ _ _ (by decide) (by decide)) (get_pair _ _ _ _ _ (by decide) (by decide))
  simp only [List.nil_append, List.length_cons, List.length_nil, List.cons_append, List.take_succ_cons, List.take_zero,
    List.map_cons, List.map_nil, VaState.received, List.cons.injEq, and_true, Received.bytes.injEq] at h
  exact absurd (congrFun h 0) (by decide)

/-! ## The hypotheses are met -/

/-- `void f(int, struct nine, ...)` with the variable arguments `1.0`, a `struct nine`, a `struct pair`, a
`struct nine` (for which there are not enough registers) and an `int`. -/
def someVariable : List Ty := [.leaf .float64 0 0, nine, pair, nine, .leaf .int 0 0]

theorem someVariable_wf : WFAll ([.leaf .int 0 0, nine] ++ someVariable) :=
  .cons (.leaf (by simp)) (.cons nine_wf (.cons (.leaf (by simp)) (.cons nine_wf (.cons pair_wf
    (.cons nine_wf (.cons (.leaf (by simp)) .nil))))))

theorem leaf_alignment {k : Leaf} {p : Nat} {l : LTree} (h : Laid (.leaf k 0 p) l) : l.data.alignment = leafAlign k := by
  cases h with
  | leaf _ h => simpa [effective, LTree.data] using h

theorem one_alignment {t : Ty} {a : Nat} {l : LTree} (ht : ∀ l, Laid t l → l.data.alignment = a)
    (h : Laid (.struct 0 [t]) l) : l.data.alignment = a := by
  cases h with
  | struct h1 h2 h3 h4 =>
    cases h1 with
    | cons h1 hn =>
      cases hn
      obtain ⟨l, hl, e⟩ := h3.2
      simp only [List.mem_singleton] at hl
      subst hl
      rw [ht _ h1] at e
      simp only [LTree.data, effective, if_true] at h4 ⊢
      rw [h4, e]

theorem pair_alignment {l : LTree} (h : Laid pair l) : l.data.alignment = 8 :=
  one_alignment (a := leafAlign .long) (fun _ h => leaf_alignment h) h

theorem nine_alignment {l : LTree} (h : Laid nine l) : l.data.alignment = 1 :=
  one_alignment (fun l h => by
    cases h with
    | array h1 _ h3 _ =>
      simp only [LTree.data, effective, if_true] at h3 ⊢
      rw [h3]; exact leaf_alignment h1) h

theorem own_alloc {t : Ty} (hw : WF t)
    (h : ((classifyAll [t] (layAll (.fresh true) [t]).2 0).bind fun ass =>
      (allocateAll [t] (layAll (.fresh true) [t]).2 ⟨0, 0, 0⟩ ass).bind fun r => .ok (r.1, r.2.flatten)).toOption.isSome = true) :
    ∃ r, functionAllocParams (flattenAll [t]) false = .ok r := by
  rw [functionAllocParams_eq _ (.cons hw .nil)]; exact ok_of h

theorem someVariable_alone : ∀ v ∈ someVariable, ∃ r, functionAllocParams (flattenAll [v]) false = .ok r := by
  intro v hv
  simp only [someVariable, List.mem_cons, List.not_mem_nil, or_false] at hv
  rcases hv with rfl | rfl | rfl | rfl | rfl
  · exact own_alloc (.leaf (by simp)) (by decide +kernel)
  · exact own_alloc nine_wf (by decide +kernel)
  · exact own_alloc pair_wf (by decide +kernel)
  · exact own_alloc nine_wf (by decide +kernel)
  · exact own_alloc (.leaf (by simp)) (by decide +kernel)

example : VarargsArrive [.leaf .int 0 0, nine] someVariable := by
  refine C86_varargs_partial _ _ someVariable_wf (by simp [someVariable, nine, pair, Ty.isBits])
    (by simp [someVariable, nine, pair, Ty.entry]) ?_ (by simp [someVariable, nine, pair, Ty.entry]) ?_ someVariable_alone
  · intro implicit loc' vec' h
    have h0 : (functionAllocParams (flattenAll [.leaf .int 0 0, nine]) implicit).map (·.1.stack) = .ok 0 := by
      rw [functionAllocParams_eq _ (wfAll_left someVariable_wf)]
      cases implicit <;> exact ok_of_some (by decide +kernel)
    rw [h] at h0
    simp only [Except.map, Except.ok.injEq] at h0
    rw [h0]
  · intro v hv l hl
    simp only [someVariable, List.mem_cons, List.not_mem_nil, or_false] at hv
    rcases hv with rfl | rfl | rfl | rfl | rfl
    · rw [leaf_alignment hl]; decide
    · rw [nine_alignment hl]; decide
    · rw [pair_alignment hl]; decide
    · rw [nine_alignment hl]; decide
    · rw [leaf_alignment hl]; decide

/-- And there are such calls: the arguments can be allocated, the frame can be computed. -/
example : (∃ r, functionAllocParams (flattenAll ([.leaf .int 0 0, nine] ++ someVariable)) false = .ok r) ∧
    (∃ us : List TempUse, ∀ v ∈ someVariable, ∃ u ∈ us, varargUse (flatten v) = .ok u) := by
  refine ⟨?_, ?_⟩
  · rw [functionAllocParams_eq _ someVariable_wf]; exact ok_of (by decide +kernel)
  · have h : ∀ v ∈ someVariable, ∃ u, varargUse (flatten v) = .ok u := by
      intro v hv
      obtain ⟨r, hr⟩ := someVariable_alone v hv
      obtain ⟨a, rest, -, h⟩ := varargUse_eq (wfAll_mem someVariable_wf (List.mem_append_right _ hv)) hr
      exact ⟨_, h⟩
    refine ⟨someVariable.filterMap fun v => (varargUse (flatten v)).toOption, fun v hv => ?_⟩
    obtain ⟨u, hu⟩ := h v hv
    exact ⟨u, List.mem_filterMap.2 ⟨v, hv, by rw [hu]; rfl⟩, hu⟩

end Kefir.Call
