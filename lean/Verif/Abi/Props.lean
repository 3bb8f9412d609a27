import Verif.Abi.Plain

/-!
# Properties of parameter passing

C22 (where the arguments of a call are stored) and C23 (how aggregates are divided into eightbytes).
-/

namespace Kefir.Abi

open Kefir.Layout

/-! ## C22 -/

/-- C22: parameters do not collide.  For every list of parameter types, with or without the address of a
result as an implicit first parameter, if locations are assigned then a call finds a place for each
argument: padding has none, any other parameter has either one piece of the stack that is large enough and
aligned for it or one register for each of its eightbytes, an SSE register for a floating scalar and an
integer register for any other scalar; the registers are among the six integer registers
(not the first one if that holds the address of the result) and the eight SSE registers; no two places have
anything in common; the pieces of the stack lie in the bytes reserved for the call. -/
theorem C22_places (ts : List Ty) (hw : WFAll ts) (hb : ∀ t ∈ ts, t.isBits = false) (implicit : Bool)
    {loc vec} (h : functionAllocParams (flattenAll ts) implicit = .ok (loc, vec)) :
    ∃ ls pss, typeLayout (flattenAll ts) = .ok ((flatL ls).map some) ∧ LaidAll ts ls ∧
      callPlaces (flattenAll ts) implicit = .ok (pss, loc.stack) ∧
      PassedAll ts ls pss ∧
      (∀ p ∈ pss.flatten, p.Valid (if implicit then 1 else 0)) ∧
      pss.flatten.Pairwise Place.Disjoint ∧
      (∀ off n, Place.stack off n ∈ pss.flatten → off + n ≤ loc.stack) := by
  obtain ⟨pss, h1, h2, h3, h4, h5⟩ := callPlaces_inv ts hw hb implicit h
  refine ⟨_, pss, typeLayout_eq ts hw, laidAll ts hw _, h1, h2, ?_, h5, ?_⟩
  · intro p hp
    have := h4 p hp
    obtain ⟨w1, w2⟩ := h3
    cases p <;> simp only [Between, Place.Valid] at this ⊢
    · omega
    · omega
  · intro off n hm
    exact (h4 _ hm).2

/-- A scalar with a value, or a `va_list`. -/
def ScalarParam (t : Ty) : Prop :=
  ∃ k al n, t = .leaf k al n ∧ k ≠ .pad ∧ k ≠ .bits ∧ (k = .memory → 0 < n) ∧ (k = .builtin → n = 0)

theorem scalar_total {t : Ty} (hs : ScalarParam t) {l : LTree} (hl : Laid t l) (i : Nat) (c : Location) :
    ∃ a c' a', classify t l i = .ok [a] ∧ allocate t l c a = .ok (c', a') := by
  obtain ⟨k, al, n, rfl, h1, h2, h3, h4⟩ := hs
  have hsz : l.data.size = leafSize k n := by cases hl; assumption
  cases k
  case pad => exact absurd rfl h1
  case bits => exact absurd rfl h2
  case memory =>
    have := h3 rfl
    have hsz : l.data.size = n := hsz
    exact ⟨_, _, _, rfl, by simp only [allocate, allocateLeaf, Alloc.fresh]; rw [if_pos (by simp; omega)]⟩
  case builtin =>
    have := h4 rfl; subst this
    by_cases hc : c.int + 1 ≤ integerRegisters
    · exact ⟨_, _, _, rfl, by simp only [allocate, allocateLeaf]; rw [if_pos (by omega), if_pos hc]⟩
    · exact ⟨_, _, _, rfl, by simp only [allocate, allocateLeaf]; rw [if_pos (by omega), if_neg hc]⟩
  case longDouble => exact ⟨_, _, _, rfl, rfl⟩
  case float32 =>
    by_cases hc : c.sse + 1 ≤ sseRegisters
    · exact ⟨_, _, _, rfl, by simp only [allocate, allocateLeaf]; rw [if_pos (by simp [Alloc.fresh]), if_pos hc]⟩
    · exact ⟨_, _, _, rfl, by simp only [allocate, allocateLeaf]; rw [if_pos (by simp [Alloc.fresh]), if_neg hc]⟩
  case float64 =>
    by_cases hc : c.sse + 1 ≤ sseRegisters
    · exact ⟨_, _, _, rfl, by simp only [allocate, allocateLeaf]; rw [if_pos (by simp [Alloc.fresh]), if_pos hc]⟩
    · exact ⟨_, _, _, rfl, by simp only [allocate, allocateLeaf]; rw [if_pos (by simp [Alloc.fresh]), if_neg hc]⟩
  all_goals
    by_cases hc : c.int + 1 ≤ integerRegisters
    · exact ⟨_, _, _, rfl, by simp only [allocate, allocateLeaf]; rw [if_pos (by simp [Alloc.fresh]), if_pos hc]⟩
    · exact ⟨_, _, _, rfl, by simp only [allocate, allocateLeaf]; rw [if_pos (by simp [Alloc.fresh]), if_neg hc]⟩

theorem scalars_total : ∀ {ts : List Ty} {ls : List LTree}, LaidAll ts ls → (∀ t ∈ ts, ScalarParam t) →
    ∀ (i : Nat) (c : Location), ∃ ass r, classifyAll ts ls i = .ok ass ∧ allocateAll ts ls c ass = .ok r
  | _, _, .nil, _, i, c => ⟨[], (c, []), rfl, rfl⟩
  | _, _, .cons (t := t) hl hls, hs, i, c => by
    obtain ⟨a, c', a', h1, h2⟩ := scalar_total (hs _ (List.mem_cons_self ..)) hl i c
    obtain ⟨ass, r, h3, h4⟩ := scalars_total hls (fun t ht => hs t (List.mem_cons_of_mem _ ht))
      (i + (flatten t).length) c'
    exact ⟨[a] :: ass, (r.1, [a'] :: r.2), by simp [classifyAll, h1, h3, Except.bind],
      by simp [allocateAll, h2, h4, Except.bind]⟩

/-- C22: locations are assigned to every list of scalar parameters, however long. -/
theorem C22_scalars_total (ts : List Ty) (hs : ∀ t ∈ ts, ScalarParam t) (implicit : Bool) :
    ∃ loc vec, functionAllocParams (flattenAll ts) implicit = .ok (loc, vec) := by
  have hw : WFAll ts := by
    induction ts with
    | nil => exact .nil
    | cons t ts ih =>
      obtain ⟨k, al, n, rfl, -, -, -, h⟩ := hs t (List.mem_cons_self ..)
      exact .cons (.leaf h) (ih fun t ht => hs t (List.mem_cons_of_mem _ ht))
  obtain ⟨ass, r, h1, h2⟩ := scalars_total (laidAll ts hw (.fresh true)) hs 0 ⟨if implicit then 1 else 0, 0, 0⟩
  exact ⟨r.1, r.2.flatten, by rw [functionAllocParams_eq ts hw, h1]; simp only [Except.bind, h2]⟩

/-! ## C23 -/

/-- The full statement of C23 for one parameter: the classes of the eightbytes of the aggregate `t` with
layout `l` are those of the ABI, and each of its scalars is assigned to the eightbyte and the offset it has
in the layout.  `slots` is what classification leaves for the parameter and its parts. -/
def Divided (t : Ty) (l : LTree) (slots : List Alloc) : Prop :=
  (∃ a, slots[0]? = some a ∧
    ((a.klass = .memory ∧
        InMemory ((List.range (eightbytes l.data.size)).map (eightbyteClass (scalars t l)))) ∨
     (¬ InMemory ((List.range (eightbytes l.data.size)).map (eightbyteClass (scalars t l))) ∧
      ∃ q, a.content = .qwords q ∧
        q.qwords.map (·.klass) = (List.range (eightbytes l.data.size)).map (eightbyteClass (scalars t l))))) ∧
  ∀ (j : Nat) (s : Scalar), (contents t l 0)[j]? = some (some s) → s.kind ≠ .longDouble →
    ∃ b : Alloc, slots[j]? = some b ∧ b.content = .ref ⟨s.offset / 8, s.offset % 8⟩

/-- C23 for aggregates of at most two eightbytes in which no padding precedes or follows a nested aggregate
(`Packed`), at any place in a list of parameters.  What is missing: aggregates with nested aggregates that
have such padding, for which it is false (`C23_nested_false`).  Long doubles are not passed in registers,
the place recorded for them is not used. -/
theorem C23_packed_partial (as : List Ty) (t : Ty) (bs : List Ty) (las : List LTree) (l : LTree) (lbs : List LTree)
    (hw : WFAll (as ++ t :: bs)) (hla : LaidAll as las) (hl : Laid t l) (hlb : LaidAll bs lbs)
    (ht : ∀ k al n, t ≠ .leaf k al n) (hpos : 0 < l.data.size) (hsz : l.data.size ≤ 16)
    (hal : l.data.aligned = true) {p'} (hp : Packed t l 0 0 p') {vec}
    (h : parameterClassify (flattenAll (as ++ t :: bs)) ((flatL (las ++ l :: lbs)).map some) = .ok vec) :
    Divided t l (vec.drop (objectsAll as)) := by
  have hlall : LaidAll (as ++ t :: bs) (las ++ l :: lbs) := laidAll_append hla (.cons hl hlb)
  rw [parameterClassify_eq _ hw _ hlall] at h
  obtain ⟨ass, h1, h2⟩ := bind_inv h
  simp only [Except.ok.injEq] at h2
  obtain ⟨xs, x, ys, j, rfl, hlen, hc⟩ := classifyAll_split as las hla t l hl bs lbs 0 ass h1
  have hca : classifyAgg t l j = .ok x := by
    cases t with
    | leaf k al n => exact absurd rfl (ht k al n)
    | _ => exact hc
  obtain ⟨a, rest, first, rfl, hrefs, hcase⟩ := classifyAgg_packed hl hsz hpos hal hp hca
  subst h2
  rw [List.flatten_append, List.flatten_cons, ← hlen, List.drop_left]
  refine ⟨⟨a, by simp, hcase⟩, ?_⟩
  intro j s hj hk
  have hj0 : j ≠ 0 := by
    rintro rfl
    obtain ⟨d, ls⟩ := l
    cases t with
    | leaf k al n => exact absurd rfl (ht k al n)
    | _ => simp [contents] at hj
  obtain ⟨j, rfl⟩ : ∃ j', j = j' + 1 := ⟨j - 1, by omega⟩
  obtain ⟨b, hb, hbc⟩ := refs_get hrefs hj hk
  refine ⟨b, ?_, hbc⟩
  simp only [List.getElem?_cons_succ] at hb
  have hlt : j < rest.length := by rw [List.getElem?_eq_some_iff] at hb; exact hb.1
  simp only [List.cons_append, List.getElem?_cons_succ]
  rw [List.getElem?_append_left hlt]; exact hb
where
  laidAll_append : ∀ {as bs las lbs}, LaidAll as las → LaidAll bs lbs → LaidAll (as ++ bs) (las ++ lbs)
  | _, _, _, _, .nil, h => h
  | _, _, _, _, .cons h hs, hb => .cons h (laidAll_append hs hb)

/-- C23 for structures and unions whose members are scalars, bit-fields and arrays of scalars.  What is
missing: nested structures and unions, see `C23_packed_partial`. -/
theorem C23_plain_partial (as : List Ty) (t : Ty) (bs : List Ty) (las : List LTree) (l : LTree) (lbs : List LTree)
    (hw : WFAll (as ++ t :: bs)) (hla : LaidAll as las) (hl : Laid t l) (hlb : LaidAll bs lbs)
    (hp : Plain t) (hpos : 0 < l.data.size) (hsz : l.data.size ≤ 16) (hal : l.data.aligned = true) {vec}
    (h : parameterClassify (flattenAll (as ++ t :: bs)) ((flatL (las ++ l :: lbs)).map some) = .ok vec) :
    Divided t l (vec.drop (objectsAll as)) := by
  obtain ⟨p', hp'⟩ := plain_packed hp hl hsz
  exact C23_packed_partial as t bs las l lbs hw hla hl hlb (by intro k al n hc; subst hc; cases hp) hpos hsz hal hp' h

/-- C23: an aggregate of more than two eightbytes, or one that is not naturally aligned, is passed in
memory. -/
theorem C23_large (as : List Ty) (t : Ty) (bs : List Ty) (las : List LTree) (l : LTree) (lbs : List LTree)
    (hw : WFAll (as ++ t :: bs)) (hla : LaidAll as las) (hl : Laid t l) (hlb : LaidAll bs lbs)
    (ht : ∀ k al n, t ≠ .leaf k al n) (hsz : 16 < l.data.size ∨ l.data.aligned = false) {vec}
    (h : parameterClassify (flattenAll (as ++ t :: bs)) ((flatL (las ++ l :: lbs)).map some) = .ok vec) :
    ∃ a, vec[objectsAll as]? = some a ∧ a.klass = .memory := by
  have hlall : LaidAll (as ++ t :: bs) (las ++ l :: lbs) := C23_packed_partial.laidAll_append hla (.cons hl hlb)
  rw [parameterClassify_eq _ hw _ hlall] at h
  obtain ⟨ass, h1, h2⟩ := bind_inv h
  simp only [Except.ok.injEq] at h2
  obtain ⟨xs, x, ys, j, rfl, hlen, hc⟩ := classifyAll_split as las hla t l hl bs lbs 0 ass h1
  have hca : classifyAgg t l j = .ok x := by
    cases t with
    | leaf k al n => exact absurd rfl (ht k al n)
    | _ => exact hc
  obtain ⟨a, rest, rfl, hm⟩ := classifyAgg_large hl hsz hca
  subst h2
  refine ⟨a, ?_, hm⟩
  rw [List.flatten_append, List.flatten_cons, ← hlen, List.getElem?_append_right (Nat.le_refl _)]
  simp

/-! ## Examples and counterexamples -/

theorem eq_ok {α} {x : Out α} {v : α} (h : x.toOption = some v) : x = .ok v := by
  cases x with
  | error f => cases h
  | ok w => simp only [Except.toOption, Option.some.injEq] at h; rw [h]


/-- `(int, struct { int a; double b; }, long double, float, va_list, struct { long a[3]; })` -/
def mixedParams : List Ty :=
  [.leaf .int 0 0, .struct 0 [.leaf .int 0 0, .leaf .float64 0 0], .leaf .longDouble 0 0, .leaf .float32 0 0,
    .leaf .builtin 0 0, .struct 0 [.array 0 3 (.leaf .long 0 0)]]

theorem mixedParams_wf : WFAll mixedParams := by
  refine .cons (.leaf (by simp)) (.cons (.struct (by simp) ?_) (.cons (.leaf (by simp)) (.cons (.leaf (by simp))
    (.cons (.leaf (by simp)) (.cons (.struct (by simp) ?_) .nil)))))
  · exact .cons (.leaf (by simp)) (.cons (.leaf (by simp)) .nil)
  · exact .cons (.array (.leaf (by simp))) .nil

/-- The hypotheses of `C22_places` hold for `mixedParams`, with an implicit parameter. -/
example : WFAll mixedParams ∧ (∀ t ∈ mixedParams, t.isBits = false) ∧
    ∃ loc vec, functionAllocParams (flattenAll mixedParams) true = .ok (loc, vec) ∧ loc = ⟨4, 2, 40⟩ := by
  refine ⟨mixedParams_wf, by decide, ?_⟩
  rw [functionAllocParams_eq _ mixedParams_wf]
  exact ⟨_, _, rfl, rfl⟩

/-- The places of these parameters. -/
example : callPlaces (flattenAll mixedParams) true =
    .ok ([[.int 1], [.int 2, .sse 0], [.stack 0 16], [.sse 1], [.int 3], [.stack 16 24]], 40) := by
  rw [callPlaces_eq _ mixedParams_wf (by unfold NoBits; decide)]
  exact eq_ok (by decide +kernel)

/-- Ten scalars of three kinds, for `C22_scalars_total`. -/
example : ∀ t ∈ List.replicate 8 (Ty.leaf .long 0 0) ++ [.leaf .float64 0 0, .leaf .builtin 0 0], ScalarParam t := by
  intro t ht
  simp only [List.mem_append, List.mem_replicate, List.mem_cons, List.not_mem_nil, or_false] at ht
  rcases ht with ⟨_, rfl⟩ | rfl | rfl <;> exact ⟨_, _, _, rfl, by simp, by simp, by simp, by simp⟩

/-- `struct { int a; float b[2]; unsigned c : 3; }` -/
def plainStruct : Ty :=
  .struct 0 [.leaf .int 0 0, .array 0 2 (.leaf .float32 0 0), .leaf .bits 4 3]

theorem plainStruct_wf : WFAll [.leaf .int 0 0, plainStruct] :=
  .cons (.leaf (by simp)) (.cons (.struct (by simp) (.cons (.leaf (by simp))
    (.cons (.array (.leaf (by simp))) (.cons (.leaf (by simp)) .nil)))) .nil)

theorem plainStruct_plain : Plain plainStruct := by
  refine .struct fun t ht => ?_
  simp only [List.mem_cons, List.not_mem_nil, or_false] at ht
  rcases ht with rfl | rfl | rfl
  · exact .scalar ⟨by decide, by decide⟩
  · exact .array ⟨by decide, by decide⟩ (by decide)
  · exact .bits (by decide)

/-- The layout of the only type of a list. -/
def layoutOf (t : Ty) : LTree := .node (update (.fresh true) (natural t).1 t.entry).2 (natural t).2

theorem layoutOf_laid {t : Ty} (hw : WFAll [t]) : Laid t (layoutOf t) := by
  have hl : LaidAll [t] [layoutOf t] := laidAll _ hw (.fresh true)
  cases hl; assumption

theorem ok_of {α} {x : Out α} (h : x.toOption.isSome = true) : ∃ v, x = .ok v := by
  cases x with
  | error f => cases h
  | ok v => exact ⟨v, rfl⟩

/-- The hypotheses of `C23_plain_partial` hold for `plainStruct` after an integer. -/
example : ∃ la l vec, WFAll ([Ty.leaf .int 0 0] ++ plainStruct :: []) ∧ LaidAll [.leaf .int 0 0] [la] ∧
    Laid plainStruct l ∧ LaidAll [] [] ∧ Plain plainStruct ∧ 0 < l.data.size ∧ l.data.size ≤ 16 ∧
    l.data.aligned = true ∧ parameterClassify (flattenAll ([Ty.leaf .int 0 0] ++ plainStruct :: []))
      ((flatL ([la] ++ l :: [])).map some) = .ok vec := by
  have h1 : Laid (Ty.leaf .int 0 0) (layoutOf (.leaf .int 0 0)) := layoutOf_laid (.cons (.leaf (by simp)) .nil)
  have h2 : Laid plainStruct (layoutOf plainStruct) := layoutOf_laid (by cases plainStruct_wf; assumption)
  obtain ⟨vec, hv⟩ : ∃ vec, parameterClassify (flattenAll [Ty.leaf .int 0 0, plainStruct])
      ((flatL [layoutOf (.leaf .int 0 0), layoutOf plainStruct]).map some) = .ok vec := by
    rw [parameterClassify_eq _ plainStruct_wf _ (.cons h1 (.cons h2 .nil))]
    exact ok_of (by decide +kernel)
  exact ⟨_, _, vec, plainStruct_wf, .cons h1 .nil, h2, .nil, plainStruct_plain, by decide +kernel,
    by decide +kernel, by decide +kernel, hv⟩

/-- A nested structure for which `C23_packed_partial` applies: `struct { struct { int a; int b; } s; double c; }`. -/
def packedNested : Ty := .struct 0 [.struct 0 [.leaf .int 0 0, .leaf .int 0 0], .leaf .float64 0 0]

theorem packedNested_wf : WFAll [packedNested] :=
  .cons (.struct (by simp) (.cons (.struct (by simp) (.cons (.leaf (by simp)) (.cons (.leaf (by simp)) .nil)))
    (.cons (.leaf (by simp)) .nil))) .nil

/-- Its hypotheses. -/
example : ∃ l vec, Laid packedNested l ∧ 0 < l.data.size ∧ l.data.size ≤ 16 ∧ l.data.aligned = true ∧
    Packed packedNested l 0 0 16 ∧ parameterClassify (flattenAll [packedNested]) ((flatL [l]).map some) = .ok vec := by
  have h1 := layoutOf_laid packedNested_wf
  obtain ⟨vec, hv⟩ : ∃ vec, parameterClassify (flattenAll [packedNested])
      ((flatL [layoutOf packedNested]).map some) = .ok vec := by
    rw [parameterClassify_eq _ packedNested_wf _ (.cons h1 .nil)]
    exact ok_of (by decide +kernel)
  have hl : layoutOf packedNested = .node ⟨16, 8, true, 0⟩
      [.node ⟨8, 4, true, 0⟩ [.node ⟨4, 4, true, 0⟩ [], .node ⟨4, 4, true, 4⟩ []], .node ⟨8, 8, true, 8⟩ []] := by
    rfl
  refine ⟨_, vec, h1, by decide +kernel, by decide +kernel, by decide +kernel, ?_, hv⟩
  rw [hl]
  refine .struct (.cons (p' := 8) (.struct (.cons (p' := 4) ?_ (.cons (p' := 8) ?_ .nil)))
    (.cons (p' := 16) ?_ .nil)) <;>
  exact .leaf (by decide) (by decide) (by decide) (by decide) (by decide) (by decide) (by decide)

/-- The hypotheses of `C23_large`: `struct { long a[3]; }`. -/
example : ∃ l vec, Laid (.struct 0 [.array 0 3 (.leaf .long 0 0)]) l ∧ 16 < l.data.size ∧
    parameterClassify (flattenAll [.struct 0 [.array 0 3 (.leaf .long 0 0)]]) ((flatL [l]).map some) = .ok vec := by
  have hw : WFAll [.struct 0 [.array 0 3 (.leaf .long 0 0)]] :=
    .cons (.struct (by simp) (.cons (.array (.leaf (by simp))) .nil)) .nil
  have h1 := layoutOf_laid hw
  obtain ⟨vec, hv⟩ : ∃ vec, parameterClassify (flattenAll [.struct 0 [.array 0 3 (.leaf .long 0 0)]])
      ((flatL [layoutOf (.struct 0 [.array 0 3 (.leaf .long 0 0)])]).map some) = .ok vec := by
    rw [parameterClassify_eq _ hw _ (.cons h1 .nil)]
    exact ok_of (by decide +kernel)
  exact ⟨_, vec, h1, by decide +kernel, hv⟩

/-- `struct { struct { int a; char b; } s; char c; float d; }` -/
def nestedStruct : Ty :=
  .struct 0 [.struct 0 [.leaf .int 0 0, .leaf .char 0 0], .leaf .char 0 0, .leaf .float32 0 0]

theorem nestedStruct_wf : WFAll [nestedStruct] :=
  .cons (.struct (by simp) (.cons (.struct (by simp) (.cons (.leaf (by simp)) (.cons (.leaf (by simp)) .nil)))
    (.cons (.leaf (by simp)) (.cons (.leaf (by simp)) .nil)))) .nil

/-- The classes that a classification has left for a parameter. -/
def classesOf (a : Alloc) : Class × List Class :=
  (a.klass, match a.content with
    | .qwords q => q.qwords.map (·.klass)
    | _ => [])

/-- C23 fails for nested structures with padding: in `nestedStruct` the members `s.a`, `s.b` are in the first
eightbyte and `c`, `d` in the second one, whose class is INTEGER, but the code assigns `c` to the first
eightbyte and passes the second one in an SSE register. -/
theorem C23_nested_false : ¬ ∀ (t : Ty) (l : LTree) (vec : List Alloc), WFAll [t] → Laid t l →
    (∀ k al n, t ≠ .leaf k al n) → 0 < l.data.size → l.data.size ≤ 16 → l.data.aligned = true →
    parameterClassify (flattenAll [t]) ((flatL [l]).map some) = .ok vec → Divided t l vec := by
  intro H
  have h1 := layoutOf_laid nestedStruct_wf
  have hp := parameterClassify_eq _ nestedStruct_wf _ (.cons h1 .nil)
  obtain ⟨vec, hv⟩ : ∃ vec, (classifyAll [nestedStruct] [layoutOf nestedStruct] 0).bind
      (fun ass => .ok ass.flatten) = Except.ok vec := ok_of (by decide +kernel)
  have hc : ((classifyAll [nestedStruct] [layoutOf nestedStruct] 0).bind
      (fun ass => Except.ok ass.flatten)).toOption.map (fun vec => vec[0]?.map classesOf) =
      some (some (.noClass, [.integer, .sse])) := by decide +kernel
  have hs : (List.range (eightbytes (layoutOf nestedStruct).data.size)).map
      (eightbyteClass (scalars nestedStruct (layoutOf nestedStruct))) = [.integer, .integer] := by decide +kernel
  rw [hv] at hp hc
  obtain ⟨⟨a, ha, hd⟩, -⟩ := H nestedStruct _ _ nestedStruct_wf h1 (by intro k al n h; cases h)
    (by decide +kernel) (by decide +kernel) (by decide +kernel) hp
  rw [hs] at hd
  simp only [Except.toOption, Option.map_some, ha, Option.some.injEq, classesOf, Prod.mk.injEq] at hc
  rcases hd with ⟨h, -⟩ | ⟨-, q, hq, h⟩
  · rw [h] at hc; exact absurd hc.1 (by decide)
  · rw [hq] at hc; simp only at hc; rw [h] at hc; exact absurd hc.2 (by decide)

/-- The arguments for `nestedStruct` are stored in an integer and an SSE register, so that `d` arrives in the
wrong place for a callee that follows the ABI, and `c` is lost. -/
example : callPlaces (flattenAll [nestedStruct]) false = .ok ([[.int 0, .sse 0]], 0) := by
  rw [callPlaces_eq _ nestedStruct_wf (by unfold NoBits; decide)]
  exact eq_ok (by decide +kernel)

/-- Locations are not assigned to every list of parameters: a call with an argument of the type
`struct { struct { int a; char b; } s; char c; }` (12 bytes, of which the code takes 6) is rejected, because no
scalar is assigned to the second eightbyte; likewise `struct { _Alignas(16) char c; }`. -/
theorem C22_total_false :
    functionAllocParams (flattenAll [.struct 0 [.struct 0 [.leaf .int 0 0, .leaf .char 0 0], .leaf .char 0 0]])
      false = .error (.err .internalError) ∧
    functionAllocParams (flattenAll [.struct 16 [.leaf .char 16 0]]) false = .error (.err .internalError) := by
  refine ⟨?_, ?_⟩
  · rw [functionAllocParams_eq _ (.cons (.struct (by simp) (.cons (.struct (by simp) (.cons (.leaf (by simp))
      (.cons (.leaf (by simp)) .nil))) (.cons (.leaf (by simp)) .nil))) .nil)]
    rfl
  · rw [functionAllocParams_eq _ (.cons (.struct (by simp) (.cons (.leaf (by simp)) .nil)) .nil)]
    rfl

end Kefir.Abi
