import Verif.Layout.BitLemmas

/-!
# Properties of bit-field placement (C20, C54)
-/

namespace Kefir.Layout

/-- The claim: whatever the members of a structure are, their ranges of bits are disjoint, in order and
inside the structure. -/
def BitfieldsDisjoint : Prop :=
  ∀ (pre : List Entry) (al : Nat) (fs : List Field), (∀ f ∈ fs, f.WF) →
    (∃ t, Field.member t ∈ fs) →
    ∃ v ps lay d stop, translateStruct pre false al fs = .ok (v, ps) ∧
      typeLayoutOf v pre.length 1 = .ok lay ∧ lay[pre.length]? = some (some d) ∧
      Placed lay 0 fs ps stop ∧ stop ≤ 8 * d.size

theorem struct_data (pre : List Entry) (al : Nat) (ms : List Ty) (h : WFAll ms) (hne : ms ≠ []) :
    ∃ lay d, typeLayoutOf (pre ++ flatten (.struct al ms)) pre.length 1 = .ok lay ∧
      lay[pre.length]? = some (some d) ∧ off ms ≤ d.size := by
  refine ⟨_, (update (.fresh true) (natural (.struct al ms)).1 (Ty.entry (.struct al ms))).2,
    structLayout pre al ms h hne, ?_, ?_⟩
  · rw [List.getElem?_append_right (by simp)]; simp
  · rw [update_size]
    simp only [natural, compoundData, if_true, off]
    exact padAligned_ge _ _

/-- **C20**, for structures in which no run of adjacent bit-fields takes more than 256 bits (missing: the
others, for which the claim is false, see below).  Every sequence of members is translated; the result
consists of the entries of a structure type; and in the memory layout computed for these entries the
members occupy disjoint ranges of bits, in the order of declaration and inside the structure, every
bit-field with its declared width and within one storage unit of its declared type. -/
theorem C20_bitfields_partial (pre : List Entry) (al : Nat) (fs : List Field) (hw : ∀ f ∈ fs, f.WF) :
    ∃ v ps ms, translateStruct pre false al fs = .ok (v, ps) ∧ v = pre ++ flatten (.struct al ms) ∧
      (ms ≠ [] → ShortRuns ms → ∃ lay d stop, typeLayoutOf v pre.length 1 = .ok lay ∧
        lay[pre.length]? = some (some d) ∧ Placed lay 0 fs ps stop ∧ stop ≤ 8 * d.size) := by
  have h0 : Inv pre al ⟨pre ++ [⟨.struct, al, 0⟩], ⟨false, 0, 0⟩, 0⟩ [] :=
    ⟨by simp [flatten, flattenAll], .nil, by simp⟩
  obtain ⟨b', ps, ms, he, hinv, _, hpl⟩ := fields_eq fs hw h0
  refine ⟨b'.entries, ps, ms, ?_, hinv.entries, ?_⟩
  · rw [translateStruct]
    simp only [Bool.false_eq_true, if_false, he]
    rfl
  · intro hne hsr
    obtain ⟨lay, d, hl, hd, hs⟩ := struct_data pre al ms hinv.wf hne
    obtain ⟨stop, hp, hstop⟩ := hpl hsr lay hl
    rw [hinv.entries]
    exact ⟨lay, d, stop, hl, hd, hp, by omega⟩

/-- `struct { int a : 3; int b : 20; char c : 7; long d : 40; unsigned : 0; int e : 5; double f; int g : 1; }`
meets the hypotheses; these are its entries and the positions recorded. -/
def bitSample : List Field :=
  [.bit true .int 3, .bit true .int 20, .bit true .char 7, .bit true .long 40, .bit false .int 0,
    .bit true .int 5, .member (.leaf .float64 0 0), .bit true .int 1]

example : ∀ f ∈ bitSample, f.WF := by
  intro f hf
  simp only [bitSample, List.mem_cons, List.not_mem_nil, or_false] at hf
  rcases hf with rfl | rfl | rfl | rfl | rfl | rfl | rfl | rfl
  all_goals first
    | exact ⟨_, rfl, by decide⟩
    | exact WF.leaf (by simp)

theorem offsets (al : Nat) (ms : List Ty) (n : Nat) (v : List Entry) (h : WFAll ms) (ho : off ms = n)
    (hv : flatten (.struct al ms) = v) : structCurrentOffset v 0 = .ok n := by
  have := structCurrentOffset_eq [] al ms h
  rw [List.nil_append, hv, ho] at this
  exact this

example : translateStruct [] false 0 bitSample = .ok
    ([⟨.struct, 0, 6⟩, ⟨.leaf .bits, 4, 23⟩, ⟨.leaf .bits, 1, 7⟩, ⟨.leaf .bits, 8, 72⟩, ⟨.leaf .bits, 4, 5⟩,
        ⟨.leaf .float64, 0, 0⟩, ⟨.leaf .bits, 4, 1⟩],
      [some ⟨1, 0, 3⟩, some ⟨1, 3, 20⟩, some ⟨2, 0, 7⟩, some ⟨3, 32, 40⟩, none, some ⟨4, 0, 5⟩,
        some ⟨5, 0, 0⟩, some ⟨6, 0, 1⟩]) := by
  have w (a p) : WF (.leaf .bits a p) := .leaf (by simp)
  have wd : WF (.leaf .float64 0 0) := .leaf (by simp)
  have h0 := offsets 0 [] 0 _ .nil rfl rfl
  have h1 := offsets 0 [.leaf .bits 4 23] 3 _ (.cons (w ..) .nil) rfl rfl
  have h2 := offsets 0 [.leaf .bits 4 23, .leaf .bits 1 7] 4 _ (.cons (w ..) (.cons (w ..) .nil)) rfl rfl
  have h3 := offsets 0 [.leaf .bits 4 23, .leaf .bits 1 7, .leaf .bits 8 72] 13 _
    (.cons (w ..) (.cons (w ..) (.cons (w ..) .nil))) rfl rfl
  have h4 := offsets 0 [.leaf .bits 4 23, .leaf .bits 1 7, .leaf .bits 8 72, .leaf .bits 4 5, .leaf .float64 0 0]
    24 _ (.cons (w ..) (.cons (w ..) (.cons (w ..) (.cons (w ..) (.cons wd .nil))))) rfl rfl
  simp only [flatten, flattenAll, List.append_nil, List.cons_append, List.nil_append, List.length_cons,
    List.length_nil] at h0 h1 h2 h3 h4
  simp [translateStruct, translateFields, translateField, translateBitfield, startRun, bitfieldNext, bitSample,
    bitfieldProps, bitfieldNextColocated, bumpParam, translateNormal, Build.reset, bind, Except.bind, h0, h1, h2,
    h3, h4, flatten, padAligned]

/-! ## Long runs -/

theorem Placed.ordered {lay start fs ps stop} (h : Placed lay start fs ps stop) :
    ∀ (i : Nat) p d, ps[i]? = some (some p) → lay[p.storage]? = some (some d) →
      (∃ named k w, fs[i]? = some (.bit named k w)) → start ≤ 8 * d.offset + p.offset := by
  induction h with
  | nil => intro i p d hp; simp at hp
  | zero _ ih =>
    intro i p d hp hd hf
    cases i with
    | zero => simp at hp
    | succ i =>
      have := ih i p d (by simpa using hp) hd (by simpa using hf)
      omega
  | bit h1 h2 h3 h4 _ _ _ _ ih =>
    intro i p d hp hd hf
    cases i with
    | zero =>
      simp only [List.getElem?_cons_zero, Option.some.injEq] at hp
      subst hp
      rw [h2] at hd
      simp only [Option.some.injEq] at hd
      subst hd; omega
    | succ i =>
      have := ih i p d (by simpa using hp) hd (by simpa using hf)
      omega
  | member h1 h2 _ ih =>
    intro i p d hp hd hf
    cases i with
    | zero => simp at hf
    | succ i =>
      have := ih i p d (by simpa using hp) hd (by simpa using hf)
      omega

/-- Nine members `int : 32` and a `char`. -/
def nineInts : List Field := List.replicate 9 (.bit true .int 32) ++ [.member (.leaf .char 0 0)]

/-- **C20** is false of the code: the offset of a bit-field in its run is kept in eight bits, so that the
ninth of nine members `int : 32` is recorded at the position of the first. -/
theorem C20_long_run_false : ¬ BitfieldsDisjoint := by
  intro h
  have hw : ∀ f ∈ nineInts, f.WF := by
    intro f hf
    simp only [nineInts, List.mem_append, List.mem_replicate, List.mem_singleton] at hf
    rcases hf with ⟨_, rfl⟩ | rfl
    · exact ⟨32, rfl, by decide⟩
    · exact WF.leaf (by simp)
  obtain ⟨v, ps, lay, d, stop, hv, _, _, hp, _⟩ :=
    h [] 0 nineInts hw ⟨.leaf .char 0 0, by simp [nineInts]⟩
  have hps : (translateStruct [] false 0 nineInts).toOption.map (·.2) =
      some ((List.range 9).map (fun i => some ⟨1, (32 * i) % 256, 32⟩) ++ [some ⟨2, 0, 0⟩]) := by
    decide +kernel
  rw [hv] at hps
  simp only [Except.toOption, Option.map_some, Option.some.injEq] at hps
  subst hps
  simp only [nineInts] at hp
  cases hp with
  | bit h1 h2 h3 h4 h5 h6 h7 h8 =>
    have := h8.ordered 7 ⟨1, 0, 32⟩ _ rfl h2 ⟨true, .int, 32, rfl⟩
    simp only [h3] at this
    omega

/-! ## Unions -/

theorem startRun_union (pre : List Entry) (al : Nat) (ms : List Ty) (a : Allocator) (s : Nat) (named : Bool)
    {k : Leaf} {u w : Nat} (hu : unitBits k = some u) (hw : 0 < w) (hwu : w ≤ u) :
    ∃ b' al', startRun pre.length ⟨pre ++ flatten (.union al ms), a, s⟩ named k w =
        .ok (b', some ⟨pre.length + 1 + (flattenAll ms).length, 0, w⟩) ∧
      b'.entries = pre ++ flatten (.union al (ms ++ [.leaf .bits al' w])) := by
  have hb := unit_bound hu
  have hco : structCurrentOffset (pre ++ flatten (.union al ms)) pre.length = .ok 0 := by
    simp [structCurrentOffset, flatten]
  refine ⟨⟨bumpParam (pre ++ flatten (.union al ms) ++ [⟨.leaf .bits, if named then u / 8 else 0, w⟩]) pre.length,
    ⟨true, 0, w⟩, pre.length + 1 + (flattenAll ms).length⟩, if named then u / 8 else 0, ?_, ?_⟩
  · rw [startRun, bitfieldNext, if_neg (by omega), hco]
    simp only [bind, Except.bind, props_unit hu]
    rw [if_pos hwu, unit_and hu, Nat.mod_eq_of_lt (a := w) (by omega)]
    simp only [Nat.zero_mul, Nat.zero_mod, Nat.zero_add, if_neg (show ¬ w > u by omega)]
    have : (pre ++ flatten (.union al ms)).length = pre.length + 1 + (flattenAll ms).length := by
      simp [flatten]; omega
    rw [this]
    simp only [Nat.sub_zero, Nat.zero_mod]
  · simp only [bumpParam, flatten, flattenAll_append, flattenAll, List.append_assoc, List.cons_append,
      modify_head]
    simp

/-- Members of a union: what is recorded about the bit-fields. -/
inductive PlacedUnion (lay : List (Option Data)) : List Field → List (Option Placement) → Prop
  | nil : PlacedUnion lay [] []
  | zero {named k fs ps} : PlacedUnion lay fs ps → PlacedUnion lay (.bit named k 0 :: fs) (none :: ps)
  | bit {named k w fs ps d} {p : Placement} : 0 < w → lay[p.storage]? = some (some d) → d.offset = 0 →
      p.offset = 0 → p.width = w → d.size = (w + 7) / 8 → PlacedUnion lay fs ps →
      PlacedUnion lay (.bit named k w :: fs) (some p :: ps)
  | member {t fs ps d} {p : Placement} : lay[p.storage]? = some (some d) → d.offset = 0 →
      PlacedUnion lay fs ps → PlacedUnion lay (.member t :: fs) (some p :: ps)

theorem lay_at_union (pre : List Entry) (al : Nat) (ini more : List Ty) (t : Ty) (lay : List (Option Data))
    (h : WFAll (ini ++ t :: more))
    (hl : typeLayoutOf (pre ++ flatten (.union al (ini ++ t :: more))) pre.length 1 = .ok lay) :
    lay[pre.length + 1 + (flattenAll ini).length]? =
      some (some (update (layAll (.fresh false) ini).1 (natural t).1 t.entry).2) := by
  have hlo := typeLayoutOf_eq (.union al (ini ++ t :: more)) (.union (by simp) h) pre []
  simp only [List.append_nil, List.length_nil, List.replicate_zero] at hlo
  rw [hlo] at hl
  simp only [Except.ok.injEq] at hl
  subst hl
  rw [List.getElem?_append_right (by simp; omega)]
  simp only [List.length_replicate, LTree.flat, List.map_cons, natural]
  have : pre.length + 1 + (flattenAll ini).length - pre.length = (flattenAll ini).length + 1 := by omega
  rw [this, List.getElem?_cons_succ, layAll_append, flatL_append, List.map_append,
    List.getElem?_append_right (by rw [List.length_map, length_flatL]; exact Nat.le_refl _),
    List.length_map, length_flatL]
  simp [layAll, flatL, LTree.flat]

theorem layAll_union_offset : ∀ (ts : List Ty) (c : Compound), c.aggregate = false →
    (layAll c ts).1.offset = c.offset
  | [], _, _ => rfl
  | t :: ts, c, hc => by
    simp only [layAll]
    rw [layAll_union_offset ts _ (by rw [update_aggregate, hc]), (update_stay _ _ _ hc).1]

theorem union_member_offset (ini : List Ty) (t : Ty) :
    (update (layAll (.fresh false) ini).1 (natural t).1 t.entry).2.offset = 0 := by
  rw [(update_stay _ _ _ (by rw [layAll_aggregate]; rfl)).2, layAll_union_offset _ _ rfl]; rfl

theorem fields_union : ∀ (fs : List Field), (∀ f ∈ fs, f.WF) → ∀ (pre : List Entry) (al : Nat) (ms : List Ty)
    (b : Build), b.entries = pre ++ flatten (.union al ms) → WFAll ms →
    ∃ b' ps ms', translateFields true pre.length b fs = .ok (b', ps) ∧
      b'.entries = pre ++ flatten (.union al ms') ∧ WFAll ms' ∧ (∃ more, ms' = ms ++ more) ∧
      ∀ lay, typeLayoutOf (pre ++ flatten (.union al ms')) pre.length 1 = .ok lay → PlacedUnion lay fs ps
  | [], _, pre, al, ms, b, h, hm => ⟨b, [], ms, rfl, h, hm, ⟨[], by simp⟩, fun _ _ => .nil⟩
  | .member t :: fs, hw, pre, al, ms, b, h, hm => by
    have hwt : WF t := hw _ (List.mem_cons_self ..)
    have hent : b.reset.entries = pre ++ flatten (.union al ms) := h
    have hlen : b.reset.entries.length = pre.length + 1 + (flattenAll ms).length := by
      rw [hent]; simp [flatten]; omega
    obtain ⟨b', ps, ms', he, hent', hm', ⟨more, rfl⟩, hp⟩ :=
      fields_union fs (fun f hf => hw f (List.mem_cons_of_mem _ hf)) pre al (ms ++ [t])
        { b.reset with entries := bumpParam (b.reset.entries ++ flatten t) pre.length }
        (by
          rw [hent]
          simp only [bumpParam, flatten, flattenAll_append, flattenAll, List.append_assoc, List.cons_append,
            modify_head]
          simp)
        (wfAll_append hm (.cons hwt .nil))
    have e : ms ++ [t] ++ more = ms ++ t :: more := by simp
    rw [e] at hent' hm' hp
    refine ⟨b', some ⟨b.reset.entries.length, 0, 0⟩ :: ps, _, ?_, hent', hm', ⟨_, rfl⟩, ?_⟩
    · rw [translateFields, translateField, translateNormal]
      simp only [bind, Except.bind]
      rw [he]
    · intro lay hl
      exact .member (by simp only [hlen]; exact lay_at_union pre al ms more t lay hm' hl)
        (union_member_offset ms t) (hp lay hl)
  | .bit named k w :: fs, hw, pre, al, ms, b, h, hm => by
    obtain ⟨u, hu, hwu⟩ : ∃ u, unitBits k = some u ∧ w ≤ u := hw _ (List.mem_cons_self ..)
    have hfs : ∀ f ∈ fs, f.WF := fun f hf => hw f (List.mem_cons_of_mem _ hf)
    by_cases hw0 : w = 0
    · subst hw0
      obtain ⟨b', ps, ms', he, hent', hm', hmore, hp⟩ := fields_union fs hfs pre al ms b.reset h hm
      refine ⟨b', none :: ps, ms', ?_, hent', hm', hmore, fun lay hl => .zero (hp lay hl)⟩
      rw [translateFields, translateField]
      simp only [bind, Except.bind, if_true, translateBitfield]
      have : b.reset.reset = b.reset := rfl
      rw [this, he]
    · have hrun := startRun_union pre al ms b.reset.alloc b.reset.lastStorage named hu (by omega : 0 < w) hwu
      obtain ⟨b1, al', hs, hent1⟩ := hrun
      obtain ⟨b', ps, ms', he, hent', hm', ⟨more, rfl⟩, hp⟩ :=
        fields_union fs hfs pre al (ms ++ [.leaf .bits al' w]) b1 hent1
          (wfAll_append hm (.cons (.leaf (by simp)) .nil))
      have e : ms ++ [Ty.leaf .bits al' w] ++ more = ms ++ .leaf .bits al' w :: more := by simp
      rw [e] at hent' hm' hp
      have hb : b.reset = ⟨pre ++ flatten (.union al ms), b.reset.alloc, b.reset.lastStorage⟩ := by
        rw [← h]; rfl
      refine ⟨b', some ⟨pre.length + 1 + (flattenAll ms).length, 0, w⟩ :: ps, _, ?_, hent', hm', ⟨_, rfl⟩, ?_⟩
      · rw [translateFields, translateField, if_pos rfl, translateBitfield, if_neg hw0,
          if_neg (by simp [Build.reset]), hb, hs]
        simp only [bind, Except.bind]
        rw [he]
      · intro lay hl
        refine .bit (by omega) (lay_at_union pre al ms more _ lay hm' hl) (union_member_offset ms _) rfl rfl ?_
          (hp lay hl)
        rw [update_size]; simp [natural, leafSize]

/-- **C20** for unions: every bit-field starts at the first bit of the union, has its declared width, and
the union has room for it. -/
theorem C20_union_bitfields (pre : List Entry) (al : Nat) (fs : List Field) (hw : ∀ f ∈ fs, f.WF) :
    ∃ v ps ms, translateStruct pre true al fs = .ok (v, ps) ∧ v = pre ++ flatten (.union al ms) ∧
      ∀ lay, typeLayoutOf v pre.length 1 = .ok lay → PlacedUnion lay fs ps := by
  obtain ⟨b', ps, ms, he, hent, _, _, hp⟩ := fields_union fs hw pre al []
    ⟨pre ++ [⟨.union, al, 0⟩], ⟨false, 0, 0⟩, 0⟩ (by simp [flatten, flattenAll]) .nil
  refine ⟨b'.entries, ps, ms, ?_, hent, by rw [hent]; exact hp⟩
  rw [translateStruct]
  simp only [if_true, he]
  rfl

example : (translateStruct [] true 0 bitSample).toOption.map (·.2) = some
    [some ⟨1, 0, 3⟩, some ⟨2, 0, 20⟩, some ⟨3, 0, 7⟩, some ⟨4, 0, 40⟩, none, some ⟨5, 0, 5⟩, some ⟨6, 0, 0⟩,
      some ⟨7, 0, 1⟩] := by decide +kernel

/-! ## Bit-fields of width 0 -/

/-- The claim (C17 6.7.2.1p12 and System V ABI): the bit-field after an unnamed bit-field of width 0
starts at a storage unit boundary of the type the latter is declared with. -/
def ZeroWidthEndsUnit : Prop :=
  ∀ (al : Nat) (before : List Field) (k : Leaf) (u : Nat) (named : Bool) (k' : Leaf) (w : Nat),
    (∀ f ∈ before ++ [.bit false k 0, .bit named k' w], f.WF) → 0 < w → unitBits k = some u →
    ∃ v ps lay p d, translateStruct [] false al (before ++ [.bit false k 0, .bit named k' w]) = .ok (v, ps) ∧
      typeLayoutOf v 0 1 = .ok lay ∧ ps[before.length + 1]? = some (some p) ∧
      lay[p.storage]? = some (some d) ∧ (8 * d.offset + p.offset) % u = 0

/-- **C54** is false of the code: in `struct { char a : 1; int : 0; char b : 1; }` the member `b` is
placed at bit 8, in the same `int` as `a`.  (That it does not share a byte with `a` is part of
`Placed`, thus of `C20_bitfields_partial`.) -/
theorem C54_zero_width_false : ¬ ZeroWidthEndsUnit := by
  intro h
  obtain ⟨v, ps, lay, p, d, hv, hl, hp, hd, hm⟩ :=
    h 0 [.bit true .char 1] .int 32 true .char 1
      (by
        intro f hf
        simp only [List.cons_append, List.nil_append, List.mem_cons, List.not_mem_nil, or_false] at hf
        rcases hf with rfl | rfl | rfl <;> exact ⟨_, rfl, by decide⟩)
      (by decide) rfl
  have he : translateStruct [] false 0
      ([.bit true .char 1] ++ [.bit false .int 0, .bit true .char 1]) =
      .ok (flatten (.struct 0 ([.leaf .bits 1 1] ++ .leaf .bits 1 1 :: [])),
        [some ⟨1, 0, 1⟩, none, some ⟨2, 0, 1⟩]) := by
    have h0 := offsets 0 [] 0 _ .nil rfl rfl
    have h1 := offsets 0 [.leaf .bits 1 1] 1 _ (.cons (.leaf (by simp)) .nil) rfl rfl
    simp only [flatten, flattenAll, List.append_nil, List.length_cons, List.length_nil] at h0 h1
    simp [translateStruct, translateFields, translateField, translateBitfield, startRun, bitfieldNext,
      bitfieldProps, bumpParam, Build.reset, bind, Except.bind, h0, h1, flatten, flattenAll]
  rw [hv] at he
  simp only [Except.ok.injEq, Prod.mk.injEq] at he
  obtain ⟨rfl, rfl⟩ := he
  have := lay_at [] 0 [.leaf .bits 1 1] [] (.leaf .bits 1 1) lay
    (.cons (.leaf (by simp)) (.cons (.leaf (by simp)) .nil)) hl
  simp only [List.length_cons, List.length_nil, List.getElem?_cons_succ, List.getElem?_cons_zero,
    Option.some.injEq] at hp
  subst hp
  simp only [List.length_nil, flattenAll, flatten, List.append_nil, List.length_cons] at this
  rw [this] at hd
  simp only [Option.some.injEq] at hd
  subst hd
  rw [(dataAfter_bits _ _ _).1] at hm
  exact absurd hm (by decide)

/-- **C54**, what holds instead: what follows an unnamed bit-field of width 0 starts in a byte of its
own.  (The storage unit is missing.) -/
theorem C54_zero_width_partial {lay start named k fs ps stop}
    (h : Placed lay start (.bit named k 0 :: fs) ps stop) :
    ∃ ps', ps = none :: ps' ∧ Placed lay (8 * ((start + 7) / 8)) fs ps' stop := by
  cases h with
  | zero h => exact ⟨_, rfl, h⟩
  | bit h => omega

end Kefir.Layout
