import Verif.StaticData.Store
import Verif.Abi.Props

/-!
# Properties of static data

C40 (the bytes emitted for objects with static storage duration), C55 (values of bit-fields) and C56 (which
objects are put into sections that are not loaded from the file).
-/

namespace Kefir.StaticData

open Kefir.Layout Kefir.Abi

/-! ## Lemmas about whole data -/

theorem stops {ts : List Ty} {ls : List LTree} {vals : Nat → Value} {slot : Nat} (hl : LaidAll ts ls)
    (hc : Consecutive 0 ts ls) (hs : SuitsAll vals ts ls slot) :
    seqStop 0 (pieces vals ts ls slot) = lastStop ls := by
  have := (pieces_ordered hl hc hs).2
  rw [this]
  cases ls <;> simp [lastStop]

theorem totalSize_eq : ∀ {ts : List Ty} {ls : List LTree} {start : Nat}, LaidAll ts ls → UnpackedAll ts ls →
    Consecutive start ts ls → (∀ t ∈ ts, t.isBits = false) →
    ls.foldl (fun size l => padAligned size l.data.alignment + l.data.size) start =
      if ls = [] then start else lastStop ls
  | _, _, start, .nil, _, _, _ => rfl
  | _, _, start, .cons (t := t) (l := l) (ts := ts) (ls := ls) hl hls, .cons hu hus, .cons h1 _ h3 h4 hc, hb => by
    have hbt := hb t (List.mem_cons_self ..)
    have hpos : 0 < l.data.alignment := by
      obtain ⟨e, he⟩ := alignment_pow hl hu; rw [he]; exact Nat.two_pow_pos _
    simp only [List.foldl_cons]
    rw [padAligned_unique hpos h1 (h4 hbt) (Nat.dvd_of_mod_eq_zero (h3 hbt))]
    have ih := totalSize_eq hls hus hc (fun t ht => hb t (List.mem_cons_of_mem _ ht))
    rw [LTree.stop] at ih
    rw [ih]
    cases ls with
    | nil => simp [lastStop, LTree.stop]
    | cons => simp [lastStop]

theorem staticData_ok {data : DataMap} (hd : Mapped data) (hfin : data.finalized = true) {ts : List Ty}
    {ls : List LTree} (hl : LaidAll ts ls) (hu : UnpackedAll ts ls) (hw : WFAll ts) (hc : Consecutive 0 ts ls)
    (hb : ∀ t ∈ ts, t.isBits = false) (hs : SuitsAll data.vals ts ls 0) (hf : FlagsAll data ts 0)
    (ht : objectsAll ts ≤ data.total) :
    staticData data ts ls = .ok (place (lastStop ls) (pieces data.vals ts ls 0)) := by
  obtain ⟨iter, h1, h2⟩ := emitAll_ok hd ts (base := 0) (start := 0) ⟨0, 0, data.blocks, []⟩ hl hu hw hc
    (fun l _ => Nat.dvd_zero _) hs hf (by simpa using ht) ⟨[], rfl, by simp⟩ rfl
  have e1 := stops hl hc hs
  have e2 : totalSize ls = lastStop ls := by
    rw [totalSize, totalSize_eq hl hu hc hb]
    cases ls <;> simp [lastStop]
  simp only [staticData, hfin, Bool.not_true, Bool.false_eq_true, if_false, h2, e1, e2, Nat.zero_add,
    List.nil_append]
  rw [if_neg (by omega), place_seq (pieces_ordered hl hc hs).1 (by omega), e1]
  simp [zeros]

/-- The values leave no gap: with a slot, they use every block of slots before it. -/
def NoGaps (writes : List (Nat × Value)) : Prop :=
  ∀ w ∈ writes, ∀ b, b < w.1 / blockCapacity → ∃ w' ∈ writes, w'.1 / blockCapacity = b

theorem prepared {total : Nat} {writes : List (Nat × Value)} (hg : NoGaps writes) :
    ∃ d k, setAll (alloc total) writes = .ok d ∧ d.vals = valueOf writes ∧ d.total = total ∧ Mapped d ∧ Dense d k ∧
      (∀ j, d.flags j = false) := by
  obtain ⟨d, h1, h2, h3, h4, h5, h6, h7⟩ := setAll_spec writes (alloc total) rfl (alloc_mapped total) (fun _ => rfl)
  refine ⟨d, d.blocks.length, h1, ?_, h2, h4, ?_, h5⟩
  · funext j
    rw [h6 j, valueOf]
    cases writes.reverse.find? (fun w => decide (w.1 = j)) <;> rfl
  · refine eq_range h4.sorted (fun b hb c hlt => ?_)
    rw [h7] at hb ⊢
    rcases hb with hb | ⟨w, hw, rfl⟩
    · simp [alloc] at hb
    · obtain ⟨w', hw', e⟩ := hg w hw c hlt
      exact Or.inr ⟨w', hw', e⟩

theorem valueOf_ne {writes : List (Nat × Value)} (h : ∀ w ∈ writes, w.2 ≠ .aggregate) (j : Nat) :
    valueOf writes j ≠ .aggregate := by
  rw [valueOf]
  cases hf : writes.reverse.find? (fun w => decide (w.1 = j)) with
  | none => simp
  | some w => exact h w (by simpa using List.mem_of_find?_eq_some hf)

/-- What finalisation leaves. -/
theorem finalised {total : Nat} {writes : List (Nat × Value)} (hg : NoGaps writes)
    (hna : ∀ w ∈ writes, w.2 ≠ .aggregate) {ts : List Ty} {ls : List LTree} (hw : WFAll ts) (hl : LaidAll ts ls)
    (hs : SuitsAll (valueOf writes) ts ls 0) :
    ∃ d d', setAll (alloc total) writes = .ok d ∧ finalize ts d = .ok d' ∧ d'.finalized = true ∧
      d'.defined = initAll (valueOf writes) ts 0 ∧ Mapped d' ∧ d'.total = total ∧
      FinalAll (valueOf writes) d' ts 0 := by
  obtain ⟨d, k, h1, h2, h3, h4, h5, h6⟩ := prepared (total := total) hg
  obtain ⟨s, r1, r2, r3, r4, r5, r6, r7, r8, r9, r10⟩ := finAll_ok (k := k) (fun j => valueOf_ne hna j) ts
    (slot := 0) ⟨d, 0, false, d.blocks⟩ hl hw hs (Or.inl rfl) h5 h4 ⟨[], rfl, by simp⟩
    ⟨fun j _ => by rw [h2], fun j _ => h6 j⟩
  refine ⟨d, { s.data with finalized := true, defined := s.defined }, h1, by simp only [finalize, r1], rfl, by simpa using r3, ⟨r5.sorted, r5.covers⟩,
    r6.trans h3, r10.congr (fun j _ _ => ⟨rfl, rfl⟩)⟩

/-! ## C40 -/

/-- C40: static data has the bytes that its initialisers say.  For every list of objects of any types (without
bit-fields outside of structures, and with alignments that do not pack them), and any sequence of assignments
of values that fit the parts of the objects and leave no gaps, the bytes emitted are those of the objects at
the offsets of their layouts: scalars in little-endian order, addresses, strings padded with zeros, members of
structures at their offsets, elements of arrays one after the other, the first member of a union that has a
value, and zeros everywhere else.

Missing: values with gaps (in such a case a member of a union can be dropped, `C40_gap_false`); unions with
values for several members have the bytes of the first of them, not of the last one assigned
(`C40_union_false`); runs of bit-fields of more than 64 bits (`C40_long_run_false`). -/
theorem C40_image_partial (ts : List Ty) (ls : List LTree) (hw : WFAll ts) (hl : LaidAll ts ls)
    (hc : Consecutive 0 ts ls) (hu : UnpackedAll ts ls) (hb : ∀ t ∈ ts, t.isBits = false)
    (writes : List (Nat × Value)) (hna : ∀ w ∈ writes, w.2 ≠ .aggregate) (hg : NoGaps writes)
    (hs : SuitsAll (valueOf writes) ts ls 0) :
    ∃ d d', setAll (alloc (objectsAll ts)) writes = .ok d ∧ finalize ts d = .ok d' ∧
      staticData d' ts ls = .ok (place (lastStop ls) (pieces (valueOf writes) ts ls 0)) := by
  obtain ⟨d, d', h1, h2, h3, h4, h5, h6, h7⟩ := finalised (total := objectsAll ts) hg hna hw hl hs
  have hne := fun j => valueOf_ne hna j
  refine ⟨d, d', h1, h2, ?_⟩
  rw [staticData_ok h5 h3 hl hu hw hc hb (h7.suits hne hl hs) (h7.flags hne hl hs).1 (by omega),
    (h7.images hne hl hs).1]

/-- C40: there are no gaps if there are at most 128 scalars and aggregates. -/
theorem C40_small (ts : List Ty) (ls : List LTree) (hw : WFAll ts) (hl : LaidAll ts ls)
    (hc : Consecutive 0 ts ls) (hu : UnpackedAll ts ls) (hb : ∀ t ∈ ts, t.isBits = false)
    (writes : List (Nat × Value)) (hna : ∀ w ∈ writes, w.2 ≠ .aggregate) (hsm : objectsAll ts ≤ 128)
    (hsl : ∀ w ∈ writes, w.1 < objectsAll ts) (hs : SuitsAll (valueOf writes) ts ls 0) :
    ∃ d d', setAll (alloc (objectsAll ts)) writes = .ok d ∧ finalize ts d = .ok d' ∧
      staticData d' ts ls = .ok (place (lastStop ls) (pieces (valueOf writes) ts ls 0)) := by
  refine C40_image_partial ts ls hw hl hc hu hb writes hna ?_ hs
  intro w hw b hb
  have := hsl w hw
  rw [Nat.div_eq_of_lt (by simp only [blockCapacity]; omega)] at hb
  omega

mutual
/-- There is no union. -/
def noUnion : Ty → Bool
  | .leaf _ _ _ => true
  | .struct _ ms => noUnionAll ms
  | .union _ _ => false
  | .array _ _ e => noUnion e

def noUnionAll : List Ty → Bool
  | [] => true
  | t :: ts => noUnion t && noUnionAll ts
end

mutual
theorem flags_noUnion {d : DataMap} : ∀ (t : Ty) (slot : Nat), noUnion t = true → FlagsRight d t slot
  | .leaf _ _ _, _, _ => by simp [FlagsRight]
  | .struct _ ms, slot, h => by
    simp only [noUnion] at h
    simp only [FlagsRight]
    exact flags_noUnionAll ms _ h
  | .union _ _, _, h => by simp [noUnion] at h
  | .array _ n e, slot, h => by
    simp only [noUnion] at h
    simp only [FlagsRight]
    exact fun i _ => flags_noUnion e _ h

theorem flags_noUnionAll {d : DataMap} : ∀ (ts : List Ty) (slot : Nat), noUnionAll ts = true → FlagsAll d ts slot
  | [], _, _ => by simp [FlagsAll]
  | t :: ts, slot, h => by
    simp only [noUnionAll, Bool.and_eq_true] at h
    simp only [FlagsAll]
    exact ⟨flags_noUnion t _ h.1, flags_noUnionAll ts _ h.2⟩
end

/-- C40: without unions, the bytes emitted are right for any finalised data, whatever gaps it has: the emission
skips the blocks without values as it should. -/
theorem C40_no_unions (ts : List Ty) (ls : List LTree) (hw : WFAll ts) (hl : LaidAll ts ls)
    (hc : Consecutive 0 ts ls) (hu : UnpackedAll ts ls) (hb : ∀ t ∈ ts, t.isBits = false)
    (hn : noUnionAll ts = true) (data : DataMap) (hfin : data.finalized = true)
    (hsort : data.blocks.Pairwise (· < ·)) (hcov : ∀ j, data.vals j ≠ .undefined → j / 128 ∈ data.blocks)
    (ht : objectsAll ts ≤ data.total) (hs : SuitsAll data.vals ts ls 0) :
    staticData data ts ls = .ok (place (lastStop ls) (pieces data.vals ts ls 0)) :=
  staticData_ok ⟨hsort, fun j hj => by simpa [DataMap.mapped, blockCapacity] using hcov j hj⟩ hfin hl hu hw hc hb hs
    (flags_noUnionAll ts 0 hn) ht

/-! ### Examples -/

/-- `struct { char c; int i[2]; union { float f; double d; } u; char s[4]; }`. -/
def sample : Ty :=
  .struct 0 [.leaf .char 0 0, .array 0 2 (.leaf .int 0 0), .union 0 [.leaf .float32 0 0, .leaf .float64 0 0],
    .array 0 4 (.leaf .char 0 0)]

/-- The layout that `typeLayout` computes (`layoutOf_laid`), with the offset. -/
def sampleLayout : LTree :=
  .node ⟨32, 8, true, 0⟩ [.node ⟨1, 1, true, 0⟩ [], .node ⟨8, 4, true, 4⟩ [.node ⟨4, 4, true, 0⟩ []],
    .node ⟨8, 8, true, 16⟩ [.node ⟨4, 4, true, 0⟩ [], .node ⟨8, 8, true, 0⟩ []],
    .node ⟨4, 1, true, 24⟩ [.node ⟨1, 1, true, 0⟩ []]]

/-- `{ .c = 'A', .i[1] = 0x01020304, .u.d = 1.0, .s = "xy" }`. -/
def sampleWrites : List (Nat × Value) :=
  [(1, .integer 65), (4, .integer 0x01020304), (7, .float64 0x3ff0000000000000), (8, .string [120, 121, 0])]

theorem sample_wf : WFAll [sample] :=
  .cons (.struct (by simp) (.cons (.leaf (by simp)) (.cons (.array (.leaf (by simp)))
    (.cons (.union (by simp) (.cons (.leaf (by simp)) (.cons (.leaf (by simp)) .nil)))
      (.cons (.array (.leaf (by simp))) .nil))))) .nil

example : (typeLayout (flattenAll [sample])).toOption = some ((flatL [sampleLayout]).map some) := by
  rw [typeLayout_eq _ sample_wf]; decide +kernel

def bytesOf (d : Out DataMap) (ts : List Ty) (ls : List LTree) : Option (List Cell) :=
  match d with
  | .ok d =>
    match finalize ts d with
    | .ok d => (staticData d ts ls).toOption
    | .error _ => none
  | .error _ => none

example : bytesOf (setAll (alloc (objectsAll [sample])) sampleWrites) [sample] [sampleLayout] =
    some ([65, 0, 0, 0,  0, 0, 0, 0,  4, 3, 2, 1,  0, 0, 0, 0,  0, 0, 0, 0, 0, 0, 0xf0, 0x3f,
      120, 121, 0, 0,  0, 0, 0, 0].map Cell.byte) := by decide +kernel

/-- The hypotheses of `C40_small` hold for the example. -/
example : WFAll [sample] ∧ LaidAll [sample] [sampleLayout] ∧ Consecutive 0 [sample] [sampleLayout] ∧
    UnpackedAll [sample] [sampleLayout] ∧ SuitsAll (valueOf sampleWrites) [sample] [sampleLayout] 0 := by
  refine ⟨?_, ?_, ?_, ?_, ?_⟩
  · exact sample_wf
  · refine .cons (.struct (n := 8) (.cons (.leaf rfl rfl) (.cons (.array (.leaf rfl rfl) rfl rfl rfl)
      (.cons (.union (n := 8) (.cons (.leaf rfl rfl) (.cons (.leaf rfl rfl) .nil)) (by simp [LTree.data])
        ⟨by simp [LTree.data], ⟨_, List.mem_cons_of_mem _ (List.mem_cons_self ..), rfl⟩⟩ rfl rfl (by simp [LTree.data])
        ⟨_, List.mem_cons_of_mem _ (List.mem_cons_self ..), by decide⟩)
        (.cons (.array (.leaf rfl rfl) rfl rfl rfl) .nil)))) ?_ ?_ rfl rfl (by decide) (by decide)) .nil
    · refine .cons ?_ ?_ ?_ ?_ (.cons ?_ ?_ ?_ ?_ (.cons ?_ ?_ ?_ ?_ (.cons ?_ ?_ ?_ ?_ .nil))) <;>
        simp [LTree.data, Ty.isBits, LTree.stop]
    · exact ⟨by simp [LTree.data], ⟨_, List.mem_cons_of_mem _ (List.mem_cons_of_mem _ (List.mem_cons_self ..)), rfl⟩⟩
  · refine .cons ?_ ?_ ?_ ?_ .nil <;> simp [LTree.data, Ty.isBits, sample, sampleLayout]
  · refine .cons (.struct (Or.inl rfl) (by simp [LTree.data]) (.cons (.leaf (Or.inl rfl) (by decide))
      (.cons (.array (Or.inl rfl) (by decide) rfl (.leaf (Or.inl rfl) (by decide)))
        (.cons (.union (Or.inl rfl) (by simp [LTree.data]) (.cons (.leaf (Or.inl rfl) (by decide))
          (.cons (.leaf (Or.inl rfl) (by decide)) .nil)))
          (.cons (.array (Or.inl rfl) (by decide) rfl (.leaf (Or.inl rfl) (by decide))) .nil))))) .nil
  · have e : valueOf sampleWrites 0 = .undefined ∧ valueOf sampleWrites 1 = .integer 65 ∧
        valueOf sampleWrites 2 = .undefined ∧ valueOf sampleWrites 3 = .undefined ∧
        valueOf sampleWrites 4 = .integer 0x01020304 ∧ valueOf sampleWrites 5 = .undefined ∧
        valueOf sampleWrites 6 = .undefined ∧ valueOf sampleWrites 7 = .float64 0x3ff0000000000000 ∧
        valueOf sampleWrites 8 = .string [120, 121, 0] ∧ valueOf sampleWrites 9 = .undefined ∧
        valueOf sampleWrites 10 = .undefined ∧ valueOf sampleWrites 11 = .undefined ∧
        valueOf sampleWrites 12 = .undefined := by decide +kernel
    obtain ⟨e0, e1, e2, e3, e4, e5, e6, e7, e8, e9, e10, e11, e12⟩ := e
    simp only [SuitsAll, sample, sampleLayout, Suits, objects, objectsAll, NoValue, LeafSuits]
    refine ⟨⟨Or.inl e0, ⟨Or.inr ⟨65, e1⟩, ⟨Or.inr (Or.inl e2), ?_⟩, ⟨Or.inl e5, Or.inl e6, Or.inr ⟨_, e7⟩, trivial⟩,
      ⟨Or.inl ⟨[120, 121, 0], Or.inl e8, by decide, ?_⟩, ?_⟩, trivial⟩⟩, trivial⟩
    · intro i hi
      have : i = 0 ∨ i = 1 := by omega
      rcases this with rfl | rfl
      · exact Or.inl e3
      · exact Or.inr ⟨_, e4⟩
    · intro j h1 h2
      have : j = 9 ∨ j = 10 ∨ j = 11 ∨ j = 12 := by omega
      rcases this with rfl | rfl | rfl | rfl <;> assumption
    · intro i hi
      have : i = 0 ∨ i = 1 ∨ i = 2 ∨ i = 3 := by omega
      rcases this with rfl | rfl | rfl | rfl <;> exact Or.inl (by assumption)

/-! ### Where C40 fails -/

/-- `union { int a; int b; } x = { .a = 1, .b = 2 };` has the value of `a`; in C the last initialiser counts
(C17 6.7.9p19). -/
theorem C40_union_false :
    bytesOf (setAll (alloc 3) [(1, .integer 1), (2, .integer 2)])
      [.union 0 [.leaf .int 0 0, .leaf .int 0 0]]
      [.node ⟨4, 4, true, 0⟩ [.node ⟨4, 4, true, 0⟩ [], .node ⟨4, 4, true, 0⟩ []]] =
    some ([1, 0, 0, 0].map Cell.byte) := by decide +kernel

/-- `union { struct { int a[200]; } s; } x = { .s.a[150] = 5 };` is emitted as zeros: the entry of the member
lies in a block without values, which is not marked. -/
theorem C40_gap_false :
    bytesOf (setAll (alloc 203) [(3 + 150, .integer 5)])
      [.union 0 [.struct 0 [.array 0 200 (.leaf .int 0 0)]]]
      [.node ⟨800, 4, true, 0⟩ [.node ⟨800, 4, true, 0⟩ [.node ⟨800, 4, true, 0⟩ [.node ⟨4, 4, true, 0⟩ []]]]] =
    some (zeros 800) := by decide +kernel

/-- A run of more than 64 bits of bit-fields (the runs of C20 can be that long) is emitted with a shift by 64
bits, which is undefined. -/
theorem C40_long_run_false :
    (match setAll (alloc 2) [(1, .integer 1)] with
      | .ok d =>
        match finalize [.struct 0 [.leaf .bits 0 66]] d with
        | .ok d => staticData d [.struct 0 [.leaf .bits 0 66]] [.node ⟨9, 1, true, 0⟩ [.node ⟨9, 1, true, 0⟩ []]]
        | .error e => .error e
      | .error e => .error e) = .error .undefined := by rfl

/-! ## C55 -/

/-- C55: initialisers of bit-fields in the order of their places.  For every list of bit-fields of one run,
each after the end of the one before, with fewer than 63 bits, storing a value into each of them leaves each of
them with the low-order bits of its value, and the other objects as they were.

Missing: other orders, for which it is false (`C55_order_false`), and 63 bits (`C55_63_false`). -/
theorem C55_ascending_partial (fields : List (Nat × Nat × Nat)) (hne : fields ≠ []) (d : DataMap) (slot : Nat)
    (hf : d.finalized = false) (ha : Ascending 0 fields) (hv : d.vals slot = .undefined) :
    ∃ d' x, setBitfields d slot fields = .ok d' ∧ d'.vals slot = .integer x ∧ x < 2 ^ 64 ∧
      (∀ f ∈ fields, field x f.2.1 f.2.2 = f.1 % 2 ^ f.2.2) ∧ ∀ j, j ≠ slot → d'.vals j = d.vals j := by
  obtain ⟨d', x, h1, h2, h3, h4, h5, h6, h7⟩ := setBitfields_spec fields 0 d slot 0 hf ha (Or.inr ⟨hv, rfl⟩)
  exact ⟨d', x, h1, h2 hne, h6 (by decide), fun f hfm => by rw [h7 f hfm]; simp [field], h4⟩

/-- C55: storing a bit-field changes neither the bits before it nor those after the next bit. -/
theorem C55_others_partial (d : DataMap) (slot value offset width cur : Nat) (hf : d.finalized = false)
    (hw : width < 63) (ho : offset < 64) (hc : d.vals slot = .integer cur) :
    ∃ d' x, setBitfield d slot value offset width = .ok d' ∧ d'.vals slot = .integer x ∧
      ∀ i, i < 64 → i ≠ offset + width →
        x.testBit i = if offset ≤ i ∧ i < offset + width then value.testBit (i - offset) else cur.testBit i := by
  refine ⟨_, merged cur value offset width, setBitfield_eq hf hw ho (Or.inl hc), by simp [setVal_vals], fun i hi hn => ?_⟩
  rw [merged_bit i hi]
  by_cases h : offset ≤ i ∧ i < offset + width
  · rw [if_pos h, if_pos (by omega)]
  · rw [if_neg h, if_neg (by omega)]

def bitsOf (d : Out DataMap) (slot : Nat) : Option Value := (d.map (·.vals slot)).toOption

/-- `struct { int a : 3, b : 3; } x = { .a = 1, .b = 5 };`. -/
example : bitsOf (setBitfields (alloc 2) 1 [(1, 0, 3), (5, 3, 3)]) 1 = some (.integer 0b101001) := by decide +kernel

/-- `struct { int a : 3, b : 3; } x = { .b = 0, .a = -1 };` makes the first bit of `b` one. -/
theorem C55_order_false :
    bitsOf (setBitfields (alloc 2) 1 [(0, 3, 3), (2 ^ 64 - 1, 0, 3)]) 1 = some (.integer 0b1111) := by decide +kernel

/-- A bit-field of 63 bits is stored with a shift by 64 bits, which is undefined. -/
theorem C55_63_false (value : Nat) : setBitfield (alloc 2) 1 value 0 63 = .error .undefined := by
  simp [setBitfield, alloc]

/-! ## C56 -/

/-- C56: every object is emitted once, into the section of its storage class for objects that are marked as
having, or as not having, values. -/
theorem C56_once (items : List (Object × DataMap)) :
    (translateData items).Perm (items.map fun x => (sectionOf x.1.threadLocal x.2.defined, x)) := by
  induction items with
  | nil => simp [translateData, translateStorage]
  | cons x xs ih =>
    refine List.Perm.trans ?_ (List.Perm.cons _ ih)
    simp only [translateData, translateStorage, List.append_assoc]
    cases h1 : x.1.threadLocal <;> cases h2 : x.2.defined <;>
      simp only [List.filter_cons, h1, h2, beq_self_eq_true, Bool.and_self, if_true,
        sectionOf, List.map_cons, List.cons_append,
        show (false == true) = false from rfl, show (true == false) = false from rfl,
        Bool.false_and, Bool.and_false, Bool.false_eq_true, if_false]
    · exact (List.Perm.append_left _ List.perm_middle).trans List.perm_middle
    · exact List.Perm.refl _
    · exact (List.Perm.append_left _ ((List.Perm.append_left _ List.perm_middle).trans List.perm_middle)).trans
        List.perm_middle
    · exact List.perm_middle

/-- C56: objects whose values leave no gaps are marked as having values if some part of them has one. -/
theorem C56_marked_partial (ts : List Ty) (ls : List LTree) (hw : WFAll ts) (hl : LaidAll ts ls)
    (writes : List (Nat × Value)) (hna : ∀ w ∈ writes, w.2 ≠ .aggregate) (hg : NoGaps writes)
    (hs : SuitsAll (valueOf writes) ts ls 0) :
    ∃ d d', setAll (alloc (objectsAll ts)) writes = .ok d ∧ finalize ts d = .ok d' ∧
      (d'.defined = true ↔ ∃ j, j < objectsAll ts ∧ valueOf writes j ≠ .undefined) := by
  obtain ⟨d, d', h1, h2, h3, h4, h5, h6, h7⟩ := finalised (total := objectsAll ts) hg hna hw hl hs
  refine ⟨d, d', h1, h2, ?_⟩
  rw [h4, initAll_iff]
  simp

/-- C56: so what is put into `.bss` or `.tbss` are zeros. -/
theorem C56_bss_partial (ts : List Ty) (ls : List LTree) (hw : WFAll ts) (hl : LaidAll ts ls)
    (hc : Consecutive 0 ts ls) (hu : UnpackedAll ts ls) (hb : ∀ t ∈ ts, t.isBits = false)
    (writes : List (Nat × Value)) (hna : ∀ w ∈ writes, w.2 ≠ .aggregate) (hg : NoGaps writes)
    (hs : SuitsAll (valueOf writes) ts ls 0) :
    ∃ d d', setAll (alloc (objectsAll ts)) writes = .ok d ∧ finalize ts d = .ok d' ∧
      (d'.defined = false → staticData d' ts ls = .ok (zeros (lastStop ls))) := by
  obtain ⟨d, d', h1, h2, h3⟩ := C40_image_partial ts ls hw hl hc hu hb writes hna hg hs
  obtain ⟨e, e', g1, g2, g3⟩ := C56_marked_partial ts ls hw hl writes hna hg hs
  rw [h1, Except.ok.injEq] at g1
  subst g1
  rw [h2, Except.ok.injEq] at g2
  subst g2
  refine ⟨d, d', h1, h2, fun hd => ?_⟩
  have hund : ∀ j, 0 ≤ j → j < 0 + objectsAll ts → valueOf writes j = .undefined := by
    intro j _ hj
    by_cases h : valueOf writes j = .undefined
    · exact h
    · rw [g3.2 ⟨j, by omega, h⟩] at hd; cases hd
  rw [h3, place_zero (pieces_zero hl hund)]

/-- `int a[200] = { [150] = 5 };` is marked as having no values, and put into `.bss` with a byte that is not
zero. -/
theorem C56_gap_false :
    (match setAll (alloc 201) [(151, .integer 5)] with
      | .ok d =>
        match finalize [.array 0 200 (.leaf .int 0 0)] d with
        | .ok d =>
          match staticData d [.array 0 200 (.leaf .int 0 0)] [.node ⟨800, 4, true, 0⟩ [.node ⟨4, 4, true, 0⟩ []]] with
          | .ok cs => some (sectionOf false d.defined, cs[600]?)
          | .error _ => none
        | .error _ => none
      | .error _ => none) = some (".bss", some (.byte 5)) := by decide +kernel

end Kefir.StaticData
