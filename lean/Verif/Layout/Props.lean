import Verif.Layout.Aligned

/-!
# Properties of memory layouts (C21, C53)
-/

namespace Kefir.Layout

/-- **C21.**  For every sequence of types (nested to any depth) the layout computation succeeds, and
what it stores for the entries is a layout as the ABI requires it: scalars with the ABI's sizes and
alignments; members of structures in the order of declaration, without overlap and each at the first
aligned offset after its predecessor; members of unions at offset 0; structures and unions padded to
the next multiple of their greatest member alignment; arrays without gaps between the elements. -/
theorem C21_layout (ts : List Ty) (h : WFAll ts) :
    ∃ ls, typeLayout (flattenAll ts) = .ok ((flatL ls).map some) ∧ LaidAll ts ls ∧
      Consecutive 0 ts ls :=
  ⟨_, typeLayout_eq ts h, laidAll ts h _, layAll_consecutive ts h (.fresh true) rfl⟩

theorem laid_struct_inv {al ms l} (h : Laid (.struct al ms) l) :
    Consecutive 0 ms l.members ∧ lastStop l.members ≤ l.data.size := by
  cases h; exact ⟨by assumption, by assumption⟩

theorem consecutive_start : ∀ {o ts ls}, Consecutive o ts ls → ∀ (j : Nat) b, ls[j]? = some b → o ≤ b.data.offset
  | _, _, _, .nil, j, b, h => by simp at h
  | _, _, _, .cons h _ _ _ hs, 0, b, hb => by
    simp only [List.getElem?_cons_zero, Option.some.injEq] at hb; subst hb; exact h
  | _, _, _, .cons h _ _ _ hs, j + 1, b, hb => by
    simp only [List.getElem?_cons_succ] at hb
    have := consecutive_start hs j b hb
    simp only [LTree.stop] at this; omega

theorem consecutive_stop : ∀ {o ts ls}, Consecutive o ts ls → ∀ (j : Nat) b, ls[j]? = some b →
    b.stop ≤ lastStop ls
  | _, _, _, .nil, j, b, h => by simp at h
  | _, _, _, .cons (l := l) (ls := ls) h _ _ _ hs, j, b, hb => by
    cases ls with
    | nil =>
      cases j with
      | zero => simp only [List.getElem?_cons_zero, Option.some.injEq] at hb; subst hb; exact Nat.le_refl _
      | succ j => simp at hb
    | cons l2 ls =>
      have hl : lastStop (l :: l2 :: ls) = lastStop (l2 :: ls) := rfl
      rw [hl]
      cases j with
      | zero =>
        simp only [List.getElem?_cons_zero, Option.some.injEq] at hb; subst hb
        have h1 := consecutive_start hs 0 l2 rfl
        have h2 := consecutive_stop hs 0 l2 rfl
        simp only [LTree.stop] at h1 h2 ⊢; omega
      | succ j =>
        simp only [List.getElem?_cons_succ] at hb
        exact consecutive_stop hs j b hb

/-- **C21**, disjointness spelled out: of two members of a structure the one declared first ends
before the other starts, and both lie inside the structure. -/
theorem C21_members_disjoint {al ms l} (h : Laid (.struct al ms) l) (i j : Nat) (a b : LTree)
    (hij : i < j) (ha : l.members[i]? = some a) (hb : l.members[j]? = some b) :
    a.stop ≤ b.data.offset ∧ b.stop ≤ l.data.size := by
  obtain ⟨hc, hs⟩ := laid_struct_inv h
  refine ⟨?_, Nat.le_trans (consecutive_stop hc j b hb) hs⟩
  generalize l.members = ls at hc ha hb
  generalize 0 = o at hc
  clear hs h
  induction hc generalizing i j with
  | nil => simp at ha
  | cons h1 h2 h3 h4 h5 ih =>
    cases j with
    | zero => omega
    | succ j =>
      simp only [List.getElem?_cons_succ] at hb
      cases i with
      | zero =>
        simp only [List.getElem?_cons_zero, Option.some.injEq] at ha
        subst ha
        exact consecutive_start h5 j b hb
      | succ i =>
        simp only [List.getElem?_cons_succ] at ha
        exact ih i j (by omega) ha hb

/-- **C21**, alignment of everything inside: unless a declaration lowers an alignment, every scalar of
an object that is itself aligned, at any depth and in any element of an array, is at a multiple of the
alignment the ABI gives to its type. -/
theorem C21_scalars_aligned (t : Ty) (l : LTree) (hl : Laid t l) (hu : Unpacked t l) (base : Nat)
    (hb : base % l.data.alignment = 0) (k : Leaf) (off : Nat) (hs : ScalarAt t l base k off)
    (hk : k ≠ .bits) : off % leafAlign k = 0 :=
  Nat.mod_eq_zero_of_dvd (scalar_dvd hs hl hu (Nat.dvd_of_mod_eq_zero hb) hk)

/-- **C21.**  The layout of one type of a longer sequence (`kefir_amd64_sysv_type_layout_of`, as used
for the members a structure has so far) is the layout it has on its own. -/
theorem C21_layout_of_one (t : Ty) (h : WF t) (pre post : List Entry) :
    ∃ l, typeLayoutOf (pre ++ (flatten t ++ post)) pre.length 1 =
        .ok (List.replicate pre.length none ++ ((l.flat.map some) ++ List.replicate post.length none)) ∧
      Laid t l ∧ l.data.offset = 0 := by
  refine ⟨_, typeLayoutOf_eq t h pre post, laid t h _, ?_⟩
  simp only [LTree.data, update_offset]
  by_cases hb : t.entry.code = .leaf .bits <;> simp [Compound.fresh, hb, padAligned]

/-- A structure of structures, unions, arrays, a bit-field run and over-aligned members meets the
hypotheses of the theorems; this is its layout. -/
def sample : Ty :=
  .struct 0 [.leaf .char 0 0, .array 0 3 (.struct 0 [.leaf .short 0 0, .leaf .char 0 0]),
    .union 0 [.leaf .int 0 0, .array 0 5 (.leaf .char 0 0)], .leaf .bits 0 11, .leaf .longDouble 0 0,
    .leaf .char 8 0, .leaf .builtin 0 0]

theorem sample_wf : WFAll [sample] := by
  repeat (first | exact WFAll.nil | apply WFAll.cons | apply WF.struct | apply WF.union | apply WF.array |
    apply WF.leaf | simp)

example : typeLayout (flattenAll [sample]) = .ok
    [some ⟨80, 16, true, 0⟩, some ⟨1, 1, true, 0⟩, some ⟨12, 2, true, 2⟩, some ⟨4, 2, true, 0⟩,
      some ⟨2, 2, true, 0⟩, some ⟨1, 1, true, 2⟩, some ⟨8, 4, true, 16⟩, some ⟨4, 4, true, 0⟩,
      some ⟨5, 1, true, 0⟩, some ⟨1, 1, true, 0⟩, some ⟨2, 1, true, 24⟩, some ⟨16, 16, true, 32⟩,
      some ⟨1, 8, true, 48⟩, some ⟨24, 8, true, 56⟩] := (typeLayout_eq _ sample_wf).trans rfl

/-! ## The flag -/

/-- What the flag is taken to mean (`registers.c` passes aggregates in memory if it is off): if it is
on, everything in the object is naturally aligned. -/
def FlagSound : Prop :=
  ∀ (t : Ty) (ls : List LTree) (l : LTree), WF t → typeLayout (flatten t) = .ok ((flatL ls).map some) →
    ls = [l] → Laid t l → l.data.aligned = true → ∀ k off, ScalarAt t l 0 k off → k ≠ .bits →
    off % leafAlign k = 0

/-- `struct { _Alignas(8) struct { char c; _Alignas(1) int x; } s; }`. -/
def packedInside : Ty := .struct 0 [.struct 8 [.leaf .char 0 0, .leaf .int 1 0]]

/-- **C53** is false: an alignment requested for an aggregate overwrites the flag, so that a type that
contains a misaligned `int` is reported as naturally aligned. -/
theorem C53_flag_false : ¬ FlagSound := by
  intro h
  let x : LTree := .node ⟨4, 1, false, 1⟩ []
  let s : LTree := .node ⟨5, 8, true, 0⟩ [.node ⟨1, 1, true, 0⟩ [], x]
  let l : LTree := .node ⟨8, 8, true, 0⟩ [s]
  have hl : Laid packedInside l := by
    refine .struct (n := 8) (.cons ?_ .nil) (.cons ?_ ?_ ?_ ?_ .nil) ⟨?_, s, ?_, rfl⟩ rfl rfl ?_ ?_
    · refine .struct (n := 1) (.cons (.leaf rfl rfl) (.cons (.leaf rfl rfl) .nil))
        (.cons ?_ ?_ ?_ ?_ (.cons ?_ ?_ ?_ ?_ .nil)) ⟨?_, x, ?_, rfl⟩ rfl rfl ?_ ?_ <;>
        simp [x, LTree.data, LTree.stop, Ty.isBits, lastStop]
    all_goals simp [s, LTree.data, LTree.stop, Ty.isBits, lastStop]
  have hw : WF packedInside := by
    repeat (first | exact WFAll.nil | apply WFAll.cons | apply WF.struct | apply WF.leaf | simp)
  have := h packedInside [l] l hw ((congrArg typeLayout (by simp [flattenAll])).trans
    ((typeLayout_eq [packedInside] (.cons hw .nil)).trans rfl)) rfl hl rfl .int 1
    (.struct (i := 0) rfl rfl (.struct (i := 1) rfl rfl .leaf)) (by decide)
  simp [leafAlign] at this

/-- **C53**, restricted: if no alignment is requested for structures, unions and arrays (only for
scalars), the flag means what it is taken to mean.  What is missing is the claim for types that request
an alignment of an aggregate: there it is false. -/
theorem C53_flag_partial (t : Ty) (hw : WF t) (hp : PlainAggregates t) :
    ∃ l, typeLayout (flatten t) = .ok (l.flat.map some) ∧ Laid t l ∧
      (l.data.aligned = true → ∀ k off, ScalarAt t l 0 k off → k ≠ .bits → off % leafAlign k = 0) := by
  have h := typeLayout_eq [t] (.cons hw .nil)
  simp only [flattenAll, List.append_nil, layAll, flatL] at h
  refine ⟨_, h, laid t hw _, ?_⟩
  intro ha k off hs hk
  exact C21_scalars_aligned t _ (laid t hw _) (unpacked_of_aligned t hw hp _ ha) 0 (Nat.zero_mod _) k off hs hk

example : PlainAggregates (.struct 0 [.leaf .char 8 0, .array 0 4 (.leaf .int 0 0)]) :=
  .struct (.cons (.leaf (.inr ⟨3, rfl⟩)) (.cons (.array rfl (.leaf (.inl rfl))) .nil))

/-- The flag is not always on. -/
example : typeLayout (flatten (.struct 0 [.leaf .char 0 0, .leaf .int 1 0])) =
    .ok [some ⟨5, 1, false, 0⟩, some ⟨1, 1, true, 0⟩, some ⟨4, 1, false, 1⟩] :=
  (congrArg typeLayout (by simp [flattenAll])).trans
    ((typeLayout_eq [.struct 0 [.leaf .char 0 0, .leaf .int 1 0]]
      (.cons (.struct (by simp) (.cons (.leaf (by simp)) (.cons (.leaf (by simp)) .nil))) .nil)).trans rfl)

end Kefir.Layout
