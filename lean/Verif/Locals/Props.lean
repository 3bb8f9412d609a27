import Verif.Locals.Disjoint

/-!
# Properties of the placement of automatic objects (C83)
-/

namespace Kefir.Locals

open Kefir.Layout

/-! ## Alignments of types -/

mutual
theorem powTy_of {ty : Ty} {l : LTree} (hl : Laid ty l) (h : Pow2Aligned ty) : ∃ e, l.data.alignment = 2 ^ e := by
  cases hl with
  | @leaf k al p d h1 h2 =>
    cases h with
    | leaf h =>
      simp only [LTree.data, h2, effective]
      rcases h with rfl | ⟨e, rfl⟩
      · cases k <;> first | exact ⟨0, rfl⟩ | exact ⟨1, rfl⟩ | exact ⟨2, rfl⟩ | exact ⟨3, rfl⟩ | exact ⟨4, rfl⟩
      · have := Nat.two_pow_pos e
        rw [if_neg (by omega)]; exact ⟨e, rfl⟩
  | struct h1 h2 h3 h4 =>
    cases h with
    | struct h hs =>
      obtain ⟨m, hm, e⟩ := h3.2
      have := powAll_of h1 hs m hm
      simp only [LTree.data, h4, effective]
      rcases h with rfl | ⟨x, rfl⟩
      · simpa [← e] using this
      · have := Nat.two_pow_pos x
        rw [if_neg (by omega)]; exact ⟨x, rfl⟩
  | union h1 h2 h3 h4 =>
    cases h with
    | union h hs =>
      obtain ⟨m, hm, e⟩ := h3.2
      have := powAll_of h1 hs m hm
      simp only [LTree.data, h4, effective]
      rcases h with rfl | ⟨x, rfl⟩
      · simpa [← e] using this
      · have := Nat.two_pow_pos x
        rw [if_neg (by omega)]; exact ⟨x, rfl⟩
  | array h1 h2 h3 =>
    cases h with
    | array h he =>
      have := powTy_of h1 he
      rcases h with rfl | ⟨x, rfl⟩
      · simpa [LTree.data, h3, effective] using this
      · have := Nat.two_pow_pos x
        rw [LTree.data, h3, effective, if_neg (by omega)]; exact ⟨x, rfl⟩

theorem powAll_of {ts : List Ty} {ls : List LTree} (hl : LaidAll ts ls) (h : Pow2AlignedAll ts) :
    ∀ l ∈ ls, ∃ e, l.data.alignment = 2 ^ e := by
  cases hl with
  | nil => intro l h; simp at h
  | cons h1 h2 =>
    cases h with
    | cons a b =>
      intro l hm
      simp only [List.mem_cons] at hm
      rcases hm with rfl | hm
      · exact powTy_of h1 a
      · exact powAll_of h2 b l hm
end

/-! ## C83 -/

/-- **C83**, every automatic object has storage: the frame of a function's scopes exists, it has an entry
for every automatic object declared in any of them and for nothing else, the storage of the object is as large as its type
requires, and it lies in the frame. -/
theorem C83_storage (s : Scope) (hp : Proper s) :
    ∃ f, build s = .ok f ∧
      (∀ path k ty, Declares s path k ty → ∃ o ∈ f.objs, o.path = path ∧ o.num = k) ∧
      (∀ o ∈ f.objs, ∃ ty l, Declares s o.path o.num ty ∧ Laid ty l ∧ (f.extent o).size = l.data.size ∧
        (f.extent o).start + (f.extent o).size ≤ f.size 0) := by
  obtain ⟨f, hf, ho, hpl⟩ := build_placed False s hp (fun h => h.elim)
  refine ⟨f, hf, ?_, ?_⟩
  · intro path k ty hd
    obtain ⟨o, hm, h1, h2⟩ := objs_complete s hd [] [] 0
    exact ⟨o, ho ▸ hm, by simpa using h1, h2⟩
  · intro o hm
    rw [ho] at hm
    have hne : scopeEmpty s = false := by
      cases h : scopeEmpty s with
      | false => rfl
      | true => cases s; simp [objs, h] at hm
    obtain ⟨d, hd, hpl⟩ := hpl hne
    obtain ⟨rest, rel, ty, l, ⟨a1, a2, a3, a4, ⟨pre, x, a5, a5'⟩, a6, _⟩, _⟩ :=
      objs_at s [] [] 0 _ _ hp (fun h => h.elim) hpl o hm
    simp only [List.nil_append] at a1 a2
    have hsz : sizeOf f.layout o = l.data.size := sizeOf_of (chain := []) (pre := pre) (by rw [a1, a5]; rfl) a5'.head
    refine ⟨ty, l, a2 ▸ a3, a4, by rw [extent_eq, hsz], ?_⟩
    rw [extent_eq]
    simp only [hsz, a1, Frame.size, hd]
    exact a6

/-- **C83**, no sharing: two different automatic objects whose lifetimes overlap, because the scope of one is
the scope of the other or encloses it, have disjoint storage. -/
theorem C83_disjoint (s : Scope) (hp : Proper s) (f : Frame) (hf : build s = .ok f) (o₁ o₂ : Obj)
    (h₁ : o₁ ∈ f.objs) (h₂ : o₂ ∈ f.objs) (hne : (o₁.path, o₁.num) ≠ (o₂.path, o₂.num))
    (hco : Coexist o₁.path o₂.path) : (f.extent o₁).Disjoint (f.extent o₂) := by
  obtain ⟨f', hf', ho, hpl⟩ := build_placed False s hp (fun h => h.elim)
  obtain rfl : f' = f := by rw [hf] at hf'; injection hf' with h; exact h.symm
  rw [ho] at h₁ h₂
  have hne' : scopeEmpty s = false := by
    cases h : scopeEmpty s with
    | false => rfl
    | true => cases s; simp [objs, h] at h₁
  obtain ⟨d, hd, hpl⟩ := hpl hne'
  have := objs_apart s [] [] 0 _ _ hpl o₁ h₁ o₂ h₂ hco hne
  rw [extent_eq, extent_eq]
  exact this

/-- **C83**, alignment: if the requested alignments are powers of two, then the storage of an object is aligned
as its type requires relative to the start of the frame's locals. -/
theorem C83_aligned (s : Scope) (hp : Proper s) (ha : ∀ ty, s.Uses ty → Pow2Aligned ty) (f : Frame)
    (hf : build s = .ok f) (o : Obj) (h : o ∈ f.objs) :
    ∃ ty l, Declares s o.path o.num ty ∧ Laid ty l ∧ l.data.alignment ∣ (f.extent o).start := by
  have hP : True → ∀ ty, s.Uses ty → PowTy ty := fun _ ty hu l hl => powTy_of hl (ha ty hu)
  obtain ⟨f', hf', ho, hpl⟩ := build_placed True s hp hP
  obtain rfl : f' = f := by rw [hf] at hf'; injection hf' with h; exact h.symm
  rw [ho] at h
  have hne' : scopeEmpty s = false := by
    cases h' : scopeEmpty s with
    | false => rfl
    | true => cases s; simp [objs, h'] at h
  obtain ⟨d, hd, hpl⟩ := hpl hne'
  obtain ⟨rest, rel, ty, l, ⟨a1, a2, a3, a4, _, _, a7⟩, _⟩ := objs_at s [] [] 0 _ _ hp hP hpl o h
  simp only [List.nil_append] at a1 a2
  refine ⟨ty, l, a2 ▸ a3, a4, ?_⟩
  rw [extent_eq, a1]
  exact a7 trivial

/-! ## A function with nested blocks

`void f(void) { char c; { int x[25]; { int a; } {} } { long big[2]; static int s; } }`: the blocks after
one another share the storage behind `c`.  The union of the blocks in the first one counts the empty block,
which has no entry, and takes the block that follows as its second member. -/

def sample : Scope :=
  .node [.auto (.leaf .char 0 0)]
    [.node [.auto (.array 0 25 (.leaf .int 0 0))] [.node [.auto (.leaf .int 0 0)] [], .node [] []],
     .node [.auto (.array 0 2 (.leaf .long 0 0)), .other] []]

theorem sample_proper : Proper sample :=
  .node (by intro ty h; simp only [List.mem_singleton, Ident.auto.injEq] at h; subst h; exact ⟨.leaf (by simp), rfl⟩) (by simp)
    (.cons (.node (by intro ty h; simp only [List.mem_singleton, Ident.auto.injEq] at h; subst h; exact ⟨.array (.leaf (by simp)), rfl⟩) (by simp)
      (.cons (.node (by intro ty h; simp only [List.mem_singleton, Ident.auto.injEq] at h; subst h; exact ⟨.leaf (by simp), rfl⟩) (by simp) .nil)
        (.cons (.node (by simp) (by simp) .nil) .nil)))
      (.cons (.node (by
        intro ty h
        simp only [List.mem_cons, Ident.auto.injEq, reduceCtorEq, List.not_mem_nil, or_false] at h
        subst h; exact ⟨.array (.leaf (by simp)), rfl⟩) (by simp) .nil) .nil))

theorem sample_traverse : traverse [] [] [] sample =
    ([⟨.struct, 0, 2⟩, ⟨.leaf .char, 0, 0⟩, ⟨.union, 0, 2⟩, ⟨.struct, 0, 2⟩, ⟨.array, 0, 25⟩, ⟨.leaf .int, 0, 0⟩,
      ⟨.union, 0, 2⟩, ⟨.struct, 0, 1⟩, ⟨.leaf .int, 0, 0⟩, ⟨.struct, 0, 1⟩, ⟨.array, 0, 2⟩, ⟨.leaf .long, 0, 0⟩],
    [⟨[], 0, [0, 1]⟩, ⟨[0], 0, [0, 2, 3, 4]⟩, ⟨[0, 0], 0, [0, 2, 3, 6, 7, 8]⟩, ⟨[1], 0, [0, 2, 9, 10]⟩]) := by
  decide +kernel

theorem sample_layout : typeLayout [⟨.struct, 0, 2⟩, ⟨.leaf .char, 0, 0⟩, ⟨.union, 0, 2⟩, ⟨.struct, 0, 2⟩,
      ⟨.array, 0, 25⟩, ⟨.leaf .int, 0, 0⟩, ⟨.union, 0, 2⟩, ⟨.struct, 0, 1⟩, ⟨.leaf .int, 0, 0⟩, ⟨.struct, 0, 1⟩,
      ⟨.array, 0, 2⟩, ⟨.leaf .long, 0, 0⟩] =
    .ok [some ⟨128, 8, true, 0⟩, some ⟨1, 1, true, 0⟩, some ⟨120, 8, true, 8⟩, some ⟨120, 8, true, 0⟩,
      some ⟨100, 4, true, 0⟩, some ⟨4, 4, true, 0⟩, some ⟨16, 8, true, 104⟩, some ⟨4, 4, true, 0⟩,
      some ⟨4, 4, true, 0⟩, some ⟨16, 8, true, 0⟩, some ⟨16, 8, true, 0⟩, some ⟨8, 8, true, 0⟩] := by
  simp [typeLayout, typeLayoutOf, nodes, countNodes, nodeLen, childrenLen, layoutNodes]
  rfl

/-- The storage of the objects: `c`, `x`, `a` and `big`. -/
example : ∃ f, build sample = .ok f ∧ f.objs.map f.extent = [⟨0, 1⟩, ⟨8, 100⟩, ⟨112, 4⟩, ⟨8, 16⟩] ∧ f.size 0 = 128 := by
  refine ⟨_, by rw [build, sample_traverse]; simp only [sample_layout]; rfl, rfl, rfl⟩

/-- The objects alive together are apart; `x` and `big` are not alive together and share storage. -/
example : Coexist [0] [0, 0] ∧ ¬ Coexist [0] [1] ∧ Extent.Disjoint ⟨8, 100⟩ ⟨112, 4⟩ ∧
    ¬ Extent.Disjoint ⟨8, 100⟩ ⟨8, 16⟩ :=
  ⟨.inl ⟨[0], rfl⟩, not_coexist (p := []) (by omega), by simp [Extent.Disjoint], by simp [Extent.Disjoint]⟩

/-- `_Alignas(16) long x[2]` meets the hypothesis of `C83_aligned`. -/
example : Pow2Aligned (.array 16 2 (.leaf .long 0 0)) := .array (.inr ⟨4, rfl⟩) (.leaf (.inl rfl))

end Kefir.Locals
