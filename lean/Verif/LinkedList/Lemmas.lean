import Verif.LinkedList.Spec

namespace Kefir.LinkedList

variable {V : Type}

/-- The cells of `l` are linked in order, between the pointers `p` and `n`. -/
def Seg (h : Heap V) : Option Addr → List (Addr × V) → Option Addr → Prop
  | _, [], _ => True
  | p, (a, v) :: l, n => h a = some ⟨p, (first l).or n, v⟩ ∧ Seg h (some a) l n

abbrev addrs (l : List (Addr × V)) : List Addr := l.map Prod.fst

theorem Seg.frame {h h' : Heap V} {p n : Option Addr} {l : List (Addr × V)}
    (hl : ∀ a ∈ addrs l, h' a = h a) (hs : Seg h p l n) : Seg h' p l n := by
  induction l generalizing p with
  | nil => trivial
  | cons x l ih =>
    obtain ⟨a, v⟩ := x
    refine ⟨by rw [hl a (by simp)]; exact hs.1, ih (fun b hb => hl b (List.mem_cons_of_mem _ hb)) hs.2⟩

theorem first_append (A B : List (Addr × V)) : first (A ++ B) = (first A).or (first B) := by
  cases A <;> simp [first]

theorem last_append (A B : List (Addr × V)) : last (A ++ B) = (last B).or (last A) := by
  simp only [last, List.getLast?_append]
  cases B.getLast? <;> simp

@[simp] theorem first_nil : first ([] : List (Addr × V)) = none := rfl
@[simp] theorem last_nil : last ([] : List (Addr × V)) = none := rfl
@[simp] theorem first_cons (x : Addr × V) (l) : first (x :: l) = some x.1 := rfl
theorem last_cons (x : Addr × V) (l) : last (x :: l) = (last l).or (some x.1) := by
  have := last_append [x] l
  simpa [last] using this

theorem Seg_append {h : Heap V} {p n : Option Addr} {A B : List (Addr × V)} :
    Seg h p (A ++ B) n ↔ Seg h p A ((first B).or n) ∧ Seg h ((last A).or p) B n := by
  induction A generalizing p with
  | nil => simp [Seg]
  | cons x A ih =>
    obtain ⟨a, v⟩ := x
    simp only [List.cons_append, Seg, ih, first_append, last_cons]
    cases last A <;> simp [and_assoc, Option.or_assoc]

theorem first_none {l : List (Addr × V)} (h : first l = none) : l = [] := by
  cases l with
  | nil => rfl
  | cons x l => simp at h

theorem last_none {l : List (Addr × V)} (h : last l = none) : l = [] := by
  cases l with
  | nil => rfl
  | cons x l => rw [last_cons] at h; cases hl : last l <;> simp [hl] at h

theorem splitAt_spec {i : Addr} {l : List (Addr × V)} (hi : i ∈ addrs l) :
    ∃ A x B, splitAt i l = some (A, x, B) ∧ l = A ++ (i, x) :: B := by
  induction l with
  | nil => simp at hi
  | cons y l ih =>
    obtain ⟨a, v⟩ := y
    simp only [splitAt]
    by_cases ha : a = i
    · subst ha; exact ⟨[], v, l, by simp, rfl⟩
    · have : i ∈ addrs l := by
        simp only [List.map_cons, List.mem_cons] at hi
        rcases hi with h | h
        · exact absurd h.symm ha
        · exact h
      obtain ⟨A, x, B, h1, h2⟩ := ih this
      exact ⟨(a, v) :: A, x, B, by simp [ha, h1], by simp [h2]⟩

/-- A header and heap represent a sequence. -/
structure Repr (h : Heap V) (hd : Hdr) (l : List (Addr × V)) : Prop where
  seg : Seg h none l none
  nodup : (addrs l).Nodup
  head : hd.head = first l
  tail : hd.tail = last l
  length : hd.length = l.length

theorem Heap.set_same (h : Heap V) (a : Addr) (c) : h.set a c a = c := by simp [Heap.set]
theorem Heap.set_ne (h : Heap V) {a b : Addr} (c) (hb : b ≠ a) : h.set a c b = h b := by
  simp [Heap.set, hb]

/-- Setting the `prev` of the first cell of a segment. -/
theorem setPrevOpt_seg {h : Heap V} {p q n : Option Addr} {B : List (Addr × V)}
    (hs : Seg h p B n) (hn : (addrs B).Nodup) :
    ∃ h', setPrevOpt h (first B) q = some h' ∧ Seg h' q B n ∧
      (∀ b, b ∉ addrs B → h' b = h b) := by
  cases B with
  | nil => exact ⟨h, rfl, trivial, fun _ _ => rfl⟩
  | cons x B =>
    obtain ⟨a, v⟩ := x
    obtain ⟨h1, h2⟩ := hs
    simp only [first_cons, setPrevOpt, setPrev, h1]
    refine ⟨_, rfl, ⟨by rw [Heap.set_same], ?_⟩, ?_⟩
    · refine h2.frame ?_
      intro b hb
      apply Heap.set_ne
      rintro rfl
      simp at hn
      simp at hb
      obtain ⟨y, hy⟩ := hb
      exact hn.1 y hy
    · intro b hb
      apply Heap.set_ne
      rintro rfl; simp at hb

/-- Setting the `next` of the last cell of a segment. -/
theorem setNextOpt_seg {h : Heap V} {p q n : Option Addr} {A : List (Addr × V)}
    (hs : Seg h p A n) (hn : (addrs A).Nodup) :
    ∃ h', setNextOpt h (last A) q = some h' ∧ Seg h' p A q ∧
      (∀ b, b ∉ addrs A → h' b = h b) := by
  rcases List.eq_nil_or_concat A with rfl | ⟨A', x, rfl⟩
  · exact ⟨h, rfl, trivial, fun _ _ => rfl⟩
  · obtain ⟨a, v⟩ := x
    rw [List.concat_eq_append] at *
    simp only [Seg_append] at hs
    obtain ⟨h1, h2, _⟩ := hs
    have hl : last (A' ++ [(a, v)]) = some a := by simp [last]
    simp only [hl, setNextOpt, setNext, h2]
    refine ⟨_, rfl, ?_, ?_⟩
    · rw [Seg_append]
      refine ⟨?_, ?_, trivial⟩
      · have : Seg h p A' ((first [(a, v)]).or q) := by simpa using h1
        refine this.frame ?_
        intro b hb
        apply Heap.set_ne
        rintro rfl
        rw [addrs, List.map_append, List.nodup_append] at hn
        exact hn.2.2 b hb b (by simp) rfl
      · rw [Heap.set_same]; simp
    · intro b hb
      apply Heap.set_ne
      rintro rfl; simp at hb

theorem insertFront_repr {h : Heap V} {hd : Hdr} {l : List (Addr × V)} (hr : Repr h hd l)
    {v : V} {a : Addr} (ha : a ∉ addrs l) :
    ∃ h' hd', insertAfter h hd none v a = some (h', hd') ∧ Repr h' hd' ((a, v) :: l) ∧
      (∀ b, b ∉ addrs ((a, v) :: l) → h' b = h b) := by
  obtain ⟨hs, hn, hh, ht, hl⟩ := hr
  simp only [insertAfter]
  have hs' : Seg (h.set a (some ⟨none, hd.head, v⟩)) none l none :=
    hs.frame (fun b hb => Heap.set_ne _ _ (by rintro rfl; exact ha hb))
  obtain ⟨h', e1, e2, e3⟩ := setPrevOpt_seg (q := some a) hs' hn
  rw [hh] at e1 ⊢
  refine ⟨h', _, by rw [e1]; rfl, ⟨⟨?_, e2⟩, ?_, rfl, ?_, by simp [hl]⟩, ?_⟩
  · rw [e3 a ha, Heap.set_same, hh]; simp
  · simp only [addrs, List.map_cons, List.nodup_cons]; exact ⟨ha, hn⟩
  · rw [ht, last_cons]; cases last l <;> rfl
  · intro b hb
    simp only [addrs, List.map_cons, List.mem_cons, not_or] at hb
    rw [e3 b hb.2, Heap.set_ne _ _ hb.1]

theorem insertMid_repr {h : Heap V} {hd : Hdr} {A B : List (Addr × V)} {i : Addr} {x : V}
    (hr : Repr h hd (A ++ (i, x) :: B))
    {v : V} {a : Addr} (ha : a ∉ addrs (A ++ (i, x) :: B)) :
    ∃ h' hd', insertAfter h hd (some i) v a = some (h', hd') ∧
      Repr h' hd' (A ++ (i, x) :: (a, v) :: B) ∧
      (∀ b, b ∉ addrs (A ++ (i, x) :: (a, v) :: B) → h' b = h b) := by
  obtain ⟨hs, hn, hh, ht, hl⟩ := hr
  simp only [addrs, List.map_append, List.map_cons, List.mem_append, List.mem_cons, not_or] at ha
  obtain ⟨haA, hai, haB⟩ := ha
  rw [addrs, List.map_append, List.map_cons, List.nodup_append, List.nodup_cons] at hn
  obtain ⟨hnA, ⟨hiB, hnB⟩, hd1⟩ := hn
  have hiA : i ∉ List.map Prod.fst A := fun h => hd1 i h i (by simp) rfl
  have hAB : ∀ b ∈ List.map Prod.fst A, b ∉ List.map Prod.fst B :=
    fun b hb hb' => hd1 b hb b (List.mem_cons_of_mem _ hb') rfl
  rw [Seg_append] at hs
  obtain ⟨sA, ci, sB⟩ := hs
  simp only [insertAfter]
  have e0 : (h.set a (some ⟨none, none, v⟩)) i = some ⟨(last A).or none, (first B).or none, x⟩ := by
    rw [Heap.set_ne _ _ (Ne.symm hai)]; exact ci
  rw [e0]
  simp only [Option.bind_eq_bind, Option.bind_some, Option.or_none]
  have e1 : setNext ((h.set a (some ⟨none, none, v⟩)).set a (some ⟨some i, first B, v⟩)) i (some a)
      = some ((((h.set a (some ⟨none, none, v⟩)).set a (some ⟨some i, first B, v⟩))).set i
        (some ⟨last A, some a, x⟩)) := by
    unfold setNext
    rw [Heap.set_ne _ _ (Ne.symm hai), e0]; simp
  rw [e1]
  generalize hg : (((h.set a (some ⟨none, none, v⟩)).set a (some ⟨some i, first B, v⟩))).set i
        (some ⟨last A, some a, x⟩) = g
  have gother : ∀ b, b ≠ i → b ≠ a → g b = h b := by
    intro b h1 h2; subst hg; simp [Heap.set, h1, h2]
  have gi : g i = some ⟨last A, some a, x⟩ := by subst hg; simp [Heap.set]
  have ga : g a = some ⟨some i, first B, v⟩ := by subst hg; simp [Heap.set, hai]
  have sB' : Seg g (some i) B none := sB.frame (fun b hb =>
    gother b (by rintro rfl; exact hiB hb) (by rintro rfl; exact haB hb))
  obtain ⟨h', f1, f2, f3⟩ := setPrevOpt_seg (q := some a) sB' hnB
  simp only [Option.bind_some]
  refine ⟨h', _, by rw [f1]; rfl, ⟨?_, ?_, ?_, ?_, ?_⟩, ?_⟩
  · rw [Seg_append]
    refine ⟨?_, ?_, ?_, f2⟩
    · refine Seg.frame (h := h) ?_ (by simpa using sA)
      intro b hb
      rw [f3 b (hAB b hb)]
      exact gother b (by rintro rfl; exact hiA hb) (by rintro rfl; exact haA hb)
    · rw [f3 i hiB, gi]; simp
    · rw [f3 a haB, ga]; simp
  · simp only [addrs, List.map_append, List.map_cons, List.nodup_append, List.nodup_cons,
      List.mem_cons, not_or]
    refine ⟨hnA, ⟨⟨fun h => hai h.symm, hiB⟩, haB, hnB⟩, ?_⟩
    rintro b hb c (rfl | rfl | hc)
    · rintro rfl; exact hiA hb
    · rintro rfl; exact haA hb
    · rintro rfl; exact hAB b hb hc
  · rw [hh]; cases A <;> simp
  · rw [ht, last_append, last_append, last_cons, last_cons, last_cons]
    cases hb : last B with
    | none => simp
    | some b =>
      have : b ≠ i := by
        rintro rfl
        apply hiB
        simp only [last, Option.map_eq_some_iff] at hb
        obtain ⟨y, hy, rfl⟩ := hb
        exact List.mem_map.2 ⟨y, List.mem_of_getLast? hy, rfl⟩
      simp [this]
  · simp [hl]; omega
  · intro b hb
    simp only [addrs, List.map_append, List.map_cons, List.mem_append, List.mem_cons, not_or] at hb
    rw [f3 b hb.2.2.2]
    exact gother b hb.2.1 hb.2.2.1

theorem pop_repr {h : Heap V} {hd : Hdr} {A B : List (Addr × V)} {i : Addr} {x : V}
    (hr : Repr h hd (A ++ (i, x) :: B)) :
    ∃ h' hd', pop h hd i = some (h', hd', x) ∧ Repr h' hd' (A ++ B) ∧ h' i = none ∧
      (∀ b, b ∉ addrs (A ++ (i, x) :: B) → h' b = h b) := by
  obtain ⟨hs, hn, hh, ht, hl⟩ := hr
  rw [addrs, List.map_append, List.map_cons, List.nodup_append, List.nodup_cons] at hn
  obtain ⟨hnA, ⟨hiB, hnB⟩, hd1⟩ := hn
  have hiA : i ∉ List.map Prod.fst A := fun h => hd1 i h i (by simp) rfl
  have hAB : ∀ b ∈ List.map Prod.fst A, b ∉ List.map Prod.fst B :=
    fun b hb hb' => hd1 b hb b (List.mem_cons_of_mem _ hb') rfl
  rw [Seg_append] at hs
  obtain ⟨sA, ci, sB⟩ := hs
  simp only [Option.or_none] at ci
  obtain ⟨g, g1, g2, g3⟩ := setPrevOpt_seg (q := last A) sB hnB
  have sA' : Seg g none A (some i) := by
    refine Seg.frame (h := h) (fun b hb => g3 b (hAB b hb)) (by simpa using sA)
  obtain ⟨k, k1, k2, k3⟩ := setNextOpt_seg (q := first B) sA' hnA
  simp only [pop, ci, Option.bind_eq_bind, Option.bind_some, g1, g3 i hiB, k1]
  refine ⟨_, _, rfl, ⟨?_, ?_, ?_, ?_, ?_⟩, ?_, ?_⟩
  · rw [Seg_append]
    constructor
    · refine Seg.frame (h := k) ?_ (by simpa using k2)
      intro b hb; exact Heap.set_ne _ _ (by rintro rfl; exact hiA hb)
    · simp only [Option.or_none]
      refine Seg.frame (h := g) ?_ g2
      intro b hb
      rw [Heap.set_ne _ _ (by rintro rfl; exact hiB hb)]
      exact k3 b (fun h => hAB b h hb)
  · simp only [addrs, List.map_append, List.nodup_append]
    exact ⟨hnA, hnB, fun a ha b hb => hd1 a ha b (List.mem_cons_of_mem _ hb)⟩
  · simp only [hh, first_append]
    cases hA : first A with
    | none => simp
    | some a =>
      have : a ≠ i := by
        rintro rfl
        apply hiA
        simp only [first, Option.map_eq_some_iff] at hA
        obtain ⟨y, hy, rfl⟩ := hA
        exact List.mem_map_of_mem (List.mem_of_head? hy)
      simp [this]
  · simp only [ht, last_append, last_cons]
    cases hB : last B with
    | none => simp
    | some b =>
      have : b ≠ i := by
        rintro rfl
        apply hiB
        simp only [last, Option.map_eq_some_iff] at hB
        obtain ⟨y, hy, rfl⟩ := hB
        exact List.mem_map.2 ⟨y, List.mem_of_getLast? hy, rfl⟩
      simp [this]
  · simp only [hl]; simp
  · rw [Heap.set_same]
  · intro b hb
    simp only [addrs, List.map_append, List.map_cons, List.mem_append, List.mem_cons, not_or] at hb
    rw [Heap.set_ne _ _ hb.2.1, k3 b hb.1, g3 b hb.2.2]

theorem clear_repr {h : Heap V} {hd : Hdr} {l : List (Addr × V)} (hr : Repr h hd l) :
    ∃ h', clear h hd = some (h', initHdr, l.map Prod.snd) ∧ (∀ b ∈ addrs l, h' b = none) ∧
      (∀ b, b ∉ addrs l → h' b = h b) := by
  induction l generalizing h hd with
  | nil =>
    obtain ⟨_, _, hh, ht, hl⟩ := hr
    obtain ⟨a, b, c⟩ := hd
    simp only [first_nil, last_nil, List.length_nil] at hh ht hl
    subst hh ht hl
    rw [clear]
    exact ⟨h, rfl, by simp, fun _ _ => rfl⟩
  | cons y l ih =>
    obtain ⟨e, x⟩ := y
    obtain ⟨hs, hn, hh, ht, hl⟩ := hr
    obtain ⟨ci, sB⟩ := hs
    simp only [addrs, List.map_cons, List.nodup_cons] at hn
    simp only [first_cons] at hh
    simp only [Option.or_none] at ci
    obtain ⟨g, g1, g2, g3⟩ := setPrevOpt_seg (q := none) sB hn.2
    rw [clear, hh]
    simp only [ci, Option.bind_eq_bind, Option.bind_some, g1]
    have hr' : Repr (g.set e none)
        ⟨first l, if hd.tail = some e then none else hd.tail, hd.length - 1⟩ l := by
      refine ⟨?_, hn.2, rfl, ?_, by simp [hl]⟩
      · refine g2.frame ?_
        intro b hb; exact Heap.set_ne _ _ (by rintro rfl; exact hn.1 hb)
      · simp only [ht, last_cons]
        cases hB : last l with
        | none => simp
        | some b =>
          have : b ≠ e := by
            rintro rfl
            apply hn.1
            simp only [last, Option.map_eq_some_iff] at hB
            obtain ⟨y, hy, rfl⟩ := hB
            exact List.mem_map.2 ⟨y, List.mem_of_getLast? hy, rfl⟩
          simp [this]
    obtain ⟨h', e1, e2, e3⟩ := ih hr'
    rw [e1]
    refine ⟨h', rfl, ?_, ?_⟩
    · intro b hb
      by_cases hbl : b ∈ addrs l
      · exact e2 b hbl
      · simp only [addrs, List.map_cons, List.mem_cons] at hb
        rcases hb with rfl | hb
        · rw [e3 _ hbl, Heap.set_same]
        · exact absurd hb hbl
    · intro b hb
      simp only [addrs, List.map_cons, List.mem_cons, not_or] at hb
      rw [e3 b hb.2, Heap.set_ne _ _ hb.1, g3 b hb.2]

theorem freeLoop_seg {h : Heap V} {p : Option Addr} {l : List (Addr × V)} (hs : Seg h p l none)
    (hn : (addrs l).Nodup) :
    ∃ h', freeLoop h (first l) = some (h', l.map Prod.snd) ∧ (∀ b ∈ addrs l, h' b = none) ∧
      (∀ b, b ∉ addrs l → h' b = h b) := by
  induction l generalizing h p with
  | nil => rw [freeLoop.eq_def]; exact ⟨h, rfl, by simp, fun _ _ => rfl⟩
  | cons y l ih =>
    obtain ⟨e, x⟩ := y
    obtain ⟨ci, sB⟩ := hs
    simp only [addrs, List.map_cons, List.nodup_cons] at hn
    simp only [Option.or_none] at ci
    rw [freeLoop.eq_def]
    simp only [first_cons, ci, Option.bind_eq_bind, Option.bind_some]
    have sB' : Seg (h.set e none) (some e) l none := sB.frame
      (fun b hb => Heap.set_ne _ _ (by rintro rfl; exact hn.1 hb))
    obtain ⟨h', e1, e2, e3⟩ := ih sB' hn.2
    rw [e1]
    refine ⟨h', rfl, ?_, ?_⟩
    · intro b hb
      by_cases hbl : b ∈ addrs l
      · exact e2 b hbl
      · simp only [addrs, List.map_cons, List.mem_cons] at hb
        rcases hb with rfl | hb
        · rw [e3 _ hbl, Heap.set_same]
        · exact absurd hb hbl
    · intro b hb
      simp only [addrs, List.map_cons, List.mem_cons, not_or] at hb
      rw [e3 b hb.2, Heap.set_ne _ _ hb.1]

theorem atLoop_seg {h : Heap V} {p : Option Addr} {l : List (Addr × V)} (hs : Seg h p l none)
    (n : Nat) : atLoop h n (first l) = some (first (l.drop n)) := by
  induction n generalizing l p with
  | zero => simp [atLoop]
  | succ n ih =>
    cases l with
    | nil => simp [atLoop]
    | cons y l =>
      obtain ⟨e, x⟩ := y
      obtain ⟨ci, sB⟩ := hs
      simp only [Option.or_none] at ci
      simp only [first_cons, atLoop, ci, Option.bind_eq_bind, Option.bind_some, List.drop_succ_cons]
      exact ih sB

theorem Repr.frame {h h' : Heap V} {hd : Hdr} {l : List (Addr × V)} (hr : Repr h hd l)
    (hf : ∀ b ∈ addrs l, h' b = h b) : Repr h' hd l :=
  ⟨hr.seg.frame hf, hr.nodup, hr.head, hr.tail, hr.length⟩

theorem Repr.nil (h : Heap V) : Repr h initHdr [] := ⟨trivial, by simp, rfl, rfl, rfl⟩

/-- The world represents the abstract sequences, lists are disjoint and nothing is leaked. -/
structure WRepr (w : World V) (s : Seqs V) : Prop where
  repr : ∀ i, Repr w.heap (w.lists i) (s i)
  disj : ∀ i j a, a ∈ addrs (s i) → a ∈ addrs (s j) → i = j
  noleak : ∀ a, w.heap a ≠ none → ∃ i, a ∈ addrs (s i)

theorem WRepr.init : WRepr (V := V) World.init (fun _ => []) :=
  ⟨fun _ => Repr.nil _, by simp, by simp [World.init]⟩

/-- Replace list `i` by a new sequence and the heap by one that differs only inside it. -/
theorem WRepr.update {w : World V} {s : Seqs V} (hw : WRepr w s) {i : Nat} {h' : Heap V} {hd' : Hdr}
    {l' : List (Addr × V)} (hr : Repr h' hd' l')
    (hframe : ∀ b, b ∉ addrs (s i) → b ∉ addrs l' → h' b = w.heap b)
    (hsub : ∀ b ∈ addrs l', b ∈ addrs (s i) ∨ ∀ j, b ∉ addrs (s j))
    (hfree : ∀ b ∈ addrs (s i), b ∉ addrs l' → h' b = none) :
    WRepr ({ w with heap := h' }.setHdr i hd') (s.set i l') := by
  have hin : ∀ j, j ≠ i → ∀ b ∈ addrs (s j), b ∉ addrs (s i) ∧ b ∉ addrs l' := by
    intro j hj b hb
    have h1 : b ∉ addrs (s i) := fun h => hj (hw.disj _ _ _ hb h)
    refine ⟨h1, fun h => ?_⟩
    rcases hsub b h with h2 | h2
    · exact h1 h2
    · exact h2 j hb
  constructor
  · intro j
    by_cases hj : j = i
    · subst hj; simpa [World.setHdr, Seqs.set] using hr
    · simp only [World.setHdr, Seqs.set, hj, if_false]
      exact (hw.repr j).frame (fun b hb => hframe b (hin j hj b hb).1 (hin j hj b hb).2)
  · intro j k a ha hb
    by_cases hj : j = i <;> by_cases hk : k = i
    · rw [hj, hk]
    · simp only [Seqs.set, hj, if_true] at ha
      simp only [Seqs.set, hk, if_false] at hb
      exact absurd ha (hin k hk a hb).2
    · simp only [Seqs.set, hj, if_false] at ha
      simp only [Seqs.set, hk, if_true] at hb
      exact absurd hb (hin j hj a ha).2
    · simp only [Seqs.set, hj, hk, if_false] at ha hb
      exact hw.disj _ _ _ ha hb
  · intro a ha
    simp only [World.setHdr] at ha
    by_cases h1 : a ∈ addrs l'
    · exact ⟨i, by simpa [Seqs.set] using h1⟩
    · by_cases h2 : a ∈ addrs (s i)
      · exact absurd (hfree a h2 h1) ha
      · rw [hframe a h2 h1] at ha
        obtain ⟨j, hj⟩ := hw.noleak a ha
        have : j ≠ i := by rintro rfl; exact h2 hj
        exact ⟨j, by simpa [Seqs.set, this] using hj⟩

theorem setNext_of_last {h h' : Heap V} {A : List (Addr × V)} {a : Addr} {q : Option Addr}
    (hl : last A = some a) (e : setNextOpt h (last A) q = some h') : setNext h a q = some h' := by
  rw [hl] at e; exact e

theorem setPrev_of_first {h h' : Heap V} {A : List (Addr × V)} {a : Addr} {q : Option Addr}
    (hl : first A = some a) (e : setPrevOpt h (first A) q = some h') :
    setPrev h a q = some h' := by
  rw [hl] at e; exact e

theorem moveAll_repr {w : World V} {s : Seqs V} (hw : WRepr w s) (dst src : Nat) :
    ∃ w', moveAll w dst src = some w' ∧
      WRepr w' (if dst = src then s else (s.set dst (s dst ++ s src)).set src []) := by
  have rs := hw.repr src
  have rd := hw.repr dst
  simp only [moveAll]
  cases hsh : (w.lists src).head with
  | none =>
    have hnil : s src = [] := first_none (by rw [← rs.head, hsh])
    refine ⟨w, rfl, ?_⟩
    split
    · exact hw
    · rename_i hne
      have : (s.set dst (s dst ++ s src)).set src [] = s := by
        funext j; simp only [Seqs.set]
        split
        · rename_i h; rw [h, hnil]
        · split
          · rename_i h; rw [h, hnil, List.append_nil]
          · rfl
      rw [this]; exact hw
  | some sh =>
    have hfs : first (s src) = some sh := by rw [← rs.head, hsh]
    by_cases hds : dst = src
    · subst hds
      simp only [World.setHdr, if_true, Nat.zero_add]
      refine ⟨_, rfl, ?_⟩
      have : (⟨w.heap, fun j => if j = dst then
          ⟨some sh, (w.lists dst).tail, (w.lists dst).length⟩
          else if j = dst then ⟨none, none, 0⟩ else w.lists j⟩ : World V) = w := by
        cases w with
        | mk h ls =>
          congr 1
          funext j
          split
          · rename_i h; subst h; simp only at hsh ⊢; rw [← hsh]
          · rfl
      rw [this]; exact hw
    · simp only [hds, if_false]
      have hdisj : ∀ b ∈ addrs (s dst), b ∉ addrs (s src) :=
        fun b hb hb' => hds (hw.disj _ _ _ hb hb')
      have hd : (w.setHdr src ⟨none, none, 0⟩).lists dst = w.lists dst := by
        simp [World.setHdr, hds]
      rw [hd]
      cases hdt : (w.lists dst).tail with
      | none =>
        have hnil : s dst = [] := last_none (by rw [← rd.tail, hdt])
        refine ⟨_, rfl, ?_⟩
        constructor
        · intro j
          simp only [World.setHdr, Seqs.set]
          by_cases h1 : j = src
          · subst h1
            have : j ≠ dst := fun h => hds h.symm
            simp only [this, if_false, if_true]
            exact Repr.nil _
          · by_cases h2 : j = dst
            · subst h2
              simp only [if_true, h1, if_false, hnil, List.nil_append]
              refine ⟨rs.seg, rs.nodup, hfs.symm, rs.tail, ?_⟩
              have := rd.length; rw [hnil] at this
              simp only [this, rs.length, List.length_nil, Nat.zero_add]
            · simp only [h1, h2, if_false]; exact hw.repr j
        · intro j k a ha hb
          have key : ∀ j, a ∈ addrs (((s.set dst (s dst ++ s src)).set src []) j) →
              (j = dst ∧ a ∈ addrs (s src)) ∨ (j ≠ dst ∧ a ∈ addrs (s j) ∧ j ≠ src) := by
            intro j hj
            simp only [Seqs.set, hnil, List.nil_append] at hj
            by_cases h1 : j = src
            · simp [h1] at hj
            · by_cases h2 : j = dst
              · rw [if_neg h1, if_pos h2] at hj; exact Or.inl ⟨h2, hj⟩
              · rw [if_neg h1, if_neg h2] at hj; exact Or.inr ⟨h2, hj, h1⟩
          rcases key j ha with ⟨rfl, h1⟩ | ⟨h0, h1, h1'⟩ <;> rcases key k hb with ⟨rfl, h2⟩ | ⟨h0', h2, h2'⟩
          · rfl
          · exact absurd (hw.disj _ _ _ h2 h1) h2'
          · exact absurd (hw.disj _ _ _ h1 h2) h1'
          · exact hw.disj _ _ _ h1 h2
        · intro a ha
          obtain ⟨j, hj⟩ := hw.noleak a ha
          by_cases h1 : j = src
          · subst h1
            exact ⟨dst, by simpa [Seqs.set, hds, hnil] using hj⟩
          · by_cases h2 : j = dst
            · subst h2; rw [hnil] at hj; simp at hj
            · exact ⟨j, by simpa [Seqs.set, h1, h2] using hj⟩
      | some dt =>
        have hld : last (s dst) = some dt := by rw [← rd.tail, hdt]
        obtain ⟨g, g1, g2, g3⟩ := setNextOpt_seg (q := some sh) rd.seg rd.nodup
        have ss : Seg g none (s src) none := rs.seg.frame
          (fun b hb => g3 b (fun h => hdisj b h hb))
        obtain ⟨k, k1, k2, k3⟩ := setPrevOpt_seg (q := some dt) ss rs.nodup
        have e1 := setNext_of_last hld g1
        have e2 := setPrev_of_first hfs k1
        simp only [World.setHdr, e1, Option.bind_eq_bind, Option.bind_some, e2]
        refine ⟨_, rfl, ?_⟩
        have kother : ∀ b, b ∉ addrs (s dst) → b ∉ addrs (s src) → k b = w.heap b :=
          fun b h1 h2 => by rw [k3 b h2, g3 b h1]
        constructor
        · intro j
          simp only [Seqs.set]
          by_cases h1 : j = src
          · subst h1
            have : j ≠ dst := fun h => hds h.symm
            simp only [this, if_false, if_true]
            exact Repr.nil _
          · by_cases h2 : j = dst
            · subst h2
              simp only [if_true, h1, if_false]
              refine ⟨?_, ?_, ?_, ?_, ?_⟩
              · rw [Seg_append]
                refine ⟨?_, ?_⟩
                · rw [hfs]
                  exact g2.frame (fun b hb => k3 b (hdisj b hb))
                · rw [hld]; exact k2
              · simp only [addrs, List.map_append, List.nodup_append]
                exact ⟨rd.nodup, rs.nodup, fun a ha b hb => by rintro rfl; exact hdisj a ha hb⟩
              · simp only [first_append, rd.head]
                cases hf : first (s j) with
                | none => rw [first_none hf] at hld; simp at hld
                | some x => simp
              · simp only [last_append, rs.tail]
                cases hf : last (s src) with
                | none => rw [last_none hf] at hfs; simp at hfs
                | some x => simp
              · simp [rd.length, rs.length]
            · simp only [h1, h2, if_false]
              exact (hw.repr j).frame (fun b hb => kother b
                (fun h => h2 (hw.disj _ _ _ hb h)) (fun h => h1 (hw.disj _ _ _ hb h)))
        · intro j k a ha hb
          have key : ∀ j, a ∈ addrs (((s.set dst (s dst ++ s src)).set src []) j) →
              ((j = dst ∧ a ∈ addrs (s src)) ∨ (a ∈ addrs (s j) ∧ j ≠ src)) := by
            intro j hj
            simp only [Seqs.set] at hj
            by_cases h1 : j = src
            · simp [h1] at hj
            · by_cases h2 : j = dst
              · rw [if_neg h1, if_pos h2, addrs, List.map_append, List.mem_append] at hj
                rcases hj with hj | hj
                · exact Or.inr ⟨by rw [h2]; exact hj, h1⟩
                · exact Or.inl ⟨h2, hj⟩
              · rw [if_neg h1, if_neg h2] at hj; exact Or.inr ⟨hj, h1⟩
          rcases key j ha with ⟨rfl, h1⟩ | ⟨h1, h1'⟩ <;> rcases key k hb with ⟨rfl, h2⟩ | ⟨h2, h2'⟩
          · rfl
          · exact absurd (hw.disj _ _ _ h2 h1) h2'
          · exact absurd (hw.disj _ _ _ h1 h2) h1'
          · exact hw.disj _ _ _ h1 h2
        · intro a ha
          simp only at ha
          have hmem : ∃ j, a ∈ addrs (s j) := by
            by_cases h1 : a ∈ addrs (s dst)
            · exact ⟨_, h1⟩
            · by_cases h2 : a ∈ addrs (s src)
              · exact ⟨_, h2⟩
              · rw [kother a h1 h2] at ha; exact hw.noleak a ha
          obtain ⟨j, hj⟩ := hmem
          by_cases h1 : j = src
          · subst h1
            refine ⟨dst, ?_⟩
            simp only [Seqs.set, hds, if_false, if_true, addrs, List.map_append, List.mem_append]
            exact Or.inr hj
          · by_cases h2 : j = dst
            · subst h2
              refine ⟨j, ?_⟩
              simp only [Seqs.set, h1, if_false, if_true, addrs, List.map_append, List.mem_append]
              exact Or.inl hj
            · exact ⟨j, by simpa [Seqs.set, h1, h2] using hj⟩

theorem step_refines {w : World V} {s : Seqs V} (hw : WRepr w s) {c : Call V} (hv : Valid s c) :
    ∃ w', implStep w c = some (w', (specStep s c).2) ∧ WRepr w' (specStep s c).1 := by
  cases c with
  | insertAfter l iter v a =>
    obtain ⟨hi, ha⟩ := hv
    cases iter with
    | none =>
      obtain ⟨h', hd', e1, e2, e3⟩ := insertFront_repr (hw.repr l) (v := v) (ha l)
      simp only [implStep, e1, Option.bind_eq_bind, Option.bind_some, specStep]
      refine ⟨_, rfl, hw.update e2 (fun b _ hb => e3 b hb) ?_ ?_⟩
      · intro b hb
        simp only [addrs, List.map_cons, List.mem_cons] at hb
        rcases hb with rfl | hb
        · exact Or.inr ha
        · exact Or.inl hb
      · intro b hb hb'
        simp only [addrs, List.map_cons, List.mem_cons, not_or] at hb'
        exact absurd hb hb'.2
    | some i =>
      obtain ⟨A, x, B, h1, h2⟩ := splitAt_spec (hi i rfl)
      have hr := hw.repr l
      have hal := ha l
      rw [show List.map Prod.fst (s l) = addrs (s l) from rfl, h2] at hal
      rw [h2] at hr
      obtain ⟨h', hd', e1, e2, e3⟩ := insertMid_repr hr (v := v) hal
      simp only [implStep, e1, Option.bind_eq_bind, Option.bind_some, specStep, h1]
      refine ⟨_, rfl, hw.update e2 (fun b _ hb => e3 b hb) ?_ ?_⟩
      · intro b hb
        rw [h2]
        simp only [addrs, List.map_append, List.map_cons, List.mem_append, List.mem_cons] at hb ⊢
        rcases hb with hb | rfl | rfl | hb
        · simp [hb]
        · simp
        · exact Or.inr ha
        · simp [hb]
      · intro b hb hb'
        rw [h2] at hb
        simp only [addrs, List.map_append, List.map_cons, List.mem_append, List.mem_cons, not_or]
          at hb hb'
        rcases hb with hb | rfl | hb
        · exact absurd hb hb'.1
        · exact absurd rfl hb'.2.1
        · exact absurd hb hb'.2.2.2
  | pop l i =>
    obtain ⟨A, x, B, h1, h2⟩ := splitAt_spec hv
    have hr := hw.repr l
    rw [h2] at hr
    obtain ⟨h', hd', e1, e2, e4, e3⟩ := pop_repr hr
    simp only [implStep, e1, Option.bind_eq_bind, Option.bind_some, specStep, h1]
    refine ⟨_, rfl, hw.update e2 (fun b hb _ => e3 b (by rw [← h2]; exact hb)) ?_ ?_⟩
    · intro b hb
      rw [h2]
      simp only [addrs, List.map_append, List.map_cons, List.mem_append, List.mem_cons] at hb ⊢
      rcases hb with hb | hb
      · simp [hb]
      · simp [hb]
    · intro b hb hb'
      rw [h2] at hb
      simp only [addrs, List.map_append, List.map_cons, List.mem_append, List.mem_cons, not_or]
        at hb hb'
      rcases hb with hb | rfl | hb
      · exact absurd hb hb'.1
      · exact e4
      · exact absurd hb hb'.2
  | clear l =>
    obtain ⟨h', e1, e2, e3⟩ := clear_repr (hw.repr l)
    simp only [implStep, e1, Option.bind_eq_bind, Option.bind_some, specStep]
    exact ⟨_, rfl, hw.update (Repr.nil _) (fun b hb _ => e3 b hb) (by simp)
      (fun b hb _ => e2 b hb)⟩
  | reinit l =>
    have hr := hw.repr l
    obtain ⟨h', e1, e2, e3⟩ := freeLoop_seg hr.seg hr.nodup
    simp only [implStep, free, hr.head, e1, Option.bind_eq_bind, Option.bind_some, specStep]
    exact ⟨_, rfl, hw.update (Repr.nil _) (fun b hb _ => e3 b hb) (by simp)
      (fun b hb _ => e2 b hb)⟩
  | moveAll dst src =>
    obtain ⟨w', e1, e2⟩ := moveAll_repr hw dst src
    simp only [implStep, e1, Option.bind_eq_bind, Option.bind_some, specStep]
    by_cases h : dst = src
    · simp only [h, if_true] at e2 ⊢; exact ⟨_, rfl, e2⟩
    · simp only [h, if_false] at e2 ⊢; exact ⟨_, rfl, e2⟩
  | length l => exact ⟨w, by simp [implStep, specStep, (hw.repr l).length], hw⟩
  | head l => exact ⟨w, by simp [implStep, specStep, (hw.repr l).head], hw⟩
  | tail l => exact ⟨w, by simp [implStep, specStep, (hw.repr l).tail], hw⟩
  | «at» l n =>
    have hr := hw.repr l
    exact ⟨w, by simp [implStep, specStep, at', hr.head, atLoop_seg hr.seg], hw⟩
  | next l i =>
    obtain ⟨A, x, B, h1, h2⟩ := splitAt_spec hv
    have hr := (hw.repr l).seg
    rw [h2, Seg_append] at hr
    have ci := hr.2.1
    refine ⟨w, ?_, ?_⟩
    · simp [implStep, specStep, h1, next, ci]
    · simp only [specStep, h1]; exact hw
  | prev l i =>
    obtain ⟨A, x, B, h1, h2⟩ := splitAt_spec hv
    have hr := (hw.repr l).seg
    rw [h2, Seg_append] at hr
    have ci := hr.2.1
    refine ⟨w, ?_, ?_⟩
    · simp [implStep, specStep, h1, ci]
    · simp only [specStep, h1]; exact hw

theorem run_refines {w : World V} {s : Seqs V} (hw : WRepr w s) (cs : List (Call V))
    (hv : ValidRun s cs) :
    ∃ w', implRun w cs = some (w', (specRun s cs).2) ∧ WRepr w' (specRun s cs).1 := by
  induction cs generalizing w s with
  | nil => exact ⟨w, rfl, hw⟩
  | cons c cs ih =>
    obtain ⟨w1, e1, r1⟩ := step_refines hw hv.1
    obtain ⟨w2, e2, r2⟩ := ih r1 hv.2
    exact ⟨w2, by simp only [implRun, e1, Option.bind_eq_bind, Option.bind_some, e2, specRun]; rfl,
      r2⟩

end Kefir.LinkedList
