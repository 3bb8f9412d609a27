import Verif.Call.Shape

/-!
# What the calling function stores and the called function loads
-/

namespace Kefir.Call

open Kefir.Layout Kefir.Abi

/-- The eightbytes of an object, from the `i`-th on, are in their registers. -/
def QHeld (int sse : Nat → Word) (src : Mem) : List Qword → Nat → Prop
  | [], _ => True
  | w :: ws, i => ((w.klass = .integer ∧ int w.location = Mem.load src (8 * i)) ∨
      (w.klass = .sse ∧ sse w.location = Mem.load src (8 * i))) ∧ QHeld int sse src ws (i + 1)

/-- The argument is where its allocation says. -/
inductive Held (heap : Word → Mem) (int sse : Nat → Word) (out : Mem) : Ty → Data → Alloc → Arg → Prop
  | intReg {k al p d a w} : IntLeaf k → (k = .builtin → p < 1) → a.klass = .integer → int a.location.int = w →
      Held heap int sse out (.leaf k al p) d a (.word w)
  | intMem {k al p d a w} : IntLeaf k → (k = .builtin → p < 1) → a.klass = .memory →
      Mem.load out a.location.stack = w → Held heap int sse out (.leaf k al p) d a (.word w)
  | sseReg {k al p d a w} : SseLeaf k → a.klass = .sse → sse a.location.sse = w →
      Held heap int sse out (.leaf k al p) d a (.word w)
  | sseMem {k al p d a w} : SseLeaf k → a.klass = .memory → Mem.load out a.location.stack = w →
      Held heap int sse out (.leaf k al p) d a (.word w)
  | longDouble {al p d a low high} : a.klass = .memory → Mem.load out a.location.stack = low →
      Mem.load out (a.location.stack + 8) = high →
      Held heap int sse out (.leaf .longDouble al p) d a (.ext low high)
  | memory {al p d a w} : a.klass = .memory → (∀ i < d.size, out (a.location.stack + i) = heap w i) →
      Held heap int sse out (.leaf .memory al p) d a (.word w)
  | aggMem {t d a w} : Ty.isLeaf t = false → a.klass = .memory →
      (∀ i < d.size, out (a.location.stack + i) = heap w i) → Held heap int sse out t d a (.word w)
  | aggReg {t d a q w} : Ty.isLeaf t = false → a.klass = .noClass → a.content = .qwords q →
      q.qwords.length = eightbytes d.size → QHeld int sse (heap w) q.qwords 0 →
      Held heap int sse out t d a (.word w)

inductive HeldAll (heap : Word → Mem) (int sse : Nat → Word) (out : Mem) :
    List Ty → List LTree → List (List Alloc) → List Arg → Prop
  | nil : HeldAll heap int sse out [] [] [] []
  | cons {t l a as ts ls ass x xs} : Held heap int sse out t l.data a x → HeldAll heap int sse out ts ls ass xs →
      HeldAll heap int sse out (t :: ts) (l :: ls) ((a :: as) :: ass) (x :: xs)

/-- Two states agree on what lies between two locations. -/
structure Agree (c c' : Location) (s s' : Caller) : Prop where
  int : ∀ n, c.int ≤ n → n < c'.int → s'.int n = s.int n
  sse : ∀ n, c.sse ≤ n → n < c'.sse → s'.sse n = s.sse n
  out : ∀ x, c.stack ≤ x → x < c'.stack → s'.out x = s.out x

/-! ## Words in memory -/

theorem load_store (m : Mem) (a : Nat) (w : Word) : Mem.load (Mem.store m a w) a = w := by
  funext i
  simp only [Mem.load, Mem.store]
  rw [dif_pos (by omega)]
  congr 1
  apply Fin.ext
  simp

theorem store_out (m : Mem) (a : Nat) (w : Word) (x : Nat) (h : ¬ (a ≤ x ∧ x < a + 8)) :
    Mem.store m a w x = m x := by
  simp only [Mem.store]
  rw [dif_neg h]

theorem load_congr {m m' : Mem} {a : Nat} (h : ∀ x, a ≤ x → x < a + 8 → m' x = m x) :
    Mem.load m' a = Mem.load m a := by
  funext i
  exact h _ (by omega) (by omega)

theorem copy_in (m : Mem) (dst : Nat) (src : Mem) (n i : Nat) (h : i < n) :
    Mem.copy m dst src n (dst + i) = src i := by
  simp only [Mem.copy]
  rw [if_pos (by omega)]
  congr 1; omega

theorem copy_out (m : Mem) (dst : Nat) (src : Mem) (n x : Nat) (h : ¬ (dst ≤ x ∧ x < dst + n)) :
    Mem.copy m dst src n x = m x := by
  simp only [Mem.copy]
  rw [if_neg h]

theorem load_atRbp (out : Mem) (a : Nat) : Mem.load (atRbp out) (a + 2 * 8) = Mem.load out a := by
  funext i
  simp only [Mem.load, atRbp]
  rw [if_neg (by omega)]
  congr 1; omega

theorem setReg_same (r : Nat → Word) (n : Nat) (w : Word) : setReg r n w n = w := if_pos rfl

theorem setReg_other (r : Nat → Word) (n m : Nat) (w : Word) (h : m ≠ n) : setReg r n w m = r m := if_neg h

/-! ## The calling function -/

theorem register_stored {src : Mem} : ∀ {ws : List Qword} {i0 s0 : Nat}, Assigned ws i0 s0 → ∀ (i : Nat) (s : Caller),
    ∃ s', registerAggregateArgument src ws i s = .ok s' ∧ s'.argument = s.argument ∧ s'.out = s.out ∧
      (∀ n < i0, s'.int n = s.int n) ∧ (∀ n < s0, s'.sse n = s.sse n) ∧ QHeld s'.int s'.sse src ws i
  | _, _, _, .nil, i, s => ⟨s, rfl, rfl, rfl, fun _ _ => rfl, fun _ _ => rfl, trivial⟩
  | _, i0, s0, .int (w := w) (ws := ws) hk hl ha, i, s => by
    obtain ⟨s', h1, h2, h3, h4, h5, h6⟩ := register_stored (src := src) ha (i + 1)
      { s with int := setReg s.int w.location (Mem.load src (i * 8)) }
    refine ⟨s', ?_, h2, h3, ?_, h5, ?_, h6⟩
    · rw [registerAggregateArgument, hk]; exact h1
    · intro n hn
      rw [h4 n (by omega)]
      exact setReg_other _ _ _ _ (by omega)
    · refine .inl ⟨hk, ?_⟩
      rw [hl, h4 i0 (by omega), ← hl, Nat.mul_comm 8 i]
      exact setReg_same _ _ _
  | _, i0, s0, .sse (w := w) (ws := ws) hk hl ha, i, s => by
    obtain ⟨s', h1, h2, h3, h4, h5, h6⟩ := register_stored (src := src) ha (i + 1)
      { s with sse := setReg s.sse w.location (Mem.load src (i * 8)) }
    refine ⟨s', ?_, h2, h3, h4, ?_, ?_, h6⟩
    · rw [registerAggregateArgument, hk]; exact h1
    · intro n hn
      rw [h5 n (by omega)]
      exact setReg_other _ _ _ _ (by omega)
    · refine .inr ⟨hk, ?_⟩
      rw [hl, h5 s0 (by omega), ← hl, Nat.mul_comm 8 i]
      exact setReg_same _ _ _

theorem qheld_congr {int sse int' sse' : Nat → Word} {src : Mem} : ∀ {ws : List Qword} {i0 s0 : Nat},
    Assigned ws i0 s0 → (∀ n, i0 ≤ n → n < i0 + ints ws → int' n = int n) →
    (∀ n, s0 ≤ n → n < s0 + sses ws → sse' n = sse n) → ∀ i, QHeld int sse src ws i → QHeld int' sse' src ws i
  | _, _, _, .nil, _, _, _, _ => trivial
  | _, i0, s0, .int (w := w) (ws := ws) hk hl ha, hi, hs, i, h => by
    have hk' : w.klass ≠ .sse := by rw [hk]; decide
    rw [ints_cons, if_pos hk] at hi
    rw [sses_cons, if_neg hk', Nat.zero_add] at hs
    refine ⟨?_, qheld_congr ha (fun n h1 h2 => hi n (by omega) (by omega)) hs _ h.2⟩
    rcases h.1 with ⟨_, h1⟩ | ⟨h0, _⟩
    · exact .inl ⟨hk, by rw [← h1, hl]; exact hi _ (by omega) (by omega)⟩
    · exact absurd h0 hk'
  | _, i0, s0, .sse (w := w) (ws := ws) hk hl ha, hi, hs, i, h => by
    have hk' : w.klass ≠ .integer := by rw [hk]; decide
    rw [sses_cons, if_pos hk] at hs
    rw [ints_cons, if_neg hk', Nat.zero_add] at hi
    refine ⟨?_, qheld_congr ha hi (fun n h1 h2 => hs n (by omega) (by omega)) _ h.2⟩
    rcases h.1 with ⟨h0, _⟩ | ⟨_, h1⟩
    · exact absurd h0 hk'
    · exact .inr ⟨hk, by rw [← h1, hl]; exact hs _ (by omega) (by omega)⟩

/-- Locations only grow. -/
theorem Shape.le {t d c c' a} (h : Shape t d c c' a) : c.int ≤ c'.int ∧ c.sse ≤ c'.sse ∧ c.stack ≤ c'.stack := by
  have hp : ∀ n, c.stack ≤ padAligned c.stack n := fun n => padAligned_ge _ _
  cases h <;> refine ⟨?_, ?_, ?_⟩ <;> simp only [Nat.le_refl, Nat.le_add_right] <;>
    first | omega | exact Nat.le_trans (hp _) (Nat.le_add_right _ _)

theorem ShapeAll.le {ts ls ass c c'} (h : ShapeAll ts ls ass c c') :
    c.int ≤ c'.int ∧ c.sse ≤ c'.sse ∧ c.stack ≤ c'.stack := by
  induction h with
  | nil => exact ⟨Nat.le_refl _, Nat.le_refl _, Nat.le_refl _⟩
  | cons h1 _ ih => have := h1.le; omega

theorem held_congr {heap : Word → Mem} {t d c c' a x} (h : Shape t d c c' a) {s s' : Caller}
    (ha : Agree c c' s s') (hh : Held heap s.int s.sse s.out t d a x) :
    Held heap s'.int s'.sse s'.out t d a x := by
  have hp : ∀ n, c.stack ≤ padAligned c.stack n := fun n => padAligned_ge _ _
  cases hh with
  | intReg hk hb h1 h2 =>
    refine .intReg hk hb h1 ?_
    cases h <;> simp_all [Ty.isLeaf, SseLeaf, IntLeaf]
    exact h2 ▸ ha.int _ (by omega) (by simp)
  | intMem hk hb h1 h2 =>
    refine .intMem hk hb h1 ?_
    cases h <;> simp_all [Ty.isLeaf, SseLeaf, IntLeaf]
    rw [← h2]
    exact load_congr fun x hx hx' => ha.out x (Nat.le_trans (hp _) hx) hx'
  | sseReg hk h1 h2 =>
    refine .sseReg hk h1 ?_
    cases h <;> simp_all [Ty.isLeaf, SseLeaf, IntLeaf]
    exact h2 ▸ ha.sse _ (by omega) (by simp)
  | sseMem hk h1 h2 =>
    refine .sseMem hk h1 ?_
    cases h <;> simp_all [Ty.isLeaf, SseLeaf, IntLeaf]
    rw [← h2]
    exact load_congr fun x hx hx' => ha.out x (Nat.le_trans (hp _) hx) hx'
  | longDouble h1 h2 h3 =>
    cases h with
    | longDouble h4 h5 h6 =>
      refine .longDouble h1 ?_ ?_
      · rw [← h2, h5]
        exact load_congr fun x hx hx' => ha.out x (Nat.le_trans (hp _) hx) (by show x < padAligned c.stack 16 + 16; omega)
      · rw [← h3, h5]
        have := hp 16
        exact load_congr fun x hx hx' => ha.out x (by omega) (by show x < padAligned c.stack 16 + 16; omega)
    | _ => simp_all [Ty.isLeaf, SseLeaf, IntLeaf]
  | memory h1 h2 =>
    cases h with
    | memory h4 h5 h6 =>
      refine .memory h1 fun i hi => ?_
      rw [← h2 i hi, h5]
      have := hp (max d.alignment 8)
      exact ha.out _ (by omega) (by show _ < padAligned c.stack (max d.alignment 8) + d.size; omega)
    | _ => simp_all [Ty.isLeaf, SseLeaf, IntLeaf]
  | aggMem h0 h1 h2 =>
    cases h with
    | aggMem h3 h4 h5 h6 =>
      refine .aggMem h0 h1 fun i hi => ?_
      rw [← h2 i hi, h5]
      have := hp (max d.alignment 8)
      exact ha.out _ (by omega) (by show _ < padAligned c.stack (max d.alignment 8) + d.size; omega)
    | _ => simp_all [Ty.isLeaf, SseLeaf, IntLeaf]
  | aggReg h0 h1 h2 h3 h4 =>
    cases h with
    | aggReg _ _ _ h8 h9 h10 _ _ =>
      rw [h2] at h8
      cases h8
      exact .aggReg h0 h1 h2 h3 (qheld_congr h10 ha.int ha.sse _ h4)
    | _ => simp_all [Ty.isLeaf, SseLeaf, IntLeaf]

/-- The words `ws` are on the operand stack where the arguments from the `k`-th word on are. -/
def Operands (total : Nat) (stack : Nat → Word) (k : Nat) (ws : List Word) : Prop :=
  ∀ i (h : i < ws.length), stack (total - (k + i) - 1) = ws[i]

theorem scalar_entry {k : Leaf} (h : IntLeaf k ∨ SseLeaf k) {al p : Nat} (total stack heap d a s) :
    invokeArgument total stack heap (Ty.leaf k al p).entry d a s =
      if k = .builtin then builtinArgument total stack p a s else scalarArgument total stack a s := by
  cases k <;> first | rfl | simp [IntLeaf, SseLeaf] at h

theorem stored {heap : Word → Mem} {total : Nat} {stack : Nat → Word} {t d c c' a} (h : Shape t d c c' a)
    (hpad : t.entry.code ≠ .leaf .pad) {x : Arg} (hx : ArgFor t x) (s : Caller)
    (ho : Operands total stack s.argument x.pushed) :
    ∃ s', invokeArgument total stack heap t.entry d a s = .ok s' ∧ s'.argument = s.argument + wordCount [t] ∧
      Held heap s'.int s'.sse s'.out t d a x ∧
      (∀ n < c.int, s'.int n = s.int n) ∧ (∀ n < c.sse, s'.sse n = s.sse n) ∧ ∀ x < c.stack, s'.out x = s.out x := by
  have hp : ∀ n, c.stack ≤ padAligned c.stack n := fun n => padAligned_ge _ _
  have hword : ∀ w, x = .word w → stack (total - s.argument - 1) = w := by
    rintro w rfl
    have := ho 0 (by simp [Arg.pushed])
    simpa [Arg.pushed] using this
  have hw1 : Ty.isLeaf t = false → wordCount [t] = 1 := by cases t <;> simp [Ty.isLeaf, wordCount]
  have hw2 : ∀ k al p, t = .leaf k al p → k ≠ .longDouble → wordCount [t] = 1 := by
    rintro k al p rfl hk; cases k <;> simp_all [wordCount]
  have hwx : (∀ al p, t ≠ .leaf .longDouble al p) → ∃ w, x = .word w := by
    intro hn
    cases x with
    | word w => exact ⟨w, rfl⟩
    | ext l h =>
      exfalso
      cases t with
      | leaf k al p => cases k <;> simp_all [ArgFor]
      | _ => simp [ArgFor] at hx
  cases h with
  | pad => exact absurd rfl hpad
  | @intReg k al p _ _ _ hk hb hlt h1 h2 h3 =>
    have hne : k ≠ .longDouble := by rintro rfl; simp [IntLeaf] at hk
    obtain ⟨w, rfl⟩ := hwx (by rintro al p ⟨⟩; exact hne rfl)
    rw [scalar_entry (.inl hk), hw2 _ _ _ rfl hne]
    have hw := hword w rfl
    have : ∃ s', (if k = .builtin then builtinArgument total stack p a s else scalarArgument total stack a s) =
        .ok s' ∧ s' = { s with int := setReg s.int a.location.int w, argument := s.argument + 1 } := by
      refine ⟨_, ?_, rfl⟩
      split
      · rename_i hkb; simp only [builtinArgument, if_pos (hb hkb), h1, hw]
      · simp only [scalarArgument, h1, hw]
    obtain ⟨s', h4, rfl⟩ := this
    refine ⟨_, h4, rfl, .intReg hk hb h1 (setReg_same _ _ _), ?_, fun _ _ => rfl, fun _ _ => rfl⟩
    intro n hn; exact setReg_other _ _ _ _ (by omega)
  | @intMem k al p _ _ _ hk hb hlt h1 h2 h3 =>
    have hne : k ≠ .longDouble := by rintro rfl; simp [IntLeaf] at hk
    obtain ⟨w, rfl⟩ := hwx (by rintro al p ⟨⟩; exact hne rfl)
    rw [scalar_entry (.inl hk), hw2 _ _ _ rfl hne]
    have hw := hword w rfl
    have : ∃ s', (if k = .builtin then builtinArgument total stack p a s else scalarArgument total stack a s) =
        .ok s' ∧ s' = { s with out := Mem.store s.out a.location.stack w, argument := s.argument + 1 } := by
      refine ⟨_, ?_, rfl⟩
      split
      · rename_i hkb; simp only [builtinArgument, if_pos (hb hkb), h1, hw]
      · simp only [scalarArgument, h1, hw]
    obtain ⟨s', h4, rfl⟩ := this
    refine ⟨_, h4, rfl, .intMem hk hb h1 (load_store _ _ _), fun _ _ => rfl, fun _ _ => rfl, ?_⟩
    intro x hx'; have := hp 8; exact store_out _ _ _ _ (by omega)
  | @sseReg k al p _ _ _ hk hlt h1 h2 h3 =>
    have hne : k ≠ .longDouble := by rintro rfl; simp [SseLeaf] at hk
    obtain ⟨w, rfl⟩ := hwx (by rintro al p ⟨⟩; exact hne rfl)
    rw [scalar_entry (.inr hk), hw2 _ _ _ rfl hne, if_neg (by rintro rfl; simp [SseLeaf] at hk)]
    have hw := hword w rfl
    refine ⟨{ s with sse := setReg s.sse a.location.sse w, argument := s.argument + 1 }, ?_, rfl,
      .sseReg hk h1 (setReg_same _ _ _), fun _ _ => rfl, ?_, fun _ _ => rfl⟩
    · simp only [scalarArgument, h1, hw]
    · intro n hn; exact setReg_other _ _ _ _ (by omega)
  | @sseMem k al p _ _ _ hk hlt h1 h2 h3 =>
    have hne : k ≠ .longDouble := by rintro rfl; simp [SseLeaf] at hk
    obtain ⟨w, rfl⟩ := hwx (by rintro al p ⟨⟩; exact hne rfl)
    rw [scalar_entry (.inr hk), hw2 _ _ _ rfl hne, if_neg (by rintro rfl; simp [SseLeaf] at hk)]
    have hw := hword w rfl
    refine ⟨{ s with out := Mem.store s.out a.location.stack w, argument := s.argument + 1 }, ?_, rfl,
      .sseMem hk h1 (load_store _ _ _), fun _ _ => rfl, fun _ _ => rfl, ?_⟩
    · simp only [scalarArgument, h1, hw]
    · intro x hx'; have := hp 8; exact store_out _ _ _ _ (by omega)
  | @longDouble al p _ _ _ h1 h2 h3 =>
    cases x with
    | word w => simp [ArgFor] at hx
    | ext low high =>
      have hh : stack (total - s.argument - 1) = high := by
        simpa [Arg.pushed] using ho 0 (by simp [Arg.pushed])
      have hl : stack (total - s.argument - 2) = low := by
        have := ho 1 (by simp [Arg.pushed])
        rw [show total - (s.argument + 1) - 1 = total - s.argument - 2 by omega] at this
        simpa [Arg.pushed] using this
      refine ⟨{ s with
        out := Mem.store (Mem.store s.out a.location.stack low) (a.location.stack + 8) high
        argument := s.argument + 2 }, ?_, rfl, .longDouble h1 ?_ (load_store _ _ _), fun _ _ => rfl,
        fun _ _ => rfl, ?_⟩
      · simp only [invokeArgument, Ty.entry, longDoubleArgument, if_pos h1, hh, hl]
      · rw [load_congr (m := Mem.store s.out a.location.stack low)]
        · exact load_store _ _ _
        · intro x h4 h5; exact store_out _ _ _ _ (by omega)
      · intro x hx'
        have := hp 16
        show Mem.store _ _ _ x = _
        rw [store_out _ _ _ _ (by omega), store_out _ _ _ _ (by omega)]
  | @memory al p _ _ _ h1 h2 h3 =>
    obtain ⟨w, rfl⟩ := hwx (by rintro al p ⟨⟩)
    have hw := hword w rfl
    have hcalc : invokeArgument total stack heap (Ty.leaf Leaf.memory al p).entry d a s =
        .ok { memoryAggregateArgument total stack heap d a s with
          argument := (memoryAggregateArgument total stack heap d a s).argument + 1 } := by
      simp only [invokeArgument, Ty.entry, aggregateArgument, if_pos h1, bind, Except.bind, pure, Except.pure]
    refine ⟨_, hcalc, ?_, .memory h1 ?_, ?_, ?_, ?_⟩
    · simp only [memoryAggregateArgument]; split <;> rfl
    · intro i hi
      simp only [memoryAggregateArgument, if_pos (show d.size > 0 by omega), hw]
      exact copy_in _ _ _ _ _ hi
    · intro n _; simp only [memoryAggregateArgument]; split <;> rfl
    · intro n _; simp only [memoryAggregateArgument]; split <;> rfl
    · intro x hx'
      simp only [memoryAggregateArgument]
      split
      · have := hp (max d.alignment 8); exact copy_out _ _ _ _ _ (by omega)
      · rfl
  | aggMem h0 h1 h2 h3 =>
    obtain ⟨w, rfl⟩ := hwx (by rintro al p rfl; simp [Ty.isLeaf] at h0)
    have hw := hword w rfl
    have hcalc : invokeArgument total stack heap t.entry d a s =
        .ok { memoryAggregateArgument total stack heap d a s with
          argument := (memoryAggregateArgument total stack heap d a s).argument + 1 } := by
      cases t with
      | leaf => simp [Ty.isLeaf] at h0
      | _ => simp only [invokeArgument, Ty.entry, aggregateArgument, if_pos h1, bind, Except.bind, pure, Except.pure]
    refine ⟨_, hcalc, ?_, .aggMem h0 h1 ?_, ?_, ?_, ?_⟩
    · rw [hw1 h0]; simp only [memoryAggregateArgument]; split <;> rfl
    · intro i hi
      simp only [memoryAggregateArgument, if_pos (show d.size > 0 by omega), hw]
      exact copy_in _ _ _ _ _ hi
    · intro n _; simp only [memoryAggregateArgument]; split <;> rfl
    · intro n _; simp only [memoryAggregateArgument]; split <;> rfl
    · intro x hx'
      simp only [memoryAggregateArgument]
      split
      · have := hp (max d.alignment 8); exact copy_out _ _ _ _ _ (by omega)
      · rfl
  | @aggReg _ _ _ _ q h0 h1 h2 h3 h4 h5 h6 h7 =>
    obtain ⟨w, rfl⟩ := hwx (by rintro al p rfl; simp [Ty.isLeaf] at h0)
    have hw := hword w rfl
    obtain ⟨s', g1, g2, g3, g4, g5, g6⟩ := register_stored (src := heap w) h5 0 s
    refine ⟨{ s' with argument := s'.argument + 1 }, ?_, ?_, .aggReg h0 h1 h3 h4 g6, g4, g5, ?_⟩
    · have hk : a.klass ≠ .memory := by rw [h1]; decide
      cases t with
      | leaf => simp [Ty.isLeaf] at h0
      | _ => simp only [invokeArgument, Ty.entry, aggregateArgument, if_neg hk, h3, hw, g1, bind, Except.bind, pure, Except.pure]
    · rw [hw1 h0]; simp only [g2]
    · intro x _; simp only [g3]

theorem pushed_length {t : Ty} {x : Arg} (h : ArgFor t x) : x.pushed.length = wordCount [t] := by
  cases t with
  | leaf k al p => cases k <;> cases x <;> simp_all [ArgFor, Arg.pushed, wordCount]
  | _ => cases x <;> simp_all [ArgFor, Arg.pushed, wordCount]

theorem operands_append {total stack k ws ws'} (h : Operands total stack k (ws ++ ws')) :
    Operands total stack k ws ∧ Operands total stack (k + ws.length) ws' := by
  constructor
  · intro i hi
    have := h i (by simp; omega)
    rw [this, List.getElem_append_left hi]
  · intro i hi
    have := h (ws.length + i) (by simp; omega)
    rw [← Nat.add_assoc] at this
    rw [this, List.getElem_append_right (by omega)]
    simp

/-- No padding among the parameters. -/
def NoPads (ts : List Ty) : Prop := ∀ t ∈ ts, t.entry.code ≠ .leaf .pad

theorem stored_all {heap : Word → Mem} {total : Nat} {stack : Nat → Word} {ts ls ass c c'}
    (h : ShapeAll ts ls ass c c') : NoPads ts → ∀ {xs : List Arg}, ArgsFor ts xs → ∀ s : Caller,
    Operands total stack s.argument (xs.flatMap Arg.pushed) →
    ∃ s', visitAll (invokeArgument total stack heap) ts ls ass s = .ok s' ∧
      HeldAll heap s'.int s'.sse s'.out ts ls ass xs ∧
      (∀ n < c.int, s'.int n = s.int n) ∧ (∀ n < c.sse, s'.sse n = s.sse n) ∧ ∀ x < c.stack, s'.out x = s.out x := by
  induction h with
  | nil => intro _ xs hx s _; cases hx; exact ⟨s, rfl, .nil, fun _ _ => rfl, fun _ _ => rfl, fun _ _ => rfl⟩
  | @cons t l a as ts ls ass c c1 c2 h1 h2 ih =>
    intro hp xs hx s ho
    cases hx with
    | @cons _ x _ xs hx1 hx2 =>
      rw [List.flatMap_cons] at ho
      obtain ⟨ho1, ho2⟩ := operands_append ho
      obtain ⟨s1, g1, g2, g3, g4, g5, g6⟩ := stored (heap := heap) h1 (hp t (List.mem_cons_self ..)) hx1 s ho1
      rw [pushed_length hx1, ← g2] at ho2
      obtain ⟨s2, k1, k2, k3, k4, k5⟩ := ih (fun t ht => hp t (List.mem_cons_of_mem _ ht)) hx2 s1 ho2
      have hle := h1.le
      refine ⟨s2, ?_, .cons ?_ k2, ?_, ?_, ?_⟩
      · simp only [visitAll, g1, Except.bind, k1]
      · exact held_congr h1 ⟨fun n _ hn => k3 n hn, fun n _ hn => k4 n hn, fun x _ hn => k5 x hn⟩ g3
      · intro n hn; rw [k3 n (by omega), g4 n hn]
      · intro n hn; rw [k4 n (by omega), g5 n hn]
      · intro n hn; rw [k5 n (by omega), g6 n hn]

theorem heldAll_congr {heap : Word → Mem} {ts ls ass c c'} (h : ShapeAll ts ls ass c c') {s s' : Caller}
    (ha : Agree c c' s s') : ∀ {xs}, HeldAll heap s.int s.sse s.out ts ls ass xs →
    HeldAll heap s'.int s'.sse s'.out ts ls ass xs := by
  induction h with
  | nil => intro xs hx; cases hx; exact .nil
  | @cons t l a as ts ls ass c c1 c2 h1 h2 ih =>
    intro xs hx
    cases hx with
    | cons hx1 hx2 =>
      have l1 := h1.le
      have l2 := h2.le
      refine .cons (held_congr h1 ⟨fun n q r => ha.int n q (by omega), fun n q r => ha.sse n q (by omega),
        fun n q r => ha.out n q (by omega)⟩ hx1) (ih ⟨fun n q r => ha.int n (by omega) r,
          fun n q r => ha.sse n (by omega) r, fun n q r => ha.out n (by omega) r⟩ hx2)

/-! ## The called function -/

theorem qwords_loaded {int sse : Nat → Word} {src : Mem} {base : Nat} : ∀ (ws : List Qword) (i : Nat) (m : Mem),
    QHeld int sse src ws i → ∃ m', loadQwords int sse base ws i m = .ok m' ∧
      (∀ x < base + 8 * i, m' x = m x) ∧ (∀ x, base + 8 * (i + ws.length) ≤ x → m' x = m x) ∧
      ∀ j, 8 * i ≤ j → j < 8 * (i + ws.length) → m' (base + j) = src j
  | [], i, m, _ => ⟨m, rfl, fun _ _ => rfl, fun _ _ => rfl, fun j h1 h2 => by simp at h2; omega⟩
  | w :: ws, i, m, h => by
    have key : ∀ v : Word, v = Mem.load src (8 * i) →
        (∃ m', loadQwords int sse base ws (i + 1) (Mem.store m (base + 8 * i) v) = .ok m' ∧
          (∀ x < base + 8 * i, m' x = m x) ∧ (∀ x, base + 8 * (i + (w :: ws).length) ≤ x → m' x = m x) ∧
          ∀ j, 8 * i ≤ j → j < 8 * (i + (w :: ws).length) → m' (base + j) = src j) := by
      intro v hv
      obtain ⟨m', h1, h2, h3, h4⟩ := qwords_loaded ws (i + 1) (Mem.store m (base + 8 * i) v) h.2
      refine ⟨m', h1, ?_, ?_, ?_⟩
      · intro x hx
        rw [h2 x (by omega), store_out _ _ _ _ (by omega)]
      · intro x hx
        rw [List.length_cons] at hx
        rw [h3 x (by omega), store_out _ _ _ _ (by omega)]
      · intro j hj hj'
        rw [List.length_cons] at hj'
        by_cases hb : j < 8 * (i + 1)
        · rw [h2 _ (by omega)]
          have := congrFun (load_store m (base + 8 * i) v) ⟨j - 8 * i, by omega⟩
          rw [hv] at this
          simp only [Mem.load] at this
          rw [show base + 8 * i + (j - 8 * i) = base + j by omega, show 8 * i + (j - 8 * i) = j by omega] at this
          rw [hv]; exact this
        · exact h4 j (by omega) (by omega)
    rcases h.1 with ⟨hk, hv⟩ | ⟨hk, hv⟩
    · simp only [loadQwords, hk]; exact key _ hv
    · simp only [loadQwords, hk]; exact key _ hv

/-- What an item means when the frame is `m`. -/
def receivedIn (m out : Mem) : Item → Received
  | .word w => .word w
  | .rbp n => .bytes (fun i => atRbp out (n + i))
  | .frame n => .bytes (fun i => m (n + i))

theorem mask_keeps {k : Leaf} (hk : IntLeaf k ∨ SseLeaf k) (hb : k ≠ .builtin) (p : Nat) (w : Word) :
    ∃ v c, maskArgument k p w = .ok (v, c) ∧ ∀ i : Fin 8, i.val < valueSize k → v i = w i := by
  cases k <;> first
    | exact ⟨_, _, rfl, fun i hi => if_pos hi⟩
    | exact ⟨_, _, rfl, fun i hi => rfl⟩
    | exact absurd rfl hb
    | simp [IntLeaf, SseLeaf] at hk

theorem int_entry {k : Leaf} (h : IntLeaf k) {al p : Nat} (int sse out d a s) :
    loadArgument int sse out (Ty.leaf k al p).entry d a s =
      if k = .builtin then loadBuiltin int out p a s
      else loadScalar .integer (fun a => int a.location.int) out k p a s := by
  cases k <;> first | rfl | simp [IntLeaf] at h

theorem sse_entry {k : Leaf} (h : SseLeaf k) {al p : Nat} (int sse out d a s) :
    loadArgument int sse out (Ty.leaf k al p).entry d a s =
      loadScalar .sse (fun a => sse a.location.sse) out k p a s := by
  rcases h with rfl | rfl <;> rfl

theorem arrived_word {heap : Word → Mem} {k : Leaf} (h : IntLeaf k ∨ SseLeaf k) {al p size : Nat} {w v : Word}
    (hv : ∀ i : Fin 8, i.val < valueSize k → v i = w i) :
    Arrived heap (.leaf k al p) size (.word w) [.word v] := by
  cases k <;> first | exact ⟨v, rfl, hv⟩ | simp [IntLeaf, SseLeaf] at h

theorem arrived_bytes {heap : Word → Mem} {t : Ty} (h : Ty.isLeaf t = false) {size : Nat} {w : Word} {m : Mem}
    (hv : ∀ i < size, m i = heap w i) : Arrived heap t size (.word w) [.bytes m] := by
  cases t with
  | leaf => simp [Ty.isLeaf] at h
  | _ => exact ⟨m, rfl, hv⟩

/-- One argument is loaded. -/
theorem loaded {heap : Word → Mem} {int sse : Nat → Word} {out : Mem} {t d a x}
    (h : Held heap int sse out t d a x) (s : Callee) :
    ∃ s' is, loadArgument int sse out t.entry d a s = .ok s' ∧ s'.pushed = s.pushed ++ is ∧
      s.frameOffset ≤ s'.frameOffset ∧ (∀ x < s.frameOffset, s'.frame x = s.frame x) ∧
      ∀ m : Mem, (∀ x < s'.frameOffset, m x = s'.frame x) → Arrived heap t d.size x (is.map (receivedIn m out)) := by
  cases h with
  | @intReg k al p _ _ w hk hb h1 h2 =>
    rw [int_entry hk]
    refine ⟨{ s with pushed := s.pushed ++ [.word w] }, [.word w], ?_, rfl, Nat.le_refl _, fun _ _ => rfl, ?_⟩
    · split
      · rename_i hkb; simp only [loadBuiltin, if_pos (hb hkb), h1, h2]
      · simp only [loadScalar, h1, h2, if_true]
    · intro m _; exact arrived_word (.inl hk) fun _ _ => rfl
  | @intMem k al p _ _ w hk hb h1 h2 =>
    rw [int_entry hk]
    have hk1 : a.klass ≠ .integer := by rw [h1]; decide
    by_cases hkb : k = .builtin
    · refine ⟨{ s with pushed := s.pushed ++ [.word w] }, [.word w], ?_, rfl, Nat.le_refl _, fun _ _ => rfl, ?_⟩
      · rw [if_pos hkb]; simp only [loadBuiltin, if_pos (hb hkb), h1, load_atRbp, h2]
      · intro m _; exact arrived_word (.inl hk) fun _ _ => rfl
    · obtain ⟨v, c, hm, hv⟩ := mask_keeps (.inl hk) hkb p w
      refine ⟨{ s with pushed := s.pushed ++ [.word v], clobbered := s.clobbered || c }, [.word v], ?_, rfl,
        Nat.le_refl _, fun _ _ => rfl, ?_⟩
      · rw [if_neg hkb]
        simp only [loadScalar, if_neg hk1, load_atRbp, h2, hm, bind, Except.bind, pure, Except.pure]
      · intro m _; exact arrived_word (.inl hk) hv
  | @sseReg k al p _ _ w hk h1 h2 =>
    rw [sse_entry hk]
    refine ⟨{ s with pushed := s.pushed ++ [.word w] }, [.word w], ?_, rfl, Nat.le_refl _, fun _ _ => rfl, ?_⟩
    · simp only [loadScalar, h1, h2, if_true]
    · intro m _; exact arrived_word (.inr hk) fun _ _ => rfl
  | @sseMem k al p _ _ w hk h1 h2 =>
    rw [sse_entry hk]
    have hk1 : a.klass ≠ .sse := by rw [h1]; decide
    have hkb : k ≠ .builtin := by rintro rfl; simp [SseLeaf] at hk
    obtain ⟨v, c, hm, hv⟩ := mask_keeps (.inr hk) hkb p w
    refine ⟨{ s with pushed := s.pushed ++ [.word v], clobbered := s.clobbered || c }, [.word v], ?_, rfl,
      Nat.le_refl _, fun _ _ => rfl, ?_⟩
    · simp only [loadScalar, if_neg hk1, load_atRbp, h2, hm, bind, Except.bind, pure, Except.pure]
    · intro m _; exact arrived_word (.inr hk) hv
  | @longDouble al p _ _ low high h1 h2 h3 =>
    refine ⟨{ s with pushed := s.pushed ++ [.word high, .word low] }, [.word high, .word low], ?_, rfl,
      Nat.le_refl _, fun _ _ => rfl, ?_⟩
    · have : a.location.stack + 2 * 8 + 8 = (a.location.stack + 8) + 2 * 8 := by omega
      simp only [loadArgument, Ty.entry, loadLongDouble, if_pos h1, this, load_atRbp, h2, h3]
    · intro m _; rfl
  | @memory al p _ _ w h1 h2 =>
    refine ⟨{ s with pushed := s.pushed ++ [.rbp (a.location.stack + 2 * 8)] }, _, ?_, rfl,
      Nat.le_refl _, fun _ _ => rfl, ?_⟩
    · simp only [loadArgument, Ty.entry, loadAggregate, if_pos h1]
    · intro m _
      refine ⟨_, rfl, fun i hi => ?_⟩
      simp only [atRbp]
      rw [if_neg (by omega), ← h2 i hi]
      congr 1; omega
  | @aggMem _ _ _ w h0 h1 h2 =>
    refine ⟨{ s with pushed := s.pushed ++ [.rbp (a.location.stack + 2 * 8)] }, _, ?_, rfl,
      Nat.le_refl _, fun _ _ => rfl, ?_⟩
    · cases t with
      | leaf => simp [Ty.isLeaf] at h0
      | _ => simp only [loadArgument, Ty.entry, loadAggregate, if_pos h1]
    · intro m _
      refine arrived_bytes h0 fun i hi => ?_
      simp only [atRbp]
      rw [if_neg (by omega), ← h2 i hi]
      congr 1; omega
  | @aggReg _ _ _ q w h0 h1 h2 h3 h4 =>
    have hk : a.klass ≠ .memory := by rw [h1]; decide
    obtain ⟨m', g1, g2, g3, g4⟩ := qwords_loaded (base := padAligned s.frameOffset d.alignment) q.qwords 0 s.frame h4
    refine ⟨{ s with frame := m', frameOffset := padAligned s.frameOffset d.alignment + d.size,
                     pushed := s.pushed ++ [.frame (padAligned s.frameOffset d.alignment)] }, _, ?_, rfl,
      ?_, ?_, ?_⟩
    · cases t with
      | leaf => simp [Ty.isLeaf] at h0
      | _ => simp only [loadArgument, Ty.entry, loadAggregate, if_neg hk, h2, g1, bind, Except.bind, pure, Except.pure]
    · exact Nat.le_trans (padAligned_ge _ _) (Nat.le_add_right _ _)
    · intro x hx
      have := padAligned_ge s.frameOffset d.alignment
      exact g2 x (by omega)
    · intro m hm
      refine arrived_bytes h0 fun i hi => ?_
      rw [hm _ (by show _ < _ + _; omega)]
      refine g4 i (by omega) ?_
      rw [h3]
      simp only [eightbytes]
      omega

theorem loaded_all {heap : Word → Mem} {int sse : Nat → Word} {out : Mem} {ts ls ass xs}
    (h : HeldAll heap int sse out ts ls ass xs) : ∀ s : Callee,
    ∃ s' iss, visitAll (loadArgument int sse out) ts ls ass s = .ok s' ∧ s'.pushed = s.pushed ++ List.flatten iss ∧
      s.frameOffset ≤ s'.frameOffset ∧ (∀ x < s.frameOffset, s'.frame x = s.frame x) ∧
      ∀ m : Mem, (∀ x < s'.frameOffset, m x = s'.frame x) →
        ArrivedAll heap ts ls xs (iss.map (List.map (receivedIn m out))) := by
  induction h with
  | nil => intro s; exact ⟨s, [], rfl, by simp, Nat.le_refl _, fun _ _ => rfl, fun _ _ => .nil⟩
  | cons h1 h2 ih =>
    intro s
    obtain ⟨s1, is, g1, g2, g3, g4, g5⟩ := loaded h1 s
    obtain ⟨s2, iss, k1, k2, k3, k4, k5⟩ := ih s1
    refine ⟨s2, is :: iss, ?_, ?_, by omega, ?_, ?_⟩
    · simp only [visitAll, g1, Except.bind, k1]
    · rw [k2, g2]; simp
    · intro x hx; rw [k4 x (by omega), g4 x hx]
    · intro m hm
      refine .cons (g5 m fun x hx => ?_) (k5 m hm)
      rw [hm x (by omega), k4 x hx]

end Kefir.Call
