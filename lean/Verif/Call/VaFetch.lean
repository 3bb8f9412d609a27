import Verif.Call.VaLemmas

/-!
# Variable arguments: one argument is fetched
-/

namespace Kefir.Call

open Kefir.Layout Kefir.Abi

/-! ## The instruction -/

theorem not_hollow {t : Ty} (hw : WF t) :
    ¬ ((t.entry.code = .struct ∨ t.entry.code = .union) ∧ t.entry.param = 0) := by
  cases hw with
  | leaf => simp [Ty.entry]
  | struct h _ => simp [Ty.entry, h]
  | union h _ => simp [Ty.entry, h]
  | array => simp [Ty.entry]

theorem get_eq {t : Ty} (hw : WF t) (rbp : Nat) (out : Mem) (s : VaState) :
    varargGet rbp out (flatten t) s = varargEntry rbp out (flatten t) 0 t.entry s := by
  have hn := not_hollow hw
  generalize hf : varargEntry rbp out (flatten t) = f
  rw [varargGet, hf, flatten_eq]
  simp only [listNodes, List.length_cons, Nat.zero_lt_succ, dif_pos, List.getElem_cons_zero, if_neg hn]
  cases f 0 t.entry s <;> rfl

/-- The layout of a type on its own. -/
def ownLayout (t : Ty) : LTree := .node (update (.fresh true) (natural t).1 t.entry).2 (natural t).2

theorem ownLayout_eq (t : Ty) : (layAll (.fresh true) [t]).2 = [ownLayout t] := rfl

theorem alone {t : Ty} (hw : WF t) {r} (h : functionAllocParams (flattenAll [t]) false = .ok r) :
    ∃ a1 rest1 loc0 a0, classify t (ownLayout t) 0 = .ok (a1 :: rest1) ∧
      allocate t (ownLayout t) ⟨0, 0, 0⟩ a1 = .ok (loc0, a0) ∧
      ∀ (rbp : Nat) (s : VaState), varargAggregate rbp (flatten t) 0 s =
        if a0.klass = .memory then .ok (varargMemoryAggregate rbp (ownLayout t).data s)
        else match a0.content with
          | .qwords q => varargRegisterAggregate rbp (ownLayout t).data q.qwords s
          | _ => .error .undefined := by
  have hw1 : WFAll [t] := .cons hw .nil
  have hl := laidAll [t] hw1 (.fresh true)
  have h' := h
  rw [functionAllocParams_eq [t] hw1, ownLayout_eq] at h
  obtain ⟨ass, hc, h1⟩ := bind_inv h
  obtain ⟨⟨c', ass'⟩, ha, h2⟩ := bind_inv h1
  simp only [Except.ok.injEq] at h2
  subst h2
  simp only [classifyAll] at hc
  obtain ⟨as, hc1, hc2⟩ := bind_inv hc
  simp only [Except.bind, Except.ok.injEq] at hc2
  subst hc2
  match as, hc1, ha with
  | [], hc1, ha =>
    have hrow := classifyAll_rows (ts := [t]) (ls := [ownLayout t]) (i := 0) (ass := [[]]) hl
      (by simp only [classifyAll, hc1, Except.bind])
    cases hrow
  | a1 :: rest1, hc1, ha =>
    simp only [allocateAll] at ha
    obtain ⟨⟨loc0, a0⟩, ha1, ha2⟩ := bind_inv ha
    simp only [Except.bind, Except.ok.injEq, Prod.mk.injEq] at ha2
    obtain ⟨rfl, rfl⟩ := ha2
    refine ⟨a1, rest1, loc0, a0, hc1, ha1, ?_⟩
    intro rbp s
    have hfl : flatten t = flattenAll [t] := by simp [flattenAll]
    have htl := typeLayout_eq [t] hw1
    have hn := not_hollow hw
    have hg : gotoSlot (flattenAll [t]) 0 0 (flattenAll [t]).length 0 = .ok 0 := by
      rw [← hfl, flatten_eq]
      simp only [List.length_cons, gotoSlot, Nat.zero_lt_succ, dif_pos, List.getElem_cons_zero, if_neg hn,
        Nat.lt_irrefl, if_false, if_true]
    have hla : layoutAt (List.map some (flatL (layAll (.fresh true) [t]).2)) 0 = .ok (ownLayout t).data := by
      rw [ownLayout_eq]; rfl
    rw [hfl]
    simp only [functionAllocParams, htl, liftRes, bind, Except.bind] at h'
    simp only [varargAggregate, htl, liftRes, bind, Except.bind]
    simp only [Bool.false_eq_true, if_false] at h'
    split at h'
    · cases h'
    · simp only [h', hla, hg]
      rfl

/-! ## Inversions -/

section
variable {heap : Word → Mem} {int sse : Nat → Word} {out : Mem} {d : Data} {a : Alloc} {x : Arg}

theorem held_intReg {k al p} (h : Held heap int sse out (.leaf k al p) d a x) (hk : IntLeaf k)
    (ha : a.klass = .integer) : x = .word (int a.location.int) := by
  cases h <;> simp_all [IntLeaf]

theorem held_intMem {k al p} (h : Held heap int sse out (.leaf k al p) d a x) (hk : IntLeaf k)
    (ha : a.klass = .memory) : x = .word (Mem.load out a.location.stack) := by
  cases h <;> simp_all [IntLeaf, SseLeaf, Ty.isLeaf]

theorem sse_not_int {k : Leaf} (h : SseLeaf k) : ¬ IntLeaf k := by
  rcases h with rfl | rfl <;> simp [IntLeaf]

theorem held_sseReg {k al p} (h : Held heap int sse out (.leaf k al p) d a x) (hk : SseLeaf k)
    (ha : a.klass = .sse) : x = .word (sse a.location.sse) := by
  have := sse_not_int hk
  cases h <;> simp_all [SseLeaf]

theorem held_sseMem {k al p} (h : Held heap int sse out (.leaf k al p) d a x) (hk : SseLeaf k)
    (ha : a.klass = .memory) : x = .word (Mem.load out a.location.stack) := by
  have := sse_not_int hk
  cases h <;> simp_all [SseLeaf, Ty.isLeaf]

theorem held_memory {al p} (h : Held heap int sse out (.leaf .memory al p) d a x) :
    ∃ w, x = .word w ∧ ∀ i < d.size, out (a.location.stack + i) = heap w i := by
  cases h <;> first
    | exact ⟨_, rfl, by assumption⟩
    | simp_all [SseLeaf, IntLeaf, Ty.isLeaf]

theorem held_aggMem {t : Ty} (hk : Ty.isLeaf t = false) (h : Held heap int sse out t d a x)
    (ha : a.klass = .memory) : ∃ w, x = .word w ∧ ∀ i < d.size, out (a.location.stack + i) = heap w i := by
  cases h <;> first
    | exact ⟨_, rfl, by assumption⟩
    | simp_all [Ty.isLeaf]

theorem held_aggReg {t : Ty} (hk : Ty.isLeaf t = false) (h : Held heap int sse out t d a x) {q}
    (ha : a.klass = .noClass) (hq : a.content = .qwords q) :
    ∃ w, x = .word w ∧ QHeld int sse (heap w) q.qwords 0 := by
  cases h <;> first
    | simp_all [Ty.isLeaf]; done
    | (rename_i h1 h2 h3 h4; exact ⟨_, rfl, by simp_all⟩)

end

/-! ## The registers of an aggregate are copied -/

theorem requirements {ws : List Qword} {i s : Nat} (h : Assigned ws i s) : ∀ r : Nat × Nat,
    aggregateRequirements ws r = .ok (r.1 + ints ws, r.2 + sses ws) := by
  induction h with
  | nil => intro r; rfl
  | int hk _ _ ih =>
    intro r
    have : ¬ Class.integer = Class.sse := by decide
    simp only [aggregateRequirements, hk, ih, ints_cons, sses_cons, if_true, if_neg this, Nat.zero_add,
      Nat.add_assoc]
  | sse hk _ _ ih =>
    intro r
    have : ¬ Class.sse = Class.integer := by decide
    simp only [aggregateRequirements, hk, ih, ints_cons, sses_cons, if_true, if_neg this, Nat.zero_add,
      Nat.add_assoc]

theorem qwords_copied {int sse : Nat → Word} {src : Mem} {rdx rcx lo : Nat} (h1 : lo ≤ rdx) (h2 : lo ≤ rcx) :
    ∀ (ws0 ws : List Qword), ws0.map (·.klass) = ws.map (·.klass) → ∀ (i i0 s0 io so : Nat) (m : Mem),
    Assigned ws i0 s0 → QHeld int sse src ws i → 16 + 8 * (i + ws.length) ≤ lo →
    (∀ k < ints ws, Mem.load m (rdx + (io + k) * 8) = int (i0 + k)) →
    (∀ k < sses ws, Mem.load m (rcx + (so + k) * 2 * 8) = sse (s0 + k)) →
    ∃ m', copyQwords rdx rcx ws0 i io so m = .ok m' ∧
      (∀ x, ¬ (16 + 8 * i ≤ x ∧ x < 16 + 8 * (i + ws.length)) → m' x = m x) ∧
      ∀ j, 8 * i ≤ j → j < 8 * (i + ws.length) → m' (16 + j) = src j
  | [], [], _, i, i0, s0, io, so, m, _, _, _, _, _ =>
    ⟨m, rfl, fun _ _ => rfl, fun j h1 h2 => by simp at h2; omega⟩
  | [], _ :: _, h, _, _, _, _, _, _, _, _, _, _, _ => by simp at h
  | _ :: _, [], h, _, _, _, _, _, _, _, _, _, _, _ => by simp at h
  | w0 :: ws0, w :: ws, hk, i, i0, s0, io, so, m, ha, hq, hlo, hi, hs => by
    simp only [List.map_cons, List.cons.injEq] at hk
    rw [List.length_cons] at hlo
    have key : ∀ (v : Word) (i0' s0' io' so' : Nat), v = Mem.load src (8 * i) → Assigned ws i0' s0' →
        (∀ k < ints ws, Mem.load m (rdx + (io' + k) * 8) = int (i0' + k)) →
        (∀ k < sses ws, Mem.load m (rcx + (so' + k) * 2 * 8) = sse (s0' + k)) →
        (∃ m', copyQwords rdx rcx ws0 (i + 1) io' so' (Mem.store m (16 + i * 8) v) = .ok m' ∧
          (∀ x, ¬ (16 + 8 * i ≤ x ∧ x < 16 + 8 * (i + (w :: ws).length)) → m' x = m x) ∧
          ∀ j, 8 * i ≤ j → j < 8 * (i + (w :: ws).length) → m' (16 + j) = src j) := by
      intro v i0' s0' io' so' hv ha' hi' hs'
      obtain ⟨m', g1, g2, g3⟩ := qwords_copied h1 h2 ws0 ws hk.2 (i + 1) i0' s0' io' so'
        (Mem.store m (16 + i * 8) v) ha' hq.2 (by omega)
        (fun k hk => by
          rw [← hi' k hk]
          exact load_congr fun x hx _ => store_out _ _ _ _ (by omega))
        (fun k hk => by
          rw [← hs' k hk]
          exact load_congr fun x hx _ => store_out _ _ _ _ (by omega))
      rw [List.length_cons]
      refine ⟨m', g1, ?_, ?_⟩
      · intro x hx
        rw [g2 x (by omega), store_out _ _ _ _ (by omega)]
      · intro j hj hj'
        by_cases hb : j < 8 * (i + 1)
        · rw [g2 _ (by omega)]
          have := congrFun (load_store m (16 + i * 8) v) ⟨j - 8 * i, by omega⟩
          rw [hv] at this
          simp only [Mem.load] at this
          rw [show 16 + i * 8 + (j - 8 * i) = 16 + j by omega, show 8 * i + (j - 8 * i) = j by omega] at this
          rw [hv]; exact this
        · exact g3 j (by omega) (by omega)
    have hne : ¬ Class.integer = Class.sse := by decide
    have hne' : ¬ Class.sse = Class.integer := by decide
    cases ha with
    | int hkw hloc ha' =>
      rw [ints_cons, hkw, if_pos rfl] at hi
      rw [sses_cons, hkw, if_neg hne, Nat.zero_add] at hs
      have h0 := hi 0 (by omega)
      simp only [Nat.add_zero] at h0
      rw [hkw] at hk
      simp only [copyQwords, hk.1, internalBound]
      refine key _ (i0 + 1) s0 (io + 1) so ?_ ha' ?_ hs
      · rw [h0]
        rcases hq.1 with ⟨_, e⟩ | ⟨e, _⟩
        · rw [← hloc]; exact e
        · rw [hkw] at e; exact absurd e hne
      · intro k hk
        have := hi (k + 1) (by omega)
        rw [show io + 1 + k = io + (k + 1) by omega, this]
        congr 1; omega
    | sse hkw hloc ha' =>
      rw [ints_cons, hkw, if_neg hne', Nat.zero_add] at hi
      rw [sses_cons, hkw, if_pos rfl] at hs
      have h0 := hs 0 (by omega)
      simp only [Nat.add_zero] at h0
      rw [hkw] at hk
      simp only [copyQwords, hk.1, internalBound]
      refine key _ i0 (s0 + 1) io (so + 1) ?_ ha' hi ?_
      · rw [h0]
        rcases hq.1 with ⟨e, _⟩ | ⟨_, e⟩
        · rw [hkw] at e; exact absurd e hne'
        · rw [← hloc]; exact e
      · intro k hk
        have := hs (k + 1) (by omega)
        rw [show so + 1 + k = so + (k + 1) by omega, this]
        congr 1; omega

/-! ## The register save area -/

theorem saveInts_load (int : Nat → Word) (area : Nat) (m : Mem) : ∀ n k, k < n →
    Mem.load (saveInts int area n m) (area + 8 * k) = int k
  | 0, _, h => by omega
  | n + 1, k, h => by
    rw [saveInts]
    by_cases hk : k = n
    · subst hk; exact load_store _ _ _
    · rw [← saveInts_load int area m n k (by omega)]
      exact load_congr fun x hx hx' => store_out _ _ _ _ (by omega)

theorem saveInts_out (int : Nat → Word) (area : Nat) (m : Mem) : ∀ n x, ¬ (area ≤ x ∧ x < area + 8 * n) →
    saveInts int area n m x = m x
  | 0, _, _ => rfl
  | n + 1, x, h => by
    rw [saveInts, store_out _ _ _ _ (by omega), saveInts_out int area m n x (by omega)]

theorem saveSses_load (sse upper : Nat → Word) (area : Nat) (m : Mem) : ∀ n k, k < n →
    Mem.load (saveSses sse upper area n m) (area + 48 + 16 * k) = sse k
  | 0, _, h => by omega
  | n + 1, k, h => by
    rw [saveSses]
    by_cases hk : k = n
    · subst hk
      exact (load_congr fun x hx hx' => store_out _ _ _ _ (by omega)).trans (load_store _ _ _)
    · rw [← saveSses_load sse upper area m n k (by omega)]
      refine load_congr fun x hx hx' => ?_
      rw [store_out _ _ _ _ (by omega), store_out _ _ _ _ (by omega)]

/-- The registers from `n` and `k` on are in the save area. -/
def Saved (int sse : Nat → Word) (area : Nat) (useSse : Prop) (m : Mem) : Prop :=
  (∀ n < 6, Mem.load m (area + 8 * n) = int n) ∧
    (useSse → ∀ n < 8, Mem.load m (area + 48 + 16 * n) = sse n)

theorem registers_saved (al : Bool) (int sse upper : Nat → Word) (area : Nat) (m : Mem) :
    Saved int sse area (al = true) (saveRegisters al int sse upper area m) := by
  refine ⟨fun n hn => saveInts_load _ _ _ _ _ hn, ?_⟩
  rintro rfl n hn
  rw [← saveSses_load sse upper area m 8 n hn]
  exact load_congr fun x hx hx' => saveInts_out _ _ _ _ _ (by simp only [integerRegisters]; omega)

theorem saved_congr {int sse : Nat → Word} {area : Nat} {p : Prop} {m m' : Mem} (h : Saved int sse area p m)
    (hm : ∀ x, area ≤ x → x < area + 176 → m' x = m x) : Saved int sse area p m' := by
  refine ⟨fun n hn => ?_, fun hp n hn => ?_⟩
  · rw [← h.1 n hn]; exact load_congr fun x hx hx' => hm x (by omega) (by omega)
  · rw [← h.2 hp n hn]; exact load_congr fun x hx hx' => hm x (by omega) (by omega)

end Kefir.Call
