import Verif.Abi.Flat

/-!
# Lemmas on allocation

Classes and number of the eightbytes through the classification, and where allocation puts parameters.
-/

namespace Kefir.Abi

open Kefir.Layout

/-! ## Classes -/

/-- No eightbyte has the class SSEUP. -/
def NoUp (ws : List Qword) : Prop := ∀ w ∈ ws, w.klass ≠ .sseup

/-- `q'` has as many eightbytes as `q` and no SSEUP if `q` has none. -/
def Keeps (q q' : Qwords) : Prop := q'.qwords.length = q.qwords.length ∧ (NoUp q.qwords → NoUp q'.qwords)

theorem Keeps.rfl {q} : Keeps q q := ⟨by rfl, id⟩

theorem Keeps.trans {a b c} (h : Keeps a b) (h' : Keeps b c) : Keeps a c :=
  ⟨h'.1.trans h.1, fun x => h'.2 (h.2 x)⟩

theorem derive_noUp : ∀ a b : Class, a ≠ .sseup → b ≠ .sseup → deriveDataclass a b ≠ .sseup := by
  intro a b; cases a <;> cases b <;> decide

theorem noUp_set {ws : List Qword} {i : Nat} {w : Qword} (h : NoUp ws) (hw : w.klass ≠ .sseup) :
    NoUp (ws.set i w) := by
  intro x hx
  rcases List.mem_or_eq_of_mem_set hx with hx | rfl
  · exact h x hx
  · exact hw

theorem nextQword_keeps {q q' : Qwords} {a : Nat} {r} (h : nextQword q a = .ok (q', r)) : Keeps q q' := by
  unfold nextQword at h
  split at h
  · cases h
  · rename_i w h0
    split at h
    · cases h
    · simp only at h
      generalize hp : (if w.currentOffset % a > 0 then a - w.currentOffset % a else 0) = pad at h
      split at h
      · simp only [Except.ok.injEq, Prod.mk.injEq] at h; obtain ⟨rfl, _⟩ := h; exact ⟨rfl, id⟩
      · simp only [Except.ok.injEq, Prod.mk.injEq] at h; obtain ⟨rfl, _⟩ := h
        refine ⟨by simp, fun hn => noUp_set hn ?_⟩
        exact hn w (List.mem_of_getElem? h0)

theorem nextLoopN_keeps : ∀ (n : Nat) (q : Qwords) (c : Class) (s a : Nat) (f : Option Ref), c ≠ .sseup →
    ∀ {q' : Qwords} {r}, nextLoopN n q c s a f = .ok (q', r) → Keeps q q' := by
  intro n
  induction n with
  | zero =>
    intro q c s a f hc q' r h
    rw [nextLoopN.eq_def] at h
    by_cases hs : s = 0
    · rw [if_pos hs] at h
      simp only [Except.ok.injEq, Prod.mk.injEq] at h; obtain ⟨rfl, _⟩ := h; exact .rfl
    · rw [if_neg hs] at h; cases h
  | succ n ih =>
    intro q c s a f hc q' r h
    rw [nextLoopN.eq_def] at h
    by_cases hs : s = 0
    · rw [if_pos hs] at h
      simp only [Except.ok.injEq, Prod.mk.injEq] at h; obtain ⟨rfl, _⟩ := h; exact .rfl
    · rw [if_neg hs] at h
      simp only at h
      split at h
      · cases h
      · cases h
      · rename_i q1 i hq
        split at h
        · cases h
        · rename_i w hw
          have h1 := nextQword_keeps hq
          have h2 := ih _ _ _ _ _ hc h
          refine (h1.trans ?_).trans h2
          refine ⟨by simp [takeChunk], fun hn => ?_⟩
          exact noUp_set hn (derive_noUp _ _ (hn w (List.mem_of_getElem? hw)) hc)

theorem nextLoop_keeps (q : Qwords) (c : Class) (s a : Nat) (f : Option Ref) (hc : c ≠ .sseup)
    {q' : Qwords} {r} (h : nextLoop q c s a f = .ok (q', r)) : Keeps q q' :=
  nextLoopN_keeps _ _ _ _ _ _ hc h

theorem qwordsNext_keeps {q : Qwords} {c : Class} {s a : Nat} (hc : c ≠ .sseup)
    {q' : Qwords} {r} (h : qwordsNext q c s a = .ok (q', r)) : Keeps q q' := by
  unfold qwordsNext at h
  split at h
  · simp only [bind, Except.bind] at h
    split at h
    · cases h
    · rename_i v hv
      obtain ⟨q1, r1⟩ := v
      cases r1 with
      | none => cases h
      | some r1 =>
        simp only [pure, Except.pure, Except.ok.injEq, Prod.mk.injEq] at h
        obtain ⟨rfl, _⟩ := h
        exact nextLoop_keeps _ _ _ _ _ hc hv
  · cases h

theorem scalarClass_noUp (k : Leaf) : scalarClass k ≠ .sseup := by cases k <;> decide

theorem bind_inv {α β} {x : Out α} {f : α → Out β} {b : β} (h : x.bind f = .ok b) :
    ∃ a, x = .ok a ∧ f a = .ok b := by
  cases x with
  | error e => cases h
  | ok a => exact ⟨a, rfl, h⟩

theorem nestedLeaf_keeps {k : Leaf} {p : Nat} {d : Data} {q q' : Qwords} {r}
    (h : nestedLeaf k p d q = .ok (q', r)) : Keeps q q' := by
  unfold nestedLeaf at h
  split at h
  · obtain ⟨v, h1, h2⟩ := bind_inv h
    exact (qwordsNext_keeps (by decide) h1).trans (qwordsNext_keeps (by decide) h2)
  · exact qwordsNext_keeps (by decide) h
  · exact qwordsNext_keeps (by decide) h
  · split at h
    · exact qwordsNext_keeps (by decide) h
    · cases h
  · unfold qwordsNextBitfield at h
    split at h
    · exact qwordsNext_keeps (scalarClass_noUp _) h
    · cases h
  · exact qwordsNext_keeps (scalarClass_noUp _) h

theorem reset_keeps : ∀ (ws : List Qword) (i : Nat) (p : Pos),
    (resetOffsets ws i p).length = ws.length ∧ (NoUp ws → NoUp (resetOffsets ws i p))
  | [], _, _ => ⟨rfl, id⟩
  | w :: ws, i, p => by
    obtain ⟨h1, h2⟩ := reset_keeps ws (i + 1) p
    refine ⟨by simp [resetOffsets, h1], fun hn => ?_⟩
    intro x hx
    simp only [resetOffsets, List.mem_cons] at hx
    rcases hx with rfl | hx
    · have := hn w (List.mem_cons_self ..)
      repeat' split
      all_goals exact this
    · exact h2 (fun y hy => hn y (List.mem_cons_of_mem _ hy)) x hx

theorem restore_keeps {q q' : Qwords} {p : Pos} (h : restorePosition q p = .ok q') : Keeps q q' := by
  unfold restorePosition at h
  split at h
  · simp only [Except.ok.injEq] at h; subst h; exact reset_keeps _ _ _
  · cases h

theorem collect_keeps {f : Qwords → Out (Qwords × List Alloc)} {m : Nat}
    (hf : ∀ q r, f q = .ok r → Keeps q r.1 ∧ r.2.length = m) :
    ∀ (n : Nat) (q : Qwords) (r), collect n f q = .ok r → Keeps q r.1 ∧ r.2.length = n * m
  | 0, q, r, h => by
    simp only [collect, Except.ok.injEq] at h; subst h; exact ⟨.rfl, by simp⟩
  | n + 1, q, r, h => by
    simp only [collect] at h
    obtain ⟨v, h1, h2⟩ := bind_inv h
    obtain ⟨v', h3, h4⟩ := bind_inv h2
    simp only [Except.ok.injEq] at h4; subst h4
    obtain ⟨k1, l1⟩ := hf _ _ h1
    obtain ⟨k2, l2⟩ := collect_keeps hf n _ _ h3
    refine ⟨k1.trans k2, ?_⟩
    simp only [List.length_append, l1, l2, Nat.add_mul]; omega

mutual
theorem nest_keeps : ∀ (t : Ty) (l : LTree), Laid t l → ∀ (i : Nat) (q : Qwords) (r), nest t l i q = .ok r →
    Keeps q r.1 ∧ r.2.length = objects t
  | .leaf k al p, .node d ls, _, i, q, r, h => by
    simp only [nest] at h
    obtain ⟨v, h1, h2⟩ := bind_inv h
    simp only [Except.ok.injEq] at h2; subst h2
    exact ⟨nestedLeaf_keeps h1, rfl⟩
  | .struct al ms, .node d ls, hl, i, q, r, h => by
    have hla : LaidAll ms ls := by cases hl; assumption
    simp only [nest] at h
    obtain ⟨v, h1, h2⟩ := bind_inv h
    simp only [Except.ok.injEq] at h2; subst h2
    obtain ⟨k, l⟩ := nestAll_keeps ms ls hla _ _ _ h1
    exact ⟨k, by simp [objects, l]; omega⟩
  | .union al ms, .node d ls, hl, i, q, r, h => by
    have hla : LaidAll ms ls := by cases hl; assumption
    simp only [nest] at h
    obtain ⟨p, h1, h2⟩ := bind_inv h
    obtain ⟨v, h3, h4⟩ := bind_inv h2
    obtain ⟨q2, h5, h6⟩ := bind_inv h4
    simp only [Except.ok.injEq] at h6; subst h6
    obtain ⟨k, l⟩ := nestUnion_keeps ms ls hla _ _ _ _ _ h3
    exact ⟨k.trans (restore_keeps h5), by simp [objects, l]; omega⟩
  | .array al n e, .node d ls, hl, i, q, r, h => by
    obtain ⟨l, rfl, hle⟩ : ∃ l, ls = [l] ∧ Laid e l := by cases hl; exact ⟨_, rfl, by assumption⟩
    simp only [nest] at h
    obtain ⟨v, h1, h2⟩ := bind_inv h
    simp only [Except.ok.injEq] at h2; subst h2
    obtain ⟨k, l⟩ := collect_keeps (fun q r h => nest_keeps e l hle _ q r h) _ _ _ h1
    exact ⟨k, by simp [objects, l]; omega⟩

theorem nestAll_keeps : ∀ (ts : List Ty) (ls : List LTree), LaidAll ts ls → ∀ (i : Nat) (q : Qwords) (r),
    nestAll ts ls i q = .ok r → Keeps q r.1 ∧ r.2.length = objectsAll ts
  | [], ls, hl, i, q, r, h => by
    cases hl
    simp only [nestAll, Except.ok.injEq] at h; subst h; exact ⟨.rfl, rfl⟩
  | t :: ts, ls, hl, i, q, r, h => by
    obtain ⟨l, ls, rfl, hlt, hls⟩ : ∃ l ls', ls = l :: ls' ∧ Laid t l ∧ LaidAll ts ls' := by
      cases hl; exact ⟨_, _, rfl, by assumption, by assumption⟩
    simp only [nestAll] at h
    obtain ⟨v, h1, h2⟩ := bind_inv h
    obtain ⟨v', h3, h4⟩ := bind_inv h2
    simp only [Except.ok.injEq] at h4; subst h4
    obtain ⟨k1, l1⟩ := nest_keeps t l hlt _ _ _ h1
    obtain ⟨k2, l2⟩ := nestAll_keeps ts ls hls _ _ _ h3
    exact ⟨k1.trans k2, by simp [objectsAll, l1, l2]⟩

theorem nestUnion_keeps : ∀ (ts : List Ty) (ls : List LTree), LaidAll ts ls →
    ∀ (i : Nat) (p p' : Pos) (q : Qwords) (r),
    nestUnion ts ls i p p' q = .ok r → Keeps q r.1 ∧ r.2.2.length = objectsAll ts
  | [], ls, hl, i, p, p', q, r, h => by
    cases hl
    simp only [nestUnion, Except.ok.injEq] at h; subst h; exact ⟨.rfl, rfl⟩
  | t :: ts, ls, hl, i, p, p', q, r, h => by
    obtain ⟨l, ls, rfl, hlt, hls⟩ : ∃ l ls', ls = l :: ls' ∧ Laid t l ∧ LaidAll ts ls' := by
      cases hl; exact ⟨_, _, rfl, by assumption, by assumption⟩
    simp only [nestUnion] at h
    obtain ⟨v, h1, h2⟩ := bind_inv h
    obtain ⟨pp, h3, h4⟩ := bind_inv h2
    obtain ⟨qq, h5, h6⟩ := bind_inv h4
    obtain ⟨v', h7, h8⟩ := bind_inv h6
    simp only [Except.ok.injEq] at h8; subst h8
    obtain ⟨k1, l1⟩ := nest_keeps t l hlt _ _ _ h1
    obtain ⟨k2, l2⟩ := nestUnion_keeps ts ls hls _ _ _ _ _ h7
    exact ⟨(k1.trans (restore_keeps h5)).trans k2, by simp [objectsAll, l1, l2]⟩
end

/-- Without SSEUP the postmerger changes nothing. -/
theorem postmergeLoop_same : ∀ (ws : List Qword), NoUp ws → ∀ (i : Nat) (prev : Option Nat) (n : Nat)
    (had : Bool) (r), postmergeLoop ws i prev n had = some r → r.1 = ws
  | [], _, i, prev, n, had, r, h => by
    simp only [postmergeLoop, Option.some.injEq] at h; subst h; rfl
  | w :: ws, hn, i, prev, n, had, r, h => by
    have ih := fun prev n had r' => postmergeLoop_same ws (fun y hy => hn y (List.mem_cons_of_mem _ hy))
      (i + 1) prev n had r'
    have hw := hn w (List.mem_cons_self ..)
    have fin : ∀ prev n had, (postmergeLoop ws (i + 1) prev n had).map (fun r => (w :: r.1, r.2)) = some r →
        r.1 = w :: ws := by
      intro prev n had h
      rw [Option.map_eq_some_iff] at h
      obtain ⟨v, hv, rfl⟩ := h
      simp only [ih _ _ _ _ hv]
    unfold postmergeLoop at h
    simp only at h
    split at h
    · cases h
    · exact fin _ _ _ h
    · split at h
      · cases h
      · exact fin _ _ _ h
    · exact fin _ _ _ h
    · exact absurd (by assumption) hw
    · exact fin _ _ _ h

theorem postmerger_same {q q' : Qwords} (hn : NoUp q.qwords) (h : postmerger q = some q') : q' = q := by
  unfold postmerger at h
  split at h
  · cases h
  · rename_i ws had hp
    have := postmergeLoop_same _ hn _ _ _ _ _ hp
    simp only at this
    subst this
    split at h
    · cases h
    · simp only [Option.some.injEq] at h; exact h.symm

/-- What the classification of an aggregate leaves in its slots. -/
theorem classifyAgg_inv {t : Ty} {l : LTree} (hl : Laid t l) {i : Nat} {as : List Alloc}
    (h : classifyAgg t l i = .ok as) :
    ∃ a rest, as = a :: rest ∧ as.length = objects t ∧
      (a = memoryEntry i l.data ∨ ∃ q rq, a = registerEntry i q rq ∧ NoUp q.qwords ∧
        q.qwords.length = qwordCount l.data.size ∧ qwordRequirements q.qwords {} = .ok rq) := by
  have hpos := objects_pos t
  unfold classifyAgg at h
  split at h
  · simp only [Except.ok.injEq] at h; subst h
    exact ⟨_, _, rfl, by simp; omega, .inl rfl⟩
  · obtain ⟨v, h1, h2⟩ := bind_inv h
    have hn : nest t l i (qwordsAlloc (qwordCount l.data.size)) = .ok v := by
      cases hx : nest t l i (qwordsAlloc (qwordCount l.data.size)) with
      | ok a => rw [hx] at h1; simpa [ignoring] using h1
      | error f => rw [hx] at h1; cases f <;> simp [ignoring] at h1; split at h1 <;> cases h1
    obtain ⟨⟨hlen, hup⟩, hobj⟩ := nest_keeps t l hl _ _ _ hn
    have hup := hup (by intro w hw; simp only [qwordsAlloc, List.mem_replicate] at hw; rw [hw.2]; decide)
    have hlen : v.1.qwords.length = qwordCount l.data.size := by rw [hlen]; simp [qwordsAlloc]
    split at h2
    · simp only [Except.ok.injEq] at h2; subst h2
      exact ⟨_, _, rfl, by simp [hobj]; omega, .inl rfl⟩
    · rename_i q hq
      have hs := postmerger_same hup hq
      subst hs
      obtain ⟨rq, h3, h4⟩ := bind_inv h2
      simp only [Except.ok.injEq] at h4; subst h4
      exact ⟨_, _, rfl, by simp [hobj]; omega, .inr ⟨v.1, rq, rfl, hup, hlen, h3⟩⟩

/-! ## Places -/

/-- The place lies between two states of the allocation. -/
def Between (c c' : Location) : Place → Prop
  | .int n => c.int ≤ n ∧ n < c'.int
  | .sse n => c.sse ≤ n ∧ n < c'.sse
  | .stack o s => c.stack ≤ o ∧ o + s ≤ c'.stack

/-- One state of the allocation precedes another. -/
def Before (c c' : Location) : Prop := c.int ≤ c'.int ∧ c.sse ≤ c'.sse ∧ c.stack ≤ c'.stack

/-- No more registers are in use than there are. -/
def Within (c : Location) : Prop := c.int ≤ 6 ∧ c.sse ≤ 8

/-- The parameter has been passed in places between the two states. -/
structure Good (t : Ty) (l : LTree) (c c' : Location) (ps : List Place) : Prop where
  before : Before c c'
  within : Within c → Within c'
  between : ∀ p ∈ ps, Between c c' p
  disjoint : ps.Pairwise Place.Disjoint
  passed : Passed t l ps

def ints (ws : List Qword) : Nat := (ws.filter (·.klass = .integer)).length
def sses (ws : List Qword) : Nat := (ws.filter (·.klass = .sse)).length

/-- Registers for the eightbytes. -/
theorem placeQwords_inv : ∀ (ws : List Qword), NoUp ws → ∀ (i s : Nat) (ws' : List Qword),
    placeQwords ws i s = .ok ws' →
    (∀ r, qwordRequirements ws r = .ok { r with integer := r.integer + ints ws, sse := r.sse + sses ws }) ∧
    ∃ ps, qwordPlaces ws' = .ok ps ∧ ps.length = ws.length ∧ (∀ p ∈ ps, ∀ off n, p ≠ .stack off n) ∧
      (∀ stack p, p ∈ ps → Between ⟨i, s, stack⟩ ⟨i + ints ws, s + sses ws, stack⟩ p) ∧
      ps.Pairwise Place.Disjoint
  | [], _, i, s, ws', h => by
    simp only [placeQwords, Except.ok.injEq] at h; subst h
    exact ⟨fun r => by simp [qwordRequirements, ints, sses], [], rfl, rfl, by simp, by simp, .nil⟩
  | w :: ws, hn, i, s, ws', h => by
    have hns : NoUp ws := fun y hy => hn y (List.mem_cons_of_mem _ hy)
    have hw := hn w (List.mem_cons_self ..)
    unfold placeQwords at h
    split at h
    · rename_i hk
      obtain ⟨r', h1, h2⟩ := bind_inv h
      simp only [pure, Except.pure, Except.ok.injEq] at h2; subst h2
      obtain ⟨hr, ps, hp, hlen, hreg, hb, hd⟩ := placeQwords_inv ws hns _ _ _ h1
      refine ⟨fun r => ?_, .int i :: ps, ?_, by simp [hlen], ?_, ?_, ?_⟩
      · rw [qwordRequirements.eq_def]; simp only [hk, hr]; simp [ints, sses, hk]; omega
      · rw [qwordPlaces]; simp [hk, hp, bind, Except.bind, pure, Except.pure]
      · intro p hp off n
        rcases List.mem_cons.1 hp with rfl | hp
        · simp
        · exact hreg p hp off n
      · intro st p hp
        rcases List.mem_cons.1 hp with rfl | hp
        · simp [Between, ints, hk]
        · have := hb st p hp
          cases p <;> simp [Between, ints, sses, hk] at this ⊢ <;> omega
      · refine List.Pairwise.cons (fun p hp => ?_) hd
        have := hb 0 p hp
        cases p <;> simp [Between, Place.Disjoint] at this ⊢; omega
    · rename_i hk
      obtain ⟨r', h1, h2⟩ := bind_inv h
      simp only [pure, Except.pure, Except.ok.injEq] at h2; subst h2
      obtain ⟨hr, ps, hp, hlen, hreg, hb, hd⟩ := placeQwords_inv ws hns _ _ _ h1
      refine ⟨fun r => ?_, .sse s :: ps, ?_, by simp [hlen], ?_, ?_, ?_⟩
      · rw [qwordRequirements.eq_def]; simp only [hk, hr]; simp [ints, sses, hk]; omega
      · rw [qwordPlaces]; simp [hk, hp, bind, Except.bind, pure, Except.pure]
      · intro p hp off n
        rcases List.mem_cons.1 hp with rfl | hp
        · simp
        · exact hreg p hp off n
      · intro st p hp
        rcases List.mem_cons.1 hp with rfl | hp
        · simp [Between, sses, hk]
        · have := hb st p hp
          cases p <;> simp [Between, ints, sses, hk] at this ⊢ <;> omega
      · refine List.Pairwise.cons (fun p hp => ?_) hd
        have := hb 0 p hp
        cases p <;> simp [Between, Place.Disjoint] at this ⊢; omega
    · exact absurd (by assumption) hw
    · cases h

theorem qwordCount_eq (n : Nat) : qwordCount n = eightbytes n := by
  unfold qwordCount eightbytes; split <;> omega

theorem pad_facts (o a : Nat) : o ≤ padAligned o (max a 8) ∧ padAligned o (max a 8) % max a 8 = 0 :=
  ⟨padAligned_ge _ _, padAligned_mod _ _ (by omega)⟩

theorem passed_stack (t : Ty) (l : LTree) (ht : ∀ al p, t ≠ .leaf .pad al p) (off n : Nat)
    (hs : passedSize t l ≤ n) (ha : off % max (passedAlignment t l) 8 = 0) : Passed t l [.stack off n] := by
  have : (∃ off' n', [Place.stack off n] = [.stack off' n'] ∧ passedSize t l ≤ n' ∧
      off' % max (passedAlignment t l) 8 = 0) := ⟨off, n, rfl, hs, ha⟩
  cases t with
  | leaf k al p => cases k <;> first | exact absurd rfl (ht al p) | exact .inl this
  | _ => exact .inl this

theorem passed_regs (t : Ty) (l : LTree) (ht : ∀ al p, t ≠ .leaf .pad al p) (ps : List Place)
    (hr : ∀ p ∈ ps, RegisterFor t p) (hs : ps.length = eightbytes (passedSize t l)) :
    Passed t l ps := by
  cases t with
  | leaf k al p => cases k <;> first | exact absurd rfl (ht al p) | exact .inr ⟨hr, hs⟩
  | _ => exact .inr ⟨hr, hs⟩

/-- Allocation of an aggregate. -/
theorem allocateAggregate_good {t : Ty} {l : LTree} (hk : Ty.isLeaf t = false) {i : Nat} {as : List Alloc}
    (hl : Laid t l) (h : classifyAgg t l i = .ok as) {a : Alloc} {rest} (has : as = a :: rest)
    {c c' : Location} {a' : Alloc} (ha : allocateAggregate l.data c a = .ok (c', a')) :
    ∃ ps, aggregatePlaces l.data a' = .ok ps ∧ Good t l c c' ps := by
  obtain ⟨a0, rest0, rfl, -, hcase⟩ := classifyAgg_inv hl h
  obtain ⟨rfl, rfl⟩ : a0 = a ∧ rest0 = rest := by simpa using has
  have ht : ∀ al p, t ≠ .leaf .pad al p := by intro al p hc; subst hc; simp [Ty.isLeaf] at hk
  have hsize : passedSize t l = l.data.size := by cases t <;> simp_all [passedSize, Ty.isLeaf]
  have halign : passedAlignment t l = l.data.alignment := by
    cases t <;> simp_all [passedAlignment, Ty.isLeaf]
  obtain ⟨f1, f2⟩ := pad_facts c.stack l.data.alignment
  have onStack : Good t l c { c with stack := padAligned c.stack (max l.data.alignment 8) + l.data.size }
      [.stack (padAligned c.stack (max l.data.alignment 8)) l.data.size] :=
    { before := ⟨Nat.le_refl _, Nat.le_refl _, by simp only; omega⟩
      within := id
      between := by intro p hp; simp only [List.mem_singleton] at hp; subst hp; exact ⟨f1, Nat.le_refl _⟩
      disjoint := List.pairwise_singleton _ _
      passed := passed_stack t l ht _ _ (by omega) (by rw [halign]; exact f2) }
  rcases hcase with rfl | ⟨q, rq, rfl, hup, hlen, hreq⟩
  · simp [allocateAggregate, memoryEntry, stackAllocate] at ha
    obtain ⟨rfl, rfl⟩ := ha
    exact ⟨_, by simp [aggregatePlaces], onStack⟩
  · unfold allocateAggregate at ha
    simp only [registerEntry] at ha
    split at ha
    · rename_i hcond
      obtain ⟨-, -, hint, hsse, hmem⟩ := hcond
      obtain ⟨ws', h1, h2⟩ := bind_inv ha
      simp only [pure, Except.pure, Except.ok.injEq, Prod.mk.injEq] at h2
      obtain ⟨rfl, rfl⟩ := h2
      obtain ⟨hr, ps, hp, hpl, hreg, hb, hd⟩ := placeQwords_inv _ hup _ _ _ h1
      have hrq := hr {}
      rw [hreq] at hrq
      simp only [Nat.zero_add, Except.ok.injEq] at hrq
      refine ⟨ps, ?_, ?_, ?_, ?_, hd, ?_⟩
      · rw [aggregatePlaces]; simp [hp]
      · subst hrq
        refine ⟨?_, ?_, Nat.le_refl _⟩
        · by_cases hz : ints q.qwords > 0 <;> simp [hz]
        · by_cases hz : sses q.qwords > 0 <;> simp [hz]
      · intro hw; simp only [integerRegisters, sseRegisters] at hint hsse
        obtain ⟨hw1, hw2⟩ := hw
        subst hrq
        simp only at hint hsse
        refine ⟨?_, ?_⟩
        · by_cases hz : ints q.qwords > 0 <;> simp [hz] <;> omega
        · by_cases hz : sses q.qwords > 0 <;> simp [hz] <;> omega
      · intro p hp
        have := hb c.stack p hp
        subst hrq
        simp only at this
        cases p with
        | int n =>
          simp only [Between] at this ⊢
          by_cases hz : ints q.qwords > 0
          · simp [hz] at this ⊢; omega
          · simp [hz] at this; omega
        | sse n =>
          simp only [Between] at this ⊢
          by_cases hz : sses q.qwords > 0
          · simp [hz] at this ⊢; omega
          · simp [hz] at this; omega
        | stack o s => exact absurd rfl (hreg _ hp o s)
      · refine passed_regs t l ht ps (fun p hp => ?_) (by rw [hpl, hlen, qwordCount_eq, hsize])
        have hr' : ∃ n, p = .int n ∨ p = .sse n := by
          cases p with
          | int n => exact ⟨n, .inl rfl⟩
          | sse n => exact ⟨n, .inr rfl⟩
          | stack o s => exact absurd rfl (hreg _ hp o s)
        cases t with
        | leaf k al p => simp [Ty.isLeaf] at hk
        | _ => exact hr'
    · simp [stackAllocate] at ha
      obtain ⟨rfl, rfl⟩ := ha
      exact ⟨_, by simp [aggregatePlaces], onStack⟩

/-- Allocation of a scalar. -/
theorem allocateLeaf_good {k : Leaf} {al p : Nat} {l : LTree} (hl : Laid (.leaf k al p) l) (hb : k ≠ .bits)
    {i : Nat} {a : Alloc} (h : classifyLeaf k i p l.data Alloc.fresh = .ok a)
    {c c' : Location} {a' : Alloc} (ha : allocateLeaf k p c a = .ok (c', a')) :
    ∃ ps, leafPlaces k p l.data a' = .ok ps ∧ Good (.leaf k al p) l c c' ps := by
  obtain ⟨d, ls⟩ := l
  obtain ⟨hsz, hal⟩ : d.size = leafSize k p ∧ d.alignment = effective al (leafAlign k) := by
    cases hl; constructor <;> assumption
  have onStack : ∀ A n, k ≠ .pad → passedSize (.leaf k al p) (.node d ls) ≤ n →
      max (passedAlignment (.leaf k al p) (.node d ls)) 8 = max A 8 →
      Good (.leaf k al p) (.node d ls) c { c with stack := padAligned c.stack (max A 8) + n }
        [.stack (padAligned c.stack (max A 8)) n] := by
    intro A n hk hn hA
    obtain ⟨f1, f2⟩ := pad_facts c.stack A
    exact
      { before := ⟨Nat.le_refl _, Nat.le_refl _, by simp only; omega⟩
        within := id
        between := by intro p hp; simp only [List.mem_singleton] at hp; subst hp; exact ⟨f1, Nat.le_refl _⟩
        disjoint := List.pairwise_singleton _ _
        passed := passed_stack _ _ (by intro al p hc; injection hc; exact hk (by assumption)) _ _ hn
          (by rw [hA]; exact f2) }
  have inInt : k ≠ .pad → RegisterFor (.leaf k al p) (.int c.int) → eightbytes (passedSize (.leaf k al p) (.node d ls)) = 1 → c.int + 1 ≤ 6 →
      Good (.leaf k al p) (.node d ls) c { c with int := c.int + 1 } [.int c.int] := by
    intro hk hreg hn hc
    exact
      { before := ⟨by simp, Nat.le_refl _, Nat.le_refl _⟩
        within := fun hw => ⟨hc, hw.2⟩
        between := by intro p hp; simp only [List.mem_singleton] at hp; subst hp; simp [Between]
        disjoint := List.pairwise_singleton _ _
        passed := passed_regs _ _ (by intro al p hc; injection hc; exact hk (by assumption)) _
          (by simpa using hreg) (by simp [hn]) }
  have inSse : k ≠ .pad → RegisterFor (.leaf k al p) (.sse c.sse) → eightbytes (passedSize (.leaf k al p) (.node d ls)) = 1 → c.sse + 1 ≤ 8 →
      Good (.leaf k al p) (.node d ls) c { c with sse := c.sse + 1 } [.sse c.sse] := by
    intro hk hreg hn hc
    exact
      { before := ⟨Nat.le_refl _, by simp, Nat.le_refl _⟩
        within := fun hw => ⟨hw.1, hc⟩
        between := by intro p hp; simp only [List.mem_singleton] at hp; subst hp; simp [Between]
        disjoint := List.pairwise_singleton _ _
        passed := passed_regs _ _ (by intro al p hc; injection hc; exact hk (by assumption)) _
          (by simpa using hreg) (by simp [hn]) }
  cases k
  case bits => exact absurd rfl hb
  case pad =>
    simp [allocateLeaf] at ha
    obtain ⟨rfl, rfl⟩ := ha
    exact ⟨[], by simp [leafPlaces], ⟨Nat.le_refl _, Nat.le_refl _, Nat.le_refl _⟩, id, by simp, .nil, rfl⟩
  case memory =>
    simp only [classifyLeaf, Except.ok.injEq] at h; subst h
    simp only [allocateLeaf, Alloc.fresh, stackAllocate, LTree.data] at ha
    split at ha
    · simp only [Except.ok.injEq, Prod.mk.injEq] at ha
      obtain ⟨rfl, rfl⟩ := ha
      exact ⟨_, by simp [leafPlaces, aggregatePlaces, LTree.data],
        onStack d.alignment d.size (by simp) (by simp [passedSize, LTree.data])
          (by simp [passedAlignment, LTree.data])⟩
    · cases ha
  case longDouble =>
    simp only [classifyLeaf, Except.ok.injEq] at h; subst h
    simp only [allocateLeaf, Alloc.fresh, stackAllocate, Except.ok.injEq, Prod.mk.injEq] at ha
    obtain ⟨rfl, rfl⟩ := ha
    exact ⟨_, by simp [leafPlaces],
      onStack 16 16 (by simp) (by simp [passedSize, LTree.data, hsz, leafSize])
        (by simp [passedAlignment, leafAlign])⟩
  case float32 =>
    simp only [classifyLeaf, Except.ok.injEq] at h; subst h
    simp only [allocateLeaf, Alloc.fresh, stackAllocate] at ha
    split at ha
    · by_cases hc : c.sse + 1 ≤ sseRegisters
      · simp only [if_pos hc, Except.ok.injEq, Prod.mk.injEq] at ha
        obtain ⟨rfl, rfl⟩ := ha
        exact ⟨_, by simp [leafPlaces], inSse (by simp) (by simp [RegisterFor]) (by simp [passedSize, LTree.data, hsz, leafSize, eightbytes])
          hc⟩
      · simp only [if_neg hc, Except.ok.injEq, Prod.mk.injEq] at ha
        obtain ⟨rfl, rfl⟩ := ha
        exact ⟨_, by simp [leafPlaces], onStack 0 8 (by simp) (by simp [passedSize, LTree.data, hsz, leafSize])
          (by simp [passedAlignment, leafAlign])⟩
    · cases ha
  case float64 =>
    simp only [classifyLeaf, Except.ok.injEq] at h; subst h
    simp only [allocateLeaf, Alloc.fresh, stackAllocate] at ha
    split at ha
    · by_cases hc : c.sse + 1 ≤ sseRegisters
      · simp only [if_pos hc, Except.ok.injEq, Prod.mk.injEq] at ha
        obtain ⟨rfl, rfl⟩ := ha
        exact ⟨_, by simp [leafPlaces], inSse (by simp) (by simp [RegisterFor]) (by simp [passedSize, LTree.data, hsz, leafSize, eightbytes])
          hc⟩
      · simp only [if_neg hc, Except.ok.injEq, Prod.mk.injEq] at ha
        obtain ⟨rfl, rfl⟩ := ha
        exact ⟨_, by simp [leafPlaces], onStack 0 8 (by simp) (by simp [passedSize, LTree.data, hsz, leafSize])
          (by simp [passedAlignment, leafAlign])⟩
    · cases ha
  case builtin =>
    simp only [classifyLeaf] at h
    split at h
    · rename_i hp
      simp only [Except.ok.injEq] at h; subst h
      simp only [allocateLeaf, Alloc.fresh, stackAllocate, if_pos hp] at ha
      by_cases hc : c.int + 1 ≤ integerRegisters
      · simp only [if_pos hc, Except.ok.injEq, Prod.mk.injEq] at ha
        obtain ⟨rfl, rfl⟩ := ha
        exact ⟨_, by simp [leafPlaces, hp], inInt (by simp) (by simp [RegisterFor]) (by simp [passedSize, eightbytes]) hc⟩
      · simp only [if_neg hc, Except.ok.injEq, Prod.mk.injEq] at ha
        obtain ⟨rfl, rfl⟩ := ha
        exact ⟨_, by simp [leafPlaces, hp], onStack 0 8 (by simp) (by simp [passedSize])
          (by simp [passedAlignment, leafAlign])⟩
    · cases h
  all_goals
    simp only [classifyLeaf, Except.ok.injEq] at h; subst h
    simp only [allocateLeaf, Alloc.fresh, stackAllocate] at ha
    split at ha
    · by_cases hc : c.int + 1 ≤ integerRegisters
      · simp only [if_pos hc, Except.ok.injEq, Prod.mk.injEq] at ha
        obtain ⟨rfl, rfl⟩ := ha
        exact ⟨_, by simp [leafPlaces], inInt (by simp) (by simp [RegisterFor]) (by simp [passedSize, LTree.data, hsz, leafSize, eightbytes])
          hc⟩
      · simp only [if_neg hc, Except.ok.injEq, Prod.mk.injEq] at ha
        obtain ⟨rfl, rfl⟩ := ha
        exact ⟨_, by simp [leafPlaces], onStack 0 8 (by simp) (by simp [passedSize, LTree.data, hsz, leafSize])
          (by simp [passedAlignment, leafAlign])⟩
    · cases ha

/-- Bit-fields are not parameters. -/
def NoBits (ts : List Ty) : Prop := ∀ t ∈ ts, t.isBits = false

/-- Classification fills the slots of the parameter. -/
theorem classify_rows {t : Ty} {l : LTree} (hl : Laid t l) {i : Nat} {as} (h : classify t l i = .ok as) :
    ∃ a rest, as = a :: rest ∧ as.length = objects t := by
  cases t with
  | leaf k al p =>
    simp only [classify] at h
    obtain ⟨a, h1, h2⟩ := bind_inv h
    simp only [Except.ok.injEq] at h2; subst h2
    exact ⟨_, _, rfl, rfl⟩
  | struct => obtain ⟨a, r, h1, h2, -⟩ := classifyAgg_inv hl h; exact ⟨a, r, h1, h2⟩
  | union => obtain ⟨a, r, h1, h2, -⟩ := classifyAgg_inv hl h; exact ⟨a, r, h1, h2⟩
  | array => obtain ⟨a, r, h1, h2, -⟩ := classifyAgg_inv hl h; exact ⟨a, r, h1, h2⟩

theorem classifyAll_rows : ∀ {ts : List Ty} {ls : List LTree}, LaidAll ts ls → ∀ {i : Nat} {ass},
    classifyAll ts ls i = .ok ass → Rows ts ass
  | _, _, .nil, i, ass, h => by simp only [classifyAll, Except.ok.injEq] at h; subst h; exact .nil
  | _, _, .cons hl hls, i, ass, h => by
    simp only [classifyAll] at h
    obtain ⟨as, h1, h2⟩ := bind_inv h
    obtain ⟨r, h3, h4⟩ := bind_inv h2
    simp only [Except.ok.injEq] at h4; subst h4
    obtain ⟨a, rest, rfl, hlen⟩ := classify_rows hl h1
    exact .cons hlen (classifyAll_rows hls h3)

theorem allocate_good {t : Ty} {l : LTree} (hl : Laid t l) (hb : t.isBits = false) {i : Nat} {a rest}
    (h : classify t l i = .ok (a :: rest)) {c c' : Location} {a' : Alloc}
    (ha : allocate t l c a = .ok (c', a')) : ∃ ps, places t l a' = .ok ps ∧ Good t l c c' ps := by
  cases t with
  | leaf k al p =>
    simp only [classify] at h
    obtain ⟨a0, h1, h2⟩ := bind_inv h
    simp only [Except.ok.injEq, List.cons.injEq] at h2
    obtain ⟨rfl, rfl⟩ := h2
    exact allocateLeaf_good hl (by intro hk; subst hk; simp [Ty.isBits] at hb) h1 ha
  | struct => exact allocateAggregate_good rfl hl h rfl ha
  | union => exact allocateAggregate_good rfl hl h rfl ha
  | array => exact allocateAggregate_good rfl hl h rfl ha

theorem Between.weaken_left {c c1 c2 : Location} (h : Before c c1) {p} (hp : Between c1 c2 p) : Between c c2 p := by
  obtain ⟨h1, h2, h3⟩ := h
  cases p <;> simp only [Between] at hp ⊢ <;> omega

theorem Between.weaken_right {c c1 c2 : Location} (h : Before c1 c2) {p} (hp : Between c c1 p) : Between c c2 p := by
  obtain ⟨h1, h2, h3⟩ := h
  cases p <;> simp only [Between] at hp ⊢ <;> omega

theorem Between.disjoint {c c1 c2 : Location} {p p'} (hp : Between c c1 p) (hp' : Between c1 c2 p') :
    Place.Disjoint p p' := by
  cases p <;> cases p' <;> simp only [Between, Place.Disjoint] at hp hp' ⊢ <;> omega

theorem allocateAll_good : ∀ {ts : List Ty} {ls : List LTree}, LaidAll ts ls → NoBits ts → ∀ {i : Nat} {ass},
    classifyAll ts ls i = .ok ass → ∀ {c c' : Location} {ass'}, allocateAll ts ls c ass = .ok (c', ass') →
    Rows ts ass' ∧ ∃ pss, placesAll ts ls ass' = .ok pss ∧ PassedAll ts ls pss ∧ Before c c' ∧
      (Within c → Within c') ∧ (∀ p ∈ pss.flatten, Between c c' p) ∧ pss.flatten.Pairwise Place.Disjoint
  | _, _, .nil, hb, i, ass, h, c, c', ass', ha => by
    simp only [allocateAll, Except.ok.injEq, Prod.mk.injEq] at ha
    obtain ⟨rfl, rfl⟩ := ha
    exact ⟨.nil, [], rfl, .nil, ⟨Nat.le_refl _, Nat.le_refl _, Nat.le_refl _⟩, id, by simp, .nil⟩
  | _, _, .cons (t := t) (ts := ts) (l := l) (ls := ls) hl hls, hb, i, ass, h, c, c', ass', ha => by
    simp only [classifyAll] at h
    obtain ⟨as, h1, h2⟩ := bind_inv h
    obtain ⟨r, h3, h4⟩ := bind_inv h2
    simp only [Except.ok.injEq] at h4; subst h4
    obtain ⟨a, rest, rfl, hlen⟩ := classify_rows hl h1
    simp only [allocateAll] at ha
    obtain ⟨⟨c1, a'⟩, h5, h6⟩ := bind_inv ha
    obtain ⟨⟨c2, ass2⟩, h7, h8⟩ := bind_inv h6
    simp only [Except.ok.injEq, Prod.mk.injEq] at h8
    obtain ⟨rfl, rfl⟩ := h8
    obtain ⟨ps, hp, good⟩ := allocate_good hl (hb t (List.mem_cons_self ..)) h1 h5
    obtain ⟨hrows, pss, hps, hpassed, hbefore, hwithin, hbetween, hdis⟩ :=
      allocateAll_good hls (fun t ht => hb t (List.mem_cons_of_mem _ ht)) h3 h7
    obtain ⟨g1, g2, g3⟩ := good.before
    obtain ⟨k1, k2, k3⟩ := hbefore
    simp only at k1 k2 k3
    refine ⟨.cons (by simpa using hlen) hrows, ps :: pss, ?_, .cons good.passed hpassed,
      ⟨by omega, by omega, by omega⟩, fun hw => hwithin (good.within hw), ?_, ?_⟩
    · simp [placesAll, hp, hps, Except.bind]
    · intro p hp
      rw [List.flatten_cons, List.mem_append] at hp
      rcases hp with hp | hp
      · exact (good.between p hp).weaken_right ⟨k1, k2, k3⟩
      · exact (hbetween p hp).weaken_left good.before
    · rw [List.flatten_cons, List.pairwise_append]
      exact ⟨good.disjoint, hdis, fun p hp p' hp' => (good.between p hp).disjoint (hbetween p' hp')⟩

theorem functionAllocParams_eq (ts : List Ty) (hw : WFAll ts) (implicit : Bool) :
    functionAllocParams (flattenAll ts) implicit =
      (classifyAll ts (layAll (.fresh true) ts).2 0).bind fun ass =>
        (allocateAll ts (layAll (.fresh true) ts).2 ⟨if implicit then 1 else 0, 0, 0⟩ ass).bind fun r =>
          .ok (r.1, r.2.flatten) := by
  have hl := laidAll ts hw (.fresh true)
  have hp := parameterClassify_eq ts hw _ hl
  simp only [functionAllocParams, typeLayout_eq ts hw, liftRes, bind, parameterAllocate, nodes_flattenAll ts hw]
  simp only [Except.bind, hp]
  cases hc : classifyAll ts (layAll (.fresh true) ts).2 0 with
  | error f => rfl
  | ok ass =>
    have h := allocate_steps ts hw _ hl ass (classifyAll_rows hl hc) [] .nil [] rfl [] rfl
      ⟨if implicit then 1 else 0, 0, 0⟩
    simp only [flattenAll, List.nil_append, List.length_nil] at h
    simp only [h, Except.bind]

/-- What a call does with the parameters. -/
theorem callPlaces_inv (ts : List Ty) (hw : WFAll ts) (hb : NoBits ts) (implicit : Bool) {loc vec}
    (h : functionAllocParams (flattenAll ts) implicit = .ok (loc, vec)) :
    ∃ pss, callPlaces (flattenAll ts) implicit = .ok (pss, loc.stack) ∧
      PassedAll ts (layAll (.fresh true) ts).2 pss ∧ Within loc ∧
      (∀ p ∈ pss.flatten, Between ⟨if implicit then 1 else 0, 0, 0⟩ loc p) ∧
      pss.flatten.Pairwise Place.Disjoint := by
  have hl := laidAll ts hw (.fresh true)
  have h0 := h
  rw [functionAllocParams_eq ts hw] at h
  obtain ⟨ass, hc, h1⟩ := bind_inv h
  obtain ⟨⟨c', ass'⟩, ha, h2⟩ := bind_inv h1
  simp only [Except.ok.injEq, Prod.mk.injEq] at h2
  obtain ⟨rfl, rfl⟩ := h2
  obtain ⟨hrows, pss, hps, hpassed, hbefore, hwithin, hbetween, hdis⟩ := allocateAll_good hl hb hc ha
  refine ⟨pss, ?_, hpassed, hwithin (by unfold Within; split <;> simp), hbetween, hdis⟩
  have hi := invoke_steps ts hw _ hl ass' hrows [] .nil [] rfl [] rfl
  simp only [flattenAll, List.nil_append, List.length_nil] at hi
  simp only [callPlaces, h0, typeLayout_eq ts hw, liftRes, bind, Except.bind, nodes_flattenAll ts hw, hi, hps,
    pure, Except.pure]

/-- The places of a call, over types. -/
def callTree (ts : List Ty) (implicit : Bool) : Out (List (List Place) × Nat) :=
  (classifyAll ts (layAll (.fresh true) ts).2 0).bind fun ass =>
    (allocateAll ts (layAll (.fresh true) ts).2 ⟨if implicit then 1 else 0, 0, 0⟩ ass).bind fun r =>
      (placesAll ts (layAll (.fresh true) ts).2 r.2).bind fun ps => .ok (ps, r.1.stack)

theorem callPlaces_eq (ts : List Ty) (hw : WFAll ts) (hb : NoBits ts) (implicit : Bool) :
    callPlaces (flattenAll ts) implicit = callTree ts implicit := by
  have hl := laidAll ts hw (.fresh true)
  simp only [callPlaces, callTree, functionAllocParams_eq ts hw, bind]
  cases hc : classifyAll ts (layAll (.fresh true) ts).2 0 with
  | error f => rfl
  | ok ass =>
    simp only [Except.bind]
    cases ha : allocateAll ts (layAll (.fresh true) ts).2 ⟨if implicit then 1 else 0, 0, 0⟩ ass with
    | error f => rfl
    | ok r =>
      obtain ⟨c', ass'⟩ := r
      obtain ⟨hrows, -⟩ := allocateAll_good hl hb hc ha
      have hi := invoke_steps ts hw _ hl ass' hrows [] .nil [] rfl [] rfl
      simp only [flattenAll, List.nil_append, List.length_nil] at hi
      simp only [typeLayout_eq ts hw, liftRes, nodes_flattenAll ts hw, hi, pure, Except.pure]

end Kefir.Abi
