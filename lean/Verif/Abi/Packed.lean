import Verif.Abi.Collide

/-!
# Lemmas on classification

The eightbytes a packed aggregate is divided into.
-/

namespace Kefir.Abi

open Kefir.Layout

/-- Class of an eightbyte. -/
def kl (q : Qwords) (i : Nat) : Class := (q.qwords[i]?.map (·.klass)).getD .noClass

/-- Number of bytes taken from an eightbyte. -/
def off (q : Qwords) (i : Nat) : Nat := (q.qwords[i]?.map (·.currentOffset)).getD 0

/-- The bytes before `p` have been taken. -/
structure At (q : Qwords) (p : Nat) : Prop where
  inside : q.current < q.qwords.length
  le : off q q.current ≤ 8
  eq : 8 * q.current + off q q.current = p
  rest : ∀ j, q.current < j → off q j = 0

/-- The bytes from `base` on touch the eightbyte. -/
def touch (base size i : Nat) : Prop := base < 8 * i + 8 ∧ 8 * i < base + size

instance (b s i) : Decidable (touch b s i) := by unfold touch; infer_instance

theorem derive_eq : ∀ a b : Class, deriveDataclass a b = abiMerge a b := by
  intro a b; cases a <;> cases b <;> decide

theorem roundUp_one (p : Nat) : roundUp p 1 = p := by simp [roundUp]

theorem getElem?_some_of_lt {ws : List Qword} {i : Nat} (h : i < ws.length) : ∃ w, ws[i]? = some w :=
  ⟨ws[i], List.getElem?_eq_getElem h⟩

/-- Where the code puts an object with alignment `a` after `p`. -/
def Fits (p a base : Nat) : Prop :=
  (a = 1 ∨ a = 2 ∨ a = 4 ∨ a = 8) ∧ base = roundUp p a ∨ p % 8 = 0 ∧ base = p

theorem fits_one (p : Nat) : Fits p 1 p := .inl ⟨.inl rfl, (roundUp_one _).symm⟩

/-- One call of `next_qword`. -/
theorem nextQword_at {q : Qwords} {p a base n : Nat} (h : At q p) (ha0 : 0 < a)
    (ha : Fits p a base) (hn : q.qwords.length = n)
    (hlt : base < 8 * n) :
    ∃ q', nextQword q a = .ok (q', some (base / 8)) ∧ q'.current = base / 8 ∧ q'.qwords.length = n ∧
      (∀ i, kl q' i = kl q i) ∧ off q' (base / 8) = base % 8 ∧ ∀ j, base / 8 < j → off q' j = 0 := by
  obtain ⟨hin, hle, heq, hrest⟩ := h
  obtain ⟨w, hw⟩ := getElem?_some_of_lt hin
  have hoff : off q q.current = w.currentOffset := by simp [off, hw]
  rw [hoff] at hle heq
  have hpad : ∃ pad, (if w.currentOffset % a > 0 then a - w.currentOffset % a else 0) = pad ∧
      ((w.currentOffset + pad ≥ 8 → base = 8 * q.current + 8) ∧
       (w.currentOffset + pad < 8 → base = 8 * q.current + (w.currentOffset + pad))) := by
    refine ⟨_, rfl, ?_⟩
    rcases ha with ⟨ha, rfl⟩ | ⟨hp, rfl⟩
    · rcases ha with rfl | rfl | rfl | rfl <;> unfold roundUp <;> split <;> omega
    · have : w.currentOffset = 0 ∨ w.currentOffset = 8 := by omega
      rcases this with h | h <;> rw [h] at heq ⊢
      · simp; omega
      · constructor
        · intro _; omega
        · intro hx; omega
  obtain ⟨pad, hpe, h1, h2⟩ := hpad
  simp only [nextQword, hw, if_neg (show ¬ a = 0 by omega), hpe]
  by_cases hge : w.currentOffset + pad ≥ 8
  · have hbase := h1 hge
    have hdiv : base / 8 = q.current + 1 := by omega
    refine ⟨{ q with current := q.current + 1 }, ?_, by rw [hdiv], hn, fun i => rfl, ?_, ?_⟩
    · rw [if_pos hge, if_pos (by omega), hdiv]
    · rw [hdiv]; have := hrest (q.current + 1) (by omega)
      simp only [off] at this ⊢; rw [this]; omega
    · intro j hj; exact hrest j (by omega)
  · have hbase := h2 (by omega)
    have hdiv : base / 8 = q.current := by omega
    refine ⟨{ q with qwords := q.qwords.set q.current { w with currentOffset := w.currentOffset + pad } }, ?_,
      by rw [hdiv], by simp [hn], ?_, ?_, ?_⟩
    · rw [if_neg hge, hdiv]
    · intro i
      by_cases hi : i = q.current
      · subst hi; rw [kl, kl, hw]; simp [hin]
      · simp [kl, List.getElem?_set_ne (Ne.symm hi)]
    · rw [hdiv]; simp [off, hin]; omega
    · intro j hj
      have := hrest j (by omega)
      simp only [off] at this ⊢
      rw [List.getElem?_set_ne (by omega)]; exact this

/-- One round of the loop. -/
theorem takeChunk_at {q : Qwords} {base n size : Nat} {c : Class} (hc : q.current = base / 8)
    (hn : q.qwords.length = n) (hlt : base < 8 * n) (ho : off q (base / 8) = base % 8)
    (hr : ∀ j, base / 8 < j → off q j = 0) :
    ∃ w, q.qwords[base / 8]? = some w ∧ w.currentOffset = base % 8 ∧
      At (takeChunk q (base / 8) w c size).1 (base + min (8 - base % 8) size) ∧
      (takeChunk q (base / 8) w c size).2 = size - min (8 - base % 8) size ∧
      (takeChunk q (base / 8) w c size).1.qwords.length = n ∧
      ∀ i, kl (takeChunk q (base / 8) w c size).1 i = if i = base / 8 then abiMerge (kl q i) c else kl q i := by
  have hin : base / 8 < q.qwords.length := by omega
  obtain ⟨w, hw⟩ := getElem?_some_of_lt hin
  have hoff : off q (base / 8) = w.currentOffset := by simp [off, hw]
  rw [hoff] at ho
  have hcur : off (takeChunk q (base / 8) w c size).1 (base / 8) = base % 8 + min (8 - base % 8) size := by
    simp [takeChunk, off, hin, ho]
  refine ⟨w, hw, ho, ⟨?_, ?_, ?_, ?_⟩, by simp [takeChunk, ho], by simp [takeChunk, hn], ?_⟩
  · simp [takeChunk, hc, hin]
  · have : (takeChunk q (base / 8) w c size).1.current = base / 8 := hc
    rw [this, hcur]; omega
  · have : (takeChunk q (base / 8) w c size).1.current = base / 8 := hc
    rw [this, hcur]; omega
  · intro j hj
    have hj : base / 8 < j := by simpa [takeChunk, hc] using hj
    have := hr j hj
    simp only [off, takeChunk] at this ⊢
    rw [List.getElem?_set_ne (by omega)]; exact this
  · intro i
    by_cases hi : i = base / 8
    · subst hi; rw [if_pos rfl, kl, kl, hw]; simp [takeChunk, hin, derive_eq]
    · rw [if_neg hi]; simp [kl, takeChunk, List.getElem?_set_ne (Ne.symm hi)]

theorem nextLoop_zero (q : Qwords) (c : Class) (a : Nat) (f : Option Ref) : nextLoop q c 0 a f = .ok (q, f) := by
  rw [nextLoop, nextLoopN.eq_def]; simp

theorem nextLoop_step {q q' : Qwords} {c : Class} {s a : Nat} {f : Option Ref} {i : Nat} {w : Qword} (hs : 0 < s)
    (h : nextQword q a = .ok (q', some i)) (hw : q'.qwords[i]? = some w) :
    nextLoop q c s a f = nextLoop (takeChunk q' i w c s).1 c (takeChunk q' i w c s).2 1
      (match f with | none => some ⟨i, w.currentOffset⟩ | some r => some r) := by
  have hm := nextQword_measure h hw
  rw [nextLoop, nextLoopN_enough _ (s + (q.qwords.length - q.current) + 1) _ _ _ _ _ (by omega) (by omega),
    nextLoopN.eq_def, if_neg (by omega)]
  simp only [h, hw]
  exact nextLoopN_enough _ _ _ _ _ _ _ (by simp only [takeChunk, List.length_set]; omega) (Nat.le_refl _)

theorem nextLoop_at : ∀ (m : Nat) (q : Qwords) (c : Class) (p a base size n : Nat) (f : Option Ref), size ≤ m →
    At q p → 0 < a → Fits p a base → q.qwords.length = n →
    base + size ≤ 8 * n → 0 < size →
    ∃ q', nextLoop q c size a f =
        .ok (q', match f with | none => some ⟨base / 8, base % 8⟩ | some r => some r) ∧
      At q' (base + size) ∧ q'.qwords.length = n ∧
      ∀ i, kl q' i = if touch base size i then abiMerge (kl q i) c else kl q i
  | 0, _, _, _, _, _, _, _, _, hm, _, _, _, _, _, hs => by omega
  | m + 1, q, c, p, a, base, size, n, f, hm, h, ha0, ha, hn, hlt, hs => by
    obtain ⟨q1, hq, hc1, hn1, hk1, ho1, hr1⟩ := nextQword_at h ha0 ha hn (by omega)
    obtain ⟨w, hw, hwo, hat, hsz, hn2, hk2⟩ := takeChunk_at (c := c) hc1 hn1 (by omega) ho1 hr1
    rw [nextLoop_step hs hq hw, hsz, hwo]
    by_cases hdone : size ≤ 8 - base % 8
    · have hz : size - min (8 - base % 8) size = 0 := by omega
      have hp : base + min (8 - base % 8) size = base + size := by omega
      rw [hz, nextLoop_zero]
      refine ⟨_, rfl, hp ▸ hat, hn2, fun i => ?_⟩
      rw [hk2 i, hk1 i]
      have : i = base / 8 ↔ touch base size i := by unfold touch; omega
      simp only [this]
    · obtain ⟨q3, h3, hat3, hn3, hk3⟩ := nextLoop_at m _ c _ 1 (base + min (8 - base % 8) size)
        (size - min (8 - base % 8) size) n
        (match f with | none => some ⟨base / 8, base % 8⟩ | some r => some r)
        (by omega) hat (by omega) (fits_one _) hn2 (by omega) (by omega)
      refine ⟨q3, ?_, ?_, hn3, fun i => ?_⟩
      · rw [h3]; cases f <;> rfl
      · have : base + min (8 - base % 8) size + (size - min (8 - base % 8) size) = base + size := by omega
        exact this ▸ hat3
      · rw [hk3 i, hk2 i, hk1 i]
        by_cases hi : i = base / 8
        · rw [if_pos hi, if_neg (by unfold touch; omega), if_pos (by unfold touch; omega)]
        · rw [if_neg hi]
          have : touch (base + min (8 - base % 8) size) (size - min (8 - base % 8) size) i ↔
              touch base size i := by unfold touch; omega
          simp only [this]

/-- `kefir_amd64_sysv_abi_qwords_next`. -/
theorem qwordsNext_at {q : Qwords} {c : Class} {p a base size n : Nat} (h : At q p) (ha0 : 0 < a)
    (ha : Fits p a base) (hn : q.qwords.length = n)
    (hlt : base + size ≤ 8 * n) (hs : 0 < size) :
    ∃ q', qwordsNext q c size a = .ok (q', ⟨base / 8, base % 8⟩) ∧ At q' (base + size) ∧
      q'.qwords.length = n ∧ ∀ i, kl q' i = if touch base size i then abiMerge (kl q i) c else kl q i := by
  obtain ⟨q', h1, h2, h3, h4⟩ := nextLoop_at size q c p a base size n none (Nat.le_refl _) h ha0 ha hn hlt hs
  refine ⟨q', ?_, h2, h3, h4⟩
  simp only [qwordsNext, gt_iff_lt, hs, if_true, h1, bind, Except.bind, pure, Except.pure]

/-- Merging the scalars into the eightbytes. -/
def Effect (q q' : Qwords) (ss : List Scalar) : Prop :=
  ∀ i, kl q' i = (ss.filter (·.touches i)).foldl (fun c s => abiMerge c (s.classIn i)) (kl q i)

theorem Effect.nil {q} : Effect q q [] := fun _ => rfl

theorem Effect.append {a b c ss ss'} (h : Effect a b ss) (h' : Effect b c ss') : Effect a c (ss ++ ss') := by
  intro i; rw [h' i, h i, List.filter_append, List.foldl_append]

/-- The references of the scalars are the places of the scalars. -/
inductive Refs : List (Option Scalar) → List Alloc → Prop
  | nil : Refs [] []
  | cons {c a cs as} : (∀ s, c = some s → s.kind ≠ .longDouble → a.content = .ref ⟨s.offset / 8, s.offset % 8⟩) →
      Refs cs as → Refs (c :: cs) (a :: as)

theorem Refs.append : ∀ {cs as cs' as'}, Refs cs as → Refs cs' as' → Refs (cs ++ cs') (as ++ as')
  | _, _, _, _, .nil, h' => h'
  | _, _, _, _, .cons h hs, h' => .cons h (hs.append h')

theorem touches_iff (s : Scalar) (i : Nat) : s.touches i = true ↔ touch s.offset s.size i := by
  simp [Scalar.touches, touch]

theorem effect_single {q q' : Qwords} {s : Scalar}
    (h : ∀ i, kl q' i = if touch s.offset s.size i then abiMerge (kl q i) (s.classIn i) else kl q i) :
    Effect q q' [s] := by
  intro i
  rw [h i]
  by_cases ht : touch s.offset s.size i
  · simp [(touches_iff s i).2 ht, ht]
  · have : s.touches i = false := by
      cases hs : s.touches i with
      | false => rfl
      | true => exact absurd ((touches_iff s i).1 hs) ht
    simp [this, ht]

theorem effective_pos (al n : Nat) (h : 0 < n) : 0 < effective al n := by
  unfold effective; split <;> omega

theorem leafAlign_pos (k : Leaf) : 0 < leafAlign k := by cases k <;> decide

/-- A scalar. -/
theorem nestedLeaf_at {k : Leaf} {al m : Nat} {d : Data} {ls} (hl : Laid (.leaf k al m) (.node d ls))
    {base p p' : Nat} (hp : Packed (.leaf k al m) (.node d ls) base p p') {q : Qwords} {n : Nat} (h : At q p)
    (hn : q.qwords.length = n) (hlt : base + d.size ≤ 8 * n) :
    ∃ q' r, nestedLeaf k m d q = .ok (q', r) ∧ At q' p' ∧ q'.qwords.length = n ∧
      Effect q q' [⟨k, base, d.size⟩] ∧ (k ≠ .longDouble → r = ⟨base / 8, base % 8⟩) := by
  obtain ⟨hsz, hal⟩ : d.size = leafSize k m ∧ d.alignment = effective al (leafAlign k) := by
    cases hl; constructor <;> assumption
  have ha0 : 0 < d.alignment := hal ▸ effective_pos _ _ (leafAlign_pos k)
  cases hp with
  | bits hm =>
    obtain ⟨q', h1, h2, h3, h4⟩ := qwordsNext_at (c := scalarClass .bits) (size := d.size) h
      (a := 1) (by omega) (fits_one _) hn hlt (by simp [hsz, leafSize]; omega)
    refine ⟨q', _, ?_, h2, h3, effect_single h4, fun _ => rfl⟩
    have : m / 8 + (if m % 8 ≠ 0 then 1 else 0) = d.size := by
      rw [hsz, leafSize]; split <;> omega
    simp only [nestedLeaf, qwordsNextBitfield, gt_iff_lt, hm, if_true]
    rw [this, h1]
  | leaf hpad hbi hbits hpos hb ha hld =>
    have hf : Fits p d.alignment base := by
      rcases ha with ha | ha
      · exact .inl ⟨by simpa using ha, hb⟩
      · exact .inr ha
    cases hk : decide (k = .longDouble) with
    | false =>
      have hk : k ≠ .longDouble := by simpa using hk
      obtain ⟨c, hc1, hc2⟩ : ∃ c, nestedLeaf k m d q = qwordsNext q c d.size d.alignment ∧
          ∀ i, (⟨k, base, d.size⟩ : Scalar).classIn i = c := by
        cases k <;> first
          | exact absurd rfl hk
          | exact absurd rfl hpad
          | exact absurd rfl hbi
          | exact absurd rfl hbits
          | exact ⟨_, rfl, fun _ => rfl⟩
      obtain ⟨q', h1, h2, h3, h4⟩ := qwordsNext_at (c := c) (size := d.size) h ha0 hf hn hlt hpos
      refine ⟨q', _, hc1.trans h1, h2, h3, effect_single fun i => ?_, fun _ => rfl⟩
      rw [hc2 i]; exact h4 i
    | true =>
      have hk : k = .longDouble := by simpa using hk
      subst hk
      have hb8 := hld rfl
      have hsz : d.size = 16 := hsz
      obtain ⟨q1, h1, h2, h3, h4⟩ := qwordsNext_at (c := .x87) (size := 8) h ha0 hf hn (by omega) (by omega)
      have hnext : ∃ q', qwordsNext q1 .x87up 8 d.alignment = .ok (q', ⟨(base + 8) / 8, (base + 8) % 8⟩) ∧
          At q' (base + 8 + 8) ∧ q'.qwords.length = n ∧
          ∀ i, kl q' i = if touch (base + 8) 8 i then abiMerge (kl q1 i) .x87up else kl q1 i := by
        exact qwordsNext_at h2 ha0 (.inr ⟨by omega, rfl⟩) h3 (by omega) (by omega)
      obtain ⟨q2, g1, g2, g3, g4⟩ := hnext
      refine ⟨q2, ⟨(base + 8) / 8, (base + 8) % 8⟩, ?_, ?_, g3, effect_single fun i => ?_, fun hne => absurd rfl hne⟩
      · simp only [nestedLeaf, h1, bind, Except.bind]; exact g1
      · rw [hsz]; exact g2
      · rw [g4 i, h4 i]
        simp only [Scalar.classIn, hsz]
        by_cases hi : base / 8 = i
        · rw [if_neg (by unfold touch; omega), if_pos (by unfold touch; omega), if_pos (by unfold touch; omega),
            if_pos hi]
        · by_cases hi' : base / 8 + 1 = i
          · rw [if_pos (by unfold touch; omega), if_neg (by unfold touch; omega), if_pos (by unfold touch; omega),
              if_neg hi]
          · rw [if_neg (by unfold touch; omega), if_neg (by unfold touch; omega), if_neg (by unfold touch; omega)]

/-! ## Positions -/

/-- The position is the byte `p`. -/
def PosAt (n : Nat) (pos : Pos) (p : Nat) : Prop := pos.index < n ∧ pos.offset ≤ 8 ∧ 8 * pos.index + pos.offset = p

theorem save_at {q : Qwords} {p : Nat} (h : At q p) :
    ∃ pos, savePosition q = .ok pos ∧ PosAt q.qwords.length pos p := by
  obtain ⟨hin, hle, heq, -⟩ := h
  obtain ⟨w, hw⟩ := getElem?_some_of_lt hin
  have hoff : off q q.current = w.currentOffset := by simp [off, hw]
  rw [hoff] at hle heq
  exact ⟨⟨q.current, w.currentOffset⟩, by simp [savePosition, hw], hin, hle, heq⟩

theorem reset_get : ∀ (ws : List Qword) (i : Nat) (p : Pos) (j : Nat),
    (resetOffsets ws i p)[j]? = ws[j]?.map fun w =>
      if i + j < p.index then w
      else if i + j = p.index then { w with currentOffset := p.offset } else { w with currentOffset := 0 }
  | [], _, _, _ => by simp [resetOffsets]
  | w :: ws, i, p, 0 => by simp [resetOffsets]
  | w :: ws, i, p, j + 1 => by
    simp only [resetOffsets, List.getElem?_cons_succ, reset_get ws (i + 1) p j]
    congr 1
    funext w
    have : i + 1 + j = i + (j + 1) := by omega
    rw [this]

theorem restore_at {q : Qwords} {pos : Pos} {p n : Nat} (hn : q.qwords.length = n) (h : PosAt n pos p) :
    ∃ q', restorePosition q pos = .ok q' ∧ At q' p ∧ q'.qwords.length = n ∧ ∀ i, kl q' i = kl q i := by
  obtain ⟨h1, h2, h3⟩ := h
  have hg := reset_get q.qwords 0 pos
  simp only [Nat.zero_add] at hg
  have hin : pos.index < (resetOffsets q.qwords 0 pos).length := by rw [(reset_keeps _ _ _).1]; omega
  have hoff : off ⟨resetOffsets q.qwords 0 pos, pos.index⟩ pos.index = pos.offset := by
    simp only [off, hg]
    obtain ⟨w, hw⟩ := getElem?_some_of_lt (ws := q.qwords) (i := pos.index) (by omega)
    simp [hw]
  refine ⟨⟨resetOffsets q.qwords 0 pos, pos.index⟩, ?_, ⟨hin, ?_, ?_, ?_⟩, ?_, ?_⟩
  · rw [restorePosition, if_pos ⟨by omega, .inl ⟨h2, by omega⟩⟩]
  · simp only [hoff]; exact h2
  · simp only [hoff]; exact h3
  · intro j hj
    simp only at hj
    simp only [off, hg]
    simp only [if_neg (show ¬ j < pos.index by omega), if_neg (show ¬ j = pos.index by omega)]
    cases q.qwords[j]? <;> rfl
  · rw [(reset_keeps _ _ _).1, hn]
  · intro i
    simp only [kl, hg]
    cases q.qwords[i]? with
    | none => rfl
    | some w => simp only [Option.map_some, Option.getD_some]; repeat' split
                all_goals rfl

theorem max_at {n : Nat} {a b : Pos} {p p' : Nat} (h : PosAt n a p) (h' : PosAt n b p') :
    PosAt n (maxPosition a b) (max p p') := by
  obtain ⟨h1, h2, h3⟩ := h
  obtain ⟨k1, k2, k3⟩ := h'
  unfold maxPosition
  split
  · exact ⟨h1, h2, by omega⟩
  · exact ⟨k1, k2, by omega⟩

/-! ## Aggregates -/

theorem stop_le : ∀ {start ts ls}, Consecutive start ts ls → start ≤ lastStop ls ∨ ls = []
  | _, _, _, .nil => .inr rfl
  | _, _, _, .cons (l := l) (ls := ls) h _ _ _ hc => by
    left
    have := stop_le hc
    cases ls with
    | nil => simp only [lastStop, LTree.stop]; omega
    | cons l' ls =>
      rcases this with h' | h'
      · simp only [LTree.stop] at h'; simp only [lastStop]; omega
      · cases h'

theorem member_stop_le : ∀ {start ts ls}, Consecutive start ts ls → ∀ l ∈ ls, l.stop ≤ lastStop ls
  | _, _, _, .nil, l, hl => by cases hl
  | _, _, _, .cons (l := l0) (ls := ls) _ _ _ _ hc, l, hl => by
    cases ls with
    | nil => simp only [List.mem_singleton] at hl; subst hl; exact Nat.le_refl _
    | cons l' ls =>
      simp only [lastStop]
      rcases List.mem_cons.1 hl with rfl | hl
      · rcases stop_le hc with h | h
        · exact h
        · cases h
      · exact member_stop_le hc l hl

/-- Contents of the elements of an array. -/
def contentsN (e : Ty) (l : LTree) (b n : Nat) : List (Option Scalar) :=
  (List.range n).flatMap (fun i => contents e l (b + i * l.data.size))

theorem contentsN_succ (e : Ty) (l : LTree) (b n : Nat) :
    contentsN e l b (n + 1) = contents e l b ++ contentsN e l (b + l.data.size) n := by
  simp only [contentsN, List.range_succ_eq_map, List.flatMap_cons, Nat.zero_mul, Nat.add_zero, List.flatMap_map]
  congr 1
  congr 1
  funext i
  have : b + Nat.succ i * l.data.size = b + l.data.size + i * l.data.size := by
    rw [Nat.succ_mul]; omega
  rw [this]

/-- What the classification of a packed object does. -/
structure Done (q q' : Qwords) (n p' : Nat) (cs : List (Option Scalar)) (as : List Alloc) : Prop where
  at_ : At q' p'
  length : q'.qwords.length = n
  effect : Effect q q' (cs.filterMap id)
  refs : Refs cs as

theorem Done.append {a b c n p p' cs cs' as as'} (h : Done a b n p cs as) (h' : Done b c n p' cs' as') :
    Done a c n p' (cs ++ cs') (as ++ as') :=
  ⟨h'.at_, h'.length, by rw [List.filterMap_append]; exact h.effect.append h'.effect, h.refs.append h'.refs⟩

theorem Done.container {q q' n p' cs as i} (h : Done q q' n p' cs as) :
    Done q q' n p' (none :: cs) (containerEntry i :: as) :=
  ⟨h.at_, h.length, h.effect, .cons (by intro s hs; cases hs) h.refs⟩

mutual
theorem nest_at : ∀ (t : Ty) (l : LTree), Laid t l → ∀ (i : Nat) {base p p' : Nat}, Packed t l base p p' →
    ∀ {q : Qwords} {n : Nat}, At q p → q.qwords.length = n → base + l.data.size ≤ 8 * n →
    ∃ q' as, nest t l i q = .ok (q', as) ∧ Done q q' n p' (contents t l base) as
  | .leaf k al m, .node d ls, hl, i, base, p, p', hp, q, n, h, hn, hlt => by
    obtain ⟨q', r, h1, h2, h3, h4, h5⟩ := nestedLeaf_at hl hp h hn hlt
    refine ⟨q', [nestedEntry i r], by simp [nest, h1, Except.bind], h2, h3, h4, ?_⟩
    refine .cons ?_ .nil
    intro s hs hk
    simp only [Option.some.injEq] at hs; subst hs
    simp [nestedEntry, h5 hk]
  | .struct al ms, .node d ls, hl, i, base, p, p', hp, q, n, h, hn, hlt => by
    have hps : PackedAll ms ls base p p' := by cases hp; assumption
    obtain ⟨hla, hb⟩ : LaidAll ms ls ∧ ∀ l ∈ ls, l.stop ≤ d.size := by
      cases hl with
      | struct ha hc _ _ _ hle _ => exact ⟨ha, fun l hl => Nat.le_trans (member_stop_le hc l hl) hle⟩
    simp only [LTree.data] at hlt
    obtain ⟨q', as, h1, h2⟩ := nestAll_at ms ls hla (i + 1) hps h hn
      (fun l hl => by have := hb l hl; simp only [LTree.stop] at this; omega)
    exact ⟨q', containerEntry i :: as, by simp [nest, h1, Except.bind], h2.container⟩
  | .union al ms, .node d ls, hl, i, base, p, p', hp, q, n, h, hn, hlt => by
    have hps : PackedUnion ms ls base p p p' := by cases hp; assumption
    obtain ⟨hla, hb⟩ : LaidAll ms ls ∧ ∀ l ∈ ls, l.stop ≤ d.size := by
      cases hl with
      | union ha hc _ _ _ hle _ =>
        exact ⟨ha, fun l hl => by have := hle l hl; have := hc l hl; simp only [LTree.stop]; omega⟩
    simp only [LTree.data] at hlt
    obtain ⟨pos, hs, hpos⟩ := save_at h
    rw [hn] at hpos
    obtain ⟨q', mx, as, h1, hm, hn', heff, hrefs⟩ := nestUnion_at ms ls hla (i + 1) hps h hn hpos hpos
      (fun l hl => by have := hb l hl; simp only [LTree.stop] at this; omega)
    obtain ⟨q2, h2, hat, hn2, hk⟩ := restore_at hn' hm
    refine ⟨q2, containerEntry i :: as, by simp [nest, hs, h1, h2, Except.bind], Done.container ⟨hat, hn2, ?_, hrefs⟩⟩
    intro j; rw [hk j]; exact heff j
  | .array al m e, .node d ls, hl, i, base, p, p', hp, q, n, h, hn, hlt => by
    obtain ⟨l, rfl, hle, hsz, ho⟩ : ∃ l, ls = [l] ∧ Laid e l ∧ d.size = m * l.data.size ∧ l.data.offset = 0 := by
      cases hl; exact ⟨_, rfl, by assumption, by assumption, by assumption⟩
    have hps : PackedN e l (base + l.data.offset) m p p' := by cases hp; assumption
    simp only [LTree.data] at hlt
    obtain ⟨q', as, h1, h2⟩ := collect_at (e := e) (l := l)
      (f := fun q => nest e l (i + 1) q)
      (fun {b p p' q} hp h hn hlt => nest_at e l hle (i + 1) hp h hn hlt) m hps h hn (by rw [ho, Nat.add_zero, ← hsz]; exact hlt)
    exact ⟨q', containerEntry i :: as, by simp [nest, h1, Except.bind], h2.container⟩

theorem nestAll_at : ∀ (ts : List Ty) (ls : List LTree), LaidAll ts ls → ∀ (i : Nat) {base p p' : Nat},
    PackedAll ts ls base p p' → ∀ {q : Qwords} {n : Nat}, At q p → q.qwords.length = n →
    (∀ l ∈ ls, base + l.data.offset + l.data.size ≤ 8 * n) →
    ∃ q' as, nestAll ts ls i q = .ok (q', as) ∧ Done q q' n p' (contentsAll ts ls base) as
  | [], ls, hl, i, base, p, p', hp, q, n, h, hn, hlt => by
    cases hl; cases hp
    exact ⟨q, [], rfl, h, hn, .nil, .nil⟩
  | t :: ts, ls, hl, i, base, p, p', hp, q, n, h, hn, hlt => by
    obtain ⟨l, ls, rfl, hlt', hls⟩ : ∃ l ls', ls = l :: ls' ∧ Laid t l ∧ LaidAll ts ls' := by
      cases hl; exact ⟨_, _, rfl, by assumption, by assumption⟩
    obtain ⟨pm, hp1, hp2⟩ : ∃ pm, Packed t l (base + l.data.offset) p pm ∧ PackedAll ts ls base pm p' := by
      cases hp; exact ⟨_, by assumption, by assumption⟩
    obtain ⟨q1, as1, h1, d1⟩ := nest_at t l hlt' i hp1 h hn (hlt l (List.mem_cons_self ..))
    obtain ⟨q2, as2, h2, d2⟩ := nestAll_at ts ls hls (i + (flatten t).length) hp2 d1.at_ d1.length
      (fun l hl => hlt l (List.mem_cons_of_mem _ hl))
    exact ⟨q2, as1 ++ as2, by simp [nestAll, h1, h2, Except.bind], d1.append d2⟩

theorem nestUnion_at : ∀ (ts : List Ty) (ls : List LTree), LaidAll ts ls → ∀ (i : Nat) {base p m m' : Nat},
    PackedUnion ts ls base p m m' → ∀ {q : Qwords} {n : Nat} {init mx : Pos}, At q p → q.qwords.length = n →
    PosAt n init p → PosAt n mx m →
    (∀ l ∈ ls, base + l.data.offset + l.data.size ≤ 8 * n) →
    ∃ q' mx' as, nestUnion ts ls i init mx q = .ok (q', mx', as) ∧ PosAt n mx' m' ∧ q'.qwords.length = n ∧
      Effect q q' ((contentsAll ts ls base).filterMap id) ∧ Refs (contentsAll ts ls base) as
  | [], ls, hl, i, base, p, m, m', hp, q, n, init, mx, h, hn, hi, hm, hlt => by
    cases hl; cases hp
    exact ⟨q, mx, [], rfl, hm, hn, .nil, .nil⟩
  | t :: ts, ls, hl, i, base, p, m, m', hp, q, n, init, mx, h, hn, hi, hm, hlt => by
    obtain ⟨l, ls, rfl, hlt', hls⟩ : ∃ l ls', ls = l :: ls' ∧ Laid t l ∧ LaidAll ts ls' := by
      cases hl; exact ⟨_, _, rfl, by assumption, by assumption⟩
    obtain ⟨pm, hp1, hp2⟩ : ∃ pm, Packed t l (base + l.data.offset) p pm ∧
        PackedUnion ts ls base p (max m pm) m' := by
      cases hp; exact ⟨_, by assumption, by assumption⟩
    obtain ⟨q1, as1, h1, d1⟩ := nest_at t l hlt' i hp1 h hn (hlt l (List.mem_cons_self ..))
    obtain ⟨pos, h2, hpos⟩ := save_at d1.at_
    rw [d1.length] at hpos
    obtain ⟨q2, h3, hat2, hn2, hk2⟩ := restore_at d1.length hi
    obtain ⟨q3, mx3, as3, h4, hm3, hn3, heff, hrefs⟩ := nestUnion_at ts ls hls (i + (flatten t).length) hp2 hat2 hn2
      hi (max_at hm hpos) (fun l hl => hlt l (List.mem_cons_of_mem _ hl))
    refine ⟨q3, mx3, as1 ++ as3, by simp [nestUnion, h1, h2, h3, h4, Except.bind], hm3, hn3, ?_, d1.refs.append hrefs⟩
    rw [contentsAll, List.filterMap_append]
    refine d1.effect.append ?_
    intro j; rw [heff j, hk2 j]

theorem collect_at {e : Ty} {l : LTree} {f : Qwords → Out (Qwords × List Alloc)} {n : Nat}
    (hf : ∀ {b p p' : Nat} {q : Qwords}, Packed e l b p p' → At q p → q.qwords.length = n →
      b + l.data.size ≤ 8 * n → ∃ q' as, f q = .ok (q', as) ∧ Done q q' n p' (contents e l b) as) :
    ∀ (m : Nat) {b p p' : Nat}, PackedN e l b m p p' → ∀ {q : Qwords}, At q p → q.qwords.length = n →
    b + m * l.data.size ≤ 8 * n →
    ∃ q' as, collect m f q = .ok (q', as) ∧ Done q q' n p' (contentsN e l b m) as
  | 0, b, p, p', hp, q, h, hn, hlt => by
    cases hp
    exact ⟨q, [], rfl, h, hn, .nil, .nil⟩
  | m + 1, b, p, p', hp, q, h, hn, hlt => by
    obtain ⟨pm, hp1, hp2⟩ : ∃ pm, Packed e l b p pm ∧ PackedN e l (b + l.data.size) m pm p' := by
      cases hp; exact ⟨_, by assumption, by assumption⟩
    rw [Nat.succ_mul] at hlt
    obtain ⟨q1, as1, h1, d1⟩ := hf hp1 h hn (by omega)
    obtain ⟨q2, as2, h2, d2⟩ := collect_at hf m hp2 d1.at_ d1.length (by omega)
    refine ⟨q2, as1 ++ as2, by simp [collect, h1, h2, Except.bind], ?_⟩
    rw [contentsN_succ]
    exact d1.append d2
end

/-! ## Parameters -/

theorem postmerger_none {q : Qwords} (hn : NoUp q.qwords) (hlen : q.qwords.length ≤ 2) :
    postmerger q = none ↔ InMemory (q.qwords.map (·.klass)) := by
  obtain ⟨ws, cur⟩ := q
  have key : ∀ (a b : Class), (∃ i : Nat, [a, b][i]? = some .x87up ∧ (i = 0 ∨ [a, b][i - 1]? ≠ some .x87)) ↔
      (a = .x87up ∨ b = .x87up ∧ a ≠ .x87) := by
    intro a b
    constructor
    · rintro ⟨i, h1, h2⟩
      match i with
      | 0 => left; simpa using h1
      | 1 => right; simp at h1 h2; exact ⟨h1, h2⟩
      | i + 2 => simp at h1
    · rintro (h | ⟨h1, h2⟩)
      · exact ⟨0, by simp [h], .inl rfl⟩
      · exact ⟨1, by simp [h1], .inr (by simp [h2])⟩
  match ws, hlen, hn with
  | [], _, _ => simp [postmerger, postmergeLoop, InMemory]
  | [w], _, hn =>
    have hw := hn w (by simp)
    have key1 : (∃ i : Nat, [w.klass][i]? = some .x87up ∧ (i = 0 ∨ [w.klass][i - 1]? ≠ some .x87)) ↔
        w.klass = .x87up := by
      constructor
      · rintro ⟨i, h1, h2⟩
        match i with
        | 0 => simpa using h1
        | i + 1 => simp at h1
      · intro h; exact ⟨0, by simp [h], .inl rfl⟩
    simp only [InMemory, List.map_cons, List.map_nil, key1]
    cases h : w.klass <;> simp_all [postmerger, postmergeLoop]
  | [v, w], _, hn =>
    have hv := hn v (by simp)
    have hw := hn w (by simp)
    simp only [InMemory, List.map_cons, List.map_nil, key]
    cases h : v.klass <;> cases h' : w.klass <;> simp_all [postmerger, postmergeLoop]

theorem kl_fresh (n i : Nat) : kl (qwordsAlloc n) i = .noClass := by
  simp only [kl, qwordsAlloc, List.getElem?_replicate]; split <;> rfl

theorem at_fresh (n : Nat) (h : 0 < n) : At (qwordsAlloc n) 0 := by
  have : ∀ i, off (qwordsAlloc n) i = 0 := by
    intro i; simp only [off, qwordsAlloc, List.getElem?_replicate]; split <;> rfl
  exact ⟨by simpa [qwordsAlloc] using h, by rw [this]; omega, by rw [this]; rfl, fun j _ => this j⟩

theorem map_kl (q : Qwords) : q.qwords.map (·.klass) = (List.range q.qwords.length).map (kl q) := by
  apply List.ext_getElem?
  intro i
  simp only [List.getElem?_map]
  by_cases hi : i < q.qwords.length
  · rw [List.getElem?_range hi, List.getElem?_eq_getElem hi]; simp [kl, hi]
  · rw [List.getElem?_eq_none (by omega), List.getElem?_eq_none (by simpa using hi)]; rfl

theorem noUp_fresh (n : Nat) : NoUp (qwordsAlloc n).qwords := by
  intro w hw; simp only [qwordsAlloc, List.mem_replicate] at hw; rw [hw.2]; decide

/-- Classification of a packed aggregate of at most two eightbytes. -/
theorem classifyAgg_packed {t : Ty} {l : LTree} (hl : Laid t l) {i p' : Nat} {as : List Alloc}
    (hsz : l.data.size ≤ 16) (hpos : 0 < l.data.size) (hal : l.data.aligned = true) (hp : Packed t l 0 0 p')
    (h : classifyAgg t l i = .ok as) :
    ∃ a rest first, as = a :: rest ∧ Refs (contents t l 0) (first :: rest) ∧
      ((a.klass = .memory ∧ InMemory ((List.range (eightbytes l.data.size)).map (eightbyteClass (scalars t l)))) ∨
       (¬ InMemory ((List.range (eightbytes l.data.size)).map (eightbyteClass (scalars t l))) ∧
        ∃ q, a.content = .qwords q ∧
          q.qwords.map (·.klass) = (List.range (eightbytes l.data.size)).map (eightbyteClass (scalars t l)))) := by
  have hcount := qwordCount_eq l.data.size
  have hn0 : 0 < qwordCount l.data.size := by rw [hcount, eightbytes]; omega
  obtain ⟨q, as', hnest, hd⟩ := nest_at (n := qwordCount l.data.size) t l hl i hp (at_fresh _ hn0)
    (by simp [qwordsAlloc]) (by rw [hcount, eightbytes]; omega)
  obtain ⟨hkeep, hobj⟩ := nest_keeps t l hl _ _ _ hnest
  have hup := hkeep.2 (noUp_fresh _)
  have hclasses : q.qwords.map (·.klass) =
      (List.range (eightbytes l.data.size)).map (eightbyteClass (scalars t l)) := by
    rw [map_kl, hd.length, hcount]
    apply List.map_congr_left
    intro j _
    rw [hd.effect j, kl_fresh]; rfl
  have hpm := postmerger_none hup (by rw [hd.length, hcount, eightbytes]; omega)
  rw [hclasses] at hpm
  obtain ⟨first, rest, rfl⟩ : ∃ first rest, as' = first :: rest := by
    cases as' with
    | nil => have := objects_pos t; simp only [List.length_nil] at hobj; omega
    | cons a r => exact ⟨a, r, rfl⟩
  unfold classifyAgg at h
  rw [if_neg (by simp [hal]; omega), hnest] at h
  simp only [ignoring, Except.bind, List.tail_cons] at h
  cases hm : postmerger q with
  | none =>
    rw [hm] at h
    simp only [Except.ok.injEq] at h; subst h
    exact ⟨_, rest, first, rfl, hd.refs, .inl ⟨rfl, hpm.1 hm⟩⟩
  | some q' =>
    have := postmerger_same hup hm
    subst this
    rw [hm] at h
    simp only at h
    split at h
    · cases h
    · simp only [Except.ok.injEq] at h; subst h
      exact ⟨_, rest, first, rfl, hd.refs, .inr ⟨fun hc => absurd (hpm.2 hc) (by rw [hm]; simp), q', rfl, hclasses⟩⟩

theorem had_mono : ∀ (ws : List Qword) (i : Nat) (prev : Option Nat) (n : Nat) (r),
    postmergeLoop ws i prev n true = some r → r.2 = true
  | [], i, prev, n, r, h => by simp only [postmergeLoop, Option.some.injEq] at h; subst h; rfl
  | w :: ws, i, prev, n, r, h => by
    have fin : ∀ prev n (w' : Qword), (postmergeLoop ws (i + 1) prev n true).map (fun r => (w' :: r.1, r.2)) = some r →
        r.2 = true := by
      intro prev n w' h
      rw [Option.map_eq_some_iff] at h
      obtain ⟨v, hv, rfl⟩ := h
      exact had_mono _ _ _ _ v hv
    unfold postmergeLoop at h
    simp only [Bool.true_or] at h
    repeat' split at h
    all_goals first
      | cases h; done
      | exact fin _ _ _ h

/-- More than two eightbytes: memory. -/
theorem postmerger_large {q : Qwords} (hn : NoUp q.qwords) (hlen : 2 < q.qwords.length) : postmerger q = none := by
  cases hp : postmergeLoop q.qwords 0 none 0 false with
  | none => simp [postmerger, hp]
  | some r =>
    have hsame := postmergeLoop_same _ hn _ _ _ _ _ hp
    have hhad : r.2 = true := by
      obtain ⟨ws, cur⟩ := q
      match ws, hlen, hn with
      | a :: b :: ws, _, hn =>
        have hb := hn b (by simp)
        have second : ∀ prev n r, postmergeLoop (b :: ws) 1 prev n false = some r → r.2 = true := by
          intro prev n r h
          have fin : ∀ prev n (w' : Qword), (postmergeLoop ws 2 prev n true).map (fun r => (w' :: r.1, r.2)) = some r →
              r.2 = true := by
            intro prev n w' h
            rw [Option.map_eq_some_iff] at h
            obtain ⟨v, hv, rfl⟩ := h
            exact had_mono _ _ _ _ v hv
          unfold postmergeLoop at h
          simp only [gt_iff_lt, Nat.zero_lt_one, decide_true, Bool.true_and, Bool.false_or, ne_eq, hb,
            not_false_eq_true] at h
          repeat' split at h
          all_goals first
            | cases h; done
            | exact fin _ _ _ h
        have fin : ∀ prev n (w' : Qword), (postmergeLoop (b :: ws) 1 prev n false).map (fun r => (w' :: r.1, r.2)) =
            some r → r.2 = true := by
          intro prev n w' h
          rw [Option.map_eq_some_iff] at h
          obtain ⟨v, hv, rfl⟩ := h
          exact second _ _ v hv
        simp only at hp
        rw [postmergeLoop.eq_def] at hp
        simp only [gt_iff_lt, Nat.lt_irrefl, decide_false, Bool.false_and, Bool.or_false] at hp
        repeat' split at hp
        all_goals first
          | cases hp; done
          | exact fin _ _ _ hp
    unfold postmerger
    rw [hp]
    simp only
    rw [if_pos ⟨by rw [hsame]; exact hlen, .inr hhad⟩]

/-- Aggregates of more than two eightbytes are passed in memory. -/
theorem classifyAgg_large {t : Ty} {l : LTree} (hl : Laid t l) {i : Nat} {as : List Alloc}
    (hsz : 16 < l.data.size ∨ l.data.aligned = false) (h : classifyAgg t l i = .ok as) :
    ∃ a rest, as = a :: rest ∧ a.klass = .memory := by
  unfold classifyAgg at h
  split at h
  · simp only [Except.ok.injEq] at h; subst h
    exact ⟨_, _, rfl, rfl⟩
  · rename_i hc
    have hsz : 16 < l.data.size := by
      rcases hsz with hsz | hsz
      · exact hsz
      · exact absurd (.inr (by simp [hsz])) hc
    obtain ⟨v, h1, h2⟩ := bind_inv h
    have hn : nest t l i (qwordsAlloc (qwordCount l.data.size)) = .ok v := by
      cases hx : nest t l i (qwordsAlloc (qwordCount l.data.size)) with
      | ok a => rw [hx] at h1; simpa [ignoring] using h1
      | error f => rw [hx] at h1; cases f <;> simp [ignoring] at h1; split at h1 <;> cases h1
    obtain ⟨⟨hlen, hup⟩, hobj⟩ := nest_keeps t l hl _ _ _ hn
    have hup := hup (noUp_fresh _)
    have hlen : v.1.qwords.length = eightbytes l.data.size := by rw [hlen, ← qwordCount_eq]; simp [qwordsAlloc]
    rw [postmerger_large hup (by rw [hlen, eightbytes]; omega)] at h2
    simp only [Except.ok.injEq] at h2; subst h2
    exact ⟨_, _, rfl, rfl⟩

/-- The rows of the parameters of a list. -/
theorem classifyAll_split : ∀ (as : List Ty) (las : List LTree), LaidAll as las → ∀ (t : Ty) (l : LTree), Laid t l →
    ∀ (bs : List Ty) (lbs : List LTree) (i : Nat) (ass),
    classifyAll (as ++ t :: bs) (las ++ l :: lbs) i = .ok ass →
    ∃ xs x ys j, ass = xs ++ x :: ys ∧ xs.flatten.length = objectsAll as ∧ classify t l j = .ok x
  | _, _, .nil, t, l, hl, bs, lbs, i, ass, h => by
    simp only [List.nil_append, classifyAll] at h
    obtain ⟨x, h1, h2⟩ := bind_inv h
    obtain ⟨ys, h3, h4⟩ := bind_inv h2
    simp only [Except.ok.injEq] at h4; subst h4
    exact ⟨[], x, ys, i, rfl, rfl, h1⟩
  | _, _, .cons hl0 hls, t, l, hl, bs, lbs, i, ass, h => by
    simp only [List.cons_append, classifyAll] at h
    obtain ⟨x0, h1, h2⟩ := bind_inv h
    obtain ⟨ys0, h3, h4⟩ := bind_inv h2
    simp only [Except.ok.injEq] at h4; subst h4
    obtain ⟨xs, x, ys, j, rfl, hlen, hc⟩ := classifyAll_split _ _ hls t l hl bs lbs _ _ h3
    obtain ⟨a, rest, rfl, hr⟩ := classify_rows hl0 h1
    exact ⟨(a :: rest) :: xs, x, ys, j, rfl, by rw [List.flatten_cons, List.length_append, hlen, hr, objectsAll], hc⟩

theorem refs_get : ∀ {cs as}, Refs cs as → ∀ {j : Nat} {s}, cs[j]? = some (some s) → s.kind ≠ .longDouble →
    ∃ a, as[j]? = some a ∧ a.content = .ref ⟨s.offset / 8, s.offset % 8⟩
  | _, _, .nil, j, s, h, _ => by simp at h
  | _, _, .cons (a := a) h hs, 0, s, hj, hk => by
    simp only [List.getElem?_cons_zero, Option.some.injEq] at hj
    exact ⟨a, by simp, h s hj hk⟩
  | _, _, .cons h hs, j + 1, s, hj, hk => by
    simp only [List.getElem?_cons_succ] at hj ⊢
    exact refs_get hs hj hk

end Kefir.Abi
