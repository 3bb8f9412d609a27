import Verif.StaticData.Lemmas

/-!
# Lemmas: what is emitted is the image
-/

namespace Kefir.StaticData

open Kefir.Layout Kefir.Abi

theorem objects_pos (t : Ty) : 0 < objects t := by cases t <;> simp [objects] <;> omega

/-! ## Images -/

theorem flatMap_length {α β} (f : α → List β) (n : Nat) : ∀ (xs : List α), (∀ x ∈ xs, (f x).length = n) →
    (xs.flatMap f).length = xs.length * n
  | [], _ => by simp
  | x :: xs, h => by
    rw [List.flatMap_cons, List.length_append, h x (List.mem_cons_self ..),
      flatMap_length f n xs (fun y hy => h y (List.mem_cons_of_mem _ hy)), List.length_cons, Nat.add_mul]
    omega

theorem image_length {vals : Nat → Value} : ∀ {t : Ty} {l : LTree} {slot : Nat}, Laid t l → Suits vals t l slot →
    (image vals t l slot).length = l.data.size
  | .leaf k al n, _, slot, .leaf hs _, h => by
    simp only [Suits] at h
    simp only [image, LTree.data, hs]
    exact encode_length h
  | .struct al ms, .node d ls, slot, _, _ => by simp only [image, place_length, LTree.data]
  | .union al ms, .node d ls, slot, _, _ => by simp only [image, place_length, LTree.data]
  | .array al n e, _, slot, .array (d := d) (l := l) hl _ _ hs, h => by
    simp only [Suits] at h
    simp only [image, LTree.data]
    rcases h with ⟨⟨bs, hv, hlen, _⟩ | hv, h⟩
    · rcases hv with hv | hv <;> rw [hv] <;> exact padded_length hlen
    · have : ((List.range n).flatMap fun i => image vals e l (slot + 1 + i * objects e)).length = d.size := by
        rw [flatMap_length _ l.data.size]
        · rw [List.length_range, hs]
        · intro i hi
          exact image_length hl (h i (by simpa using hi))
      rcases hv with hv | hv <;> rw [hv] <;> exact this

theorem byteAt_zero {ps : List (Nat × List Cell)} (h : ∀ x ∈ ps, ∃ n, x.2 = zeros n) (p : Nat) :
    byteAt ps p = .byte 0 := by
  simp only [byteAt]
  split
  · rename_i o cs hf
    have := List.mem_of_find?_eq_some hf
    obtain ⟨n, e⟩ := h _ this
    have e : cs = zeros n := e
    rw [e]
    simp only [zeros, List.getElem?_replicate]
    split <;> rfl
  · rfl

theorem place_zero {ps : List (Nat × List Cell)} (h : ∀ x ∈ ps, ∃ n, x.2 = zeros n) (size : Nat) :
    place size ps = zeros size := by
  rw [place_eq, List.map_congr_left (g := fun _ => Cell.byte 0) (fun p _ => byteAt_zero h p)]
  rw [List.map_const', List.length_range]; rfl

theorem flatMap_zeros {α} (f : α → List Cell) (n : Nat) : ∀ (xs : List α), (∀ x ∈ xs, f x = zeros n) →
    xs.flatMap f = zeros (xs.length * n)
  | [], _ => by simp [zeros]
  | x :: xs, h => by
    rw [List.flatMap_cons, h x (List.mem_cons_self ..),
      flatMap_zeros f n xs (fun y hy => h y (List.mem_cons_of_mem _ hy)), zeros_append, List.length_cons]
    congr 1
    rw [Nat.add_mul]; omega

theorem elem_slot {n k i j slot : Nat} (hi : i < n) (h1 : slot + 1 + i * k ≤ j) (h2 : j < slot + 1 + i * k + k) :
    slot ≤ j ∧ j < slot + (1 + n * k) := by
  have : (i + 1) * k ≤ n * k := Nat.mul_le_mul_right _ hi
  rw [Nat.add_mul] at this
  constructor <;> omega

mutual
theorem image_zero {vals : Nat → Value} : ∀ {t : Ty} {l : LTree} {slot : Nat}, Laid t l →
    (∀ j, slot ≤ j → j < slot + objects t → vals j = .undefined) → image vals t l slot = zeros l.data.size
  | .leaf k al n, _, slot, .leaf hs _, h => by
    simp only [objects] at h
    simp only [image, LTree.data, hs, h slot (Nat.le_refl _) (by omega)]
    rfl
  | .struct al ms, _, slot, .struct hall _ _ _ _ _ _, h => by
    simp only [objects] at h
    simp only [image, LTree.data]
    exact place_zero (pieces_zero hall (fun j h1 h2 => h j (by omega) (by omega))) _
  | .union al ms, _, slot, .union hall _ _ _ _ _ _, h => by
    simp only [objects] at h
    simp only [image, LTree.data]
    exact place_zero (unionPieces_zero hall (fun j h1 h2 => h j (by omega) (by omega))) _
  | .array al n e, _, slot, .array (d := d) (l := l) hl _ _ hs, h => by
    simp only [objects] at h
    simp only [image, LTree.data, h slot (Nat.le_refl _) (by omega)]
    rw [flatMap_zeros _ l.data.size, List.length_range, hs]
    intro i hi
    have hi : i < n := by simpa using hi
    refine image_zero hl (fun j h1 h2 => ?_)
    have := elem_slot hi h1 h2
    exact h j this.1 this.2

theorem pieces_zero {vals : Nat → Value} : ∀ {ts : List Ty} {ls : List LTree} {slot : Nat}, LaidAll ts ls →
    (∀ j, slot ≤ j → j < slot + objectsAll ts → vals j = .undefined) →
    ∀ x ∈ pieces vals ts ls slot, ∃ n, x.2 = zeros n
  | _, _, slot, .nil, h, x, hx => by simp [pieces] at hx
  | t :: ts, l :: ls, slot, .cons hl hls, h, x, hx => by
    simp only [objectsAll] at h
    simp only [pieces, List.mem_cons] at hx
    rcases hx with rfl | hx
    · exact ⟨_, image_zero hl (fun j h1 h2 => h j h1 (by omega))⟩
    · exact pieces_zero hls (fun j h1 h2 => h j (by omega) (by omega)) x hx

theorem unionPieces_zero {vals : Nat → Value} : ∀ {ts : List Ty} {ls : List LTree} {slot : Nat}, LaidAll ts ls →
    (∀ j, slot ≤ j → j < slot + objectsAll ts → vals j = .undefined) →
    ∀ x ∈ unionPieces vals ts ls slot, ∃ n, x.2 = zeros n
  | _, _, slot, .nil, h, x, hx => by simp [unionPieces] at hx
  | t :: ts, l :: ls, slot, .cons hl hls, h, x, hx => by
    simp only [objectsAll] at h
    simp only [unionPieces] at hx
    split at hx
    · have : x = (0, image vals t l slot) := by simpa using hx
      subst this
      exact ⟨_, image_zero hl (fun j h1 h2 => h j h1 (by omega))⟩
    · exact unionPieces_zero hls (fun j h1 h2 => h j (by omega) (by omega)) x hx
end

/-! ## Marks -/

mutual
/-- The marks of the members of unions say whether they have values. -/
def FlagsRight (d : DataMap) : Ty → Nat → Prop
  | .leaf _ _ _, _ => True
  | .struct _ ms, slot => FlagsAll d ms (slot + 1)
  | .union _ ms, slot => FlagsAll d ms (slot + 1) ∧ MembersRight d ms (slot + 1)
  | .array _ n e, slot => ∀ i, i < n → FlagsRight d e (slot + 1 + i * objects e)

def FlagsAll (d : DataMap) : List Ty → Nat → Prop
  | [], _ => True
  | t :: ts, slot => FlagsRight d t slot ∧ FlagsAll d ts (slot + objects t)

def MembersRight (d : DataMap) : List Ty → Nat → Prop
  | [], _ => True
  | t :: ts, slot => d.flagAt slot = init d.vals t slot ∧ MembersRight d ts (slot + objects t)
end

/-! ## Scalars -/

theorem put_eq (s : Emit) (cs : List Cell) (n : Nat) : s.put cs n = ⟨s.slot, s.offset + n, s.iter, s.out ++ cs⟩ := rfl

theorem integralCells_eq {k : Leaf} {n x : Nat} (h : LeafSuits k n (.integer x)) (hk : k ≠ .word) :
    integralCells k n x = .ok (le (leafSize k n) x) := by
  cases k <;> simp [LeafSuits] at h hk <;> simp only [integralCells, leafSize, directive_eq]
  have e : n / 8 + (if n % 8 ≠ 0 then 1 else 0) = (n + 7) / 8 := by split <;> omega
  rw [e, if_neg (by omega), bits_bytes]

theorem integralCells_zero {k : Leaf} {n : Nat} (h : LeafSuits k n .undefined)
    (hk : k ∉ [.word, .pad, .builtin, .memory, .float32, .float64, .longDouble]) :
    integralCells k n 0 = .ok (zeros (leafSize k n)) := by
  rw [← le_zero]
  apply integralCells_eq
  · cases k <;> simp [LeafSuits] at h hk ⊢; exact h
  · intro e; subst e; simp at hk

theorem emitLeaf_ok {data : DataMap} (hd : Mapped data) {k : Leaf} {al n : Nat} {d : Data} {s : Emit}
    (hl : Laid (.leaf k al n) (.node d [])) (hb : k = .builtin → n = 0)
    (hs : LeafSuits k n (data.vals s.slot)) (ht : s.slot < data.total) :
    emitLeaf data k n d s = .ok ⟨s.slot + 1, startAt (.leaf k al n) (.node d []) s.offset + d.size, s.iter,
      s.out ++ zeros (startAt (.leaf k al n) (.node d []) s.offset - s.offset) ++ encode k n (data.vals s.slot)⟩ := by
  have hsize : d.size = leafSize k n := by cases hl; assumption
  have hv := valueAt_eq hd ht
  generalize data.vals s.slot = v at hs hv ⊢
  simp only [emitLeaf, hv, startAt, LTree.data]
  cases k
  case bits =>
    simp only [LeafSuits] at hs
    rcases hs with ⟨hn, rfl | ⟨x, rfl⟩⟩
    · simp only [emitIntegral, ne_eq, not_true, if_false, Ty.isBits, if_true]
      rw [integralCells_zero (k := .bits) (n := n) ⟨hn, Or.inl rfl⟩ (by simp)]
      simp [put_eq, encode, zeros]
    · simp only [emitIntegral, ne_eq, not_true, if_false, Ty.isBits, if_true]
      rw [integralCells_eq (k := .bits) (n := n) (x := x) ⟨hn, Or.inr ⟨x, rfl⟩⟩ (by simp)]
      simp [put_eq, encode, zeros]
  case pad =>
    simp only [LeafSuits] at hs
    subst hs
    simp [emitPad, alignOffset_eq, put_eq, Ty.isBits, encode, hsize]
  case builtin =>
    simp only [LeafSuits] at hs
    subst hs
    simp [emitPad, alignOffset_eq, put_eq, Ty.isBits, encode, hsize, hb rfl]
  case memory =>
    simp only [LeafSuits] at hs
    simp only [leafSize] at hsize
    rcases hs with rfl | ⟨bs, rfl, hbs⟩ | ⟨bs, rfl, hbs⟩
    · simp only [emitMemory, alignOffset_eq, Ty.isBits, encode]
      rw [trailing_eq (by simp)]
      simp [leafSize, hsize]
    all_goals
      simp only [emitMemory, alignOffset_eq, Ty.isBits, encode, dumpBinary, put_eq]
      rw [trailing_eq (by simp; omega)]
      simp [leafSize, hsize, padded]
      congr 1; omega
  case word =>
    simp only [LeafSuits] at hs
    rcases hs with rfl | ⟨x, rfl⟩ | ⟨t, o, rfl⟩ <;>
      simp [emitWord, alignOffset_eq, put_eq, Ty.isBits, encode, hsize, directive_eq, leafSize, le_zero]
  case float32 =>
    simp only [LeafSuits] at hs
    rcases hs with rfl | ⟨x, rfl⟩ <;>
      simp [emitFloat32, alignOffset_eq, put_eq, Ty.isBits, encode, hsize, directive_eq, leafSize, le_zero]
  case float64 =>
    simp only [LeafSuits] at hs
    rcases hs with rfl | ⟨x, rfl⟩ <;>
      simp [emitFloat64, alignOffset_eq, put_eq, Ty.isBits, encode, hsize, directive_eq, leafSize, le_zero]
  case longDouble =>
    simp only [LeafSuits] at hs
    rcases hs with rfl | ⟨x, y, rfl⟩ <;>
      simp [emitLongDouble, alignOffset_eq, put_eq, Ty.isBits, encode, hsize, directive_eq, leafSize, le_zero,
        zeros_append]
  case int64 =>
    simp only [LeafSuits] at hs
    rcases hs with rfl | ⟨x, rfl⟩ | ⟨t, o, rfl⟩ <;>
      simp [emitIntegral, integralCells, alignOffset_eq, put_eq, Ty.isBits, encode, hsize, directive_eq, leafSize, le_zero]
  case long =>
    simp only [LeafSuits] at hs
    rcases hs with rfl | ⟨x, rfl⟩ | ⟨t, o, rfl⟩ <;>
      simp [emitIntegral, integralCells, alignOffset_eq, put_eq, Ty.isBits, encode, hsize, directive_eq, leafSize, le_zero]
  all_goals
    simp only [LeafSuits] at hs
    rcases hs with rfl | ⟨x, rfl⟩ <;>
      simp [emitIntegral, integralCells, alignOffset_eq, put_eq, Ty.isBits, encode, hsize, directive_eq, leafSize, le_zero]

/-! ## Arrays -/

/-- The images of `c` elements from the `i`-th one. -/
def seg (g : Nat → List Cell) (i c : Nat) : List Cell := (List.range' i c).flatMap g

theorem seg_zero (g : Nat → List Cell) (i : Nat) : seg g i 0 = [] := rfl

theorem seg_add (g : Nat → List Cell) (i a b : Nat) : seg g i (a + b) = seg g i a ++ seg g (i + a) b := by
  simp only [seg]
  rw [← List.range'_append_1 (s := i) (m := a) (n := b), List.flatMap_append]

theorem seg_one (g : Nat → List Cell) (i : Nat) : seg g i 1 = g i := by simp [seg]

theorem seg_zeros {g : Nat → List Cell} {i c size : Nat} (h : ∀ j, i ≤ j → j < i + c → g j = zeros size) :
    seg g i c = zeros (c * size) := by
  simp only [seg]
  rw [flatMap_zeros g size, List.length_range']
  intro x hx
  rw [List.mem_range'_1] at hx
  exact h x hx.1 hx.2

/-- The elements that are visited: one after the other. -/
theorem emitLoop_ok {data : DataMap} (hd : Mapped data) {e : Ty} {l : LTree} (hl : Laid e l) {f : Emit → Out Emit}
    {n base first : Nat} (hf : ∀ i s, i < n → s.slot = first + i * objects e → s.offset = base + i * l.data.size →
      IterOK data s.iter s.slot →
      ∃ iter, IterOK data iter (s.slot + objects e) ∧
        f s = .ok ⟨s.slot + objects e, s.offset + l.data.size, iter, s.out ++ image data.vals e l s.slot⟩) :
    ∀ (fuel i : Nat) (s : Emit), n ≤ i + fuel → i ≤ n → s.slot = first + i * objects e →
      s.offset = base + i * l.data.size → IterOK data s.iter s.slot →
      ∃ iter m, IterOK data iter (first + n * objects e) ∧ i + m ≤ n ∧
        (∀ j, i + m ≤ j → j < n → image data.vals e l (first + j * objects e) = zeros l.data.size) ∧
        emitLoop f n (objects e) l.data.size (first + n * objects e) fuel i s =
          .ok ⟨first + n * objects e, base + (i + m) * l.data.size, iter,
            s.out ++ seg (fun i => image data.vals e l (first + i * objects e)) i m⟩ := by
  intro fuel
  induction fuel with
  | zero =>
    intro i s h1 h2 hslot hoff hit
    have : i = n := by omega
    subst this
    obtain ⟨slot, offset, iter, out⟩ := s
    simp only at hslot hoff
    subst hslot; subst hoff
    exact ⟨iter, 0, hit, by omega, by omega, by simp [emitLoop, seg_zero]⟩
  | succ fuel ih =>
    intro i s h1 h2 hslot hoff hit
    obtain ⟨slot, offset, iter, out⟩ := s
    simp only at hslot hoff hit
    by_cases hi : i < n
    · have hle : i * objects e + objects e ≤ n * objects e := by
        have := Nat.mul_le_mul_right (objects e) (Nat.succ_le_of_lt hi)
        rwa [Nat.succ_mul] at this
      have hit' := hit.skip
      simp only [emitLoop, if_pos hi]
      generalize hsk : skipTo iter slot = it at hit'
      cases it with
      | nil =>
        refine ⟨[], 0, hit'.mono (by omega), by omega, ?_, ?_⟩
        · intro j h3 h4
          apply image_zero hl
          intro x h5 h6
          apply hd.vals_of (unmapped_nil hit' _)
          have : i * objects e ≤ j * objects e := Nat.mul_le_mul_right _ (by omega)
          omega
        · simp [seg_zero, hoff]
      | cons b bs =>
        simp only
        by_cases hskip : slot < b * blockCapacity ∧
            (min (b * blockCapacity) (first + n * objects e) - slot) / objects e > 0
        · simp only [if_pos hskip]
          generalize hm : (min (b * blockCapacity) (first + n * objects e) - slot) / objects e = missing at hskip
          have hmul : missing * objects e ≤ min (b * blockCapacity) (first + n * objects e) - slot := by
            rw [← hm]; exact Nat.div_mul_le_self _ _
          have hmn : i + missing ≤ n := by
            apply Nat.le_of_mul_le_mul_right _ (objects_pos e)
            rw [Nat.add_mul]
            omega
          obtain ⟨iter', m, r1, r2, r3, r4⟩ := ih (i + missing)
            ⟨slot + missing * objects e, offset + missing * l.data.size, b :: bs,
              out ++ zeros (missing * l.data.size)⟩
            (by omega) hmn (by simp only [hslot, Nat.add_mul]; omega) (by simp only [hoff, Nat.add_mul]; omega)
            (hit'.mono (by simp only; omega))
          refine ⟨iter', missing + m, r1, by omega, ?_, ?_⟩
          · intro j h3 h4; exact r3 j (by omega) h4
          · rw [r4, seg_add]
            have hz : seg (fun i => image data.vals e l (first + i * objects e)) i missing =
                zeros (missing * l.data.size) := by
              apply seg_zeros
              intro j h3 h4
              apply image_zero hl
              intro x h5 h6
              have e1 : i * objects e ≤ j * objects e := Nat.mul_le_mul_right _ h3
              have e2 : j * objects e + objects e ≤ (i + missing) * objects e := by
                have := Nat.mul_le_mul_right (objects e) (Nat.succ_le_of_lt h4)
                rwa [Nat.succ_mul] at this
              rw [Nat.add_mul] at e2
              exact hd.vals_of (unmapped_cons hd hit' (by omega) (by omega))
            rw [hz, Nat.add_assoc]
            simp
        · simp only [if_neg hskip]
          obtain ⟨iter', r1, r2⟩ := hf i ⟨slot, offset, b :: bs, out⟩ hi hslot hoff hit'
          simp only [r2]
          obtain ⟨iter'', m, r3, r4, r5, r6⟩ := ih (i + 1)
            ⟨slot + objects e, offset + l.data.size, iter', out ++ image data.vals e l slot⟩ (by omega) (by omega)
            (by simp only [hslot, Nat.add_mul]; omega) (by simp only [hoff, Nat.add_mul]; omega) r1
          refine ⟨iter'', 1 + m, r3, by omega, ?_, ?_⟩
          · intro j h3 h4; exact r5 j (by omega) h4
          · rw [r6, seg_add, seg_one]
            simp [hslot, Nat.add_assoc]
    · have : i = n := by omega
      subst this
      subst hslot; subst hoff
      exact ⟨iter, 0, hit, by omega, by omega, by simp [emitLoop, seg_zero]⟩

/-! ## Objects -/

theorem data_node (d : Data) (ms : List LTree) : (LTree.node d ms).data = d := rfl

theorem init_false {vals : Nat → Value} {t : Ty} {slot : Nat} (h : init vals t slot = false) :
    ∀ j, slot ≤ j → j < slot + objects t → vals j = .undefined := by
  intro j h1 h2
  simp only [init, List.any_eq_false, List.mem_range, decide_eq_true_eq] at h
  have := h (j - slot) (by omega)
  rw [show slot + (j - slot) = j by omega] at this
  simpa using this

theorem start_of_dvd {t : Ty} {l : LTree} {o : Nat} (ha : 0 < l.data.alignment)
    (h : t.isBits = false → l.data.alignment ∣ o) : startAt t l o = o := by
  simp only [startAt]
  cases hb : t.isBits with
  | true => simp
  | false => simp only [Bool.false_eq_true, if_false]; exact padAligned_self ha (h hb)

theorem start_consecutive {t : Ty} {l : LTree} {base start : Nat} (ha : 0 < l.data.alignment)
    (hb : l.data.alignment ∣ base) (h1 : start ≤ l.data.offset) (h2 : t.isBits = true → l.data.offset = start)
    (h3 : t.isBits = false → l.data.offset % l.data.alignment = 0)
    (h4 : t.isBits = false → l.data.offset < start + l.data.alignment) :
    startAt t l (base + start) = base + l.data.offset := by
  simp only [startAt]
  cases hbits : t.isBits with
  | true => simp [h2 hbits]
  | false =>
    simp only [Bool.false_eq_true, if_false]
    exact padAligned_unique ha (by omega) (by have := h4 hbits; omega)
      (Nat.dvd_add hb (Nat.dvd_of_mod_eq_zero (h3 hbits)))

/-- What is emitted for an object. -/
def Emitted (data : DataMap) (t : Ty) (l : LTree) (s : Emit) (r : Out Emit) : Prop :=
  ∃ iter, IterOK data iter (s.slot + objects t) ∧
    r = .ok ⟨s.slot + objects t, startAt t l s.offset + l.data.size, iter,
      s.out ++ zeros (startAt t l s.offset - s.offset) ++ image data.vals t l s.slot⟩

theorem pieces_ordered {vals : Nat → Value} : ∀ {ts : List Ty} {ls : List LTree} {start slot : Nat},
    LaidAll ts ls → Consecutive start ts ls → SuitsAll vals ts ls slot →
    Ordered start (pieces vals ts ls slot) ∧
      seqStop start (pieces vals ts ls slot) = (if ls = [] then start else lastStop ls)
  | _, _, start, slot, .nil, _, _ => by simp [pieces, Ordered, seqStop]
  | _, _, start, slot, .cons (t := t) (l := l) (ts := ts) (ls := ls) hl hls, .cons h1 _ _ _ hc, h => by
    simp only [SuitsAll] at h
    have := pieces_ordered (slot := slot + objects t) hls hc h.2
    simp only [pieces, Ordered, seqStop, image_length hl h.1]
    refine ⟨⟨h1, this.1⟩, ?_⟩
    have e : l.data.offset + l.data.size = l.stop := rfl
    rw [e, this.2]
    cases ls with
    | nil => simp [lastStop]
    | cons => simp [lastStop]

theorem unionPieces_none {vals : Nat → Value} : ∀ {ts : List Ty} {ls : List LTree} {slot : Nat},
    unionPieces vals ts ls slot = [] ∨ ∃ cs, unionPieces vals ts ls slot = [(0, cs)]
  | [], _, _ => by simp [unionPieces]
  | _ :: _, [], _ => by simp [unionPieces]
  | t :: ts, l :: ls, slot => by
    simp only [unionPieces]
    split
    · exact Or.inr ⟨_, rfl⟩
    · exact unionPieces_none

/-- Once a member has been emitted, the others are skipped. -/
theorem emitUnion_rest {data : DataMap} (hd : Mapped data) : ∀ {ts : List Ty} {ls : List LTree} (s : Emit),
    LaidAll ts ls → s.slot + objectsAll ts ≤ data.total →
    emitUnion data true ts ls s = .ok { s with slot := s.slot + objectsAll ts }
  | _, _, s, .nil, _ => by simp [emitUnion, objectsAll]
  | _, _, s, .cons (t := t) (l := l) (ts := ts) (ls := ls) _ hls, ht => by
    simp only [objectsAll] at ht
    have := objects_pos t
    simp only [emitUnion, valueAt_eq hd (show s.slot < data.total by omega), Bool.not_true, Bool.false_and]
    rw [if_neg (by simp), emitUnion_rest hd _ hls (by simp only; omega)]
    simp only [objectsAll, Nat.add_assoc]

mutual
theorem emit_ok {data : DataMap} (hd : Mapped data) : ∀ (t : Ty) {l : LTree} (s : Emit), Laid t l → Unpacked t l →
    WF t → Suits data.vals t l s.slot → FlagsRight data t s.slot → s.slot + objects t ≤ data.total →
    IterOK data s.iter s.slot → Emitted data t l s (emit data t l s)
  | .leaf k al n, l, s, hl, hu, hw, hs, hf, ht, hi => by
    obtain ⟨d, ms⟩ := l
    obtain rfl : ms = [] := by cases hl; rfl
    simp only [Suits] at hs
    simp only [objects] at ht
    refine ⟨s.iter, hi.mono (by omega), ?_⟩
    have hb : k = .builtin → n = 0 := by cases hw; assumption
    simp only [emit, image, objects]
    rw [emitLeaf_ok hd hl hb hs (by omega)]
    rfl
  | .struct al ms, l, s, hl, hu, hw, hs, hf, ht, hi => by
    have hp := alignment_pow hl hu
    cases hl with
    | @struct _ _ d ls g hall hcon hg ha hm hle hlt =>
    cases hu with
    | struct hal hale hus =>
    have hws : WFAll ms := by cases hw; assumption
    simp only [Suits] at hs
    simp only [FlagsRight] at hf
    simp only [objects] at ht
    simp only [LTree.data] at hp
    have hpos : 0 < d.alignment := by obtain ⟨e, he⟩ := hp; rw [he]; exact Nat.two_pow_pos _
    have hdvd : d.alignment ∣ padAligned s.offset d.alignment :=
      Nat.dvd_of_mod_eq_zero (padAligned_mod _ _ hpos)
    have hlsne : ls ≠ [] := by rintro rfl; obtain ⟨_, _, h, _⟩ := hg; cases h
    obtain ⟨iter, r1, r2⟩ := emitAll_ok hd ms (ls := ls) (base := padAligned s.offset d.alignment) (start := 0)
      ⟨s.slot + 1, padAligned s.offset d.alignment, s.iter,
        s.out ++ zeros (padAligned s.offset d.alignment - s.offset)⟩ hall hus hws hcon
      (fun l hl => Nat.dvd_trans (pow_dvd_of_le (alignment_pow_all hall hus l hl) hp (hale l hl)) hdvd)
      hs.2 hf (by simp only; omega) (hi.mono (by simp only; omega)) rfl
    have hord := pieces_ordered (slot := s.slot + 1) hall hcon hs.2
    rw [if_neg hlsne] at hord
    have hbase := padAligned_ge s.offset d.alignment
    refine ⟨iter, by simpa only [objects, Nat.add_assoc] using r1, ?_⟩
    simp only [emit, alignOffset_eq, r2, startAt, Ty.isBits, Bool.false_eq_true, if_false, LTree.data, image, objects]
    rw [trailing_eq (by simp only [hord.2]; omega), place_seq hord.1 (by rw [hord.2]; exact hle)]
    simp only [hord.2, Nat.add_assoc, List.append_assoc]
    rw [show padAligned s.offset d.alignment + d.size - (padAligned s.offset d.alignment + lastStop ls) =
      d.size - lastStop ls by omega]
  | .union al ms, l, s, hl, hu, hw, hs, hf, ht, hi => by
    have hp := alignment_pow hl hu
    cases hl with
    | @union _ _ d ls g hall hzero hg ha hm hle hlt =>
    cases hu with
    | union hal hale hus =>
    have hws : WFAll ms := by cases hw; assumption
    simp only [Suits] at hs
    simp only [FlagsRight] at hf
    simp only [objects] at ht
    simp only [LTree.data] at hp
    have hpos : 0 < d.alignment := by obtain ⟨e, he⟩ := hp; rw [he]; exact Nat.two_pow_pos _
    have hdvd : d.alignment ∣ padAligned s.offset d.alignment :=
      Nat.dvd_of_mod_eq_zero (padAligned_mod _ _ hpos)
    obtain ⟨iter, r1, r2, r3⟩ := emitUnion_ok hd ms (ls := ls) (size := d.size)
      ⟨s.slot + 1, padAligned s.offset d.alignment, s.iter,
        s.out ++ zeros (padAligned s.offset d.alignment - s.offset)⟩ hall hus hws hzero hle
      (fun l hl => Nat.dvd_trans (pow_dvd_of_le (alignment_pow_all hall hus l hl) hp (hale l hl)) hdvd)
      hs.2 hf.1 hf.2 (by simp only; omega) (hi.mono (by simp only; omega))
    simp only at r2
    have hbase := padAligned_ge s.offset d.alignment
    have hord : Ordered 0 (unionPieces data.vals ms ls (s.slot + 1)) := by
      rcases unionPieces_none (vals := data.vals) (ts := ms) (ls := ls) (slot := s.slot + 1) with e | ⟨cs, e⟩ <;>
        rw [e] <;> simp [Ordered]
    refine ⟨iter, by simpa only [objects, Nat.add_assoc] using r1, ?_⟩
    simp only [emit, alignOffset_eq, r3, startAt, Ty.isBits, Bool.false_eq_true, if_false, LTree.data, image, objects]
    rw [trailing_eq (by simp only; omega), place_seq hord r2]
    simp only [Nat.add_assoc, List.append_assoc]
    rw [show padAligned s.offset d.alignment + d.size - (padAligned s.offset d.alignment +
      seqStop 0 (unionPieces data.vals ms ls (s.slot + 1))) =
      d.size - seqStop 0 (unionPieces data.vals ms ls (s.slot + 1)) by omega]
  | .array al n e, l, s, hl, hu, hw, hs, hf, ht, hi => by
    have hp := alignment_pow hl hu
    cases hl with
    | @array _ _ _ d l hl hzero ha hsz =>
    cases hu with
    | array hal hale he0 hue =>
    have hwe : WF e := by cases hw; assumption
    simp only [Suits] at hs
    simp only [FlagsRight] at hf
    simp only [objects] at ht
    simp only [LTree.data] at hp
    have hpos : 0 < d.alignment := by obtain ⟨e, he⟩ := hp; rw [he]; exact Nat.two_pow_pos _
    have hpe := alignment_pow hl hue
    have hpos' : 0 < l.data.alignment := by obtain ⟨e, he⟩ := hpe; rw [he]; exact Nat.two_pow_pos _
    have hdvd : l.data.alignment ∣ padAligned s.offset d.alignment :=
      Nat.dvd_trans (pow_dvd_of_le hpe hp hale) (Nat.dvd_of_mod_eq_zero (padAligned_mod _ _ hpos))
    have hbase := padAligned_ge s.offset d.alignment
    have hv := valueAt_eq hd (j := s.slot) (by omega)
    simp only [Emitted, emit, hv, alignOffset_eq, startAt, Ty.isBits, Bool.false_eq_true, if_false, data_node, image, objects]
    rcases hs with ⟨⟨bs, hvs, hlen, _⟩ | hvs, hs⟩
    · refine ⟨s.iter, hi.mono (by omega), ?_⟩
      rcases hvs with hvs | hvs <;>
      · simp only [hvs, dumpBinary, put_eq]
        rw [trailing_eq (by simp only; omega)]
        simp only [padded, List.append_assoc, Nat.add_assoc]
        rw [show padAligned s.offset d.alignment + d.size - (padAligned s.offset d.alignment + bs.length) =
          d.size - bs.length by omega]
    · obtain ⟨iter, m, r1, r2, r3, r4⟩ := emitLoop_ok hd hl (f := fun s => emit data e l s) (n := n)
        (base := padAligned s.offset d.alignment) (first := s.slot + 1)
        (by
          intro i s' hin hslot hoff hit
          have hle : i * objects e + objects e ≤ n * objects e := by
            have := Nat.mul_le_mul_right (objects e) (Nat.succ_le_of_lt hin)
            rwa [Nat.succ_mul] at this
          obtain ⟨iter, q1, q2⟩ := emit_ok hd e s' hl hue hwe (by rw [hslot]; exact hs i hin)
            (by rw [hslot]; exact hf i hin) (by omega) hit
          refine ⟨iter, q1, ?_⟩
          rw [start_of_dvd hpos' (by
            intro hb
            rw [hoff]
            exact Nat.dvd_add hdvd (Nat.dvd_trans (size_mod hl hue he0 hb) (Nat.dvd_mul_left _ _)))] at q2
          simp only [q2]
          simp [zeros])
        n 0 ⟨s.slot + 1, padAligned s.offset d.alignment, s.iter,
          s.out ++ zeros (padAligned s.offset d.alignment - s.offset)⟩
        (by omega) (by omega) (by simp) (by simp) (hi.mono (by simp only; omega))
      refine ⟨iter, by simpa only [Nat.add_assoc] using r1, ?_⟩
      have hms : m * l.data.size ≤ n * l.data.size := Nat.mul_le_mul_right _ (by omega)
      have himg : (List.range n).flatMap (fun i => image data.vals e l (s.slot + 1 + i * objects e)) =
          seg (fun i => image data.vals e l (s.slot + 1 + i * objects e)) 0 m ++ zeros (d.size - m * l.data.size) := by
        have : (List.range n).flatMap (fun i => image data.vals e l (s.slot + 1 + i * objects e)) =
            seg (fun i => image data.vals e l (s.slot + 1 + i * objects e)) 0 (m + (n - m)) := by
          rw [seg, show m + (n - m) = n by omega, List.range_eq_range']
        rw [this, seg_add, seg_zeros (size := l.data.size) (i := 0 + m)]
        · rw [hsz, Nat.sub_mul]
        · intro j h1 h2
          exact r3 j h1 (by omega)
      have main : ∀ s' : Emit, s' = ⟨s.slot + 1 + n * objects e, padAligned s.offset d.alignment + (0 + m) * l.data.size, iter,
            s.out ++ zeros (padAligned s.offset d.alignment - s.offset) ++
            seg (fun i => image data.vals e l (s.slot + 1 + i * objects e)) 0 m⟩ →
          trailing (padAligned s.offset d.alignment) d s' =
          .ok ⟨s.slot + (1 + n * objects e), padAligned s.offset d.alignment + d.size, iter,
            s.out ++ zeros (padAligned s.offset d.alignment - s.offset) ++
            (List.range n).flatMap (fun i => image data.vals e l (s.slot + 1 + i * objects e))⟩ := by
        rintro s' rfl
        rw [trailing_eq (by simp only [Nat.zero_add]; omega), himg]
        simp only [Nat.add_assoc, Nat.zero_add, List.append_assoc]
        rw [show padAligned s.offset d.alignment + d.size - (padAligned s.offset d.alignment + m * l.data.size) =
          d.size - m * l.data.size by omega]
      rcases hvs with hvs | hvs <;> simp only [hvs, r4] <;> exact main _ rfl

theorem emitAll_ok {data : DataMap} (hd : Mapped data) : ∀ (ts : List Ty) {ls : List LTree} {base start : Nat}
    (s : Emit), LaidAll ts ls → UnpackedAll ts ls → WFAll ts → Consecutive start ts ls →
    (∀ l ∈ ls, l.data.alignment ∣ base) → SuitsAll data.vals ts ls s.slot → FlagsAll data ts s.slot →
    s.slot + objectsAll ts ≤ data.total → IterOK data s.iter s.slot → s.offset = base + start →
    ∃ iter, IterOK data iter (s.slot + objectsAll ts) ∧
      emitAll data ts ls s = .ok ⟨s.slot + objectsAll ts,
        base + seqStop start (pieces data.vals ts ls s.slot), iter,
        s.out ++ seq start (pieces data.vals ts ls s.slot)⟩
  | _, _, base, start, s, .nil, _, _, _, _, _, _, _, hi, ho => by
    obtain ⟨slot, offset, iter, out⟩ := s
    simp only at ho
    subst ho
    exact ⟨iter, hi, by simp [emitAll, objectsAll, pieces, seqStop, seq]⟩
  | _, _, base, start, s, .cons (t := t) (l := l) (ts := ts) (ls := ls) hl hls, .cons hu hus, hw,
      .cons h1 h2 h3 h4 hc, hb, hs, hf, ht, hi, ho => by
    obtain ⟨hwt, hws⟩ : WF t ∧ WFAll ts := by cases hw; constructor <;> assumption
    simp only [SuitsAll] at hs
    simp only [FlagsAll] at hf
    simp only [objectsAll] at ht
    obtain ⟨iter, q1, q2⟩ := emit_ok hd t s hl hu hwt hs.1 hf.1 (by omega) hi
    have hpos : 0 < l.data.alignment := by
      obtain ⟨e, he⟩ := alignment_pow hl hu; rw [he]; exact Nat.two_pow_pos _
    rw [ho, start_consecutive hpos (hb l (List.mem_cons_self ..)) h1 h2 h3 h4] at q2
    obtain ⟨iter', q3, q4⟩ := emitAll_ok hd ts (base := base) (start := l.stop)
      ⟨s.slot + objects t, base + l.data.offset + l.data.size, iter,
        s.out ++ zeros (base + l.data.offset - (base + start)) ++ image data.vals t l s.slot⟩
      hls hus hws hc (fun x hx => hb x (List.mem_cons_of_mem _ hx)) hs.2 hf.2 (by simp only; omega) q1
      (by simp only [LTree.stop]; omega)
    refine ⟨iter', by simpa only [objectsAll, Nat.add_assoc] using q3, ?_⟩
    simp only [emitAll, q2, q4, objectsAll, pieces, seqStop, seq, image_length hl hs.1, LTree.stop]
    simp only [Nat.add_assoc, List.append_assoc]
    rw [show base + l.data.offset - (base + start) = l.data.offset - start by omega]

theorem emitUnion_ok {data : DataMap} (hd : Mapped data) : ∀ (ts : List Ty) {ls : List LTree} {size : Nat}
    (s : Emit), LaidAll ts ls → UnpackedAll ts ls → WFAll ts → (∀ l ∈ ls, l.data.offset = 0) →
    (∀ l ∈ ls, l.data.size ≤ size) → (∀ l ∈ ls, l.data.alignment ∣ s.offset) →
    SuitsAll data.vals ts ls s.slot → FlagsAll data ts s.slot → MembersRight data ts s.slot →
    s.slot + objectsAll ts ≤ data.total → IterOK data s.iter s.slot →
    ∃ iter, IterOK data iter (s.slot + objectsAll ts) ∧
      seqStop 0 (unionPieces data.vals ts ls s.slot) ≤ size ∧
      emitUnion data false ts ls s = .ok ⟨s.slot + objectsAll ts,
        s.offset + seqStop 0 (unionPieces data.vals ts ls s.slot), iter,
        s.out ++ seq 0 (unionPieces data.vals ts ls s.slot)⟩
  | _, _, size, s, .nil, _, _, _, _, _, _, _, _, _, hi =>
    ⟨s.iter, hi, by simp [unionPieces, seqStop], by simp [emitUnion, objectsAll, unionPieces, seqStop, seq]⟩
  | _, _, size, s, .cons (t := t) (l := l) (ts := ts) (ls := ls) hl hls, .cons hu hus, hw, hz, hsz, hb, hs, hf, hm,
      ht, hi => by
    obtain ⟨hwt, hws⟩ : WF t ∧ WFAll ts := by cases hw; constructor <;> assumption
    simp only [SuitsAll] at hs
    simp only [FlagsAll] at hf
    simp only [MembersRight] at hm
    simp only [objectsAll] at ht
    have hop := objects_pos t
    have hpos : 0 < l.data.alignment := by
      obtain ⟨e, he⟩ := alignment_pow hl hu; rw [he]; exact Nat.two_pow_pos _
    simp only [emitUnion, valueAt_eq hd (show s.slot < data.total by omega), hm.1, Bool.not_false, Bool.true_and,
      unionPieces]
    cases hin : init data.vals t s.slot with
    | true =>
      obtain ⟨iter, q1, q2⟩ := emit_ok hd t s hl hu hwt hs.1 hf.1 (by omega) hi
      rw [start_of_dvd hpos (fun _ => hb l (List.mem_cons_self ..))] at q2
      simp only [if_true, q2]
      rw [emitUnion_rest hd _ hls (by simp only; omega)]
      refine ⟨iter, q1.mono (by simp only [objectsAll]; omega), ?_, ?_⟩
      · simp only [seqStop, image_length hl hs.1]
        have := hsz l (List.mem_cons_self ..); omega
      · simp only [seqStop, seq, image_length hl hs.1, objectsAll, Nat.add_assoc]
        simp [zeros]
    | false =>
      simp only [Bool.false_eq_true, if_false]
      obtain ⟨iter, q1, q2, q3⟩ := emitUnion_ok hd ts (size := size) { s with slot := s.slot + objects t }
        hls hus hws (fun x hx => hz x (List.mem_cons_of_mem _ hx)) (fun x hx => hsz x (List.mem_cons_of_mem _ hx))
        (fun x hx => hb x (List.mem_cons_of_mem _ hx)) hs.2 hf.2 hm.2 (by simp only; omega)
        (hi.mono (by simp only; omega))
      exact ⟨iter, by simpa only [objectsAll, Nat.add_assoc] using q1, q2,
        by simpa only [objectsAll, Nat.add_assoc] using q3⟩
end

end Kefir.StaticData
