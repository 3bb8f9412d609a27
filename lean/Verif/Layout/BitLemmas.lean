import Verif.Layout.Bitfields
import Verif.Layout.Lemmas

/-!
# Lemmas on bit-field allocation
-/

namespace Kefir.Layout

theorem flattenAll_append : ∀ (a b : List Ty), flattenAll (a ++ b) = flattenAll a ++ flattenAll b
  | [], b => by simp [flattenAll]
  | t :: a, b => by simp [flattenAll, flattenAll_append a b]

theorem layAll_append : ∀ (a b : List Ty) (c : Compound),
    layAll c (a ++ b) = ((layAll (layAll c a).1 b).1, (layAll c a).2 ++ (layAll (layAll c a).1 b).2)
  | [], b, c => by simp [layAll]
  | t :: a, b, c => by simp [layAll, layAll_append a b]

theorem flatL_append : ∀ (a b : List LTree), flatL (a ++ b) = flatL a ++ flatL b
  | [], b => by simp [flatL]
  | t :: a, b => by simp [flatL, flatL_append a b]

theorem wfAll_append : ∀ {a b : List Ty}, WFAll a → WFAll b → WFAll (a ++ b)
  | [], _, _, hb => hb
  | _ :: _, _, .cons h hs, hb => .cons h (wfAll_append hs hb)

theorem wfAll_left : ∀ {a b : List Ty}, WFAll (a ++ b) → WFAll a
  | [], _, _ => .nil
  | _ :: _, _, .cons h hs => .cons h (wfAll_left hs)

/-- Bytes taken by the members of a structure so far. -/
def off (ms : List Ty) : Nat := (layAll (.fresh true) ms).1.offset

/-- Data of a member that follows others. -/
def dataAfter (ms : List Ty) (t : Ty) : Data := (update (layAll (.fresh true) ms).1 (natural t).1 t.entry).2

theorem off_snoc (ms : List Ty) (t : Ty) :
    off (ms ++ [t]) = (dataAfter ms t).offset + (dataAfter ms t).size := by
  simp only [off, layAll_append, layAll, dataAfter]
  exact update_next _ _ _ (by rw [layAll_aggregate]; rfl)

theorem dataAfter_ge (ms : List Ty) (t : Ty) : off ms ≤ (dataAfter ms t).offset := by
  simp only [dataAfter, update_offset]
  split
  · exact padAligned_ge _ _
  · exact Nat.le_refl _

theorem dataAfter_bits (ms : List Ty) (a p : Nat) :
    (dataAfter ms (.leaf .bits a p)).offset = off ms ∧
    (dataAfter ms (.leaf .bits a p)).size = (p + 7) / 8 := by
  simp [dataAfter, update_offset, update_size, Ty.entry, off, natural, leafSize]

/-- Entries of the structure and layout vector. -/
theorem structLayout (pre : List Entry) (al : Nat) (ms : List Ty) (h : WFAll ms) (hne : ms ≠ []) :
    typeLayoutOf (pre ++ flatten (.struct al ms)) pre.length 1 =
      .ok (List.replicate pre.length none ++
        ((update (.fresh true) (natural (.struct al ms)).1 (Ty.entry (.struct al ms))).2 ::
          flatL (layAll (.fresh true) ms).2).map some) := by
  have := typeLayoutOf_eq (.struct al ms) (.struct hne h) pre []
  simp only [List.append_nil, List.length_nil, List.replicate_zero] at this
  rw [this]
  simp [LTree.flat, natural]

/-- The layout vector of a structure, at the entry of a member. -/
theorem lay_at (pre : List Entry) (al : Nat) (ini more : List Ty) (t : Ty) (lay : List (Option Data))
    (h : WFAll (ini ++ t :: more))
    (hl : typeLayoutOf (pre ++ flatten (.struct al (ini ++ t :: more))) pre.length 1 = .ok lay) :
    lay[pre.length + 1 + (flattenAll ini).length]? = some (some (dataAfter ini t)) := by
  rw [structLayout _ _ _ h (by simp)] at hl
  simp only [Except.ok.injEq] at hl
  subst hl
  rw [List.getElem?_append_right (by simp; omega)]
  simp only [List.length_replicate, List.map_cons]
  have : pre.length + 1 + (flattenAll ini).length - pre.length = (flattenAll ini).length + 1 := by omega
  rw [this, List.getElem?_cons_succ, layAll_append, flatL_append, List.map_append,
    List.getElem?_append_right (by rw [List.length_map, length_flatL]; exact Nat.le_refl _),
    List.length_map, length_flatL]
  simp [layAll, flatL, LTree.flat, dataAfter]

/-- Greatest end of the members, started from `m`. -/
def stopsMax (m : Nat) : List LTree → Nat
  | [] => m
  | l :: ls => stopsMax (max m l.stop) ls

theorem wf_param {t : Ty} (h : WF t) : ¬ ((t.entry.code = .struct ∨ t.entry.code = .union) ∧ t.entry.param = 0) := by
  cases h <;> simp [Ty.entry] <;> assumption

theorem maxStop_eq : ∀ (ts : List Ty), WFAll ts → ∀ (pre : List Entry) (vpre : List (Option Data))
    (c : Compound) (acc : Nat), vpre.length = pre.length →
    maxStop (pre ++ flattenAll ts) (vpre ++ (flatL (layAll c ts).2).map some) pre.length ts.length acc =
      .ok (stopsMax acc (layAll c ts).2)
  | [], _, pre, vpre, c, acc, hv => by
    simp [maxStop, stopsMax, layAll]
  | t :: ts, h, pre, vpre, c, acc, hv => by
    obtain ⟨hwt, hws⟩ : WF t ∧ WFAll ts := by cases h; constructor <;> assumption
    have hl := nodeLen_flatten t pre (flattenAll ts)
    have ih := maxStop_eq ts hws (pre ++ flatten t)
      (vpre ++ (LTree.node (update c (natural t).1 t.entry).2 (natural t).2).flat.map some)
      (update c (natural t).1 t.entry).1
      (max acc (LTree.node (update c (natural t).1 t.entry).2 (natural t).2).stop)
      (by simp only [List.length_append, List.length_map, length_flat, hv])
    have hlt : pre.length < (pre ++ flattenAll (t :: ts)).length := by
      simp [flattenAll, flatten_length]; omega
    have hget : (pre ++ flattenAll (t :: ts))[pre.length] = t.entry := by
      simp [flattenAll, flatten_eq]
    have hlay : (vpre ++ (flatL (layAll c (t :: ts)).2).map some)[pre.length]? =
        some (some (update c (natural t).1 t.entry).2) := by
      rw [← hv, List.getElem?_append_right (Nat.le_refl _)]
      simp [layAll, flatL, LTree.flat]
    rw [List.length_cons, maxStop, dif_pos hlt]
    rw [hget, if_neg (wf_param hwt), hlay]
    simp only
    have e : nodeLen (pre ++ flattenAll (t :: ts)) pre.length = (flatten t).length := by
      simp only [flattenAll]; exact hl
    rw [e]
    simp only [layAll, flatL, stopsMax, flattenAll, List.map_append, List.append_assoc,
      List.length_append] at ih ⊢
    exact ih

theorem stopsMax_eq : ∀ (ts : List Ty) (c : Compound) (m : Nat), c.aggregate = true → m ≤ c.offset →
    (ts = [] → m = c.offset) → stopsMax m (layAll c ts).2 = (layAll c ts).1.offset
  | [], c, m, _, hm, h0 => by simp [stopsMax, layAll, h0 rfl]
  | t :: ts, c, m, hc, hm, _ => by
    have h1 := update_next c (natural t).1 t.entry hc
    have h2 : c.offset ≤ (update c (natural t).1 t.entry).2.offset := by
      rw [update_offset]; split
      · exact padAligned_ge _ _
      · exact Nat.le_refl _
    simp only [layAll, stopsMax, LTree.stop, LTree.data]
    rw [← h1]
    have : max m (update c (natural t).1 t.entry).1.offset = (update c (natural t).1 t.entry).1.offset := by
      omega
    rw [this]
    exact stopsMax_eq ts _ _ (by rw [update_aggregate, hc]) (Nat.le_refl _) (fun _ => rfl)

theorem structCurrentOffset_eq (pre : List Entry) (al : Nat) (ms : List Ty) (h : WFAll ms) :
    structCurrentOffset (pre ++ flatten (.struct al ms)) pre.length = .ok (off ms) := by
  have hget : (pre ++ flatten (.struct al ms))[pre.length]? = some ⟨.struct, al, ms.length⟩ := by
    simp [flatten]
  rw [structCurrentOffset, hget]
  simp only
  cases ms with
  | nil => simp [off, layAll, Compound.fresh]
  | cons t ts =>
    rw [if_pos (by simp), structLayout _ _ _ h (by simp)]
    simp only [bind, Except.bind]
    have := maxStop_eq (t :: ts) h (pre ++ [⟨.struct, al, (t :: ts).length⟩])
      (List.replicate pre.length none ++ [some (update (.fresh true) (natural (.struct al (t :: ts))).1
        (Ty.entry (.struct al (t :: ts)))).2]) (.fresh true) 0 (by simp)
    simp only [List.append_assoc, List.cons_append, List.nil_append, List.length_append,
      List.length_cons, List.length_nil] at this
    simp only [flatten, List.map_cons]
    simp only [List.length_cons]
    rw [this, stopsMax_eq _ _ _ rfl (by simp) (by simp), off]

theorem modify_head {α} (a : List α) (x : α) (r : List α) (f : α → α) :
    (a ++ (x :: r)).modify a.length f = a ++ (f x :: r) := by
  induction a with
  | nil => rfl
  | cons b a ih => simp only [List.cons_append, List.length_cons, List.modify_succ_cons, ih]

theorem bump_struct (pre : List Entry) (al : Nat) (ms : List Ty) (t : Ty) :
    bumpParam (pre ++ flatten (.struct al ms) ++ flatten t) pre.length =
      pre ++ flatten (.struct al (ms ++ [t])) := by
  simp only [bumpParam, flatten, flattenAll_append, flattenAll, List.append_assoc, List.cons_append,
    modify_head]
  simp

theorem props_unit {k : Leaf} {u : Nat} (h : unitBits k = some u) : bitfieldProps k = .ok (u, u) := by
  cases k <;> simp [unitBits] at h <;> subst h <;> rfl

theorem unit_and {k : Leaf} {u : Nat} (h : unitBits k = some u) (x : Nat) : x &&& (u - 1) = x % u := by
  cases k <;> simp [unitBits] at h <;> subst h
  all_goals first
    | exact Nat.and_two_pow_sub_one_eq_mod x 3
    | exact Nat.and_two_pow_sub_one_eq_mod x 4
    | exact Nat.and_two_pow_sub_one_eq_mod x 5
    | exact Nat.and_two_pow_sub_one_eq_mod x 6

theorem unit_bound {k : Leaf} {u : Nat} (h : unitBits k = some u) : 0 < u ∧ u ≤ 64 := by
  cases k <;> simp [unitBits] at h <;> subst h <;> decide

theorem same_unit (lo w u : Nat) (hw : 0 < w) (h : lo % u + w ≤ u) : lo / u = (lo + w - 1) / u := by
  have hu : 0 < u := by omega
  have e := Nat.div_add_mod lo u
  symm
  apply Nat.div_eq_of_lt_le
  · rw [Nat.mul_comm]; omega
  · rw [Nat.add_mul, Nat.mul_comm]; omega

/-- What is known between two members of a structure. -/
structure Inv (pre : List Entry) (al : Nat) (b : Build) (ms : List Ty) : Prop where
  entries : b.entries = pre ++ flatten (.struct al ms)
  wf : WFAll ms
  run : b.alloc.hasLast = true → ∃ ini a p, ms = ini ++ [.leaf .bits a p] ∧
    b.lastStorage = pre.length + 1 + (flattenAll ini).length ∧
    b.alloc.head = 8 * off ini ∧ b.alloc.tail = 8 * off ini + p

/-- The first bit that is free. -/
def Build.start (b : Build) (ms : List Ty) : Nat := if b.alloc.hasLast then b.alloc.tail else 8 * off ms

/-- How a sequence of members can develop: a run of bit-fields that is open can grow, and members can
be added. -/
def Ext (b : Build) (ms ms' : List Ty) : Prop :=
  (∃ more, ms' = ms ++ more) ∨
  (b.alloc.hasLast = true ∧ ∃ ini a p a' p' more, ms = ini ++ [.leaf .bits a p] ∧ p ≤ p' ∧
    ms' = ini ++ .leaf .bits a' p' :: more)

theorem Inv.start_le {pre al b ms} (h : Inv pre al b ms) : b.start ms ≤ 8 * off ms := by
  simp only [Build.start]
  split
  · rename_i hl
    obtain ⟨ini, a, p, rfl, _, _, ht⟩ := h.run hl
    rw [off_snoc, (dataAfter_bits _ _ _).1, (dataAfter_bits _ _ _).2, ht]; omega
  · exact Nat.le_refl _

theorem Inv.reset {pre al b ms} (h : Inv pre al b ms) : Inv pre al b.reset ms :=
  ⟨h.entries, h.wf, fun hl => by simp [Build.reset] at hl⟩

theorem Inv.reset_start {pre al b ms} (h : Inv pre al b ms) :
    b.reset.start ms = 8 * ((b.start ms + 7) / 8) := by
  simp only [Build.start, Build.reset, Bool.false_eq_true, if_false]
  split
  · rename_i hl
    obtain ⟨ini, a, p, rfl, _, _, ht⟩ := h.run hl
    rw [off_snoc, (dataAfter_bits _ _ _).1, (dataAfter_bits _ _ _).2, ht]; omega
  · omega

/-- A bit-field that starts a run. -/
theorem startRun_eq {pre al b ms} (h : Inv pre al b ms) (named : Bool) {k u w} (hu : unitBits k = some u)
    (hw : 0 < w) (hwu : w ≤ u) :
    ∃ b' a o, startRun pre.length b named k w =
        .ok (b', some ⟨pre.length + 1 + (flattenAll ms).length, o % 256, w⟩) ∧
      Inv pre al b' (ms ++ [.leaf .bits a (o + w)]) ∧ b'.alloc.hasLast = true ∧
      b'.alloc.tail = 8 * off ms + o + w ∧
      (8 * off ms + o) / u = (8 * off ms + o + w - 1) / u := by
  have hco := structCurrentOffset_eq pre al ms h.wf
  have hb := unit_bound hu
  have hlen : b.entries.length = pre.length + 1 + (flattenAll ms).length := by
    rw [h.entries]; simp [flatten]; omega
  let tl := if off ms * 8 % u + w > u then padAligned (off ms * 8) u else off ms * 8
  have htl : off ms * 8 ≤ tl ∧ tl % u + w ≤ u := by
    simp only [tl]; split
    · exact ⟨padAligned_ge _ _, by rw [padAligned_mod _ _ hb.1]; omega⟩
    · exact ⟨Nat.le_refl _, by omega⟩
  let e : Entry := { code := .leaf .bits, alignment := if named then u / 8 else 0, param := tl + w - off ms * 8 }
  have hn : bitfieldNext b.entries pre.length named k w =
      .ok ({ hasLast := true, head := off ms * 8, tail := tl + w }, e, (tl - off ms * 8) % 256, w) := by
    rw [bitfieldNext, if_neg (by omega), h.entries, hco]
    simp only [bind, Except.bind, props_unit hu]
    rw [if_pos hwu, unit_and hu, Nat.mod_eq_of_lt (a := w) (by omega)]
  have hp : tl + w - off ms * 8 = tl - off ms * 8 + w := by omega
  refine ⟨{ entries := bumpParam (b.entries ++ [e]) pre.length,
            alloc := { hasLast := true, head := off ms * 8, tail := tl + w },
            lastStorage := b.entries.length }, e.alignment, tl - off ms * 8, ?_, ⟨?_, ?_, ?_⟩, rfl, ?_, ?_⟩
  · rw [startRun, hn]
    simp only [bind, Except.bind, hlen]
  · have := bump_struct pre al ms (.leaf .bits e.alignment (tl - off ms * 8 + w))
    rw [← this, h.entries]
    simp only [flatten, e, hp]
  · exact wfAll_append h.wf (.cons (.leaf (by simp)) .nil)
  · intro _
    exact ⟨ms, _, _, rfl, hlen, by simp only; omega, by simp only; omega⟩
  · simp only; omega
  · have := same_unit tl w u hw htl.2
    have e1 : 8 * off ms + (tl - off ms * 8) = tl := by omega
    rw [e1]; exact this

/-- A bit-field that continues a run, if there is room for it. -/
theorem colocated_eq {pre al b ms} (h : Inv pre al b ms) (hl : b.alloc.hasLast = true) (named : Bool) {k u w}
    (hu : unitBits k = some u) (hw : 0 < w) (hwu : w ≤ u) :
    translateBitfield pre.length b named k w = startRun pre.length b named k w ∨
    ∃ ini a p b' a', ms = ini ++ [.leaf .bits a p] ∧
      translateBitfield pre.length b named k w =
        .ok (b', some ⟨pre.length + 1 + (flattenAll ini).length, p % 256, w⟩) ∧
      Inv pre al b' (ini ++ [.leaf .bits a' (p + w)]) ∧ b'.alloc.hasLast = true ∧
      b'.alloc.tail = 8 * off ini + p + w ∧ b.alloc.tail = 8 * off ini + p ∧
      (8 * off ini + p) / u = (8 * off ini + p + w - 1) / u := by
  obtain ⟨ini, a, p, rfl, hst, hh, ht⟩ := h.run hl
  have hb := unit_bound hu
  have hent : b.entries = (pre ++ ⟨.struct, al, (ini ++ [Ty.leaf .bits a p]).length⟩ :: flattenAll ini) ++
      [⟨.leaf .bits, a, p⟩] := by
    rw [h.entries]; simp [flatten, flattenAll_append, flattenAll]
  have hlen : (pre ++ ⟨.struct, al, (ini ++ [Ty.leaf .bits a p]).length⟩ :: flattenAll ini).length =
      b.lastStorage := by
    rw [hst]; simp; omega
  have hget : b.entries[b.lastStorage]? = some ⟨.leaf .bits, a, p⟩ := by
    rw [hent, ← hlen]; simp
  have htail : b.alloc.tail - b.alloc.head = p := by omega
  have htw : b.alloc.tail + w - b.alloc.head = p + w := by omega
  rw [translateBitfield, if_neg (by omega), if_pos hl, hget]
  simp only [bitfieldNextColocated]
  rw [if_neg (by omega), if_neg (by simp [hl])]
  simp only [bind, Except.bind, props_unit hu]
  rw [if_pos hwu, unit_and hu]
  by_cases hroom : b.alloc.tail % u + w ≤ u
  · right
    rw [if_pos hroom]
    simp only [htail, htw]
    let b1 : Build := { b with
        entries := b.entries.set b.lastStorage
          ⟨.leaf .bits, if named then max a (u / 8) else a, p + w⟩,
        alloc := { b.alloc with tail := b.alloc.tail + w } }
    refine ⟨ini, a, p, b1, if named then max a (u / 8) else a, rfl, ?_, ⟨?_, ?_, ?_⟩, hl, ?_, ht, ?_⟩
    · rw [Nat.mod_eq_of_lt (a := w) (by omega), ← hst]
    · simp only [b1]
      rw [hent, ← hlen, List.set_append_right _ _ (Nat.le_refl _)]
      simp [flatten, flattenAll_append, flattenAll]
    · exact wfAll_append (wfAll_left h.wf) (.cons (.leaf (by simp)) .nil)
    · intro _
      exact ⟨ini, _, _, rfl, hst, hh, by simp only [b1, ht]; omega⟩
    · simp only [b1, ht]
    · rw [← ht]; exact same_unit _ _ _ hw hroom
  · left
    rw [if_neg hroom]

theorem Placed.mono {lay start fs ps stop} (h : Placed lay start fs ps stop) {s : Nat} (hs : s ≤ start) :
    ∃ stop', stop' ≤ stop ∧ Placed lay s fs ps stop' := by
  induction h generalizing s with
  | nil => exact ⟨s, hs, .nil⟩
  | zero _ ih =>
    obtain ⟨stop', h1, h2⟩ := ih (Nat.mul_le_mul_left 8 (Nat.div_le_div_right (Nat.add_le_add_right hs 7)))
    exact ⟨stop', h1, .zero h2⟩
  | bit h1 h2 h3 h4 h5 h6 h7 h8 _ => exact ⟨_, Nat.le_refl _, .bit h1 h2 h3 (by omega) h5 h6 h7 h8⟩
  | member h1 h2 h3 _ => exact ⟨_, Nat.le_refl _, .member h1 (by omega) h3⟩

theorem Ext.bits {b : Build} {ini ms' : List Ty} {a p : Nat} (h : Ext b (ini ++ [.leaf .bits a p]) ms') :
    ∃ a' p' more, p ≤ p' ∧ ms' = ini ++ .leaf .bits a' p' :: more := by
  rcases h with ⟨more, rfl⟩ | ⟨_, ini2, a2, p2, a', p', more, e, hp, rfl⟩
  · exact ⟨a, p, more, Nat.le_refl _, by simp⟩
  · obtain ⟨rfl, h2⟩ := List.append_inj' e rfl
    simp only [List.cons.injEq, Ty.leaf.injEq, true_and, and_true] at h2
    exact ⟨a', p', more, by omega, rfl⟩

/-- All runs of bit-fields have at most 256 bits. -/
def ShortRuns (ms : List Ty) : Prop := ∀ a p, Ty.leaf .bits a p ∈ ms → p ≤ 256

theorem fields_eq : ∀ (fs : List Field), (∀ f ∈ fs, f.WF) → ∀ {pre al b ms}, Inv pre al b ms →
    ∃ b' ps ms', translateFields false pre.length b fs = .ok (b', ps) ∧ Inv pre al b' ms' ∧ Ext b ms ms' ∧
      (ShortRuns ms' → ∀ lay, typeLayoutOf (pre ++ flatten (.struct al ms')) pre.length 1 = .ok lay →
        ∃ stop, Placed lay (b.start ms) fs ps stop ∧ stop ≤ 8 * off ms')
  | [], _, pre, al, b, ms, h =>
    ⟨b, [], ms, rfl, h, .inl ⟨[], by simp⟩, fun _ lay _ => ⟨_, .nil, h.start_le⟩⟩
  | .member t :: fs, hw, pre, al, b, ms, h => by
    have hwt : WF t := hw _ (List.mem_cons_self ..)
    have hent : b.reset.entries = pre ++ flatten (.struct al ms) := h.entries
    have hlen : b.reset.entries.length = pre.length + 1 + (flattenAll ms).length := by
      rw [hent]; simp [flatten]; omega
    let b1 : Build := { b.reset with entries := bumpParam (b.reset.entries ++ flatten t) pre.length }
    have hi : Inv pre al b1 (ms ++ [t]) :=
      ⟨by simp only [b1, hent, bump_struct], wfAll_append h.wf (.cons hwt .nil), fun hl => by
        simp [b1, Build.reset] at hl⟩
    obtain ⟨b', ps, ms', he, hinv, hext, hpl⟩ :=
      fields_eq fs (fun f hf => hw f (List.mem_cons_of_mem _ hf)) hi
    have hms' : ∃ more, ms' = ms ++ t :: more := by
      rcases hext with ⟨more, rfl⟩ | ⟨hl, _⟩
      · exact ⟨more, by simp⟩
      · simp [b1, Build.reset] at hl
    obtain ⟨more, rfl⟩ := hms'
    refine ⟨b', some ⟨b.reset.entries.length, 0, 0⟩ :: ps, ms ++ t :: more, ?_, hinv, .inl ⟨_, rfl⟩, ?_⟩
    · rw [translateFields, translateField, translateNormal]
      simp only [bind, Except.bind]
      rw [he]
    · intro hsr lay hlay
      obtain ⟨stop, hp, hstop⟩ := hpl hsr lay hlay
      have hd := lay_at pre al ms more t lay hinv.wf hlay
      have hs : b1.start (ms ++ [t]) = 8 * ((dataAfter ms t).offset + (dataAfter ms t).size) := by
        simp only [Build.start, b1, Build.reset, off_snoc]; simp
      have hge := dataAfter_ge ms t
      have hst := h.start_le
      rw [hs] at hp
      exact ⟨stop, .member (p := ⟨_, 0, 0⟩) (by simp only [hlen]; exact hd) (by omega) hp, hstop⟩
  | .bit named k w :: fs, hw, pre, al, b, ms, h => by
    obtain ⟨u, hu, hwu⟩ : ∃ u, unitBits k = some u ∧ w ≤ u := hw _ (List.mem_cons_self ..)
    have hfs : ∀ f ∈ fs, f.WF := fun f hf => hw f (List.mem_cons_of_mem _ hf)
    have hb := unit_bound hu
    by_cases hw0 : w = 0
    · subst hw0
      obtain ⟨b', ps, ms', he, hinv, hext, hpl⟩ := fields_eq fs hfs h.reset
      refine ⟨b', none :: ps, ms', ?_, hinv, ?_, ?_⟩
      · rw [translateFields, translateField]
        simp only [bind, Except.bind, Bool.false_eq_true, if_false, translateBitfield, if_true]
        rw [he]
      · rcases hext with hm | ⟨hl, _⟩
        · exact .inl hm
        · simp [Build.reset] at hl
      · intro hsr lay hlay
        obtain ⟨stop, hp, hstop⟩ := hpl hsr lay hlay
        rw [h.reset_start] at hp
        exact ⟨stop, .zero hp, hstop⟩
    · have hwpos : 0 < w := by omega
      -- the two ways to place a bit-field
      have key : ∀ (b1 : Build) (ini : List Ty) (a o : Nat), 
          translateBitfield pre.length b named k w =
            .ok (b1, some ⟨pre.length + 1 + (flattenAll ini).length, o % 256, w⟩) →
          Inv pre al b1 (ini ++ [.leaf .bits a (o + w)]) → b1.alloc.hasLast = true →
          b1.alloc.tail = 8 * off ini + o + w →
          (8 * off ini + o) / u = (8 * off ini + o + w - 1) / u →
          b.start ms ≤ 8 * off ini + o →
          (∀ ms', Ext b1 (ini ++ [.leaf .bits a (o + w)]) ms' → Ext b ms ms') →
          ∃ b' ps ms', translateFields false pre.length b (.bit named k w :: fs) = .ok (b', ps) ∧
            Inv pre al b' ms' ∧ Ext b ms ms' ∧
            (ShortRuns ms' → ∀ lay, typeLayoutOf (pre ++ flatten (.struct al ms')) pre.length 1 = .ok lay →
              ∃ stop, Placed lay (b.start ms) (.bit named k w :: fs) ps stop ∧ stop ≤ 8 * off ms') := by
        intro b1 ini a o htr hi hl htail hunit hstart hextb
        obtain ⟨b', ps, ms', he, hinv, hext, hpl⟩ := fields_eq fs hfs hi
        refine ⟨b', some ⟨pre.length + 1 + (flattenAll ini).length, o % 256, w⟩ :: ps, ms', ?_, hinv,
          hextb _ hext, ?_⟩
        · rw [translateFields, translateField]
          simp only [bind, Except.bind, Bool.false_eq_true, if_false, htr]
          rw [he]
        · intro hsr lay hlay
          obtain ⟨stop, hp, hstop⟩ := hpl hsr lay hlay
          obtain ⟨a', p', more, hpp, rfl⟩ := hext.bits
          have hd := lay_at pre al ini more _ lay hinv.wf hlay
          have h256 := hsr a' p' (by simp)
          have hs : b1.start (ini ++ [.leaf .bits a (o + w)]) = 8 * off ini + o + w := by
            simp only [Build.start, hl, if_true, htail]
          rw [hs] at hp
          refine ⟨stop, .bit (p := ⟨_, o % 256, w⟩) (lo := 8 * off ini + o) hwpos hd ?_ hstart rfl hu hunit hp,
            hstop⟩
          rw [(dataAfter_bits _ _ _).1, Nat.mod_eq_of_lt (by omega)]
      have fresh : translateBitfield pre.length b named k w = startRun pre.length b named k w →
          ∃ b' ps ms', translateFields false pre.length b (.bit named k w :: fs) = .ok (b', ps) ∧
            Inv pre al b' ms' ∧ Ext b ms ms' ∧
            (ShortRuns ms' → ∀ lay, typeLayoutOf (pre ++ flatten (.struct al ms')) pre.length 1 = .ok lay →
              ∃ stop, Placed lay (b.start ms) (.bit named k w :: fs) ps stop ∧ stop ≤ 8 * off ms') := by
        intro hf
        obtain ⟨b1, a, o, hst, hi, hl, htail, hunit⟩ := startRun_eq h named hu hwpos hwu
        refine key b1 ms a o (hf.trans hst) hi hl htail hunit ?_ ?_
        · have := h.start_le; omega
        · intro ms' hext
          obtain ⟨a', p', more, _, rfl⟩ := hext.bits
          exact .inl ⟨_, rfl⟩
      by_cases hl : b.alloc.hasLast = true
      · rcases colocated_eq h hl named hu hwpos hwu with hf |
          ⟨ini, a, p, b1, a', rfl, htr, hi, hl1, htail, htb, hunit⟩
        · exact fresh hf
        · refine key b1 ini a' p htr hi hl1 htail hunit ?_ ?_
          · simp only [Build.start, hl, if_true, htb]; exact Nat.le_refl _
          · intro ms' hext
            obtain ⟨a2, p2, more, hp2, rfl⟩ := hext.bits
            exact .inr ⟨hl, ini, a, p, a2, p2, more, rfl, by omega, rfl⟩
      · exact fresh (by rw [translateBitfield, if_neg hw0, if_neg hl])

end Kefir.Layout
