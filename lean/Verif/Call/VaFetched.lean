import Verif.Call.VaFetch
import Verif.StaticData.Lemmas

/-!
# Variable arguments: all of them arrive
-/

namespace Kefir.Call

open Kefir.Layout Kefir.Abi

/-- The list of variable arguments when `c` is used by the arguments before the next one. -/
structure VaAt (rbp area : Nat) (c : Location) (ap : VaList) : Prop where
  gp : ap.gp = 8 * c.int
  fp : ap.fp = 48 + 16 * c.sse
  overflow : ap.overflow = rbp + 16 + padAligned c.stack 8
  save : ap.save = area

/-- The layout of a type after others. -/
def layoutIn (c0 : Compound) (t : Ty) : LTree := .node (update c0 (natural t).1 t.entry).2 (natural t).2

theorem layoutIn_size (c0 : Compound) (t : Ty) : (layoutIn c0 t).data.size = (ownLayout t).data.size := by
  simp only [layoutIn, ownLayout, LTree.data, update_size]

theorem layoutIn_alignment (c0 : Compound) (t : Ty) :
    (layoutIn c0 t).data.alignment = (ownLayout t).data.alignment := by
  simp only [layoutIn, ownLayout, LTree.data, update_alignment]

theorem layoutIn_aligned (c0 : Compound) (t : Ty) : (layoutIn c0 t).data.aligned = (ownLayout t).data.aligned := by
  simp only [layoutIn, ownLayout, LTree.data, update_aligned]

theorem pad_zero (st : Nat) : padAligned (padAligned st 8 + 8) 8 = padAligned st 8 + 8 := by
  have := padAligned_mod st 8 (by omega)
  exact StaticData.padAligned_self (by omega) (by omega)

theorem dvd16 {al : Nat} (h : al ∣ 16) : al = 1 ∨ al = 2 ∨ al = 4 ∨ al = 8 ∨ al = 16 := by
  have h1 := Nat.le_of_dvd (by omega) h
  have h2 := Nat.pos_of_dvd_of_pos h (by omega)
  have : ∀ a : Fin 17, 0 < a.val → a.val ∣ 16 → a.val = 1 ∨ a.val = 2 ∨ a.val = 4 ∨ a.val = 8 ∨ a.val = 16 := by
    decide
  exact this ⟨al, by omega⟩ h2 h

/-- The called function finds an aggregate where the calling function has put it. -/
theorem overflow_pad {rbp st al : Nat} (hr : rbp % 16 = 0) (h : al ∣ 16) :
    (if al > 8 then (rbp + 16 + padAligned st 8 + (al - 1)) / al * al else rbp + 16 + padAligned st 8) =
      rbp + 16 + padAligned st (max al 8) := by
  have e8 := padAligned_ge st 8
  have m8 := padAligned_mod st 8 (by omega)
  have l8 := padAligned_lt st 8 (by omega)
  rcases dvd16 h with rfl | rfl | rfl | rfl | rfl
  iterate 4 rfl
  simp only [show (16 : Nat) > 8 by omega, if_true, show max 16 8 = 16 by omega]
  have e16 := padAligned_ge st 16
  have m16 := padAligned_mod st 16 (by omega)
  have l16 := padAligned_lt st 16 (by omega)
  omega

theorem overflow_next {st al size : Nat} (h : al ∣ 16) :
    padAligned (padAligned st (max al 8) + size) 8 = padAligned st (max al 8) + padAligned size 8 := by
  have hm : padAligned st (max al 8) % 8 = 0 := by
    rcases dvd16 h with rfl | rfl | rfl | rfl | rfl
    iterate 4 exact padAligned_mod st 8 (by omega)
    have : padAligned st (max 16 8) % 16 = 0 := padAligned_mod st 16 (by omega)
    omega
  have e := padAligned_ge size 8
  have m := padAligned_mod size 8 (by omega)
  have l := padAligned_lt size 8 (by omega)
  exact StaticData.padAligned_unique (by omega) (by omega) (by omega) (by omega)

section
variable {heap : Word → Mem} {int sse : Nat → Word} {out : Mem}

/-- What has to be shown of one argument. -/
def Fetched (heap : Word → Mem) (rbp area : Nat) (out : Mem) (t : Ty) (size : Nat) (c' : Location) (x : Arg)
    (m : Mem) (r : Out VaState) : Prop :=
  ∃ s', r = .ok s' ∧ VaAt rbp area c' s'.ap ∧ (∀ y, area ≤ y → s'.frame y = m y) ∧
    Arrived heap t size x (s'.pushed.map (s'.received out))

theorem int_loaded {rbp area : Nat} {c : Location} {ap : VaList} {m : Mem} (hv : VaAt rbp area c ap)
    (hc : c.int + 1 ≤ 6) (hm : ∀ n < 6, Mem.load m (area + 8 * n) = int n) :
    loadIntegerVararg rbp out m ap = (int c.int, { ap with gp := ap.gp + 8 }) ∧
      VaAt rbp area { c with int := c.int + 1 } { ap with gp := ap.gp + 8 } := by
  obtain ⟨h1, h2, h3, h4⟩ := hv
  refine ⟨?_, ⟨by simp only [h1]; omega, h2, h3, h4⟩⟩
  rw [loadIntegerVararg, if_neg (by omega), h4, h1, hm _ (by omega)]

theorem stack_word {rbp st : Nat} : Mem.load (atRbp out) (rbp + 16 + st - rbp) = Mem.load out st := by
  rw [show rbp + 16 + st - rbp = st + 2 * 8 by omega, load_atRbp]

theorem int_stack {rbp area : Nat} {c : Location} {ap : VaList} {m : Mem} (hv : VaAt rbp area c ap)
    (hc : ¬ c.int + 1 ≤ 6) :
    loadIntegerVararg rbp out m ap =
        (Mem.load out (padAligned c.stack 8), { ap with overflow := ap.overflow + 8 }) ∧
      VaAt rbp area { c with stack := padAligned c.stack 8 + 8 } { ap with overflow := ap.overflow + 8 } := by
  obtain ⟨h1, h2, h3, h4⟩ := hv
  refine ⟨?_, ⟨h1, h2, by simp only [h3, pad_zero]; omega, h4⟩⟩
  rw [loadIntegerVararg, if_pos (by omega), h3, stack_word]

theorem sse_loaded {rbp area : Nat} {c : Location} {ap : VaList} {m : Mem} (hv : VaAt rbp area c ap)
    (hc : c.sse + 1 ≤ 8) (hm : ∀ n < 8, Mem.load m (area + 48 + 16 * n) = sse n) :
    loadSseVararg rbp out m ap = (sse c.sse, { ap with fp := ap.fp + 16 }) ∧
      VaAt rbp area { c with sse := c.sse + 1 } { ap with fp := ap.fp + 16 } := by
  obtain ⟨h1, h2, h3, h4⟩ := hv
  refine ⟨?_, ⟨h1, by simp only [h2]; omega, h3, h4⟩⟩
  rw [loadSseVararg, if_neg (by omega), h4, h2, ← hm _ (show c.sse < 8 by omega)]
  simp only [Nat.add_assoc]

theorem sse_stack {rbp area : Nat} {c : Location} {ap : VaList} {m : Mem} (hv : VaAt rbp area c ap)
    (hc : ¬ c.sse + 1 ≤ 8) :
    loadSseVararg rbp out m ap =
        (Mem.load out (padAligned c.stack 8), { ap with overflow := ap.overflow + 8 }) ∧
      VaAt rbp area { c with stack := padAligned c.stack 8 + 8 } { ap with overflow := ap.overflow + 8 } := by
  obtain ⟨h1, h2, h3, h4⟩ := hv
  refine ⟨?_, ⟨h1, h2, by simp only [h3, pad_zero]; omega, h4⟩⟩
  rw [loadSseVararg, if_pos (by omega), h3, stack_word]

theorem va_int_entry {k : Leaf} (h : IntLeaf k) {al p : Nat} (rbp out t i s) :
    varargEntry rbp out t i (Ty.leaf k al p).entry s =
      if k = .builtin then varargBuiltin rbp out p s else varargInteger rbp out k p s := by
  cases k <;> first | rfl | simp [IntLeaf] at h

theorem va_sse_entry {k : Leaf} (h : SseLeaf k) {al p : Nat} (rbp out t i s) :
    varargEntry rbp out t i (Ty.leaf k al p).entry s = varargSse rbp out k p s := by
  rcases h with rfl | rfl <;> rfl

theorem va_agg_entry {t : Ty} (h : Ty.isLeaf t = false ∨ ∃ al p, t = .leaf .memory al p) (rbp out ty i s) :
    varargEntry rbp out ty i t.entry s = varargAggregate rbp ty i s := by
  rcases h with h | ⟨al, p, rfl⟩
  · cases t with
    | leaf => simp [Ty.isLeaf] at h
    | _ => rfl
  · rfl

theorem fetched_int {rbp area : Nat} {k : Leaf} {al p : Nat} (hk : IntLeaf k) (hb : k = .builtin → p < 1) {size : Nat}
    {c' : Location} {w : Word} {ap ap' : VaList} {m : Mem} {ty : List Entry} {i : Nat}
    (h : loadIntegerVararg rbp out m ap = (w, ap')) (hv : VaAt rbp area c' ap') :
    Fetched heap rbp area out (.leaf k al p) size c' (.word w) m
      (varargEntry rbp out ty i (Ty.leaf k al p).entry ⟨ap, m, []⟩) := by
  rw [va_int_entry hk]
  by_cases hkb : k = .builtin
  · refine ⟨⟨ap', m, [.word w]⟩, ?_, hv, fun _ _ => rfl, arrived_word (.inl hk) fun _ _ => rfl⟩
    simp only [if_pos hkb, varargBuiltin, if_pos (hb hkb), h, List.nil_append]
  · obtain ⟨v, b, hm, hv'⟩ := mask_keeps (.inl hk) hkb p w
    refine ⟨⟨ap', m, [.word v]⟩, ?_, hv, fun _ _ => rfl, arrived_word (.inl hk) hv'⟩
    simp only [if_neg hkb, varargInteger, h, hm, bind, Except.bind, pure, Except.pure, List.nil_append]

theorem fetched_sse {rbp area : Nat} {k : Leaf} {al p : Nat} (hk : SseLeaf k) {size : Nat}
    {c' : Location} {w : Word} {ap ap' : VaList} {m : Mem} {ty : List Entry} {i : Nat}
    (h : loadSseVararg rbp out m ap = (w, ap')) (hv : VaAt rbp area c' ap') :
    Fetched heap rbp area out (.leaf k al p) size c' (.word w) m
      (varargEntry rbp out ty i (Ty.leaf k al p).entry ⟨ap, m, []⟩) := by
  rw [va_sse_entry hk]
  have hkb : k ≠ .builtin := by rintro rfl; simp [SseLeaf] at hk
  obtain ⟨v, b, hm, hv'⟩ := mask_keeps (.inr hk) hkb p (if k = .float64 then w else keepBytes 4 w)
  refine ⟨⟨ap', m, [.word v]⟩, ?_, hv, fun _ _ => rfl, arrived_word (.inr hk) fun i hi => ?_⟩
  · simp only [varargSse, h, hm, bind, Except.bind, pure, Except.pure, List.nil_append]
  · rw [hv' i hi]
    rcases hk with rfl | rfl
    · have hi' : i.val < 4 := hi
      simp only [reduceCtorEq, if_false, keepBytes, if_pos hi']
    · rfl

/-- An aggregate that has been passed in memory. -/
theorem fetched_memory {rbp area : Nat} {t : Ty} (ht : Ty.isLeaf t = false ∨ ∃ al p, t = .leaf .memory al p)
    {d d0 : Data} (hsize : d.size = d0.size) (hal : d.alignment = d0.alignment) (hdiv : d.alignment ∣ 16)
    (hrbp : rbp % 16 = 0) {c : Location} {w : Word} {ap : VaList} {m : Mem} (hv : VaAt rbp area c ap)
    (hh : ∀ i < d.size, out (padAligned c.stack (max d.alignment 8) + i) = heap w i) :
    Fetched heap rbp area out t d.size { c with stack := padAligned c.stack (max d.alignment 8) + d.size } (.word w) m
      (.ok (varargMemoryAggregate rbp d0 ⟨ap, m, []⟩)) := by
  obtain ⟨h1, h2, h3, h4⟩ := hv
  have ho := overflow_pad (st := c.stack) hrbp hdiv
  have hn := overflow_next (st := c.stack) (size := d.size) hdiv
  rw [hal] at ho hn hdiv hh
  refine ⟨_, rfl, ⟨h1, h2, ?_, h4⟩, fun _ _ => rfl, ?_⟩
  · simp only [varargMemoryAggregate, h3, ho, hn, ← hsize, hal]
    omega
  · have hb : ∀ i < d.size, atRbp out (rbp + 16 + padAligned c.stack (max d0.alignment 8) - rbp + i) = heap w i := by
      intro i hi
      simp only [atRbp]
      rw [if_neg (by omega), ← hh i hi]
      congr 1; omega
    simp only [varargMemoryAggregate, h3, ho, List.nil_append, List.map_cons, List.map_nil, VaState.received]
    rcases ht with ht | ⟨al, p, rfl⟩
    · exact arrived_bytes ht hb
    · exact ⟨_, rfl, hb⟩

theorem fetched {rbp area : Nat} {t : Ty} (hw : WF t) (hld : t.entry.code ≠ .leaf .longDouble)
    (hpad : t.entry.code ≠ .leaf .pad) {c0 : Compound} (hl : Laid t (layoutIn c0 t))
    (hdiv : (layoutIn c0 t).data.alignment ∣ 16) (hrbp : rbp % 16 = 0) {i : Nat} {a1 rest} {c c' : Location} {a : Alloc}
    (hc : classify t (layoutIn c0 t) i = .ok (a1 :: rest))
    (ha : allocate t (layoutIn c0 t) c a1 = .ok (c', a))
    (hs : Shape t (layoutIn c0 t).data c c' a) {x : Arg} (hh : Held heap int sse out t (layoutIn c0 t).data a x) {r}
    (halone : functionAllocParams (flattenAll [t]) false = .ok r)
    (hroom : Ty.isLeaf t = false → a.klass = .noClass → 16 + 8 * eightbytes (layoutIn c0 t).data.size ≤ area)
    {useSse : Prop} (hsse : 0 < c'.sse → useSse) {ap : VaList} (hv : VaAt rbp area c ap) {m : Mem}
    (hm : Saved int sse area useSse m) :
    Fetched heap rbp area out t (layoutIn c0 t).data.size c' x m (varargGet rbp out (flatten t) ⟨ap, m, []⟩) := by
  rw [get_eq hw]
  obtain ⟨b1, restb, loc0, a0, hb, hba, hagg⟩ := alone hw halone
  by_cases hleaf : Ty.isLeaf t = false
  · rw [va_agg_entry (.inl hleaf), hagg]
    have htw : Twin a0 (layoutIn c0 t).data c c' a := by
      cases t with
      | leaf => simp [Ty.isLeaf] at hleaf
      | _ => exact twin hleaf hl (layoutIn_size c0 _).symm (layoutIn_aligned c0 _).symm hc ha hb hba
    cases htw with
    | memory k1 k2 k3 =>
      rw [if_pos k1]
      obtain ⟨w, rfl, hbytes⟩ := held_aggMem hleaf hh k2
      rw [k3] at hbytes
      exact fetched_memory (.inl hleaf) (layoutIn_size c0 t) (layoutIn_alignment c0 t) hdiv hrbp hv hbytes
    | @full _ q0 k1 k2 k3 k4 k5 k6 =>
      rw [if_neg (by rw [k1]; decide), k2]
      obtain ⟨w, rfl, hbytes⟩ := held_aggMem hleaf hh k5
      rw [k6] at hbytes
      have := hv.gp
      have := hv.fp
      have hcond : ap.gp + (0 + ints q0.qwords) * 8 > integerRegisters * 8 ∨
          ap.fp + (0 + sses q0.qwords) * 2 * 8 > integerRegisters * 8 + 2 * sseRegisters * 8 := by
        simp only [integerRegisters, sseRegisters]; omega
      simp only [varargRegisterAggregate, requirements k3, bind, Except.bind]
      rw [if_pos hcond]
      exact fetched_memory (.inl hleaf) (layoutIn_size c0 t) (layoutIn_alignment c0 t) hdiv hrbp hv hbytes
    | @regs _ q0 q k1 k2 k3 k4 k5 k6 k7 k8 k9 k10 k11 k12 =>
      rw [if_neg (by rw [k1]; decide), k2]
      obtain ⟨w, rfl, hq⟩ := held_aggReg hleaf hh k7 k8
      have hr := hroom hleaf k7
      obtain ⟨v1, v2, v3, v4⟩ := hv
      have hcond : ¬ (ap.gp + (0 + ints q0.qwords) * 8 > integerRegisters * 8 ∨
          ap.fp + (0 + sses q0.qwords) * 2 * 8 > integerRegisters * 8 + 2 * sseRegisters * 8) := by
        simp only [integerRegisters, sseRegisters]; omega
      obtain ⟨m', g1, g2, g3⟩ := qwords_copied (src := heap w) (rdx := ap.save + ap.gp) (rcx := ap.save + ap.fp) (lo := area)
        (by omega) (by omega) q0.qwords q.qwords k4 0 c.int c.sse 0 0 m k10 hq (by rw [k9]; omega)
        (fun k hk => by
          rw [← hm.1 (c.int + k) (by omega)]
          congr 1; omega)
        (fun k hk => by
          rw [← hm.2 (hsse (by show 0 < c.sse + sses q.qwords; omega)) (c.sse + k) (by omega)]
          congr 1; omega)
      simp only [varargRegisterAggregate, requirements k3, bind, Except.bind]
      rw [if_neg hcond, g1]
      refine ⟨_, rfl, ⟨?_, ?_, v3, v4⟩, ?_, ?_⟩
      · simp only; omega
      · simp only; omega
      · intro y hy
        exact g2 y (by rw [k9]; omega)
      · refine arrived_bytes hleaf fun i hi => ?_
        refine g3 i (by omega) ?_
        rw [k9]
        simp only [eightbytes]
        omega
  · cases hs with
    | pad => exact absurd rfl hpad
    | intReg k1 k2 k3 k4 k5 =>
      obtain ⟨e1, e2⟩ := int_loaded (out := out) hv k3 hm.1
      rw [held_intReg hh k1 k4, k5]
      exact fetched_int k1 k2 e1 e2
    | intMem k1 k2 k3 k4 k5 =>
      obtain ⟨e1, e2⟩ := int_stack (out := out) (m := m) hv k3
      rw [held_intMem hh k1 k4, k5]
      exact fetched_int k1 k2 e1 e2
    | sseReg k1 k2 k3 k4 =>
      obtain ⟨e1, e2⟩ := sse_loaded (out := out) hv k2 (hm.2 (hsse (Nat.succ_pos _)))
      rw [held_sseReg hh k1 k3, k4]
      exact fetched_sse k1 e1 e2
    | sseMem k1 k2 k3 k4 =>
      obtain ⟨e1, e2⟩ := sse_stack (out := out) (m := m) hv k2
      rw [held_sseMem hh k1 k3, k4]
      exact fetched_sse k1 e1 e2
    | longDouble => exact absurd rfl hld
    | @memory al p _ _ _ k1 k2 =>
      rw [va_agg_entry (.inr ⟨al, p, rfl⟩), hagg]
      have h0 : a0.klass = .memory := by
        simp only [classify, classifyLeaf, Except.bind, Except.ok.injEq, List.cons.injEq] at hb
        simp only [allocate, allocateLeaf, ← hb.1] at hba
        split at hba
        · simp only [Except.ok.injEq, Prod.mk.injEq] at hba
          rw [← hba.2]
        · cases hba
      rw [if_pos h0]
      obtain ⟨w, rfl, hbytes⟩ := held_memory hh
      rw [k2] at hbytes
      exact fetched_memory (.inr ⟨al, p, rfl⟩) (layoutIn_size c0 _) (layoutIn_alignment c0 _) hdiv hrbp hv hbytes
    | aggMem h => exact absurd h hleaf
    | aggReg h => exact absurd h hleaf

/-- The arguments of these types, one after the other. -/
theorem fetched_all {rbp area : Nat} (hrbp : rbp % 16 = 0) {useSse : Prop} {work : Nat → Mem → Mem}
    (hwork : ∀ n m y, area ≤ y → y < area + 176 → work n m y = m y) : ∀ (vs : List Ty) (c0 : Compound), WFAll vs →
    NoBits vs → (∀ v ∈ vs, v.entry.code ≠ .leaf .longDouble) → NoPads vs →
    (∀ l ∈ (layAll c0 vs).2, l.data.alignment ∣ 16) →
    (∀ v ∈ vs, ∃ r, functionAllocParams (flattenAll [v]) false = .ok r) →
    (∀ v ∈ vs, ∀ a1 rest1 loc0 a0, classify v (ownLayout v) 0 = .ok (a1 :: rest1) →
      allocate v (ownLayout v) ⟨0, 0, 0⟩ a1 = .ok (loc0, a0) → Ty.isLeaf v = false → a0.klass = .noClass →
      16 + 8 * eightbytes (ownLayout v).data.size ≤ area) →
    ∀ {i : Nat} {ass ass'} {c c' : Location} {ys : List Arg}, classifyAll vs (layAll c0 vs).2 i = .ok ass →
    allocateAll vs (layAll c0 vs).2 c ass = .ok (c', ass') →
    HeldAll heap int sse out vs (layAll c0 vs).2 ass' ys → (0 < c'.sse → useSse) →
    ∀ (n : Nat) (ap : VaList) (m : Mem), VaAt rbp area c ap → Saved int sse area useSse m →
    ∃ rss, fetchAll rbp out work vs n ap m = .ok rss ∧ ArrivedAll heap vs (layAll c0 vs).2 ys rss
  | [], c0, _, _, _, _, _, _, _, i, ass, ass', c, c', ys, _, ha, hh, _, n, ap, m, _, _ => by
    cases hh
    exact ⟨[], rfl, .nil⟩
  | v :: vs, c0, hw, hb, hld, hp, hdiv, halone, hroom, i, ass, ass', c, c', ys, hc, ha, hh, hsse, n, ap, m, hv, hm => by
    cases hw with
    | cons hw1 hws =>
      have hl := laidAll (v :: vs) (.cons hw1 hws) c0
      have hc' := hc
      have ha' := ha
      simp only [layAll, classifyAll] at hc
      obtain ⟨as, h1, h2⟩ := bind_inv hc
      obtain ⟨r, h3, h4⟩ := bind_inv h2
      simp only [Except.ok.injEq] at h4; subst h4
      have hl1 : Laid v (layoutIn c0 v) := by
        simp only [layAll] at hl
        cases hl with
        | cons h _ => exact h
      obtain ⟨a1, rest, rfl, -⟩ := classify_rows hl1 h1
      simp only [layAll, allocateAll] at ha
      obtain ⟨⟨c1, a⟩, h5, h6⟩ := bind_inv ha
      obtain ⟨⟨c2, ass2⟩, h7, h8⟩ := bind_inv h6
      simp only [Except.ok.injEq, Prod.mk.injEq] at h8
      obtain ⟨rfl, rfl⟩ := h8
      have hsh := shape_allocate hl1 (hb v (List.mem_cons_self ..)) h1 h5
      have hlr := laidAll vs hws (update c0 (natural v).1 v.entry).1
      have hshr := (shape_all hlr (fun t h => hb t (List.mem_cons_of_mem _ h)) h3 h7).2
      simp only [layAll] at hh
      cases hh with
      | @cons _ _ _ _ _ _ _ x xs hh1 hhs =>
        have hm' := saved_congr hm (hwork n m)
        obtain ⟨r1, hr1⟩ := halone v (List.mem_cons_self ..)
        obtain ⟨b1, rb, loc0, a0, g1, g2, -⟩ := alone hw1 hr1
        have hf := fetched (c0 := c0) (m := work n m) hw1 (hld v (List.mem_cons_self ..)) (hp v (List.mem_cons_self ..)) hl1
          (hdiv _ (by simp only [layAll]; exact List.mem_cons_self ..)) hrbp h1 h5 hsh hh1 hr1
          (fun hleaf hk => by
            rw [layoutIn_size]
            refine hroom v (List.mem_cons_self ..) b1 rb loc0 a0 g1 g2 hleaf ?_
            have htw : Twin a0 (layoutIn c0 v).data c c1 a := by
              cases v with
              | leaf => simp [Ty.isLeaf] at hleaf
              | _ => exact twin hleaf hl1 (layoutIn_size c0 _).symm (layoutIn_aligned c0 _).symm h1 h5 g1 g2
            cases htw with
            | memory _ k => rw [hk] at k; cases k
            | full _ _ _ _ k => rw [hk] at k; cases k
            | regs k => exact k)
          (fun h0 => hsse (Nat.lt_of_lt_of_le h0 (ShapeAll.le hshr).2.1)) hv hm'
        obtain ⟨s', e1, e2, e3, e4⟩ := hf
        obtain ⟨rss, f1, f2⟩ := fetched_all hrbp hwork vs (update c0 (natural v).1 v.entry).1 hws
          (fun t h => hb t (List.mem_cons_of_mem _ h)) (fun t h => hld t (List.mem_cons_of_mem _ h))
          (fun t h => hp t (List.mem_cons_of_mem _ h))
          (fun l h => hdiv l (by simp only [layAll]; exact List.mem_cons_of_mem _ h))
          (fun t h => halone t (List.mem_cons_of_mem _ h)) (fun t h => hroom t (List.mem_cons_of_mem _ h))
          h3 h7 hhs hsse (n + 1) s'.ap s'.frame e2 (saved_congr hm' fun y h _ => e3 y h)
        refine ⟨s'.pushed.map (s'.received out) :: rss, ?_, ?_⟩
        · simp only [fetchAll, e1, f1, bind, Except.bind, pure, Except.pure]
        · simp only [layAll]
          exact .cons e4 f2

end

/-! ## The room in the frame -/

theorem temporaries_mono : ∀ (us : List TempUse) (s : Nat × Nat), s.1 ≤ (temporaries us s).1
  | [], _ => Nat.le_refl _
  | .invoke r :: us, s => by
    refine Nat.le_trans ?_ (temporaries_mono us (updateFrameTemporaries r s))
    simp only [updateFrameTemporaries]
    split
    · exact Nat.le_refl _
    · split
      · exact Nat.le_max_left ..
      · exact Nat.le_refl _
  | .varargGet c k d :: us, s => by
    refine Nat.le_trans ?_ (temporaries_mono us (updateFrameTemporariesType c k d s))
    simp only [updateFrameTemporariesType]
    split
    · exact Nat.le_max_left ..
    · exact Nat.le_refl _

theorem temporaries_vararg {c : TypeCode} {k : Class} {d : Data} (hc : c = .struct ∨ c = .union ∨ c = .array)
    (hk : k ≠ .memory) : ∀ (us : List TempUse) (s : Nat × Nat), TempUse.varargGet c k d ∈ us →
    d.size ≤ (temporaries us s).1
  | u :: us, s, h => by
    rcases List.mem_cons.1 h with rfl | hm
    · refine Nat.le_trans ?_ (temporaries_mono us (updateFrameTemporariesType c k d s))
      have hcond : (c = .struct ∨ c = .union ∨ c = .array ∨ c = .leaf .builtin) ∧ k ≠ .memory := by
        refine ⟨?_, hk⟩
        rcases hc with h | h | h <;> simp [h]
      simp only [updateFrameTemporariesType, if_pos hcond]
      exact Nat.le_max_right ..
    · cases u <;> exact temporaries_vararg hc hk us _ (by assumption)

theorem frameParameter_mono : ∀ (ts : List Ty) (ls : List LTree) (ass : List (List Alloc)) (f : Frame),
    ∃ f', visitAll frameParameter ts ls ass f = .ok f' ∧ f.size ≤ f'.size
  | t :: ts, l :: ls, (a :: as) :: ass, f => by
    by_cases ha : a.type = .owningContainer
    · obtain ⟨f', h1, h2⟩ := frameParameter_mono ts ls ass (reserve l.data f)
      refine ⟨f', by simp only [visitAll, frameParameter, if_pos ha, Except.bind, h1], ?_⟩
      have := padAligned_ge f.size (max f.alignment l.data.alignment)
      simp only [reserve] at h2
      omega
    · obtain ⟨f', h1, h2⟩ := frameParameter_mono ts ls ass f
      exact ⟨f', by simp only [visitAll, frameParameter, if_neg ha, Except.bind, h1], h2⟩
  | [], _, _, f => ⟨f, by simp [visitAll], Nat.le_refl _⟩
  | _ :: _, [], _, f => ⟨f, by simp [visitAll], Nat.le_refl _⟩
  | _ :: _, _ :: _, [], f => ⟨f, by simp [visitAll], Nat.le_refl _⟩
  | _ :: _, _ :: _, [] :: _, f => ⟨f, by simp [visitAll], Nat.le_refl _⟩

theorem reserve_save : ∀ (ts : List Ty) (ls : List LTree) (f : Frame),
    ∃ f', visitTypes (fun _ d f => .ok (reserve d f)) ts ls f = .ok f' ∧ f'.registerSaveArea = f.registerSaveArea
  | t :: ts, l :: ls, f => by
    obtain ⟨f', h1, h2⟩ := reserve_save ts ls (reserve l.data f)
    exact ⟨f', h1, h2⟩
  | [], _, f => ⟨f, by simp [visitTypes], rfl⟩
  | _ :: _, [], f => ⟨f, by simp [visitTypes], rfl⟩

end Kefir.Call
