import Verif.Call.Frame
import Verif.Call.Arrive
import Verif.Abi.Props

/-!
# Properties of stack frames and of calls

C84 (the pieces of storage in the frame of a function do not overlap) and C85 (a function receives the
values it has been called with).
-/

namespace Kefir.Call

open Kefir.Layout Kefir.Abi

/-! ## C84 -/

/-- The storage in a frame apart from the parameters: the internal words at its start, `temp` for the
results of calls, the register save area of a function with variable arguments, the local objects. -/
def areas (f : Frame) (vararg : Bool) (temp : Region) (lls : List LTree) : List Region :=
  ⟨0, 16⟩ :: temp :: (if vararg then [⟨f.registerSaveArea, 6 * 8 + 8 * 16⟩] else []) ++
    lls.map (fun l => ⟨f.locals + l.data.offset, l.data.size⟩)

/-- The full statement of C84 for a function with parameters `ts`, local objects `lts` and the instructions
`us`: the frame can be computed and parameters be loaded, whatever the registers and memory contain; the
internal words, the storage for results of calls (large enough for each of them in multiples of eight
bytes), the register save area, the local objects and the parameters passed in registers have no byte in
common and lie in the frame; loading the parameters changes none of the others (the address for the result
in the first eight bytes excepted). -/
def Separate (ts : List Ty) (implicit : Bool) (us : List TempUse) (vararg : Bool) (lts : List Ty) : Prop :=
  ∀ loc vec layout llayout, functionAllocParams (flattenAll ts) implicit = .ok (loc, vec) →
    typeLayout (flattenAll ts) = .ok layout → typeLayout (flattenAll lts) = .ok llayout →
    ∀ (int sse : Nat → Word) (out frame : Mem),
    ∃ ls lls f s temp, layout = (flatL ls).map some ∧ LaidAll ts ls ∧
      llayout = (flatL lls).map some ∧ LaidAll lts lls ∧
      calculateFrame us ⟨flattenAll ts, layout⟩ vec vararg (some ⟨flattenAll lts, llayout⟩) = .ok f ∧
      loadArguments ⟨flattenAll ts, layout⟩ vec implicit f.parameters int sse out frame = .ok s ∧
      temp.start = f.temporary ∧
      (∀ c d, TempUse.invoke (some (c, d)) ∈ us →
        (c = .struct ∨ c = .union ∨ c = .array ∨ c = .leaf .memory ∨ c = .leaf .builtin) →
        8 * eightbytes d.size ≤ temp.size) ∧
      (areas f vararg temp lls ++ (paramObjects ts ls s.pushed).map (·.region)).Pairwise Region.Disjoint ∧
      (∀ r ∈ areas f vararg temp lls ++ (paramObjects ts ls s.pushed).map (·.region), r.Within f.size) ∧
      (∀ a ∈ areas f vararg temp lls, ∀ x, a.Has x → 8 ≤ x → s.frame x = frame x) ∧
      (∀ o ∈ paramObjects ts ls s.pushed, o.region.start % o.alignment = 0) ∧
      f.size % 16 = 0 ∧ f.parameters % 16 = 0 ∧ f.registerSaveArea % 16 = 0 ∧ f.locals % 16 = 0

theorem calculateFrame_eq (ts lts : List Ty) (hw : WFAll ts) (hlw : WFAll lts) (us : List TempUse)
    {ass : List (List Alloc)} (hr : Rows ts ass) (vararg : Bool) (f1 : Frame)
    (h1 : visitAll frameParameter ts (layAll (.fresh true) ts).2 ass
      { size := padDqword (padAligned 16 (temporaries us (0, 0)).2 + (temporaries us (0, 0)).1)
        alignment := max 8 (temporaries us (0, 0)).2
        temporary := padAligned 16 (temporaries us (0, 0)).2
        parameters := padDqword (padAligned 16 (temporaries us (0, 0)).2 + (temporaries us (0, 0)).1)
        registerSaveArea := 0, locals := 0 } = .ok f1) :
    calculateFrame us ⟨flattenAll ts, (flatL (layAll (.fresh true) ts).2).map some⟩ ass.flatten vararg
        (some ⟨flattenAll lts, (flatL (layAll (.fresh true) lts).2).map some⟩) =
      ((visitTypes (fun _ d f => .ok (reserve d f)) lts (layAll (.fresh true) lts).2
        (if vararg then
          { f1 with size := padDqword (padDqword f1.size + 176), registerSaveArea := padDqword f1.size
                    locals := padDqword (padDqword f1.size + 176) }
        else { f1 with size := padDqword f1.size, locals := padDqword f1.size })).bind fun f =>
          .ok { f with size := padDqword f.size }) := by
  have hv := visit_params frameParameter ts hw hr (nodes (flattenAll ts))
    (Nat.le_of_eq (nodes_flattenAll ts hw).symm)
  have hlv := local_steps lts hlw _ (laidAll lts hlw (.fresh true)) [] [] rfl (nodes (flattenAll lts))
    (Nat.le_of_eq (nodes_flattenAll lts hlw).symm)
  simp only [flattenAll, List.nil_append, List.length_nil] at hlv
  simp only [calculateFrame, calculateFrameTemporaries, internalBound, hv, h1, bind, Except.bind, pure, Except.pure, hlv]
  cases vararg <;> rfl

theorem temp_start {al : Nat} (h : al = 0 ∨ PowerOfTwo al) : 16 ≤ padAligned 16 al ∧ padAligned 16 al % 8 = 0 := by
  refine ⟨padAligned_ge _ _, ?_⟩
  rcases h with rfl | h
  · rfl
  · by_cases h8 : 8 ≤ al
    · exact mod_of_dvd (pow_dvd ⟨3, rfl⟩ h h8) (padAligned_mod _ _ (by omega))
    · have hd : al ∣ 8 := pow_dvd h ⟨3, rfl⟩ (by omega)
      have h2 := pad_le (o := 16) (r := 16) (pow_pos h) (Nat.le_refl _)
        (Nat.mod_eq_zero_of_dvd (Nat.dvd_trans hd ⟨2, rfl⟩))
      have := padAligned_ge 16 al
      omega

theorem lay_one {ts : List Ty} (h : ts.length ≤ 1) : (layAll (.fresh true) ts).2 = [] ∨
    ∃ l, (layAll (.fresh true) ts).2 = [l] ∧ l.data.offset = 0 ∧ ∃ t, ts = [t] := by
  match ts, h with
  | [], _ => exact .inl rfl
  | [t], _ =>
    refine .inr ⟨_, rfl, ?_, t, rfl⟩
    simp only [LTree.data, update_offset]
    by_cases hb : t.entry.code = .leaf .bits <;> simp [Compound.fresh, hb, padAligned]

/-- C84 for functions whose parameters have alignments that are powers of two, whose local objects are
members of one structure (which is how the translator declares them), and in which no aggregate passed in
registers is fetched from the variable arguments.  What is missing: several separate local objects and such
variable arguments, for both of which it is false (`C84_locals_false`, `C84_varargs_false`). -/
theorem C84_frame_partial (ts : List Ty) (hw : WFAll ts) (hb : ∀ t ∈ ts, t.isBits = false)
    (hpow : Locals.Pow2AlignedAll ts) (implicit : Bool) (us : List TempUse) (hus : ∀ u ∈ us, PlainUse u)
    (vararg : Bool) (lts : List Ty) (hlw : WFAll lts) (hone : lts.length ≤ 1) :
    Separate ts implicit us vararg lts := by
  intro loc vec layout llayout hf hlay hllay int sse out frame
  obtain ⟨ass, rfl, hr, hs⟩ := shape_params ts hw hb implicit hf
  rw [typeLayout_eq ts hw] at hlay
  cases hlay
  rw [typeLayout_eq lts hlw] at hllay
  cases hllay
  have hlaid := laidAll ts hw (.fresh true)
  have hp : ∀ l ∈ (layAll (.fresh true) ts).2, PowerOfTwo l.data.alignment := Locals.powAll_of hlaid hpow
  obtain ⟨t1, t2, t3⟩ := temporaries_pow us hus (0, 0) (.inl rfl)
  obtain ⟨u1, u2⟩ := temp_start t1
  generalize hT : temporaries us (0, 0) = T at t1 t2 t3 u1 u2
  obtain ⟨tsize, tal⟩ := T
  simp only at t1 t2 t3 u1 u2
  have hA : PowerOfTwo (max 8 tal) := by
    rcases t1 with rfl | h
    · exact ⟨3, rfl⟩
    · exact pow_max ⟨3, rfl⟩ h
  have hP := padDqword_eight (padAligned 16 tal + tsize)
  have hru := roundUp_le u2 (Nat.le_refl (padAligned 16 tal + tsize))
  generalize hbase : padDqword (padAligned 16 tal + tsize) = base at hP
  have hb16 : base % 16 = 0 := hbase ▸ padDqword_mod _
  obtain ⟨size, al, s, is, k1, k2, k3, k4, k5, k6, k7, k8, k9, k10, k12⟩ :=
    frame_params (int := int) (sse := sse) (out := out) hs hp
      { size := base, alignment := max 8 tal, temporary := padAligned 16 tal, parameters := base,
        registerSaveArea := 0, locals := 0 }
      ⟨base, if implicit then Mem.store frame (0 * 8) (int 0) else frame, [], false⟩ hA (by simp only; omega) (Nat.le_refl _)
  have hc := calculateFrame_eq ts lts hw hlw us hr vararg _ (by rw [hT, hbase]; exact k1)
  have hload : loadArguments ⟨flattenAll ts, (flatL (layAll (.fresh true) ts).2).map some⟩ ass.flatten implicit base
      int sse out frame = .ok s := by
    rw [loadArguments]
    simp only
    rw [visit_params (loadArgument int sse out) ts hw hr (nodes (flattenAll ts))
      (Nat.le_of_eq (nodes_flattenAll ts hw).symm), k2]
  simp only [List.nil_append] at k3
  simp only at k4 k6 k10 k12
  have hsz := padDqword_eight size
  have hszm := padDqword_mod size
  have hv176 := padDqword_ge (padDqword size + 176)
  have hvm := padDqword_mod (padDqword size + 176)
  -- the register save area and the locals
  have key : ∀ f2 : Frame, f2.temporary = padAligned 16 tal → f2.parameters = base → f2.locals = f2.size →
      f2.locals % 16 = 0 → padDqword size ≤ f2.locals → f2.registerSaveArea % 16 = 0 →
      (vararg = true → padDqword size ≤ f2.registerSaveArea ∧ f2.registerSaveArea + 176 ≤ f2.locals) →
      calculateFrame us ⟨flattenAll ts, (flatL (layAll (.fresh true) ts).2).map some⟩ ass.flatten vararg
        (some ⟨flattenAll lts, (flatL (layAll (.fresh true) lts).2).map some⟩) =
      ((visitTypes (fun _ d f => .ok (reserve d f)) lts (layAll (.fresh true) lts).2 f2).bind fun f =>
          .ok { f with size := padDqword f.size }) →
      ∃ f, calculateFrame us ⟨flattenAll ts, (flatL (layAll (.fresh true) ts).2).map some⟩ ass.flatten vararg
          (some ⟨flattenAll lts, (flatL (layAll (.fresh true) lts).2).map some⟩) = .ok f ∧
        f.temporary = padAligned 16 tal ∧ f.parameters = base ∧ padDqword size ≤ f.locals ∧ f.locals % 16 = 0 ∧
        (vararg = true → padDqword size ≤ f.registerSaveArea ∧ f.registerSaveArea + 176 ≤ f.locals) ∧
        f.registerSaveArea % 16 = 0 ∧
        f.size % 16 = 0 ∧ f.locals ≤ f.size ∧
        ((layAll (.fresh true) lts).2 = [] ∨ ∃ l, (layAll (.fresh true) lts).2 = [l] ∧ l.data.offset = 0 ∧
          f.locals + l.data.size ≤ f.size) := by
    intro f2 g1 g2 g3 g4 g5 g6 g7 g8
    rw [g8]
    rcases lay_one hone with h0 | ⟨l, h0, hl0, t, rfl⟩
    · have he : visitTypes (fun _ d f => .ok (reserve d f)) lts (layAll (.fresh true) lts).2 f2 = .ok f2 := by
        rw [h0]; cases lts <;> rfl
      rw [he]
      have := padDqword_ge f2.size
      exact ⟨_, rfl, g1, g2, g5, g4, g7, g6, padDqword_mod _, by simp only; omega, .inl h0⟩
    · have he : visitTypes (fun _ d f => .ok (reserve d f)) [t] (layAll (.fresh true) [t]).2 f2 =
          .ok (reserve l.data f2) := by
        rw [h0]; rfl
      rw [he]
      have h3 := padDqword_ge (padAligned f2.size (max f2.alignment l.data.alignment) + l.data.size)
      have h4 := padAligned_ge f2.size (max f2.alignment l.data.alignment)
      exact ⟨_, rfl, g1, g2, g5, g4, g7, g6, padDqword_mod _, by simp only [reserve]; omega,
        .inr ⟨l, h0, hl0, by simp only [reserve]; omega⟩⟩
  obtain ⟨f, m1, m2, m3, m4, m5, m6, m6', m7, m8, m9⟩ : ∃ f, _ := by
    refine key _ ?_ ?_ ?_ ?_ ?_ ?_ ?_ hc
    all_goals cases vararg <;> simp <;> omega
  have hbl : base ≤ padDqword size := by
    have := padDqword_ge size
    omega
  refine ⟨_, _, f, s, ⟨padAligned 16 tal, 8 * eightbytes tsize⟩, rfl, hlaid, rfl, laidAll lts hlw _, m1,
    by rw [m3]; exact hload, m2.symm, ?_, ?_, ?_, ?_, ?_, m7, by rw [m3]; exact hb16, m6', m5⟩
  · intro c d hm hcd
    have := t3 c d hm hcd
    simp only [eightbytes]
    omega
  all_goals rw [← k3] at *
  · -- disjoint
    have hpo : ∀ r ∈ (paramObjects ts (layAll (.fresh true) ts).2 s.pushed).map (·.region),
        base ≤ r.start ∧ r.start + r.size ≤ padDqword size := by
      intro r hr
      obtain ⟨o, ho, rfl⟩ := List.mem_map.1 hr
      have := k10 o ho
      exact ⟨this.1, by have := padDqword_ge size; omega⟩
    have hsep : ∀ a b : Region, a.start + a.size ≤ b.start ∨ b.start + b.size ≤ a.start → a.Disjoint b := by
      intro a b h x hx; omega
    simp only [areas]
    rw [List.pairwise_append]
    refine ⟨?_, k9, ?_⟩
    · refine List.Pairwise.imp (R := fun a b : Region => a.start + a.size ≤ b.start) (fun h => hsep _ _ (.inl h)) ?_
      rcases m9 with h0 | ⟨l, h0, hl0, hl1⟩ <;> rw [h0] <;> cases vararg
      · simp; omega
      · have := m6 rfl; simp; omega
      · simp; omega
      · have := m6 rfl; simp; omega
    · intro a ha b hb
      obtain ⟨hb1, hb2⟩ := hpo b hb
      apply hsep
      rcases List.mem_append.1 ha with ha | ha
      · rcases List.mem_cons.1 ha with rfl | ha
        · left; simp only; omega
        · rcases List.mem_cons.1 ha with rfl | ha
          · left; simp only; omega
          · cases vararg
            · simp at ha
            · simp only [if_true, List.mem_singleton] at ha
              subst ha
              have := m6 rfl
              right; simp only; omega
      · obtain ⟨l, hl, rfl⟩ := List.mem_map.1 ha
        right; simp only; omega
  · intro r hr
    simp only [Region.Within]
    rcases List.mem_append.1 hr with ha | ha
    · simp only [areas] at ha
      rcases List.mem_append.1 ha with ha | ha
      · rcases List.mem_cons.1 ha with rfl | ha
        · simp only; omega
        · rcases List.mem_cons.1 ha with rfl | ha
          · simp only; omega
          · cases vararg
            · simp at ha
            · simp only [if_true, List.mem_singleton] at ha
              subst ha
              have := m6 rfl
              simp only; omega
      · obtain ⟨l, hl, rfl⟩ := List.mem_map.1 ha
        rcases m9 with h0 | ⟨l', h0, hl0, hl1⟩
        · rw [h0] at hl; simp at hl
        · rw [h0] at hl
          simp only [List.mem_singleton] at hl
          subst hl
          simp only; omega
    · obtain ⟨o, ho, rfl⟩ := List.mem_map.1 ha
      have := k10 o ho
      have := padDqword_ge size
      omega
  · intro a ha x hx h8
    have hout : x < base ∨ 8 * eightbytes size ≤ x := by
      simp only [Region.Has] at hx
      simp only [areas] at ha
      rcases List.mem_append.1 ha with ha | ha
      · rcases List.mem_cons.1 ha with rfl | ha
        · left; simp only at hx; omega
        · rcases List.mem_cons.1 ha with rfl | ha
          · left; simp only at hx; omega
          · cases vararg
            · simp at ha
            · simp only [if_true, List.mem_singleton] at ha
              subst ha
              have := m6 rfl
              right; simp only at hx; omega
      · obtain ⟨l, hl, rfl⟩ := List.mem_map.1 ha
        right; simp only at hx; omega
    rw [k12 x hout]
    cases implicit
    · rfl
    · exact store_out _ _ _ _ (by omega)
  · intro o ho; exact (k10 o ho).2.2

/-- C84: with a stack pointer as the ABI prescribes at the entry of a function, the frame is aligned to
sixteen bytes, and so is everything in it that has an offset which is a multiple of sixteen: an object whose
alignment divides sixteen is aligned. -/
theorem C84_aligned_partial (f : Frame) (rsp offset alignment : Nat) (hrsp : (rsp + 8) % 16 = 0)
    (hroom : 72 + f.size ≤ rsp) (hsize : f.size % 16 = 0) (hal : alignment ∣ 16) (ho : offset % alignment = 0) :
    (frameAddress rsp f + offset) % alignment = 0 := by
  have h : frameAddress rsp f % 16 = 0 := by simp only [frameAddress]; omega
  exact Nat.mod_eq_zero_of_dvd (Nat.dvd_add (Nat.dvd_trans hal (Nat.dvd_of_mod_eq_zero h))
    (Nat.dvd_of_mod_eq_zero ho))

example : (frameAddress 1000072 ⟨96, 8, 16, 32, 0, 48⟩ + 48) % 16 = 0 :=
  C84_aligned_partial _ _ _ _ (by decide) (by decide) (by decide) (by decide) (by decide)

/-- `_Alignas(32) char c;` as the only local object. -/
def overAligned : Ty := .struct 0 [.leaf .char 32 0]

theorem overAligned_wf : WFAll [overAligned] := .cons (.struct (by simp) (.cons (.leaf (by simp)) .nil)) .nil

/-- C84 fails for larger alignments: the frame of a function with a local object aligned to 32 bytes can
start at any multiple of sixteen. -/
theorem C84_aligned_false : ∃ (l : LTree) (f : Frame) (rsp : Nat), Laid overAligned l ∧ l.data.alignment = 32 ∧
    calculateFrame [] ⟨[], []⟩ [] false (some ⟨flattenAll [overAligned], (flatL [l]).map some⟩) = .ok f ∧
    (rsp + 8) % 16 = 0 ∧ 72 + f.size ≤ rsp ∧ (frameAddress rsp f + f.locals + l.data.offset) % 32 ≠ 0 := by
  have hc := calculateFrame_eq [] [overAligned] .nil overAligned_wf [] .nil false _ rfl
  refine ⟨_, _, 1000 * 32 + 8, (by cases laidAll [overAligned] overAligned_wf (.fresh true); assumption), rfl, hc,
    by decide +kernel, by decide +kernel, by decide +kernel⟩

/-- Nine characters, and two `int`s. -/
def nine : Ty := .struct 0 [.array 0 9 (.leaf .char 0 0)]
def pair : Ty := .struct 0 [.leaf .long 0 0]

/-- `void f(struct nine, struct pair, struct nine, ...)`. -/
def nines : List Ty := [nine, pair, nine]

theorem nine_wf : WF nine := .struct (by simp) (.cons (.array (.leaf (by simp))) .nil)
theorem pair_wf : WF pair := .struct (by simp) (.cons (.leaf (by simp)) .nil)
theorem nines_wf : WFAll nines := .cons nine_wf (.cons pair_wf (.cons nine_wf .nil))

/-- The function also fetches a `struct nine` from its variable arguments. -/
def nineUse : TempUse := .varargGet .struct .noClass ⟨9, 1, true, 0⟩

theorem data_unique : ∀ {ts : List Ty} {ls ls' : List LTree}, LaidAll ts ls → LaidAll ts ls' → flatL ls = flatL ls' →
    ls.map (·.data) = ls'.map (·.data)
  | _, _, _, .nil, .nil, _ => rfl
  | _, _, _, .cons (l := l) hl hls, .cons (l := l') hl' hls', h => by
    simp only [flatL] at h
    obtain ⟨h1, h2⟩ := List.append_inj h (by rw [flat_length hl, flat_length hl'])
    obtain ⟨d, ms⟩ := l
    obtain ⟨d', ms'⟩ := l'
    simp only [LTree.flat, List.cons.injEq] at h1
    have := data_unique hls hls' h2
    rw [List.map_cons, List.map_cons, this]
    simp only [LTree.data, h1.1]

theorem paramObjects_congr : ∀ (ts : List Ty) (ls ls' : List LTree) (is : List Item),
    ls.map (·.data) = ls'.map (·.data) → paramObjects ts ls is = paramObjects ts ls' is
  | [], _, _, _, _ => by simp [paramObjects]
  | t :: ts, [], [], _, _ => rfl
  | t :: ts, l :: ls, l' :: ls', is, h => by
    simp only [List.map_cons, List.cons.injEq] at h
    simp only [paramObjects, h.1, paramObjects_congr ts ls ls' _ h.2]
  | _ :: _, [], _ :: _, _, h => by simp at h
  | _ :: _, _ :: _, [], _, h => by simp at h

theorem map_some_inj {l l' : List Data} (h : l.map some = l'.map some) : l = l' :=
  (List.map_inj_right (fun _ _ h => Option.some.inj h)).1 h

/-- The layouts and allocations of the parameters. -/
def ninesLayout : List LTree := (layAll (.fresh true) nines).2

def ninesAlloc : List (List Alloc) :=
  match (classifyAll nines ninesLayout 0).bind (allocateAll nines ninesLayout ⟨0, 0, 0⟩) with
  | .ok r => r.2
  | .error _ => []

theorem ok_of_some {α : Type} {x : Out α} {v : α} (h : x.toOption = some v) : x = .ok v := by
  cases x with
  | error e => cases h
  | ok a => cases h; rfl

theorem nines_alloc : functionAllocParams (flattenAll nines) false = .ok (⟨5, 0, 0⟩, ninesAlloc.flatten) := by
  rw [functionAllocParams_eq nines nines_wf]
  exact ok_of_some (by decide +kernel)

theorem nines_rows : Rows nines ninesAlloc := by
  have h : (classifyAll nines ninesLayout 0).bind (allocateAll nines ninesLayout ⟨0, 0, 0⟩) =
      .ok (⟨5, 0, 0⟩, ninesAlloc) := ok_of_some (by decide +kernel)
  obtain ⟨ass, h1, h2⟩ := bind_inv h
  have hl := laidAll nines nines_wf (.fresh true)
  exact (shape_all hl (by simp [NoBits, nines, nine, pair, Ty.isBits]) h1 h2).1

def frameItem : Item → Option Nat
  | .frame n => some n
  | _ => none

theorem frameItems : ∀ {is : List Item} {ns : List Nat}, is.map frameItem = ns.map some → is = ns.map Item.frame
  | [], [], _ => rfl
  | i :: is, n :: ns, h => by
    simp only [List.map_cons, List.cons.injEq] at h
    cases i <;> simp [frameItem] at h
    simp [h.1, frameItems h.2]
  | [], _ :: _, h => by simp at h
  | _ :: _, [], h => by simp at h

/-- C84 fails when an aggregate passed in registers is fetched from the variable arguments: its size is
taken for an alignment (`function.c:106-107`), and the room for parameters is then computed with other
offsets than those at which the parameters are stored.  In
`void f(struct nine a, struct pair b, struct nine c, ...)` that fetches a `struct nine`, the last byte of `c`
is the first byte of the register save area. -/
theorem C84_varargs_false : ¬ Separate nines false [nineUse] true [] := by
  intro H
  obtain ⟨ls, lls, f, s, temp, h1, h2, h3, h4, h5, h6, h7, h8, h9, -⟩ := H _ _ _ _ nines_alloc
    (typeLayout_eq nines nines_wf) (typeLayout_eq [] .nil) (fun _ _ => 0) (fun _ _ => 0) (fun _ => 0) (fun _ => 0)
  have hobj := fun is => paramObjects_congr nines ls ninesLayout is
    (data_unique h2 (laidAll nines nines_wf _) (map_some_inj h1).symm)
  have hc := calculateFrame_eq nines [] nines_wf .nil [nineUse] nines_rows true ⟨63, 9, 18, 32, 0, 0⟩
    (ok_of_some (by decide +kernel))
  have hf : Except.ok f = (Except.ok ⟨240, 9, 18, 32, 64, 240⟩ : Out Frame) := by
    rw [← h5]; exact hc.trans (ok_of_some (by decide +kernel))
  cases hf
  rw [loadArguments] at h6
  simp only at h6
  rw [visit_params (loadArgument (fun _ _ => 0) (fun _ _ => 0) (fun _ => 0)) nines nines_wf nines_rows
    (nodes (flattenAll nines)) (Nat.le_of_eq (nodes_flattenAll nines nines_wf).symm)] at h6
  have hp : Except.map (fun s => s.pushed.map frameItem) (visitAll (loadArgument (fun _ _ => 0) (fun _ _ => 0) (fun _ => 0))
      nines ninesLayout ninesAlloc ⟨32, fun _ => 0, [], false⟩) = .ok [some 32, some 48, some 56] :=
    ok_of_some (by decide +kernel)
  have hs : s.pushed = [.frame 32, .frame 48, .frame 56] := by
    erw [h6] at hp
    exact frameItems (ns := [32, 48, 56]) (by simpa [Except.map] using hp)
  rw [hobj, hs] at h9
  have hsave : (⟨64, 6 * 8 + 8 * 16⟩ : Region) ∈ areas ⟨240, 9, 18, 32, 64, 240⟩ true temp lls := by simp [areas]
  have hpar : (⟨56, 9⟩ : Region) ∈ (paramObjects nines ninesLayout [.frame 32, .frame 48, .frame 56]).map (·.region) := by
    decide +kernel
  have := (List.pairwise_append.1 h9).2.2 _ hsave _ hpar
  exact absurd this (by decide)

/-- Two local objects that are not members of one structure. -/
def separateLocals : List Ty := [.leaf .char 0 0, .leaf .int 32 0]

theorem separateLocals_wf : WFAll separateLocals := .cons (.leaf (by simp)) (.cons (.leaf (by simp)) .nil)

/-- C84 fails for several separate local objects: the room for them is computed from offsets relative to the
start of the frame, their places from offsets relative to the start of the locals.  (Local objects of C
programs are members of one structure.) -/
theorem C84_locals_false : ¬ Separate [] false [] false separateLocals := by
  intro H
  obtain ⟨ls, lls, f, s, temp, h1, h2, h3, h4, h5, h6, h7, h8, h9, h10, -⟩ := H ⟨0, 0, 0⟩ [] _ _
    (functionAllocParams_eq [] .nil false) (typeLayout_eq [] .nil)
    (typeLayout_eq separateLocals separateLocals_wf) (fun _ _ => 0) (fun _ _ => 0) (fun _ => 0) (fun _ => 0)
  have hdata := data_unique h4 (laidAll separateLocals separateLocals_wf (.fresh true)) (map_some_inj h3).symm
  have hc := calculateFrame_eq [] separateLocals .nil separateLocals_wf [] .nil false ⟨16, 8, 16, 16, 0, 0⟩
    (ok_of_some (by decide +kernel))
  have hf : Except.ok f = (Except.ok ⟨48, 32, 16, 16, 0, 16⟩ : Out Frame) := by
    rw [← h5]; exact hc.trans (ok_of_some (by decide +kernel))
  cases hf
  have hloc : (⟨16 + 32, 4⟩ : Region) ∈ lls.map (fun l => (⟨16 + l.data.offset, l.data.size⟩ : Region)) := by
    have : lls.map (fun l => (⟨16 + l.data.offset, l.data.size⟩ : Region)) =
        (lls.map (·.data)).map (fun d => (⟨16 + d.offset, d.size⟩ : Region)) := by
      rw [List.map_map]; rfl
    rw [this, hdata]
    decide +kernel
  have := h10 ⟨16 + 32, 4⟩ (List.mem_append_left _ (by simp only [areas]; exact List.mem_append_right _ hloc))
  simp [Region.Within] at this

/-- The hypotheses of `C84_frame_partial` are met by a function with three structures in registers, variable
arguments, a call that returns a structure, and local objects. -/
example : Separate nines false [.invoke (some (.struct, ⟨40, 8, true, 0⟩)), .varargGet (.leaf .int) .integer ⟨4, 4, true, 0⟩] true
    [.struct 0 [.leaf .char 0 0, .leaf .int 16 0]] :=
  C84_frame_partial nines nines_wf (by simp [nines, nine, pair, Ty.isBits])
    (.cons (.struct (.inl rfl) (.cons (.array (.inl rfl) (.leaf (.inl rfl))) .nil))
      (.cons (.struct (.inl rfl) (.cons (.leaf (.inl rfl)) .nil))
        (.cons (.struct (.inl rfl) (.cons (.array (.inl rfl) (.leaf (.inl rfl))) .nil)) .nil))) false _
    (by
      intro u hu
      rcases List.mem_cons.1 hu with rfl | hu
      · exact ⟨3, rfl⟩
      · simp only [List.mem_singleton] at hu
        subst hu
        simp [PlainUse]) true _
    (.cons (.struct (by simp) (.cons (.leaf (by simp)) (.cons (.leaf (by simp)) .nil))) .nil) (by simp)

example : ∃ loc vec, functionAllocParams (flattenAll nines) false = .ok (loc, vec) := ⟨_, _, nines_alloc⟩

/-! ## C85 -/

/-- C85: a function receives the values it has been called with.  `ts` are the types of the parameters, `vs`
those of variable arguments passed after them.  If the calling function has the arguments on its operand
stack and stores them as it does before the call, then the called function, which knows `ts` only, loads for
each parameter the value of the argument: a scalar with the bytes of its type, a `long double` with both its
words, an aggregate with all bytes of the object.  The address for the result is saved at the start of the
frame.  It holds whatever the registers, the stack and the frame contained before. -/
theorem C85_arguments_arrive (heap : Word → Mem) (ts vs : List Ty) (hw : WFAll (ts ++ vs))
    (hb : ∀ t ∈ ts ++ vs, t.isBits = false) (hp : ∀ t ∈ ts ++ vs, t.entry.code ≠ .leaf .pad)
    (xs ys : List Arg) (hx : ArgsFor ts xs) (hy : ArgsFor vs ys) (implicit vararg : Bool) {loc vec}
    (hcall : functionAllocParams (flattenAll (ts ++ vs)) implicit = .ok (loc, vec)) {layout}
    (hlay : typeLayout (flattenAll (ts ++ vs)) = .ok layout)
    (stack : Nat → Word) (hst : OnTop stack ((xs ++ ys).flatMap Arg.pushed)) (result : Word) (before : Caller)
    (base : Nat) (hbase : 8 ≤ base) (frame : Mem) :
    ∃ s loc' vec' layout' ls f rss,
      invokePrologue ⟨flattenAll (ts ++ vs), layout⟩ vec loc implicit vararg stack heap result before =
        .ok (s, if vararg then some loc.sse else none) ∧
      functionAllocParams (flattenAll ts) implicit = .ok (loc', vec') ∧
      typeLayout (flattenAll ts) = .ok layout' ∧ layout' = (flatL ls).map some ∧ LaidAll ts ls ∧
      loadArguments ⟨flattenAll ts, layout'⟩ vec' implicit base s.int s.sse s.out frame = .ok f ∧
      f.pushed.map (f.received s.out) = List.flatten rss ∧ ArrivedAll heap ts ls xs rss ∧
      (implicit = true → Mem.load f.frame 0 = result) := by
  obtain ⟨loc1, a1, a2, h1, rfl, h3, h4, h5, h6, h7⟩ := params_split ts vs hw hb implicit hcall
  have hall : ShapeAll (ts ++ vs) (layAll (.fresh true) (ts ++ vs)).2 (a1 ++ a2)
      ⟨if implicit then 1 else 0, 0, 0⟩ loc := by
    rw [layAll_append]; exact shapeAll_append h5 h6
  obtain ⟨s, g1, g2, g3⟩ := invoke_held heap (ts ++ vs) hw hp h4 (loc' := loc) hall vararg
    (argsFor_append hx hy) hst result before hlay
  rw [layAll_append] at g2
  obtain ⟨g4, -⟩ := heldAll_split (ShapeAll.lengths h5).1 (ShapeAll.lengths h5).2 (argsFor_length hx) g2
  have hwt := wfAll_left hw
  obtain ⟨f, rss, k1, k2, k3, k4⟩ := load_held heap ts hwt h3 g4 implicit base frame (typeLayout_eq ts hwt)
  refine ⟨s, loc1, _, _, _, f, rss, g1, h1, typeLayout_eq ts hwt, rfl, laidAll ts hwt _, k1, k2, k3, ?_⟩
  rintro rfl
  rw [load_congr (m := Mem.store frame 0 (s.int 0)), load_store, g3 rfl]
  intro x _ hx8
  exact k4 x (by omega)

/-- A word of eight equal bytes. -/
def wd (n : UInt8) : Word := fun _ => n

/-- The hypotheses of `C85_arguments_arrive` are met by a call of
`f(struct nine, struct pair, struct nine, int, long double, ...)` with a variable argument. -/
example : let ts := nines ++ [.leaf .int 0 0, .leaf .longDouble 0 0]
    let vs : List Ty := [.leaf .float64 0 0]
    (∀ t ∈ ts ++ vs, t.isBits = false) ∧ (∀ t ∈ ts ++ vs, t.entry.code ≠ .leaf .pad) ∧
    ArgsFor ts [.word (wd 1), .word (wd 2), .word (wd 3), .word (wd 4), .ext (wd 5) (wd 6)] ∧ ArgsFor vs [.word (wd 7)] ∧
    (∃ loc vec, functionAllocParams (flattenAll (ts ++ vs)) true = .ok (loc, vec)) ∧
    OnTop (fun n => ([.word (wd 1), .word (wd 2), .word (wd 3), .word (wd 4), .ext (wd 5) (wd 6), .word (wd 7)].flatMap Arg.pushed).reverse.getD n (wd 0))
      ([.word (wd 1), .word (wd 2), .word (wd 3), .word (wd 4), .ext (wd 5) (wd 6), .word (wd 7)].flatMap Arg.pushed) := by
  refine ⟨by decide, by decide, ?_, ?_, ?_, ?_⟩
  · exact .cons trivial (.cons trivial (.cons trivial (.cons trivial (.cons trivial .nil))))
  · exact .cons trivial .nil
  · obtain ⟨r, hr⟩ : ∃ r, functionAllocParams (flattenAll ((nines ++ [.leaf .int 0 0, .leaf .longDouble 0 0]) ++
        [.leaf .float64 0 0])) true = .ok r := by
      have hw : WFAll ((nines ++ [.leaf .int 0 0, .leaf .longDouble 0 0]) ++ [.leaf .float64 0 0]) :=
        .cons nine_wf (.cons pair_wf (.cons nine_wf (.cons (.leaf (by simp))
          (.cons (.leaf (by simp)) (.cons (.leaf (by simp)) .nil)))))
      rw [functionAllocParams_eq _ hw]
      exact ok_of (by decide +kernel)
    exact ⟨r.1, r.2, hr⟩
  · intro i hi
    simp only [Arg.pushed, List.flatMap_cons, List.flatMap_nil, List.cons_append, List.nil_append,
      List.length_cons, List.length_nil] at hi ⊢
    match i, hi with
    | 0, _ | 1, _ | 2, _ | 3, _ | 4, _ | 5, _ | 6, _ => rfl

end Kefir.Call
