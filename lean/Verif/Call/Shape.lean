import Verif.Call.Walk

/-!
# What is allocated for a parameter
-/

namespace Kefir.Call

open Kefir.Layout Kefir.Abi

/-- Scalars in integer registers. -/
def IntLeaf (k : Leaf) : Prop := k ∉ [.float32, .float64, .longDouble, .memory, .pad, .bits]

/-- Scalars in SSE registers. -/
def SseLeaf (k : Leaf) : Prop := k = .float32 ∨ k = .float64

/-- The eightbytes have consecutive registers from `i` and `s` on. -/
inductive Assigned : List Qword → Nat → Nat → Prop
  | nil {i s} : Assigned [] i s
  | int {w ws i s} : w.klass = .integer → w.location = i → Assigned ws (i + 1) s → Assigned (w :: ws) i s
  | sse {w ws i s} : w.klass = .sse → w.location = s → Assigned ws i (s + 1) → Assigned (w :: ws) i s

/-- What is allocated for a parameter of a type when `c` is used by the parameters before it, and `c'` by
it and them. -/
inductive Shape : Ty → Data → Location → Location → Alloc → Prop
  | pad {al p d c a} : a.type ≠ .owningContainer → Shape (.leaf .pad al p) d c c a
  | intReg {k al p d c a} : IntLeaf k → (k = .builtin → p < 1) → c.int + 1 ≤ 6 → a.klass = .integer →
      a.location.int = c.int → a.type ≠ .owningContainer →
      Shape (.leaf k al p) d c { c with int := c.int + 1 } a
  | intMem {k al p d c a} : IntLeaf k → (k = .builtin → p < 1) → ¬ c.int + 1 ≤ 6 → a.klass = .memory →
      a.location.stack = padAligned c.stack 8 → a.type ≠ .owningContainer →
      Shape (.leaf k al p) d c { c with stack := padAligned c.stack 8 + 8 } a
  | sseReg {k al p d c a} : SseLeaf k → c.sse + 1 ≤ 8 → a.klass = .sse → a.location.sse = c.sse →
      a.type ≠ .owningContainer → Shape (.leaf k al p) d c { c with sse := c.sse + 1 } a
  | sseMem {k al p d c a} : SseLeaf k → ¬ c.sse + 1 ≤ 8 → a.klass = .memory →
      a.location.stack = padAligned c.stack 8 → a.type ≠ .owningContainer →
      Shape (.leaf k al p) d c { c with stack := padAligned c.stack 8 + 8 } a
  | longDouble {al p d c a} : a.klass = .memory → a.location.stack = padAligned c.stack 16 →
      a.type ≠ .owningContainer → Shape (.leaf .longDouble al p) d c { c with stack := padAligned c.stack 16 + 16 } a
  | memory {al p d c a} : a.klass = .memory → a.location.stack = padAligned c.stack (max d.alignment 8) →
      a.type ≠ .owningContainer →
      Shape (.leaf .memory al p) d c { c with stack := padAligned c.stack (max d.alignment 8) + d.size } a
  | aggMem {t d c a} : Ty.isLeaf t = false → a.klass = .memory →
      a.location.stack = padAligned c.stack (max d.alignment 8) → a.type ≠ .owningContainer →
      Shape t d c { c with stack := padAligned c.stack (max d.alignment 8) + d.size } a
  | aggReg {t d c a q} : Ty.isLeaf t = false → a.klass = .noClass → a.type = .owningContainer →
      a.content = .qwords q → q.qwords.length = eightbytes d.size → Assigned q.qwords c.int c.sse →
      c.int + ints q.qwords ≤ 6 → c.sse + sses q.qwords ≤ 8 →
      Shape t d c { c with int := c.int + ints q.qwords, sse := c.sse + sses q.qwords } a

/-- All parameters. -/
inductive ShapeAll : List Ty → List LTree → List (List Alloc) → Location → Location → Prop
  | nil {c} : ShapeAll [] [] [] c c
  | cons {t l a as ts ls ass c c1 c2} : Shape t l.data c c1 a → ShapeAll ts ls ass c1 c2 →
      ShapeAll (t :: ts) (l :: ls) ((a :: as) :: ass) c c2

theorem ints_cons (w : Qword) (ws : List Qword) : ints (w :: ws) = (if w.klass = .integer then 1 else 0) + ints ws := by
  simp only [ints, List.filter_cons]
  split <;> simp_all <;> omega

theorem sses_cons (w : Qword) (ws : List Qword) : sses (w :: ws) = (if w.klass = .sse then 1 else 0) + sses ws := by
  simp only [sses, List.filter_cons]
  split <;> simp_all <;> omega

theorem placeQwords_assigned : ∀ (ws : List Qword), NoUp ws → ∀ (i s : Nat) (ws' : List Qword),
    placeQwords ws i s = .ok ws' →
    ws'.length = ws.length ∧ ints ws' = ints ws ∧ sses ws' = sses ws ∧
    ∀ i' s', (0 < ints ws → i' = i) → (0 < sses ws → s' = s) → Assigned ws' i' s'
  | [], _, i, s, ws', h => by
    simp only [placeQwords, Except.ok.injEq] at h; subst h
    exact ⟨rfl, rfl, rfl, fun _ _ _ _ => .nil⟩
  | w :: ws, hn, i, s, ws', h => by
    have hns : NoUp ws := fun y hy => hn y (List.mem_cons_of_mem _ hy)
    have hw := hn w (List.mem_cons_self ..)
    unfold placeQwords at h
    split at h
    · rename_i hk
      obtain ⟨r', h1, h2⟩ := bind_inv h
      simp only [pure, Except.pure, Except.ok.injEq] at h2; subst h2
      obtain ⟨l1, l2, l3, l4⟩ := placeQwords_assigned ws hns _ _ _ h1
      have hk' : w.klass ≠ .sse := by rw [hk]; decide
      refine ⟨by simp [l1], by simp only [ints_cons, l2], by simp only [sses_cons, l3], fun i' s' hi hs => ?_⟩
      rw [ints_cons, if_pos hk] at hi
      rw [sses_cons, if_neg hk', Nat.zero_add] at hs
      have := hi (by omega)
      subst this
      exact .int hk rfl (l4 _ _ (fun _ => rfl) hs)
    · rename_i hk
      obtain ⟨r', h1, h2⟩ := bind_inv h
      simp only [pure, Except.pure, Except.ok.injEq] at h2; subst h2
      obtain ⟨l1, l2, l3, l4⟩ := placeQwords_assigned ws hns _ _ _ h1
      have hk' : w.klass ≠ .integer := by rw [hk]; decide
      refine ⟨by simp [l1], by simp only [ints_cons, l2], by simp only [sses_cons, l3], fun i' s' hi hs => ?_⟩
      rw [sses_cons, if_pos hk] at hs
      rw [ints_cons, if_neg hk', Nat.zero_add] at hi
      have := hs (by omega)
      subst this
      exact .sse hk rfl (l4 _ _ hi (fun _ => rfl))
    · exact absurd (by assumption) hw
    · cases h

theorem shape_aggregate {t : Ty} {l : LTree} (hk : Ty.isLeaf t = false) {i : Nat} {as : List Alloc}
    (hl : Laid t l) (h : classifyAgg t l i = .ok as) {a : Alloc} {rest} (has : as = a :: rest)
    {c c' : Location} {a' : Alloc} (ha : allocateAggregate l.data c a = .ok (c', a')) :
    Shape t l.data c c' a' := by
  obtain ⟨a0, rest0, rfl, -, hcase⟩ := classifyAgg_inv hl h
  obtain ⟨rfl, rfl⟩ : a0 = a ∧ rest0 = rest := by simpa using has
  rcases hcase with rfl | ⟨q, rq, rfl, hup, hlen, hreq⟩
  · simp [allocateAggregate, memoryEntry, stackAllocate] at ha
    obtain ⟨rfl, rfl⟩ := ha
    exact .aggMem hk rfl rfl (by simp)
  · unfold allocateAggregate at ha
    simp only [registerEntry] at ha
    split at ha
    · rename_i hcond
      obtain ⟨-, -, hint, hsse, hmem⟩ := hcond
      obtain ⟨ws', h1, h2⟩ := bind_inv ha
      simp only [pure, Except.pure, Except.ok.injEq, Prod.mk.injEq] at h2
      obtain ⟨rfl, rfl⟩ := h2
      obtain ⟨hr, -⟩ := placeQwords_inv _ hup _ _ _ h1
      obtain ⟨l1, l2, l3, l4⟩ := placeQwords_assigned _ hup _ _ _ h1
      have hrq := hr {}
      rw [hreq] at hrq
      simp only [Nat.zero_add, Except.ok.injEq] at hrq
      subst hrq
      simp only [integerRegisters, sseRegisters] at hint hsse
      have hloc : ({ c with int := if ints q.qwords > 0 then c.int + ints q.qwords else c.int
                            sse := if sses q.qwords > 0 then c.sse + sses q.qwords else c.sse } : Location) =
          { c with int := c.int + ints ws', sse := c.sse + sses ws' } := by
        simp only [l2, l3, Location.mk.injEq, and_true]
        exact ⟨by split <;> omega, by split <;> omega⟩
      refine hloc.symm ▸ ?_
      refine .aggReg (q := { q with qwords := ws' }) hk rfl rfl rfl ?_ ?_ ?_ ?_
      · simp only [l1, hlen, qwordCount_eq]
      · refine l4 _ _ (fun hp => ?_) (fun hp => ?_)
        · exact (if_pos hp).symm
        · exact (if_pos hp).symm
      · simp only [l2]; exact hint
      · simp only [l3]; exact hsse
    · simp [stackAllocate] at ha
      obtain ⟨rfl, rfl⟩ := ha
      exact .aggMem hk rfl rfl (by simp)

theorem shape_leaf {k : Leaf} {al p : Nat} {l : LTree} (hb : k ≠ .bits)
    {i : Nat} {a : Alloc} (h : classifyLeaf k i p l.data Alloc.fresh = .ok a)
    {c c' : Location} {a' : Alloc} (ha : allocateLeaf k p c a = .ok (c', a')) :
    Shape (.leaf k al p) l.data c c' a' := by
  cases k
  case bits => exact absurd rfl hb
  case pad =>
    simp only [classifyLeaf, Except.ok.injEq] at h; subst h
    simp [allocateLeaf] at ha
    obtain ⟨rfl, rfl⟩ := ha
    exact .pad (by simp)
  case memory =>
    simp only [classifyLeaf, Except.ok.injEq] at h; subst h
    simp only [allocateLeaf, Alloc.fresh, stackAllocate] at ha
    split at ha
    · simp only [Except.ok.injEq, Prod.mk.injEq] at ha
      obtain ⟨rfl, rfl⟩ := ha
      exact .memory rfl rfl (by simp)
    · cases ha
  case longDouble =>
    simp only [classifyLeaf, Except.ok.injEq] at h; subst h
    simp only [allocateLeaf, Alloc.fresh, stackAllocate, Except.ok.injEq, Prod.mk.injEq] at ha
    obtain ⟨rfl, rfl⟩ := ha
    exact .longDouble rfl rfl (by simp)
  case builtin =>
    simp only [classifyLeaf] at h
    split at h
    · rename_i hp
      simp only [Except.ok.injEq] at h; subst h
      simp only [allocateLeaf, Alloc.fresh, stackAllocate, if_pos hp] at ha
      by_cases hc : c.int + 1 ≤ integerRegisters
      · simp only [if_pos hc, Except.ok.injEq, Prod.mk.injEq] at ha
        obtain ⟨rfl, rfl⟩ := ha
        exact .intReg (by simp [IntLeaf]) (fun _ => hp) hc rfl rfl (by simp)
      · simp only [if_neg hc, Except.ok.injEq, Prod.mk.injEq] at ha
        obtain ⟨rfl, rfl⟩ := ha
        exact .intMem (by simp [IntLeaf]) (fun _ => hp) hc rfl rfl (by simp)
    · cases h
  case float32 | float64 =>
    simp only [classifyLeaf, Except.ok.injEq] at h; subst h
    simp only [allocateLeaf, Alloc.fresh, stackAllocate] at ha
    split at ha
    · by_cases hc : c.sse + 1 ≤ sseRegisters
      · simp only [if_pos hc, Except.ok.injEq, Prod.mk.injEq] at ha
        obtain ⟨rfl, rfl⟩ := ha
        exact .sseReg (by simp [SseLeaf]) hc rfl rfl (by simp)
      · simp only [if_neg hc, Except.ok.injEq, Prod.mk.injEq] at ha
        obtain ⟨rfl, rfl⟩ := ha
        exact .sseMem (by simp [SseLeaf]) hc rfl rfl (by simp)
    · cases ha
  all_goals
    simp only [classifyLeaf, Except.ok.injEq] at h; subst h
    simp only [allocateLeaf, Alloc.fresh, stackAllocate] at ha
    split at ha
    · by_cases hc : c.int + 1 ≤ integerRegisters
      · simp only [if_pos hc, Except.ok.injEq, Prod.mk.injEq] at ha
        obtain ⟨rfl, rfl⟩ := ha
        exact .intReg (by simp [IntLeaf]) (by simp) hc rfl rfl (by simp)
      · simp only [if_neg hc, Except.ok.injEq, Prod.mk.injEq] at ha
        obtain ⟨rfl, rfl⟩ := ha
        exact .intMem (by simp [IntLeaf]) (by simp) hc rfl rfl (by simp)
    · cases ha

theorem shape_allocate {t : Ty} {l : LTree} (hl : Laid t l) (hb : t.isBits = false) {i : Nat} {a rest}
    (h : classify t l i = .ok (a :: rest)) {c c' : Location} {a' : Alloc}
    (ha : allocate t l c a = .ok (c', a')) : Shape t l.data c c' a' := by
  cases t with
  | leaf k al p =>
    simp only [classify] at h
    obtain ⟨a0, h1, h2⟩ := bind_inv h
    simp only [Except.ok.injEq, List.cons.injEq] at h2
    obtain ⟨rfl, rfl⟩ := h2
    exact shape_leaf (by intro hk; subst hk; simp [Ty.isBits] at hb) h1 ha
  | struct => exact shape_aggregate rfl hl h rfl ha
  | union => exact shape_aggregate rfl hl h rfl ha
  | array => exact shape_aggregate rfl hl h rfl ha

theorem shape_all : ∀ {ts : List Ty} {ls : List LTree}, LaidAll ts ls → NoBits ts → ∀ {i : Nat} {ass},
    classifyAll ts ls i = .ok ass → ∀ {c c' : Location} {ass'}, allocateAll ts ls c ass = .ok (c', ass') →
    Rows ts ass' ∧ ShapeAll ts ls ass' c c'
  | _, _, .nil, hb, i, ass, h, c, c', ass', ha => by
    simp only [allocateAll, Except.ok.injEq, Prod.mk.injEq] at ha
    obtain ⟨rfl, rfl⟩ := ha
    exact ⟨.nil, .nil⟩
  | _, _, .cons (t := t) (ts := ts) (l := l) (ls := ls) hl hls, hb, i, ass, h, c, c', ass', ha => by
    simp only [classifyAll] at h
    obtain ⟨as, h1, h2⟩ := bind_inv h
    obtain ⟨r, h3, h4⟩ := bind_inv h2
    simp only [Except.ok.injEq] at h4; subst h4
    obtain ⟨a, rest, rfl, hlen⟩ := classify_rows hl h1
    simp only [allocateAll] at ha
    obtain ⟨⟨c1, a'⟩, h5, h6⟩ := bind_inv ha
    obtain ⟨⟨c2, ass2⟩, h7, h8⟩ := bind_inv h6
    simp only [Except.ok.injEq, Prod.mk.injEq] at h8
    obtain ⟨rfl, rfl⟩ := h8
    have hs := shape_allocate hl (hb t (List.mem_cons_self ..)) h1 h5
    obtain ⟨h9, h10⟩ := shape_all hls (fun t ht => hb t (List.mem_cons_of_mem _ ht)) h3 h7
    exact ⟨.cons (by simpa using hlen) h9, .cons hs h10⟩

/-- The locations of the parameters of a function. -/
theorem shape_params (ts : List Ty) (hw : WFAll ts) (hb : NoBits ts) (implicit : Bool) {loc vec}
    (h : functionAllocParams (flattenAll ts) implicit = .ok (loc, vec)) :
    ∃ ass, vec = ass.flatten ∧ Rows ts ass ∧
      ShapeAll ts (layAll (.fresh true) ts).2 ass ⟨if implicit then 1 else 0, 0, 0⟩ loc := by
  have hl := laidAll ts hw (.fresh true)
  rw [functionAllocParams_eq ts hw] at h
  obtain ⟨ass, hc, h1⟩ := bind_inv h
  obtain ⟨⟨c', ass'⟩, ha, h2⟩ := bind_inv h1
  simp only [Except.ok.injEq, Prod.mk.injEq] at h2
  obtain ⟨rfl, rfl⟩ := h2
  obtain ⟨h3, h4⟩ := shape_all hl hb hc ha
  exact ⟨_, rfl, h3, h4⟩

/-- The traversal of the parameters with their allocations. -/
theorem visit_params {σ : Type} (g : Entry → Data → Alloc → σ → Out σ) (ts : List Ty) (hw : WFAll ts)
    {ass : List (List Alloc)} (hr : Rows ts ass) (count : Nat) (hc : ts.length ≤ count) (s : σ) :
    listNodes (withParam (flattenAll ts) ((flatL (layAll (.fresh true) ts).2).map some) ass.flatten g)
      (flattenAll ts) 0 count s = visitAll g ts (layAll (.fresh true) ts).2 ass s := by
  have h := visit_steps g ts hw _ (laidAll ts hw (.fresh true)) ass hr [] .nil [] rfl [] rfl count hc s
  simpa only [flattenAll, List.nil_append, List.length_nil] using h

end Kefir.Call
