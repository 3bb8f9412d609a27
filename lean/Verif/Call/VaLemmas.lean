import Verif.Call.VaModel
import Verif.Call.Frame
import Verif.Call.Arrive

/-!
# Variable arguments: lemmas
-/

namespace Kefir.Call

open Kefir.Layout Kefir.Abi

/-! ## The division of a type into eightbytes does not depend on where the type is -/

theorem collect_index {f g : Qwords → Out (Qwords × List Alloc)}
    (h : ∀ q q' as, f q = .ok (q', as) → ∃ as', g q = .ok (q', as')) :
    ∀ (n : Nat) (q q' as), collect n f q = .ok (q', as) → ∃ as', collect n g q = .ok (q', as')
  | 0, q, q', as, hc => by
    simp only [collect, Except.ok.injEq, Prod.mk.injEq] at hc
    obtain ⟨rfl, -⟩ := hc
    exact ⟨[], rfl⟩
  | n + 1, q, q', as, hc => by
    simp only [collect] at hc
    obtain ⟨v, h1, h2⟩ := bind_inv hc
    obtain ⟨v', h3, h4⟩ := bind_inv h2
    simp only [Except.ok.injEq, Prod.mk.injEq] at h4
    obtain ⟨rfl, -⟩ := h4
    obtain ⟨b1, e1⟩ := h _ _ _ h1
    obtain ⟨b2, e2⟩ := collect_index h n _ _ _ h3
    apply Exists.intro
    simp only [collect, e1, Except.bind, e2]
    rfl

mutual
theorem nest_index : ∀ (t : Ty) (l : LTree), Laid t l → ∀ (i j : Nat) (q q' : Qwords) (as),
    nest t l i q = .ok (q', as) → ∃ as', nest t l j q = .ok (q', as')
  | .leaf k al p, .node d ls, _, i, j, q, q', as, h => by
    simp only [nest] at h
    obtain ⟨v, h1, h2⟩ := bind_inv h
    simp only [Except.ok.injEq, Prod.mk.injEq] at h2
    obtain ⟨rfl, -⟩ := h2
    apply Exists.intro
    simp only [nest, h1, Except.bind]
    rfl
  | .struct al ms, .node d ls, hl, i, j, q, q', as, h => by
    have hla : LaidAll ms ls := by cases hl; assumption
    simp only [nest] at h
    obtain ⟨v, h1, h2⟩ := bind_inv h
    simp only [Except.ok.injEq, Prod.mk.injEq] at h2
    obtain ⟨rfl, -⟩ := h2
    obtain ⟨b, e⟩ := nestAll_index ms ls hla _ (j + 1) _ _ _ h1
    apply Exists.intro
    simp only [nest, e, Except.bind]
    rfl
  | .union al ms, .node d ls, hl, i, j, q, q', as, h => by
    have hla : LaidAll ms ls := by cases hl; assumption
    simp only [nest] at h
    obtain ⟨p, h1, h2⟩ := bind_inv h
    obtain ⟨v, h3, h4⟩ := bind_inv h2
    obtain ⟨q2, h5, h6⟩ := bind_inv h4
    simp only [Except.ok.injEq, Prod.mk.injEq] at h6
    obtain ⟨rfl, -⟩ := h6
    obtain ⟨b, e⟩ := nestUnion_index ms ls hla _ (j + 1) _ _ _ _ _ _ h3
    apply Exists.intro
    simp only [nest, h1, e, h5, Except.bind]
    rfl
  | .array al n e, .node d ls, hl, i, j, q, q', as, h => by
    obtain ⟨l, rfl, hle⟩ : ∃ l, ls = [l] ∧ Laid e l := by cases hl; exact ⟨_, rfl, by assumption⟩
    simp only [nest] at h
    obtain ⟨v, h1, h2⟩ := bind_inv h
    simp only [Except.ok.injEq, Prod.mk.injEq] at h2
    obtain ⟨rfl, -⟩ := h2
    obtain ⟨b, e1⟩ := collect_index (g := fun q => nest e l (j + 1) q)
      (fun q q' as h => nest_index e l hle _ (j + 1) q q' as h) _ _ _ _ h1
    apply Exists.intro
    simp only [nest, e1, Except.bind]
    rfl

theorem nestAll_index : ∀ (ts : List Ty) (ls : List LTree), LaidAll ts ls → ∀ (i j : Nat) (q q' : Qwords) (as),
    nestAll ts ls i q = .ok (q', as) → ∃ as', nestAll ts ls j q = .ok (q', as')
  | [], ls, hl, i, j, q, q', as, h => by
    cases hl
    simp only [nestAll, Except.ok.injEq, Prod.mk.injEq] at h
    obtain ⟨rfl, -⟩ := h
    exact ⟨[], by simp only [nestAll]⟩
  | t :: ts, ls, hl, i, j, q, q', as, h => by
    obtain ⟨l, ls, rfl, hlt, hls⟩ : ∃ l ls', ls = l :: ls' ∧ Laid t l ∧ LaidAll ts ls' := by
      cases hl; exact ⟨_, _, rfl, by assumption, by assumption⟩
    simp only [nestAll] at h
    obtain ⟨v, h1, h2⟩ := bind_inv h
    obtain ⟨v', h3, h4⟩ := bind_inv h2
    simp only [Except.ok.injEq, Prod.mk.injEq] at h4
    obtain ⟨rfl, -⟩ := h4
    obtain ⟨b1, e1⟩ := nest_index t l hlt _ j _ _ _ h1
    obtain ⟨b2, e2⟩ := nestAll_index ts ls hls _ (j + (flatten t).length) _ _ _ h3
    apply Exists.intro
    simp only [nestAll, e1, Except.bind, e2]
    rfl

theorem nestUnion_index : ∀ (ts : List Ty) (ls : List LTree), LaidAll ts ls →
    ∀ (i j : Nat) (p p' : Pos) (q q' : Qwords) (p'' as),
    nestUnion ts ls i p p' q = .ok (q', p'', as) → ∃ as', nestUnion ts ls j p p' q = .ok (q', p'', as')
  | [], ls, hl, i, j, p, p', q, q', p'', as, h => by
    cases hl
    simp only [nestUnion, Except.ok.injEq, Prod.mk.injEq] at h
    obtain ⟨rfl, rfl, -⟩ := h
    exact ⟨[], by simp only [nestUnion]⟩
  | t :: ts, ls, hl, i, j, p, p', q, q', p'', as, h => by
    obtain ⟨l, ls, rfl, hlt, hls⟩ : ∃ l ls', ls = l :: ls' ∧ Laid t l ∧ LaidAll ts ls' := by
      cases hl; exact ⟨_, _, rfl, by assumption, by assumption⟩
    simp only [nestUnion] at h
    obtain ⟨v, h1, h2⟩ := bind_inv h
    obtain ⟨pp, h3, h4⟩ := bind_inv h2
    obtain ⟨qq, h5, h6⟩ := bind_inv h4
    obtain ⟨v', h7, h8⟩ := bind_inv h6
    simp only [Except.ok.injEq, Prod.mk.injEq] at h8
    obtain ⟨rfl, rfl, -⟩ := h8
    obtain ⟨b1, e1⟩ := nest_index t l hlt _ j _ _ _ h1
    obtain ⟨b2, e2⟩ := nestUnion_index ts ls hls _ (j + (flatten t).length) _ _ _ _ _ _ h7
    apply Exists.intro
    simp only [nestUnion, e1, Except.bind, h3, h5, e2]
    rfl
end

theorem ignoring_ok {α : Type} {b : Bool} {x : Out α} {r : α} : ignoring b x = .ok r ↔ x = .ok r := by
  cases x with
  | ok a => simp [ignoring]
  | error f =>
    constructor
    · intro h; cases f <;> simp only [ignoring] at h <;> first | cases h | (split at h <;> cases h)
    · intro h; cases h

theorem classifyAgg_node (t : Ty) (d : Data) (ls : List LTree) (i : Nat) :
    classifyAgg t (.node d ls) i =
      if d.size > 8 * 8 ∨ ¬ d.aligned then
        .ok (memoryEntry i d :: List.replicate (objects t - 1) Alloc.fresh)
      else
        (ignoring (Ty.isStruct t) (nest t (.node d ls) i (qwordsAlloc (qwordCount d.size)))).bind fun r =>
          match postmerger r.1 with
          | none => .ok (memoryEntry i d :: r.2.tail)
          | some q => (qwordRequirements q.qwords {}).bind fun rq => .ok (registerEntry i q rq :: r.2.tail) := rfl

/-- What the classification of an aggregate finds in another place. -/
theorem classifyAgg_index {t : Ty} {d d0 : Data} {ls : List LTree} (hk : Ty.isLeaf t = false)
    (hl : Laid t (.node d ls)) (hs : d0.size = d.size) (hal : d0.aligned = d.aligned) {i j : Nat} {a rest}
    (h : classifyAgg t (.node d ls) i = .ok (a :: rest)) :
    ∃ a0 rest0, classifyAgg t (.node d0 ls) j = .ok (a0 :: rest0) ∧
      ((a = memoryEntry i d ∧ a0 = memoryEntry j d0) ∨
        ∃ q rq, a = registerEntry i q rq ∧ a0 = registerEntry j q rq ∧ NoUp q.qwords ∧
          q.qwords.length = qwordCount d.size ∧ qwordRequirements q.qwords {} = .ok rq) := by
  obtain ⟨b, rest', hb, -, hcase⟩ := classifyAgg_inv hl h
  obtain ⟨rfl, rfl⟩ : a = b ∧ rest = rest' := by simpa using hb
  rw [classifyAgg_node] at h ⊢
  simp only [LTree.data] at hcase
  rw [hs, hal]
  by_cases hc : d.size > 8 * 8 ∨ ¬ d.aligned
  · rw [if_pos hc] at h ⊢
    simp only [Except.ok.injEq, List.cons.injEq] at h
    exact ⟨_, _, rfl, .inl ⟨h.1.symm, rfl⟩⟩
  · rw [if_neg hc] at h ⊢
    obtain ⟨v, h1, h2⟩ := bind_inv h
    obtain ⟨v1, v2⟩ := v
    rw [ignoring_ok] at h1
    have hn : ∃ as', nest t (.node d0 ls) j (qwordsAlloc (qwordCount d.size)) = .ok (v1, as') := by
      obtain ⟨as', e⟩ := nest_index t _ hl i j _ _ _ h1
      refine ⟨as', ?_⟩
      cases t with
      | leaf => simp [Ty.isLeaf] at hk
      | _ => simpa only [nest] using e
    obtain ⟨as', e⟩ := hn
    rw [(ignoring_ok (b := Ty.isStruct t)).2 e]
    simp only [Except.bind]
    split at h2
    · rename_i hp
      simp only [Except.ok.injEq, List.cons.injEq] at h2
      simp only [hp]
      exact ⟨_, _, rfl, .inl ⟨h2.1.symm, rfl⟩⟩
    · rename_i q hp
      obtain ⟨rq, h3, h4⟩ := bind_inv h2
      simp only [Except.ok.injEq, List.cons.injEq] at h4
      simp only [hp, h3]
      refine ⟨_, _, rfl, .inr ⟨q, rq, h4.1.symm, rfl, ?_⟩⟩
      rcases hcase with hm | ⟨q', rq', he, k1, k2, k3⟩
      · rw [← h4.1] at hm; simp [memoryEntry, registerEntry] at hm
      · rw [← h4.1] at he
        simp only [registerEntry, Alloc.mk.injEq, Content.qwords.injEq, true_and] at he
        obtain ⟨rfl, rfl⟩ : q = q' ∧ rq = rq' := by simp_all
        exact ⟨k1, k2, k3⟩

/-! ## An aggregate as an argument and on its own -/

theorem placeQwords_klass : ∀ (ws : List Qword) (i s : Nat) (ws' : List Qword), placeQwords ws i s = .ok ws' →
    ws'.map (·.klass) = ws.map (·.klass)
  | [], i, s, ws', h => by simp only [placeQwords, Except.ok.injEq] at h; subst h; rfl
  | w :: ws, i, s, ws', h => by
    have ih := placeQwords_klass ws
    unfold placeQwords at h
    split at h
    case h_4 => cases h
    all_goals
      obtain ⟨r, h1, h2⟩ := bind_inv h
      simp only [pure, Except.pure, Except.ok.injEq] at h2
      subst h2
      simp only [List.map_cons, ih _ _ _ h1]

/-- `a0` is what is allocated for an aggregate on its own, `a` what is allocated for it as an argument when
`c` is used by the arguments before it. -/
inductive Twin (a0 : Alloc) (d : Data) (c : Location) : Location → Alloc → Prop
  | memory {a} : a0.klass = .memory → a.klass = .memory →
      a.location.stack = padAligned c.stack (max d.alignment 8) →
      Twin a0 d c { c with stack := padAligned c.stack (max d.alignment 8) + d.size } a
  | full {a q0} : a0.klass = .noClass → a0.content = .qwords q0 → Assigned q0.qwords 0 0 →
      ¬ (c.int + ints q0.qwords ≤ 6 ∧ c.sse + sses q0.qwords ≤ 8) → a.klass = .memory →
      a.location.stack = padAligned c.stack (max d.alignment 8) →
      Twin a0 d c { c with stack := padAligned c.stack (max d.alignment 8) + d.size } a
  | regs {a q0 q} : a0.klass = .noClass → a0.content = .qwords q0 → Assigned q0.qwords 0 0 →
      q0.qwords.map (·.klass) = q.qwords.map (·.klass) → ints q0.qwords = ints q.qwords →
      sses q0.qwords = sses q.qwords → a.klass = .noClass → a.content = .qwords q →
      q.qwords.length = eightbytes d.size → Assigned q.qwords c.int c.sse →
      c.int + ints q.qwords ≤ 6 → c.sse + sses q.qwords ≤ 8 →
      Twin a0 d c { c with int := c.int + ints q.qwords, sse := c.sse + sses q.qwords } a

theorem allocate_register {i : Nat} {q : Qwords} {rq : Requirements} {d : Data} {c c' : Location} {a' : Alloc}
    (hup : NoUp q.qwords) (hreq : qwordRequirements q.qwords {} = .ok rq)
    (ha : allocateAggregate d c (registerEntry i q rq) = .ok (c', a')) :
    (∃ ws, a'.klass = .noClass ∧ a'.content = .qwords { q with qwords := ws } ∧
      ws.map (·.klass) = q.qwords.map (·.klass) ∧ ws.length = q.qwords.length ∧
      ints ws = ints q.qwords ∧ sses ws = sses q.qwords ∧ Assigned ws c.int c.sse ∧
      rq.integer = ints q.qwords ∧ rq.sse = sses q.qwords ∧ rq.memSize = 0 ∧
      c.int + ints ws ≤ 6 ∧ c.sse + sses ws ≤ 8 ∧
      c' = { c with int := c.int + ints ws, sse := c.sse + sses ws }) ∨
    (¬ (c.int + rq.integer ≤ 6 ∧ c.sse + rq.sse ≤ 8 ∧ rq.memSize = 0) ∧ a'.klass = .memory ∧
      a'.location.stack = padAligned c.stack (max d.alignment 8) ∧
      c' = { c with stack := padAligned c.stack (max d.alignment 8) + d.size }) := by
  unfold allocateAggregate at ha
  simp only [registerEntry] at ha
  split at ha
  · rename_i hcond
    obtain ⟨-, -, hint, hsse, hmem⟩ := hcond
    obtain ⟨ws', h1, h2⟩ := bind_inv ha
    simp only [pure, Except.pure, Except.ok.injEq, Prod.mk.injEq] at h2
    obtain ⟨rfl, rfl⟩ := h2
    obtain ⟨hr, -⟩ := placeQwords_inv _ hup _ _ _ h1
    obtain ⟨l1, l2, l3, l4⟩ := placeQwords_assigned _ hup _ _ _ h1
    have hrq := hr {}
    rw [hreq] at hrq
    simp only [Nat.zero_add, Except.ok.injEq] at hrq
    subst hrq
    simp only [integerRegisters, sseRegisters] at hint hsse
    refine .inl ⟨ws', rfl, rfl, placeQwords_klass _ _ _ _ h1, l1, l2, l3, ?_, rfl, rfl, rfl, ?_, ?_, ?_⟩
    · exact l4 _ _ (fun hp => (if_pos hp).symm) (fun hp => (if_pos hp).symm)
    · rw [l2]; exact hint
    · rw [l3]; exact hsse
    · have hloc : ({ c with int := if ints q.qwords > 0 then c.int + ints q.qwords else c.int
                            sse := if sses q.qwords > 0 then c.sse + sses q.qwords else c.sse } : Location) =
          { c with int := c.int + ints ws', sse := c.sse + sses ws' } := by
        simp only [l2, l3, Location.mk.injEq, and_true]
        exact ⟨by split <;> omega, by split <;> omega⟩
      exact hloc
  · rename_i hcond
    simp only [stackAllocate, if_true, Except.ok.injEq, Prod.mk.injEq] at ha
    obtain ⟨rfl, rfl⟩ := ha
    refine .inr ⟨fun h => hcond ⟨trivial, trivial, h.1, h.2.1, h.2.2⟩, rfl, rfl, rfl⟩

theorem twin {t : Ty} {d d0 : Data} {ls : List LTree} (hk : Ty.isLeaf t = false) (hl : Laid t (.node d ls))
    (hs : d0.size = d.size) (hal : d0.aligned = d.aligned) {i : Nat} {a rest}
    (h : classifyAgg t (.node d ls) i = .ok (a :: rest)) {c c' : Location} {a' : Alloc}
    (ha : allocateAggregate d c a = .ok (c', a')) {a1 rest1}
    (h1 : classifyAgg t (.node d0 ls) 0 = .ok (a1 :: rest1)) {loc0 : Location} {a0 : Alloc}
    (ha1 : allocateAggregate d0 ⟨0, 0, 0⟩ a1 = .ok (loc0, a0)) : Twin a0 d c c' a' := by
  obtain ⟨b, rb, hb, hcase⟩ := classifyAgg_index (j := 0) hk hl hs hal h
  rw [h1] at hb
  simp only [Except.ok.injEq, List.cons.injEq] at hb
  obtain ⟨rfl, -⟩ := hb
  rcases hcase with ⟨rfl, rfl⟩ | ⟨q, rq, rfl, rfl, hup, hlen, hreq⟩
  · simp [allocateAggregate, memoryEntry, stackAllocate] at ha ha1
    obtain ⟨rfl, rfl⟩ := ha
    obtain ⟨-, rfl⟩ := ha1
    exact .memory rfl rfl rfl
  · rcases allocate_register hup hreq ha1 with ⟨w0, e1, e2, e3, e4, e5, e6, e7, e8, e9, e10, e11, e12, -⟩ | ⟨e1, e2, -, -⟩
    · rcases allocate_register hup hreq ha with ⟨ws, g1, g2, g3, g4, g5, g6, g7, g8, g9, g10, g11, g12, rfl⟩ | ⟨g1, g2, g3, rfl⟩
      · refine .regs (q := { q with qwords := ws }) e1 e2 e7 ?_ ?_ ?_ g1 g2 ?_ g7 g11 g12
        · simp only [e3, g3]
        · simp only [e5, g5]
        · simp only [e6, g6]
        · simp only [g4, hlen, qwordCount_eq]
      · refine .full e1 e2 e7 ?_ g2 g3
        simp only [e5, e6]
        rw [e8, e9] at g1
        intro hc
        exact g1 ⟨hc.1, hc.2, e10⟩
    · rcases allocate_register hup hreq ha with ⟨ws, g1, g2, g3, g4, g5, g6, g7, g8, g9, g10, g11, g12, rfl⟩ | ⟨g1, g2, g3, rfl⟩
      · exfalso
        apply e1
        rw [g8, g9, ← g5, ← g6]
        exact ⟨by show 0 + _ ≤ _; omega, by show 0 + _ ≤ _; omega, g10⟩
      · exact .memory e2 g2 g3

end Kefir.Call
