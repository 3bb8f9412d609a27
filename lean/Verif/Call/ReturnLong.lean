import Verif.Abi.Collide
import Verif.Call.ReturnSpec

/-!
# Aggregates without `long double`

No eightbyte of an aggregate without a `long double` has the class X87.
-/

namespace Kefir.Call

open Kefir.Layout Kefir.Abi

/-- No eightbyte has the class X87. -/
def NoX87 (ws : List Qword) : Prop := ∀ w ∈ ws, w.klass ≠ .x87

/-- `q'` has as many eightbytes as `q` and no X87 if `q` has none. -/
def KeepsX (q q' : Qwords) : Prop := q'.qwords.length = q.qwords.length ∧ (NoX87 q.qwords → NoX87 q'.qwords)

theorem KeepsX.rfl {q} : KeepsX q q := ⟨by rfl, id⟩

theorem KeepsX.trans {a b c} (h : KeepsX a b) (h' : KeepsX b c) : KeepsX a c :=
  ⟨h'.1.trans h.1, fun x => h'.2 (h.2 x)⟩

theorem derive_noX87 : ∀ a b : Class, a ≠ .x87 → b ≠ .x87 → deriveDataclass a b ≠ .x87 := by
  intro a b; cases a <;> cases b <;> decide

theorem noX87_set {ws : List Qword} {i : Nat} {w : Qword} (h : NoX87 ws) (hw : w.klass ≠ .x87) :
    NoX87 (ws.set i w) := by
  intro x hx
  rcases List.mem_or_eq_of_mem_set hx with hx | rfl
  · exact h x hx
  · exact hw

theorem nextQword_keepsX {q q' : Qwords} {a : Nat} {r} (h : nextQword q a = .ok (q', r)) : KeepsX q q' := by
  unfold nextQword at h
  split at h
  · cases h
  · rename_i w h0
    split at h
    · cases h
    · simp only at h
      generalize hp : (if w.currentOffset % a > 0 then a - w.currentOffset % a else 0) = pad at h
      split at h
      · simp only [Except.ok.injEq, Prod.mk.injEq] at h; obtain ⟨rfl, _⟩ := h; exact ⟨rfl, id⟩
      · simp only [Except.ok.injEq, Prod.mk.injEq] at h; obtain ⟨rfl, _⟩ := h
        refine ⟨by simp, fun hn => noX87_set hn ?_⟩
        exact hn w (List.mem_of_getElem? h0)

theorem nextLoopN_keepsX : ∀ (n : Nat) (q : Qwords) (c : Class) (s a : Nat) (f : Option Ref), c ≠ .x87 →
    ∀ {q' : Qwords} {r}, nextLoopN n q c s a f = .ok (q', r) → KeepsX q q' := by
  intro n
  induction n with
  | zero =>
    intro q c s a f hc q' r h
    rw [nextLoopN.eq_def] at h
    by_cases hs : s = 0
    · rw [if_pos hs] at h
      simp only [Except.ok.injEq, Prod.mk.injEq] at h; obtain ⟨rfl, _⟩ := h; exact .rfl
    · rw [if_neg hs] at h; cases h
  | succ n ih =>
    intro q c s a f hc q' r h
    rw [nextLoopN.eq_def] at h
    by_cases hs : s = 0
    · rw [if_pos hs] at h
      simp only [Except.ok.injEq, Prod.mk.injEq] at h; obtain ⟨rfl, _⟩ := h; exact .rfl
    · rw [if_neg hs] at h
      simp only at h
      split at h
      · cases h
      · cases h
      · rename_i q1 i hq
        split at h
        · cases h
        · rename_i w hw
          have h1 := nextQword_keepsX hq
          have h2 := ih _ _ _ _ _ hc h
          refine (h1.trans ?_).trans h2
          refine ⟨by simp [takeChunk], fun hn => ?_⟩
          exact noX87_set hn (derive_noX87 _ _ (hn w (List.mem_of_getElem? hw)) hc)

theorem nextLoop_keepsX (q : Qwords) (c : Class) (s a : Nat) (f : Option Ref) (hc : c ≠ .x87)
    {q' : Qwords} {r} (h : nextLoop q c s a f = .ok (q', r)) : KeepsX q q' :=
  nextLoopN_keepsX _ _ _ _ _ _ hc h

theorem qwordsNext_keepsX {q : Qwords} {c : Class} {s a : Nat} (hc : c ≠ .x87)
    {q' : Qwords} {r} (h : qwordsNext q c s a = .ok (q', r)) : KeepsX q q' := by
  unfold qwordsNext at h
  split at h
  · simp only [bind, Except.bind] at h
    split at h
    · cases h
    · rename_i v hv
      obtain ⟨q1, r1⟩ := v
      cases r1 with
      | none => cases h
      | some r1 =>
        simp only [pure, Except.pure, Except.ok.injEq, Prod.mk.injEq] at h
        obtain ⟨rfl, _⟩ := h
        exact nextLoop_keepsX _ _ _ _ _ hc hv
  · cases h

theorem scalarClass_noX87 (k : Leaf) : scalarClass k ≠ .x87 := by cases k <;> decide

theorem nestedLeaf_keepsX {k : Leaf} {p : Nat} {d : Data} {q q' : Qwords} {r} (hk : k ≠ .longDouble)
    (h : nestedLeaf k p d q = .ok (q', r)) : KeepsX q q' := by
  unfold nestedLeaf at h
  split at h
  · exact absurd rfl hk
  · exact qwordsNext_keepsX (by decide) h
  · exact qwordsNext_keepsX (by decide) h
  · split at h
    · exact qwordsNext_keepsX (by decide) h
    · cases h
  · unfold qwordsNextBitfield at h
    split at h
    · exact qwordsNext_keepsX (scalarClass_noX87 _) h
    · cases h
  · exact qwordsNext_keepsX (scalarClass_noX87 _) h

theorem reset_keepsX : ∀ (ws : List Qword) (i : Nat) (p : Pos),
    (resetOffsets ws i p).length = ws.length ∧ (NoX87 ws → NoX87 (resetOffsets ws i p))
  | [], _, _ => ⟨rfl, id⟩
  | w :: ws, i, p => by
    obtain ⟨h1, h2⟩ := reset_keepsX ws (i + 1) p
    refine ⟨by simp [resetOffsets, h1], fun hn => ?_⟩
    intro x hx
    simp only [resetOffsets, List.mem_cons] at hx
    rcases hx with rfl | hx
    · have := hn w (List.mem_cons_self ..)
      repeat' split
      all_goals exact this
    · exact h2 (fun y hy => hn y (List.mem_cons_of_mem _ hy)) x hx

theorem restore_keepsX {q q' : Qwords} {p : Pos} (h : restorePosition q p = .ok q') : KeepsX q q' := by
  unfold restorePosition at h
  split at h
  · simp only [Except.ok.injEq] at h; subst h; exact reset_keepsX _ _ _
  · cases h

theorem collect_keepsX {f : Qwords → Out (Qwords × List Alloc)} {m : Nat}
    (hf : ∀ q r, f q = .ok r → KeepsX q r.1 ∧ r.2.length = m) :
    ∀ (n : Nat) (q : Qwords) (r), collect n f q = .ok r → KeepsX q r.1 ∧ r.2.length = n * m
  | 0, q, r, h => by
    simp only [collect, Except.ok.injEq] at h; subst h; exact ⟨.rfl, by simp⟩
  | n + 1, q, r, h => by
    simp only [collect] at h
    obtain ⟨v, h1, h2⟩ := bind_inv h
    obtain ⟨v', h3, h4⟩ := bind_inv h2
    simp only [Except.ok.injEq] at h4; subst h4
    obtain ⟨k1, l1⟩ := hf _ _ h1
    obtain ⟨k2, l2⟩ := collect_keepsX hf n _ _ h3
    refine ⟨k1.trans k2, ?_⟩
    simp only [List.length_append, l1, l2, Nat.add_mul]; omega

mutual
theorem nest_keepsX : ∀ (t : Ty) (l : LTree), Laid t l → hasLong t = false →
    ∀ (i : Nat) (q : Qwords) (r), nest t l i q = .ok r →
    KeepsX q r.1 ∧ r.2.length = objects t
  | .leaf k al p, .node d ls, _, hx, i, q, r, h => by
    simp only [nest] at h
    obtain ⟨v, h1, h2⟩ := bind_inv h
    simp only [Except.ok.injEq] at h2; subst h2
    exact ⟨nestedLeaf_keepsX (by rintro rfl; simp [hasLong] at hx) h1, rfl⟩
  | .struct al ms, .node d ls, hl, hx, i, q, r, h => by
    have hla : LaidAll ms ls := by cases hl; assumption
    simp only [nest] at h
    obtain ⟨v, h1, h2⟩ := bind_inv h
    simp only [Except.ok.injEq] at h2; subst h2
    obtain ⟨k, l⟩ := nestAll_keepsX ms ls hla (by simpa [hasLong] using hx) _ _ _ h1
    exact ⟨k, by simp [objects, l]; omega⟩
  | .union al ms, .node d ls, hl, hx, i, q, r, h => by
    have hla : LaidAll ms ls := by cases hl; assumption
    simp only [nest] at h
    obtain ⟨p, h1, h2⟩ := bind_inv h
    obtain ⟨v, h3, h4⟩ := bind_inv h2
    obtain ⟨q2, h5, h6⟩ := bind_inv h4
    simp only [Except.ok.injEq] at h6; subst h6
    obtain ⟨k, l⟩ := nestUnion_keepsX ms ls hla (by simpa [hasLong] using hx) _ _ _ _ _ h3
    exact ⟨k.trans (restore_keepsX h5), by simp [objects, l]; omega⟩
  | .array al n e, .node d ls, hl, hx, i, q, r, h => by
    obtain ⟨l, rfl, hle⟩ : ∃ l, ls = [l] ∧ Laid e l := by cases hl; exact ⟨_, rfl, by assumption⟩
    simp only [nest] at h
    obtain ⟨v, h1, h2⟩ := bind_inv h
    simp only [Except.ok.injEq] at h2; subst h2
    obtain ⟨k, l⟩ := collect_keepsX (fun q r h => nest_keepsX e l hle (by simpa [hasLong] using hx) _ q r h) _ _ _ h1
    exact ⟨k, by simp [objects, l]; omega⟩

theorem nestAll_keepsX : ∀ (ts : List Ty) (ls : List LTree), LaidAll ts ls → hasLongAny ts = false →
    ∀ (i : Nat) (q : Qwords) (r),
    nestAll ts ls i q = .ok r → KeepsX q r.1 ∧ r.2.length = objectsAll ts
  | [], ls, hl, hx, i, q, r, h => by
    cases hl
    simp only [nestAll, Except.ok.injEq] at h; subst h; exact ⟨.rfl, rfl⟩
  | t :: ts, ls, hl, hx, i, q, r, h => by
    obtain ⟨l, ls, rfl, hlt, hls⟩ : ∃ l ls', ls = l :: ls' ∧ Laid t l ∧ LaidAll ts ls' := by
      cases hl; exact ⟨_, _, rfl, by assumption, by assumption⟩
    simp only [nestAll] at h
    obtain ⟨v, h1, h2⟩ := bind_inv h
    obtain ⟨v', h3, h4⟩ := bind_inv h2
    simp only [Except.ok.injEq] at h4; subst h4
    obtain ⟨k1, l1⟩ := nest_keepsX t l hlt (by simp [hasLongAny] at hx; exact hx.1) _ _ _ h1
    obtain ⟨k2, l2⟩ := nestAll_keepsX ts ls hls (by simp [hasLongAny] at hx; exact hx.2) _ _ _ h3
    exact ⟨k1.trans k2, by simp [objectsAll, l1, l2]⟩

theorem nestUnion_keepsX : ∀ (ts : List Ty) (ls : List LTree), LaidAll ts ls → hasLongAny ts = false →
    ∀ (i : Nat) (p p' : Pos) (q : Qwords) (r),
    nestUnion ts ls i p p' q = .ok r → KeepsX q r.1 ∧ r.2.2.length = objectsAll ts
  | [], ls, hl, hx, i, p, p', q, r, h => by
    cases hl
    simp only [nestUnion, Except.ok.injEq] at h; subst h; exact ⟨.rfl, rfl⟩
  | t :: ts, ls, hl, hx, i, p, p', q, r, h => by
    obtain ⟨l, ls, rfl, hlt, hls⟩ : ∃ l ls', ls = l :: ls' ∧ Laid t l ∧ LaidAll ts ls' := by
      cases hl; exact ⟨_, _, rfl, by assumption, by assumption⟩
    simp only [nestUnion] at h
    obtain ⟨v, h1, h2⟩ := bind_inv h
    obtain ⟨pp, h3, h4⟩ := bind_inv h2
    obtain ⟨qq, h5, h6⟩ := bind_inv h4
    obtain ⟨v', h7, h8⟩ := bind_inv h6
    simp only [Except.ok.injEq] at h8; subst h8
    obtain ⟨k1, l1⟩ := nest_keepsX t l hlt (by simp [hasLongAny] at hx; exact hx.1) _ _ _ h1
    obtain ⟨k2, l2⟩ := nestUnion_keepsX ts ls hls (by simp [hasLongAny] at hx; exact hx.2) _ _ _ _ _ h7
    exact ⟨(k1.trans (restore_keepsX h5)).trans k2, by simp [objectsAll, l1, l2]⟩
end

end Kefir.Call
