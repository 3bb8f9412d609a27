import Verif.SymbolTable.Model
import Verif.HashTree.Lemmas

namespace Kefir.SymbolTable

open HashTree (Node Rel Map nodeFind toList)

theorem str_lawful : HashTree.Lawful strOps := by
  constructor <;> simp +contextual [strOps]

theorem uint_lawful : HashTree.Lawful uintOps := by
  constructor <;> simp +contextual [uintOps]

/-- The interned strings, in order of interning. -/
def canon (fresh : Nat → Nat) (ss : List (List UInt8)) (i : Nat) (h : i < ss.length) : StrPtr :=
  ⟨fresh i, ss[i]⟩

/-- Representation invariant: the `i`-th distinct string is stored at `fresh i` with identifier
`i`. -/
structure Inv (fresh : Nat → Nat) (t : Table) (ss : List (List UInt8)) : Prop where
  nodup : ss.Nodup
  next : t.nextId = ss.length
  mallocs : t.mallocs = ss.length
  rel1 : ∃ m1, Rel strOps t.symbols m1 ∧
    ∀ p, p ∈ m1 ↔ ∃ i, ∃ h : i < ss.length, p = (canon fresh ss i h, i)
  rel2 : ∃ m2, Rel uintOps t.identifiers m2 ∧
    ∀ p, p ∈ m2 ↔ ∃ i, ∃ h : i < ss.length, p = (i, canon fresh ss i h)

theorem inv_init (fresh : Nat → Nat) : Inv fresh init [] :=
  ⟨by simp, rfl, rfl, ⟨[], Rel.empty, by simp⟩, ⟨[], Rel.empty, by simp⟩⟩

theorem canon_append (fresh : Nat → Nat) {ss : List (List UInt8)} {s : List UInt8} {i : Nat}
    (h : i < ss.length) : canon fresh (ss ++ [s]) i (by simp; omega) = canon fresh ss i h := by
  simp [canon, List.getElem_append_left h]

theorem canon_last (fresh : Nat → Nat) (ss : List (List UInt8)) (s : List UInt8) :
    canon fresh (ss ++ [s]) ss.length (by simp) = ⟨fresh ss.length, s⟩ := by
  simp [canon]

/-- One insertion. -/
theorem insert_spec {fresh : Nat → Nat} {t : Table} {ss : List (List UInt8)} (hi : Inv fresh t ss)
    (p : StrPtr) :
    ∃ ss' i, ∃ h : i < ss'.length, ss'[i] = p.str ∧ ss <+: ss' ∧
      (insert fresh t p).2 = some (canon fresh ss' i h, i) ∧ Inv fresh (insert fresh t p).1 ss' := by
  obtain ⟨m1, r1, k1⟩ := hi.rel1
  obtain ⟨m2, r2, k2⟩ := hi.rel2
  have hat := (HashTree.step_refines str_lawful r1 (.at p)).2
  simp only [HashTree.implStep, HashTree.specStep] at hat
  unfold insert
  cases hf : m1.find? (fun q => strOps.compareKeys q.1 p) with
  | some q =>
    rw [hf] at hat
    have hmem := List.mem_of_find?_eq_some hf
    have hcmp := List.find?_some hf
    obtain ⟨i, h, rfl⟩ := (k1 q).1 hmem
    have hs : ss[i] = p.str := by simpa [strOps, canon] using hcmp
    cases ha : HashTree.at' strOps p t.symbols with
    | error c => rw [ha] at hat; simp at hat
    | ok node =>
      rw [ha] at hat
      simp only [HashTree.Reply.pair.injEq] at hat
      refine ⟨ss, i, h, hs, List.prefix_refl _, ?_, hi⟩
      simp [hat.1, hat.2]
  | none =>
    rw [hf] at hat
    have hnew : p.str ∉ ss := by
      intro hm
      obtain ⟨i, h, he⟩ := List.getElem_of_mem hm
      have := List.find?_eq_none.1 hf _ ((k1 (canon fresh ss i h, i)).2 ⟨i, h, rfl⟩)
      simp [strOps, canon, he] at this
    cases ha : HashTree.at' strOps p t.symbols with
    | ok node => rw [ha] at hat; simp at hat
    | error c =>
      rw [ha] at hat
      simp only [HashTree.Reply.error.injEq] at hat
      subst hat
      simp only
      -- first insertion
      have hany1 : m1.any (fun q => strOps.compareKeys q.1 ⟨fresh t.mallocs, p.str⟩) = false := by
        rw [List.any_eq_false]
        intro q hq
        have := List.find?_eq_none.1 hf q hq
        simpa [strOps] using this
      have s1 := HashTree.step_refines str_lawful r1 (.insert ⟨fresh t.mallocs, p.str⟩ t.nextId)
      simp only [HashTree.implStep, HashTree.specStep, hany1] at s1
      have hany2 : m2.any (fun q => uintOps.compareKeys q.1 t.nextId) = false := by
        rw [List.any_eq_false]
        intro q hq
        obtain ⟨i, h, rfl⟩ := (k2 q).1 hq
        have := hi.next
        simp [uintOps]; omega
      have s2 := HashTree.step_refines uint_lawful r2
        (.insert t.nextId ⟨fresh t.mallocs, p.str⟩)
      simp only [HashTree.implStep, HashTree.specStep, hany2] at s2
      cases hi1 : HashTree.insert strOps true ⟨fresh t.mallocs, p.str⟩ t.nextId t.symbols with
      | error c => rw [hi1] at s1; simp at s1
      | ok sy =>
        cases hi2 : HashTree.insert uintOps true t.nextId ⟨fresh t.mallocs, p.str⟩
            t.identifiers with
        | error c => rw [hi2] at s2; simp at s2
        | ok ids =>
          rw [hi1] at s1
          rw [hi2] at s2
          simp only [Bool.false_eq_true, if_false] at s1 s2
          refine ⟨ss ++ [p.str], ss.length, by simp, by simp, List.prefix_append _ _, ?_, ?_⟩
          · simp [canon_last, hi.next, hi.mallocs]
          · refine ⟨?_, ?_, ?_, ⟨_, s1.1, ?_⟩, ⟨_, s2.1, ?_⟩⟩
            · rw [List.nodup_append]
              refine ⟨hi.nodup, by simp, ?_⟩
              intro a ha b hb
              simp at hb; subst hb; rintro rfl; exact hnew ha
            · simp [hi.next]
            · simp [hi.mallocs]
            · intro q
              rw [List.mem_cons]
              constructor
              · rintro (rfl | hq)
                · exact ⟨ss.length, by simp, by rw [canon_last, hi.next, hi.mallocs]⟩
                · obtain ⟨i, h, rfl⟩ := (k1 q).1 hq
                  exact ⟨i, by simp; omega, by rw [canon_append fresh h]⟩
              · rintro ⟨i, h, rfl⟩
                by_cases hil : i < ss.length
                · right; rw [canon_append fresh hil]; exact (k1 _).2 ⟨i, hil, rfl⟩
                · left
                  have : i = ss.length := by simp at h; omega
                  subst this
                  rw [canon_last, hi.next, hi.mallocs]
            · intro q
              rw [List.mem_cons]
              constructor
              · rintro (rfl | hq)
                · exact ⟨ss.length, by simp, by rw [canon_last, hi.next, hi.mallocs]⟩
                · obtain ⟨i, h, rfl⟩ := (k2 q).1 hq
                  exact ⟨i, by simp; omega, by rw [canon_append fresh h]⟩
              · rintro ⟨i, h, rfl⟩
                by_cases hil : i < ss.length
                · right; rw [canon_append fresh hil]; exact (k2 _).2 ⟨i, hil, rfl⟩
                · left
                  have : i = ss.length := by simp at h; omega
                  subst this
                  rw [canon_last, hi.next, hi.mallocs]

theorem run_spec {fresh : Nat → Nat} (ps : List StrPtr) {t : Table} {ss : List (List UInt8)}
    (hi : Inv fresh t ss) :
    ∃ ss', ss <+: ss' ∧ Inv fresh (run fresh t ps).1 ss' ∧
      (run fresh t ps).2.length = ps.length ∧
      ∀ (j : Nat) (p : StrPtr), ps[j]? = some p → ∃ i, ∃ h : i < ss'.length, ss'[i] = p.str ∧
        (run fresh t ps).2[j]? = some (some (canon fresh ss' i h, i)) := by
  induction ps generalizing t ss with
  | nil => exact ⟨ss, List.prefix_refl _, hi, rfl, by simp⟩
  | cons p ps ih =>
    obtain ⟨ss1, i, h, e1, e2, e3, e4⟩ := insert_spec hi p
    obtain ⟨ss2, f1, f2, f3, f4⟩ := ih e4
    refine ⟨ss2, e2.trans f1, f2, by simp [run, f3], ?_⟩
    intro j q hj
    cases j with
    | zero =>
      simp at hj; subst hj
      have hlen := f1.length_le
      have hi2 : i < ss2.length := by omega
      have hget : ss2[i] = ss1[i] := (f1.getElem h).symm
      refine ⟨i, hi2, by rw [hget, e1], ?_⟩
      simp only [run, List.getElem?_cons_zero, e3]
      simp [canon, hget]
    | succ j =>
      obtain ⟨i', h', g1, g2⟩ := f4 j q (by simpa using hj)
      exact ⟨i', h', g1, by simpa [run] using g2⟩

theorem nodup_index {α : Type} {l : List α} (h : l.Nodup) {i j : Nat} (hi : i < l.length)
    (hj : j < l.length) (he : l[i] = l[j]) : i = j := by
  have := List.pairwise_iff_getElem.1 h
  rcases Nat.lt_trichotomy i j with h1 | h1 | h1
  · exact absurd he (this i j hi hj h1)
  · exact h1
  · exact absurd he.symm (this j i hj hi h1)

/-- C28.  In every history of interning calls (whatever the strings, also with colliding hashes), all
calls succeed; each result reads back as the string passed in; two results are the same pointer
(and carry the same identifier) if and only if the strings are equal; and looking the identifier up
at the end gives the same pointer.  `fresh` is any allocator that never returns a live address. -/
theorem C28_interning_canonical (fresh : Nat → Nat) (hf : ∀ a b, fresh a = fresh b → a = b)
    (history : List StrPtr) (j k : Nat) (p q : StrPtr)
    (hj : history[j]? = some p) (hk : history[k]? = some q) :
    ∃ rp ip rq iq, (run fresh init history).2[j]? = some (some (rp, ip)) ∧
      (run fresh init history).2[k]? = some (some (rq, iq)) ∧
      rp.str = p.str ∧
      (rp.addr = rq.addr ↔ p.str = q.str) ∧ (ip = iq ↔ p.str = q.str) ∧
      get (run fresh init history).1 ip = some rp := by
  obtain ⟨ss, _, hi, _, h⟩ := run_spec history (inv_init fresh)
  obtain ⟨i, hil, e1, e2⟩ := h j p hj
  obtain ⟨i', hil', e1', e2'⟩ := h k q hk
  have hiff : i = i' ↔ p.str = q.str := by
    rw [← e1, ← e1']
    constructor
    · rintro rfl; rfl
    · exact nodup_index hi.nodup hil hil'
  refine ⟨_, _, _, _, e2, e2', by simpa [canon] using e1, ?_, hiff, ?_⟩
  · rw [← hiff]
    exact ⟨fun h => hf _ _ h, fun h => by subst h; rfl⟩
  · obtain ⟨m2, r2, k2⟩ := hi.rel2
    have hat := (HashTree.step_refines uint_lawful r2 (.at i)).2
    simp only [HashTree.implStep, HashTree.specStep] at hat
    have hfind : m2.find? (fun q => uintOps.compareKeys q.1 i) = some (i, canon fresh ss i hil) := by
      cases hfd : m2.find? (fun q => uintOps.compareKeys q.1 i) with
      | none =>
        have := List.find?_eq_none.1 hfd _ ((k2 _).2 ⟨i, hil, rfl⟩)
        simp [uintOps] at this
      | some x =>
        obtain ⟨i2, hi2, rfl⟩ := (k2 x).1 (List.mem_of_find?_eq_some hfd)
        have := List.find?_some hfd
        simp [uintOps] at this
        subst this; rfl
    rw [hfind] at hat
    unfold get
    cases ha : HashTree.at' uintOps i (run fresh init history).1.identifiers with
    | error c => rw [ha] at hat; simp at hat
    | ok node => rw [ha] at hat; simp at hat; simp [hat.2]

/-- Two different strings with colliding hashes are kept apart: "a5" and "bV" (97·31+53 = 98·31+22;
the second character differs accordingly). -/
example : strHash [97, 53] = strHash [98, 22] ∧
    (run (fun n => 100 + n) init [⟨1, [97, 53]⟩, ⟨2, [98, 22]⟩, ⟨3, [97, 53]⟩]).2 =
      [some (⟨100, [97, 53]⟩, 0), some (⟨101, [98, 22]⟩, 1), some (⟨100, [97, 53]⟩, 0)] := by
  decide +kernel

end Kefir.SymbolTable
