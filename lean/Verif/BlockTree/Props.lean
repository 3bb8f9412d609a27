import Verif.BlockTree.Spec
import Verif.HashTree.Lemmas

namespace Kefir.BlockTree

open HashTree (Node Pos Rel Map nodeFind toList)

variable {β : Type}

theorem uint_lawful : HashTree.Lawful uintOps := by
  constructor <;> simp +contextual [uintOps]

/-- Representation invariant: the hash tree represents a map from touched block numbers to distinct
allocated addresses whose blocks hold the memory contents. -/
structure Inv (t : BT β) (m : Mem β) : Prop where
  rel : ∃ map, Rel uintOps t.tree map
  pos : 0 < t.blockSize
  touched : ∀ b, m.touched b = true ↔ ∃ a, getBlock t b = .ok a
  fresh : ∀ b a, getBlock t b = .ok a → a < t.nextAddr
  inj : ∀ b c a, getBlock t b = .ok a → getBlock t c = .ok a → b = c
  content : ∀ b a, getBlock t b = .ok a → ∀ o, o < t.blockSize →
    t.heap a o = m.cell (b * t.blockSize + o)

theorem getBlock_error {t : BT β} {b : Nat} {c : Err} (h : getBlock t b = .error c) :
    c = .notFound := by
  unfold getBlock HashTree.at' at h
  cases hf : nodeFind uintOps (uintOps.hash b) b t.tree <;> simp [hf] at h
  exact h.symm

theorem getBlock_insert {t : BT β} {map : Map Nat Nat} (hr : Rel uintOps t.tree map) {b a : Nat}
    (hn : getBlock t b = .error .notFound) :
    ∃ tree', HashTree.insert uintOps true b a t.tree = .ok tree' ∧
      (∃ map', Rel uintOps tree' map') ∧
      ∀ c, (match HashTree.at' uintOps c tree' with
        | .ok e => .ok e.value
        | .error c => .error c : Res Nat) = if c = b then .ok a else getBlock t c := by
  have h1 := HashTree.step_refines uint_lawful hr (.insert b a)
  have hnf : nodeFind uintOps (uintOps.hash b) b t.tree = none := by
    unfold getBlock HashTree.at' at hn
    cases hf : nodeFind uintOps (uintOps.hash b) b t.tree with
    | none => rfl
    | some e => simp [hf] at hn
  have hfresh := hr.find_none uint_lawful hnf
  have hany : map.any (fun p => uintOps.compareKeys p.1 b) = false := by
    rw [List.any_eq_false]; intro p hp; simp [hfresh p hp]
  simp only [HashTree.implStep, HashTree.specStep, hany] at h1
  cases hins : HashTree.insert uintOps true b a t.tree with
  | error c => rw [hins] at h1; simp at h1
  | ok tree' =>
    rw [hins] at h1
    refine ⟨tree', rfl, ⟨_, h1.1⟩, ?_⟩
    intro c
    have h2 := (HashTree.step_refines uint_lawful h1.1 (.at c)).2
    have h3 := (HashTree.step_refines uint_lawful hr (.at c)).2
    simp only [HashTree.implStep, HashTree.specStep, Bool.false_eq_true, if_false,
      List.find?_cons] at h2 h3
    have hbc : uintOps.compareKeys b c = decide (c = b) := by
      show (b == c) = decide (c = b)
      by_cases h : c = b
      · subst h; simp
      · have h' : ¬ b = c := fun e => h e.symm
        simp [h, h']
    rw [hbc] at h2
    unfold getBlock
    by_cases hcb : c = b
    · simp only [hcb, decide_true, if_true] at h2 ⊢
      cases hq : HashTree.at' uintOps b tree' with
      | ok e => rw [hq] at h2; simp at h2; simp [h2]
      | error x => rw [hq] at h2; simp at h2
    · simp only [hcb, decide_false, if_false] at h2 ⊢
      cases hq : HashTree.at' uintOps c tree' <;> cases hq' : HashTree.at' uintOps c t.tree <;>
        rw [hq] at h2 <;> rw [hq'] at h3 <;>
        cases hfind : List.find? (fun p => uintOps.compareKeys p.1 c) map <;>
        rw [hfind] at h2 h3 <;> simp at h2 h3 <;> simp_all

theorem block_spec {fill : Nat → Nat → β} {t : BT β} {m : Mem β} (h : Inv t m) (b : Nat)
    (hfill : m.touched b = false → ∀ o, o < t.blockSize → m.cell (b * t.blockSize + o) = fill b o) :
    ∃ t' a, block fill t b = .ok (t', a) ∧ t'.blockSize = t.blockSize ∧
      Inv t' ⟨m.cell, fun c => c == b || m.touched c⟩ ∧ getBlock t' b = .ok a := by
  unfold block
  cases hg : getBlock t b with
  | ok a =>
    refine ⟨t, a, rfl, rfl, ?_, hg⟩
    have ht : m.touched b = true := (h.touched b).2 ⟨a, hg⟩
    refine ⟨h.rel, h.pos, ?_, h.fresh, h.inj, h.content⟩
    intro c
    rw [← h.touched c]
    by_cases hc : c = b
    · subst hc; simp [ht]
    · simp [hc]
  | error c =>
    have := getBlock_error hg
    subst this
    obtain ⟨map, hr⟩ := h.rel
    obtain ⟨tree', e1, e2, e3⟩ := getBlock_insert hr (a := t.nextAddr) hg
    simp only [e1]
    have hgb : ∀ c, getBlock ({ t with tree := tree',
                                       heap := fun b' => if b' = t.nextAddr then fill b else t.heap b',
                                       nextAddr := t.nextAddr + 1 } : BT β) c =
        if c = b then .ok t.nextAddr else getBlock t c := e3
    refine ⟨_, _, rfl, rfl, ⟨e2, h.pos, ?_, ?_, ?_, ?_⟩, ?_⟩
    · intro c
      rw [hgb]
      by_cases hc : c = b
      · simp [hc]
      · simp only [hc, if_false]
        rw [← h.touched c]; simp [hc]
    · intro c a hca
      rw [hgb] at hca
      show a < t.nextAddr + 1
      by_cases hc : c = b
      · simp only [hc, if_true, Except.ok.injEq] at hca; omega
      · simp only [hc, if_false] at hca; have := h.fresh c a hca; omega
    · intro c d a hc hd
      rw [hgb] at hc hd
      by_cases h1 : c = b <;> by_cases h2 : d = b
      · rw [h1, h2]
      · simp only [h1, if_true, Except.ok.injEq] at hc
        simp only [h2, if_false] at hd
        have := h.fresh d a hd; omega
      · simp only [h2, if_true, Except.ok.injEq] at hd
        simp only [h1, if_false] at hc
        have := h.fresh c a hc; omega
      · simp only [h1, h2, if_false] at hc hd
        exact h.inj c d a hc hd
    · intro c a hca o ho
      rw [hgb] at hca
      by_cases hc : c = b
      · simp only [hc, if_true, Except.ok.injEq] at hca
        subst hca hc
        have hnt : m.touched c = false := by
          cases hm : m.touched c with
          | false => rfl
          | true =>
            obtain ⟨a, ha⟩ := (h.touched c).1 hm
            rw [hg] at ha; cases ha
        simp only [if_true]
        exact (hfill hnt o ho).symm
      · simp only [hc, if_false] at hca
        have := h.fresh c a hca
        have hne : a ≠ t.nextAddr := by omega
        simp only [hne, if_false]
        exact h.content c a hca o ho
    · rw [hgb]; simp

/-- Untouched blocks still hold their initial filling. -/
def Fresh (fill : Nat → Nat → β) (blockSize : Nat) (m : Mem β) : Prop :=
  ∀ b, m.touched b = false → ∀ o, o < blockSize → m.cell (b * blockSize + o) = fill b o

theorem div_of (b n o : Nat) (hn : 0 < n) (ho : o < n) : (b * n + o) / n = b := by
  rw [Nat.mul_comm, Nat.mul_add_div hn, Nat.div_eq_of_lt ho]; omega

theorem step_refines {fill : Nat → Nat → β} {t : BT β} {m : Mem β} (h : Inv t m)
    (hf : Fresh fill t.blockSize m) (c : Call β) :
    (implStep fill t c).2 = (specStep t.blockSize m c).2 ∧
      (implStep fill t c).1.blockSize = t.blockSize ∧
      Inv (implStep fill t c).1 (specStep t.blockSize m c).1 ∧
      Fresh fill t.blockSize (specStep t.blockSize m c).1 := by
  have hlt : ∀ p, ¬ p % t.blockSize ≥ t.blockSize := fun p => by
    have := Nat.mod_lt p h.pos; omega
  cases c with
  | write p v =>
    obtain ⟨t', a, e1, e2, e3, e4⟩ := block_spec h (p / t.blockSize) (hf _)
    simp only [implStep, write, getBlockOffset, e1, specStep, hlt, if_false]
    refine ⟨trivial, e2, ⟨e3.rel, by rw [e2]; exact h.pos, e3.touched, e3.fresh, e3.inj, ?_⟩, ?_⟩
    · intro b a' hb o ho
      have hb' : getBlock t' b = .ok a' := hb
      have ho' : o < t'.blockSize := ho
      have hc := e3.content b a' hb' o ho'
      show (if a' = a ∧ o = p % t.blockSize then v else t'.heap a' o) =
        if b * t'.blockSize + o = p then v else m.cell (b * t'.blockSize + o)
      rw [e2] at *
      by_cases hpo : b * t.blockSize + o = p
      · have hbp : b = p / t.blockSize := by rw [← hpo, div_of _ _ _ h.pos ho']
        have hop : o = p % t.blockSize := by
          rw [← hpo, Nat.mul_comm, Nat.mul_add_mod, Nat.mod_eq_of_lt ho']
        have : a' = a := by rw [← hbp, hb'] at e4; cases e4; rfl
        rw [if_pos hpo, if_pos ⟨this, hop⟩]
      · rw [if_neg hpo, if_neg, hc]
        rintro ⟨rfl, rfl⟩
        have := e3.inj b _ a' hb' e4
        subst this
        apply hpo
        rw [Nat.mul_comm]; exact Nat.div_add_mod _ _
    · intro b hb o ho
      simp only [Bool.or_eq_false_iff, beq_eq_false_iff_ne] at hb
      show (if b * t.blockSize + o = p then v else m.cell (b * t.blockSize + o)) = fill b o
      rw [if_neg, hf b hb.2 o ho]
      intro hp
      apply hb.1
      rw [← hp, div_of _ _ _ h.pos ho]
  | read p =>
    simp only [implStep, read, getBlockOffset, specStep, hlt, if_false]
    cases hg : getBlock t (p / t.blockSize) with
    | ok a =>
      have ht : m.touched (p / t.blockSize) = true := (h.touched _).2 ⟨a, hg⟩
      have := h.content _ a hg (p % t.blockSize) (Nat.mod_lt _ h.pos)
      rw [Nat.mul_comm, Nat.div_add_mod] at this
      simp [ht, this, h, hf]
    | error e =>
      have := getBlock_error hg
      subst this
      have ht : m.touched (p / t.blockSize) = false := by
        cases hm : m.touched (p / t.blockSize) with
        | false => rfl
        | true =>
          obtain ⟨a, ha⟩ := (h.touched _).1 hm
          rw [hg] at ha; cases ha
      simp [ht, h, hf]

theorem run_refines {fill : Nat → Nat → β} (cs : List (Call β)) {t : BT β} {m : Mem β} (h : Inv t m)
    (hf : Fresh fill t.blockSize m) :
    (implRun fill t cs).2 = (specRun t.blockSize m cs).2 ∧
      (implRun fill t cs).1.blockSize = t.blockSize ∧
      Inv (implRun fill t cs).1 (specRun t.blockSize m cs).1 := by
  induction cs generalizing t m with
  | nil => exact ⟨rfl, rfl, h⟩
  | cons c cs ih =>
    obtain ⟨h1, h2, h3, h4⟩ := step_refines h hf c
    obtain ⟨h5, h6, h7⟩ := ih h3 (by rw [h2]; exact h4)
    rw [h2] at h5 h6 h7
    simp only [implRun, specRun]
    exact ⟨by rw [h1, h5], h6, h7⟩

theorem inv_init {blockSize : Nat} (hb : 0 < blockSize) (junk fill : Nat → Nat → β) :
    Inv (⟨.nil, blockSize, junk, 0⟩ : BT β) (Mem.init fill blockSize) := by
  constructor
  · exact ⟨[], Rel.empty⟩
  · exact hb
  all_goals simp [getBlock, HashTree.at', nodeFind, Mem.init]

/-- C25.  For every block size and history, reading a position gives the value last stored there;
a position never stored gives the initial filling of its block if the block exists and "absent"
otherwise. -/
theorem C25_block_tree_is_memory (fill junk : Nat → Nat → β) (blockSize : Nat) (t : BT β)
    (hinit : init blockSize junk = .ok t) (history : List (Call β)) :
    (implRun fill t history).2 = (specRun blockSize (Mem.init fill blockSize) history).2 := by
  unfold init at hinit
  split at hinit
  · rename_i hb
    cases hinit
    refine (run_refines history (inv_init hb junk fill) ?_).1
    intro b _ o ho
    simp only [Mem.init]
    rw [div_of _ _ _ hb ho, Nat.mul_comm, Nat.mul_add_mod, Nat.mod_eq_of_lt ho]
  · cases hinit

theorem nth_succ_none {K V : Type} {t : Node K V} {n : Nat} (h : HashTree.nth t n = none) :
    HashTree.nth t (n + 1) = none := by simp [HashTree.nth, h]

/-- C25, skipping: from the `k`-th block of an iteration in ascending order, skipping to a position
terminates at the first block from there on that ends beyond the position, or at the end. -/
theorem C25_skip_to (fill junk : Nat → Nat → β) (blockSize : Nat) (t : BT β)
    (hinit : init blockSize junk = .ok t) (history : List (Call β)) (position k : Nat) :
    ∃ m, k ≤ m ∧
      skipTo blockSize position (HashTree.nth (implRun fill t history).1.tree k) =
        some (HashTree.nth (implRun fill t history).1.tree m) ∧
      (∀ p, HashTree.nth (implRun fill t history).1.tree m = some p →
        position < (p.entry.key + 1) * blockSize) ∧
      (∀ j, k ≤ j → j < m → ∃ p, HashTree.nth (implRun fill t history).1.tree j = some p ∧
        (p.entry.key + 1) * blockSize ≤ position) := by
  unfold init at hinit
  split at hinit
  · rename_i hb
    cases hinit
    have hfresh : Fresh fill blockSize (Mem.init fill blockSize) := by
      intro b _ o ho
      simp only [Mem.init]
      rw [div_of _ _ _ hb ho, Nat.mul_comm, Nat.mul_add_mod, Nat.mod_eq_of_lt ho]
    obtain ⟨_, _, hinv⟩ := run_refines history (inv_init hb junk fill) hfresh
    obtain ⟨map, hrel⟩ := hinv.rel
    generalize (implRun fill _ history).1.tree = tr at hrel
    -- the number of blocks left
    have gen : ∀ n k, (toList tr).length - k ≤ n → ∃ m, k ≤ m ∧
        skipTo blockSize position (HashTree.nth tr k) = some (HashTree.nth tr m) ∧
        (∀ p, HashTree.nth tr m = some p → position < (p.entry.key + 1) * blockSize) ∧
        (∀ j, k ≤ j → j < m → ∃ p, HashTree.nth tr j = some p ∧
          (p.entry.key + 1) * blockSize ≤ position) := by
      intro n
      induction n with
      | zero =>
        intro k hk
        have h0 := HashTree.nth_eq hrel.1.bst k
        rw [List.getElem?_eq_none (by omega)] at h0
        have hnone : HashTree.nth tr k = none := by simpa using h0
        refine ⟨k, Nat.le_refl _, ?_, ?_, ?_⟩
        · rw [hnone, skipTo.eq_def]
        · intro p hp; rw [hnone] at hp; cases hp
        · intro j h1 h2; omega
      | succ n ih =>
        intro k hk
        cases hnk : HashTree.nth tr k with
        | none =>
          refine ⟨k, Nat.le_refl _, ?_, ?_, ?_⟩
          · rw [hnk, skipTo.eq_def]
          · intro p hp; rw [hnk] at hp; cases hp
          · intro j h1 h2; omega
        | some p =>
          by_cases hle : (p.entry.key + 1) * blockSize ≤ position
          · obtain ⟨m, h1, h2, h3, h4⟩ := ih (k + 1) (by omega)
            refine ⟨m, by omega, ?_, h3, ?_⟩
            · rw [skipTo.eq_def]
              simp only [hle, if_true]
              rw [← h2]; simp [HashTree.nth, hnk]
            · intro j hj1 hj2
              by_cases hjk : j = k
              · subst hjk; exact ⟨p, hnk, hle⟩
              · exact h4 j (by omega) hj2
          · refine ⟨k, Nat.le_refl _, ?_, ?_, ?_⟩
            · rw [skipTo.eq_def, hnk]; simp only [hle, if_false]
            · intro q hq; rw [hnk] at hq; cases hq; omega
            · intro j h1 h2; omega
    exact gen _ k (Nat.le_refl _)
  · cases hinit

/-- Concrete history: block size 4, blocks 2 and 0 created, a third one absent. -/
example : ∃ t, init 4 (fun _ _ => 99) = .ok t ∧ (implRun (fun _ _ => (0 : Nat)) t
    [.write 9 7, .write 2 5, .read 9, .read 8, .read 2, .read 4, .write 9 6, .read 9]).2 =
    [.done, .done, .value 7, .value 0, .value 5, .absent, .done, .value 6] := by
  refine ⟨_, rfl, ?_⟩
  rw [C25_block_tree_is_memory _ _ 4 _ rfl]
  decide

end Kefir.BlockTree
