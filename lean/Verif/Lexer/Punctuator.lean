import Verif.Lexer.IntConst
import Verif.Lexer.Tables
/-!
# Lemmas about tries and the punctuator matcher
-/

namespace Kefir.Lexer

namespace Trie
variable {V : Type}

/-- What the paths of a freshly built trie hold. -/
theorem get_build (es : List (List Chr × V)) (t t' : Trie V) (h : build es t = .ok t')
    (p : List Chr) :
    t'.get p = match es.reverse.find? (fun e => decide (e.1 = p)) with
      | some e => some (some e.2)
      | none => match t.get p with
        | some x => some x
        | none => bif es.any (fun e => p.isPrefixOf e.1) then some none else none := by
  induction es generalizing t with
  | nil =>
    cases h
    simp only [List.reverse_nil, List.find?_nil, List.any_nil]
    cases t'.get p <;> rfl
  | cons e r ih =>
    obtain ⟨l, v⟩ := e
    rw [build] at h
    cases hi : insert l v t with
    | error e => rw [hi] at h; cases h
    | ok t1 =>
      rw [hi] at h
      rw [ih t1 h, List.reverse_cons, List.find?_append]
      cases r.reverse.find? (fun e => decide (e.1 = p)) with
      | some e => rfl
      | none =>
        rw [get_insert l v t t1 hi p]
        by_cases hp : p = l
        · subst hp; simp
        · rw [if_neg hp]
          simp only [Option.none_or, List.find?_cons, show decide (l = p) = false by simp [Ne.symm hp],
            List.find?_nil, List.any_cons]
          cases t.get p with
          | some x => rfl
          | none =>
            by_cases hpl : p <+: l
            · rw [if_pos hpl, List.isPrefixOf_iff_prefix.2 hpl]; rfl
            · rw [if_neg hpl]
              have : p.isPrefixOf l = false := by
                rw [Bool.eq_false_iff, Ne, List.isPrefixOf_iff_prefix]; exact hpl
              rw [this]; rfl

theorem get_empty (p : List Chr) : (empty : Trie V).get p = if p = [] then some none else none := by
  cases p with
  | nil => rfl
  | cons a q => rfl

/-- The longest path along a text: what is stored at its end and its length. -/
def munch : Trie V → List Chr → Option (Option V × Nat)
  | _, [] => none
  | t, x :: r =>
    match findChild x t.children with
    | none => none
    | some t' =>
      match munch t' r with
      | some (v, n) => some (v, n + 1)
      | none => some (t'.value, 1)

theorem munch_none {t : Trie V} {text : List Chr} (h : munch t text = none) (k : Nat) (h1 : 1 ≤ k)
    (h2 : k ≤ text.length) : t.get (text.take k) = none := by
  cases text with
  | nil => simp at h2; omega
  | cons x r =>
    obtain ⟨v0, cs⟩ := t
    obtain ⟨k, rfl⟩ : ∃ j, k = j + 1 := ⟨k - 1, by omega⟩
    rw [List.take_succ_cons, get_cons]
    rw [munch] at h
    split at h
    · rename_i hf
      rw [show findChild x cs = none from hf]; rfl
    · split at h <;> cases h

theorem munch_some {t : Trie V} {text : List Chr} {v : Option V} {n : Nat}
    (h : munch t text = some (v, n)) :
    1 ≤ n ∧ n ≤ text.length ∧ t.get (text.take n) = some v ∧
    ∀ k, n < k → k ≤ text.length → t.get (text.take k) = none := by
  induction text generalizing t v n with
  | nil => cases h
  | cons x r ih =>
    obtain ⟨v0, cs⟩ := t
    rw [munch] at h
    split at h
    · cases h
    · rename_i t' hf
      replace hf : findChild x cs = some t' := hf
      have hget : ∀ j, (Trie.node v0 cs).get ((x :: r).take (j + 1)) = t'.get (r.take j) := by
        intro j
        rw [List.take_succ_cons, get_cons, hf]; rfl
      split at h
      · rename_i v' n' hm
        cases h
        obtain ⟨i1, i2, i3, i4⟩ := ih hm
        refine ⟨by omega, by simp; omega, ?_, ?_⟩
        · rw [hget, i3]
        · intro k hk hl
          obtain ⟨k, rfl⟩ : ∃ j, k = j + 1 := ⟨k - 1, by omega⟩
          rw [hget]
          exact i4 k (by omega) (by simpa using hl)
      · rename_i hm
        cases h
        refine ⟨by omega, by simp, ?_, ?_⟩
        · rw [hget]; simp [get_nil]
        · intro k hk hl
          obtain ⟨k, rfl⟩ : ∃ j, k = j + 1 := ⟨k - 1, by omega⟩
          rw [hget]
          exact munch_none hm k (by omega) (by simpa using hl)

end Trie

/-- The matcher follows the longest path. -/
theorem walkPunct_eq {V : Type} (t : Trie V) (h0 : ∀ p, t.get (p ++ [0]) = none) (c : Cursor) :
    walkPunct t c = match t.munch c.text with
      | none => some (.error .notFound, c)
      | some (some v, n) => some (.ok v, c.adv n)
      | some (none, n) => some (.error .noMatch, c.adv n) := by
  generalize hn : c.text = text
  induction text generalizing t c with
  | nil =>
    obtain ⟨v0, cs⟩ := t
    rw [walkPunct, peek_bind]
    have hat : c.at 0 = 0 := by rw [at_zero, hn]; rfl
    have hf : Trie.findChild 0 (Trie.node v0 cs).children = none := by
      have := h0 []
      rw [List.nil_append, Trie.get_cons] at this
      cases hc : Trie.findChild 0 cs with
      | none => exact hc
      | some t' => rw [hc] at this; cases this
    rw [hat, hf]
    rfl
  | cons x r ih =>
    obtain ⟨v0, cs⟩ := t
    rw [walkPunct, peek_bind]
    have hat : c.at 0 = x := by rw [at_zero, hn]; rfl
    rw [hat, Trie.munch]
    cases hf : Trie.findChild x (Trie.node v0 cs).children with
    | none => rfl
    | some t' =>
      have ht : (c.adv 1).text = r := by rw [Cursor.text_adv, hn]; rfl
      have h0' : ∀ p, t'.get (p ++ [0]) = none := by
        intro p
        have := h0 (x :: p)
        rw [List.cons_append, Trie.get_cons, show Trie.findChild x cs = some t' from hf] at this
        exact this
      have e := ih t' h0' (c.adv 1) ht
      simp only
      rw [skip_bind (by rw [hn]; simp)]
      cases hm : t'.munch r with
      | none =>
        rw [hm] at e
        rw [attempt_bind e]
        simp only
        cases t'.value <;> rfl
      | some vn =>
        obtain ⟨v, n⟩ := vn
        rw [hm] at e
        cases v with
        | none =>
          rw [attempt_bind e]
          simp only [fail_eq, Cursor.adv_adv, Nat.add_comm]
        | some v =>
          rw [attempt_bind e]
          simp only [pure_apply, Cursor.adv_adv, Nat.add_comm]

end Kefir.Lexer
