import Verif.Lexer.Punctuator
/-!
# Property C08: punctuators
-/

namespace Kefir.Lexer

/-- `p` is the longest C punctuator the text begins with. -/
def LongestPunct (p : Punct) (text : List Chr) : Prop :=
  p.spelling <+: text ∧ ∀ q : Punct, q.spelling <+: text → q.spelling.length ≤ p.spelling.length

/-- The punctuator trie the lexer builds (`kefir_lexer_init_punctuators` succeeded). -/
def PunctTrie (t : Tries) : Prop := Trie.build punctuators Trie.empty = .ok t.puncts

def puncts_all : List Punct := punctuators.map (·.2)

theorem punct_mem (p : Punct) : (p.spelling, p) ∈ punctuators := by cases p <;> decide

theorem punct_table : ∀ e ∈ punctuators, e.1 = e.2.spelling := by decide +kernel

theorem punct_keys : ∀ e ∈ punctuators, e.1 ≠ [] ∧ 0 ∉ e.1 := by decide +kernel

/-- The paths of the trie that end inside an entry. -/
theorem punct_dead_ends : ∀ e ∈ punctuators, ∀ k, 1 ≤ k → k ≤ e.1.length →
    (∀ e' ∈ punctuators, e'.1 ≠ e.1.take k) →
    e.1.take k = str ".." ∧ e.1 = str "..." ∨ e.1.take k = str "%:%" ∧ e.1 = str "%:%:" := by
  have key : ∀ e ∈ punctuators, ∀ k ∈ [1, 2, 3, 4], k ≤ e.1.length →
    (∀ e' ∈ punctuators, e'.1 ≠ e.1.take k) →
    e.1.take k = str ".." ∧ e.1 = str "..." ∨ e.1.take k = str "%:%" ∧ e.1 = str "%:%:" := by
    decide +kernel
  have len : ∀ e ∈ punctuators, e.1.length ≤ 4 := by decide +kernel
  intro e he k h1 h2
  have := len e he
  exact key e he k (by simp; omega) h2

theorem punct_get {t : Tries} (h : PunctTrie t) (p : List Chr) (hp : p ≠ []) :
    (∀ v, t.puncts.get p = some (some v) ↔ p = v.spelling) ∧
    (t.puncts.get p = some none →
      (∀ e ∈ punctuators, e.1 ≠ p) ∧ ∃ e ∈ punctuators, p <+: e.1) ∧
    (t.puncts.get p = none → ∀ e ∈ punctuators, ¬ p <+: e.1) := by
  have e := Trie.get_build punctuators Trie.empty t.puncts h p
  rw [Trie.get_empty, if_neg hp] at e
  cases hf : punctuators.reverse.find? (fun e => decide (e.1 = p)) with
  | some x =>
    rw [hf] at e
    have hx : x.1 = p := by simpa using List.find?_some hf
    have hm : x ∈ punctuators := by simpa using List.mem_of_find?_eq_some hf
    have hs := punct_table x hm
    refine ⟨fun v => ?_, ?_, ?_⟩
    · rw [e, ← hx, hs]
      constructor
      · intro h'
        injection h' with h'
        injection h' with h'
        rw [h']
      · intro h'
        have inj : ∀ a b : Punct, a.spelling = b.spelling → a = b := by
          have : ∀ a ∈ puncts_all, ∀ b ∈ puncts_all, a.spelling = b.spelling → a = b := by
            decide +kernel
          intro a b
          exact this a (by cases a <;> decide) b (by cases b <;> decide)
        exact congrArg (fun v => some (some v)) (inj _ _ h')
    · intro h'; rw [e] at h'; cases h'
    · intro h'; rw [e] at h'; cases h'
  | none =>
    rw [hf] at e
    have hne : ∀ x ∈ punctuators, x.1 ≠ p := by
      intro x hx
      rw [List.find?_eq_none] at hf
      simpa using hf x (by simpa using hx)
    refine ⟨fun v => ?_, ?_, ?_⟩
    · constructor
      · intro h'
        rw [e] at h'
        cases ha : punctuators.any fun e => p.isPrefixOf e.1 <;> rw [ha] at h' <;> cases h'
      · intro h'
        exact absurd (h'.symm) (hne _ (punct_mem v))
    · intro h'
      refine ⟨hne, ?_⟩
      rw [e] at h'
      cases ha : punctuators.any (fun e => p.isPrefixOf e.1) with
      | false => rw [ha] at h'; cases h'
      | true =>
        rw [List.any_eq_true] at ha
        obtain ⟨x, hx, hpx⟩ := ha
        exact ⟨x, hx, List.isPrefixOf_iff_prefix.1 hpx⟩
    · intro h' x hx hpx
      rw [e] at h'
      have : punctuators.any (fun e => p.isPrefixOf e.1) = true :=
        List.any_eq_true.2 ⟨x, hx, List.isPrefixOf_iff_prefix.2 hpx⟩
      rw [this] at h'
      cases h'

theorem punct_no_zero {t : Tries} (h : PunctTrie t) (p : List Chr) : t.puncts.get (p ++ [0]) = none := by
  have hp : p ++ [0] ≠ [] := by simp
  obtain ⟨h1, h2, -⟩ := punct_get h (p ++ [0]) hp
  cases hg : t.puncts.get (p ++ [0]) with
  | none => rfl
  | some x =>
    have mem : ∀ e ∈ punctuators, p ++ [0] <+: e.1 → False := fun e he hpre =>
      (punct_keys e he).2 (hpre.subset (by simp))
    cases x with
    | some v => exact (mem _ (punct_mem v) (((h1 v).1 hg) ▸ List.prefix_rfl)).elim
    | none =>
      obtain ⟨-, e, he, hpre⟩ := h2 hg
      exact (mem e he hpre).elim

/-- The texts on which the matcher runs into a dead end: `..` that does not continue to `...`, and
`%:%` that does not continue to `%:%:`. -/
def DeadEnd (text : List Chr) : Prop :=
  (str ".." <+: text ∧ ¬ str "..." <+: text) ∨ (str "%:%" <+: text ∧ ¬ str "%:%:" <+: text)

instance (text) : Decidable (DeadEnd text) := by unfold DeadEnd; infer_instance

theorem take_of_prefix {p text : List Chr} (h : p <+: text) : text.take p.length = p := by
  obtain ⟨r, rfl⟩ := h
  simp

/-- The three outcomes of the matcher. -/
theorem scanPunctuator_cases {t : Tries} (ht : PunctTrie t) (c : Cursor) :
    (∃ p, LongestPunct p c.text ∧ ¬ DeadEnd c.text ∧
      scanPunctuator t.puncts c = some (.ok (.punct p), c.adv p.spelling.length)) ∨
    ((∀ p : Punct, ¬ p.spelling <+: c.text) ∧ ¬ DeadEnd c.text ∧
      scanPunctuator t.puncts c = some (.error .noMatch, c)) ∨
    (DeadEnd c.text ∧ ∃ c', scanPunctuator t.puncts c = some (.error .noMatch, c')) := by
  have e := walkPunct_eq t.puncts (punct_no_zero ht) c
  cases hm : t.puncts.munch c.text with
  | none =>
    right; left
    rw [hm] at e
    have hno : ∀ q : List Chr, q ≠ [] → q <+: c.text → t.puncts.get q = none := by
      intro q hq hpre
      have hl : q.length ≠ 0 := fun h => hq (List.eq_nil_of_length_eq_zero h)
      have := Trie.munch_none hm q.length (by omega) hpre.length_le
      rwa [take_of_prefix hpre] at this
    have hs : ∀ p : Punct, ¬ p.spelling <+: c.text := by
      intro p hpre
      have hp : p.spelling ≠ [] := (punct_keys _ (punct_mem p)).1
      have := ((punct_get ht _ hp).1 p).2 rfl
      rw [hno _ hp hpre] at this
      cases this
    refine ⟨hs, ?_, ?_⟩
    · rintro (⟨h, -⟩ | ⟨h, -⟩)
      · exact hs .dot (List.IsPrefix.trans (by decide) h)
      · exact hs .percent (List.IsPrefix.trans (by decide) h)
    · unfold scanPunctuator
      rw [attempt_bind e]; rfl
  | some vn =>
    obtain ⟨v, n⟩ := vn
    rw [hm] at e
    obtain ⟨m1, m2, m3, m4⟩ := Trie.munch_some hm
    have hne : c.text.take n ≠ [] := by
      intro h
      have := congrArg List.length h
      simp at this
      rcases this with h | h
      · omega
      · rw [h] at m2; simp at m2; omega
    have hlong : ∀ q : List Chr, q ≠ [] → q <+: c.text → t.puncts.get q ≠ none → q.length ≤ n := by
      intro q hq hpre hg
      rcases Nat.lt_or_ge n q.length with hlt | hge
      · have := m4 q.length hlt hpre.length_le
        rw [take_of_prefix hpre] at this
        exact absurd this hg
      · exact hge
    cases v with
    | some p =>
      left
      have hp : c.text.take n = p.spelling := ((punct_get ht _ hne).1 p).1 m3
      have hlen : p.spelling.length = n := by rw [← hp]; simp; omega
      have hpt : p.spelling <+: c.text := hp ▸ List.take_prefix ..
      have dead : ∀ (s : List Chr) (q : Punct), s ≠ [] → s <+: q.spelling → s <+: c.text →
          s <+: p.spelling := by
        intro s q hs hsq hst
        refine List.prefix_of_prefix_length_le hst hpt ?_
        rw [hlen]
        refine hlong s hs hst (fun hg => ?_)
        exact (punct_get ht s hs).2.2 hg _ (punct_mem q) hsq
      refine ⟨p, ⟨hpt, ?_⟩, ?_, ?_⟩
      · intro q hq
        rw [hlen]
        have hqn : q.spelling ≠ [] := (punct_keys _ (punct_mem q)).1
        refine hlong _ hqn hq ?_
        rw [((punct_get ht _ hqn).1 q).2 rfl]
        simp
      · rintro (⟨h1, h2⟩ | ⟨h1, h2⟩)
        · have := dead _ .ellipsis (by decide) (by decide) h1
          have hall : ∀ p : Punct, str ".." <+: p.spelling → p.spelling = str "..." := by
            intro p; cases p <;> decide
          exact h2 (hall p this ▸ hpt)
        · have := dead _ .digraphDoubleHash (by decide) (by decide) h1
          have hall : ∀ p : Punct, str "%:%" <+: p.spelling → p.spelling = str "%:%:" := by
            intro p; cases p <;> decide
          exact h2 (hall p this ▸ hpt)
      · unfold scanPunctuator
        rw [attempt_bind e, hlen]; rfl
    | none =>
      right; right
      refine ⟨?_, ⟨c.adv n, by unfold scanPunctuator; rw [attempt_bind e]; rfl⟩⟩
      obtain ⟨g1, e0, he0, hpre⟩ := (punct_get ht _ hne).2.1 m3
      have hlen : (c.text.take n).length = n := by simp; omega
      have hpt : c.text.take n = e0.1.take n := by
        have := take_of_prefix hpre
        rw [hlen] at this
        exact this.symm
      have hd := punct_dead_ends e0 he0 n m1 (by have := hpre.length_le; omega)
        (fun e' he' h => g1 e' he' (by rw [hpt]; exact h))
      have fin : ∀ p : Punct, ∀ s, e0.1.take n = s → s.length < p.spelling.length →
          s <+: c.text ∧ ¬ p.spelling <+: c.text := by
        intro p s hs hsl
        rw [← hpt] at hs
        refine ⟨hs ▸ List.take_prefix .., fun hq => ?_⟩
        have hqn : p.spelling ≠ [] := (punct_keys _ (punct_mem p)).1
        have := hlong _ hqn hq (by rw [((punct_get ht _ hqn).1 p).2 rfl]; simp)
        rw [← hs, hlen] at hsl
        omega
      rcases hd with ⟨h1, -⟩ | ⟨h1, -⟩
      · exact Or.inl (fin .ellipsis _ h1 (by decide))
      · exact Or.inr (fin .digraphDoubleHash _ h1 (by decide))

/-- **C08** (in part) Except on dead ends, the punctuator recognised is the longest C punctuator the
text begins with, and exactly its characters are consumed; if the text begins with none, nothing is
consumed and no token is produced.  Missing: on a dead end a shorter punctuator (`.`, `%:`) should be
recognised but is not, see `C08_dead_end_unmatched`. -/
theorem C08_longest_punctuator_partial (t : Tries) (ht : PunctTrie t) (c : Cursor)
    (h : ¬ DeadEnd c.text) :
    (∃ p, LongestPunct p c.text ∧
      matchPunctuator t c = some (.ok (.punct p), c.adv p.spelling.length)) ∨
    ((∀ p : Punct, ¬ p.spelling <+: c.text) ∧ matchPunctuator t c = some (.error .noMatch, c)) := by
  rcases scanPunctuator_cases ht c with ⟨p, hp, -, e⟩ | ⟨hno, -, e⟩ | ⟨hd, -⟩
  · left
    refine ⟨p, hp, ?_⟩
    unfold matchPunctuator apply
    rw [e]
  · right
    refine ⟨hno, ?_⟩
    unfold matchPunctuator apply
    rw [e]
  · exact absurd hd h

/-- C08 is false of the code: on every dead end no token is produced, although the text begins with
`.` or with `%:`. -/
theorem C08_dead_end_unmatched (t : Tries) (ht : PunctTrie t) (c : Cursor) (h : DeadEnd c.text) :
    matchPunctuator t c = some (.error .noMatch, c) ∧
    (Punct.dot.spelling <+: c.text ∨ Punct.digraphHash.spelling <+: c.text) := by
  have hpre : Punct.dot.spelling <+: c.text ∨ Punct.digraphHash.spelling <+: c.text := by
    rcases h with ⟨h, -⟩ | ⟨h, -⟩
    · exact Or.inl (List.IsPrefix.trans (by decide) h)
    · exact Or.inr (List.IsPrefix.trans (by decide) h)
  refine ⟨?_, hpre⟩
  rcases scanPunctuator_cases ht c with ⟨p, -, hn, -⟩ | ⟨-, hn, -⟩ | ⟨-, c', e'⟩
  · exact absurd h hn
  · exact absurd h hn
  · unfold matchPunctuator apply
    rw [e']

/-- The construction of the trie succeeds. -/
theorem punctTrie_exists : ∃ t, Trie.build punctuators Trie.empty = .ok t := by
  have h : (match Trie.build punctuators Trie.empty with | .ok _ => true | .error _ => false) = true := by
    decide +kernel
  cases hb : Trie.build punctuators (Trie.empty : Trie Punct) with
  | ok t => exact ⟨t, rfl⟩
  | error e => rw [hb] at h; cases h

/-- Concrete cases: `>>=x` is `>>=`, and `..x` is a dead end. -/
example (t : Tries) (ht : PunctTrie t) : ∃ c', matchPunctuator t ⟨str ">>=x", .nul, 1, 1⟩ =
    some (.ok (.punct .assignShiftRight), c') := by
  rcases C08_longest_punctuator_partial t ht ⟨str ">>=x", .nul, 1, 1⟩ (by decide) with
    ⟨p, hp, e⟩ | ⟨hno, -⟩
  · have : p = .assignShiftRight := by
      have h := hp.1
      have h2 := hp.2 .assignShiftRight (by decide)
      revert h h2
      cases p <;> decide
    rw [this] at e
    exact ⟨_, e⟩
  · exact absurd (show Punct.assignShiftRight.spelling <+: _ by decide) (hno _)

example (t : Tries) (ht : PunctTrie t) :
    matchPunctuator t ⟨str "..x", .nul, 1, 1⟩ = some (.error .noMatch, ⟨str "..x", .nul, 1, 1⟩) :=
  (C08_dead_end_unmatched t ht _ (by decide)).1

end Kefir.Lexer
