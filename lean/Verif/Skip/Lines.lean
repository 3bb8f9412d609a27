import Verif.Skip.Lemmas
/-!
# What `match` returns at a plain line
-/

namespace Kefir.Skip

open Kefir.Lexer Kefir.Directive Kefir.PpToken

theorem takeWhile_stop {p : Chr → Bool} {a : List Chr} {x : Chr} (hx : x ∈ a) (hp : p x = false) (b : List Chr) :
    (a ++ b).takeWhile p = a.takeWhile p ∧ (a ++ b).dropWhile p = a.dropWhile p ++ b ∧ x ∈ a.dropWhile p := by
  induction a with
  | nil => cases hx
  | cons y a ih =>
    rw [List.cons_append, List.takeWhile_cons, List.dropWhile_cons, List.takeWhile_cons, List.dropWhile_cons]
    cases hy : p y with
    | false => exact ⟨rfl, rfl, hx⟩
    | true =>
      have hx' : x ∈ a := by
        rcases List.mem_cons.mp hx with rfl | h
        · rw [hp] at hy; cases hy
        · exact h
      obtain ⟨h1, h2, h3⟩ := ih hx'
      exact ⟨by simp [h1], by simp [h2], by simpa using h3⟩

theorem newline_not_blank : decide (IsBlank (ch '\n')) = false := by decide

/-- What follows the newline of a line does not matter. -/
theorem matchText_append {raw : List Chr} (h : ch '\n' ∈ raw) (r : List Chr) :
    matchText (raw ++ r) = matchText raw := by
  obtain ⟨h1, h2, h3⟩ := takeWhile_stop (p := fun x => decide (IsBlank x)) h newline_not_blank r
  have hb : blanks (raw ++ r) = blanks raw := h1
  have hd : dropBlanks (raw ++ r) = dropBlanks raw ++ r := h2
  have hm : ch '\n' ∈ dropBlanks raw := h3
  rw [matchText, matchText, hb, hd]
  cases hc : dropBlanks raw with
  | nil => rw [hc] at hm; cases hm
  | cons x s =>
    rw [List.cons_append]
    dsimp only
    by_cases hx : x = ch '#'
    · simp only [hx, ne_eq, not_true_eq_false, if_false]
      have hs : ch '\n' ∈ s := by
        rw [hc] at hm
        rcases List.mem_cons.mp hm with h | h
        · rw [hx] at h; exact absurd h (by decide)
        · exact h
      obtain ⟨h1', h2', h3'⟩ := takeWhile_stop (p := fun x => decide (IsBlank x)) hs newline_not_blank r
      have hb' : blanks (s ++ r) = blanks s := h1'
      have hd' : dropBlanks (s ++ r) = dropBlanks s ++ r := h2'
      have hm' : ch '\n' ∈ dropBlanks s := h3'
      have hl : leadingLetters (dropBlanks s ++ r) = leadingLetters (dropBlanks s) :=
        (takeWhile_stop (p := fun x => decide (IsNondigit x)) hm' (by decide) r).1
      rw [hb', hd', hl]
      cases hq : dropBlanks s with
      | nil => rw [hq] at hm'; cases hm'
      | cons y q => rfl
    · simp only [ne_eq, hx, not_false_eq_true, if_true]

theorem ident_letters {q n : List Chr} (h : (q.takeWhile fun x => decide (IsIdent x)) = n)
    (hn : ∀ x ∈ n, IsNondigit x) : leadingLetters q = n := by
  unfold leadingLetters
  induction q generalizing n with
  | nil => exact h
  | cons y q ih =>
    rw [List.takeWhile_cons] at h ⊢
    by_cases hy : IsIdent y
    · rw [if_pos (by simpa using hy)] at h
      subst h
      rw [if_pos (by simpa using hn y List.mem_cons_self),
        ih rfl fun x hx => hn x (List.mem_cons_of_mem _ hx)]
    · rw [if_neg (by simpa using hy)] at h
      rw [if_neg (by simpa using fun h => hy (Or.inl h))]
      exact h

/-- The type of a line with a directive of one of the names of conditionals. -/
def kindOf (name : List Chr) : Option Kind := (knownDirectives.find? fun e => e.1 = name).map (·.2)

/-- `match` at the lines of a text. -/
structure Classified (l : Line) (k : Kind) (flag : Bool) (n : Nat) : Prop where
  begins : l.is begins ↔ k = .ifD ∨ k = .ifdef ∨ k = .ifndef
  alternatives : l.is alternatives ↔ k = .elif ∨ k = .elseD
  ends : l.is ends ↔ k = .endif
  sentinel : k = .sentinel → n = l.raw.length ∧ flag = true
  room : k ≠ .sentinel → n + (if l.raw.getLast? = some (ch '\n') then 1 else 0) ≤ l.raw.length
  rest : k = .elif ∨ k = .elseD → ((matchText (l.raw.drop n)).1 = .ppToken ∧ (matchText (l.raw.drop n)).2.2 = 0) ∨
    ((matchText (l.raw.drop n)).1 = .sentinel ∧ (matchText (l.raw.drop n)).2.1 = true ∧
      n + (matchText (l.raw.drop n)).2.2 = l.raw.length)

theorem room_of {raw a b : List Chr} (h : raw = a ++ b) (ha : ch '\n' ∉ a) :
    a.length + (if raw.getLast? = some (ch '\n') then 1 else 0) ≤ raw.length := by
  subst h
  cases b with
  | nil =>
    rw [List.append_nil, if_neg (fun h => ha (List.mem_of_getLast? h))]
    omega
  | cons x b =>
    rw [List.length_append, List.length_cons]
    split <;> omega

theorem not_is {l : Line} {names : List (List Chr)} (h : directiveName l.text = none) : ¬ l.is names := by
  rintro ⟨n, _, hn⟩
  rw [h] at hn
  cases hn

theorem blanks_newline (s : List Chr) : ch '\n' ∉ blanks s := fun h => (blanks_mem h).2 rfl

theorem known_facts : ∀ e ∈ knownDirectives, (∀ x ∈ e.1, IsNondigit x) ∧ e.1.length < 63 ∧
    knownDirectives.find? (fun e' => e'.1 = e.1) = some e ∧
    (e.1 ∈ begins ↔ e.2 = .ifD ∨ e.2 = .ifdef ∨ e.2 = .ifndef) ∧
    (e.1 ∈ alternatives ↔ e.2 = .elif ∨ e.2 = .elseD) ∧ (e.1 ∈ ends ↔ e.2 = .endif) ∧ e.2 ≠ .sentinel := by
  decide

theorem name_facts : ∀ n ∈ begins ++ alternatives ++ ends, (∀ x ∈ n, IsNondigit x) ∧ n.length < 63 ∧
    knownDirectives.find? (fun e' => e'.1 = n) ≠ none := by
  decide

theorem matchText_plain {l : Line} (h : PlainLine l) :
    Classified l (matchText l.raw).1 (matchText l.raw).2.1 (matchText l.raw).2.2 := by
  have hsplit := blanks_drop l.raw
  rw [matchText]
  cases hd : dropBlanks l.raw with
  | nil =>
    have hnone : directiveName l.text = none := by
      rw [← h.comments, directiveName, afterHash, hd]; rfl
    refine ⟨?_, ?_, ?_, ?_, ?_, ?_⟩
    · exact ⟨fun q => absurd q (not_is hnone), fun q => by rcases q with q | q | q <;> cases q⟩
    · exact ⟨fun q => absurd q (not_is hnone), fun q => by rcases q with q | q <;> cases q⟩
    · exact ⟨fun q => absurd q (not_is hnone), fun q => by cases q⟩
    · intro _
      refine ⟨?_, rfl⟩
      rw [hd, List.append_nil] at hsplit
      exact (congrArg List.length hsplit).symm
    · exact fun q => absurd rfl q
    · rintro (q | q) <;> cases q
  | cons x r =>
    dsimp only
    by_cases hx : x = ch '#'
    · subst hx
      simp only [ne_eq, not_true_eq_false, if_false]
      have hah : afterHash l.raw = some (dropBlanks r) := by rw [afterHash, hd]; rfl
      have hname : directiveName l.text = some ((dropBlanks r).takeWhile fun x => decide (IsIdent x)) := by
        rw [← h.comments, directiveName, hah]; rfl
      have hraw : l.raw = blanks l.raw ++ ch '#' :: (blanks r ++ dropBlanks r) := by
        rw [← blanks_drop r, ← hd]; exact hsplit
      have isname : ∀ names : List (List Chr), (∀ n ∈ names, n ∈ begins ++ alternatives ++ ends) →
          l.is names → leadingLetters (dropBlanks r) ∈ names := by
        rintro names hs ⟨n, hn, he⟩
        rw [hname] at he
        injection he with he
        rw [ident_letters he (name_facts n (hs n hn)).1]
        exact hn
      by_cases hnl : (dropBlanks r).head? = some (ch '\n')
      · rw [if_pos hnl]
        have hletters : leadingLetters (dropBlanks r) = [] := by
          cases hq : dropBlanks r with
          | nil => rfl
          | cons y q =>
            rw [hq] at hnl
            injection hnl with hy
            rw [hy]
            rfl
        have hno : ∀ names : List (List Chr), (∀ n ∈ names, n ∈ begins ++ alternatives ++ ends) → [] ∉ names →
            ¬ l.is names := by
          intro names hs hne hi
          have := isname names hs hi
          rw [hletters] at this
          exact hne this
        refine ⟨?_, ?_, ?_, ?_, ?_, ?_⟩
        · exact ⟨fun q => absurd q (hno _ (by decide) (by decide)), fun q => by rcases q with q | q | q <;> cases q⟩
        · exact ⟨fun q => absurd q (hno _ (by decide) (by decide)), fun q => by rcases q with q | q <;> cases q⟩
        · exact ⟨fun q => absurd q (hno _ (by decide) (by decide)), fun q => by cases q⟩
        · intro q; cases q
        · intro _
          have := room_of (raw := l.raw) (a := blanks l.raw ++ ch '#' :: blanks r) (b := dropBlanks r)
            (by rw [List.append_assoc, List.cons_append]; exact hraw)
            (by
              rw [List.mem_append, List.mem_cons]
              rintro (q | q | q)
              · exact blanks_newline _ q
              · exact absurd q (by decide)
              · exact blanks_newline _ q)
          rw [List.length_append, List.length_cons] at this
          rw [show (blanks l.raw).length + 1 + (blanks r).length = (blanks l.raw).length + ((blanks r).length + 1) by omega]
          exact this
        · rintro (q | q) <;> cases q
      · rw [if_neg hnl]
        cases hf : knownDirectives.find? (fun e => e.1 = (leadingLetters (dropBlanks r)).take 63) with
        | none =>
          have hno : ∀ names : List (List Chr), (∀ n ∈ names, n ∈ begins ++ alternatives ++ ends) → ¬ l.is names := by
            intro names hs hi
            have hmem := isname names hs hi
            obtain ⟨_, hl, hk⟩ := name_facts _ (hs _ hmem)
            rw [List.take_of_length_le (by omega)] at hf
            exact hk hf
          dsimp only
          refine ⟨?_, ?_, ?_, ?_, ?_, ?_⟩
          · exact ⟨fun q => absurd q (hno _ (by decide)), fun q => by rcases q with q | q | q <;> cases q⟩
          · exact ⟨fun q => absurd q (hno _ (by decide)), fun q => by rcases q with q | q <;> cases q⟩
          · exact ⟨fun q => absurd q (hno _ (by decide)), fun q => by cases q⟩
          · intro q; cases q
          · exact fun _ => room_of hraw (blanks_newline _)
          · rintro (q | q) <;> cases q
        | some e =>
          have hmem := List.mem_of_find?_eq_some hf
          have he := List.find?_some hf
          rw [decide_eq_true_eq] at he
          obtain ⟨hnd, hlen, _, hb, ha, hen, hsent⟩ := known_facts e hmem
          have hll : leadingLetters (dropBlanks r) = e.1 := by
            rcases Nat.le_total (leadingLetters (dropBlanks r)).length 63 with hl | hl
            · rw [he, List.take_of_length_le hl]
            · rw [he, List.length_take] at hlen
              omega
          have htake : (leadingLetters (dropBlanks r)).take 63 = e.1 := he.symm
          have hiff : ∀ names : List (List Chr), (∀ n ∈ names, n ∈ begins ++ alternatives ++ ends) →
              (l.is names ↔ e.1 ∈ names) := by
            intro names hs
            constructor
            · intro hi
              rw [← hll]
              exact isname names hs hi
            · intro hi
              refine ⟨e.1, hi, ?_⟩
              rw [← h.comments, h.name _ hah (by rw [hll]; exact hs _ hi), hll]
          have hq : dropBlanks r = e.1 ++ (dropBlanks r).drop e.1.length := by
            have := (List.takeWhile_append_dropWhile (p := fun x => decide (IsNondigit x)) (l := dropBlanks r))
            have hl2 : (dropBlanks r).takeWhile (fun x => decide (IsNondigit x)) = e.1 := hll
            rw [hl2] at this
            conv => lhs; rw [← this]
            conv => rhs; rw [← this]
            rw [List.drop_left]
          have hraw2 : l.raw = (blanks l.raw ++ ch '#' :: (blanks r ++ e.1)) ++ (dropBlanks r).drop e.1.length := by
            rw [List.append_assoc, List.cons_append, List.append_assoc, ← hq]
            exact hraw
          have hlen2 : (blanks l.raw).length + 1 + (blanks r).length + e.1.length =
              (blanks l.raw ++ ch '#' :: (blanks r ++ e.1)).length := by
            simp only [List.length_append, List.length_cons]
            omega
          have hdrop : l.raw.drop ((blanks l.raw).length + 1 + (blanks r).length + e.1.length) =
              (dropBlanks r).drop e.1.length := by
            rw [hlen2]
            generalize hA : (blanks l.raw ++ ch '#' :: (blanks r ++ e.1)) = A at hraw2
            rw [hraw2, List.drop_left]
          dsimp only
          rw [htake]
          refine ⟨?_, ?_, ?_, ?_, ?_, ?_⟩
          · rw [hiff _ (by decide)]; exact hb
          · rw [hiff _ (by decide)]; exact ha
          · rw [hiff _ (by decide)]; exact hen
          · intro q; exact absurd q hsent
          · intro _
            rw [hlen2]
            refine room_of hraw2 ?_
            rw [List.mem_append, List.mem_cons, List.mem_append]
            rintro (q | q | q | q)
            · exact blanks_newline _ q
            · exact absurd q (by decide)
            · exact blanks_newline _ q
            · exact absurd (hnd _ q) (by decide)
          · intro q
            have hno := h.rest _ e.1 _ hah (ha.mpr q) hq
            rw [hdrop]
            rw [matchText]
            generalize hs : (dropBlanks r).drop e.1.length = s at hno hraw2
            cases hds : dropBlanks s with
            | nil =>
              refine Or.inr ⟨rfl, rfl, ?_⟩
              have hsl := blanks_drop s
              rw [hds, List.append_nil] at hsl
              have := congrArg List.length hraw2
              rw [List.length_append, ← hlen2] at this
              rw [this]
              dsimp only
              conv => rhs; rw [hsl]
            | cons y q =>
              left
              dsimp only
              rw [if_pos (fun hy => hno q (by rw [hds, hy]))]
              exact ⟨rfl, rfl⟩
    · have hnone : directiveName l.text = none := by
        rw [← h.comments, directiveName, afterHash, hd]
        dsimp only
        rw [if_neg hx, if_neg]
        · rfl
        · rintro ⟨rfl, hc⟩
          exact h.digraph r hd hc
      simp only [ne_eq, hx, not_false_eq_true, if_true]
      refine ⟨?_, ?_, ?_, ?_, ?_, ?_⟩
      · exact ⟨fun q => absurd q (not_is hnone), fun q => by rcases q with q | q | q <;> cases q⟩
      · exact ⟨fun q => absurd q (not_is hnone), fun q => by rcases q with q | q <;> cases q⟩
      · exact ⟨fun q => absurd q (not_is hnone), fun q => by cases q⟩
      · intro q; cases q
      · intro _
        have := room_of (raw := l.raw) (a := []) (b := l.raw) rfl (by simp)
        simpa using this
      · rintro (q | q) <;> cases q

end Kefir.Skip
