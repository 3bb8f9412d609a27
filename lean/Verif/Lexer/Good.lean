import Verif.Lexer.PunctProps
import Verif.Lexer.Whitespace
import Verif.Lexer.EscapeProps
/-!
# Termination and progress of the matchers
-/

namespace Kefir.Lexer

/-- The outcome of a matcher started at `c`: it returns, it has moved forward within the text, and if
it succeeded it has consumed at least `n` characters. -/
def GoodAt {α : Type} (n : Nat) (c : Cursor) (o : Option (Res α × Cursor)) : Prop :=
  ∃ r k, o = some (r, c.adv k) ∧ k ≤ c.text.length ∧ (∀ a, r = .ok a → n ≤ k)

namespace GoodAt
variable {α β : Type} {n m : Nat} {c : Cursor}

theorem pure (a : α) : GoodAt 0 c ((Pure.pure a : Lex α) c) :=
  ⟨.ok a, 0, by rw [Cursor.adv_zero]; rfl, Nat.zero_le _, fun _ _ => Nat.zero_le _⟩

theorem fail (e : Err) : GoodAt n c ((Kefir.Lexer.fail e : Lex α) c) :=
  ⟨.error e, 0, by rw [Cursor.adv_zero]; rfl, Nat.zero_le _, fun _ h => by cases h⟩

theorem mono {o : Option (Res α × Cursor)} (h : GoodAt n c o) (hm : m ≤ n) : GoodAt m c o := by
  obtain ⟨r, k, e, hk, hn⟩ := h
  exact ⟨r, k, e, hk, fun a ha => Nat.le_trans hm (hn a ha)⟩

/-- An outcome after moving forward. -/
theorem shift {k : Nat} {o : Option (Res α × Cursor)} (hk : k ≤ c.text.length)
    (h : GoodAt (n - k) (c.adv k) o) : GoodAt n c o := by
  obtain ⟨r, j, e, hj, hn⟩ := h
  rw [Cursor.text_adv, List.length_drop] at hj
  refine ⟨r, k + j, by rw [e, Cursor.adv_adv], by omega, fun a ha => ?_⟩
  have := hn a ha
  omega

theorem skip {k : Nat} {f : Unit → Lex β} (hk : k ≤ c.text.length)
    (h : GoodAt (n - k) (c.adv k) (f () (c.adv k))) : GoodAt n c ((Kefir.Lexer.skip k >>= f) c) := by
  rw [skip_bind hk]
  exact shift hk h

theorem bind {x : Lex α} {f : α → Lex β} (hx : GoodAt m c (x c))
    (hf : ∀ a k, k ≤ c.text.length → m ≤ k → GoodAt (n - k) (c.adv k) (f a (c.adv k))) :
    GoodAt n c ((x >>= f) c) := by
  obtain ⟨r, k, e, hk, hn⟩ := hx
  cases r with
  | error e' =>
    rw [bind_err e]
    exact ⟨.error e', k, rfl, hk, fun _ h => by cases h⟩
  | ok a =>
    rw [bind_some e]
    exact shift hk (hf a k hk (hn a rfl))

theorem attempt {x : Lex α} {f : Res α → Lex β} (hx : GoodAt m c (x c))
    (hf : ∀ r k, k ≤ c.text.length → (∀ a, r = .ok a → m ≤ k) →
      GoodAt (n - k) (c.adv k) (f r (c.adv k))) :
    GoodAt n c ((Kefir.Lexer.attempt x >>= f) c) := by
  obtain ⟨r, k, e, hk, hn⟩ := hx
  rw [attempt_bind e]
  exact shift hk (hf r k hk hn)

theorem orElse {x y : Lex α} (hx : GoodAt n c (x c))
    (hy : ∀ k, k ≤ c.text.length → GoodAt (n - k) (c.adv k) (y (c.adv k))) :
    GoodAt n c (Kefir.Lexer.orElse x y c) := by
  obtain ⟨r, k, e, hk, hn⟩ := hx
  cases r with
  | ok a =>
    rw [orElse_ok e]
    exact ⟨.ok a, k, rfl, hk, hn⟩
  | error e' =>
    by_cases h : e' = .noMatch
    · subst h
      rw [orElse_noMatch e]
      exact shift hk (hy k hk)
    · refine ⟨.error e', k, ?_, hk, fun _ h => by cases h⟩
      unfold Kefir.Lexer.orElse
      rw [e]
      cases e' <;> first | rfl | exact absurd rfl h

/-- `orElse` of matchers that leave the cursor on NO_MATCH. -/
theorem orElse' {x y : Lex α} (hx : GoodAt n c (x c))
    (hs : ∀ c', x c = some (.error .noMatch, c') → c' = c) (hy : GoodAt n c (y c)) :
    GoodAt n c (Kefir.Lexer.orElse x y c) := by
  obtain ⟨r, k, e, hk, hn⟩ := hx
  cases r with
  | ok a =>
    rw [orElse_ok e]
    exact ⟨.ok a, k, rfl, hk, hn⟩
  | error e' =>
    by_cases h : e' = .noMatch
    · subst h
      rw [orElse_noMatch e, hs _ e]
      exact hy
    · refine ⟨.error e', k, ?_, hk, fun _ h => by cases h⟩
      unfold Kefir.Lexer.orElse
      rw [e]
      cases e' <;> first | rfl | exact absurd rfl h

theorem apply {x : Lex α} (hx : GoodAt n c (x c)) : GoodAt n c (Kefir.Lexer.apply x c) := by
  obtain ⟨r, k, e, hk, hn⟩ := hx
  unfold Kefir.Lexer.apply
  rw [e]
  split
  · exact ⟨.error .noMatch, 0, by rw [Cursor.adv_zero], Nat.zero_le _, fun _ h => by cases h⟩
  · exact ⟨r, k, rfl, hk, hn⟩

theorem peek {k : Nat} {f : Chr → Lex β} (h : GoodAt n c (f (c.at k) c)) :
    GoodAt n c ((Kefir.Lexer.peek k >>= f) c) := by
  rw [peek_bind]; exact h

theorem ite {p : Prop} [Decidable p] {x y : Lex α} (hx : p → GoodAt n c (x c))
    (hy : ¬ p → GoodAt n c (y c)) : GoodAt n c ((if p then x else y) c) := by
  split
  · exact hx ‹_›
  · exact hy ‹_›

theorem map {x : Lex α} {f : α → β} (h : GoodAt n c (x c)) :
    GoodAt n c ((x >>= fun a => Pure.pure (f a)) c) := by
  obtain ⟨r, k, e, hk, hn⟩ := h
  cases r with
  | error e' =>
    rw [bind_err e]
    exact ⟨.error e', k, rfl, hk, fun _ h => by cases h⟩
  | ok a =>
    rw [bind_some e]
    exact ⟨.ok (f a), k, rfl, hk, fun _ _ => hn a rfl⟩

end GoodAt

theorem length_pos_of_at {c : Cursor} {k : Nat} {x : Chr} (h : c.at k = x) (hx : x ≠ 0) :
    k + 1 ≤ c.text.length := at_pos (by rw [h]; exact hx)

theorem isdigit_ne {c : Chr} (h : isdigit c = true) : c ≠ 0 := by rintro rfl; revert h; decide
theorem isnondigit_ne {c : Chr} (h : isnondigit c = true) : c ≠ 0 := by rintro rfl; revert h; decide

theorem good_scanWhile {α : Type} (p : Chr → Bool) (h0 : p 0 = false) (step : α → Chr → α) (acc : α)
    (c : Cursor) : GoodAt 0 c (scanWhile p step acc c) :=
  ⟨_, _, scanWhile_eq p h0 step acc c, (List.takeWhile_sublist p).length_le, fun _ _ => Nat.zero_le _⟩

theorem foldl_push (acc l : List Chr) : l.foldl push acc = acc ++ l := by
  induction l generalizing acc with
  | nil => simp
  | cons x l ih => rw [List.foldl_cons, ih, push]; simp

/-! ## Integer constants -/

theorem good_findSuffix (l : List (List Chr × IntTy)) (hl : ∀ e ∈ l, 0 ∉ e.1) (c : Cursor) :
    GoodAt 0 c (findSuffix l c) := by
  rw [findSuffix_eq l hl]
  split
  · rename_i e h
    have hp : e.1.isPrefixOf c.text = true :=
      List.find?_some (p := fun e : List Chr × IntTy => e.1.isPrefixOf c.text) h
    exact ⟨_, _, rfl, isPrefixOf_length hp, fun _ _ => Nat.zero_le _⟩
  · exact ⟨_, 0, by rw [Cursor.adv_zero], Nat.zero_le _, fun _ _ => Nat.zero_le _⟩

theorem good_scanSuffix (d : Bool) (v : Nat) (c : Cursor) : GoodAt 0 c (scanSuffix d v c) := by
  have key : ∀ t c', GoodAt 0 c' (buildIntegral t d v c') := by
    intro t c'
    unfold buildIntegral
    exact ⟨_, 0, by rw [Cursor.adv_zero], Nat.zero_le _, fun _ _ => Nat.zero_le _⟩
  unfold scanSuffix
  refine GoodAt.bind (good_findSuffix _ table_no_zero c) fun a k _ _ => ?_
  cases a <;> exact (key _ _).mono (by omega)

theorem good_nextDecimal (c : Cursor) : GoodAt 1 c (nextDecimal c) := by
  unfold nextDecimal
  refine .peek (.ite (fun h => ?_) (fun _ => .fail _))
  refine ⟨_, _, scanWhile_eq _ isdigit_zero _ _ c, (List.takeWhile_sublist _).length_le, fun _ _ => ?_⟩
  obtain ⟨r, hr⟩ := text_cons (isdigit_ne h.1)
  rw [hr, List.takeWhile_cons_of_pos h.1]
  simp

theorem good_nextOctal (c : Cursor) : GoodAt 1 c (nextOctal c) := by
  unfold nextOctal
  refine .peek (.ite (fun h => ?_) (fun _ => .fail _))
  refine ⟨_, _, scanWhile_eq _ isoctdigit_zero _ _ c, (List.takeWhile_sublist _).length_le,
    fun _ _ => ?_⟩
  obtain ⟨r, hr⟩ := text_cons (c := c) (by rw [h]; decide)
  rw [hr, List.takeWhile_cons_of_pos (by rw [h]; decide)]
  simp

theorem good_nextHexadecimal (c : Cursor) : GoodAt 1 c (nextHexadecimal c) := by
  unfold nextHexadecimal
  refine .peek (.peek (.peek (.ite (fun h => ?_) (fun _ => .fail _))))
  have := at_pos (ne_zero_of_hex h.2.2)
  exact .skip (by omega) ((good_scanWhile _ ishexdigit_zero _ _ _).mono (by omega))

theorem good_scanIntegral (c : Cursor) : GoodAt 1 c (scanIntegral c) := by
  unfold scanIntegral
  refine GoodAt.bind (m := 1) ?_ fun a k _ hk => (good_scanSuffix _ _ _).mono (by omega)
  refine .orElse (.map (good_nextDecimal c)) fun k _ => ?_
  refine GoodAt.mono (n := 1) ?_ (by omega)
  refine .orElse (.map (good_nextHexadecimal _)) fun k _ => ?_
  exact (GoodAt.map (good_nextOctal _)).mono (by omega)

/-! ## Floating constants -/

theorem good_matchFractional (isd ise : Chr → Bool) (h0 : isd 0 = false) (lit : List Chr) (c : Cursor) :
    GoodAt 1 c (matchFractional isd ise lit c) := by
  unfold matchFractional
  rw [bind_some (scanWhile_eq _ h0 _ _ c)]
  refine GoodAt.shift (List.takeWhile_sublist isd).length_le ?_
  generalize hk : (c.text.takeWhile isd).length = k
  refine .peek (.ite (fun h => ?_) (fun _ => .ite (fun h => ?_) (fun _ => .fail _)))
  · refine .skip (length_pos_of_at h (by decide)) (GoodAt.mono (n := 0) ?_ (by omega))
    refine GoodAt.bind (good_scanWhile _ h0 _ _ _) fun fs j _ _ => ?_
    exact .ite (fun _ => (GoodAt.pure _).mono (by omega)) (fun _ => .fail _)
  · have : 0 < k := by
      have := h.1
      rw [foldl_push] at this
      simpa [hk] using this
    exact (GoodAt.pure _).mono (by omega)

theorem good_matchExponent (ise : Chr → Bool) (h0 : ise 0 = false) (lit : List Chr) (c : Cursor) :
    GoodAt 0 c (matchExponent ise lit c) := by
  unfold matchExponent
  refine .peek (.ite (fun h => ?_) (fun _ => .pure _))
  have hz : c.at 0 ≠ 0 := by intro e; rw [e, h0] at h; cases h
  refine .skip (at_pos hz) (.peek ?_)
  refine GoodAt.bind (m := 0) (.ite (fun h => ?_) (fun _ => .pure _)) fun l k _ _ => ?_
  · exact .skip (at_pos (by rcases h with h | h <;> rw [h] <;> decide))
      ((GoodAt.pure _).mono (by omega))
  · refine GoodAt.bind (good_scanWhile _ isdigit_zero _ _ _) fun fs j _ _ => ?_
    exact .ite (fun _ => (GoodAt.pure _).mono (by omega)) (fun _ => .fail _)

theorem good_matchFloatSuffix (c : Cursor) : GoodAt 0 c (matchFloatSuffix c) := by
  unfold matchFloatSuffix
  refine .peek (.ite (fun h => ?_) (fun _ => .ite (fun h => ?_) (fun _ => .pure _)))
  · exact .skip (at_pos (by rcases h with h | h <;> rw [h] <;> decide)) ((GoodAt.pure _).mono (by omega))
  · exact .skip (at_pos (by rcases h with h | h <;> rw [h] <;> decide)) ((GoodAt.pure _).mono (by omega))

theorem good_matchDecimalFloat (c : Cursor) : GoodAt 1 c (matchDecimalFloat c) := by
  unfold matchDecimalFloat
  refine GoodAt.bind (good_matchFractional _ _ isdigit_zero _ c) fun lit k _ hk => ?_
  refine GoodAt.bind (good_matchExponent _ (by decide) _ _) fun lit j _ _ => ?_
  refine GoodAt.bind (good_matchFloatSuffix _) fun t j _ _ => ?_
  exact (GoodAt.pure _).mono (by omega)

theorem good_matchHexFloat (c : Cursor) : GoodAt 1 c (matchHexFloat c) := by
  unfold matchHexFloat
  refine .peek (.peek (.ite (fun h => ?_) (fun _ => .fail _)))
  have := at_pos (c := c) (k := 1) (by rcases h.2 with h | h <;> rw [h] <;> decide)
  refine .skip (by omega) ?_
  refine GoodAt.bind (good_matchFractional _ _ ishexdigit_zero _ _) fun lit k _ hk => ?_
  refine GoodAt.bind (good_matchExponent _ (by decide) _ _) fun lit j _ _ => ?_
  refine GoodAt.bind (good_matchFloatSuffix _) fun t j _ _ => ?_
  exact (GoodAt.pure _).mono (by omega)

theorem good_scanFloat (c : Cursor) : GoodAt 1 c (scanFloat c) :=
  .orElse (good_matchHexFloat c) fun _ _ => (good_matchDecimalFloat _).mono (by omega)

/-! ## Escape sequences -/

theorem good_nextUniversal (c : Cursor) : GoodAt 1 c (nextUniversal c) := by
  unfold nextUniversal
  refine .peek (.peek (.ite (fun _ => ?_) (fun _ => .ite (fun _ => ?_) (fun _ => .fail _))))
  · refine .peek (.peek (.peek (.peek (.ite (fun h => ?_) (fun _ => .fail _)))))
    simp only [Bool.and_eq_true] at h
    have := at_pos (ne_zero_of_hex h.2)
    exact .skip (by omega) ((GoodAt.pure _).mono (by omega))
  · refine .peek (.peek (.peek (.peek (.peek (.peek (.peek (.peek (.ite (fun h => ?_)
      (fun _ => .fail _)))))))))
    simp only [Bool.and_eq_true] at h
    have := at_pos (ne_zero_of_hex h.2)
    exact .skip (by omega) ((GoodAt.pure _).mono (by omega))

theorem good_nextEscape (c : Cursor) : GoodAt 2 c (nextEscape c) := by
  rcases escape_or_error c with ⟨seq, rest, w, he, ht⟩ | hx
  · refine ⟨_, _, nextEscape_ok he ht, by rw [ht]; simp, fun _ _ => ?_⟩
    cases he with
    | octal ds rest h1 => simp; omega
    | _ => simp
  · -- errors: the cursor after them
    unfold nextEscape
    refine .peek (.ite (fun h0 => ?_) (fun _ => .fail _))
    have l0 := length_pos_of_at h0 (by decide)
    refine .orElse ?_ fun k _ => ?_
    · unfold nextSimpleEscape
      refine .peek ?_
      cases hs : simpleEscape (c.at 1) with
      | none => exact .fail _
      | some v =>
        have hz : c.at 1 ≠ 0 := by
          intro h; rw [h, show simpleEscape 0 = none by decide] at hs; cases hs
        have := at_pos hz
        exact .skip (by omega) ((GoodAt.pure _).mono (by omega))
    · refine .orElse ?_ fun j _ => ?_
      · unfold nextOctalEscape
        refine .peek (.peek (.peek (.ite (fun h => ?_) (fun _ => .ite (fun h => ?_)
          (fun _ => .ite (fun h => ?_) (fun _ => .fail _))))))
        · simp only [Bool.and_eq_true] at h
          have := at_pos (ne_zero_of_oct h.2)
          exact .skip (by omega) ((GoodAt.pure _).mono (by omega))
        · simp only [Bool.and_eq_true] at h
          have := at_pos (ne_zero_of_oct h.2)
          exact .skip (by omega) ((GoodAt.pure _).mono (by omega))
        · have := at_pos (ne_zero_of_oct h)
          exact .skip (by omega) ((GoodAt.pure _).mono (by omega))
      · refine .orElse ?_ fun i _ => ?_
        · unfold nextHexEscape
          refine .peek (.ite (fun h => ?_) (fun _ => .fail _))
          have := length_pos_of_at h (by decide)
          refine .skip (by omega) (.peek (.ite (fun h => ?_) (fun _ => .fail _)))
          exact (good_scanWhile _ ishexdigit_zero _ _ _).mono (by omega)
        · -- a universal character name has at least six characters
          have : ∀ c : Cursor, GoodAt 2 c (nextUniversal c) := by
            intro c
            unfold nextUniversal
            refine .peek (.peek (.ite (fun _ => ?_) (fun _ => .ite (fun _ => ?_) (fun _ => .fail _))))
            · refine .peek (.peek (.peek (.peek (.ite (fun h => ?_) (fun _ => .fail _)))))
              simp only [Bool.and_eq_true] at h
              have := at_pos (ne_zero_of_hex h.2)
              exact .skip (by omega) ((GoodAt.pure _).mono (by omega))
            · refine .peek (.peek (.peek (.peek (.peek (.peek (.peek (.peek (.ite (fun h => ?_)
                (fun _ => .fail _)))))))))
              simp only [Bool.and_eq_true] at h
              have := at_pos (ne_zero_of_hex h.2)
              exact .skip (by omega) ((GoodAt.pure _).mono (by omega))
          exact (this _).mono (by omega)

/-! ## Identifiers -/

theorem good_scanNondigit (c : Cursor) : GoodAt 1 c (scanNondigit c) := by
  unfold scanNondigit
  refine .peek (.ite (fun h => ?_) (fun _ => good_nextUniversal c))
  exact .skip (at_pos (isnondigit_ne h)) ((GoodAt.pure _).mono (by omega))

theorem good_scanIdDigit (c : Cursor) : GoodAt 1 c (scanIdDigit c) := by
  unfold scanIdDigit
  refine .peek (.ite (fun h => ?_) (fun _ => good_scanNondigit c))
  exact .skip (at_pos (isdigit_ne h)) ((GoodAt.pure _).mono (by omega))

theorem good_identifierLoop (id : List Chr) (c : Cursor) : GoodAt 0 c (identifierLoop id c) := by
  generalize hn : c.text.length = n
  induction n using Nat.strongRecOn generalizing id c with
  | ind n ih =>
    rw [identifierLoop]
    refine GoodAt.attempt (good_scanIdDigit c) fun r k hk hr => ?_
    cases r with
    | ok chr =>
      have := hr chr rfl
      refine .ite (fun _ => ?_) (fun _ => .fail _)
      refine GoodAt.mono (n := 0) (ih (n - k) (by omega) _ _ ?_) (by omega)
      rw [Cursor.text_adv, List.length_drop]; omega
    | error e =>
      cases e <;> first | exact (GoodAt.pure _).mono (by omega) | exact .fail _

theorem good_scanIdentifier (cd : Codec) (kws : Option (Trie Keyword)) (c : Cursor) :
    GoodAt 1 c (scanIdentifier cd kws c) := by
  unfold scanIdentifier
  refine GoodAt.bind (good_scanNondigit c) fun a k _ hk => ?_
  refine GoodAt.bind (good_identifierLoop _ _) fun id j _ _ => ?_
  show GoodAt (1 - k - j) _ ((match (match kws with
    | some t => matchKeyword (cstr id) t
    | none => .error .notFound : Res Keyword) with
    | .ok k => (Pure.pure (.keyword k) : Lex Token)
    | .error _ => match encodeAll cd (id ++ [0]) with
      | some bs => Pure.pure (.identifier (bs.takeWhile (· ≠ 0)))
      | none => Kefir.Lexer.fail .invalidState) _)
  generalize (match kws with
    | some t => matchKeyword (cstr id) t
    | none => .error .notFound : Res Keyword) = kw
  cases kw with
  | ok kw => exact (GoodAt.pure _).mono (by omega)
  | error e =>
    cases encodeAll cd (id ++ [0]) with
    | some bs => exact (GoodAt.pure _).mono (by omega)
    | none => exact .fail _

/-! ## Punctuators -/

theorem good_scanPunctuator {t : Tries} (ht : PunctTrie t) (c : Cursor) :
    GoodAt 1 c (matchPunctuator t c) := by
  rcases scanPunctuator_cases ht c with ⟨p, hp, -, e⟩ | ⟨-, -, e⟩ | ⟨-, c', e⟩
  · unfold matchPunctuator Kefir.Lexer.apply
    rw [e]
    refine ⟨_, _, rfl, hp.1.length_le, fun _ _ => ?_⟩
    cases p <;> decide
  · unfold matchPunctuator Kefir.Lexer.apply
    rw [e]
    exact ⟨_, 0, by rw [Cursor.adv_zero], Nat.zero_le _, fun _ h => by cases h⟩
  · unfold matchPunctuator Kefir.Lexer.apply
    rw [e]
    exact ⟨_, 0, by rw [Cursor.adv_zero], Nat.zero_le _, fun _ h => by cases h⟩

/-! ## Whitespace -/

theorem good_blockCommentLoop (c : Cursor) : GoodAt 0 c (blockCommentLoop c) := by
  generalize hn : c.text.length = n
  induction n using Nat.strongRecOn generalizing c with
  | ind n ih =>
    rw [blockCommentLoop]
    refine .peek (.peek (.ite (fun h => ?_) (fun _ => .pure _)))
    have := at_pos h.2
    refine .skip (by omega) (GoodAt.mono (n := 0) (ih (n - 1) (by omega) _ ?_) (by omega))
    rw [Cursor.text_adv, List.length_drop]; omega

theorem good_lineCommentLoop (c : Cursor) : GoodAt 0 c (lineCommentLoop c) := by
  generalize hn : c.text.length = n
  induction n using Nat.strongRecOn generalizing c with
  | ind n ih =>
    rw [lineCommentLoop]
    refine .peek (.ite (fun h => ?_) (fun _ => .pure _))
    have := at_pos h.2
    refine .skip (by omega) (GoodAt.mono (n := 0) (ih (n - 1) (by omega) _ ?_) (by omega))
    rw [Cursor.text_adv, List.length_drop]; omega

theorem isspace_ne {c : Chr} (h : isspace c = true) : c ≠ 0 := by rintro rfl; revert h; decide

theorem good_whitespaceRound (c : Cursor) : GoodAt 0 c (whitespaceRound c) := by
  unfold whitespaceRound
  refine GoodAt.bind (m := 0) ?_ fun m k _ _ => ?_
  · unfold skipWhitespaces
    refine .peek (.ite (fun h => ?_) (fun _ => .pure _))
    exact .skip (at_pos (isspace_ne h)) ((GoodAt.pure _).mono (by omega))
  refine GoodAt.mono (n := 0) ?_ (by omega)
  refine GoodAt.bind (m := 0) ?_ fun m k _ _ => ?_
  · unfold skipMultilineComment
    refine .peek (.peek (.ite (fun h => ?_) (fun _ => .pure _)))
    have := length_pos_of_at h.2 (by decide)
    refine .skip (by omega) (GoodAt.bind (good_blockCommentLoop _) fun _ j _ _ => ?_)
    refine .peek (.peek (.ite (fun h => ?_) (fun _ => .fail _)))
    have := length_pos_of_at h.2 (by decide)
    exact .skip (by omega) ((GoodAt.pure _).mono (by omega))
  refine GoodAt.mono (n := 0) ?_ (by omega)
  unfold skipOnelineComment
  refine .peek (.peek (.ite (fun h => ?_) (fun _ => .pure _)))
  have := length_pos_of_at h.2 (by decide)
  refine .skip (by omega) (GoodAt.bind (good_lineCommentLoop _) fun _ j _ _ => ?_)
  refine .peek (.ite (fun h => ?_) (fun _ => (GoodAt.pure _).mono (by omega)))
  exact .skip (length_pos_of_at h (by decide)) ((GoodAt.pure _).mono (by omega))

theorem good_skipWhitespace (c : Cursor) (h0 : 0 ∉ c.text) : GoodAt 0 c (skipWhitespace c) := by
  generalize hn : c.text.length = n
  induction n using Nat.strongRecOn generalizing c with
  | ind n ih =>
    rw [skipWhitespace]
    rcases whitespaceRound_eq c h0 with ⟨m, k, e, hm, hk, hkl, hb⟩ | ⟨e, hno⟩ | ⟨c', t', e, hb, hu⟩
    · rw [bind_some e, if_pos hm]
      refine GoodAt.shift hkl (GoodAt.mono (n := 0) (ih (n - k) (by omega) _ (drop_no_zero h0 k) ?_)
        (by omega))
      rw [Cursor.text_adv, List.length_drop]; omega
    · rw [bind_some e, if_neg (by simp)]
      exact .pure _
    · obtain ⟨r, k, e', hk, -⟩ := good_whitespaceRound c
      rw [e] at e'
      cases e'
      rw [bind_err e]
      exact ⟨_, k, rfl, hk, fun _ h => by cases h⟩

/-! ## String literals -/

/-- The outcome of scanning string literals: as `GoodAt`, with the return code inside. -/
def GoodLit {β : Type} (n : Nat) (c : Cursor) (o : Option (Res (Res Unit × β) × Cursor)) : Prop :=
  ∃ r b k, o = some (.ok (r, b), c.adv k) ∧ k ≤ c.text.length ∧ (r = .ok () → n ≤ k)

namespace GoodLit
variable {n m : Nat} {c : Cursor} {β γ : Type}

theorem ok (b : β) : GoodLit 0 c ((Pure.pure (.ok (), b) : Lex (Res Unit × β)) c) :=
  ⟨.ok (), b, 0, by rw [Cursor.adv_zero]; rfl, Nat.zero_le _, fun _ => Nat.zero_le _⟩

theorem err (e : Err) (b : β) :
    GoodLit n c ((Pure.pure (.error e, b) : Lex (Res Unit × β)) c) :=
  ⟨.error e, b, 0, by rw [Cursor.adv_zero]; rfl, Nat.zero_le _, fun h => by cases h⟩

theorem mono {o : Option (Res (Res Unit × β) × Cursor)} (h : GoodLit n c o) (hm : m ≤ n) :
    GoodLit m c o := by
  obtain ⟨r, b, k, e, hk, hn⟩ := h
  exact ⟨r, b, k, e, hk, fun ha => Nat.le_trans hm (hn ha)⟩

theorem shift {k : Nat} {o : Option (Res (Res Unit × β) × Cursor)} (hk : k ≤ c.text.length)
    (h : GoodLit (n - k) (c.adv k) o) : GoodLit n c o := by
  obtain ⟨r, b, j, e, hj, hn⟩ := h
  rw [Cursor.text_adv, List.length_drop] at hj
  refine ⟨r, b, k + j, by rw [e, Cursor.adv_adv], by omega, fun ha => ?_⟩
  have := hn ha
  omega

theorem bind {x : Lex (Res Unit × γ)} {f : Res Unit × γ → Lex (Res Unit × β)}
    (hx : GoodLit m c (x c))
    (hf : ∀ r b k, k ≤ c.text.length → (r = .ok () → m ≤ k) →
      GoodLit (n - k) (c.adv k) (f (r, b) (c.adv k))) : GoodLit n c ((x >>= f) c) := by
  obtain ⟨r, b, k, e, hk, hn⟩ := hx
  rw [bind_some e]
  exact shift hk (hf r b k hk hn)

theorem bindTok {α : Type} {x : Lex (Res Unit × γ)} {f : Res Unit × γ → Lex α}
    (hx : GoodLit m c (x c))
    (hf : ∀ r b k, k ≤ c.text.length → (r = .ok () → m ≤ k) →
      GoodAt (n - k) (c.adv k) (f (r, b) (c.adv k))) : GoodAt n c ((x >>= f) c) := by
  obtain ⟨r, b, k, e, hk, hn⟩ := hx
  rw [bind_some e]
  exact GoodAt.shift hk (hf r b k hk hn)

theorem attempt {α : Type} {x : Lex α} {f : Res α → Lex (Res Unit × β)} (hx : GoodAt m c (x c))
    (hf : ∀ r k, k ≤ c.text.length → (∀ a, r = .ok a → m ≤ k) →
      GoodLit (n - k) (c.adv k) (f r (c.adv k))) :
    GoodLit n c ((Kefir.Lexer.attempt x >>= f) c) := by
  obtain ⟨r, k, e, hk, hn⟩ := hx
  rw [attempt_bind e]
  exact shift hk (hf r k hk hn)

theorem peek {k : Nat} {f : Chr → Lex (Res Unit × β)} (h : GoodLit n c (f (c.at k) c)) :
    GoodLit n c ((Kefir.Lexer.peek k >>= f) c) := by
  rw [peek_bind]; exact h

theorem ite {p : Prop} [Decidable p] {x y : Lex (Res Unit × β)} (hx : p → GoodLit n c (x c))
    (hy : ¬ p → GoodLit n c (y c)) : GoodLit n c ((if p then x else y) c) := by
  split
  · exact hx ‹_›
  · exact hy ‹_›

end GoodLit

theorem good_skip {k : Nat} {c : Cursor} (hk : k ≤ c.text.length) : GoodAt k c (skip k c) :=
  ⟨_, k, skip_ok hk, hk, fun _ _ => Nat.le_refl _⟩

theorem good_literalLoop (sc : StrCodec) (m : Mode) (bs : List UInt8) (c : Cursor) :
    GoodLit 1 c (literalLoop sc m bs c) := by
  generalize hn : c.text.length = n
  induction n using Nat.strongRecOn generalizing bs c with
  | ind n ih =>
    have hrec : ∀ k bs j, 1 ≤ k → k ≤ n → GoodLit (1 - j) (c.adv k) (literalLoop sc m bs (c.adv k)) := by
      intro k bs j h1 h2
      refine GoodLit.mono (n := 1) (ih (n - k) (by omega) _ _ ?_) (by omega)
      rw [Cursor.text_adv, List.length_drop]; omega
    rw [literalLoop]
    refine .peek (.ite (fun h => ?_) (fun h1 => .ite (fun _ => .err _ _) (fun h2 =>
      .ite (fun _ => .err _ _) (fun h3 => .ite (fun h => ?_) (fun h4 => ?_)))))
    · refine GoodLit.attempt (good_skip (length_pos_of_at h (by decide))) fun r k hk hr => ?_
      cases r with
      | ok u => exact (GoodLit.ok _).mono (by have := hr u rfl; omega)
      | error e => exact .err _ _
    · refine .peek ?_
      refine GoodLit.attempt (good_nextEscape c) fun r k hk hr => ?_
      cases r with
      | error e => exact .err _ _
      | ok v =>
        have := hr v rfl
        refine .ite (fun _ => ?_) (fun _ => ?_)
        · cases rawBytes m v with
          | none => exact .err _ _
          | some b => exact hrec k _ _ (by omega) (by omega)
        · cases sc.encode m v with
          | none => exact .err _ _
          | some b => exact hrec k _ _ (by omega) (by omega)
    · cases sc.encode m (c.at 0) with
      | none => exact .err _ _
      | some b =>
        have := at_pos h2
        refine GoodLit.attempt (good_skip (k := 1) (by omega)) fun r k hk hr => ?_
        cases r with
        | error e => exact .err _ _
        | ok v =>
          have := hr v rfl
          exact hrec k _ _ (by omega) (by omega)

theorem matchString_zero (pre : List Chr) (hp : 0 ∉ pre) (c : Cursor) :
    matchString pre 0 c = some (.ok (pre.isPrefixOf c.text), c) := by
  rw [matchString_eq pre hp 0 c]; rfl

theorem good_nextLiteral (sc : StrCodec) (m : Mode) (pre : List Chr) (hp : 0 ∉ pre)
    (bs : List UInt8) (c : Cursor) : GoodLit 1 c (nextLiteral sc m pre bs c) := by
  unfold nextLiteral
  rw [bind_some (matchString_zero pre hp c)]
  refine .ite (fun h => ?_) (fun _ => .err _ _)
  refine GoodLit.attempt (good_skip (isPrefixOf_length h)) fun r k hk hr => ?_
  cases r with
  | error e => exact .err _ _
  | ok v => exact (good_literalLoop _ _ _ _).mono (by omega)

theorem good_adjacentLoop (sc : StrCodec) (m : Mode) (pre : List Chr) (hp : 0 ∉ pre)
    (bs : List UInt8) (c : Cursor) (h0 : 0 ∉ c.text) : GoodLit 0 c (adjacentLoop sc m pre bs c) := by
  generalize hn : c.text.length = n
  induction n using Nat.strongRecOn generalizing bs c with
  | ind n ih =>
    have hrec : ∀ k bs, 1 ≤ k → k ≤ n →
        GoodLit 0 (c.adv k) (adjacentLoop sc m pre bs (c.adv k)) := by
      intro k bs h1 h2
      refine (ih (n - k) (by omega) _ _ (drop_no_zero h0 k) ?_)
      rw [Cursor.text_adv, List.length_drop]; omega
    rw [adjacentLoop]
    refine GoodLit.attempt (good_skipWhitespace c h0) fun w k hk _ => ?_
    cases w with
    | error e => exact .err _ _
    | ok u =>
      refine GoodLit.bind (good_nextLiteral sc m pre hp bs _) fun r b j hj hr => ?_
      rw [Cursor.text_adv, List.length_drop] at hj
      rw [Cursor.adv_adv]
      cases r with
      | ok u => exact (hrec (k + j) b (by have := hr rfl; omega) (by omega)).mono (by omega)
      | error e =>
        cases e with
        | noMatch =>
          refine GoodLit.bind (good_nextLiteral sc m _ (by decide) b _) fun r b i hi hr => ?_
          rw [Cursor.text_adv, List.length_drop] at hi
          rw [Cursor.adv_adv]
          cases r with
          | ok u => exact (hrec (k + j + i) b (by have := hr rfl; omega) (by omega)).mono (by omega)
          | error e =>
            cases e with
            | noMatch => exact (GoodLit.ok _).mono (by omega)
            | _ => exact .err _ _
        | _ => exact .err _ _

theorem good_literalSequence (sc : StrCodec) (m : Mode) (pre : List Chr) (hp : 0 ∉ pre)
    (bs : List UInt8) (merge : Bool) (c : Cursor) (h0 : 0 ∉ c.text) :
    GoodLit 1 c (literalSequence sc m pre bs merge c) := by
  unfold literalSequence
  refine GoodLit.bind (good_nextLiteral sc m pre hp bs _) fun r b j hj hr => ?_
  cases r with
  | error e => exact .err _ _
  | ok u =>
    have := hr rfl
    refine .ite (fun _ => ?_) (fun _ => ?_)
    · exact (good_adjacentLoop sc m pre hp b _ (drop_no_zero h0 j)).mono (by omega)
    · exact (GoodLit.ok _).mono (by omega)

theorem good_tryConvert (sc : StrCodec) (m : Mode) (pre : List Chr) (hp : 0 ∉ pre) (b : Buf)
    (c : Cursor) (h0 : 0 ∉ c.text) : GoodLit 0 c (tryConvert sc m pre b c) := by
  unfold tryConvert
  rw [bind_some (matchString_zero pre hp c)]
  refine .ite (fun h => ?_) (fun _ => .err _ _)
  cases convertBuffer sc m b with
  | mk r b' =>
    cases r with
    | error e => exact .err _ _
    | ok u =>
      obtain ⟨r, bs, k, e, hk, -⟩ := good_literalSequence sc m pre hp b'.bytes true c h0
      refine ⟨r, ⟨b'.mode, bs⟩, k, ?_, hk, fun _ => Nat.zero_le _⟩
      show ((literalSequence sc m pre b'.bytes true >>= fun r => Pure.pure (r.1, (⟨b'.mode, r.2⟩ : Buf))) c) = _
      rw [bind_some e]
      rfl

theorem good_narrowTail (sc : StrCodec) (b : Buf) (l : List (List Chr × Mode)) (hl : ∀ e ∈ l, 0 ∉ e.1)
    (c : Cursor) (h0 : 0 ∉ c.text) : GoodAt 0 c (narrowTail sc b l c) := by
  induction l generalizing b c with
  | nil => exact .pure _
  | cons e l ih =>
    obtain ⟨pre, m⟩ := e
    rw [narrowTail]
    refine GoodLit.bindTok (good_tryConvert sc m pre (hl _ List.mem_cons_self) b c h0)
      fun r b' k hk _ => ?_
    cases r with
    | ok u => exact (GoodAt.pure _).mono (by omega)
    | error e =>
      cases e with
      | noMatch =>
        exact (ih b' (fun e he => hl e (List.mem_cons_of_mem _ he)) _ (drop_no_zero h0 k)).mono (by omega)
      | _ => exact .fail _

theorem good_narrowString (sc : StrCodec) (merge : Bool) (c : Cursor) (h0 : 0 ∉ c.text) :
    GoodAt 1 c (narrowString sc merge c) := by
  unfold narrowString
  refine .peek (.ite (fun h => ?_) (fun _ => .fail _))
  refine GoodLit.bindTok (good_literalSequence sc _ _ (by decide) _ _ c h0) fun r b k hk hr => ?_
  cases r with
  | error e => exact .fail _
  | ok u =>
    have := hr rfl
    refine .ite (fun _ => ?_) (fun _ => (GoodAt.pure _).mono (by omega))
    exact (good_narrowTail sc _ _ (by decide) _ (drop_no_zero h0 k)).mono (by omega)

theorem good_prefixedString (sc : StrCodec) (pre : List Chr) (hp : 0 ∉ pre) (m : Mode) (merge : Bool)
    (c : Cursor) (h0 : 0 ∉ c.text) : GoodAt 1 c (prefixedString sc pre m merge c) := by
  unfold prefixedString
  rw [bind_some (matchString_zero pre hp c)]
  refine .ite (fun h => ?_) (fun _ => .fail _)
  refine GoodLit.bindTok (good_literalSequence sc _ _ hp _ _ c h0) fun r b k hk hr => ?_
  cases r with
  | error e => exact .fail _
  | ok u => exact (GoodAt.pure _).mono (by have := hr rfl; omega)

theorem good_scanString (sc : StrCodec) (merge : Bool) (c : Cursor) (h0 : 0 ∉ c.text) :
    GoodAt 1 c (scanString sc merge c) := by
  unfold scanString
  refine .orElse (good_narrowString sc merge c h0) fun k _ => GoodAt.mono (n := 1) ?_ (by omega)
  have h0 := drop_no_zero h0 k
  refine .orElse (good_prefixedString sc _ (by decide) _ merge _ h0) fun k _ =>
    GoodAt.mono (n := 1) ?_ (by omega)
  have h0 := drop_no_zero h0 k
  refine .orElse (good_prefixedString sc _ (by decide) _ merge _ h0) fun k _ =>
    GoodAt.mono (n := 1) ?_ (by omega)
  have h0 := drop_no_zero h0 k
  refine .orElse (good_prefixedString sc _ (by decide) _ merge _ h0) fun k _ =>
    GoodAt.mono (n := 1) ?_ (by omega)
  have h0 := drop_no_zero h0 k
  exact .orElse (good_prefixedString sc _ (by decide) _ merge _ h0) fun k _ => .fail _

end Kefir.Lexer
