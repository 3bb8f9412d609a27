import Verif.Lexer.Whitespace
/-!
# Property C09: whitespace and comments
-/

namespace Kefir.Lexer

/-- **C09** Skipping whitespace removes exactly the longest leading run of whitespace characters and
comments.  If what remains begins with a block comment that is not closed it fails. -/
theorem C09_skip_whitespace (c : Cursor) (h0 : 0 ∉ c.text) :
    ∃ r, BlankRun c.text r ∧
      (¬ Unterminated r → ∃ k, skipWhitespace c = some (.ok (), c.adv k) ∧ (c.adv k).text = r) ∧
      (Unterminated r → ∃ c', skipWhitespace c = some (.error .lexerError, c')) := by
  generalize hn : c.text.length = n
  induction n using Nat.strongRecOn generalizing c with
  | ind n ih =>
    rcases whitespaceRound_eq c h0 with ⟨m, k, e, hm, hk, hkl, hb⟩ | ⟨e, hno⟩ | ⟨c', t', e, hb, hu⟩
    · have hlt : (c.adv k).text.length < n := by
        rw [Cursor.text_adv, List.length_drop]; omega
      obtain ⟨r, ⟨hr1, hr2⟩, h1, h2⟩ := ih _ hlt (c.adv k) (drop_no_zero h0 k) rfl
      rw [Cursor.text_adv] at hr1
      have step : skipWhitespace c = skipWhitespace (c.adv k) := by
        conv => lhs; rw [skipWhitespace]
        rw [ bind_some e, if_pos hm]
      refine ⟨r, ⟨hb.trans hr1, hr2⟩, fun hu => ?_, fun hu => ?_⟩
      · obtain ⟨k', e', ht⟩ := h1 hu
        refine ⟨k + k', ?_, ?_⟩
        · rw [step, e', Cursor.adv_adv]
        · rw [← ht, Cursor.adv_adv]
      · rw [step]; exact h2 hu
    · by_cases hu : Unterminated c.text
      · exfalso
        -- the round would have failed
        obtain ⟨body, hbody, hclose⟩ := hu
        have hat0 : c.at 0 = ch '/' := by rw [at_zero, hbody]; rfl
        have hsp : skipWhitespaces .noMatch c = some (.ok .noMatch, c) := by
          rw [skipWhitespaces, peek_bind, hat0, if_neg (by decide)]; rfl
        rw [whitespaceRound, bind_some hsp] at e
        rcases skipMultilineComment_phase .noMatch c h0 with
          ⟨m, k, e', hm, hk, hkl, hb⟩ | ⟨e', hn2⟩ | ⟨c', e', hu⟩
        · exact hno _ hb
        · exact hn2 (hbody ▸ List.prefix_append ..)
        · rw [bind_err e'] at e; cases e
      · refine ⟨c.text, ⟨.nil _, hno⟩, fun _ => ⟨0, ?_, ?_⟩, fun h => absurd h hu⟩
        · rw [skipWhitespace, bind_some e, if_neg (by simp), Cursor.adv_zero]; rfl
        · rw [Cursor.adv_zero]
    · have hno : ∀ r', ¬ Blank t' r' := by
        obtain ⟨body, rfl, hclose⟩ := hu
        intro r' hbl
        generalize ht : str "/*" ++ body = t at hbl
        cases hbl with
        | space x r hx =>
          have : ch '/' :: ch '*' :: body = x :: r' := ht
          injection this with h1 h2
          rw [← h1] at hx
          revert hx; decide
        | block b r hb' =>
          have : body = b ++ (str "*/" ++ r') := by
            have : ch '/' :: ch '*' :: body = ch '/' :: ch '*' :: (b ++ (str "*/" ++ r')) := ht
            injection this with h1 h2
            injection h2
          exact hclose ⟨b, r', by rw [this]; simp⟩
        | line b r hb' =>
          have : ch '/' :: ch '*' :: body = ch '/' :: ch '/' :: _ := ht
          injection this with h1 h2
          injection h2 with h3
          revert h3; decide
        | lastLine b hb' =>
          have : ch '/' :: ch '*' :: body = ch '/' :: ch '/' :: _ := ht
          injection this with h1 h2
          injection h2 with h3
          revert h3; decide
      refine ⟨t', ⟨hb, hno⟩, fun h => absurd hu h, fun _ => ⟨c', ?_⟩⟩
      rw [skipWhitespace, bind_err e]

/-- The first `*/` of a text is at one place. -/
theorem close_unique {b1 b2 r1 r2 : List Chr} (h1 : ¬ str "*/" <:+: b1 ++ str "*")
    (h2 : ¬ str "*/" <:+: b2 ++ str "*") (h : b1 ++ (str "*/" ++ r1) = b2 ++ (str "*/" ++ r2)) :
    r1 = r2 := by
  induction b1 generalizing b2 with
  | nil =>
    cases b2 with
    | nil => simpa using h
    | cons y b2 =>
      exfalso
      have h' : ch '*' :: ch '/' :: r1 = y :: (b2 ++ (str "*/" ++ r2)) := h
      injection h' with e1 e2
      cases b2 with
      | nil =>
        have e3 : ch '/' :: r1 = ch '*' :: ch '/' :: r2 := e2
        injection e3 with e4
        exact absurd e4 (by decide)
      | cons z b2 =>
        injection e2 with e3 e4
        apply h2
        refine ⟨[], b2 ++ str "*", ?_⟩
        rw [← e1, ← e3]; rfl
  | cons x b1 ih =>
    cases b2 with
    | nil =>
      exfalso
      have h' : x :: (b1 ++ (str "*/" ++ r1)) = ch '*' :: ch '/' :: r2 := h
      injection h' with e1 e2
      cases b1 with
      | nil =>
        have e3 : ch '*' :: ch '/' :: r1 = ch '/' :: r2 := e2
        injection e3 with e4
        exact absurd e4 (by decide)
      | cons z b1 =>
        injection e2 with e3 e4
        apply h1
        refine ⟨[], b1 ++ str "*", ?_⟩
        rw [e1, e3]; rfl
    | cons y b2 =>
      injection h with e1 e2
      exact ih (fun h' => h1 (List.infix_cons h')) (fun h' => h2 (List.infix_cons h')) e2

theorem line_unique {b1 b2 r1 r2 : List Chr} (h1 : ch '\n' ∉ b1) (h2 : ch '\n' ∉ b2)
    (h : b1 ++ ch '\n' :: r1 = b2 ++ ch '\n' :: r2) : r1 = r2 := by
  induction b1 generalizing b2 with
  | nil =>
    cases b2 with
    | nil => simpa using h
    | cons y b2 =>
      injection h with e1
      exact absurd (by simp [e1]) h2
  | cons x b1 ih =>
    cases b2 with
    | nil =>
      injection h with e1
      exact absurd (by simp [e1]) h1
    | cons y b2 =>
      injection h with e1 e2
      exact ih (fun h' => h1 (List.mem_cons_of_mem _ h')) (fun h' => h2 (List.mem_cons_of_mem _ h')) e2

/-- The element at the beginning of a text is determined. -/
theorem Blank.unique {t r1 r2 : List Chr} (h1 : Blank t r1) (h2 : Blank t r2) : r1 = r2 := by
  have slash : ∀ (x y : Chr) (u v : List Chr), x ∈ whitespaceChars → x :: u = ch '/' :: v → False := by
    intro x y u v hx h
    injection h with h
    rw [h] at hx
    revert hx; decide
  have star : ∀ (u v : List Chr), ch '/' :: ch '*' :: u = ch '/' :: ch '/' :: v → False := by
    intro u v h
    injection h with _ h
    injection h with h
    exact absurd h (by decide)
  have peel : ∀ (x y : Chr) (u v : List Chr), x :: y :: u = x :: y :: v → u = v := by
    intro x y u v h
    injection h with _ h
    injection h
  cases h1 with
  | space x r hx =>
    generalize ht : x :: r1 = t at h2
    cases h2 with
    | space y r' hy => injection ht
    | block b r hb => exact (slash x x _ _ hx ht).elim
    | line b r hb => exact (slash x x _ _ hx ht).elim
    | lastLine b hb => exact (slash x x _ _ hx ht).elim
  | block b r hb =>
    generalize ht : str "/*" ++ (b ++ (str "*/" ++ r1)) = t at h2
    cases h2 with
    | space y r' hy => exact (slash y y _ _ hy ht.symm).elim
    | block b' r hb' => exact close_unique hb hb' (peel _ _ _ _ ht)
    | line b' r hb' => exact (star _ _ ht).elim
    | lastLine b' hb' => exact (star _ _ ht).elim
  | line b r hb =>
    generalize ht : str "//" ++ (b ++ ch '\n' :: r1) = t at h2
    cases h2 with
    | space y r' hy => exact (slash y y _ _ hy ht.symm).elim
    | block b' r hb' => exact (star _ _ ht.symm).elim
    | line b' r hb' => exact line_unique hb hb' (peel _ _ _ _ ht)
    | lastLine b' hb' =>
      have : b ++ ch '\n' :: r1 = b' := peel _ _ _ _ ht
      rw [← this] at hb'
      exact absurd (by simp) hb'
  | lastLine b hb =>
    generalize ht : str "//" ++ b = t at h2
    cases h2 with
    | space y r' hy => exact (slash y y _ _ hy ht.symm).elim
    | block b' r hb' => exact (star _ _ ht.symm).elim
    | line b' r hb' =>
      have : b = b' ++ ch '\n' :: r2 := peel _ _ _ _ ht
      rw [this] at hb
      exact absurd (by simp) hb
    | lastLine b' hb' => rfl

/-- The run of C09 is unique, so the theorem determines the outcome on every text. -/
theorem C09_run_unique {t r1 r2 : List Chr} (h1 : BlankRun t r1) (h2 : BlankRun t r2) : r1 = r2 := by
  obtain ⟨b1, n1⟩ := h1
  obtain ⟨b2, n2⟩ := h2
  induction b1 with
  | nil t =>
    cases b2 with
    | nil => rfl
    | cons h _ => exact absurd h (n1 _)
  | cons h hs ih =>
    cases b2 with
    | nil => exact absurd h (n2 _)
    | cons h' hs' => exact ih n1 (by rw [h.unique h']; exact hs')

/-- A concrete case: a blank, a block comment with stars, a line comment and a newline are skipped. -/
example : ∃ k, skipWhitespace ⟨str " /* a**/// b\n\tx", .nul, 1, 1⟩ =
    some (.ok (), (⟨str " /* a**/// b\n\tx", .nul, 1, 1⟩ : Cursor).adv k) ∧
    ((⟨str " /* a**/// b\n\tx", .nul, 1, 1⟩ : Cursor).adv k).text = str "x" := by
  obtain ⟨r, hr, h1, -⟩ := C09_skip_whitespace ⟨str " /* a**/// b\n\tx", .nul, 1, 1⟩ (by decide)
  have run : BlankRun (Cursor.text ⟨str " /* a**/// b\n\tx", .nul, 1, 1⟩) (str "x") := by
    refine ⟨.cons (.space (ch ' ') (str "/* a**/// b\n\tx") (by decide))
      (.cons (.block (str " a*") (str "// b\n\tx") (by decide))
        (.cons (.line (str " b") (str "\tx") (by decide))
          (.cons (.space (ch '\t') (str "x") (by decide)) (.nil _)))), ?_⟩
    exact no_blank (by rintro ⟨x, r, h, hx⟩; cases h; revert hx; decide) (by decide) (by decide)
  rw [C09_run_unique hr run] at h1
  exact h1 (by rintro ⟨b, h, -⟩; cases h)

/-- A concrete case: an open comment is an error. -/
example : ∃ c', skipWhitespace ⟨str " /* a", .nul, 1, 1⟩ = some (.error .lexerError, c') := by
  obtain ⟨r, hr, -, h2⟩ := C09_skip_whitespace ⟨str " /* a", .nul, 1, 1⟩ (by decide)
  have hu : Unterminated (str "/* a") := ⟨str " a", by decide, by decide⟩
  have run : BlankRun (Cursor.text ⟨str " /* a", .nul, 1, 1⟩) (str "/* a") := by
    refine ⟨.cons (.space (ch ' ') (str "/* a") (by decide)) (.nil _), ?_⟩
    intro r' h
    generalize ht : str "/* a" = t at h
    cases h with
    | space x r hx => cases ht; revert hx; decide
    | block b r hb =>
      have : str "*/" <:+: str "/* a" := ⟨str "/*" ++ b, r', by rw [ht]; simp⟩
      revert this; decide
    | line b r hb => cases ht
    | lastLine b hb => cases ht
  rw [C09_run_unique hr run] at h2
  exact h2 hu

end Kefir.Lexer
