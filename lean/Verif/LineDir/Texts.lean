import Verif.LineDir.Lemmas
/-!
# Reading concrete texts: numbers, string literals, and a comment after a newline
-/

namespace Kefir.LineDir

open Kefir.Lexer Kefir.PpToken Kefir.Directive

variable {sc : StrCodec} {t : Tries}

/-- A number of one digit, before white space. -/
theorem at_number (hg : GoodCodec sc) (htr : PunctTrie t) {T : List Chr} (n : Nat) (d : Chr) (b : UInt8) {x : Chr}
    {r : List Chr} (h0 : Simple T) (ht : T.drop n = d :: x :: r) (hd : IsDigit 10 d) (hb : b.toNat = d)
    (hw : x ∈ whitespaceChars) : Next sc t (pos T n) (.ppNumber [b]) (pos T (n + 1)) := by
  rw [← pos_adv]
  have hx : d ∉ whitespaceChars ∧ d ≠ ch '/' := by
    have : ∀ y ∈ whitespaceChars ++ [ch '/'], ¬ IsDigit 10 y := by decide
    constructor
    · exact fun h => this d (List.mem_append_left _ h) hd
    · rintro rfl; exact this _ (by decide) hd
  have hws : ∀ y ∈ whitespaceChars, ¬ IsNondigit y ∧ ¬ IsDigit 10 y ∧ y ≠ ch '.' ∧ y ∉ str "+-" ∧ y ≠ ch '\\' := by
    decide
  obtain ⟨w1, w2, w3, w4, w5⟩ := hws x hw
  refine next_token hg htr (.number [b] d [] (by simp [hb]) hd .nil (by simp)) (by simp) rfl
    (by rw [pos_text h0]; exact fun h => h0.2 (List.mem_of_mem_drop h)) (rest := x :: r) ?_ ?_
    (x := d) (r := x :: r) (by rw [pos_text h0, ht]) hx.1 hx.2 rfl
  · rw [pos_text h0, ht]
    simp [chars, hb]
  · intro y r' hy
    injection hy with hy _
    subst hy
    refine ⟨?_, w5⟩
    rintro (h | h | h | ⟨h, -⟩)
    · exact w1 h
    · exact w2 h
    · exact w3 h
    · exact w4 h

/-- A string literal of printable characters. -/
theorem at_string (hg : GoodCodec sc) (htr : PunctTrie t) {T : List Chr} (n : Nat) (bs out : List UInt8) (m : Nat)
    (h0 : Simple T) (hb : ∀ b ∈ bs, b.toNat < 128) (hz : 0 ∉ bs)
    (hf : formatToken asciiLocale .original (.string .multibyte bs) = .ok out)
    (ht : T.drop n = chars out ++ T.drop m) (hm : m = n + out.length) {r : List Chr}
    (hq : T.drop n = ch '"' :: r) (hr : (T.drop m).head? ≠ some (ch '\\')) :
    Next sc t (pos T n) (.string .multibyte bs) (pos T m) := by
  rw [hm, ← pos_adv]
  refine next_token hg htr (.narrow .multibyte bs (Or.inl rfl) hb ?_) (by simp) hf
    (by rw [pos_text h0]; exact fun h => h0.2 (List.mem_of_mem_drop h)) (rest := T.drop m)
    (by rw [pos_text h0, ht]) ?_ (x := ch '"') (r := r) (by rw [pos_text h0, hq]) (by decide) (by decide) rfl
  · intro p q x h
    exact absurd (by rw [h]; simp) hz
  · intro x r' hx
    refine ⟨id, ?_⟩
    rintro rfl
    exact hr (by rw [hx]; rfl)

/-- A newline and a comment right after it are one token. -/
theorem next_newline_comment {body : List Chr} {c : Cursor} {rest : List Chr}
    (ht : c.text = ch '\n' :: (str "/*" ++ (body ++ (str "*/" ++ rest)))) (h0 : 0 ∉ c.text)
    (hb : closePos (body ++ (str "*/" ++ rest)) = some body.length) (hr : rest.head? ≠ some (ch '/')) :
    Next sc t c (.ppWhitespace true) (c.adv (body.length + 5)) := by
  have h1 : Lexer.skipWhitespaces .noMatch c = some (.ok .newline, c.adv 1) := by
    rw [Lexer.skipWhitespaces, peek_bind, at_cons ht, if_pos (by decide), skip_bind (by rw [ht]; simp)]
    rfl
  have ht1 : (c.adv 1).text = str "/*" ++ (body ++ (str "*/" ++ rest)) := by rw [Cursor.text_adv, ht]; rfl
  have ha : (c.adv 1).at 0 = ch '/' := at_cons (r := (ch '*') :: (body ++ (str "*/" ++ rest))) (by rw [ht1]; rfl)
  have ha1 : (c.adv 1).at 1 = ch '*' :=
    at_cons1 (x := ch '/') (r := (body ++ (str "*/" ++ rest))) (by rw [ht1]; rfl)
  have ht2 : ((c.adv 1).adv 2).text = body ++ (str "*/" ++ rest) := by rw [Cursor.text_adv, ht1]; rfl
  have ht3 : (((c.adv 1).adv 2).adv body.length).text = str "*/" ++ rest := by
    rw [Cursor.text_adv, ht2, List.drop_left]
  have h2 : skipMultilineComment .newline (c.adv 1) = some (.ok .newline, c.adv (body.length + 5)) := by
    have hloop := blockCommentLoop_eq ((c.adv 1).adv 2) (drop_no_zero (drop_no_zero h0 1) 2)
    rw [ht2, hb, Option.getD_some] at hloop
    have hb0 : (((c.adv 1).adv 2).adv body.length).at 0 = ch '*' := at_cons (r := ch '/' :: rest) (by rw [ht3]; rfl)
    have hb1 : (((c.adv 1).adv 2).adv body.length).at 1 = ch '/' :=
      at_cons1 (x := ch '*') (r := rest) (by rw [ht3]; rfl)
    rw [skipMultilineComment, peek_bind, peek_bind, if_pos ⟨ha, ha1⟩,
      skip_bind (by rw [ht1]; simp [str]), bind_some hloop,
      peek_bind, peek_bind, if_pos ⟨hb0, hb1⟩, skip_bind (by rw [ht3]; simp [str]), pure_apply,
      Cursor.adv_adv, Cursor.adv_adv, Cursor.adv_adv, show 1 + (2 + (body.length + 2)) = body.length + 5 by omega]
    rfl
  have hne : ∀ y, ¬ ((c.adv (body.length + 5)).at 0 = ch '/' ∧ (c.adv (body.length + 5)).at 1 = y) := by
    rintro y ⟨h, -⟩
    have : (c.adv (body.length + 5)).text = rest := by
      rw [show body.length + 5 = 1 + 2 + body.length + 2 by omega, ← Cursor.adv_adv, ← Cursor.adv_adv,
        ← Cursor.adv_adv, Cursor.text_adv, ht3]
      rfl
    rw [at_zero, this] at h
    cases rest with
    | nil => exact absurd h (by decide)
    | cons z r =>
      have h : z = ch '/' := h
      exact hr (by rw [h]; rfl)
  have h3 : whitespaceRound c = some (.ok .newline, c.adv (body.length + 5)) := by
    rw [whitespaceRound, bind_some h1, bind_some h2]
    simp only [skipOnelineComment, bind_apply, peek, if_neg (hne _), pure_apply]
  exact next_round h3 (by simp)

end Kefir.LineDir
