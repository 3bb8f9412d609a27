import Verif.PpToken.FormatBody
/-!
# What printed tokens look like (lemmas for C79)
-/

namespace Kefir.PpToken

open Kefir.Lexer

/-- Characters from space to tilde. -/
def Graphic (x : Nat) : Prop := 0x20 ≤ x ∧ x ≤ 0x7e

instance (x) : Decidable (Graphic x) := by unfold Graphic; infer_instance

theorem graphic_id {x : Nat} (h : IsNondigit x ∨ IsDigit 10 x) : Graphic x ∧ x ≠ 92 ∧ x ≠ 47 ∧ x ≠ 32 ∧
    x ≠ 39 ∧ x ≠ 34 := by
  have h' : (97 ≤ x ∧ x ≤ 122 ∨ 65 ≤ x ∧ x ≤ 90 ∨ x = 95) ∨ (48 ≤ x ∧ x ≤ 57) := by
    rcases h with h | h
    · exact Or.inl h
    · exact Or.inr ((isdigit_iff x).1 ((digit10_iff x).1 h))
  unfold Graphic
  omega

theorem graphic_hex {x : Nat} (h : IsDigit 16 x) : Graphic x := by
  have h' : 48 ≤ x ∧ x ≤ 57 ∨ 97 ≤ x ∧ x ≤ 102 ∨ 65 ≤ x ∧ x ≤ 70 := h.1
  unfold Graphic
  omega

theorem numTail_chars {s cs : List Chr} (h : NumTail s cs) (hb : ch '\\' ∉ s) :
    s = cs ∧ ∀ x ∈ s, IsNondigit x ∨ IsDigit 10 x ∨ x ∈ str ".+-" := by
  induction h with
  | nil => exact ⟨rfl, by simp⟩
  | digit hd _ ih =>
    obtain ⟨h1, h2⟩ := ih (fun h => hb (List.mem_cons_of_mem _ h))
    refine ⟨by rw [h1], fun x hx => ?_⟩
    rcases List.mem_cons.1 hx with rfl | hx
    · exact Or.inr (Or.inl hd)
    · exact h2 x hx
  | nondigit ha _ ih =>
    obtain ⟨h1, h2⟩ := ih (fun h => hb (List.mem_append_right _ h))
    cases ha with
    | letter c hc =>
      refine ⟨by rw [h1]; rfl, fun x hx => ?_⟩
      rcases List.mem_cons.1 hx with rfl | hx
      · exact Or.inl hc
      · exact h2 x hx
    | ucn hu =>
      obtain ⟨r, ha⟩ := ucn_head hu
      exact absurd (by rw [ha]; simp) hb
  | exponent he hg _ ih =>
    obtain ⟨h1, h2⟩ := ih (fun h => hb (List.mem_cons_of_mem _ (List.mem_cons_of_mem _ h)))
    refine ⟨by rw [h1], fun x hx => ?_⟩
    rcases List.mem_cons.1 hx with rfl | hx
    · exact Or.inl ((isnondigit_iff _).1 (exp_facts _ he).2.1)
    rcases List.mem_cons.1 hx with rfl | hx
    · have : ∀ g ∈ str "+-", g ∈ str ".+-" := by decide
      exact Or.inr (Or.inr (this _ hg))
    · exact h2 x hx
  | dot _ ih =>
    obtain ⟨h1, h2⟩ := ih (fun h => hb (List.mem_cons_of_mem _ h))
    refine ⟨by rw [h1], fun x hx => ?_⟩
    rcases List.mem_cons.1 hx with rfl | hx
    · exact Or.inr (Or.inr (by decide))
    · exact h2 x hx

theorem graphic_num {x : Nat} (h : IsNondigit x ∨ IsDigit 10 x ∨ x ∈ str ".+-") : Graphic x ∧ x ≠ 92 := by
  rcases h with h | h | h
  · exact ⟨(graphic_id (Or.inl h)).1, (graphic_id (Or.inl h)).2.1⟩
  · exact ⟨(graphic_id (Or.inr h)).1, (graphic_id (Or.inr h)).2.1⟩
  · have : ∀ y ∈ str ".+-", Graphic y ∧ y ≠ 92 := by decide
    exact this x h

/-- Text without newlines that does not end in a backslash, nor is empty. -/
structure Solid (s : List Chr) : Prop where
  graphic : ∀ x ∈ s, Graphic x
  ne : s ≠ []
  last : ∀ x, s.getLast? = some x → x ≠ ch '\\'

theorem Solid.quoted {s : List Chr} (h : ∀ x ∈ s, Graphic x) {q : Chr} (hq : q = ch '\'' ∨ q = ch '"')
    (p : List Chr) (hp : ∀ x ∈ p, Graphic x) : Solid (p ++ (s ++ [q])) := by
  refine ⟨?_, by simp, ?_⟩
  · intro x hx
    simp only [List.mem_append, List.mem_singleton] at hx
    rcases hx with hx | hx | rfl
    · exact hp x hx
    · exact h x hx
    · rcases hq with rfl | rfl <;> decide
  · intro x hx
    rw [← List.append_assoc, List.getLast?_append] at hx
    simp at hx
    subst hx
    rcases hq with rfl | rfl <;> decide

theorem Solid.plain {s : List Chr} (h : ∀ x ∈ s, Graphic x ∧ x ≠ ch '\\') (hn : s ≠ []) : Solid s :=
  ⟨fun x hx => (h x hx).1, hn, fun x hx => (h x (List.mem_of_getLast? hx)).2⟩

theorem formatChar_graphic (b : UInt8) (h : b.toNat < 128) : ∀ x ∈ chars (formatChar b), Graphic x := by
  have key : ∀ b : Fin 128, ∀ x ∈ chars (formatChar (UInt8.ofNat b.val)), Graphic x := by decide +kernel
  have := key ⟨b.toNat, h⟩
  simpa using this

theorem flatMap_graphic {α : Type} (f : α → List UInt8) (as : List α)
    (h : ∀ a ∈ as, ∀ x ∈ chars (f a), Graphic x) : ∀ x ∈ chars (as.flatMap f), Graphic x := by
  induction as with
  | nil => intro x hx; cases hx
  | cons a as ih =>
    intro x hx
    rw [List.flatMap_cons, chars_append] at hx
    rcases List.mem_append.1 hx with hx | hx
    · exact h a List.mem_cons_self x hx
    · exact ih (fun a ha => h a (List.mem_cons_of_mem _ ha)) x hx

theorem hexEscape_graphic {v : Nat} (h : v < 2 ^ 32) : ∀ x ∈ chars (lit "\\x" ++ hexText v), Graphic x := by
  intro x hx
  rw [chars_append] at hx
  rcases List.mem_append.1 hx with hx | hx
  · have : ∀ x ∈ chars (lit "\\x"), Graphic x := by decide
    exact this x hx
  · exact graphic_hex ((hexText_digits h).1 x hx)

theorem punct_text (p : Punct) : chars (lit (punctText p)) = (primary p).spelling := by
  cases p <;> decide

theorem punct_solid (p : Punct) : ∀ x ∈ p.spelling, Graphic x ∧ x ≠ ch '\\' := by
  cases p <;> decide

/-- What a printed string literal consists of. -/
theorem string_text (l : Locale) (m : Mode) (bs : List UInt8) : ∃ body,
    formatString l m bs = lit (match m with
      | .multibyte => "" | .unicode8 => "u8" | .unicode16 => "u" | .unicode32 => "U" | .wide => "L")
      ++ (lit "\"" ++ (body ++ lit "\"")) ∧
    body = match m with
      | .multibyte => bs.flatMap formatChar
      | .unicode8 => bs.flatMap formatChar
      | .unicode16 => (units16 bs).flatMap (fun u => lit "\\x" ++ hexText u)
      | .unicode32 => (units32 bs).flatMap (fun u => lit "\\x" ++ hexText u)
      | .wide => (units32 bs).flatMap (formatWideUnit l) := by
  cases m <;> exact ⟨_, rfl, rfl⟩

theorem string_chars (l : Locale) (m : Mode) (bs : List UInt8) : ∃ body,
    chars (formatString l m bs) = (stringPrefix m ++ str "\"") ++ (chars body ++ [ch '"']) ∧
    body = match m with
      | .multibyte => bs.flatMap formatChar
      | .unicode8 => bs.flatMap formatChar
      | .unicode16 => (units16 bs).flatMap (fun u => lit "\\x" ++ hexText u)
      | .unicode32 => (units32 bs).flatMap (fun u => lit "\\x" ++ hexText u)
      | .wide => (units32 bs).flatMap (formatWideUnit l) := by
  obtain ⟨body, h1, h2⟩ := string_text l m bs
  refine ⟨body, ?_, h2⟩
  rw [h1]
  simp only [chars_append]
  cases m <;> rfl

/-- A string literal that can be printed has a body that can be read. -/
theorem printable_string {sc : StrCodec} (hg : GoodCodec sc) {l : Locale} (hl : GoodLocale l) {m : Mode}
    {bs : List UInt8} (h : Printable l (.string m bs)) : ∃ body es,
    chars (formatString l m bs) = (stringPrefix m ++ str "\"") ++ (chars body ++ [ch '"']) ∧
    (∀ x ∈ chars body, Graphic x) ∧ Body (ch '"') (chars body) es ∧ Bytes sc.encode m es bs ∧
    (m = .wide → ∀ v, .code v ∈ es → v < 2 ^ 31) := by
  obtain ⟨body, h1, h2⟩ := string_chars l m bs
  generalize hτ : Token.string m bs = τ at h
  cases h with
  | narrow m' bs' hm hb hz =>
    injection hτ with e1 e2
    subst e1 e2
    have hbody : body = bs.flatMap formatChar := by
      rcases hm with rfl | rfl <;> exact h2
    have hu : unitSize m = 1 := by rcases hm with rfl | rfl <;> rfl
    obtain ⟨es, h3, h4⟩ := string_body hg hu bs hb hz
    subst hbody
    refine ⟨_, es, h1, ?_, h3, h4, ?_⟩
    · exact flatMap_graphic _ _ fun b hb' => formatChar_graphic b (hb b hb')
    · rintro rfl; rcases hm with h | h <;> cases h
  | unicode16 us hu =>
    injection hτ with e1 e2
    subst e1 e2
    rw [units_of_two us hu] at h2
    obtain ⟨h3, h4⟩ := number_body (enc := sc.encode) (m := .unicode16) us hu
    subst h2
    refine ⟨_, _, h1, ?_, h3, h4, nofun⟩
    exact flatMap_graphic _ _ fun u hu' => hexEscape_graphic (Nat.lt_of_lt_of_le (hu u hu') (by decide))
  | unicode32 us hu =>
    injection hτ with e1 e2
    subst e1 e2
    rw [units_of_four us hu] at h2
    obtain ⟨h3, h4⟩ := number_body (enc := sc.encode) (m := .unicode32) us hu
    subst h2
    refine ⟨_, _, h1, ?_, h3, h4, nofun⟩
    exact flatMap_graphic _ _ fun u hu' => hexEscape_graphic (Nat.lt_of_lt_of_le (hu u hu') (by decide))
  | wide us hu hz =>
    injection hτ with e1 e2
    subst e1 e2
    have hlt : ∀ u ∈ us, u < 256 ^ 4 := by
      intro u hu'
      have : ∀ x : Nat, x ≤ 0x7e → x < 256 ^ 4 := by omega
      rcases hu u hu' with ⟨-, h, -⟩ | ⟨-, h⟩
      · exact this u h
      · exact Nat.lt_of_lt_of_le h (by decide)
    rw [units_of_four us hlt] at h2
    obtain ⟨es, h3, h4, h5⟩ := wide_body hg hl us hu hz
    subst h2
    refine ⟨_, _, h1, ?_, h3, h4, fun _ => h5⟩
    refine flatMap_graphic _ _ fun u hu' => ?_
    rcases hu u hu' with ⟨g1, g2, -, -⟩ | ⟨g1, g2⟩
    · have hf : formatWideUnit l u = [UInt8.ofNat u] := by rw [formatWideUnit, hl u g1 g2]
      have hn : chars [UInt8.ofNat u] = [u] := by simp [chars]; omega
      rw [hf, hn]
      intro x hx
      rw [List.mem_singleton.1 hx]
      exact ⟨g1, g2⟩
    · have hf : formatWideUnit l u = lit "\\x" ++ hexText u := by rw [formatWideUnit, g1]
      rw [hf]
      exact hexEscape_graphic (Nat.lt_of_lt_of_le g2 (by decide))
  | _ => cases hτ

theorem charConst_byte {v : BitVec 32} (h : v.toNat < 128) : (UInt8.ofNat v.toNat).toNat = v.toNat := by
  simp; omega

/-- The text of a token that can be printed. -/
theorem printed {sc : StrCodec} (hg : GoodCodec sc) {l : Locale} (hl : GoodLocale l) (ws : WsFormat)
    {τ : Token} (h : Printable l τ) : ∃ bs, formatToken l ws τ = .ok bs ∧
    ((∃ nl, τ = .ppWhitespace nl ∧ chars bs = [if nl = true ∧ ws = .original then ch '\n' else ch ' ']) ∨
     ((∀ nl, τ ≠ .ppWhitespace nl) ∧ Solid (chars bs) ∧ ∃ r, chars bs = opens τ :: r)) := by
  cases h with
  | identifier bs x s h hx hs hlen =>
    refine ⟨bs, rfl, Or.inr ⟨nofun, ?_, s, ?_⟩⟩
    · refine Solid.plain (fun y hy => ?_) (by rw [show chars bs = x :: s from h]; simp)
      rw [show chars bs = x :: s from h] at hy
      have hy' : IsNondigit y ∨ IsDigit 10 y := by
        rcases List.mem_cons.1 hy with rfl | hy
        · exact Or.inl hx
        · exact hs y hy
      exact ⟨(graphic_id hy').1, (graphic_id hy').2.1⟩
    · rw [opens, h]; exact h
  | number bs d s h hd hs hb =>
    refine ⟨bs, rfl, Or.inr ⟨nofun, ?_, s, ?_⟩⟩
    · refine Solid.plain (fun y hy => ?_) (by rw [show chars bs = d :: s from h]; simp)
      rw [show chars bs = d :: s from h] at hy
      rcases List.mem_cons.1 hy with rfl | hy
      · exact graphic_num (Or.inr (Or.inl hd))
      · exact graphic_num ((numTail_chars hs hb).2 y hy)
    · rw [opens, h]; exact h
  | dotNumber bs d s h hd hs hb =>
    refine ⟨bs, rfl, Or.inr ⟨nofun, ?_, d :: s, ?_⟩⟩
    · refine Solid.plain (fun y hy => ?_) (by rw [show chars bs = _ from h]; simp)
      rw [show chars bs = _ from h] at hy
      rcases List.mem_cons.1 hy with rfl | hy
      · decide
      rcases List.mem_cons.1 hy with rfl | hy
      · exact graphic_num (Or.inr (Or.inl hd))
      · exact graphic_num ((numTail_chars hs hb).2 y hy)
    · rw [opens, h]; exact h
  | punctuator p =>
    refine ⟨_, rfl, Or.inr ⟨nofun, ?_, ?_⟩⟩
    · rw [punct_text]
      refine Solid.plain (punct_solid _) ?_
      obtain ⟨x, r, hx, -⟩ := punct_first (primary p)
      rw [hx]; simp
    · rw [punct_text]
      obtain ⟨x, r, hx, -⟩ := punct_first (primary p)
      exact ⟨r, by rw [opens, hx]; rfl⟩
  | whitespace nl =>
    refine ⟨_, rfl, Or.inl ⟨nl, rfl, ?_⟩⟩
    split <;> rfl
  | character v hv =>
    refine ⟨_, rfl, Or.inr ⟨nofun, ?_, chars (formatChar (UInt8.ofNat v.toNat)) ++ str "'", ?_⟩⟩
    · rw [chars_append, chars_append]
      exact Solid.quoted (formatChar_graphic _ (by rw [charConst_byte hv]; exact hv)) (Or.inl rfl) _
        (by decide)
    · rw [chars_append, chars_append]; rfl
  | narrow m bs hm hb hz =>
    obtain ⟨body, es, h1, h2, -⟩ := printable_string hg hl (.narrow m bs hm hb hz)
    refine ⟨_, rfl, Or.inr ⟨nofun, ?_, ?_⟩⟩
    · rw [h1]
      exact Solid.quoted h2 (Or.inr rfl) _ (by cases m <;> decide)
    · rw [h1]
      cases m <;> exact ⟨_, rfl⟩
  | unicode16 us hu =>
    obtain ⟨body, es, h1, h2, -⟩ := printable_string hg hl (.unicode16 us hu)
    refine ⟨_, rfl, Or.inr ⟨nofun, ?_, ?_⟩⟩
    · rw [h1]
      exact Solid.quoted h2 (Or.inr rfl) _ (by decide)
    · rw [h1]; exact ⟨_, rfl⟩
  | unicode32 us hu =>
    obtain ⟨body, es, h1, h2, -⟩ := printable_string hg hl (.unicode32 us hu)
    refine ⟨_, rfl, Or.inr ⟨nofun, ?_, ?_⟩⟩
    · rw [h1]
      exact Solid.quoted h2 (Or.inr rfl) _ (by decide)
    · rw [h1]; exact ⟨_, rfl⟩
  | wide us hu hz =>
    obtain ⟨body, es, h1, h2, -⟩ := printable_string hg hl (.wide us hu hz)
    refine ⟨_, rfl, Or.inr ⟨nofun, ?_, ?_⟩⟩
    · rw [h1]
      exact Solid.quoted h2 (Or.inr rfl) _ (by decide)
    · rw [h1]; exact ⟨_, rfl⟩

end Kefir.PpToken
