import Verif.PpToken.Spec
import Verif.PpToken.Model
import Verif.Lexer.EscapeProps
/-!
# Character constants and string literals
-/

namespace Kefir.PpToken

open Kefir.Lexer

/-- The encodings of the implementation: 7-bit characters stand for themselves in every kind of
literal, and the null byte occurs only in the encoding of the null character (C17 5.2.1.2). -/
structure GoodCodec (sc : StrCodec) : Prop where
  ascii : ∀ m c, c < 128 → sc.encode m c = some (littleEndian (unitSize m) c)
  noZero : ∀ c bs, c ≠ 0 → sc.cd.enc c = some bs → 0 ∉ bs

theorem ucn_lt {s : List Chr} {v : Nat} (h : Ucn s v) : v < 2 ^ 32 := by
  cases h with
  | short ds hl hd hv =>
    have := positional_lt 16 ds hd
    rw [hl] at this
    omega
  | long ds hl hd hv =>
    have := positional_lt 16 ds hd
    rw [hl] at this
    omega

theorem ucn_escapeAt {s : List Chr} {v : Nat} (h : Ucn s v) (rest : List Chr) : EscapeAt s rest v := by
  cases h with
  | short ds hl hd hv => exact .universal4 ds rest hl hd
  | long ds hl hd hv => exact .universal8 ds rest hl hd

theorem simple_lt : ∀ e ∈ simpleEscapes, e.2 < 128 := by decide

theorem simple_second : ∀ e ∈ simpleEscapes, e.1 ≠ ch 'x' ∧ isoctdigit e.1 = false := by decide

theorem escape_at {a s rest : List Chr} {e : Elem} {q : Chr} (h : Escape a s e)
    (hq : ∀ b, b ≤ 16 → ¬ IsDigit b q) : EscapeAt a (s ++ q :: rest) e.value := by
  cases h with
  | simple c v _ hm => exact .simple c v _ hm
  | octal ds _ h1 h3 hd hr =>
    refine .octal ds _ h1 h3 hd (hr.imp id fun hr x r hx => ?_)
    cases s with
    | nil =>
      injection hx with hx _
      exact hx ▸ hq 8 (by decide)
    | cons y s =>
      injection hx with hx _
      exact hx ▸ hr y s rfl
  | hexadecimal ds _ h1 hd hr =>
    refine .hexadecimal ds _ h1 hd fun x r hx => ?_
    cases s with
    | nil =>
      injection hx with hx _
      exact hx ▸ hq 16 (by decide)
    | cons y s =>
      injection hx with hx _
      exact hx ▸ hr y s rfl
  | ucn _ hu => exact ucn_escapeAt hu _

theorem escape_head {a s : List Chr} {e : Elem} (h : Escape a s e) :
    ∃ x r, a = ch '\\' :: x :: r ∧
      ((x = ch 'x' ∨ isoctdigit x = true ∨ ishexdigit x = true) →
        (∃ v, e = .code v) ∨ ∃ v, e = .chr v ∧ v < 128) ∧
      (¬ (x = ch 'x' ∨ isoctdigit x = true ∨ ishexdigit x = true) → ∃ v, e = .chr v) := by
  cases h with
  | simple c v _ hm =>
    exact ⟨c, [], rfl, fun _ => Or.inr ⟨v, rfl, simple_lt _ hm⟩, fun _ => ⟨v, rfl⟩⟩
  | octal ds _ h1 h3 hd hr =>
    cases ds with
    | nil => simp at h1
    | cons d ds =>
      refine ⟨d, ds, rfl, fun _ => Or.inl ⟨_, rfl⟩, fun hn => ?_⟩
      exact absurd (Or.inr (Or.inl ((digit8_iff d).1 (hd d List.mem_cons_self)))) hn
  | hexadecimal ds _ h1 hd hr =>
    exact ⟨ch 'x', ds, rfl, fun _ => Or.inl ⟨_, rfl⟩, fun hn => absurd (Or.inl rfl) hn⟩
  | ucn _ hu =>
    cases hu with
    | short ds hl hd hv =>
      exact ⟨ch 'u', ds, rfl, fun h => absurd h (by decide), fun _ => ⟨_, rfl⟩⟩
    | long ds hl hd hv =>
      exact ⟨ch 'U', ds, rfl, fun h => absurd h (by decide), fun _ => ⟨_, rfl⟩⟩

theorem escape_step {a s rest : List Chr} {e : Elem} {q : Chr} (h : Escape a s e)
    (hq : ∀ b, b ≤ 16 → ¬ IsDigit b q) {c : Cursor} (ht : c.text = a ++ (s ++ q :: rest))
    (hc : ∀ v, e = .code v → v < 2 ^ 32) :
    nextEscape c = some (.ok e.value, c.adv a.length) := by
  have hv : e.value < 2 ^ 32 := by
    cases h with
    | simple x v _ hm => exact Nat.lt_trans (simple_lt _ hm) (by decide)
    | octal ds _ h1 h3 hd hr => exact hc _ rfl
    | hexadecimal ds _ h1 hd hr => exact hc _ rfl
    | ucn _ hu => exact ucn_lt hu
  rw [nextEscape_ok (escape_at h hq) ht, Nat.mod_eq_of_lt hv]

theorem quote_digit : ∀ b, b ≤ 16 → ¬ IsDigit b (ch '\'') := by decide
theorem dquote_digit : ∀ b, b ≤ 16 → ¬ IsDigit b (ch '"') := by decide

theorem littleEndian_one (v : Nat) : littleEndian 1 v = leBytes 1 v := by
  simp [littleEndian, leBytes, List.range_succ]
theorem littleEndian_two (v : Nat) : littleEndian 2 v = leBytes 2 v := by
  simp [littleEndian, leBytes, List.range_succ]
theorem littleEndian_four (v : Nat) : littleEndian 4 v = leBytes 4 v := by
  simp [littleEndian, leBytes, List.range_succ, Nat.div_div_eq_div_mul]

/-- A number that fits is stored as it is. -/
theorem raw_bytes {m : Mode} {v : Nat} (h : v < 256 ^ unitSize m) (hw : m = .wide → v < 2 ^ 31) :
    rawBytes m v = some (littleEndian (unitSize m) v) := by
  cases m with
  | multibyte =>
    have h' : v < 256 := h
    rw [rawBytes, if_pos (Nat.le_of_lt_succ h'), ← littleEndian_one]; rfl
  | unicode8 =>
    have h' : v < 256 := h
    rw [rawBytes, if_pos (Nat.le_of_lt_succ h'), ← littleEndian_one]; rfl
  | unicode16 =>
    have h' : v < 2 ^ 16 - 1 + 1 := h
    rw [rawBytes, if_pos (Nat.le_of_lt_succ h'), ← littleEndian_two]; rfl
  | unicode32 =>
    have h' : v < 2 ^ 32 - 1 + 1 := h
    rw [rawBytes, if_pos (Nat.le_of_lt_succ h'), ← littleEndian_four]; rfl
  | wide =>
    have h' : v < 2 ^ 31 - 1 + 1 := hw rfl
    rw [rawBytes, if_pos (Nat.le_of_lt_succ h'), ← littleEndian_four]; rfl

theorem at_cons {c : Cursor} {x : Chr} {r : List Chr} (h : c.text = x :: r) : c.at 0 = x := by
  rw [at_zero, h]; rfl

theorem at_cons1 {c : Cursor} {x y : Chr} {r : List Chr} (h : c.text = x :: y :: r) : c.at 1 = y := by
  simp [Cursor.at, h]

theorem pow_unit (m : Mode) : 256 ^ unitSize m ≤ 2 ^ 32 := by cases m <;> decide

theorem code_bytes {enc : Mode → Chr → Option (List UInt8)} {m : Mode} {v : Nat} {b : List UInt8}
    (h : elemBytes enc m (.code v) = some b) :
    v < 256 ^ unitSize m ∧ b = littleEndian (unitSize m) v := by
  simp only [elemBytes] at h
  split at h
  · injection h with h
    exact ⟨by assumption, h.symm⟩
  · cases h

theorem byte_value {v : Nat} (h : v < 256) : littleEndian 1 v = [UInt8.ofNat v] := by
  rw [littleEndian_one]
  simp only [leBytes, Nat.mod_eq_of_lt h]

/-- The inside of a string literal is read as its bytes, and the closing quote is passed. -/
theorem literal_loop {sc : StrCodec} (hg : GoodCodec sc) {m : Mode} {s : List Chr} {es : List Elem}
    (hb : Body (ch '"') s es) {bs : List UInt8} (hs : Bytes sc.encode m es bs)
    (hw : m = .wide → ∀ v, .code v ∈ es → v < 2 ^ 31) (acc : List UInt8) {c : Cursor}
    {rest : List Chr} (h0 : 0 ∉ c.text) (ht : c.text = s ++ ch '"' :: rest) :
    literalLoop sc m acc c = some (.ok (.ok (), acc ++ bs), c.adv (s.length + 1)) := by
  induction hb generalizing acc c bs with
  | nil =>
    cases hs
    rw [literalLoop, peek_bind, if_pos (at_cons ht), attempt_bind (skip_ok (by rw [ht]; simp))]
    simp [pure_apply]
  | @plain x s es h1 h2 h3 hb ih =>
    cases hs with
    | cons he hs =>
    have hx : c.at 0 = x := at_cons ht
    have hx0 : x ≠ 0 := by
      rintro rfl
      apply h0
      rw [ht]
      exact List.mem_cons_self
    rw [literalLoop, peek_bind, hx, if_neg h1, if_neg hx0, if_neg h3, if_neg h2]
    simp only [elemBytes] at he
    rw [he]
    simp only
    rw [attempt_bind (skip_ok (by rw [ht]; simp))]
    simp only
    rw [ih hs (fun hm v hv => hw hm v (List.mem_cons_of_mem _ hv)) _ (drop_no_zero h0 1)
      (by rw [Cursor.text_adv, ht]; rfl), Cursor.adv_adv]
    simp [Nat.add_comm, Nat.add_left_comm]
  | @escape a s e es h hb ih =>
    cases hs with
    | @cons _ _ b bs he hs =>
    rw [List.append_assoc] at ht
    obtain ⟨x, r, hax, hraw, hnot⟩ := escape_head h
    have ht' : c.text = ch '\\' :: x :: (r ++ (s ++ ch '"' :: rest)) := by rw [ht, hax]; rfl
    have hfit : ∀ v, e = .code v → v < 256 ^ unitSize m := by
      rintro v rfl
      exact (code_bytes he).1
    have hstep := escape_step h dquote_digit ht
      (fun v hv => Nat.lt_of_lt_of_le (hfit v hv) (pow_unit m))
    have key :=
      ih hs (fun hm v hv => hw hm v (List.mem_cons_of_mem _ hv)) (acc ++ b) (drop_no_zero h0 a.length)
        (by rw [Cursor.text_adv, ht]; simp)
    rw [literalLoop, peek_bind, at_cons ht', if_neg (by decide), if_neg (by decide), if_neg (by decide),
      if_pos rfl, peek_bind, at_cons1 ht', attempt_bind hstep]
    simp only
    split
    · rename_i hr
      have hrb : rawBytes m e.value = elemBytes sc.encode m e := by
        rcases hraw hr with ⟨v, rfl⟩ | ⟨v, rfl, hv⟩
        · simp only [elemBytes, Elem.value]
          rw [if_pos (hfit v rfl)]
          exact raw_bytes (hfit v rfl) fun hm => hw hm v List.mem_cons_self
        · simp only [elemBytes, Elem.value]
          rw [hg.ascii m v hv]
          refine raw_bytes (Nat.lt_of_lt_of_le hv ?_) fun _ => Nat.lt_trans hv (by decide)
          cases m <;> decide
      rw [hrb, he]
      simp only
      rw [key, Cursor.adv_adv]
      simp [Nat.add_assoc]
    · rename_i hr
      obtain ⟨v, rfl⟩ := hnot hr
      simp only [elemBytes] at he
      simp only [Elem.value]
      rw [he]
      simp only
      rw [key, Cursor.adv_adv]
      simp [Nat.add_assoc]

/-- The inside of a character constant without a prefix. -/
theorem narrow_loop {sc : StrCodec} (hg : GoodCodec sc) {s : List Chr} {es : List Elem}
    (hb : Body (ch '\'') s es) {bs : List UInt8} (hs : Bytes sc.encode .multibyte es bs)
    (v : BitVec 32) {c : Cursor} {rest : List Chr} (ht : c.text = s ++ ch '\'' :: rest) :
    narrowLoop sc.cd v c = some (.ok (foldBytes v bs), c.adv s.length) := by
  induction hb generalizing v c bs with
  | nil =>
    cases hs
    have hx : c.at 0 = ch '\'' := at_cons ht
    have : nextCharacter sc.cd v c = some (.ok (v, false), c) := by
      rw [nextCharacter, peek_bind, peek_bind, hx, if_neg (by decide), if_pos rfl]
      rfl
    rw [narrowLoop, bind_some this]
    simp [foldBytes, pure_apply, Cursor.adv_zero]
  | @plain x s es h1 h2 h3 hb ih =>
    cases hs with
    | @cons _ _ b bs he hs =>
    have hx : c.at 0 = x := at_cons ht
    have : nextCharacter sc.cd v c = some (.ok (foldBytes v b, true), c.adv 1) := by
      rw [nextCharacter, peek_bind, peek_bind, hx, if_neg h2, if_neg h1,
        skip_bind (by rw [ht]; simp)]
      simp only [elemBytes, StrCodec.encode] at he
      rw [he]
      rfl
    rw [narrowLoop, bind_some this, if_pos rfl, ih hs _ (by rw [Cursor.text_adv, ht]; rfl), Cursor.adv_adv]
    simp [foldBytes, Nat.add_comm]
  | @escape a s e es h hb ih =>
    cases hs with
    | @cons _ _ b bs he hs =>
    rw [List.append_assoc] at ht
    obtain ⟨x, r, hax, hraw, hnot⟩ := escape_head h
    have ht' : c.text = ch '\\' :: x :: (r ++ (s ++ ch '\'' :: rest)) := by rw [ht, hax]; rfl
    have hfit : ∀ v, e = .code v → v < 256 := by
      rintro v rfl
      exact (code_bytes he).1
    have hstep := escape_step h quote_digit ht
      (fun v hv => Nat.lt_trans (hfit v hv) (by decide))
    have : nextCharacter sc.cd v c = some (.ok (foldBytes v b, true), c.adv a.length) := by
      rw [nextCharacter, peek_bind, peek_bind, at_cons ht', at_cons1 ht', if_pos rfl, bind_some hstep]
      split
      · rename_i hr
        have hb1 : e.value ≤ 255 ∧ b = [UInt8.ofNat e.value] := by
          rcases hraw hr with ⟨w, rfl⟩ | ⟨w, rfl, hw⟩
          · have h1 : w < 256 := hfit w rfl
            refine ⟨Nat.le_of_lt_succ h1, ?_⟩
            rw [(code_bytes he).2]
            exact byte_value h1
          · have h1 : w < 256 := Nat.lt_trans hw (by decide)
            refine ⟨Nat.le_of_lt_succ h1, ?_⟩
            have he' : sc.encode .multibyte w = some b := he
            rw [hg.ascii .multibyte w hw] at he'
            injection he' with he'
            rw [← he']
            exact byte_value h1
        rw [if_pos hb1.1, hb1.2]
        rfl
      · rename_i hr
        obtain ⟨w, rfl⟩ := hnot hr
        simp only [elemBytes, StrCodec.encode] at he
        simp only [Elem.value]
        rw [he]
        rfl
    rw [narrowLoop, bind_some this, if_pos rfl, ih hs _ (by rw [Cursor.text_adv, ht]; simp),
      Cursor.adv_adv]
    simp [foldBytes]

/-- The inside of a character constant with a prefix. -/
theorem wide_loop {s : List Chr} {es : List Elem} (hb : Body (ch '\'') s es)
    (hc : ∀ x, .code x ∈ es → x < 2 ^ 32) (v : Chr) {c : Cursor} {rest : List Chr}
    (ht : c.text = s ++ ch '\'' :: rest) :
    ∃ w, wideLoop v c = some (.ok w, c.adv s.length) ∧ (es = [] → w = v) ∧
      ∀ e, es = [e] → w = e.value := by
  induction hb generalizing v c with
  | nil =>
    have hx : c.at 0 = ch '\'' := at_cons ht
    have : nextWideCharacter v c = some (.ok (v, false), c) := by
      rw [nextWideCharacter, peek_bind, hx, if_neg (by decide), if_pos rfl]
      rfl
    refine ⟨v, ?_, fun _ => rfl, fun e he => by cases he⟩
    rw [wideLoop, bind_some this]
    simp [pure_apply, Cursor.adv_zero]
  | @plain x s es h1 h2 h3 hb ih =>
    have hx : c.at 0 = x := at_cons ht
    have : nextWideCharacter v c = some (.ok (x, true), c.adv 1) := by
      rw [nextWideCharacter, peek_bind, hx, if_neg h2, if_neg h1, skip_bind (by rw [ht]; simp)]
      rfl
    obtain ⟨w, e, hn, -⟩ := ih (fun y hy => hc y (List.mem_cons_of_mem _ hy)) x (c := c.adv 1)
      (by rw [Cursor.text_adv, ht]; rfl)
    refine ⟨w, ?_, (fun h => by cases h), ?_⟩
    · rw [wideLoop, bind_some this, if_pos rfl, e, Cursor.adv_adv]
      simp [Nat.add_comm]
    · intro e he
      injection he with he1 he2
      rw [hn he2, ← he1]
      rfl
  | @escape a s e es h hb ih =>
    rw [List.append_assoc] at ht
    obtain ⟨x, r, hax, -, -⟩ := escape_head h
    have ht' : c.text = ch '\\' :: x :: (r ++ (s ++ ch '\'' :: rest)) := by rw [ht, hax]; rfl
    have hstep := escape_step h quote_digit ht
      (fun v hv => hc v (hv ▸ List.mem_cons_self))
    have : nextWideCharacter v c = some (.ok (e.value, true), c.adv a.length) := by
      rw [nextWideCharacter, peek_bind, at_cons ht', if_pos rfl, bind_some hstep]
      rfl
    obtain ⟨w, e', hn, -⟩ := ih (fun y hy => hc y (List.mem_cons_of_mem _ hy)) e.value
      (c := c.adv a.length) (by rw [Cursor.text_adv, ht]; simp)
    refine ⟨w, ?_, (fun h => by cases h), ?_⟩
    · rw [wideLoop, bind_some this, if_pos rfl, e', Cursor.adv_adv]
      simp
    · intro e he
      injection he with he1 he2
      rw [hn he2, ← he1]

/-- A body does not begin with its closing quote. -/
theorem body_head {q : Chr} {s : List Chr} {es : List Elem} (hb : Body q s es) (hq : q ≠ ch '\\')
    (hn : es ≠ []) : ∃ x r, s = x :: r ∧ x ≠ q := by
  cases hb with
  | nil => exact absurd rfl hn
  | plain h1 _ _ _ => exact ⟨_, _, rfl, h1⟩
  | escape h _ =>
    obtain ⟨x, r, ha, -⟩ := escape_head h
    exact ⟨ch '\\', x :: (r ++ _), by rw [ha]; rfl, fun h => hq h.symm⟩

end Kefir.PpToken
