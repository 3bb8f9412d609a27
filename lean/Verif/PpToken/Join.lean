import Verif.PpToken.JoinSpec
import Verif.PpToken.ConvertProps
/-!
# Joining string literals
-/

namespace Kefir.PpToken

open Kefir.Lexer

theorem enc_ne_nil {sc : StrCodec} (hf : FitStrings sc) {c : Chr} {bs : List UInt8}
    (h : sc.cd.enc c = some bs) : bs ≠ [] := by
  rintro rfl
  by_cases h0 : c = 0
  · subst h0
    rw [hf.trip.nul_enc] at h
    cases h
  · have := hf.trip.enc_dec h0 h []
    rw [List.append_nil, sc.cd.dec_nil] at this
    cases this

theorem encodeStr_cons {sc : StrCodec} {m : Mode} {c : Chr} {cs : List Chr} {bs : List UInt8}
    (h : encodeStr sc m (c :: cs) = some bs) :
    ∃ e r, sc.encode m c = some e ∧ encodeStr sc m cs = some r ∧ bs = e ++ r := by
  rw [encodeStr] at h
  cases he : sc.encode m c with
  | none => rw [he] at h; cases h
  | some e =>
    cases hr : encodeStr sc m cs with
    | none => rw [he, hr] at h; cases h
    | some r =>
      rw [he, hr] at h
      injection h with h
      exact ⟨e, r, rfl, rfl, h.symm⟩

theorem encodeStr_append {sc : StrCodec} {m : Mode} (cs cs' : List Chr) {bs : List UInt8} :
    encodeStr sc m (cs ++ cs') = some bs ↔
      ∃ a b, encodeStr sc m cs = some a ∧ encodeStr sc m cs' = some b ∧ bs = a ++ b := by
  induction cs generalizing bs with
  | nil =>
    constructor
    · exact fun h => ⟨[], bs, rfl, h, rfl⟩
    · rintro ⟨a, b, ha, hb, rfl⟩
      cases ha
      exact hb
  | cons c cs ih =>
    constructor
    · intro h
      obtain ⟨e, r, he, hr, rfl⟩ := encodeStr_cons h
      obtain ⟨a, b, ha, hb, rfl⟩ := ih.1 hr
      exact ⟨e ++ a, b, by rw [encodeStr, he, ha], hb, by simp⟩
    · rintro ⟨a, b, ha, hb, rfl⟩
      obtain ⟨e, r, he, hr, rfl⟩ := encodeStr_cons ha
      rw [List.cons_append, encodeStr, he, ih.2 ⟨r, b, hr, hb, rfl⟩]
      simp

theorem reencode_cons {sc : StrCodec} (hf : FitStrings sc) {m : Mode} {c : Chr} {e x : List UInt8}
    (he : sc.cd.enc c = some e) (hx : sc.encode m c = some x) (r acc : List UInt8) :
    reencode sc m (e ++ r) acc = reencode sc m r (acc ++ x) := by
  by_cases h0 : c = 0
  · subst h0
    rw [hf.trip.nul_enc] at he
    injection he with he
    subst he
    show reencode sc m (0 :: r) acc = _
    rw [reencode]
    split
    · rename_i h; rw [hf.trip.nul_dec] at h; cases h
    · rw [hx]
    · rename_i h; rw [hf.trip.nul_dec] at h; cases h
  · have hd := hf.trip.enc_dec h0 he r
    have hne := enc_ne_nil hf he
    cases e with
    | nil => exact absurd rfl hne
    | cons b e =>
      rw [List.cons_append] at hd ⊢
      rw [reencode]
      split
      · rename_i h; rw [hd] at h; cases h
      · rename_i h; rw [hd] at h; cases h
      · rename_i c' n h
        rw [hd] at h
        injection h with h1 h2
        subst h1 h2
        rw [hx]
        simp

theorem reencode_str {sc : StrCodec} (hf : FitStrings sc) {m : Mode} (cs : List Chr) {bs bs' : List UInt8}
    (hb : encodeStr sc .multibyte cs = some bs) (hb' : encodeStr sc m cs = some bs') (acc : List UInt8) :
    reencode sc m bs acc = (.ok (), acc ++ bs') := by
  induction cs generalizing bs bs' acc with
  | nil =>
    cases hb
    cases hb'
    rw [reencode, List.append_nil]
  | cons c cs ih =>
    obtain ⟨e, r, he, hr, rfl⟩ := encodeStr_cons hb
    obtain ⟨x, r', hx, hr', rfl⟩ := encodeStr_cons hb'
    rw [reencode_cons hf he hx, ih hr hr']
    simp

theorem reencode_one {sc : StrCodec} (hf : FitStrings sc) {m : Mode} {c : Chr} {e x : List UInt8}
    (he : sc.cd.enc c = some e) (hx : sc.encode m c = some x) (acc : List UInt8) :
    reencode sc m e acc = (.ok (), acc ++ x) := by
  have := reencode_cons hf he hx [] acc
  rw [List.append_nil] at this
  rw [this, reencode]

theorem units16_cons {c : Nat} (h : c < 0x10000) (r : List UInt8) :
    units16 (littleEndian 2 c ++ r) = c :: units16 r := by
  rw [littleEndian_two]
  show (_ :: units16 r) = _
  congr 1
  show (UInt8.ofNat (c % 256)).toNat + 256 * (UInt8.ofNat (c / 256 % 256)).toNat = c
  rw [UInt8.toNat_ofNat', UInt8.toNat_ofNat']
  omega

theorem units32_cons {c : Nat} (h : c < 2 ^ 32) (r : List UInt8) :
    units32 (littleEndian 4 c ++ r) = c :: units32 r := by
  rw [littleEndian_four]
  show (_ :: units32 r) = _
  congr 1
  show (UInt8.ofNat (c % 256)).toNat + 256 * ((UInt8.ofNat (c / 256 % 256)).toNat +
    256 * ((UInt8.ofNat (c / 256 / 256 % 256)).toNat + 256 * (UInt8.ofNat (c / 256 / 256 / 256 % 256)).toNat)) = c
  rw [UInt8.toNat_ofNat', UInt8.toNat_ofNat', UInt8.toNat_ofNat', UInt8.toNat_ofNat']
  omega

theorem merge16_str {sc : StrCodec} (hf : FitStrings sc) {m : Mode} (cs : List Chr) {bs bs' : List UInt8}
    (hb : encodeStr sc .unicode16 cs = some bs) (hb' : encodeStr sc m cs = some bs')
    (hc : ∀ c ∈ cs, (c : Nat) < 0x10000) (acc : List UInt8) :
    merge16 sc m none (units16 bs) acc = .ok (acc ++ bs') := by
  induction cs generalizing bs bs' acc with
  | nil =>
    cases hb
    cases hb'
    rw [List.append_nil]
    rfl
  | cons c cs ih =>
    obtain ⟨e, r, he, hr, rfl⟩ := encodeStr_cons hb
    obtain ⟨x, r', hx, hr', rfl⟩ := encodeStr_cons hb'
    have hlt := hc c (List.mem_cons_self ..)
    have he' : sc.enc16 c = some e := he
    rw [hf.utf16 c hlt] at he'
    cases hec : sc.cd.enc c with
    | none => rw [hec] at he'; cases he'
    | some b =>
      rw [hec] at he'
      injection he' with he'
      subst he'
      have hs : c16Step none c = some (none, some c) := by
        have h1 : ¬ (0xD800 ≤ c ∧ c < 0xDC00) := by
          intro h
          have := hf.surrogate c h.1 (by have h2 : (c : Nat) < 0xDC00 := h.2; exact Nat.lt_trans h2 (by decide))
          rw [this] at hec
          cases hec
        have h2 : ¬ (0xDC00 ≤ c ∧ c < 0xE000) := by
          intro h
          have := hf.surrogate c (by have h2 : 0xDC00 ≤ (c : Nat) := h.1; exact Nat.le_trans (by decide) h2) h.2
          rw [this] at hec
          cases hec
        show (if 0xD800 ≤ c ∧ c < 0xDC00 then some (some c, none)
          else if 0xDC00 ≤ c ∧ c < 0xE000 then none else some (none, some c)) = some (none, some c)
        rw [if_neg h1, if_neg h2]
      rw [units16_cons hlt, merge16, hs]
      simp only
      rw [hec]
      simp only
      rw [reencode_one hf hec hx]
      simp only
      rw [ih hr hr' (fun c hm => hc c (List.mem_cons_of_mem _ hm))]
      simp

theorem merge32_str {sc : StrCodec} {m : Mode} (cs : List Chr) {bs bs' : List UInt8}
    (hb : encodeStr sc .unicode32 cs = some bs) (hb' : encodeStr sc m cs = some bs')
    (hc : ∀ c ∈ cs, (c : Nat) < 2 ^ 32) (acc : List UInt8) :
    merge32 sc m (units32 bs) acc = .ok (acc ++ bs') := by
  induction cs generalizing bs bs' acc with
  | nil =>
    cases hb
    cases hb'
    rw [List.append_nil]
    rfl
  | cons c cs ih =>
    obtain ⟨e, r, he, hr, rfl⟩ := encodeStr_cons hb
    obtain ⟨x, r', hx, hr', rfl⟩ := encodeStr_cons hb'
    have hlt := hc c (List.mem_cons_self ..)
    have he' : e = littleEndian 4 c := by
      have : some (leBytes 4 c) = some e := he
      injection this with this
      rw [← this, ← littleEndian_four]
    subst he'
    rw [units32_cons hlt, merge32, hx]
    simp only
    rw [ih hr hr' (fun c hm => hc c (List.mem_cons_of_mem _ hm))]
    simp

theorem mergeWide_str {sc : StrCodec} (hf : FitStrings sc) {m : Mode} (cs : List Chr) {bs bs' : List UInt8}
    (hb : encodeStr sc .wide cs = some bs) (hb' : encodeStr sc m cs = some bs')
    (hc : ∀ c ∈ cs, (c : Nat) < 2 ^ 32) (acc : List UInt8) :
    mergeWide sc m (units32 bs) acc = .ok (acc ++ bs') := by
  induction cs generalizing bs bs' acc with
  | nil =>
    cases hb
    cases hb'
    rw [List.append_nil]
    rfl
  | cons c cs ih =>
    obtain ⟨e, r, he, hr, rfl⟩ := encodeStr_cons hb
    obtain ⟨x, r', hx, hr', rfl⟩ := encodeStr_cons hb'
    have hlt := hc c (List.mem_cons_self ..)
    have he' : sc.encWide c = some e := he
    rw [hf.wide c] at he'
    cases hec : sc.cd.enc c with
    | none => rw [hec] at he'; cases he'
    | some b =>
      rw [hec] at he'
      injection he' with he'
      subst he'
      rw [units32_cons hlt, mergeWide, hec]
      simp only
      rw [reencode_one hf hec hx]
      simp only
      rw [ih hr hr' (fun c hm => hc c (List.mem_cons_of_mem _ hm))]
      simp

/-- Merging a literal with the characters `cs`. -/
theorem mergeStrings_str {sc : StrCodec} (hf : FitStrings sc) {m m2 : Mode} (cs : List Chr)
    {bs bs' : List UInt8} (hb : encodeStr sc m2 cs = some bs) (hb' : encodeStr sc m cs = some bs')
    (hc : ∀ c ∈ cs, (c : Nat) < 2 ^ 32 ∧ (m2 = .unicode16 → (c : Nat) < 0x10000)) (acc : List UInt8) :
    mergeStrings sc m m2 acc bs = .ok (acc ++ bs') := by
  have u8 : ∀ l, encodeStr sc .unicode8 l = encodeStr sc .multibyte l := by
    intro l
    induction l with
    | nil => rfl
    | cons c l ih => rw [encodeStr, encodeStr, ih]; rfl
  unfold mergeStrings
  cases m2 with
  | multibyte => simp only; rw [reencode_str hf cs hb hb']
  | unicode8 => simp only; rw [reencode_str hf cs (by rw [← u8]; exact hb) hb']
  | unicode16 => exact merge16_str hf cs hb hb' (fun c h => (hc c h).2 rfl) acc
  | unicode32 => exact merge32_str cs hb hb' (fun c h => (hc c h).1) acc
  | wide => exact mergeWide_str hf cs hb hb' (fun c h => (hc c h).1) acc

theorem convertBuffer_str {sc : StrCodec} (hf : FitStrings sc) {p : Mode} (cs : List Chr)
    {bs bs' : List UInt8} (hb : encodeStr sc .multibyte cs = some bs) (hb' : encodeStr sc p cs = some bs') :
    convertBuffer sc p ⟨.multibyte, bs⟩ = (.ok (), ⟨p, bs'⟩) := by
  have u8 : ∀ l, encodeStr sc .unicode8 l = encodeStr sc .multibyte l := by
    intro l
    induction l with
    | nil => rfl
    | cons c l ih => rw [encodeStr, encodeStr, ih]; rfl
  unfold convertBuffer
  rw [if_neg (by simp)]
  cases p with
  | multibyte => rw [hb] at hb'; injection hb' with hb'; rw [hb']
  | unicode8 => rw [u8, hb] at hb'; injection hb' with hb'; rw [hb']
  | _ => simp only; rw [reencode_str hf cs hb hb']; simp

/-- The mode of a literal joined from two. -/
def joinedMode (m1 m2 : Mode) : Mode := if m1 = .multibyte then m2 else m1

theorem joinStrings_str {sc : StrCodec} (hf : FitStrings sc) {m1 m2 p : Mode} (cs1 cs2 : List Chr)
    {b1 b2 bs : List UInt8} (h1 : m1 = .multibyte ∨ m1 = p) (h2 : m2 = .multibyte ∨ m2 = p)
    (hb1 : encodeStr sc m1 cs1 = some b1) (hb2 : encodeStr sc m2 cs2 = some b2)
    (hb : encodeStr sc (joinedMode m1 m2) (cs1 ++ cs2) = some bs)
    (hc : ∀ c ∈ cs2, (c : Nat) < 2 ^ 32 ∧ (p = .unicode16 → (c : Nat) < 0x10000)) :
    joinStrings sc m1 m2 b1 b2 = .ok (joinedMode m1 m2, bs) := by
  obtain ⟨a, b, ha, hbb, rfl⟩ := (encodeStr_append cs1 cs2).1 hb
  have hc' : ∀ c ∈ cs2, (c : Nat) < 2 ^ 32 ∧ (m2 = .unicode16 → (c : Nat) < 0x10000) := by
    intro c hm
    refine ⟨(hc c hm).1, fun e => (hc c hm).2 ?_⟩
    rcases h2 with h2 | h2
    · rw [e] at h2; cases h2
    · rw [← h2, e]
  unfold joinStrings
  by_cases hm : m1 = .multibyte ∧ m1 ≠ m2
  · have hj : joinedMode m1 m2 = m2 := if_pos hm.1
    rw [hj] at ha hbb ⊢
    have hm' := hm
    obtain ⟨rfl, -⟩ := hm
    simp only
    rw [if_pos ⟨trivial, hm'.2⟩, convertBuffer_str hf cs1 hb1 ha]
    simp only
    rw [mergeStrings_str hf cs2 hb2 hbb hc']
  · have hj : joinedMode m1 m2 = m1 := by
      unfold joinedMode
      by_cases h : m1 = .multibyte
      · rw [if_pos h]
        exact Classical.byContradiction fun h' => hm ⟨h, fun e => h' e.symm⟩
      · rw [if_neg h]
    rw [hj] at ha hbb ⊢
    simp only
    rw [if_neg hm]
    simp only
    rw [mergeStrings_str hf cs2 hb2 hbb hc']
    rw [hb1] at ha
    injection ha with ha
    rw [ha]

/-- Encodable in the mode of the whole, encodable in the mode of a part. -/
theorem joinedMode_cases {m1 m2 p : Mode} (h1 : m1 = .multibyte ∨ m1 = p) (h2 : m2 = .multibyte ∨ m2 = p) :
    joinedMode m1 m2 = .multibyte ∧ m1 = .multibyte ∧ m2 = .multibyte ∨
      joinedMode m1 m2 = p ∧ (m1 = p ∨ m2 = p) := by
  unfold joinedMode
  by_cases h : m1 = .multibyte
  · rw [if_pos h]
    rcases h2 with h2 | h2
    · exact Or.inl ⟨h2, h, h2⟩
    · exact Or.inr ⟨h2, Or.inr h2⟩
  · rw [if_neg h]
    rcases h1 with h1 | h1
    · exact absurd h1 h
    · exact Or.inr ⟨h1, Or.inl h1⟩

/-- The literals of a run are appended to one that is there. -/
theorem run_append {sc : StrCodec} (hf : FitStrings sc) (t : Tries) {p : Mode} {run : List Token}
    {cs : List Chr} (hr : Run sc p run cs) (rest dst : List Token) (m1 : Mode) (cs1 : List Chr) (b1 bs : List UInt8)
    (h1 : m1 = .multibyte ∨ m1 = p) (hp : m1 = p ∨ ∃ b, .string p b ∈ run)
    (hb1 : encodeStr sc m1 cs1 = some b1) (hb : encodeStr sc p (cs1 ++ cs) = some bs)
    (hc : ∀ c ∈ cs, (c : Nat) < 2 ^ 32 ∧ (p = .unicode16 → (c : Nat) < 0x10000)) :
    convertLoop sc t (run ++ rest) (.string m1 b1 :: dst) = convertLoop sc t rest (.string p bs :: dst) := by
  have step : ∀ {m : Mode} {cs2 : List Chr} {b2 bj : List UInt8} (τs : List Token) (m1 : Mode) (cs1 : List Chr)
      (b1 : List UInt8), (m1 = .multibyte ∨ m1 = p) → (m = .multibyte ∨ m = p) → encodeStr sc m1 cs1 = some b1 →
      encodeStr sc m cs2 = some b2 → encodeStr sc (joinedMode m1 m) (cs1 ++ cs2) = some bj →
      (∀ c ∈ cs2, (c : Nat) < 2 ^ 32 ∧ (p = .unicode16 → (c : Nat) < 0x10000)) →
      convertLoop sc t (.string m b2 :: τs) (.string m1 b1 :: dst) =
        convertLoop sc t τs (.string (joinedMode m1 m) bj :: dst) := by
    intro m cs2 b2 bj τs m1 cs1 b1 g1 g2 g3 g4 g5 g6
    have hcomp : m1 = .multibyte ∨ m = .multibyte ∨ m1 = m := by
      rcases g1 with g1 | g1
      · exact Or.inl g1
      · rcases g2 with g2 | g2
        · exact Or.inr (Or.inl g2)
        · exact Or.inr (Or.inr (by rw [g1, g2]))
    rw [convertLoop]
    unfold appendString
    simp only
    rw [if_pos hcomp, joinStrings_str hf cs1 cs2 g1 g2 g3 g4 g5 g6]
  induction hr generalizing m1 cs1 b1 with
  | one hm h =>
    rename_i m cs2 b2
    have hj : joinedMode m1 m = p := by
      rcases joinedMode_cases h1 hm with ⟨e1, e2, e3⟩ | ⟨e1, -⟩
      · rcases hp with hp | ⟨b, hp⟩
        · rw [e1, ← hp, e2]
        · have : p = m := by
            have : Token.string p b = Token.string m b2 := by simpa using hp
            injection this
          rw [e1, this, e3]
      · exact e1
    have := step (m := m) (b2 := b2) rest m1 cs1 b1 h1 hm hb1 h (by rw [hj]; exact hb) hc
    rw [hj] at this
    exact this
  | more hm h r ih =>
    rename_i m cs2 cs3 b2 τs
    have hc2 : ∀ c ∈ cs2, (c : Nat) < 2 ^ 32 ∧ (p = .unicode16 → (c : Nat) < 0x10000) :=
      fun c hm => hc c (List.mem_append_left _ hm)
    have hc3 : ∀ c ∈ cs3, (c : Nat) < 2 ^ 32 ∧ (p = .unicode16 → (c : Nat) < 0x10000) :=
      fun c hm => hc c (List.mem_append_right _ hm)
    rw [← List.append_assoc] at hb
    obtain ⟨x, y, hx, hy, hxy⟩ := (encodeStr_append (cs1 ++ cs2) cs3).1 hb
    have hj' : ∃ bj, encodeStr sc (joinedMode m1 m) (cs1 ++ cs2) = some bj := by
      rcases joinedMode_cases h1 hm with ⟨e1, e2, e3⟩ | ⟨e1, -⟩
      · rw [e1]
        rw [e2] at hb1
        rw [e3] at h
        exact ⟨_, (encodeStr_append cs1 cs2).2 ⟨b1, b2, hb1, h, rfl⟩⟩
      · rw [e1]
        exact ⟨x, hx⟩
    obtain ⟨bj, hj⟩ := hj'
    rw [List.cons_append, step (m := m) (b2 := b2) (τs ++ rest) m1 cs1 b1 h1 hm hb1 h hj hc2]
    refine ih (joinedMode m1 m) (cs1 ++ cs2) bj ?_ ?_ hj hb hc3
    · rcases joinedMode_cases h1 hm with ⟨e1, -⟩ | ⟨e1, -⟩
      · exact Or.inl e1
      · exact Or.inr e1
    · rcases joinedMode_cases h1 hm with ⟨e1, e2, e3⟩ | ⟨e1, -⟩
      · rcases hp with hp | ⟨b, hp⟩
        · left
          rw [e1, ← hp, e2]
        · rcases List.mem_cons.1 hp with hp | hp
          · left
            injection hp with hp _
            rw [e1, hp, e3]
          · exact Or.inr ⟨b, hp⟩
      · exact Or.inl e1
  | blank r ih =>
    rename_i b τs cs
    rw [List.cons_append, convertLoop]
    refine ih m1 cs1 b1 h1 ?_ hb1 hb hc
    rcases hp with hp | ⟨b', hp⟩
    · exact Or.inl hp
    · rcases List.mem_cons.1 hp with hp | hp
      · cases hp
      · exact Or.inr ⟨b', hp⟩

/-- The last token of the destination is no string literal. -/
def NoStringLast : List Token → Prop
  | .string _ _ :: _ => False
  | _ => True

theorem append_fresh {sc : StrCodec} {dst : List Token} (h : NoStringLast dst) (m : Mode) (b : List UInt8) :
    appendString sc dst m b = none := by
  unfold appendString
  split
  · exact absurd h (by intro h; exact h)
  · rfl

/-- A run behind another token becomes one literal. -/
theorem run_convert {sc : StrCodec} (hf : FitStrings sc) (t : Tries) {p : Mode} {run : List Token}
    {cs : List Chr} (hr : Run sc p run cs) (rest dst : List Token) (bs : List UInt8)
    (hd : NoStringLast dst) (hp : ∃ b, .string p b ∈ run) (hb : encodeStr sc p cs = some bs)
    (hc : ∀ c ∈ cs, (c : Nat) < 2 ^ 32 ∧ (p = .unicode16 → (c : Nat) < 0x10000)) :
    convertLoop sc t (run ++ rest) dst = convertLoop sc t rest (.string p bs :: dst) := by
  induction hr with
  | one hm h =>
    rename_i m cs b2
    obtain ⟨b, hp⟩ := hp
    have : Token.string p b = Token.string m b2 := by simpa using hp
    injection this with e1 e2
    subst e1
    rw [h] at hb
    injection hb with hb
    subst hb
    rw [List.cons_append, convertLoop]
    rw [append_fresh hd]
    rfl
  | more hm h r ih =>
    rename_i m cs2 cs3 b2 τs
    rw [List.cons_append, convertLoop]
    rw [append_fresh hd]
    simp only
    refine run_append hf t r rest dst m cs2 b2 bs hm ?_ h hb (fun c hm => hc c (List.mem_append_right _ hm))
    obtain ⟨b, hp⟩ := hp
    rcases List.mem_cons.1 hp with hp | hp
    · injection hp with hp _
      exact Or.inl hp.symm
    · exact Or.inr ⟨b, hp⟩
  | blank r ih =>
    rename_i b τs cs
    rw [List.cons_append, convertLoop]
    refine ih ?_ hb hc
    obtain ⟨b', hp⟩ := hp
    rcases List.mem_cons.1 hp with hp | hp
    · cases hp
    · exact ⟨b', hp⟩

/-- The tokens that come out of a conversion are string literals only if they went in. -/
theorem convert_string {cd : Codec} {t : Tries} {τ : Token} {m : Mode} {b : List UInt8}
    (h : convertToken cd t τ = some (.ok (.string m b))) : IsString τ := by
  have scanI : ∀ {c c'}, scanIdentifier cd (some t.kws) c ≠ some (.ok (.string m b), c') := by
    intro c c' h
    unfold scanIdentifier at h
    rw [bind_apply] at h
    generalize scanNondigit c = x at h
    rcases x with _ | ⟨_ | x, c1⟩
    · cases h
    · cases h
    · simp only at h
      rw [bind_apply] at h
      generalize identifierLoop [x] c1 = y at h
      rcases y with _ | ⟨_ | y, c2⟩
      · cases h
      · cases h
      · simp only at h
        generalize matchKeyword (cstr y) t.kws = k at h
        rcases k with e | k
        · simp only at h
          cases he : encodeAll cd (y ++ [0]) with
          | none => rw [he] at h; cases h
          | some bs => rw [he] at h; cases h
        · cases h
  cases τ with
  | string => trivial
  | identifier bs =>
    obtain ⟨c, h1, -⟩ := whole_ok h
    exact absurd h1 scanI
  | ppNumber bs =>
    exfalso
    have hfloat : ∀ {c c'}, scanFloat c = some (.ok (.string m b), c') → False := by
      intro c c' h
      obtain ⟨s, r, -, -, h⟩ := float_sound h
      rcases h with h | h <;> cases h
    have hint : ∀ {c c'}, scanIntegral c = some (.ok (.string m b), c') → False := by
      intro c c' h
      obtain ⟨s, r, -, -, h⟩ := int_sound h
      rcases h with h | h <;> cases h
    unfold convertToken convertNumber at h
    simp only at h
    split at h
    · obtain ⟨c, h1, -⟩ := whole_ok h
      exact hint h1
    · obtain ⟨c, h1, -⟩ := whole_ok h
      exact hfloat h1
  | _ => cases h

/-- What is behind a run does not join it. -/
theorem noString_last {sc : StrCodec} {t : Tries} {τs out : List Token}
    (h : Translated sc (fun τ τ' => convertToken sc.cd t τ = some (.ok τ')) τs out) (hf : FitStrings sc) :
    ∀ dst, NoStringLast dst ∨ NoStringNext τs →
      convertLoop sc t τs dst = some (.ok (out.reverse ++ dst)) := by
  induction h with
  | done => intro dst _; rfl
  | blank h ih =>
    rename_i b τs out
    intro dst hd
    rw [convertLoop]
    exact ih dst (by
      rcases hd with hd | hd
      · exact Or.inl hd
      · exact Or.inr hd)
  | token hn hc h ih =>
    rename_i τ τ' τs out
    intro dst hd
    have hτ' : NoStringLast (τ' :: dst) := by
      cases τ' with
      | string m b => exact absurd (convert_string hc) hn
      | _ => trivial
    have hrest := ih (τ' :: dst) (Or.inl hτ')
    have hstep : convertLoop sc t (τ :: τs) dst = convertLoop sc t τs (τ' :: dst) := by
      cases τ with
      | string => exact absurd trivial hn
      | ppWhitespace b => cases hc
      | ppHeader s b => cases hc
      | _ =>
        rw [convertLoop]
        · rw [hc]
        all_goals intros; contradiction
    rw [hstep, hrest]
    simp
  | strings hr hp hb hc hn h ih =>
    rename_i p run τs out cs bs bs'
    intro dst hd
    have hfresh : NoStringLast dst := by
      rcases hd with hd | hd
      · exact hd
      · exfalso
        clear ih hb hp hc h hn
        induction hr with
        | one => exact hd
        | more => exact hd
        | blank r ih => exact ih hd
    rw [run_convert hf t hr τs dst bs hfresh ⟨bs', hp⟩ hb hc, ih _ (Or.inr hn)]
    simp

end Kefir.PpToken
