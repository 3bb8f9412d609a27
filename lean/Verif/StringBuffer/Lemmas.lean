import Verif.StringBuffer.Model

/-! Helper lemmas about string buffers. -/

namespace Kefir.StringBuffer

open Kefir.Lexer (Codec Dec)

/-- The buffer holds `content`, followed by zeros up to its capacity. -/
structure Holds (sb : SB) (content : Bytes) : Prop where
  len : sb.length = content.length
  block : ∃ k, sb.mode.unit ≤ k ∧ sb.block = content ++ List.replicate k 0
  cap : sb.capacity = sb.block.length
  dvd : sb.mode.unit ∣ content.length
  dvdCap : sb.mode.unit ∣ sb.capacity

theorem leBytes_length (k : Nat) (n : Int) : (leBytes k n).length = k := by
  induction k generalizing n with
  | zero => rfl
  | succ k ih => simp [leBytes, ih]

theorem unit_pos (m : Mode) : 0 < m.unit := by cases m <;> decide

theorem unit_le (m : Mode) : m.unit = 1 ∨ m.unit = 2 ∨ m.unit = 4 := by cases m <;> simp [Mode.unit]

theorem unit_dvd64 (m : Mode) : m.unit ∣ 64 := by cases m <;> decide

theorem holds_init (m : Mode) (h : Mall) (sb : SB) (h' : Mall)
    (e : init m h = (.ok (), sb, h')) : Holds sb [] ∧ sb.mode = m := by
  unfold init at e
  split at e
  · cases e
  · cases e
    refine ⟨⟨rfl, ⟨32, ?_, rfl⟩, by simp, by simp, ?_⟩, rfl⟩
    · cases m <;> decide
    · cases m <;> decide

/-- Result of an operation that appends `frag` as a whole or fails for lack of memory. -/
def Appends (r : Out) (sb : SB) (content frag : Bytes) : Prop :=
  (∃ sb' h', r = some (.ok (), sb', h') ∧ sb'.mode = sb.mode ∧ Holds sb' (content ++ frag)) ∨
  (∃ h', r = some (.error .memallocFailure, sb, h'))

theorem insertBuffer_spec {sb : SB} {content : Bytes} (hs : Holds sb content) (h : Mall)
    (frag : Bytes) (hf : sb.mode.unit ∣ frag.length) :
    Appends (insertBuffer sb h frag) sb content frag := by
  obtain ⟨mode, block, length, capacity⟩ := sb
  obtain ⟨hlen, ⟨k, hk, hb⟩, hcap, hd, hdc⟩ := hs
  simp only at hlen hb hcap hd hdc hk hf
  subst hlen hcap hb
  unfold insertBuffer
  by_cases h0 : frag.length = 0
  · rw [if_pos h0]
    have : frag = [] := List.length_eq_zero_iff.1 h0
    subst this
    left
    refine ⟨_, h, rfl, rfl, ?_⟩
    rw [List.append_nil]
    exact ⟨rfl, ⟨k, hk, rfl⟩, rfl, hd, hdc⟩
  · rw [if_neg h0]
    have hup := unit_pos mode
    unfold ensureCapacity
    simp only
    split
    · cases hm : malloc h with
      | mk a h1 =>
        cases a with
        | false => right; exact ⟨h1, rfl⟩
        | true =>
          left
          simp only
          rw [if_pos (by simp)]
          simp only [andThen]
          rw [if_pos (by simp; omega)]
          refine ⟨_, h1, rfl, rfl, ?_⟩
          constructor
          · simp
          · refine ⟨mode.unit + 64, by simp, ?_⟩
            simp only [List.take_left']
            rw [List.drop_append, List.drop_of_length_le (by omega)]
            simp only [List.drop_replicate, List.nil_append]
            congr 2
            omega
          · simp; omega
          · simp only [List.length_append]; exact Nat.dvd_add hd hf
          · exact Nat.dvd_add (Nat.dvd_add (Nat.dvd_add hd hf) (Nat.dvd_refl _)) (unit_dvd64 _)
    · rename_i hcap
      left
      simp only [andThen, List.length_append, List.length_replicate] at hcap hdc ⊢
      have hk2 : frag.length + 1 < k := by omega
      rw [if_pos (by omega)]
      refine ⟨_, h, rfl, rfl, ?_⟩
      constructor
      · simp
      · refine ⟨k - frag.length, ?_, ?_⟩
        · simp only
          have hdk : mode.unit ∣ k := (Nat.dvd_add_right hd).1 hdc
          exact Nat.le_of_dvd (by omega) (Nat.dvd_sub hdk hf)
        · simp only
          rw [List.take_left', List.drop_append, List.drop_of_length_le (by omega)]
          · simp
          · rfl
      · simp; omega
      · simp only [List.length_append]; exact Nat.dvd_add hd hf
      · simpa using hdc

theorem Appends.ok {r : Out} {sb : SB} {content frag : Bytes} (h : Appends r sb content frag)
    {sb' h'} (e : r = some (.ok (), sb', h')) : sb'.mode = sb.mode ∧ Holds sb' (content ++ frag) := by
  rcases h with ⟨sb2, h2, e2, hm, hh⟩ | ⟨h2, e2⟩
  · rw [e] at e2; cases e2; exact ⟨hm, hh⟩
  · rw [e] at e2; cases e2

theorem andThen_ok (r : Out) : (andThen r fun sb h => some (.ok (), sb, h)) = r := by
  match r with
  | none => rfl
  | some (.error _, _, _) => rfl
  | some (.ok (), _, _) => rfl

theorem andThen_congr {r : Out} {f g : SB → Mall → Out} (h : ∀ sb hh, f sb hh = g sb hh) :
    andThen r f = andThen r g := by
  have : f = g := funext fun sb => funext fun hh => h sb hh
  rw [this]

theorem enc_ne_nil {cd : Codec} (hcd : RoundTrip cd) {c bs} (h : cd.enc c = some bs) : bs ≠ [] := by
  rintro rfl
  by_cases h0 : c = 0
  · subst h0; rw [hcd.nul_enc] at h; cases h
  · have := hcd.enc_dec h0 h []
    have h2 := cd.dec_chr this
    simp at h2

/-- `insert` of a character below U+10000, or in a mode other than unicode16, stores its encoding. -/
theorem insert_eq {cd : Codec} (hcd : RoundTrip cd) (sb : SB) (h : Mall) (c : Nat)
    (hc : sb.mode = .u16 → c < 0x10000) :
    insert cd sb h c = match encodeChar cd sb.mode c with
      | none => some (.error .invalidState, sb, h)
      | some e => insertBuffer sb h e := by
  unfold insert
  cases hm : sb.mode with
  | multibyte => simp only [encodeChar]; cases cd.enc c <;> rfl
  | u8 => simp only [encodeChar]; cases cd.enc c <;> rfl
  | u32 => rfl
  | u16 =>
    simp only [encodeChar]
    cases he : cd.enc c with
    | none => rfl
    | some bs =>
      have hlt := hc hm
      simp only [Option.map_some, utf16, if_pos hlt, List.flatMap_cons, List.flatMap_nil,
        List.append_nil]
      by_cases h0 : c = 0
      · subst h0
        rw [hcd.nul_enc] at he
        cases he
        rw [u16Loop]
        split
        · rename_i e; rw [hcd.nul_dec] at e; cases e
        · rfl
        · rename_i e; rw [hcd.nul_dec] at e; cases e
      · have hne := enc_ne_nil hcd he
        have hd := hcd.enc_dec h0 he []
        rw [List.append_nil] at hd
        cases bs with
        | nil => exact absurd rfl hne
        | cons x r =>
          rw [u16Loop]
          split
          · rename_i e; rw [hd] at e; cases e
          · rename_i e; rw [hd] at e; cases e
          · rename_i c' n' e
            rw [hd] at e
            cases e
            have hu : c16units c = (c, none) := by rw [c16units, if_pos hlt]
            rw [hu, List.drop_length]
            conv => rhs; rw [← andThen_ok (insertBuffer sb h (leBytes 2 c))]
            apply andThen_congr
            intro sb hh
            rw [u16Loop]
  | wide =>
    simp only [encodeChar]
    cases he : cd.enc c with
    | none => rfl
    | some bs =>
      simp only [Option.map_some]
      by_cases h0 : c = 0
      · subst h0
        rw [hcd.nul_enc] at he
        cases he
        rw [wideLoop]
        split
        · rename_i e; rw [hcd.nul_dec] at e; cases e
        · rfl
        · rename_i e; rw [hcd.nul_dec] at e; cases e
      · have hne := enc_ne_nil hcd he
        have hd := hcd.enc_dec h0 he []
        rw [List.append_nil] at hd
        cases bs with
        | nil => exact absurd rfl hne
        | cons x r =>
          rw [wideLoop]
          split
          · rename_i e; rw [hd] at e; cases e
          · rename_i e; rw [hd] at e; cases e
          · rename_i c' n' e
            rw [hd] at e
            cases e
            rw [List.drop_length]
            conv => rhs; rw [← andThen_ok (insertBuffer sb h (leBytes 4 c))]
            apply andThen_congr
            intro sb hh
            rw [wideLoop]

theorem encodeChar_dvd {cd : Codec} {m : Mode} {c : Nat} {e : Bytes}
    (h : encodeChar cd m c = some e) : m.unit ∣ e.length := by
  cases m <;> simp only [encodeChar, Mode.unit] at h ⊢
  · exact Nat.one_dvd _
  · exact Nat.one_dvd _
  · obtain ⟨_, _, rfl⟩ := Option.map_eq_some_iff.1 h
    unfold utf16
    split <;> simp [leBytes_length]
  · cases h; simp [leBytes_length]
  · obtain ⟨_, _, rfl⟩ := Option.map_eq_some_iff.1 h
    simp [leBytes_length]

theorem insertRaw_eq (sb : SB) (h : Mall) (v : Int) :
    insertRaw sb h v = match encode ⟨fun _ => .bad, fun _ => none, rfl, by simp⟩ sb.mode (.raw v) with
      | none => some (.error .outOfBounds, sb, h)
      | some e => insertBuffer sb h e := by
  have key : ∀ (m : Mode) (b : Int), m.maxRaw = b →
      (if v ≤ b then insertBuffer sb h (leBytes m.unit v) else some (.error .outOfBounds, sb, h)) =
      match encode ⟨fun _ => .bad, fun _ => none, rfl, by simp⟩ m (.raw v) with
      | none => some (.error .outOfBounds, sb, h)
      | some e => insertBuffer sb h e := by
    intro m b hb
    subst hb
    simp only [encode]
    by_cases hv : v ≤ m.maxRaw
    · rw [if_pos hv, if_pos hv]
    · rw [if_neg hv, if_neg hv]
  unfold insertRaw
  cases hm : sb.mode with
  | multibyte => exact key .multibyte 255 rfl
  | u8 => exact key .u8 255 rfl
  | u16 => exact key .u16 65535 rfl
  | u32 => exact key .u32 4294967295 rfl
  | wide => exact key .wide 2147483647 rfl

/-- The characters of the items fit one UTF-16 code unit if the mode is unicode16. -/
def Item.Bmp (m : Mode) : Item → Prop
  | .char c => m = .u16 → c < 0x10000
  | .raw _ => True

theorem encode_dvd {cd : Codec} {m : Mode} {it : Item} {e : Bytes}
    (h : encode cd m it = some e) : m.unit ∣ e.length := by
  cases it with
  | char c => exact encodeChar_dvd h
  | raw v =>
    simp only [encode] at h
    split at h
    · cases h; rw [leBytes_length]; exact Nat.dvd_refl _
    · cases h

theorem append_eq {cd : Codec} (hcd : RoundTrip cd) (sb : SB) (h : Mall) (it : Item)
    (hit : it.Bmp sb.mode) :
    (∃ e, encode cd sb.mode it = some e ∧ append cd sb h it = insertBuffer sb h e) ∨
    (encode cd sb.mode it = none ∧ (append cd sb h it = some (.error .invalidState, sb, h) ∨
      append cd sb h it = some (.error .outOfBounds, sb, h))) := by
  cases it with
  | char c =>
    simp only [append, insert_eq hcd sb h c hit, encode]
    cases encodeChar cd sb.mode c with
    | none => exact Or.inr ⟨rfl, Or.inl rfl⟩
    | some e => exact Or.inl ⟨e, rfl, rfl⟩
  | raw v =>
    have := insertRaw_eq sb h v
    have e2 : encode cd sb.mode (.raw v) =
      encode ⟨fun _ => .bad, fun _ => none, rfl, by simp⟩ sb.mode (.raw v) := rfl
    rw [← e2] at this
    simp only [append, this]
    cases encode cd sb.mode (.raw v) with
    | none => exact Or.inr ⟨rfl, Or.inr rfl⟩
    | some e => exact Or.inl ⟨e, rfl, rfl⟩

theorem append_spec {cd : Codec} (hcd : RoundTrip cd) {sb : SB} {content : Bytes}
    (hs : Holds sb content) (h : Mall) (it : Item) (hit : it.Bmp sb.mode) :
    ∃ r sb' h' content', append cd sb h it = some (r, sb', h') ∧ sb'.mode = sb.mode ∧
      Holds sb' content' ∧ Allowed cd sb.mode it r content content' := by
  rcases append_eq hcd sb h it hit with ⟨e, he, ea⟩ | ⟨he, ea⟩
  · rw [ea]
    rcases insertBuffer_spec hs h e (encode_dvd he) with ⟨sb', h', e1, hm, hh⟩ | ⟨h', e1⟩
    · exact ⟨_, sb', h', _, e1, hm, hh, Or.inl ⟨e, he, rfl, rfl⟩⟩
    · exact ⟨_, sb, h', content, e1, rfl, hs, Or.inr (Or.inl ⟨rfl, rfl⟩)⟩
  · rcases ea with ea | ea
    · exact ⟨_, sb, h, content, ea, rfl, hs, Or.inr (Or.inr ⟨he, Or.inl rfl, rfl⟩)⟩
    · exact ⟨_, sb, h, content, ea, rfl, hs, Or.inr (Or.inr ⟨he, Or.inr rfl, rfl⟩)⟩

theorem appendAll_spec {cd : Codec} (hcd : RoundTrip cd) (its : List Item) {sb : SB} {content : Bytes}
    (hs : Holds sb content) (h : Mall) (hit : ∀ it ∈ its, it.Bmp sb.mode) :
    ∃ rs sb' h' content', appendAll cd sb h its = some (rs, sb', h') ∧ sb'.mode = sb.mode ∧
      Holds sb' content' ∧ AllowedSeq cd sb.mode its rs content content' := by
  induction its generalizing sb content h with
  | nil => exact ⟨[], sb, h, content, rfl, rfl, hs, .nil⟩
  | cons it its ih =>
    obtain ⟨r, sb1, h1, c1, e1, m1, hs1, al⟩ := append_spec hcd hs h it (hit it List.mem_cons_self)
    obtain ⟨rs, sb2, h2, c2, e2, m2, hs2, al2⟩ := ih hs1 h1
      (fun x hx => m1 ▸ hit x (List.mem_cons_of_mem _ hx))
    refine ⟨r :: rs, sb2, h2, c2, ?_, m2.trans m1, hs2, .cons al (m1 ▸ al2)⟩
    rw [appendAll, e1]
    simp [e2]

/-- `Holds` in terms of `kefir_string_buffer_value`. -/
theorem holds_value {sb : SB} {content : Bytes} (hs : Holds sb content) :
    (value sb).2 * sb.mode.unit = content.length + sb.mode.unit ∧
      (value sb).1.take ((value sb).2 * sb.mode.unit) =
        content ++ List.replicate sb.mode.unit 0 := by
  obtain ⟨hlen, ⟨k, hk, hb⟩, hcap, hd, hdc⟩ := hs
  have e : (value sb).2 * sb.mode.unit = content.length + sb.mode.unit := by
    show (sb.length / sb.mode.unit + 1) * sb.mode.unit = _
    rw [hlen, Nat.add_mul, Nat.div_mul_cancel hd, Nat.one_mul]
  refine ⟨e, ?_⟩
  rw [e]
  show sb.block.take _ = _
  rw [hb, List.take_append, List.take_of_length_le (by omega), List.take_replicate]
  congr 2
  omega

end Kefir.StringBuffer
