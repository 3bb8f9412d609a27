import Verif.StringBuffer.Convert
import Verif.Json.Props

/-!
# C27: string buffers hold exactly the encoded characters

The property fails for characters from U+10000 on in a unicode16 buffer (`C27_surrogate_false`), so
the positive theorems exclude them.
-/

namespace Kefir.StringBuffer

open Kefir.Lexer (Codec Dec)

/-- **C27** (partial: characters from U+10000 on are excluded for unicode16 buffers.)
Whatever is appended to a fresh buffer, and whichever allocations fail: there is no access outside the
allocated memory, every append is done, rejected or reported as failed as `Allowed` says, and the value
of the buffer is then exactly the concatenation of the encodings of the appended items, followed by one
zero code unit; the reported length counts the code units including the terminator. -/
theorem C27_append_partial (cd : Codec) (hcd : RoundTrip cd) (m : Mode) (h0 h1 : Mall) (sb0 : SB)
    (hinit : init m h0 = (.ok (), sb0, h1)) (its : List Item) (hits : ∀ it ∈ its, it.Bmp m) :
    ∃ rs sb h content, appendAll cd sb0 h1 its = some (rs, sb, h) ∧
      AllowedSeq cd m its rs [] content ∧
      (value sb).2 * m.unit = content.length + m.unit ∧
      (value sb).1.take ((value sb).2 * m.unit) = content ++ List.replicate m.unit 0 := by
  obtain ⟨hh, hm⟩ := holds_init m h0 sb0 h1 hinit
  subst hm
  obtain ⟨rs, sb, h, content, e, hm2, hh2, al⟩ := appendAll_spec hcd its hh h1 hits
  have := holds_value hh2
  rw [hm2] at this
  exact ⟨rs, sb, h, content, e, al, this⟩

/-- If memory does not run out, an append fails exactly if the item cannot be represented: `Allowed`
determines the reply up to memory exhaustion. -/
theorem C27_replies (cd : Codec) (m : Mode) (it : Item) (r : Res Unit) (b b' : Bytes)
    (h : Allowed cd m it r b b') (hr : r ≠ .error .memallocFailure) :
    r = .ok () ↔ ∃ e, encode cd m it = some e := by
  rcases h with ⟨e, he, hr', _⟩ | ⟨hr', _⟩ | ⟨he, hr', _⟩
  · exact ⟨fun _ => ⟨e, he⟩, fun _ => hr'⟩
  · exact absurd hr' hr
  · refine ⟨fun h => ?_, ?_⟩
    · rcases hr' with hr' | hr' <;> rw [hr'] at h <;> cases h
    · rintro ⟨e, he'⟩; rw [he] at he'; cases he'

theorem allowedSeq_chars {cd : Codec} {m : Mode} {cs : List Nat} {rs : List (Res Unit)} {b b' : Bytes}
    (h : AllowedSeq cd m (cs.map .char) rs b b') (hok : ∀ r ∈ rs, r = .ok ()) :
    ∃ e, encodeText cd m cs = some e ∧ b' = b ++ e := by
  induction cs generalizing rs b with
  | nil => cases h; exact ⟨[], rfl, by simp⟩
  | cons c cs ih =>
    cases h with
    | cons al rest =>
      rename_i r rs b1
      obtain ⟨e2, he2, hb2⟩ := ih rest fun r hr => hok r (List.mem_cons_of_mem _ hr)
      have hr := hok r List.mem_cons_self
      subst hr
      rcases al with ⟨e, he, _, ha⟩ | ⟨hr', _⟩ | ⟨_, hr', _⟩
      · subst ha
        refine ⟨e ++ e2, ?_, by rw [hb2, List.append_assoc]⟩
        change encodeChar cd m c = some e at he
        rw [encodeText, he, he2]
      · cases hr'
      · rcases hr' with hr' | hr' <;> cases hr'

/-- **C27** (partial: as above.)  Converting a multibyte buffer to which the characters `cs` were
appended gives a buffer of the new mode that holds exactly the encodings of `cs` in that mode,
terminated by a zero; it fails only for lack of memory. -/
theorem C27_convert_partial (cd : Codec) (hcd : RoundTrip cd) (h0 h1 h2 : Mall) (sb0 sb : SB)
    (hinit : init .multibyte h0 = (.ok (), sb0, h1)) (cs : List Nat) (rs : List (Res Unit))
    (happ : appendAll cd sb0 h1 (cs.map .char) = some (rs, sb, h2)) (hok : ∀ r ∈ rs, r = .ok ())
    (m : Mode) (hb : m = .u16 → ∀ c ∈ cs, c < 0x10000) (h : Mall) :
    (∃ sb' h' e, convert cd sb h m = some (.ok (), sb', h') ∧ sb'.mode = m ∧
      encodeText cd m cs = some e ∧
      (value sb').2 * m.unit = e.length + m.unit ∧
      (value sb').1.take ((value sb').2 * m.unit) = e ++ List.replicate m.unit 0) ∨
    (∃ sb' h', convert cd sb h m = some (.error .memallocFailure, sb', h')) := by
  obtain ⟨hh, hm⟩ := holds_init _ h0 sb0 h1 hinit
  obtain ⟨rs', sb', h', content, e, hm2, hh2, al⟩ := appendAll_spec hcd (cs.map .char) hh h1 (by
    intro it hit
    obtain ⟨c, _, rfl⟩ := List.mem_map.1 hit
    intro hu; rw [hm] at hu; cases hu)
  rw [happ] at e
  cases e
  rw [hm] at al hm2
  obtain ⟨bs, hbs, ebs⟩ := allowedSeq_chars al hok
  rw [List.nil_append] at ebs
  subst ebs
  obtain ⟨em, hem⟩ := encodeText_wider hbs m
  rcases convert_spec hcd hh2 hm2 hbs h m hb hem with ⟨sb2, h2, e2, hm2, hh3⟩ | hfail
  · left
    have := holds_value hh3
    rw [hm2] at this
    exact ⟨sb2, h2, em, e2, hm2, hem, this⟩
  · exact Or.inr hfail

theorem holds_initValue (m : Mode) (content : Bytes) (hd : m.unit ∣ content.length) :
    Holds (initValue m (content ++ List.replicate m.unit 0) (content.length / m.unit + 1)) content := by
  have hp := unit_pos m
  have e : (content.length / m.unit + 1) * m.unit = content.length + m.unit := by
    rw [Nat.add_mul, Nat.div_mul_cancel hd, Nat.one_mul]
  refine ⟨?_, ⟨m.unit, Nat.le_refl _, rfl⟩, ?_, hd, ?_⟩
  · simp only [initValue, Nat.add_sub_cancel]; exact Nat.div_mul_cancel hd
  · simp only [initValue, e]; simp
  · simp only [initValue, e]; exact Nat.dvd_add hd (Nat.dvd_refl _)

theorem encodeText_dvd {cd : Codec} {m : Mode} {cs : List Nat} {e : Bytes}
    (he : encodeText cd m cs = some e) : m.unit ∣ e.length := by
  induction cs generalizing e with
  | nil => cases he; simp
  | cons c cs ih =>
    rw [encodeText] at he
    split at he
    · rename_i e1 e2 h1 h2
      cases he
      rw [List.length_append]
      exact Nat.dvd_add (encodeChar_dvd h1) (ih h2)
    · cases he

theorem encodeText_append {cd : Codec} {m : Mode} {cs ds : List Nat} {e f : Bytes}
    (he : encodeText cd m cs = some e) (hf : encodeText cd m ds = some f) :
    encodeText cd m (cs ++ ds) = some (e ++ f) := by
  induction cs generalizing e with
  | nil => cases he; exact hf
  | cons c cs ih =>
    rw [encodeText] at he
    split at he
    · rename_i e1 e2 h1 h2
      cases he
      rw [List.cons_append, encodeText, h1, ih h2]
      simp
    · cases he

/-- **C27** (partial: unicode16 sources, and characters from U+10000 on in unicode16 destinations, are
excluded.)  Merging a string literal with text `ds` into one with text `cs` (this is how adjacent
string literals are joined) gives a buffer that holds the encoding of the joined text in the mode of
the destination; if that text can be represented, it fails only for lack of memory. -/
theorem C27_merge_partial (cd : Codec) (hcd : RoundTrip cd) (m m2 : Mode) (hm2 : m2 ≠ .u16)
    (cs ds : List Nat) (e f g : Bytes) (he : encodeText cd m cs = some e)
    (hf : encodeText cd m2 ds = some f) (hg : encodeText cd m ds = some g)
    (hds : ∀ c ∈ ds, c < 2 ^ 32) (hb : m = .u16 → ∀ c ∈ ds, c < 0x10000) (h : Mall) :
    let dst := initValue m (e ++ List.replicate m.unit 0) (e.length / m.unit + 1)
    let src := initValue m2 (f ++ List.replicate m2.unit 0) (f.length / m2.unit + 1)
    encodeText cd m (cs ++ ds) = some (e ++ g) ∧
    ((∃ sb' h', merge cd dst h src = some (.ok (), sb', h') ∧ sb'.mode = m ∧
      (value sb').2 * m.unit = (e ++ g).length + m.unit ∧
      (value sb').1.take ((value sb').2 * m.unit) = e ++ g ++ List.replicate m.unit 0) ∨
    (∃ sb' h', merge cd dst h src = some (.error .memallocFailure, sb', h'))) := by
  intro dst src
  refine ⟨encodeText_append he hg, ?_⟩
  have hd : Holds dst e := holds_initValue m e (encodeText_dvd he)
  have hs : Holds src f := holds_initValue m2 f (encodeText_dvd hf)
  rw [merge_eq hcd hs hm2 hf hds h]
  rcases insertList_spec hcd ds hd h hb hg with ⟨sb2, h2, e2, hmm, hh3⟩ | hfail
  · left
    have := holds_value hh3
    rw [hmm] at this
    exact ⟨sb2, h2, e2, hmm, this⟩
  · exact Or.inr hfail

/-- Only multibyte buffers can be converted. -/
theorem C27_convert_rejected (cd : Codec) (sb : SB) (h : Mall) (m : Mode) (hm : sb.mode ≠ .multibyte) :
    convert cd sb h m = some (.error .invalidParameter, sb, h) := by
  unfold convert
  rw [if_neg hm]

/-! ## Non-vacuity and refutation -/

theorem asciiRoundTrip : RoundTrip Json.asciiCodec where
  nul_enc := rfl
  nul_dec := fun _ => rfl
  enc_dec := by
    intro c bs h0 h r
    simp only [Json.asciiCodec] at h
    split at h
    · rename_i hc
      cases h
      have hc' : c < 128 := hc
      have e : (UInt8.ofNat c).toNat = c := by
        rw [UInt8.toNat_ofNat']
        exact Nat.mod_eq_of_lt (Nat.lt_trans hc' (by decide))
      simp only [Json.asciiCodec, List.singleton_append]
      rw [if_neg (fun h => h0 (by rw [← e, h]; rfl)), if_pos (UInt8.lt_iff_toNat_lt.2 (by rw [e]; exact hc')), e]
      rfl
    · cases h

example : init .u16 [] = (.ok (), ⟨.u16, List.replicate 32 0, 0, 32⟩, []) ∧
    ∀ it ∈ [Item.char 0x61, .raw 0x1234], it.Bmp .u16 := by
  refine ⟨rfl, ?_⟩
  intro it hit
  rcases List.mem_cons.1 hit with rfl | hit
  · intro _; decide
  · cases List.mem_singleton.1 hit; trivial

example : encodeText Json.asciiCodec .wide [0x61, 0x62] = some [0x61, 0, 0, 0, 0x62, 0, 0, 0] ∧
    encodeText Json.asciiCodec .multibyte [0x61, 0x62] = some [0x61, 0x62] := by decide

/-- A locale in which U+10000 is encoded as its UTF-8 form; the other characters are not
representable. -/
def tinyCodec : Codec where
  dec
    | 0xF0 :: 0x90 :: 0x80 :: 0x80 :: _ => .chr 0x10000 4
    | 0 :: _ => .nul
    | _ => .bad
  enc c := if c = 0x10000 then some [0xF0, 0x90, 0x80, 0x80] else if c = 0 then some [0] else none
  dec_nil := rfl
  dec_chr := by
    intro bs c n h
    split at h
    · cases h; simp
    · cases h
    · cases h

/-- A character from U+10000 on needs two UTF-16 code units, but only the first is stored: the
property is false for unicode16 buffers. -/
theorem C27_surrogate_false : ∃ sb h, insert tinyCodec ⟨.u16, List.replicate 32 0, 0, 32⟩ [] 0x10000 =
      some (.ok (), sb, h) ∧ (value sb).2 = 2 ∧ (value sb).1.take 4 = [0x00, 0xD8, 0, 0] ∧
      encodeText tinyCodec .u16 [0x10000] = some [0x00, 0xD8, 0x00, 0xDC] := by
  refine ⟨⟨.u16, [0x00, 0xD8] ++ List.replicate 30 0, 2, 32⟩, [], ?_, by decide, by decide, by decide⟩
  show u16Loop tinyCodec _ _ [0xF0, 0x90, 0x80, 0x80] none = _
  rw [u16Loop]
  split
  · rename_i e; cases e
  · rename_i e; cases e
  · rename_i c n e
    cases e
    show andThen (some (.ok (), (⟨.u16, [0x00, 0xD8] ++ List.replicate 30 0, 2, 32⟩ : SB), [])) _ = _
    simp only [andThen]
    rw [u16Loop.eq_def]
    rfl

end Kefir.StringBuffer
