import Verif.StringBuffer.Lemmas

/-! Helper lemmas about conversion and merging of string buffers. -/

namespace Kefir.StringBuffer

open Kefir.Lexer (Codec Dec)

/-- Insert characters until one fails. -/
def insertList (cd : Codec) : SB → Mall → List Nat → Out
  | sb, h, [] => some (.ok (), sb, h)
  | sb, h, c :: cs => andThen (insert cd sb h c) fun sb h => insertList cd sb h cs

/-- Result of an operation that appends `frag` or fails for lack of memory, possibly half-way. -/
def AppendsOrFails (r : Out) (sb : SB) (content frag : Bytes) : Prop :=
  (∃ sb' h', r = some (.ok (), sb', h') ∧ sb'.mode = sb.mode ∧ Holds sb' (content ++ frag)) ∨
  (∃ sb' h', r = some (.error .memallocFailure, sb', h'))

theorem insertList_spec {cd : Codec} (hcd : RoundTrip cd) (cs : List Nat) {sb : SB} {content : Bytes}
    (hs : Holds sb content) (h : Mall) (hb : sb.mode = .u16 → ∀ c ∈ cs, c < 0x10000) {e : Bytes}
    (he : encodeText cd sb.mode cs = some e) :
    AppendsOrFails (insertList cd sb h cs) sb content e := by
  induction cs generalizing sb content h e with
  | nil =>
    cases he
    exact Or.inl ⟨sb, h, rfl, rfl, by rwa [List.append_nil]⟩
  | cons c cs ih =>
    rw [encodeText] at he
    split at he
    · rename_i e1 e2 h1 h2
      cases he
      rw [insertList, insert_eq hcd sb h c (fun hm => hb hm c List.mem_cons_self), h1]
      simp only
      rcases insertBuffer_spec hs h e1 (encodeChar_dvd h1) with ⟨sb', h', er, hm, hh⟩ | ⟨h', er⟩
      · rw [er]
        simp only [andThen]
        rcases ih hh h' (fun h c hc => hb (hm ▸ h) c (List.mem_cons_of_mem _ hc)) (hm ▸ h2) with
          ⟨sb2, h2, e2', hm2, hh2⟩ | ⟨sb2, h2, e2'⟩
        · exact Or.inl ⟨sb2, h2, e2', hm2.trans hm, by rwa [List.append_assoc] at hh2⟩
        · exact Or.inr ⟨sb2, h2, e2'⟩
      · rw [er]
        exact Or.inr ⟨sb, h', rfl⟩
    · cases he

/-- Decoding a multibyte text inserts its characters. -/
theorem insertMultibyte_eq {cd : Codec} (hcd : RoundTrip cd) (cs : List Nat) (sb : SB) (h : Mall)
    {bs : Bytes} (he : encodeText cd .multibyte cs = some bs) :
    insertMultibyte cd sb h bs = insertList cd sb h cs := by
  induction cs generalizing sb h bs with
  | nil => cases he; rw [insertMultibyte]; rfl
  | cons c cs ih =>
    rw [encodeText] at he
    split at he
    · rename_i e1 e2 h1 h2
      cases he
      change cd.enc c = some e1 at h1
      by_cases h0 : c = 0
      · subst h0
        rw [hcd.nul_enc] at h1
        cases h1
        rw [List.singleton_append, insertMultibyte, insertList]
        split
        · rename_i e; rw [hcd.nul_dec] at e; cases e
        · exact andThen_congr fun sb h => ih sb h h2
        · rename_i e; rw [hcd.nul_dec] at e; cases e
      · have hne := enc_ne_nil hcd h1
        have hd := hcd.enc_dec h0 h1 e2
        cases e1 with
        | nil => exact absurd rfl hne
        | cons x r =>
          rw [List.cons_append] at hd ⊢
          rw [insertMultibyte, insertList]
          split
          · rename_i e; rw [hd] at e; cases e
          · rename_i e; rw [hd] at e; cases e
          · rename_i c' n' e
            rw [hd] at e
            cases e
            rw [← List.cons_append, List.drop_left']
            · exact andThen_congr fun sb h => ih sb h h2
            · rfl
    · cases he

theorem holds_take {sb : SB} {content : Bytes} (hs : Holds sb content) :
    sb.block.take sb.length = content := by
  obtain ⟨hlen, ⟨k, hk, hb⟩, -⟩ := hs
  rw [hlen, hb, List.take_left']
  rfl

theorem encodeText_u8 (cd : Codec) (cs : List Nat) :
    encodeText cd .u8 cs = encodeText cd .multibyte cs := by
  induction cs with
  | nil => rfl
  | cons c cs ih => rw [encodeText, encodeText, ih]; rfl

/-- A text that the locale can represent can be represented in the wider modes. -/
theorem encodeText_wider {cd : Codec} {cs : List Nat} {bs : Bytes}
    (h : encodeText cd .multibyte cs = some bs) (m : Mode) : ∃ e, encodeText cd m cs = some e := by
  induction cs generalizing bs with
  | nil => exact ⟨[], rfl⟩
  | cons c cs ih =>
    rw [encodeText] at h
    split at h
    · rename_i e1 e2 h1 h2
      obtain ⟨e, he⟩ := ih h2
      change cd.enc c = some e1 at h1
      have : ∃ x, encodeChar cd m c = some x := by
        cases m <;> simp [encodeChar, h1]
      obtain ⟨x, hx⟩ := this
      exact ⟨x ++ e, by rw [encodeText, hx, he]⟩
    · cases h

theorem convert_spec {cd : Codec} (hcd : RoundTrip cd) {sb : SB} {cs : List Nat} {bs : Bytes}
    (hs : Holds sb bs) (hm : sb.mode = .multibyte) (he : encodeText cd .multibyte cs = some bs)
    (h : Mall) (m : Mode) (hb : m = .u16 → ∀ c ∈ cs, c < 0x10000) {e : Bytes}
    (hem : encodeText cd m cs = some e) :
    (∃ sb' h', convert cd sb h m = some (.ok (), sb', h') ∧ sb'.mode = m ∧ Holds sb' e) ∨
    (∃ sb' h', convert cd sb h m = some (.error .memallocFailure, sb', h')) := by
  unfold convert
  rw [if_pos hm]
  have main : ∀ m, (m = .u16 → ∀ c ∈ cs, c < 0x10000) → ∀ e, encodeText cd m cs = some e →
      let r := (if sb.length ≤ sb.block.length then
        andThen (some (init m h)) fun nb h => insertMultibyte cd nb h (sb.block.take sb.length)
        else none)
      (∃ sb' h', r = some (.ok (), sb', h') ∧ sb'.mode = m ∧ Holds sb' e) ∨
      (∃ sb' h', r = some (.error .memallocFailure, sb', h')) := by
    intro m hb e hem
    have hle : sb.length ≤ sb.block.length := by
      obtain ⟨hlen, ⟨k, hk, hb⟩, -⟩ := hs
      rw [hlen, hb]; simp
    simp only [if_pos hle, holds_take hs]
    cases hi : init m h with
    | mk r p =>
      obtain ⟨nb, h'⟩ := p
      cases r with
      | error err =>
        have : err = .memallocFailure := by
          unfold init at hi
          split at hi <;> cases hi
          rfl
        subst this
        exact Or.inr ⟨nb, h', rfl⟩
      | ok =>
        obtain ⟨hh, hmm⟩ := holds_init m h nb h' hi
        subst hmm
        simp only [andThen]
        rw [insertMultibyte_eq hcd cs nb h' he]
        rcases insertList_spec hcd cs hh h' hb hem with ⟨sb2, h2, e2, hm2, hh2⟩ | ⟨sb2, h2, e2⟩
        · exact Or.inl ⟨sb2, h2, e2, hm2, hh2⟩
        · exact Or.inr ⟨sb2, h2, e2⟩
  cases m with
  | multibyte =>
    rw [he] at hem; cases hem
    exact Or.inl ⟨sb, h, rfl, hm, hs⟩
  | u8 =>
    rw [encodeText_u8, he] at hem; cases hem
    refine Or.inl ⟨_, h, rfl, rfl, ?_⟩
    obtain ⟨a, b, c, d, f⟩ := hs
    rw [hm] at b d f
    exact ⟨a, b, c, d, f⟩
  | u16 => exact main .u16 hb e hem
  | u32 => exact main .u32 hb e hem
  | wide => exact main .wide hb e hem

theorem le4_value (c : Nat) (hc : c < 2 ^ 32) :
    (leBytes 4 c).foldr (fun b a => b.toNat + 256 * a) 0 = c := by
  have hb : ∀ n : Nat, (UInt8.ofNat ((n : Int) % 256).toNat).toNat = n % 256 := by
    intro n
    rw [UInt8.toNat_ofNat']
    omega
  have hq : ∀ n : Nat, ((n : Int) / 256) = ((n / 256 : Nat) : Int) := by intro n; omega
  simp only [leBytes, hq, hb, List.foldr_cons, List.foldr_nil]
  omega

/-- The code units of an encoded text with four bytes per character. -/
theorem unitAt_encode {cd : Codec} {m : Mode} (hm : m = .u32 ∨ m = .wide) (pre : List Nat) (c : Nat)
    (post : List Nat) {e : Bytes} (he : encodeText cd m (pre ++ c :: post) = some e)
    (hc : c < 2 ^ 32) (tail : Bytes) : unitAt (e ++ tail) 4 pre.length = c := by
  have hchar : ∀ {x y}, encodeChar cd m x = some y → y = leBytes 4 x := by
    intro x y h
    rcases hm with rfl | rfl
    · simp only [encodeChar] at h; cases h; rfl
    · simp only [encodeChar] at h
      obtain ⟨_, _, rfl⟩ := Option.map_eq_some_iff.1 h; rfl
  induction pre generalizing e with
  | nil =>
    rw [List.nil_append, encodeText] at he
    split at he
    · rename_i e1 e2 h1 h2
      cases he
      rw [hchar h1]
      have hl : (leBytes 4 c).length = 4 := leBytes_length 4 c
      have : unitAt (leBytes 4 c ++ e2 ++ tail) 4 0 =
          (leBytes 4 c).foldr (fun b a => b.toNat + 256 * a) 0 := by
        unfold unitAt
        rw [Nat.mul_zero, List.drop_zero, List.append_assoc, List.take_left' hl]
      exact this.trans (le4_value c hc)
    · cases he
  | cons p pre ih =>
    rw [List.cons_append, encodeText] at he
    split at he
    · rename_i e1 e2 h1 h2
      cases he
      have := ih h2
      rw [← this, hchar h1]
      have hl : (leBytes 4 p).length = 4 := leBytes_length 4 p
      unfold unitAt
      rw [List.append_assoc, List.length_cons, Nat.mul_add, Nat.mul_one, Nat.add_comm,
        ← List.drop_drop, List.drop_left' hl]
    · cases he

theorem encodeText_length4 {cd : Codec} {m : Mode} (hm : m = .u32 ∨ m = .wide) {cs : List Nat}
    {e : Bytes} (he : encodeText cd m cs = some e) : e.length = 4 * cs.length := by
  induction cs generalizing e with
  | nil => cases he; rfl
  | cons c cs ih =>
    rw [encodeText] at he
    split at he
    · rename_i e1 e2 h1 h2
      cases he
      have hl : e1.length = 4 := by
        rcases hm with rfl | rfl
        · simp only [encodeChar] at h1; cases h1; exact leBytes_length 4 c
        · simp only [encodeChar] at h1
          obtain ⟨_, _, rfl⟩ := Option.map_eq_some_iff.1 h1; exact leBytes_length 4 c
      rw [List.length_append, hl, ih h2, List.length_cons]; omega
    · cases he

theorem merge32Loop_eq {cd : Codec} (pre cs : List Nat) {e : Bytes}
    (he : encodeText cd .u32 (pre ++ cs) = some e) (hc : ∀ c ∈ cs, c < 2 ^ 32) (tail : Bytes)
    (sb : SB) (h : Mall) :
    merge32Loop cd sb h (e ++ tail) pre.length cs.length = insertList cd sb h cs := by
  induction cs generalizing pre sb h with
  | nil => rfl
  | cons c cs ih =>
    rw [List.length_cons, merge32Loop, insertList,
      unitAt_encode (Or.inl rfl) pre c cs he (hc c List.mem_cons_self) tail]
    apply andThen_congr
    intro sb h
    have := ih (pre ++ [c]) (by simpa using he) (fun x hx => hc x (List.mem_cons_of_mem _ hx)) sb h
    simpa using this

theorem andThen_assoc (r : Out) (f g : SB → Mall → Out) :
    andThen (andThen r f) g = andThen r fun sb h => andThen (f sb h) g := by
  match r with
  | none => rfl
  | some (.error _, _, _) => rfl
  | some (.ok (), _, _) => rfl

theorem mergeWideLoop_eq {cd : Codec} (hcd : RoundTrip cd) (pre cs : List Nat) {e : Bytes}
    (he : encodeText cd .wide (pre ++ cs) = some e) (hc : ∀ c ∈ cs, c < 2 ^ 32) (tail : Bytes)
    (sb : SB) (h : Mall) :
    mergeWideLoop cd sb h (e ++ tail) pre.length cs.length = insertList cd sb h cs := by
  induction cs generalizing pre sb h with
  | nil => rfl
  | cons c cs ih =>
    have henc : ∃ bs, cd.enc c = some bs := by
      clear ih hc
      induction pre generalizing e with
      | nil =>
        rw [List.nil_append, encodeText] at he
        split at he
        · rename_i h1 h2
          simp only [encodeChar] at h1
          obtain ⟨bs, hb, _⟩ := Option.map_eq_some_iff.1 h1
          exact ⟨bs, hb⟩
        · cases he
      | cons p pre ih =>
        rw [List.cons_append, encodeText] at he
        split at he
        · rename_i h1 h2; exact ih h2
        · cases he
    obtain ⟨bs, hbs⟩ := henc
    rw [List.length_cons, mergeWideLoop, insertList,
      unitAt_encode (Or.inr rfl) pre c cs he (hc c List.mem_cons_self) tail, hbs]
    simp only
    have h1 : insertMultibyte cd sb h bs = insert cd sb h c := by
      rw [insertMultibyte_eq hcd [c] sb h (by simp [encodeText, encodeChar, hbs])]
      exact andThen_ok _
    rw [h1]
    apply andThen_congr
    intro sb h
    have := ih (pre ++ [c]) (by simpa using he) (fun x hx => hc x (List.mem_cons_of_mem _ hx)) sb h
    simpa using this

theorem merge_eq {cd : Codec} (hcd : RoundTrip cd) {dst src : SB} {cs : List Nat} {bs : Bytes}
    (hs : Holds src bs) (hm : src.mode ≠ .u16) (he : encodeText cd src.mode cs = some bs)
    (hc : ∀ c ∈ cs, c < 2 ^ 32) (h : Mall) : merge cd dst h src = insertList cd dst h cs := by
  have ht := holds_take hs
  obtain ⟨hlen, ⟨k, hk, hb⟩, -⟩ := hs
  unfold merge
  cases hmode : src.mode with
  | multibyte =>
    rw [hmode] at he
    simp only
    rw [ht, insertMultibyte_eq hcd cs dst h he]
  | u8 =>
    rw [hmode, encodeText_u8] at he
    simp only
    rw [ht, insertMultibyte_eq hcd cs dst h he]
  | u16 => exact absurd hmode hm
  | u32 =>
    rw [hmode] at he
    simp only
    have h4 := encodeText_length4 (Or.inl rfl) he
    have : src.length / 4 = cs.length := by rw [hlen, h4]; omega
    rw [this, hb]
    exact merge32Loop_eq [] cs he hc _ dst h
  | wide =>
    rw [hmode] at he
    simp only
    have h4 := encodeText_length4 (Or.inr rfl) he
    have : src.length / 4 = cs.length := by rw [hlen, h4]; omega
    rw [this, hb]
    exact mergeWideLoop_eq hcd [] cs he hc _ dst h

end Kefir.StringBuffer
