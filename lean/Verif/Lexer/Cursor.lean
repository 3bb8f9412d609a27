import Verif.Base
import Verif.Lexer.Spec
/-!
# Source cursor (`source/lexer/source_cursor.c`)

The model of the cursor works on the bytes of the source and an abstract multibyte decoder.
`Cursor` is the view of it that the token matchers use: the decoded characters that remain.  The
theorems `byteAt_eq` and `byteNext_eq` show that the byte level functions compute exactly what the
character level functions compute, so the matchers are modelled on the character level.
-/

namespace Kefir.Lexer

/-- What `mbrtoc32` reports: 0 (the null character), (size_t) -1, -2 or -3 (no character), or a
character and the number of bytes it takes. -/
inductive Dec where
  | nul
  | bad
  | chr (c : Chr) (n : Nat)

/-- The multibyte encoding of the locale, as `mbrtoc32` and `c32rtomb` show it to the lexer.
Simplification: the encoding has no shift states, so `mbstate_t` is always the initial state between
characters (true of UTF-8 and of the "C" locale).  `dec []` is `bad` because `mbrtoc32` with n = 0
returns (size_t) -2. -/
structure Codec where
  dec : List UInt8 → Dec
  enc : Chr → Option (List UInt8)
  dec_nil : dec [] = .bad
  dec_chr : ∀ {bs c n}, dec bs = .chr c n → c ≠ 0 ∧ 1 ≤ n ∧ n ≤ bs.length

/-- How the decodable part of a source ends: with a null character, or with bytes that cannot be
decoded (in particular with the end of the buffer). -/
inductive Stop where
  | nul
  | bad
  deriving DecidableEq, Repr

/-! ## Byte level -/

/-- source/lexer/source_cursor.c:52-77, the `default` case of `at_impl`: if the character is a
backslash followed by a newline, both are passed over and the count is incremented.  Returns the
remaining bytes and the count. -/
def spliceAt (cd : Codec) (c : Chr) (bs1 : List UInt8) (count : Nat) : List UInt8 × Nat :=
  if c = ch '\\' ∧ bs1 ≠ [] then
    match cd.dec bs1 with
    | .chr c2 n2 => if c2 = ch '\n' then (bs1.drop n2, count + 1) else (bs1, count)
    | _ => (bs1, count)
  else (bs1, count)

theorem spliceAt_length (cd : Codec) (c bs count) :
    (spliceAt cd c bs count).1.length ≤ bs.length := by
  unfold spliceAt
  split
  · split
    · split <;> simp
    · simp
  · simp

/-- source/lexer/source_cursor.c:39-80 `at_impl`: look `count` characters ahead.  `bs` is
`content + index`; the loop is `do … while (count--)`. -/
def byteAt (cd : Codec) (bs : List UInt8) (count : Nat) : Chr :=
  match h : cd.dec bs with
  | .chr c n =>
    let r := spliceAt cd c (bs.drop n) count
    if r.2 = 0 then c else byteAt cd r.1 (r.2 - 1)
  | _ => 0
termination_by bs.length
decreasing_by
  have h1 := cd.dec_chr h
  have h2 := spliceAt_length cd c (bs.drop n) count
  simp only [List.length_drop] at h2
  omega

/-- State of the cursor: remaining bytes (`content + index`), line and column.
Simplification: line and column are unbounded. -/
structure ByteCursor where
  bytes : List UInt8
  line : Nat
  col : Nat

/-- source/lexer/source_cursor.c:100-136, the `default` case of `next_impl`: update of the
location, and skipping of a line splice.  Returns the new cursor and the count. -/
def spliceNext (cd : Codec) (c : Chr) (bs1 : List UInt8) (line col count : Nat) :
    ByteCursor × Nat :=
  if c = ch '\n' then (⟨bs1, line + 1, 1⟩, count)
  else if c = ch '\\' ∧ bs1 ≠ [] then
    match cd.dec bs1 with
    | .chr c2 n2 =>
      if c2 = ch '\n' then (⟨bs1.drop n2, line + 1, 1⟩, count + 1)
      else (⟨bs1, line, col + 1⟩, count)
    | _ => (⟨bs1, line, col + 1⟩, count)
  else (⟨bs1, line, col + 1⟩, count)

theorem spliceNext_length (cd : Codec) (c bs l k count) :
    (spliceNext cd c bs l k count).1.bytes.length ≤ bs.length := by
  unfold spliceNext
  split
  · simp
  · split
    · split
      · split <;> simp
      · simp
    · simp

/-- source/lexer/source_cursor.c:87-140 `next_impl`: advance over `count` characters. -/
def byteNext (cd : Codec) (s : ByteCursor) (count : Nat) : Res Unit × ByteCursor :=
  if count = 0 then (.ok (), s)
  else
    match h : cd.dec s.bytes with
    | .bad => (.error .invalidState, s)
    | .nul => (.ok (), s)
    | .chr c n =>
      let r := spliceNext cd c (s.bytes.drop n) s.line s.col (count - 1)
      byteNext cd r.1 r.2
termination_by s.bytes.length
decreasing_by
  have h1 := cd.dec_chr h
  have h2 := spliceNext_length cd c (s.bytes.drop n) s.line s.col (count - 1)
  simp only [List.length_drop] at h2
  omega

/-! ## Character level -/

/-- The decoded text: the characters up to the first null character or undecodable position, and
which of the two it is. -/
def decodeAll (cd : Codec) (bs : List UInt8) : List Chr × Stop :=
  match h : cd.dec bs with
  | .chr c n =>
    let r := decodeAll cd (bs.drop n)
    (c :: r.1, r.2)
  | .nul => ([], .nul)
  | .bad => ([], .bad)
termination_by bs.length
decreasing_by
  have h1 := cd.dec_chr h
  simp only [List.length_drop]
  omega

/-- The cursor as the matchers see it: the remaining (physical) characters, how they end, and the
location. -/
structure Cursor where
  rest : List Chr
  stop : Stop
  line : Nat
  col : Nat
  deriving DecidableEq, Repr

/-- The remaining logical text. -/
def Cursor.text (c : Cursor) : List Chr := splice c.rest

/-- `kefir_lexer_source_cursor_at` on the character level. -/
def Cursor.at (c : Cursor) (k : Nat) : Chr := c.text.getD k 0

/-- Advancing over `k` logical characters of a physical text, with the location. -/
def advList : List Chr → Nat → Nat → Nat → List Chr × Nat × Nat
  | r, 0, l, k => (r, l, k)
  | [], _ + 1, l, k => ([], l, k)
  | [c], _ + 1, l, k => if c = ch '\n' then ([], l + 1, 1) else ([], l, k + 1)
  | c :: d :: r, n + 1, l, k =>
    if c = ch '\n' then advList (d :: r) n (l + 1) 1
    else if c = ch '\\' ∧ d = ch '\n' then advList r (n + 1) (l + 1) 1
    else advList (d :: r) n l (k + 1)

/-- The cursor after `k` more logical characters. -/
def Cursor.adv (c : Cursor) (k : Nat) : Cursor :=
  let r := advList c.rest k c.line c.col
  ⟨r.1, c.stop, r.2.1, r.2.2⟩

/-- The character level view of a byte cursor. -/
def view (cd : Codec) (s : ByteCursor) : Cursor :=
  ⟨(decodeAll cd s.bytes).1, (decodeAll cd s.bytes).2, s.line, s.col⟩

theorem decodeAll_chr {cd : Codec} {bs c n} (h : cd.dec bs = .chr c n) :
    decodeAll cd bs = (c :: (decodeAll cd (bs.drop n)).1, (decodeAll cd (bs.drop n)).2) := by
  rw [decodeAll]
  split
  · rename_i c' n' h'
    rw [h] at h'
    cases h'
    rfl
  · rename_i h'; rw [h] at h'; cases h'
  · rename_i h'; rw [h] at h'; cases h'

theorem decodeAll_nul {cd : Codec} {bs} (h : cd.dec bs = .nul) : decodeAll cd bs = ([], .nul) := by
  rw [decodeAll]
  split
  · rename_i c' n' h'; rw [h] at h'; cases h'
  · rfl
  · rename_i h'; rw [h] at h'; cases h'

theorem decodeAll_bad {cd : Codec} {bs} (h : cd.dec bs = .bad) : decodeAll cd bs = ([], .bad) := by
  rw [decodeAll]
  split
  · rename_i c' n' h'; rw [h] at h'; cases h'
  · rename_i h'; rw [h] at h'; cases h'
  · rfl

theorem decodeAll_ne_zero (cd : Codec) (bs) : ∀ c ∈ (decodeAll cd bs).1, c ≠ 0 := by
  induction bs using decodeAll.induct cd with
  | case1 bs c n h ih =>
    rw [decodeAll_chr h]
    intro x hx
    rcases List.mem_cons.1 hx with rfl | hx
    · exact (cd.dec_chr h).1
    · exact ih x hx
  | case2 bs h => rw [decodeAll_nul h]; simp
  | case3 bs h => rw [decodeAll_bad h]; simp

/-- What the peek at the second character sees. -/
theorem decodeAll_head (cd : Codec) (bs : List UInt8) :
    (∃ c n, cd.dec bs = .chr c n ∧ (decodeAll cd bs).1 = c :: (decodeAll cd (bs.drop n)).1 ∧
      (decodeAll cd bs).2 = (decodeAll cd (bs.drop n)).2 ∧ bs ≠ []) ∨
    ((∀ c n, cd.dec bs ≠ .chr c n) ∧ (decodeAll cd bs).1 = []) := by
  cases h : cd.dec bs with
  | nul => right; rw [decodeAll_nul h]; simp
  | bad => right; rw [decodeAll_bad h]; simp
  | chr c n =>
    left
    refine ⟨c, n, rfl, by rw [decodeAll_chr h], by rw [decodeAll_chr h], ?_⟩
    have := cd.dec_chr h
    intro h0
    rw [h0] at this
    simp at this
    omega

theorem splice_cons (c : Chr) (r : List Chr) (h : ∀ r', ¬ (c = ch '\\' ∧ r = ch '\n' :: r')) :
    splice (c :: r) = c :: splice r := by
  cases r with
  | nil => rfl
  | cons d r =>
    rw [splice, if_neg]
    intro hc
    exact h r ⟨hc.1, by rw [hc.2]⟩

theorem byteAt_eq (cd : Codec) (bs : List UInt8) (k : Nat) :
    byteAt cd bs k = (splice (decodeAll cd bs).1).getD k 0 := by
  induction bs, k using byteAt.induct cd with
  | case1 bs count c n h r hr =>
    rw [byteAt]
    split
    · rename_i c' n' h'
      rw [h] at h'; cases h'
      rw [decodeAll_chr h]
      simp only [show (spliceAt cd c (List.drop n bs) count).2 = 0 from hr, if_true]
      have h0 : count = 0 ∧ ¬ (c = ch '\\' ∧ ∃ r', (decodeAll cd (bs.drop n)).1 = ch '\n' :: r') := by
        have hr' : (spliceAt cd c (List.drop n bs) count).2 = 0 := hr
        unfold spliceAt at hr'
        rcases decodeAll_head cd (bs.drop n) with ⟨c2, n2, e1, e2, -, e3⟩ | ⟨e1, e2⟩
        · rw [e1] at hr'
          simp only at hr'
          split at hr'
          · split at hr'
            · simp at hr'
            · refine ⟨hr', ?_⟩
              rintro ⟨-, r', e⟩
              rw [e2] at e
              simp_all
          · rename_i hn
            refine ⟨hr', ?_⟩
            rintro ⟨hc, -⟩
            exact hn ⟨hc, e3⟩
        · refine ⟨?_, ?_⟩
          · split at hr'
            · split at hr'
              · rename_i c2 n2 e; exact absurd e (e1 _ _)
              · exact hr'
            · exact hr'
          · rintro ⟨-, r', e⟩
            rw [e2] at e
            simp at e
      obtain ⟨rfl, hn⟩ := h0
      rw [splice_cons]
      · rfl
      · rintro r' ⟨h1, h2⟩
        exact hn ⟨h1, r', h2⟩
    · rename_i h'; exact absurd h (h' c n)
  | case2 bs count c n h r hr ih =>
    rw [byteAt]
    split
    · rename_i c' n' h'
      rw [h] at h'; cases h'
      rw [decodeAll_chr h]
      have hr' : ¬ (spliceAt cd c (List.drop n bs) count).2 = 0 := hr
      simp only [if_neg hr']
      refine ih.trans ?_
      show (splice (decodeAll cd (spliceAt cd c (List.drop n bs) count).1).1).getD
        ((spliceAt cd c (List.drop n bs) count).2 - 1) 0 = _
      revert hr'
      unfold spliceAt
      rcases decodeAll_head cd (bs.drop n) with ⟨c2, n2, e1, e2, -, e3⟩ | ⟨e1, e2⟩
      · rw [e1]
        simp only
        by_cases hs : c = ch '\\' ∧ bs.drop n ≠ []
        · rw [if_pos hs]
          by_cases h2 : c2 = ch '\n'
          · rw [if_pos h2]
            intro _
            rw [e2, splice, if_pos ⟨hs.1, h2⟩]
            simp
          · rw [if_neg h2]
            intro hc
            rw [splice_cons]
            · obtain ⟨m, rfl⟩ : ∃ m, count = m + 1 := ⟨count - 1, by simp at hc; omega⟩
              simp
            · rintro r' ⟨-, e⟩
              rw [e2] at e
              simp_all
        · rw [if_neg hs]
          intro hc
          rw [splice_cons]
          · obtain ⟨m, rfl⟩ : ∃ m, count = m + 1 := ⟨count - 1, by simp at hc; omega⟩
            simp
          · rintro r' ⟨h1, -⟩
            exact hs ⟨h1, e3⟩
      · intro hr'
        have hsp : (if c = ch '\\' ∧ bs.drop n ≠ [] then
            match cd.dec (bs.drop n) with
            | .chr c2 n2 => if c2 = ch '\n' then ((bs.drop n).drop n2, count + 1)
                else (bs.drop n, count)
            | _ => (bs.drop n, count)
          else (bs.drop n, count)) = (bs.drop n, count) := by
          split
          · split
            · rename_i e; exact absurd e (e1 _ _)
            · rfl
          · rfl
        rw [hsp] at hr' ⊢
        obtain ⟨m, rfl⟩ : ∃ m, count = m + 1 := ⟨count - 1, by simp at hr'; omega⟩
        rw [splice_cons]
        · simp
        · rintro r' ⟨-, e⟩
          rw [e2] at e
          simp at e
    · rename_i h'; exact absurd h (h' c n)
  | case3 bs count h =>
    rw [byteAt]
    split
    · rename_i c n e; exact absurd e (h c n)
    · rcases decodeAll_head cd bs with ⟨c2, n2, e1, -⟩ | ⟨-, e2⟩
      · exact absurd e1 (h _ _)
      · rw [e2]; simp [splice]

/-! ### Advancing -/

theorem advList_nil (n l k) : advList [] n l k = ([], l, k) := by
  cases n <;> rfl

theorem advList_newline (r n l k) :
    advList (ch '\n' :: r) (n + 1) l k = advList r n (l + 1) 1 := by
  cases r with
  | nil => simp [advList, advList_nil]
  | cons d r => simp [advList]

theorem advList_splice (r n l k) :
    advList (ch '\\' :: ch '\n' :: r) (n + 1) l k = advList r (n + 1) (l + 1) 1 := by
  rw [advList, if_neg (by decide), if_pos ⟨rfl, rfl⟩]

theorem advList_cons (c : Chr) (r n l k) (hc : c ≠ ch '\n')
    (h : ∀ r', ¬ (c = ch '\\' ∧ r = ch '\n' :: r')) :
    advList (c :: r) (n + 1) l k = advList r n l (k + 1) := by
  cases r with
  | nil => simp [advList, advList_nil, hc]
  | cons d r =>
    rw [advList, if_neg hc, if_neg]
    rintro ⟨h1, h2⟩
    exact h r ⟨h1, by rw [h2]⟩

/-- Case analysis used in all proofs about physical text. -/
theorem splice_cases (r : List Chr) :
    r = [] ∨ (∃ r', r = ch '\\' :: ch '\n' :: r') ∨
    (∃ c r', r = c :: r' ∧ ∀ r'', ¬ (c = ch '\\' ∧ r' = ch '\n' :: r'')) := by
  match r with
  | [] => exact .inl rfl
  | c :: r' =>
    by_cases h : ∃ r'', c = ch '\\' ∧ r' = ch '\n' :: r''
    · obtain ⟨r'', h1, h2⟩ := h
      exact .inr (.inl ⟨r'', by rw [h1, h2]⟩)
    · exact .inr (.inr ⟨c, r', rfl, fun r'' h' => h ⟨r'', h'⟩⟩)

theorem splice_splice (r : List Chr) : splice (ch '\\' :: ch '\n' :: r) = splice r := by
  rw [splice, if_pos ⟨rfl, rfl⟩]

theorem splice_advList (r : List Chr) (n l k) :
    splice (advList r n l k).1 = (splice r).drop n := by
  generalize hm : r.length = m
  induction m using Nat.strongRecOn generalizing r n l k with
  | ind m ih =>
    cases n with
    | zero => simp [advList]
    | succ n =>
      rcases splice_cases r with rfl | ⟨r', rfl⟩ | ⟨c, r', rfl, hn⟩
      · simp [advList_nil, splice]
      · rw [advList_splice, splice_splice]
        exact ih r'.length (by simp at hm; omega) r' _ _ _ rfl
      · rw [splice_cons c r' hn]
        by_cases hc : c = ch '\n'
        · rw [hc, advList_newline, List.drop_succ_cons]
          exact ih r'.length (by simp at hm; omega) r' _ _ _ rfl
        · rw [advList_cons c r' n l k hc hn, List.drop_succ_cons]
          exact ih r'.length (by simp at hm; omega) r' _ _ _ rfl

theorem advList_add (r : List Chr) (n j l k) :
    advList r (n + j) l k =
      advList (advList r n l k).1 j (advList r n l k).2.1 (advList r n l k).2.2 := by
  generalize hm : r.length = m
  induction m using Nat.strongRecOn generalizing r n l k with
  | ind m ih =>
    cases n with
    | zero => simp [advList]
    | succ n =>
      rw [Nat.succ_add]
      rcases splice_cases r with rfl | ⟨r', rfl⟩ | ⟨c, r', rfl, hn⟩
      · simp [advList_nil]
      · rw [advList_splice, advList_splice, Nat.add_right_comm]
        exact ih r'.length (by simp at hm; omega) r' _ _ _ rfl
      · by_cases hc : c = ch '\n'
        · rw [hc, advList_newline, advList_newline]
          exact ih r'.length (by simp at hm; omega) r' _ _ _ rfl
        · rw [advList_cons c r' _ l k hc hn, advList_cons c r' _ l k hc hn]
          exact ih r'.length (by simp at hm; omega) r' _ _ _ rfl

theorem Cursor.adv_zero (c : Cursor) : c.adv 0 = c := by
  cases c; simp [Cursor.adv, advList]

theorem Cursor.adv_adv (c : Cursor) (n j : Nat) : (c.adv n).adv j = c.adv (n + j) := by
  simp [Cursor.adv, advList_add]

theorem Cursor.text_adv (c : Cursor) (n : Nat) : (c.adv n).text = c.text.drop n := by
  simp [Cursor.adv, Cursor.text, splice_advList]

theorem Cursor.at_adv (c : Cursor) (n j : Nat) : (c.adv n).at j = c.at (n + j) := by
  simp [Cursor.at, Cursor.text_adv, List.getD_eq_getElem?_getD, List.getElem?_drop]

theorem Cursor.stop_adv (c : Cursor) (n : Nat) : (c.adv n).stop = c.stop := rfl

/-- The result of advancing over `k` characters when `len` remain. -/
def nextRes (stop : Stop) (len k : Nat) : Res Unit :=
  if stop = .bad ∧ len < k then .error .invalidState else .ok ()

/-- `next_impl` on the character level: the error of the byte level occurs exactly when the decodable
text is exhausted and does not end in a null character. -/
theorem byteNext_eq (cd : Codec) (s : ByteCursor) (k : Nat) :
    view cd (byteNext cd s k).2 = (view cd s).adv k ∧
    (byteNext cd s k).1 = nextRes (view cd s).stop (view cd s).text.length k := by
  generalize hm : s.bytes.length = m
  induction m using Nat.strongRecOn generalizing s k with
  | ind m ih =>
    rw [byteNext]
    by_cases hk : k = 0
    · subst hk
      simp [Cursor.adv_zero, nextRes]
    · rw [if_neg hk]
      obtain ⟨k, rfl⟩ : ∃ j, k = j + 1 := ⟨k - 1, by omega⟩
      split
      · rename_i h
        refine ⟨?_, ?_⟩
        · simp [view, Cursor.adv, decodeAll_bad h, advList_nil]
        · rw [nextRes, if_pos]
          simp [view, decodeAll_bad h, Cursor.text, splice]
      · rename_i h
        refine ⟨?_, ?_⟩
        · simp [view, Cursor.adv, decodeAll_nul h, advList_nil]
        · rw [nextRes, if_neg]
          simp [view, decodeAll_nul h]
      · rename_i c n h
        have hlen := cd.dec_chr h
        have hv : view cd s = ⟨c :: (decodeAll cd (s.bytes.drop n)).1,
            (decodeAll cd (s.bytes.drop n)).2, s.line, s.col⟩ := by
          simp [view, decodeAll_chr h]
        simp only [Nat.add_sub_cancel]
        have hl := spliceNext_length cd c (s.bytes.drop n) s.line s.col k
        have hlt : (spliceNext cd c (s.bytes.drop n) s.line s.col k).1.bytes.length < m := by
          simp only [List.length_drop] at hl
          omega
        obtain ⟨ih1, ih2⟩ := ih _ hlt (spliceNext cd c (s.bytes.drop n) s.line s.col k).1
          (spliceNext cd c (s.bytes.drop n) s.line s.col k).2 rfl
        rw [ih1, ih2, hv]
        clear ih1 ih2 ih hl hlt hv
        unfold spliceNext
        by_cases hc : c = ch '\n'
        · simp only [hc, if_true]
          refine ⟨by simp [Cursor.adv, advList_newline, view], ?_⟩
          simp only [view, Cursor.text]
          rw [splice_cons]
          · simp [nextRes]
          · rintro r ⟨h1, -⟩
            exact absurd h1 (by decide)
        · rw [if_neg hc]
          have key : ∀ (hn : ∀ r'', ¬ (c = ch '\\' ∧
              (decodeAll cd (s.bytes.drop n)).1 = ch '\n' :: r'')),
              (view cd ⟨s.bytes.drop n, s.line, s.col + 1⟩).adv k =
                Cursor.adv ⟨c :: (decodeAll cd (s.bytes.drop n)).1,
                  (decodeAll cd (s.bytes.drop n)).2, s.line, s.col⟩ (k + 1) ∧
              nextRes (view cd ⟨s.bytes.drop n, s.line, s.col + 1⟩).stop
                (view cd ⟨s.bytes.drop n, s.line, s.col + 1⟩).text.length k =
              nextRes (decodeAll cd (s.bytes.drop n)).2
                (Cursor.mk (c :: (decodeAll cd (s.bytes.drop n)).1)
                  (decodeAll cd (s.bytes.drop n)).2 s.line s.col).text.length (k + 1) := by
            intro hn
            refine ⟨?_, ?_⟩
            · simp [Cursor.adv, view, advList_cons c _ _ _ _ hc hn]
            · simp only [view, Cursor.text]
              rw [splice_cons c _ hn]
              simp [nextRes]
          rcases decodeAll_head cd (s.bytes.drop n) with ⟨c2, n2, e1, e2, e4, e3⟩ | ⟨e1, e2⟩
          · rw [e1]
            simp only
            by_cases hs : c = ch '\\' ∧ s.bytes.drop n ≠ []
            · rw [if_pos hs]
              by_cases h2 : c2 = ch '\n'
              · rw [if_pos h2]
                refine ⟨?_, ?_⟩
                · simp only [Cursor.adv, view, e2, hs.1, h2, advList_splice, e4]
                · simp only [view, Cursor.text, e2, hs.1, h2, splice_splice, e4]
              · rw [if_neg h2]
                refine key ?_
                rintro r' ⟨-, e⟩
                rw [e2] at e
                simp_all
            · rw [if_neg hs]
              refine key ?_
              rintro r' ⟨h1, -⟩
              exact hs ⟨h1, e3⟩
          · have hsp : (if c = ch '\\' ∧ s.bytes.drop n ≠ [] then
                match cd.dec (s.bytes.drop n) with
                | .chr c2 n2 =>
                  if c2 = ch '\n' then
                    ((⟨(s.bytes.drop n).drop n2, s.line + 1, 1⟩, k + 1) : ByteCursor × Nat)
                  else (⟨s.bytes.drop n, s.line, s.col + 1⟩, k)
                | _ => (⟨s.bytes.drop n, s.line, s.col + 1⟩, k)
              else (⟨s.bytes.drop n, s.line, s.col + 1⟩, k)) =
                (⟨s.bytes.drop n, s.line, s.col + 1⟩, k) := by
              split
              · split
                · rename_i e; exact absurd e (e1 _ _)
                · rfl
              · rfl
            rw [hsp]
            refine key ?_
            rintro r' ⟨-, e⟩
            rw [e2] at e
            simp at e

end Kefir.Lexer
