import Verif.Lexer.Cursor
/-!
# Properties of the source cursor (C03, C04)
-/

namespace Kefir.Lexer

/-- A run of advances from some cursor; every call is made whatever the earlier ones returned. -/
def advances (cd : Codec) : ByteCursor → List Nat → ByteCursor
  | s, [] => s
  | s, k :: ks => advances cd (byteNext cd s k).2 ks

/-- source/lexer/source_cursor.c:25-37 `kefir_lexer_source_cursor_init`. -/
def start (src : List UInt8) : ByteCursor := ⟨src, 1, 1⟩

theorem view_advances (cd : Codec) (s : ByteCursor) (ks : List Nat) :
    view cd (advances cd s ks) = (view cd s).adv ks.sum := by
  induction ks generalizing s with
  | nil => simp [advances, Cursor.adv_zero]
  | cons k ks ih =>
    simp only [advances, List.sum_cons]
    rw [ih, (byteNext_eq cd s k).1, Cursor.adv_adv]

theorem byteAt_view (cd : Codec) (s : ByteCursor) (k : Nat) :
    byteAt cd s.bytes k = (view cd s).at k := by
  simp [byteAt_eq, view, Cursor.at, Cursor.text]

/-- **C03**: after any run of advances over `ks` characters from the beginning of a source, looking
`j` characters ahead gives character number `sum ks + j` of the decoded source with every
backslash-newline deleted, and 0 past its end. -/
theorem C03_logical_text (cd : Codec) (src : List UInt8) (ks : List Nat) (j : Nat) :
    byteAt cd (advances cd (start src) ks).bytes j =
      (splice (decodeAll cd src).1).getD (ks.sum + j) 0 := by
  rw [byteAt_view, view_advances, Cursor.at_adv]
  rfl

/-- Position bookkeeping, one character at a time. -/
def locStep (s : Nat × Nat) (c : Chr) : Nat × Nat :=
  if c = ch '\n' then (s.1 + 1, 1) else (s.1, s.2 + 1)

theorem foldl_locStep (p : List Chr) :
    p.foldl locStep (1, 1) = (lineAfter p, columnAfter p) := by
  generalize hn : p.length = n
  induction n generalizing p with
  | zero => rw [List.eq_nil_of_length_eq_zero hn]; rfl
  | succ n ih =>
    obtain ⟨p, c, rfl⟩ : ∃ q c, p = q ++ [c] :=
      ⟨p.dropLast, p.getLast (by intro h; simp [h] at hn), (List.dropLast_concat_getLast _).symm⟩
    have ih := ih p (by simpa using hn)
    rw [List.foldl_append, ih]
    show locStep _ _ = _
    unfold locStep lineAfter columnAfter
    by_cases h : c = ch '\n'
    · subst h
      simp [List.count_append, Nat.add_assoc]
    · rw [if_neg h]
      simp only [List.count_append, List.reverse_append, List.reverse_cons, List.reverse_nil,
        List.nil_append, List.singleton_append, List.takeWhile_cons, decide_not, Prod.mk.injEq]
      have hc : [c].count (ch '\n') = 0 := by
        rw [List.count_eq_zero]; simpa using Ne.symm h
      refine ⟨by omega, ?_⟩
      simp [h]
      omega

theorem splice_splice_append (r s : List Chr) :
    splice (ch '\\' :: ch '\n' :: (r ++ s)) = splice (r ++ s) := splice_splice _

theorem advList_loc (r : List Chr) (n l k : Nat) :
    ∃ p, r = p ++ (advList r n l k).1 ∧ (advList r n l k).2 = p.foldl locStep (l, k) ∧
      splice r = splice p ++ splice (advList r n l k).1 ∧
      (splice p).length = min n (splice r).length := by
  generalize hm : r.length = m
  induction m using Nat.strongRecOn generalizing r n l k with
  | ind m ih =>
    cases n with
    | zero => exact ⟨[], by simp [advList, splice]⟩
    | succ n =>
      rcases splice_cases r with rfl | ⟨r', rfl⟩ | ⟨c, r', rfl, hn⟩
      · exact ⟨[], by simp [advList_nil, splice]⟩
      · rw [advList_splice]
        obtain ⟨p, h1, h2, h3, h4⟩ := ih r'.length (by simp at hm; omega) r' (n + 1) (l + 1) 1 rfl
        refine ⟨ch '\\' :: ch '\n' :: p, ?_, ?_, ?_, ?_⟩
        · simp only [List.cons_append, List.cons.injEq, true_and]
          exact h1
        · rw [h2]
          rfl
        · rw [splice_splice, splice_splice]
          exact h3
        · rw [splice_splice, splice_splice]
          exact h4
      · have hsp : ∀ p : List Chr, r' = p ++ (r'.drop p.length) → splice (c :: p) = c :: splice p := by
          intro p hp
          apply splice_cons
          rintro r'' ⟨h1, h2⟩
          rw [h2] at hp
          exact hn _ ⟨h1, hp⟩
        by_cases hc : c = ch '\n'
        · subst hc
          rw [advList_newline]
          obtain ⟨p, h1, h2, h3, h4⟩ := ih r'.length (by simp at hm; omega) r' n (l + 1) 1 rfl
          have hd : r' = p ++ r'.drop p.length := by
            conv => rhs; rw [h1]
            rw [List.drop_left]; exact h1
          refine ⟨ch '\n' :: p, ?_, ?_, ?_, ?_⟩
          · simp only [List.cons_append, List.cons.injEq, true_and]; exact h1
          · rw [h2]; simp [locStep]
          · rw [splice_cons _ _ hn, hsp p hd, h3]; rfl
          · rw [splice_cons _ _ hn, hsp p hd]; simp [h4]
        · rw [advList_cons c r' n l k hc hn]
          obtain ⟨p, h1, h2, h3, h4⟩ := ih r'.length (by simp at hm; omega) r' n l (k + 1) rfl
          have hd : r' = p ++ r'.drop p.length := by
            conv => rhs; rw [h1]
            rw [List.drop_left]; exact h1
          refine ⟨c :: p, ?_, ?_, ?_, ?_⟩
          · simp only [List.cons_append, List.cons.injEq, true_and]; exact h1
          · rw [h2]; simp [locStep, hc]
          · rw [splice_cons _ _ hn, hsp p hd, h3]; rfl
          · rw [splice_cons _ _ hn, hsp p hd]; simp [h4]

/-- **C04**: after any run of advances from the beginning of a source, the decoded source splits
into the characters consumed and those remaining, the consumed ones being as many logical characters
as were asked for (all of them, if there are fewer), and the cursor's line and column are those of
the end of the consumed physical text. -/
theorem C04_locations (cd : Codec) (src : List UInt8) (ks : List Nat) :
    ∃ consumed, (decodeAll cd src).1 =
        consumed ++ (decodeAll cd (advances cd (start src) ks).bytes).1 ∧
      (splice consumed).length = min ks.sum (splice (decodeAll cd src).1).length ∧
      (advances cd (start src) ks).line = lineAfter consumed ∧
      (advances cd (start src) ks).col = columnAfter consumed := by
  have h := view_advances cd (start src) ks
  obtain ⟨p, h1, h2, -, h4⟩ := advList_loc (decodeAll cd src).1 ks.sum 1 1
  have hv : (view cd (start src)).adv ks.sum =
      ⟨(advList (decodeAll cd src).1 ks.sum 1 1).1, (decodeAll cd src).2,
        (advList (decodeAll cd src).1 ks.sum 1 1).2.1,
        (advList (decodeAll cd src).1 ks.sum 1 1).2.2⟩ := rfl
  rw [hv] at h
  have e1 := congrArg Cursor.rest h
  have e2 := congrArg Cursor.line h
  have e3 := congrArg Cursor.col h
  simp only [view] at e1 e2 e3
  rw [h2, foldl_locStep] at e2 e3
  exact ⟨p, by rw [e1]; exact h1, h4, e2, e3⟩

/-- An advance reports an error exactly when it is asked for more characters than remain before an
undecodable position or the end of the buffer. -/
theorem C03_advance_result (cd : Codec) (src : List UInt8) (ks : List Nat) (k : Nat) :
    (byteNext cd (advances cd (start src) ks) k).1 =
      (if (decodeAll cd src).2 = .bad ∧ (splice (decodeAll cd src).1).length - ks.sum < k
        then .error .invalidState else .ok ()) := by
  rw [(byteNext_eq cd _ k).2, view_advances, nextRes, Cursor.text_adv, List.length_drop]
  rfl

/-- The 7-bit codec used in the examples (`mbrtoc32` in the "C" locale). -/
def ascii : Codec where
  dec
    | [] => .bad
    | b :: _ => if b = 0 then .nul else if b.toNat < 128 then .chr b.toNat 1 else .bad
  enc c := if c < 128 then some [UInt8.ofNat c] else none
  dec_nil := rfl
  dec_chr := by
    intro bs c n h
    cases bs with
    | nil => cases h
    | cons b r =>
      simp only at h
      split at h
      · cases h
      · split at h
        · rename_i h0 h1
          cases h
          refine ⟨fun h => h0 ?_, Nat.le_refl _, by simp⟩
          exact UInt8.toNat_inj.1 h
        · cases h

/-- Non-vacuity: `a\⏎⏎b`, advanced over two characters. -/
example : byteAt ascii (advances ascii (start [97, 92, 10, 10, 98]) [1, 1]).bytes 0 = ch 'b' ∧
    (advances ascii (start [97, 92, 10, 10, 98]) [1, 1]).line = 3 ∧
    (advances ascii (start [97, 92, 10, 10, 98]) [1, 1]).col = 1 := by
  refine ⟨?_, ?_, ?_⟩ <;> simp [advances, start, byteNext, byteAt, ascii, spliceNext, spliceAt, ch]

end Kefir.Lexer
