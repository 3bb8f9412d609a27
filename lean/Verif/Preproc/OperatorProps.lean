import Verif.Preproc.OperatorSpec
import Verif.Preproc.ExpandRun
import Verif.Lexer.PunctProps

/-!
# The operators `#` and `##` (C59)
-/

namespace Kefir.Preproc.Spec

open Kefir.Preproc Kefir.Lexer

theorem noWs_eq (l : List Tok) : noWs l = strip l := rfl

/-! ## Joining two tokens -/

def allPunct : List Punct := punctuators.map (·.2)

theorem mem_allPunct (p : Punct) : p ∈ allPunct :=
  List.mem_map_of_mem (f := (·.2)) (punct_mem p)

theorem concatPunct_sound {p q r : Punct} : ∀ {l : List (Punct × Punct × Punct)},
    concatPunct p q l = some r → (p, q, r) ∈ l
  | [], h => by simp [concatPunct] at h
  | (a, b, c) :: l, h => by
    rw [concatPunct] at h
    split at h
    · rename_i hc
      simp only [Option.some.injEq] at h
      simp [hc, h]
    · exact List.mem_cons_of_mem _ (concatPunct_sound h)

theorem combinations_sound : ∀ e ∈ combinations, e.1.spelling ++ e.2.1.spelling = e.2.2.spelling := by
  decide +kernel

theorem combinations_complete : ∀ r ∈ allPunct, ∀ k ∈ List.range 5,
    ∀ p ∈ allPunct.filter (fun p => p.spelling = r.spelling.take k),
    ∀ q ∈ allPunct.filter (fun q => q.spelling = r.spelling.drop k),
    concatPunct p q combinations = some r := by decide +kernel

theorem spelling_length : ∀ r ∈ allPunct, r.spelling.length < 5 := by decide +kernel

/-- **C59** for punctuators: two punctuators are joined exactly if what they spell together is a
punctuator, and to that punctuator. -/
theorem C59_punctuators (p q r : Punct) :
    concatTokens (.punct p) (.punct q) = .ok (.punct r) ↔ p.spelling ++ q.spelling = r.spelling := by
  rw [concatTokens]
  constructor
  · intro h
    split at h
    · rename_i r' hr
      simp only [Except.ok.injEq, Tok.punct.injEq] at h
      subst h
      exact combinations_sound _ (concatPunct_sound hr)
    · simp at h
  · intro h
    have hl := spelling_length r (mem_allPunct r)
    have := combinations_complete r (mem_allPunct r) p.spelling.length (by
      rw [← h, List.length_append] at hl; simp; omega) p (by
      rw [List.mem_filter]; exact ⟨mem_allPunct p, by simp [← h]⟩) q (by
      rw [List.mem_filter]; exact ⟨mem_allPunct q, by simp [← h]⟩)
    rw [this]

theorem concatTokens_ok {x y z : Tok} (h : Joins x y z) : concatTokens x y = .ok z := by
  cases h with
  | left => cases y <;> rfl
  | right => cases x <;> rfl
  | identIdent => rfl
  | identNumber => rfl
  | numberIdent => rfl
  | numberNumber => rfl
  | punct p q r hs => exact (C59_punctuators p q r).2 hs

/-! ## Running the substitution -/

section
variable {fmt : List Tok → Res (List Char)} {args : Option Args} {fs : List Name}
  {value : Name → Option (List Tok)}

/-- The arguments as the model keeps them. -/
structure Given (args : Option Args) (fs : List Name) (value : Name → Option (List Tok)) : Prop where
  find : ∀ n, (match args with | some as => as.find n | none => none) = value n
  dom : ∀ n, (value n).isSome ↔ n ∈ fs
  trimmed : ∀ n v, value n = some v → Trimmed v

/-- The substitution ends with this result, if it is given enough iterations. -/
def Ends (fmt : List Tok → Res (List Char)) (args : Option Args) (seq acc r : List Tok) : Prop :=
  ∃ k0, ∀ k, k0 ≤ k → substBody fmt args k seq acc = .ok r

theorem Ends.step {seq acc seq' acc' r : List Tok}
    (h : ∀ k, substBody fmt args (k + 1) seq acc = substBody fmt args k seq' acc')
    (he : Ends fmt args seq' acc' r) : Ends fmt args seq acc r := by
  obtain ⟨k0, hk⟩ := he
  refine ⟨k0 + 1, fun k hle => ?_⟩
  obtain ⟨k, rfl⟩ : ∃ j, k = j + 1 := ⟨k - 1, by omega⟩
  rw [h, hk k (by omega)]

theorem Ends.unstep {seq acc seq' acc' r : List Tok}
    (h : ∀ k, substBody fmt args (k + 1) seq acc = substBody fmt args k seq' acc')
    (he : Ends fmt args seq acc r) : Ends fmt args seq' acc' r := by
  obtain ⟨k0, hk⟩ := he
  exact ⟨k0, fun k hle => by rw [← h, hk (k + 1) (by omega)]⟩

/-- What follows is not `##`. -/
def NoPaste (seq : List Tok) : Prop := ∀ rest, seq.dropWhile Tok.isWs ≠ .punct .doubleHash :: rest

theorem noPaste_cons {t : Tok} {seq : List Tok} (hw : t.isWs = false)
    (ht : t ≠ .punct .doubleHash) : NoPaste (t :: seq) := by
  intro rest h
  rw [List.dropWhile_cons, hw] at h
  simp at h
  exact ht h.1

theorem noPaste_ws {w : List Tok} (hw : ∀ t ∈ w, t.isWs = true) {seq : List Tok} :
    NoPaste (w ++ seq) ↔ NoPaste seq := by
  induction w with
  | nil => rfl
  | cons t w ih =>
    rw [← ih fun x hx => hw x (by simp [hx])]
    simp only [NoPaste, List.cons_append, List.dropWhile_cons, hw t (by simp), if_true]

theorem noPaste_strip {seq rest : List Tok} {t : Tok} (h : strip seq = t :: rest)
    (ht : t ≠ .punct .doubleHash) : NoPaste seq := by
  obtain ⟨w, lb, rfl, hw, htw, -⟩ := split_cons h
  rw [noPaste_ws hw]
  exact noPaste_cons htw ht

theorem noPaste_nil {seq : List Tok} (h : strip seq = []) : NoPaste seq := by
  intro rest hr
  rw [dropWs_eq_nil (strip_eq_nil h)] at hr
  simp at hr

theorem matchConc_noPaste {t : Tok} {seq : List Tok} (h : t.isWs = true ∨ NoPaste seq) :
    matchConcatenation args t seq = .ok none := by
  rw [matchConcatenation]
  rcases h with h | h
  · rw [if_pos h]
  · split
    · rfl
    · split
      · rename_i rest e
        exact absurd e (h _)
      · rfl

theorem Given.find_none (hg : Given args fs value) {n} (hn : n ∉ fs) {as} (ha : args = some as) :
    as.find n = none := by
  have h1 := hg.find n
  subst ha
  simp only at h1
  rw [h1]
  cases hv : value n with
  | none => rfl
  | some v => exact absurd ((hg.dom n).1 (by simp [hv])) hn

theorem lit_step (hg : Given args fs value) {t : Tok} (ht : Literal fs args.isSome t)
    {seq : List Tok} (h : t.isWs = true ∨ NoPaste seq) (acc : List Tok) (k : Nat) :
    substBody fmt args (k + 1) (t :: seq) acc = substBody fmt args k seq (acc ++ [t]) := by
  rw [substBody.eq_def]
  dsimp only
  rw [matchConc_noPaste h]
  dsimp only
  cases ha : args with
  | none => cases t <;> rfl
  | some as =>
    rw [ha] at ht
    cases t with
    | ident n s =>
      simp only [hg.find_none (ht.2.2 n s rfl) ha]
    | punct p =>
      have hp : p ≠ .hash := by rintro rfl; exact ht.2.1 rfl rfl
      split
      · rename_i h; cases h
      · rename_i h; cases h; exact absurd rfl hp
      · rfl
    | _ => rfl

theorem noPaste_lit {L : List Tok} (hL : ∀ t ∈ L, Literal fs args.isSome t) {seq : List Tok}
    (h : NoPaste seq) : NoPaste (L ++ seq) := by
  induction L with
  | nil => exact h
  | cons t L ih =>
    have ih := ih fun x hx => hL x (by simp [hx])
    cases hw : t.isWs with
    | false => exact noPaste_cons hw (hL t (by simp)).1
    | true =>
      have := noPaste_ws (w := [t]) (by simpa using hw) (seq := L ++ seq)
      exact this.2 ih

/-- Literal tokens are copied. -/
theorem lit_run (hg : Given args fs value) : ∀ {L : List Tok} (_ : ∀ t ∈ L, Literal fs args.isSome t)
    {seq : List Tok} (_ : NoPaste seq) (acc r : List Tok),
    Ends fmt args (L ++ seq) acc r ↔ Ends fmt args seq (acc ++ L) r
  | [], _, seq, _, acc, r => by simp
  | t :: L, hL, seq, h, acc, r => by
    have hs := fun k => lit_step (fmt := fmt) hg (hL t (by simp)) (seq := L ++ seq)
      (.inr (noPaste_lit (fun x hx => hL x (by simp [hx])) h)) acc k
    have ih := lit_run hg (L := L) (fun x hx => hL x (by simp [hx])) h (acc ++ [t]) r
    rw [List.append_assoc, List.singleton_append] at ih
    rw [List.cons_append, ← ih]
    exact ⟨Ends.unstep hs, Ends.step hs⟩

/-! ## Operands -/

/-- The tokens of an operand with their white space. -/
def Operand.raw (value : Name → Option (List Tok)) : Operand → List Tok
  | .tok t => [t]
  | .param n =>
    match value n with
    | some (t :: v) => t :: v
    | _ => [.placemaker]

theorem raw_tokens (hg : Given args fs value) {o : Operand} {l : List Tok}
    (ho : o.ok fs args.isSome) (h : o.tokens value = some l) : strip (o.raw value) = l := by
  cases o with
  | tok t =>
    simp only [Operand.tokens, Option.some.injEq] at h
    simp only [Operand.raw, ← h, strip_cons, ho.2]
    rfl
  | param n =>
    simp only [Operand.tokens] at h
    cases hv : value n with
    | none => rw [hv] at h; simp at h
    | some v =>
      rw [hv] at h
      simp only [Option.some.injEq, noWs_eq] at h
      cases v with
      | nil => simpa [Operand.raw, hv, strip_cons, Tok.isWs] using h
      | cons t v =>
        have ht := (hg.trimmed n _ hv).1 t rfl
        simp only [strip_cons, ht] at h
        simpa [Operand.raw, hv, strip_cons, ht] using h

theorem raw_ends (hg : Given args fs value) {o : Operand} (ho : o.ok fs args.isSome) :
    (∃ y ys, o.raw value = y :: ys ∧ y.isWs = false) ∧
    (∃ xs x, o.raw value = xs ++ [x] ∧ x.isWs = false) := by
  cases o with
  | tok t => exact ⟨⟨t, [], rfl, ho.2⟩, [], t, rfl, ho.2⟩
  | param n =>
    simp only [Operand.raw]
    split
    · rename_i t v hv
      obtain ⟨h1, h2, -⟩ := hg.trimmed n _ hv
      refine ⟨⟨t, v, rfl, h1 t rfl⟩, (t :: v).dropLast, (t :: v).getLast (by simp), ?_, ?_⟩
      · rw [List.dropLast_concat_getLast]
      · exact h2 _ (List.getLast?_eq_some_getLast (by simp))
    · exact ⟨⟨_, _, rfl, rfl⟩, [], _, rfl, rfl⟩

theorem lit_placemaker : Literal fs b .placemaker := ⟨by simp, by simp, by simp⟩

theorem raw_lit {o : Operand} (ho : o.pasteOk fs args.isSome value) :
    ∀ t ∈ o.raw value, Literal fs args.isSome t := by
  intro t ht
  cases o with
  | tok x =>
    simp only [Operand.raw, List.mem_singleton] at ht
    exact ht ▸ ho.1.1
  | param n =>
    simp only [Operand.raw] at ht
    split at ht
    · rename_i x v hv
      exact ho.2 n _ rfl hv t ht
    · simp only [List.mem_singleton] at ht
      exact ht ▸ lit_placemaker

theorem resolveLeft_raw (hg : Given args fs value) {o : Operand} (ho : o.ok fs args.isSome) :
    (resolveLeft args o.write).1 ++ [(resolveLeft args o.write).2] = o.raw value := by
  cases o with
  | tok t =>
    simp only [Operand.write, Operand.raw, resolveLeft]
    split
    · rename_i n s as
      rw [hg.find_none (ho.1.2.2 n s rfl) rfl]
      rfl
    · rfl
  | param n =>
    obtain ⟨v, hv⟩ := Option.isSome_iff_exists.1 ((hg.dom n).2 ho)
    have hf := hg.find n
    cases args with
    | none => rw [hv] at hf; simp at hf
    | some as =>
      simp only [hv] at hf
      simp only [Operand.write, Operand.raw, resolveLeft, hf, hv]
      cases v with
      | nil => rfl
      | cons t v =>
        rw [List.getLast?_eq_some_getLast (by simp)]
        simp only [List.dropLast_concat_getLast]

theorem resolveRight_raw (hg : Given args fs value) {o : Operand} (ho : o.ok fs args.isSome) :
    (resolveRight args o.write).1 :: (resolveRight args o.write).2 = o.raw value := by
  cases o with
  | tok t =>
    simp only [Operand.write, Operand.raw, resolveRight]
    split
    · rename_i n s as
      rw [hg.find_none (ho.1.2.2 n s rfl) rfl]
    · rfl
  | param n =>
    obtain ⟨v, hv⟩ := Option.isSome_iff_exists.1 ((hg.dom n).2 ho)
    have hf := hg.find n
    cases args with
    | none => rw [hv] at hf; simp at hf
    | some as =>
      simp only [hv] at hf
      simp only [Operand.write, Operand.raw, resolveRight, hf, hv]
      cases v with
      | nil => rfl
      | cons t v => rfl

theorem write_solid' {o : Operand} (ho : o.ok fs b) : o.write.isWs = false ∧
    o.write ≠ .punct .doubleHash := by
  cases o with
  | tok t => exact ⟨ho.2, ho.1.1⟩
  | param n => exact ⟨rfl, by simp [Operand.write]⟩

/-- One `##`. -/
theorem paste_step (hg : Given args fs value) {o o₁ : Operand} (ho : o.ok fs args.isSome)
    (ho₁ : o₁.ok fs args.isSome) {xs ys : List Tok} {x y z : Tok} (hx : o.raw value = xs ++ [x])
    (hy : o₁.raw value = y :: ys) (hj : Joins x y z) {w w' s : List Tok}
    (hw : ∀ t ∈ w, t.isWs = true) (hw' : ∀ t ∈ w', t.isWs = true) (acc : List Tok) (k : Nat) :
    substBody fmt args (k + 1)
      (o.write :: (w ++ .punct .doubleHash :: (w' ++ o₁.write :: s))) acc =
    substBody fmt args k (xs ++ z :: ys ++ s) acc := by
  have hl := resolveLeft_raw hg ho
  have hr := resolveRight_raw hg ho₁
  rw [hx] at hl
  rw [hy] at hr
  obtain ⟨hl1, hl2⟩ := List.append_inj' hl rfl
  simp only [List.cons.injEq, and_true] at hl2 hr
  have hm : matchConcatenation args o.write (w ++ .punct .doubleHash :: (w' ++ o₁.write :: s)) =
      .ok (some (xs ++ z :: ys ++ s)) := by
    rw [matchConcatenation, (write_solid' ho).1, dropWhile_append_head _ _ _ rfl, dropWs_eq_nil hw]
    simp only [Bool.false_eq_true, if_false, List.nil_append]
    rw [dropWhile_append_head _ _ _ (write_solid' ho₁).1, dropWs_eq_nil hw']
    simp only [List.nil_append, macroConcatenation, hl1, hl2, hr.1, hr.2, concatTokens_ok hj]
    simp
  rw [substBody.eq_def]
  dsimp only
  rw [hm]

/-- The rest of a chain of `##` operators. -/
theorem paste_run (hg : Given args fs value) : ∀ (os : List Operand),
    (∀ o ∈ os, o.pasteOk fs args.isSome value) →
    ∀ {L s out body : List Tok}, (∀ t ∈ L, Literal fs args.isSome t) →
    (∃ xs x, L = xs ++ [x] ∧ x.isWs = false) →
    Pastes value (Literal fs args.isSome) (strip L) os out →
    strip s = (os.flatMap fun o => [.punct .doubleHash, o.write]) ++ body →
    body.head? ≠ some (.punct .doubleHash) →
    ∃ L' s', strip L' = out ∧ strip s' = body ∧ ∀ acc r,
      Ends fmt args s' (acc ++ L') r → Ends fmt args (L ++ s) acc r
  | [], _, L, s, out, body, hL, hlast, hp, hs, hb => by
    generalize hsl : strip L = l at hp
    cases hp
    refine ⟨L, s, hsl, by simpa using hs, fun acc r h => ?_⟩
    refine (lit_run hg hL ?_ acc r).2 h
    simp only [List.flatMap_nil, List.nil_append] at hs
    cases body with
    | nil => exact noPaste_nil hs
    | cons b body => exact noPaste_strip hs (by simpa using hb)
  | o :: os, hos, L, s, out, body, hL, ⟨xs, x, hLx, hxw⟩, hp, hs, hb => by
    subst hLx
    have ho := hos o (by simp)
    have hstrip : strip (xs ++ [x]) = strip xs ++ [x] := by
      rw [strip_append, strip_cons, hxw]; rfl
    rw [hstrip] at hp
    generalize he : strip xs ++ [x] = l at hp
    cases hp with
    | cons htok hj hz hrest =>
      rename_i xs' x' y ys z
      obtain ⟨h1, h2⟩ := List.append_inj' he rfl
      simp only [List.cons.injEq, and_true] at h2
      subst h2
      subst h1
      have hx : Literal fs args.isSome x := hL x (by simp)
      have hraw := raw_tokens hg ho.1 htok
      obtain ⟨⟨y', ys', hy', hyw⟩, -⟩ := raw_ends hg ho.1
      rw [hy', strip_cons, hyw] at hraw
      simp only [Bool.false_eq_true, if_false, List.cons.injEq] at hraw
      obtain ⟨rfl, rfl⟩ := hraw
      simp only [List.flatMap_cons, List.cons_append, List.nil_append] at hs
      obtain ⟨w, s1, rfl, hw, -, hs⟩ := split_cons hs
      obtain ⟨w', s2, rfl, hw', -, hs⟩ := split_cons hs
      have hzw : z.isWs = false := by
        cases hj with
        | left => exact hyw
        | right => exact hxw
        | _ => rfl
      have hlastraw := (raw_ends hg ho.1).2
      rw [hy'] at hlastraw
      have hnew : ∀ t ∈ xs ++ z :: ys', Literal fs args.isSome t := by
        intro t ht
        rcases List.mem_append.1 ht with h | h
        · exact hL t (by simp [h])
        · rcases List.mem_cons.1 h with rfl | h
          · exact hz
          · exact raw_lit ho t (by rw [hy']; simp [h])
      have hl2 : ∃ as a, xs ++ z :: ys' = as ++ [a] ∧ a.isWs = false := by
        obtain ⟨as, a, ha, haw⟩ := hlastraw
        cases ys' with
        | nil => exact ⟨xs, z, rfl, hzw⟩
        | cons b bs =>
          cases as with
          | nil => simp at ha
          | cons c as =>
            simp only [List.cons_append, List.cons.injEq] at ha
            exact ⟨xs ++ z :: as, a, by rw [ha.2]; simp, haw⟩
      have hst : strip (xs ++ z :: ys') = strip xs ++ z :: strip ys' := by
        rw [strip_append, strip_cons, hzw]; rfl
      obtain ⟨L', s', e1, e2, hend⟩ := paste_run hg os (fun o h => hos o (by simp [h]))
        (L := xs ++ z :: ys') (s := s2) (out := out) (body := body) hnew hl2
        (by rw [hst]; exact hrest) hs hb
      refine ⟨L', s', e1, e2, fun acc r h => ?_⟩
      have := hend acc r h
      have hnp : NoPaste (z :: ys' ++ s2) := by
        rw [List.cons_append]; exact noPaste_cons hzw hz.1
      rw [List.append_assoc, lit_run hg (fun t ht => hL t (by simp [ht])) hnp] at this
      rw [List.append_assoc, lit_run hg (fun t ht => hL t (by simp [ht]))
        (by rw [List.cons_append]; exact noPaste_cons hxw hx.1)]
      exact Ends.step (fun k => paste_step (o := .tok x) hg ⟨hx, hxw⟩ ho.1 (xs := []) (x := x) rfl hy'
        hj hw hw' (acc ++ xs) k) this

/-! ## Replacement lists -/

/-- Without white space and placemakers. -/
def clean (l : List Tok) : List Tok := (strip l).filter (· ≠ .placemaker)

@[simp] theorem clean_append (a b : List Tok) : clean (a ++ b) = clean a ++ clean b := by
  simp [clean]

theorem clean_ws {l : List Tok} (h : ∀ t ∈ l, t.isWs = true) : clean l = [] := by
  simp [clean, strip_all_ws h]

theorem clean_one {t : Tok} (h : t.isWs = false) (hp : t ≠ .placemaker) : clean [t] = [t] := by
  simp [clean, strip_cons, h, hp]

theorem clean_arg {v : List Tok} (h : Trimmed v) : clean v = noWs v := by
  rw [clean, noWs_eq, List.filter_eq_self]
  intro t ht
  simp only [ne_eq, decide_not, Bool.not_eq_true', decide_eq_false_iff_not]
  rintro rfl
  exact h.2.2 (strip_mem.1 ht).1

theorem lit_ws {t : Tok} (h : t.isWs = true) : Literal fs b t := by
  cases t <;> simp [Tok.isWs] at h
  exact ⟨by simp, by simp, by simp⟩

theorem write_head {ps : List Piece} (h : ∀ p ∈ ps, p.ok fs b value) :
    (ps.flatMap Piece.write).head? ≠ some (.punct .doubleHash) := by
  cases ps with
  | nil => simp
  | cons p ps =>
    have hp := h p (by simp)
    cases p with
    | plain o => simpa [Piece.write] using (write_solid' hp.1).2
    | str n => simp [Piece.write]
    | paste o o₁ os => simpa [Piece.write] using (write_solid' (hp o (by simp)).1).2

theorem write_noPaste {ps : List Piece} (h : ∀ p ∈ ps, p.ok fs b value) {seq : List Tok}
    (hs : strip seq = ps.flatMap Piece.write) : NoPaste seq := by
  have := write_head h
  rw [← hs] at this
  cases he : strip seq with
  | nil => exact noPaste_nil he
  | cons t r => rw [he] at this; exact noPaste_strip he (by simpa using this)

/-- The `#` operator. -/
theorem str_step (hg : Given args fs value) (ha : args.isSome = true) {n : Name} {v : List Tok}
    (hv : value n = some v) {text : List Char} (hf : fmt v = .ok text) {w s : List Tok}
    (hw : ∀ t ∈ w, t.isWs = true) (acc : List Tok) (k : Nat) :
    substBody fmt args (k + 1) (.punct .hash :: (w ++ .ident n false :: s)) acc =
      substBody fmt args k s (acc ++ [.string text]) := by
  obtain ⟨as, rfl⟩ := Option.isSome_iff_exists.1 ha
  have hfind := hg.find n
  simp only [hv] at hfind
  have hnp : NoPaste (w ++ .ident n false :: s) := (noPaste_ws hw).2 (noPaste_cons rfl (by simp))
  rw [substBody.eq_def]
  dsimp only
  rw [matchConc_noPaste (.inr hnp)]
  dsimp only
  rw [dropWhile_append_head _ _ _ rfl, dropWs_eq_nil hw]
  simp only [List.nil_append, hfind, hf]

theorem param_step (hg : Given args fs value) {n : Name} {v : List Tok}
    (hv : value n = some v) {s : List Tok} (h : NoPaste s) (acc : List Tok) (k : Nat) :
    substBody fmt args (k + 1) (.ident n false :: s) acc = substBody fmt args k s (acc ++ v) := by
  have hfind := hg.find n
  cases args with
  | none => rw [hv] at hfind; simp at hfind
  | some as =>
    simp only [hv] at hfind
    rw [substBody.eq_def]
    dsimp only
    rw [matchConc_noPaste (.inr h)]
    simp only [hfind]

theorem pieces_run (hg : Given args fs value) : ∀ (ps : List Piece) {seq out : List Tok},
    (∀ p ∈ ps, p.ok fs args.isSome value) →
    Replaced (fun v => (fmt v).toOption) value (Literal fs args.isSome) ps out →
    strip seq = ps.flatMap Piece.write →
    ∀ acc, ∃ r, Ends fmt args seq acc r ∧ clean r = clean acc ++ out
  | [], seq, out, _, hr, hs, acc => by
    cases hr
    simp only [List.flatMap_nil] at hs
    have hw := strip_eq_nil hs
    refine ⟨acc ++ seq, ?_, by simp [clean_ws hw]⟩
    have := (lit_run (fmt := fmt) hg (L := seq) (fun t ht => lit_ws (hw t ht)) (seq := [])
      (noPaste_nil rfl) acc (acc ++ seq)).2 ⟨1, fun k hk => by
        obtain ⟨k, rfl⟩ : ∃ j, k = j + 1 := ⟨k - 1, by omega⟩
        simp [substBody]⟩
    simpa using this
  | p :: ps, seq, out, hok, hr, hs, acc => by
    have hps : ∀ p ∈ ps, p.ok fs args.isSome value := fun p h => hok p (by simp [h])
    have hp := hok p (by simp)
    rw [List.flatMap_cons] at hs
    -- the first token, after white space
    have first : ∀ {t : Tok} {rest : List Tok}, p.write = t :: rest →
        ∃ w s, seq = w ++ t :: s ∧ strip s = rest ++ ps.flatMap Piece.write ∧ t.isWs = false ∧
          clean w = [] ∧ ∀ {r acc : List Tok}, t ≠ .punct .doubleHash →
            Ends fmt args (t :: s) (acc ++ w) r → Ends fmt args seq acc r := by
      intro t rest hpw
      rw [hpw, List.cons_append] at hs
      obtain ⟨w, s, rfl, hw, ht, hs'⟩ := split_cons hs
      refine ⟨w, s, rfl, hs', ht, clean_ws hw, fun hne he => ?_⟩
      exact (lit_run hg (fun t ht => lit_ws (hw t ht)) (noPaste_cons ht hne) _ _).2 he
    cases hr with
    | tok hrest =>
      rename_i t out
      obtain ⟨w, s, -, hs', ht, hcw, hend⟩ := first (t := t) (rest := []) rfl
      obtain ⟨r, he, hc⟩ := pieces_run hg ps hps hrest hs' (acc ++ w ++ [t])
      refine ⟨r, hend (hp.1.1.1) (he.step (lit_step hg hp.1.1 (.inr (write_noPaste hps hs')) _)), ?_⟩
      rw [hc]
      simp [hcw, clean_one ht hp.2]
    | param hv hrest =>
      rename_i n v out
      obtain ⟨w, s, -, hs', ht, hcw, hend⟩ := first (t := .ident n false) (rest := []) rfl
      obtain ⟨r, he, hc⟩ := pieces_run hg ps hps hrest hs' (acc ++ w ++ v)
      refine ⟨r, hend (by simp) (he.step (param_step hg hv (write_noPaste hps hs') _)), ?_⟩
      rw [hc]
      simp [hcw, clean_arg (hg.trimmed n v hv)]
    | str hv hf hrest =>
      rename_i n v text out
      obtain ⟨w, s, -, hs', ht, hcw, hend⟩ :=
        first (t := .punct .hash) (rest := [.ident n false]) rfl
      rw [List.singleton_append] at hs'
      obtain ⟨w', s', rfl, hw', -, hs'⟩ := split_cons hs'
      have hf' : fmt v = .ok text := by
        cases h : fmt v with
        | error e => rw [h] at hf; simp [Except.toOption] at hf
        | ok x => rw [h] at hf; simpa [Except.toOption] using hf
      obtain ⟨r, he, hc⟩ := pieces_run hg ps hps hrest hs' (acc ++ w ++ [.string text])
      refine ⟨r, hend (by simp) (he.step (str_step hg hp.1 hv hf' hw' _)), ?_⟩
      rw [hc]
      simp [hcw, clean_one (t := .string text) rfl (by simp)]
    | paste htok hpaste hrest =>
      rename_i o o₁ os l joined out
      obtain ⟨w, s, -, hs', ht, hcw, hend⟩ := first (t := o.write)
        (rest := (o₁ :: os).flatMap fun o => [.punct .doubleHash, o.write]) rfl
      have ho := hp o (by simp)
      have ho₁ := hp o₁ (by simp)
      rw [List.flatMap_cons, List.append_assoc, List.cons_append, List.cons_append,
        List.nil_append] at hs'
      obtain ⟨w1, s1, rfl, hw1, -, hs'⟩ := split_cons hs'
      obtain ⟨w2, s2, rfl, hw2, -, hs'⟩ := split_cons hs'
      have hraw := raw_tokens hg ho.1 htok
      cases hpaste with
      | cons htok₁ hj hz hpaste =>
        rename_i xs x y ys z
        have hraw₁ := raw_tokens hg ho₁.1 htok₁
        obtain ⟨-, xs', x', hx', hxw⟩ := raw_ends hg ho.1
        obtain ⟨⟨y', ys', hy', hyw⟩, yi, yl, hyl, hylw⟩ := raw_ends hg ho₁.1
        rw [hx', strip_append, strip_cons, hxw] at hraw
        simp only [Bool.false_eq_true, if_false, strip_nil] at hraw
        obtain ⟨rfl, e2⟩ := List.append_inj' hraw rfl
        simp only [List.cons.injEq, and_true] at e2
        subst e2
        rw [hy', strip_cons, hyw] at hraw₁
        simp only [Bool.false_eq_true, if_false, List.cons.injEq] at hraw₁
        obtain ⟨rfl, rfl⟩ := hraw₁
        have hzw : z.isWs = false := by
          cases hj with
          | left => exact hyw
          | right => exact hxw
          | _ => rfl
        have hlit : ∀ t ∈ xs' ++ z :: ys', Literal fs args.isSome t := by
          intro t ht
          rcases List.mem_append.1 ht with h | h
          · exact raw_lit ho t (by rw [hx']; simp [h])
          · rcases List.mem_cons.1 h with rfl | h
            · exact hz
            · exact raw_lit ho₁ t (by rw [hy']; simp [h])
        have hlast : ∃ as a, xs' ++ z :: ys' = as ++ [a] ∧ a.isWs = false := by
          rw [hy'] at hyl
          cases ys' with
          | nil => exact ⟨xs', z, rfl, hzw⟩
          | cons b bs =>
            cases yi with
            | nil => simp at hyl
            | cons c yi =>
              simp only [List.cons_append, List.cons.injEq] at hyl
              exact ⟨xs' ++ z :: yi, yl, by rw [hyl.2]; simp, hylw⟩
        have hst : strip (xs' ++ z :: ys') = strip xs' ++ z :: strip ys' := by
          rw [strip_append, strip_cons, hzw]; rfl
        obtain ⟨L', s', e1, e2, hch⟩ := paste_run (fmt := fmt) hg os
          (fun o h => hp o (by simp [h])) hlit hlast
          (by rw [hst]; exact hpaste) hs' (write_head hps)
        obtain ⟨r, he, hc⟩ := pieces_run hg ps hps hrest e2 (acc ++ w ++ L')
        refine ⟨r, hend (write_solid' ho.1).2 ((hch _ r he).step
          (paste_step hg ho.1 ho₁.1 hx' hy' hj hw1 hw2 _)), ?_⟩
        rw [hc]
        simp only [clean_append, hcw, List.nil_append, List.append_assoc]
        rw [show clean L' = joined.filter (· ≠ .placemaker) by rw [clean, e1]]

end

theorem hide_finish (name : Name) (l : List Tok) : noWs (finish name l) = hide name (clean l) := by
  induction l with
  | nil => rfl
  | cons t l ih =>
    have hc : clean (t :: l) = clean [t] ++ clean l := clean_append [t] l
    have hf : finish name (t :: l) = finish name [t] ++ finish name l := by
      rw [finish, finish, finish, ← List.filter_append, ← List.map_append]; rfl
    have hn : ∀ a b, noWs (a ++ b) = noWs a ++ noWs b := fun a b => by simp [noWs]
    have hh : ∀ a b, hide name (a ++ b) = hide name a ++ hide name b := fun a b => by simp [hide]
    rw [hc, hf, hn, hh, ih]
    congr 1
    cases t with
    | ident n s =>
      by_cases h : n = name
      · simp [finish, paint, hide, clean, noWs, h, strip, Tok.isWs]
      · simp [finish, paint, hide, clean, noWs, h, strip, Tok.isWs]
    | _ => rfl

/-- **C59 (partial)**, function-like macros.  Let a macro have the replacement list `pieces`, and let
`out` be what C17 6.10.3.1–6.10.3.3 make of it with the given arguments.  Applying the macro yields
`out` (up to white space), with the macro's name made unavailable.  Missing: tokens produced by `##`,
and arguments next to `##`, must not look like parameters, `#` or `##` (they are substituted again,
`C57_rescan_false`), `#` must not be an operand of `##`, and joins of other kinds of tokens than
those of `Joins` are rejected (`C59_number_sign_false`). -/
theorem C59_function_like_partial (fmt : List Tok → Res (List Char)) (m : Macro) (ps : List Name)
    (variadic : Bool) (vals : List (List Tok)) (pieces : List Piece) (out : List Tok)
    (hm : m.params = some (ps, variadic)) (hn : (formals ps variadic).Nodup)
    (hl : vals.length = (formals ps variadic).length)
    (ht : ∀ v ∈ vals, Trimmed v)
    (hb : noWs m.body = pieces.flatMap Piece.write)
    (hok : ∀ p ∈ pieces,
      p.ok (formals ps variadic) true (valueOf (formals ps variadic) vals))
    (hr : Replaced (fun v => (fmt v).toOption) (valueOf (formals ps variadic) vals)
      (Literal (formals ps variadic) true) pieces out) :
    ∃ b k0, (∀ k, k0 ≤ k → applyMacro fmt k m (some vals) = .ok b) ∧ noWs b = hide m.name out := by
  have hl' : vals.length = ps.length + (if variadic then 1 else 0) := by
    rw [hl, formals_eq, List.length_append]; cases variadic <;> rfl
  have hbuild := buildArgs_ok variadic ps vals [] hl' hn (fun p _ => rfl)
  rw [List.nil_append] at hbuild
  have hg : Given (some ((formals ps variadic).zip vals)) (formals ps variadic)
      (valueOf (formals ps variadic) vals) :=
    ⟨fun n => find_zip _ _ n, fun n => valueOf_dom _ _ n hl,
      fun n v hv => ht v (valueOf_mem _ _ _ _ hv)⟩
  obtain ⟨r, ⟨k0, hk⟩, hc⟩ := pieces_run (fmt := fmt) hg pieces (seq := m.body) hok hr hb []
  refine ⟨finish m.name r, k0, fun k hle => ?_, ?_⟩
  · rw [applyMacro.eq_def, hm]
    dsimp only
    rw [if_neg (by omega), hbuild]
    simp only [hk k hle, Out.bind]
  · rw [hide_finish, hc]
    simp [clean]

/-- **C59 (partial)**, object-like macros, in which `#` is not an operator. -/
theorem C59_object_like_partial (fmt : List Tok → Res (List Char)) (m : Macro)
    (pieces : List Piece) (out : List Tok) (hm : m.params = none)
    (hb : noWs m.body = pieces.flatMap Piece.write)
    (hok : ∀ p ∈ pieces, p.ok [] false (fun _ => none))
    (hr : Replaced (fun v => (fmt v).toOption) (fun _ => none) (Literal [] false) pieces out) :
    ∃ b k0, (∀ k, k0 ≤ k → applyMacro fmt k m none = .ok b) ∧ noWs b = hide m.name out := by
  have hg : Given none [] (fun _ => none) := ⟨fun n => rfl, fun n => by simp, fun n v hv => by simp at hv⟩
  obtain ⟨r, ⟨k0, hk⟩, hc⟩ := pieces_run (fmt := fmt) hg pieces (seq := m.body) hok hr hb []
  refine ⟨finish m.name r, k0, fun k hle => ?_, ?_⟩
  · rw [applyMacro.eq_def, hm]
    dsimp only
    rw [hk k hle]
    rfl
  · rw [hide_finish, hc]
    simp [clean]

/-! ## A concrete case

`#define F(x, y) x ## y z # x ## y` is not in the scope of the theorem; `#define F(x, y) x ## y # x`
is: `F(a b, 1)` becomes `a b1 "a b"`. -/

def exampleBody : List Tok :=
  [.ident ['x'] false, .ws false, .punct .doubleHash, .ws false, .ident ['y'] false, .ws false,
    .punct .hash, .ident ['x'] false]

def exampleArgs : List (List Tok) :=
  [[.ident ['a'] false, .ws false, .ident ['b'] false], [.number ['1']]]

def examplePieces : List Piece := [.paste (.param ['x']) (.param ['y']) [], .str ['x']]

example (fmt : List Tok → Res (List Char))
    (hf : fmt [.ident ['a'] false, .ws false, .ident ['b'] false] = .ok ['a', ' ', 'b']) :
    ∃ b k0, (∀ k, k0 ≤ k → applyMacro fmt k ⟨['F'], some ([['x'], ['y']], false), exampleBody⟩
        (some exampleArgs) = .ok b) ∧
      noWs b = [.ident ['a'] false, .ident ['b', '1'] false, .string ['a', ' ', 'b']] := by
  have hok : ∀ p ∈ examplePieces, p.ok (formals [['x'], ['y']] false) true
      (valueOf (formals [['x'], ['y']] false) exampleArgs) := by
    have key : ∀ n v, valueOf (formals [['x'], ['y']] false) exampleArgs n = some v → ∀ t ∈ v,
        Literal (formals [['x'], ['y']] false) true t := by
      intro n v hv
      have := valueOf_mem _ _ _ _ hv
      simp only [exampleArgs, List.mem_cons, List.not_mem_nil, or_false] at this
      rcases this with rfl | rfl <;> simp [Literal, formals]
    intro p hp
    simp only [examplePieces, List.mem_cons, List.not_mem_nil, or_false] at hp
    rcases hp with rfl | rfl
    · intro x hx
      simp only [List.mem_cons, List.not_mem_nil, or_false] at hx
      rcases hx with rfl | rfl
      · exact ⟨by simp [Operand.ok, formals], fun n v _ hv => key n v hv⟩
      · exact ⟨by simp [Operand.ok, formals], fun n v _ hv => key n v hv⟩
    · exact ⟨rfl, by simp [formals]⟩
  have hr : Replaced (fun v => (fmt v).toOption) (valueOf (formals [['x'], ['y']] false) exampleArgs)
      (Literal (formals [['x'], ['y']] false) true) examplePieces
      [.ident ['a'] false, .ident ['b', '1'] false, .string ['a', ' ', 'b']] := by
    refine .paste (acc := [.ident ['a'] false] ++ [.ident ['b'] false]) ?_
      (.cons (y := .number ['1']) (ys := []) (z := .ident ['b', '1'] false) rfl
        (.identNumber _ _ _ (by decide)) ?_ (.nil _)) (.str (v := exampleArgs[0]) rfl ?_ .nil)
    · rfl
    · exact ⟨by simp, by simp, by simp [formals]⟩
    · show (fmt _).toOption = _
      rw [show exampleArgs[0] = [.ident ['a'] false, .ws false, .ident ['b'] false] from rfl, hf]
      rfl
  obtain ⟨b, k0, h1, h2⟩ := C59_function_like_partial fmt ⟨['F'], some ([['x'], ['y']], false), exampleBody⟩
    [['x'], ['y']] false exampleArgs examplePieces _ rfl (by decide) rfl
    (by simp [exampleArgs, Trimmed, Tok.isWs]) rfl hok hr
  exact ⟨b, k0, h1, by rw [h2]; rfl⟩

/-- `#define J < ## < ## =` is `<<=`. -/
example (fmt : List Tok → Res (List Char)) :
    ∃ b k0, (∀ k, k0 ≤ k → applyMacro fmt k ⟨['J'], none,
        [.punct .lessThan, .punct .doubleHash, .punct .lessThan, .punct .doubleHash, .punct .assign]⟩
        none = .ok b) ∧ noWs b = [.punct .assignShiftLeft] := by
  refine C59_object_like_partial fmt _
    [.paste (.tok (.punct .lessThan)) (.tok (.punct .lessThan)) [.tok (.punct .assign)]]
    [.punct .assignShiftLeft] rfl rfl ?_ ?_
  · intro p hp
    simp only [List.mem_cons, List.not_mem_nil, or_false] at hp
    subst hp
    intro x hx
    simp only [List.mem_cons, List.not_mem_nil, or_false] at hx
    rcases hx with rfl | rfl | rfl <;> exact ⟨⟨⟨by simp, by simp, by simp⟩, rfl⟩, by simp⟩
  · refine .paste (acc := [] ++ [.punct .lessThan]) rfl (.cons (xs := []) rfl
      (.punct _ _ .leftShift (by decide)) ⟨by simp, by simp, by simp⟩
      (.cons (xs := []) (y := .punct .assign) (ys := []) rfl
        (.punct _ _ .assignShiftLeft (by decide)) ⟨by simp, by simp, by simp⟩ (.nil _))) .nil

/-! ## Where the operators depart from C17 -/

/-- **C59 does not hold** for `1e ## +`, which spells the preprocessing number `1e+`: the macro is
rejected. -/
theorem C59_number_sign_false (fmt : List Tok → Res (List Char)) (k : Nat) :
    applyMacro fmt (k + 1) ⟨['M'], none, [.number ['1', 'e'], .punct .doubleHash, .punct .plus]⟩ none =
      .err .lexerError := by
  simp [applyMacro, substBody, matchConcatenation, Tok.isWs, macroConcatenation, resolveLeft,
    resolveRight, concatTokens, List.dropWhile]

/-- **C59 does not hold** for `# x ## y`: the operator `##` is left in the replacement. -/
theorem C59_stringize_operand_false (fmt : List Tok → Res (List Char)) (k : Nat)
    (hf : fmt [.number ['1']] = .ok ['1']) :
    applyMacro fmt (k + 4) ⟨['M'], some ([['x'], ['y']], false),
      [.punct .hash, .ident ['x'] false, .punct .doubleHash, .ident ['y'] false]⟩
      (some [[.number ['1']], []]) = .ok [.string ['1'], .punct .doubleHash] := by
  simp [applyMacro, buildArgs, Args.insert, Args.find, substBody, matchConcatenation, Tok.isWs, hf,
    finish, paint, List.dropWhile]

end Kefir.Preproc.Spec
