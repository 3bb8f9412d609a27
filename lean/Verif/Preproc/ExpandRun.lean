import Verif.Preproc.ExpandLemmas

/-!
# How the model runs on first-order texts
-/

namespace Kefir.Preproc.Spec

open Kefir.Preproc Kefir.Lexer

/-! ## Substitution in the body -/

theorem dropWs_eq_nil {l : List Tok} (h : ∀ t ∈ l, t.isWs = true) : l.dropWhile Tok.isWs = [] := by
  induction l with
  | nil => rfl
  | cons t l ih => simp [h t (by simp), ih fun x hx => h x (by simp [hx])]

theorem dropWs_subset {l : List Tok} {t : Tok} (h : t ∈ l.dropWhile Tok.isWs) : t ∈ l :=
  (List.dropWhile_sublist _).subset h

theorem matchConc_none (args : Option Args) (t : Tok) {seq : List Tok}
    (h : .punct .doubleHash ∉ seq) : matchConcatenation args t seq = .ok none := by
  rw [matchConcatenation]
  split
  · rfl
  · split
    · rename_i rest e
      exact absurd (dropWs_subset (by rw [e]; simp)) h
    · rfl

/-- The replacement of a body token. -/
def substTok (tree : Args) (t : Tok) : List Tok :=
  match t with
  | .ident k s =>
    match tree.find k with
    | some v => v
    | none => [.ident k s]
  | t => [t]

theorem substBody_some (fmt : List Tok → Res (List Char)) (tree : Args) : ∀ (l : List Tok) (n : Nat)
    (acc : List Tok), l.length < n → .punct .doubleHash ∉ l → .punct .hash ∉ l →
    substBody fmt (some tree) n l acc = .ok (acc ++ l.flatMap (substTok tree))
  | [], n + 1, acc, _, _, _ => by simp [substBody]
  | t :: l, n + 1, acc, hl, h1, h2 => by
    simp only [List.length_cons] at hl
    have h1' : .punct .doubleHash ∉ l := fun h => h1 (by simp [h])
    have h2' : .punct .hash ∉ l := fun h => h2 (by simp [h])
    have ih := fun acc => substBody_some fmt tree l n acc (by omega) h1' h2'
    rw [substBody.eq_def]
    dsimp only
    rw [matchConc_none _ _ h1']
    cases t with
    | ident k s =>
      dsimp only
      rw [List.flatMap_cons]
      cases hf : tree.find k with
      | some v => simp only [ih, substTok, hf, List.append_assoc]
      | none => simp only [ih, substTok, hf, List.append_assoc]
    | punct p =>
      by_cases hp : p = .hash
      · subst hp; simp at h2
      · have : substBody fmt (some tree) n l (acc ++ [.punct p]) =
            .ok (acc ++ (Tok.punct p :: l).flatMap (substTok tree)) := by
          simp only [ih, List.flatMap_cons, substTok, List.append_assoc]
        rw [← this]
        dsimp only
        split
        · rename_i h; cases h
        · rename_i h; cases h; exact absurd rfl hp
        · rfl
    | _ => simp only [ih, List.flatMap_cons, substTok, List.append_assoc]

theorem substBody_none (fmt : List Tok → Res (List Char)) : ∀ (l : List Tok) (n : Nat)
    (acc : List Tok), l.length < n → .punct .doubleHash ∉ l →
    substBody fmt none n l acc = .ok (acc ++ l)
  | [], n + 1, acc, _, _ => by simp [substBody]
  | t :: l, n + 1, acc, hl, h1 => by
    simp only [List.length_cons] at hl
    have h1' : .punct .doubleHash ∉ l := fun h => h1 (by simp [h])
    have ih := fun acc => substBody_none fmt l n acc (by omega) h1'
    rw [substBody.eq_def]
    dsimp only
    rw [matchConc_none _ _ h1']
    simp [ih]

theorem find_append (t1 t2 : Args) (n : Name) :
    Args.find (t1 ++ t2) n = (Args.find t1 n).or (Args.find t2 n) := by
  induction t1 with
  | nil => simp [Args.find]
  | cons p t ih =>
    obtain ⟨m, v⟩ := p
    simp only [List.cons_append, Args.find]
    split
    · simp
    · exact ih

theorem find_zip : ∀ (fs : List Name) (vs : List (List Tok)) (n : Name),
    Args.find (fs.zip vs) n = valueOf fs vs n
  | [], _, n => by simp [Args.find, valueOf]
  | f :: fs, [], n => by simp [Args.find, valueOf]
  | f :: fs, v :: vs, n => by simp [Args.find, valueOf, find_zip fs vs n]

theorem find_zip_none {fs : List Name} {vs : List (List Tok)} {n : Name} (h : n ∉ fs) :
    Args.find (fs.zip vs) n = none := by
  induction fs generalizing vs with
  | nil => simp [Args.find]
  | cons f fs ih =>
    simp only [List.mem_cons, not_or] at h
    cases vs with
    | nil => simp [Args.find]
    | cons v vs => simp [Args.find, Ne.symm h.1, ih h.2]

theorem formals_eq (ps : List Name) (v : Bool) :
    formals ps v = ps ++ if v then [vaArgs] else [] := rfl

/-- The arguments by name. -/
theorem buildArgs_ok (v : Bool) : ∀ (ps : List Name) (as : List (List Tok)) (tree : Args),
    as.length = ps.length + (if v then 1 else 0) → (formals ps v).Nodup →
    (∀ p ∈ formals ps v, Args.find tree p = none) →
    buildArgs v ps as tree = .ok (tree ++ (formals ps v).zip as)
  | [], as, tree, hl, hn, ht => by
    cases v with
    | false =>
      cases as with
      | nil => simp [buildArgs, formals]
      | cons a as => simp at hl
    | true =>
      match as, hl with
      | [a], _ =>
        have := ht vaArgs (by simp [formals_eq])
        simp [buildArgs, Args.insert, this, formals_eq]
  | p :: ps, [], tree, hl, _, _ => by simp at hl; omega
  | p :: ps, a :: as, tree, hl, hn, ht => by
    have hp : Args.find tree p = none := ht p (by simp [formals])
    have hf : formals (p :: ps) v = p :: formals ps v := by simp [formals]
    rw [hf] at hn ht ⊢
    rw [List.nodup_cons] at hn
    rw [buildArgs, Args.insert, hp]
    simp only
    rw [buildArgs_ok v ps as _ (by simp at hl; omega) hn.2]
    · simp
    · intro q hq
      rw [find_append, ht q (by simp [hq])]
      have : p ≠ q := by rintro rfl; exact hn.1 hq
      simp [Args.find, this]

theorem valueOf_map : ∀ (fs : List Name) (vs : List (List Tok)) (n : Name),
    valueOf fs (vs.map strip) n = (valueOf fs vs n).map strip
  | [], vs, n => by cases vs <;> simp [valueOf]
  | f :: fs, [], n => by simp [valueOf]
  | f :: fs, v :: vs, n => by
    simp only [List.map_cons, valueOf]
    split
    · rfl
    · exact valueOf_map fs vs n

theorem valueOf_dom : ∀ (fs : List Name) (vs : List (List Tok)) (n : Name), vs.length = fs.length →
    ((valueOf fs vs n).isSome ↔ n ∈ fs)
  | [], vs, n, _ => by cases vs <;> simp [valueOf]
  | f :: fs, [], n, h => by simp at h
  | f :: fs, v :: vs, n, h => by
    simp only [valueOf, List.mem_cons]
    split
    · rename_i h; simp [h]
    · rename_i hne
      rw [valueOf_dom fs vs n (by simpa using h)]
      simp [Ne.symm hne]

theorem valueOf_mem : ∀ (fs : List Name) (vs : List (List Tok)) (n : Name) (x : List Tok),
    valueOf fs vs n = some x → x ∈ vs
  | [], vs, n, x, h => by cases vs <;> simp [valueOf] at h
  | f :: fs, [], n, x, h => by simp [valueOf] at h
  | f :: fs, v :: vs, n, x, h => by
    simp only [valueOf] at h
    split at h
    · simp at h; simp [h]
    · exact List.mem_cons_of_mem _ (valueOf_mem fs vs n x h)

/-- Closed arguments, of which only the last one of a variadic macro may contain commas. -/
def ArgsClosed (v : Bool) : List (List Tok) → Prop
  | [] => True
  | a :: as => TClosed (v && as.isEmpty) 0 a ∧ ArgsClosed v as

theorem valueOf_closed (v : Bool) : ∀ (ps : List Name) (vs : List (List Tok)) (n : Name)
    (x : List Tok), vs.length = ps.length + (if v then 1 else 0) → ArgsClosed v vs →
    valueOf (formals ps v) vs n = some x → TClosed (v && decide (n = vaArgs)) 0 x
  | [], vs, n, x, hl, hc, h => by
    cases v with
    | false => cases vs <;> simp [formals, valueOf] at h
    | true =>
      match vs, hl, hc, h with
      | [a], _, hc, h =>
        rw [formals_eq, List.nil_append, if_pos rfl, valueOf] at h
        split at h
        · rename_i hn
          simp only [Option.some.injEq] at h
          subst h
          simp only [ArgsClosed] at hc
          have : n = vaArgs := hn.symm
          simpa [this] using hc.1
        · simp [valueOf] at h
  | p :: ps, [], n, x, hl, _, h => by simp at hl; omega
  | p :: ps, a :: as, n, x, hl, hc, h => by
    have hf : formals (p :: ps) v = p :: formals ps v := by simp [formals]
    rw [hf, valueOf] at h
    split at h
    · simp only [Option.some.injEq] at h
      subst h
      refine tclosed_mono ?_ _ _ hc.1
      intro hx
      cases v with
      | false => simp at hx
      | true =>
        cases as with
        | nil => simp at hl
        | cons _ _ => simp at hx
    · exact valueOf_closed v ps as n x (by simp at hl; omega) hc.2 h

/-! ## Scanning arguments -/

theorem appendTok_last (xs : List (List Tok)) (y : List Tok) (t : Tok) :
    appendTok (xs ++ [y]) t = xs ++ [y ++ [t]] := by
  simp [appendTok]

theorem foldl_append (xs : List (List Tok)) : ∀ (a y : List Tok),
    a.foldl appendTok (xs ++ [y]) = xs ++ [y ++ a]
  | [], y => by simp
  | t :: a, y => by
    rw [List.foldl_cons, appendTok_last, foldl_append xs a]
    simp

theorem foldl_append_nil (a : List Tok) :
    a.foldl appendTok [] = if a = [] then [] else [a] := by
  cases a with
  | nil => simp
  | cons t a =>
    have := foldl_append [] a [t]
    simp only [List.nil_append] at this
    simp [appendTok, this]

theorem scan_closed {v c : Bool} : ∀ (a : List Tok) (e : Nat) (args : List (List Tok)) (rem : Nat)
    (rest : List Tok), TClosed c e a → (c = true → rem = 0 ∧ v = true) → .sentinel ∉ a →
    scanArgs v (a ++ rest) args rem e = scanArgs v rest (a.foldl appendTok args) rem 0
  | [], e, args, rem, rest, h, _, _ => by simp only [TClosed] at h; subst h; rfl
  | t :: a, e, args, rem, rest, h, hc, hs => by
    have hs' : .sentinel ∉ a := fun h => hs (by simp [h])
    rw [TClosed] at h
    rw [List.cons_append, scanArgs.eq_def, List.foldl_cons]
    dsimp only
    by_cases h1 : t = .punct .leftParenthese
    · subst h1
      rw [if_pos rfl] at h
      exact scan_closed a (e + 1) _ rem rest h hc hs'
    · rw [if_neg h1] at h
      by_cases h2 : t = .punct .rightParenthese
      · subst h2
        rw [if_pos rfl] at h
        dsimp only
        rw [if_pos h.1]
        exact scan_closed a (e - 1) _ rem rest h.2 hc hs'
      · rw [if_neg h2] at h
        by_cases h3 : t = .punct .comma
        · subst h3
          rw [if_pos rfl] at h
          dsimp only
          by_cases he : e = 0
          · have hct := h.1.resolve_left (by omega)
            obtain ⟨hr, hv⟩ := hc hct
            rw [if_pos he, if_pos hr, if_pos hv]
            exact scan_closed a e _ rem rest h.2 hc hs'
          · rw [if_neg he]
            exact scan_closed a e _ rem rest h.2 hc hs'
        · rw [if_neg h3] at h
          have ih := scan_closed a e (appendTok args t) rem rest h hc hs'
          split
          · exact absurd rfl h1
          · exact absurd rfl h2
          · exact absurd rfl h3
          · simp at hs
          · exact ih

theorem scan_right (v : Bool) (rest : List Tok) (args : List (List Tok)) (rem : Nat) :
    scanArgs v (.punct .rightParenthese :: rest) args rem 0 = .ok (args, rest) := by
  rw [scanArgs.eq_def]; simp

theorem scan_comma (v : Bool) (rest : List Tok) (args : List (List Tok)) (rem : Nat) (h0 : rem ≠ 0)
    (h : 1 < rem ∨ v = true) :
    scanArgs v (.punct .comma :: rest) args rem 0 =
      scanArgs v (rest.dropWhile Tok.isWs) ((if args.length = 0 then [[]] else args) ++ [[]])
        (rem - 1) 0 := by
  rw [scanArgs.eq_def]
  dsimp only
  rw [if_pos rfl, if_neg h0, if_pos]
  simp only [Bool.or_eq_true, decide_eq_true_eq]
  rcases h with h | h
  · left; omega
  · right; exact h

abbrev dropWs (l : List Tok) : List Tok := l.dropWhile Tok.isWs

theorem tclosed_dropWs {c d a} (h : TClosed c d a) : TClosed c d (dropWs a) := by
  rw [← tclosed_strip, strip_dropWhile, tclosed_strip]; exact h

theorem scan_join (v : Bool) (rest : List Tok) : ∀ (as : List (List Tok)) (a : List Tok)
    (xs : List (List Tok)) (rem : Nat), as.length + 1 = rem + (if v then 1 else 0) →
    ArgsClosed v (a :: as) → (∀ b ∈ a :: as, .sentinel ∉ b) →
    scanArgs v (dropWs (joinCommas (a :: as) ++ .punct .rightParenthese :: rest)) (xs ++ [[]]) rem 0
      = .ok (xs ++ (a :: as).map dropWs, rest)
  | [], a, xs, rem, hl, hc, hs => by
    rw [joinCommas, dropWs, dropWhile_append_head _ _ _ (by rfl)]
    rw [scan_closed (c := v) _ 0 _ _ _ (tclosed_dropWs (by simpa [ArgsClosed] using hc.1)), 
      foldl_append, scan_right]
    · simp
    · rintro rfl
      simp at hl
      exact ⟨hl, rfl⟩
    · exact fun h => hs a (by simp) (dropWs_subset h)
  | b :: bs, a, xs, rem, hl, hc, hs => by
    rw [joinCommas, List.append_assoc, List.cons_append, dropWs,
      dropWhile_append_head _ _ _ (by rfl)]
    rw [scan_closed (c := false) _ 0 _ _ _ (tclosed_dropWs (by simpa using hc.1)) (by simp)
      (fun h => hs a (by simp) (dropWs_subset h)), foldl_append]
    simp only [List.length_cons] at hl
    rw [scan_comma _ _ _ _ (by split at hl <;> omega) (by
      cases v with
      | true => exact .inr rfl
      | false => left; simp at hl; omega)]
    rw [if_neg (by simp)]
    have := scan_join v rest bs b (xs ++ [dropWs a]) (rem - 1) (by split at hl <;> simp_all <;> omega)
      hc.2 (fun x hx => hs x (by simp at hx ⊢; right; exact hx))
    simpa [dropWs] using this

theorem scan_all (v : Bool) (rest : List Tok) (as : List (List Tok)) (a : List Tok) (argc : Nat)
    (hl : as.length + 1 = argc + (if v then 1 else 0))
    (hc : ArgsClosed v (a :: as)) (hs : ∀ b ∈ a :: as, .sentinel ∉ b) :
    scanArgs v (dropWs (joinCommas (a :: as) ++ .punct .rightParenthese :: rest)) [] argc 0
      = .ok (if as = [] ∧ dropWs a = [] then [] else (a :: as).map dropWs, rest) := by
  cases as with
  | nil =>
    rw [joinCommas, dropWs, dropWhile_append_head _ _ _ (by rfl)]
    rw [scan_closed (c := v) _ 0 _ _ _ (tclosed_dropWs (by simpa [ArgsClosed] using hc.1)), 
      foldl_append_nil, scan_right]
    · by_cases h : dropWs a = [] <;> simp [h]
    · rintro rfl
      simp at hl
      exact ⟨hl, rfl⟩
    · exact fun h => hs a (by simp) (dropWs_subset h)
  | cons b bs =>
    rw [joinCommas, List.append_assoc, List.cons_append, dropWs,
      dropWhile_append_head _ _ _ (by rfl)]
    rw [scan_closed (c := false) _ 0 _ _ _ (tclosed_dropWs (by simpa using hc.1)) (by simp)
      (fun h => hs a (by simp) (dropWs_subset h)), foldl_append_nil]
    simp only [List.length_cons] at hl
    rw [scan_comma _ _ _ _ (by split at hl <;> omega) (by
      cases v with
      | true => exact .inr rfl
      | false => left; simp at hl; omega)]
    have := scan_join v rest bs b [dropWs a] (argc - 1) (by split at hl <;> simp_all <;> omega)
      hc.2 (fun x hx => hs x (by simp at hx ⊢; right; exact hx))
    by_cases h : dropWs a = []
    · rw [h] at this
      simpa [h, dropWs] using this
    · simpa [h, dropWs] using this

/-- `scan_function_macro_arguments` on an invocation. -/
theorem scanArguments_ok (run : List Tok → Out (List Tok)) (argc : Nat) (v : Bool)
    (As : List (List Tok)) (inner rest : List Tok)
    (hl : As.length = argc + (if v then 1 else 0))
    (hi : if As = [] then strip inner = [] else inner = joinCommas As)
    (hc : ArgsClosed v As) (hs : ∀ b ∈ As, .sentinel ∉ b) :
    scanArguments run argc v (.punct .leftParenthese :: (inner ++ .punct .rightParenthese :: rest)) =
      (mapOut (fun a => (run a).bind fun r => .ok (dropTrailingWs r)) (As.map dropWs)).bind
        fun as => .ok (as, rest) := by
  rw [scanArguments, List.drop_one, List.tail_cons]
  cases As with
  | nil =>
    rw [if_pos rfl] at hi
    have hw : inner.dropWhile Tok.isWs = [] := dropWs_eq_nil (strip_eq_nil hi)
    rw [dropWhile_append_head _ _ _ (by rfl), hw, List.nil_append, scan_right]
    have h0 : argc = 0 ∧ v = false := by
      cases v
      · simp at hl; exact ⟨hl.symm, rfl⟩
      · simp at hl
    obtain ⟨rfl, rfl⟩ := h0
    simp
  | cons a as =>
    rw [if_neg (by simp)] at hi
    subst hi
    rw [scan_all v rest as a argc (by simpa using hl) hc hs]
    dsimp only
    by_cases h : as = [] ∧ dropWs a = []
    · rw [if_pos h]
      obtain ⟨rfl, h⟩ := h
      have : argc = 1 ∨ v = true := by
        cases v
        · left; simpa using hl.symm
        · right; rfl
      have hif : (if (decide (([] : List (List Tok)).length = 0) && (decide (argc = 1) || v)) = true
          then [[]] else ([] : List (List Tok))) = [[]] := if_pos (by simpa using this)
      rw [hif, if_pos (by simpa using hl)]
      rw [List.map_cons, List.map_nil, h]
    · rw [if_neg h]
      have hif : (if (decide (((a :: as).map dropWs).length = 0) && (decide (argc = 1) || v)) = true
          then [[]] else (a :: as).map dropWs) = (a :: as).map dropWs := if_neg (by simp)
      rw [hif, if_pos (by simpa using hl)]

/-! ## Runs -/

section
variable (fmt : List Tok → Res (List Char)) (macros : Name → Option Macro)

/-- The scan turns the tokens `toks` at the front of the sequence into `res`. -/
def Runs (toks res : List Tok) : Prop :=
  ∃ N M, ∀ k, M ≤ k → ∀ rest acc, expand fmt macros (k + N) .normal (toks ++ rest) acc =
    expand fmt macros k .normal rest (acc ++ res)

variable {fmt macros}

theorem Runs.nil : Runs fmt macros [] [] := ⟨0, 0, by simp⟩

theorem Runs.append {a b ra rb} (h1 : Runs fmt macros a ra) (h2 : Runs fmt macros b rb) :
    Runs fmt macros (a ++ b) (ra ++ rb) := by
  obtain ⟨N1, M1, h1⟩ := h1
  obtain ⟨N2, M2, h2⟩ := h2
  refine ⟨N2 + N1, max M1 M2, fun k hk rest acc => ?_⟩
  rw [← Nat.add_assoc, List.append_assoc, h1 _ (by omega), h2 _ (by omega), List.append_assoc]

theorem Runs.plain {t : Tok} (h : ∀ n s, t = .ident n s → s = true ∨ macros n = none) :
    Runs fmt macros [t] [t] := by
  refine ⟨1, 0, fun k _ rest acc => ?_⟩
  rw [List.singleton_append, expand.eq_def]
  cases t with
  | ident n s =>
    rcases h n s rfl with rfl | h'
    · simp
    · cases s with
      | true => simp
      | false =>
        simp only [Bool.not_false, Bool.true_or, if_true]
        rw [substIdentifier, if_neg (by simp), h']
        simp
  | _ => rfl

theorem Runs.plains {l : List Tok} (h : ∀ t ∈ l, ∀ n s, t = .ident n s → s = true ∨ macros n = none) :
    Runs fmt macros l l := by
  induction l with
  | nil => exact .nil
  | cons t l ih =>
    exact (Runs.plain (h t (by simp))).append (ih fun x hx => h x (by simp [hx]))

theorem Runs.spaces {l : List Tok} (h : ∀ t ∈ l, t.isWs = true) : Runs fmt macros l l :=
  .plains fun t ht n s e => by
    have := h t ht
    rw [e] at this
    simp [Tok.isWs] at this

theorem Runs.joins : ∀ {As Rs : List (List Tok)}, As.length = Rs.length →
    (∀ i (h : i < As.length) (h' : i < Rs.length), Runs fmt macros As[i] Rs[i]) →
    Runs fmt macros (joinCommas As) (joinCommas Rs)
  | [], [], _, _ => .nil
  | [a], [r], _, h => h 0 (by simp) (by simp)
  | a :: b :: As, r :: s :: Rs, hl, h => by
    have ih := Runs.joins (As := b :: As) (Rs := s :: Rs) (by simpa using hl)
      (fun i h1 h2 => h (i + 1) (by simpa using h1) (by simpa using h2))
    have hc : Runs fmt macros [.punct .comma] [.punct .comma] := .plain (by simp)
    exact (h 0 (by simp) (by simp)).append (hc.append ih)
  | [], _ :: _, hl, _ => by simp at hl
  | _ :: _, [], hl, _ => by simp at hl
  | [_], _ :: _ :: _, hl, _ => by simp at hl
  | _ :: _ :: _, [_], hl, _ => by simp at hl

/-- Replacing an object-like macro. -/
theorem Runs.object {n : Name} {m : Macro} {b rb : List Tok} {K : Nat} (hm : macros n = some m)
    (hp : m.params = none) (ha : ∀ k, K ≤ k → applyMacro fmt k m none = .ok b)
    (hb : Runs fmt macros b rb) : Runs fmt macros [.ident n false] rb := by
  obtain ⟨N, M, hb⟩ := hb
  refine ⟨N + 1, max M K, fun k hk rest acc => ?_⟩
  rw [← Nat.add_assoc, List.singleton_append, expand.eq_def]
  simp only [Bool.not_false, Bool.true_or, if_true]
  rw [substIdentifier, if_neg (by simp), hm]
  simp only [hp, ha (k + N) (by omega), Out.bind]
  exact hb k (by omega) rest acc

/-- Complete replacement of a text on its own. -/
theorem pragma_ok : ∀ (l acc : List Tok), (∀ n s, .ident n s ∈ l → n ≠ pragmaName) →
    pragmaPass l acc = .ok (acc ++ l)
  | [], acc, _ => by rw [pragmaPass]; simp
  | t :: l, acc, h => by
    have ih := fun acc => pragma_ok l acc (fun n s hx => h n s (by simp [hx]))
    rw [pragmaPass.eq_def]
    cases t with
    | ident n s =>
      dsimp only
      rw [if_neg (h n s (by simp)), ih]
      simp
    | _ => dsimp only; rw [ih]; simp

theorem Runs.alone {toks res : List Tok} (h : Runs fmt macros toks res)
    (hp : ∀ n s, .ident n s ∈ res → n ≠ pragmaName) :
    ∃ K, ∀ k, K ≤ k → (expand fmt macros k .normal toks []).bind
      (fun r => liftRes (pragmaPass r [])) = .ok res := by
  obtain ⟨N, M, h⟩ := h
  refine ⟨max M 1 + N, fun k hk => ?_⟩
  have := h (k - N) (by omega) [] []
  rw [Nat.sub_add_cancel (by omega), List.append_nil] at this
  rw [this, show k - N = (k - N - 1) + 1 by omega, expand]
  simp [pragma_ok res [] hp]

theorem mapOut_ok {α β : Type} {f : α → Out β} : ∀ {as : List α} {bs : List β},
    as.length = bs.length → (∀ i (h : i < as.length) (h' : i < bs.length), f as[i] = .ok bs[i]) →
    mapOut f as = .ok bs
  | [], [], _, _ => rfl
  | a :: as, b :: bs, hl, h => by
    have h0 := h 0 (by simp) (by simp)
    simp only [List.getElem_cons_zero] at h0
    rw [mapOut, h0, mapOut_ok (as := as) (bs := bs) (by simpa using hl)
      (fun i h1 h2 => h (i + 1) (by simpa using h1) (by simpa using h2))]
    rfl
  | [], _ :: _, hl, _ => by simp at hl
  | _ :: _, [], hl, _ => by simp at hl

/-- Replacing an invocation. -/
theorem Runs.call {n : Name} {m : Macro} {ps : List Name} {v : Bool} {w inner : List Tok}
    {As Rs : List (List Tok)} {b rb : List Tok} {K : Nat}
    (hm : macros n = some m) (hp : m.params = some (ps, v))
    (hw : ∀ t ∈ w, t.isWs = true)
    (hl : As.length = ps.length + (if v then 1 else 0))
    (hi : if As = [] then strip inner = [] else inner = joinCommas As)
    (hc : ArgsClosed v As) (hs : ∀ b ∈ As, .sentinel ∉ b)
    (hlr : As.length = Rs.length)
    (hr : ∀ i (h : i < As.length) (h' : i < Rs.length), Runs fmt macros (dropWs As[i]) Rs[i])
    (hpr : ∀ r ∈ Rs, ∀ n s, .ident n s ∈ r → n ≠ pragmaName)
    (ha : ∀ k, K ≤ k → applyMacro fmt k m (some (Rs.map dropTrailingWs)) = .ok b)
    (hb : Runs fmt macros b rb) :
    Runs fmt macros (.ident n false :: (w ++ .punct .leftParenthese ::
      (inner ++ [.punct .rightParenthese]))) rb := by
  obtain ⟨N, M, hb⟩ := hb
  have hargs : ∃ K', ∀ k, K' ≤ k → mapOut (fun a =>
      ((expand fmt macros k .normal a []).bind fun r => liftRes (pragmaPass r [])).bind
        fun r => .ok (dropTrailingWs r)) (As.map dropWs) = .ok (Rs.map dropTrailingWs) := by
    clear hi hl hc hs ha hb
    induction As generalizing Rs with
    | nil =>
      cases Rs with
      | nil => exact ⟨0, fun _ _ => rfl⟩
      | cons _ _ => simp at hlr
    | cons a As ih =>
      cases Rs with
      | nil => simp at hlr
      | cons r Rs =>
        obtain ⟨K1, h1⟩ := ih (Rs := Rs) (by simpa using hlr)
          (fun i h1 h2 => hr (i + 1) (by simpa using h1) (by simpa using h2))
          (fun x hx => hpr x (by simp [hx]))
        obtain ⟨K2, h2⟩ := (hr 0 (by simp) (by simp)).alone (hpr r (by simp))
        refine ⟨max K1 K2, fun k hk => ?_⟩
        have e1 := h1 k (by omega)
        have e2 := h2 k (by omega)
        simp only [List.getElem_cons_zero] at e2
        rw [List.map_cons, mapOut, e2, List.map_cons]
        simp only [Out.bind] at e1 ⊢
        rw [e1]
  obtain ⟨K', hargs⟩ := hargs
  refine ⟨N + 1, max (max M K) K', fun k hk rest acc => ?_⟩
  have hseq : (Tok.ident n false :: (w ++ .punct .leftParenthese ::
      (inner ++ [.punct .rightParenthese]))) ++ rest = .ident n false :: (w ++ .punct .leftParenthese ::
      (inner ++ .punct .rightParenthese :: rest)) := by simp
  rw [hseq, ← Nat.add_assoc, expand.eq_def]
  simp only [Bool.not_false, Bool.true_or, if_true]
  rw [substIdentifier, if_neg (by simp), hm]
  simp only [hp]
  have hdw : (w ++ Tok.punct .leftParenthese :: (inner ++ .punct .rightParenthese :: rest)).dropWhile
      Tok.isWs = .punct .leftParenthese :: (inner ++ .punct .rightParenthese :: rest) := by
    rw [dropWhile_append_head _ _ _ (by rfl), dropWs_eq_nil hw, List.nil_append]
  rw [hdw]
  simp only
  rw [scanArguments_ok _ ps.length v As inner rest hl hi hc hs, hargs (k + N) (by omega)]
  simp only [Out.bind, ha (k + N) (by omega)]
  exact hb k (by omega) rest acc

end

end Kefir.Preproc.Spec
