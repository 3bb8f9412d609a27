import Verif.Preproc.Subst

/-!
# Where macro replacement departs from C17 6.10.3
-/

namespace Kefir.Preproc

open Kefir.Lexer

/-- **C33 does not hold**: with `#define f g` and `#define g f` the preprocessor never finishes on
`f` (only the name of the macro being replaced is marked as unavailable in its replacement, so `f`
becomes `g`, `g` becomes `f`, and so on); C17 6.10.3.4p2 requires that it stops at `f`. -/
theorem C33_mutual_recursion_false (fmt : List Tok → Res (List Char)) (macros : Name → Option Macro)
    (hf : macros ['f'] = some ⟨['f'], none, [.ident ['g'] false]⟩)
    (hg : macros ['g'] = some ⟨['g'], none, [.ident ['f'] false]⟩) :
    ∀ n, runSubstitutions fmt macros n .normal [.ident ['f'] false] = .fuel := by
  have key : ∀ n acc, expand fmt macros n .normal [.ident ['f'] false] acc = .fuel ∧
      expand fmt macros n .normal [.ident ['g'] false] acc = .fuel := by
    intro n
    induction n with
    | zero => simp [expand]
    | succ n ih =>
      intro acc
      have hb : ∀ x y : Name, (applyMacro fmt n ⟨x, none, [.ident y false]⟩ none) = .fuel ∨
          (applyMacro fmt n ⟨x, none, [.ident y false]⟩ none) = .ok [paint x (.ident y false)] := by
        intro x y
        match n with
        | 0 => left; simp [applyMacro, substBody]
        | 1 => left; simp [applyMacro, substBody, matchConcatenation, Tok.isWs]
        | k + 2 =>
          right
          simp only [applyMacro, substBody, matchConcatenation, Tok.isWs, Out.bind, finish]
          by_cases h : y = x <;> simp [paint, h]
      constructor
      · rw [expand]
        simp only [Bool.not_false, Bool.true_or, if_true, substIdentifier, hf]
        rcases hb ['f'] ['g'] with h | h
        · rw [h]; simp [definedName]
        · rw [h]; simpa [definedName, paint] using (ih acc).2
      · rw [expand]
        simp only [Bool.not_false, Bool.true_or, if_true, substIdentifier, hg]
        rcases hb ['g'] ['f'] with h | h
        · rw [h]; simp [definedName]
        · rw [h]; simpa [definedName, paint] using (ih acc).1
  intro n
  rw [runSubstitutions, (key n []).1]
  rfl

/-- **C33 does not hold** in `#if`: with `#define x x` the condition `#if x` is never evaluated (the
marks are ignored there). -/
theorem C33_if_condition_false (fmt : List Tok → Res (List Char)) (macros : Name → Option Macro)
    (hx : macros ['x'] = some ⟨['x'], none, [.ident ['x'] false]⟩) :
    ∀ n, runSubstitutions fmt macros n .ifCondition [.ident ['x'] false] = .fuel := by
  have key : ∀ n s acc, expand fmt macros n .ifCondition [.ident ['x'] s] acc = .fuel := by
    intro n
    induction n with
    | zero => simp [expand]
    | succ n ih =>
      intro s acc
      have hb : (applyMacro fmt n ⟨['x'], none, [.ident ['x'] false]⟩ none) = .fuel ∨
          (applyMacro fmt n ⟨['x'], none, [.ident ['x'] false]⟩ none) = .ok [.ident ['x'] true] := by
        match n with
        | 0 => left; simp [applyMacro, substBody]
        | 1 => left; simp [applyMacro, substBody, matchConcatenation, Tok.isWs]
        | k + 2 =>
          right
          simp [applyMacro, substBody, matchConcatenation, Tok.isWs, finish, paint]
      rw [expand]
      simp only [decide_true, Bool.or_true, if_true, substIdentifier, hx]
      rcases hb with h | h
      · rw [h]; simp [definedName]
      · rw [h]; simpa [definedName] using ih true acc
  intro n
  rw [runSubstitutions, key n]
  rfl

/-- **C33 does not hold** for `##`: in `#define F(x) x ## 1`, the body is never finished when the
argument is `x ## y` (the result of `##` is scanned again, and the `##` of the argument with it). -/
theorem C33_pasting_false (fmt : List Tok → Res (List Char)) :
    ∀ n, applyMacro fmt n
      ⟨['F'], some ([['x']], false), [.ident ['x'] false, .punct .doubleHash, .number ['1']]⟩
      (some [[.ident ['x'] false, .punct .doubleHash, .ident ['y'] false]]) = .fuel := by
  have key : ∀ n w acc, substBody fmt
      (some [(['x'], [.ident ['x'] false, .punct .doubleHash, .ident ['y'] false])]) n
      [.ident ['x'] false, .punct .doubleHash, .ident ('y' :: w) false] acc = .fuel := by
    intro n
    induction n with
    | zero => simp [substBody]
    | succ n ih =>
      intro w acc
      have := ih ('y' :: w) acc
      simpa [substBody, matchConcatenation, Tok.isWs, macroConcatenation, resolveLeft, resolveRight,
        Args.find, concatTokens] using this
  intro n
  cases n with
  | zero => simp [applyMacro, buildArgs, Args.insert, Args.find, substBody]
  | succ n =>
    have := key n ['1'] []
    simp [applyMacro, buildArgs, Args.insert, Args.find, substBody, matchConcatenation, Tok.isWs,
      macroConcatenation, resolveLeft, resolveRight, concatTokens, this]

/-- **C57 does not hold for `#`**: with `#define N 5` and `#define S(x) #x`, `S(N)` becomes the
spelling of `5`; C17 6.10.3.1p1 and 6.10.3.2p2 demand that of the argument itself, `N`. -/
theorem C57_stringize_false (fmt : List Tok → Res (List Char)) (text : List Char)
    (hfmt : fmt [.number ['5']] = .ok text) (macros : Name → Option Macro)
    (hN : macros ['N'] = some ⟨['N'], none, [.number ['5']]⟩)
    (hS : macros ['S'] = some ⟨['S'], some ([['x']], false), [.punct .hash, .ident ['x'] false]⟩) :
    ∃ K, ∀ n, K ≤ n → runSubstitutions fmt macros n .normal
      [.ident ['S'] false, .punct .leftParenthese, .ident ['N'] false, .punct .rightParenthese] =
      .ok [.string text] := by
  refine ⟨8, fun n hn => ?_⟩
  obtain ⟨k, rfl⟩ : ∃ k, n = k + 8 := ⟨n - 8, by omega⟩
  simp [runSubstitutions, expand, substIdentifier, hN, hS, scanArguments, scanArgs, appendTok, mapOut,
    dropTrailingWs, Tok.isWs, List.dropWhile, applyMacro, buildArgs, Args.insert, Args.find, substBody,
    matchConcatenation, finish, paint, pragmaPass, hfmt]

/-- **C57 does not hold for `##`**: with `#define N 5` and `#define P(x) x ## 1`, `P(N)` becomes `51`;
C17 6.10.3.1p1 demands `N1`. -/
theorem C57_pasting_false (fmt : List Tok → Res (List Char)) (macros : Name → Option Macro)
    (hN : macros ['N'] = some ⟨['N'], none, [.number ['5']]⟩)
    (hP : macros ['P'] = some ⟨['P'], some ([['x']], false),
      [.ident ['x'] false, .ws false, .punct .doubleHash, .ws false, .number ['1']]⟩) :
    ∃ K, ∀ n, K ≤ n → runSubstitutions fmt macros n .normal
      [.ident ['P'] false, .punct .leftParenthese, .ident ['N'] false, .punct .rightParenthese] =
      .ok [.number ['5', '1']] := by
  refine ⟨8, fun n hn => ?_⟩
  obtain ⟨k, rfl⟩ : ∃ k, n = k + 8 := ⟨n - 8, by omega⟩
  simp [runSubstitutions, expand, substIdentifier, hN, hP, scanArguments, scanArgs, appendTok, mapOut,
    dropTrailingWs, Tok.isWs, List.dropWhile, applyMacro, buildArgs, Args.insert, Args.find, substBody,
    matchConcatenation, finish, paint, pragmaPass, macroConcatenation, resolveLeft, resolveRight,
    concatTokens]

/-- **C57 does not hold for the tokens before `##`**: with `#define F(x, y) x ## 1`, `F(y z, 3)`
becomes `3 z1` (the tokens put back by `##` are scanned for parameters again); C17 demands
`y z1`. -/
theorem C57_rescan_false (fmt : List Tok → Res (List Char)) (macros : Name → Option Macro)
    (hy : macros ['y'] = none) (hz : macros ['z'] = none) (hz1 : macros ['z', '1'] = none)
    (hF : macros ['F'] = some ⟨['F'], some ([['x'], ['y']], false),
      [.ident ['x'] false, .punct .doubleHash, .number ['1']]⟩) :
    ∃ K, ∀ n, K ≤ n → runSubstitutions fmt macros n .normal
      [.ident ['F'] false, .punct .leftParenthese, .ident ['y'] false, .ws false,
       .ident ['z'] false, .punct .comma, .number ['3'], .punct .rightParenthese] =
      .ok [.number ['3'], .ws false, .ident ['z', '1'] false] := by
  refine ⟨12, fun n hn => ?_⟩
  obtain ⟨k, rfl⟩ : ∃ k, n = k + 12 := ⟨n - 12, by omega⟩
  simp [runSubstitutions, expand, substIdentifier, hy, hz, hz1, hF, scanArguments, scanArgs, appendTok,
    mapOut, dropTrailingWs, Tok.isWs, List.dropWhile, applyMacro, buildArgs, Args.insert, Args.find, substBody,
    matchConcatenation, finish, paint, pragmaPass, macroConcatenation, resolveLeft, resolveRight,
    concatTokens, pragmaName]

/-- Why `C57_expansion_partial` requires that invocations are complete in the text: with
`#define B(x) x(1)(x)(x)` and `#define A(y) B`, neither of which mentions the other, `B(A)` is never
finished (the `B` that replaces `A(1)` takes its arguments from what follows).  C17 6.10.3.4p2
demands `B(A)(A)` with `B` unavailable. -/
theorem C33_completed_later_false (fmt : List Tok → Res (List Char)) (macros : Name → Option Macro)
    (hB : macros ['B'] = some ⟨['B'], some ([['x']], false),
      [.ident ['x'] false, .punct .leftParenthese, .number ['1'], .punct .rightParenthese,
       .punct .leftParenthese, .ident ['x'] false, .punct .rightParenthese,
       .punct .leftParenthese, .ident ['x'] false, .punct .rightParenthese]⟩)
    (hA : macros ['A'] = some ⟨['A'], some ([['y']], false), [.ident ['B'] false]⟩) :
    ∀ n, runSubstitutions fmt macros n .normal
      [.ident ['B'] false, .punct .leftParenthese, .ident ['A'] false, .punct .rightParenthese] =
      .fuel := by
  have step1 : ∀ n acc (T : List Tok), 
      expand fmt macros (n + 1) .normal (.ident ['B'] false :: .punct .leftParenthese ::
        .ident ['A'] false :: .punct .rightParenthese :: T) acc = .fuel ∨
      expand fmt macros (n + 1) .normal (.ident ['B'] false :: .punct .leftParenthese ::
        .ident ['A'] false :: .punct .rightParenthese :: T) acc =
      expand fmt macros n .normal ([.ident ['A'] false, .punct .leftParenthese, .number ['1'],
        .punct .rightParenthese,
        .punct .leftParenthese, .ident ['A'] false, .punct .rightParenthese,
        .punct .leftParenthese, .ident ['A'] false, .punct .rightParenthese] ++ T) acc := by
    intro n acc T
    have ha : ∀ k : Nat, k < 11 → applyMacro fmt k ⟨['B'], some ([['x']], false),
        [.ident ['x'] false, .punct .leftParenthese, .number ['1'], .punct .rightParenthese,
         .punct .leftParenthese, .ident ['x'] false, .punct .rightParenthese,
         .punct .leftParenthese, .ident ['x'] false, .punct .rightParenthese]⟩
        (some [[.ident ['A'] false]]) = .fuel := by
      intro k hk
      match k, hk with
      | 0, _ | 1, _ | 2, _ | 3, _ | 4, _ | 5, _ | 6, _ | 7, _ | 8, _ | 9, _ | 10, _ =>
        simp [applyMacro, buildArgs, Args.insert, Args.find, substBody, matchConcatenation, Tok.isWs]
    match n with
    | 0 | 1 =>
      left
      simp [expand, substIdentifier, hA, hB, definedName, scanArguments, scanArgs, appendTok, mapOut,
        Tok.isWs]
    | k + 2 =>
      have hrun : expand fmt macros (k + 3) .normal (.ident ['B'] false :: .punct .leftParenthese ::
          .ident ['A'] false :: .punct .rightParenthese :: T) acc =
          (applyMacro fmt (k + 2) ⟨['B'], some ([['x']], false),
        [.ident ['x'] false, .punct .leftParenthese, .number ['1'], .punct .rightParenthese,
         .punct .leftParenthese, .ident ['x'] false, .punct .rightParenthese,
         .punct .leftParenthese, .ident ['x'] false, .punct .rightParenthese]⟩
        (some [[.ident ['A'] false]])).bind fun b => expand fmt macros (k + 2) .normal (b ++ T) acc := by
        have hs : ∀ run : List Tok → Out (List Tok), run [.ident ['A'] false] =
            .ok [.ident ['A'] false] → scanArguments run 1 false (.punct .leftParenthese ::
            .ident ['A'] false :: .punct .rightParenthese :: T) = .ok ([[.ident ['A'] false]], T) := by
          intro run h
          simp [scanArguments, scanArgs, appendTok, mapOut, h, dropTrailingWs, Tok.isWs]
        rw [expand]
        simp only [Bool.not_false, Bool.true_or, if_true]
        rw [substIdentifier, if_neg (by simp [definedName]), hB]
        simp only [List.length_singleton]
        rw [show (Tok.punct Punct.leftParenthese :: Tok.ident ['A'] false :: .punct .rightParenthese ::
          T).dropWhile Tok.isWs = .punct .leftParenthese :: .ident ['A'] false ::
          .punct .rightParenthese :: T from rfl]
        simp only
        rw [hs _ (by simp [expand, substIdentifier, hA, pragmaPass, pragmaName])]
        simp only [Out.bind]
        cases applyMacro fmt (k + 2) ⟨['B'], some ([['x']], false),
          [.ident ['x'] false, .punct .leftParenthese, .number ['1'], .punct .rightParenthese,
           .punct .leftParenthese, .ident ['x'] false, .punct .rightParenthese,
           .punct .leftParenthese, .ident ['x'] false, .punct .rightParenthese]⟩
          (some [[.ident ['A'] false]]) <;> rfl
      by_cases hk : k + 2 < 11
      · left
        rw [hrun, ha _ hk]
        rfl
      · right
        rw [hrun]
        obtain ⟨j, hj⟩ : ∃ j, k + 2 = j + 11 := ⟨k + 2 - 11, by omega⟩
        have hap : applyMacro fmt (k + 2) ⟨['B'], some ([['x']], false),
          [.ident ['x'] false, .punct .leftParenthese, .number ['1'], .punct .rightParenthese,
           .punct .leftParenthese, .ident ['x'] false, .punct .rightParenthese,
           .punct .leftParenthese, .ident ['x'] false, .punct .rightParenthese]⟩
          (some [[.ident ['A'] false]]) = .ok [.ident ['A'] false, .punct .leftParenthese,
            .number ['1'], .punct .rightParenthese,
            .punct .leftParenthese, .ident ['A'] false, .punct .rightParenthese,
            .punct .leftParenthese, .ident ['A'] false, .punct .rightParenthese] := by
          rw [hj]
          simp [applyMacro, buildArgs, Args.insert, Args.find, substBody, matchConcatenation,
            Tok.isWs, finish, paint]
        rw [hap]
        rfl
  have step2 : ∀ n acc (T : List Tok), 
      expand fmt macros (n + 1) .normal (.ident ['A'] false :: .punct .leftParenthese ::
        .number ['1'] :: .punct .rightParenthese :: T) acc = .fuel ∨
      expand fmt macros (n + 1) .normal (.ident ['A'] false :: .punct .leftParenthese ::
        .number ['1'] :: .punct .rightParenthese :: T) acc =
      expand fmt macros n .normal (.ident ['B'] false :: T) acc := by
    intro n acc T
    match n with
    | 0 | 1 =>
      left
      simp [expand, substIdentifier, hA, definedName, scanArguments, scanArgs, appendTok, mapOut,
        Tok.isWs]
    | k + 2 =>
      right
      have hs : ∀ run : List Tok → Out (List Tok), run [.number ['1']] =
          .ok [.number ['1']] → scanArguments run 1 false (.punct .leftParenthese ::
          .number ['1'] :: .punct .rightParenthese :: T) = .ok ([[.number ['1']]], T) := by
        intro run h
        simp [scanArguments, scanArgs, appendTok, mapOut, h, dropTrailingWs, Tok.isWs]
      rw [expand]
      simp only [Bool.not_false, Bool.true_or, if_true]
      rw [substIdentifier, if_neg (by simp [definedName]), hA]
      simp only [List.length_singleton]
      rw [show (Tok.punct Punct.leftParenthese :: Tok.number ['1'] :: .punct .rightParenthese ::
        T).dropWhile Tok.isWs = .punct .leftParenthese :: .number ['1'] ::
        .punct .rightParenthese :: T from rfl]
      simp only
      rw [hs _ (by simp [expand, pragmaPass])]
      simp [applyMacro, buildArgs, Args.insert, Args.find, Tok.isWs,
        substBody, matchConcatenation, finish, paint]
  have key : ∀ n acc (T : List Tok), expand fmt macros n .normal (.ident ['B'] false ::
      .punct .leftParenthese :: .ident ['A'] false :: .punct .rightParenthese :: T) acc = .fuel := by
    intro n
    induction n using Nat.strongRecOn with
    | ind n ih =>
      intro acc T
      match n, ih with
      | 0, _ => simp [expand]
      | 1, _ => 
        rcases step1 0 acc T with h | h
        · exact h
        · rw [h]; simp [expand]
      | n + 2, ih =>
        rcases step1 (n + 1) acc T with h | h
        · exact h
        · rw [h]
          simp only [List.cons_append, List.nil_append]
          rcases step2 n acc (.punct .leftParenthese :: .ident ['A'] false ::
            .punct .rightParenthese :: .punct .leftParenthese :: .ident ['A'] false ::
            .punct .rightParenthese :: T) with h | h
          · exact h
          · rw [h]
            exact ih n (by omega) acc _
  intro n
  rw [runSubstitutions, key n]
  rfl

end Kefir.Preproc
