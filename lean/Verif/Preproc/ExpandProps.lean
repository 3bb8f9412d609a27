import Verif.Preproc.ExpandMain

/-!
# C57, C33: macro replacement follows C17 6.10.3 and terminates, for first-order definitions
-/

namespace Kefir.Preproc.Spec

open Kefir.Preproc Kefir.Lexer

/-- The replacement of a text is unique. -/
theorem Expands.unique {defs : Name → Option Def} {H : List Name} {items : List Item}
    {o1 : List Tok} (h1 : Expands defs H items o1) :
    ∀ {o2 : List Tok}, Expands defs H items o2 → o1 = o2 := by
  induction h1 with
  | nil => intro o2 h2; cases h2; rfl
  | plain _ ih => intro o2 h2; cases h2 with | plain h2 => rw [ih h2]
  | object hn hd hp _ _ ih1 ih2 =>
    intro o2 h2
    cases h2 with
    | object hn' hd' hp' hb' hr' =>
      rw [hd] at hd'
      cases hd'
      rw [ih1 hb', ih2 hr']
    | objectHidden hn' _ => exact absurd hn' hn
  | objectHidden hn _ ih =>
    intro o2 h2
    cases h2 with
    | object hn' _ _ _ _ => exact absurd hn hn'
    | objectHidden _ h2 => rw [ih h2]
  | call vals hn hd hp hl _ _ _ iha ihb ihr =>
    intro o2 h2
    cases h2 with
    | call vals' hn' hd' hp' hl' ha' hb' hr' =>
      rw [hd] at hd'
      cases hd'
      rw [hp] at hp'
      cases hp'
      have hv : vals = vals' := by
        apply List.ext_getElem (by omega)
        intro i h h'
        exact iha i (by omega) h (ha' i (by omega) h')
      subst hv
      rw [ihb hb', ihr hr']
    | callHidden _ hn' => exact absurd hn' hn
  | callHidden vals hn hl _ _ iha ihr =>
    intro o2 h2
    cases h2 with
    | call _ hn' => exact absurd hn hn'
    | callHidden vals' _ hl' ha' hr' =>
      have hv : vals = vals' := by
        apply List.ext_getElem (by omega)
        intro i h h'
        exact iha i (by omega) h (ha' i (by omega) h')
      subst hv
      rw [ihr hr']

theorem below_all {fmt macros} {defs : Name → Option Def} {rank : Name → Nat}
    (hh : Holds defs macros) (hfo : FirstOrder defs rank) :
    ∀ (r : Nat) (n : Name), rank n = r → Below fmt macros defs rank n := by
  intro r
  induction r using Nat.strongRecOn with
  | ind r ih =>
    intro n hr H hn hH items toks fo hw
    refine core hh hfo (avail := fun k => rank k < rank n) ?_ items toks ?_ hw
    · intro k hk
      refine ⟨fun hkH => ?_, fun h hx => ?_, ih (rank k) (by omega) k rfl⟩
      · have := hH k hkH; omega
      · have := hH h hx; omega
    · exact firstOrderText_mono (fun k hk => by
        rcases hk with rfl | hk
        · exact .inl hn
        · exact .inr hk) items fo
where
  firstOrderText_mono {defs : Name → Option Def} {P v} {nm nm' : Name → Prop}
      (h : ∀ k, nm k → nm' k) : ∀ items, FirstOrderText defs P v nm items →
      FirstOrderText defs P v nm' items
    | [], _ => by simp [FirstOrderText]
    | .plain t :: rest, fo => by
      rw [FirstOrderText, FirstOrderItem] at fo ⊢
      exact ⟨fo.1, firstOrderText_mono h rest fo.2⟩
    | .object n :: rest, fo => by
      rw [FirstOrderText, FirstOrderItem] at fo ⊢
      exact ⟨⟨h _ fo.1.1, fo.1.2⟩, firstOrderText_mono h rest fo.2⟩
    | .call n args :: rest, fo => by
      rw [FirstOrderText, FirstOrderItem] at fo ⊢
      obtain ⟨⟨h1, h2, d, ps, w, h3, h4, h5, h6⟩, hr⟩ := fo
      exact ⟨⟨h _ h1, h2, d, ps, w, h3, h4, h5, firstOrderArgs_mono h args h6⟩,
        firstOrderText_mono h rest hr⟩
  firstOrderArgs_mono {defs : Name → Option Def} {P v w} {nm nm' : Name → Prop}
      (h : ∀ k, nm k → nm' k) : ∀ args, FirstOrderArgs defs P v nm w args →
      FirstOrderArgs defs P v nm' w args
    | [], _ => by simp [FirstOrderArgs]
    | a :: as, fo => by
      rw [FirstOrderArgs] at fo ⊢
      exact ⟨firstOrderText_mono h a fo.1, fo.2.1, firstOrderArgs_mono h as fo.2.2⟩

/-- **C57 (partial).** Macro replacement is that of C17 6.10.3 for first-order definitions: for every
set of such definitions held by the macro table, every text made of plain tokens, names of
object-like macros and invocations with closed arguments (nested to any depth), and any white space
between its tokens, the preprocessor terminates, and without white space its result is the (unique)
replacement that the standard describes.

Missing: bodies with `#` and `##` (for which the property fails, see below), texts in which an
invocation is completed by tokens that follow the replacement of another macro, and mutually
recursive macros (for which the preprocessor does not terminate, see below). -/
theorem C57_expansion_partial (fmt : List Tok → Res (List Char)) (macros : Name → Option Macro)
    (defs : Name → Option Def) (rank : Name → Nat) (hh : Holds defs macros)
    (hfo : FirstOrder defs rank) (items : List Item) (toks : List Tok)
    (htext : FirstOrderText defs [] false (fun _ => True) items) (hw : Writes [] items toks) :
    ∃ res N, (∀ n, N ≤ n → runSubstitutions fmt macros n .normal toks = .ok res) ∧
      ∀ out, Expands defs [] items out ↔ res.filter (fun t => !t.isWs) = out := by
  obtain ⟨res, h1, h2, _, h4⟩ := core (fmt := fmt) hh hfo (H := []) (avail := fun _ => True)
    (fun k _ => ⟨by simp, by simp, below_all hh hfo _ k rfl⟩) items toks
    (below_all.firstOrderText_mono (fun _ _ => .inr trivial) items htext) hw
  obtain ⟨K, hK⟩ := h4.alone (inert_pragma h2)
  refine ⟨res, K, hK, fun out => ⟨fun h => h1.unique h, ?_⟩⟩
  rintro rfl
  exact h1

/-- **C33 (partial).** Macro expansion terminates for first-order definitions, recursive macros (whose
body mentions their own name) included.  Missing: as in `C57_expansion_partial`. -/
theorem C33_terminates_partial (fmt : List Tok → Res (List Char)) (macros : Name → Option Macro)
    (defs : Name → Option Def) (rank : Name → Nat) (hh : Holds defs macros)
    (hfo : FirstOrder defs rank) (items : List Item) (toks : List Tok)
    (htext : FirstOrderText defs [] false (fun _ => True) items) (hw : Writes [] items toks) :
    ∃ N, ∀ n, N ≤ n → runSubstitutions fmt macros n .normal toks ≠ .fuel := by
  obtain ⟨res, N, h, _⟩ := C57_expansion_partial fmt macros defs rank hh hfo items toks htext hw
  exact ⟨N, fun n hn => by rw [h n hn]; simp⟩

/-! ## Examples -/

section Example

/-- `#define N 5`, `#define R R + N` (recursive), `#define ADD(x, y) ((x) + (y))`,
`#define LOG(f, ...) p(f, ADD(N, f), __VA_ARGS__)`. -/
def exampleDefs : Name → Option Def := fun n =>
  if n = ['N'] then some ⟨none, [.plain (.number ['5'])]⟩
  else if n = ['R'] then some ⟨none, [.object ['R'], .plain (.punct .plus), .object ['N']]⟩
  else if n = ['A'] then some ⟨some ([['x'], ['y']], false),
    [.plain (.punct .leftParenthese), .plain (.ident ['x'] false), .plain (.punct .plus),
     .plain (.ident ['y'] false), .plain (.punct .rightParenthese)]⟩
  else if n = ['L'] then some ⟨some ([['f']], true),
    [.plain (.ident ['p'] false), .plain (.punct .leftParenthese), .plain (.ident ['f'] false),
     .plain (.punct .comma),
     .call ['A'] [[.object ['N']], [.plain (.ident ['f'] false)]],
     .plain (.punct .comma), .plain (.ident vaArgs false), .plain (.punct .rightParenthese)]⟩
  else none

def exampleMacros : Name → Option Macro := fun n =>
  if n = ['N'] then some ⟨['N'], none, [.number ['5']]⟩
  else if n = ['R'] then some ⟨['R'], none,
    [.ident ['R'] false, .ws false, .punct .plus, .ws false, .ident ['N'] false]⟩
  else if n = ['A'] then some ⟨['A'], some ([['x'], ['y']], false),
    [.punct .leftParenthese, .ident ['x'] false, .ws false, .punct .plus, .ws false,
     .ident ['y'] false, .punct .rightParenthese]⟩
  else if n = ['L'] then some ⟨['L'], some ([['f']], true),
    [.ident ['p'] false, .punct .leftParenthese, .ident ['f'] false, .punct .comma, .ws false,
     .ident ['A'] false, .punct .leftParenthese, .ident ['N'] false, .punct .comma, .ws false,
     .ident ['f'] false, .punct .rightParenthese, .punct .comma, .ws false,
     .ident vaArgs false, .punct .rightParenthese]⟩
  else none

def exampleRank : Name → Nat := fun n => if n = ['N'] then 0 else if n = ['L'] then 2 else 1

theorem example_holds : Holds exampleDefs exampleMacros := by
  intro n
  by_cases h1 : n = ['N']
  · subst h1
    exact ⟨_, rfl, rfl, rfl, rfl⟩
  by_cases h2 : n = ['R']
  · subst h2
    exact ⟨_, rfl, rfl, rfl, rfl⟩
  by_cases h3 : n = ['A']
  · subst h3
    exact ⟨_, rfl, rfl, rfl, rfl⟩
  by_cases h4 : n = ['L']
  · subst h4
    exact ⟨_, rfl, rfl, rfl, rfl⟩
  have hd : exampleDefs n = none := by simp [exampleDefs, h1, h2, h3, h4]
  rw [hd]
  simp [exampleMacros, h1, h2, h3, h4]

theorem example_firstOrder : FirstOrder exampleDefs exampleRank := by
  intro n d h
  rw [exampleDefs] at h
  split at h
  · rename_i h1
    cases h; subst h1
    refine ⟨by decide, by decide, by decide, ?_, by simp, by simp, ?_⟩
    · simp [Closed]
    · simp [FirstOrderText, FirstOrderItem, Inert]
  split at h
  · rename_i h1
    cases h; subst h1
    refine ⟨by decide, by decide, by decide, ?_, by simp, by simp, ?_⟩
    · simp [Closed]
    · simp [FirstOrderText, FirstOrderItem, Inert, exampleDefs, exampleRank]
  split at h
  · rename_i h1
    cases h; subst h1
    refine ⟨by decide, by decide, by decide, ?_, ?_, ?_, ?_⟩
    · simp [Closed]
    · rintro ps v ⟨⟩; decide
    · rintro ps v ⟨⟩; decide
    · simp [FirstOrderText, FirstOrderItem, Inert, formals]
  split at h
  · rename_i h1
    cases h; subst h1
    refine ⟨by decide, by decide, by decide, ?_, ?_, ?_, ?_⟩
    · simp [Closed, vaArgs]
    · rintro ps v ⟨⟩; decide
    · rintro ps v ⟨⟩; decide
    · simp [FirstOrderText, FirstOrderItem, FirstOrderArgs, Inert, formals, exampleDefs, exampleRank,
        vaArgs, Closed]
  simp at h

/-- `L(a, R, A(N, b))`. -/
def exampleText : List Item :=
  [.call ['L'] [[.plain (.ident ['a'] false)],
    [.object ['R'], .plain (.punct .comma),
     .call ['A'] [[.object ['N']], [.plain (.ident ['b'] false)]]]]]

/-- The hypotheses of `C57_expansion_partial` are met, and the result is
`p(a, (5+a), R+5, (5+b))`, in which `R` is marked as unavailable. -/
example :
    FirstOrderText exampleDefs [] false (fun _ => True) exampleText ∧
    Expands exampleDefs [] exampleText
      [.ident ['p'] false, .punct .leftParenthese, .ident ['a'] false, .punct .comma,
       .punct .leftParenthese, .number ['5'], .punct .plus, .ident ['a'] false,
       .punct .rightParenthese, .punct .comma,
       .ident ['R'] true, .punct .plus, .number ['5'], .punct .comma,
       .punct .leftParenthese, .number ['5'], .punct .plus, .ident ['b'] false,
       .punct .rightParenthese, .punct .rightParenthese] := by
  have hN : ∀ H, ['N'] ∉ H → Expands exampleDefs H [.object ['N']] [.number ['5']] := by
    intro H hH
    exact .object (b := [.number ['5']]) hH rfl rfl (.plain (.nil _)) (.nil _)
  have hA : ∀ H (c : Tok), ['N'] ∉ H → ['A'] ∉ H →
      Expands exampleDefs H [.call ['A'] [[.object ['N']], [.plain c]]]
      [.punct .leftParenthese, .number ['5'], .punct .plus, c, .punct .rightParenthese] := by
    intro H c h1 h2
    refine .call (b := [.punct .leftParenthese, .number ['5'], .punct .plus, c,
      .punct .rightParenthese]) [[.number ['5']], [c]] h2 rfl rfl rfl ?_
      (.plain (.plain (.plain (.plain (.plain (.nil _)))))) (.nil _)
    intro i hi _
    match i, hi with
    | 0, _ => exact hN _ h1
    | 1, _ => exact .plain (.nil _)
  have hAr : ∀ (c : Tok) (rest : List Item) (out : List Tok) H, ['N'] ∉ H → ['A'] ∉ H →
      Expands exampleDefs H rest out →
      Expands exampleDefs H (.call ['A'] [[.object ['N']], [.plain c]] :: rest)
      (.punct .leftParenthese :: .number ['5'] :: .punct .plus :: c :: .punct .rightParenthese ::
        out) := by
    intro c rest out H h1 h2 hr
    refine .call (b := [.punct .leftParenthese, .number ['5'], .punct .plus, c,
      .punct .rightParenthese]) [[.number ['5']], [c]] h2 rfl rfl rfl ?_
      (.plain (.plain (.plain (.plain (.plain (.nil _)))))) hr
    intro i hi _
    match i, hi with
    | 0, _ => exact hN _ h1
    | 1, _ => exact .plain (.nil _)
  refine ⟨?_, ?_⟩
  · simp [exampleText, FirstOrderText, FirstOrderItem, FirstOrderArgs, Inert, exampleDefs, Closed]
  · refine Expands.call (out := []) (b := [.ident ['p'] false, .punct .leftParenthese,
       .ident ['a'] false, .punct .comma,
       .punct .leftParenthese, .number ['5'], .punct .plus, .ident ['a'] false,
       .punct .rightParenthese, .punct .comma,
       .ident ['R'] true, .punct .plus, .number ['5'], .punct .comma,
       .punct .leftParenthese, .number ['5'], .punct .plus, .ident ['b'] false,
       .punct .rightParenthese, .punct .rightParenthese])
      [[.ident ['a'] false], [.ident ['R'] true, .punct .plus, .number ['5'], .punct .comma,
       .punct .leftParenthese, .number ['5'], .punct .plus, .ident ['b'] false,
       .punct .rightParenthese]] (by simp) rfl rfl rfl ?_ ?_ (.nil _)
    · intro i hi _
      match i, hi with
      | 0, _ => exact .plain (.nil _)
      | 1, _ =>
        refine .object (b := [.ident ['R'] true, .punct .plus, .number ['5']]) (by simp) rfl rfl
          (.objectHidden (by simp) (.plain (hN _ (by decide)))) (.plain (hA _ _ (by simp) (by simp)))
    · refine .plain (.plain (.plain (.plain (hAr _ _ _ _ (by decide) (by decide) ?_))))
      exact .plain (.plain (.plain (.plain (.plain (.plain (.plain (.plain (.plain (.plain (.plain
        (.nil _)))))))))))

end Example

end Kefir.Preproc.Spec
