import Verif.Json.Lemmas

/-! What a successful sequence of calls prints. -/

namespace Kefir.Json

open Kefir.Lexer (Codec Dec)

def indentText (ind lvl : Nat) : Text :=
  if ind > 0 then lit "\n" ++ List.replicate (ind * lvl) (b ' ') else []

theorem indentText_ws (ind lvl) : Ws (indentText ind lvl) := by
  unfold indentText
  split
  · intro x hx
    rcases List.mem_append.1 hx with hx | hx
    · cases List.mem_singleton.1 hx; exact Or.inr (Or.inr (Or.inl rfl))
    · rw [(List.mem_replicate.1 hx).2]; exact Or.inl rfl
  · intro x hx; cases hx

theorem ws_nil : Ws [] := fun x hx => by cases hx

def fieldText (ind : Nat) : Text := if ind > 0 then lit " " else []

theorem fieldText_ws (ind) : Ws (fieldText ind) := by
  unfold fieldText
  split
  · intro x hx; cases List.mem_singleton.1 hx; exact Or.inl rfl
  · exact ws_nil

def sepText (ind lvl : Nat) : St → Text
  | .objectEmpty | .arrayEmpty => indentText ind lvl
  | .init => []
  | .objectField => b ':' :: fieldText ind
  | .object | .array => b ',' :: indentText ind lvl

theorem writeIndent_eq (j : J) :
    writeIndent j = { j with out := j.out ++ indentText j.indent j.below.length } := by
  unfold writeIndent indentText
  split
  · simp [J.write, J.level]
  · simp

theorem writeSeparator_eq (j : J) :
    writeSeparator j = { j with out := j.out ++ sepText j.indent j.below.length j.top } := by
  obtain ⟨file, ind, top, below, out⟩ := j
  cases top <;> simp only [writeSeparator, writeIndent_eq, J.write, sepText, fieldText, lit]
  · simp
  · split <;> simp <;> omega
  · simp
  · simp

theorem step_scalar {cd : Codec} {c : Call} {v : JVal} {j j' : J} (hc : c.scalar = some v)
    (h : step cd j c = some (.ok (), j')) :
    ∃ s t, valueState j.top = some s ∧ scalarText cd c = some t ∧ j.file = true ∧
      j' = ⟨true, j.indent, s, j.below, j.out ++ (sepText j.indent j.below.length j.top ++ t)⟩ := by
  have h' : scalarCall cd c j = some (.ok (), j') := by
    cases c <;> first | exact h | cases hc
  unfold scalarCall at h'
  cases hf : j.file with
  | false => rw [hf] at h'; cases h'
  | true =>
    rw [hf, writeSeparator_eq] at h'
    cases hs : valueState j.top with
    | none => simp [hs] at h'
    | some s =>
      simp only [hs, Bool.not_true, Bool.false_eq_true, if_false] at h'
      obtain ⟨t, ht, e⟩ := Option.map_eq_some_iff.1 h'
      refine ⟨s, t, rfl, ht, rfl, ?_⟩
      cases e
      simp [J.write]
      exact hf

theorem step_begin {st : St} {br : Text} {j j' : J}
    (h : some (beginContainer st br j) = some (.ok (), j')) :
    ∃ s, valueState j.top = some s ∧ j.file = true ∧
      j' = ⟨true, j.indent, st, s :: j.below,
        j.out ++ (sepText j.indent j.below.length j.top ++ br)⟩ := by
  have h := Option.some.inj h
  unfold beginContainer at h
  cases hf : j.file with
  | false => rw [hf] at h; cases h
  | true =>
    rw [hf, writeSeparator_eq] at h
    simp only [Bool.not_true, Bool.false_eq_true, if_false] at h
    split at h
    · cases hs : valueState j.top with
      | none => simp [hs] at h
      | some s =>
        simp only [hs] at h
        refine ⟨s, rfl, rfl, ?_⟩
        cases h
        simp [J.write]
        exact hf
    · cases h

theorem step_end {em fu : St} {br : Text} {j j' : J}
    (h : some (endContainer em fu br j) = some (.ok (), j')) :
    ∃ s bl, j.below = s :: bl ∧ j.file = true ∧ (j.top = em ∨ j.top = fu) ∧
      j' = ⟨true, j.indent, s, bl,
        j.out ++ ((if j.top = fu then indentText j.indent bl.length else []) ++ br)⟩ := by
  have h := Option.some.inj h
  unfold endContainer at h
  cases hf : j.file with
  | false => rw [hf] at h; cases h
  | true =>
    rw [hf] at h
    simp only [Bool.not_true, Bool.false_eq_true, if_false] at h
    split at h
    · cases h
    · rename_i s bl hb
      split at h
      · rename_i ht
        refine ⟨s, bl, hb, rfl, ht, ?_⟩
        by_cases hfu : j.top = fu
        · simp only [hfu, decide_true, if_true, writeIndent_eq] at h ⊢
          cases h
          simp [J.write]
        · simp only [hfu, decide_false, Bool.false_eq_true, if_false] at h ⊢
          cases h
          simp [J.write]
      · cases h

theorem step_key {cd : Codec} {k : Text} {j j' : J}
    (h : step cd j (.objectKey k) = some (.ok (), j')) :
    ∃ t, (j.top = .objectEmpty ∨ j.top = .object) ∧ formatString cd k = some t ∧ j.file = true ∧
      j' = ⟨true, j.indent, .objectField, j.below,
        j.out ++ (sepText j.indent j.below.length j.top ++ t)⟩ := by
  change keyCall cd k j = _ at h
  unfold keyCall at h
  cases hf : j.file with
  | false => rw [hf] at h; cases h
  | true =>
    rw [hf, writeSeparator_eq] at h
    simp only [Bool.not_true, Bool.false_eq_true, if_false] at h
    split at h
    · rename_i hs
      obtain ⟨t, ht, e⟩ := Option.map_eq_some_iff.1 h
      refine ⟨t, hs, ht, rfl, ?_⟩
      cases e
      simp [J.write]
      exact hf
    · cases h

theorem run_cons {cd : Codec} {c : Call} {cs : List Call} {j j' : J}
    (h : run cd j (c :: cs) = some j') :
    ∃ j1, step cd j c = some (.ok (), j1) ∧ run cd j1 cs = some j' := by
  rw [run] at h
  split at h
  · rename_i j1 e; exact ⟨j1, e, h⟩
  · cases h

/-- Text that closes an object after a member. -/
def ObjTail (ms : List (Text × JVal)) (t : Text) : Prop :=
  (ms = [] ∧ ∃ w, Ws w ∧ t = w ++ [b '}']) ∨ ∃ ts, MembersText ms ts ∧ t = b ',' :: (ts ++ [b '}'])

def ArrTail (es : List JVal) (t : Text) : Prop :=
  (es = [] ∧ ∃ w, Ws w ∧ t = w ++ [b ']']) ∨ ∃ ts, ElemsText es ts ∧ t = b ',' :: (ts ++ [b ']'])

def PValue (cd : Codec) (n : Nat) : Prop :=
  ∀ (j : J) (c : Call) (cs : List Call) (j' : J) (s : St), cs.length < n →
    (∀ x ∈ c :: cs, x.Ok) → run cd j (c :: cs) = some j' → valueState j.top = some s →
    c ≠ .arrayEnd → j'.below.length ≤ j.below.length →
    ∃ v pre rest t, c :: cs = pre ++ rest ∧ pre ≠ [] ∧ Describes pre v ∧ JsonText v t ∧
      run cd ⟨true, j.indent, s, j.below,
        j.out ++ (sepText j.indent j.below.length j.top ++ t)⟩ rest = some j'

def PMembers (cd : Codec) (n : Nat) : Prop :=
  ∀ (j : J) (cs : List Call) (j' : J) (s : St) (bl : List St), cs.length ≤ n →
    (∀ x ∈ cs, x.Ok) → run cd j cs = some j' → (j.top = .objectEmpty ∨ j.top = .object) →
    j.below = s :: bl → j'.below.length ≤ bl.length →
    ∃ ms pre rest t, cs = pre ++ (.objectEnd :: rest) ∧ DescribesMembers pre ms ∧
      (j.top = .objectEmpty → JsonText (.obj ms) (b '{' :: t)) ∧
      (j.top = .object → ObjTail ms t) ∧
      run cd ⟨true, j.indent, s, bl, j.out ++ t⟩ rest = some j'

def PElems (cd : Codec) (n : Nat) : Prop :=
  ∀ (j : J) (cs : List Call) (j' : J) (s : St) (bl : List St), cs.length ≤ n →
    (∀ x ∈ cs, x.Ok) → run cd j cs = some j' → (j.top = .arrayEmpty ∨ j.top = .array) →
    j.below = s :: bl → j'.below.length ≤ bl.length →
    ∃ es pre rest t, cs = pre ++ (.arrayEnd :: rest) ∧ DescribesElems pre es ∧
      (j.top = .arrayEmpty → JsonText (.arr es) (b '[' :: t)) ∧
      (j.top = .array → ArrTail es t) ∧
      run cd ⟨true, j.indent, s, bl, j.out ++ t⟩ rest = some j'

theorem value_step (cd : Codec) (hcd : Utf8Like cd) (n : Nat) (hm : PMembers cd n)
    (he : PElems cd n) : PValue cd (n + 1) := by
  intro j c cs j' s hl hok h hs hne hle
  obtain ⟨j1, h1, h2⟩ := run_cons h
  have scalarCase : ∀ v, c.scalar = some v → ∃ v pre rest t, c :: cs = pre ++ rest ∧ pre ≠ [] ∧
      Describes pre v ∧ JsonText v t ∧ run cd ⟨true, j.indent, s, j.below,
        j.out ++ (sepText j.indent j.below.length j.top ++ t)⟩ rest = some j' := by
    intro v hv
    obtain ⟨s', t, hs', ht, -, rfl⟩ := step_scalar hv h1
    rw [hs] at hs'; cases hs'
    exact ⟨v, [c], cs, t, rfl, by simp, .scalar hv,
      scalarText_json cd hcd c v t (hok c List.mem_cons_self) hv ht, h2⟩
  have hok' : ∀ x ∈ cs, x.Ok := fun x hx => hok x (List.mem_cons_of_mem _ hx)
  cases c
  case objectBegin =>
    obtain ⟨s', hs', hf, rfl⟩ := step_begin h1
    rw [hs] at hs'; cases hs'
    obtain ⟨ms, pre, rest, t, rfl, hd, ht, -, hr⟩ := hm _ cs j' s j.below (by omega) hok' h2
      (Or.inl rfl) rfl hle
    refine ⟨.obj ms, .objectBegin :: (pre ++ [.objectEnd]), rest, b '{' :: t, by simp, by simp,
      .obj hd, ht rfl, ?_⟩
    rw [← hr]; simp [lit]
  case arrayBegin =>
    obtain ⟨s', hs', hf, rfl⟩ := step_begin h1
    rw [hs] at hs'; cases hs'
    obtain ⟨ms, pre, rest, t, rfl, hd, ht, -, hr⟩ := he _ cs j' s j.below (by omega) hok' h2
      (Or.inl rfl) rfl hle
    refine ⟨.arr ms, .arrayBegin :: (pre ++ [.arrayEnd]), rest, b '[' :: t, by simp, by simp,
      .arr hd, ht rfl, ?_⟩
    rw [← hr]; simp [lit]
  case objectEnd =>
    obtain ⟨_, _, _, _, ht, _⟩ := step_end h1
    rcases ht with ht | ht <;> rw [ht] at hs <;> cases hs
  case arrayEnd => exact absurd rfl hne
  case objectKey k =>
    obtain ⟨_, ht, _⟩ := step_key h1
    rcases ht with ht | ht <;> rw [ht] at hs <;> cases hs
  all_goals exact scalarCase _ rfl

theorem members_step (cd : Codec) (hcd : Utf8Like cd) (n : Nat) (hv : PValue cd n)
    (hm : ∀ m < n, PMembers cd m) : PMembers cd n := by
  intro j cs j' s bl hl hok h ht hb hle
  have notValue : valueState j.top = none := by rcases ht with e | e <;> rw [e] <;> rfl
  cases cs with
  | nil =>
    rw [run] at h; cases h
    rw [hb] at hle; simp at hle; omega
  | cons c cs =>
    obtain ⟨j1, h1, h2⟩ := run_cons h
    have scalarCase : ∀ v, c.scalar = some v → False := by
      intro v hv
      obtain ⟨s', t, hs', _⟩ := step_scalar hv h1
      rw [notValue] at hs'; cases hs'
    have hok' : ∀ x ∈ cs, x.Ok := fun x hx => hok x (List.mem_cons_of_mem _ hx)
    cases c
    case objectEnd =>
      obtain ⟨s', bl', hb', hf, _, rfl⟩ := step_end h1
      rw [hb] at hb'; cases hb'
      refine ⟨[], [], cs, _, rfl, .nil, ?_, ?_, h2⟩
      · intro e
        rw [e, if_neg (by simp)]
        exact .objNil ws_nil
      · intro e
        rw [e, if_pos rfl]
        exact Or.inl ⟨rfl, _, indentText_ws _ _, rfl⟩
    case objectKey k =>
      obtain ⟨kt, -, hk, hf, rfl⟩ := step_key h1
      have hkt := formatString_text cd hcd k kt (hok _ List.mem_cons_self) hk
      have hw := fieldText_ws j.indent
      cases cs with
      | nil =>
        rw [run] at h2; cases h2
        rw [hb] at hle; simp at hle; omega
      | cons c2 cs2 =>
        have hne : c2 ≠ .arrayEnd := by
          rintro rfl
          obtain ⟨j2, h3, _⟩ := run_cons h2
          obtain ⟨_, _, _, _, ht', _⟩ := step_end h3
          rcases ht' with e | e <;> cases e
        obtain ⟨v, pre, rest, vt, e, hpre, hd, hvt, hr⟩ := hv _ c2 cs2 j' .object
          (by simp only [List.length_cons] at hl; omega) hok' h2 rfl hne (by rw [hb]; simp; omega)
        have hrest : rest.length ≤ n - 2 := by
          have := congrArg List.length e
          simp only [List.length_cons, List.length_append] at this hl
          have : 0 < pre.length := List.length_pos_iff.2 hpre
          omega
        have hn2 : n - 2 < n := by simp only [List.length_cons] at hl; omega
        obtain ⟨ms, pre2, rest2, t, e2, hd2, -, htl, hr2⟩ := hm _ hn2 _ rest j' s bl hrest
          (fun x hx => hok' x (by rw [e]; exact List.mem_append_right _ hx)) hr (Or.inr rfl) hb hle
        refine ⟨(k, v) :: ms, .objectKey k :: (pre ++ pre2), rest2,
          sepText j.indent j.below.length j.top ++ (kt ++ (b ':' :: (fieldText j.indent ++ (vt ++ t)))),
          ?_, .cons hd hd2, ?_, ?_, ?_⟩
        · rw [e, e2]; simp
        · intro et
          rw [et]
          rcases htl rfl with ⟨rfl, w, hw2, rfl⟩ | ⟨ts, hts, rfl⟩
          · have := JsonText.obj (MembersText.one (w1 := indentText j.indent j.below.length)
              (w2 := []) hkt hvt (indentText_ws _ _) ws_nil hw hw2)
            simpa [sepText] using this
          · have := JsonText.obj (MembersText.cons (w1 := indentText j.indent j.below.length)
              (w2 := []) (w4 := []) hkt hvt (indentText_ws _ _) ws_nil hw ws_nil hts)
            simpa [sepText] using this
        · intro et
          rw [et]
          refine Or.inr ?_
          rcases htl rfl with ⟨rfl, w, hw2, rfl⟩ | ⟨ts, hts, rfl⟩
          · exact ⟨_, MembersText.one (w1 := indentText j.indent j.below.length)
              (w2 := []) hkt hvt (indentText_ws _ _) ws_nil hw hw2, by simp [sepText]⟩
          · exact ⟨_, MembersText.cons (w1 := indentText j.indent j.below.length)
              (w2 := []) (w4 := []) hkt hvt (indentText_ws _ _) ws_nil hw ws_nil hts,
              by simp [sepText]⟩
        · rw [← hr2]
          simp [sepText, List.append_assoc]
    case objectBegin =>
      obtain ⟨s', hs', _⟩ := step_begin h1
      rw [notValue] at hs'; cases hs'
    case arrayBegin =>
      obtain ⟨s', hs', _⟩ := step_begin h1
      rw [notValue] at hs'; cases hs'
    case arrayEnd =>
      obtain ⟨_, _, _, _, ht', _⟩ := step_end h1
      rcases ht with e | e <;> rw [e] at ht' <;> rcases ht' with e' | e' <;> cases e'
    all_goals exact (scalarCase _ rfl).elim

theorem elems_step (cd : Codec) (n : Nat) (hv : PValue cd n)
    (hm : ∀ m < n, PElems cd m) : PElems cd n := by
  intro j cs j' s bl hl hok h ht hb hle
  have isValue : valueState j.top = some .array := by rcases ht with e | e <;> rw [e] <;> rfl
  cases cs with
  | nil =>
    rw [run] at h; cases h
    rw [hb] at hle; simp at hle; omega
  | cons c cs =>
    obtain ⟨j1, h1, h2⟩ := run_cons h
    by_cases hc : c = .arrayEnd
    · subst hc
      obtain ⟨s', bl', hb', hf, _, rfl⟩ := step_end h1
      rw [hb] at hb'; cases hb'
      refine ⟨[], [], cs, _, rfl, .nil, ?_, ?_, h2⟩
      · intro e
        rw [e, if_neg (by simp)]
        exact .arrNil ws_nil
      · intro e
        rw [e, if_pos rfl]
        exact Or.inl ⟨rfl, _, indentText_ws _ _, rfl⟩
    · obtain ⟨v, pre, rest, vt, e, hpre, hd, hvt, hr⟩ := hv _ c cs j' .array
        (by simp only [List.length_cons] at hl; omega) hok h isValue hc (by rw [hb]; simp; omega)
      have hrest : rest.length ≤ n - 1 := by
        have := congrArg List.length e
        simp only [List.length_cons, List.length_append] at this hl
        have : 0 < pre.length := List.length_pos_iff.2 hpre
        omega
      have hn2 : n - 1 < n := by simp only [List.length_cons] at hl; omega
      obtain ⟨ms, pre2, rest2, t, e2, hd2, -, htl, hr2⟩ := hm _ hn2 _ rest j' s bl hrest
        (fun x hx => hok x (by rw [e]; exact List.mem_append_right _ hx)) hr (Or.inr rfl) hb hle
      refine ⟨v :: ms, pre ++ pre2, rest2, sepText j.indent j.below.length j.top ++ (vt ++ t),
        ?_, .cons hd hd2, ?_, ?_, ?_⟩
      · rw [e, e2]; simp
      · intro et
        rw [et]
        rcases htl rfl with ⟨rfl, w, hw2, rfl⟩ | ⟨ts, hts, rfl⟩
        · have := JsonText.arr (ElemsText.one (w1 := indentText j.indent j.below.length)
            hvt (indentText_ws _ _) hw2)
          simpa [sepText] using this
        · have := JsonText.arr (ElemsText.cons (w1 := indentText j.indent j.below.length)
            (w2 := []) hvt (indentText_ws _ _) ws_nil hts)
          simpa [sepText] using this
      · intro et
        rw [et]
        refine Or.inr ?_
        rcases htl rfl with ⟨rfl, w, hw2, rfl⟩ | ⟨ts, hts, rfl⟩
        · exact ⟨_, ElemsText.one (w1 := indentText j.indent j.below.length)
            hvt (indentText_ws _ _) hw2, by simp [sepText]⟩
        · exact ⟨_, ElemsText.cons (w1 := indentText j.indent j.below.length)
            (w2 := []) hvt (indentText_ws _ _) ws_nil hts, by simp [sepText]⟩
      · rw [← hr2]
        simp [List.append_assoc]

theorem all_steps (cd : Codec) (hcd : Utf8Like cd) (n : Nat) :
    (∀ m ≤ n, PValue cd m) ∧ (∀ m ≤ n, PMembers cd m) ∧ (∀ m ≤ n, PElems cd m) := by
  induction n with
  | zero =>
    have h0 : PValue cd 0 := fun j c cs j' s hl => absurd hl (Nat.not_lt_zero _)
    refine ⟨?_, ?_, ?_⟩ <;> intro m hm <;> have : m = 0 := by omega
    · subst this; exact h0
    · subst this; exact members_step cd hcd 0 h0 fun m hm => absurd hm (Nat.not_lt_zero _)
    · subst this; exact elems_step cd 0 h0 fun m hm => absurd hm (Nat.not_lt_zero _)
  | succ n ih =>
    obtain ⟨iv, im, ie⟩ := ih
    have hv : PValue cd (n + 1) := value_step cd hcd n (im n (Nat.le_refl _)) (ie n (Nat.le_refl _))
    have hm := members_step cd hcd (n + 1) hv fun m hm => im m (by omega)
    have he := elems_step cd (n + 1) hv fun m hm => ie m (by omega)
    refine ⟨?_, ?_, ?_⟩ <;> intro m hle <;> rcases Nat.lt_or_eq_of_le hle with h | rfl
    · exact iv m (by omega)
    · exact hv
    · exact im m (by omega)
    · exact hm
    · exact ie m (by omega)
    · exact he

/-- The outermost level. -/
theorem top_level (cd : Codec) (hcd : Utf8Like cd) (ind : Nat) (n : Nat) (cs : List Call)
    (out : Text) (j' : J) (hn : cs.length ≤ n) (hok : ∀ x ∈ cs, x.Ok)
    (h : run cd ⟨true, ind, .init, [], out⟩ cs = some j') (hl : j'.below = []) :
    ∃ ps : List (List Call × JVal × Text), cs = ps.flatMap (·.1) ∧
      j'.out = out ++ ps.flatMap (·.2.2) ∧ ∀ p ∈ ps, Describes p.1 p.2.1 ∧ JsonText p.2.1 p.2.2 := by
  induction n generalizing cs out with
  | zero =>
    cases cs with
    | nil =>
      rw [run] at h; cases h
      exact ⟨[], rfl, by simp, by simp⟩
    | cons => simp at hn
  | succ n ih =>
    cases cs with
    | nil =>
      rw [run] at h; cases h
      exact ⟨[], rfl, by simp, by simp⟩
    | cons c cs =>
      have hne : c ≠ .arrayEnd := by
        rintro rfl
        obtain ⟨_, h1, _⟩ := run_cons h
        obtain ⟨_, _, hb, _⟩ := step_end h1
        cases hb
      obtain ⟨v, pre, rest, t, e, hpre, hd, ht, hr⟩ :=
        (all_steps cd hcd (cs.length + 1)).1 _ (Nat.le_refl _) _ c cs j' .init (by omega) hok h rfl
          hne (by rw [hl]; simp)
      have hrest : rest.length ≤ n := by
        have := congrArg List.length e
        simp only [List.length_cons, List.length_append] at this hn
        have : 0 < pre.length := List.length_pos_iff.2 hpre
        omega
      obtain ⟨ps, e1, e2, hps⟩ := ih rest _ hrest
        (fun x hx => hok x (by rw [e]; exact List.mem_append_right _ hx)) hr
      refine ⟨(pre, v, t) :: ps, ?_, ?_, ?_⟩
      · rw [e, e1]; simp
      · rw [e2]; simp [sepText]
      · intro p hp
        rcases List.mem_cons.1 hp with rfl | hp
        · exact ⟨hd, ht⟩
        · exact hps p hp

end Kefir.Json
