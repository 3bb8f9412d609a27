import Verif.Preproc.ExpandRun

/-!
# Expansion of first-order texts
-/

namespace Kefir.Preproc.Spec

open Kefir.Preproc Kefir.Lexer

/-- The macro table `macros` holds the definitions `defs`. -/
def Holds (defs : Name → Option Def) (macros : Name → Option Macro) : Prop :=
  ∀ n, match defs n with
    | none => macros n = none
    | some d => ∃ m, macros n = some m ∧ m.name = n ∧ m.params = d.params ∧ Writes [] d.body m.body

/-- All definitions are first-order. -/
def FirstOrder (defs : Name → Option Def) (rank : Name → Nat) : Prop :=
  ∀ n d, defs n = some d → FirstOrderDef defs rank n d

section
variable {fmt : List Tok → Res (List Char)} {macros : Name → Option Macro}
  {defs : Name → Option Def} {rank : Name → Nat}

theorem Holds.none (h : Holds defs macros) {n} (hn : defs n = none) : macros n = none := by
  have := h n; rw [hn] at this; exact this

theorem Holds.some (h : Holds defs macros) {n d} (hn : defs n = some d) :
    ∃ m, macros n = some m ∧ m.name = n ∧ m.params = d.params ∧ Writes [] d.body m.body := by
  have := h n; rw [hn] at this; exact this

/-! ## Applying a macro -/

theorem mem_of_strip {l m : List Tok} {t : Tok} (h : strip l = m) (ht : t.isWs = false)
    (hn : t ∉ m) : t ∉ l := by
  rw [← h, strip_mem] at hn
  exact fun hx => hn ⟨hx, ht⟩

theorem paint_isWs (n : Name) (t : Tok) : (paint n t).isWs = t.isWs := by
  cases t with
  | ident k s => simp only [paint]; split <;> rfl
  | _ => rfl

theorem finish_append (n : Name) (a b : List Tok) : finish n (a ++ b) = finish n a ++ finish n b := by
  simp [finish]

theorem finish_inert {n : Name} (hd : defs n ≠ Option.none) : ∀ {x : List Tok},
    (∀ t ∈ strip x, Inert defs [] t) → strip (finish n x) = strip x
  | [], _ => rfl
  | t :: x, h => by
    rw [show t :: x = [t] ++ x from rfl, finish_append, strip_append, strip_append]
    have ih := finish_inert hd (x := x) (fun u hu => h u (by
      rw [strip_mem] at hu ⊢; exact ⟨by simp [hu.1], hu.2⟩))
    rw [ih]
    congr 1
    by_cases hw : t.isWs = true
    · cases t <;> simp [Tok.isWs] at hw
      rfl
    · have hi := h t (by rw [strip_mem]; exact ⟨by simp, by simpa using hw⟩)
      cases t with
      | ident k s =>
        simp only [Inert, List.not_mem_nil, false_or] at hi
        by_cases hk : k = n
        · subst hk
          rcases hi.2 with h | h
          · subst h; simp [finish, paint]
          · exact absurd h hd
        · simp [finish, paint, hk]
      | placemaker => simp [Inert] at hi
      | _ => rfl

theorem finish_subst {n : Name} {tree : Args} {σ : Name → Option (List Tok)}
    (hσ : ∀ k, σ k = (tree.find k).map strip) (hd : defs n ≠ Option.none)
    (hin : ∀ k x, tree.find k = Option.some x → ∀ t ∈ strip x, Inert defs [] t) :
    ∀ (l : List Tok), (∀ t ∈ strip l, Solid t) →
    strip (finish n (l.flatMap (substTok tree))) = (strip l).flatMap (substPaint σ n)
  | [], _ => rfl
  | t :: l, h => by
    have ih := finish_subst hσ hd hin l (fun u hu => h u (by
      rw [strip_mem] at hu ⊢; exact ⟨by simp [hu.1], hu.2⟩))
    rw [List.flatMap_cons, finish_append, strip_append, ih,
      show t :: l = [t] ++ l from rfl, strip_append, List.flatMap_append]
    congr 1
    by_cases hw : t.isWs = true
    · cases t <;> simp [Tok.isWs] at hw
      rfl
    · have hs := h t (by rw [strip_mem]; exact ⟨by simp, by simpa using hw⟩)
      have hst : strip [t] = [t] := by simp [strip_cons, hw]
      rw [hst, List.flatMap_singleton]
      cases t with
      | ident k s =>
        rw [substTok, substPaint, hσ k]
        cases hf : tree.find k with
        | some x => exact finish_inert hd (hin k x hf)
        | none =>
          simp only [Option.map_none, finish, List.map_cons, List.map_nil]
          simp only [paint]
          split <;> simp [strip_cons, Tok.isWs]
      | placemaker => simp [Solid] at hs
      | ws _ => simp [Tok.isWs] at hw
      | _ => rfl

/-- Applying a function-like macro: the result is the written form of the instantiated body. -/
theorem apply_call (hh : Holds defs macros) {n : Name} {d : Def} {ps : List Name} {v : Bool}
    (hdef : defs n = Option.some d) (hp : d.params = Option.some (ps, v))
    (fo : FirstOrderDef defs rank n d) {vals : List (List Tok)}
    (hl : vals.length = ps.length + (if v then 1 else 0))
    (hin : ∀ x ∈ vals, ∀ t ∈ strip x, Inert defs [] t)
    (hcl : ArgsClosed v (vals.map strip)) {H : List Name}
    (hH : ∀ k, rank k < rank n → k ∉ H) :
    ∃ m b, macros n = Option.some m ∧ m.params = Option.some (ps, v) ∧
      (∀ k, m.body.length < k → applyMacro fmt k m (Option.some vals) = .ok b) ∧
      Writes (n :: H) (instText (valueOf (formals ps v) (vals.map strip)) d.body) b ∧
      FirstOrderText defs [] false (fun k => k = n ∨ rank k < rank n)
        (instText (valueOf (formals ps v) (vals.map strip)) d.body) ∧
      Closed false false 0 (instText (valueOf (formals ps v) (vals.map strip)) d.body) := by
  obtain ⟨m, hm, hname, hparams, hbody⟩ := hh.some hdef
  have hpast := fo.pasting
  have hstr := fo.stringizing (by simp [hp])
  have hclosed := fo.closed
  have hnodup := fo.distinct ps v hp
  have htext := fo.text
  rw [hp] at hparams
  simp only [hp] at hclosed htext
  have hfl : vals.length = (formals ps v).length := by
    rw [hl, formals_eq, List.length_append]; cases v <;> rfl
  have hva : v = true → vaArgs ∈ formals ps v := by rintro rfl; simp [formals_eq]
  have hdom : ∀ k, (valueOf (formals ps v) (vals.map strip) k).isSome ↔ k ∈ formals ps v :=
    fun k => valueOf_dom _ _ k (by simpa using hfl)
  have hv : Values defs (formals ps v) v (valueOf (formals ps v) (vals.map strip)) := by
    refine ⟨hdom, ?_, ?_⟩
    · intro k x hx
      have := valueOf_mem _ _ _ _ hx
      rw [List.mem_map] at this
      obtain ⟨y, hy, rfl⟩ := this
      exact hin y hy
    · intro k x hx
      exact valueOf_closed v ps _ k x (by simpa using hl) hcl hx
  have hd : defs n ≠ Option.none := by simp [hdef]
  have hsb : strip m.body = writeText [] d.body := hbody
  refine ⟨m, finish m.name (m.body.flatMap (substTok ((formals ps v).zip vals))), hm, hparams, ?_, ?_,
    firstOrder_inst hv hva (fun _ h => h) _ htext, closed_inst hv hva false _ 0 hclosed⟩
  · intro k hk
    rw [applyMacro.eq_def, hparams]
    simp only
    rw [if_neg (by omega), buildArgs_ok v ps vals [] hl hnodup (fun _ _ => rfl)]
    simp only [List.nil_append]
    rw [substBody_some fmt _ _ _ _ hk (mem_of_strip hsb (by rfl) hpast)
      (mem_of_strip hsb (by rfl) hstr)]
    simp
  · rw [Writes]
    change strip _ = _
    have h1 := finish_subst (n := n) (tree := (formals ps v).zip vals)
      (σ := valueOf (formals ps v) (vals.map strip)) (fun k => by rw [find_zip, valueOf_map]) hd
      (by
        intro k x hx
        rw [find_zip] at hx
        exact hin x (valueOf_mem _ _ _ _ hx)) m.body (by rw [hsb]; exact write_solid [] _ htext)
    rw [hname, h1, hsb, ← write_inst hv (nm := fun k => k = n ∨ rank k < rank n) ?_ hd _ htext]
    rintro k (rfl | hk) hne
    · exact absurd rfl hne
    · exact hH k hk

/-- Applying an object-like macro. -/
theorem apply_object (hh : Holds defs macros) {n : Name} {d : Def}
    (hdef : defs n = Option.some d) (hp : d.params = Option.none)
    (fo : FirstOrderDef defs rank n d) {H : List Name} (hH : ∀ k, rank k < rank n → k ∉ H) :
    ∃ m b, macros n = Option.some m ∧ m.params = Option.none ∧
      (∀ k, m.body.length < k → applyMacro fmt k m Option.none = .ok b) ∧
      Writes (n :: H) d.body b ∧
      FirstOrderText defs [] false (fun k => k = n ∨ rank k < rank n) d.body ∧
      Closed false false 0 d.body := by
  obtain ⟨m, hm, hname, hparams, hbody⟩ := hh.some hdef
  have hpast := fo.pasting
  have hclosed := fo.closed
  have htext := fo.text
  rw [hp] at hparams
  simp only [hp] at hclosed htext
  have hv : Values defs [] false (fun _ => Option.none) := ⟨by simp, by simp, by simp⟩
  have hd : defs n ≠ Option.none := by simp [hdef]
  have hsb : strip m.body = writeText [] d.body := hbody
  have hinst : ∀ items : List Item, instText (fun _ => Option.none) items = items := by
    intro items
    exact inst_none items
  refine ⟨m, finish m.name m.body, hm, hparams, ?_, ?_, htext, hclosed⟩
  · intro k hk
    rw [applyMacro.eq_def, hparams]
    simp only
    rw [substBody_none fmt _ _ _ hk (mem_of_strip hsb (by rfl) hpast)]
    simp
  · rw [Writes]
    change strip _ = _
    have hfm : m.body.flatMap (substTok []) = m.body := by
      have : ∀ l : List Tok, l.flatMap (substTok []) = l := by
        intro l
        induction l with
        | nil => rfl
        | cons t l ih =>
          rw [List.flatMap_cons, ih]
          cases t <;> rfl
      exact this _
    have h1 := finish_subst (n := n) (tree := []) (σ := fun _ => Option.none) (fun _ => rfl) hd
      (by simp [Args.find]) m.body (by rw [hsb]; exact write_solid [] _ htext)
    rw [hfm] at h1
    rw [hname, h1, hsb, ← write_inst hv (nm := fun k => k = n ∨ rank k < rank n) ?_ hd _ htext, hinst]
    rintro k (rfl | hk) hne
    · exact absurd rfl hne
    · exact hH k hk
where
  inst_none : ∀ items : List Item, instText (fun _ => Option.none) items = items
    | [] => rfl
    | .plain t :: rest => by
      rw [instText, inst_none rest]
      cases t <;> rfl
    | .object n :: rest => by rw [instText, inst_none rest]; rfl
    | .call n args :: rest => by
      rw [instText, inst_none rest, instItem, inst_noneArgs args]; rfl
  inst_noneArgs : ∀ args : List (List Item), instArgs (fun _ => Option.none) args = args
    | [] => rfl
    | a :: as => by rw [instArgs, inst_none a, inst_noneArgs as]

/-! ## The main induction -/

variable (fmt macros defs) in
/-- The replacement of `items`, written as `toks`, is found. -/
def Concl (H : List Name) (items : List Item) (toks : List Tok) : Prop :=
  ∃ res, Expands defs H items (strip res) ∧ (∀ t ∈ strip res, Inert defs [] t) ∧
    (∀ c d, Closed false c d items → TClosed c d (strip res)) ∧ Runs fmt macros toks res

variable (fmt macros defs rank) in
/-- All texts below `n` are replaced. -/
def Below (n : Name) : Prop :=
  ∀ H, n ∈ H → (∀ h ∈ H, rank n ≤ rank h) → ∀ items toks,
    FirstOrderText defs [] false (fun k => k = n ∨ rank k < rank n) items → Writes H items toks →
    Concl fmt macros defs H items toks

theorem inert_pragma {res : List Tok} (h : ∀ t ∈ strip res, Inert defs [] t) :
    ∀ n s, .ident n s ∈ res → n ≠ pragmaName := by
  intro n s hm
  have := h (.ident n s) (by rw [strip_mem]; exact ⟨hm, rfl⟩)
  simp only [Inert, List.not_mem_nil, false_or] at this
  exact this.1

theorem inert_run (hh : Holds defs macros) {t : Tok} (h : Inert defs [] t) :
    Runs fmt macros [t] [t] := by
  refine .plain ?_
  rintro n s rfl
  simp only [Inert, List.not_mem_nil, false_or] at h
  exact h.2.imp id hh.none

/-- Results for all arguments. -/
theorem collect {H : List Name} : ∀ (args : List (List Item)) (As : List (List Tok)),
    As.map strip = writeArgs H args →
    (∀ a ∈ args, ∀ toks, Writes H a toks → Concl fmt macros defs H a toks) →
    ∃ Rs : List (List Tok), Rs.length = args.length ∧ As.length = args.length ∧
      (∀ i (h : i < args.length) (h' : i < (Rs.map strip).length),
        Expands defs H args[i] (Rs.map strip)[i]) ∧
      (∀ r ∈ Rs, ∀ t ∈ strip r, Inert defs [] t) ∧
      (∀ nm v, FirstOrderArgs defs [] false nm v args → ArgsClosed v (Rs.map strip)) ∧
      (∀ i (h : i < As.length) (h' : i < Rs.length), Runs fmt macros As[i] Rs[i])
  | [], As, hA, _ => by
    simp only [writeArgs, List.map_eq_nil_iff] at hA
    subst hA
    exact ⟨[], rfl, rfl, by simp, by simp, by simp [ArgsClosed], by simp⟩
  | a :: args, [], hA, _ => by simp [writeArgs] at hA
  | a :: args, A :: As, hA, h => by
    simp only [writeArgs, List.map_cons, List.cons.injEq] at hA
    obtain ⟨Rs, h1, h2, h3, h4, h5, h6⟩ := collect args As hA.2 (fun x hx => h x (by simp [hx]))
    obtain ⟨res, g1, g2, g3, g4⟩ := h a (by simp) A hA.1
    refine ⟨res :: Rs, by simp [h1], by simp [h2], ?_, ?_, ?_, ?_⟩
    · intro i hi hi'
      cases i with
      | zero => exact g1
      | succ i => exact h3 i (by simpa using hi) (by simpa using hi')
    · intro r hr
      rcases List.mem_cons.1 hr with rfl | hr
      · exact g2
      · exact h4 r hr
    · intro nm v hfo
      rw [FirstOrderArgs] at hfo
      refine ⟨?_, h5 nm v hfo.2.2⟩
      have he : (Rs.map strip).isEmpty = args.isEmpty := by
        cases Rs <;> cases args <;> simp_all
      rw [he]
      exact g3 _ _ hfo.2.1
    · intro i hi hi'
      cases i with
      | zero => exact g4
      | succ i => exact h6 i (by simpa using hi) (by simpa using hi')

theorem expands_plain {H : List Name} {t : Tok} {rest : List Item} {out : List Tok}
    (h : Expands defs H rest out) : Expands defs H (.plain t :: rest) (t :: out) := .plain h

/-- Splitting what is between the parentheses at the commas. -/
theorem split_join : ∀ (L : List (List Tok)) (inner : List Tok), strip inner = joinCommas L →
    ∃ As : List (List Tok), As.map strip = L ∧
      (if As = [] then strip inner = [] else inner = joinCommas As)
  | [], inner, h => ⟨[], rfl, by simpa [joinCommas] using h⟩
  | [a], inner, h => ⟨[inner], by simpa [joinCommas] using h, by simp [joinCommas]⟩
  | a :: b :: L, inner, h => by
    rw [joinCommas] at h
    obtain ⟨la, lb, rfl, h1, h2⟩ := split_append h
    obtain ⟨w, lc, rfl, hw, _, h3⟩ := split_cons h2
    obtain ⟨As, h4, h5⟩ := split_join (b :: L) lc h3
    have hne : As ≠ [] := by rintro rfl; simp at h4
    rw [if_neg hne] at h5
    refine ⟨(la ++ w) :: As, ?_, ?_⟩
    · simp [h1, h4, strip_all_ws hw]
    · rw [if_neg (by simp)]
      cases As with
      | nil => exact absurd rfl hne
      | cons c As => rw [joinCommas, ← h5]; simp

/-- The tokens of an invocation. -/
theorem split_call {toks J : List Tok} {x : Tok}
    (h : strip toks = x :: .punct .leftParenthese :: J ++ [.punct .rightParenthese]) :
    ∃ w1 w2 inner w4, toks = w1 ++ (x :: (w2 ++ .punct .leftParenthese ::
        (inner ++ [.punct .rightParenthese]))) ++ w4 ∧ (∀ t ∈ w1, t.isWs = true) ∧
      (∀ t ∈ w2, t.isWs = true) ∧ (∀ t ∈ w4, t.isWs = true) ∧ strip inner = J := by
  rw [List.cons_append, List.cons_append] at h
  obtain ⟨w1, l1, rfl, hw1, _, h1⟩ := split_cons h
  obtain ⟨w2, l2, rfl, hw2, _, h2⟩ := split_cons h1
  obtain ⟨l3, l4, rfl, h3, h4⟩ := split_append h2
  obtain ⟨w3, w4, rfl, hw3, _, h5⟩ := split_cons h4
  refine ⟨w1, w2, l3 ++ w3, w4, by simp, hw1, hw2, strip_eq_nil h5, by simp [h3, strip_all_ws hw3]⟩

theorem argsClosed_of_first {nm} {H : List Name} {v : Bool} : ∀ {args : List (List Item)}
    {As : List (List Tok)}, FirstOrderArgs defs [] false nm v args → As.map strip = writeArgs H args →
    ArgsClosed v As ∧ ∀ b ∈ As, .sentinel ∉ b
  | [], As, _, h => by
    simp only [writeArgs, List.map_eq_nil_iff] at h
    subst h
    simp [ArgsClosed]
  | a :: args, [], _, h => by simp [writeArgs] at h
  | a :: args, A :: As, hfo, h => by
    rw [FirstOrderArgs] at hfo
    simp only [writeArgs, List.map_cons, List.cons.injEq] at h
    obtain ⟨h1, h2⟩ := argsClosed_of_first hfo.2.2 h.2
    have he : As.isEmpty = args.isEmpty := by
      have := congrArg List.length h.2
      rw [writeArgs_eq] at this
      cases As <;> cases args <;> simp_all
    refine ⟨⟨?_, h1⟩, ?_⟩
    · rw [he, ← tclosed_strip, h.1]
      exact closed_write H a hfo.1 _ _ hfo.2.1
    · intro b hb
      rcases List.mem_cons.1 hb with rfl | hb
      · refine mem_of_strip h.1 (by rfl) fun hx => ?_
        exact (write_solid H a hfo.1 _ hx).2.1 rfl
      · exact h2 b hb

theorem tclosed_append0 {c : Bool} {d : Nat} {a b : List Tok} (ha : TClosed false 0 a)
    (hb : TClosed c d b) : TClosed c d (a ++ b) := by
  have := tclosed_append (c' := false) (c := c) (d := d) (by simp) a 0 b ha hb
  simpa using this

theorem argsClosed_true {v : Bool} : ∀ {L : List (List Tok)}, ArgsClosed v L →
    ∀ a ∈ L, TClosed true 0 a
  | [], _, _, h => by simp at h
  | x :: L, hc, a, h => by
    rcases List.mem_cons.1 h with rfl | h
    · exact tclosed_mono (by simp) _ _ hc.1
    · exact argsClosed_true hc.2 a h

theorem hidden_inert (hfo : FirstOrder defs rank) {n : Name} {d : Def}
    (hdef : defs n = Option.some d) : Inert defs [] (.ident n true) := by
  simp only [Inert, List.not_mem_nil, false_or]
  exact ⟨(hfo n d hdef).notPragma, by simp⟩

mutual
theorem core (hh : Holds defs macros) (hfo : FirstOrder defs rank) {H : List Name}
    {avail : Name → Prop}
    (ha : ∀ k, avail k → k ∉ H ∧ (∀ h ∈ H, rank k ≤ rank h) ∧ Below fmt macros defs rank k) :
    ∀ (items : List Item) (toks : List Tok),
      FirstOrderText defs [] false (fun k => k ∈ H ∨ avail k) items → Writes H items toks →
      Concl fmt macros defs H items toks
  | [], toks, _, hw => by
    have hs : strip toks = [] := hw
    exact ⟨toks, by rw [hs]; exact .nil H, by simp [hs], by simp [hs, Closed, TClosed],
      .spaces (strip_eq_nil hs)⟩
  | .plain t :: rest, toks, fo, hw => by
    have hs : strip toks = t :: writeText H rest := hw
    obtain ⟨w, toks', rfl, hwsp, htw, hs'⟩ := split_cons hs
    rw [FirstOrderText, FirstOrderItem] at fo
    obtain ⟨res, h1, h2, h3, h4⟩ := core hh hfo ha rest toks' fo.2 hs'
    have hst : strip (w ++ t :: res) = t :: strip res := by
      rw [strip_append, strip_all_ws hwsp, strip_cons, htw]; rfl
    refine ⟨w ++ t :: res, ?_, ?_, ?_, ?_⟩
    · rw [hst]; exact .plain h1
    · rw [hst]
      intro x hx
      rcases List.mem_cons.1 hx with rfl | hx
      · exact fo.1
      · exact h2 x hx
    · rw [hst]
      intro c d hc
      rw [TClosed]
      rw [Closed] at hc
      by_cases e1 : t = .punct .leftParenthese
      · rw [if_pos e1] at hc ⊢; exact h3 _ _ hc
      · rw [if_neg e1] at hc ⊢
        by_cases e2 : t = .punct .rightParenthese
        · rw [if_pos e2] at hc ⊢; exact ⟨hc.1, h3 _ _ hc.2⟩
        · rw [if_neg e2] at hc ⊢
          by_cases e3 : t = .punct .comma
          · rw [if_pos (Or.inl e3)] at hc; rw [if_pos e3]; exact ⟨hc.1, h3 _ _ hc.2⟩
          · rw [if_neg (by simp [e3])] at hc; rw [if_neg e3]; exact h3 _ _ hc
    · exact (Runs.spaces hwsp).append ((inert_run hh fo.1).append h4)
  | .object n :: rest, toks, fo, hw => by
    have hs : strip toks = .ident n (decide (n ∈ H)) :: writeText H rest := hw
    obtain ⟨w, toks', rfl, hwsp, htw, hs'⟩ := split_cons hs
    rw [FirstOrderText, FirstOrderItem] at fo
    obtain ⟨⟨hav, _, d, hdef, hp⟩, forest⟩ := fo
    obtain ⟨res, h1, h2, h3, h4⟩ := core hh hfo ha rest toks' forest hs'
    by_cases hn : n ∈ H
    · have hst : strip (w ++ .ident n true :: res) = .ident n true :: strip res := by
        rw [strip_append, strip_all_ws hwsp, strip_cons]; rfl
      refine ⟨w ++ .ident n true :: res, ?_, ?_, ?_, ?_⟩
      · rw [hst]; exact .objectHidden hn h1
      · rw [hst]
        intro x hx
        rcases List.mem_cons.1 hx with rfl | hx
        · exact hidden_inert hfo hdef
        · exact h2 x hx
      · rw [hst]
        intro c e hc
        rw [Closed] at hc
        simpa [TClosed] using h3 c e hc
      · rw [decide_eq_true hn]
        exact (Runs.spaces hwsp).append ((Runs.plain (by rintro _ _ ⟨⟩; simp)).append h4)
    · obtain ⟨_, hrank, hbelow⟩ := ha n (hav.resolve_left hn)
      obtain ⟨m, b, hm, hmp, hap, hwb, hfob, hclb⟩ := apply_object (fmt := fmt) hh hdef hp
        (hfo n d hdef) (H := H) (fun k hk hkH => by have := hrank k hkH; omega)
      obtain ⟨rb, b1, b2, b3, b4⟩ := hbelow (n :: H) (by simp) (by
        intro h hx
        rcases List.mem_cons.1 hx with rfl | hx
        · exact Nat.le_refl _
        · exact hrank h hx) d.body b hfob hwb
      have hst : strip (w ++ (rb ++ res)) = strip rb ++ strip res := by
        rw [strip_append, strip_all_ws hwsp, strip_append]; rfl
      refine ⟨w ++ (rb ++ res), ?_, ?_, ?_, ?_⟩
      · rw [hst]; exact .object hn hdef hp b1 h1
      · rw [hst]
        intro x hx
        rcases List.mem_append.1 hx with hx | hx
        · exact b2 x hx
        · exact h2 x hx
      · rw [hst]
        intro c e hc
        rw [Closed] at hc
        exact tclosed_append0 (b3 _ _ hclb) (h3 c e hc)
      · rw [decide_eq_false hn]
        exact (Runs.spaces hwsp).append ((Runs.object hm hmp (K := m.body.length + 1)
          (fun k hk => hap k (by omega)) b4).append h4)
  | .call n args :: rest, toks, fo, hw => by
    have hs : strip toks = (.ident n (decide (n ∈ H)) :: .punct .leftParenthese ::
      joinCommas (writeArgs H args) ++ [.punct .rightParenthese]) ++ writeText H rest := hw
    obtain ⟨toks1, toks', rfl, hs1, hs'⟩ := split_append hs
    obtain ⟨w1, w2, inner, w4, rfl, hw1, hw2, hw4, hinner⟩ := split_call hs1
    obtain ⟨As, hAs, hsplit⟩ := split_join _ _ hinner
    rw [FirstOrderText, FirstOrderItem] at fo
    obtain ⟨⟨hav, _, d, ps, v, hdef, hp, hlen, foargs⟩, forest⟩ := fo
    obtain ⟨res, h1, h2, h3, h4⟩ := core hh hfo ha rest toks' forest hs'
    have hcore := coreArgs hh hfo ha v args foargs
    obtain ⟨hac, hsent⟩ := argsClosed_of_first foargs hAs
    by_cases hn : n ∈ H
    · obtain ⟨Rs, c1, c2, c3, c4, c5, c6⟩ := collect args As hAs hcore
      have hinr : ∃ ri, Runs fmt macros inner ri ∧ strip ri = joinCommas (Rs.map strip) := by
        by_cases hA : As = []
        · rw [if_pos hA] at hsplit
          have hR : Rs = [] := by
            subst hA
            simp at c2
            rw [← c2] at c1
            exact List.length_eq_zero_iff.1 c1
          exact ⟨inner, .spaces (strip_eq_nil hsplit), by rw [hsplit, hR]; rfl⟩
        · rw [if_neg hA] at hsplit
          rw [hsplit]
          exact ⟨joinCommas Rs, .joins (by omega) c6, joinCommas_strip Rs⟩
      obtain ⟨ri, hri, hsri⟩ := hinr
      have hst : strip (w1 ++ ([.ident n true] ++ (w2 ++ ([.punct .leftParenthese] ++ (ri ++
          [.punct .rightParenthese])))) ++ w4 ++ res) = .ident n true :: .punct .leftParenthese ::
            joinCommas (Rs.map strip) ++ .punct .rightParenthese :: strip res := by
        simp [strip_all_ws hw1, strip_all_ws hw2, strip_all_ws hw4, strip_cons, Tok.isWs, hsri]
      refine ⟨w1 ++ ([.ident n true] ++ (w2 ++ ([.punct .leftParenthese] ++ (ri ++
          [.punct .rightParenthese])))) ++ w4 ++ res, ?_, ?_, ?_, ?_⟩
      · rw [hst]
        exact .callHidden (Rs.map strip) hn (by simpa using c1) c3 h1
      · rw [hst]
        intro x hx
        rw [List.mem_append, List.mem_cons, List.mem_cons, List.mem_cons] at hx
        rcases hx with (rfl | rfl | hx) | rfl | hx
        · exact hidden_inert hfo hdef
        · simp [Inert]
        · rcases mem_joinCommas hx with rfl | ⟨a, ha', hxa⟩
          · simp [Inert]
          · rw [List.mem_map] at ha'
            obtain ⟨r, hr, rfl⟩ := ha'
            exact c4 r hr x hxa
        · simp [Inert]
        · exact h2 x hx
      · rw [hst]
        intro c e hc
        rw [Closed] at hc
        have hj := tclosed_join (Rs.map strip) (argsClosed_true (c5 _ _ foargs)) c e (strip res)
          (h3 c e hc)
        simpa [TClosed] using hj
      · rw [decide_eq_true hn]
        have hid : Runs fmt macros [.ident n true] [.ident n true] :=
          Runs.plain (by rintro _ _ ⟨⟩; simp)
        have hlp : Runs fmt macros [.punct .leftParenthese] [.punct .leftParenthese] :=
          Runs.plain (by simp)
        have hrp : Runs fmt macros [.punct .rightParenthese] [.punct .rightParenthese] :=
          Runs.plain (by simp)
        have hall := (((Runs.spaces hw1).append (hid.append ((Runs.spaces hw2).append
          (hlp.append (hri.append hrp))))).append (Runs.spaces hw4)).append h4
        simpa using hall
    · have hAs' : (As.map dropWs).map strip = writeArgs H args := by
        rw [← hAs, List.map_map]
        exact List.map_congr_left fun a _ => strip_dropWhile a
      obtain ⟨Rs, c1, c2, c3, c4, c5, c6⟩ := collect args (As.map dropWs) hAs' hcore
      rw [List.length_map] at c2
      obtain ⟨_, hrank, hbelow⟩ := ha n (hav.resolve_left hn)
      have htrim : (Rs.map dropTrailingWs).map strip = Rs.map strip := by
        rw [List.map_map]
        exact List.map_congr_left fun a _ => strip_dropTrailing a
      obtain ⟨m, b, hm, hmp, hap, hwb, hfob, hclb⟩ := apply_call (fmt := fmt) hh hdef hp
        (hfo n d hdef) (vals := Rs.map dropTrailingWs) (by simp [c1, hlen])
        (by
          intro x hx
          rw [List.mem_map] at hx
          obtain ⟨r, hr, rfl⟩ := hx
          rw [strip_dropTrailing]
          exact c4 r hr)
        (by rw [htrim]; exact c5 _ _ foargs) (H := H)
        (fun k hk hkH => by have := hrank k hkH; omega)
      rw [htrim] at hwb hfob hclb
      obtain ⟨rb, b1, b2, b3, b4⟩ := hbelow (n :: H) (by simp) (by
        intro h hx
        rcases List.mem_cons.1 hx with rfl | hx
        · exact Nat.le_refl _
        · exact hrank h hx) _ b hfob hwb
      have hst : strip (w1 ++ rb ++ w4 ++ res) = strip rb ++ strip res := by
        simp [strip_all_ws hw1, strip_all_ws hw4]
      refine ⟨w1 ++ rb ++ w4 ++ res, ?_, ?_, ?_, ?_⟩
      · rw [hst]
        exact .call (Rs.map strip) hn hdef hp (by simpa using c1) c3 b1 h1
      · rw [hst]
        intro x hx
        rcases List.mem_append.1 hx with hx | hx
        · exact b2 x hx
        · exact h2 x hx
      · rw [hst]
        intro c e hc
        rw [Closed] at hc
        exact tclosed_append0 (b3 _ _ hclb) (h3 c e hc)
      · rw [decide_eq_false hn]
        refine ((((Runs.spaces hw1).append ?_)).append (Runs.spaces hw4)).append h4
        refine Runs.call (As := As) (Rs := Rs) (K := m.body.length + 1) hm hmp hw2
          (by rw [c2, hlen]) hsplit hac hsent (by omega) ?_ (fun r hr => inert_pragma (c4 r hr))
          (fun k hk => hap k (by omega)) b4
        intro i hi hi'
        have := c6 i (by simpa using hi) hi'
        simpa using this
theorem coreArgs (hh : Holds defs macros) (hfo : FirstOrder defs rank) {H : List Name}
    {avail : Name → Prop}
    (ha : ∀ k, avail k → k ∉ H ∧ (∀ h ∈ H, rank k ≤ rank h) ∧ Below fmt macros defs rank k)
    (v : Bool) :
    ∀ (args : List (List Item)),
      FirstOrderArgs defs [] false (fun k => k ∈ H ∨ avail k) v args → ∀ a ∈ args, ∀ toks,
      Writes H a toks → Concl fmt macros defs H a toks
  | [], _, _, h => by simp at h
  | a :: args, fo, x, hx => by
    rw [FirstOrderArgs] at fo
    rcases List.mem_cons.1 hx with e | hx
    · rw [e]
      exact fun toks => core hh hfo ha a toks fo.1
    · exact coreArgs hh hfo ha v args fo.2.2 x hx
end

end

end Kefir.Preproc.Spec
