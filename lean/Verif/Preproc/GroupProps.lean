import Verif.Preproc.Group

/-!
# Conditional inclusion (C32, C60)
-/

namespace Kefir.Preproc.Group

open Spec

variable {E C α : Type} {ops : Ops E C α}

/-! ## The lines of a group -/

mutual
/-- The lines a group is written with. -/
def linesPart : Part E C α → List (Line E C α)
  | .text t => [.text t]
  | .effect f => [.effect f]
  | .check f => [.check f]
  | .section c g tail =>
    (match c with
      | .expr c => .ifC c
      | .ifdef n => .ifdef n
      | .ifndef n => .ifndef n) :: (lines g ++ linesTail tail)
def lines : Parts E C α → List (Line E C α)
  | .nil => []
  | .cons p ps => linesPart p ++ lines ps
def linesTail : Tail E C α → List (Line E C α)
  | .endif => [.endif]
  | .els g => .els :: (lines g ++ [.endif])
  | .elif c g t => .elif c :: (lines g ++ linesTail t)
end

/-! ## Skipping -/

mutual
theorem skip_part : ∀ (p : Part E C α) (k : Nat) (rest : List (Line E C α)),
    skipGroup k (linesPart p ++ rest) = skipGroup k rest
  | .text t, k, rest => by simp [linesPart, skipGroup]
  | .effect f, k, rest => by simp [linesPart, skipGroup]
  | .check f, k, rest => by simp [linesPart, skipGroup]
  | .section c g tail, k, rest => by
    have h : skipGroup (k + 1) (lines g ++ linesTail tail ++ rest) = skipGroup k rest := by
      rw [List.append_assoc, skip_parts g, skip_tail tail]
    cases c <;> simpa [linesPart, skipGroup] using h
theorem skip_parts : ∀ (g : Parts E C α) (k : Nat) (rest : List (Line E C α)),
    skipGroup k (lines g ++ rest) = skipGroup k rest
  | .nil, k, rest => by simp [lines]
  | .cons p ps, k, rest => by
    rw [lines, List.append_assoc, skip_part p, skip_parts ps]
theorem skip_tail : ∀ (t : Tail E C α) (k : Nat) (rest : List (Line E C α)),
    skipGroup (k + 1) (linesTail t ++ rest) = skipGroup k rest
  | .endif, k, rest => by simp [linesTail, skipGroup]
  | .els g, k, rest => by
    have h : skipGroup (k + 1) (lines g ++ ([.endif] ++ rest)) = skipGroup k rest := by
      rw [skip_parts g]; simp [skipGroup]
    simpa [linesTail, skipGroup] using h
  | .elif c g t, k, rest => by
    have h : skipGroup (k + 1) (lines g ++ (linesTail t ++ rest)) = skipGroup k rest := by
      rw [skip_parts g, skip_tail t]
    simpa [linesTail, skipGroup] using h
end

theorem skip_tail_zero (t : Tail E C α) (rest : List (Line E C α)) :
    skipGroup 0 (linesTail t ++ rest) = linesTail t ++ rest := by
  cases t <;> simp [linesTail, skipGroup]

/-! ## Printing -/

theorem prints_append {ev ev' : List (Event E α)} {o o' : List α} (h : Prints ops ev o)
    (h' : Prints ops ev' o') : Prints ops (ev ++ ev') (o ++ o') := by
  induction h with
  | nil => exact h'
  | texts ts he _ ih =>
    rw [List.append_assoc, List.append_assoc]
    exact .texts ts he ih
  | done _ ih =>
    rw [List.cons_append, List.append_assoc]
    exact .done ih

/-- The buffer and the group buffer are what the events so far have led to. -/
def Tracks (ops : Ops E C α) (ev : List (Event E α)) (env : E) (buffer group : List α) : Prop :=
  ∃ (d : List (Event E α)) (ts : List (List α)), ev = d ++ ts.map (.text env) ∧ Prints ops d buffer ∧ group = ts.flatten

theorem Tracks.text {ev env buffer group} (h : Tracks ops ev env buffer group) (t : List α) :
    Tracks ops (ev ++ [.text env t]) env buffer (group ++ t) := by
  obtain ⟨d, ts, rfl, hp, rfl⟩ := h
  exact ⟨d, ts ++ [t], by simp, hp, by simp⟩

theorem Tracks.flush {ev env buffer group o} (h : Tracks ops ev env buffer group)
    (he : ops.expand env group = .ok o) : Prints ops ev (buffer ++ o) := by
  obtain ⟨d, ts, rfl, hp, rfl⟩ := h
  have := Prints.texts ts he .nil
  rw [List.append_nil, List.append_nil] at this
  exact prints_append hp this

theorem Spec.Prints.tracks {ev : List (Event E α)} {buffer} (h : Prints ops ev buffer) (env : E) :
    Tracks ops ev env buffer [] := ⟨ev, [], by simp, h, rfl⟩

/-! ## Running -/

/-- Macro replacement fails on some text. -/
def Fails (ops : Ops E C α) : Prop := ∃ env t e, ops.expand env t = .error e

/-- How the scan of some lines goes on, if they amount to `sel`: with the remaining lines `rest` and
state `st'`, or with an error. -/
def Goes (ops : Ops E C α) (r : Out (List (Line E C α) × E × List α)) (ev : List (Event E α))
    (sel : Res (E × List (Event E α))) (rest : List (Line E C α)) (st' : IfState) : Prop :=
  match sel with
  | .error _ => ∃ e, r = .err e
  | .ok (env', ev') =>
    (∃ m buffer' group', rest.length < m ∧ r = scan ops m rest env' buffer' group' st' ∧
      Tracks ops (ev ++ ev') env' buffer' group') ∨
    ((∃ e, r = .err e) ∧ Fails ops)

theorem flush_cases (ops : Ops E C α) (env : E) (buffer group : List α) :
    (∃ o, ops.expand env group = .ok o ∧ flush ops env buffer group = .ok (buffer ++ o)) ∨
    (∃ e, flush ops env buffer group = .err e ∧ Fails ops) := by
  rw [flush]
  cases h : ops.expand env group with
  | ok o => exact .inl ⟨o, rfl, rfl⟩
  | error e => exact .inr ⟨e, rfl, _, _, _, h⟩

theorem Goes.err {r : Out (List (Line E C α) × E × List α)} {ev sel rest st'} {e : Err}
    (h : r = .err e) (hf : Fails ops) : Goes ops r ev sel rest st' := by
  unfold Goes
  split
  · exact ⟨e, h⟩
  · exact .inr ⟨⟨e, h⟩, hf⟩

theorem Goes.sel_err {r : Out (List (Line E C α) × E × List α)} {ev rest st'} {e e' : Err}
    (h : r = .err e) : Goes ops r ev (.error e') rest st' := ⟨e, h⟩

theorem stop_tail (t : Tail E C α) {n rest env buffer group ev}
    (hn : (linesTail t ++ rest).length < n) (ht : Tracks ops ev env buffer group) :
    (∃ b, scan ops n (linesTail t ++ rest) env buffer group .none = .ok (linesTail t ++ rest, env, b) ∧
      Prints ops ev b) ∨
    ((∃ e, scan ops n (linesTail t ++ rest) env buffer group .none = .err e) ∧ Fails ops) := by
  cases n with
  | zero => omega
  | succ n =>
    rcases flush_cases ops env buffer group with ⟨o, ho, hf⟩ | ⟨e, hf, hF⟩
    · have hp := ht.flush ho
      cases t with
      | endif =>
        left
        refine ⟨buffer ++ o, ?_, hp⟩
        simp [linesTail, scan, hf, Out.bind]
      | els g =>
        left
        refine ⟨buffer ++ o, ?_, hp⟩
        simp [linesTail, scan, hf, Out.bind]
      | elif c g t =>
        left
        refine ⟨buffer ++ o, ?_, hp⟩
        have h0 : flush ops env (buffer ++ o) [] = .ok (buffer ++ o) := by
          simp [flush, ops.expand_nil]
        simp [linesTail, scan, hf, h0, Out.bind]
    · right
      refine ⟨⟨e, ?_⟩, hF⟩
      cases t <;> simp [linesTail, scan, hf, Out.bind]

theorem endif_success {n rest env buffer group ev}
    (hn : (Line.endif :: rest).length < n) (ht : Tracks ops ev env buffer group) :
    Goes ops (scan ops n (.endif :: rest) env buffer group .success) ev (.ok (env, [])) rest .none := by
  cases n with
  | zero => simp at hn
  | succ n =>
    refine .inl ⟨n, buffer, group, ?_, ?_, ?_⟩
    · simp at hn; omega
    · simp [scan]
    · simpa using ht

theorem tail_success : ∀ (t : Tail E C α) {n rest env buffer group ev},
    (linesTail t ++ rest).length < n → Tracks ops ev env buffer group →
    Goes ops (scan ops n (linesTail t ++ rest) env buffer group .success) ev (.ok (env, [])) rest .none
  | .endif, n, rest, env, buffer, group, ev, hn, ht => endif_success hn ht
  | .els g, n, rest, env, buffer, group, ev, hn, ht => by
    cases n with
    | zero => omega
    | succ n =>
      have hs : skipGroup 0 (lines g ++ .endif :: rest) = .endif :: rest := by
        rw [skip_parts g]; simp [skipGroup]
      simp [linesTail] at hn
      have : scan ops (n + 1) (linesTail (.els g) ++ rest) env buffer group .success =
          scan ops n (.endif :: rest) env buffer group .success := by
        simp [linesTail, scan, hs]
      rw [this]
      exact endif_success (by simp; omega) ht
  | .elif c g t, n, rest, env, buffer, group, ev, hn, ht => by
    cases n with
    | zero => omega
    | succ n =>
      have hs : skipGroup 0 (lines g ++ (linesTail t ++ rest)) = linesTail t ++ rest := by
        rw [skip_parts g, skip_tail_zero]
      simp [linesTail] at hn
      rcases flush_cases ops env buffer group with ⟨o, ho, hf⟩ | ⟨e, hf, hF⟩
      · have : scan ops (n + 1) (linesTail (.elif c g t) ++ rest) env buffer group .success =
            scan ops n (linesTail t ++ rest) env (buffer ++ o) [] .success := by
          simp [linesTail, scan, hf, Out.bind, hs]
        rw [this]
        exact tail_success t (by simp; omega) ((ht.flush ho).tracks env)
      · exact .err (e := e) (by simp [linesTail, scan, hf, Out.bind]) hF

/-- Running a selected group and then the rest of its section. -/
theorem enter_goes {g : Parts E C α} {t : Tail E C α} {n rest env b ev}
    (hg : Goes ops (scan ops n (lines g ++ (linesTail t ++ rest)) env b [] .none) ev (select ops env g)
      (linesTail t ++ rest) .none)
    (hn : (linesTail t ++ rest).length < n) :
    Goes ops ((scan ops n (lines g ++ (linesTail t ++ rest)) env b [] .none).bind
      fun (rest', env', b') => scan ops n rest' env' b' [] .success) ev (select ops env g) rest .none := by
  cases hsel : select ops env g with
  | error e =>
    rw [hsel] at hg
    obtain ⟨e', he'⟩ := hg
    exact ⟨e', by rw [he']; rfl⟩
  | ok v =>
    obtain ⟨env', ev'⟩ := v
    rw [hsel] at hg
    rcases hg with ⟨m, b', g', hm, hr, ht⟩ | ⟨⟨e, he⟩, hF⟩
    · rw [hr]
      rcases stop_tail t hm ht with ⟨b'', hb, hp⟩ | ⟨⟨e, he⟩, hF⟩
      · rw [hb]
        have := tail_success (ops := ops) t hn (hp.tracks env')
        simpa [Goes, Out.bind] using this
      · exact .err (e := e) (by rw [he]; rfl) hF
    · exact .err (e := e) (by rw [he]; rfl) hF

mutual
theorem part_goes : ∀ (p : Part E C α) {n rest env buffer group ev},
    (linesPart p ++ rest).length < n → Tracks ops ev env buffer group →
    Goes ops (scan ops n (linesPart p ++ rest) env buffer group .none) ev (selectPart ops env p) rest .none
  | .text t, n, rest, env, buffer, group, ev, hn, ht => by
    cases n with
    | zero => omega
    | succ n =>
      simp only [selectPart]
      refine .inl ⟨n, buffer, group ++ t, ?_, ?_, ht.text t⟩
      · simp [linesPart] at hn; omega
      · simp [linesPart, scan]
  | .effect f, n, rest, env, buffer, group, ev, hn, ht => by
    cases n with
    | zero => omega
    | succ n =>
      simp [linesPart] at hn
      rcases flush_cases ops env buffer group with ⟨o, ho, hf⟩ | ⟨e, hf, hF⟩
      · rw [selectPart]
        cases hfe : f env with
        | error e =>
          exact .sel_err (e := e) (by simp [linesPart, scan, hf, hfe, Out.bind, lift])
        | ok v =>
          obtain ⟨env', t⟩ := v
          refine .inl ⟨n, buffer ++ o ++ t, [], hn, ?_, ?_⟩
          · simp [linesPart, scan, hf, hfe, Out.bind, lift]
          · have h1 : Prints ops [.done t] t := by simpa using Prints.done (ops := ops) (t := t) .nil
            exact (prints_append (ht.flush ho) h1).tracks env'
      · exact .err (e := e) (by simp [linesPart, scan, hf, Out.bind]) hF
  | .check f, n, rest, env, buffer, group, ev, hn, ht => by
    cases n with
    | zero => omega
    | succ n =>
      simp [linesPart] at hn
      rw [selectPart]
      cases hfe : f env with
      | error e => exact .sel_err (e := e) (by simp [linesPart, scan, hfe, Out.bind, lift])
      | ok v =>
        refine .inl ⟨n, buffer, group, hn, ?_, by simpa using ht⟩
        simp [linesPart, scan, hfe, Out.bind, lift]
  | .section c g t, n, rest, env, buffer, group, ev, hn, ht => by
    cases n with
    | zero => omega
    | succ n =>
      simp [linesPart] at hn
      have hs : skipGroup 0 (lines g ++ (linesTail t ++ rest)) = linesTail t ++ rest := by
        rw [skip_parts g, skip_tail_zero]
      have hlt : (linesTail t ++ rest).length < n := by simp; omega
      have hlg : (lines g ++ (linesTail t ++ rest)).length < n := by simp; omega
      have hin : ∀ {b o}, Prints ops ev b → o = b →
          Goes ops ((scan ops n (lines g ++ (linesTail t ++ rest)) env o [] .none).bind
            fun (rest', env', b') => scan ops n rest' env' b' [] .success) ev (select ops env g) rest .none := by
        intro b o hp ho
        subst ho
        exact enter_goes (parts_goes g hlg (hp.tracks env)) hlt
      cases c with
      | expr c =>
        rcases flush_cases ops env buffer group with ⟨o, ho, hf⟩ | ⟨e, hf, hF⟩
        · rw [selectPart, Cond.eval]
          cases hv : ops.cond env c with
          | error e => exact .sel_err (e := e) (by simp [linesPart, scan, hf, hv, Out.bind, lift])
          | ok v =>
            cases v with
            | true =>
              have := hin (ht.flush ho) rfl
              simpa [linesPart, scan, hf, hv, Out.bind, lift] using this
            | false =>
              have := tail_goes t hlt ((ht.flush ho).tracks env)
              simpa [linesPart, scan, hf, hv, Out.bind, lift, hs] using this
        · exact .err (e := e) (by simp [linesPart, scan, hf, Out.bind]) hF
      | ifdef x =>
        rw [selectPart, Cond.eval]
        cases hv : ops.defined env x with
        | true =>
          rcases flush_cases ops env buffer group with ⟨o, ho, hf⟩ | ⟨e, hf, hF⟩
          · have := hin (ht.flush ho) rfl
            simpa [linesPart, scan, hf, hv, Out.bind, lift] using this
          · exact .err (e := e) (by simp [linesPart, scan, hf, hv, Out.bind]) hF
        | false =>
          have := tail_goes t hlt ht
          simpa [linesPart, scan, hv, hs] using this
      | ifndef x =>
        rw [selectPart, Cond.eval]
        cases hv : ops.defined env x with
        | false =>
          rcases flush_cases ops env buffer group with ⟨o, ho, hf⟩ | ⟨e, hf, hF⟩
          · have := hin (ht.flush ho) rfl
            simpa [linesPart, scan, hf, hv, Out.bind, lift] using this
          · exact .err (e := e) (by simp [linesPart, scan, hf, hv, Out.bind]) hF
        | true =>
          have := tail_goes t hlt ht
          simpa [linesPart, scan, hv, hs] using this
theorem parts_goes : ∀ (g : Parts E C α) {n rest env buffer group ev},
    (lines g ++ rest).length < n → Tracks ops ev env buffer group →
    Goes ops (scan ops n (lines g ++ rest) env buffer group .none) ev (select ops env g) rest .none
  | .nil, n, rest, env, buffer, group, ev, hn, ht => by
    rw [select]
    exact .inl ⟨n, buffer, group, by simpa [lines] using hn, by simp [lines], by simpa using ht⟩
  | .cons p ps, n, rest, env, buffer, group, ev, hn, ht => by
    rw [lines, List.append_assoc] at hn ⊢
    have hp := part_goes p hn ht
    rw [select]
    cases hsel : selectPart ops env p with
    | error e => rw [hsel] at hp; exact hp
    | ok v =>
      obtain ⟨env', ev'⟩ := v
      rw [hsel] at hp
      rcases hp with ⟨m, b', g', hm, hr, ht'⟩ | ⟨⟨e, he⟩, hF⟩
      · have hps := parts_goes ps hm ht'
        rw [hr]
        dsimp only
        cases hsel' : select ops env' ps with
        | error e => rw [hsel'] at hps; exact hps
        | ok v' =>
          obtain ⟨env'', ev''⟩ := v'
          rw [hsel'] at hps
          simpa [Goes] using hps
      · exact .err he hF
theorem tail_goes : ∀ (t : Tail E C α) {n rest env buffer group ev},
    (linesTail t ++ rest).length < n → Tracks ops ev env buffer group →
    Goes ops (scan ops n (linesTail t ++ rest) env buffer group .fail) ev (selectTail ops env t) rest .none
  | .endif, n, rest, env, buffer, group, ev, hn, ht => by
    cases n with
    | zero => omega
    | succ n =>
      rw [selectTail]
      refine .inl ⟨n, buffer, group, ?_, ?_, ?_⟩
      · simp [linesTail] at hn; omega
      · simp [linesTail, scan]
      · simpa using ht
  | .els g, n, rest, env, buffer, group, ev, hn, ht => by
    cases n with
    | zero => omega
    | succ n =>
      simp [linesTail] at hn
      rw [selectTail]
      rcases flush_cases ops env buffer group with ⟨o, ho, hf⟩ | ⟨e, hf, hF⟩
      · have := enter_goes (t := .endif) (rest := rest) (parts_goes g (n := n) (by simp [linesTail]; omega)
          ((ht.flush ho).tracks env)) (by simp [linesTail]; omega)
        simpa [linesTail, scan, hf, Out.bind] using this
      · exact .err (e := e) (by simp [linesTail, scan, hf, Out.bind]) hF
  | .elif c g t, n, rest, env, buffer, group, ev, hn, ht => by
    cases n with
    | zero => omega
    | succ n =>
      simp [linesTail] at hn
      have hs : skipGroup 0 (lines g ++ (linesTail t ++ rest)) = linesTail t ++ rest := by
        rw [skip_parts g, skip_tail_zero]
      have hlt : (linesTail t ++ rest).length < n := by simp; omega
      have hlg : (lines g ++ (linesTail t ++ rest)).length < n := by simp; omega
      rcases flush_cases ops env buffer group with ⟨o, ho, hf⟩ | ⟨e, hf, hF⟩
      · rw [selectTail]
        cases hv : ops.cond env c with
        | error e => exact .sel_err (e := e) (by simp [linesTail, scan, hf, hv, Out.bind, lift])
        | ok v =>
          cases v with
          | true =>
            have := enter_goes (parts_goes g hlg ((ht.flush ho).tracks env)) hlt
            simpa [linesTail, scan, hf, hv, Out.bind, lift] using this
          | false =>
            have := tail_goes t hlt ((ht.flush ho).tracks env)
            simpa [linesTail, scan, hf, hv, Out.bind, lift, hs] using this
      · exact .err (e := e) (by simp [linesTail, scan, hf, Out.bind]) hF
end

theorem run_goes (g : Parts E C α) (env : E) :
    match select ops env g with
    | .error _ => ∃ e, run ops (lines g) env = .err e
    | .ok (env', ev) =>
      (∃ out, run ops (lines g) env = .ok (env', out) ∧ Prints ops ev out) ∨
      ((∃ e, run ops (lines g) env = .err e) ∧ Fails ops) := by
  have h := parts_goes (ops := ops) g (rest := []) (n := (lines g).length + 1) (env := env) (by simp)
    (Prints.nil.tracks env)
  rw [List.append_nil] at h
  cases hsel : select ops env g with
  | error e =>
    rw [hsel] at h
    obtain ⟨e', he⟩ := h
    exact ⟨e', by rw [run, he]; rfl⟩
  | ok v =>
    obtain ⟨env', ev⟩ := v
    rw [hsel] at h
    rcases h with ⟨m, b, gr, hm, hr, ht⟩ | ⟨⟨e, he⟩, hF⟩
    · cases m with
      | zero => simp at hm
      | succ m =>
        rcases flush_cases ops env' b gr with ⟨o, ho, hf⟩ | ⟨e, hf, hF⟩
        · refine .inl ⟨b ++ o, ?_, by simpa using ht.flush ho⟩
          rw [run, hr]
          simp [scan, hf]
        · refine .inr ⟨⟨e, ?_⟩, hF⟩
          rw [run, hr]
          simp [scan, hf]
    · exact .inr ⟨⟨e, by rw [run, he]; rfl⟩, hF⟩

/-! ## The number of iterations always suffices -/

theorem skipGroup_length : ∀ (ls : List (Line E C α)) (k : Nat), (skipGroup k ls).length ≤ ls.length
  | [], k => by simp [skipGroup]
  | l :: ls, k => by
    have h := fun k => skipGroup_length ls k
    cases l <;> simp only [skipGroup, List.length_cons] <;> (try split) <;>
      (try simp only [List.length_cons]) <;> first | omega | exact Nat.le_succ_of_le (h _)

theorem flush_ne_fuel (env : E) (b g : List α) : flush ops env b g ≠ .fuel := by
  rw [flush]; split <;> simp

theorem lift_ne_fuel {β : Type} (r : Res β) : lift r ≠ .fuel := by
  cases r <;> simp [lift]

/-- `r` is not `fuel`, and when it is a success at most `k` lines remain. -/
def Short (r : Out (List (Line E C α) × E × List α)) (k : Nat) : Prop :=
  match r with
  | .fuel => False
  | .err _ => True
  | .ok (rest, _, _) => rest.length ≤ k

theorem Short.mono {r : Out (List (Line E C α) × E × List α)} {k k' : Nat} (h : Short r k) (hk : k ≤ k') :
    Short r k' := by
  cases r with
  | fuel => exact h
  | err e => trivial
  | ok v => exact Nat.le_trans h hk

theorem Short.bind {β : Type} {r : Out β} {f : β → Out (List (Line E C α) × E × List α)} {k : Nat}
    (hr : r ≠ .fuel) (hf : ∀ b, Short (f b) k) : Short (r.bind f) k := by
  cases r with
  | fuel => exact absurd rfl hr
  | err e => trivial
  | ok v => exact hf v

theorem scan_short (ops : Ops E C α) : ∀ (n : Nat) (ls : List (Line E C α)) (env : E) (b g : List α) (st : IfState),
    ls.length < n → Short (scan ops n ls env b g st) ls.length
  | 0, ls, env, b, g, st, h => by omega
  | n + 1, ls, env, b, g, st, h => by
    have ih := scan_short ops n
    have henter : ∀ (rest : List (Line E C α)) (b : List α), rest.length < n →
        Short ((scan ops n rest env b [] .none).bind fun (rest', env', b') =>
          scan ops n rest' env' b' [] .success) (rest.length + 1) := by
      intro rest b hl
      have h1 := ih rest env b [] .none hl
      cases hr : scan ops n rest env b [] .none with
      | fuel => rw [hr] at h1; exact h1.elim
      | err e => trivial
      | ok v =>
        obtain ⟨rest', env', b'⟩ := v
        rw [hr] at h1
        have h1 : rest'.length ≤ rest.length := h1
        exact (ih rest' env' b' [] .success (by omega)).mono (by omega)
    have hskip : ∀ (rest : List (Line E C α)) (b g : List α) (st : IfState), rest.length < n →
        Short (scan ops n (skipGroup 0 rest) env b g st) (rest.length + 1) := by
      intro rest b g st hl
      have := skipGroup_length rest 0
      exact (ih _ env b g st (by omega)).mono (by omega)
    cases ls with
    | nil =>
      simp only [scan]
      exact .bind (flush_ne_fuel _ _ _) fun b => by simp [Short]
    | cons l rest =>
      simp only [List.length_cons] at h ⊢
      have hl : rest.length < n := by omega
      cases l with
      | ifdef x =>
        simp only [scan]
        split
        · exact .bind (flush_ne_fuel _ _ _) fun b => henter rest b hl
        · exact hskip rest _ _ _ hl
      | ifndef x =>
        simp only [scan]
        split
        · exact hskip rest _ _ _ hl
        · exact .bind (flush_ne_fuel _ _ _) fun b => henter rest b hl
      | endif =>
        simp only [scan]
        cases st
        · exact .bind (flush_ne_fuel _ _ _) fun b => by simp [Short]
        · exact (ih rest _ _ _ _ hl).mono (by omega)
        · exact (ih rest _ _ _ _ hl).mono (by omega)
      | els =>
        simp only [scan]
        cases st
        · exact .bind (flush_ne_fuel _ _ _) fun b => by simp [Short]
        · exact hskip rest _ _ _ hl
        · exact .bind (flush_ne_fuel _ _ _) fun b => henter rest b hl
      | ifC c =>
        simp only [scan]
        refine .bind (flush_ne_fuel _ _ _) fun b => .bind (lift_ne_fuel _) fun v => ?_
        split
        · exact henter rest b hl
        · exact hskip rest _ _ _ hl
      | elif c =>
        simp only [scan]
        refine .bind (flush_ne_fuel _ _ _) fun b => ?_
        cases st
        · exact .bind (flush_ne_fuel _ _ _) fun b => by simp [Short]
        · exact hskip rest _ _ _ hl
        · refine .bind (lift_ne_fuel _) fun v => ?_
          split
          · exact henter rest b hl
          · exact hskip rest _ _ _ hl
      | text t => exact (ih rest _ _ _ _ hl).mono (by omega)
      | effect f =>
        simp only [scan]
        refine .bind (flush_ne_fuel _ _ _) fun b => .bind (lift_ne_fuel _) fun v => ?_
        exact (ih rest _ _ _ _ hl).mono (by omega)
      | check f =>
        simp only [scan]
        refine .bind (lift_ne_fuel _) fun v => ?_
        exact (ih rest _ _ _ _ hl).mono (by omega)

/-! ## Nesting -/

/-- The number of if-sections that are open after some lines, if `k` were open before; `none` if an
`#elif`, `#else` or `#endif` is outside any if-section. -/
def depth : Nat → List (Line E C α) → Option Nat
  | k, [] => some k
  | k, .ifC _ :: ls => depth (k + 1) ls
  | k, .ifdef _ :: ls => depth (k + 1) ls
  | k, .ifndef _ :: ls => depth (k + 1) ls
  | k, .elif _ :: ls => if k = 0 then none else depth k ls
  | k, .els :: ls => if k = 0 then none else depth k ls
  | k, .endif :: ls => if k = 0 then none else depth (k - 1) ls
  | k, .text _ :: ls => depth k ls
  | k, .effect _ :: ls => depth k ls
  | k, .check _ :: ls => depth k ls

theorem depth_append : ∀ (a b : List (Line E C α)) (k : Nat),
    depth k (a ++ b) = (depth k a).bind fun k' => depth k' b
  | [], b, k => by simp [depth]
  | l :: a, b, k => by
    cases l <;> simp only [List.cons_append, depth] <;> (try split) <;>
      first | rfl | exact depth_append a b _

theorem depth_add : ∀ (a : List (Line E C α)) (k k' j : Nat), depth k a = some k' →
    depth (k + j) a = some (k' + j)
  | [], k, k', j, h => by simp [depth] at h ⊢; exact h
  | l :: a, k, k', j, h => by
    cases l with
    | ifC c =>
      have := depth_add a (k + 1) k' j h
      rw [depth, show k + j + 1 = k + 1 + j by omega]; exact this
    | ifdef c =>
      have := depth_add a (k + 1) k' j h
      rw [depth, show k + j + 1 = k + 1 + j by omega]; exact this
    | ifndef c =>
      have := depth_add a (k + 1) k' j h
      rw [depth, show k + j + 1 = k + 1 + j by omega]; exact this
    | elif c =>
      rw [depth] at h ⊢
      by_cases hk : k = 0
      · simp [hk] at h
      · rw [if_neg hk] at h; rw [if_neg (by omega)]; exact depth_add a k k' j h
    | els =>
      rw [depth] at h ⊢
      by_cases hk : k = 0
      · simp [hk] at h
      · rw [if_neg hk] at h; rw [if_neg (by omega)]; exact depth_add a k k' j h
    | endif =>
      rw [depth] at h ⊢
      by_cases hk : k = 0
      · simp [hk] at h
      · rw [if_neg hk] at h; rw [if_neg (by omega)]
        have := depth_add a (k - 1) k' j h
        rwa [show k + j - 1 = k - 1 + j by omega]
    | text t => exact depth_add a k k' j h
    | effect f => exact depth_add a k k' j h
    | check f => exact depth_add a k k' j h

/-- The lines `ls`, of which `rest` remain, are nested inside `k` if-sections of which `k'` remain
open; unless nothing remains. -/
def Nested (k k' : Nat) (ls rest : List (Line E C α)) : Prop :=
  (rest = [] ∧ ∃ d, depth k ls = some d) ∨ (∃ pre, ls = pre ++ rest ∧ depth k pre = some k')

theorem Nested.cons {k j k' : Nat} {l : Line E C α} {ls rest : List (Line E C α)}
    (hl : ∀ ls, depth k (l :: ls) = depth j ls) (h : Nested j k' ls rest) : Nested k k' (l :: ls) rest := by
  rcases h with ⟨rfl, d, hd⟩ | ⟨pre, rfl, hd⟩
  · exact .inl ⟨rfl, d, by rw [hl]; exact hd⟩
  · exact .inr ⟨l :: pre, rfl, by rw [hl]; exact hd⟩

theorem Nested.trans {k j k' : Nat} {ls mid rest : List (Line E C α)}
    (h : Nested k j ls mid) (h' : Nested j k' mid rest) : Nested k k' ls rest := by
  rcases h with ⟨rfl, d, hd⟩ | ⟨pre, rfl, hd⟩
  · rcases h' with ⟨rfl, _, _⟩ | ⟨pre, hp, _⟩
    · exact .inl ⟨rfl, d, hd⟩
    · have : rest = [] := by
        cases rest with
        | nil => rfl
        | cons a as => simp at hp
      exact .inl ⟨this, d, hd⟩
  · rcases h' with ⟨rfl, d, hd'⟩ | ⟨pre', rfl, hd'⟩
    · exact .inl ⟨rfl, d, by rw [depth_append, hd]; exact hd'⟩
    · exact .inr ⟨pre ++ pre', by simp, by rw [depth_append, hd]; exact hd'⟩

theorem Nested.refl (k : Nat) (ls : List (Line E C α)) : Nested k k ls ls :=
  .inr ⟨[], rfl, rfl⟩

theorem Nested.add {k k' : Nat} {ls rest : List (Line E C α)} (h : Nested k k' ls rest) (j : Nat) :
    Nested (k + j) (k' + j) ls rest := by
  rcases h with ⟨rfl, d, hd⟩ | ⟨pre, rfl, hd⟩
  · exact .inl ⟨rfl, _, depth_add _ _ _ j hd⟩
  · exact .inr ⟨pre, rfl, depth_add _ _ _ j hd⟩

theorem skipGroup_nested : ∀ (ls : List (Line E C α)) (k : Nat), Nested (k + 1) 1 ls (skipGroup k ls)
  | [], k => .inl ⟨rfl, _, rfl⟩
  | l :: ls, k => by
    have ih := fun k => skipGroup_nested ls k
    cases l with
    | ifC c => exact .cons (fun _ => rfl) (ih (k + 1))
    | ifdef c => exact .cons (fun _ => rfl) (ih (k + 1))
    | ifndef c => exact .cons (fun _ => rfl) (ih (k + 1))
    | elif c =>
      rw [skipGroup]
      split
      · rename_i h; subst h; exact .refl _ _
      · exact .cons (fun _ => by simp [depth]) (ih k)
    | els =>
      rw [skipGroup]
      split
      · rename_i h; subst h; exact .refl _ _
      · exact .cons (fun _ => by simp [depth]) (ih k)
    | endif =>
      rw [skipGroup]
      split
      · refine .cons (j := k - 1 + 1) (fun _ => ?_) (ih (k - 1))
        rw [depth, if_neg (by omega), show k + 1 - 1 = k - 1 + 1 by omega]
      · rename_i h
        have : k = 0 := by omega
        subst this
        exact .refl _ _
    | text t => exact .cons (fun _ => rfl) (ih k)
    | effect t => exact .cons (fun _ => rfl) (ih k)
    | check t => exact .cons (fun _ => rfl) (ih k)

/-- The number of if-sections a scan is in. -/
def openOf : IfState → Nat
  | .none => 0
  | _ => 1

theorem bind_ok {β γ : Type} {r : Out β} {f : β → Out γ} {c : γ} (h : r.bind f = .ok c) :
    ∃ b, r = .ok b ∧ f b = .ok c := by
  cases r with
  | ok b => exact ⟨b, rfl, h⟩
  | err e => simp at h
  | fuel => simp at h

/-- Nothing, or an `#elif`, `#else` or `#endif` first. -/
def Closing : List (Line E C α) → Prop
  | [] => True
  | .elif _ :: _ => True
  | .els :: _ => True
  | .endif :: _ => True
  | _ => False

theorem skipGroup_closing : ∀ (ls : List (Line E C α)) (k : Nat), Closing (skipGroup k ls)
  | [], k => trivial
  | l :: ls, k => by
    have ih := fun k => skipGroup_closing ls k
    cases l <;> simp only [skipGroup] <;> (try split) <;> first | exact ih _ | trivial

theorem scan_nested (ops : Ops E C α) : ∀ (n : Nat) (ls : List (Line E C α)) (env : E) (b g : List α)
    (st : IfState) (rest : List (Line E C α)) (env' : E) (b' : List α),
    st = .none ∨ Closing ls →
    scan ops n ls env b g st = .ok (rest, env', b') → Nested (openOf st) 0 ls rest ∧ Closing rest
  | 0, ls, env, b, g, st, rest, env', b', _, h => by simp [scan] at h
  | n + 1, ls, env, b, g, st, rest, env', b', hst, h => by
    have ih := scan_nested ops n
    have henter : ∀ (ls : List (Line E C α)) (b : List α),
        ((scan ops n ls env b [] .none).bind fun (rest', env', b') =>
          scan ops n rest' env' b' [] .success) = .ok (rest, env', b') →
        Nested 1 0 ls rest ∧ Closing rest := by
      intro ls b h
      obtain ⟨⟨mid, env1, b1⟩, h1, h2⟩ := bind_ok h
      obtain ⟨ha, hc⟩ := ih _ _ _ _ _ _ _ _ (.inl rfl) h1
      obtain ⟨ha', hc'⟩ := ih _ _ _ _ _ _ _ _ (.inr hc) h2
      exact ⟨(ha.add 1).trans ha', hc'⟩
    have hskip : ∀ (ls : List (Line E C α)) (b g : List α) (st : IfState), openOf st = 1 →
        scan ops n (skipGroup 0 ls) env b g st = .ok (rest, env', b') →
        Nested 1 0 ls rest ∧ Closing rest := by
      intro ls b g st hst h
      obtain ⟨ha, hc⟩ := ih _ _ _ _ _ _ _ _ (.inr (skipGroup_closing ls 0)) h
      rw [hst] at ha
      exact ⟨(skipGroup_nested ls 0).trans ha, hc⟩
    cases ls with
    | nil =>
      simp only [scan] at h
      obtain ⟨_, _, h⟩ := bind_ok h
      cases h
      exact ⟨.inl ⟨rfl, _, rfl⟩, trivial⟩
    | cons l ls =>
      cases l with
      | ifdef x =>
        obtain rfl | hf := hst
        · simp only [scan] at h
          have hl : Nested 1 0 ls rest ∧ Closing rest := by
            split at h
            · obtain ⟨b1, _, h⟩ := bind_ok h
              exact henter _ b1 h
            · exact hskip _ _ _ .fail rfl h
          exact ⟨.cons (fun _ => rfl) hl.1, hl.2⟩
        · exact hf.elim
      | ifndef x =>
        obtain rfl | hf := hst
        · simp only [scan] at h
          have hl : Nested 1 0 ls rest ∧ Closing rest := by
            split at h
            · exact hskip _ _ _ .fail rfl h
            · obtain ⟨b1, _, h⟩ := bind_ok h
              exact henter _ b1 h
          exact ⟨.cons (fun _ => rfl) hl.1, hl.2⟩
        · exact hf.elim
      | ifC c =>
        obtain rfl | hf := hst
        · simp only [scan] at h
          obtain ⟨b1, _, h⟩ := bind_ok h
          obtain ⟨v, _, h⟩ := bind_ok h
          have hl : Nested 1 0 ls rest ∧ Closing rest := by
            split at h
            · exact henter _ b1 h
            · exact hskip _ _ _ .fail rfl h
          exact ⟨.cons (fun _ => rfl) hl.1, hl.2⟩
        · exact hf.elim
      | endif =>
        simp only [scan] at h
        cases st with
        | none =>
          obtain ⟨_, _, h⟩ := bind_ok h
          cases h
          exact ⟨.refl _ _, trivial⟩
        | success =>
          obtain ⟨ha, hc⟩ := ih _ _ _ _ _ _ _ _ (.inl rfl) h
          exact ⟨.cons (fun _ => rfl) ha, hc⟩
        | fail =>
          obtain ⟨ha, hc⟩ := ih _ _ _ _ _ _ _ _ (.inl rfl) h
          exact ⟨.cons (fun _ => rfl) ha, hc⟩
      | els =>
        simp only [scan] at h
        cases st with
        | none =>
          obtain ⟨_, _, h⟩ := bind_ok h
          cases h
          exact ⟨.refl _ _, trivial⟩
        | success =>
          obtain ⟨ha, hc⟩ := hskip _ _ _ .success rfl h
          exact ⟨.cons (fun _ => rfl) ha, hc⟩
        | fail =>
          obtain ⟨b1, _, h⟩ := bind_ok h
          obtain ⟨ha, hc⟩ := henter _ b1 h
          exact ⟨.cons (fun _ => rfl) ha, hc⟩
      | elif c =>
        simp only [scan] at h
        obtain ⟨b1, _, h⟩ := bind_ok h
        cases st with
        | none =>
          obtain ⟨_, _, h⟩ := bind_ok h
          cases h
          exact ⟨.refl _ _, trivial⟩
        | success =>
          obtain ⟨ha, hc⟩ := hskip _ _ _ .success rfl h
          exact ⟨.cons (fun _ => rfl) ha, hc⟩
        | fail =>
          dsimp only at h
          obtain ⟨v, _, h⟩ := bind_ok h
          have hl : Nested 1 0 ls rest ∧ Closing rest := by
            split at h
            · exact henter _ b1 h
            · exact hskip _ _ _ .fail rfl h
          exact ⟨.cons (fun _ => rfl) hl.1, hl.2⟩
      | text t =>
        obtain rfl | hf := hst
        · obtain ⟨ha, hc⟩ := ih _ _ _ _ _ _ _ _ (.inl rfl) h
          exact ⟨.cons (fun _ => rfl) ha, hc⟩
        · exact hf.elim
      | effect f =>
        obtain rfl | hf := hst
        · simp only [scan] at h
          obtain ⟨b1, _, h⟩ := bind_ok h
          obtain ⟨v, _, h⟩ := bind_ok h
          obtain ⟨ha, hc⟩ := ih _ _ _ _ _ _ _ _ (.inl rfl) h
          exact ⟨.cons (fun _ => rfl) ha, hc⟩
        · exact hf.elim
      | check f =>
        obtain rfl | hf := hst
        · simp only [scan] at h
          obtain ⟨v, _, h⟩ := bind_ok h
          obtain ⟨ha, hc⟩ := ih _ _ _ _ _ _ _ _ (.inl rfl) h
          exact ⟨.cons (fun _ => rfl) ha, hc⟩
        · exact hf.elim

/-! ## C32 -/

/-- **C32**.  If a file is preprocessed successfully, the result is what C prescribes for its groups:
only the selected group of every if-section contributes text, definitions and errors, and text is
replaced with the definitions in force where it stands. -/
theorem C32_selected (ops : Ops E C α) (g : Parts E C α) (env env' : E) (out : List α)
    (h : run ops (lines g) env = .ok (env', out)) :
    ∃ ev, select ops env g = .ok (env', ev) ∧ Prints ops ev out := by
  have hg := run_goes (ops := ops) g env
  cases hsel : select ops env g with
  | error e =>
    rw [hsel] at hg
    obtain ⟨e', he⟩ := hg
    rw [h] at he
    cases he
  | ok v =>
    obtain ⟨env1, ev⟩ := v
    rw [hsel] at hg
    rcases hg with ⟨out', hr, hp⟩ | ⟨⟨e, he⟩, _⟩
    · rw [h] at hr
      cases hr
      exact ⟨ev, rfl, hp⟩
    · rw [h] at he
      cases he

/-- **C32**.  A file whose selected groups contain no failing directive, condition or macro invocation
is preprocessed successfully, whatever is in the groups that are not selected. -/
theorem C32_accepted (ops : Ops E C α) (g : Parts E C α) (env env' : E) (ev : List (Event E α))
    (hs : select ops env g = .ok (env', ev)) (hx : ∀ e t, ∃ o, ops.expand e t = .ok o) :
    ∃ out, run ops (lines g) env = .ok (env', out) ∧ Prints ops ev out := by
  have hg := run_goes (ops := ops) g env
  rw [hs] at hg
  rcases hg with h | ⟨_, e, t, x, hf⟩
  · exact h
  · obtain ⟨o, ho⟩ := hx e t
    rw [ho] at hf
    cases hf

/-- **C32**.  A failing directive or condition in a selected position makes preprocessing fail. -/
theorem C32_rejected (ops : Ops E C α) (g : Parts E C α) (env : E) (e : Err)
    (hs : select ops env g = .error e) : ∃ e', run ops (lines g) env = .err e' := by
  have hg := run_goes (ops := ops) g env
  rw [hs] at hg
  exact hg

/-- **C32**.  Conditional inclusion always ends, on every sequence of lines (balanced or not). -/
theorem C32_terminates (ops : Ops E C α) (ls : List (Line E C α)) (env : E) : run ops ls env ≠ .fuel := by
  have h := scan_short ops (ls.length + 1) ls env [] [] .none (by omega)
  rw [run]
  cases hr : scan ops (ls.length + 1) ls env [] [] .none with
  | fuel => rw [hr] at h; exact h.elim
  | err e => simp
  | ok v =>
    obtain ⟨rest, env', b⟩ := v
    cases rest <;> simp

/-! ## C60 -/

/-- **C60** (partial).  In every file that is preprocessed successfully, every `#elif`, `#else` and
`#endif` belongs to an if-section that was opened before it.  Missing: that every section is closed
and that nothing but `#endif` follows `#else` (`C60_unterminated_false`, `C60_repeated_else_false`). -/
theorem C60_nested_partial (ops : Ops E C α) (ls : List (Line E C α)) (env env' : E) (out : List α)
    (h : run ops ls env = .ok (env', out)) : ∃ d, depth 0 ls = some d := by
  rw [run] at h
  obtain ⟨⟨rest, env1, b⟩, hs, h⟩ := bind_ok h
  obtain ⟨hn, _⟩ := scan_nested ops _ _ _ _ _ _ _ _ _ (.inl rfl) hs
  cases rest with
  | cons l rest => simp at h
  | nil =>
    rcases hn with ⟨_, d, hd⟩ | ⟨pre, hp, hd⟩
    · exact ⟨d, hd⟩
    · rw [List.append_nil] at hp
      subst hp
      exact ⟨0, hd⟩

mutual
theorem depth_part : ∀ (p : Part E C α) (k : Nat), depth k (linesPart p) = some k
  | .text t, k => rfl
  | .effect t, k => rfl
  | .check t, k => rfl
  | .section c g t, k => by
    have h : depth (k + 1) (lines g ++ linesTail t) = some k := by
      rw [depth_append, depth_parts g]; exact depth_tail t k
    cases c <;> simpa [linesPart, depth] using h
theorem depth_parts : ∀ (g : Parts E C α) (k : Nat), depth k (lines g) = some k
  | .nil, k => rfl
  | .cons p ps, k => by
    rw [lines, depth_append, depth_part p]; exact depth_parts ps k
theorem depth_tail : ∀ (t : Tail E C α) (k : Nat), depth (k + 1) (linesTail t) = some k
  | .endif, k => rfl
  | .els g, k => by
    have h : depth (k + 1) (lines g ++ [.endif]) = some k := by
      rw [depth_append, depth_parts g]; rfl
    simpa [linesTail, depth] using h
  | .elif c g t, k => by
    have h : depth (k + 1) (lines g ++ linesTail t) = some k := by
      rw [depth_append, depth_parts g]; exact depth_tail t k
    simpa [linesTail, depth] using h
end

/-- Files that are well-formed groups are nested properly. -/
theorem depth_lines : (∀ (p : Part E C α) k, depth k (linesPart p) = some k) ∧
    (∀ (g : Parts E C α) k, depth k (lines g) = some k) ∧
    (∀ (t : Tail E C α) k, depth (k + 1) (linesTail t) = some k) := by
  refine ⟨?_, ?_, ?_⟩
  · exact depth_part
  · exact depth_parts
  · exact depth_tail

/-- The open sections after some lines, each with whether its `#else` has been seen; `none` if the
lines break the rules of 6.10p1. -/
def strict : List Bool → List (Line E C α) → Option (List Bool)
  | s, [] => some s
  | s, .ifC _ :: ls => strict (false :: s) ls
  | s, .ifdef _ :: ls => strict (false :: s) ls
  | s, .ifndef _ :: ls => strict (false :: s) ls
  | false :: s, .elif _ :: ls => strict (false :: s) ls
  | _, .elif _ :: _ => none
  | false :: s, .els :: ls => strict (true :: s) ls
  | _, .els :: _ => none
  | _ :: s, .endif :: ls => strict s ls
  | [], .endif :: _ => none
  | s, .text _ :: ls => strict s ls
  | s, .effect _ :: ls => strict s ls
  | s, .check _ :: ls => strict s ls

mutual
theorem strict_part : ∀ (p : Part E C α) (s : List Bool) (rest : List (Line E C α)),
    strict s (linesPart p ++ rest) = strict s rest
  | .text t, s, rest => by simp [linesPart, strict]
  | .effect t, s, rest => by simp [linesPart, strict]
  | .check t, s, rest => by simp [linesPart, strict]
  | .section c g t, s, rest => by
    have h : strict (false :: s) (lines g ++ (linesTail t ++ rest)) = strict s rest := by
      rw [strict_parts g, strict_tail t]
    cases c <;> simpa [linesPart, strict] using h
theorem strict_parts : ∀ (g : Parts E C α) (s : List Bool) (rest : List (Line E C α)),
    strict s (lines g ++ rest) = strict s rest
  | .nil, s, rest => rfl
  | .cons p ps, s, rest => by
    rw [lines, List.append_assoc, strict_part p, strict_parts ps]
theorem strict_tail : ∀ (t : Tail E C α) (s : List Bool) (rest : List (Line E C α)),
    strict (false :: s) (linesTail t ++ rest) = strict s rest
  | .endif, s, rest => by simp [linesTail, strict]
  | .els g, s, rest => by
    have h : strict (true :: s) (lines g ++ (.endif :: rest)) = strict s rest := by
      rw [strict_parts g, strict]
    simpa [linesTail, strict] using h
  | .elif c g t, s, rest => by
    have h : strict (false :: s) (lines g ++ (linesTail t ++ rest)) = strict s rest := by
      rw [strict_parts g, strict_tail t]
    simpa [linesTail, strict] using h
end

/-! ## Examples -/

/-- Definitions are a list of names; the condition of an `#if` is a name or a number; replacement
deletes the names that are defined. -/
def demo : Ops (List Name) (Name ⊕ Nat) Name where
  defined env n := env.contains n
  cond env c := match c with
    | .inl n => .ok (env.contains n)
    | .inr k => if k < 2 then .ok (k == 1) else .error .lexerError
  expand env t := .ok (t.filter fun n => !env.contains n)
  expand_nil _ := rfl

/-- `#define n` -/
def defineLine (n : Name) : Part (List Name) (Name ⊕ Nat) Name := .effect fun env => .ok (n :: env, [])

/-- `#error` -/
def errorLine : Part (List Name) (Name ⊕ Nat) Name := .check fun _ => .error .lexerError

/-- A group from a list of parts. -/
def parts (l : List (Part E C α)) : Parts E C α := l.foldr .cons .nil

/-- ```
a b
#ifdef a
#error
# if 7
# else
c
# endif
#elif 0
d
#elif 1
#define a
a b
#elif 7
e
#else
#error
#endif
a f
```
yields `a b`, `b` and `f`: the `#error`s and the malformed conditions `7` have no effect. -/
example :
    run demo (lines (parts [.text [['a'], ['b']],
      .section (.ifdef ['a'])
        (parts [errorLine, .section (.expr (.inr 7)) (parts []) (.els (parts [.text [['c']]]))])
        (.elif (.inr 0) (parts [.text [['d']]])
          (.elif (.inr 1) (parts [defineLine ['a'], .text [['a'], ['b']]])
            (.elif (.inr 7) (parts [.text [['e']]]) (.els (parts [errorLine]))))),
      .text [['a'], ['f']]])) [] =
    .ok ([['a']], [['a'], ['b'], ['b'], ['f']]) := by
  decide +kernel

/-- The hypotheses of `C32_accepted` hold for `demo`. -/
example : ∀ e t, ∃ o, demo.expand e t = .ok o := fun _ _ => ⟨_, rfl⟩

/-- A malformed condition in a selected position is an error. -/
example : select demo [] (parts [.section (.expr (.inr 0)) (parts []) (.elif (.inr 7) (parts []) .endif)]) =
    .error .lexerError := rfl

/-- **C60 fails** for sections that are never closed: `#if 1` with `a` and no `#endif` is accepted. -/
theorem C60_unterminated_false : ¬ ∀ (ls : List (Line (List Name) (Name ⊕ Nat) Name)) env r,
    run demo ls env = .ok r → depth 0 ls = some 0 := by
  intro h
  have := h [.ifC (.inr 1), .text [['a']]] [] ([], [['a']]) (by decide +kernel)
  simp [depth] at this

/-- **C60 fails** for a second `#else`: the lines below are accepted, although no group consists of
them. -/
theorem C60_repeated_else_false : ¬ ∀ (ls : List (Line (List Name) (Name ⊕ Nat) Name)) env r,
    run demo ls env = .ok r → depth 0 ls = some 0 → ∃ g, ls = lines g := by
  intro h
  obtain ⟨g, hg⟩ := h [.ifC (.inr 1), .els, .els, .endif] [] ([], []) (by decide +kernel) (by decide +kernel)
  have := strict_parts g [] []
  rw [List.append_nil, ← hg] at this
  simp [strict] at this

end Kefir.Preproc.Group
