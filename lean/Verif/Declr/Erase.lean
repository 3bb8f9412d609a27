import Verif.Declr.Lemmas

/-!
# From kefir's types to C types, and the conditions of the theorems
-/

namespace Kefir.Declr
open Model

variable {X : Type}

mutual
/-- The C type that a type of kefir stands for: `static` and qualifiers between brackets are forgotten, they only
concern the parameter that is declared. -/
def erase : KTy → Ty
  | .basic b => .basic b
  | .tagged i c => .tagged i c
  | .vaList => .vaList
  | .ptr t => .ptr (erase t)
  | .arr n _ _ t => .arr n (erase t)
  | .fn r mode ps e =>
    .fn (erase r)
      (match mode with
       | .parameters =>
         match ps with
         | .typed (.basic .void) _ .nil => .some .nil
         | _ => .some (eraseParams ps)
       | _ => .none)
      e
  | .qual q t => .qual q (erase t)
/-- The same for parameters, which lose their qualifiers. -/
def eraseParams : KParams → Tys
  | .nil => .nil
  | .typed t _ r => .cons (erase t).unqual (eraseParams r)
  | .untyped r => eraseParams r
end

/-- Only object types other than arrays and `va_list` are qualified. -/
def topOk : KTy → Bool
  | .qual _ (.arr _ _ _ _) | .qual _ (.fn _ _ _ _) | .qual _ .vaList | .qual _ (.qual _ _) => false
  | _ => true

/-- The analysis and the standard are asked about the same program: typedef names and tags stand for the same types,
expressions have the same values, types the same alignment.  Types of typedef names are valid. -/
structure Agrees (env : Env X) (G : Scope X) : Prop where
  typedefTy : ∀ s, G.typedefTy s = (env.typedefTy s).map erase
  tagTy : ∀ k n b, G.tagTy k n b = (env.tagTy k n b).map erase
  value : ∀ e, G.value e = env.value e
  isInt : ∀ e, G.isInt e = env.isInt e
  alignTo : ∀ a, G.alignTo a = env.alignTo a
  natural : ∀ k, G.natural (erase k) = env.natural k
  definition : G.definition = true
  valid : ∀ s t, env.typedefTy s = some t → analyzeType false t = true ∧ topOk t = true
  tagged : ∀ k n b t, env.tagTy k n b = some t → ∃ i c, t = .tagged i c

/-- The conditions on declaration specifiers: `long` does not follow `double`, there is no `_Atomic` qualifier, and no
qualifiers are added to array, function and `va_list` types. -/
structure CoveredSpecs (G : Scope X) (ss : List (Spec X)) : Prop where
  words : ∀ ws, typeSpecs ss = ws.map .word → doubleBeforeLong ws = false
  atomic : Qual.atomic ∉ quals ss
  quals : quals ss ≠ [] → ∀ t, TypeOf G (typeSpecs ss) t → t.isArr = false ∧ t.isFn = false ∧ t.unqual ≠ .vaList

theorem erase_qual_top {k : KTy} (h : (erase k).isArr = false) (q : Quals) :
    erase (k.qualified q) = (erase k).addQuals q := by
  cases k with
  | arr n st q' t => simp [erase, Ty.isArr, Ty.unqual] at h
  | _ => simp [KTy.qualified, erase, Ty.addQuals]

theorem erase_qualify {k : KTy} (q : Quals) (h : q ≠ {} → (erase k).isArr = false) :
    erase (k.qualifyNonZero q) = (erase k).qualify q := by
  unfold KTy.qualifyNonZero Ty.qualify
  by_cases hq : q = {}
  · simp [hq]
  · simp [hq, erase_qual_top (h hq)]

theorem Quals.of_nil : Quals.of [] = {} := rfl

theorem erase_unqual (k : KTy) : erase k.unqual = (erase k).unqual := by
  cases k <;> simp [KTy.unqual, erase, Ty.unqual]

theorem erase_incomplete (k : KTy) : k.incomplete = (erase k).incomplete := by
  have : ∀ k : KTy, (match k with | .basic .void => true | .tagged _ c => !c | .arr .unknown _ _ _ => true | _ => false) =
      (match erase k with | .basic .void => true | .tagged _ c => !c | .arr .unknown _ => true | _ => false) := by
    intro k
    cases k with
    | basic b => cases b <;> simp [erase]
    | arr n st q t => cases n <;> simp [erase]
    | _ => simp [erase]
  unfold KTy.incomplete Ty.incomplete
  rw [← erase_unqual]
  exact this _

theorem qualifyNonZero_analyze (o : Bool) (q : Quals) (k : KTy) (h : analyzeType o k = true) :
    analyzeType o (k.qualifyNonZero q) = true := by
  unfold KTy.qualifyNonZero
  split
  · exact h
  · cases k <;> simpa [KTy.qualified, analyzeType] using h

theorem topOk_qualify (q : Quals) {k : KTy} (h : topOk k = true)
    (h2 : q ≠ {} → (erase k).isArr = false ∧ (erase k).isFn = false ∧ (erase k).unqual ≠ .vaList) :
    topOk (k.qualifyNonZero q) = true := by
  unfold KTy.qualifyNonZero
  split
  · exact h
  · next hq =>
    have h2 := h2 hq
    cases k with
    | basic b => rfl
    | tagged i c => rfl
    | vaList => exact absurd rfl h2.2.2
    | ptr t => rfl
    | arr n st q' t => simp [erase, Ty.isArr, Ty.unqual] at h2
    | fn r m ps e => simp [erase, Ty.isFn, Ty.unqual] at h2
    | qual q' t =>
      cases t <;> simp [topOk] at h <;> rfl

/-! ### Specifiers other than words -/

theorem tstep_tag {env : Env X} {G : Scope X} (hA : Agrees env G) {ts : List (TypeSpec X)} {t : Ty}
    (h : TypeOf G ts t) (hw : ∀ ws, ts = ws.map .word → doubleBeforeLong ws = false) :
    ∃ s k, tsteps env {} ts = some s ∧ applySign s.sign s.base = some k ∧ erase k = t ∧
      analyzeType false k = true ∧ topOk k = true := by
  cases h with
  | words ws b hd =>
    obtain ⟨s, h1, h2⟩ := words_complete env hd (hw ws rfl)
    exact ⟨s, _, h1, h2, rfl, rfl, rfl⟩
  | tag k n b t ht =>
    rw [hA.tagTy] at ht
    cases hk : env.tagTy k n b with
    | none => rw [hk] at ht; cases ht
    | some t' =>
      rw [hk] at ht
      simp only [Option.map_some, Option.some.injEq] at ht
      obtain ⟨i, c, rfl⟩ := hA.tagged k n b t' hk
      refine ⟨⟨.default, .specifiers, some (.tagged i c)⟩, .tagged i c, ?_, rfl, ht, rfl, rfl⟩
      simp [tsteps, tstep, resolveType, hk, tstate]
  | typedefName s t ht =>
    rw [hA.typedefTy] at ht
    cases hk : env.typedefTy s with
    | none => rw [hk] at ht; cases ht
    | some t' =>
      rw [hk] at ht
      simp only [Option.map_some, Option.some.injEq] at ht
      obtain ⟨hv, ho⟩ := hA.valid s t' hk
      refine ⟨⟨.default, .typedef, some t'⟩, t', ?_, rfl, ht, hv, ho⟩
      simp [tsteps, tstep, resolveType, hk, tstate]
  | vaList => exact ⟨⟨.default, .specifiers, some .vaList⟩, .vaList, rfl, rfl, rfl, rfl, rfl⟩

/-- Not a keyword. -/
def TypeSpec.isWord : TypeSpec X → Bool
  | .word _ => true
  | _ => false

theorem split_words : ∀ ts : List (TypeSpec X), (∃ ws : List Word, ts = ws.map .word) ∨
    ∃ (ws : List Word) (x : TypeSpec X) (r : List (TypeSpec X)), x.isWord = false ∧ ts = ws.map .word ++ x :: r
  | [] => Or.inl ⟨[], rfl⟩
  | x :: r => by
    cases hx : x.isWord with
    | false => exact Or.inr ⟨[], x, r, hx, rfl⟩
    | true =>
      cases x with
      | word w =>
        rcases split_words r with ⟨ws, rfl⟩ | ⟨ws, y, r', hy, rfl⟩
        · exact Or.inl ⟨w :: ws, rfl⟩
        · exact Or.inr ⟨w :: ws, y, r', hy, rfl⟩
      | _ => simp [TypeSpec.isWord] at hx

theorem tsteps_append (env : Env X) : ∀ (a b : List (TypeSpec X)) (t : TState),
    tsteps env t (a ++ b) = (tsteps env t a).bind (fun t' => tsteps env t' b)
  | [], b, t => rfl
  | x :: a, b, t => by
    simp only [List.cons_append, tsteps]
    cases tstep env t x with
    | none => rfl
    | some t' => exact tsteps_append env a b t'

/-- Words leave the sequence "empty" only if there are none, or if there is just `short`. -/
theorem words_seq : ∀ (ws : List Word) (t : TState), tsteps emptyEnv {} (ws.map .word) = some t → t.seq = .empty →
    (ws = [] ∧ t = {}) ∨ (ws = [.short] ∧ t = ⟨.default, .empty, some (.basic .short)⟩) := by
  have hstay : ∀ (ws : List Word) (t t' : TState), tsteps emptyEnv t (ws.map .word) = some t' →
      t.seq = .specifiers → t'.seq = .specifiers := by
    intro ws
    induction ws with
    | nil => intro t t' h hs; simp only [List.map_nil, tsteps, Option.some.injEq] at h; rw [← h]; exact hs
    | cons w r ih =>
      intro t t' h hs
      simp only [List.map_cons, tsteps] at h
      cases h1 : tstep emptyEnv t (.word w) with
      | none => rw [h1] at h; cases h
      | some t1 =>
        rw [h1] at h
        refine ih t1 t' h ?_
        obtain ⟨sign, seq, base⟩ := t
        subst hs
        cases w <;> simp only [tstep, resolveType, Option.map_eq_some_iff] at h1 <;> obtain ⟨a, h2, rfl⟩ := h1 <;>
          (repeat' split at h2) <;> simp_all [tstate] <;> (try (subst h2; rfl))
  intro ws t h hs
  cases ws with
  | nil => simp only [List.map_nil, tsteps, Option.some.injEq] at h; exact Or.inl ⟨rfl, h.symm⟩
  | cons w r =>
    simp only [List.map_cons, tsteps] at h
    cases w with
    | short =>
      have h1 : tstep emptyEnv {} (.word .short) = some ⟨.default, .empty, some (.basic .short)⟩ := rfl
      rw [h1] at h
      cases r with
      | nil => simp only [List.map_nil, tsteps, Option.some.injEq] at h; exact Or.inr ⟨rfl, h.symm⟩
      | cons w2 r2 =>
        simp only [List.map_cons, tsteps] at h
        cases w2 <;> simp [tstep, resolveType, KTy.is, tstate] at h <;>
          exact absurd ((hstay _ _ _ h rfl).symm.trans hs) (by decide)
    | _ =>
      simp [tstep, resolveType, tstate] at h
      exact absurd ((hstay _ _ _ h rfl).symm.trans hs) (by decide)

/-- After a tag, a typedef name or `va_list` nothing but `signed` and `unsigned` gets through, and those are rejected
in the end. -/
theorem tsteps_after (env : Env X) : ∀ (r : List (TypeSpec X)) (t t' : TState) (k : KTy),
    (t.base = some k ∧ (t.seq = .typedef ∨ (t.seq = .specifiers ∧ ((∃ i c, k = .tagged i c) ∨ k = .vaList)))) →
    tsteps env t r = some t' →
    t' = t ∧ r = [] ∨ (t'.base = some k ∧ t'.sign ≠ .default ∧ ((∃ i c, k = .tagged i c) ∨ k = .vaList))
  | [], t, t', k, _, h => by
    simp only [tsteps, Option.some.injEq] at h
    exact Or.inl ⟨h.symm, rfl⟩
  | x :: r, t, t', k, hk, h => by
    right
    obtain ⟨sign, seq, base⟩ := t
    obtain ⟨hb, hs⟩ := hk
    simp only at hb hs
    subst hb
    simp only [tsteps] at h
    rcases hs with rfl | ⟨rfl, hk⟩
    · exfalso
      cases x with
      | word w =>
        cases w <;> simp [tstep, resolveType, tstate] at h
      | _ => simp [tstep, resolveType, tstate] at h
    · have go : ∀ sg : Signedness, sg ≠ .default → tsteps env ⟨sg, .specifiers, some k⟩ r = some t' →
          t'.base = some k ∧ t'.sign ≠ .default ∧ ((∃ i c, k = .tagged i c) ∨ k = .vaList) := by
        intro sg hsg h
        rcases tsteps_after env r ⟨sg, .specifiers, some k⟩ t' k ⟨rfl, Or.inr ⟨rfl, hk⟩⟩ h with ⟨rfl, -⟩ | h3
        · exact ⟨rfl, hsg, hk⟩
        · exact h3
      have e1 : k ≠ .basic .int := by rcases hk with ⟨i, c, rfl⟩ | rfl <;> simp
      have e2 : k ≠ .basic .long := by rcases hk with ⟨i, c, rfl⟩ | rfl <;> simp
      have e3 : ∀ b, k.is b = false := by intro b; rcases hk with ⟨i, c, rfl⟩ | rfl <;> rfl
      cases x with
      | word w =>
        cases w with
        | signed =>
          cases sign <;> simp [tstep, resolveType, tstate] at h
          exact go _ (by simp) h
        | unsigned =>
          cases sign <;> simp [tstep, resolveType, tstate] at h
          exact go _ (by simp) h
        | _ => exfalso; simp [tstep, resolveType, tstate, e1, e2, e3] at h
      | _ => exfalso; simp [tstep, resolveType, tstate] at h

/-- The analysis accepts tags, typedef names and `va_list` alone, or after `short` alone. -/
theorem others_sound {env : Env X} (htag : ∀ k n b t, env.tagTy k n b = some t → ∃ i c, t = .tagged i c)
    {ts : List (TypeSpec X)} {s : TState} {k : KTy}
    (h : tsteps env {} ts = some s) (hs : applySign s.sign s.base = some k)
    (hn : ∀ ws : List Word, ts ≠ ws.map .word) :
    ∃ x : TypeSpec X, (ts = [x] ∨ ts = [.word .short, x]) ∧
      ((∃ kd n b, x = .tag kd n b ∧ env.tagTy kd n b = some k) ∨
       (∃ n, x = .typedefName n ∧ env.typedefTy n = some k) ∨ (ts = [x] ∧ x = .vaList ∧ k = .vaList)) := by
  rcases split_words ts with ⟨ws, rfl⟩ | ⟨ws, x, r, hx, rfl⟩
  · exact absurd rfl (hn ws)
  rw [tsteps_append] at h
  cases h0 : tsteps env {} (ws.map .word) with
  | none => rw [h0] at h; cases h
  | some t0 =>
    rw [h0] at h
    simp only [Option.bind_some, tsteps] at h
    cases h1 : tstep env t0 x with
    | none => rw [h1] at h; cases h
    | some t1 =>
      rw [h1] at h
      simp only at h
      have hseq : t0.seq = .empty := by
        cases x <;> simp [TypeSpec.isWord] at hx <;> simp [tstep, resolveType] at h1
        · exact h1.choose_spec.1.1
        · exact h1.choose_spec.1.1
        · exact h1.choose_spec.1.1
      rw [tsteps_words] at h0
      have hws := words_seq ws t0 h0 hseq
      have fin : ∀ k' : KTy, t1.base = some k' → t1.sign = .default →
          (t1.seq = .typedef ∨ (t1.seq = .specifiers ∧ ((∃ i c, k' = .tagged i c) ∨ k' = .vaList))) →
          r = [] ∧ k = k' := by
        intro k' hb hsg hsq
        rcases tsteps_after env r t1 s k' ⟨hb, hsq⟩ h with ⟨rfl, rfl⟩ | ⟨hb2, hs2, hk2⟩
        · rw [hb, hsg] at hs
          simp only [applySign, Option.some.injEq] at hs
          exact ⟨rfl, hs.symm⟩
        · exfalso
          rw [hb2] at hs
          cases hsg2 : s.sign with
          | default => exact hs2 hsg2
          | signed => rw [hsg2] at hs; rcases hk2 with ⟨i, c, rfl⟩ | rfl <;> simp [applySign] at hs
          | unsigned => rw [hsg2] at hs; rcases hk2 with ⟨i, c, rfl⟩ | rfl <;> simp [applySign] at hs
      have hsign : t0.sign = .default := by rcases hws with ⟨-, rfl⟩ | ⟨-, rfl⟩ <;> rfl
      have hlist : ∀ {r' : List (TypeSpec X)}, r' = [] →
          (ws.map TypeSpec.word ++ x :: r' = [x] ∨ ws.map TypeSpec.word ++ x :: r' = [.word .short, x]) := by
        rintro r' rfl
        rcases hws with ⟨rfl, -⟩ | ⟨rfl, -⟩
        · exact Or.inl rfl
        · exact Or.inr rfl
      cases x with
      | word w => simp [TypeSpec.isWord] at hx
      | complex => simp [tstep, resolveType] at h1
      | atomic t => simp [tstep, resolveType] at h1
      | tag kd n b =>
        cases ht : env.tagTy kd n b with
        | none => simp [tstep, resolveType, ht] at h1
        | some k' =>
          simp [tstep, resolveType, ht, hseq, tstate] at h1
          subst h1
          obtain ⟨i, c, rfl⟩ := htag kd n b k' ht
          obtain ⟨hr, rfl⟩ := fin _ rfl hsign (Or.inr ⟨rfl, Or.inl ⟨i, c, rfl⟩⟩)
          exact ⟨_, hlist hr, Or.inl ⟨kd, n, b, rfl, ht⟩⟩
      | typedefName n =>
        cases ht : env.typedefTy n with
        | none => simp [tstep, resolveType, ht] at h1
        | some k' =>
          simp [tstep, resolveType, ht, hseq, tstate] at h1
          subst h1
          obtain ⟨hr, rfl⟩ := fin _ rfl hsign (Or.inl rfl)
          exact ⟨_, hlist hr, Or.inr (Or.inl ⟨n, rfl, ht⟩)⟩
      | vaList =>
        rcases hws with ⟨rfl, rfl⟩ | ⟨rfl, rfl⟩
        · simp [tstep, resolveType, tstate] at h1
          subst h1
          obtain ⟨hr, rfl⟩ := fin _ rfl rfl (Or.inr ⟨rfl, Or.inr rfl⟩)
          subst hr
          exact ⟨_, Or.inl rfl, Or.inr (Or.inr ⟨rfl, rfl, rfl⟩)⟩
        · simp [tstep, resolveType] at h1

/-! ### Specifiers as a whole -/

theorem specifiers_complete {env : Env X} {G : Scope X} (hA : Agrees env G) {ss : List (Spec X)} {m : Meaning}
    (hm : Means G ss m) (hc : CoveredSpecs G ss) :
    ∃ sp, specifiers env ss = some sp ∧ erase sp.ty = m.ty ∧ sp.storage = m.storage ∧ sp.inline = m.inline ∧
      sp.noreturn = m.noreturn ∧ sp.align = m.align ∧ analyzeType false sp.ty = true ∧ topOk sp.ty = true := by
  obtain ⟨⟨t, ht, hty⟩, hst, hin, hno, ⟨as, has, hal, hnat⟩⟩ := hm
  obtain ⟨s, k, h1, h2, h3, h4, h5⟩ := tstep_tag hA ht hc.words
  have hq := resolveQuals_eq (quals ss) {} hc.atomic
  rw [Quals.empty_union] at hq
  have hal' : (aligns ss).mapM env.alignTo = some as := by
    rw [← has]
    congr 1
    funext a
    exact (hA.alignTo a).symm
  have hP : Parts env {} ss ⟨s.sign, s.seq, s.base, Quals.of (quals ss), m.storage, m.inline, m.noreturn, m.align⟩ :=
    ⟨h1, hq, csteps_of_storageOk hst, by simp [hin], by simp [hno], ⟨as, hal', hal⟩⟩
  have hsteps := (steps_iff env ss _ _).2 hP
  have hqa : Quals.of (quals ss) ≠ {} → (erase k).isArr = false ∧ (erase k).isFn = false ∧ (erase k).unqual ≠ .vaList := by
    intro hne
    rw [h3]
    refine hc.quals ?_ t ht
    intro h0
    rw [h0] at hne
    exact hne rfl
  have her : erase (k.qualifyNonZero (Quals.of (quals ss))) = m.ty := by
    rw [erase_qualify _ (fun h => (hqa h).1), h3, hty]
  have hana := qualifyNonZero_analyze false (Quals.of (quals ss)) k h4
  have htop := topOk_qualify (Quals.of (quals ss)) h5 hqa
  by_cases h0 : m.align > 0
  · obtain ⟨n, hn, hle⟩ := hnat (by omega)
    have hn' : env.natural (k.qualifyNonZero (Quals.of (quals ss))) = some n := by
      rw [← hA.natural, her, hn]
    refine ⟨⟨k.qualifyNonZero (Quals.of (quals ss)), m.storage, m.inline, m.noreturn, m.align⟩, ?_, her, rfl, rfl, rfl,
      rfl, hana, htop⟩
    simp only [specifiers, hsteps, h2, hn', if_pos h0, if_pos hle]
  · have h0' : m.align = 0 := by omega
    refine ⟨⟨k.qualifyNonZero (Quals.of (quals ss)), m.storage, m.inline, m.noreturn, 0⟩, ?_, her, rfl, rfl, rfl,
      h0'.symm, hana, htop⟩
    simp only [specifiers, hsteps, h2, if_neg h0]

/-- What an accepted list of specifiers looks like. -/
theorem specifiers_sound {env : Env X} {ss : List (Spec X)} {sp : Specs} (h : specifiers env ss = some sp) :
    ∃ s k, Parts env {} ss s ∧ applySign s.sign s.base = some k ∧ sp.ty = k.qualifyNonZero s.quals ∧
      sp.storage = s.storage ∧ sp.inline = s.inline ∧ sp.noreturn = s.noreturn ∧ sp.align = s.align ∧
      (sp.align ≠ 0 → ∃ n, env.natural sp.ty = some n ∧ n ≤ sp.align) := by
  unfold specifiers at h
  cases hs : steps env {} ss with
  | none => rw [hs] at h; cases h
  | some s =>
    rw [hs] at h
    have hP := (steps_iff env ss _ _).1 hs
    simp only at h
    cases hk : applySign s.sign s.base with
    | none => rw [hk] at h; cases h
    | some k =>
      rw [hk] at h
      simp only at h
      split at h
      · cases hn : env.natural (k.qualifyNonZero s.quals) with
        | none => rw [hn] at h; cases h
        | some n =>
          rw [hn] at h
          simp only at h
          split at h
          · next hle =>
            simp only [Option.some.injEq] at h
            subst h
            exact ⟨s, k, hP, hk, rfl, rfl, rfl, rfl, rfl, fun _ => ⟨n, hn, hle⟩⟩
          · cases h
      · next h0 =>
        simp only [Option.some.injEq] at h
        subst h
        exact ⟨s, k, hP, hk, rfl, rfl, rfl, rfl, (by simp only; omega), fun h => absurd rfl h⟩

end Kefir.Declr
