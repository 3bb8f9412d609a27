import Verif.Declr.Erase

/-!
# Lemmas: the types that declarators give
-/

namespace Kefir.Declr
open Model

variable {X : Type}

mutual
/-- Every parameter of a declarator has covered specifiers. -/
def Dtor.Covered (G : Scope X) : Dtor X → Prop
  | .name _ => True
  | .ptr _ d => d.Covered G
  | .arr d _ _ _ => d.Covered G
  | .fn d ps _ => d.Covered G ∧ ps.Covered G
/-- The same for parameters. -/
def Params.Covered (G : Scope X) : Params X → Prop
  | .nil => True
  | .decl ss d rest => CoveredSpecs G ss ∧ d.Covered G ∧ rest.Covered G
  | .ident _ rest => rest.Covered G
end

theorem analyzeType_mono : ∀ (k : KTy), analyzeType false k = true → analyzeType true k = true
  | .basic _, _ => rfl
  | .tagged _ _, _ => rfl
  | .vaList, _ => rfl
  | .ptr _, h => by simpa [analyzeType] using h
  | .arr n st q t, h => by
    simp only [analyzeType, Bool.and_eq_true, Bool.or_false, Bool.or_true, and_true] at h ⊢
    exact h.1
  | .fn r m ps e, h => by simpa only [analyzeType] using h
  | .qual q t, h => by
    simp only [analyzeType] at h ⊢
    exact analyzeType_mono t h

theorem analyzeType_any (o : Bool) {k : KTy} (h : analyzeType false k = true) : analyzeType o k = true := by
  cases o
  · exact h
  · exact analyzeType_mono k h

theorem append_nil : ∀ a : KParams, a.append .nil = a
  | .nil => rfl
  | .typed t s r => by simp [KParams.append, append_nil r]
  | .untyped r => by simp [KParams.append, append_nil r]

theorem append_assoc : ∀ a b c : KParams, (a.append b).append c = a.append (b.append c)
  | .nil, b, c => rfl
  | .typed t s r, b, c => by simp [KParams.append, append_assoc r b c]
  | .untyped r, b, c => by simp [KParams.append, append_assoc r b c]

theorem erase_ptr_qualify (t : KTy) (q : Quals) :
    (erase ((KTy.ptr t).qualifyNonZero q)).unqual = .ptr (erase t) := by
  unfold KTy.qualifyNonZero
  split <;> simp [KTy.qualified, erase, Ty.unqual]

theorem adjust_qualify (t : KTy) (q : Quals) :
    adjust ((KTy.ptr t).qualifyNonZero q) = (KTy.ptr t).qualifyNonZero q := by
  unfold KTy.qualifyNonZero
  split <;> simp [KTy.qualified, adjust]

theorem analyze_ptr_qualify (o : Bool) (t : KTy) (q : Quals) (h : analyzeType false t = true) :
    analyzeType o ((KTy.ptr t).qualifyNonZero q) = true :=
  qualifyNonZero_analyze o q _ (by simpa [analyzeType] using h)

/-- What is needed of the type that a parameter gets. -/
structure ParamOk (u : Ty) (k : KTy) : Prop where
  erase : (erase k).unqual = u.param
  analyze : analyzeType true k = true
  incomplete : k.incomplete = u.param.incomplete

theorem ptr_incomplete (t : KTy) (q : Quals) : ((KTy.ptr t).qualifyNonZero q).incomplete = false := by
  unfold KTy.qualifyNonZero
  split <;> simp [KTy.qualified, KTy.incomplete, KTy.unqual]

theorem paramOk {k : KTy} (h : analyzeType true k = true) (ht : topOk k = true) :
    ParamOk (erase k) (adjust k) ∧ ParamOk (erase k) (adjust (adjust k.unqual)) ∧
      (adjust k.unqual).incomplete = (erase k).param.incomplete := by
  cases k with
  | basic b =>
    have : ParamOk (erase (.basic b)) (.basic b) := by
      refine ⟨by simp [erase, Ty.unqual, Ty.param], h, ?_⟩
      rw [erase_incomplete]; simp [erase, Ty.param, Ty.unqual]
    exact ⟨this, this, by rw [erase_incomplete]; simp [KTy.unqual, adjust, erase, Ty.param, Ty.unqual]⟩
  | tagged i c =>
    have : ParamOk (erase (.tagged i c)) (.tagged i c) := by
      refine ⟨by simp [erase, Ty.unqual, Ty.param], h, ?_⟩
      rw [erase_incomplete]; simp [erase, Ty.param, Ty.unqual]
    exact ⟨this, this, by rw [erase_incomplete]; simp [KTy.unqual, adjust, erase, Ty.param, Ty.unqual]⟩
  | vaList =>
    have : ParamOk (erase .vaList) (.ptr .vaList) := by
      refine ⟨by simp [erase, Ty.unqual, Ty.param], rfl, ?_⟩
      rw [erase_incomplete]; simp [erase, Ty.param, Ty.unqual]
    exact ⟨this, this, by rw [erase_incomplete]; simp [KTy.unqual, adjust, erase, Ty.param, Ty.unqual]⟩
  | ptr t =>
    have : ParamOk (erase (.ptr t)) (.ptr t) := by
      refine ⟨by simp [erase, Ty.unqual, Ty.param], by simpa [analyzeType] using h, ?_⟩
      rw [erase_incomplete]; simp [erase, Ty.param, Ty.unqual]
    exact ⟨this, this, by rw [erase_incomplete]; simp [KTy.unqual, adjust, erase, Ty.param, Ty.unqual]⟩
  | arr n st q t =>
    have hp : (erase (.arr n st q t)).param = .ptr (erase t) := by simp [erase, Ty.param, Ty.unqual]
    have h1 : analyzeType false t = true := by
      simp only [analyzeType, Bool.and_eq_true] at h
      exact h.1.1
    have hi : Ty.incomplete (.ptr (erase t)) = false := by simp [Ty.incomplete, Ty.unqual]
    have : ParamOk (erase (.arr n st q t)) ((KTy.ptr t).qualifyNonZero q) := by
      refine ⟨by rw [erase_ptr_qualify, hp], analyze_ptr_qualify _ _ _ h1, ?_⟩
      rw [hp, ptr_incomplete, hi]
    refine ⟨this, ?_, ?_⟩
    · show ParamOk _ (adjust ((KTy.ptr t).qualifyNonZero q)); rw [adjust_qualify]; exact this
    · simp only [KTy.unqual, adjust]; exact this.incomplete
  | fn r m ps e =>
    have : ParamOk (erase (.fn r m ps e)) (.ptr (.fn r m ps e)) := by
      refine ⟨by simp [erase, Ty.unqual, Ty.param], by simpa only [analyzeType] using h, ?_⟩
      rw [erase_incomplete]; simp [erase, Ty.param, Ty.unqual]
    exact ⟨this, this, this.incomplete⟩
  | qual q t =>
    have ha : analyzeType true t = true := by simpa only [analyzeType] using h
    cases t with
    | arr n st q' t => simp [topOk] at ht
    | fn r m ps e => simp [topOk] at ht
    | vaList => simp [topOk] at ht
    | qual q' t => simp [topOk] at ht
    | basic b =>
      refine ⟨⟨by simp [adjust, erase, Ty.unqual, Ty.param], h, ?_⟩,
        ⟨by simp [adjust, KTy.unqual, erase, Ty.unqual, Ty.param], ha, ?_⟩, ?_⟩ <;>
        (rw [erase_incomplete]; simp [adjust, KTy.unqual, erase, Ty.param, Ty.unqual, Ty.incomplete])
    | tagged i c =>
      refine ⟨⟨by simp [adjust, erase, Ty.unqual, Ty.param], h, ?_⟩,
        ⟨by simp [adjust, KTy.unqual, erase, Ty.unqual, Ty.param], ha, ?_⟩, ?_⟩ <;>
        (rw [erase_incomplete]; simp [adjust, KTy.unqual, erase, Ty.param, Ty.unqual, Ty.incomplete])
    | ptr t =>
      refine ⟨⟨by simp [adjust, erase, Ty.unqual, Ty.param], h, ?_⟩,
        ⟨by simp [adjust, KTy.unqual, erase, Ty.unqual, Ty.param], ha, ?_⟩, ?_⟩ <;>
        (rw [erase_incomplete]; simp [adjust, KTy.unqual, erase, Ty.param, Ty.unqual, Ty.incomplete])

/-- What the analysis of a declarator yields. -/
structure DtorOk (o : Bool) (u : Ty) (k : KTy) : Prop where
  erase : erase k = u
  analyze : analyzeType o k = true
  top : topOk k = true

theorem erase_fn_list {r : KTy} {kps : KParams} {e : Bool} (h : ∀ s, kps ≠ .typed (.basic .void) s .nil) :
    erase (.fn r .parameters kps e) = .fn (erase r) (.some (eraseParams kps)) e := by
  rw [erase]
  exact fun s hs => h s hs

theorem not_fn {k : KTy} (h : (erase k).isFn = false) : ∀ r m ps e, k ≠ .fn r m ps e := by
  rintro r m ps e rfl
  simp [erase, Ty.isFn, Ty.unqual] at h

theorem not_arr {k : KTy} (h : (erase k).isArr = false) : ∀ n st q t, k ≠ .arr n st q t := by
  rintro n st q t rfl
  simp [erase, Ty.isArr, Ty.unqual] at h

theorem analyze_fn {k : KTy} {kps : KParams} {e : Bool} {m : Mode} (h1 : (erase k).isFn = false)
    (h2 : (erase k).isArr = false)
    (h3 : m = .parameters → ∀ single, (single = true ∨ ∀ s, kps ≠ .typed (.basic .void) s .nil) →
      analyzeParams single kps = true) (h4 : m = .parameters → ∃ t s r, kps = .typed t s r) :
    analyzeType false (.fn k m kps e) = true := by
  have hr1 : k.isFn = false := by
    cases k with
    | fn r m ps e => exact absurd rfl (not_fn h1 r m ps e)
    | _ => rfl
  have hr2 : k.isArr = false := by
    cases k with
    | arr n st q t => exact absurd rfl (not_arr h2 n st q t)
    | _ => rfl
  simp only [analyzeType, hr1, hr2, Bool.not_false, Bool.true_and]
  by_cases hm : m = .parameters
  · rw [if_pos hm]
    obtain ⟨t, s, r, rfl⟩ := h4 hm
    cases r with
    | nil => exact h3 hm true (Or.inl rfl)
    | typed t' s' r' => exact h3 hm false (Or.inr (by intro s h; cases h))
    | untyped r' => exact h3 hm false (Or.inr (by intro s h; cases h))
  · rw [if_neg hm]

theorem hasLen_model {env : Env X} {G : Scope X} (hA : Agrees env G) {b : Bound X} {n : Len} (h : HasLen G b n)
    {q : List Qual} (hq : Qual.atomic ∉ q) (st : Bool) (hst : st = true → ∃ e, b = .expr e) (k : KTy) :
    arrayDeclarator env st q b k = some (.arr n st (Quals.of q) k) := by
  have h1 := resolveQuals_eq q {} hq
  rw [Quals.empty_union] at h1
  unfold arrayDeclarator
  rw [h1]
  cases h with
  | unbounded =>
    cases st with
    | false => rfl
    | true => obtain ⟨e, he⟩ := hst rfl; cases he
  | star => rfl
  | const e n hv _ => rw [hA.value] at hv; simp only [hv]
  | vla e hv hi =>
    rw [hA.value] at hv
    rw [hA.isInt] at hi
    simp only [hv, hi, if_true]

theorem declarator_fst (env : Env X) : ∀ (d : Dtor X) (k : KTy) (n : Option String) (t : KTy),
    declarator env d k = some (n, t) → n = d.ident
  | .name s, k, n, t, h => by
    simp only [declarator, Option.some.injEq, Prod.mk.injEq] at h
    exact h.1.symm
  | .ptr q d, k, n, t, h => by
    rw [declarator] at h
    cases hp : pointerDeclarator q k with
    | none => rw [hp] at h; cases h
    | some k' => rw [hp] at h; exact declarator_fst env d k' n t h
  | .arr d st q b, k, n, t, h => by
    rw [declarator] at h
    cases hp : arrayDeclarator env st q b k with
    | none => rw [hp] at h; cases h
    | some k' => rw [hp] at h; exact declarator_fst env d k' n t h
  | .fn d ps e, k, n, t, h => by
    rw [declarator] at h
    cases hp : params env ps [] .empty .nil with
    | none => rw [hp] at h; cases h
    | some x =>
      obtain ⟨mode, kps⟩ := x
      rw [hp] at h
      exact declarator_fst env d _ n t h

theorem defineParam_fresh {scope : List String} {n : String} {t : KTy} {sp : Specs} {x : KTy × StorageClass}
    (h : defineParam scope n t sp = some x) : n ∉ scope := by
  unfold defineParam at h
  intro hn
  have : scope.contains n = true := by simpa using hn
  rw [this] at h
  (repeat' split at h) <;> simp_all

mutual
theorem declarator_distinct (env : Env X) : ∀ (d : Dtor X) (k : KTy) (x : Option String × KTy),
    declarator env d k = some x → d.Distinct
  | .name s, k, x, _ => by simp [Dtor.Distinct]
  | .ptr q d, k, x, h => by
    rw [declarator] at h
    cases hp : pointerDeclarator q k with
    | none => rw [hp] at h; cases h
    | some k' => rw [hp] at h; simpa [Dtor.Distinct] using declarator_distinct env d k' x h
  | .arr d st q b, k, x, h => by
    rw [declarator] at h
    cases hp : arrayDeclarator env st q b k with
    | none => rw [hp] at h; cases h
    | some k' => rw [hp] at h; simpa [Dtor.Distinct] using declarator_distinct env d k' x h
  | .fn d ps e, k, x, h => by
    rw [declarator] at h
    cases hp : params env ps [] .empty .nil with
    | none => rw [hp] at h; cases h
    | some y =>
      obtain ⟨mode, kps⟩ := y
      rw [hp] at h
      simp only at h
      have h1 := params_distinct env ps _ _ _ _ hp
      rw [Dtor.Distinct]
      exact ⟨h1.1, h1.2.2, declarator_distinct env d _ x h⟩
theorem params_distinct (env : Env X) : ∀ (ps : Params X) (scope : List String) (mode : Mode) (acc : KParams)
    (x : Mode × KParams), params env ps scope mode acc = some x →
    ps.declNames.Nodup ∧ (∀ n ∈ ps.declNames, n ∉ scope) ∧ ps.Distinct
  | .nil, scope, mode, acc, x, _ => by simp [Params.declNames, Params.Distinct]
  | .ident s rest, scope, mode, acc, x, h => by
    rw [params] at h
    cases hm : paramMode mode false with
    | none => rw [hm] at h; cases h
    | some m => rw [hm] at h; simpa [Params.declNames, Params.Distinct] using params_distinct env rest _ _ _ _ h
  | .decl ss d rest, scope, mode, acc, x, h => by
    rw [params] at h
    cases hs : specifiers env ss with
    | none => rw [hs] at h; cases h
    | some sp =>
      rw [hs] at h
      simp only at h
      cases hd : declarator env d sp.ty with
      | none => rw [hd] at h; cases h
      | some y =>
        obtain ⟨n, t⟩ := y
        have hdd := declarator_distinct env d _ _ hd
        have hid := declarator_fst env d _ _ _ hd
        rw [hd] at h
        simp only at h
        split at h
        · cases n with
          | none =>
            simp only at h
            cases hm : paramMode mode true with
            | none => rw [hm] at h; cases h
            | some m =>
              rw [hm] at h
              have h1 := params_distinct env rest _ _ _ _ h
              rw [Params.declNames, Params.Distinct, ← hid]
              exact ⟨h1.1, h1.2.1, hdd, h1.2.2⟩
          | some n =>
            simp only at h
            cases hdf : defineParam scope n t sp with
            | none => rw [hdf] at h; cases h
            | some z =>
              obtain ⟨t', c⟩ := z
              rw [hdf] at h
              simp only at h
              cases hm : paramMode mode true with
              | none => rw [hm] at h; cases h
              | some m =>
                rw [hm] at h
                have h1 := params_distinct env rest _ _ _ _ h
                rw [Params.declNames, Params.Distinct, ← hid]
                refine ⟨List.nodup_cons.2 ⟨fun hn => h1.2.1 n hn (List.mem_cons_self ..), h1.1⟩, ?_, hdd, h1.2.2⟩
                intro m hm'
                rcases List.mem_cons.1 hm' with rfl | hm'
                · exact defineParam_fresh hdf
                · exact fun hms => h1.2.1 m hm' (List.mem_cons_of_mem _ hms)
        · cases h
end

/-- The mode of a function type after its parameters. -/
def modeAfter (mode : Mode) : Params X → Mode
  | .nil => mode
  | _ => .parameters

mutual
theorem declarator_complete {env : Env X} {G : Scope X} (hA : Agrees env G) :
    ∀ (d : Dtor X) (o : Bool) (k : KTy) (u : Ty), HasType G o d (erase k) u → d.Covered G →
      analyzeType false k = true → topOk k = true →
      ∃ k', declarator env d k = some (d.ident, k') ∧ DtorOk o u k'
  | .name s, o, k, u, h, _, ha, ht => by
    cases h
    exact ⟨k, by simp [declarator, Dtor.ident], rfl, analyzeType_any o ha, ht⟩
  | .ptr q d, o, k, u, h, hc, ha, ht => by
    cases h with
    | ptr _ _ _ _ _ hq hd =>
      have h1 := resolveQuals_eq q {} hq
      rw [Quals.empty_union] at h1
      have hp : pointerDeclarator q k = some ((KTy.ptr k).qualifyNonZero (Quals.of q)) := by
        simp only [pointerDeclarator, h1]
      have he : erase ((KTy.ptr k).qualifyNonZero (Quals.of q)) = Ty.qualify (Quals.of q) (.ptr (erase k)) := by
        rw [erase_qualify _ (fun _ => by simp [erase, Ty.isArr, Ty.unqual])]
        rw [erase]
      rw [← he] at hd
      obtain ⟨k', h2, h3⟩ := declarator_complete hA d o _ u hd (by simpa only [Dtor.Covered] using hc)
        (analyze_ptr_qualify false k _ ha)
        (topOk_qualify _ rfl (fun _ => by simp [erase, Ty.isArr, Ty.isFn, Ty.unqual]))
      exact ⟨k', by rw [declarator, hp]; exact h2, h3⟩
  | .arr d st q b, o, k, u, h, hc, ha, ht => by
    cases h with
    | arr _ _ _ _ _ n _ _ hi hf hs hq hl he hd =>
      have hb := hasLen_model hA hl hq st he k
      have hnf : k.isFn = false := by
        cases k with
        | fn r m ps e => exact absurd rfl (not_fn hf r m ps e)
        | _ => rfl
      have hki : k.incomplete = false := by rw [erase_incomplete]; exact hi
      by_cases hsq : st = true ∨ q ≠ []
      · obtain ⟨rfl, s, rfl⟩ := hs hsq
        cases hd
        refine ⟨.arr n st (Quals.of q) k, by rw [declarator, hb]; simp [declarator, Dtor.ident], ?_, ?_, rfl⟩
        · rw [erase]
        · simp only [analyzeType, ha, hki, hnf]; simp
      · have hst : st = false := by cases st <;> simp_all
        have hq0 : q = [] := by
          cases q with
          | nil => rfl
          | cons a r => exact absurd (Or.inr (by simp)) hsq
        subst hst; subst hq0
        obtain ⟨k', h2, h3⟩ := declarator_complete hA d o (.arr n false (Quals.of []) k) u (by rw [erase]; exact hd)
          (by simpa only [Dtor.Covered] using hc)
          (by simp only [analyzeType, ha, hki, hnf]; simp [Quals.of_nil]) rfl
        exact ⟨k', by rw [declarator, hb]; exact h2, h3⟩
  | .fn d ps e, o, k, u, h, hc, ha, ht => by
    simp only [Dtor.Covered] at hc
    cases h with
    | fn _ _ _ _ _ p _ hf harr hp hn hd =>
      cases hp with
      | empty =>
        obtain ⟨k', h2, h3⟩ := declarator_complete hA d o (.fn k .empty .nil false) u (by rw [erase]; exact hd; simp) hc.1
          (analyze_fn hf harr (by simp) (by simp)) rfl
        exact ⟨k', by rw [declarator]; simp only [params]; exact h2, h3⟩
      | void _ hv =>
        match ps, hv with
        | .decl ss (.name none) .nil, hv =>
          simp only [Params.isVoid] at hv
          simp only [Params.Covered] at hc
          obtain ⟨sp, g1, g2, g3, g4, g5, g6, g7, g8⟩ := specifiers_complete hA hv hc.2.1
          have gt : sp.ty = .basic .void := by
            generalize sp.ty = z at g2
            cases z <;> simp [erase] at g2
            rw [g2]
          have hps : params env (.decl ss (.name none) .nil) [] .empty .nil =
              some (.parameters, .typed (.basic .void) .unspecified .nil) := by
            simp only at g3
            simp [params, declarator, g1, gt, g3, analyzeType, paramMode, adjust, KParams.append]
          have her : erase (.fn k .parameters (.typed (.basic .void) .unspecified .nil) false) =
              .fn (erase k) (.some .nil) false := by rw [erase]
          obtain ⟨k', h2, h3⟩ := declarator_complete hA d o
            (.fn k .parameters (.typed (.basic .void) .unspecified .nil) false) u (by rw [her]; exact hd) hc.1
            (analyze_fn hf harr
              (fun _ single hs => by
                rcases hs with rfl | hs
                · simp [analyzeParams, analyzeType]
                · exact absurd rfl (hs _))
              (fun _ => ⟨_, _, _, rfl⟩)) rfl
          exact ⟨k', by rw [declarator, hps]; exact h2, h3⟩
      | list _ _ ts hne hl =>
        obtain ⟨kps, g1, g2, g3, g4, g5⟩ := params_complete hA ps ts hl hc.2 [] .empty .nil hn (by simp) (by simp)
        have hma : modeAfter .empty ps = .parameters := by
          cases ps with
          | nil => exact absurd rfl hne
          | _ => rfl
        rw [hma] at g1
        simp only [KParams.append] at g1
        obtain ⟨k', h2, h3⟩ := declarator_complete hA d o (.fn k .parameters kps e) u
          (by rw [erase_fn_list g4, g2]; exact hd) hc.1
          (analyze_fn hf harr (fun _ single _ => g3 single) (fun _ => g5 hne)) rfl
        exact ⟨k', by rw [declarator, g1]; exact h2, h3⟩
theorem params_complete {env : Env X} {G : Scope X} (hA : Agrees env G) :
    ∀ (ps : Params X) (ts : Tys), HasParams G ps ts → ps.Covered G →
      ∀ (scope : List String) (mode : Mode) (acc : KParams), ps.names.Nodup → (∀ s ∈ ps.names, s ∉ scope) →
      mode ≠ .identifiers →
      ∃ kps, params env ps scope mode acc = some (modeAfter mode ps, acc.append kps) ∧
        eraseParams kps = ts ∧ (∀ single, analyzeParams single kps = true) ∧
        (∀ s, kps ≠ .typed (.basic .void) s .nil) ∧ (ps ≠ .nil → ∃ t s r, kps = .typed t s r)
  | .nil, ts, h, _, scope, mode, acc, _, _, _ => by
    cases h
    exact ⟨.nil, by simp [params, append_nil, modeAfter], rfl, fun _ => rfl, (fun s h => by cases h), fun h => absurd rfl h⟩
  | .ident s rest, ts, h, _, _, _, _, _, _, _ => by cases h
  | .decl ss d rest, ts, h, hc, scope, mode, acc, hn, hdis, hmode => by
    simp only [Params.Covered] at hc
    cases h with
    | cons _ _ _ m u ts' hm hst hfn hal hd hv hu hr =>
      have hu := hu hA.definition
      obtain ⟨sp, g1, g2, g3, g4, g5, g6, g7, g8⟩ := specifiers_complete hA hm hc.1
      rw [← g2] at hd
      obtain ⟨k, e1, e2⟩ := declarator_complete hA d true sp.ty u hd hc.2.1 g7 g8
      obtain ⟨p1, p2, p3⟩ := paramOk e2.analyze e2.top
      rw [e2.erase] at p1 p2 p3
      have hmode' : paramMode mode true = some .parameters := by
        cases mode <;> simp [paramMode] at hmode ⊢
      have halign : sp.align = 0 := by
        obtain ⟨as, ha1, ha2, -⟩ := hm.align
        rw [hal] at ha1
        simp at ha1
        rw [g6, ha2, ha1]
        rfl
      have hinl : sp.inline = false := by rw [g4, hm.inline, hfn]; rfl
      have hnor : sp.noreturn = false := by rw [g5, hm.noreturn, hfn]; rfl
      have step : ∀ (t : KTy) (c : StorageClass) (scope' : List String), ParamOk u t →
          c = .auto ∨ c = .register ∨ c = .unspecified → (∀ s ∈ rest.names, s ∉ scope') → rest.names.Nodup →
          ∃ kps, params env rest scope' .parameters (acc.append (.typed t c .nil)) =
              some (.parameters, acc.append kps) ∧
            eraseParams kps = .cons u.param ts' ∧ (∀ single, analyzeParams single kps = true) ∧
            (∀ s, kps ≠ .typed (.basic .void) s .nil) ∧ ∃ t s r, kps = .typed t s r := by
        intro t c scope' hp hcl hd' hn'
        obtain ⟨kps, f1, f2, f3, f4, -⟩ := params_complete hA rest ts' hr hc.2.2 scope' .parameters
          (acc.append (.typed t c .nil)) hn' hd' (by simp)
        refine ⟨.typed t c kps, ?_, ?_, ?_, ?_, ⟨_, _, _, rfl⟩⟩
        · have hma : modeAfter .parameters rest = .parameters := by cases rest <;> rfl
          rw [f1, append_assoc, hma]
          simp [KParams.append]
        · rw [eraseParams, f2, hp.erase]
        · intro single
          have hi : t.incomplete = false := by rw [hp.incomplete]; exact hu
          have hv : t ≠ .basic .void := by
            rintro rfl
            simp [KTy.incomplete, KTy.unqual] at hi
          simp only [analyzeParams, hp.analyze, f3, if_neg hv, hi]
          rcases hcl with rfl | rfl | rfl <;> rfl
        · intro s hs
          simp only [KParams.typed.injEq] at hs
          have hi : t.incomplete = false := by rw [hp.incomplete]; exact hu
          rw [hs.1] at hi
          simp [KTy.incomplete, KTy.unqual] at hi
      simp only [Params.names] at hn hdis
      cases hid : d.ident with
      | none =>
        rw [hid] at hn hdis e1
        obtain ⟨kps, f1, f2, f3, f4, f5⟩ := step (adjust k) sp.storage scope p1
          (by rw [g3]; rcases hst with h | h <;> simp [h]) hdis hn
        refine ⟨kps, ?_, f2, f3, f4, fun _ => f5⟩
        rw [params]
        simp only [g1, e1, e2.analyze, hmode', if_true, f1]
        simp [modeAfter]
      | some n =>
        rw [hid] at hn hdis e1
        simp only [List.nodup_cons] at hn
        have hsc : scope.contains n = false := by
          simp only [List.contains_eq_mem, decide_eq_false_iff_not]
          exact hdis n (List.mem_cons_self ..)
        have hdis' : ∀ s ∈ rest.names, s ∉ n :: scope := by
          intro s hs hm
          rcases List.mem_cons.1 hm with rfl | hm
          · exact hn.1 hs
          · exact hdis s (List.mem_cons_of_mem _ hs) hm
        have hdef : ∃ c, defineParam scope n k sp = some (adjust k.unqual, c) ∧ (c = .auto ∨ c = .register) := by
          unfold defineParam
          rw [halign, hinl, hnor, p3, hu, g3]
          rcases hst with h | h <;> rw [h] <;> simp <;> exact ⟨_, ⟨by simpa using hsc, rfl⟩, by simp⟩
        obtain ⟨c, hdef, hc2⟩ := hdef
        obtain ⟨kps, f1, f2, f3, f4, f5⟩ := step (adjust (adjust k.unqual)) c (n :: scope) p2
          (by rcases hc2 with h | h <;> simp [h]) hdis' hn.2
        refine ⟨kps, ?_, f2, f3, f4, fun _ => f5⟩
        rw [params]
        simp only [g1, e1, e2.analyze, hdef, hmode', if_true, f1]
        simp [modeAfter]
end

theorem declaration_complete {env : Env X} {G : Scope X} (hA : Agrees env G) {ss : List (Spec X)} {d : Dtor X}
    {m : Meaning} {u : Ty} (hm : Means G ss m) (hd : HasType G false d m.ty u) (hc : CoveredSpecs G ss)
    (hcd : d.Covered G) :
    ∃ k sp, declaration env ss d = some (d.ident, k, sp) ∧ erase k = u ∧ sp.storage = m.storage ∧
      sp.inline = m.inline ∧ sp.noreturn = m.noreturn ∧ sp.align = m.align := by
  obtain ⟨sp, g1, g2, g3, g4, g5, g6, g7, g8⟩ := specifiers_complete hA hm hc
  rw [← g2] at hd
  obtain ⟨k, e1, e2⟩ := declarator_complete hA d false sp.ty u hd hcd g7 g8
  refine ⟨k, sp, ?_, e2.erase, g3, g4, g5, g6⟩
  simp only [declaration, g1, e1, e2.analyze, if_true]

theorem typeName_complete {env : Env X} {G : Scope X} (hA : Agrees env G) {ss : List (Spec X)} {d : Dtor X}
    {m : Meaning} {u : Ty} (hm : Means G ss m) (hd : HasType G false d m.ty u) (hc : CoveredSpecs G ss)
    (hcd : d.Covered G) : ∃ k, typeName env ss d = some k ∧ erase k = u := by
  obtain ⟨sp, g1, g2, g3, g4, g5, g6, g7, g8⟩ := specifiers_complete hA hm hc
  rw [← g2] at hd
  obtain ⟨k, e1, e2⟩ := declarator_complete hA d false sp.ty u hd hcd g7 g8
  have ht : specifiersType env ss = some sp.ty := by
    unfold specifiers at g1
    unfold specifiersType
    cases hs : steps env {} ss with
    | none => rw [hs] at g1; cases g1
    | some s =>
      rw [hs] at g1
      simp only at g1 ⊢
      cases hk : applySign s.sign s.base with
      | none => rw [hk] at g1; cases g1
      | some t =>
        rw [hk] at g1
        simp only at g1 ⊢
        (repeat' split at g1) <;> simp_all <;> (subst g1; rfl)
  refine ⟨k, ?_, e2.erase⟩
  simp only [typeName, ht, e1]

end Kefir.Declr
