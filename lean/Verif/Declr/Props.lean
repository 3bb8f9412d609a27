import Verif.Declr.TypeRules

/-!
# Declaration specifiers and declarators: the properties

C70: what declaration specifiers mean.  C71: the type that a declarator gives.  C72: types that may not be derived.
-/

namespace Kefir.Declr
open Model

variable {X : Type}

/-! ### C70: declaration specifiers -/

/-- Valid declaration specifiers, in whatever order, are accepted and have the type, the storage class, the function
specifiers and the alignment that C17 gives them.  Partial: see `CoveredSpecs` for what is left out; the theorems
`C70_…_false` show that the conditions are needed. -/
theorem C70_specifiers_partial {env : Env X} {G : Scope X} (hA : Agrees env G) {ss : List (Spec X)} {m : Meaning}
    (hm : Means G ss m) (hc : CoveredSpecs G ss) :
    ∃ sp, specifiers env ss = some sp ∧ erase sp.ty = m.ty ∧ sp.storage = m.storage ∧ sp.inline = m.inline ∧
      sp.noreturn = m.noreturn ∧ sp.align = m.align := by
  obtain ⟨sp, h1, h2, h3, h4, h5, h6, -, -⟩ := specifiers_complete hA hm hc
  exact ⟨sp, h1, h2, h3, h4, h5, h6⟩

/-- An accepted list of type specifiers that are all keywords has the type of a row of the table of 6.7.2p2 which
differs from the list, apart from the order, at most in how often `int` is written. -/
theorem C70_keyword_types {env : Env X} {ss : List (Spec X)} {sp : Specs} (h : specifiers env ss = some sp)
    {ws : List Word} (hw : typeSpecs ss = ws.map .word) :
    ∃ row ∈ table, (ws.filter (fun w => w != .int)).Perm (row.1.filter (fun w => w != .int)) ∧
      erase sp.ty = (Ty.basic row.2).qualify (Quals.of (quals ss)) := by
  obtain ⟨s, k, hP, hk, hty, -⟩ := specifiers_sound h
  have ht := hP.type
  rw [hw] at ht
  obtain ⟨row, h1, h2, rfl⟩ := words_sound env ht hk
  refine ⟨row, h1, h2, ?_⟩
  have hq : Qual.atomic ∉ quals ss := by
    intro ha
    have := hP.quals
    rw [resolveQuals_atomic _ _ ha] at this
    cases this
  have := hP.quals
  rw [resolveQuals_eq _ _ hq, Quals.empty_union, Option.some.injEq] at this
  rw [hty, ← this, erase_qualify _ (fun _ => by simp [erase, Ty.isArr, Ty.unqual]), erase]

/-- An accepted list of type specifiers with something that is not a keyword is one structure, union or enumeration
specifier, one typedef name or `va_list`, possibly after `short`, and has the type of that one. -/
theorem C70_other_types {env : Env X} {G : Scope X} (hA : Agrees env G) {ss : List (Spec X)} {sp : Specs}
    (h : specifiers env ss = some sp) (hw : ∀ ws : List Word, typeSpecs ss ≠ ws.map .word) :
    ∃ x t, (typeSpecs ss = [x] ∨ typeSpecs ss = [.word .short, x]) ∧ TypeOf G [x] t ∧
      (quals ss = [] ∨ t.isArr = false → erase sp.ty = t.qualify (Quals.of (quals ss))) := by
  obtain ⟨s, k, hP, hk, hty, -⟩ := specifiers_sound h
  obtain ⟨x, h1, h2⟩ := others_sound hA.tagged hP.type hk hw
  have hq : Qual.atomic ∉ quals ss := by
    intro ha
    have := hP.quals
    rw [resolveQuals_atomic _ _ ha] at this
    cases this
  have hqs := hP.quals
  rw [resolveQuals_eq _ _ hq, Quals.empty_union, Option.some.injEq] at hqs
  have fin : (quals ss = [] ∨ (erase k).isArr = false → erase sp.ty = (erase k).qualify (Quals.of (quals ss))) := by
    intro hor
    rw [hty, ← hqs]
    refine erase_qualify _ (fun hne => ?_)
    rcases hor with h0 | h0
    · rw [h0] at hne; exact absurd rfl hne
    · exact h0
  rcases h2 with ⟨kd, n, b, rfl, ht⟩ | ⟨n, rfl, ht⟩ | ⟨-, rfl, rfl⟩
  · exact ⟨_, erase k, h1, .tag kd n b _ (by rw [hA.tagTy, ht]; rfl), fin⟩
  · exact ⟨_, erase k, h1, .typedefName n _ (by rw [hA.typedefTy, ht]; rfl), fin⟩
  · exact ⟨_, erase .vaList, h1, .vaList, fin⟩

/-- Accepted specifiers satisfy 6.7.1p2, and have the storage class it gives them. -/
theorem C70_storage {env : Env X} {ss : List (Spec X)} {sp : Specs} (h : specifiers env ss = some sp) :
    StorageOk (storages ss) sp.storage := by
  obtain ⟨s, k, hP, -, -, h2, -⟩ := specifiers_sound h
  rw [h2]
  exact storageOk_of_csteps hP.storage

/-- No two storage classes for the same specifiers. -/
theorem C70_storage_unique {ss : List Storage} {c c' : StorageClass} (h : StorageOk ss c) (h' : StorageOk ss c') :
    c = c' := by
  have h1 := csteps_of_storageOk h
  rw [csteps_of_storageOk h', Option.some.injEq] at h1
  exact h1.symm

/-- Accepted alignment specifiers: the strictest one counts, and it is not less strict than the type's own
alignment. -/
theorem C70_alignment {env : Env X} {ss : List (Spec X)} {sp : Specs} (h : specifiers env ss = some sp) :
    ∃ as, (aligns ss).mapM env.alignTo = some as ∧ (∀ a ∈ as, a ≤ sp.align) ∧ (sp.align = 0 ∨ sp.align ∈ as) ∧
      (sp.align ≠ 0 → ∃ n, env.natural sp.ty = some n ∧ n ≤ sp.align) := by
  obtain ⟨s, k, hP, -, -, -, -, -, h2, h3⟩ := specifiers_sound h
  obtain ⟨as, h4, h5⟩ := hP.align
  have key : ∀ (l : List Nat) (a : Nat), a ≤ l.foldl max a ∧ (∀ x ∈ l, x ≤ l.foldl max a) ∧
      (l.foldl max a = a ∨ l.foldl max a ∈ l) := by
    intro l
    induction l with
    | nil => intro a; simp
    | cons y r ih =>
      intro a
      obtain ⟨i1, i2, i3⟩ := ih (max a y)
      simp only [List.foldl_cons]
      refine ⟨by omega, ?_, ?_⟩
      · intro x hx
        rcases List.mem_cons.1 hx with rfl | hx
        · omega
        · exact i2 x hx
      · rcases i3 with h | h
        · rcases Nat.le_total a y with h' | h'
          · right; rw [h, Nat.max_eq_right h']; exact List.mem_cons_self ..
          · left; rw [h, Nat.max_eq_left h']
        · exact Or.inr (List.mem_cons_of_mem _ h)
  obtain ⟨-, k2, k3⟩ := key as 0
  have : sp.align = as.foldl max 0 := by rw [h2, h5]
  rw [this] at h3 ⊢
  exact ⟨as, h4, k2, k3, h3⟩

/-- What specifiers mean does not depend on their order. -/
theorem means_perm {G : Scope X} {ss ss' : List (Spec X)} {m : Meaning} (hp : ss.Perm ss') (h : Means G ss m) :
    Means G ss' m := by
  have p1 : (typeSpecs ss).Perm (typeSpecs ss') := by
    clear h
    induction hp with
    | nil => exact .nil
    | cons x _ ih => cases x <;> simp only [typeSpecs] <;> first | exact ih | exact ih.cons _
    | swap x y l => cases x <;> cases y <;> simp only [typeSpecs] <;> first | exact .swap .. | exact .refl _
    | trans _ _ ih1 ih2 => exact ih1.trans ih2
  have p2 : (quals ss).Perm (quals ss') := by
    clear h p1
    induction hp with
    | nil => exact .nil
    | cons x _ ih => cases x <;> simp only [quals] <;> first | exact ih | exact ih.cons _
    | swap x y l => cases x <;> cases y <;> simp only [quals] <;> first | exact .swap .. | exact .refl _
    | trans _ _ ih1 ih2 => exact ih1.trans ih2
  have p3 : (storages ss).Perm (storages ss') := by
    clear h p1 p2
    induction hp with
    | nil => exact .nil
    | cons x _ ih => cases x <;> simp only [storages] <;> first | exact ih | exact ih.cons _
    | swap x y l => cases x <;> cases y <;> simp only [storages] <;> first | exact .swap .. | exact .refl _
    | trans _ _ ih1 ih2 => exact ih1.trans ih2
  have p4 : (fnSpecs ss).Perm (fnSpecs ss') := by
    clear h p1 p2 p3
    induction hp with
    | nil => exact .nil
    | cons x _ ih => cases x <;> simp only [fnSpecs] <;> first | exact ih | exact ih.cons _
    | swap x y l => cases x <;> cases y <;> simp only [fnSpecs] <;> first | exact .swap .. | exact .refl _
    | trans _ _ ih1 ih2 => exact ih1.trans ih2
  have p5 : (aligns ss).Perm (aligns ss') := by
    clear h p1 p2 p3 p4
    induction hp with
    | nil => exact .nil
    | cons x _ ih => cases x <;> simp only [aligns] <;> first | exact ih | exact ih.cons _
    | swap x y l => cases x <;> cases y <;> simp only [aligns] <;> first | exact .swap .. | exact .refl _
    | trans _ _ ih1 ih2 => exact ih1.trans ih2
  have hmapM : ∀ {l l' : List X}, l.Perm l' → ∀ as, l.mapM G.alignTo = some as →
      ∃ as', l'.mapM G.alignTo = some as' ∧ as.Perm as' := by
    intro l l' hp
    induction hp with
    | nil => intro as h; exact ⟨as, h, .refl _⟩
    | cons x _ ih =>
      intro as h
      simp only [List.mapM_cons, Option.bind_eq_bind, Option.bind_eq_some_iff, Option.pure_def, Option.some.injEq] at h ⊢
      obtain ⟨a, ha, b, hb, rfl⟩ := h
      obtain ⟨as', h1, h2⟩ := ih b hb
      exact ⟨a :: as', ⟨a, ha, as', h1, rfl⟩, h2.cons _⟩
    | swap x y l =>
      intro as h
      simp only [List.mapM_cons, Option.bind_eq_bind, Option.bind_eq_some_iff, Option.pure_def, Option.some.injEq] at h ⊢
      obtain ⟨a, ha, _, ⟨b, hb, c, hc, rfl⟩, rfl⟩ := h
      exact ⟨b :: a :: c, ⟨b, hb, _, ⟨a, ha, c, hc, rfl⟩, rfl⟩, .swap ..⟩
    | trans _ _ ih1 ih2 =>
      intro as h
      obtain ⟨as1, h1, h2⟩ := ih1 as h
      obtain ⟨as2, h3, h4⟩ := ih2 as1 h1
      exact ⟨as2, h3, h2.trans h4⟩
  have hfold : ∀ {l l' : List Nat}, l.Perm l' → ∀ a, l.foldl max a = l'.foldl max a := by
    intro l l' hp
    induction hp with
    | nil => intro a; rfl
    | cons x _ ih => intro a; exact ih _
    | swap x y l => intro a; simp only [List.foldl_cons]; congr 1; omega
    | trans _ _ ih1 ih2 => intro a; rw [ih1, ih2]
  have hcont : ∀ {α : Type} [BEq α] [LawfulBEq α] {l l' : List α} (a : α), l.Perm l' → l.contains a = l'.contains a := by
    intro α _ _ l l' a hp
    rw [Bool.eq_iff_iff]
    simp only [List.contains_iff_mem]
    exact hp.mem_iff
  obtain ⟨⟨t, ht, hty⟩, hst, hin, hno, ⟨as, has, hal, hnat⟩⟩ := h
  refine ⟨⟨t, ?_, ?_⟩, ?_, ?_, ?_, ?_⟩
  · generalize typeSpecs ss = l at ht p1
    cases ht with
    | words ws b hd =>
      obtain ⟨ws', hw', hp'⟩ : ∃ ws' : List Word, typeSpecs ss' = ws'.map .word ∧ ws.Perm ws' := by
        generalize typeSpecs ss' = l' at p1
        clear hd
        generalize hl : ws.map (TypeSpec.word (X := X)) = l at p1
        induction p1 generalizing ws with
        | nil => exact ⟨[], rfl, by simp at hl; rw [hl]⟩
        | cons x _ ih =>
          cases ws with
          | nil => simp at hl
          | cons w r =>
            simp only [List.map_cons, List.cons.injEq] at hl
            obtain ⟨ws', h1, h2⟩ := ih r hl.2
            exact ⟨w :: ws', by rw [List.map_cons, h1, hl.1], h2.cons _⟩
        | swap x y l =>
          match ws, hl with
          | a :: b :: r, hl =>
            simp only [List.map_cons, List.cons.injEq] at hl
            exact ⟨b :: a :: r, by simp [hl.1, hl.2.1, hl.2.2], .swap ..⟩
        | trans _ _ ih1 ih2 =>
          obtain ⟨w1, h1, h2⟩ := ih1 ws hl
          obtain ⟨w2, h3, h4⟩ := ih2 w1 h1.symm
          exact ⟨w2, h3, h2.trans h4⟩
      rw [hw']
      obtain ⟨row, hr, hpr, rfl⟩ := hd
      exact .words ws' _ ⟨row, hr, hp'.symm.trans hpr, rfl⟩
    | tag k n b t hk => rw [List.perm_singleton.1 p1.symm]; exact .tag k n b t hk
    | typedefName s t hk => rw [List.perm_singleton.1 p1.symm]; exact .typedefName s t hk
    | vaList => rw [List.perm_singleton.1 p1.symm]; exact .vaList
  · rw [hty]
    congr 1
    simp only [Quals.of, hcont _ p2]
  · have hs1 : ∀ x, storages ss = [x] → storages ss' = [x] := by
      intro x hx
      rw [hx] at p3
      exact List.perm_singleton.1 p3.symm
    rcases hst with ⟨h0, hc⟩ | ⟨h0, hc⟩ | ⟨h0, hc⟩ | ⟨h0, hc⟩ | ⟨h0, hc⟩ | ⟨h0, hc⟩ | ⟨h0, hc⟩ | ⟨h0, hc⟩ | ⟨h0, hc⟩
    · rw [h0] at p3
      exact Or.inl ⟨List.Perm.eq_nil p3.symm, hc⟩
    · simp [StorageOk, hs1 _ h0, hc]
    · simp [StorageOk, hs1 _ h0, hc]
    · simp [StorageOk, hs1 _ h0, hc]
    · simp [StorageOk, hs1 _ h0, hc]
    · exact Or.inr (Or.inr (Or.inr (Or.inr (Or.inr (Or.inl ⟨p3.symm.trans h0, hc⟩)))))
    · exact Or.inr (Or.inr (Or.inr (Or.inr (Or.inr (Or.inr (Or.inl ⟨p3.symm.trans h0, hc⟩))))))
    · simp [StorageOk, hs1 _ h0, hc]
    · simp [StorageOk, hs1 _ h0, hc]
  · rw [hin, hcont _ p4]
  · rw [hno, hcont _ p4]
  · obtain ⟨as', h1, h2⟩ := hmapM p5 as has
    exact ⟨as', h1, by rw [hal, hfold h2], hnat⟩

/-- The order in which specifiers are written does not matter. -/
theorem C70_order_partial {env : Env X} {G : Scope X} (hA : Agrees env G) {ss ss' : List (Spec X)} {m : Meaning}
    (hp : ss.Perm ss') (hm : Means G ss m) (hc : CoveredSpecs G ss) (hc' : CoveredSpecs G ss') :
    ∃ sp sp', specifiers env ss = some sp ∧ specifiers env ss' = some sp' ∧ erase sp.ty = erase sp'.ty ∧
      sp.storage = sp'.storage ∧ sp.inline = sp'.inline ∧ sp.noreturn = sp'.noreturn ∧ sp.align = sp'.align := by
  obtain ⟨sp, h1, h2, h3, h4, h5, h6⟩ := C70_specifiers_partial hA hm hc
  obtain ⟨sp', g1, g2, g3, g4, g5, g6⟩ := C70_specifiers_partial hA (means_perm hp hm) hc'
  exact ⟨sp, sp', h1, g1, by rw [h2, g2], by rw [h3, g3], by rw [h4, g4], by rw [h5, g5], by rw [h6, g6]⟩

/-! ### C71: declarators -/

/-- A valid declaration with one declarator is accepted, and its identifier gets the type that C17 gives it: types are
derived from the inside out, parameters are adjusted, their names are distinct, array lengths are the values of their
expressions.  Partial: the conditions `Covered` on specifiers, here and in parameter lists; parameters of prototypes
have complete types (`Agrees.definition`). -/
theorem C71_declaration_partial {env : Env X} {G : Scope X} (hA : Agrees env G) {ss : List (Spec X)} {d : Dtor X}
    {m : Meaning} {u : Ty} (hm : Means G ss m) (hd : HasType G false d m.ty u) (hc : CoveredSpecs G ss)
    (hcd : d.Covered G) :
    ∃ k sp, declaration env ss d = some (d.ident, k, sp) ∧ erase k = u ∧ sp.storage = m.storage ∧
      sp.inline = m.inline ∧ sp.noreturn = m.noreturn ∧ sp.align = m.align :=
  declaration_complete hA hm hd hc hcd

/-- The same for type names (6.7.7). -/
theorem C71_type_name_partial {env : Env X} {G : Scope X} (hA : Agrees env G) {ss : List (Spec X)} {d : Dtor X}
    {m : Meaning} {u : Ty} (hm : Means G ss m) (hd : HasType G false d m.ty u) (hc : CoveredSpecs G ss)
    (hcd : d.Covered G) : ∃ k, typeName env ss d = some k ∧ erase k = u :=
  typeName_complete hA hm hd hc hcd

/-- Whatever is accepted, the declared identifier is the one in the declarator. -/
theorem C71_identifier {env : Env X} {ss : List (Spec X)} {d : Dtor X} {n : Option String} {k : KTy} {sp : Specs}
    (h : declaration env ss d = some (n, k, sp)) : n = d.ident := by
  unfold declaration at h
  cases hs : specifiers env ss with
  | none => rw [hs] at h; cases h
  | some sp' =>
    rw [hs] at h
    simp only at h
    cases hd : declarator env d sp'.ty with
    | none => rw [hd] at h; cases h
    | some x =>
      obtain ⟨n', t⟩ := x
      rw [hd] at h
      simp only at h
      split at h
      · simp only [Option.some.injEq, Prod.mk.injEq] at h
        rw [← h.1]
        exact declarator_fst env d _ _ _ hd
      · cases h

/-- No accepted declaration has a parameter list that declares the same identifier twice. -/
theorem C71_distinct_parameters {env : Env X} {ss : List (Spec X)} {d : Dtor X} {x : Option String × KTy × Specs}
    (h : declaration env ss d = some x) : d.Distinct := by
  unfold declaration at h
  cases hs : specifiers env ss with
  | none => rw [hs] at h; cases h
  | some sp' =>
    rw [hs] at h
    simp only at h
    cases hd : declarator env d sp'.ty with
    | none => rw [hd] at h; cases h
    | some x => exact declarator_distinct env d _ _ hd

/-! ### C72: types that may not be derived -/

/-- An accepted declaration, whatever it looks like, has a type without arrays of functions or of incomplete objects,
without functions that return functions or arrays, and without prototypes with incomplete parameters.  Partial: not
inside the types that functions return, and not if function or array types are qualified. -/
theorem C72_derived_types_partial {env : Env X} {ss : List (Spec X)} {d : Dtor X} {n : Option String} {k : KTy}
    {sp : Specs} (h : declaration env ss d = some (n, k, sp)) (hc : Clean k) : (erase k).Ok false := by
  unfold declaration at h
  cases hs : specifiers env ss with
  | none => rw [hs] at h; cases h
  | some sp' =>
    rw [hs] at h
    simp only at h
    cases hd : declarator env d sp'.ty with
    | none => rw [hd] at h; cases h
    | some x =>
      obtain ⟨n', t⟩ := x
      rw [hd] at h
      simp only at h
      split at h
      · next ha =>
        simp only [Option.some.injEq, Prod.mk.injEq] at h
        rw [h.2.1] at ha
        exact ok_of_analyze k false ha hc
      · cases h

/-- `static` and qualifiers between brackets are accepted nowhere but in the outermost array of a parameter
(6.7.6.2p1): the type of a declaration, followed through arrays and pointers, has none. -/
theorem C72_static_arrays {env : Env X} {ss : List (Spec X)} {d : Dtor X} {n : Option String} {k : KTy}
    {sp : Specs} (h : declaration env ss d = some (n, k, sp)) :
    (∀ l st q t, k = .arr l st q t → st = false ∧ q = {}) ∧
    (∀ l st q t, k = .ptr (.arr l st q t) → st = false ∧ q = {}) ∧
    (∀ l l' st q t, k = .arr l' false {} (.arr l st q t) → st = false ∧ q = {}) := by
  unfold declaration at h
  cases hs : specifiers env ss with
  | none => rw [hs] at h; cases h
  | some sp' =>
    rw [hs] at h
    simp only at h
    cases hd : declarator env d sp'.ty with
    | none => rw [hd] at h; cases h
    | some x =>
      obtain ⟨n', t⟩ := x
      rw [hd] at h
      simp only at h
      split at h
      · next ha =>
        simp only [Option.some.injEq, Prod.mk.injEq] at h
        rw [h.2.1] at ha
        refine ⟨?_, ?_, ?_⟩
        · rintro l st q t rfl
          simp [analyzeType] at ha
          exact ha.2
        · rintro l st q t rfl
          simp [analyzeType] at ha
          exact ha.2
        · rintro l l' st q t rfl
          simp [analyzeType] at ha
          exact ha.1.2
      · cases h

/-! ### A concrete program -/

/-- Numbers below 100 are constant expressions, numbers below 200 are expressions of integer type. -/
def exNatural : Ty → Option Nat
  | .basic .char => some 1
  | .basic _ => some 4
  | .ptr _ => some 8
  | .qual _ t => exNatural t
  | .arr _ t => exNatural t
  | _ => none

def exEnv : Env Nat where
  typedefTy s :=
    if s = "T" then some (.basic .int)
    else if s = "A" then some (.arr (.fixed 3) false {} (.basic .int))
    else if s = "F" then some (.fn (.basic .int) .empty .nil false)
    else none
  tagTy k n _ :=
    if k = .struct ∧ n = some "S" then some (.tagged 1 true)
    else if k = .struct ∧ n = some "I" then some (.tagged 2 false)
    else none
  value e := if e < 100 then some e else none
  isInt e := decide (e < 200)
  alignTo e := if e < 100 then some e else none
  natural k := exNatural (erase k)

def exScope : Scope Nat where
  typedefTy s :=
    if s = "T" then some (.basic .int)
    else if s = "A" then some (.arr (.fixed 3) (.basic .int))
    else if s = "F" then some (.fn (.basic .int) .none false)
    else none
  tagTy k n _ :=
    if k = .struct ∧ n = some "S" then some (.tagged 1 true)
    else if k = .struct ∧ n = some "I" then some (.tagged 2 false)
    else none
  value e := if e < 100 then some e else none
  isInt e := decide (e < 200)
  alignTo e := if e < 100 then some e else none
  natural := exNatural
  definition := true

theorem exAgrees : Agrees exEnv exScope where
  typedefTy s := by
    simp only [exEnv, exScope]
    (repeat' split) <;> simp [erase]
  tagTy k n b := by
    simp only [exEnv, exScope]
    (repeat' split) <;> simp [erase]
  value _ := rfl
  isInt _ := rfl
  alignTo _ := rfl
  natural _ := rfl
  definition := rfl
  valid s t h := by
    simp only [exEnv] at h
    (repeat' split at h) <;> simp at h <;> subst h <;> decide
  tagged k n b t h := by
    simp only [exEnv] at h
    (repeat' split at h) <;> simp at h <;> exact ⟨_, _, h.symm⟩

/-- `long static unsigned const int long`, with `_Alignas(16)`. -/
def exSpecs : List (Spec Nat) :=
  [.type (.word .long), .storage .static, .type (.word .unsigned), .qual .const, .align 16, .type (.word .int),
   .type (.word .long)]

def exMeaning : Meaning := ⟨.qual ⟨true, false, false⟩ (.basic .ullong), .static, false, false, 16⟩

theorem exMeans : Means exScope exSpecs exMeaning where
  type := ⟨.basic .ullong,
    .words [.long, .unsigned, .int, .long] .ullong
      ⟨([.unsigned, .long, .long, .int], .ullong), by decide, by decide, rfl⟩,
    rfl⟩
  storage := by simp [StorageOk, storages, exSpecs, exMeaning]
  inline := rfl
  noreturn := rfl
  align := ⟨[16], by decide, rfl, fun _ => ⟨4, rfl, by decide⟩⟩

theorem map_word_inj : ∀ {l l' : List Word}, l.map (TypeSpec.word (X := X)) = l'.map .word → l = l' := by
  intro l
  induction l with
  | nil => intro l' h; cases l' <;> simp at h ⊢
  | cons a r ih =>
    intro l' h
    cases l' with
    | nil => simp at h
    | cons b r' =>
      simp only [List.map_cons, List.cons.injEq, TypeSpec.word.injEq] at h
      rw [h.1, ih h.2]

/-- Specifiers that are keywords are covered unless `long` follows `double`. -/
theorem covered_words {G : Scope X} {ss : List (Spec X)} (ws : List Word) (h : typeSpecs ss = ws.map .word)
    (hd : doubleBeforeLong ws = false) (ha : Qual.atomic ∉ quals ss) : CoveredSpecs G ss where
  words ws' h' := by
    rw [h] at h'
    rw [← map_word_inj h']
    exact hd
  atomic := ha
  quals _ t ht := by
    rw [h] at ht
    generalize hl : ws.map (TypeSpec.word (X := X)) = l at ht
    cases ht with
    | words ws b hd => simp [Ty.isArr, Ty.isFn, Ty.unqual]
    | tag k n b t _ => cases ws <;> simp at hl
    | typedefName s t _ => cases ws <;> simp at hl
    | vaList => cases ws <;> simp at hl

theorem exCovered : CoveredSpecs exScope exSpecs :=
  covered_words [.long, .unsigned, .int, .long] rfl rfl (by decide)

example : ∃ sp, specifiers exEnv exSpecs = some sp ∧ erase sp.ty = .qual ⟨true, false, false⟩ (.basic .ullong) ∧
    sp.storage = .static ∧ sp.align = 16 := by
  obtain ⟨sp, h1, h2, h3, -, -, h6⟩ := C70_specifiers_partial exAgrees exMeans exCovered
  exact ⟨sp, h1, h2, h3, h6⟩

example : ∃ ss' sp', exSpecs.Perm ss' ∧ ss' ≠ exSpecs ∧ specifiers exEnv ss' = some sp' ∧ sp'.storage = .static := by
  obtain ⟨sp, sp', h1, h2, -, h4, -⟩ := C70_order_partial (ss' := exSpecs.reverse) exAgrees
    (List.reverse_perm _).symm exMeans exCovered (covered_words [.long, .int, .unsigned, .long] rfl rfl (by decide))
  refine ⟨_, sp', (List.reverse_perm _).symm, by decide, h2, ?_⟩
  obtain ⟨sp2, g1, -, g3, -⟩ := C70_specifiers_partial exAgrees exMeans exCovered
  rw [h1, Option.some.injEq] at g1
  rw [← h4, g1, g3]
  rfl

/-- `[.type w₁, …]` for a list of keywords. -/
def wordSpecs (ws : List Word) : List (Spec X) := ws.map (fun w => .type (.word w))

theorem typeSpecs_words : ∀ ws : List Word, typeSpecs (wordSpecs (X := X) ws) = ws.map .word
  | [] => rfl
  | w :: r => by
    have := typeSpecs_words r
    simp only [wordSpecs, List.map_cons, typeSpecs] at this ⊢
    rw [this]

/-- Declarations with keywords only. -/
theorem means_words {G : Scope X} {ws : List Word} {b : Basic} (h : Denotes ws b) :
    Means G (wordSpecs ws) ⟨.basic b, .unspecified, false, false, 0⟩ := by
  have hq : quals (wordSpecs (X := X) ws) = [] ∧ storages (wordSpecs (X := X) ws) = [] ∧
      fnSpecs (wordSpecs (X := X) ws) = [] ∧ aligns (wordSpecs (X := X) ws) = [] := by
    clear h
    induction ws with
    | nil => simp [wordSpecs, quals, storages, fnSpecs, aligns]
    | cons w r ih => simpa [wordSpecs, quals, storages, fnSpecs, aligns] using ih
  refine ⟨⟨_, by rw [typeSpecs_words]; exact .words ws b h, ?_⟩, ?_, ?_, ?_, ?_⟩
  · rw [hq.1]; rfl
  · rw [hq.2.1]; exact Or.inl ⟨rfl, rfl⟩
  · rw [hq.2.2.1]; rfl
  · rw [hq.2.2.1]; rfl
  · exact ⟨[], by rw [hq.2.2.2]; rfl, rfl, fun h => absurd rfl h⟩

theorem covered_wordSpecs {G : Scope X} {ws : List Word} (h : doubleBeforeLong ws = false) :
    CoveredSpecs G (wordSpecs ws) := by
  refine covered_words ws (typeSpecs_words ws) h ?_
  clear h
  induction ws with
  | nil => simp [wordSpecs, quals]
  | cons w r ih => simpa [wordSpecs, quals] using ih

/-- `void (*signal(int sig, void (*func)(int)))(int)`. -/
def exSignal : Dtor Nat :=
  .fn (.ptr [] (.fn (.name (some "signal"))
    (.decl (wordSpecs [.int]) (.name (some "sig"))
      (.decl (wordSpecs [.void]) (.fn (.ptr [] (.name (some "func"))) (.decl (wordSpecs [.int]) (.name none) .nil) false)
        .nil)) false))
    (.decl (wordSpecs [.int]) (.name none) .nil) false

theorem exInt : Denotes [.int] .int := ⟨([.int], .int), by decide, by decide, rfl⟩
theorem exVoid : Denotes [.void] .void := ⟨([.void], .void), by decide, by decide, rfl⟩

/-- Pointer to function (int) returning void. -/
def exHandler : Ty := .ptr (.fn (.basic .void) (.some (.cons (.basic .int) .nil)) false)

theorem exIntParam : HasProto exScope (.decl (wordSpecs [.int]) (.name none) .nil) false
    (.some (.cons (.basic .int) .nil)) :=
  .list _ _ _ (by simp)
    (.cons _ _ _ _ (.basic .int) _ (means_words exInt) (Or.inl rfl) rfl rfl (.name ..) (by decide) (by decide) .nil)

theorem exSignalType : HasType exScope false exSignal (.basic .void)
    (.fn exHandler (.some (.cons (.basic .int) (.cons exHandler .nil))) false) := by
  refine .fn _ _ _ _ _ _ _ (by decide) (by decide) exIntParam (by decide) ?_
  refine .ptr _ _ _ _ _ (by decide) ?_
  refine .fn _ _ _ _ _ _ _ (by decide) (by decide)
    (.list _ _ _ (by simp)
      (.cons _ _ _ _ (.basic .int) _ (means_words exInt) (Or.inl rfl) rfl rfl (.name ..) (by decide) (by decide)
        (.cons _ _ _ _ exHandler _ (means_words exVoid) (Or.inl rfl) rfl rfl ?_ (by decide) (by decide) .nil)))
    (by decide) (.name ..)
  refine .fn _ _ _ _ _ _ _ (by decide) (by decide) exIntParam (by decide) ?_
  exact .ptr _ _ _ _ _ (by decide) (.name ..)

example : ∃ k sp, declaration exEnv (wordSpecs [.void]) exSignal = some (some "signal", k, sp) ∧
    erase k = .fn exHandler (.some (.cons (.basic .int) (.cons exHandler .nil))) false := by
  obtain ⟨k, sp, h1, h2, -⟩ := C71_declaration_partial exAgrees (means_words exVoid) exSignalType
    (covered_wordSpecs rfl)
    (by simp [exSignal, Dtor.Covered, Params.Covered]; 
        exact ⟨⟨covered_wordSpecs rfl, covered_wordSpecs rfl, covered_wordSpecs rfl⟩, covered_wordSpecs rfl⟩)
  exact ⟨k, sp, h1, h2⟩

/-- `int (*)[3]` as a type name. -/
example : ∃ k, typeName exEnv (wordSpecs [.int]) (.arr (.ptr [] (.name none)) false [] (.expr 3)) = some k ∧
    erase k = .ptr (.arr (.fixed 3) (.basic .int)) :=
  C71_type_name_partial exAgrees (means_words exInt)
    (.arr _ _ _ _ _ (.fixed 3) _ _ rfl rfl (by simp) (by simp) (.const _ _ rfl (by decide)) (by simp)
      (.ptr _ _ _ _ _ (by simp) (.name ..)))
    (covered_wordSpecs rfl) (by simp [Dtor.Covered])

/-- `int f(int a[static 2]), g`: an array parameter with `static`. -/
example : ∃ k, typeName exEnv (wordSpecs [.int])
      (.fn (.name none) (.decl (wordSpecs [.int]) (.arr (.name (some "a")) true [.const] (.expr 2)) .nil) false) =
        some k ∧
    erase k = .fn (.basic .int) (.some (.cons (.ptr (.basic .int)) .nil)) false :=
  C71_type_name_partial exAgrees (means_words exInt)
    (.fn _ _ _ _ _ _ _ rfl rfl
      (.list _ _ _ (by simp)
        (.cons _ _ _ _ (.arr (.fixed 2) (.basic .int)) _ (means_words exInt) (Or.inl rfl) rfl rfl
          (.arr _ _ _ _ _ (.fixed 2) _ _ rfl rfl (fun _ => ⟨rfl, _, rfl⟩) (by decide) (.const _ _ rfl (by decide))
            (fun _ => ⟨_, rfl⟩) (.name ..)) (by decide) (by decide) .nil))
      (by decide) (.name ..))
    (covered_wordSpecs rfl) (by simp [Dtor.Covered, Params.Covered]; exact covered_wordSpecs rfl)

example : (∃ k sp, declaration exEnv (wordSpecs [.void]) exSignal = some (some "signal", k, sp) ∧ Clean k) :=
  ⟨.fn (.ptr (.fn (.basic .void) .parameters (.typed (.basic .int) .unspecified .nil) false)) .parameters
      (.typed (.basic .int) .auto
        (.typed (.ptr (.fn (.basic .void) .parameters (.typed (.basic .int) .unspecified .nil) false)) .auto .nil)) false,
    ⟨.basic .void, .unspecified, false, false, 0⟩, by decide, by simp [Clean, CleanParams]⟩

/-! ### Where kefir departs from C17 -/

/-- `double long` means `long double` (6.7.2p2: "in any order") and is rejected. -/
theorem C70_double_long_false :
    Means exScope (wordSpecs [.double, .long]) ⟨.basic .ldouble, .unspecified, false, false, 0⟩ ∧
      specifiers exEnv (wordSpecs [.double, .long]) = none :=
  ⟨means_words ⟨([.long, .double], .ldouble), by decide, by decide, rfl⟩, rfl⟩

/-- Without any type specifier (a constraint violation, 6.7.2p2) the type is `int`. -/
theorem C70_no_type_specifier_false :
    (∀ m, ¬ Means exScope [.qual .const] m) ∧
      (specifiers exEnv [.qual .const]).map (fun sp => erase sp.ty) =
        some (.qual ⟨true, false, false⟩ (.basic .int)) := by
  refine ⟨fun m hm => ?_, rfl⟩
  obtain ⟨t, ht, -⟩ := hm.type
  simp only [typeSpecs] at ht
  generalize hl : ([] : List (TypeSpec Nat)) = l at ht
  cases ht with
  | words ws b hd =>
    obtain ⟨row, hr, hp, -⟩ := hd
    have hws : ws = [] := by cases ws <;> simp at hl ⊢
    subst hws
    have := hp.symm.eq_nil
    revert this
    revert row
    decide
  | _ => cases hl

/-- Lists of keywords that no row of the table allows. -/
theorem not_means {ws : List Word} (h : ∀ row ∈ table, ¬ ws.Perm row.1) (m : Meaning) :
    ¬ Means exScope (wordSpecs ws) m := by
  intro hm
  obtain ⟨t, ht, -⟩ := hm.type
  rw [typeSpecs_words] at ht
  generalize hl : ws.map (TypeSpec.word (X := Nat)) = l at ht
  cases ht with
  | words ws' b hd =>
    obtain ⟨row, hr, hp, -⟩ := hd
    rw [map_word_inj hl] at h
    exact h row hr hp
  | tag k n b t _ => cases ws <;> simp at hl
  | typedefName s t _ => cases ws <;> simp at hl
  | vaList => cases ws <;> simp at hl

/-- `short int int`, `long int double` and `int long int` are accepted. -/
theorem C70_superfluous_int_false :
    ((∀ m, ¬ Means exScope (wordSpecs [.short, .int, .int]) m) ∧
      (specifiers exEnv (wordSpecs [.short, .int, .int])).map (fun sp => erase sp.ty) = some (.basic .short)) ∧
    ((∀ m, ¬ Means exScope (wordSpecs [.long, .int, .double]) m) ∧
      (specifiers exEnv (wordSpecs [.long, .int, .double])).map (fun sp => erase sp.ty) = some (.basic .ldouble)) ∧
    ((∀ m, ¬ Means exScope (wordSpecs [.int, .long, .int]) m) ∧
      (specifiers exEnv (wordSpecs [.int, .long, .int])).map (fun sp => erase sp.ty) = some (.basic .long)) :=
  ⟨⟨fun m => not_means (by decide) m, rfl⟩, ⟨fun m => not_means (by decide) m, rfl⟩,
    ⟨fun m => not_means (by decide) m, rfl⟩⟩

/-- `short struct S` is accepted and means `struct S`. -/
theorem C70_short_struct_false :
    (∀ t, ¬ TypeOf exScope [.word .short, .tag .struct (some "S") none] t) ∧
      (specifiers exEnv [.type (.word .short), .type (.tag .struct (some "S") none)]).map (fun sp => erase sp.ty) =
        some (.tagged 1 true) := by
  refine ⟨fun t ht => ?_, rfl⟩
  generalize hl : [TypeSpec.word .short, TypeSpec.tag (X := Nat) .struct (some "S") none] = l at ht
  cases ht with
  | words ws b hd =>
    match ws, hl with
    | a :: b :: r, hl => simp at hl
  | _ => cases hl

/-- Qualifiers of an array type that comes from a typedef name stay at the array instead of its elements. -/
theorem C70_qualified_array_false :
    Means exScope [.qual .const, .type (.typedefName "A")]
        ⟨.arr (.fixed 3) (.qual ⟨true, false, false⟩ (.basic .int)), .unspecified, false, false, 0⟩ ∧
      (specifiers exEnv [.qual .const, .type (.typedefName "A")]).map (fun sp => erase sp.ty) =
        some (.qual ⟨true, false, false⟩ (.arr (.fixed 3) (.basic .int))) := by
  refine ⟨⟨⟨_, .typedefName "A" _ rfl, rfl⟩, Or.inl ⟨rfl, rfl⟩, rfl, rfl, ⟨[], rfl, rfl, fun h => absurd rfl h⟩⟩, rfl⟩

/-- A declaration of a function with a parameter of incomplete type is valid unless it defines the function
(6.7.6.3p4), and is rejected: `void f(struct I);`. -/
theorem C71_incomplete_parameter_false :
    HasType { exScope with definition := false }
        false (.fn (.name (some "f")) (.decl [.type (.tag .struct (some "I") none)] (.name none) .nil) false)
        (.basic .void) (.fn (.basic .void) (.some (.cons (.tagged 2 false) .nil)) false) ∧
      declaration exEnv (wordSpecs [.void])
        (.fn (.name (some "f")) (.decl [.type (.tag .struct (some "I") none)] (.name none) .nil) false) = none := by
  refine ⟨?_, by decide⟩
  refine .fn _ _ _ _ _ _ _ rfl rfl (.list _ _ _ (by simp) (.cons _ _ _ ⟨.tagged 2 false, .unspecified, false, false, 0⟩
    (.tagged 2 false) _ ?_ (Or.inl rfl) rfl rfl (.name ..) (by decide) (by decide) .nil)) (by decide) (.name ..)
  exact ⟨⟨_, .tag _ _ _ _ rfl, rfl⟩, Or.inl ⟨rfl, rfl⟩, rfl, rfl, ⟨[], rfl, rfl, fun h => absurd rfl h⟩⟩

/-- A parameter declared `const int x` is entered with type `int`: assignments to it are not rejected. -/
theorem C71_parameter_qualifiers_false :
    defineParam [] "x" (.qual ⟨true, false, false⟩ (.basic .int))
      ⟨.qual ⟨true, false, false⟩ (.basic .int), .unspecified, false, false, 0⟩ = some (.basic .int, .auto) := rfl

/-- An unnamed parameter may have `inline` and `_Alignas`, which 6.7.4p2 and 6.7.5p2 forbid: `int f(inline _Alignas(16)
int);`. -/
theorem C71_parameter_specifiers_false :
    (∀ ts, ¬ HasParams exScope (.decl [.fn .inline, .align 16, .type (.word .int)] (.name none) .nil) ts) ∧
      (declaration exEnv (wordSpecs [.int])
        (.fn (.name (some "f")) (.decl [.fn .inline, .align 16, .type (.word .int)] (.name none) .nil) false)).isSome =
        true := by
  refine ⟨fun ts h => ?_, by decide⟩
  cases h with
  | cons _ _ _ m u ts hm hst hfn => cases hfn

/-- A list of identifiers is accepted in a declaration that is no definition (6.7.6.3p3): `int f(a, b);`. -/
theorem C71_identifier_list_false :
    (∀ e p, ¬ HasProto exScope (.ident "a" (.ident "b" .nil)) e p) ∧
      (declaration exEnv (wordSpecs [.int]) (.fn (.name (some "f")) (.ident "a" (.ident "b" .nil)) false)).isSome =
        true := by
  refine ⟨fun e p h => ?_, by decide⟩
  cases h with
  | void _ hv => exact hv
  | list _ _ _ _ hl => cases hl

/-- `int f(int a, int b);` is accepted, `int f(int a, int a);` is not. -/
example : (declaration exEnv (wordSpecs [.int]) (.fn (.name (some "f")) (.decl (wordSpecs [.int]) (.name (some "a"))
      (.decl (wordSpecs [.int]) (.name (some "b")) .nil)) false)).isSome = true ∧
    declaration exEnv (wordSpecs [.int]) (.fn (.name (some "f")) (.decl (wordSpecs [.int]) (.name (some "a"))
      (.decl (wordSpecs [.int]) (.name (some "a")) .nil)) false) = none := by decide

/-- In a list of old-style identifiers, repetitions are not found: `int f(a, a);`. -/
theorem C71_identifiers_distinct_false :
    (Params.ident (X := Nat) "a" (.ident "a" .nil)).names = ["a", "a"] ∧
      (declaration exEnv (wordSpecs [.int]) (.fn (.name (some "f")) (.ident "a" (.ident "a" .nil)) false)).isSome =
        true := by decide

/-- `(void, ...)` is accepted. -/
theorem C71_void_ellipsis_false :
    (∀ p, ¬ HasProto exScope (.decl (wordSpecs [.void]) (.name none) .nil) true p) ∧
      (declaration exEnv (wordSpecs [.int])
        (.fn (.name (some "f")) (.decl (wordSpecs [.void]) (.name none) .nil) true)).isSome = true := by
  refine ⟨fun p h => ?_, by decide⟩
  cases h with
  | list _ _ _ _ hl =>
    cases hl with
    | cons _ _ _ m u ts hm hst hfn hal hd hv =>
      obtain ⟨t, ht, hty⟩ := hm.type
      have htv : t = .basic .void := by
        rw [typeSpecs_words] at ht
        generalize hl : [Word.void].map (TypeSpec.word (X := Nat)) = l at ht
        cases ht with
        | words ws b hd =>
          have hws := map_word_inj hl
          subst hws
          obtain ⟨row, hr, hp, rfl⟩ := hd
          have : ∀ row ∈ table, ([Word.void] : List Word).Perm row.1 → row.2 = Basic.void := by decide
          rw [this row hr hp]
        | tag k n b t _ => simp at hl
        | typedefName s t _ => simp at hl
        | vaList => simp at hl
      have hmt : m.ty = .basic .void := by rw [hty, htv]; rfl
      rw [hmt] at hd
      cases hd
      exact hv rfl

/-- An array length that is negative or zero is accepted (6.7.6.2p1). -/
theorem C72_array_length_false :
    (∀ n, ¬ HasLen exScope (.expr 0) n) ∧
      (declaration exEnv (wordSpecs [.int]) (.arr (.name (some "a")) false [] (.expr 0))).map (fun r => erase r.2.1) =
        some (.arr (.fixed 0) (.basic .int)) := by
  refine ⟨fun n h => ?_, by decide⟩
  cases h with
  | const e n hv hn =>
    have h0 : exScope.value 0 = some 0 := rfl
    rw [h0, Option.some.injEq] at hv
    omega
  | vla e hv _ => cases hv

/-- Types that functions return are not looked into: `int (*f(void))[3][]`, a function that returns a pointer to an
array of arrays of unknown length, is accepted. -/
theorem C72_return_types_false :
    ∃ k sp, declaration exEnv (wordSpecs [.int])
        (.arr (.arr (.ptr [] (.fn (.name (some "f")) (.decl (wordSpecs [.void]) (.name none) .nil) false)) false []
          (.expr 3)) false [] .unbounded) = some (some "f", k, sp) ∧ ¬ (erase k).Ok true := by
  refine ⟨.fn (.ptr (.arr (.fixed 3) false {} (.arr .unknown false {} (.basic .int)))) .parameters
    (.typed (.basic .void) .unspecified .nil) false, ⟨.basic .int, .unspecified, false, false, 0⟩, by decide, ?_⟩
  simp [erase, Ty.Ok, Ty.incomplete, Ty.unqual]

/-- Qualified function types are not recognised: with `typedef int F();` the declaration `const F a[3];` declares an
array of functions. -/
theorem C72_qualified_functions_false :
    ∃ k sp, declaration exEnv [.qual .const, .type (.typedefName "F")]
        (.arr (.name (some "a")) false [] (.expr 3)) = some (some "a", k, sp) ∧ ¬ (erase k).Ok false := by
  refine ⟨.arr (.fixed 3) false {} (.qual ⟨true, false, false⟩ (.fn (.basic .int) .empty .nil false)),
    ⟨.qual ⟨true, false, false⟩ (.fn (.basic .int) .empty .nil false), .unspecified, false, false, 0⟩, by decide, ?_⟩
  simp [erase, Ty.Ok, Ty.isFn, Ty.unqual]

/-- Type names are not checked: `sizeof (int [3][])` gets a type. -/
theorem C72_type_names_false :
    ∃ k, typeName exEnv (wordSpecs [.int]) (.arr (.arr (.name none) false [] (.expr 3)) false [] .unbounded) = some k ∧
      ¬ (erase k).Ok false := by
  refine ⟨.arr (.fixed 3) false {} (.arr .unknown false {} (.basic .int)), by decide, ?_⟩
  simp [erase, Ty.Ok, Ty.incomplete, Ty.unqual]

end Kefir.Declr
