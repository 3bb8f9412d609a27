import Verif.Declr.Model

/-! Lemmas on declaration specifiers. -/

namespace Kefir.Declr
open Model

variable {X : Type}

/-! ### Permutations of a list -/

/-- `a` inserted at every place of a list. -/
def insertions {α : Type} (a : α) : List α → List (List α)
  | [] => [[a]]
  | b :: l => (a :: b :: l) :: (insertions a l).map (b :: ·)

/-- All permutations. -/
def perms {α : Type} : List α → List (List α)
  | [] => [[]]
  | a :: l => (perms l).flatMap (insertions a)

theorem mem_insertions {α : Type} (a : α) : ∀ l₁ l₂ : List α, l₁ ++ a :: l₂ ∈ insertions a (l₁ ++ l₂)
  | [], [] => by simp [insertions]
  | [], b :: l => by simp [insertions]
  | b :: l₁, l₂ => by
    simp only [List.cons_append, insertions]
    exact List.mem_cons_of_mem _ (List.mem_map.2 ⟨_, mem_insertions a l₁ l₂, rfl⟩)

theorem mem_perms {α : Type} : ∀ {l ws : List α}, ws.Perm l → ws ∈ perms l
  | [], ws, h => by
    rw [List.Perm.eq_nil h]
    simp [perms]
  | a :: l, ws, h => by
    obtain ⟨l₁, l₂, rfl⟩ := List.append_of_mem (h.mem_iff.2 (List.mem_cons_self ..))
    have h2 : (l₁ ++ l₂).Perm l := (List.perm_cons a).1 (List.perm_middle.symm.trans h)
    simp only [perms, List.mem_flatMap]
    exact ⟨_, mem_perms h2, mem_insertions a l₁ l₂⟩

/-! ### The parts of the state are independent -/

/-- The part of the state that `resolveType` uses. -/
structure TState where
  sign : Signedness := .default
  seq : Seq := .empty
  base : Option KTy := none
  deriving DecidableEq

/-- The part of a state. -/
def tstate (s : State) : TState := ⟨s.sign, s.seq, s.base⟩

/-- `resolveType` on its part. -/
def tstep (env : Env X) (t : TState) (x : TypeSpec X) : Option TState :=
  (resolveType env { sign := t.sign, seq := t.seq, base := t.base } x).map tstate

/-- `tstep` for a list. -/
def tsteps (env : Env X) : TState → List (TypeSpec X) → Option TState
  | t, [] => some t
  | t, x :: r =>
    match tstep env t x with
    | some t' => tsteps env t' r
    | none => none

/-- Storage classes. -/
def csteps : StorageClass → List Storage → Option StorageClass
  | c, [] => some c
  | c, x :: r =>
    match resolveStorage c x with
    | some c' => csteps c' r
    | none => none

/-- Puts a new type part into a state. -/
def withT (s : State) (t : TState) : State := { s with sign := t.sign, seq := t.seq, base := t.base }

theorem resolveType_eq (env : Env X) (s : State) (x : TypeSpec X) :
    resolveType env s x = (tstep env (tstate s) x).map (withT s) := by
  obtain ⟨sign, seq, base, q, c, i, n, a⟩ := s
  cases x with
  | word w =>
    cases w <;> simp only [resolveType, tstep, tstate] <;> (repeat' split) <;> simp_all [tstate, withT]
  | complex => rfl
  | atomic t => rfl
  | tag k n b => simp only [resolveType, tstep, tstate] <;> (repeat' split) <;> simp_all [tstate, withT]
  | typedefName s => simp only [resolveType, tstep, tstate] <;> (repeat' split) <;> simp_all [tstate, withT]
  | vaList => simp only [resolveType, tstep, tstate] <;> (repeat' split) <;> simp_all [tstate, withT]

/-- The result of the loop is made of the results of its parts. -/
structure Parts (env : Env X) (s : State) (ss : List (Spec X)) (s' : State) : Prop where
  type : tsteps env (tstate s) (typeSpecs ss) = some (tstate s')
  quals : resolveQuals s.quals (quals ss) = some s'.quals
  storage : csteps s.storage (storages ss) = some s'.storage
  inline : s'.inline = (s.inline || (fnSpecs ss).contains .inline)
  noreturn : s'.noreturn = (s.noreturn || (fnSpecs ss).contains .noreturn)
  align : ∃ as, (aligns ss).mapM env.alignTo = some as ∧ s'.align = as.foldl max s.align

theorem stateExt {s s' : State} (h1 : tstate s = tstate s') (h2 : s.quals = s'.quals)
    (h3 : s.storage = s'.storage) (h4 : s.inline = s'.inline) (h5 : s.noreturn = s'.noreturn)
    (h6 : s.align = s'.align) : s = s' := by
  obtain ⟨sign, seq, base, q, c, i, n, a⟩ := s
  obtain ⟨sign', seq', base', q', c', i', n', a'⟩ := s'
  simp only [tstate, TState.mk.injEq] at h1
  simp_all

theorem steps_iff (env : Env X) (ss : List (Spec X)) :
    ∀ s s', steps env s ss = some s' ↔ Parts env s ss s' := by
  induction ss with
  | nil =>
    intro s s'
    simp only [steps, Option.some.injEq]
    constructor
    · rintro rfl
      exact ⟨rfl, rfl, rfl, by simp [fnSpecs], by simp [fnSpecs], ⟨[], rfl, rfl⟩⟩
    · rintro ⟨h1, h2, h3, h4, h5, ⟨as, h6, h7⟩⟩
      simp only [typeSpecs, tsteps, Option.some.injEq] at h1
      simp only [Declr.quals, resolveQuals, Option.some.injEq] at h2
      simp only [storages, csteps, Option.some.injEq] at h3
      simp only [fnSpecs, List.contains_nil, Bool.or_false] at h4 h5
      simp only [aligns, List.mapM_nil] at h6
      cases h6
      exact stateExt h1 h2 h3 h4.symm h5.symm h7.symm
  | cons x r ih =>
    intro s s'
    cases x with
    | type t =>
      simp only [steps, step, resolveType_eq]
      cases ht : tstep env (tstate s) t with
      | none =>
        simp only [Option.map_none]
        constructor
        · intro h; cases h
        · rintro ⟨h1, -⟩
          simp only [typeSpecs, tsteps, ht] at h1
          cases h1
      | some t' =>
        simp only [Option.map_some, ih]
        constructor
        · rintro ⟨h1, h2, h3, h4, h5, h6⟩
          exact ⟨by simp only [typeSpecs, tsteps, ht]; exact h1, h2, h3, h4, h5, h6⟩
        · rintro ⟨h1, h2, h3, h4, h5, h6⟩
          simp only [typeSpecs, tsteps, ht] at h1
          exact ⟨h1, h2, h3, h4, h5, h6⟩
    | qual q =>
      simp only [steps, step]
      cases hq : resolveQual s.quals q with
      | none =>
        simp only
        constructor
        · intro h; cases h
        · rintro ⟨-, h2, -⟩
          simp only [Declr.quals, resolveQuals, hq] at h2
          cases h2
      | some q' =>
        simp only [ih]
        constructor
        · rintro ⟨h1, h2, h3, h4, h5, h6⟩
          exact ⟨h1, by simp only [Declr.quals, resolveQuals, hq]; exact h2, h3, h4, h5, h6⟩
        · rintro ⟨h1, h2, h3, h4, h5, h6⟩
          simp only [Declr.quals, resolveQuals, hq] at h2
          exact ⟨h1, h2, h3, h4, h5, h6⟩
    | storage c =>
      simp only [steps, step]
      cases hc : resolveStorage s.storage c with
      | none =>
        simp only
        constructor
        · intro h; cases h
        · rintro ⟨-, -, h3, -⟩
          simp only [storages, csteps, hc] at h3
          cases h3
      | some c' =>
        simp only [ih]
        constructor
        · rintro ⟨h1, h2, h3, h4, h5, h6⟩
          exact ⟨h1, h2, by simp only [storages, csteps, hc]; exact h3, h4, h5, h6⟩
        · rintro ⟨h1, h2, h3, h4, h5, h6⟩
          simp only [storages, csteps, hc] at h3
          exact ⟨h1, h2, h3, h4, h5, h6⟩
    | fn f =>
      cases f with
      | inline =>
        simp only [steps, step, ih]
        constructor
        · rintro ⟨h1, h2, h3, h4, h5, h6⟩
          refine ⟨h1, h2, h3, ?_, ?_, h6⟩
          · rw [h4]; simp [fnSpecs]
          · rw [h5]; simp [fnSpecs]
        · rintro ⟨h1, h2, h3, h4, h5, h6⟩
          refine ⟨h1, h2, h3, ?_, ?_, h6⟩
          · rw [h4]; simp [fnSpecs]
          · rw [h5]; simp [fnSpecs]
      | noreturn =>
        simp only [steps, step, ih]
        constructor
        · rintro ⟨h1, h2, h3, h4, h5, h6⟩
          refine ⟨h1, h2, h3, ?_, ?_, h6⟩
          · rw [h4]; simp [fnSpecs]
          · rw [h5]; simp [fnSpecs]
        · rintro ⟨h1, h2, h3, h4, h5, h6⟩
          refine ⟨h1, h2, h3, ?_, ?_, h6⟩
          · rw [h4]; simp [fnSpecs]
          · rw [h5]; simp [fnSpecs]
    | align a =>
      simp only [steps, step]
      cases ha : env.alignTo a with
      | none =>
        simp only
        constructor
        · intro h; cases h
        · rintro ⟨-, -, -, -, -, ⟨as, h6, -⟩⟩
          simp [aligns, List.mapM_cons, ha] at h6
      | some n =>
        simp only [ih]
        constructor
        · rintro ⟨h1, h2, h3, h4, h5, ⟨as, h6, h7⟩⟩
          refine ⟨h1, h2, h3, h4, h5, ⟨n :: as, ?_, ?_⟩⟩
          · simp [aligns, List.mapM_cons, ha, h6]
          · simpa using h7
        · rintro ⟨h1, h2, h3, h4, h5, ⟨as, h6, h7⟩⟩
          simp only [aligns, List.mapM_cons, ha] at h6
          cases h8 : (aligns r).mapM env.alignTo with
          | none => simp [h8] at h6
          | some bs =>
            simp [h8] at h6
            subst h6
            exact ⟨h1, h2, h3, h4, h5, ⟨bs, h8, by simpa using h7⟩⟩

/-! ### Qualifiers -/

theorem resolveQuals_eq : ∀ (qs : List Qual) (q : Quals), Qual.atomic ∉ qs →
    resolveQuals q qs = some (q.union (Quals.of qs)) := by
  intro qs
  induction qs with
  | nil => intro q _; simp [resolveQuals, Quals.union, Quals.of]
  | cons x r ih =>
    intro q h
    simp only [List.mem_cons, not_or] at h
    cases x with
    | atomic => exact absurd rfl h.1
    | const =>
      simp only [resolveQuals, resolveQual, ih _ h.2]
      simp [Quals.union, Quals.of]
    | restrict =>
      simp only [resolveQuals, resolveQual, ih _ h.2]
      simp [Quals.union, Quals.of]
    | volatile =>
      simp only [resolveQuals, resolveQual, ih _ h.2]
      simp [Quals.union, Quals.of]

theorem resolveQuals_atomic : ∀ (qs : List Qual) (q : Quals), Qual.atomic ∈ qs → resolveQuals q qs = none := by
  intro qs
  induction qs with
  | nil => intro q h; cases h
  | cons x r ih =>
    intro q h
    cases x with
    | atomic => rfl
    | const => simp only [resolveQuals, resolveQual]; exact ih _ (by simpa using h)
    | restrict => simp only [resolveQuals, resolveQual]; exact ih _ (by simpa using h)
    | volatile => simp only [resolveQuals, resolveQual]; exact ih _ (by simpa using h)

theorem Quals.empty_union (q : Quals) : Quals.union {} q = q := by
  obtain ⟨a, b, c⟩ := q; simp [Quals.union]

/-! ### Storage classes -/

theorem storageOk_of_csteps {ss : List Storage} {c : StorageClass} (h : csteps .unspecified ss = some c) :
    StorageOk ss c := by
  match ss with
  | [] => simp only [csteps, Option.some.injEq] at h; subst h; exact Or.inl ⟨rfl, rfl⟩
  | [a] =>
    cases a <;> simp [csteps, resolveStorage] at h <;> subst h <;> simp [StorageOk]
  | [a, b] =>
    cases a <;> cases b <;> simp [csteps, resolveStorage] at h <;> subst h <;> simp [StorageOk] <;> decide
  | a :: b :: d :: r =>
    cases a <;> cases b <;> simp [csteps, resolveStorage] at h <;> cases d <;> simp [csteps, resolveStorage] at h

theorem csteps_of_storageOk {ss : List Storage} {c : StorageClass} (h : StorageOk ss c) :
    csteps .unspecified ss = some c := by
  have two : ∀ x y : Storage, ss.Perm [x, y] → ss = [x, y] ∨ ss = [y, x] := by
    intro x y hp
    have := mem_perms hp
    simpa [perms, insertions] using this
  rcases h with ⟨rfl, rfl⟩ | ⟨rfl, rfl⟩ | ⟨rfl, rfl⟩ | ⟨rfl, rfl⟩ | ⟨rfl, rfl⟩ | ⟨hp, rfl⟩ | ⟨hp, rfl⟩ |
    ⟨rfl, rfl⟩ | ⟨rfl, rfl⟩
  · rfl
  · rfl
  · rfl
  · rfl
  · rfl
  · rcases two _ _ hp with rfl | rfl <;> rfl
  · rcases two _ _ hp with rfl | rfl <;> rfl
  · rfl
  · rfl

/-! ### Type specifiers -/

/-- The rows that the analysis rejects: `double` before `long`. -/
def doubleBeforeLong : List Word → Bool
  | [] => false
  | .double :: r => r.contains .long
  | _ :: r => doubleBeforeLong r

/-- The loop for words only, as a computable function without environment. -/
def emptyEnv : Env Empty where
  typedefTy _ := none
  tagTy _ _ _ := none
  value _ := none
  isInt _ := false
  alignTo _ := none
  natural _ := none

theorem tstep_word (env : Env X) (t : TState) (w : Word) :
    tstep env t (.word w) = tstep emptyEnv t (.word w) := by
  cases w <;> rfl

theorem tsteps_words (env : Env X) : ∀ (ws : List Word) (t : TState),
    tsteps env t (ws.map .word) = tsteps emptyEnv t (ws.map .word) := by
  intro ws
  induction ws with
  | nil => intro t; rfl
  | cons w r ih =>
    intro t
    simp only [List.map_cons, tsteps, tstep_word env]
    cases tstep emptyEnv t (.word w) with
    | none => rfl
    | some t' => exact ih t'

/-- The words denote the type, in the order in which they are written. -/
def yields (ws : List Word) (b : Basic) : Bool :=
  match tsteps emptyEnv {} (ws.map .word) with
  | some t => decide (applySign t.sign t.base = some (.basic b))
  | none => false

theorem table_yields : ∀ row ∈ table, ∀ ws ∈ perms row.1, doubleBeforeLong ws = false →
    yields ws row.2 = true := by
  decide +kernel

theorem words_complete (env : Env X) {ws : List Word} {b : Basic} (h : Denotes ws b)
    (hd : doubleBeforeLong ws = false) :
    ∃ t, tsteps env {} (ws.map .word) = some t ∧ applySign t.sign t.base = some (.basic b) := by
  obtain ⟨row, hr, hp, rfl⟩ := h
  have := table_yields row hr ws (mem_perms hp) hd
  rw [tsteps_words]
  unfold yields at this
  split at this
  · next t ht => exact ⟨t, ht, of_decide_eq_true this⟩
  · cases this

/-- The words, `int` left out, that a state comes from. -/
def canonical (sign : Signedness) (base : Option KTy) : List Word :=
  (match sign with
   | .default => []
   | .signed => [.signed]
   | .unsigned => [.unsigned]) ++
  (match base with
   | none => []
   | some (.basic .void) => [.void]
   | some (.basic .char) => [.char]
   | some (.basic .short) => [.short]
   | some (.basic .long) => [.long]
   | some (.basic .llong) => [.long, .long]
   | some (.basic .float) => [.float]
   | some (.basic .double) => [.double]
   | some (.basic .ldouble) => [.long, .double]
   | some (.basic .bool) => [.bool]
   | _ => [])

/-- Base types that words lead to. -/
def wordBase : Option KTy → Bool
  | none => true
  | some (.basic .void) | some (.basic .char) | some (.basic .short) | some (.basic .int) | some (.basic .long)
  | some (.basic .llong) | some (.basic .float) | some (.basic .double) | some (.basic .ldouble)
  | some (.basic .bool) => true
  | _ => false

/-- Words other than `int`. -/
def notInt (w : Word) : Bool := w != .int

theorem tstep_canonical {t t' : TState} {w : Word} (hb : wordBase t.base = true)
    (h : tstep emptyEnv t (.word w) = some t') :
    wordBase t'.base = true ∧
      (canonical t.sign t.base ++ [w].filter notInt).Perm (canonical t'.sign t'.base) := by
  obtain ⟨sign, seq, base⟩ := t
  cases base with
  | none =>
    cases w <;> cases sign <;> cases seq <;> simp [tstep, resolveType, tstate] at h <;> subst h <;> decide
  | some k =>
    cases k with
    | basic b =>
      cases b <;> simp [wordBase] at hb <;>
      cases w <;> cases sign <;> cases seq <;> simp [tstep, resolveType, tstate, KTy.is] at h <;> subst h <;> decide
    | _ => simp [wordBase] at hb

theorem tsteps_canonical : ∀ (ws : List Word) (t t' : TState), wordBase t.base = true →
    tsteps emptyEnv t (ws.map .word) = some t' →
    wordBase t'.base = true ∧
      (canonical t.sign t.base ++ ws.filter notInt).Perm (canonical t'.sign t'.base) := by
  intro ws
  induction ws with
  | nil =>
    intro t t' hb h
    simp only [List.map_nil, tsteps, Option.some.injEq] at h
    subst h
    exact ⟨hb, by simp⟩
  | cons w r ih =>
    intro t t' hb h
    simp only [List.map_cons, tsteps] at h
    cases h1 : tstep emptyEnv t (.word w) with
    | none => rw [h1] at h; cases h
    | some t1 =>
      rw [h1] at h
      obtain ⟨hb1, hp1⟩ := tstep_canonical hb h1
      obtain ⟨hb2, hp2⟩ := ih t1 t' hb1 h
      refine ⟨hb2, ?_⟩
      have : canonical t.sign t.base ++ (w :: r).filter notInt =
          (canonical t.sign t.base ++ [w].filter notInt) ++ r.filter notInt := by
        rw [List.append_assoc, ← List.filter_append]; rfl
      rw [this]
      exact (hp1.append_right _).trans hp2

theorem applySign_canonical {sign : Signedness} {base : Option KTy} {t : KTy} (hb : wordBase base = true)
    (h : applySign sign base = some t) :
    ∃ row ∈ table, (row.1.filter notInt).Perm (canonical sign base) ∧ t = .basic row.2 := by
  have go : ∀ (ws : List Word) (b : Basic), (ws, b) ∈ table → (ws.filter notInt).Perm (canonical sign base) →
      t = .basic b → ∃ row ∈ table, (row.1.filter notInt).Perm (canonical sign base) ∧ t = .basic row.2 :=
    fun ws b h1 h2 h3 => ⟨(ws, b), h1, h2, h3⟩
  cases base with
  | none =>
    cases sign <;> simp [applySign] at h <;> subst h
    · exact go [.int] .int (by decide) (by decide) rfl
    · exact go [.signed] .int (by decide) (by decide) rfl
    · exact go [.unsigned] .uint (by decide) (by decide) rfl
  | some k =>
    cases k with
    | basic b =>
      cases b <;> simp [wordBase] at hb <;> cases sign <;> simp [applySign] at h <;> subst h
      · exact go [.void] .void (by decide) (by decide) rfl
      · exact go [.char] .char (by decide) (by decide) rfl
      · exact go [.signed, .char] .schar (by decide) (by decide) rfl
      · exact go [.unsigned, .char] .uchar (by decide) (by decide) rfl
      · exact go [.short] .short (by decide) (by decide) rfl
      · exact go [.signed, .short] .short (by decide) (by decide) rfl
      · exact go [.unsigned, .short] .ushort (by decide) (by decide) rfl
      · exact go [.int] .int (by decide) (by decide) rfl
      · exact go [.signed] .int (by decide) (by decide) rfl
      · exact go [.unsigned] .uint (by decide) (by decide) rfl
      · exact go [.long] .long (by decide) (by decide) rfl
      · exact go [.signed, .long] .long (by decide) (by decide) rfl
      · exact go [.unsigned, .long] .ulong (by decide) (by decide) rfl
      · exact go [.long, .long] .llong (by decide) (by decide) rfl
      · exact go [.signed, .long, .long] .llong (by decide) (by decide) rfl
      · exact go [.unsigned, .long, .long] .ullong (by decide) (by decide) rfl
      · exact go [.float] .float (by decide) (by decide) rfl
      · exact go [.double] .double (by decide) (by decide) rfl
      · exact go [.long, .double] .ldouble (by decide) (by decide) rfl
      · exact go [.bool] .bool (by decide) (by decide) rfl
    | _ => simp [wordBase] at hb

theorem words_sound (env : Env X) {ws : List Word} {t : TState} {k : KTy}
    (h : tsteps env {} (ws.map .word) = some t) (hs : applySign t.sign t.base = some k) :
    ∃ row ∈ table, (ws.filter notInt).Perm (row.1.filter notInt) ∧ k = .basic row.2 := by
  rw [tsteps_words] at h
  obtain ⟨hb, hp⟩ := tsteps_canonical ws {} t rfl h
  obtain ⟨row, h1, h2, h3⟩ := applySign_canonical hb hs
  exact ⟨row, h1, hp.trans h2.symm, h3⟩

end Kefir.Declr
