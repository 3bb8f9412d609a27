import Verif.SymbolTable.Props

/-!
# Macro scopes: `source/preprocessor/user_macro.c` (scope part), `source/preprocessor/macro_scope.c`

Simplifications: allocation succeeds; the contents of a macro play no role (`V`).
-/

namespace Kefir.Preproc

open Kefir.HashTree (Node) 
open Kefir.SymbolTable (StrPtr strOps str_lawful)

variable {V : Type}

/-! ## Specification -/

/-- `#define name …` or `#undef name` (C17 6.10.3, 6.10.3.5). -/
inductive Directive (V : Type) where
  | define (name : StrPtr) (definition : V)
  | undef (name : StrPtr)

/-- What the last directive about `name` (a string) says: `none` if there is none, `some none` if it
is an `#undef`, `some (some d)` if it is a `#define` with definition `d`. -/
def lastAbout (name : List UInt8) : List (Directive V) → Option (Option V)
  | [] => none
  | .define n d :: rest => (lastAbout name rest).or (if n.str = name then some (some d) else none)
  | .undef n :: rest => (lastAbout name rest).or (if n.str = name then some none else none)

/-! ## Model -/

/-- `kefir_preprocessor_user_macro_scope_insert`, `source/preprocessor/user_macro.c:757-770`. -/
def scopeInsert (macros : Node StrPtr V) (identifier : StrPtr) (m : V) : Res (Node StrPtr V) :=
  if HashTree.has strOps identifier macros then
    match HashTree.delete strOps identifier macros with
    | .error e => .error e
    | .ok (macros', _) => HashTree.insert strOps true identifier m macros'
  else HashTree.insert strOps true identifier m macros

/-- `kefir_preprocessor_user_macro_scope_at`, `source/preprocessor/user_macro.c:772-789`, on a scope
given by its own macros and those of its parent, the parent's parent, and so on. -/
def scopeAt (macros : Node StrPtr V) (parents : List (Node StrPtr V)) (identifier : StrPtr) :
    Res V :=
  match HashTree.at' strOps identifier macros, parents with
  | .error .notFound, p :: ps => scopeAt p ps identifier
  | .error e, _ => .error e
  | .ok node, _ => .ok node.value

/-- `kefir_preprocessor_user_macro_scope_remove`, `source/preprocessor/user_macro.c:791-803`. -/
def scopeRemove (macros : Node StrPtr V) (identifier : StrPtr) : Res (Node StrPtr V) :=
  match HashTree.delete strOps identifier macros with
  | .error .notFound => .ok macros
  | .error e => .error e
  | .ok (macros', _) => .ok macros'

/-- `process_define` and `process_undef`, `source/preprocessor/preprocessor.c:287-327`. -/
def directive (macros : Node StrPtr V) : Directive V → Res (Node StrPtr V)
  | .define n m => scopeInsert macros n m
  | .undef n => scopeRemove macros n

/-- A sequence of directives. -/
def directives (macros : Node StrPtr V) : List (Directive V) → Res (Node StrPtr V)
  | [] => .ok macros
  | d :: ds =>
    match directive macros d with
    | .error e => .error e
    | .ok macros' => directives macros' ds

/-- `locate_predefined`, `source/preprocessor/predefined_macro.c:343-359`. -/
def locatePredefined (predefined : Node StrPtr V) (identifier : StrPtr) : Res V :=
  match HashTree.at' strOps identifier predefined with
  | .error .notFound => .error .notFound
  | .error e => .error e
  | .ok node => .ok node.value

/-- `overlay_locate`, `source/preprocessor/macro_scope.c:25-38`, with the user macros over the
predefined ones (`source/preprocessor/preprocessor.c:131-132`). -/
def locate (macros : Node StrPtr V) (parents : List (Node StrPtr V)) (predefined : Node StrPtr V)
    (identifier : StrPtr) : Res V :=
  match scopeAt macros parents identifier with
  | .error .notFound => locatePredefined predefined identifier
  | r => r

/-! ## Proofs -/

/-- The tree holds what the directives since `base` say. -/
def Tracks (macros : Node StrPtr V) (value : List UInt8 → Option V) : Prop :=
  ∃ m, HashTree.Rel strOps macros m ∧
    ∀ k : StrPtr, (m.find? (fun p => strOps.compareKeys p.1 k)).map (·.2) = value k.str

theorem Tracks.congr {macros : Node StrPtr V} {f g : List UInt8 → Option V} (h : Tracks macros f)
    (e : ∀ s, f s = g s) : Tracks macros g := by
  rw [← funext e]; exact h

theorem tracks_at {macros : Node StrPtr V} {value} (h : Tracks macros value) (k : StrPtr) :
    match value k.str with
    | some v => ∃ e, HashTree.at' strOps k macros = .ok e ∧ e.value = v
    | none => HashTree.at' strOps k macros = .error .notFound := by
  obtain ⟨m, hr, hv⟩ := h
  rw [HashTree.at']
  cases hf : HashTree.nodeFind strOps (strOps.hash k) k macros with
  | some e =>
    have := hv k
    rw [hr.find_some str_lawful hf] at this
    simp only [Option.map_some] at this
    rw [← this]
    exact ⟨e, rfl, rfl⟩
  | none =>
    have hn : m.find? (fun p => strOps.compareKeys p.1 k) = none := by
      rw [List.find?_eq_none]
      intro p hp
      simp [hr.find_none str_lawful hf p hp]
    have := hv k
    rw [hn] at this
    rw [← this]
    rfl

theorem cmp_iff (a b : StrPtr) : strOps.compareKeys a b = true ↔ a.str = b.str := by
  simp [strOps]

theorem find_filter (m : List (StrPtr × V)) (k x : StrPtr) :
    ((m.filter fun q => !strOps.compareKeys q.1 k).find? fun p => strOps.compareKeys p.1 x) =
      if k.str = x.str then none else m.find? fun p => strOps.compareKeys p.1 x := by
  by_cases h : k.str = x.str
  · rw [if_pos h, List.find?_eq_none]
    intro p hp hc
    rw [List.mem_filter] at hp
    rw [cmp_iff] at hc
    have := hp.2
    simp only [Bool.not_eq_true', ← Bool.not_eq_true, cmp_iff] at this
    exact this (hc.trans h.symm)
  · rw [if_neg h, List.find?_filter]
    congr 1
    funext p
    cases hc : strOps.compareKeys p.1 x with
    | false => simp
    | true =>
      rw [cmp_iff] at hc
      have : strOps.compareKeys p.1 k = false := by
        rw [← Bool.not_eq_true, cmp_iff, hc]
        exact Ne.symm h
      simp [this]

theorem tracks_delete {macros : Node StrPtr V} {value} (h : Tracks macros value) (k : StrPtr) :
    match HashTree.delete strOps k macros with
    | .ok (macros', _) => (value k.str).isSome ∧
        Tracks macros' (fun s => if k.str = s then none else value s)
    | .error e => e = .notFound ∧ value k.str = none := by
  obtain ⟨m, hr, hv⟩ := h
  have h2 := HashTree.step_refines str_lawful hr (.delete k)
  simp only [HashTree.implStep, HashTree.specStep] at h2
  have hk := hv k
  cases hd : HashTree.delete strOps k macros with
  | error e =>
    rw [hd] at h2
    cases hf : m.find? (fun p => strOps.compareKeys p.1 k) with
    | some p => rw [hf] at h2; simp at h2
    | none =>
      rw [hf] at h2 hk
      simp only [HashTree.Reply.error.injEq] at h2
      exact ⟨h2.2, by simpa using hk.symm⟩
  | ok r =>
    obtain ⟨macros', e⟩ := r
    rw [hd] at h2
    cases hf : m.find? (fun p => strOps.compareKeys p.1 k) with
    | none => rw [hf] at h2; simp at h2
    | some p =>
      rw [hf] at h2 hk
      refine ⟨by rw [← hk]; rfl, _, h2.1, fun x => ?_⟩
      rw [find_filter]
      by_cases hx : k.str = x.str
      · simp [hx]
      · simp only [hx, if_false]
        exact hv x

theorem tracks_insert {macros : Node StrPtr V} {value} (h : Tracks macros value) (k : StrPtr)
    (v : V) (hn : value k.str = none) :
    ∃ macros', HashTree.insert strOps true k v macros = .ok macros' ∧
      Tracks macros' (fun s => if k.str = s then some v else value s) := by
  obtain ⟨m, hr, hv⟩ := h
  have h2 := HashTree.step_refines str_lawful hr (.insert k v)
  have hk := hv k
  rw [hn, Option.map_eq_none_iff] at hk
  have hany : (m.any fun p => strOps.compareKeys p.1 k) = false := by
    rw [List.any_eq_false]
    intro p hp
    exact List.find?_eq_none.1 hk p hp
  simp only [HashTree.implStep, HashTree.specStep, hany, Bool.false_eq_true, if_false] at h2
  cases hi : HashTree.insert strOps true k v macros with
  | error e => rw [hi] at h2; simp at h2
  | ok macros' =>
    rw [hi] at h2
    refine ⟨macros', rfl, _, h2.1, fun x => ?_⟩
    rw [List.find?_cons]
    by_cases hx : k.str = x.str
    · rw [(cmp_iff k x).2 hx]; simp [hx]
    · have : strOps.compareKeys k x = false := by
        rw [← Bool.not_eq_true, cmp_iff]; exact hx
      rw [this]
      simp only [hx, if_false]
      exact hv x

theorem tracks_has {macros : Node StrPtr V} {value} (h : Tracks macros value) (k : StrPtr) :
    HashTree.has strOps k macros = (value k.str).isSome := by
  have := tracks_at h k
  rw [HashTree.has]
  rw [HashTree.at'] at this
  cases hf : HashTree.nodeFind strOps (strOps.hash k) k macros with
  | none =>
    rw [hf] at this
    cases hv : value k.str with
    | none => rfl
    | some v => rw [hv] at this; simp at this
  | some e =>
    rw [hf] at this
    cases hv : value k.str with
    | none => rw [hv] at this; simp at this
    | some v => rfl

theorem tracks_directive {macros : Node StrPtr V} {value} (h : Tracks macros value)
    (d : Directive V) : ∃ macros', directive macros d = .ok macros' ∧
      Tracks macros' (fun s => match lastAbout s [d] with | some r => r | none => value s) := by
  cases d with
  | define n v =>
    rw [directive, scopeInsert]
    cases hh : HashTree.has strOps n macros with
    | true =>
      rw [if_pos rfl]
      have hd := tracks_delete h n
      cases hdel : HashTree.delete strOps n macros with
      | error e =>
        rw [hdel] at hd
        rw [tracks_has h, hd.2] at hh
        simp at hh
      | ok r =>
        obtain ⟨m', e⟩ := r
        rw [hdel] at hd
        obtain ⟨m'', h1, h2⟩ := tracks_insert hd.2 n v (by simp)
        refine ⟨m'', h1, ?_⟩
        rw [show (fun s => match lastAbout s [Directive.define n v] with
          | some r => r | none => value s) = (fun s => if n.str = s then some v else
            if n.str = s then none else value s) from by
          funext s
          by_cases hs : n.str = s <;> simp [lastAbout, hs]]
        exact h2
    | false =>
      rw [if_neg (by simp)]
      rw [tracks_has h] at hh
      obtain ⟨m'', h1, h2⟩ := tracks_insert h n v (by simpa using hh)
      refine ⟨m'', h1, ?_⟩
      rw [show (fun s => match lastAbout s [Directive.define n v] with
        | some r => r | none => value s) = (fun s => if n.str = s then some v else value s) from by
        funext s
        by_cases hs : n.str = s <;> simp [lastAbout, hs]]
      exact h2
  | undef n =>
    rw [directive, scopeRemove]
    have hd := tracks_delete h n
    cases hdel : HashTree.delete strOps n macros with
    | error e =>
      rw [hdel] at hd
      obtain ⟨rfl, hv⟩ := hd
      refine ⟨macros, rfl, ?_⟩
      rw [show (fun s => match lastAbout s [Directive.undef (V := V) n] with
        | some r => r | none => value s) = value from by
        funext s
        by_cases hs : n.str = s
        · subst hs; simp [lastAbout, hv]
        · simp [lastAbout, hs]]
      exact h
    | ok r =>
      obtain ⟨m', e⟩ := r
      rw [hdel] at hd
      refine ⟨m', rfl, ?_⟩
      rw [show (fun s => match lastAbout s [Directive.undef (V := V) n] with
        | some r => r | none => value s) = (fun s => if n.str = s then none else value s) from by
        funext s
        by_cases hs : n.str = s <;> simp [lastAbout, hs]]
      exact hd.2

theorem tracks_directives : ∀ (ds : List (Directive V)) {macros : Node StrPtr V} {value},
    Tracks macros value → ∃ macros', directives macros ds = .ok macros' ∧
      Tracks macros' (fun s => match lastAbout s ds with | some r => r | none => value s)
  | [], macros, value, h => ⟨macros, rfl, h⟩
  | d :: ds, macros, value, h => by
    obtain ⟨m1, h1, h2⟩ := tracks_directive h d
    obtain ⟨m2, h3, h4⟩ := tracks_directives ds h2
    refine ⟨m2, by rw [directives, h1]; exact h3, ?_⟩
    refine h4.congr fun s => ?_
    cases d with
    | define n v => cases hl : lastAbout s ds <;> simp [lastAbout, hl]
    | undef n => cases hl : lastAbout s ds <;> simp [lastAbout, hl]

/-- **C31.**  Every sequence of `#define` and `#undef` directives succeeds, and afterwards a name is
looked up as its last directive says: with that definition if it was a `#define`; otherwise (`#undef`
or no directive) the name is looked up in the enclosing scopes, if there are any, and then among the
predefined macros, as if there had been no directive. -/
theorem C31_last_directive_wins (ds : List (Directive V)) (parents : List (Node StrPtr V))
    (predefined : Node StrPtr V) (name : StrPtr) :
    ∃ macros, directives .nil ds = .ok macros ∧
      locate macros parents predefined name =
        match lastAbout name.str ds with
        | some (some d) => .ok d
        | _ => locate .nil parents predefined name := by
  have h0 : Tracks (V := V) .nil (fun _ => none) := ⟨[], HashTree.Rel.empty, fun _ => rfl⟩
  obtain ⟨macros, h1, h2⟩ := tracks_directives ds h0
  refine ⟨macros, h1, ?_⟩
  have ha := tracks_at h2 name
  have hnil : HashTree.at' strOps name (.nil : Node StrPtr V) = .error .notFound := rfl
  cases hl : lastAbout name.str ds with
  | none =>
    simp only [hl] at ha
    simp only [locate]
    rw [scopeAt.eq_def, scopeAt.eq_def, ha, hnil]
  | some r =>
    cases r with
    | none =>
      simp only [hl] at ha
      simp only [locate]
      rw [scopeAt.eq_def, scopeAt.eq_def, ha, hnil]
    | some d =>
      simp only [hl] at ha
      obtain ⟨e, h3, h4⟩ := ha
      simp only [locate]
      rw [scopeAt.eq_def, h3, ← h4]

/-- **C31**, nested scopes: if a name is not defined in the inner scope (its last directive there was not a
`#define`), the last directive of the enclosing scope decides, and so on outwards; the predefined macros come
last. -/
theorem C31_enclosing_scope (inner outer : List (Directive V)) (parents : List (Node StrPtr V))
    (predefined : Node StrPtr V) (name : StrPtr) :
    ∃ mi mo, directives .nil inner = .ok mi ∧ directives .nil outer = .ok mo ∧
      locate mi (mo :: parents) predefined name =
        match lastAbout name.str inner with
        | some (some d) => .ok d
        | _ => locate mo parents predefined name := by
  obtain ⟨mi, h1, h2⟩ := C31_last_directive_wins inner [] predefined name
  obtain ⟨mo, h3, _⟩ := C31_last_directive_wins outer parents predefined name
  obtain ⟨mi', h1', h5⟩ := C31_last_directive_wins inner (mo :: parents) predefined name
  cases h1.symm.trans h1'
  refine ⟨mi, mo, h1, h3, ?_⟩
  rw [h5]
  have : locate .nil (mo :: parents) predefined name = locate mo parents predefined name := by
    simp only [locate]
    rw [scopeAt.eq_def]
    rfl
  rw [this]

/-- The inner scope defines `A`, the outer one `A` and `B`. -/
example :
    (match directives .nil [Directive.define ⟨0, [65]⟩ 1], directives .nil [Directive.define ⟨1, [65]⟩ 2, .define ⟨2, [66]⟩ 3] with
    | .ok mi, .ok mo => ((locate mi [mo] .nil ⟨4, [65]⟩).toOption, (locate mi [mo] .nil ⟨5, [66]⟩).toOption)
    | _, _ => (none, none)) = (some 1, some 3) := by
  decide +kernel

/-- **C31**, as the preprocessor uses it (no enclosing scope): a name that is not predefined is a
macro exactly when its last directive was a `#define`, and then it has that definition. -/
theorem C31_is_macro (ds : List (Directive V)) (predefined : Node StrPtr V) (name : StrPtr)
    (hp : locatePredefined predefined name = .error .notFound) :
    ∃ macros, directives .nil ds = .ok macros ∧
      ∀ d, locate macros [] predefined name = .ok d ↔ lastAbout name.str ds = some (some d) := by
  obtain ⟨macros, h1, h2⟩ := C31_last_directive_wins ds [] predefined name
  refine ⟨macros, h1, fun d => ?_⟩
  have hnil : locate (.nil : Node StrPtr V) [] predefined name = .error .notFound := by
    simp only [locate]
    rw [scopeAt.eq_def]
    exact hp
  rw [h2, hnil]
  split
  · rename_i x hx; simp [hx]
  · rename_i hx
    constructor
    · intro h; cases h
    · intro h; exact absurd h (hx d)

/-- The hypothesis of `C31_is_macro` is met; redefinition and removal behave as stated. -/
example :
    locatePredefined (.nil : Node StrPtr Nat) ⟨0, [65]⟩ = .error .notFound ∧
    lastAbout [65] [Directive.define ⟨0, [65]⟩ 1, .define ⟨1, [66]⟩ 2, .define ⟨7, [65]⟩ 3,
      .undef ⟨5, [66]⟩] = some (some 3) ∧
    lastAbout [66] [Directive.define ⟨0, [65]⟩ 1, .define ⟨1, [66]⟩ 2, .define ⟨7, [65]⟩ 3,
      .undef ⟨5, [66]⟩] = some none := ⟨rfl, by decide, by decide⟩

end Kefir.Preproc
