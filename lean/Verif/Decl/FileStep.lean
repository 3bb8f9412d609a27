import Verif.Decl.FileDecl

/-!
# Declarations at file scope: `context_define_identifier` of the global context
-/

namespace Kefir.Decl

open Model (Entry Class Global at?)

variable {N T : Type} [DecidableEq N]

/-- The linkage that `extern` gives: 6.2.2p4. -/
def asExtern (visible : Option (Ref T)) : Linkage :=
  match visible with
  | some r => if r.linkage = .none then .external else r.linkage
  | none => .external

theorem asExtern_ne (v : Option (Ref T)) : asExtern v ≠ .none := by
  unfold asExtern
  split
  · split <;> simp_all
  · simp

theorem linkageOf_eq (ty : Types T) (file : Bool) (v : Option (Ref T)) (d : Declaration N T) :
    linkageOf ty file v d =
      if d.storage = .typedef then .none
      else if ty.isFunction d.type then (if d.storage.isStatic then .internal else asExtern v)
      else if d.storage.isExtern then asExtern v
      else if file then (if d.storage.isStatic then .internal else .external)
      else .none := rfl

section
variable {s : State N T}

theorem declare_bad (ty : Types T) (defines : Bool) (d : Declaration N T)
    (h : specifiersOk ty s.fileScope d = false) : declare ty defines s d = .reject := by
  unfold declare; rw [h]; rfl

theorem declare_unlinked (ty : Types T) (defines : Bool) (d : Declaration N T)
    (h : specifiersOk ty s.fileScope d = true)
    (hl : linkageOf ty s.fileScope (s.visible d.name) d = .none) :
    declare ty defines s d = declareUnlinked ty s.fileScope s d := by
  unfold declare; rw [h, hl]; rfl

theorem declare_linked (ty : Types T) (defines : Bool) (d : Declaration N T) {l : Linkage}
    (h : specifiersOk ty s.fileScope d = true)
    (hl : linkageOf ty s.fileScope (s.visible d.name) d = l) (hl0 : l ≠ .none) :
    declare ty defines s d = declareLinked ty s.fileScope defines l s d := by
  unfold declare; rw [h, hl]
  cases l with
  | none => exact absurd rfl hl0
  | internal => rfl
  | external => rfl
end

section
variable {strict : Bool} {g : Global N T} {s : State N T} {sc : List (N × Ref T)}

theorem asExtern_new (h : Inv strict g [g.ordinary] s) (hs : s.scopes = [sc]) {n : N}
    (hn : lookup s.linked n = none) : asExtern (s.visible n) = .external := by
  rw [visible_eq hs]
  cases hb : lookup sc n with
  | none => rfl
  | some b =>
    unfold asExtern
    by_cases hl : b.linkage = .none
    · simp [hl]
    · obtain ⟨e, he, _⟩ := h.boundHere hs hb hl
      rw [hn] at he; cases he

/-- The conditions of `coveredDecl` that matter at file scope. -/
structure FileCovered (ty : Types T) (s : State N T) (d : Declaration N T) : Prop where
  type : d.storage = .typedef → (ty.isFunction d.type = true ∨ d.init = none) ∧
    ∀ i old, s.here d.name = some (.typedefName i old) →
      ty.compatible old d.type = (ty.same old d.type && !ty.variablyModified d.type)
  init : d.storage ≠ .typedef → ty.isFunction d.type = false → d.init.isSome = true →
    ∀ e, lookup s.linked d.name = some e →
      (d.storage.isExtern = true → e.linkage ≠ .internal) ∧
      complete d.init d.type = complete d.init (ty.composite e.type d.type)

theorem fileCovered [DecidableEq T] {ty : Types T} {d : Declaration N T} (hs : s.fileScope = true)
    (h : coveredDecl strict ty s d = true) : FileCovered ty s d := by
  unfold coveredDecl at h
  constructor
  · intro hst
    simp only [hst, if_true, Bool.and_eq_true] at h
    refine ⟨?_, ?_⟩
    · have := h.2.1
      simp at this; exact this
    · intro i old ho
      have := h.2.2
      rw [ho] at this
      simpa using this
  · intro hst hf hi e he
    have hl : linkageOf ty s.fileScope (s.visible d.name) d ≠ .none := by
      rw [linkageOf_eq, if_neg hst, hf, if_neg (by simp), hs]
      split
      · exact asExtern_ne _
      · rw [if_pos rfl]; split <;> simp
    have hi' : d.init.isNone = false := by cases hx : d.init <;> simp_all
    simp only [hst, if_false, hf, Bool.false_eq_true, hl, Bool.and_eq_true, hi', Bool.false_or, he] at h
    have h2 := h.2.2
    simp only [Bool.not_eq_true', Bool.and_eq_false_iff, beq_eq_false_iff_ne, decide_eq_true_eq] at h2
    refine ⟨fun hx => ?_, h2.2⟩
    rcases h2.1 with h3 | h3
    · rw [hx] at h3; cases h3
    · exact h3

theorem sim_fileDeclare (h : Inv strict g [g.ordinary] s) (hs : s.scopes = [sc]) (ty : Types T)
    (defines : Bool) (d : Declaration N T)
    (hdef : defines = true → ty.isFunction d.type = true ∧ d.init = none ∧ d.storage ≠ .typedef)
    (hcov : FileCovered ty s d) :
    SimG strict g (declare ty defines s d) (g.defineIdentifier ty (d.init.isNone && !defines) d) := by
  have hfile := fileScope_eq hs
  have bad : specifiersOk ty true d = false → g.defineIdentifier ty (d.init.isNone && !defines) d = none →
      SimG strict g (declare ty defines s d) (g.defineIdentifier ty (d.init.isNone && !defines) d) := by
    intro h1 h2
    rw [declare_bad ty defines d (by rw [hfile]; exact h1), h2]; rfl
  have lnk : ∀ l, specifiersOk ty true d = true → linkageOf ty true (s.visible d.name) d = l → l ≠ .none →
      declare ty defines s d = declareLinked ty true defines l s d := by
    intro l h1 h2 h3
    have := declare_linked (s := s) ty defines d (l := l) (by rw [hfile]; exact h1) (by rw [hfile]; exact h2) h3
    rw [hfile] at this; exact this
  have hnew : lookup s.linked d.name = none → asExtern (s.visible d.name) = .external := asExtern_new h hs
  cases hf : ty.isFunction d.type with
  | true =>
    cases ha : d.aligned with
    | true =>
      refine bad ?_ ?_
      · unfold specifiersOk; rw [hf, ha]; rfl
      · unfold Global.defineIdentifier; rw [hf, ha]; rfl
    | false =>
    cases hi : d.init with
    | some f =>
      rw [← hi]
      refine bad ?_ ?_
      · unfold specifiersOk; rw [hf, ha, hi]; rfl
      · unfold Global.defineIdentifier; rw [hf, ha, hi]; rfl
    | none =>
    rw [← hi]
    cases hst : d.storage with
    | typedef =>
      have hd : defines = false := by
        cases hd : defines with
        | false => rfl
        | true => exact absurd hst (hdef hd).2.2
      subst hd
      cases hin : (d.inline || d.noreturn) with
      | true =>
        refine bad ?_ ?_
        · unfold specifiersOk; rw [hf, ha, hi, hst, hin]; rfl
        · unfold Global.defineIdentifier; rw [hf, ha, hi, hst, hin]; rfl
      | false =>
        have h1 : specifiersOk ty true d = true := by unfold specifiersOk; rw [hf, ha, hi, hst, hin]; rfl
        have h2 : linkageOf ty true (s.visible d.name) d = .none := by rw [linkageOf_eq, if_pos hst]
        rw [declare_unlinked ty false d (by rw [hfile]; exact h1) (by rw [hfile]; exact h2), hfile]
        have h3 : g.defineIdentifier ty (d.init.isNone && !false) d = g.defineType ty d.name d.type := by
          unfold Global.defineIdentifier; rw [hf, ha, hi, hst, hin]; rfl
        rw [h3]
        refine sim_defineType h hs ty d hst (fun i old ho => (hcov.type hst).2 i old ?_)
        rw [here_eq hs]; exact ho
    | none =>
      have h1 : specifiersOk ty true d = true := by unfold specifiersOk; rw [hf, ha, hi, hst]; rfl
      have h2 : linkageOf ty true (s.visible d.name) d = asExtern (s.visible d.name) := by
        rw [linkageOf_eq, hst, hf]; rfl
      rw [lnk _ h1 h2 (asExtern_ne _)]
      cases defines with
      | false =>
        have h3 : g.defineIdentifier ty (d.init.isNone && !false) d = g.declareFunction ty d.name d.type := by
          unfold Global.defineIdentifier; rw [hf, ha, hi, hst]; rfl
        rw [h3]; exact sim_declareFunction h hs ty _ d hf hi (by rw [hst]; rfl) (asExtern_ne _) hnew
      | true =>
        have h3 : g.defineIdentifier ty (d.init.isNone && !true) d = g.defineFunction ty d.name d.type := by
          unfold Global.defineIdentifier; rw [hf, ha, hi, hst]; rfl
        rw [h3]; exact sim_defineFunction h hs ty _ d hf hi (by rw [hst]; rfl) (asExtern_ne _) hnew
    | extern =>
      have h1 : specifiersOk ty true d = true := by unfold specifiersOk; rw [hf, ha, hi, hst]; rfl
      have h2 : linkageOf ty true (s.visible d.name) d = asExtern (s.visible d.name) := by
        rw [linkageOf_eq, hst, hf]; rfl
      rw [lnk _ h1 h2 (asExtern_ne _)]
      cases defines with
      | false =>
        have h3 : g.defineIdentifier ty (d.init.isNone && !false) d = g.declareFunction ty d.name d.type := by
          unfold Global.defineIdentifier; rw [hf, ha, hi, hst]; rfl
        rw [h3]; exact sim_declareFunction h hs ty _ d hf hi (by rw [hst]; rfl) (asExtern_ne _) hnew
      | true =>
        have h3 : g.defineIdentifier ty (d.init.isNone && !true) d = g.defineFunction ty d.name d.type := by
          unfold Global.defineIdentifier; rw [hf, ha, hi, hst]; rfl
        rw [h3]; exact sim_defineFunction h hs ty _ d hf hi (by rw [hst]; rfl) (asExtern_ne _) hnew
    | static =>
      have h1 : specifiersOk ty true d = true := by unfold specifiersOk; rw [hf, ha, hi, hst]; rfl
      have h2 : linkageOf ty true (s.visible d.name) d = .internal := by
        rw [linkageOf_eq, hst, hf]; rfl
      rw [lnk _ h1 h2 (by simp)]
      have h3 : g.defineIdentifier ty (d.init.isNone && !defines) d =
          g.defineStaticFunction ty (!defines) d.name d.type := by
        unfold Global.defineIdentifier; rw [hf, ha, hi, hst]; rfl
      rw [h3]; exact sim_defineStaticFunction h hs ty defines d hf hi (by rw [hst]; rfl)
    | threadLocal | externThread | staticThread | auto | register =>
      refine bad ?_ ?_
      · unfold specifiersOk; rw [hf, ha, hi, hst]; rfl
      · unfold Global.defineIdentifier; rw [hf, ha, hi, hst]; rfl
  | false =>
    have hd : defines = false := by
      cases hd : defines with
      | false => rfl
      | true => rw [(hdef hd).1] at hf; cases hf
    subst hd
    have hdi : (!((d.init.isNone && !false) || d.init.isSome)) = false := by cases d.init <;> rfl
    cases hin : (d.inline || d.noreturn) with
    | true =>
      refine bad ?_ ?_
      · unfold specifiersOk; rw [hf, hin]; rfl
      · unfold Global.defineIdentifier; rw [hf, hin]; rfl
    | false =>
    cases hst : d.storage with
    | typedef =>
      have hi : d.init = none := by
        rcases (hcov.type hst).1 with hx | hx
        · rw [hf] at hx; cases hx
        · exact hx
      cases ha : d.aligned with
      | true =>
        refine bad ?_ ?_
        · unfold specifiersOk; rw [hf, hin, hst, ha]; rfl
        · unfold Global.defineIdentifier; rw [hf, hin, hst, ha, hdi]; rfl
      | false =>
        have h1 : specifiersOk ty true d = true := by unfold specifiersOk; rw [hf, hin, hi, hst, ha]; rfl
        have h2 : linkageOf ty true (s.visible d.name) d = .none := by rw [linkageOf_eq, if_pos hst]
        rw [declare_unlinked ty false d (by rw [hfile]; exact h1) (by rw [hfile]; exact h2), hfile]
        have h3 : g.defineIdentifier ty (d.init.isNone && !false) d = g.defineType ty d.name d.type := by
          unfold Global.defineIdentifier; rw [hf, hin, hst, ha, hdi]; rfl
        rw [h3]
        refine sim_defineType h hs ty d hst (fun i old ho => (hcov.type hst).2 i old ?_)
        rw [here_eq hs]; exact ho
    | auto | register =>
      refine bad ?_ ?_
      · unfold specifiersOk; rw [hf, hin, hst]; rfl
      · unfold Global.defineIdentifier; rw [hf, hin, hst, hdi]; rfl
    | none =>
      have hst' : d.storage ≠ .typedef := by rw [hst]; simp
      have h1 : specifiersOk ty true d = true := by unfold specifiersOk; rw [hf, hin, hst]; rfl
      have h2 : linkageOf ty true (s.visible d.name) d = .external := by rw [linkageOf_eq, hst, hf]; rfl
      rw [lnk _ h1 h2 (by simp)]
      have h3 : g.defineIdentifier ty (d.init.isNone && !false) d =
          g.defineExternal ty (storageFor .external d.storage.thread) d.name d.type d.init := by
        unfold Global.defineIdentifier; rw [hf, hin, hst, hdi]; rfl
      rw [h3]
      exact sim_defineExternal h hs ty _ d hf (fun _ => by rw [hst]; rfl) (by simp) (fun _ => rfl) (fun _ _ _ => rfl)
        (fun e he hi => (hcov.init hst' hf hi e he).2)
    | threadLocal =>
      have hst' : d.storage ≠ .typedef := by rw [hst]; simp
      have h1 : specifiersOk ty true d = true := by unfold specifiersOk; rw [hf, hin, hst]; rfl
      have h2 : linkageOf ty true (s.visible d.name) d = .external := by rw [linkageOf_eq, hst, hf]; rfl
      rw [lnk _ h1 h2 (by simp)]
      have h3 : g.defineIdentifier ty (d.init.isNone && !false) d =
          g.defineExternal ty (storageFor .external d.storage.thread) d.name d.type d.init := by
        unfold Global.defineIdentifier; rw [hf, hin, hst, hdi]; rfl
      rw [h3]
      exact sim_defineExternal h hs ty _ d hf (fun _ => by rw [hst]; rfl) (by simp) (fun _ => rfl) (fun _ _ _ => rfl)
        (fun e he hi => (hcov.init hst' hf hi e he).2)
    | static =>
      have hst' : d.storage ≠ .typedef := by rw [hst]; simp
      have h1 : specifiersOk ty true d = true := by unfold specifiersOk; rw [hf, hin, hst]; rfl
      have h2 : linkageOf ty true (s.visible d.name) d = .internal := by rw [linkageOf_eq, hst, hf]; rfl
      rw [lnk _ h1 h2 (by simp)]
      have h3 : g.defineIdentifier ty (d.init.isNone && !false) d =
          g.defineStatic ty (storageFor .internal d.storage.thread) d.name d.type d.init := by
        unfold Global.defineIdentifier; rw [hf, hin, hst, hdi]; rfl
      rw [h3]
      exact sim_defineStatic h hs ty d hf (by rw [hst]; rfl) (fun e he hi => (hcov.init hst' hf hi e he).2)
    | staticThread =>
      have hst' : d.storage ≠ .typedef := by rw [hst]; simp
      have h1 : specifiersOk ty true d = true := by unfold specifiersOk; rw [hf, hin, hst]; rfl
      have h2 : linkageOf ty true (s.visible d.name) d = .internal := by rw [linkageOf_eq, hst, hf]; rfl
      rw [lnk _ h1 h2 (by simp)]
      have h3 : g.defineIdentifier ty (d.init.isNone && !false) d =
          g.defineStatic ty (storageFor .internal d.storage.thread) d.name d.type d.init := by
        unfold Global.defineIdentifier; rw [hf, hin, hst, hdi]; rfl
      rw [h3]
      exact sim_defineStatic h hs ty d hf (by rw [hst]; rfl) (fun e he hi => (hcov.init hst' hf hi e he).2)
    | extern =>
      have hst' : d.storage ≠ .typedef := by rw [hst]; simp
      have h1 : specifiersOk ty true d = true := by unfold specifiersOk; rw [hf, hin, hst]; rfl
      have h2 : linkageOf ty true (s.visible d.name) d = asExtern (s.visible d.name) := by
        rw [linkageOf_eq, hst, hf]; rfl
      rw [lnk _ h1 h2 (asExtern_ne _)]
      cases hi : d.init with
      | none =>
        rw [← hi]
        have h3 : g.defineIdentifier ty (d.init.isNone && !false) d =
            g.declareExternal ty (storageFor .external d.storage.thread) (storageFor .internal d.storage.thread)
              d.name d.type := by
          unfold Global.defineIdentifier; rw [hf, hin, hst, hi]; rfl
        rw [h3]
        exact sim_declareExternal h hs ty _ d hf hi (by rw [hst]; rfl) (asExtern_ne _) hnew
      | some f =>
        have his : d.init.isSome = true := by rw [hi]; rfl
        rw [← hi]
        have h3 : g.defineIdentifier ty (d.init.isNone && !false) d =
            g.defineExternal ty (storageFor .external d.storage.thread) d.name d.type d.init := by
          unfold Global.defineIdentifier; rw [hf, hin, hst, hi]; rfl
        rw [h3]
        refine sim_defineExternal h hs ty _ d hf (fun hx => by rw [hi] at hx; cases hx) (asExtern_ne _) hnew ?_
          (fun e he hi => (hcov.init hst' hf hi e he).2)
        intro e he hel
        have := (hcov.init hst' hf his e he).1 (by rw [hst]; rfl)
        have hr := (h.real _ _ he).1
        rw [← hel]
        cases hx : e.linkage <;> simp_all
    | externThread =>
      have hst' : d.storage ≠ .typedef := by rw [hst]; simp
      have h1 : specifiersOk ty true d = true := by unfold specifiersOk; rw [hf, hin, hst]; rfl
      have h2 : linkageOf ty true (s.visible d.name) d = asExtern (s.visible d.name) := by
        rw [linkageOf_eq, hst, hf]; rfl
      rw [lnk _ h1 h2 (asExtern_ne _)]
      cases hi : d.init with
      | none =>
        rw [← hi]
        have h3 : g.defineIdentifier ty (d.init.isNone && !false) d =
            g.declareExternal ty (storageFor .external d.storage.thread) (storageFor .internal d.storage.thread)
              d.name d.type := by
          unfold Global.defineIdentifier; rw [hf, hin, hst, hi]; rfl
        rw [h3]
        exact sim_declareExternal h hs ty _ d hf hi (by rw [hst]; rfl) (asExtern_ne _) hnew
      | some f =>
        have his : d.init.isSome = true := by rw [hi]; rfl
        rw [← hi]
        have h3 : g.defineIdentifier ty (d.init.isNone && !false) d =
            g.defineExternal ty (storageFor .external d.storage.thread) d.name d.type d.init := by
          unfold Global.defineIdentifier; rw [hf, hin, hst, hi]; rfl
        rw [h3]
        refine sim_defineExternal h hs ty _ d hf (fun hx => by rw [hi] at hx; cases hx) (asExtern_ne _) hnew ?_
          (fun e he hi => (hcov.init hst' hf hi e he).2)
        intro e he hel
        have := (hcov.init hst' hf his e he).1 (by rw [hst]; rfl)
        have hr := (h.real _ _ he).1
        rw [← hel]
        cases hx : e.linkage <;> simp_all

end

end Kefir.Decl
