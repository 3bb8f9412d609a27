import Verif.Preproc.GroupProps
import Verif.Include.Model

/-! # Inclusion: the result of a file is what its events print -/

namespace Kefir.Include
open Kefir.Preproc Kefir.Preproc.Group
open Kefir.Preproc.Group.Spec (Event Prints select selectPart selectTail)

variable {E C α F : Type}

section
variable (k : (E → Res Request) → E → Res (E × List α))

mutual
/-- The group with `#include` carried out by a function. -/
def plainPart : Part E C α → Group.Spec.Part E C α
  | .text t => .text t
  | .effect f => .effect f
  | .check f => .check f
  | .incl r => .effect (k r)
  | .section c g tail => .section c (plain g) (plainTail tail)
def plain : Parts E C α → Group.Spec.Parts E C α
  | .nil => .nil
  | .cons p ps => .cons (plainPart p) (plain ps)
def plainTail : Tail E C α → Group.Spec.Tail E C α
  | .endif => .endif
  | .els g => .els (plain g)
  | .elif c g t => .elif c (plain g) (plainTail t)
end

mutual
theorem lines_part : (p : Part E C α) → (linesPart p).map (toLine k) = Group.linesPart (plainPart k p)
  | .text t => by simp only [linesPart, plainPart, Group.linesPart, List.map_cons, List.map_nil, toLine]
  | .effect f => by simp only [linesPart, plainPart, Group.linesPart, List.map_cons, List.map_nil, toLine]
  | .check f => by simp only [linesPart, plainPart, Group.linesPart, List.map_cons, List.map_nil, toLine]
  | .incl r => by simp only [linesPart, plainPart, Group.linesPart, List.map_cons, List.map_nil, toLine]
  | .section c g tail => by
    simp only [linesPart, plainPart, Group.linesPart, List.map_cons, List.map_append, toLine, lines_parts g,
      lines_tail tail]
    cases c <;> rfl
theorem lines_parts : (g : Parts E C α) → (lines g).map (toLine k) = Group.lines (plain k g)
  | .nil => by simp only [lines, plain, Group.lines, List.map_nil]
  | .cons p ps => by simp only [lines, plain, Group.lines, List.map_append, lines_part p, lines_parts ps]
theorem lines_tail : (t : Tail E C α) → (linesTail t).map (toLine k) = Group.linesTail (plainTail k t)
  | .endif => by simp only [linesTail, plainTail, Group.linesTail, List.map_cons, List.map_nil, toLine]
  | .els g => by
    simp only [linesTail, plainTail, Group.linesTail, List.map_cons, List.map_append, List.map_nil, toLine, lines_parts g]
  | .elif c g t => by
    simp only [linesTail, plainTail, Group.linesTail, List.map_cons, List.map_append, toLine, lines_parts g, lines_tail t]
end
end

/-! ### Events -/

variable {ops : Ops E C α}

theorem prints_append {a b : List (Event E α)} {x y : List α} (h : Prints ops a x) (h' : Prints ops b y) :
    Prints ops (a ++ b) (x ++ y) := by
  induction h with
  | nil => exact h'
  | texts ts ho _ ih => rw [List.append_assoc, List.append_assoc]; exact .texts ts ho ih
  | done _ ih => rw [List.append_assoc]; exact .done ih

/-- The second list has, in place of finished tokens, events that print them. -/
inductive Refines (ops : Ops E C α) : List (Event E α) → List (Event E α) → Prop
  | nil : Refines ops [] []
  | text {env : E} {t : List α} {a b : List (Event E α)} : Refines ops a b → Refines ops (.text env t :: a) (.text env t :: b)
  | done {t : List α} {ev a b : List (Event E α)} : Prints ops ev t → Refines ops a b → Refines ops (.done t :: a) (ev ++ b)

theorem Refines.append {a b c d : List (Event E α)} (h : Refines ops a b) (h' : Refines ops c d) :
    Refines ops (a ++ c) (b ++ d) := by
  induction h with
  | nil => exact h'
  | text _ ih => exact .text ih
  | done hp _ ih => rw [List.append_assoc]; exact .done hp ih

theorem Refines.texts {env : E} : (ts : List (List α)) → {rest b : List (Event E α)} →
    Refines ops (ts.map (.text env) ++ rest) b → ∃ b', b = ts.map (.text env) ++ b' ∧ Refines ops rest b'
  | [], rest, b, h => ⟨b, rfl, h⟩
  | t :: ts, rest, b, h => by
    cases h with
    | text h =>
      obtain ⟨b', rfl, h2⟩ := Refines.texts ts h
      exact ⟨b', rfl, h2⟩

theorem Refines.prints {a b : List (Event E α)} {out : List α} (hp : Prints ops a out) (h : Refines ops a b) :
    Prints ops b out := by
  induction hp generalizing b with
  | nil => cases h; exact .nil
  | texts ts ho _ ih =>
    obtain ⟨b', rfl, h2⟩ := Refines.texts ts h
    exact .texts ts ho (ih h2)
  | done _ ih =>
    cases h with
    | done he h2 => exact prints_append he (ih h2)

theorem refines_done (t : List α) : Refines ops [.done t] [.done t] := by
  have := Refines.done (ops := ops) (t := t) (ev := [.done t]) (a := []) (b := [])
    (by simpa using Prints.done (ops := ops) (t := t) .nil) .nil
  simpa using this

section
variable {k : (E → Res Request) → E → Res (E × List α)} {inc : E → Request → Res (E × List (Event E α))}

/-- What the compiler does for an `#include` follows the specification. -/
def Follows (ops : Ops E C α) (k : (E → Res Request) → E → Res (E × List α))
    (inc : E → Request → Res (E × List (Event E α))) : Prop :=
  ∀ request env env' t, k request env = .ok (env', t) →
    ∃ r ev, request env = .ok r ∧ inc env r = .ok (env', ev) ∧ Prints ops ev t

mutual
theorem select_part (hk : Follows ops k inc) : (p : Part E C α) → (env env' : E) → (ev : List (Event E α)) →
    selectPart ops env (plainPart k p) = .ok (env', ev) →
    ∃ ev', eventsPart ops inc env p = .ok (env', ev') ∧ Refines ops ev ev'
  | .text t, env, env', ev, h => by
    simp only [plainPart, selectPart] at h
    cases h
    exact ⟨_, by simp only [eventsPart], .text .nil⟩
  | .effect f, env, env', ev, h => by
    simp only [plainPart, selectPart] at h
    simp only [eventsPart]
    split at h
    · cases h
    · rename_i e t hf
      cases h
      rw [hf]
      exact ⟨_, rfl, refines_done t⟩
  | .check f, env, env', ev, h => by
    simp only [plainPart, selectPart] at h
    simp only [eventsPart]
    split at h
    · cases h
    · rename_i hf
      cases h
      rw [hf]
      exact ⟨_, rfl, .nil⟩
  | .incl r, env, env', ev, h => by
    simp only [plainPart, selectPart] at h
    split at h
    · cases h
    · rename_i e t hf
      cases h
      obtain ⟨rq, ev', h1, h2, h3⟩ := hk r env env' t hf
      refine ⟨ev', by simp only [eventsPart, h1, h2], ?_⟩
      simpa using Refines.done (ops := ops) h3 .nil
  | .section c g tail, env, env', ev, h => by
    simp only [plainPart, selectPart] at h
    simp only [eventsPart]
    split at h
    · cases h
    · rename_i hc
      rw [hc]
      exact select_parts hk g env env' ev h
    · rename_i hc
      rw [hc]
      exact select_tail hk tail env env' ev h
theorem select_parts (hk : Follows ops k inc) : (g : Parts E C α) → (env env' : E) → (ev : List (Event E α)) →
    select ops env (plain k g) = .ok (env', ev) →
    ∃ ev', events ops inc env g = .ok (env', ev') ∧ Refines ops ev ev'
  | .nil, env, env', ev, h => by
    simp only [plain, select] at h
    cases h
    exact ⟨[], by simp only [events], .nil⟩
  | .cons p ps, env, env', ev, h => by
    simp only [plain, select] at h
    split at h
    · cases h
    rename_i e1 ev1 h1
    split at h
    · cases h
    rename_i e2 ev2 h2
    cases h
    obtain ⟨a, ha, hra⟩ := select_part hk p env e1 ev1 h1
    obtain ⟨b, hb, hrb⟩ := select_parts hk ps e1 env' ev2 h2
    exact ⟨a ++ b, by simp only [events, ha, hb], hra.append hrb⟩
theorem select_tail (hk : Follows ops k inc) : (t : Tail E C α) → (env env' : E) → (ev : List (Event E α)) →
    selectTail ops env (plainTail k t) = .ok (env', ev) →
    ∃ ev', eventsTail ops inc env t = .ok (env', ev') ∧ Refines ops ev ev'
  | .endif, env, env', ev, h => by
    simp only [plainTail, selectTail] at h
    cases h
    exact ⟨[], by simp only [eventsTail], .nil⟩
  | .els g, env, env', ev, h => by
    simp only [plainTail, selectTail] at h
    simp only [eventsTail]
    exact select_parts hk g env env' ev h
  | .elif c g t, env, env', ev, h => by
    simp only [plainTail, selectTail] at h
    simp only [eventsTail]
    split at h
    · cases h
    · rename_i hc
      rw [hc]
      exact select_parts hk g env env' ev h
    · rename_i hc
      rw [hc]
      exact select_tail hk t env env' ev h
end

/-- What the specification gives for an `#include`, the compiler does too. -/
def Covers (k : (E → Res Request) → E → Res (E × List α))
    (inc : E → Request → Res (E × List (Event E α))) : Prop :=
  ∀ request env env' r ev, request env = .ok r → inc env r = .ok (env', ev) → ∃ t, k request env = .ok (env', t)

mutual
theorem covers_part (hk : Covers k inc) : (p : Part E C α) → (env env' : E) → (ev : List (Event E α)) →
    eventsPart ops inc env p = .ok (env', ev) →
    ∃ ev', selectPart ops env (plainPart k p) = .ok (env', ev')
  | .text t, env, env', ev, h => by
    simp only [eventsPart] at h
    cases h
    exact ⟨[.text env t], by simp only [plainPart, selectPart]⟩
  | .effect f, env, env', ev, h => by
    simp only [eventsPart] at h
    simp only [plainPart, selectPart]
    split at h
    · cases h
    · rename_i e t hf
      cases h
      rw [hf]
      exact ⟨_, rfl⟩
  | .check f, env, env', ev, h => by
    simp only [eventsPart] at h
    simp only [plainPart, selectPart]
    split at h
    · cases h
    · rename_i hf
      cases h
      rw [hf]
      exact ⟨_, rfl⟩
  | .incl r, env, env', ev, h => by
    simp only [eventsPart] at h
    split at h
    · cases h
    · rename_i rq hr
      obtain ⟨t, ht⟩ := hk r env env' rq ev hr h
      exact ⟨[.done t], by simp only [plainPart, selectPart, ht]⟩
  | .section c g tail, env, env', ev, h => by
    simp only [eventsPart] at h
    simp only [plainPart, selectPart]
    split at h
    · cases h
    · rename_i hc
      rw [hc]
      exact covers_parts hk g env env' ev h
    · rename_i hc
      rw [hc]
      exact covers_tail hk tail env env' ev h
theorem covers_parts (hk : Covers k inc) : (g : Parts E C α) → (env env' : E) → (ev : List (Event E α)) →
    events ops inc env g = .ok (env', ev) → ∃ ev', select ops env (plain k g) = .ok (env', ev')
  | .nil, env, env', ev, h => by
    simp only [events] at h
    cases h
    exact ⟨[], by simp only [plain, select]⟩
  | .cons p ps, env, env', ev, h => by
    simp only [events] at h
    split at h
    · cases h
    rename_i e1 ev1 h1
    split at h
    · cases h
    rename_i e2 ev2 h2
    cases h
    obtain ⟨a, ha⟩ := covers_part hk p env e1 ev1 h1
    obtain ⟨b, hb⟩ := covers_parts hk ps e1 env' ev2 h2
    exact ⟨a ++ b, by simp only [plain, select, ha, hb]⟩
theorem covers_tail (hk : Covers k inc) : (t : Tail E C α) → (env env' : E) → (ev : List (Event E α)) →
    eventsTail ops inc env t = .ok (env', ev) → ∃ ev', selectTail ops env (plainTail k t) = .ok (env', ev')
  | .endif, env, env', ev, h => by
    simp only [eventsTail] at h
    cases h
    exact ⟨[], by simp only [plainTail, selectTail]⟩
  | .els g, env, env', ev, h => by
    simp only [eventsTail] at h
    simp only [plainTail, selectTail]
    exact covers_parts hk g env env' ev h
  | .elif c g t, env, env', ev, h => by
    simp only [eventsTail] at h
    simp only [plainTail, selectTail]
    split at h
    · cases h
    · rename_i hc
      rw [hc]
      exact covers_parts hk g env env' ev h
    · rename_i hc
      rw [hc]
      exact covers_tail hk t env env' ev h
end
end

/-! ### Search -/

/-- A path that ends the search although no readable file is there. -/
def Blocks (fs : Files F) (p : Path) : Prop :=
  match fs.probe p with
  | .unresolvable | .directory => True
  | _ => False

theorem tryOpen_ok {fs : Files F} {p : Path} {r : Path × F} : tryOpenFile fs p = .ok r ↔ readable fs p = some r := by
  unfold tryOpenFile readable
  cases fs.probe p <;> simp

theorem tryOpen_notFound {fs : Files F} {p : Path} (h : tryOpenFile fs p = .error .notFound) : readable fs p = none := by
  unfold tryOpenFile at h
  unfold readable
  cases hp : fs.probe p <;> rw [hp] at h <;> first | rfl | (cases h)

theorem tryOpen_error {fs : Files F} {p : Path} (hb : ¬ Blocks fs p) (hr : readable fs p = none) :
    tryOpenFile fs p = .error .notFound := by
  unfold Blocks at hb
  unfold readable at hr
  unfold tryOpenFile
  cases hp : fs.probe p <;> simp_all

theorem openRoots_ok {fs : Files F} {name : Path} {r : Path × F} : (roots : List Path) →
    openRoots fs name roots = .ok r → (roots.map (fun d => join d name) ++ [name]).findSome? (readable fs) = some r
  | [], h => by
    rw [openRoots, tryOpen_ok] at h
    simp [h]
  | d :: ds, h => by
    rw [openRoots] at h
    split at h
    · rename_i hn
      have := tryOpen_notFound hn
      have ih := openRoots_ok ds h
      simp only [List.map_cons, List.cons_append, List.findSome?_cons, join, this]
      exact ih
    · rw [tryOpen_ok] at h
      simp only [List.map_cons, List.cons_append, List.findSome?_cons, join, h]

theorem openSource_ok {fs : Files F} {r : Request} {current : Option Path} {x : Path × F}
    (h : openSource fs r.name (!r.quoted) current = .ok x) : search fs current r = some x := by
  unfold openSource at h
  unfold search places
  split at h
  · exact openRoots_ok _ h
  · rename_i c
    cases hq : r.quoted
    · rw [hq] at h
      exact openRoots_ok _ h
    · rw [hq] at h
      simp only [Bool.not_true, Bool.not_false, if_true] at h
      simp only [if_true, List.cons_append, List.nil_append]
      split at h
      · rename_i hn
        rw [List.findSome?_cons, show join (fs.dirname c) r.name = fs.dirname c ++ 0x2f :: r.name from rfl,
          tryOpen_notFound hn]
        exact openRoots_ok _ h
      · rw [tryOpen_ok] at h
        rw [List.findSome?_cons, show join (fs.dirname c) r.name = fs.dirname c ++ 0x2f :: r.name from rfl, h]

theorem openRoots_some {fs : Files F} {name : Path} {r : Path × F} : (roots : List Path) →
    (∀ p ∈ roots.map (fun d => join d name) ++ [name], ¬ Blocks fs p) →
    (roots.map (fun d => join d name) ++ [name]).findSome? (readable fs) = some r →
    openRoots fs name roots = .ok r
  | [], hb, h => by
    rw [openRoots, tryOpen_ok]
    simpa using h
  | d :: ds, hb, h => by
    rw [openRoots]
    simp only [List.map_cons, List.cons_append, List.findSome?_cons] at h
    cases hr : readable fs (join d name) with
    | none =>
      rw [hr] at h
      rw [show d ++ 0x2f :: name = join d name from rfl, tryOpen_error (hb _ (List.mem_append_left _ List.mem_cons_self)) hr]
      exact openRoots_some ds (fun p hp => hb p (List.mem_cons_of_mem _ hp)) h
    | some x =>
      rw [hr] at h
      cases h
      rw [show d ++ 0x2f :: name = join d name from rfl, tryOpen_ok.mpr hr]

theorem openSource_some {fs : Files F} {r : Request} {current : Option Path} {x : Path × F}
    (hb : ∀ p ∈ places fs current r, ¬ Blocks fs p) (h : search fs current r = some x) :
    openSource fs r.name (!r.quoted) current = .ok x := by
  unfold search at h
  unfold places at h hb
  unfold openSource
  cases current with
  | none => exact openRoots_some _ hb h
  | some c =>
    cases hq : r.quoted
    · rw [hq] at h hb
      exact openRoots_some _ hb h
    · rw [hq] at h hb
      simp only [if_true, List.cons_append, List.nil_append, List.findSome?_cons] at h hb
      simp only [Bool.not_true, Bool.not_false, if_true]
      cases hr : readable fs (join (fs.dirname c) r.name) with
      | none =>
        rw [hr] at h
        rw [show fs.dirname c ++ 0x2f :: r.name = join (fs.dirname c) r.name from rfl,
          tryOpen_error (hb _ List.mem_cons_self) hr]
        exact openRoots_some _ (fun p hp => hb p (List.mem_cons_of_mem _ hp)) h
      | some y =>
        rw [hr] at h
        cases h
        rw [show fs.dirname c ++ 0x2f :: r.name = join (fs.dirname c) r.name from rfl, tryOpen_ok.mpr hr]

/-- Whatever the search answers, it is not a file when there is none. -/
theorem openSource_none {fs : Files F} {r : Request} {current : Option Path} (h : search fs current r = none) :
    ∃ e, openSource fs r.name (!r.quoted) current = .error e := by
  cases ho : openSource fs r.name (!r.quoted) current with
  | error e => exact ⟨e, rfl⟩
  | ok x => rw [openSource_ok ho] at h; cases h

/-! ### Files -/

/-- The files of the compiler hold the lines of the groups. -/
def asLines (fs : Files (Parts E C α)) : Files (List (ILine E C α)) where
  probe p :=
    match fs.probe p with
    | .absent => .absent
    | .unreadable => .unreadable
    | .unresolvable => .unresolvable
    | .directory => .directory
    | .file real g => .file real (lines g)
  dirname := fs.dirname
  roots := fs.roots

theorem readable_asLines (fs : Files (Parts E C α)) (p : Path) :
    readable (asLines fs) p = (readable fs p).map fun x => (x.1, lines x.2) := by
  unfold readable
  simp only [asLines]
  cases fs.probe p <;> rfl

theorem search_asLines (fs : Files (Parts E C α)) (current : Option Path) (r : Request) :
    search (asLines fs) current r = (search fs current r).map fun x => (x.1, lines x.2) := by
  have hp : places (asLines fs) current r = places fs current r := rfl
  unfold search
  rw [hp]
  induction places fs current r with
  | nil => rfl
  | cons p ps ih =>
    rw [List.findSome?_cons, List.findSome?_cons, readable_asLines]
    cases readable fs p with
    | none => exact ih
    | some x => rfl

theorem blocks_asLines {fs : Files (Parts E C α)} (h : ∀ p, ¬ Blocks fs p) : ∀ p, ¬ Blocks (asLines fs) p := by
  intro p hb
  apply h p
  unfold Blocks at hb ⊢
  simp only [asLines] at hb
  cases hp : fs.probe p <;> rw [hp] at hb <;> simp_all

theorem ofOut_ok {β : Type} {o : Out β} {b : β} (h : ofOut o = .ok b) : o = .ok b := by
  cases o <;> simp_all [ofOut]

theorem runFile_ok (ops : Ops E C α) (fs : Files (Parts E C α)) : (n : Nat) → (current : Option Path) →
    (g : Parts E C α) → (env env' : E) → (out : List α) →
    runFile ops (asLines fs) n current (lines g) env = .ok (env', out) →
    ∃ ev, eventsOf ops fs n current env g = .ok (env', ev) ∧ Prints ops ev out
  | 0, current, g, env, env', out, h => by
    rw [runFile] at h
    have h := ofOut_ok h
    rw [lines_parts] at h
    obtain ⟨ev, h1, h2⟩ := C32_selected ops _ env env' out h
    obtain ⟨ev', h3, h4⟩ := select_parts (inc := fun _ _ => .error .outOfSpace) (fun _ _ _ _ h => by cases h) g env env' ev h1
    exact ⟨ev', by rw [eventsOf]; exact h3, h4.prints h2⟩
  | n + 1, current, g, env, env', out, h => by
    rw [runFile] at h
    have h := ofOut_ok h
    rw [lines_parts] at h
    obtain ⟨ev, h1, h2⟩ := C32_selected ops _ env env' out h
    obtain ⟨ev', h3, h4⟩ := select_parts (inc := inclusion fs current (eventsOf ops fs n)) (fun request e e' t hk => by
        unfold processInclude at hk
        split at hk
        · cases hk
        rename_i rq hr
        split at hk
        · cases hk
        rename_i real content ho
        have hs := openSource_ok ho
        rw [search_asLines] at hs
        obtain ⟨⟨real', g'⟩, hs1, hs2⟩ := Option.map_eq_some_iff.mp hs
        cases hs2
        obtain ⟨ev2, h5, h6⟩ := runFile_ok ops fs n (some real') g' e e' t hk
        exact ⟨rq, ev2, hr, by simp only [inclusion, hs1, h5], h6⟩) g env env' ev h1
    exact ⟨ev', by rw [eventsOf]; exact h3, h4.prints h2⟩

theorem runFile_some (ops : Ops E C α) (fs : Files (Parts E C α)) (hb : ∀ p, ¬ Blocks fs p)
    (hx : ∀ e t, ∃ o, ops.expand e t = .ok o) : (n : Nat) → (current : Option Path) →
    (g : Parts E C α) → (env env' : E) → (ev : List (Event E α)) →
    eventsOf ops fs n current env g = .ok (env', ev) →
    ∃ out, runFile ops (asLines fs) n current (lines g) env = .ok (env', out)
  | 0, current, g, env, env', ev, h => by
    rw [eventsOf] at h
    obtain ⟨ev', h1⟩ := covers_parts (k := fun _ _ => .error .outOfSpace) (fun _ _ _ _ _ _ h => by cases h) g env env' ev h
    obtain ⟨out, h2, -⟩ := C32_accepted ops _ env env' ev' h1 hx
    exact ⟨out, by rw [runFile, lines_parts, h2]; rfl⟩
  | n + 1, current, g, env, env', ev, h => by
    rw [eventsOf] at h
    obtain ⟨ev', h1⟩ := covers_parts (k := processInclude (asLines fs) current (runFile ops (asLines fs) n)) (fun request e e' r ev2 hr hi => by
        unfold inclusion at hi
        split at hi
        · cases hi
        rename_i real content hs
        obtain ⟨t, ht⟩ := runFile_some ops fs hb hx n (some real) content e e' ev2 hi
        have ho := openSource_some (fs := asLines fs) (r := r) (current := current) (x := (real, lines content))
          (fun p _ => blocks_asLines hb p) (by rw [search_asLines, hs]; rfl)
        exact ⟨t, by simp only [processInclude, hr, ho, ht]⟩) g env env' ev h
    obtain ⟨out, h2, -⟩ := C32_accepted ops _ env env' ev' h1 hx
    exact ⟨out, by rw [runFile, lines_parts, h2]; rfl⟩

/-! ### Pasting -/

/-- A group followed by another. -/
def Parts.append : Parts E C α → Parts E C α → Parts E C α
  | .nil, h => h
  | .cons p ps, h => .cons p (ps.append h)

mutual
/-- No `#include`. -/
def plainGroupPart : Part E C α → Prop
  | .incl _ => False
  | .section _ g tail => plainGroup g ∧ plainGroupTail tail
  | _ => True
def plainGroup : Parts E C α → Prop
  | .nil => True
  | .cons p ps => plainGroupPart p ∧ plainGroup ps
def plainGroupTail : Tail E C α → Prop
  | .endif => True
  | .els g => plainGroup g
  | .elif _ g t => plainGroup g ∧ plainGroupTail t
end

section
variable {i j : E → Request → Res (E × List (Event E α))}

mutual
theorem plainGroup_part : (p : Part E C α) → (env : E) → plainGroupPart p →
    eventsPart ops i env p = eventsPart ops j env p
  | .text _, env, _ => by simp only [eventsPart]
  | .effect _, env, _ => by simp only [eventsPart]
  | .check _, env, _ => by simp only [eventsPart]
  | .incl _, _, h => by simp only [plainGroupPart] at h
  | .section c g tail, env, h => by
    simp only [plainGroupPart] at h
    simp only [eventsPart, plainGroup_parts g env h.1, plainGroup_tail tail env h.2]
theorem plainGroup_parts : (g : Parts E C α) → (env : E) → plainGroup g → events ops i env g = events ops j env g
  | .nil, env, _ => by simp only [events]
  | .cons p ps, env, h => by
    simp only [plainGroup] at h
    have ih := fun e => plainGroup_parts ps e h.2
    simp only [events, plainGroup_part p env h.1, ih]
theorem plainGroup_tail : (t : Tail E C α) → (env : E) → plainGroupTail t →
    eventsTail ops i env t = eventsTail ops j env t
  | .endif, env, _ => by simp only [eventsTail]
  | .els g, env, h => by
    simp only [plainGroupTail] at h
    simp only [eventsTail, plainGroup_parts g env h]
  | .elif c g t, env, h => by
    simp only [plainGroupTail] at h
    simp only [eventsTail, plainGroup_parts g env h.1, plainGroup_tail t env h.2]
end

theorem events_append (inc : E → Request → Res (E × List (Event E α))) : (g h : Parts E C α) → (env : E) →
    events ops inc env (g.append h) =
      match events ops inc env g with
      | .error e => .error e
      | .ok (env', ev) =>
        match events ops inc env' h with
        | .error e => .error e
        | .ok (env'', ev') => .ok (env'', ev ++ ev')
  | .nil, h, env => by
    simp only [Parts.append, events]
    cases events ops inc env h <;> rfl
  | .cons p ps, h, env => by
    simp only [Parts.append, events]
    cases eventsPart ops inc env p with
    | error e => rfl
    | ok x =>
      obtain ⟨e1, ev1⟩ := x
      simp only [events_append inc ps h e1]
      cases events ops inc e1 ps with
      | error e => rfl
      | ok y =>
        obtain ⟨e2, ev2⟩ := y
        simp only
        cases events ops inc e2 h with
        | error e => rfl
        | ok z => simp only [List.append_assoc]

theorem events_replace (inc : E → Request → Res (E × List (Event E α))) {p : Part E C α} {h : Parts E C α}
    (heq : ∀ env, eventsPart ops inc env p = events ops inc env h) (g g' : Parts E C α) (env : E) :
    events ops inc env (g.append (.cons p g')) = events ops inc env (g.append (h.append g')) := by
  rw [events_append, events_append]
  cases events ops inc env g with
  | error e => rfl
  | ok x =>
    obtain ⟨e1, ev1⟩ := x
    simp only [events_append, events, heq]
    try rfl
end

theorem prints_nil {out : List α} (h : Prints ops [] out) : out = [] := by
  generalize hn : ([] : List (Event E α)) = l at h
  induction h with
  | nil => rfl
  | @texts env ts o rest out' ho _ ih =>
    have h1 : ts = [] ∧ rest = [] := by
      have := hn.symm
      simp only [List.append_eq_nil_iff, List.map_eq_nil_iff] at this
      exact this
    obtain ⟨rfl, rfl⟩ := h1
    rw [ih rfl, List.append_nil]
    rw [List.flatten_nil, ops.expand_nil] at ho
    cases ho; rfl
  | done => cases hn

end Kefir.Include
