import Verif.Include.Lemmas

/-!
# C92: source file inclusion

`C92_included`: when the compiler accepts a file, the environment it ends with and the tokens it yields are those of the
events of the file, in which every `#include` stands for the events of the first readable file it names; the included
file sees the definitions made before it, and those it makes hold after it.
`C92_accepted_partial`: a file whose events the specification defines is accepted, when nothing on the search path is
unresolvable or a directory.
-/
namespace Kefir.Include
open Kefir.Preproc Kefir.Preproc.Group
open Kefir.Preproc.Group.Spec (Event Prints)

variable {E C α F : Type}

/-- **C92.** Every accepted file yields what its events print, with `#include` standing for the events of the included
file, to any depth. -/
theorem C92_included (ops : Ops E C α) (fs : Files (Parts E C α)) (n : Nat) (current : Option Path) (g : Parts E C α)
    (env env' : E) (out : List α) (h : runFile ops (asLines fs) n current (lines g) env = .ok (env', out)) :
    ∃ ev, eventsOf ops fs n current env g = .ok (env', ev) ∧ Prints ops ev out :=
  runFile_ok ops fs n current g env env' out h

/-- **C92**, acceptance: when the events of the file are defined (every `#include` in a selected group names a file that
is found), and nothing on the search path is unresolvable or a directory, the file is accepted. -/
theorem C92_accepted_partial (ops : Ops E C α) (fs : Files (Parts E C α)) (n : Nat) (current : Option Path)
    (g : Parts E C α) (env env' : E) (ev : List (Event E α)) (h : eventsOf ops fs n current env g = .ok (env', ev))
    (hblock : ∀ p, fs.probe p ≠ .unresolvable ∧ fs.probe p ≠ .directory)
    (hexpand : ∀ e t, ∃ o, ops.expand e t = .ok o) :
    ∃ out ev', runFile ops (asLines fs) n current (lines g) env = .ok (env', out) ∧
      eventsOf ops fs n current env g = .ok (env', ev') ∧ Prints ops ev' out := by
  obtain ⟨out, ho⟩ := runFile_some ops fs (fun p hb => by
    have := hblock p
    unfold Blocks at hb
    cases hp : fs.probe p <;> simp_all) hexpand n current g env env' ev h
  obtain ⟨ev', h1, h2⟩ := runFile_ok ops fs n current g env env' out ho
  exact ⟨out, ev', ho, h1, h2⟩

/-- **C92**, the file that is opened is the first readable one: next to the including file for `"name"`, then in the
directories of the options in their order, then the name itself. -/
theorem C92_found (fs : Files F) (current : Option Path) (r : Request) (x : Path × F)
    (h : openSource fs r.name (!r.quoted) current = .ok x) :
    ∃ before p after, places fs current r = before ++ p :: after ∧ fs.probe p = .file x.1 x.2 ∧
      ∀ q ∈ before, ∀ real content, fs.probe q ≠ .file real content := by
  have h := openSource_ok h
  unfold search at h
  obtain ⟨before, p, after, h1, h2, h3⟩ := List.findSome?_eq_some_iff.mp h
  refine ⟨before, p, after, h1, ?_, fun q hq real content hf => ?_⟩
  · unfold readable at h2
    split at h2
    · rename_i hp; cases h2; exact hp
    · cases h2
  · have := h3 q hq
    unfold readable at this
    rw [hf] at this
    cases this

/-- **C92**, and a readable file is found, if no place before it is unresolvable or a directory. -/
theorem C92_found_partial (fs : Files F) (current : Option Path) (r : Request) (before after : List Path) (p real : Path)
    (content : F) (hp : places fs current r = before ++ p :: after) (hf : fs.probe p = .file real content)
    (hb : ∀ q ∈ before, fs.probe q = .absent ∨ fs.probe q = .unreadable) :
    openSource fs r.name (!r.quoted) current = .ok (real, content) := by
  have hs : search fs current r = some (real, content) := by
    unfold search
    refine List.findSome?_eq_some_iff.mpr ⟨before, p, after, hp, by unfold readable; rw [hf], fun q hq => ?_⟩
    unfold readable
    rcases hb q hq with h | h <;> rw [h]
  -- what stands behind the file does not matter
  have key : ∀ roots, ∀ before, roots.map (fun d => join d r.name) ++ [r.name] = before ++ p :: after →
      (∀ q ∈ before, fs.probe q = .absent ∨ fs.probe q = .unreadable) →
      openRoots fs r.name roots = .ok (real, content) := by
    intro roots
    induction roots with
    | nil =>
      intro before h hb
      cases before with
      | nil =>
        simp only [List.map_nil, List.nil_append, List.cons.injEq] at h
        rw [openRoots, h.1]
        unfold tryOpenFile
        rw [hf]
      | cons q qs =>
        simp only [List.map_nil, List.nil_append, List.cons_append, List.cons.injEq] at h
        have := h.2
        simp at this
    | cons d ds ih =>
      intro before h hb
      rw [openRoots, show d ++ 0x2f :: r.name = join d r.name from rfl]
      cases before with
      | nil =>
        simp only [List.map_cons, List.nil_append, List.cons_append, List.cons.injEq] at h
        unfold tryOpenFile
        rw [h.1, hf]
      | cons q qs =>
        simp only [List.map_cons, List.cons_append, List.cons.injEq] at h
        have hq := hb q List.mem_cons_self
        have : tryOpenFile fs (join d r.name) = .error .notFound := by
          unfold tryOpenFile
          rw [h.1]
          rcases hq with h | h <;> rw [h]
        rw [this]
        exact ih qs h.2 (fun q hq => hb q (List.mem_cons_of_mem _ hq))
  unfold openSource
  unfold places at hp
  cases current with
  | none => exact key fs.roots before hp hb
  | some c =>
    cases hq : r.quoted
    · rw [hq] at hp
      exact key fs.roots before hp hb
    · rw [hq] at hp
      simp only [if_true, List.cons_append, List.nil_append] at hp
      simp only [Bool.not_true, Bool.not_false, if_true]
      rw [show fs.dirname c ++ 0x2f :: r.name = join (fs.dirname c) r.name from rfl]
      cases before with
      | nil =>
        simp only [List.nil_append, List.cons.injEq] at hp
        unfold tryOpenFile
        rw [hp.1, hf]
      | cons q qs =>
        simp only [List.cons_append, List.cons.injEq] at hp
        have : tryOpenFile fs (join (fs.dirname c) r.name) = .error .notFound := by
          unfold tryOpenFile
          rw [hp.1]
          rcases hb q List.mem_cons_self with h | h <;> rw [h]
        rw [this]
        exact key fs.roots qs hp.2 (fun q hq => hb q (List.mem_cons_of_mem _ hq))

/-- **C92**, an `#include` of a file that is nowhere is refused, whatever else the file contains: no run of a file whose
selected parts reach it is accepted. -/
theorem C92_missing (ops : Ops E C α) (fs : Files (Parts E C α)) (n : Nat) (current : Option Path) (r : Request)
    (g g' : Parts E C α) (env : E) (hmiss : ∀ p ∈ places fs current r, ∀ real content, fs.probe p ≠ .file real content)
    (x : E × List α) :
    runFile ops (asLines fs) n current (lines (g.append (.cons (.incl fun _ => .ok r) g'))) env ≠ .ok x := by
  intro h
  obtain ⟨env', out⟩ := x
  obtain ⟨ev, h1, -⟩ := runFile_ok ops fs n current _ env env' out h
  have hs : search fs current r = none := by
    unfold search
    rw [List.findSome?_eq_none_iff]
    intro p hp
    unfold readable
    split
    · rename_i hf
      exact absurd hf (hmiss p hp _ _)
    · rfl
  cases n with
  | zero =>
    rw [eventsOf, events_append] at h1
    split at h1
    · cases h1
    · simp only [events, eventsPart] at h1
      cases h1
  | succ n =>
    rw [eventsOf, events_append] at h1
    split at h1
    · cases h1
    · simp only [events, eventsPart, inclusion, hs] at h1
      cases h1

/-- **C92**, "as if it stood in its place": a file with an `#include` of a file `h` that includes nothing yields what the
events of the file with `h` pasted in place of the directive print. -/
theorem C92_pasted (ops : Ops E C α) (fs : Files (Parts E C α)) (n : Nat) (current : Option Path) (r : Request)
    (real : Path) (g g' h : Parts E C α) (env env' : E) (out : List α) (hs : search fs current r = some (real, h))
    (hplain : plainGroup h)
    (hrun : runFile ops (asLines fs) (n + 1) current (lines (g.append (.cons (.incl fun _ => .ok r) g'))) env =
      .ok (env', out)) :
    ∃ ev, eventsOf ops fs (n + 1) current env (g.append (h.append g')) = .ok (env', ev) ∧ Prints ops ev out := by
  obtain ⟨ev, h1, h2⟩ := runFile_ok ops fs (n + 1) current _ env env' out hrun
  refine ⟨ev, ?_, h2⟩
  rw [eventsOf] at h1 ⊢
  rw [← h1]
  refine (events_replace _ (fun e => ?_) g g' env).symm
  simp only [eventsPart, inclusion, hs]
  cases n with
  | zero => rw [eventsOf]; exact plainGroup_parts h e hplain
  | succ n => rw [eventsOf]; exact plainGroup_parts h e hplain

/-- **C92**, include guards: a file that is one section `#ifndef name` … `#endif` has no effect and yields nothing when the
name is defined. -/
theorem C92_guard (ops : Ops E C α) (fs : Files (Parts E C α)) (n : Nat) (current : Option Path) (r : Request)
    (real : Path) (name : Name) (body : Parts E C α) (env env' : E) (out : List α)
    (hs : search fs current r = some (real, .cons (.section (.ifndef name) body .endif) .nil))
    (hd : ops.defined env name = true)
    (hrun : runFile ops (asLines fs) (n + 1) current (lines (.cons (.incl fun _ => .ok r) .nil)) env = .ok (env', out)) :
    env' = env ∧ out = [] := by
  obtain ⟨ev, h1, h2⟩ := runFile_ok ops fs (n + 1) current _ env env' out hrun
  have hsec : ∀ i, eventsPart ops i env (.section (.ifndef name) body .endif) = .ok (env, []) := by
    intro i
    simp only [eventsPart, Group.Spec.Cond.eval, hd, Bool.not_true, eventsTail]
  have hfile : eventsOf ops fs n (some real) env (.cons (.section (.ifndef name) body .endif) .nil) = .ok (env, []) := by
    cases n <;> simp only [eventsOf, events, hsec, List.append_nil]
  simp only [eventsOf, events, eventsPart, inclusion, hs, hfile, List.append_nil] at h1
  cases h1
  exact ⟨rfl, prints_nil h2⟩

/-! ### Examples -/

/-- The bytes of an ASCII string. -/
def b (s : String) : Path := s.toList.map fun c => c.toNat.toUInt8

deriving instance DecidableEq for Except

/-- `#define n` -/
def defineLine (n : Name) : Part (List Name) (Name ⊕ Nat) Name := .effect fun env => .ok (n :: env, [])

/-- `#include "s"` -/
def quotedLine (s : String) : Part (List Name) (Name ⊕ Nat) Name := .incl fun _ => .ok ⟨b s, true⟩

/-- `#include <s>` -/
def systemLine (s : String) : Part (List Name) (Name ⊕ Nat) Name := .incl fun _ => .ok ⟨b s, false⟩

def parts (l : List (Part E C α)) : Parts E C α := l.foldr .cons .nil

abbrev DemoParts := Parts (List Name) (Name ⊕ Nat) Name

/-- `/src/g.h`: a guarded file that defines `d`. -/
def guarded : DemoParts :=
  parts [.section (.ifndef ['G']) (parts [defineLine ['G'], .text [['g']], defineLine ['d']]) .endif]

/-- `/inc/h.h` includes `<g.h>`, which is in `/inc2` too, and then yields `h`. -/
def nested : DemoParts := parts [systemLine "g.h", .text [['h']]]

/-- Two directories of options; `g.h` is next to the source and, with other contents, in `/inc2`. -/
def demoFiles : Files DemoParts where
  probe p :=
    if p = b "/src/g.h" then .file (b "/src/g.h") guarded
    else if p = b "/inc/h.h" then .file (b "/inc/h.h") nested
    else if p = b "/inc2/g.h" then .file (b "/inc2/g.h") (parts [.text [['x']]])
    else if p = b "/inc2/h.h" then .file (b "/inc2/h.h") (parts [])
    else .absent
  dirname _ := b "/src"
  roots := [b "/inc", b "/inc2"]

/-- ```
#include "g.h"      (g, defines G and d)
#include "g.h"      (nothing)
#include "h.h"      (not next to the source: /inc/h.h; x from /inc2/g.h, h)
d a                 (d is replaced by nothing)
``` -/
def demoMain : DemoParts := parts [quotedLine "g.h", quotedLine "g.h", quotedLine "h.h", .text [['d'], ['a']]]

example : runFile demo (asLines demoFiles) 5 (some (b "/src/m.c")) (lines demoMain) [] =
    .ok ([['d'], ['G']], [['g'], ['x'], ['h'], ['a']]) := by decide +kernel

/-- The events exist, as `C92_accepted_partial` asks. -/
example : ∃ ev, eventsOf demo demoFiles 5 (some (b "/src/m.c")) [] demoMain = .ok ([['d'], ['G']], ev) :=
  let ⟨ev, h, _⟩ := C92_included demo demoFiles 5 (some (b "/src/m.c")) demoMain [] _ _
    (show _ = Except.ok ([['d'], ['G']], [['g'], ['x'], ['h'], ['a']]) by decide +kernel)
  ⟨ev, h⟩

/-- Nothing in the way. -/
example : ∀ p, demoFiles.probe p ≠ .unresolvable ∧ demoFiles.probe p ≠ .directory := by
  intro p
  simp only [demoFiles]
  repeat' split
  all_goals exact ⟨by simp, by simp⟩

/-- A guarded file, included where its name is defined. -/
example : runFile demo (asLines demoFiles) 1 (some (b "/src/m.c")) (lines (parts [quotedLine "g.h"])) [['G']] =
    .ok ([['G']], []) := by decide +kernel

/-- A missing file. -/
example : runFile demo (asLines demoFiles) 5 (some (b "/src/m.c")) (lines (parts [quotedLine "z.h"])) [] =
    .error .notFound := by decide +kernel

/-- A file that includes itself is refused at every depth (the program recurses until its stack is exhausted). -/
theorem C92_self (ops : Ops E C α) (fs : Files (Parts E C α)) (r : Request) (real : Path) (h : Parts E C α)
    (hs : ∀ current, search fs current r = some (real, .cons (.incl fun _ => .ok r) h)) (n : Nat)
    (current : Option Path) (env : E) (x : E × List α) :
    runFile ops (asLines fs) n current (lines (.cons (.incl fun _ => .ok r) h)) env ≠ .ok x := by
  have key : ∀ n current env, ∃ e,
      eventsOf ops fs n current env (.cons (.incl fun _ => .ok r) h) = .error e := by
    intro n
    induction n with
    | zero => exact fun _ env => ⟨.outOfSpace, by simp only [eventsOf, events, eventsPart]⟩
    | succ n ih =>
      intro current env
      obtain ⟨e, he⟩ := ih (some real) env
      exact ⟨e, by rw [eventsOf, events, eventsPart]; simp only [inclusion, hs, he]⟩
  intro hx
  obtain ⟨env', out⟩ := x
  obtain ⟨ev, h1, -⟩ := runFile_ok ops fs n current _ env env' out hx
  obtain ⟨e, he⟩ := key n current env
  rw [he] at h1
  cases h1

/-! ### Refutations -/

/-- A directory of options `/inc` with `sys/x.h`; next to the source there is a regular file `sys`. -/
def hiddenFiles : Files Nat where
  probe p :=
    if p = b "/inc/sys/x.h" then .file (b "/inc/sys/x.h") 1
    else if p = b "/src/sys" then .file (b "/src/sys") 1
    else if p = b "/src/sys/x.h" then .unresolvable
    else .absent
  dirname _ := b "/src"
  roots := [b "/inc"]

/-- **C92 fails** when a place before the file cannot be resolved for a reason other than its absence: a regular file
`sys` next to the source makes `#include "sys/x.h"` fail, although the file is in a directory of the options. -/
theorem C92_search_false : ¬ ∀ (fs : Files Nat) (current : Option Path) (r : Request) x,
    search fs current r = some x → openSource fs r.name (!r.quoted) current = .ok x := by
  intro h
  have h1 := h hiddenFiles (some (b "/src/m.c")) ⟨b "sys/x.h", true⟩ (b "/inc/sys/x.h", 1) (by
    have hp : places hiddenFiles (some (b "/src/m.c")) ⟨b "sys/x.h", true⟩ =
      [b "/src/sys/x.h", b "/inc/sys/x.h", b "sys/x.h"] := by decide +kernel
    have h1 : readable hiddenFiles (b "/src/sys/x.h") = none := by decide +kernel
    have h2 : readable hiddenFiles (b "/inc/sys/x.h") = some (b "/inc/sys/x.h", 1) := by decide +kernel
    simp only [search, hp, List.findSome?_cons, h1, h2])
  have h2 : openSource hiddenFiles (b "sys/x.h") (!true) (some (b "/src/m.c")) = .error .invalidState := by decide +kernel
  rw [h2] at h1
  cases h1

/-- `/src/m.h` is a directory; `/inc/m.h` is a file. -/
def directoryFiles : Files Nat where
  probe p :=
    if p = b "/inc/m.h" then .file (b "/inc/m.h") 1
    else if p = b "/src/m.h" then .directory
    else .absent
  dirname _ := b "/src"
  roots := [b "/inc"]

/-- **C92 fails** when there is a directory of that name at an earlier place: the search ends there. -/
theorem C92_directory_false : ¬ ∀ (fs : Files Nat) (current : Option Path) (r : Request) x,
    (∀ p, fs.probe p ≠ .unresolvable) →
    search fs current r = some x → openSource fs r.name (!r.quoted) current = .ok x := by
  intro h
  have h1 := h directoryFiles (some (b "/src/m.c")) ⟨b "m.h", true⟩ (b "/inc/m.h", 1) (by
      intro p
      simp only [directoryFiles]
      repeat' split
      all_goals simp) (by
    have hp : places directoryFiles (some (b "/src/m.c")) ⟨b "m.h", true⟩ =
      [b "/src/m.h", b "/inc/m.h", b "m.h"] := by decide +kernel
    have h1 : readable directoryFiles (b "/src/m.h") = none := by decide +kernel
    have h2 : readable directoryFiles (b "/inc/m.h") = some (b "/inc/m.h", 1) := by decide +kernel
    simp only [search, hp, List.findSome?_cons, h1, h2])
  have h2 : openSource directoryFiles (b "m.h") (!true) (some (b "/src/m.c")) = .error .invalidState := by decide +kernel
  rw [h2] at h1
  cases h1

end Kefir.Include
