import Verif.Preproc.GroupSpec

/-!
# Specification: source file inclusion

C17 6.10.2: `#include` is replaced by the contents of the file it names, which are processed as if they stood in its
place (5.1.1.2, phase 4: recursively).  Where files are looked for is left to the implementation; kefir documents the
directory of the including file for `"name"`, then the directories given with `-I` in the order of the options, then the
name itself; the first readable file is taken.

The environment `E` (macro definitions), the conditions `C` and the tokens `α` are arbitrary, as in
`Verif.Preproc.GroupSpec`.
-/
namespace Kefir.Include
open Kefir.Preproc Kefir.Preproc.Group

abbrev Path := List UInt8

/-- What `#include` asks for: `"name"` or `<name>`. -/
structure Request where
  name : Path
  quoted : Bool
  deriving DecidableEq, Repr

mutual
/-- A group-part: as in `Group.Spec.Part`, with `#include` apart.  `request` is what its tokens amount to after macro
replacement. -/
inductive Part (E C α : Type) where
  | text (t : List α)
  | effect (f : E → Res (E × List α))
  | check (f : E → Res Unit)
  | incl (request : E → Res Request)
  | section (c : Group.Spec.Cond C) (g : Parts E C α) (tail : Tail E C α)
/-- group; a file is a group -/
inductive Parts (E C α : Type) where
  | nil
  | cons (p : Part E C α) (ps : Parts E C α)
/-- elif-groups, else-group, `#endif` -/
inductive Tail (E C α : Type) where
  | endif
  | els (g : Parts E C α)
  | elif (c : C) (g : Parts E C α) (t : Tail E C α)
end

/-- What is found at a path. -/
inductive Probe (F : Type) where
  | absent
  | unreadable
  /-- the path cannot be resolved for another reason (it leads through a regular file, or an unreadable directory) -/
  | unresolvable
  /-- a directory -/
  | directory
  /-- a readable file: its canonical path and its contents -/
  | file (real : Path) (content : F)

/-- The directories of a compilation: what is at each path, the directory part of a path, the `-I` directories. -/
structure Files (F : Type) where
  probe : Path → Probe F
  dirname : Path → Path
  roots : List Path

/-- `dir/name`. -/
def join (dir name : Path) : Path := dir ++ 0x2f :: name

/-- Where a file is looked for, in this order. -/
def places {F : Type} (fs : Files F) (current : Option Path) (r : Request) : List Path :=
  (match current with
    | some c => if r.quoted then [join (fs.dirname c) r.name] else []
    | none => []) ++
  fs.roots.map (fun d => join d r.name) ++ [r.name]

/-- The readable file at a path. -/
def readable {F : Type} (fs : Files F) (p : Path) : Option (Path × F) :=
  match fs.probe p with
  | .file real content => some (real, content)
  | _ => none

/-- The first readable file. -/
def search {F : Type} (fs : Files F) (current : Option Path) (r : Request) : Option (Path × F) :=
  (places fs current r).findSome? (readable fs)

variable {E C α : Type}

section
variable (ops : Ops E C α) (inclusion : E → Request → Res (E × List (Group.Spec.Event E α)))

mutual
/-- The events of a group-part and the environment after it (6.10.1p6, 6.10.2); `inclusion` gives those of an included
file. -/
def eventsPart (env : E) : Part E C α → Res (E × List (Group.Spec.Event E α))
  | .text t => .ok (env, [.text env t])
  | .effect f =>
    match f env with
    | .error e => .error e
    | .ok (env', t) => .ok (env', [.done t])
  | .check f =>
    match f env with
    | .error e => .error e
    | .ok _ => .ok (env, [])
  | .incl request =>
    match request env with
    | .error e => .error e
    | .ok r => inclusion env r
  | .section c g tail =>
    match c.eval ops env with
    | .error e => .error e
    | .ok true => events env g
    | .ok false => eventsTail env tail
def events (env : E) : Parts E C α → Res (E × List (Group.Spec.Event E α))
  | .nil => .ok (env, [])
  | .cons p ps =>
    match eventsPart env p with
    | .error e => .error e
    | .ok (env', ev) =>
      match events env' ps with
      | .error e => .error e
      | .ok (env'', ev') => .ok (env'', ev ++ ev')
def eventsTail (env : E) : Tail E C α → Res (E × List (Group.Spec.Event E α))
  | .endif => .ok (env, [])
  | .els g => events env g
  | .elif c g t =>
    match ops.cond env c with
    | .error e => .error e
    | .ok true => events env g
    | .ok false => eventsTail env t
end
end

/-- The events of an `#include`: those of the first readable file it names (`file` gives the events of a file with the
given path), in the environment at that place. -/
def inclusion (fs : Files (Parts E C α)) (current : Option Path)
    (file : Option Path → E → Parts E C α → Res (E × List (Group.Spec.Event E α))) (env : E) (r : Request) :
    Res (E × List (Group.Spec.Event E α)) :=
  match search fs current r with
  | none => .error .notFound
  | some (real, content) => file (some real) env content

/-- The events of a file and the environment after it, with inclusions nested at most `n` deep. -/
def eventsOf (ops : Ops E C α) (fs : Files (Parts E C α)) : Nat → Option Path → E → Parts E C α →
    Res (E × List (Group.Spec.Event E α))
  | 0, _, env, g => events ops (fun _ _ => .error .outOfSpace) env g
  | n + 1, current, env, g => events ops (inclusion fs current (eventsOf ops fs n)) env g

end Kefir.Include
