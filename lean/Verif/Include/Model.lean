import Verif.Preproc.Group
import Verif.Include.Spec

/-!
# Model of source file inclusion

`process_include`, `source/preprocessor/preprocessor.c` 233-285, and the locator of files of the command line,
`source/cli/filesystem_source.c`.

Simplified: a file is the list of its lines as the directive scanner delivers them (C88); the tokens of the directive
after macro replacement are given as a function of the environment (C57); `realpath`, `access`, `fopen` and `dirname` are
a function on paths; predefined macros, which each file has its own, are left out of the environment; the buffer of the
including file is not passed down but appended to.
-/
namespace Kefir.Include
open Kefir.Preproc Kefir.Preproc.Group

variable {E C α F : Type}

/-- A line: one of `Group.Line`, or `#include`. -/
inductive ILine (E C α : Type) where
  | line (l : Line E C α)
  | incl (request : E → Res Request)

mutual
/-- The lines of a group (the text of a file, for the theorems). -/
def linesPart : Part E C α → List (ILine E C α)
  | .text t => [.line (.text t)]
  | .effect f => [.line (.effect f)]
  | .check f => [.line (.check f)]
  | .incl r => [.incl r]
  | .section c g tail =>
    .line (match c with
      | .expr c => .ifC c
      | .ifdef n => .ifdef n
      | .ifndef n => .ifndef n) :: (lines g ++ linesTail tail)
def lines : Parts E C α → List (ILine E C α)
  | .nil => []
  | .cons p ps => linesPart p ++ lines ps
def linesTail : Tail E C α → List (ILine E C α)
  | .endif => [.line .endif]
  | .els g => .line .els :: (lines g ++ [.line .endif])
  | .elif c g t => .line (.elif c) :: (lines g ++ linesTail t)
end

/-- `open_file` and `try_open_file`, `cli/filesystem_source.c` 49-111: `realpath` fails with `ENOENT`: not found; with
another error: an OS error; `access` fails: not found; mapping a directory fails (`cli/input.c` 32-73). -/
def tryOpenFile (fs : Files F) (path : Path) : Res (Path × F) :=
  match fs.probe path with
  | .absent => .error .notFound
  | .unresolvable => .error .invalidState
  | .unreadable => .error .notFound
  | .directory => .error .invalidState
  | .file real content => .ok (real, content)

/-- The loop over `include_roots`, `cli/filesystem_source.c` 141-150, then the name itself, 152-158 (the error is the same as that of the last attempt). -/
def openRoots (fs : Files F) (name : Path) : List Path → Res (Path × F)
  | [] => tryOpenFile fs name
  | root :: roots =>
    match tryOpenFile fs (root ++ 0x2f :: name) with
    | .error .notFound => openRoots fs name roots
    | r => r

/-- `open_source`, `cli/filesystem_source.c` 113-159. -/
def openSource (fs : Files F) (name : Path) (system : Bool) (current : Option Path) : Res (Path × F) :=
  match current with
  | none => openRoots fs name fs.roots
  | some current =>
    if !system then
      match tryOpenFile fs (fs.dirname current ++ 0x2f :: name) with
      | .error .notFound => openRoots fs name fs.roots
      | r => r
    else openRoots fs name fs.roots

/-- The lines as directives, with `include` carried out by a function. -/
def toLine (include_ : (E → Res Request) → E → Res (E × List α)) : ILine E C α → Line E C α
  | .line l => l
  | .incl request => .effect (include_ request)

/-- The result of a run. -/
def ofOut {β : Type} : Out β → Res β
  | .ok b => .ok b
  | .err e => .error e
  | .fuel => .error .internalError

/-- `process_include`, `preprocessor.c` 233-285: the locator opens the file; a preprocessor for it (`nested`), which
shares the macro definitions and has the file's canonical path as current path, adds its tokens (its sentinel is
removed). -/
def processInclude (fs : Files (List (ILine E C α))) (current : Option Path)
    (nested : Option Path → List (ILine E C α) → E → Res (E × List α)) (request : E → Res Request) (env : E) :
    Res (E × List α) :=
  match request env with
  | .error e => .error e
  | .ok r =>
    match openSource fs r.name (!r.quoted) current with
    | .error e => .error e
    | .ok (real, content) => nested (some real) content env

/-- `kefir_preprocessor_run` on a file, `preprocessor.c` 648-677.  `n` bounds the nesting, which the program does not
(it exhausts its stack). -/
def runFile (ops : Ops E C α) (fs : Files (List (ILine E C α))) : Nat → Option Path → List (ILine E C α) → E →
    Res (E × List α)
  | 0, _, ls, env => ofOut (run ops (ls.map (toLine fun _ _ => .error .outOfSpace)) env)
  | n + 1, current, ls, env =>
    ofOut (run ops (ls.map (toLine (processInclude fs current (runFile ops fs n)))) env)

end Kefir.Include
