import Verif.Preproc.Token

/-!
# C17 6.10: groups and conditional inclusion

The environment `E` (the macro definitions), the conditions `C` of `#if` and the tokens `α` are
arbitrary.
-/

namespace Kefir.Preproc.Group

variable {E C α : Type}

/-- What the preprocessor does with conditions, names and text. -/
structure Ops (E C α : Type) where
  /-- the name is currently defined as a macro -/
  defined : E → Name → Bool
  /-- the value of the condition of an `#if` or `#elif` -/
  cond : E → C → Res Bool
  /-- macro replacement of a piece of text -/
  expand : E → List α → Res (List α)
  expand_nil : ∀ e, expand e [] = .ok []

namespace Spec

/-- `#if c`, `#ifdef n` or `#ifndef n`. -/
inductive Cond (C : Type) where
  | expr (c : C)
  | ifdef (n : Name)
  | ifndef (n : Name)

mutual
/-- group-part: a text line, a directive with an effect on the environment or with output of its own
(`#define`, `#undef`, `#include`), a directive without (`#error`, `#line`, `#pragma`, unknown ones),
or an if-section. -/
inductive Part (E C α : Type) where
  | text (t : List α)
  | effect (f : E → Res (E × List α))
  | check (f : E → Res Unit)
  | section (c : Cond C) (g : Parts E C α) (tail : Tail E C α)
/-- group -/
inductive Parts (E C α : Type) where
  | nil
  | cons (p : Part E C α) (ps : Parts E C α)
/-- the elif-groups, the else-group, and `#endif` -/
inductive Tail (E C α : Type) where
  | endif
  | els (g : Parts E C α)
  | elif (c : C) (g : Parts E C α) (t : Tail E C α)
end

/-- What a group amounts to: text to be macro-replaced in an environment, or finished tokens. -/
inductive Event (E α : Type) where
  | text (env : E) (t : List α)
  | done (t : List α)

/-- The value of a condition. -/
def Cond.eval (ops : Ops E C α) (env : E) : Cond C → Res Bool
  | .expr c => ops.cond env c
  | .ifdef n => .ok (ops.defined env n)
  | .ifndef n => .ok (!ops.defined env n)

mutual
/-- C17 6.10.1p6: the events of a group, and the environment after it.  Of an if-section, only the
first group whose condition holds is processed, or the else-group; no later condition is evaluated,
and the directives in the other groups have no effect. -/
def selectPart (ops : Ops E C α) (env : E) : Part E C α → Res (E × List (Event E α))
  | .text t => .ok (env, [.text env t])
  | .effect f =>
    match f env with
    | .error e => .error e
    | .ok (env', t) => .ok (env', [.done t])
  | .check f =>
    match f env with
    | .error e => .error e
    | .ok _ => .ok (env, [])
  | .section c g tail =>
    match c.eval ops env with
    | .error e => .error e
    | .ok true => select ops env g
    | .ok false => selectTail ops env tail
def select (ops : Ops E C α) (env : E) : Parts E C α → Res (E × List (Event E α))
  | .nil => .ok (env, [])
  | .cons p ps =>
    match selectPart ops env p with
    | .error e => .error e
    | .ok (env', ev) =>
      match select ops env' ps with
      | .error e => .error e
      | .ok (env'', ev') => .ok (env'', ev ++ ev')
def selectTail (ops : Ops E C α) (env : E) : Tail E C α → Res (E × List (Event E α))
  | .endif => .ok (env, [])
  | .els g => select ops env g
  | .elif c g t =>
    match ops.cond env c with
    | .error e => .error e
    | .ok true => select ops env g
    | .ok false => selectTail ops env t
end

/-- `Prints ops events out`: `out` is the macro replacement of the texts, with the finished tokens in
between.  Texts next to each other and with the same environment may be replaced together (an
invocation of a macro may extend over several lines). -/
inductive Prints (ops : Ops E C α) : List (Event E α) → List α → Prop where
  | nil : Prints ops [] []
  | texts {env : E} (ts : List (List α)) {o rest out} : ops.expand env ts.flatten = .ok o →
    Prints ops rest out → Prints ops (ts.map (.text env) ++ rest) (o ++ out)
  | done {t rest out} : Prints ops rest out → Prints ops (.done t :: rest) (t ++ out)

end Spec
end Kefir.Preproc.Group
