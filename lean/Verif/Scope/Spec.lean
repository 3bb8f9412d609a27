import Verif.HashTree.Spec

/-!
# Specification: nested scopes

A state is the stack of the open scopes, the innermost one first; a scope is the list of its
declarations (at most one per identifier).  No tree, no pointers.
-/

namespace Kefir.Scope

open Kefir.HashTree (Map runCalls)

variable {K V : Type}

/-- What a client can ask of a block scope. -/
inductive Call (K V : Type) where
  | push
  | pop
  | declare (k : K) (v : V)
  | lookup (k : K)
  | isEmpty

/-- What it is told. -/
inductive Reply (V : Type) where
  | ok
  | found (v : V)
  | bool (b : Bool)
  | error (e : Err)
  /-- undefined behaviour, or no answer at all -/
  | stuck
  deriving DecidableEq

/-- The open scopes, innermost first, and whether anything was ever declared. -/
structure Scopes (K V : Type) where
  stack : List (Map K V)
  declared : Bool

/-- The declaration of `k` in the innermost scope that declares it. -/
def innermost (eqv : K → K → Bool) (k : K) : List (Map K V) → Option V
  | [] => none
  | m :: ms =>
    match m.find? (fun p => eqv p.1 k) with
    | some p => some p.2
    | none => innermost eqv k ms

/-- C17 6.2.1: a declaration adds to the innermost scope and is visible until the end of that scope
except where a scope inside it declares the same identifier. -/
def specStep (eqv : K → K → Bool) (s : Scopes K V) : Call K V → Scopes K V × Reply V
  | .push => ({ s with stack := [] :: s.stack }, .ok)
  | .pop =>
    match s.stack with
    | _ :: m :: ms => ({ s with stack := m :: ms }, .ok)
    | _ => (s, .error .invalidChange)
  | .declare k v =>
    match s.stack with
    | m :: ms =>
      if m.any (fun p => eqv p.1 k) then (s, .error .alreadyExists)
      else (⟨((k, v) :: m) :: ms, true⟩, .ok)
    | [] => (s, .stuck)
  | .lookup k =>
    match innermost eqv k s.stack with
    | some v => (s, .found v)
    | none => (s, .error .notFound)
  | .isEmpty => (s, .bool !s.declared)

/-- One open scope without declarations. -/
def start : Scopes K V := ⟨[[]], false⟩

/-- Histories that close every scope they open and no other. -/
inductive Balanced : List (Call K V) → Prop
  | nil : Balanced []
  | declare {h : List (Call K V)} (k : K) (v : V) : Balanced h → Balanced (.declare k v :: h)
  | lookup {h : List (Call K V)} (k : K) : Balanced h → Balanced (.lookup k :: h)
  | isEmpty {h : List (Call K V)} : Balanced h → Balanced (.isEmpty :: h)
  | block {inner h : List (Call K V)} : Balanced inner → Balanced h →
      Balanced (.push :: inner ++ .pop :: h)

/-! ## Typedef names -/

/-- What an ordinary identifier can be declared as, as far as parsing is concerned. -/
inductive Kind where
  | typedefName
  | variable
  deriving DecidableEq, Repr

/-- What the parser asks of its scopes; `N` are names. -/
inductive PCall (N : Type) where
  | push
  | pop
  | declare (kind : Kind) (name : N)
  | isTypedef (name : N)

inductive PReply where
  | ok
  | bool (b : Bool)
  | error (e : Err)
  deriving DecidableEq

/-- The open scopes, innermost first: the identifiers each declares and what as. -/
abbrev Names := List (List (List UInt8 × Kind))

/-- What `name` was last declared as in one scope. -/
def kindIn (name : List UInt8) (scope : List (List UInt8 × Kind)) : Option Kind :=
  (scope.find? (fun d => d.1 == name)).map (·.2)

/-- What `name` is: the declaration in the innermost scope that has one. -/
def kindOf (name : List UInt8) (s : Names) : Option Kind := s.findSome? (kindIn name)

/-- C17 6.2.1, 6.7.8p3: a name is a typedef name if the innermost scope that declares it declares it
as one; in one scope a name is not declared as both. -/
def namesStep (s : Names) : PCall (List UInt8) → Names × PReply
  | .push => ([] :: s, .ok)
  | .pop =>
    match s with
    | _ :: scope :: rest => (scope :: rest, .ok)
    | _ => (s, .error .invalidChange)
  | .declare kind name =>
    match s with
    | [] => (s, .error .invalidParameter)
    | scope :: rest =>
      match kindIn name scope with
      | none => (((name, kind) :: scope) :: rest, .ok)
      | some k => if k = kind then (s, .ok) else (s, .error .alreadyExists)
  | .isTypedef name =>
    match kindOf name s with
    | some k => (s, .bool (k == .typedefName))
    | none => (s, .error .notFound)

end Kefir.Scope
