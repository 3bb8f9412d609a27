import Verif.Scope.Steps
import Verif.Scope.Names

/-!
# C30, C64, C66: block scopes, typedef names, and the release of scopes
-/

namespace Kefir.Scope

open Kefir.HashTree (Ops Lawful runCalls)
open Kefir.SymbolTable (StrPtr strOps str_lawful)

variable {K V : Type}

/-- C30.  For every history of opening and closing scopes, declarations and lookups on a new block
scope, every call is answered as on a stack of scopes: a lookup finds the declaration in the innermost
open scope that has one, a second declaration in the same scope is refused, the outermost scope cannot
be closed. -/
theorem C30_innermost_declaration (ops : Ops K) (law : Lawful ops) (history : List (Call K V)) :
    (runCalls (implStep ops) blockInit history).2 =
      (runCalls (specStep ops.compareKeys) start history).2 :=
  (run_refines law history relB_init).2

/-- C30, second half.  Whatever was done before, and whatever is done (balanced) inside a scope, after
leaving the scope every lookup gives what it gave before entering it. -/
theorem C30_leaving_restores (ops : Ops K) (law : Lawful ops) (before inside : List (Call K V))
    (hb : Balanced inside) (k : K) :
    (implStep ops (runCalls (implStep ops) blockInit
        (before ++ .push :: inside ++ [.pop])).1 (.lookup k)).2 =
      (implStep ops (runCalls (implStep ops) blockInit before).1 (.lookup k)).2 := by
  have h1 := (run_refines law (before ++ .push :: inside ++ [.pop]) (relB_init (V := V))).1
  have h2 := (run_refines law before (relB_init (V := V))).1
  rw [(step_refines law h1 (.lookup k)).2.1, (step_refines law h2 (.lookup k)).2.1]
  obtain ⟨m, ms, _, hst, _⟩ := path_top h2.path
  have : (runCalls (specStep ops.compareKeys) start
      (before ++ .push :: inside ++ [.pop])).1.stack =
        (runCalls (specStep ops.compareKeys) start before).1.stack := by
    rw [List.append_assoc, runCalls_append]
    generalize (runCalls (specStep ops.compareKeys) start before).1 = s at hst ⊢
    simp only [List.cons_append, runCalls, specStep, runCalls_append]
    obtain ⟨m', hm'⟩ := balanced_stack (eqv := ops.compareKeys) hb { s with stack := [] :: s.stack }
      [] s.stack rfl
    rw [hst] at hm' ⊢
    rw [hm']
  simp only [specStep, this]
  cases innermost ops.compareKeys k (runCalls (specStep ops.compareKeys) start before).1.stack <;> rfl

/-- The declarations of a history that were accepted. -/
def accepted (ops : Ops K) : BlockScope K V → List (Call K V) → List (K × V)
  | _, [] => []
  | b, c :: cs =>
    (match c, (implStep ops b c).2 with
      | .declare k v, .ok => [(k, v)]
      | _, _ => []) ++ accepted ops (implStep ops b c).1 cs

/-- C66.  Freeing a block scope after any history terminates and hands every declaration that was
accepted to the removal callback, once, including those of scopes that were closed long before. -/
theorem C66_released_exactly_once (ops : Ops K) (law : Lawful ops) (history : List (Call K V)) :
    ∃ log, blockFree (runCalls (implStep ops) blockInit history).1 = some log ∧
      (log.map (fun e => (e.key, e.value))).Perm (accepted ops blockInit history) := by
  have h := (run_refines law history (relB_init (V := V))).1
  obtain ⟨log, h1, h2⟩ := blockFree_spec h.wf
  refine ⟨log, h1, h2.trans ?_⟩
  have key : ∀ (cs : List (Call K V)) (b : BlockScope K V) (s : Scopes K V), RelB ops b s →
      (allPairs (runCalls (implStep ops) b cs).1.nodes).Perm
        (accepted ops b cs ++ allPairs b.nodes) := by
    intro cs
    induction cs with
    | nil => intro b s _; exact .refl _
    | cons c cs ih =>
      intro b s hr
      obtain ⟨r1, _, r3⟩ := step_refines law hr c
      simp only [runCalls, accepted]
      refine (ih _ _ r1).trans ((r3.append_left _).trans ?_)
      rw [List.append_assoc]
      exact List.perm_append_comm_assoc _ _ _
  have := key history blockInit start relB_init
  have he : allPairs (blockInit : BlockScope K V).nodes = [] := rfl
  rw [he, List.append_nil] at this
  exact this

/-- C64.  For every history of the scopes of the parser, with any symbol table or none, an identifier
is reported as a typedef name exactly if the innermost scope that declares it declares it as one; a
declaration that contradicts an earlier one in the same scope is refused, others are accepted. -/
theorem C64_typedef_names (fresh : Nat → Nat) (interned : Option (List StrPtr))
    (history : List (PCall StrPtr)) :
    (runCalls (parserStep fresh)
        (parserInit (interned.map (fun names => (SymbolTable.run fresh SymbolTable.init names).1)))
        history).2 =
      (runCalls namesStep [[]] (history.map PCall.bytes)).2 := by
  apply parserRun_refines
  refine ⟨.cons ⟨[], HashTree.Rel.empty, rfl⟩ .nil, ?_⟩
  cases interned with
  | none => trivial
  | some names =>
    have key : ∀ (names : List StrPtr) (t : SymbolTable.Table) (ss : List (List UInt8)),
        SymbolTable.Inv fresh t ss →
          ∃ ss', SymbolTable.Inv fresh (SymbolTable.run fresh t names).1 ss' := by
      intro names
      induction names with
      | nil => intro t ss h; exact ⟨ss, h⟩
      | cons n names ih =>
        intro t ss h
        obtain ⟨ss', _, _, _, _, _, h'⟩ := SymbolTable.insert_spec h n
        exact ih _ _ h'
    exact key names _ _ (SymbolTable.inv_init fresh)

/-! ### The hypotheses are met, and the specification says something -/

def x : StrPtr := ⟨100, [120]⟩
def x' : StrPtr := ⟨200, [120]⟩
def y : StrPtr := ⟨300, [121]⟩

example : Lawful strOps := str_lawful

/-- `{ x = 1; { x = 2; use x; } use x; { use y; } }` -/
example : (runCalls (implStep strOps) (blockInit : BlockScope StrPtr Nat)
    [.declare x 1, .push, .declare x' 2, .lookup x, .declare x 3, .pop, .lookup x', .push,
      .lookup y, .pop, .pop, .isEmpty]).2 =
    [.ok, .ok, .ok, .found 2, .error .alreadyExists, .ok, .found 1, .ok,
      .error .notFound, .ok, .error .invalidChange, .bool false] := by decide +kernel

example : Balanced ([.declare x 2, .push, .declare x' 4, .pop, .lookup y] : List (Call StrPtr Nat)) :=
  .declare _ _ (.block (inner := [.declare x' 4]) (h := [.lookup y])
    (.declare _ _ .nil) (.lookup _ .nil))

example : ((blockFree (runCalls (implStep strOps) (blockInit : BlockScope StrPtr Nat)
    [.push, .declare x 1, .pop, .push, .declare x 2, .declare y 3]).1).map
      (fun l => l.map (fun e => e.value))) = some [1, 2, 3] ∨
    ((blockFree (runCalls (implStep strOps) (blockInit : BlockScope StrPtr Nat)
    [.push, .declare x 1, .pop, .push, .declare x 2, .declare y 3]).1).map
      (fun l => l.map (fun e => e.value))) = some [1, 3, 2] := by decide +kernel

/-- `typedef int x; { int x; x; { typedef int x; x; } x; } x; int x;` -/
example : (runCalls (parserStep id) (parserInit (some SymbolTable.init))
    [.declare .typedefName x, .push, .declare .variable x', .isTypedef x, .push,
      .declare .typedefName x, .isTypedef x', .pop, .isTypedef x, .pop, .isTypedef x,
      .declare .variable x, .declare .typedefName x, .isTypedef y, .pop]).2 =
    [.ok, .ok, .ok, .bool false, .ok, .ok, .bool true, .ok, .bool false, .ok, .bool true,
      .error .alreadyExists, .ok, .error .notFound, .error .invalidChange] := by decide +kernel

end Kefir.Scope
