import Verif.ConstExpr.Model
import Verif.Enumerators.Spec

/-!
# Model of enumerators

`source/ast/analyzer/declarator.c` 222-297 (enumerations), `source/ast/type/enum.c` 183-228 (the list of the
constants of a type), `source/ast/local_context.c` and `source/ast/global_context.c` (definition and resolution of
constants), `source/ast/analyzer/nodes/identifier.c` and `source/ast/constant_expression/identifier.c` (their use).

Simplified: the trees of scopes are lists (their equivalence with nested scopes is C30); tags are left out (C89);
objects are of type `int`, without initialiser and without `extern`; allocation succeeds; constant expressions are
those of `Verif.ConstExpr.Model` plus names.
-/
namespace Kefir.Enumerators
open Kefir.Types (Basic)
open Kefir.Expr
open Kefir.IR (Word)
open Kefir.ConstExpr (Out Fault ceval int64)

/-- `struct kefir_ast_scoped_identifier`, `headers/kefir/ast/scope/scoped_identifier.h`: the classes
`ENUM_CONSTANT` (with its value) and `OBJECT`. -/
inductive KDecl where
  | constant (w : Word)
  | object
  deriving DecidableEq, Repr

/-- `ordinary_scope` of the local context, innermost first, then that of the global context. -/
abbrev KScopes := List (List (Name × KDecl))

/-- What is observed: the constants of an enumeration with its underlying type, and values of expressions. -/
inductive KEvent where
  | enumeration (values : List (Name × Word)) (underlying : Basic)
  | value (w : Word)
  deriving DecidableEq, Repr

/-- `kefir_ast_local_context_resolve_scoped_ordinary_identifier`, `ast/local_context.c` 416-433, with
`kefir_ast_identifier_block_scope_at` (`ast/scope/identifier_scope.c`) and
`kefir_ast_global_context_resolve_scoped_ordinary_identifier` (`ast/global_context.c` 370-381). -/
def resolve (x : Name) : KScopes → Option KDecl
  | [] => none
  | s :: ss =>
    match s.lookup x with
    | some d => some d
    | none => resolve x ss

/-- Analysis of the identifiers of an expression.  `kefir_ast_try_analyze_identifier`,
`analyzer/nodes/identifier.c` 26-82: an enumeration constant is a constant expression of type `int`, an object of
type `int` is an lvalue that is no constant expression; 84-100: an undeclared one is an analysis error.  The value of a
constant: `constant_expression/identifier.c` 41-46. -/
def analyze (s : KScopes) : VExpr → Out Expr
  | .lit b v => .ok (.const b v)
  | .name x =>
    match resolve x s with
    | none => .error (.err .analysisError)
    | some (.constant w) => .ok (.const .int w.toInt)
    | some .object => .ok (.lval (.glob 0 [] (.arith .int)))
  | .cast b e => (analyze s e).map (.cast (.arith b))
  | .un op e => (analyze s e).map (.un op)
  | .bin op a b => (analyze s a).bind fun a => (analyze s b).map fun b => .bin op a b
  | .land a b => (analyze s a).bind fun a => (analyze s b).map fun b => .land a b
  | .lor a b => (analyze s a).bind fun a => (analyze s b).map fun b => .lor a b
  | .cond c a b => (analyze s c).bind fun c => (analyze s a).bind fun a => (analyze s b).map fun b => .cond c a b

/-- `kefir_ast_analyze_node` (types), then `kefir_ast_constant_expression_value_evaluate`,
`constant_expression/constant_expression.c` 57-86. -/
def evaluate (s : KScopes) (e : VExpr) : Out Word :=
  match analyze s e with
  | .error f => .error f
  | .ok e =>
    match kty e with
    | none => .error (.err .analysisError)
    | some _ => if e.isConst then ceval e else .error (.err .notConstant)

/-- `kefir_ast_local_context_define_constant`, `ast/local_context.c` 922-956;
`kefir_ast_global_context_define_constant`, `ast/global_context.c` 811-846. -/
def defineConstant (x : Name) (w : Word) : KScopes → Out KScopes
  | [] => .error (.err .invalidState)
  | s :: ss =>
    match s.lookup x with
    | some _ => .error (.err .analysisError)
    | none => .ok (((x, .constant w) :: s) :: ss)

/-- Objects: `kefir_ast_local_context_define_auto`, `ast/local_context.c` 791-855 (refused when the name is declared in
the block); `kefir_ast_global_context_define_external`, `ast/global_context.c` 522-591, with
`require_ordinary_identifier_type` 407-420 (refused when it is something else than an object). -/
def defineObject (x : Name) : KScopes → Out KScopes
  | [] => .error (.err .invalidState)
  | [f] =>
    match f.lookup x with
    | some .object => .ok [f]
    | some (.constant _) => .error (.err .analysisError)
    | none => .ok [(x, .object) :: f]
  | s :: ss =>
    match s.lookup x with
    | some _ => .error (.err .analysisError)
    | none => .ok (((x, .object) :: s) :: ss)

/-- `constant_value` of one entry, `analyzer/declarator.c` 239-254. -/
def entryValue (s : KScopes) (next : Word) : Option VExpr → Out Word
  | none => .ok next
  | some e => evaluate s e

/-- The loop of `resolve_enum_type`, `analyzer/declarator.c` 234-263: `next` is `constant_value`, `known` the
constants already in the type (`type/enum.c` 183-228: a duplicate is refused), `min` is `min_constant`.
`constant_value++` is an `int64_t` operation of the host. -/
def enumLoop (s : KScopes) (next : Word) (known : List (Name × Word)) (min : Word) :
    List (Name × Option VExpr) → Out (KScopes × List (Name × Word) × Word)
  | [] => .ok (s, known, min)
  | (x, e) :: es =>
    match entryValue s next e with
    | .error f => .error f
    | .ok w =>
      if (known.lookup x).isSome then .error (.err .invalidChange)
      else
        let known := known ++ [(x, w)]
        let min := if min.toInt ≤ w.toInt then min else w
        match int64 (w.toInt + 1) with
        | .error f => .error f
        | .ok next =>
          match defineConstant x w s with
          | .error f => .error f
          | .ok s => enumLoop s next known min es

/-- `resolve_enum_type`, `analyzer/declarator.c` 222-297, a complete enumeration without a tag: 229-234 the initial
values, 265-271 the underlying type (`fixed` is the setting `fixed_enum_type`; initially `int`). -/
def resolveEnum (fixed : Bool) (s : KScopes) (es : List (Name × Option VExpr)) : Out (KScopes × KEvent) :=
  match enumLoop s 0 [] (BitVec.intMax 64) es with
  | .error f => .error f
  | .ok (s, known, min) =>
    .ok (s, .enumeration known
      (if !fixed && es.length > 0 then (if 0 ≤ min.toInt then .uint else .int) else .int))

/-- One item of a unit: blocks are `push_block` and `pop_block` of the context (`ast/local_context.c` 290-306,
453-470; refused at file scope, `ast/global_context.c` 246-258: the function body, the first block, is opened by
the creation of the local context). -/
def step (fixed : Bool) (s : KScopes) : Item → Out (KScopes × List KEvent)
  | .enter => .ok ([] :: s, [])
  | .leave =>
    match s with
    | _ :: t :: ts => .ok (t :: ts, [])
    | _ => .error (.err .invalidChange)
  | .object x => (defineObject x s).map fun s => (s, [])
  | .enumeration es => (resolveEnum fixed s es).map fun r => (r.1, [r.2])
  | .use e => (evaluate s e).map fun w => (s, [.value w])

/-- The items of a unit in turn. -/
def run (fixed : Bool) : KScopes → List Item → Out (List KEvent)
  | _, [] => .ok []
  | s, i :: is =>
    match step fixed s i with
    | .error f => .error f
    | .ok (s, ev) => (run fixed s is).map fun evs => ev ++ evs

/-- Analysis of a translation unit. -/
def analyzeUnit (fixed : Bool) (is : List Item) : Out (List KEvent) := run fixed [[]] is

end Kefir.Enumerators
