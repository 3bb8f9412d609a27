import Verif.Passing.Spec
import Verif.Entry.Model

/-!
# Model of the arguments of a call

`source/ast-translator/function_declaration.c` and the part of `source/ast-translator/nodes/function_call.c` in front of the
`INVOKE`: which types the arguments get, and the code that evaluates, converts and pushes them; and the code behind it, for the
result.

Not modelled: the `INVOKE` itself (for its effect on the stack see `Kefir.Call`) and the analysis of the call.
-/

namespace Kefir.Passing
open Kefir.Types (Basic)
open Kefir.IR
open Kefir.Expr

/-- `struct kefir_ast_function_type`, headers/kefir/ast/type/function.h: the adjusted types of the parameters, NULL for the names
of an identifier list (source/ast/type/function.c:60-85), and whether there is an ellipsis. -/
structure FuncType where
  params : List (Option Ty)
  ellipsis : Bool
  deriving DecidableEq, Repr

/-- The types the analyzer makes: `(void)` is a list with one parameter of type void (as
source/ast/analyzer/nodes/function_call.c:98-103 expects); an empty list and an identifier list have no types
(source/ast/type/function.c:62-83). -/
def funcType : Declared → FuncType
  | .prototype ps ellipsis => ⟨if ps = [] ∧ ellipsis = false then [some .void] else ps.map some, ellipsis⟩
  | .noPrototype names => ⟨List.replicate names none, false⟩

/-- function_declaration.c:31-120 `kefir_ast_translator_function_declaration_alloc_args`: the types of the argument layouts (NULL
for a name of an identifier list for which there is no argument) and `actual_parameters_exceed_declared`.  The first list drives
the first loop, in which the iterator of the arguments stays at the end once it is there (source/core/list.c:166-174); the second
loop is the case of no more parameters. -/
def allocArgs : List (Option Ty) → List Expr → List (Option Ty) × Bool
  | [], args => (args.map fun e => some (Entry.defaultPromotion (kt e)), !args.isEmpty)
  | p :: ps, args =>
    let layout : Option Ty :=
      match p with
      | some t => some t
      | none => args.head?.map fun e => Entry.defaultPromotion (kt e)
    let rest := allocArgs ps args.tail
    (layout :: rest.1, rest.2)

/-- The IR function declaration of a call: the members of the type of its arguments, and the flag for variable arguments. -/
structure Declaration where
  args : List Ty
  vararg : Bool
  deriving DecidableEq, Repr

/-- function_declaration.c:155-190 `kefir_ast_translator_function_declaration_alloc`; a void type adds no member to the type of the
arguments (source/ast-translator/type_translate.c:91-107), an argument layout that is NULL does not either
(function_declaration.c:63-76). -/
def declaration (f : FuncType) (args : List Expr) : Declaration :=
  ⟨((allocArgs f.params args).1.filterMap id).filter (· != .void), f.ellipsis || (allocArgs f.params args).2⟩

/-- function_call.c:42-53: one argument. -/
def argument (e : Expr) (layout : Ty) : SC :=
  tr e ;; .prim (if (kt e).isScalar then typeconv (kt e) layout else [])

/-- function_call.c:31-56 `translate_parameters`: both lists are followed until one ends.  A layout that is NULL would be
dereferenced (line 51); there is none where there is an argument. -/
def arguments : List Expr → List (Option Ty) → SC
  | e :: es, l :: ls => argument e (l.getD .void) ;; arguments es ls
  | _, _ => .prim []

/-- function_call.c:58-130: the code in front of the `INVOKE`.  `callee` is the expression for the function unless it is the
name of a function with external linkage. -/
def call (callee : Option Expr) (f : FuncType) (args : List Expr) : SC :=
  (match callee with
   | none => .prim []
   | some e => tr e) ;; arguments args (allocArgs f.params args).1

/-- function_call.c:137-153: the code behind the `INVOKE`: a scalar result is normalised, an aggregate is copied to a temporary
object at these offsets from the beginning of the storage of automatic objects (source/ast-translator/temporaries.c:60-66; calls
in initialisers of objects with static storage duration are not constant). -/
def result (t : Ty) (temporary : List Nat) : List Instr :=
  if t.isScalar then normalize t
  else
    match t with
    | .agg g n => Entry.objectLvalue temporary ++ [.pick 0, .xchg 2, .bcopy (Ty.agg g n).size]
    | _ => []

end Kefir.Passing
