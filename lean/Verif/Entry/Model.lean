import Verif.Entry.Spec
import Verif.Expr.Translate

/-!
# Model of the entry of a function

`source/ast-translator/function_translator.c`: the code in front of the body of a function, which stores the arguments, found on
the operand stack, in the local variables of the parameters.

Not modelled: the size expressions of variably modified parameter types, which are evaluated behind the stores
(function_translator.c:256-264, 341-379).
-/

namespace Kefir.Entry
open Kefir.Types (Basic)
open Kefir.IR
open Kefir.Expr

/-- headers/kefir/ast/type/basic.h:70 `KEFIR_AST_TYPE_IS_LONG_DOUBLE`: looks at the tag of the type, which for a qualified type is
that of a qualified type. -/
def isLongDouble (qualified : Bool) (t : Ty) : Bool := !qualified && t == .arith .ldouble

/-- function_translator.c:242-248 `xchg_param_address`. -/
def xchgParamAddress (qualified : Bool) (t : Ty) : List Instr :=
  (if isLongDouble qualified t then [.xchg 2] else []) ++ [.xchg 1]

/-- source/ast-translator/lvalue.c:109-119, automatic objects other than variable-length arrays, and
source/ast-translator/misc.c:114-129. -/
def objectLvalue (offs : List Nat) : List Instr := .getlocals :: offsets offs

/-- source/ast/type_conv.c:136-147 `kefir_ast_type_function_default_argument_convertion_promotion`. -/
def defaultPromotion (t : Ty) : Ty :=
  match t.dec with
  | .arith b => .arith (b.defaultArgPromotion.getD b)
  | t => t

/-- function_translator.c:285-317: a parameter of a prototype.  The object of a parameter with a name has an unqualified type
(source/ast/function_declaration_context.c:260-282); a parameter without a name has the type of its declarator
(source/ast/analyzer/nodes/init_declarator.c:103). -/
def storePrototype (p : Param) : List Instr :=
  if p.ty = .void ∧ p.qualified = false then []
  else
    match p.place with
    | some offs => objectLvalue offs ++ xchgParamAddress false p.ty ++ storeValue p.ty
    | none => (if isLongDouble p.qualified p.ty then [.pop] else []) ++ [.pop]

/-- function_translator.c:318-333: a parameter of an identifier list.  Its object has the type of its declaration, adjusted, with
its qualifiers (source/ast/analyzer/nodes/function_definition.c:96-117); conversions and stores drop them
(source/ast-translator/util.c:24-28). -/
def storeIdentifier (p : Param) : List Instr :=
  match p.place with
  | some offs =>
    objectLvalue offs ++ xchgParamAddress p.qualified p.ty ++
      (if (defaultPromotion p.ty).isScalar then typeconv (defaultPromotion p.ty) p.ty else []) ++ storeValue p.ty
  | none => []

/-- One iteration of the loop in function_translator.c:281-338. -/
def storeParam : Style → Param → List Instr
  | .prototype => storePrototype
  | .identifiers => storeIdentifier

/-- function_translator.c:281-338: from the last parameter to the first. -/
def entry (style : Style) (ps : List Param) : List Instr := ps.reverse.flatMap (storeParam style)

end Kefir.Entry
