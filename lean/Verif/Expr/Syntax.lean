import Verif.IR.Builder
import Verif.Types.Spec

/-! Abstract syntax of the modelled C expressions: the AST nodes of `headers/kefir/ast/node.h` that denote scalar
expressions, after name resolution. -/
namespace Kefir.Expr
open Kefir.Types (Basic)
open Kefir.IR (Fmt Word)

/-- Object types.  Qualifiers are dropped (the translator drops them too, `kefir_ast_translator_normalize_type`);
enumerations are their underlying `int`; structures and unions are a tag and a size.  Function types, `va_list` and
variable-length arrays are not modelled. -/
inductive Ty
  | void
  | arith (b : Basic)
  | ptr (t : Ty)
  | agg (tag size : Nat)
  | arr (t : Ty) (n : Nat)
  deriving DecidableEq, Repr

/-- Size in bytes of the arithmetic types (`codegen/amd64/system-v/abi/data_layout.c` 32-72). -/
def basicSize : Basic → Nat
  | .bool | .char | .uchar | .schar => 1
  | .ushort | .short => 2
  | .uint | .int | .float => 4
  | .ulong | .long | .ullong | .llong | .double => 8
  | .ldouble => 16

def Ty.size : Ty → Nat
  | .void => 0
  | .arith b => basicSize b
  | .ptr _ => 8
  | .agg _ s => s
  | .arr t n => n * t.size

/-- Unary arithmetic operators (`+ - ~ !`). -/
inductive UnOp
  | plus | neg | bnot | lnot
  deriving DecidableEq, Repr

/-- Binary operators that evaluate both operands. -/
inductive BinOp
  | add | sub | mul | div | mod | shl | shr | band | bxor | bor
  | lt | gt | le | ge | eq | ne
  deriving DecidableEq, Repr

mutual
/-- Expressions.  Sub-expressions that designate objects are in `LV`. -/
inductive Expr
  /-- integer or character constant of the given type; enumeration constant -/
  | const (b : Basic) (v : Int)
  /-- floating constant: its bit pattern -/
  | fconst (f : Fmt) (x : BitVec f.bits)
  /-- string literal: symbol of the anonymous array -/
  | str (id : Nat)
  /-- value of an lvalue; for arrays and aggregates: the designated object -/
  | lval (l : LV)
  | addr (l : LV)
  | cast (t : Ty) (e : Expr)
  | un (op : UnOp) (e : Expr)
  | bin (op : BinOp) (a b : Expr)
  | land (a b : Expr)
  | lor (a b : Expr)
  | cond (c a b : Expr)
  /-- GNU `c ?: b` -/
  | elvis (c b : Expr)
  | comma (a b : Expr)
  | assign (l : LV) (e : Expr)
  | assignOp (op : BinOp) (l : LV) (e : Expr)
  /-- `++x`, `--x`, `x++`, `x--` -/
  | incdec (post dec : Bool) (l : LV)
  /-- `sizeof (t)`; also `sizeof e`, whose operand is not evaluated -/
  | sizeof (t : Ty)
/-- Lvalues.  `offs` are the relative offsets of the layout levels between the base and the member. -/
inductive LV
  /-- automatic object -/
  | auto (offs : List Nat) (t : Ty)
  /-- object with static storage duration -/
  | glob (id : Nat) (offs : List Nat) (t : Ty)
  | deref (e : Expr)
  | index (a i : Expr)
  /-- `e.m` and `e->m`; for a bit-field also bit offset from the member's address and width -/
  | member (e : Expr) (offs : List Nat) (t : Ty) (bf : Option (Nat × Nat))
end

/-- Array-to-pointer conversion (`kefir_ast_type_conv_expression_all`, `ast/type_conv.c` 155-176, on the modelled types). -/
def Ty.dec : Ty → Ty
  | .arr t _ => .ptr t
  | t => t

/-- Floating format of an arithmetic type. -/
def fmtOf : Basic → Option Fmt
  | .float => some .f32
  | .double => some .f64
  | .ldouble => some .f80
  | _ => none

/-- Arithmetic type of a floating format. -/
def ofFmt : Fmt → Basic
  | .f32 => .float
  | .f64 => .double
  | .f80 => .ldouble

/-- Bit-field position of an lvalue, if it designates a bit-field
(`ast/analyzer/nodes/struct_member.c` 83-86: set by member access only). -/
def LV.bf : LV → Option (Nat × Nat)
  | .member _ _ _ bf => bf
  | _ => none

/-- Bit-field width of an operand. -/
def Expr.bfw : Expr → Option Nat
  | .lval l => l.bf.map (·.2)
  | _ => none

end Kefir.Expr
