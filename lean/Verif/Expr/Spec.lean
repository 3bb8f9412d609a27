import Verif.Expr.Syntax

/-! What C17 says about the modelled expressions, for an LP64 implementation with two's complement integers, 8-bit signed
`char`, flat 64-bit pointers, little-endian memory, wrapping conversions to signed types and arithmetic right shifts
(the implementation-defined choices of kefir's only target).  Nothing here refers to kefir's analyzer or
translator; only the syntax, the byte memory and the abstract floating-point unit are shared.

`none` is undefined behaviour.  C leaves the order of evaluation of operands open (and makes conflicting unsequenced
side effects undefined); a fixed order is chosen here: left operand first, except that of a pointer and an integer operand
of `+` and `[]` the pointer comes first, and that an assignment evaluates its right side first. -/
namespace Kefir.CSpec
open Kefir.Types (Basic)
open Kefir.IR (Fmt FP FArith Word Mem)
open Kefir.Expr
open Kefir.C17

/-- Values of expressions: integers (also addresses: of pointers, and the address of a designated array or
structure), floating values of a format, no value. -/
inductive Val
  | int (v : Int)
  | fl (f : Fmt) (x : BitVec f.bits)
  | void

/-! ### Types -/

/-- Integer promotions (C17 6.3.1.1p2), `w` the width of a bit-field operand.  Bit-fields wider than `int` of a
type above `int` keep their type. -/
def promoteW (b : Basic) (w : Option Nat) : Basic :=
  if !isInteger b then b
  else match w with
    | none => promote b
    | some w => if w < 32 ∨ (w = 32 ∧ signed b = true) then .int else b

/-- Usual arithmetic conversions (6.3.1.8). -/
def common (b1 : Basic) (w1 : Option Nat) (b2 : Basic) (w2 : Option Nat) : Basic :=
  commonReal (promoteW b1 w1) (promoteW b2 w2)

def isInt : Ty → Bool
  | .arith b => isInteger b
  | _ => false

def isArithT : Ty → Bool
  | .arith _ => true
  | _ => false

def isScalarT : Ty → Bool
  | .arith _ | .ptr _ => true
  | _ => false

def complete : Ty → Bool
  | .void => false
  | _ => true

/-- Null pointer constant (6.3.2.3p3), as a literal. -/
def isNullConst : Expr → Bool
  | .const b v => isInteger b && v == 0
  | .cast (.ptr .void) (.const b v) => isInteger b && v == 0
  | _ => false

def commonT (t1 : Ty) (w1 : Option Nat) (t2 : Ty) (w2 : Option Nat) : Option Ty :=
  match t1, t2 with
  | .arith b1, .arith b2 => some (.arith (common b1 w1 b2 w2))
  | _, _ => none

/-- Result types of the binary operators (6.5.5-6.5.12). -/
def binTy (op : BinOp) (t1 : Ty) (w1 : Option Nat) (n1 : Bool) (t2 : Ty) (w2 : Option Nat) (n2 : Bool) : Option Ty :=
  match op with
  | .mul | .div => commonT t1 w1 t2 w2
  | .mod | .band | .bxor | .bor => if isInt t1 && isInt t2 then commonT t1 w1 t2 w2 else none
  | .add =>
    match t1, t2 with
    | .ptr t, t2 => if complete t && isInt t2 then some (.ptr t) else none
    | t1, .ptr t => if complete t && isInt t1 then some (.ptr t) else none
    | t1, t2 => commonT t1 w1 t2 w2
  | .sub =>
    match t1, t2 with
    | .ptr t, .ptr u => if complete t && t == u then some (.arith .long) else none
    | .ptr t, t2 => if complete t && isInt t2 then some (.ptr t) else none
    | t1, t2 => commonT t1 w1 t2 w2
  | .shl | .shr =>
    match t1 with
    | .arith b => if isInteger b && isInt t2 then some (.arith (promoteW b w1)) else none
    | _ => none
  | .lt | .gt | .le | .ge =>
    match t1, t2 with
    | .arith _, .arith _ => some (.arith .int)
    | .ptr t, .ptr u => if t == u then some (.arith .int) else none
    | _, _ => none
  | .eq | .ne =>
    match t1, t2 with
    | .arith _, .arith _ => some (.arith .int)
    | .ptr t, .ptr u => if t == u || t == .void || u == .void then some (.arith .int) else none
    | .ptr _, t2 => if isInt t2 && n2 then some (.arith .int) else none
    | t1, .ptr _ => if isInt t1 && n1 then some (.arith .int) else none
    | _, _ => none

/-- Result type of the conditional operator (6.5.15). -/
def condTy (t1 : Ty) (w1 : Option Nat) (n1 : Bool) (t2 : Ty) (w2 : Option Nat) (n2 : Bool) : Option Ty :=
  match t1, t2 with
  | .arith b1, .arith b2 => some (.arith (common b1 w1 b2 w2))
  | .agg g s, t2 => if t2 = .agg g s then some t2 else none
  | .void, .void => some .void
  | .ptr t, .ptr u =>
    if n2 then some (.ptr t)
    else if n1 then some (.ptr u)
    else if t = .void ∨ u = .void then some (.ptr .void)
    else if t = u then some (.ptr t) else none
  | .ptr t, _ => if n2 then some (.ptr t) else none
  | _, .ptr u => if n1 then some (.ptr u) else none
  | _, _ => none

/-- Constraints of simple assignment (6.5.16.1). -/
def assignable (lt t : Ty) (n : Bool) : Bool :=
  match lt, t with
  | .arith _, .arith _ => true
  | .arith .bool, .ptr _ => true
  | .agg g s, t => t == .agg g s
  | .ptr u, .ptr v => u == v || u == .void || v == .void
  | .ptr _, t => isInt t && n
  | _, _ => false

/-- Constraints of compound assignment (6.5.16.2). -/
def opAssignable (op : BinOp) (lt t : Ty) : Bool :=
  match op with
  | .add | .sub =>
    match lt with
    | .ptr u => complete u && isInt t
    | _ => isArithT lt && isArithT t
  | .mul | .div => isArithT lt && isArithT t
  | .mod | .shl | .shr | .band | .bxor | .bor => isInt lt && isInt t
  | _ => false

/-- Casts (6.5.4). -/
def castable (t u : Ty) : Bool :=
  match t, u with
  | .void, _ => true
  | .arith _, .arith _ => true
  | .arith b, .ptr _ => isInteger b
  | .ptr _, .arith b => isInteger b
  | .ptr _, .ptr _ => true
  | _, _ => false

/-- A bit-field of the type can have the width (6.7.2.1p4, p5). -/
def fieldOk (t : Ty) (bf : Option (Nat × Nat)) : Bool :=
  match bf, t with
  | none, t => complete t
  | some (_, w), .arith b => isInteger b && decide (1 ≤ w ∧ w ≤ width b)
  | _, _ => false

mutual
/-- The type of an expression; `none`: a constraint violation. -/
def cty : Expr → Option Ty
  | .const b v => if isInteger b = true ∧ InRange b v then some (.arith b) else none
  | .fconst f _ => some (.arith (ofFmt f))
  | .str _ => some (.ptr (.arith .char))
  | .lval l => (clty l).map Ty.dec
  | .addr l => if l.bf.isSome then none else (clty l).map .ptr
  | .cast t e => (cty e).bind fun u => if castable t u then some t else none
  | .un op e =>
    (cty e).bind fun u =>
      match op, u with
      | .plus, .arith b => some (.arith (promoteW b e.bfw))
      | .neg, .arith b => some (.arith (promoteW b e.bfw))
      | .bnot, .arith b => if isInteger b then some (.arith (promoteW b e.bfw)) else none
      | .lnot, u => if isScalarT u then some (.arith .int) else none
      | _, _ => none
  | .bin op a b =>
    (cty a).bind fun t1 => (cty b).bind fun t2 => binTy op t1 a.bfw (isNullConst a) t2 b.bfw (isNullConst b)
  | .land a b =>
    (cty a).bind fun t1 => (cty b).bind fun t2 =>
      if isScalarT t1 && isScalarT t2 then some (.arith .int) else none
  | .lor a b =>
    (cty a).bind fun t1 => (cty b).bind fun t2 =>
      if isScalarT t1 && isScalarT t2 then some (.arith .int) else none
  | .cond c a b =>
    (cty c).bind fun t => (cty a).bind fun t1 => (cty b).bind fun t2 =>
      if isScalarT t then condTy t1 a.bfw (isNullConst a) t2 b.bfw (isNullConst b) else none
  | .elvis c b =>
    (cty c).bind fun t1 => (cty b).bind fun t2 =>
      if isScalarT t1 then condTy t1 c.bfw (isNullConst c) t2 b.bfw (isNullConst b) else none
  | .comma a b => (cty a).bind fun _ => cty b
  | .assign l e =>
    (clty l).bind fun lt => (cty e).bind fun t =>
      if assignable lt t (isNullConst e) then some lt else none
  | .assignOp op l e =>
    (clty l).bind fun lt => (cty e).bind fun t => if opAssignable op lt t then some lt else none
  | .incdec _ _ l =>
    (clty l).bind fun lt =>
      match lt with
      | .arith _ => some lt
      | .ptr u => if complete u then some lt else none
      | _ => none
  | .sizeof t => if complete t then some (.arith .ulong) else none
/-- The type of an lvalue. -/
def clty : LV → Option Ty
  | .auto _ t => if complete t then some t else none
  | .glob _ _ t => if complete t then some t else none
  | .deref e =>
    (cty e).bind fun u =>
      match u with
      | .ptr t => some t
      | _ => none
  | .index a i =>
    (cty a).bind fun t1 => (cty i).bind fun t2 =>
      match t1, t2 with
      | .ptr t, t2 => if complete t && isInt t2 then some t else none
      | t1, .ptr t => if complete t && isInt t1 then some t else none
      | _, _ => none
  | .member e _ t bf =>
    (cty e).bind fun u =>
      match u with
      | .agg _ _ => if fieldOk t bf then some t else none
      | .ptr (.agg _ _) => if fieldOk t bf then some t else none
      | _ => none
end

/-- Type of an expression that has one. -/
def ct (e : Expr) : Ty := (cty e).getD .void
def clt (l : LV) : Ty := (clty l).getD .void

/-! ### Values -/

/-- Conversion of an integer to an integer type (6.3.1.2, 6.3.1.3): 0 or 1 for `_Bool`, modulo 2^N otherwise. -/
def wrap (b : Basic) (v : Int) : Int :=
  if b = .bool then (if v = 0 then 0 else 1)
  else if signed b then v.bmod (2 ^ width b)
  else v % 2 ^ width b

/-- Positive or negative zero: every bit but the sign bit is clear. -/
def isZero (f : Fmt) (x : BitVec f.bits) : Bool := x.setWidth (f.bits - 1) == 0

/-- Conversion between floating formats. -/
def cvtF (F : FP) (f g : Fmt) (x : BitVec f.bits) : BitVec g.bits :=
  if h : f = g then h ▸ x else F.cvt f g x

/-- Conversion of a value to a type (6.3.1, 6.3.2.3). -/
def conv (F : FP) (t : Ty) (v : Val) : Option Val :=
  match t, v with
  | .void, _ => some .void
  | .ptr _, .int v => some (.int (v % 2 ^ 64))
  | .arith b, .int v =>
    match fmtOf b with
    | some g => some (.fl g (F.ofInt g v))
    | none => some (.int (wrap b v))
  | .arith b, .fl f x =>
    match fmtOf b with
    | some g => some (.fl g (cvtF F f g x))
    | none =>
      if b = .bool then some (.int (if isZero f x then 0 else 1))
      else (F.trunc f x).bind fun n => if InRange b n then some (.int n) else none
  | .agg _ _, .int v => some (.int v)
  | _, _ => none

/-- A scalar compares unequal to zero. -/
def truth : Val → Option Bool
  | .int v => some (v != 0)
  | .fl f x => some (!isZero f x)
  | .void => none

/-- Integer result of an arithmetic operation: signed overflow is undefined, unsigned arithmetic is modulo 2^N. -/
def chk (c : Basic) (r : Int) : Option Int :=
  if signed c then (if InRange c r then some r else none) else some (r % 2 ^ width c)

/-- The value of a bit pattern as an integer of signedness `sg`. -/
def valOf (sg : Bool) {n : Nat} (x : BitVec n) : Int := if sg then x.toInt else x.toNat

/-- Bitwise operators act on the two's complement representations. -/
def bitwise (c : Basic) (f : BitVec (width c) → BitVec (width c) → BitVec (width c)) (a b : Int) : Int :=
  valOf (signed c) (f (BitVec.ofInt (width c) a) (BitVec.ofInt (width c) b))

/-- Arithmetic on two integers of the (promoted) type `c`. -/
def arithInt (op : BinOp) (c : Basic) (a b : Int) : Option Int :=
  match op with
  | .add => chk c (a + b)
  | .sub => chk c (a - b)
  | .mul => chk c (a * b)
  | .div => if b = 0 then none else chk c (a.tdiv b)
  | .mod => if b = 0 then none else (chk c (a.tdiv b)).map fun _ => a.tmod b
  | .band => some (bitwise c (· &&& ·) a b)
  | .bxor => some (bitwise c (· ^^^ ·) a b)
  | .bor => some (bitwise c (· ||| ·) a b)
  | _ => none

/-- Shift of a value of the (promoted) type `c` by `n` (6.5.7). -/
def shiftInt (op : BinOp) (c : Basic) (a n : Int) : Option Int :=
  if n < 0 ∨ (width c : Int) ≤ n then none
  else match op with
    | .shl => if signed c = true ∧ a < 0 then none else chk c (a * 2 ^ n.toNat)
    | .shr => some (a / 2 ^ n.toNat)
    | _ => none

def arithFl (F : FP) (op : BinOp) (f : Fmt) (x y : BitVec f.bits) : Option (BitVec f.bits) :=
  match op with
  | .add => some (F.arith .add f x y)
  | .sub => some (F.arith .sub f x y)
  | .mul => some (F.arith .mul f x y)
  | .div => some (F.arith .div f x y)
  | _ => none

/-- Comparison of two values of one type. -/
def compareV (F : FP) (op : BinOp) (v w : Val) : Option Bool :=
  match v, w with
  | .int a, .int b =>
    match op with
    | .lt => some (decide (a < b))
    | .gt => some (decide (b < a))
    | .le => some (decide (a ≤ b))
    | .ge => some (decide (b ≤ a))
    | .eq => some (decide (a = b))
    | .ne => some (decide (a ≠ b))
    | _ => none
  | .fl f x, .fl g y =>
    if h : g = f then
      let y : BitVec f.bits := h ▸ y
      match op with
      | .lt => some (F.lt f x y)
      | .gt => some (F.lt f y x)
      | .le => some (F.lt f x y || F.eq f x y)
      | .ge => some (F.lt f y x || F.eq f x y)
      | .eq => some (F.eq f x y)
      | .ne => some (!F.eq f x y)
      | _ => none
    else none
  | _, _ => none

/-- Arithmetic on two values of the arithmetic type `c`. -/
def arithV (F : FP) (op : BinOp) (c : Basic) (v w : Val) : Option Val :=
  match v, w with
  | .int a, .int b => (arithInt op c a b).map .int
  | .fl f x, .fl g y => if h : g = f then (arithFl F op f x (h ▸ y)).map (.fl f) else none
  | _, _ => none

def ofBoolV (b : Bool) : Val := .int (if b then 1 else 0)

/-- Pointer plus integer times element size, in the flat address space. -/
def ptrAdd (p i : Int) (size : Nat) : Int := (p + i * size) % 2 ^ 64

/-- Pointer difference (6.5.6p9): the byte distance must be a multiple of the size and fit `ptrdiff_t`. -/
def ptrSub (p q : Int) (size : Nat) : Option Int :=
  if size = 0 ∨ 2 ^ 63 ≤ size then none
  else if (p - q) % size = 0 ∧ InRange .long (p - q) then some ((p - q) / size) else none

/-- A binary operator on operand values of given types and bit-field widths. -/
def binV (F : FP) (op : BinOp) (t1 : Ty) (w1 : Option Nat) (v1 : Val) (t2 : Ty) (w2 : Option Nat) (v2 : Val) :
    Option Val :=
  match op with
  | .lt | .gt | .le | .ge | .eq | .ne =>
    match t1, t2 with
    | .arith b1, .arith b2 =>
      (conv F (.arith (common b1 w1 b2 w2)) v1).bind fun v1 =>
      (conv F (.arith (common b1 w1 b2 w2)) v2).bind fun v2 =>
      (compareV F op v1 v2).map ofBoolV
    | _, _ => (compareV F op v1 v2).map ofBoolV
  | .shl | .shr =>
    match t1, v1, v2 with
    | .arith b1, .int a, .int n => (shiftInt op (promoteW b1 w1) a n).map .int
    | _, _, _ => none
  | op =>
    match t1, t2 with
    | .arith b1, .arith b2 =>
      (conv F (.arith (common b1 w1 b2 w2)) v1).bind fun v1 =>
      (conv F (.arith (common b1 w1 b2 w2)) v2).bind fun v2 =>
      arithV F op (common b1 w1 b2 w2) v1 v2
    | .ptr t, .ptr _ =>
      match op, v1, v2 with
      | .sub, .int p, .int q => (ptrSub p q t.size).map .int
      | _, _, _ => none
    | .ptr t, _ =>
      match op, v1, v2 with
      | .add, .int p, .int i => some (.int (ptrAdd p i t.size))
      | .sub, .int p, .int i => some (.int (ptrAdd p (-i) t.size))
      | _, _, _ => none
    | _, .ptr t =>
      match op, v1, v2 with
      | .add, .int i, .int p => some (.int (ptrAdd p i t.size))
      | _, _, _ => none
    | _, _ => none

/-- A unary operator on an operand of arithmetic type `b` (or any scalar, for `!`). -/
def unV (op : UnOp) (t : Ty) (w : Option Nat) (v : Val) : Option Val :=
  match op, t, v with
  | .plus, .arith _, v => some v
  | .neg, .arith b, .int v => (chk (promoteW b w) (-v)).map .int
  | .neg, .arith _, .fl f x => some (.fl f (x ^^^ BitVec.intMin f.bits))
  | .bnot, .arith b, .int v =>
    some (.int (valOf (signed (promoteW b w)) (~~~ BitVec.ofInt (width (promoteW b w)) v)))
  | .lnot, _, v => (truth v).map fun b => ofBoolV (!b)
  | _, _, _ => none

/-! ### Memory -/

/-- Bit `k` counted from the least significant bit of the byte at `a`. -/
def bitOf (m : Mem) (a : Word) (k : Nat) : Bool := (m (a + BitVec.ofNat 64 (k / 8))).getLsbD (k % 8)

/-- Bit pattern from its bits, least significant first. -/
def ofBits (f : Nat → Bool) : (n : Nat) → BitVec n
  | 0 => 0#0
  | n + 1 => BitVec.cons (f n) (ofBits f n)

/-- `w` bits starting `off` bits after `a`. -/
def readBits (m : Mem) (a : Word) (off w : Nat) : BitVec w := ofBits (fun i => bitOf m a (off + i)) w

/-- Replace those bits and no others. -/
def writeBits (m : Mem) (a : Word) (off w : Nat) (v : BitVec w) : Mem := fun x =>
  ofBits (fun j =>
    let k := 8 * (x - a).toNat + j
    if off ≤ k ∧ k < off + w then v.getLsbD (k - off) else (m x).getLsbD j) 8

/-- Value of the object (or bit-field) of type `t` at `a`. -/
def load (t : Ty) (bf : Option (Nat × Nat)) (m : Mem) (a : Word) : Option Val :=
  match bf, t with
  | some (off, w), .arith b => some (.int (valOf (signed b) (readBits m a off w)))
  | some _, _ => none
  | none, .void => some .void
  | none, .arith b =>
    match fmtOf b with
    | some f => some (.fl f (readBits m a 0 f.bits))
    | none =>
      let v := valOf (signed b) (readBits m a 0 (8 * basicSize b))
      -- a byte other than 0 and 1 is not a value of `_Bool`
      if InRange b v then some (.int v) else none
  | none, .ptr _ => some (.int (readBits m a 0 64).toNat)
  | none, .agg _ _ => some (.int a.toNat)
  | none, .arr _ _ => some (.int a.toNat)

/-- Neither of two objects of `n` bytes begins inside the other, unless they coincide (6.5.16.1p3). -/
def NoOverlap (a b : Word) (n : Nat) : Prop := a = b ∨ (n ≤ (a - b).toNat ∧ n ≤ (b - a).toNat)

instance (a b : Word) (n : Nat) : Decidable (NoOverlap a b n) := inferInstanceAs (Decidable (_ ∨ _))

/-- Copy `n` bytes. -/
def copyBytes (m : Mem) (dst src : Word) (n : Nat) : Mem := fun x =>
  if (x - dst).toNat < n then m (src + (x - dst)) else m x

/-- Memory after storing a value of type `t` (already converted). -/
def store (t : Ty) (bf : Option (Nat × Nat)) (m : Mem) (a : Word) (v : Val) : Option Mem :=
  match bf, t, v with
  | some (off, w), .arith _, .int v => some (writeBits m a off w (BitVec.ofInt w v))
  | none, .arith b, .int v => some (writeBits m a 0 (8 * basicSize b) (BitVec.ofInt _ v))
  | none, .arith _, .fl f x => some (writeBits m a 0 f.bits x)
  | none, .ptr _, .int v => some (writeBits m a 0 64 (BitVec.ofInt 64 v))
  | none, .agg _ n, .int src =>
    if NoOverlap a (BitVec.ofInt 64 src) n then some (copyBytes m a (BitVec.ofInt 64 src) n) else none
  | _, _, _ => none

/-- Value of an assignment expression: the value of the left operand after the assignment (6.5.16p3). -/
def assigned (t : Ty) (bf : Option (Nat × Nat)) (v : Val) : Val :=
  match bf, t, v with
  | some (_, w), .arith b, .int v => .int (valOf (signed b) (BitVec.ofInt w v))
  | _, _, v => v

/-- `v` plus or minus one, as `v += 1` computes it (6.5.2.4, 6.5.3.1). -/
def incdecV (F : FP) (t : Ty) (w : Option Nat) (dec : Bool) (v : Val) : Option Val :=
  (binV F (if dec then .sub else .add) t w v (.arith .int) none (.int 1)).bind (conv F t)

/-! ### Evaluation -/

/-- Address of the sub-object behind a list of relative offsets. -/
def offsetBy (a : Word) (offs : List Nat) : Word := a + BitVec.ofNat 64 offs.sum

/-- The machine-dependent part of an evaluation: floating-point unit, address of the frame, of globals and literals. -/
structure Ctx where
  fp : FP
  frame : Word
  symbol : Nat → Word

mutual
/-- Value and final memory of an expression. -/
def eval (C : Ctx) : Expr → Mem → Option (Val × Mem)
  | .const _ v, m => some (.int v, m)
  | .fconst f x, m => some (.fl f x, m)
  | .str id, m => some (.int (C.symbol id).toNat, m)
  | .lval l, m => (evalL C l m).bind fun (a, m) => (load (clt l) l.bf m a).map fun v => (v, m)
  | .addr l, m => (evalL C l m).map fun (a, m) => (.int a.toNat, m)
  | .cast t e, m => (eval C e m).bind fun (v, m) => (conv C.fp t v).map fun v => (v, m)
  | .un op e, m => (eval C e m).bind fun (v, m) => (unV op (ct e) e.bfw v).map fun v => (v, m)
  | .bin op a b, m =>
    match op, ct a, ct b with
    | .add, .arith _, .ptr _ =>
      (eval C b m).bind fun (v2, m) => (eval C a m).bind fun (v1, m) =>
        (binV C.fp op (ct a) a.bfw v1 (ct b) b.bfw v2).map fun v => (v, m)
    | _, _, _ =>
      (eval C a m).bind fun (v1, m) => (eval C b m).bind fun (v2, m) =>
        (binV C.fp op (ct a) a.bfw v1 (ct b) b.bfw v2).map fun v => (v, m)
  | .land a b, m =>
    (eval C a m).bind fun (v, m) => (truth v).bind fun x =>
      if x then (eval C b m).bind fun (v, m) => (truth v).map fun y => (ofBoolV y, m)
      else some (.int 0, m)
  | .lor a b, m =>
    (eval C a m).bind fun (v, m) => (truth v).bind fun x =>
      if x then some (.int 1, m)
      else (eval C b m).bind fun (v, m) => (truth v).map fun y => (ofBoolV y, m)
  | .cond c a b, m =>
    (eval C c m).bind fun (v, m) => (truth v).bind fun x =>
      (if x then eval C a m else eval C b m).bind fun (v, m) =>
        (conv C.fp (ct (.cond c a b)) v).map fun v => (v, m)
  | .elvis c b, m =>
    (eval C c m).bind fun (v, m) => (truth v).bind fun x =>
      (if x then some (v, m) else eval C b m).bind fun (v, m) =>
        (conv C.fp (ct (.elvis c b)) v).map fun v => (v, m)
  | .comma a b, m => (eval C a m).bind fun (_, m) => eval C b m
  | .assign l e, m =>
    (eval C e m).bind fun (v, m) => (conv C.fp (clt l) v).bind fun v =>
      (evalL C l m).bind fun (a, m) => (store (clt l) l.bf m a v).map fun m => (assigned (clt l) l.bf v, m)
  | .assignOp op l e, m =>
    (eval C e m).bind fun (v, m) => (evalL C l m).bind fun (a, m) =>
      (load (clt l) l.bf m a).bind fun cur =>
      (binV C.fp op (clt l) (l.bf.map (·.2)) cur (ct e) e.bfw v).bind fun r => (conv C.fp (clt l) r).bind fun r =>
        (store (clt l) l.bf m a r).map fun m => (assigned (clt l) l.bf r, m)
  | .incdec post dec l, m =>
    (evalL C l m).bind fun (a, m) => (load (clt l) l.bf m a).bind fun cur =>
      (incdecV C.fp (clt l) (l.bf.map (·.2)) dec cur).bind fun r =>
        (store (clt l) l.bf m a r).map fun m => (if post then cur else assigned (clt l) l.bf r, m)
  | .sizeof t, m => some (.int t.size, m)
/-- Address designated by an lvalue, and memory after computing it. -/
def evalL (C : Ctx) : LV → Mem → Option (Word × Mem)
  | .auto offs _, m => some (offsetBy C.frame offs, m)
  | .glob id offs _, m => some (offsetBy (C.symbol id) offs, m)
  | .deref e, m =>
    (eval C e m).bind fun (v, m) =>
      match v with
      | .int a => some (BitVec.ofInt 64 a, m)
      | _ => none
  | .index a i, m =>
    match ct a with
    | .ptr t =>
      (eval C a m).bind fun (v, m) => (eval C i m).bind fun (w, m) =>
        match v, w with
        | .int p, .int i => some (BitVec.ofInt 64 (ptrAdd p i t.size), m)
        | _, _ => none
    | _ =>
      (eval C i m).bind fun (v, m) => (eval C a m).bind fun (w, m) =>
        match v, w, ct i with
        | .int p, .int i, .ptr t => some (BitVec.ofInt 64 (ptrAdd p i t.size), m)
        | _, _, _ => none
  | .member e offs _ _, m =>
    (eval C e m).bind fun (v, m) =>
      match v with
      | .int a => some (offsetBy (BitVec.ofInt 64 a) offs, m)
      | _ => none
end

/-! ### Agreement with machine words -/

/-- `ws` (top of the stack first) represents the value: integers and addresses as the 64-bit word that is congruent
to them, `float` in the low half of a word, `double` in a word, `long double` in two. -/
def Rep : Val → List Word → Prop
  | .int v, ws => ws = [BitVec.ofInt 64 v]
  | .fl .f32 x, ws => ∃ w : Word, ws = [w] ∧ w.setWidth 32 = x
  | .fl .f64 x, ws => ws = [x]
  | .fl .f80 x, ws => ∃ w0 w1 : Word, ws = [w0, w1] ∧ w1.setWidth 16 ++ w0 = x
  | .void, ws => ws = []

/-- The value is one of the type. -/
def HasTy (t : Ty) (v : Val) : Prop :=
  match t, v with
  | .void, .void => True
  | .arith b, .int v => isInteger b = true ∧ InRange b v
  | .arith b, .fl f _ => b = ofFmt f
  | .ptr _, .int v => 0 ≤ v ∧ v < 2 ^ 64
  | .agg _ _, .int v => 0 ≤ v ∧ v < 2 ^ 64
  | _, _ => False

end Kefir.CSpec
