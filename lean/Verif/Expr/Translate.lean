import Verif.Expr.Analyzer

/-! The expression translator (`ast-translator/nodes/*.c`, `typeconv.c`, `value.c`, `lvalue.c`): from analysed
expressions to IR code. -/
namespace Kefir.Expr
open Kefir.Types (Basic)
open Kefir.IR

infixr:60 " ;; " => SC.seq

/-- `cast_to_float32/64`, `cast_to_long_double`, `ast-translator/typeconv.c` 26-90. -/
def castToFloat (g : Fmt) (origin : Ty) : List Instr :=
  match origin with
  | .arith b =>
    match fmtOf b with
    | none => if b.isSigned then [.intcf g] else [.uintcf g]
    | some f => [.fcf f g]
  | _ => []

/-- Second half of `cast_to_integer`, `typeconv.c` 109-157: reduction to the target type. -/
def reduceTo : Basic → List Instr
  | .bool => [.un .trunc1]
  | .char | .schar => [.un .ext8]
  | .uchar => [.push 0xff, .bin .and]
  | .ushort => [.push 0xffff, .bin .and]
  | .short => [.un .ext16]
  | .uint => [.push 0xffffffff, .bin .and]
  | .int => [.un .ext32]
  | _ => []

/-- `cast_to_integer`, `typeconv.c` 92-159. -/
def castToInteger (origin : Ty) (target : Basic) : List Instr :=
  (match origin with
   | .arith b =>
     match fmtOf b with
     | some f => [.fcint f]
     | none => []
   | _ => []) ++ reduceTo target

/-- `kefir_ast_translate_typeconv_normalize`, `typeconv.c` 161-186. -/
def normalize (t : Ty) : List Instr :=
  match t with
  | .arith b =>
    match fmtOf b with
    | some _ => []
    | none => castToInteger t b
  | _ => []

/-- `kefir_ast_translate_typeconv`, `typeconv.c` 188-237. -/
def typeconv (origin dest : Ty) : List Instr :=
  if origin = dest then []
  else
    match dest with
    | .void => if origin = .arith .ldouble then [.pop, .pop] else [.pop]
    | .ptr _ => []
    | .arith b =>
      match fmtOf b with
      | some g => castToFloat g origin
      | none => castToInteger origin b
    | _ => []

/-- Access width of a bit-field, `ast-translator/value.c` 41-63 and 138-160: the smallest of 8, 16, …, 64 bits that
holds offset-in-byte plus width (wider is an error in the code; here it gives 8 bytes). -/
def bfBytes (off w : Nat) : Nat :=
  let bits := off % 8 + w
  if bits ≤ 8 then 1 else if bits ≤ 16 then 2 else if bits ≤ 24 then 3 else if bits ≤ 32 then 4
  else if bits ≤ 40 then 5 else if bits ≤ 48 then 6 else if bits ≤ 56 then 7 else 8

/-- `load_bitfield`, `value.c` 31-65. -/
def loadBitfield (off w : Nat) : List Instr :=
  [.iadd1 (BitVec.ofNat 64 (off / 8)), .load (bfBytes off w) false]

/-- `resolve_bitfield`, `value.c` 94-122. -/
def resolveBitfield (t : Ty) (off w : Nat) : List Instr :=
  loadBitfield off w ++
  (match t with
   | .arith b => if b.isSigned then [.extsbits (off % 8) w] else [.extubits (off % 8) w]
   | _ => [])

/-- `store_bitfield`, `value.c` 124-163. -/
def storeBitfield (off w : Nat) : List Instr :=
  [.pick 1] ++ loadBitfield off w ++
  [.xchg 1, .insertbits (off % 8) w, .xchg 1, .iadd1 (BitVec.ofNat 64 (off / 8)), .xchg 1, .store (bfBytes off w)]

/-- `kefir_ast_translator_load_value`, `value.c` 238-315. -/
def loadValue : Ty → List Instr
  | .arith .bool => [.load 1 false]
  | .arith .char => [.load 1 true]
  | .arith .uchar => [.load 1 false]
  | .arith .schar => [.load 1 true]
  | .arith .ushort => [.load 2 false]
  | .arith .short => [.load 2 true]
  | .arith .uint => [.load 4 false]
  | .arith .float => [.load 4 false]
  | .arith .int => [.load 4 true]
  | .arith .ldouble => [.loadld]
  | .arith _ => [.load 8 false]
  | .ptr _ => [.load 8 false]
  | _ => []

/-- `kefir_ast_translator_store_value`, `value.c` 317-393. -/
def storeValue : Ty → List Instr
  | .arith .bool | .arith .char | .arith .uchar | .arith .schar => [.store 1]
  | .arith .ushort | .arith .short => [.store 2]
  | .arith .uint | .arith .int | .arith .float => [.store 4]
  | .arith .ldouble => [.storeld]
  | .arith _ => [.store 8]
  | .ptr _ => [.store 8]
  | .agg g s => [.bcopy (Ty.agg g s).size]
  | .arr t n => [.bcopy (Ty.arr t n).size]
  | .void => []

/-- `kefir_ast_translator_resolve_lvalue`, `value.c` 165-184; for an indirection to `void` the address is dropped
(`nodes/unary_operation.c` 162-173). -/
def resolveLvalue (t : Ty) (bf : Option (Nat × Nat)) : List Instr :=
  match bf with
  | some (off, w) => resolveBitfield t off w
  | none => if t = .void then [.pop] else loadValue t

/-- `kefir_ast_translator_store_lvalue`, `value.c` 205-236. -/
def storeLvalue (t : Ty) (bf : Option (Nat × Nat)) : List Instr :=
  match bf with
  | some (off, w) => storeBitfield off w
  | none => storeValue t

/-- `kefir_ast_translator_resolve_type_layout`, `ast-translator/misc.c` 114-129: zero offsets are skipped. -/
def offsets : List Nat → List Instr
  | [] => []
  | o :: os => (if o = 0 then [] else [.offsetptr o]) ++ offsets os

/-- Integer opcode of a binary operator; `sg` chooses between the signed and unsigned forms of `/`, `%`, `>>`. -/
def intInstr (op : BinOp) (sg : Bool) : List Instr :=
  match op with
  | .add => [.bin .add]
  | .sub => [.bin .sub]
  | .mul => [.bin .mul]
  | .div => [.bin (if sg then .idiv else .udiv)]
  | .mod => [.bin (if sg then .imod else .umod)]
  | .shl => [.bin .shl]
  | .shr => [.bin (if sg then .sar else .shr)]
  | .band => [.bin .and]
  | .bxor => [.bin .xor]
  | .bor => [.bin .or]
  | _ => []

/-- Opcode of an arithmetic operator at type `c`: `nodes/binary_operation.c` 76-90, 140-155, 220-239, 248-274,
283-291, 300-331. -/
def arithInstr (op : BinOp) (c : Ty) (sg : Bool) : List Instr :=
  match c with
  | .arith b =>
    match fmtOf b with
    | some f =>
      match op with
      | .add => [.fbin .add f]
      | .sub => [.fbin .sub f]
      | .mul => [.fbin .mul f]
      | .div => [.fbin .div f]
      | _ => []
    | none => intInstr op sg
  | _ => []

/-- `kefir_ast_type_is_signed` on operand types. -/
def Ty.isSigned : Ty → Bool
  | .arith b => b.isSigned
  | _ => false

/-- `equals_operation`, `nodes/binary_operation.c` 336-356. -/
def cmpEq (c : Ty) : List Instr :=
  match c with
  | .arith b =>
    match fmtOf b with
    | some f => [.feq f]
    | none => [.bin .eq]
  | _ => [.bin .eq]

/-- `less_operation`, `nodes/binary_operation.c` 381-413. -/
def cmpLt (c : Ty) : List Instr :=
  match c with
  | .arith b =>
    match fmtOf b with
    | some f => [.flt f]
    | none => if b.isSigned then [.bin .lt] else [.bin .below]
  | _ => [.bin .below]

/-- `greater_operation`, `nodes/binary_operation.c` 415-447. -/
def cmpGt (c : Ty) : List Instr :=
  match c with
  | .arith b =>
    match fmtOf b with
    | some f => [.fgt f]
    | none => if b.isSigned then [.bin .gt] else [.bin .above]
  | _ => [.bin .above]

/-- `less_equals`/`greater_equals` of `relational_equality`, `nodes/binary_operation.c` 490-570: the operands are
duplicated, compared twice, and the results or-ed. -/
def cmpOrEq (c : Ty) (strict : List Instr) : List Instr :=
  if c = .arith .ldouble then
    [.pick 3, .pick 3, .pick 3, .pick 3] ++ strict ++ [.xchg 4, .pick 3, .pick 3, .pick 3] ++ cmpEq c ++
      [.drop 1, .drop 1, .drop 1, .bin .bor]
  else [.pick 1, .pick 1] ++ strict ++ [.xchg 2] ++ cmpEq c ++ [.bin .bor]

/-- `translate_relational_equality`, `nodes/binary_operation.c` 479-575. -/
def relInstr (op : BinOp) (c : Ty) : List Instr :=
  match op with
  | .lt => cmpLt c
  | .gt => cmpGt c
  | .eq => cmpEq c
  | .ne => cmpEq c ++ [.un .bnot]
  | .le => cmpOrEq c (cmpLt c)
  | .ge => cmpOrEq c (cmpGt c)
  | _ => []

/-- `truncate_value`, `nodes/binary_operation.c` 579-589. -/
def truncate (t : Ty) : List Instr :=
  if t = .arith .ldouble then [.ldtrunc1] else [.un .trunc1]

/-- Number of operand-stack slots of a value of the type: `long double` takes two, `void` none. -/
def slots : Ty → Nat
  | .void => 0
  | .arith .ldouble => 2
  | _ => 1

/-- `store_value`, `nodes/assignment_operator.c` 32-60. -/
def storeResult (t : Ty) (bf : Option (Nat × Nat)) : List Instr :=
  (if t = .arith .ldouble then [.xchg 1, .xchg 2, .pick 2, .pick 2] else [.xchg 1, .pick 1]) ++
  storeLvalue t bf ++
  (match bf, t with
   | some (_, w), .arith b =>
     if b.isIntegral then (if b.isSigned then [.extsbits 0 w] else [.extubits 0 w]) else []
   | _, _ => [])

/-- `reorder_assignment_arguments`, `nodes/assignment_operator.c` 95-113. -/
def reorder (c : Ty) : List Instr :=
  if c = .arith .ldouble then [.xchg 2, .xchg 4, .xchg 1, .xchg 3] else [.xchg 1, .xchg 2]

/-- The opcode of a compound assignment: `nodes/assignment_operator.c` 143-162 (`*=`), 195-220 (`/=`), 256-298
(`%=`, `&=`, `|=`, `^=`, `<<=`, `>>=`), 342-365 (`+=`), 425-450 (`-=`).  `/=` looks at the common type, `%=` and `>>=`
at the type of the right operand. -/
def compoundInstr (op : BinOp) (common value : Ty) : List Instr :=
  match op with
  | .div => arithInstr .div common common.isSigned
  | .mod => intInstr .mod value.isSigned
  | .shr => intInstr .shr value.isSigned
  | op => arithInstr op common false

/-- `incdec_impl`, `nodes/unary_operation.c` 175-227, without the final normalization. -/
def incdecInstr (t : Ty) (dec : Bool) : List Instr :=
  match t with
  | .ptr u => [.push (if dec then -1 else 1), .elementptr u.size]
  | .arith .float => [.push (if dec then 0xbf800000 else 0x3f800000), .fbin .add .f32]
  | .arith .double => [.push (if dec then 0xbff0000000000000 else 0x3ff0000000000000), .fbin .add .f64]
  | .arith .ldouble =>
    [.push (if dec then 0xbfff else 0x3fff), .push 0x8000000000000000, .fbin .add .f80]
  | _ => [.iadd1 (if dec then -1 else 1)]

/-- Duplicate a value under its address: `nodes/unary_operation.c` 236-246, 260-270. -/
def keepValue (t : Ty) : List Instr :=
  if t = .arith .ldouble then [.xchg 1, .xchg 2, .pick 2, .pick 2] else [.xchg 1, .pick 1]

/-- `binary_prologue`, `nodes/binary_operation.c` 30-55: both operands converted to the result type. -/
def prologue (a : SC) (ta : Ty) (b : SC) (tb : Ty) (rt : Ty) : SC :=
  a ;; .prim (typeconv ta rt) ;; b ;; .prim (typeconv tb rt)

/-- The instructions of a binary operator, given the code of the operands: `nodes/binary_operation.c` 68-577. -/
def trBin (op : BinOp) (a : SC) (ta : Ty) (wa : Option Nat) (b : SC) (tb : Ty) (wb : Option Nat) (rt : Ty) : SC :=
  match op with
  | .add =>
    match ta, tb with
    | .arith _, .arith _ => prologue a ta b tb rt ;; .prim (arithInstr .add rt false ++ normalize rt)
    | .ptr t, _ => a ;; b ;; .prim [.elementptr t.size]
    | _, .ptr t => b ;; a ;; .prim [.elementptr t.size]
    | _, _ => .prim []
  | .sub =>
    prologue a ta b tb rt ;;
    .prim (match ta, tb with
      | .arith _, .arith _ => arithInstr .sub rt false ++ normalize rt
      | .ptr t, .ptr _ => [.bin .sub, .push (BitVec.ofNat 64 t.size), .bin .idiv]
      | .ptr t, _ => [.un .neg, .elementptr t.size]
      | _, _ => [])
  | .shr => prologue a ta b tb rt ;; .prim (arithInstr .shr rt ta.isSigned ++ normalize rt)
  | .mul | .div | .mod | .shl | .band | .bxor | .bor =>
    prologue a ta b tb rt ;; .prim (arithInstr op rt rt.isSigned ++ normalize rt)
  | .lt | .gt | .le | .ge | .eq | .ne =>
    match kCommon ta wa tb wb with
    | some c => a ;; .prim (typeconv ta c) ;; b ;; .prim (typeconv tb c ++ relInstr op c)
    | none => a ;; b ;; .prim (relInstr op ta)

mutual
/-- `kefir_ast_translate_expression`. -/
def tr : Expr → SC
  | .const _ v => .prim [.push (BitVec.ofInt 64 v)]
  | .fconst .f32 x => .prim [.push (BitVec.setWidth 64 x)]
  | .fconst .f64 x => .prim [.push x]
  | .fconst .f80 x => .prim [.push (BitVec.setWidth 64 (BitVec.extractLsb' 64 16 x)), .push (BitVec.setWidth 64 x)]
  | .str id => .prim [.getglobal id]
  | .lval l => trL l ;; .prim (resolveLvalue (klt l) l.bf)
  | .addr l => trL l
  | .cast t e => tr e ;; .prim (typeconv (kt e) t)
  | .un op e =>
    let rt := kt (.un op e)
    match op with
    | .plus => tr e ;; .prim (normalize rt)
    | .neg =>
      tr e ;; .prim ((match kt e with
        | .arith b => (match fmtOf b with | some f => [.fneg f] | none => [.un .neg])
        | _ => [.un .neg]) ++ normalize rt)
    | .bnot => tr e ;; .prim (.un .not :: normalize rt)
    | .lnot => tr e ;; .prim ((if kt e = .arith .ldouble then [.ldtrunc1] else []) ++ [.un .bnot])
  | .bin op a b => trBin op (tr a) (kt a) a.bfw (tr b) (kt b) b.bfw (kt (.bin op a b))
  | .land a b =>
    tr a ;; .prim (truncate (kt a) ++ [.pick 0, .un .bnot]) ;;
      .skip (tr b ;; .prim (truncate (kt b) ++ [.bin .band]))
  | .lor a b =>
    tr a ;; .prim (truncate (kt a) ++ [.pick 0]) ;;
      .skip (tr b ;; .prim (truncate (kt b) ++ [.bin .bor]))
  | .cond c a b => tr c ;; .ite (tr a) (tr b)
  | .elvis c b => tr c ;; .prim [.pick 0] ;; .skip (.prim [.pop] ;; tr b)
  | .comma a b => tr a ;; .prim (List.replicate (slots (kt a)) .pop) ;; tr b
  | .assign l e =>
    let rt := (klt l).dec
    tr e ;; .prim (if rt.isScalar then typeconv (kt e) rt else []) ;; trL l ;;
      .prim ((if rt = .arith .ldouble then [.xchg 2, .xchg 1] else [.xchg 1]) ++ storeResult rt l.bf)
  | .assignOp op l e =>
    let rt := (klt l).dec
    match rt with
    | .ptr t =>
      tr e ;; .prim (if op = .sub then [.un .neg] else []) ;; trL l ;;
        .prim ([.pick 0] ++ resolveLvalue (klt l) l.bf ++ reorder .void ++ [.elementptr t.size] ++ storeResult rt l.bf)
    | _ =>
      match kCommon (klt l) (l.bf.map (·.2)) (kt e) e.bfw with
      | some c =>
        tr e ;; .prim (typeconv (kt e) c) ;; trL l ;;
          .prim ([.pick 0] ++ resolveLvalue (klt l) l.bf ++ typeconv (klt l) c ++ reorder c ++
            compoundInstr op c (kt e) ++ typeconv c rt ++ storeResult rt l.bf)
      | none => .prim []
  | .incdec post dec l =>
    let t := klt l
    trL l ;;
      .prim ([.pick 0] ++ resolveLvalue t l.bf ++
        (if post then keepValue t ++ incdecInstr t dec ++ normalize t
         else incdecInstr t dec ++ normalize t ++ keepValue t) ++ storeLvalue t l.bf)
  | .sizeof t => .prim [.push (BitVec.ofNat 64 t.size)]
/-- `kefir_ast_translate_lvalue`, `ast-translator/lvalue.c` 35-216. -/
def trL : LV → SC
  | .auto offs _ => .prim (.getlocals :: offsets offs)
  | .glob id offs _ => .prim (.getglobal id :: offsets offs)
  | .deref e => tr e
  | .index a i =>
    match kt a with
    | .ptr t => tr a ;; tr i ;; .prim [.elementptr t.size]
    | _ =>
      match kt i with
      | .ptr t => tr i ;; tr a ;; .prim [.elementptr t.size]
      | _ => .prim []
  | .member e offs _ _ => tr e ;; .prim (offsets offs)
end

end Kefir.Expr
