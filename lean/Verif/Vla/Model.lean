import Verif.Expr.Translate
import Verif.Vla.Spec

/-!
# Model of variable length arrays

The code for sizes and declarations (`source/ast-translator/misc.c`, `declaration_translator.c`,
`nodes/unary_operation.c`), and the opcodes that manage their storage (`source/runtime/amd64_sysv.s`).
-/

namespace Kefir.Vla
open Kefir.IR Kefir.Expr

/-- The size of the IR type that is made of a type, `source/ast-translator/type_translate.c:108-172` with the layout of
`Verif.Layout`: for an array of variable length it is a structure of two words (`:142-145`). -/
def irSize : VTy → Nat
  | .fixed s _ => s
  | .array n t => n * irSize t
  | .vla _ _ => 16

/-- `source/ast-translator/misc.c:28-43`, `sizeof_nonvla_type`, and `:45-64`, `kefir_ast_translate_sizeof`.
`kefir_ast_type_get_top_variable_modificator` (`source/ast/type.c:246-252`) gives the length of the outermost array;
lengths that are not specified (`[*]`) are not modelled. -/
def sizeofCode : VTy → SC
  | .vla e t => sizeofCode t ;; tr e ;; .prim [.bin .mul]
  | t => .prim [.push (BitVec.ofNat 64 (irSize t))]

/-- `misc.c:66-87`, `unwrap_vla_type`, and `:89-112`, `kefir_ast_translate_alignof`: arrays of variable length become arrays
of length one.  The alignment of a structure of two words is that of a word. -/
def alignofCode : VTy → List Instr := fun t => [.push (BitVec.ofNat 64 (unwrapped t))]
where
  /-- alignment of the type with arrays of variable length replaced, as long as they are outermost -/
  unwrapped : VTy → Nat
    | .vla _ t => unwrapped t
    | t => ir t
  ir : VTy → Nat
    | .fixed _ a => a
    | .array _ t => ir t
    | .vla _ _ => 8

/-- `source/ast-translator/declaration_translator.c:50-64`: the code between `PUSHSCOPE` and `ALLOCA`.  `offs` are the
offsets of the object in the locals; the address of the storage is the first, the size the second word of it. -/
def declareCode (offs : List Nat) (t : VTy) : SC :=
  .prim (.getlocals :: (offsets offs ++ [.offsetptr 0])) ;; sizeofCode t ;;
    .prim ((.getlocals :: (offsets offs ++ [.offsetptr 8])) ++ [.pick 1, .store 8] ++ alignofCode t)

/-- `source/ast-translator/nodes/unary_operation.c:140-151`: `sizeof` applied to the name of an array of variable length. -/
def sizeofName (offs : List Nat) : SC :=
  .prim ((.getlocals :: (offsets offs ++ [.offsetptr 8])) ++ [.load 8 false])

/-! ## Storage -/

/-- A block: whether it contains a declaration (`contains_vla`), what is in the storage of its elements before, and what
`PUSHSCOPE` stored in its elements, in the order of the declarations. -/
structure Block where
  contains : Bool
  stale : Nat
  elements : List Nat
  deriving DecidableEq

/-- The cells `[r14 - 8]` (where the stack of operands begins, downwards) and `[r14 - 16]` (what it was at the latest
`PUSHSCOPE`), and the open blocks. -/
structure State where
  base : Nat
  scope : Nat
  blocks : List Block
  deriving DecidableEq

/-- `and rax, -a`, for a power of two. -/
def floorTo (a x : Nat) : Nat := x / a * a

/-- `source/runtime/amd64_sysv.s:1106-1113`: the address of the storage. -/
def place (base size align : Nat) : Nat :=
  if align = 0 then floorTo 8 (base - size) else floorTo align (floorTo 8 (base - size))

/-- `source/runtime/amd64_sysv.s:1097-1125`, `alloca`: the address, which is the new base.  The stack of operands is moved
below it, which is not modelled.  `none`: the stack is exhausted. -/
def alloca (s : State) (size align : Nat) : Option (State × Nat) :=
  if size ≤ s.base ∧ 0 < place s.base size align then
    some ({ s with base := place s.base size align }, place s.base size align)
  else none

/-- `amd64_sysv.s:1127-1132`, `pushscope`: the value it pushes and the state. -/
def pushscope (s : State) : Nat × State := (s.scope, { s with scope := s.base })

/-- `amd64_sysv.s:1134-1152`, `popscope`.  The stack of operands is moved up, which is not modelled. -/
def popscope (saved : Nat) (s : State) : State :=
  if s.scope = 0 then s else { s with base := s.scope, scope := saved }

/-- The first element of a block, `source/ast/flow_control.c:147-160`. -/
def Block.head (b : Block) : Nat := b.elements.headD b.stale

/-- The effect of an event, with the address of a new object (0 if there is none).
Declaration: `declaration_translator.c:45-48` (`PUSHSCOPE` and the store to the element of the array, which
`source/ast/flow_control.c:134-145` puts behind those of the block), `:65`.
Built-in: `source/ast-translator/nodes/builtin.c:110-126` with `amd64_sysv.s:1098-1102`.
End of a block: `source/ast-translator/nodes/compound_statement.c:50-58`; jump out of it: `jump.c:47-64`, the same for every
block that is left.  Jumps within the block that declares the array (`jump.c:66-91`) are not modelled. -/
def step (s : State) : Event → Option (State × Nat)
  | .enter c stale => some ({ s with blocks := ⟨c, stale, []⟩ :: s.blocks }, 0)
  | .declare size align =>
    match s.blocks with
    | [] => none
    | b :: bs =>
      let (saved, s) := pushscope s
      alloca { s with blocks := { b with elements := b.elements ++ [saved] } :: bs } size align
  | .builtin size align => alloca { s with scope := 0 } size align
  | .leave =>
    match s.blocks with
    | [] => none
    | b :: bs =>
      let s := { s with blocks := bs }
      if b.contains then some (popscope b.head s, 0) else some (s, 0)

/-- All events, with the arrays that are alive. -/
def run (s : State) (objs : List (List Object)) : List Event → Option (State × List (List Object))
  | [] => some (s, objs)
  | e :: es =>
    match step s e with
    | none => none
    | some (s, p) => run s (alive objs e p) es

/-- The same with what the built-in function gave, first. -/
def runKept (s : State) (ks : List Object) (objs : List (List Object)) :
    List Event → Option (List Object × State × List (List Object))
  | [] => some (ks, s, objs)
  | e :: es =>
    match step s e with
    | none => none
    | some (s, p) => runKept s (kept ks e p) (alive objs e p) es

/-- `__kefirrt_generic_prologue`, `amd64_sysv.s:1169-1176`. -/
def initial (top : Nat) : State := ⟨top, 0, []⟩

end Kefir.Vla
