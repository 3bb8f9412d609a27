import Verif.Expr.Spec

/-!
# Variable length arrays

C17 6.7.6.2: the length of an array can be any expression of integer type; its size is the number of elements times the
size of an element.  6.2.4: its lifetime begins with its declaration and ends with the block.
-/

namespace Kefir.Vla
open Kefir.CSpec
open Kefir.Expr

/-- A type: one whose size and alignment are known, an array of known length, an array of variable length. -/
inductive VTy where
  | fixed (size align : Nat)
  | array (n : Nat) (elem : VTy)
  | vla (len : Expr) (elem : VTy)

/-- The size of the type, from the values that the lengths have.  The lengths of the elements are evaluated first (C leaves
the order open).  A length has to be positive (6.7.6.2p5). -/
def size (C : Ctx) : VTy → Kefir.IR.Mem → Option (Nat × Kefir.IR.Mem)
  | .fixed s _, m => some (s, m)
  | .array n t, m => (size C t m).map fun (s, m) => (n * s, m)
  | .vla e t, m =>
    (size C t m).bind fun (s, m) =>
      match eval C e m with
      | some (.int v, m) => if 0 < v then some (v.toNat * s, m) else none
      | _ => none

/-- The alignment of an array is that of its elements. -/
def align : VTy → Nat
  | .fixed _ a => a
  | .array _ t => align t
  | .vla _ t => align t

/-- An object. -/
structure Object where
  start : Nat
  size : Nat
  align : Nat
  deriving DecidableEq

def Object.stop (o : Object) : Nat := o.start + o.size

/-- Two objects have no byte in common. -/
def Disjoint (a b : Object) : Prop := a.stop ≤ b.start ∨ b.stop ≤ a.start

/-- What happens in a function, as far as storage is taken while it runs.  A block is entered, `contains` says whether
there is a variable length array among its declarations; the storage of the compiler's own variables for them contains
`stale` then.  An array is declared in the innermost block, or the built-in function is called.  The innermost block is
left, at its end or by a jump. -/
inductive Event where
  | enter (contains : Bool) (stale : Nat)
  | declare (size align : Nat)
  | builtin (size align : Nat)
  | leave
  deriving DecidableEq

/-- The arrays that are alive, block by block, the innermost first, where the last declared is the first.  `address` is
where a declared array is. -/
def alive (blocks : List (List Object)) (e : Event) (address : Nat) : List (List Object) :=
  match e, blocks with
  | .enter _ _, bs => [] :: bs
  | .declare s a, b :: bs => (⟨address, s, a⟩ :: b) :: bs
  | .leave, _ :: bs => bs
  | _, bs => bs

/-- The open blocks: whether there is a declaration of an array in them, whether the first has been reached. -/
abbrev Open := List (Bool × Bool)

/-- Blocks nest, arrays are declared in blocks that contain declarations, and no such block is left in front of its first
declaration. -/
def proper : Open → List Event → Bool
  | _, [] => true
  | o, .enter c _ :: es => proper ((c, false) :: o) es
  | (c, _) :: o, .declare _ a :: es => c && a != 0 && proper ((c, true) :: o) es
  | o, .builtin _ _ :: es => proper o es
  | (c, d) :: o, .leave :: es => (!c || d) && proper o es
  | [], _ :: _ => false

/-- What the built-in function gave is to stay until the function returns. -/
def kept (objects : List Object) (e : Event) (address : Nat) : List Object :=
  match e with
  | .builtin s a => ⟨address, s, a⟩ :: objects
  | _ => objects

/-- No block declares a second array.  The list says for every open block whether it has declared one. -/
def once : List Bool → List Event → Bool
  | _, [] => true
  | o, .enter _ _ :: es => once (false :: o) es
  | d :: o, .declare _ _ :: es => !d && once (true :: o) es
  | o, .builtin _ _ :: es => once o es
  | _ :: o, .leave :: es => once o es
  | [], _ :: _ => false

/-- Blocks with at most one declaration each, any number of them one after the other or in each other, and no call of the
built-in function. -/
inductive Single : List Event → Prop
  | nil : Single []
  | plain {stale a b} : Single a → Single b → Single (.enter false stale :: (a ++ .leave :: b))
  | one {stale size align a b c} : Single a → Single b → Single c →
      Single (.enter true stale :: (a ++ .declare size align :: (b ++ .leave :: c)))

end Kefir.Vla
