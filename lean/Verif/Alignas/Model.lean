import Verif.Layout.Model
import Verif.Alignas.Spec

/-!
# Model of alignment specifiers

`evaluate_alignment` and the end of `analyze_declaration_specifiers_impl` (`source/ast/analyzer/declarator.c`), the
merging of declarations (`source/ast/context_impl.c`), and the way into the IR type (`source/ast-translator/
type_translate.c`).  `kefir_size_t` has 64 bits.  Allocations do not fail.
-/

namespace Kefir.Alignas

/-- The conversion of a `kefir_int64_t` to `kefir_size_t`. -/
def toSize (v : Int) : Nat := (v % 2 ^ 64).toNat

/-- `source/ast/analyzer/declarator.c:721-737`, `evaluate_alignment`.  Analysis of the operand and `type_alignment`
(`:704-719`) are not modelled: a type operand is given by its alignment; an operand that is not an integer constant is
an error and does not occur here. -/
def evaluate (alignment : Nat) : Request → Nat
  | .type a => max alignment a
  | .value v => max alignment (toSize v)

/-- The loop of `declarator.c:962-991`, of which only the alignment specifiers matter here. -/
def evaluateAll (rs : List Request) : Nat := rs.foldl evaluate 0

/-- `declarator.c:1002-1011`: the check and the alignment that is returned.  `base` is the alignment of the type of the
declaration specifiers, without the declarator.  `none` is the error. -/
def specified (base : Nat) (rs : List Request) : Option Nat :=
  if evaluateAll rs > 0 then
    if base ≤ evaluateAll rs then some (evaluateAll rs) else none
  else some 0

/-- `source/ast/analyzer/nodes/init_declarator.c:57-63` with `source/ast/alignment.c:47-70`, and `wrap_alignment`,
`declarator.c:41-47`: the alignment that is handed on; `none` is the null pointer. -/
def wrap (alignment : Nat) : Option Nat :=
  if alignment ≠ 0 then some (toSize alignment) else none

/-- `source/ast/context_impl.c:61-87`, `kefir_ast_context_allocate_scoped_object_identifier`, with
`kefir_ast_alignment_default`, `source/ast/alignment.c:25-33`: the alignment of a new object. -/
def allocate : Option Nat → Nat
  | some a => a
  | none => 0

/-- `context_impl.c:215-231`, `kefir_ast_context_merge_alignment`.  (The original is never a null pointer.) -/
def merge (original : Nat) : Option Nat → Nat
  | none => original
  | some a => if a > original then a else original

/-- The alignments of the declarations that follow. -/
def mergeAll (base : Nat) (original : Nat) : List (List Request) → Option Nat
  | [] => some original
  | rs :: rest =>
    match specified base rs with
    | none => none
    | some a => mergeAll base (merge original (wrap a)) rest

/-- The alignment recorded for an object that is declared with these lists of specifiers, one after the other.
`base` is the alignment of the type named by the specifiers, the same in all declarations.  A member of a structure has
one declaration. -/
def declare (base : Nat) : List (List Request) → Option Nat
  | [] => none
  | rs :: rest =>
    match specified base rs with
    | none => none
    | some a => mergeAll base (allocate (wrap a)) rest

/-- `headers/kefir/ir/type.h:58-62`: the field has eight bits.  `source/ast-translator/type_translate.c:28-92`
(`scalar_typeentry`, `:30`), `:118`, `:130` and `:288` store the recorded alignment there. -/
def entry (code : Layout.TypeCode) (param alignment : Nat) : Layout.Entry := ⟨code, alignment % 2 ^ 8, param⟩

/-- The object as the next part of the storage `c` (a structure of locals, static storage or an aggregate):
`update_compound_type_layout`, modelled in `Verif.Layout.Model`.  `size` and `natural` are size and alignment of its
type. -/
def place (c : Layout.Compound) (code : Layout.TypeCode) (param size natural alignment : Nat) : Layout.Data :=
  (Layout.update c { size, alignment := natural, aligned := true, offset := 0 } (entry code param alignment)).2

end Kefir.Alignas
