import Verif.HashTree.Model

/-!
# Model of `source/core/symbol_table.c`

A C string pointer is modelled by its address together with the bytes it points to.  The `n`-th
`KEFIR_MALLOC` returns the address `fresh n`; allocation succeeds.
-/

namespace Kefir.SymbolTable

open Kefir.HashTree (Node)

/-- A `const char *`: the address and the bytes before the terminating NUL. -/
structure StrPtr where
  addr : Nat
  str : List UInt8
  deriving DecidableEq

/-- `str_hash`, `source/core/hashtree.c:279-289`: `hash = hash * 31 + *c` in 64-bit arithmetic,
where `char` is signed. -/
def strHash (s : List UInt8) : UInt64 :=
  s.foldl (fun h c => h * 31 + (c.toInt8.toInt64).toUInt64) 7

/-- `kefir_hashtree_str_ops`, `source/core/hashtree.c:279-298`. -/
def strOps : HashTree.Ops StrPtr := ⟨fun p => (strHash p.str).toNat, fun a b => a.str == b.str⟩

/-- `kefir_hashtree_uint_ops`, `source/core/hashtree.c:300-317`. -/
def uintOps : HashTree.Ops Nat := ⟨id, fun a b => a == b⟩

/-- `struct kefir_symbol_table` and the number of allocations made so far. -/
structure Table where
  symbols : Node StrPtr Nat
  identifiers : Node Nat StrPtr
  nextId : Nat
  mallocs : Nat

/-- `kefir_symbol_table_init`, `source/core/symbol_table.c:35-42`. -/
def init : Table := ⟨.nil, .nil, 0, 0⟩

/-- `kefir_symbol_table_insert`, `source/core/symbol_table.c:53-90`; `none` is a NULL result. -/
def insert (fresh : Nat → Nat) (t : Table) (symbol : StrPtr) : Table × Option (StrPtr × Nat) :=
  match HashTree.at' strOps symbol t.symbols with
  | .ok node => (t, some (node.key, node.value))
  | .error .notFound =>
    let copy : StrPtr := ⟨fresh t.mallocs, symbol.str⟩
    let id := t.nextId
    match HashTree.insert strOps true copy id t.symbols with
    | .error _ => (t, none)
    | .ok symbols =>
      match HashTree.insert uintOps true id copy t.identifiers with
      | .error _ => (t, none)
      | .ok identifiers => (⟨symbols, identifiers, t.nextId + 1, t.mallocs + 1⟩, some (copy, id))
  | .error _ => (t, none)

/-- `kefir_symbol_table_get`, `source/core/symbol_table.c:92-98`. -/
def get (t : Table) (id : Nat) : Option StrPtr :=
  match HashTree.at' uintOps id t.identifiers with
  | .ok node => some node.value
  | .error _ => none

/-- A history of insertions, with the results returned. -/
def run (fresh : Nat → Nat) : Table → List StrPtr → Table × List (Option (StrPtr × Nat))
  | t, [] => (t, [])
  | t, s :: ss =>
    let (t', r) := insert fresh t s
    let (t'', rs) := run fresh t' ss
    (t'', r :: rs)

end Kefir.SymbolTable
