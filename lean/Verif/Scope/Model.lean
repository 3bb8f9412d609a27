import Verif.Scope.Spec
import Verif.SymbolTable.Model

/-!
# Model of the block scopes of `source/ast/scope.c` and of the typedef scopes of `source/parser/scope.c`

* Tree nodes are heap cells: the `n`-th node allocated has the address `n`, the root is node 0.
  Reading an address that was never allocated is undefined behaviour, a loop that runs longer than
  its fuel does not return: both give the reply `stuck`.
* NULL-parameter checks are not modelled, allocation succeeds.
-/

namespace Kefir.Scope

open Kefir.HashTree (Ops Node Entry)

variable {K V : Type}

/-- `struct kefir_tree_node` (`headers/kefir/core/tree.h:27-36`) whose value is a flat scope
(`struct kefir_ast_identifier_flat_scope`, `headers/kefir/ast/scope.h:94-99`: a hash tree).
`children` is the list of children; the sibling pointers link the same nodes in the same order
(`source/core/tree.c:88-94`) and are not modelled separately. -/
structure TreeNode (K V : Type) where
  value : Node K V
  parent : Option Nat
  children : List Nat

/-- `struct kefir_ast_identifier_block_scope` (`headers/kefir/ast/scope.h:127-133`) with the nodes
allocated so far. -/
structure BlockScope (K V : Type) where
  nodes : List (TreeNode K V)
  top : Nat

/-- `kefir_ast_identifier_flat_scope_insert`, `source/ast/scope.c:94-106`. -/
def flatInsert (ops : Ops K) (k : K) (v : V) (s : Node K V) : Res (Node K V) :=
  match HashTree.insert ops true k v s with
  | .ok s' => .ok s'
  | .error e => .error e

/-- `kefir_ast_identifier_flat_scope_at`, `source/ast/scope.c:108-119`. -/
def flatAt (ops : Ops K) (k : K) (s : Node K V) : Res V :=
  match HashTree.at' ops k s with
  | .ok node => .ok node.value
  | .error e => .error e

/-- `kefir_ast_identifier_flat_scope_empty`, `source/ast/scope.c:128-131`. -/
def flatEmpty (s : Node K V) : Bool := HashTree.empty s

/-- `kefir_ast_identifier_block_scope_init`, `source/ast/scope.c:173-201`. -/
def blockInit : BlockScope K V := ⟨[⟨.nil, none, []⟩], 0⟩

/-- `kefir_tree_insert_child`, `source/core/tree.c:67-99`: the new node, and the list of children of
`node` with the new one at the end.  Returns the address of the new node. -/
def treeInsertChild (nodes : List (TreeNode K V)) (node : Nat) (value : Node K V) :
    Option (List (TreeNode K V) × Nat) :=
  match nodes[node]? with
  | none => none
  | some n =>
    some (nodes.set node { n with children := n.children ++ [nodes.length] } ++
      [⟨value, some node, []⟩], nodes.length)

/-- `kefir_ast_identifier_block_scope_push`, `source/ast/scope.c:259-288`. -/
def blockPush (s : BlockScope K V) : Option (BlockScope K V) :=
  match treeInsertChild s.nodes s.top .nil with
  | none => none
  | some (nodes, node) => some ⟨nodes, node⟩

/-- `kefir_ast_identifier_block_scope_pop`, `source/ast/scope.c:290-295`: the node stays where it
is. -/
def blockPop (s : BlockScope K V) : Option (Res (BlockScope K V)) :=
  match s.nodes[s.top]? with
  | none => none
  | some n =>
    match n.parent with
    | none => some (.error .invalidChange)
    | some p => some (.ok { s with top := p })

/-- `kefir_ast_identifier_block_scope_insert`, `source/ast/scope.c:297-307`. -/
def blockInsert (ops : Ops K) (k : K) (v : V) (s : BlockScope K V) : Option (Res (BlockScope K V)) :=
  match s.nodes[s.top]? with
  | none => none
  | some n =>
    match flatInsert ops k v n.value with
    | .ok f => some (.ok { s with nodes := s.nodes.set s.top { n with value := f } })
    | .error e => some (.error e)

/-- The loop of `kefir_ast_identifier_block_scope_at`, `source/ast/scope.c:318-330`, at the node with
address `current`. -/
def blockAtLoop (ops : Ops K) (k : K) (nodes : List (TreeNode K V)) : Nat → Nat → Option (Res V)
  | 0, _ => none
  | fuel + 1, current =>
    match nodes[current]? with
    | none => none
    | some n =>
      match flatAt ops k n.value with
      | .error .notFound =>
        match n.parent with
        | some p => blockAtLoop ops k nodes fuel p
        | none => some (.error .notFound)
      | r => some r

/-- `kefir_ast_identifier_block_scope_at`, `source/ast/scope.c:309-332`. -/
def blockAt (ops : Ops K) (k : K) (s : BlockScope K V) : Option (Res V) :=
  blockAtLoop ops k s.nodes s.nodes.length s.top

/-- The loop over the children in `block_tree_empty`, `source/ast/scope.c:340-345`. -/
def allEmpty (rec' : Nat → Option Bool) : List Nat → Option Bool
  | [] => some true
  | c :: cs =>
    match rec' c with
    | none => none
    | some false => some false
    | some true => allEmpty rec' cs

/-- `block_tree_empty`, `source/ast/scope.c:334-347`. -/
def blockTreeEmpty (nodes : List (TreeNode K V)) : Nat → Nat → Option Bool
  | 0, _ => none
  | fuel + 1, i =>
    match nodes[i]? with
    | none => none
    | some n =>
      if !flatEmpty n.value then some false
      else allEmpty (blockTreeEmpty nodes fuel) n.children

/-- `kefir_ast_identifier_block_scope_empty`, `source/ast/scope.c:349-352`. -/
def blockEmpty (s : BlockScope K V) : Option Bool := blockTreeEmpty s.nodes s.nodes.length 0

/-- `kefir_list_free` on the children of a node with `child_node_remove` as its callback
(`source/core/tree.c:25-33, 55`): `rec'` is applied to each of them in turn. -/
def freeList {E : Type} (rec' : Nat → Option (List E)) : List Nat → Option (List E)
  | [] => some []
  | c :: cs =>
    match rec' c with
    | none => none
    | some l =>
      match freeList rec' cs with
      | none => none
      | some l' => some (l ++ l')

/-- `kefir_tree_free`, `source/core/tree.c:48-57`, with the callback `multi_scope_remove`
(`source/ast/scope.c:165-171`), which frees the hash tree of the scope: the identifiers handed to the
removal callback of the block scope (`flat_scope_removal`, `source/ast/scope.c:26-35`), in order. -/
def treeFree (nodes : List (TreeNode K V)) : Nat → Nat → Option (List (Entry K V))
  | 0, _ => none
  | fuel + 1, i =>
    match nodes[i]? with
    | none => none
    | some n =>
      match freeList (treeFree nodes fuel) n.children with
      | none => none
      | some l => some (HashTree.nodeFree n.value ++ l)

/-- `kefir_ast_identifier_block_scope_free`, `source/ast/scope.c:203-210`. -/
def blockFree (s : BlockScope K V) : Option (List (Entry K V)) :=
  treeFree s.nodes s.nodes.length 0

/-- A call of the API, `source/ast/scope.c:259-352`. -/
def implStep (ops : Ops K) (s : BlockScope K V) : Call K V → BlockScope K V × Reply V
  | .push =>
    match blockPush s with
    | some s' => (s', .ok)
    | none => (s, .stuck)
  | .pop =>
    match blockPop s with
    | some (.ok s') => (s', .ok)
    | some (.error e) => (s, .error e)
    | none => (s, .stuck)
  | .declare k v =>
    match blockInsert ops k v s with
    | some (.ok s') => (s', .ok)
    | some (.error e) => (s, .error e)
    | none => (s, .stuck)
  | .lookup k =>
    match blockAt ops k s with
    | some (.ok v) => (s, .found v)
    | some (.error e) => (s, .error e)
    | none => (s, .stuck)
  | .isEmpty =>
    match blockEmpty s with
    | some b => (s, .bool b)
    | none => (s, .stuck)

/-! ## `source/parser/scope.c` -/

open Kefir.SymbolTable (StrPtr strOps)

/-! `enum identifier_type`, `source/parser/scope.c:25`, is `Kind` of `Verif/Scope/Spec.lean`. -/

/-- `struct kefir_parser_scope` (`headers/kefir/parser/scope.h:42-45`): the list of block scopes, the
tail of the C list first, and the symbol table shared by all of them (`none`: NULL).
`struct kefir_parser_block_scope` (lines 29-32) is a hash tree; its pointer to the symbol table is
the one of the list (`source/parser/scope.c:143`). -/
structure ParserScope where
  blocks : List (Node StrPtr Kind)
  symbols : Option SymbolTable.Table

/-- `kefir_parser_scope_push_block`, `source/parser/scope.c:137-155`. -/
def parserPush (s : ParserScope) : ParserScope := { s with blocks := .nil :: s.blocks }

/-- `kefir_parser_scope_init`, `source/parser/scope.c:116-126`. -/
def parserInit (symbols : Option SymbolTable.Table) : ParserScope := parserPush ⟨[], symbols⟩

/-- `kefir_parser_scope_pop_block`, `source/parser/scope.c:157-165`. -/
def parserPop (s : ParserScope) : Res ParserScope :=
  if s.blocks.length > 1 then .ok { s with blocks := s.blocks.tail } else .error .invalidChange

/-- `kefir_parser_block_scope_is_typedef`, `source/parser/scope.c:91-101`. -/
def blockIsTypedef (block : Node StrPtr Kind) (identifier : StrPtr) : Res Bool :=
  match HashTree.at' strOps identifier block with
  | .ok node => .ok (node.value == .typedefName)
  | .error e => .error e

/-- `kefir_parser_block_scope_declare_typedef` (`kind = typedefName`) and
`kefir_parser_block_scope_declare_variable` (`kind = variable`), `source/parser/scope.c:45-66, 68-89`,
after the identifier has been entered into the symbol table. -/
def blockDeclare (kind : Kind) (identifier : StrPtr) (block : Node StrPtr Kind) :
    Res (Node StrPtr Kind) :=
  match HashTree.insert strOps true identifier kind block with
  | .error .alreadyExists =>
    match blockIsTypedef block identifier with
    | .error e => .error e
    | .ok isTypedef =>
      match kind with
      | .typedefName => if isTypedef then .ok block else .error .alreadyExists
      | .variable => if !isTypedef then .ok block else .error .alreadyExists
  | .error e => .error e
  | .ok block' => .ok block'

/-- `kefir_parser_scope_declare_typedef` and `kefir_parser_scope_declare_variable`,
`source/parser/scope.c:167-191`, with the insertion into the symbol table at lines 51-55 and 74-78. -/
def parserDeclare (fresh : Nat → Nat) (kind : Kind) (identifier : StrPtr) (s : ParserScope) :
    ParserScope × Res Unit :=
  match s.blocks with
  | [] => (s, .error .invalidParameter)
  | block :: rest =>
    match s.symbols with
    | none =>
      match blockDeclare kind identifier block with
      | .ok block' => ({ s with blocks := block' :: rest }, .ok ())
      | .error e => (s, .error e)
    | some table =>
      match SymbolTable.insert fresh table identifier with
      | (table', none) => ({ s with symbols := some table' }, .error .memallocFailure)
      | (table', some (identifier', _)) =>
        match blockDeclare kind identifier' block with
        | .ok block' => (⟨block' :: rest, some table'⟩, .ok ())
        | .error e => ({ s with symbols := some table' }, .error e)

/-- The loop of `kefir_parser_scope_is_typedef`, `source/parser/scope.c:199-210`. -/
def parserIsTypedefLoop (identifier : StrPtr) : List (Node StrPtr Kind) → Res Bool
  | [] => .error .notFound
  | block :: rest =>
    match blockIsTypedef block identifier with
    | .ok b => .ok b
    | .error .notFound => parserIsTypedefLoop identifier rest
    | .error e => .error e

/-- `kefir_parser_scope_is_typedef`, `source/parser/scope.c:193-212`. -/
def parserIsTypedef (identifier : StrPtr) (s : ParserScope) : Res Bool :=
  parserIsTypedefLoop identifier s.blocks

/-- A call of the API, `source/parser/scope.c:137-212`. -/
def parserStep (fresh : Nat → Nat) (s : ParserScope) : PCall StrPtr → ParserScope × PReply
  | .push => (parserPush s, .ok)
  | .pop =>
    match parserPop s with
    | .ok s' => (s', .ok)
    | .error e => (s, .error e)
  | .declare kind name =>
    match parserDeclare fresh kind name s with
    | (s', .ok _) => (s', .ok)
    | (s', .error e) => (s', .error e)
  | .isTypedef name =>
    match parserIsTypedef name s with
    | .ok b => (s, .bool b)
    | .error e => (s, .error e)

end Kefir.Scope
