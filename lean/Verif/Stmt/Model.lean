import Verif.Expr.Translate
import Verif.Stmt.Syntax

/-! How kefir compiles statements: the flow-control part of the analyzer (`ast/analyzer/nodes/*_statement.c`,
`ast/flow_control.c`, labels in `ast/local_context.c`) and the statement translator (`ast-translator/nodes/*_statement.c`,
`ast-translator/flow_control.c`, `jump.c`).

Simplifications: a flow-control point is a number instead of an allocated object; type checks of controlling expressions
are left to the hypotheses of the theorems; no block contains a variable-length array, so that a jump is a single `JMP`
(`jump.c` 28-97); allocation does not fail. -/
namespace Kefir.Stmt
open Kefir.Types (Basic)
open Kefir.Expr
open Kefir.IR

/-! ### Analysis -/

/-- Analysed statements: `statement_props.flow_control_statement` and `target_flow_control_point` filled in. -/
inductive A
  | skip
  | expr (e : Expr)
  | decl (ds : List Decl)
  | seq (a b : A)
  /-- `thenBranchEnd` -/
  | cond (p : Nat) (c : Expr) (a : A)
  /-- `thenBranchEnd`, `elseBranchEnd` -/
  | condElse (p q : Nat) (c : Expr) (a b : A)
  /-- `continuation`, `end` -/
  | loop (p q : Nat) (c : Expr) (b : A)
  | doWhile (p q : Nat) (b : A) (c : Expr)
  | for_ (p q : Nat) (init : Init) (c t : Option Expr) (b : A)
  /-- `end`, `cases`, `defaultCase` -/
  | switch (q : Nat) (cs : List (Word × Nat)) (d : Option Nat) (e : Expr) (b : A)
  | case (p : Nat) (v : Int) (s : A)
  | dflt (p : Nat) (s : A)
  | label (p : Nat) (l : Nat) (s : A)
  | goto (p : Nat) (l : Nat)
  | brk (p : Nat)
  | cont (p : Nat)
  | ret (e : Option Expr) (q : Bool)

/-- `value.switchStatement` while its body is analysed. -/
structure Table where
  cases : List (Word × Nat)
  dflt : Option Nat

/-- The analyzer's state: points allocated so far, the label scope (point of each label, and whether it is bound:
`point->parent != NULL`), and the nearest enclosing `switch`, as `kefir_ast_flow_control_tree_traverse` finds it. -/
structure Ana where
  fresh : Nat
  labels : Nat → Option (Nat × Bool)
  sw : Option Table

/-- `kefir_hashtree_insert` with the keys of `kefir_hashtree_uint_ops` (`case_statement.c` 77-87): the tree's iteration
order is the order of the keys as unsigned numbers; an existing key is an error. -/
def insertCase (w : Word) (p : Nat) : List (Word × Nat) → Option (List (Word × Nat))
  | [] => some [(w, p)]
  | (w', p') :: cs =>
    if w = w' then none
    else if w.toNat < w'.toNat then some ((w, p) :: (w', p') :: cs)
    else (insertCase w p cs).map ((w', p') :: ·)

/-- `kefir_ast_local_context_reference_label`, `local_context.c` 1108-1134. -/
def refLabel (l : Nat) (st : Ana) : Nat × Ana :=
  match st.labels l with
  | some (p, _) => (p, st)
  | none => (st.fresh, { st with fresh := st.fresh + 1, labels := fun x => if x = l then some (st.fresh, false) else st.labels x })

/-- `kefir_ast_local_context_define_label`, `local_context.c` 1136-1167. -/
def defLabel (l : Nat) (st : Ana) : Option (Nat × Ana) :=
  match st.labels l with
  | none => some (st.fresh, { st with fresh := st.fresh + 1, labels := fun x => if x = l then some (st.fresh, true) else st.labels x })
  | some (p, false) => some (p, { st with labels := fun x => if x = l then some (p, true) else st.labels x })
  | some (_, true) => none

/-- `kefir_ast_analyze_node` on statements.  `brk` and `cont` are the points that `kefir_ast_flow_control_tree_traverse`
finds for `break` and `continue`. -/
def analyze (brk cont : Option Nat) : Stmt → Ana → Option (A × Ana)
  | .skip, st => some (.skip, st)
  | .expr e, st => some (.expr e, st)
  | .decl ds, st => some (.decl ds, st)
  -- `compound_statement.c` 31-62
  | .seq a b, st =>
    (analyze brk cont a st).bind fun r => (analyze brk cont b r.2).map fun r' => (.seq r.1 r'.1, r'.2)
  -- `conditional_statement.c` 30-90
  | .cond c a, st =>
    (analyze brk cont a { st with fresh := st.fresh + 1 }).map fun r => (.cond st.fresh c r.1, r.2)
  | .condElse c a b, st =>
    (analyze brk cont a { st with fresh := st.fresh + 2 }).bind fun r =>
      (analyze brk cont b r.2).map fun r' => (.condElse st.fresh (st.fresh + 1) c r.1 r'.1, r'.2)
  -- `while_statement.c` 31-81
  | .loop c b, st =>
    (analyze (some (st.fresh + 1)) (some st.fresh) b { st with fresh := st.fresh + 2 }).map fun r =>
      (.loop st.fresh (st.fresh + 1) c r.1, r.2)
  -- `do_while_statement.c` 30-79
  | .doWhile b c, st =>
    (analyze (some (st.fresh + 1)) (some st.fresh) b { st with fresh := st.fresh + 2 }).map fun r =>
      (.doWhile st.fresh (st.fresh + 1) r.1 c, r.2)
  -- `for_statement.c` 31-120
  | .for_ init c t b, st =>
    (analyze (some (st.fresh + 1)) (some st.fresh) b { st with fresh := st.fresh + 2 }).map fun r =>
      (.for_ st.fresh (st.fresh + 1) init c t r.1, r.2)
  -- `switch_statement.c` 31-84
  | .switch e b, st =>
    (analyze (some st.fresh) cont b { st with fresh := st.fresh + 1, sw := some ⟨[], none⟩ }).bind fun r =>
      match r.2.sw with
      | some t => some (.switch st.fresh t.cases t.dflt e r.1, { r.2 with sw := st.sw })
      | none => none
  -- `case_statement.c` 40-105
  | .case v s, st =>
    match st.sw with
    | none => none
    | some t =>
      (insertCase (BitVec.ofInt 64 v) st.fresh t.cases).bind fun cs =>
        (analyze brk cont s { st with fresh := st.fresh + 1, sw := some { t with cases := cs } }).map fun r =>
          (.case st.fresh v r.1, r.2)
  | .dflt s, st =>
    match st.sw with
    | none => none
    | some t =>
      match t.dflt with
      | some _ => none
      | none =>
        (analyze brk cont s { st with fresh := st.fresh + 1, sw := some { t with dflt := some st.fresh } }).map fun r =>
          (.dflt st.fresh r.1, r.2)
  -- `labeled_statement.c` 30-56
  | .label l s, st =>
    (analyze brk cont s st).bind fun r => (defLabel l r.2).map fun r' => (.label r'.1 l r.1, r'.2)
  -- `goto_statement.c` 30-71
  | .goto l, st => some (.goto (refLabel l st).1 l, (refLabel l st).2)
  -- `break_statement.c` 53-86
  | .brk, st => brk.map fun p => (.brk p, st)
  -- `continue_statement.c` 53-81
  | .cont, st => cont.map fun p => (.cont p, st)
  -- `return_statement.c` 30-74
  | .ret e q, st => some (.ret e q, st)

/-! ### Translation -/

/-- `struct kefir_ast_translator_flow_control_point` (`flow_control.c` 57-88): the instructions that wait for the address,
or the address. -/
inductive Pt
  | unres (ds : List Nat)
  | res (a : Nat)

/-- The block under construction and the points. -/
structure Tr where
  blk : List Instr
  pts : Nat → Pt

/-- `KEFIR_IRBUILDER_BLOCK_APPEND…`. -/
def Tr.emit (is : List Instr) (σ : Tr) : Tr := { σ with blk := σ.blk ++ is }

/-- Code of an expression, with its own back-patching (`IR/Builder.lean`). -/
def Tr.code (c : SC) (σ : Tr) : Tr := { σ with blk := c.build σ.blk }

/-- The instructions whose target is patched, with another target. -/
def retarget (i : Instr) (a : Nat) : Option Instr :=
  match i with
  | .jmp _ => some (.jmp a)
  | .branch _ => some (.branch a)
  | _ => none

/-- `patch_command`, `flow_control.c` 90-103. -/
def patch (blk : List Instr) (i a : Nat) : Option (List Instr) :=
  (blk[i]?).bind fun ins => (retarget ins a).map fun ins' => blk.set i ins'

/-- The loop over the dependants, `flow_control.c` 146-150. -/
def patchAll (a : Nat) : List Nat → List Instr → Option (List Instr)
  | [], blk => some blk
  | i :: is, blk => (patch blk i a).bind (patchAll a is)

def setPt (pts : Nat → Pt) (p : Nat) (x : Pt) : Nat → Pt := fun q => if q = p then x else pts q

/-- `kefir_ast_translator_flow_control_point_reference`, `flow_control.c` 105-133. -/
def Tr.reference (p i : Nat) (σ : Tr) : Option Tr :=
  match σ.pts p with
  | .res a => (patch σ.blk i a).map fun blk => { σ with blk := blk }
  | .unres ds => some { σ with pts := setPt σ.pts p (.unres (ds ++ [i])) }

/-- `kefir_ast_translator_flow_control_point_resolve` with the current index, `flow_control.c` 135-155. -/
def Tr.resolve (p : Nat) (σ : Tr) : Option Tr :=
  match σ.pts p with
  | .res _ => none
  | .unres ds => (patchAll σ.blk.length ds σ.blk).map fun blk => ⟨blk, setPt σ.pts p (.res σ.blk.length)⟩

/-- Append an instruction with a dummy target and reference the point for it. -/
def Tr.jump (mk : Nat → Instr) (p : Nat) (σ : Tr) : Option Tr :=
  Tr.reference p σ.blk.length (σ.emit [mk 0])

/-- A controlling expression followed by `BNOT`: `conditional_statement.c` 38-44, `while_statement.c` 43-49,
`for_statement.c` 65-71. -/
def condCode (c : Expr) : SC :=
  tr c ;; .prim ((if kt c = .arith .ldouble then [.ldtrunc1] else []) ++ [.un .bnot])

/-- The controlling expression of `do`, `do_while_statement.c` 45-51. -/
def doCode (c : Expr) : SC :=
  tr c ;; .prim (if kt c = .arith .ldouble then [.ldtrunc1] else [])

/-- An expression whose value is dropped: `expression_statement.c` 36-48, `for_statement.c` 47-56. -/
def exprCode (e : Expr) : SC :=
  tr e ;; .prim (if kt e = .void then [] else (if kt e = .arith .ldouble then [.pop] else []) ++ [.pop])

/-- The third clause of `for`, `for_statement.c` 81-89: one `POP` whatever the type. -/
def tailCode : Option Expr → SC
  | none => .prim []
  | some e => tr e ;; .prim (if kt e = .void then [] else [.pop])

/-- `translate_init_declarator`, `declaration_translator.c` 86-120, with `traverse_scalar`, `initializer.c` 101-139, for
an automatic object of scalar type. -/
def declCode : List Decl → SC
  | [] => .prim []
  | d :: ds =>
    match d.init with
    | none => declCode ds
    | some e =>
      trL (.auto d.offs d.t) ;; .prim [.pick 0] ;; tr e ;; .prim (typeconv (kt e) d.t ++ storeLvalue d.t none ++ [.pop]) ;;
        declCode ds

/-- `for_statement.c` 39-57. -/
def initCode : Init → SC
  | .none => .prim []
  | .expr e => exprCode e
  | .decl ds => declCode ds

/-- `return_statement.c` 39-53: the value is converted when `KEFIR_AST_TYPE_IS_SCALAR_TYPE` holds of the expression's
type, which it does not of a qualified type or of an array.  A `return` without expression has no code. -/
def retCode (rt : Ty) : Option Expr → Bool → SC
  | none, _ => .prim []
  | some e, q => tr e ;; .prim (if q then [] else typeconv (kt e) rt)

/-- The dispatch code of `switch`, `switch_statement.c` 41-59. -/
def trCases : List (Word × Nat) → Tr → Option Tr
  | [], σ => some σ
  | (w, p) :: cs, σ =>
    (Tr.jump .jmp p (σ.emit [.pick 0, .push w, .bin .eq, .un .bnot, .branch (σ.blk.length + 4 + 3), .pop])).bind (trCases cs)

/-- `kefir_ast_translate_statement`.  `lab`: the labels that are bound (`jump.c` 111-113). -/
def trS (rt : Ty) (lab : Nat → Bool) : A → Tr → Option Tr
  | .skip, σ => some σ
  | .expr e, σ => some (σ.code (exprCode e))
  | .decl ds, σ => some (σ.code (declCode ds))
  -- `compound_statement.c` 37-49
  | .seq a b, σ => (trS rt lab a σ).bind fun σ => trS rt lab b σ
  -- `conditional_statement.c` 38-66
  | .cond p c a, σ =>
    (Tr.jump .branch p (σ.code (condCode c))).bind fun σ => (trS rt lab a σ).bind fun σ => Tr.resolve p σ
  | .condElse p q c a b, σ =>
    (Tr.jump .branch p (σ.code (condCode c))).bind fun σ => (trS rt lab a σ).bind fun σ =>
      (Tr.jump .jmp q σ).bind fun σ => (Tr.resolve p σ).bind fun σ => (trS rt lab b σ).bind fun σ => Tr.resolve q σ
  -- `while_statement.c` 38-61
  | .loop p q c b, σ =>
    (Tr.resolve p σ).bind fun σ => (Tr.jump .branch q (σ.code (condCode c))).bind fun σ =>
      (trS rt lab b σ).bind fun σ => (Tr.jump .jmp p σ).bind fun σ => Tr.resolve q σ
  -- `do_while_statement.c` 37-55
  | .doWhile p q b c, σ =>
    (trS rt lab b σ).bind fun σ₁ => (Tr.resolve p σ₁).bind fun σ₂ =>
      Tr.resolve q ((σ₂.code (doCode c)).emit [.branch σ.blk.length])
  -- `for_statement.c` 39-93
  | .for_ p q init c t b, σ =>
    (match c with
      | some c => Tr.jump .branch q ((σ.code (initCode init)).code (condCode c))
      | none => some (σ.code (initCode init))).bind fun σ₁ =>
      (trS rt lab b σ₁).bind fun σ₂ => (Tr.resolve p σ₂).bind fun σ₃ =>
        Tr.resolve q ((σ₃.code (tailCode t)).emit [.jmp (σ.code (initCode init)).blk.length])
  -- `switch_statement.c` 37-75
  | .switch q cs d e b, σ =>
    (trCases cs (σ.code (tr e))).bind fun σ => (Tr.jump .jmp (d.getD q) σ).bind fun σ =>
      (trS rt lab b σ).bind fun σ => Tr.resolve q σ
  -- `case_statement.c` 37-40
  | .case p _ s, σ => (Tr.resolve p σ).bind fun σ => trS rt lab s σ
  | .dflt p s, σ => (Tr.resolve p σ).bind fun σ => trS rt lab s σ
  -- `labeled_statement.c` 37-40
  | .label p _ s, σ => (Tr.resolve p σ).bind fun σ => trS rt lab s σ
  -- `goto_statement.c` 39-42, `break_statement.c` 38-40, `continue_statement.c` 38-40, `jump.c` 92-94, 111-113
  | .goto p l, σ => if lab l then Tr.jump .jmp p σ else none
  | .brk p, σ => Tr.jump .jmp p σ
  | .cont p, σ => Tr.jump .jmp p σ
  -- `return_statement.c` 39-54
  | .ret e q, σ => some ((σ.code (retCode rt e q)).emit [.ret])

/-- A bound label. -/
def Ana.bound (st : Ana) (l : Nat) : Bool :=
  match st.labels l with
  | some (_, b) => b
  | none => false

/-- A function body: analysis (`ast/analyzer/nodes/function_definition.c`), then translation of the block items behind the
code `pre` that stores the parameters (`function_translator.c` 381-395), then the epilogue cell that the code generator
appends (`codegen/amd64/amd64-sysv.c` 99-101). -/
def compile (rt : Ty) (pre : List Instr) (body : Stmt) : Option (List Instr) :=
  (analyze none none body ⟨0, fun _ => none, none⟩).bind fun r =>
    (trS rt r.2.bound r.1 ⟨pre, fun _ => .unres []⟩).map fun σ => σ.blk ++ [.ret]

end Kefir.Stmt
