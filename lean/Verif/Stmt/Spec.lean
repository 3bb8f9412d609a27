import Verif.Expr.Spec
import Verif.Stmt.Syntax

/-! What C17 6.8 says about the execution of statements: an abstract machine whose state is the statement being
executed, what follows it, and memory.  Nothing here refers to kefir's analyzer or translator.  A state with no successor
that is not final has undefined behaviour (or violates a constraint). -/
namespace Kefir.CSpec
open Kefir.Types (Basic)
open Kefir.IR (Mem)
open Kefir.Expr Kefir.Stmt

/-- What remains to be executed after the current statement, innermost first. -/
inductive Kont
  /-- the end of the function body -/
  | stop
  | seq (s : Stmt) (k : Kont)
  /-- in the body of `while (c) b` -/
  | loop (c : Expr) (b : Stmt) (k : Kont)
  /-- in the body of `do b while (c)` -/
  | doWhile (b : Stmt) (c : Expr) (k : Kont)
  /-- in the body of `for (; c; t) b` -/
  | for_ (c t : Option Expr) (b : Stmt) (k : Kont)
  /-- in the body of a `switch` -/
  | switch (k : Kont)

inductive State
  | run (s : Stmt) (k : Kont) (m : Mem)
  /-- the function has returned -/
  | done (v : Option Val) (m : Mem)

/-- A controlling expression compares unequal to 0 (6.8.4.1, 6.8.5). -/
def test (C : Ctx) (c : Expr) (m : Mem) : Option (Bool × Mem) :=
  (eval C c m).bind fun r => (truth r.1).map fun x => (x, r.2)

/-- Evaluation for side effects (6.8.3). -/
def effect (C : Ctx) : Option Expr → Mem → Option Mem
  | none, m => some m
  | some e, m => (eval C e m).map (·.2)

/-- Initialization of scalar automatic objects (6.7.9p11: as if by simple assignment), in the order of the declarators.
An object without an initializer keeps its indeterminate value. -/
def declare (C : Ctx) : List Decl → Mem → Option Mem
  | [], m => some m
  | d :: ds, m =>
    match d.init with
    | none => declare C ds m
    | some e =>
      (eval C e m).bind fun r => (conv C.fp d.t r.1).bind fun v => (evalL C (.auto d.offs d.t) r.2).bind fun a =>
        (store d.t none a.2 a.1 v).bind fun m => declare C ds m

def start (C : Ctx) : Init → Mem → Option Mem
  | .none, m => some m
  | .expr e, m => effect C (some e) m
  | .decl ds, m => declare C ds m

/-- Where `break` goes: behind the innermost enclosing loop or `switch` (6.8.6.3). -/
def breakK : Kont → Option Kont
  | .stop => none
  | .seq _ k => breakK k
  | .loop _ _ k => some k
  | .doWhile _ _ k => some k
  | .for_ _ _ _ k => some k
  | .switch k => some k

/-- Where `continue` goes: the end of the body of the innermost enclosing loop (6.8.6.2). -/
def contK : Kont → Option Kont
  | .stop => none
  | .seq _ k => contK k
  | .loop c b k => some (.loop c b k)
  | .doWhile b c k => some (.doWhile b c k)
  | .for_ c t b k => some (.for_ c t b k)
  | .switch k => contK k

/-- The first statement in `s` whose label satisfies `q`, with what follows it there; `into`: also look inside the
`switch` statements in `s`. -/
def find (q : Mark → Bool) (into : Bool) : Stmt → Kont → Option (Stmt × Kont)
  | .seq a b, k => (find q into a (.seq b k)).or (find q into b k)
  | .cond _ a, k => find q into a k
  | .condElse _ a b, k => (find q into a k).or (find q into b k)
  | .loop c b, k => find q into b (.loop c b k)
  | .doWhile b c, k => find q into b (.doWhile b c k)
  | .for_ _ c t b, k => find q into b (.for_ c t b k)
  | .switch _ b, k => if into then find q into b (.switch k) else none
  | .case v s, k => if q (.case v) then some (s, k) else find q into s k
  | .dflt s, k => if q .dflt then some (s, k) else find q into s k
  | .label l s, k => if q (.label l) then some (s, k) else find q into s k
  | _, _ => none

/-- The promoted type of the controlling expression of a `switch` (6.8.4.2p5). -/
def switchTy (e : Expr) : Option Basic :=
  match cty e with
  | some (.arith b) => if isInt (.arith b) then some (promoteW b e.bfw) else none
  | _ => none

/-- 6.8.4.2p5: the constant, converted to the promoted type of the controlling expression, equals its value. -/
def matchesCase (b : Basic) (x : Int) : Mark → Bool
  | .case v => wrap b v == x
  | _ => false

/-- Where a `switch` goes (6.8.4.2p4, p7): to the matching `case`, else to `default`, else behind the statement. -/
def select (b : Basic) (x : Int) (body : Stmt) (k : Kont) : Stmt × Kont :=
  ((find (matchesCase b x) false body (.switch k)).or
    (find (· == .dflt) false body (.switch k))).getD (.skip, k)

/-- One step of a function with the given return type and body. -/
def next (C : Ctx) (rt : Ty) (body : Stmt) : State → Option State
  | .done _ _ => none
  | .run s k m =>
    match s with
    | .skip =>
      match k with
      | .stop => some (.done none m)
      | .seq s k => some (.run s k m)
      | .loop c b k => some (.run (.loop c b) k m)
      | .doWhile b c k => (test C c m).map fun r => .run (if r.1 then .doWhile b c else .skip) k r.2
      | .for_ c t b k => (effect C t m).map fun m => .run (.for_ .none c t b) k m
      | .switch k => some (.run .skip k m)
    | .expr e => (effect C (some e) m).map fun m => .run .skip k m
    | .decl ds => (declare C ds m).map fun m => .run .skip k m
    | .seq a b => some (.run a (.seq b k) m)
    | .cond c a => (test C c m).map fun r => .run (if r.1 then a else .skip) k r.2
    | .condElse c a b => (test C c m).map fun r => .run (if r.1 then a else b) k r.2
    | .loop c b => (test C c m).map fun r => if r.1 then .run b (.loop c b k) r.2 else .run .skip k r.2
    | .doWhile b c => some (.run b (.doWhile b c k) m)
    | .for_ .none c t b =>
      match c with
      | none => some (.run b (.for_ none t b k) m)
      | some c => (test C c m).map fun r => if r.1 then .run b (.for_ (some c) t b k) r.2 else .run .skip k r.2
    | .for_ init c t b => (start C init m).map fun m => .run (.for_ .none c t b) k m
    | .switch e b =>
      (switchTy e).bind fun p => (eval C e m).bind fun r =>
        match r.1 with
        | .int x => some (.run (select p x b k).1 (select p x b k).2 r.2)
        | _ => none
    | .case _ s => some (.run s k m)
    | .dflt s => some (.run s k m)
    | .label _ s => some (.run s k m)
    | .goto l => (find (· == .label l) true body .stop).map fun r => .run r.1 r.2 m
    | .brk => (breakK k).map fun k => .run .skip k m
    | .cont => (contK k).map fun k => .run .skip k m
    | .ret none _ => some (.done none m)
    | .ret (some e) _ => (eval C e m).bind fun r => (conv C.fp rt r.1).map fun v => .done (some v) r.2

/-- Any number of steps. -/
inductive Exec (C : Ctx) (rt : Ty) (body : Stmt) : State → State → Prop
  | refl (a) : Exec C rt body a a
  | head {a b c} : next C rt body a = some b → Exec C rt body b c → Exec C rt body a c

/-- `n` steps. -/
def iter (C : Ctx) (rt : Ty) (body : Stmt) : Nat → State → Option State
  | 0, a => some a
  | n + 1, a => (next C rt body a).bind (iter C rt body n)

/-- The function, called with memory `m`, returns `v` (or returns without a value) and leaves memory `m'`. -/
def Returns (C : Ctx) (rt : Ty) (body : Stmt) (m : Mem) (v : Option Val) (m' : Mem) : Prop :=
  Exec C rt body (.run body .stop m) (.done v m')

/-- The function, called with memory `m`, never returns. -/
def Diverges (C : Ctx) (rt : Ty) (body : Stmt) (m : Mem) : Prop :=
  ∀ n, (iter C rt body n (.run body .stop m)).isSome

end Kefir.CSpec
