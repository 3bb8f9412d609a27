import Verif.JumpVla.Spec

/-!
# Model of jumps in functions with variable length arrays

`source/ast-translator/jump.c` and `source/ast/flow_control.c`.
-/

namespace Kefir.JumpVla

/-- `source/ast/flow_control.c:406-433`, `kefir_ast_flow_control_point_common_parent`: the first statement around the origin
that is around the target too. -/
def commonParent (origin target : Point) : Option Nat :=
  match origin with
  | [] => none
  | l :: ls => if target.any (fun x => x.id == l.id) then some l.id else commonParent ls target

/-- `flow_control.c:435-448`, `kefir_ast_flow_control_point_parents`: the statements inside the common one, and (what `jump.c`
finds through `parent_point`, `:44`, `:61`) the level of the common one. -/
def split (top : Nat) : Point → List Level × Option Level
  | [] => ([], none)
  | l :: ls => if l.id = top then ([], some l) else (l :: (split top ls).1, (split top ls).2)

/-- The first entry of the range of a point, `flow_control.c:65-77`, `:162-173`: none if no array was declared in front. -/
def first (before : Nat) : Option Nat := if before = 0 then none else some 0

/-- `kefir_list_next`: entries are numbered; there are `total` of them when the function is translated. -/
def next (total : Nat) : Option Nat → Option Nat
  | none => none
  | some i => if i + 1 < total then some (i + 1) else none

/-- `source/ast-translator/jump.c:65-80`.  The outer `none`: the jump is rejected; otherwise the entry of the origin that has
been reached.  The last entries of the ranges are `bt - 1` and `bo - 1`. -/
def walk (total bt bo : Nat) : Nat → Option Nat → Option Nat → Option (Option Nat)
  | _, none, o => some o
  | 0, some _, _ => none
  | fuel + 1, some i, o =>
    if o ≠ some i then none
    else if i + 1 = bt then some (next total o)
    else if i + 1 = bo then none
    else walk total bt bo fuel (next total (some i)) (next total o)

/-- `jump.c:28-97`, `perform_jump`, with `:99-128`: the blocks whose scope is popped in front of the jump, in this order.
`contains_vla` is `0 < total` (`source/ast/local_context.c:762-790`). -/
def jump (origin target : Point) : Option (List Nat) :=
  match commonParent origin target with
  | none => none
  | some top =>
    match split top origin, split top target with
    | (inner, some o), (entered, some t) =>
      if entered.any (fun l => l.block && decide (0 < l.total)) then none
      else
        match walk t.total t.before o.before (t.total + 1) (first t.before) (first o.before) with
        | none => none
        | some entry =>
          some ((inner.filter (fun l => l.block && decide (0 < l.total))).map (·.id) ++ (if entry.isSome then [o.id] else []))
    | _, _ => none

end Kefir.JumpVla
