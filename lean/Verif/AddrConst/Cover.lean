import Verif.AddrConst.Spec
/-!
# Address constants: what the theorems cover

Nothing in this file depends on the model. `tame` leaves out the expressions whose value Kefir gets
wrong, `taken` the address constants it refuses; `Props.lean` shows for each restriction that it is
needed.
-/
namespace Verif.AddrConst

/-- A pointer or an integer of 8 bytes: an address fits. -/
def Ty.wide : Ty → Bool
  | .ptr _ => true
  | .int 8 _ => true
  | _ => false

/-- The integer types of the target have 1, 2, 4 or 8 bytes. -/
def Ty.usual : Ty → Bool
  | .int s _ => s == 1 || s == 2 || s == 4 || s == 8
  | _ => true

/-- An object, a function or a literal itself, or its address: never null. -/
def Expr.plain : Expr → Bool
  | .id _ => true
  | .str _ _ => true
  | .addr (.id _) => true
  | _ => false

/-- Addresses are not cut to narrower types, only integer constants are added to them or subtracted from
them, sums and differences have 8 bytes, and conditions are integer constants or plain addresses. -/
def tame (w : World) : Expr → Bool
  | .num _ _ | .str _ _ | .id _ => true
  | .member e _ => tame w e
  | .arrow e _ => tame w e
  | .addr e => tame w e
  | .deref e => tame w e
  | .index a i => tame w a && tame w i
  | .add a b =>
    tame w a && tame w b && (a.numeric || b.numeric) && ((typeOf w (.add a b)).map Ty.wide == some true)
  | .minus a b =>
    tame w a && tame w b && b.numeric && ((typeOf w (.minus a b)).map Ty.wide == some true)
  | .cast t e => tame w e && t.usual && (t.wide || e.numeric)
  | .cond c a b => tame w c && tame w a && tame w b && (c.numeric || c.plain)

mutual
/-- The address constants without `*`, without `&` or `[]` applied to string literals, without arrays
that are members or elements, and without arrays on the left of `->`. -/
def takenAddress (w : World) : Expr → Bool
  | .str _ _ => true
  | .id x =>
    match w.decl x with
    | some (.object (.arr _ _) st) => st
    | some .function => true
    | _ => false
  | .addr e => takenPlace w e
  | .add a b => takenAddress w a && b.numeric || a.numeric && takenAddress w b
  | .minus a b => takenAddress w a && b.numeric
  | .cast (.ptr _) e => e.numeric || takenAddress w e
  | _ => false

/-- What such a constant may be the address of. -/
def takenPlace (w : World) : Expr → Bool
  | .id x =>
    match w.decl x with
    | some (.object _ st) => st
    | some .function => true
    | none => false
  | .member e _ => takenPlace w e
  | .arrow e _ =>
    takenAddress w e && (match typeOf w e with | some (.ptr _) => true | _ => false)
  | .index a i =>
    match typeOf w a, typeOf w i with
    | some (.arr _ _), _ => takenPlace w a && i.numeric
    | some (.ptr _), _ => takenAddress w a && i.numeric
    | _, some (.arr _ _) => takenPlace w i && a.numeric
    | _, some (.ptr _) => takenAddress w i && a.numeric
    | _, _ => false
  | _ => false
end

/-- The address constants covered by the acceptance theorem. -/
def taken (w : World) (e : Expr) : Bool := (typeOf w e).isSome && takenAddress w e

end Verif.AddrConst
