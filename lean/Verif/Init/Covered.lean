import Verif.Init.Model

/-!
# The conditions under which the theorems about initialisers hold

The conditions on types and on initialisers that `Verif/Init/Props.lean` needs.  For each of them there is a
theorem `C68_…_false` that shows a program outside it for which kefir departs from C17.
-/

namespace Kefir.Init

variable {E : Type}

/-- The type is not qualified. -/
def Ty.plain : Ty → Bool
  | .qualified _ => false
  | _ => true

/-- There are members, and the last one has an identifier. -/
def Fields.lastNamed : Fields → Bool
  | .nil => false
  | .cons name _ _ .nil => name.isSome
  | .cons _ _ _ (.cons n b t r) => (Fields.cons n b t r).lastNamed

mutual
/-- Object types without anonymous structures and unions, without flexible array members, without
empty structures and arrays, whose structures do not end with an unnamed bit-field and whose unions
have none. -/
def Ty.good : Ty → Bool
  | .scalar _ => true
  | .qualified t =>
    t.good && (match t with | .scalar _ => true | .record _ _ _ => true | _ => false)
  | .array (some n) el => decide (0 < n) && el.good
  | .array none _ => false
  | .record u _ fs => fs.lastNamed && fs.good u []
/-- The same for members; `seen` are the identifiers of the members before, which may not be used
again. -/
def Fields.good (u : Bool) : List Name → Fields → Bool
  | _, .nil => true
  | seen, .cons (some m) _ t r => !seen.contains m && t.good && r.good u (m :: seen)
  | seen, .cons none bits t r =>
    !u && bits && (match t with | .scalar _ => true | _ => false) && r.good u seen
end

/-- No subobject on the way to the one at a path has a qualified type; the last one may. -/
def Ty.clear : Ty → Path → Bool
  | _, [] => true
  | t, i :: p =>
    t.plain &&
      match t.child i with
      | some u => u.clear p
      | none => false

mutual
/-- Nesting depth of a type. -/
def Ty.depth : Ty → Nat
  | .scalar _ => 0
  | .qualified t => t.depth
  | .array _ el => el.depth + 1
  | .record _ _ fs => fs.depth + 1
/-- Nesting depth of the members. -/
def Fields.depth : Fields → Nat
  | .nil => 0
  | .cons _ _ t r => max t.depth r.depth
end

/-- What is assumed of expressions: nothing can be assigned to an array; string literals and
expressions of scalar type cannot be assigned to structures and unions; the elements of arrays that
a string literal may initialise are scalar, and the literal itself cannot be assigned to such an
element; an expression that can be assigned to a structure or union does not become a pointer. -/
structure Env.Lawful (env : Env E) : Prop where
  array : ∀ e n t, env.assign e (.array n t) = false
  record : ∀ e u tag fs, env.assign e (.record u tag fs) = true →
    env.isString e = false ∧ env.isScalar e = false ∧ env.decays e = false
  elem : ∀ e t, env.isString e = true → env.elemOf e t = true →
    (∃ c, t = .scalar c) ∧ env.assign e t = false

/-- The string literal, its terminating null included, fits into the array, or the object has static
storage duration. -/
def fits (cfg : Model.Cfg) (env : Env E) (t : Ty) (e : E) : Bool :=
  cfg.isStatic ||
    match t.bare with
    | .array (some n) _ => decide (env.len e ≤ n)
    | _ => true

/-- A string literal that is the only item of a list for a whole array fits. -/
def fitsBraced (cfg : Model.Cfg) (env : Env E) (t : Ty) (its : Items E) : Bool :=
  match bracedString env t its with
  | some e => fits cfg env t e
  | none => true

/-- The items of a list whose current object has type `t`, when `next` comes next:
* no subobject on the way to a subobject that is initialised is qualified;
* an expression with a designation initialises what is designated, not a part of it;
* an expression whose own type is not scalar, other than a string literal, initialises what comes next
  or its first direct subobject;
* string literals fit (see `fits`). -/
def coveredItems (cfg : Model.Cfg) (env : Env E) : Items E → Ty → Option Path → Prop
  | .nil, _, _ => True
  | .cons d i rest, t, next =>
    ∀ p u, (if d = [] then next else t.resolve d) = some p → t.sub p = some u →
      match i with
      | .list its =>
        t.clear p = true ∧ fitsBraced cfg env u its = true ∧
          coveredItems cfg env its u.bare (u.first.map fun j => [j]) ∧
          coveredItems cfg env rest t (t.after p)
      | .expr e =>
        ∀ q, u.place env e = some q →
          t.clear (p ++ q) = true ∧ (d = [] ∨ q = []) ∧
          (env.isString e = true ∨ env.isScalar e = true ∨ q.length ≤ 1) ∧
          coveredItems cfg env rest t (t.after (p ++ q))

/-- The same for a whole initialiser. -/
def covered (cfg : Model.Cfg) (env : Env E) (t : Ty) : Init E → Prop
  | .expr e => fits cfg env t e = true
  | .list its =>
    fitsBraced cfg env t its = true ∧
      coveredItems cfg env its t.bare (t.first.map fun j => [j])

end Kefir.Init
