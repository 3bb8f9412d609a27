import Verif.Enumerators.Steps

/-! # C91: enumeration constants have the values of their enumerators -/

namespace Kefir.Enumerators
open Kefir.Types (Basic)
open Kefir.Expr Kefir.C17 Kefir.CSpec
open Kefir.IR (Word Mem)
open Kefir.ConstExpr

/-- C91, units whose constant expressions are made of integer types that are promoted to signed types: when C gives the
unit a meaning, the compiler accepts it, and every enumeration constant and every constant expression that uses them has
the value C gives it; the type chosen for an enumeration represents all its constants.  Missing: expressions with unsigned
arithmetic (C17), tags (C89), and constants in other expressions than constant expressions. -/
theorem C91_values_partial (C : Ctx) (m : Mem) (fixed : Bool) (is : List Item) (ev : List Event)
    (hs : ∀ i ∈ is, signedItem i) (h : specUnit C m is = .ok ev) :
    ∃ kev, analyzeUnit fixed is = .ok kev ∧ ShowsAll ev kev := run_ok fixed is fits_start hs h

/-- C91: a unit that declares a name twice in a scope (as an enumeration constant), or that uses an identifier that is
not an enumeration constant in a constant expression, is refused. -/
theorem C91_refused_partial (C : Ctx) (m : Mem) (fixed : Bool) (is : List Item) (w : Why)
    (hs : ∀ i ∈ is, signedItem i) (h : specUnit C m is = .error w) (hw : w ≠ .range) :
    ∃ c, analyzeUnit fixed is = .error (.err c) := run_error fixed hw is fits_start hs h

def A : Name := [65]
def B : Name := [66]
def D : Name := [68]
def int (v : Int) : VExpr := .lit .int v

/-- `enum { A = 3, B, D = A * B - 20 }; { enum { A = A + 1, B = A }; use(B + D); } use(A);` -/
def sample : List Item :=
  [.enumeration [(A, some (int 3)), (B, none), (D, some (.bin .sub (.bin .mul (.name A) (.name B)) (int 20)))],
   .enter, .enumeration [(A, some (.bin .add (.name A) (int 1))), (B, some (.name A))],
   .use (.bin .add (.name B) (.name D)), .leave, .use (.name A)]

/-- Hypotheses met: the values are 3, 4, -8; 4, 4; -4; 3. -/
example : (∀ i ∈ sample, signedItem i) ∧
    specUnit (ctxOf toyEnv) (fun _ => 0) sample =
      .ok [.enumeration [(A, 3), (B, 4), (D, -8)], .enumeration [(A, 4), (B, 4)], .value (-4), .value 3] ∧
    (analyzeUnit false sample).toOption =
      some [.enumeration [(A, 3), (B, 4), (D, -8)] .int, .enumeration [(A, 4), (B, 4)] .uint, .value (-4), .value 3] := by
  refine ⟨?_, rfl, by decide +kernel⟩
  have hl : ∀ v : Int, (decide (InRange .int v)) = true → signedExpr (.lit .int v) :=
    fun v hv => ⟨by decide, of_decide_eq_true hv⟩
  simp only [sample, signedItem, int, A, B, D, List.mem_cons, List.not_mem_nil, or_false, forall_eq_or_imp, forall_eq,
    Prod.mk.injEq, Option.some.injEq, reduceCtorEq, and_false, false_or, true_and]
  refine ⟨?_, ?_, ?_⟩
  · rintro x e (⟨-, rfl⟩ | ⟨-, rfl⟩)
    · exact hl 3 (by decide)
    · exact ⟨⟨trivial, trivial⟩, hl 20 (by decide)⟩
  · rintro x e (⟨-, rfl⟩ | ⟨-, rfl⟩)
    · exact ⟨trivial, hl 1 (by decide)⟩
    · trivial
  · simp [signedExpr]

/-- `enum { A }; enum { B = D };` and `enum { A, A };`: hypotheses met. -/
example : specUnit (ctxOf toyEnv) (fun _ => 0) [.enumeration [(A, none)], .enumeration [(B, some (.name D))]] =
      .error .notConstant ∧
    specUnit (ctxOf toyEnv) (fun _ => 0) [.enumeration [(A, none), (A, none)]] = .error .redeclared := ⟨rfl, rfl⟩

/-- `enum { A = 2147483647, B }` violates 6.7.2.2p2; it is accepted, and `B` is `2147483648` although its type is `int`. -/
theorem C91_next_false (C : Ctx) (m : Mem) :
    specUnit C m [.enumeration [(A, some (int 2147483647)), (B, none)]] = .error .range ∧
    (analyzeUnit false [.enumeration [(A, some (int 2147483647)), (B, none)]]).toOption =
      some [.enumeration [(A, 2147483647), (B, 2147483648)] .uint] := by
  refine ⟨?_, by decide +kernel⟩
  rfl

/-- `enum { A = 4294967296L, B = -1 }`: accepted with the type `int`, which cannot represent `A`. -/
theorem C91_representable_false (C : Ctx) (m : Mem) :
    let es : List (Name × Option VExpr) := [(A, some (.lit .long 4294967296)), (B, some (.un .neg (int 1)))]
    specUnit C m [.enumeration es] = .error .range ∧
    (analyzeUnit false [.enumeration es]).toOption = some [.enumeration [(A, 4294967296), (B, -1)] .int] ∧
    ¬ InRange .int 4294967296 := by
  refine ⟨rfl, by decide +kernel, by decide⟩

/-- `enum { A = 9223372036854775807L }`: the compiler increments `INT64_MAX`, which is undefined. -/
theorem C91_increment_false (C : Ctx) (m : Mem) :
    specUnit C m [.enumeration [(A, some (.lit .long 9223372036854775807))]] = .error .range ∧
    (match analyzeUnit false [.enumeration [(A, some (.lit .long 9223372036854775807))]] with
      | .error .undefined => true
      | _ => false) = true := by
  refine ⟨rfl, by decide +kernel⟩

end Kefir.Enumerators
