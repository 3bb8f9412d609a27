import Verif.AddrConst.Accept
/-!
# C90: address constants

A static object initialised with an address constant holds, before the program starts, the value the
expression would have in the abstract machine, wherever the linker places objects, functions and string
literals. The address constants of C17 6.6 are accepted.
-/
namespace Verif.AddrConst

/-- The word stored for a value: the linker adds the address of the symbol to the offset
(C14–C16 are about the emission of static data). -/
abbrev stored (P : Placement) (v : KVal) : W64 := v.at P

/-- **C90**, value: whatever is accepted has the value of the abstract machine. Missing: addresses cut to
narrower types or to `_Bool`, operands of integer operators that are addresses on both sides, the
difference of two pointers, conditions that are computed addresses, arithmetic in types narrower than 8
bytes (C17). -/
theorem C90_value_partial (w : World) (P : Placement) (hP : ∀ b, P b ≠ 0) (junk : W64) (e : Expr)
    (h : tame w e = true) (v : KVal) (hv : compile w junk e = some v) :
    valueOf w P e = some (stored P v) := by
  unfold compile at hv
  split at hv
  · rename_i T ht; exact (sound w P junk hP e h).1 v T hv ht
  · cases hv

/-- **C90**, acceptance: these address constants are accepted, and as the address of an object, function
or string literal plus an offset. Missing: `*`, `&` and `[]` on string literals, arrays that are members or
elements, arrays on the left of `->`. -/
theorem C90_accepted_partial (w : World) (junk : W64) (e : Expr) (h : taken w e = true) :
    addressConstant w e = true ∧ ∃ p, compile w junk e = some (.address p) := by
  simp only [taken, Bool.and_eq_true] at h
  refine ⟨by simp only [addressConstant, Bool.and_eq_true]; exact ⟨h.1, (taken_form w e h.1).1 h.2⟩, ?_⟩
  obtain ⟨T, ht⟩ := Option.isSome_iff_exists.mp h.1
  simp only [compile, ht]
  exact ((accepted w junk e).1 h.2 h.1).2

/-- **C90**, the memory the compiler never assigned does not matter for what is covered. -/
theorem C90_determined_partial (w : World) (e : Expr) (h : tame w e = true) (j j' : W64) (v v' : KVal)
    (hv : compile w j e = some v) (hv' : compile w j' e = some v') (P : Placement) (hP : ∀ b, P b ≠ 0) :
    stored P v = stored P v' := by
  have a := C90_value_partial w P hP j e h v hv
  have b := C90_value_partial w P hP j' e h v' hv'
  rw [a] at b; injection b

/-! ## A concrete program -/

abbrev int : Ty := .int 4 true
abbrev long : Ty := .int 8 true
abbrev char : Ty := .int 1 true

/-- `struct S { char c; int n[3]; struct S *next; };` `static struct S s; static int x, a[4], m[2][3];
static struct S t[2]; int f(); ` and an automatic `int l;`. -/
def prog : World where
  decl
    | "x" => some (.object int true)
    | "a" => some (.object (.arr int (some 4)) true)
    | "m" => some (.object (.arr (.arr int (some 3)) (some 2)) true)
    | "s" => some (.object (.struct "S") true)
    | "t" => some (.object (.arr (.struct "S") (some 2)) true)
    | "f" => some .function
    | "l" => some (.object int false)
    | _ => none
  structSize
    | "S" => some 24
    | _ => none
  member
    | "S", "c" => some (0, char)
    | "S", "n" => some (4, .arr int (some 3))
    | "S", "next" => some (16, .ptr (.struct "S"))
    | _, _ => none

def k (n : Nat) : Expr := .num int (BitVec.ofNat 64 n)

/-- `&t[1].n[2] + 1`, `(char *) &s.next - 3`, `2 + "abc"`, `(long) f`, `1 ? a : (int *) 0`. -/
def samples : List Expr := [
  .add (.addr (.index (.member (.index (.id "t") (k 1)) "n") (k 2))) (k 1),
  .minus (.cast (.ptr char) (.addr (.member (.id "s") "next"))) (k 3),
  .add (k 2) (.str 0 4),
  .cast long (.id "f"),
  .cond (k 1) (.id "a") (.cast (.ptr int) (k 0))]

example : samples.map (tame prog) = [true, true, true, true, true] := by decide +kernel
example : samples.map (compile prog 77) = [
    some (.address ⟨.identifier "t", 40⟩),
    some (.address ⟨.identifier "s", 13⟩),
    some (.address ⟨.literal 0, 2⟩),
    some (.address ⟨.identifier "f", 0⟩),
    some (.address ⟨.identifier "a", 0⟩)] := by decide +kernel
example : (samples.take 3).map (taken prog) = [true, true, true] := by decide +kernel
/-- An automatic object has no constant address. -/
example : compile prog 0 (.addr (.id "l")) = none ∧ addressConstant prog (.addr (.id "l")) = false := by
  decide +kernel
/-- A placement that meets the hypothesis. -/
def spot : Placement
  | .named "x" => 0x404010
  | .named "s" => 0x404040
  | .named _ => 0x401000
  | .literal _ => 0x402000
example : ∀ b, spot b ≠ 0 := by
  intro b
  cases b with
  | named x => unfold spot; split <;> first | decide | (rename_i h; cases h)
  | literal n => show (0x402000 : W64) ≠ 0; decide

/-! ## What is refused or wrong -/

/-- `&*a` is an address constant (6.6p9 lists unary `*`), refused. -/
theorem C90_indirection_false : ∃ e, addressConstant prog e = true ∧ ∀ j, compile prog j e = none :=
  ⟨.addr (.deref (.id "a")), by decide +kernel, fun _ => rfl⟩

/-- `s.n` and `m[1]`, arrays that are a member or an element, are address constants, refused. -/
theorem C90_array_member_false : ∃ e e', addressConstant prog e = true ∧ addressConstant prog e' = true ∧
    ∀ j, compile prog j e = none ∧ compile prog j e' = none :=
  ⟨.member (.id "s") "n", .index (.id "m") (k 1), by decide +kernel, by decide +kernel, fun _ => ⟨rfl, rfl⟩⟩

/-- `&"abc"[1]` is an address constant, refused. -/
theorem C90_literal_false : ∃ e, addressConstant prog e = true ∧ ∀ j, compile prog j e = none :=
  ⟨.addr (.index (.str 0 4) (k 1)), by decide +kernel, fun _ => rfl⟩

/-- `&t->next` with an array on the left of `->` is an address constant, refused. -/
theorem C90_arrow_array_false : ∃ e, addressConstant prog e = true ∧ ∀ j, compile prog j e = none :=
  ⟨.addr (.arrow (.id "t") "next"), by decide +kernel, fun _ => rfl⟩

/-- `(unsigned char) (long) &x` and `(_Bool) &x` are accepted with the whole address. -/
theorem C90_narrow_false : ∃ e e' v v', (∀ j, compile prog j e = some v ∧ compile prog j e' = some v') ∧
    valueOf prog spot e = some 0x10 ∧ stored spot v = 0x404010 ∧
    valueOf prog spot e' = some 1 ∧ stored spot v' = 0x404010 :=
  ⟨.cast (.int 1 false) (.cast long (.addr (.id "x"))), .cast .bool (.addr (.id "x")),
    .address ⟨.identifier "x", 0⟩, .address ⟨.identifier "x", 0⟩, fun _ => ⟨rfl, rfl⟩,
    by decide +kernel, by decide +kernel, by decide +kernel, by decide +kernel⟩

/-- `5L - (long) &x` and `(long) &x + (long) &s` are accepted, and the result is made of memory the
compiler never assigned. -/
theorem C90_garbage_false : ∃ e e', (∀ j, compile prog j e = some (.int (5 - j))) ∧
    (∀ j, compile prog j e' = some (.address ⟨.identifier "x", j⟩)) :=
  ⟨.minus (.num long 5) (.cast long (.addr (.id "x"))),
    .add (.cast long (.addr (.id "x"))) (.cast long (.addr (.id "s"))),
    fun _ => rfl, fun j => by
      have : compile prog j (.add (.cast long (.addr (.id "x"))) (.cast long (.addr (.id "s")))) =
        some (.address ⟨.identifier "x", 0 + j⟩) := rfl
      rw [this]; simp⟩

/-- `(int *) 4 - (int *) 8` is -1; it is accepted with the value 2^62 - 1: the difference is divided as an
unsigned number. -/
theorem C90_difference_false : ∃ e, (∀ j, compile prog j e = some (.int 0x3fffffffffffffff)) ∧
    valueOf prog spot e = some (-1) :=
  ⟨.minus (.cast (.ptr int) (k 4)) (.cast (.ptr int) (k 8)), fun _ => rfl, by decide +kernel⟩

/-- `(char *) ((long) &x - 0x404010) ? 1 : 0`: addresses are taken for true whatever their offset. -/
theorem C90_condition_false : ∃ e, (∀ j, compile prog j e = some (.int 1)) ∧ valueOf prog spot e = some 0 :=
  ⟨.cond (.cast (.ptr char) (.minus (.cast long (.addr (.id "x"))) (.num long 0x404010))) (k 1) (k 0),
    fun _ => rfl, by decide +kernel⟩

end Verif.AddrConst
