/-!
# What C says about alignment specifiers

C17 6.2.8 and 6.7.5.  An object can be declared several times, each declaration can have any number of alignment
specifiers.  A type operand counts as the alignment of the type (6.7.5p1), an expression is an integer constant.
-/

namespace Kefir.Alignas

/-- An alignment specifier: the alignment of the type that is named, or the value of the expression. -/
inductive Request where
  | type (alignment : Nat)
  | value (v : Int)
  deriving DecidableEq

/-- The alignment that is asked for. -/
def Request.amount : Request → Int
  | .type a => a
  | .value v => v

/-- 6.7.5p3 and 6.2.8p4: zero, or a power of two. -/
def Request.Valid (r : Request) : Prop := r.amount = 0 ∨ ∃ k : Nat, r.amount = 2 ^ k

/-- The declaration of an object: its alignment specifiers and the alignment that its type has anyway. -/
structure Declaration where
  requests : List Request
  natural : Nat
  deriving DecidableEq

/-- 6.7.5p4 and p6: the combined effect is the strictest of all, zero has none; and it is not less strict than what the
type needs anyway. -/
def Declaration.Valid (d : Declaration) : Prop :=
  (∀ r ∈ d.requests, r.amount = 0) ∨ ∃ r ∈ d.requests, (d.natural : Int) ≤ r.amount

/-- The address suits the type of the object and all that is asked for in the declaration. -/
def Declaration.Suits (d : Declaration) (address : Nat) : Prop :=
  d.natural ∣ address ∧ ∀ r ∈ d.requests, r.amount ≠ 0 → r.amount ∣ (address : Int)

end Kefir.Alignas
