import Verif.Parser.Model

/-! The rules of the model need only as much depth as the length of the input allows: more fuel changes no result, and
`20 * length + 20` is always enough. -/
namespace Kefir.Parser
open Kefir.Lexer (Punct Keyword)
variable {τ α β : Type}

/-- The result is the same, or there was none. -/
def Res.le (x y : Res α) : Prop := x = .fuel ∨ x = y

theorem Res.le_refl (x : Res α) : x.le x := .inr rfl

theorem Res.le_fuel (y : Res α) : Res.le .fuel y := .inl rfl

theorem Res.andThen_le {x y : Res α} {k k' : α → List Tok → Res β} (h : x.le y) (hk : ∀ a r, (k a r).le (k' a r)) :
    (x.andThen k).le (y.andThen k') := by
  rcases h with rfl | rfl
  · exact .inl rfl
  · cases x with
    | ok a r => exact hk a r
    | _ => exact .inr rfl

theorem Res.must_le {x y : Res α} {k k' : α → List Tok → Res β} (h : x.le y) (hk : ∀ a r, (k a r).le (k' a r)) :
    (x.must k).le (y.must k') := by
  rcases h with rfl | rfl
  · exact .inl rfl
  · cases x with
    | ok a r => exact hk a r
    | _ => exact .inr rfl

theorem Res.orElse_le {x y x' y' : Res α} (h : x.le y) (h' : x'.le y') : (x.orElse x').le (y.orElse y') := by
  rcases h with rfl | rfl
  · exact .inl rfl
  · cases x with
    | noMatch => exact h'
    | _ => exact .inr rfl

theorem expect_le {f : Tok → Bool} {ts : List Tok} {a b : Res α} {k k' : List Tok → Res α} (h : a.le b)
    (hk : ∀ r, (k r).le (k' r)) : (expect f ts a k).le (expect f ts b k') := by
  unfold expect
  split
  · split
    · exact hk _
    · exact h
  · exact h

theorem scanMember_le {ts : List Tok} {k k' : String → List Tok → Res α} (hk : ∀ s r, (k s r).le (k' s r)) :
    (scanMember ts k).le (scanMember ts k') := by
  unfold scanMember
  split
  · exact hk _ _
  · exact .inr rfl

/-- One more result. -/
def Rec.le (f g : Rec τ) : Prop := ∀ nt ts, (f nt ts).le (g nt ts)

theorem operandRule_le {f g : Rec τ} (h : f.le g) (l : Level) (ts : List Tok) :
    (operandRule f l ts).le (operandRule g l ts) := by
  cases l <;> exact h _ _

/-- Take the rules apart. -/
macro "le_step" h:ident : tactic => `(tactic|
  repeat' first
    | exact Res.le_refl _
    | exact $h _ _
    | exact operandRule_le $h _ _
    | apply Res.andThen_le
    | apply Res.must_le
    | apply Res.orElse_le
    | apply expect_le
    | apply scanMember_le
    | intro _
    | split)

theorem compoundLiteral_le (E : Env τ) {f g : Rec τ} (h : f.le g) (ts : List Tok) :
    (compoundLiteral E f ts).le (compoundLiteral E g ts) := by
  unfold compoundLiteral; le_step h

theorem postfixRest_le (lit : Bool) (E : Env τ) {f g : Rec τ} (h : f.le g) (ts : List Tok) :
    (postfixRest lit E f ts).le (postfixRest lit E g ts) := by
  unfold postfixRest
  rcases compoundLiteral_le E h ts with hc | hc
  · rw [hc]; exact .inl rfl
  · rw [← hc]; le_step h

theorem designation_le {f g : Rec τ} (h : f.le g) (ts : List Tok) : (designation f ts).le (designation g ts) := by
  unfold designation; le_step h

theorem initItem_le {f g : Rec τ} (h : f.le g) (items : List (List (Desig (Expr τ)) × Expr τ))
    (ds : List (Desig (Expr τ))) (ts : List Tok) : (initItem f items ds ts).le (initItem g items ds ts) := by
  unfold initItem; le_step h

theorem step_le (lit : Bool) (E : Env τ) {f g : Rec τ} (h : f.le g) : (step lit E f).le (step lit E g) := by
  intro nt ts
  cases nt with
  | primary => simp only [step, primary, scanGeneric]; le_step h
  | genericTail c as d => simp only [step, genericTail, scanAssoc]; le_step h
  | post => 
    simp only [step, postfixExpr, scanBuiltin]
    split
    · split
      · le_step h
      · exact postfixRest_le lit E h _
    · exact postfixRest_le lit E h _
  | postTail e => simp only [step, postTail]; le_step h
  | argTail fn args => simp only [step, argTail]; le_step h
  | builtinTail op args => simp only [step, builtinTail, builtinNext]; le_step h
  | unary => simp only [step, unary, alignofOperand]; le_step h
  | cast => simp only [step, castExpr, scanCast]; le_step h
  | bin l => simp only [step, binExpr]; le_step h
  | binTail l e => simp only [step, binTail]; le_step h
  | cond => simp only [step, condExpr]; le_step h
  | reduceAssign => simp only [step, reduceAssign, assignRest]; le_step h
  | assign => simp only [step, assignExpr]; le_step h
  | expr => simp only [step, expr]; le_step h
  | exprTail e => simp only [step, exprTail]; le_step h
  | init => simp only [step, initializer]; le_step h
  | initList => simp only [step, initList]; le_step h
  | initTail items => 
    simp only [step, initTail]
    rcases designation_le h ts with hc | hc
    · rw [hc]; exact .inl rfl
    · rw [← hc]
      split
      · exact initItem_le h _ _ _
      · exact initItem_le h _ _ _
      · exact .inr rfl
      · exact .inr rfl
  | desigTail ds => simp only [step, desigTail]; le_step h

theorem parse_le_succ (lit : Bool) (E : Env τ) (n : Nat) : (parse lit E n).le (parse lit E (n + 1)) := by
  induction n with
  | zero => intro nt ts; exact .inl rfl
  | succ n ih => exact step_le lit E ih

theorem parse_le (lit : Bool) (E : Env τ) {n m : Nat} (h : n ≤ m) : (parse lit E n).le (parse lit E m) := by
  induction m with
  | zero => cases Nat.le_zero.1 h; intro nt ts; exact .inr rfl
  | succ m ih =>
    rcases Nat.lt_or_ge m n with hm | hm
    · cases Nat.le_antisymm h hm; intro nt ts; exact .inr rfl
    · intro nt ts
      rcases ih hm nt ts with h1 | h1
      · exact .inl h1
      · rw [h1]; exact parse_le_succ lit E m nt ts

/-! ### Enough fuel -/

/-- There is a result, and what is left is shorter than `n`. -/
def Res.fits (x : Res α) (n : Nat) : Prop := x ≠ .fuel ∧ ∀ a r, x = .ok a r → r.length < n

theorem Res.noMatch_fits (n : Nat) : (Res.noMatch : Res α).fits n := ⟨by simp, by simp⟩
theorem Res.error_fits (n : Nat) : (Res.error : Res α).fits n := ⟨by simp, by simp⟩
theorem Res.ok_fits {n : Nat} {a : α} {r : List Tok} (h : r.length < n) : (Res.ok a r).fits n :=
  ⟨by simp, fun _ _ he => by cases he; exact h⟩

theorem Res.fits_mono {x : Res α} {m n : Nat} (h : x.fits m) (hl : m ≤ n) : x.fits n :=
  ⟨h.1, fun a r he => Nat.lt_of_lt_of_le (h.2 a r he) hl⟩

theorem Res.andThen_fits {x : Res α} {k : α → List Tok → Res β} {m n : Nat} (h : x.fits m)
    (hk : ∀ a r, r.length < m → (k a r).fits n) : (x.andThen k).fits n := by
  cases x with
  | ok a r => exact hk a r (h.2 a r rfl)
  | noMatch => exact noMatch_fits n
  | error => exact error_fits n
  | fuel => exact absurd rfl h.1

theorem Res.must_fits {x : Res α} {k : α → List Tok → Res β} {m n : Nat} (h : x.fits m)
    (hk : ∀ a r, r.length < m → (k a r).fits n) : (x.must k).fits n := by
  cases x with
  | ok a r => exact hk a r (h.2 a r rfl)
  | noMatch => exact error_fits n
  | error => exact error_fits n
  | fuel => exact absurd rfl h.1

theorem Res.orElse_fits {x y : Res α} {n : Nat} (h : x.fits n) (h' : y.fits n) : (x.orElse y).fits n := by
  cases x with
  | noMatch => exact h'
  | _ => exact h

theorem expect_fits {f : Tok → Bool} {ts : List Tok} {a : Res α} {k : List Tok → Res α} {n : Nat} (h : a.fits n)
    (hk : ∀ r, r.length + 1 = ts.length → (k r).fits n) : (expect f ts a k).fits n := by
  unfold expect
  split
  · split
    · exact hk _ (by simp)
    · exact h
  · exact h

theorem scanMember_fits {ts : List Tok} {k : String → List Tok → Res α} {n : Nat}
    (hk : ∀ s r, r.length + 1 = ts.length → (k s r).fits n) : (scanMember ts k).fits n := by
  unfold scanMember
  split
  · exact hk _ _ (by simp)
  · exact Res.error_fits n

/-- Whether a rule may succeed without consuming anything. -/
def NT.slack : NT τ → Nat
  | .postTail _ | .binTail .. | .exprTail _ | .desigTail _ => 1
  | _ => 0

/-- The order in which rules call each other without consuming anything. -/
def Level.rank : Level → Nat
  | .mul => 4
  | .add => 5
  | .shift => 6
  | .rel => 7
  | .eq => 8
  | .band => 9
  | .bxor => 10
  | .bor => 11
  | .land => 12
  | .lor => 13

/-- The order in which rules call each other without consuming anything. -/
def NT.rank : NT τ → Nat
  | .primary | .genericTail .. | .postTail _ | .binTail .. | .exprTail _ | .initList | .desigTail _ => 0
  | .post => 1
  | .unary => 2
  | .cast => 3
  | .bin l => l.rank
  | .reduceAssign => 3
  | .cond => 14
  | .assign => 15
  | .expr | .argTail .. | .builtinTail .. | .init => 16
  | .initTail _ => 17

/-- The depth that a rule needs. -/
def NT.bound (nt : NT τ) (ts : List Tok) : Nat := 20 * ts.length + nt.rank

/-- `f` gives a result wherever less depth than `n` is needed. -/
def Rec.fits (f : Rec τ) (n : Nat) : Prop := ∀ nt ts, nt.bound ts < n → (f nt ts).fits (ts.length + nt.slack)

/-- The rule for type names gives a result and consumes something. -/
def Env.fits (E : Env τ) : Prop := ∀ ts, (E.typeName ts).fits ts.length

/-- The same for inputs that need less depth than `n`. -/
def Env.fitsTo (E : Env τ) (n : Nat) : Prop := ∀ ts, 20 * ts.length < n → (E.typeName ts).fits ts.length

theorem Env.fits.to {E : Env τ} (h : E.fits) (n : Nat) : E.fitsTo n := fun ts _ => h ts

theorem Level.rank_le (l : Level) : l.rank ≤ 13 := by cases l <;> simp [Level.rank]

theorem operandRule_fits {f : Rec τ} {n : Nat} (h : f.fits n) (l : Level) (ts : List Tok)
    (hb : 20 * ts.length + l.rank ≤ n) : (operandRule f l ts).fits ts.length := by
  cases l <;>
    first
    | exact h .cast ts (by simp [NT.bound, NT.rank, Level.rank] at *; omega)
    | exact h (.bin _) ts (by simp [NT.bound, NT.rank, Level.rank] at *; omega)

/-- Take the rules apart. -/
macro "fits_step" h:ident hE:ident : tactic => `(tactic|
  repeat' first
    | exact Res.noMatch_fits _
    | exact Res.error_fits _
    | refine Res.ok_fits ?_
    | refine Res.andThen_fits ($h _ _ ?_) ?_
    | refine Res.must_fits ($h _ _ ?_) ?_
    | refine Res.andThen_fits ($hE _ ?_) ?_
    | refine Res.must_fits ($hE _ ?_) ?_
    | refine Res.andThen_fits (operandRule_fits $h _ _ ?_) ?_
    | refine Res.must_fits (operandRule_fits $h _ _ ?_) ?_
    | refine Res.fits_mono ($h _ _ ?_) ?_
    | refine Res.orElse_fits ?_ ?_
    | refine expect_fits ?_ ?_
    | refine scanMember_fits ?_
    | intro _
    | omega
    | (simp [NT.bound, NT.rank, Level.rank, NT.slack] at *; done)
    | (simp [NT.bound, NT.rank, Level.rank, NT.slack] at *; omega)
    | split)

theorem compoundLiteral_fits (E : Env τ) {f : Rec τ} {n : Nat} (hE : E.fitsTo (n + 1)) (h : f.fits n) (ts : List Tok)
    (hb : 20 * ts.length ≤ n) : (compoundLiteral E f ts).fits ts.length := by
  unfold compoundLiteral; fits_step h hE

theorem step_fits (lit : Bool) (E : Env τ) {f : Rec τ} {n : Nat} (hE : E.fitsTo (n + 1)) (h : f.fits n) :
    (step lit E f).fits (n + 1) := by
  intro nt ts hb
  have hlen : 20 * ts.length < n + 1 := by simp [NT.bound] at hb; omega
  cases nt with
  | primary => simp only [step, primary, scanGeneric]; fits_step h hE
  | genericTail c as d =>
    simp only [step, genericTail, scanAssoc]
    refine expect_fits ?_ fun r hr => ?_
    · fits_step h hE
    · split
      · have := (hE _ (by omega)).2 _ _ ‹E.typeName r = _›
        fits_step h hE
      · fits_step h hE
      · exact Res.error_fits _
      · exact absurd ‹E.typeName _ = _› (hE _ (by omega)).1
  | post =>
    have hc := compoundLiteral_fits E hE h ts (by simp [NT.bound, NT.rank] at hb; omega)
    have hr : (postfixRest lit E f ts).fits ts.length := by
      unfold postfixRest
      split
      · fits_step h hE
      · have := hc.2 _ _ ‹_›
        fits_step h hE
      · exact Res.error_fits _
      · exact absurd ‹_› hc.1
    simp only [step, postfixExpr, scanBuiltin]
    split
    · split
      · fits_step h hE
      · exact hr
    · exact hr
  | postTail e => simp only [step, postTail]; fits_step h hE
  | argTail fn args => simp only [step, argTail]; fits_step h hE
  | builtinTail op args => 
    simp only [step, builtinTail, builtinNext]
    refine expect_fits ?_ fun r hr => ?_
    · split
      · have := (hE _ (by omega)).2 _ _ ‹E.typeName _ = _›
        fits_step h hE
      · fits_step h hE
      · exact Res.error_fits _
      · exact absurd ‹E.typeName _ = _› (hE _ (by omega)).1
    · fits_step h hE
  | unary => 
    simp only [step, unary, alignofOperand, sizeofType]
    split
    · fits_step h hE
    · rename_i r0
      refine Res.andThen_fits (m := r0.length) ?_ ?_
      · fits_step h hE
      · fits_step h hE
    · rename_i r0
      refine Res.andThen_fits (m := r0.length) ?_ ?_
      · refine expect_fits ?_ fun r hr => ?_
        · fits_step h hE
        · refine Res.andThen_fits (m := r0.length) ?_ ?_
          · split
            · have := (hE _ (by simp at hlen; omega)).2 _ _ ‹E.typeName r = _›
              fits_step h hE
            · fits_step h hE
            · exact Res.error_fits _
            · exact absurd ‹E.typeName _ = _› (hE _ (by simp at hlen; omega)).1
          · fits_step h hE
      · fits_step h hE
    · fits_step h hE
  | cast => 
    simp only [step, castExpr, scanCast]
    refine Res.orElse_fits ?_ ?_
    · refine expect_fits ?_ fun r hr => ?_
      · fits_step h hE
      · refine Res.andThen_fits (hE _ (by omega)) fun t r hr => ?_
        refine expect_fits ?_ fun r hr => ?_
        · fits_step h hE
        · refine Res.andThen_fits (m := ts.length) ?_ ?_
          · fits_step h hE
          · fits_step h hE
    · fits_step h hE
  | bin l => simp only [step, binExpr]; fits_step h hE
  | binTail l e => have := l.rank_le; simp only [step, binTail]; fits_step h hE
  | cond => simp only [step, condExpr]; fits_step h hE
  | reduceAssign => simp only [step, reduceAssign, assignRest]; fits_step h hE
  | assign => simp only [step, assignExpr]; fits_step h hE
  | expr => simp only [step, expr]; fits_step h hE
  | exprTail e => simp only [step, exprTail]; fits_step h hE
  | init => simp only [step, initializer]; fits_step h hE
  | initList => simp only [step, initList, initEnd]; fits_step h hE
  | initTail items =>
    have hi : ∀ ds us, us.length ≤ ts.length → (initItem f items ds us).fits ts.length := by
      intro ds us hu
      simp only [initItem, initEnd]; fits_step h hE
    have hd : (designation f ts).fits ts.length := by
      unfold designation; fits_step h hE
    simp only [step, initTail]
    split
    · exact hi _ _ (Nat.le_of_lt (hd.2 _ _ ‹_›))
    · exact hi _ _ (Nat.le_refl _)
    · exact Res.error_fits _
    · exact absurd ‹_› hd.1
  | desigTail ds => simp only [step, desigTail]; fits_step h hE

theorem parse_fitsTo (lit : Bool) (E : Env τ) (n : Nat) (hE : E.fitsTo n) : (parse lit E n).fits n := by
  induction n with
  | zero => intro nt ts h; exact absurd h (Nat.not_lt_zero _)
  | succ n ih => exact step_fits lit E hE (ih fun ts h => hE ts (by omega))

theorem parse_fits (lit : Bool) (E : Env τ) (hE : E.fits) (n : Nat) : (parse lit E n).fits n :=
  parse_fitsTo lit E n (hE.to n)

/-- The rules with as much depth as they need. -/
def run (lit : Bool) (E : Env τ) : Rec τ := fun nt ts => parse lit E (nt.bound ts + 1) nt ts

theorem run_fits (lit : Bool) (E : Env τ) (hE : E.fits) (nt : NT τ) (ts : List Tok) :
    (run lit E nt ts).fits (ts.length + nt.slack) := parse_fits lit E hE _ nt ts (Nat.lt_succ_self _)

theorem parse_le_run (lit : Bool) (E : Env τ) (hE : E.fits) (n : Nat) : (parse lit E n).le (run lit E) := by
  intro nt ts
  rcases Nat.le_total n (nt.bound ts + 1) with h | h
  · exact parse_le lit E h nt ts
  · rcases parse_le lit E h nt ts with h1 | h1
    · exact absurd h1 (run_fits lit E hE nt ts).1
    · exact .inr h1.symm

/-- The rules call each other. -/
theorem run_eq (lit : Bool) (E : Env τ) (hE : E.fits) (nt : NT τ) (ts : List Tok) :
    run lit E nt ts = step lit E (run lit E) nt ts := by
  rcases step_le lit E (parse_le_run lit E hE (nt.bound ts)) nt ts with h | h
  · exact absurd h (run_fits lit E hE nt ts).1
  · exact h

theorem run_of_parse (lit : Bool) (E : Env τ) (hE : E.fits) {n : Nat} {nt : NT τ} {ts : List Tok}
    (h : parse lit E n nt ts ≠ .fuel) : run lit E nt ts = parse lit E n nt ts := by
  rcases parse_le_run lit E hE n nt ts with h1 | h1
  · exact absurd h1 h
  · exact h1.symm

theorem parse_eq_run (lit : Bool) (E : Env τ) (hE : E.fits) {n : Nat} {nt : NT τ} {ts : List Tok}
    (h : nt.bound ts < n) : parse lit E n nt ts = run lit E nt ts :=
  (run_of_parse lit E hE (parse_fits lit E hE n nt ts h).1).symm

/-! ### Fewer type names -/

/-- The same typedef names and one more result for type names. -/
def Env.le (E E' : Env τ) : Prop := E.isTypedef = E'.isTypedef ∧ ∀ ts, (E.typeName ts).le (E'.typeName ts)

/-- Take the rules apart. -/
macro "env_step" h:ident hE:ident : tactic => `(tactic|
  repeat' first
    | exact Res.le_refl _
    | exact $h _ _
    | exact ($hE).2 _
    | exact operandRule_le $h _ _
    | apply Res.andThen_le
    | apply Res.must_le
    | apply Res.orElse_le
    | apply expect_le
    | apply scanMember_le
    | intro _
    | split)

theorem step_le_env (lit : Bool) {E E' : Env τ} (hE : E.le E') {f g : Rec τ} (h : f.le g) :
    (step lit E f).le (step lit E' g) := by
  have h1 := step_le lit E h
  intro nt ts
  have hc : ∀ ts, (compoundLiteral E f ts).le (compoundLiteral E' g ts) := by
    intro ts; unfold compoundLiteral; env_step h hE
  have hp : ∀ ts, (postfixRest lit E f ts).le (postfixRest lit E' g ts) := by
    intro ts
    unfold postfixRest
    rcases hc ts with hc | hc
    · rw [hc]; exact .inl rfl
    · rw [← hc]; env_step h hE
  cases nt with
  | primary => simp only [step, primary, scanGeneric, hE.1]; env_step h hE
  | genericTail c as d =>
    simp only [step, genericTail, scanAssoc]
    apply expect_le
    · env_step h hE
    · intro r
      rcases hE.2 r with ht | ht
      · rw [ht]; exact .inl rfl
      · rw [← ht]; env_step h hE
  | post =>
    simp only [step, postfixExpr, scanBuiltin]
    split
    · split
      · env_step h hE
      · exact hp _
    · exact hp _
  | builtinTail op args =>
    simp only [step, builtinTail, builtinNext]
    apply expect_le
    · rcases hE.2 ts with ht | ht
      · rw [ht]; exact .inl rfl
      · rw [← ht]; env_step h hE
    · env_step h hE
  | unary =>
    simp only [step, unary, alignofOperand, sizeofType]
    split
    · env_step h hE
    · env_step h hE
    · apply Res.andThen_le
      · apply expect_le
        · env_step h hE
        · intro r
          rcases hE.2 r with ht | ht
          · rw [ht]; exact .inl rfl
          · rw [← ht]; env_step h hE
      · env_step h hE
    · env_step h hE
  | cast => simp only [step, castExpr, scanCast]; env_step h hE
  | _ => exact h1 _ ts

theorem parse_le_env (lit : Bool) {E E' : Env τ} (hE : E.le E') (n : Nat) : (parse lit E n).le (parse lit E' n) := by
  induction n with
  | zero => intro nt ts; exact .inl rfl
  | succ n ih => exact step_le_env lit hE ih

theorem run_le_env (lit : Bool) {E E' : Env τ} (hE : E.le E') : (run lit E).le (run lit E') :=
  fun nt ts => parse_le_env lit hE _ nt ts

theorem NT.rank_le (nt : NT τ) : nt.rank ≤ 17 := by
  cases nt with
  | bin l => have := l.rank_le; simp only [NT.rank]; omega
  | _ => simp [NT.rank]

theorem run_fitsTo (lit : Bool) (E : Env τ) (nt : NT τ) (ts : List Tok)
    (hE : ∀ us, us.length ≤ ts.length → (E.typeName us).fits us.length) :
    (run lit E nt ts).fits (ts.length + nt.slack) :=
  parse_fitsTo lit E _ (fun us hu => hE us (by have := nt.rank_le; simp [NT.bound] at hu; omega)) nt ts
    (Nat.lt_succ_self _)
end Kefir.Parser
