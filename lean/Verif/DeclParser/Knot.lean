import Verif.DeclParser.Complete
import Verif.DeclParser.Sound

/-! # Type names and expressions together

The rules for expressions call the rule for type names, and the rules for declarations call those for expressions.  All
of them together end, find what the grammar common to C17 and kefir derives, and find only what kefir's derives. -/

namespace Kefir.DeclParser
open Kefir.Lexer (Punct Keyword)
open Kefir.Parser (Tok Expr Res lp rp comma colon expect tokIs tokLBrace tokRBrace headIs exprStart typeStart
  builtinNames restRank contRank)
open Kefir.Declr

/-- The rules for expressions where `T` is the rule for type names. -/
def exprEnv (isTypedef : String → Bool) (T : List Tok → Res Syn) : Parser.Env Syn := ⟨isTypedef, T⟩

/-- The rules for declarations where `T` is the rule for type names in expressions: `parser->ruleset`,
`source/parser/ruleset.c`. -/
def declEnv (isTypedef : String → Bool) (T : List Tok → Res Syn) : Env where
  isTypedef := isTypedef
  assign := Parser.run false (exprEnv isTypedef T) .assign
  cond := Parser.run false (exprEnv isTypedef T) .cond

/-- The rule for type names with a bound on how deep it calls itself through expressions. -/
def typeNameN (isTypedef : String → Bool) : Nat → List Tok → Res Syn
  | 0, _ => .fuel
  | n + 1, ts => run (declEnv isTypedef (typeNameN isTypedef n)) .typeName ts

/-- The rule for type names, `source/parser/rules/type_name.c` 25-75.  A call through an expression is on fewer tokens,
so there is always a result. -/
def typeNameRule (isTypedef : String → Bool) (ts : List Tok) : Res Syn := typeNameN isTypedef (ts.length + 1) ts

/-- All rules for expressions. -/
def exprs (isTypedef : String → Bool) : Parser.Env Syn := exprEnv isTypedef (typeNameRule isTypedef)

/-- All rules for declarations. -/
def decls (isTypedef : String → Bool) : Env := declEnv isTypedef (typeNameRule isTypedef)

/-- No name of a built-in operator is a typedef name, and the name of the built-in type of argument lists counts as
one. -/
def Scope (isTypedef : String → Bool) : Prop :=
  (∀ s, isTypedef s = true → builtinNames.lookup s = none) ∧ isTypedef vaListName = true

variable {td : String → Bool}

/-! ### The rules together -/

theorem declEnv_le {T T' : List Tok → Res Syn} (h : ∀ ts, (T ts).le (T' ts)) : (declEnv td T).le (declEnv td T') := by
  have : (exprEnv td T).le (exprEnv td T') := ⟨rfl, h⟩
  exact ⟨rfl, fun ts => ⟨Parser.run_le_env false this .assign ts, Parser.run_le_env false this .cond ts⟩⟩

theorem typeNameN_le_succ (n : Nat) (ts : List Tok) : (typeNameN td n ts).le (typeNameN td (n + 1) ts) := by
  induction n generalizing ts with
  | zero => exact .inl rfl
  | succ n ih => exact run_le_env (declEnv_le ih) _ _

theorem typeNameN_le {n m : Nat} (h : n ≤ m) (ts : List Tok) : (typeNameN td n ts).le (typeNameN td m ts) := by
  induction h with
  | refl => exact .inr rfl
  | step _ ih =>
    rcases ih with ih | ih
    · exact .inl ih
    · rw [ih]; exact typeNameN_le_succ _ _

theorem declEnv_fits {T : List Tok → Res Syn} {us : List Tok}
    (h : ∀ vs, vs.length ≤ us.length → (T vs).fits vs.length) :
    ((declEnv td T).assign us).fits us.length ∧ ((declEnv td T).cond us).fits us.length :=
  ⟨Parser.run_fitsTo false (exprEnv td T) .assign us h, Parser.run_fitsTo false (exprEnv td T) .cond us h⟩

theorem typeNameN_fits {n : Nat} {ts : List Tok} (h : ts.length < n) : (typeNameN td n ts).fits ts.length := by
  induction n generalizing ts with
  | zero => omega
  | succ n ih =>
    exact run_fitsTo (declEnv td (typeNameN td n)) .typeName ts fun us hu =>
      declEnv_fits fun vs hv => ih (by omega)

theorem typeNameRule_fits (ts : List Tok) : (typeNameRule td ts).fits ts.length := typeNameN_fits (Nat.lt_succ_self _)

theorem typeNameN_le_rule (n : Nat) (ts : List Tok) : (typeNameN td n ts).le (typeNameRule td ts) := by
  rcases Nat.le_total n (ts.length + 1) with h | h
  · exact typeNameN_le h ts
  · rcases typeNameN_le (td := td) h ts with h1 | h1
    · exact absurd h1 (typeNameRule_fits ts).1
    · exact .inr h1.symm

theorem exprs_fits : (exprs td).fits := fun ts => typeNameRule_fits ts

theorem decls_fits : (decls td).fits := fun _ => declEnv_fits fun vs _ => typeNameRule_fits vs

/-- The rules call each other. -/
theorem typeNameRule_eq (ts : List Tok) : typeNameRule td ts = run (decls td) .typeName ts := by
  have h : (typeNameRule td ts).le (run (decls td) .typeName ts) :=
    run_le_env (declEnv_le (td := td) fun us => typeNameN_le_rule (td := td) ts.length us) .typeName ts
  rcases h with h | h
  · exact absurd h (typeNameRule_fits ts).1
  · exact h

/-! ### They find what the common grammar derives -/

theorem specTok_typeStart (hv : td vaListName = true) {t : Tok} (h : specTok td t = true) : typeStart td t = true := by
  cases t with
  | kw k => cases k <;> first | rfl | cases h
  | ident s =>
    simp only [specTok, Bool.or_eq_true, beq_iff_eq] at h
    rcases h with rfl | h
    · exact hv
    · exact h
  | _ => cases h

theorem specsEnd_of_typeStart (hv : td vaListName = true) {ts : List Tok} (h : headIs (typeStart td) ts = false)
    (hb : headIs tokLBrace ts = false) : SpecsEnd td false ts := by
  cases ts with
  | nil => exact ⟨rfl, rfl, fun _ h => by simp at h, fun _ h => by simp at h⟩
  | cons t r =>
    have h : typeStart td t = false := h
    refine ⟨?_, hb, fun k hk => ?_, fun s hs => ?_⟩
    · cases ht : tokKw .kAttribute t with
      | false => exact ht
      | true => rw [tokKw_eq ht] at h; cases h
    · simp at hk
      subst hk
      cases k <;> first | rfl | cases h
    · simp at hs
      subst hs
      refine ⟨?_, .inr h⟩
      rintro rfl
      rw [show typeStart td (.ident vaListName) = td vaListName from rfl, hv] at h
      cases h

theorem typeNameRule_other (hv : td vaListName = true) {ts : List Tok} (h : headIs (typeStart td) ts = false) :
    typeNameRule td ts = .noMatch := by
  rw [typeNameRule_eq, run_eq _ decls_fits]
  show typeName (run (decls td)) ts = .noMatch
  have hs : run (decls td) (.spec false) ts = .noMatch := by
    rw [run_eq _ decls_fits]
    show specifier (decls td) (run (decls td)) false ts = .noMatch
    unfold specifier
    cases ts with
    | nil => rfl
    | cons t r =>
      have h : typeStart td t = false := h
      cases t with
      | kw k => cases k <;> first | rfl | cases h
      | ident s =>
        have h : td s = false := h
        have hn : s ≠ "__builtin_va_list" := by
          rintro rfl
          rw [show td "__builtin_va_list" = true from hv] at h
          cases h
        simp [skipAttrs, headIs, tokKw, hn, show (decls td).isTypedef s = false from h]
      | _ => rfl
  have hss : run (decls td) (.specs []) ts = .noMatch := by
    rw [run_eq _ decls_fits]
    show specList (run (decls td)) [] ts = .noMatch
    unfold specList
    rw [show run (decls td) (.spec (hasTypeSpecifiers [])) ts = .noMatch from hs]
    rfl
  unfold typeName
  rw [hss]
  rfl

theorem typeNames_start (hv : td vaListName = true) {p : Parser.Dialect} {d : Dialect} {n : Nat} {ts : List Tok}
    {t : Syn} (h : TypeNames p d td n ts t) : ∃ x r, ts = x :: r ∧ typeStart td x = true := by
  cases n with
  | zero => exact h.elim
  | succ n =>
    have hh : headIs (specTok td) ts = true := Der.head h
    cases ts with
    | nil => cases hh
    | cons x r => exact ⟨x, r, rfl, specTok_typeStart hv hh⟩

theorem expr_start (hs : Scope td) {p : Parser.Dialect} {I : List Tok → Syn → Prop} {s : Parser.Sym}
    (hn : s = .assign ∨ s = .cond) {ts : List Tok} {e : Expr Syn} (h : Parser.Der p td I s ts e) :
    headIs (exprStart td) ts = true := by
  have := Parser.der_head hs.1 h
  rcases hn with rfl | rfl <;>
  · obtain ⟨t, r, rfl, ht⟩ := this
    exact ht

/-- Rules that find the type names `I` find the expressions over them. -/
theorem decls_accept (hs : Scope td) {I : List Tok → Syn → Prop} (hE : (exprs td).Accepts I) :
    (decls td).Accepts (Parser.Der .kefir td I .assign) (Parser.Der .kefir td I .cond) where
  fits := decls_fits
  assign_start _ _ h := expr_start hs (.inl rfl) h
  cond_start _ _ h := expr_start hs (.inr rfl) h
  assign_other _ h := Parser.assign_noMatch (lit := false) hE h
  cond_other _ h := Parser.cond_noMatch (lit := false) hE h
  assign_complete ts e f r h hf := by
    refine Parser.der_complete (lit := false) hE (s := .assign) h (f :: r) ?_
    cases f with
    | punct p => cases p <;> first | (simp [restRank, contRank]; done) | cases hf
    | _ => cases hf
  cond_complete ts e f r h hf := by
    refine (Parser.der_complete (lit := false) hE (s := .cond) h).1 (f :: r) ?_
    cases f with
    | punct p => cases p <;> first | (simp [restRank, contRank]; done) | cases hf
    | _ => cases hf

theorem typeNames_accept (hs : Scope td) (n : Nat) : (exprs td).Accepts (TypeNames .kefir .common td n) := by
  induction n with
  | zero =>
    exact ⟨fun _ _ _ _ h => h.elim, fun _ _ h => h.elim, fun _ h => typeNameRule_other hs.2 h,
      fun ts => (typeNameRule_fits ts).1, fun ts => (typeNameRule_fits ts).2, hs.1⟩
  | succ n ih =>
    refine ⟨fun pre t f r h hf => ?_, fun _ _ h => typeNames_start hs.2 h, ih.other, ih.total, ih.progress, hs.1⟩
    show typeNameRule td _ = _
    rw [typeNameRule_eq]
    exact complete (decls_accept hs ih) (s := .typeName) h (f :: r) ⟨f, r, rfl, hf⟩

/-- The rules for expressions find the type names of the common grammar. -/
theorem exprs_accept (hs : Scope td) : (exprs td).Accepts (IsTypeName .kefir .common td) where
  complete pre t f r h hf := by
    obtain ⟨n, h⟩ := h
    exact (typeNames_accept hs n).complete pre t f r h hf
  start pre t h := by
    obtain ⟨n, h⟩ := h
    exact typeNames_start hs.2 h
  other := (typeNames_accept hs 0).other
  total := (typeNames_accept hs 0).total
  progress := (typeNames_accept hs 0).progress
  reserved := hs.1

/-! ### They find only what kefir's grammar derives -/

theorem run_expr_sound {E : Parser.Env Syn} {I : List Tok → Syn → Prop} (hE : E.Sound I) :
    Parser.Rec.sound false E.isTypedef I (Parser.run false E) := by
  intro nt ts v r h
  exact Parser.parse_sound hE _ nt ts v r h

theorem declEnv_sound (hs : Scope td) {T : List Tok → Res Syn} {I : List Tok → Syn → Prop}
    (hE : (exprEnv td T).Sound I) :
    (declEnv td T).Sound (Parser.Der .kefir td I .assign) (Parser.Der .kefir td I .cond) where
  assign_start _ _ h := expr_start hs (.inl rfl) h
  assign_sound ts e r h := run_expr_sound hE .assign ts e r h
  cond_sound ts e r h := run_expr_sound hE .cond ts e r h

theorem typeNameN_sound (hs : Scope td) (n : Nat) :
    (exprEnv td (typeNameN td n)).Sound (TypeNames .kefir .kefir td n) := by
  induction n with
  | zero => exact ⟨fun ts t r h => by cases h⟩
  | succ n ih => exact ⟨fun ts t r h => run_sound (declEnv_sound hs ih) .typeName ts t r h⟩

/-- The rule for type names finds only type names of kefir's grammar. -/
theorem exprs_sound (hs : Scope td) : (exprs td).Sound (IsTypeName .kefir .kefir td) := by
  refine ⟨fun ts t r h => ?_⟩
  obtain ⟨pre, h1, h2⟩ := (typeNameN_sound hs (ts.length + 1)).sound ts t r h
  exact ⟨pre, h1, _, h2⟩

theorem decls_sound (hs : Scope td) :
    (decls td).Sound (IsExpr .kefir .kefir td .assign) (IsExpr .kefir .kefir td .cond) :=
  declEnv_sound hs (exprs_sound hs)

end Kefir.DeclParser
