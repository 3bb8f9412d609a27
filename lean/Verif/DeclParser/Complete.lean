import Verif.DeclParser.Laws

/-! What the grammar derives is accepted by the rules, with the same tree. -/

namespace Kefir.DeclParser
open Kefir.Lexer (Punct Keyword)
open Kefir.Parser (Tok Expr Res lp rp comma colon expect tokIs tokLBracket tokRBracket tokLBrace tokRBrace headIs
  exprStart sepComma optComma tokIs_eq tokLBracket_eq tokRBracket_eq tokLBrace_eq tokRBrace_eq)
open Kefir.Declr

attribute [local irreducible] run

set_option linter.unusedSectionVars false

theorem expect_hit {α : Type} {f : Tok → Bool} {t : Tok} {r : List Tok} {x : Res α} {k : List Tok → Res α}
    (h : f t = true) : expect f (t :: r) x k = k r := by simp [expect, h]

theorem expect_miss {α : Type} {f : Tok → Bool} {ts : List Tok} {x : Res α} {k : List Tok → Res α}
    (h : headIs f ts = false) : expect f ts x k = x := by
  cases ts with
  | nil => rfl
  | cons t r => have h : f t = false := h; simp [expect, h]

theorem head?_append {ts us : List Tok} (h : ts ≠ []) : (ts ++ us).head? = ts.head? := by
  cases ts with
  | nil => exact absurd rfl h
  | cons t r => rfl

theorem skipAttrs_miss {α : Type} {ts : List Tok} {x : Res α} (h : headIs (tokKw .kAttribute) ts = false) :
    skipAttrs ts x = x := by simp [skipAttrs, h]

theorem quals_append (q : List Qual) {ts : List Tok} (h : ∀ k, ts.head? = some (.kw k) → isQualKw k = false) :
    quals (qualToks q ++ ts) = (q, ts) := by
  induction q with
  | nil =>
    show quals ts = ([], ts)
    unfold quals
    split
    · exact absurd (h _ rfl) (by decide)
    · exact absurd (h _ rfl) (by decide)
    · exact absurd (h _ rfl) (by decide)
    · exact absurd (h _ rfl) (by decide)
    · rfl
  | cons x q ih =>
    show quals (.kw (Qual.kw x) :: (qualToks q ++ ts)) = (x :: q, ts)
    cases x <;> simp only [Qual.kw, quals, ih]

/-- After the specifiers comes no other one. -/
def SpecsEnd (isTypedef : String → Bool) (has : Bool) (rest : List Tok) : Prop :=
  headIs (tokKw .kAttribute) rest = false ∧ headIs tokLBrace rest = false ∧
    (∀ k, rest.head? = some (.kw k) → specKw k = false) ∧
    ∀ s, rest.head? = some (.ident s) → s ≠ vaListName ∧ (has = true ∨ isTypedef s = false)

/-- After a declarator comes no other part of it. -/
def DEnd (rest : List Tok) : Prop :=
  headIs (tokKw .kAttribute) rest = false ∧ headIs tokLBracket rest = false ∧
    headIs (tokIs .leftParenthese) rest = false

/-- What follows an abstract declarator. -/
def AEnd (rest : List Tok) : Prop := ∃ f r, rest = f :: r ∧ f ∈ [rp, comma, colon]

/-- What follows a parameter. -/
def PEnd (rest : List Tok) : Prop := ∃ f r, rest = f :: r ∧ f ∈ [rp, comma]

theorem PEnd.aend {rest : List Tok} (h : PEnd rest) : AEnd rest := by
  obtain ⟨f, r, rfl, hf⟩ := h
  exact ⟨f, r, rfl, by simp at hf ⊢; rcases hf with rfl | rfl <;> simp⟩

theorem AEnd.dend {rest : List Tok} (h : AEnd rest) : DEnd rest := by
  obtain ⟨f, r, rfl, hf⟩ := h
  simp at hf
  rcases hf with rfl | rfl | rfl <;> exact ⟨rfl, rfl, rfl⟩

theorem AEnd.specsEnd {rest : List Tok} (h : AEnd rest) (f : String → Bool) (has : Bool) : SpecsEnd f has rest := by
  obtain ⟨f, r, rfl, hf⟩ := h
  simp at hf
  rcases hf with rfl | rfl | rfl <;>
    exact ⟨rfl, rfl, fun _ h => by simp at h, fun _ h => by simp at h⟩

theorem specsEnd_of_punct {p : Punct} {r : List Tok} (f : String → Bool) (has : Bool)
    (h : tokLBrace (.punct p) = false) : SpecsEnd f has (.punct p :: r) :=
  ⟨rfl, h, fun _ h => by simp at h, fun _ h => by simp at h⟩

theorem dend_of_punct {p : Punct} {r : List Tok} (h : tokLBracket (.punct p) = false)
    (h' : tokIs .leftParenthese (.punct p) = false) : DEnd (.punct p :: r) := ⟨rfl, h, h'⟩

theorem specsEnd_of_dtor {f : String → Bool} {ts rest : List Tok} (h : headIs (dtorTok false) ts = true) :
    SpecsEnd f true (ts ++ rest) := by
  cases ts with
  | nil => cases h
  | cons t r =>
    simp only [headIs] at h
    unfold dtorTok at h
    split at h
    · exact specsEnd_of_punct _ _ rfl
    · exact specsEnd_of_punct _ _ rfl
    · refine ⟨rfl, rfl, fun _ h => by simp at h, fun s hs => ?_⟩
      simp at hs h
      subst hs
      exact ⟨h, .inl rfl⟩
    · cases h

theorem specsEnd_of_abs {f : String → Bool} {has : Bool} {ts rest : List Tok} (h : headIs absTok ts = true) :
    SpecsEnd f has (ts ++ rest) := by
  cases ts with
  | nil => cases h
  | cons t r =>
    simp only [headIs] at h
    unfold absTok at h
    split at h
    · exact specsEnd_of_punct _ _ rfl
    · exact specsEnd_of_punct _ _ rfl
    · unfold Tok.isLBracket at h
      split at h
      · exact specsEnd_of_punct _ _ rfl
      · exact specsEnd_of_punct _ _ rfl
      · cases h

/-! ### The first token of a declarator that is none of `*`, `(` and qualifiers -/

theorem declHead_append {td : List Tok} {f : Tok} {r : List Tok} (hf : f ∈ [rp, comma, colon]) (b : Bool) :
    declHead b (td ++ f :: r) = some ((declHead b td).getD f) := by
  induction td generalizing b with
  | nil => 
    simp at hf
    rcases hf with rfl | rfl | rfl <;> rfl
  | cons t td ih =>
    simp only [List.cons_append, declHead]
    split
    · exact ih _
    · split
      · exact ih _
      · split
        · split
          · exact ih _
          · rfl
        · rfl

theorem quals_other {ts : List Tok} (h : ∀ k r, ts = .kw k :: r → isQualKw k = false) : quals ts = ([], ts) := by
  unfold quals
  split
  · exact absurd (h _ _ rfl) (by decide)
  · exact absurd (h _ _ rfl) (by decide)
  · exact absurd (h _ _ rfl) (by decide)
  · exact absurd (h _ _ rfl) (by decide)
  · rfl

theorem quals_kw {k : Keyword} (h : isQualKw k = true) (r : List Tok) :
    (quals (.kw k :: r)).2 = (quals r).2 := by
  cases k <;> first | (exact absurd h (by decide)) | simp [quals]

theorem declHead_quals (ts : List Tok) : declHead true ts = declHead false (quals ts).2 := by
  induction ts with
  | nil => rfl
  | cons t r ih =>
    by_cases hq : ∃ k, t = .kw k ∧ isQualKw k = true
    · obtain ⟨k, rfl, hk⟩ := hq
      rw [quals_kw hk, ← ih]
      simp [declHead, hk]
    · rw [quals_other (fun k r' h => by
        cases h
        cases hk : isQualKw k with
        | false => rfl
        | true => exact absurd ⟨k, rfl, hk⟩ hq)]
      simp only [declHead]
      split
      · rfl
      · split
        · rfl
        · split
          · rename_i k _ _
            have : isQualKw k = false := by
              cases hk : isQualKw k with
              | false => rfl
              | true => exact absurd ⟨k, rfl, hk⟩ hq
            simp [this]
          · rfl

section
variable {E : Env} {IsAssign IsCond : List Tok → Expr Syn → Prop}

local notation "R" => run E
local notation "D" => Der Dialect.common E.isTypedef IsAssign IsCond

variable (hE : E.Accepts IsAssign IsCond)
include hE

theorem R_spec (has) (ts : List Tok) : R (.spec has) ts = specifier E R has ts := run_eq E hE.fits (.spec has) ts
theorem R_specs (acc) (ts : List Tok) : R (.specs acc) ts = specList R acc ts := run_eq E hE.fits (.specs acc) ts
theorem R_declarator (ts : List Tok) : R .declarator ts = declarator R ts := run_eq E hE.fits .declarator ts
theorem R_tail (a d) (ts : List Tok) : R (.tail a d) ts = dtorTail E R a d ts := run_eq E hE.fits (.tail a d) ts
theorem R_abstract (ts : List Tok) : R .abstract ts = abstractDeclarator R ts := run_eq E hE.fits .abstract ts
theorem R_ptrTail (ts : List Tok) : R .ptrTail ts = ptrTail R ts := run_eq E hE.fits .ptrTail ts
theorem R_param (ts : List Tok) : R .param ts = param R ts := run_eq E hE.fits .param ts
theorem R_params (acc) (ts : List Tok) : R (.params acc) ts = params R acc ts := run_eq E hE.fits (.params acc) ts
theorem R_members (acc) (ts : List Tok) : R (.members acc) ts = members R acc ts := run_eq E hE.fits (.members acc) ts
theorem R_member (ts : List Tok) : R .member ts = (memberDecl R ts).orElse (memberAssert E ts) :=
  run_eq E hE.fits .member ts
theorem R_mdtors (acc) (ts : List Tok) : R (.mdtors acc) ts = mdtors E R acc ts := run_eq E hE.fits (.mdtors acc) ts
theorem R_enums (acc) (ts : List Tok) : R (.enums acc) ts = enums E R acc ts := run_eq E hE.fits (.enums acc) ts
theorem R_typeName (ts : List Tok) : R .typeName ts = typeName R ts := run_eq E hE.fits .typeName ts

theorem spec_noMatch {has : Bool} {ts : List Tok} (h : SpecsEnd E.isTypedef has ts) : R (.spec has) ts = .noMatch := by
  rw [R_spec hE]
  unfold specifier
  simp only [skipAttrs_miss h.1]
  match ts, h with
  | [], _ => rfl
  | .kw k :: r, h =>
    have := h.2.2.1 _ rfl
    cases k <;> first | rfl | (exact absurd this (by decide))
  | .ident s :: r, h =>
    obtain ⟨h1, h2⟩ := h.2.2.2 s rfl
    have h1 : s ≠ "__builtin_va_list" := h1
    rcases h2 with h2 | h2 <;> simp [h1, h2]
  | .punct _ :: _, _ => rfl
  | .const _ _ :: _, _ => rfl
  | .str _ _ :: _, _ => rfl

theorem specs_noMatch {ts : List Tok} (h : SpecsEnd E.isTypedef false ts) : R (.specs []) ts = .noMatch := by
  rw [R_specs hE, specList, spec_noMatch hE (has := hasTypeSpecifiers []) h]; rfl

theorem tail_end (a : Bool) (d : Dtor Syn) {rest : List Tok} (h : DEnd rest) : R (.tail a d) rest = .ok d rest := by
  rw [R_tail hE, dtorTail, expect_miss h.2.1, expect_miss h.2.2]

/-- A declarator starts with `*`, `(` and qualifiers, and then a name. -/
theorem declarator_noMatch {ts : List Tok} (h : ∀ s, declHead false ts ≠ some (.ident s))
    (ha : declHead false ts ≠ some (.kw .kAttribute)) : R .declarator ts = .noMatch := by
  match ts with
  | [] => rw [R_declarator hE]; rfl
  | t :: r =>
    rw [R_declarator hE, declarator]
    by_cases hs : t = star
    · subst hs
      rw [skipAttrs_miss rfl]
      simp only [declHead, if_true] at h ha
      rw [declHead_quals] at h ha
      have ih := declarator_noMatch h ha
      rw [show headIs (tokIs .star) (star :: r) = true from rfl, if_pos rfl, pointer, expect_hit rfl]
      simp only [ih]
      rfl
    · have h1 : headIs (tokIs .star) (t :: r) = false := by
        cases hh : tokIs .star t with
        | false => exact hh
        | true => exact absurd (tokIs_eq hh) hs
      rw [h1]
      by_cases hl : t = lp
      · subst hl
        rw [skipAttrs_miss rfl]
        have h2 : declHead false (lp :: r) = declHead false r := by simp [declHead]
        rw [h2] at h ha
        have ih := declarator_noMatch h ha
        rw [if_neg (by simp)]
        unfold direct
        rw [expect_hit rfl, ih]
        rfl
      · have h3 : declHead false (t :: r) = some t := by
          simp only [declHead, hs, hl, if_false]
          split <;> simp
        rw [h3] at h ha
        have h4 : headIs (tokKw .kAttribute) (t :: r) = false := by
          cases t with
          | kw k =>
            have : k ≠ .kAttribute := fun hk => ha (by rw [hk])
            simp [headIs, tokKw, this]
          | _ => rfl
        rw [skipAttrs_miss h4, if_neg (by simp)]
        unfold direct
        rw [expect_miss]
        · cases t with
          | ident s => exact absurd rfl (h s)
          | _ => rfl
        · cases hh : tokIs .leftParenthese t with
          | false => exact hh
          | true => exact absurd (tokIs_eq hh) hl
termination_by ts.length
decreasing_by
  · have := quals_length r; simp; omega
  · simp

theorem abstractBase_none {ts : List Tok} (h : headIs (tokIs .leftParenthese) ts = false) :
    abstractBase R ts = .ok (.name none) ts := by
  rw [abstractBase, expect_miss h]; rfl

theorem directAbstract_end (p : Bool) {ts : List Tok} (h : DEnd ts) :
    directAbstract R p ts = if p then .ok (.name none) ts else .noMatch := by
  rw [directAbstract, abstractBase_none hE h.2.2]
  simp only [Res.andThen, tail_end hE true _ h, notEmpty]

/-- An abstract declarator starts with `*`, `(` or `[`. -/
theorem abstract_noMatch {ts : List Tok} (h : DEnd ts) (hs : headIs (tokIs .star) ts = false) :
    R .abstract ts = .noMatch := by
  rw [R_abstract hE, abstractDeclarator, skipAttrs_miss h.1, if_neg (by simp [hs]), directAbstract_end hE _ h]
  first | rfl | done

theorem ptrTail_end {ts : List Tok} (h : DEnd ts) (hs : headIs (tokIs .star) ts = false) :
    R .ptrTail ts = .ok (.name none) ts := by
  rw [R_ptrTail hE, ptrTail, pointer, expect_miss hs, directAbstract_end hE _ h]
  rfl

/-! ### Brackets -/

theorem exprStart_facts {ts : List Tok} (h : headIs (exprStart E.isTypedef) ts = true) (us : List Tok) :
    headIs (tokKw .kStatic) (ts ++ us) = false ∧ (∀ k, (ts ++ us).head? = some (.kw k) → isQualKw k = false) := by
  cases ts with
  | nil => cases h
  | cons t r =>
    cases t with
    | kw k =>
      have h : (k == .kGeneric || k == .kSizeof || k == .kAlignof) = true := h
      simp at h
      refine ⟨?_, ?_⟩
      · rcases h with (rfl | rfl) | rfl <;> rfl
      · intro k' hk
        simp at hk
        subst hk
        rcases h with (rfl | rfl) | rfl <;> rfl
    | _ => exact ⟨rfl, fun k hk => by simp at hk⟩

theorem quals_static (q : List Qual) {ts : List Tok} (h : q ≠ [] ∨ headIs (tokKw .kStatic) ts = false) :
    headIs (tokKw .kStatic) (qualToks q ++ ts) = false := by
  cases q with
  | nil => rcases h with h | h
           · exact absurd rfl h
           · exact h
  | cons x q => cases x <;> rfl

theorem rbracket_facts {t : Tok} (h : t.isRBracket = true) (r : List Tok) :
    headIs (exprStart E.isTypedef) (t :: r) = false ∧ exprEnd t = true ∧ tokRBracket t = true ∧
    headIs (tokKw .kStatic) (t :: r) = false ∧ headIs (tokIs .star) (t :: r) = false ∧
    (∀ k, (t :: r).head? = some (.kw k) → isQualKw k = false) := by
  refine ⟨?_, by simp [exprEnd, h], by rw [tokRBracket_eq, h], ?_⟩ <;>
  · unfold Tok.isRBracket at h
    split at h
    · first | rfl | exact ⟨rfl, rfl, fun k hk => by simp at hk⟩
    · first | rfl | exact ⟨rfl, rfl, fun k hk => by simp at hk⟩
    · cases h

theorem star_head {ts : List Tok} (us : List Tok) (hn : ts ≠ []) (h : ts.head? ≠ some star) :
    headIs (tokIs .star) (ts ++ us) = false := by
  cases ts with
  | nil => exact absurd rfl hn
  | cons t r =>
    cases hh : tokIs .star t with
    | false => exact hh
    | true => exact absurd (by rw [tokIs_eq hh]; rfl) h

/-- The length of an array. -/
theorem arrayLength_expr {te : List Tok} {e : Expr Syn} {t : Tok} (st : Bool) (q : List Qual) (rest : List Tok)
    (ha : IsAssign te e) (hs : te.head? ≠ some star) (ht : t.isRBracket = true) :
    arrayLength E st q (te ++ t :: rest) = .ok (st, q, .expr (.expr e)) rest := by
  obtain ⟨-, h2, h3, -⟩ := rbracket_facts hE ht rest
  rw [arrayLength, expect_miss (star_head hE _ (headIs_ne_nil (hE.assign_start _ _ ha)) hs),
    hE.assign_complete _ _ _ _ ha h2]
  simp only [caseOf, arrayEnd, expect_hit h3]

theorem array_complete {a : Bool} {tb : List Tok} {st : Bool} {q : List Qual} {b : Bound Syn}
    (h : Brackets Dialect.common IsAssign a tb st q b) (v : Dtor Syn) (rest : List Tok) :
    R (.tail a v) (tb ++ rest) = R (.tail a (.arr v st q b)) rest := by
  have key : ∀ l ts, l.isLBracket = true → array E (ts ++ rest) = .ok (st, q, b) rest →
      R (.tail a v) (l :: ts ++ rest) = R (.tail a (.arr v st q b)) rest := by
    intro l ts hl hk
    rw [R_tail hE, dtorTail, List.cons_append, expect_hit (by rw [tokLBracket_eq, hl]), hk]
    rfl
  cases h with
  | @empty l r _ hl hr =>
    obtain ⟨h1, h2, h3, h4, h5, h6⟩ := rbracket_facts hE hr rest
    refine key _ _ hl ?_
    show array E (qualToks q ++ [r] ++ rest) = _
    rw [List.append_assoc]
    show array E (qualToks q ++ r :: rest) = _
    rw [array, expect_miss (quals_static hE q (.inr h4)), quals_append q h6, expect_miss h4, arrayLength,
      expect_miss h5, hE.assign_other _ h1]
    simp only [caseOf, arrayEnd, expect_hit h3]
    simp
  | @star l r _ hl hr _ =>
    obtain ⟨h1, h2, h3, h4, h5, h6⟩ := rbracket_facts hE hr rest
    refine key _ _ hl ?_
    show array E (qualToks q ++ [DeclParser.star, r] ++ rest) = _
    rw [List.append_assoc]
    show array E (qualToks q ++ DeclParser.star :: r :: rest) = _
    rw [array, expect_miss (quals_static hE q (.inr rfl)), quals_append q (fun k hk => by simp at hk), expect_miss rfl,
      arrayLength, expect_hit rfl]
    simp [arrayEnd, expect_hit h3]
  | @expr l r _ te e hl hr ha hs hq =>
    obtain ⟨h1, h2⟩ := exprStart_facts hE (hE.assign_start _ _ ha) (r :: rest)
    refine key _ _ hl ?_
    have hs : te.head? ≠ some DeclParser.star := hs.resolve_left (by decide)
    show array E (qualToks q ++ te ++ [r] ++ rest) = _
    rw [show qualToks q ++ te ++ [r] ++ rest = qualToks q ++ (te ++ r :: rest) by simp]
    rw [array, expect_miss (quals_static hE q (.inr h1)), quals_append q h2, expect_miss h1,
      arrayLength_expr hE false q rest ha hs hr]
  | @staticQuals l r _ te e hl hr ha hs hq =>
    obtain ⟨h1, h2⟩ := exprStart_facts hE (hE.assign_start _ _ ha) (r :: rest)
    have hs : te.head? ≠ some DeclParser.star := hs.resolve_left (by decide)
    have := key l (.kw .kStatic :: (qualToks q ++ te ++ [r])) hl (by
      rw [show (.kw .kStatic :: (qualToks q ++ te ++ [r])) ++ rest =
        .kw .kStatic :: (qualToks q ++ (te ++ r :: rest)) by simp]
      rw [array, expect_hit rfl, quals_append q h2, expect_miss h1, arrayLength_expr hE true q rest ha hs hr])
    simpa using this
  | @qualsStatic l r _ te e hl hr ha hs =>
    have hs : te.head? ≠ some DeclParser.star := hs.resolve_left (by decide)
    obtain ⟨h1, h2⟩ := exprStart_facts hE (hE.assign_start _ _ ha) (r :: rest)
    cases q with
    | nil =>
      have := key l (.kw .kStatic :: (te ++ [r])) hl (by
        rw [show (.kw .kStatic :: (te ++ [r])) ++ rest = .kw .kStatic :: (qualToks [] ++ (te ++ r :: rest)) by
          simp [qualToks]]
        rw [array, expect_hit rfl, quals_append [] h2, expect_miss h1, arrayLength_expr hE true [] rest ha hs hr])
      simpa [qualToks] using this
    | cons x q =>
      have := key l (qualToks (x :: q) ++ .kw .kStatic :: (te ++ [r])) hl (by
        rw [show (qualToks (x :: q) ++ .kw .kStatic :: (te ++ [r])) ++ rest =
          qualToks (x :: q) ++ .kw .kStatic :: (te ++ r :: rest) by simp]
        rw [array, expect_miss (quals_static hE _ (.inl (by simp))), quals_append _ (by
            intro k hk; simp at hk; subst hk; rfl), expect_hit rfl,
          arrayLength_expr hE true _ rest ha hs hr])
      simpa using this

/-! ### The goals -/

/-- What is proved for each nonterminal. -/
def Goal (E : Env) : (s : Sym) → List Tok → s.Val → Prop
  | .spec has, ts, s => ∀ rest, headIs tokLBrace rest = false → headIs (tokKw .kAttribute) rest = false →
      (s = .qual .atomic → rest.head? ≠ some lp) → run E (.spec has) (ts ++ rest) = .ok s rest
  | .specs has, ts, ss => ∀ acc rest, hasTypeSpecifiers acc = has →
      SpecsEnd E.isTypedef (has || ss.any isType) rest → SpecsGlue (acc ++ ss) rest → acc ++ ss ≠ [] →
      run E (.specs acc) (ts ++ rest) = .ok (acc ++ ss) rest
  | .dtor, ts, v => ∀ rest, DEnd rest → run E .declarator (ts ++ rest) = .ok v rest
  | .direct, ts, v => ∀ rest, direct (run E) (ts ++ rest) = run E (.tail false v) rest
  | .abs, ts, v => v ≠ .name none ∧ declHead false ts ≠ some (.kw .kAttribute) ∧
      ∀ rest, AEnd rest → run E .abstract (ts ++ rest) = .ok v rest ∧ run E .ptrTail (ts ++ rest) = .ok v rest
  | .dabs, ts, v => v ≠ .name none ∧ (∃ t, t ≠ .kw .kAttribute ∧ ∀ us, declHead false (ts ++ us) = some t) ∧
      ∀ rest, ((abstractBase (run E) (ts ++ rest)).andThen fun d r => run E (.tail true d) r) =
        run E (.tail true v) rest
  | .odabs, ts, v => (ts = [] ∧ v = .name none) ∨
      (∃ t, t ≠ .kw .kAttribute ∧ ∀ us, declHead false (ts ++ us) = some t) ∧
      ∀ rest, ((abstractBase (run E) (ts ++ rest)).andThen fun d r => run E (.tail true d) r) =
        run E (.tail true v) rest
  | .parens a, ts, ps => (∃ t, t ≠ .kw .kAttribute ∧ ∀ us, declHead false (ts ++ us) = some t) ∧
      (∀ v rest, run E (.tail a v) (ts ++ rest) = run E (.tail a (.fn v ps.1 ps.2)) rest) ∧
      (a = true → ∀ rest, abstractBase (run E) (ts ++ rest) = .ok (.name none) (ts ++ rest))
  | .param, ts, p => ∀ rest, PEnd rest → run E .param (ts ++ rest) = .ok p rest
  | .params, ts, ps => ∀ rest, PEnd rest → ∃ p r, run E .param (ts ++ rest) = .ok p r ∧
      ∀ acc, run E (.params (acc ++ [p])) r = run E (.params (acc ++ ps)) rest
  | .members, ts, ms => ∀ acc rest, run E (.members acc) (ts ++ rest) = run E (.members (acc ++ ms)) rest
  | .member, ts, m => ∀ rest, run E .member (ts ++ rest) = .ok m rest
  | .mdtors, ts, ps => ∀ acc rest, run E (.mdtors acc) (ts ++ semi :: rest) = .ok (acc ++ ps) (semi :: rest)
  | .mdtor, ts, p => ∀ acc f rest, f ∈ [comma, semi] →
      run E (.mdtors acc) (ts ++ f :: rest) = mdtorsNext (run E) (acc ++ [p]) (f :: rest)
  | .typeName, ts, t => ∀ rest, AEnd rest → run E .typeName (ts ++ rest) = .ok t rest

theorem kwSpec {has : Bool} {k : Keyword} (hk : k ≠ .kAttribute) (r : List Tok) :
    R (.spec has) (.kw k :: r) = keywordSpec E R k r := by
  rw [R_spec hE]
  unfold specifier
  rw [skipAttrs_miss (by simp [headIs, tokKw, hk])]

theorem tagSpec {has : Bool} (k : TagKind) (n : Option String) {ts rest : List Tok} {b : Syn}
    {l : Tok} (hl : l.isLBrace = true) (ha : headIs (tokKw .kAttribute) rest = false)
    (hb : ∀ n, (if k = .enum then enumBody R n (ts ++ rest) else structBody R k n (ts ++ rest)) =
      skipAttrs rest (.ok (.type (.tag k n (some b))) rest)) :
    R (.spec has) (.kw (TagKind.kw k) :: tagToks n ++ l :: ts ++ rest) = .ok (.type (.tag k n (some b))) rest := by
  have hl : tokLBrace l = true := by rw [tokLBrace_eq, hl]
  have hla : ∀ r, headIs (tokKw .kAttribute) (l :: r) = false := by
    intro r
    cases l <;> first | rfl | cases hl
  have hli : ∀ s, l ≠ .ident s := by rintro s rfl; cases hl
  simp only [skipAttrs_miss ha] at hb
  have hb' := hb n
  cases k <;> cases n <;>
    simp only [TagKind.kw, tagToks, List.cons_append, List.nil_append,
      kwSpec hE (show Keyword.kStruct ≠ .kAttribute by decide), kwSpec hE (show Keyword.kUnion ≠ .kAttribute by decide),
      kwSpec hE (show Keyword.kEnum ≠ .kAttribute by decide), keywordSpec] <;>
    first
    | (unfold structSpec
       simp only [skipAttrs_miss (hla _), skipAttrs_miss (show headIs (tokKw .kAttribute) (.ident _ :: _) = false from rfl)]
       first
       | (rw [expect_hit hl]; simpa using hb')
       | (split
          · rename_i h; exact absurd (List.cons.inj h).1 (hli _)
          · rw [expect_hit hl]; simpa using hb'))
    | (unfold enumSpec
       simp only [skipAttrs_miss (hla _), skipAttrs_miss (show headIs (tokKw .kAttribute) (.ident _ :: _) = false from rfl)]
       first
       | (rw [expect_hit hl]; simpa using hb')
       | (split
          · rename_i h; exact absurd (List.cons.inj h).1 (hli _)
          · rw [expect_hit hl]; simpa using hb'))

theorem enums_complete {es : List WEnum} (hn : es ≠ []) (ht : ∀ e ∈ es, E.isTypedef e.name = false)
    (hv : ∀ e ∈ es, ∀ ts v, e.value = some (ts, v) → IsCond ts v) {tc : List Tok} (htc : optComma true es.isEmpty tc)
    {b : Tok} (hb : b.isRBrace = true) (acc : List (String × Option Syn)) (rest : List Tok) :
    R (.enums acc) (sepComma (es.map WEnum.toks) ++ tc ++ b :: rest) = .ok (acc ++ es.map WEnum.node) rest := by
  have hb' : tokRBrace b = true := by rw [tokRBrace_eq, hb]
  have hbf : tokIs .comma b = false ∧ tokIs .assign b = false ∧ tokKw .kAttribute b = false ∧ exprEnd b = true := by
    refine ⟨?_, ?_, ?_, by simp [exprEnd, hb]⟩ <;> cases b <;> first | rfl | cases hb | skip
    · rename_i p; cases p <;> first | rfl | cases hb
    · rename_i p; cases p <;> first | rfl | cases hb
  have one : ∀ (e : WEnum) (acc : List (String × Option Syn)) (f : Tok) (r : List Tok),
      E.isTypedef e.name = false → (∀ ts v, e.value = some (ts, v) → IsCond ts v) →
      exprEnd f = true → tokIs .assign f = false → tokKw .kAttribute f = false →
      R (.enums acc) (e.toks ++ f :: r) = enumsNext R (acc ++ [e.node]) (f :: r) := by
    intro e acc f r h1 h2 h3 h4 h5
    rw [R_enums hE]
    obtain ⟨s, v⟩ := e
    cases v with
    | none =>
      simp only at h1
      simp only [WEnum.toks, List.cons_append, List.nil_append, enums, h1, Bool.false_eq_true, if_false]
      rw [skipAttrs_miss (show headIs (tokKw .kAttribute) (f :: r) = false from h5), expect_miss (show headIs (tokIs .assign) (f :: r) = false from h4)]
      rfl
    | some p =>
      obtain ⟨te, e⟩ := p
      simp only at h1
      simp only [WEnum.toks, List.cons_append, enums, h1, Bool.false_eq_true, if_false]
      rw [skipAttrs_miss rfl, expect_hit rfl, hE.cond_complete _ _ _ _ (h2 _ _ rfl) h3]
      rfl
  induction es generalizing acc with
  | nil => exact absurd rfl hn
  | cons e es ih =>
    cases es with
    | nil =>
      simp only [List.map_cons, List.map_nil, sepComma]
      cases tc with
      | nil =>
        rw [List.append_nil, one e acc b rest (ht _ (by simp)) (hv _ (by simp)) hbf.2.2.2 hbf.2.1 hbf.2.2.1,
          enumsNext, expect_miss (show headIs (tokIs .comma) (b :: rest) = false from hbf.1), expect_hit hb']
      | cons c tc =>
        obtain ⟨rfl, -⟩ : c :: tc = [comma] := by
          have := htc.1; simpa using this
        rw [show e.toks ++ [comma] ++ b :: rest = e.toks ++ comma :: b :: rest by simp,
          one e acc comma (b :: rest) (ht _ (by simp)) (hv _ (by simp)) rfl rfl rfl,
          enumsNext, expect_hit rfl, expect_hit hb']
    | cons e' es =>
      rw [List.map_cons, Kefir.Parser.sepComma_cons _ (by simp)]
      have hrec := ih (by simp) (fun x hx => ht x (List.mem_cons_of_mem _ hx))
        (fun x hx => hv x (List.mem_cons_of_mem _ hx)) (by
          cases tc with
          | nil => trivial
          | cons c tc => exact ⟨htc.1, rfl, rfl⟩) (acc ++ [e.node])
      rw [show e.toks ++ comma :: sepComma ((e' :: es).map WEnum.toks) ++ tc ++ b :: rest =
          e.toks ++ comma :: (sepComma ((e' :: es).map WEnum.toks) ++ tc ++ b :: rest) by simp,
        one e acc comma _ (ht _ (by simp)) (hv _ (by simp)) rfl rfl rfl, enumsNext, expect_hit rfl,
        expect_miss, hrec]
      · simp
      · have : ∃ s u, sepComma ((e' :: es).map WEnum.toks) ++ tc ++ b :: rest = .ident s :: u := by
          cases es with
          | nil => exact ⟨e'.name, _, rfl⟩
          | cons e'' es =>
            rw [List.map_cons, Kefir.Parser.sepComma_cons _ (by simp)]
            exact ⟨e'.name, _, rfl⟩
        obtain ⟨s, u, hu⟩ := this
        rw [hu]; rfl

theorem identTail_complete {ids : List String} (hn : ids ≠ []) (ht : ∀ s ∈ ids, E.isTypedef s = false)
    (rest : List Tok) :
    identTail E.isTypedef (sepComma (ids.map fun s => [.ident s]) ++ rp :: rest) = .ok ids (rp :: rest) := by
  induction ids with
  | nil => exact absurd rfl hn
  | cons s ids ih =>
    have hs := ht s (by simp)
    cases ids with
    | nil => simp [sepComma, identTail, hs]
    | cons s' ids =>
      rw [List.map_cons, Kefir.Parser.sepComma_cons _ (by simp)]
      have := ih (by simp) (fun x hx => ht x (List.mem_cons_of_mem _ hx))
      show identTail E.isTypedef (.ident s :: .punct .comma :: (sepComma ((s' :: ids).map fun s => [.ident s]) ++ rp :: rest)) = _
      simp only [identTail, hs, this, Bool.false_eq_true, if_false]
      rfl

omit hE in
theorem identParams_eq (ids : List String) : identParams ids = Params.idents ids := by
  induction ids with
  | nil => rfl
  | cons s ids ih => rw [identParams, Params.idents, ih]

omit hE in
theorem declParams_eq (ps : List (List (Spec Syn) × Dtor Syn)) : declParams ps = Params.decls ps := by
  induction ps with
  | nil => rfl
  | cons s ids ih => rw [declParams, Params.decls, ih]

omit hE in
theorem declHead_known {t : Tok} (h : t ≠ star) (h' : t ≠ lp) (r : List Tok) : declHead false (t :: r) = some t := by
  simp only [declHead, h, h', if_false]
  split <;> simp

omit hE in
theorem declHead_lp (r : List Tok) : declHead false (lp :: r) = declHead false r := by simp [declHead]

theorem declHead_star (q : List Qual) {ts : List Tok} (h : ∀ k, ts.head? = some (.kw k) → isQualKw k = false) :
    declHead false (star :: (qualToks q ++ ts)) = declHead false ts := by
  show (if star = star then declHead true (qualToks q ++ ts) else _) = _
  rw [if_pos rfl, declHead_quals, quals_append q h]

theorem specTok_facts {ts : List Tok} (h : headIs (specTok E.isTypedef) ts = true) :
    DEnd ts ∧ headIs (tokIs .star) ts = false ∧ headIs tokLBrace ts = false ∧ ts.head? ≠ some lp ∧
    (∃ t, t ≠ .kw .kAttribute ∧ ∀ us, declHead false (ts ++ us) = some t) := by
  cases ts with
  | nil => cases h
  | cons t r =>
    cases t with
    | punct p => cases h
    | const k v => cases h
    | str k v => cases h
    | ident s =>
      exact ⟨⟨rfl, rfl, rfl⟩, rfl, rfl, by simp, .ident s, by simp, fun us => declHead_known (by simp) (by simp) _⟩
    | kw k =>
      have h : specKw k = true := h
      have hk : k ≠ .kAttribute := by rintro rfl; cases h
      exact ⟨⟨by simp [headIs, tokKw, hk], rfl, rfl⟩, rfl, rfl, by simp, .kw k, by simpa using hk,
        fun us => declHead_known (by simp) (by simp) _⟩

theorem absTok_facts {ts : List Tok} (h : headIs absTok ts = true) (us : List Tok) :
    headIs (tokKw .kAttribute) (ts ++ us) = false ∧ (∀ k, (ts ++ us).head? = some (.kw k) → isQualKw k = false) := by
  cases ts with
  | nil => cases h
  | cons t r =>
    cases t with
    | kw k => cases h
    | _ => exact ⟨rfl, fun k hk => by simp at hk⟩

theorem dtorTok_facts {ts : List Tok} (h : headIs (dtorTok false) ts = true) (us : List Tok) :
    headIs (tokKw .kAttribute) (ts ++ us) = false ∧ (∀ k, (ts ++ us).head? = some (.kw k) → isQualKw k = false) ∧
    headIs (tokIs .semicolon) (ts ++ us) = false := by
  cases ts with
  | nil => cases h
  | cons t r =>
    cases t with
    | kw k => cases h
    | punct p => refine ⟨rfl, fun k hk => by simp at hk, ?_⟩; cases p <;> first | rfl | cases h
    | _ => exact ⟨rfl, fun k hk => by simp at hk, rfl⟩

theorem aend_facts {rest : List Tok} (h : AEnd rest) :
    headIs (tokIs .star) rest = false ∧ (∀ k, rest.head? = some (.kw k) → isQualKw k = false) ∧
    rest.head? ≠ some lp := by
  obtain ⟨f, r, rfl, hf⟩ := h
  simp at hf
  rcases hf with rfl | rfl | rfl <;> exact ⟨rfl, fun k hk => by simp at hk, by simp⟩

theorem lbracket_facts {tb : List Tok} (h : headIs Tok.isLBracket tb = true) :
    (∃ t, t ≠ .kw .kAttribute ∧ ∀ us, declHead false (tb ++ us) = some t) ∧
    ∀ us, headIs (tokIs .leftParenthese) (tb ++ us) = false := by
  cases tb with
  | nil => cases h
  | cons t r =>
    have h : t.isLBracket = true := h
    refine ⟨⟨t, ?_, fun us => declHead_known ?_ ?_ _⟩, fun us => ?_⟩
    · rintro rfl; cases h
    · rintro rfl; cases h
    · rintro rfl; cases h
    · show tokIs .leftParenthese t = false
      unfold Tok.isLBracket at h
      split at h
      · rfl
      · rfl
      · cases h

theorem typeName_head {ts : List Tok} {t : Syn} (h : D .typeName ts t) (hv : ts.head? ≠ some (.ident vaListName)) :
    headIs (exprStart E.isTypedef) ts = false := by
  have hh : headIs (specTok E.isTypedef) ts = true := h.head
  cases ts with
  | nil => cases hh
  | cons t r =>
    cases t with
    | ident s =>
      have hs : s ≠ vaListName := fun e => hv (by rw [e]; rfl)
      have hh : (s == vaListName || E.isTypedef s) = true := hh
      simp [hs] at hh
      simp [headIs, exprStart, hh]
    | kw k =>
      have hh : specKw k = true := hh
      cases k <;> first | rfl | cases hh
    | _ => cases hh

theorem specs_then {ts : List Tok} {ss : List (Spec Syn)} {rest : List Tok} (ih : Goal E (.specs false) ts ss)
    (hn : ss ≠ []) (hr : SpecsEnd E.isTypedef (ss.any isType) rest) (hg : SpecsGlue ss rest) :
    R (.specs []) (ts ++ rest) = .ok ss rest :=
  ih [] rest rfl (by simpa using hr) hg hn

theorem members_congr {a b : List (Member Syn)} (h : a = b) (ts : List Tok) :
    (show Res (List (Member Syn)) from R (.members a) ts) = R (.members b) ts := by subst h; rfl

theorem params_congr {a b : List (List (Spec Syn) × Dtor Syn)} (h : a = b) (ts : List Tok) :
    (show Res (List (List (Spec Syn) × Dtor Syn) × Bool) from R (.params a) ts) = R (.params b) ts := by subst h; rfl

/-- Every derivation in the common dialect is found. -/
theorem complete {s : Sym} {ts : List Tok} {v : s.Val} (h : D s ts v) : Goal E s ts v := by
  induction h with
  | word w => intro rest _ _ _; rw [List.cons_append, kwSpec hE (by cases w <;> decide)]; cases w <;> rfl
  | complex => intro rest _ _ _; rw [List.cons_append, kwSpec hE (by decide)]; rfl
  | atomicType h => cases h
  | atomicOpen h => cases h
  | tagRef k s =>
    intro rest h _ _
    rw [List.cons_append, kwSpec hE (by cases k <;> decide)]
    cases k <;> simp only [TagKind.kw, keywordSpec, structSpec, enumSpec, List.cons_append, List.nil_append,
      skipAttrs_miss (show headIs (tokKw .kAttribute) (.ident _ :: _) = false from rfl), expect_miss h]
  | @tagMembers has k n l r ts ms hk hl hr _ _ ih =>
    intro rest _ ha _
    have := tagSpec hE (has := has) k n (ts := ts ++ [r]) (rest := rest) (b := .members ms) hl ha (by
      intro n
      rw [if_neg hk]
      have hb : tokRBrace r = true := by rw [tokRBrace_eq, hr]
      have hm : R .member (r :: rest) = .noMatch := by
        have : SpecsEnd E.isTypedef false (r :: rest) ∧ tokKw .kStaticAssert r = false := by
          cases r with
          | punct p =>
            refine ⟨specsEnd_of_punct _ _ ?_, rfl⟩
            cases p <;> first | rfl | cases hr
          | _ => cases hr
        rw [R_member hE, memberDecl, specs_noMatch hE this.1, memberAssert,
          expect_miss (show headIs (tokKw .kStaticAssert) (r :: rest) = false from this.2)]
        rfl
      have h1 := ih [] (r :: rest)
      rw [List.nil_append] at h1
      rw [structBody, List.append_assoc, List.singleton_append, h1, R_members hE, members, hm]
      simp only [caseOf, expect_hit hb, Res.andThen])
    simpa using this
  | @tagEnumerators has n l r es tc hl hr hn ht hv htc =>
    intro rest _ ha _
    have := tagSpec hE (has := has) .enum n (ts := sepComma (es.map WEnum.toks) ++ tc ++ [r]) (rest := rest)
      (b := .enumerators (es.map WEnum.node)) hl ha (by
      intro n
      rw [if_pos rfl, enumBody, List.append_assoc, List.singleton_append, enums_complete hE hn ht hv htc hr [] rest]
      rfl)
    simpa [TagKind.kw] using this
  | @typedefName s ht hs =>
    intro rest _ _ _
    have hs : s ≠ "__builtin_va_list" := hs
    rw [R_spec hE]
    simp only [List.cons_append, List.nil_append, specifier, skipAttrs_miss (show headIs (tokKw .kAttribute) (.ident _ :: _) = false from rfl),
      hs, ht, if_false, Bool.not_false, Bool.true_and, if_true]
  | vaList =>
    intro rest _ _ _
    rw [R_spec hE]
    rfl
  | qual q =>
    intro rest _ _ h
    rw [List.cons_append, kwSpec hE (by cases q <;> decide)]
    cases q with
    | atomic =>
      have h := h rfl
      show atomicSpec R rest = _
      rw [atomicSpec, expect_miss]
      cases rest with
      | nil => rfl
      | cons t r =>
        cases hh : tokIs .leftParenthese t with
        | false => exact hh
        | true => exact absurd (by rw [tokIs_eq hh]; rfl) h
    | _ => rfl
  | storage s => intro rest _ _ _; rw [List.cons_append, kwSpec hE (by cases s <;> decide)]; cases s <;> rfl
  | fn f => intro rest _ _ _; rw [List.cons_append, kwSpec hE (by cases f <;> decide)]; cases f <;> rfl
  | @alignExpr has ts e hc =>
    intro rest _ _ _
    rw [show Tok.kw .kAlignas :: lp :: ts ++ [rp] ++ rest = .kw .kAlignas :: lp :: (ts ++ rp :: rest) by simp,
      kwSpec hE (by decide)]
    show alignSpec E R (lp :: (ts ++ rp :: rest)) = _
    rw [alignSpec, expect_hit rfl, hE.cond_complete _ _ _ _ hc rfl]
    rfl
  | @alignType has ts t h hv ih =>
    intro rest _ _ _
    have hv := hv.resolve_left (by decide)
    rw [show Tok.kw .kAlignas :: lp :: ts ++ [rp] ++ rest = .kw .kAlignas :: lp :: (ts ++ rp :: rest) by simp,
      kwSpec hE (by decide)]
    show alignSpec E R (lp :: (ts ++ rp :: rest)) = _
    have hh : headIs (specTok E.isTypedef) ts = true := h.head
    rw [alignSpec, expect_hit rfl, hE.cond_other _ (headIs_append_false (headIs_ne_nil hh) (typeName_head hE h hv)),
      ih _ ⟨rp, rest, rfl, by simp⟩]
    rfl
  | specsNil =>
    intro acc rest h1 h2 h3 h4
    rw [List.append_nil] at h4 ⊢
    rw [List.nil_append, R_specs hE, specList, h1, spec_noMatch hE (by simpa using h2)]
    simp [caseOf, h4]
  | @specsCons has ts s ts' ss hs hss ih ih' =>
    intro acc rest h1 h2 h3 h4
    have hnext : headIs tokLBrace (ts' ++ rest) = false ∧ headIs (tokKw .kAttribute) (ts' ++ rest) = false ∧
        (s = .qual .atomic → (ts' ++ rest).head? ≠ some lp) := by
      rcases hss.head with ⟨rfl, rfl⟩ | hh
      · refine ⟨h2.2.1, h2.1, ?_⟩
        rintro rfl
        exact h3 (by simp)
      · obtain ⟨a, b, c, e, -⟩ := specTok_facts hE (headIs_append (us := rest) hh)
        exact ⟨c, a.1, fun _ => e⟩
    have h5 := ih (ts' ++ rest) hnext.1 hnext.2.1 hnext.2.2
    have h6 := ih' (acc ++ [s]) rest (by
        simp only [hasTypeSpecifiers, List.any_append] at h1 ⊢
        rw [h1]
        cases s <;> rfl) (by simpa [Bool.or_assoc] using h2) (by simpa using h3) (by simp)
    rw [List.append_assoc, R_specs hE, specList, h1, h5]
    simp only [caseOf]
    rw [h6]
    simp
  | @ptr q ts v hd hq ih =>
    intro rest hr
    obtain ⟨h1, h2, -⟩ := dtorTok_facts hE hd.head rest
    have := ih rest hr
    rw [show star :: qualToks q ++ ts ++ rest = star :: (qualToks q ++ (ts ++ rest)) by simp, R_declarator hE, declarator,
      skipAttrs_miss rfl, if_pos (show headIs (tokIs .star) (star :: _) = true from rfl), pointer,
      expect_hit rfl, quals_append q h2]
    simp only [this, Res.andThen, skipAttrs_miss hr.1]
  | @dtorDirect ts v hd ih =>
    intro rest hr
    obtain ⟨h1, h2, -⟩ := dtorTok_facts hE hd.head.1 rest
    have hs := headIs_append_false (us := rest) (headIs_ne_nil hd.head.1) hd.head.2
    rw [R_declarator hE, declarator, skipAttrs_miss h1, hs, if_neg (by simp), ih rest, tail_end hE _ _ hr]
    simp only [Res.andThen, skipAttrs_miss hr.1]
  | name => intro rest; rfl
  | @paren ts v hd ih =>
    intro rest
    rw [show lp :: ts ++ [rp] ++ rest = lp :: (ts ++ rp :: rest) by simp]
    unfold direct
    rw [expect_hit rfl, ih (rp :: rest) (dend_of_punct rfl rfl)]
    simp only [Res.andThen, expect_hit (show tokIs .rightParenthese rp = true from rfl)]
  | arr hd hb ih =>
    intro rest
    rw [List.append_assoc, ih, array_complete hE hb]
  | func hd hp ih ih' =>
    intro rest
    rw [List.append_assoc, ih, ih'.2.1]
  | absPtr =>
    rename_i q
    refine ⟨by simp, ?_, fun rest hr => ?_⟩
    · have := declHead_star hE q (ts := []) (fun k hk => by simp at hk)
      rw [List.append_nil] at this
      rw [this]; simp [declHead]
    · obtain ⟨h1, h2, h3⟩ := aend_facts hE hr
      have := ptrTail_end hE hr.dend h1
      have hp : pointer (R .ptrTail) (star :: qualToks q ++ rest) = .ok (.ptr q (.name none)) rest := by
        rw [pointer, List.cons_append, expect_hit rfl, quals_append q h2]
        simp only [this, Res.andThen]
      refine ⟨?_, ?_⟩
      · rw [R_abstract hE, abstractDeclarator, skipAttrs_miss rfl,
          if_pos (by rfl), hp]
        simp only [Res.andThen, skipAttrs_miss hr.dend.1]
      · rw [R_ptrTail hE, DeclParser.ptrTail, hp]; rfl
  | @absPtrAbs q ts v hd hq ih =>
    refine ⟨by simp, ?_, fun rest hr => ?_⟩
    · have h2 := (absTok_facts hE hd.head []).2
      rw [List.append_nil] at h2
      rw [List.cons_append, declHead_star hE q h2]
      exact ih.2.1
    · have h2 := (absTok_facts hE hd.head rest).2
      have := (ih.2.2 rest hr).2
      have hp : pointer (R .ptrTail) (star :: qualToks q ++ ts ++ rest) = .ok (.ptr q v) rest := by
        rw [show star :: qualToks q ++ ts ++ rest = star :: (qualToks q ++ (ts ++ rest)) by simp, pointer,
          expect_hit rfl, quals_append q h2]
        simp only [this, Res.andThen]
      refine ⟨?_, ?_⟩
      · rw [R_abstract hE, abstractDeclarator, skipAttrs_miss rfl,
          if_pos (by rfl), hp]
        simp only [Res.andThen, skipAttrs_miss hr.dend.1]
      · rw [R_ptrTail hE, DeclParser.ptrTail, hp]; rfl
  | @absDirect ts v hd ih =>
    obtain ⟨t, ht, hu⟩ := ih.2.1
    refine ⟨ih.1, ?_, fun rest hr => ?_⟩
    · have := hu []
      rw [List.append_nil] at this
      rw [this]; simpa using ht
    · have h1 := (absTok_facts hE hd.head.1 rest).1
      have hs := headIs_append_false (us := rest) (headIs_ne_nil hd.head.1) hd.head.2
      have hp : ∀ p, directAbstract R p (ts ++ rest) = .ok v rest := by
        intro p
        have h3 := ih.2.2 rest
        rw [tail_end hE _ _ hr.dend] at h3
        rw [directAbstract]
        cases hb : abstractBase R (ts ++ rest) with
        | ok d r =>
          rw [hb] at h3
          simp only [Res.andThen] at h3 ⊢
          rw [h3]
          simp only
          unfold notEmpty
          split
          · exact absurd rfl ih.1
          · rfl
        | noMatch => rw [hb] at h3; simp only [Res.andThen] at h3; cases h3
        | error => rw [hb] at h3; simp only [Res.andThen] at h3; cases h3
        | fuel => rw [hb] at h3; simp only [Res.andThen] at h3; cases h3
      refine ⟨?_, ?_⟩
      · rw [R_abstract hE, abstractDeclarator, skipAttrs_miss h1, hs, if_neg (by simp), hp]
        simp only [Res.andThen, skipAttrs_miss hr.dend.1]
      · rw [R_ptrTail hE, DeclParser.ptrTail, pointer, expect_miss hs, hp]; rfl
  | odabsNone => exact .inl ⟨rfl, rfl⟩
  | odabsSome _ ih => exact .inr ih.2
  | @dabsParen ts v hd ih =>
    refine ⟨ih.1, ?_, fun rest => ?_⟩
    · refine ⟨(declHead false ts).getD rp, ?_, fun us => ?_⟩
      · cases hh : declHead false ts with
        | none => simp
        | some t => rintro rfl; exact ih.2.1 hh
      · rw [show lp :: ts ++ [rp] ++ us = lp :: (ts ++ rp :: us) by simp, declHead_lp, declHead_append (by simp)]
    · rw [show lp :: ts ++ [rp] ++ rest = lp :: (ts ++ rp :: rest) by simp]
      unfold abstractBase
      rw [expect_hit rfl, (ih.2.2 (rp :: rest) ⟨rp, rest, rfl, by simp⟩).1]
      simp only [Res.andThen, expect_hit (show tokIs .rightParenthese rp = true from rfl), Res.orElse]
  | @dabsArr ts v tb st q b hd hb ih =>
    obtain ⟨⟨t, ht, hu⟩, hl⟩ := lbracket_facts hE hb.head
    refine ⟨by simp, ?_, fun rest => ?_⟩
    · rcases ih with ⟨rfl, rfl⟩ | ⟨⟨t, ht, hu⟩, -⟩
      · exact ⟨t, ht, hu⟩
      · exact ⟨t, ht, fun us => by rw [List.append_assoc]; exact hu _⟩
    · rcases ih with ⟨rfl, rfl⟩ | ⟨-, ih⟩
      · rw [List.nil_append, abstractBase_none hE (hl rest)]
        simp only [Res.andThen]
        exact array_complete hE hb _ _
      · rw [List.append_assoc, ih, array_complete hE hb]
  | @dabsFunc ts v tp ps hd hp ih ih' =>
    refine ⟨by simp, ?_, fun rest => ?_⟩
    · rcases ih with ⟨rfl, rfl⟩ | ⟨⟨t, ht, hu⟩, -⟩
      · exact ih'.1
      · exact ⟨t, ht, fun us => by rw [List.append_assoc]; exact hu _⟩
    · rcases ih with ⟨rfl, rfl⟩ | ⟨-, ih⟩
      · rw [List.nil_append, ih'.2.2 rfl]
        simp only [Res.andThen]
        exact ih'.2.1 _ _
      · rw [List.append_assoc, ih, ih'.2.1]
  | @parensList a ts ps hd ih =>
    have hh : headIs (specTok E.isTypedef) ts = true := hd.head
    obtain ⟨f1, f2, f3, f4, t, ht, hu⟩ := specTok_facts hE hh
    refine ⟨⟨t, ht, fun us => ?_⟩, fun v rest => ?_, fun _ rest => ?_⟩
    · rw [show lp :: ts ++ [rp] ++ us = lp :: (ts ++ rp :: us) by simp, declHead_lp, hu]
    · obtain ⟨p, r, h1, h2⟩ := ih (rp :: rest) ⟨rp, rest, rfl, by simp⟩
      have h2 := h2 []
      rw [R_params hE ([] ++ ps), params, expect_miss rfl] at h2
      rw [show lp :: ts ++ [rp] ++ rest = lp :: (ts ++ rp :: rest) by simp, R_tail hE, dtorTail, expect_miss rfl,
        expect_hit rfl, parens, h1]
      rw [List.nil_append, List.nil_append] at h2
      simp only [caseOf, h2, Res.must, expect_hit (show tokIs .rightParenthese rp = true from rfl), Res.andThen,
        declParams_eq]
    · rw [show lp :: ts ++ [rp] ++ rest = lp :: (ts ++ rp :: rest) by simp]
      obtain ⟨f1, f2, -⟩ := specTok_facts hE (headIs_append (us := rp :: rest) hh)
      unfold abstractBase
      rw [expect_hit rfl, abstract_noMatch hE f1 f2]
      rfl
  | @parensEllipsis a ts ps hd ih =>
    have hh : headIs (specTok E.isTypedef) ts = true := hd.head
    obtain ⟨f1, f2, f3, f4, t, ht, hu⟩ := specTok_facts hE hh
    have e : ∀ us, lp :: ts ++ [comma, .punct .ellipsis, rp] ++ us = lp :: (ts ++ comma :: .punct .ellipsis :: rp :: us) := by
      intro us; simp
    refine ⟨⟨t, ht, fun us => ?_⟩, fun v rest => ?_, fun _ rest => ?_⟩
    · rw [e, declHead_lp, hu]
    · obtain ⟨p, r, h1, h2⟩ := ih (comma :: .punct .ellipsis :: rp :: rest) ⟨comma, _, rfl, by simp⟩
      have h2 := h2 []
      have h3 : R .param (.punct .ellipsis :: rp :: rest) = .noMatch := by
        rw [R_param hE, param, specs_noMatch hE (specsEnd_of_punct _ _ rfl)]; rfl
      rw [R_params hE ([] ++ ps), params, expect_hit rfl, h3] at h2
      simp only [caseOf] at h2
      rw [expect_hit rfl] at h2
      rw [e, R_tail hE, dtorTail, expect_miss rfl, expect_hit rfl, parens, h1]
      rw [List.nil_append, List.nil_append] at h2
      simp only [caseOf, h2, Res.must, expect_hit (show tokIs .rightParenthese rp = true from rfl), Res.andThen,
        declParams_eq]
    · rw [e]
      obtain ⟨f1, f2, -⟩ := specTok_facts hE (headIs_append (us := comma :: .punct .ellipsis :: rp :: rest) hh)
      unfold abstractBase
      rw [expect_hit rfl, abstract_noMatch hE f1 f2]
      rfl
  | @parensEmpty a =>
    refine ⟨⟨rp, by simp, fun us => rfl⟩, fun v rest => ?_, fun _ rest => ?_⟩
    · have h3 : R .param (rp :: rest) = .noMatch := by
        rw [R_param hE, param, specs_noMatch hE (specsEnd_of_punct _ _ rfl)]; rfl
      rw [show [lp, rp] ++ rest = lp :: rp :: rest by simp, R_tail hE, dtorTail, expect_miss rfl, expect_hit rfl, parens, h3]
      cases a <;> rfl
    · rw [show [lp, rp] ++ rest = lp :: rp :: rest by simp]
      unfold abstractBase
      rw [expect_hit rfl, abstract_noMatch hE (dend_of_punct rfl rfl) rfl]
      rfl
  | @parensIdents ids hn ht hv =>
    obtain ⟨s, u, hs, hu⟩ : ∃ s u, s ∈ ids ∧ sepComma (ids.map fun s => [Tok.ident s]) = .ident s :: u := by
      match ids, hn with
      | [s], _ => exact ⟨s, [], by simp, rfl⟩
      | s :: s' :: ids, _ => exact ⟨s, _, by simp, by rw [List.map_cons, Kefir.Parser.sepComma_cons _ (by simp)]; rfl⟩
    refine ⟨⟨.ident s, by simp, fun us => ?_⟩, fun v rest => ?_, fun h => by cases h⟩
    · rw [hu, show lp :: .ident s :: u ++ [rp] ++ us = lp :: .ident s :: (u ++ rp :: us) by simp, declHead_lp,
        declHead_known (by simp) (by simp)]
    · have h3 : R .param (sepComma (ids.map fun s => [Tok.ident s]) ++ rp :: rest) = .noMatch := by
        rw [hu, R_param hE, param, specs_noMatch hE]
        · rfl
        · refine ⟨rfl, rfl, fun k hk => by simp at hk, fun s' hs' => ?_⟩
          simp at hs'
          subst hs'
          exact ⟨(hv _ hs).resolve_left (by decide), .inr (ht _ hs)⟩
      have h4 : identList E (sepComma (ids.map fun s => [Tok.ident s]) ++ rp :: rest) = .ok ids (rp :: rest) := by
        rw [identList, if_pos (by rw [hu]; rfl), identTail_complete hE hn ht]
      rw [show lp :: sepComma (ids.map fun s => [Tok.ident s]) ++ [rp] ++ rest =
        lp :: (sepComma (ids.map fun s => [Tok.ident s]) ++ rp :: rest) by simp, R_tail hE, dtorTail, expect_miss rfl,
        expect_hit rfl, parens, h3]
      simp only [caseOf, h4, Res.must, expect_hit (show tokIs .rightParenthese rp = true from rfl), Res.andThen,
        identParams_eq, Bool.false_eq_true, if_false]
  | @paramDtor ts ss td v hs hok hd hg _ ih ih' =>
    intro rest hr
    have ht : ss.any isType = true := hok.2.1.resolve_left (by decide)
    have hne := headIs_ne_nil (show headIs (dtorTok false) td = true from hd.head)
    have := specs_then hE (rest := td ++ rest) ih hok.1 (by rw [ht]; exact specsEnd_of_dtor hd.head) (by
      intro h; rw [head?_append hne]; exact hg h)
    rw [List.append_assoc, R_param hE, param, this]
    simp only [Res.andThen]
    rw [ih' rest hr.aend.dend]
    rfl
  | @paramAbs ts ss td v hs hok hd hg hp ih ih' =>
    intro rest hr
    have hp := hp.resolve_left (by decide)
    have hne := headIs_ne_nil (show headIs absTok td = true from hd.head)
    have := specs_then hE (rest := td ++ rest) ih hok.1 (specsEnd_of_abs hd.head) (by
      intro h; rw [head?_append hne]; exact hg h)
    have hnm : R .declarator (td ++ rest) = .noMatch := by
      obtain ⟨f, r, rfl, hf⟩ := hr
      have hf' : f ∈ [rp, comma, colon] := by simp at hf ⊢; rcases hf with rfl | rfl <;> simp
      have hfi : ∀ s, f ≠ .ident s ∧ f ≠ .kw .kAttribute := by
        intro s; simp at hf; rcases hf with rfl | rfl <;> simp
      apply declarator_noMatch hE <;> rw [declHead_append hf']
      · intro s
        cases hh : declHead false td with
        | none => simpa using (hfi s).1
        | some t => rw [Option.getD_some, ← hh]; exact hp s
      · cases hh : declHead false td with
        | none => simpa using (hfi "").2
        | some t => rw [Option.getD_some, ← hh]; exact ih'.2.1
    rw [List.append_assoc, R_param hE, param, this]
    simp only [Res.andThen]
    rw [hnm, (ih'.2.2 rest hr.aend).1]
    rfl
  | @paramNone ts ss hs hok ih =>
    intro rest hr
    obtain ⟨g1, g2, g3⟩ := aend_facts hE hr.aend
    have := specs_then hE (rest := rest) ih hok.1 (hr.aend.specsEnd _ _) (fun _ => g3)
    have hnm : R .declarator rest = .noMatch := by
      obtain ⟨f, r, rfl, hf⟩ := hr
      simp at hf
      rcases hf with rfl | rfl <;> apply declarator_noMatch hE <;> simp [declHead]
    rw [R_param hE, param, this]
    simp only [Res.andThen]
    rw [hnm, abstract_noMatch hE hr.aend.dend g1]
    rfl
  | paramsOne _ ih => intro rest hr; exact ⟨_, _, ih rest hr, fun acc => rfl⟩
  | @paramsCons ts p ts' ps _ _ ih ih' =>
    intro rest hr
    obtain ⟨p', r', h1, h2⟩ := ih' rest hr
    refine ⟨p, _, by rw [List.append_assoc]; exact ih (comma :: (ts' ++ rest)) ⟨comma, _, rfl, by simp⟩, fun acc => ?_⟩
    rw [R_params hE (acc ++ [p]), params, expect_hit rfl, h1]
    simp only [caseOf]
    rw [h2]
    exact params_congr hE (by simp) _
  | membersNil => intro acc rest; exact members_congr hE (by simp) _
  | @membersCons ts m ts' ms _ _ ih ih' =>
    intro acc rest
    rw [List.append_assoc, R_members hE, members, ih]
    simp only [caseOf]
    rw [ih']
    exact members_congr hE (by simp) _
  | @memberDecl ts ss td ds hs hok hd hg ih ih' =>
    intro rest
    have ht : ss.any isType = true := hok.2.1.resolve_left (by decide)
    have hh : headIs (fun t => dtorTok false t || t == colon) td = true := hd.head
    have hne := headIs_ne_nil hh
    have key : SpecsEnd E.isTypedef true (td ++ semi :: rest) ∧ headIs (tokIs .semicolon) (td ++ semi :: rest) = false := by
      cases td with
      | nil => cases hh
      | cons t r =>
        simp only [headIs, Bool.or_eq_true, beq_iff_eq] at hh
        rcases hh with hh | rfl
        · exact ⟨specsEnd_of_dtor hh, (dtorTok_facts hE (ts := t :: r) hh _).2.2⟩
        · exact ⟨specsEnd_of_punct _ _ rfl, rfl⟩
    have := specs_then hE (rest := td ++ semi :: rest) ih hok.1 (by rw [ht]; exact key.1) (by
      intro h; rw [head?_append hne]; exact hg h)
    rw [show ts ++ td ++ [semi] ++ rest = ts ++ (td ++ semi :: rest) by simp, R_member hE, DeclParser.memberDecl, this]
    simp only [Res.andThen]
    rw [expect_miss key.2, ih' [] rest]
    rfl
  | @memberNone ts ss hs hok ih =>
    intro rest
    have := specs_then hE (rest := semi :: rest) ih hok.1 (specsEnd_of_punct _ _ rfl) (fun _ => by simp)
    rw [show ts ++ [semi] ++ rest = ts ++ semi :: rest by simp, R_member hE, DeclParser.memberDecl, this]
    rfl
  | @memberAssert ts e k v hc =>
    intro rest
    rw [show Tok.kw .kStaticAssert :: lp :: ts ++ [comma, .str k v, rp, semi] ++ rest =
      .kw .kStaticAssert :: lp :: (ts ++ comma :: .str k v :: rp :: semi :: rest) by simp, R_member hE,
      DeclParser.memberDecl, specs_noMatch hE ⟨rfl, rfl, fun k hk => by simp at hk; subst hk; rfl, fun s hs => by simp at hs⟩,
      DeclParser.memberAssert, expect_hit rfl, expect_hit rfl, hE.cond_complete _ _ _ _ hc rfl]
    simp only [Res.andThen, Res.orElse, Res.must]
    rw [expect_hit rfl, assertMessage, expect_hit rfl, expect_hit rfl, Kefir.Parser.strNode_eq]
  | mdtorsOne _ ih =>
    intro acc rest
    rw [ih acc semi rest (by simp)]
    rfl
  | @mdtorsCons ts p ts' ps _ _ ih ih' =>
    intro acc rest
    rw [show ts ++ comma :: ts' ++ semi :: rest = ts ++ comma :: (ts' ++ semi :: rest) by simp,
      ih acc comma _ (by simp), mdtorsNext, expect_hit rfl, ih']
    simp
  | @mdtor ts v hd ih =>
    intro acc f rest hf
    have hf' : DEnd (f :: rest) ∧ headIs (tokIs .colon) (f :: rest) = false := by
      simp at hf; rcases hf with rfl | rfl <;> exact ⟨⟨rfl, rfl, rfl⟩, rfl⟩
    rw [R_mdtors hE, mdtors, ih _ hf'.1]
    simp only [caseOf]
    rw [mdtorWidth, expect_miss hf'.2]
  | @mdtorBits ts v te e hd hc ih =>
    intro acc f rest hf
    have hf' : exprEnd f = true := by
      simp at hf; rcases hf with rfl | rfl <;> rfl
    rw [show ts ++ colon :: te ++ f :: rest = ts ++ colon :: (te ++ f :: rest) by simp, R_mdtors hE, mdtors,
      ih _ (dend_of_punct rfl rfl)]
    simp only [caseOf]
    rw [mdtorWidth, expect_hit rfl, hE.cond_complete _ _ _ _ hc hf']
    rfl
  | @mdtorUnnamed te e hc =>
    intro acc f rest hf
    have hf' : exprEnd f = true := by
      simp at hf; rcases hf with rfl | rfl <;> rfl
    rw [List.cons_append, R_mdtors hE, mdtors, declarator_noMatch hE (by simp [declHead]) (by simp [declHead])]
    simp only [caseOf]
    rw [if_pos (by rfl), mdtorWidth, expect_hit rfl, hE.cond_complete _ _ _ _ hc hf']
    rfl
  | @typeNameAbs ts ss td v hs hok hd hg ih ih' =>
    intro rest hr
    have hne := headIs_ne_nil (show headIs absTok td = true from hd.head)
    have := specs_then hE (rest := td ++ rest) ih hok.1 (specsEnd_of_abs hd.head) (by
      intro h; rw [head?_append hne]; exact hg h)
    rw [List.append_assoc, R_typeName hE, typeName, this]
    simp only [Res.andThen]
    rw [(ih'.2.2 rest hr).1]
    rfl
  | @typeNameNone ts ss hs hok ih =>
    intro rest hr
    obtain ⟨g1, g2, g3⟩ := aend_facts hE hr
    have := specs_then hE (rest := rest) ih hok.1 (hr.specsEnd _ _) (fun _ => g3)
    rw [R_typeName hE, typeName, this]
    simp only [Res.andThen]
    rw [abstract_noMatch hE hr.dend g1]
    rfl

end

end Kefir.DeclParser
