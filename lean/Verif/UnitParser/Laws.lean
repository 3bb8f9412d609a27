import Verif.UnitParser.Sound

/-! What C17 and kefir have in common, in the scopes of C17 and in those of kefir. -/

namespace Kefir.UnitParser
open Kefir.Parser (Tok Expr)
open Kefir.Declr
open Kefir.DeclParser (Syn IsDecl IsExpr SpecsOk)

namespace Scope

theorem Same.refl (σ : Scope) : σ.Same σ := fun _ _ => .rfl

theorem Same.trans {σ τ υ : Scope} (h : σ.Same τ) (h' : τ.Same υ) : σ.Same υ := fun k s => (h k s).trans (h' k s)

theorem Same.symm {σ τ : Scope} (h : σ.Same τ) : τ.Same σ := fun k s => (h k s).symm

theorem Same.names {σ τ : Scope} (h : σ.Same τ) : σ.names = τ.names := by
  funext s
  have : (σ.lookup s == some true) = (τ.lookup s == some true) := by
    rw [Bool.eq_iff_iff, beq_iff_eq, beq_iff_eq]
    exact h 0 s
  simp only [Scope.names, this]

theorem lookup_declare (b : Bool) (s : String) (σ : Scope) (x : String) :
    lookup (σ.declare b s) x = if x == s then some b else lookup σ x := by
  cases σ with
  | nil =>
    cases hx : x == s <;> simp [lookup, declare, hx, List.lookup]
  | cons c r =>
    cases hx : x == s <;> simp [lookup, declare, hx, List.lookup, List.findSome?_cons]

theorem drop_declare (b : Bool) (s : String) (σ : Scope) (k : Nat) :
    (σ.declare b s).drop (k + 1) = σ.drop (k + 1) := by
  cases σ <;> simp [declare]

theorem Same.declare {σ τ : Scope} (h : σ.Same τ) (b : Bool) (s : String) : (σ.declare b s).Same (τ.declare b s) := by
  intro k x
  cases k with
  | zero =>
    rw [List.drop_zero, List.drop_zero, lookup_declare, lookup_declare]
    split
    · exact .rfl
    · exact h 0 x
  | succ k => rw [drop_declare, drop_declare]; exact h (k + 1) x

theorem Same.enter {σ τ : Scope} (h : σ.Same τ) (b : Bool) (o : Option String) : (σ.enter b o).Same (τ.enter b o) := by
  cases o with
  | none => exact h
  | some s => exact h.declare b s

theorem Same.enterAll {σ τ : Scope} (h : σ.Same τ) (l : List String) : (σ.enterAll l).Same (τ.enterAll l) := by
  induction l generalizing σ τ with
  | nil => exact h
  | cons s r ih => exact ih (h.declare false s)

theorem Same.push {σ τ : Scope} (h : σ.Same τ) : Same ([] :: σ) ([] :: τ) := by
  intro k x
  cases k with
  | zero => exact h 0 x
  | succ k => exact h k x

end Scope

theorem functionScope_same {σ τ : Scope} (h : σ.Same τ) (d : Dtor Syn) : (functionScope d σ).Same (functionScope d τ) :=
  (h.enter false d.ident).enterAll _

/-! ### In C17 -/

theorem expr_c17 {σ τ : Scope} (h : σ.Same τ) {s : Parser.Sym} {ts : List Tok} {e : Expr Syn}
    (he : IsExpr .common .common σ.names s ts e) : IsExpr .c17 .c17 τ.names s ts e :=
  h.names ▸ he.mono (Parser.Dialect.common_le _) (DeclParser.Dialect.common_le _)

theorem decl_c17 {σ τ : Scope} (h : σ.Same τ) {s : DeclParser.Sym} {ts : List Tok} {v : s.Val}
    (he : IsDecl .common .common σ.names s ts v) : IsDecl .c17 .c17 τ.names s ts v :=
  h.names ▸ he.mono (Parser.Dialect.common_le _) (DeclParser.Dialect.common_le _)

theorem specsOk_c17 {ss : List (Spec Syn)} (h : SpecsOk .common false ss) : SpecsOk .c17 false ss :=
  h.mono (DeclParser.Dialect.common_le _)

theorem InitDtor.c17 {k : Bool} {σ0 σ σ' τ : Scope} {ts v} (τ0 : Scope) (hs : σ.Same τ)
    (h : InitDtor .common k σ0 σ ts v σ') : ∃ τ', σ'.Same τ' ∧ InitDtor .c17 k τ0 τ ts v τ' := by
  cases h with
  | plain h1 h2 =>
    exact ⟨_, hs.enter k _, .plain ⟨decl_c17 hs (h1.2 rfl), fun h => by cases h⟩ (fun h => by cases h)⟩
  | init h1 h2 h3 =>
    exact ⟨_, hs.enter k _, .init ⟨decl_c17 hs (h1.2 rfl), fun h => by cases h⟩ (fun h => by cases h)
      ⟨expr_c17 (hs.enter k _) (h3.2 rfl), fun h => by cases h⟩⟩

theorem InitDtors.c17 {k : Bool} {σ0 σ σ' τ : Scope} {ts vs} (τ0 : Scope) (hs : σ.Same τ)
    (h : InitDtors .common k σ0 σ ts vs σ') : ∃ τ', σ'.Same τ' ∧ InitDtors .c17 k τ0 τ ts vs τ' := by
  induction h generalizing τ with
  | one h =>
    obtain ⟨τ', h1, h2⟩ := h.c17 τ0 hs
    exact ⟨τ', h1, .one h2⟩
  | cons h _ ih =>
    obtain ⟨τ', h1, h2⟩ := h.c17 τ0 hs
    obtain ⟨τ'', h3, h4⟩ := ih h1
    exact ⟨τ'', h3, .cons h2 h4⟩

theorem Declaration.c17 {σ σ' τ : Scope} {ts d} (hs : σ.Same τ) (h : Declaration .common σ ts d σ') :
    ∃ τ', σ'.Same τ' ∧ Declaration .c17 τ ts d τ' := by
  cases h with
  | decl h1 h2 h3 h4 =>
    obtain ⟨τ', h5, h6⟩ := h4.c17 τ hs
    exact ⟨τ', h5, .decl (decl_c17 hs h1) (specsOk_c17 h2) h3 h6⟩
  | specs h1 h2 => exact ⟨τ, hs, .specs (decl_c17 hs h1) (specsOk_c17 h2)⟩
  | assertion h => exact ⟨τ, hs, .assertion (expr_c17 hs h)⟩

theorem OptExpr.c17 {σ τ : Scope} {ts e} (hs : σ.Same τ) (h : OptExpr .common σ ts e) : OptExpr .c17 τ ts e := by
  cases h with
  | none => exact .none
  | some h => exact .some (expr_c17 hs h)

theorem Statement.c17 {s : Sym} {σ σ' τ : Scope} {ts : List Tok} {v : s.Val} (hs : σ.Same τ)
    (h : Statement .common s σ ts v σ') : ∃ τ', σ'.Same τ' ∧ Statement .c17 s τ ts v τ' := by
  induction h generalizing τ with
  | label _ ih => obtain ⟨τ', h1, h2⟩ := ih hs; exact ⟨τ', h1, .label h2⟩
  | case he _ ih => obtain ⟨τ', h1, h2⟩ := ih hs; exact ⟨τ', h1, .case (expr_c17 hs he) h2⟩
  | default _ ih => obtain ⟨τ', h1, h2⟩ := ih hs; exact ⟨τ', h1, .default h2⟩
  | compound hl _ hr ih => obtain ⟨τ', h1, h2⟩ := ih hs.push; exact ⟨τ, hs, .compound hl h2 hr⟩
  | itemsNil => exact ⟨τ, hs, .itemsNil⟩
  | itemDecl hd _ ih =>
    obtain ⟨τ', h1, h2⟩ := hd.c17 hs
    obtain ⟨τ'', h3, h4⟩ := ih h1
    exact ⟨τ'', h3, .itemDecl h2 h4⟩
  | itemStmt _ _ _ ih ih' =>
    obtain ⟨τ', h1, h2⟩ := ih hs
    obtain ⟨τ'', h3, h4⟩ := ih' h1
    exact ⟨τ'', h3, .itemStmt h2 (.inl rfl) h4⟩
  | expr he => exact ⟨τ, hs, .expr (he.c17 hs)⟩
  | ifThen he _ ih => obtain ⟨τ', h1, h2⟩ := ih hs; exact ⟨τ', h1, .ifThen (expr_c17 hs he) h2⟩
  | ifElse he _ ho _ ih ih' =>
    obtain ⟨τ', h1, h2⟩ := ih hs
    obtain ⟨τ'', h3, h4⟩ := ih' h1
    exact ⟨τ'', h3, .ifElse (expr_c17 hs he) h2 ho h4⟩
  | switch he _ ih => obtain ⟨τ', h1, h2⟩ := ih hs; exact ⟨τ', h1, .switch (expr_c17 hs he) h2⟩
  | «while» he _ ih => obtain ⟨τ', h1, h2⟩ := ih hs; exact ⟨τ', h1, .while (expr_c17 hs he) h2⟩
  | doWhile _ he ih => obtain ⟨τ', h1, h2⟩ := ih hs; exact ⟨τ', h1, .doWhile h2 (expr_c17 h1 he)⟩
  | forExpr hi hc hn _ ih =>
    obtain ⟨τ', h1, h2⟩ := ih hs
    exact ⟨τ', h1, .forExpr (hi.c17 hs) (hc.c17 hs) (hn.c17 hs) h2⟩
  | forDecl hd hc hn _ ha ih =>
    obtain ⟨τ1, h1, h2⟩ := hd.c17 hs
    obtain ⟨τ', h3, h4⟩ := ih h1
    exact ⟨τ, (ha rfl).trans hs, .forDecl h2 (hc.c17 h1) (hn.c17 h1) h4 (fun h => by cases h)⟩
  | goto => exact ⟨τ, hs, .goto⟩
  | «continue» => exact ⟨τ, hs, .continue⟩
  | «break» => exact ⟨τ, hs, .break⟩
  | ret he => exact ⟨τ, hs, .ret (he.c17 hs)⟩

theorem Declarations.c17 {σ σ' τ : Scope} {ts ds} (hs : σ.Same τ) (h : Declarations .common σ ts ds σ') :
    ∃ τ', σ'.Same τ' ∧ Declarations .c17 τ ts ds τ' := by
  induction h generalizing τ with
  | nil => exact ⟨τ, hs, .nil⟩
  | cons h _ ih =>
    obtain ⟨τ', h1, h2⟩ := h.c17 hs
    obtain ⟨τ'', h3, h4⟩ := ih h1
    exact ⟨τ'', h3, .cons h2 h4⟩

theorem ExternalDecl.c17 {σ σ' τ : Scope} {ts x} (hs : σ.Same τ) (h : ExternalDecl .common σ ts x σ') :
    ∃ τ', σ'.Same τ' ∧ ExternalDecl .c17 τ ts x τ' := by
  cases h with
  | decl h =>
    obtain ⟨τ', h1, h2⟩ := h.c17 hs
    exact ⟨τ', h1, .decl h2⟩
  | @fn _ _ _ v _ _ _ _ _ _ _ _ h1 h2 h3 h4 h5 h6 h7 h8 h9 h10 =>
    have hf : σ.Same (functionScope v τ) := (h9 rfl).trans (functionScope_same hs v)
    obtain ⟨τk, h11, h12⟩ := Declarations.c17 (σ := σ) hf h5
    obtain ⟨τb, h13, h14⟩ := h7.c17 h11.push
    exact ⟨_, (h10 rfl).trans (hs.enter false v.ident), .fn (decl_c17 hs h1) (specsOk_c17 h2) (decl_c17 hs h3) h4 h12 h6 h14
      h8 (fun h => by cases h) (fun h => by cases h)⟩

theorem Externals.c17 {σ σ' τ : Scope} {ts xs} (hs : σ.Same τ) (h : Externals .common σ ts xs σ') :
    ∃ τ', σ'.Same τ' ∧ Externals .c17 τ ts xs τ' := by
  induction h generalizing τ with
  | nil => exact ⟨τ, hs, .nil⟩
  | cons h _ ih =>
    obtain ⟨τ', h1, h2⟩ := h.c17 hs
    obtain ⟨τ'', h3, h4⟩ := ih h1
    exact ⟨τ'', h3, .cons h2 h4⟩

/-! ### In kefir -/

theorem expr_accept {td : String → Bool} {s : Parser.Sym} {ts : List Tok} {e : Expr Syn}
    (he : IsExpr .common .common td s ts e) : IsExpr .kefir .common td s ts e :=
  he.mono (Parser.Dialect.common_le _) (DeclParser.Dialect.common_le _)

theorem decl_accept {td : String → Bool} {s : DeclParser.Sym} {ts : List Tok} {v : s.Val}
    (he : IsDecl .common .common td s ts v) : IsDecl .kefir .common td s ts v :=
  he.mono (Parser.Dialect.common_le _) (DeclParser.Dialect.common_le _)

theorem InitDtor.accept {k : Bool} {σ0 σ σ' : Scope} {ts v} (h : InitDtor .common k σ0 σ ts v σ') :
    InitDtor .accept k σ0 σ ts v σ' := by
  cases h with
  | plain h1 h2 => exact .plain ⟨decl_accept h1.1, fun h => by cases h⟩ h2
  | init h1 h2 h3 => exact .init ⟨decl_accept h1.1, fun h => by cases h⟩ h2 ⟨expr_accept h3.1, fun h => by cases h⟩

theorem InitDtors.accept {k : Bool} {σ0 σ σ' : Scope} {ts vs} (h : InitDtors .common k σ0 σ ts vs σ') :
    InitDtors .accept k σ0 σ ts vs σ' := by
  induction h with
  | one h => exact .one h.accept
  | cons h _ ih => exact .cons h.accept ih

theorem Declaration.accept {σ σ' : Scope} {ts d} (h : Declaration .common σ ts d σ') : Declaration .accept σ ts d σ' := by
  cases h with
  | decl h1 h2 h3 h4 => exact .decl (decl_accept h1) h2 h3 h4.accept
  | specs h1 h2 => exact .specs (decl_accept h1) h2
  | assertion h => exact .assertion (expr_accept h)

theorem OptExpr.accept {σ : Scope} {ts e} (h : OptExpr .common σ ts e) : OptExpr .accept σ ts e := by
  cases h with
  | none => exact .none
  | some h => exact .some (expr_accept h)

theorem Statement.accept {s : Sym} {σ σ' : Scope} {ts : List Tok} {v : s.Val} (h : Statement .common s σ ts v σ') :
    Statement .accept s σ ts v σ' := by
  induction h with
  | label _ ih => exact .label ih
  | case he _ ih => exact .case (expr_accept he) ih
  | default _ ih => exact .default ih
  | compound hl _ hr ih => exact .compound hl ih hr
  | itemsNil => exact .itemsNil
  | itemDecl hd _ ih => exact .itemDecl hd.accept ih
  | itemStmt _ hl _ ih ih' => exact .itemStmt ih hl ih'
  | expr he => exact .expr he.accept
  | ifThen he _ ih => exact .ifThen (expr_accept he) ih
  | ifElse he _ ho _ ih ih' => exact .ifElse (expr_accept he) ih ho ih'
  | switch he _ ih => exact .switch (expr_accept he) ih
  | «while» he _ ih => exact .while (expr_accept he) ih
  | doWhile _ he ih => exact .doWhile ih (expr_accept he)
  | forExpr hi hc hn _ ih => exact .forExpr hi.accept hc.accept hn.accept ih
  | forDecl hd hc hn _ ha ih => exact .forDecl hd.accept hc.accept hn.accept ih (fun h => by cases h)
  | goto => exact .goto
  | «continue» => exact .continue
  | «break» => exact .break
  | ret he => exact .ret he.accept

theorem Declarations.accept {σ σ' : Scope} {ts ds} (h : Declarations .common σ ts ds σ') :
    Declarations .accept σ ts ds σ' := by
  induction h with
  | nil => exact .nil
  | cons h _ ih => exact .cons h.accept ih

theorem ExternalDecl.accept {σ σ' : Scope} {ts x} (h : ExternalDecl .common σ ts x σ') :
    ExternalDecl .accept σ ts x σ' := by
  cases h with
  | decl h => exact .decl h.accept
  | fn h1 h2 h3 h4 h5 h6 h7 h8 h9 h10 =>
    exact .fn (decl_accept h1) h2 (decl_accept h3) h4 (Declarations.accept (σ := σ) h5) h6 h7.accept h8
      (fun h => by cases h) (fun h => by cases h)

theorem Externals.accept {σ σ' : Scope} {ts xs} (h : Externals .common σ ts xs σ') : Externals .accept σ ts xs σ' := by
  induction h with
  | nil => exact .nil
  | cons h _ ih => exact .cons h.accept ih

end Kefir.UnitParser
