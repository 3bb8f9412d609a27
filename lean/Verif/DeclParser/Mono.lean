import Verif.DeclParser.Knot
import Verif.Parser.Props

/-! # The grammars of more liberal dialects, and type names as a fixed point -/

namespace Kefir.Parser
variable {τ : Type}

/-- More type names give more expressions. -/
theorem Der.mono_type {d : Dialect} {isTypedef : String → Bool} {I I' : List Tok → τ → Prop}
    (hI : ∀ ts t, I ts t → I' ts t) {s : Sym} {ts : List Tok} {e : Expr τ} (h : Der d isTypedef I s ts e) :
    Der d isTypedef I' s ts e := by
  induction h with
  | ident h hb => exact .ident h hb
  | const => exact .const
  | str => exact .str
  | paren _ ih => exact .paren ih
  | generic _ hne _ ht hl ihc iha =>
    refine .generic ihc hne iha (fun a ha => ?_) hl
    have := ht a ha
    cases hh : a.head with
    | some t => rw [hh] at this; exact hI _ _ this
    | none => rw [hh] at this; exact this
  | postfixPrimary _ ih => exact .postfixPrimary ih
  | builtin hs ht _ hc ih => exact .builtin hs (fun ts t hm => hI _ _ (ht ts t hm)) ih hc
  | subscript _ hl _ hr iha ihi => exact .subscript iha hl ihi hr
  | call _ _ hc ihf iha => exact .call ihf iha hc
  | member _ ih => exact .member ih
  | arrow _ ih => exact .arrow ih
  | postfixOp _ hp ih => exact .postfixOp ih hp
  | literal ht _ ih => exact .literal (hI _ _ ht) ih
  | postfixLiteral hl _ ih => exact .postfixLiteral hl ih
  | unaryPostfix _ ih => exact .unaryPostfix ih
  | unaryLiteral _ ih => exact .unaryLiteral ih
  | prefixOp hp _ ih => exact .prefixOp hp ih
  | unaryOp hp _ ih => exact .unaryOp hp ih
  | sizeofExpr _ ih => exact .sizeofExpr ih
  | sizeofType ht => exact .sizeofType (hI _ _ ht)
  | alignofType ht => exact .alignofType (hI _ _ ht)
  | alignofExpr ha _ ih => exact .alignofExpr ha ih
  | castUnary _ ih => exact .castUnary ih
  | cast ht _ ih => exact .cast (hI _ _ ht) ih
  | binOperand _ ih => exact .binOperand ih
  | binOp _ hp _ iha ihb => exact .binOp iha hp ihb
  | condBin _ ih => exact .condBin ih
  | cond _ _ _ ihc iha ihb => exact .cond ihc iha ihb
  | assignCond _ ih => exact .assignCond ih
  | assign _ hp _ iha ihb => exact .assign iha hp ihb
  | exprAssign _ ih => exact .exprAssign ih
  | comma _ _ iha ihb => exact .comma iha ihb
  | initExpr _ ih => exact .initExpr ih
  | initBraces _ ih => exact .initBraces ih
  | braces hl hr he _ hb _ hc ihi ihd => exact .braces hl hr he ihi hb ihd hc

/-- A bound for finitely many. -/
theorem exists_bound {α : Type} {P : Nat → α → Prop} (hm : ∀ n m a, n ≤ m → P n a → P m a) (l : List α)
    (h : ∀ a ∈ l, ∃ n, P n a) : ∃ n, ∀ a ∈ l, P n a := by
  induction l with
  | nil => exact ⟨0, fun a h => absurd h (by simp)⟩
  | cons x l ih =>
    obtain ⟨n, hn⟩ := h x (by simp)
    obtain ⟨m, hm'⟩ := ih fun a ha => h a (by simp [ha])
    refine ⟨max n m, fun a ha => ?_⟩
    rcases List.mem_cons.1 ha with rfl | ha
    · exact hm _ _ _ (Nat.le_max_left ..) hn
    · exact hm _ _ _ (Nat.le_max_right ..) (hm' a ha)

/-- A derivation uses finitely many type names. -/
theorem Der.finite {d : Dialect} {isTypedef : String → Bool} {I : Nat → List Tok → τ → Prop}
    (hI : ∀ n m ts t, n ≤ m → I n ts t → I m ts t) {s : Sym} {ts : List Tok} {e : Expr τ}
    (h : Der d isTypedef (fun ts t => ∃ n, I n ts t) s ts e) : ∃ n, Der d isTypedef (I n) s ts e := by
  have up : ∀ {n m : Nat} {s ts e}, n ≤ m → Der d isTypedef (I n) s ts e → Der d isTypedef (I m) s ts e :=
    fun hnm h => h.mono_type fun ts t => hI _ _ ts t hnm
  have two : ∀ {s1 ts1 e1 s2 ts2 e2}, (∃ n, Der d isTypedef (I n) s1 ts1 e1) → (∃ n, Der d isTypedef (I n) s2 ts2 e2) →
      ∃ n, Der d isTypedef (I n) s1 ts1 e1 ∧ Der d isTypedef (I n) s2 ts2 e2 := by
    rintro s1 ts1 e1 s2 ts2 e2 ⟨n, hn⟩ ⟨m, hm⟩
    exact ⟨max n m, up (Nat.le_max_left ..) hn, up (Nat.le_max_right ..) hm⟩
  have one : ∀ {s1 ts1 e1 tt t}, (∃ n, Der d isTypedef (I n) s1 ts1 e1) → (∃ n, I n tt t) →
      ∃ n, Der d isTypedef (I n) s1 ts1 e1 ∧ I n tt t := by
    rintro s1 ts1 e1 tt t ⟨n, hn⟩ ⟨m, hm⟩
    exact ⟨max n m, up (Nat.le_max_left ..) hn, hI _ _ _ _ (Nat.le_max_right ..) hm⟩
  induction h with
  | ident h hb => exact ⟨0, .ident h hb⟩
  | const => exact ⟨0, .const⟩
  | str => exact ⟨0, .str⟩
  | paren _ ih => exact ih.imp fun n h => .paren h
  | @generic tc c as _ hne _ ht hl ihc iha =>
    obtain ⟨n1, h1⟩ := ihc
    obtain ⟨n2, h2⟩ := exists_bound (P := fun n (a : Assoc τ) => Der d isTypedef (I n) .assign a.toks a.expr)
      (fun n m a hnm h => up hnm h) as iha
    obtain ⟨n3, h3⟩ := exists_bound (P := fun n (a : Assoc τ) => match a.head with
        | some t => I n a.headToks t
        | none => a.headToks = [.kw .kDefault]) (fun n m a hnm h => by
          cases hh : a.head with
          | some t => simp only [hh] at h ⊢; exact hI _ _ _ _ hnm h
          | none => simp only [hh] at h ⊢; exact h) as (fun a ha => by
          have := ht a ha
          cases hh : a.head with
          | some t => simp only [hh] at this ⊢; exact this
          | none => simp only [hh] at this ⊢; exact ⟨0, this⟩)
    refine ⟨max n1 (max n2 n3), .generic (up (by omega) h1) hne (fun a ha => up (by omega) (h2 a ha)) (fun a ha => ?_) hl⟩
    have := h3 a ha
    cases hh : a.head with
    | some t => simp only [hh] at this ⊢; exact hI _ _ _ _ (by omega) this
    | none => simp only [hh] at this ⊢; exact this
  | postfixPrimary _ ih => exact ih.imp fun n h => .postfixPrimary h
  | @builtin s op args tc hs ht _ hc ih =>
    obtain ⟨n1, h1⟩ := exists_bound (P := fun n (a : BArg τ) => ∀ ts t, a = .type ts t → I n ts t)
      (fun n m a hnm h ts t he => hI _ _ _ _ hnm (h ts t he)) args (fun a ha => by
        cases a with
        | type ts t =>
          obtain ⟨n, hn⟩ := ht ts t ha
          exact ⟨n, fun ts' t' he => by cases he; exact hn⟩
        | expr ts e => exact ⟨0, fun _ _ he => by cases he⟩)
    obtain ⟨n2, h2⟩ := exists_bound (P := fun n (a : BArg τ) => ∀ ts e, a = .expr ts e →
        Der d isTypedef (I n) .assign ts e)
      (fun n m a hnm h ts t he => up hnm (h ts t he)) args (fun a ha => by
        cases a with
        | type ts t => exact ⟨0, fun _ _ he => by cases he⟩
        | expr ts e =>
          obtain ⟨n, hn⟩ := ih ts e ha
          exact ⟨n, fun ts' t' he => by cases he; exact hn⟩)
    exact ⟨max n1 n2, .builtin hs (fun ts t hm => hI _ _ _ _ (Nat.le_max_left ..) (h1 _ hm ts t rfl))
      (fun ts e hm => up (Nat.le_max_right ..) (h2 _ hm ts e rfl)) hc⟩
  | subscript _ hl _ hr iha ihi => exact (two iha ihi).imp fun n h => .subscript h.1 hl h.2 hr
  | @call tf f args tc _ _ hc ihf iha =>
    obtain ⟨n1, h1⟩ := ihf
    obtain ⟨n2, h2⟩ := exists_bound (P := fun n (a : List Tok × Expr τ) => Der d isTypedef (I n) .assign a.1 a.2)
      (fun n m a hnm h => up hnm h) args iha
    exact ⟨max n1 n2, .call (up (Nat.le_max_left ..) h1) (fun a ha => up (Nat.le_max_right ..) (h2 a ha)) hc⟩
  | member _ ih => exact ih.imp fun n h => .member h
  | arrow _ ih => exact ih.imp fun n h => .arrow h
  | postfixOp _ hp ih => exact ih.imp fun n h => .postfixOp h hp
  | literal ht _ ih => exact (one ih ht).imp fun n h => .literal h.2 h.1
  | postfixLiteral hl _ ih => exact ih.imp fun n h => .postfixLiteral hl h
  | unaryPostfix _ ih => exact ih.imp fun n h => .unaryPostfix h
  | unaryLiteral _ ih => exact ih.imp fun n h => .unaryLiteral h
  | prefixOp hp _ ih => exact ih.imp fun n h => .prefixOp hp h
  | unaryOp hp _ ih => exact ih.imp fun n h => .unaryOp hp h
  | sizeofExpr _ ih => exact ih.imp fun n h => .sizeofExpr h
  | sizeofType ht => exact ht.imp fun n h => .sizeofType h
  | alignofType ht => exact ht.imp fun n h => .alignofType h
  | alignofExpr ha _ ih => exact ih.imp fun n h => .alignofExpr ha h
  | castUnary _ ih => exact ih.imp fun n h => .castUnary h
  | cast ht _ ih => exact (one ih ht).imp fun n h => .cast h.2 h.1
  | binOperand _ ih => exact ih.imp fun n h => .binOperand h
  | binOp _ hp _ iha ihb => exact (two iha ihb).imp fun n h => .binOp h.1 hp h.2
  | condBin _ ih => exact ih.imp fun n h => .condBin h
  | cond _ _ _ ihc iha ihb =>
    obtain ⟨n1, h1⟩ := ihc
    obtain ⟨n2, h2⟩ := iha
    obtain ⟨n3, h3⟩ := ihb
    exact ⟨max n1 (max n2 n3), .cond (up (by omega) h1) (up (by omega) h2) (up (by omega) h3)⟩
  | assignCond _ ih => exact ih.imp fun n h => .assignCond h
  | assign _ hp _ iha ihb => exact (two iha ihb).imp fun n h => .assign h.1 hp h.2
  | exprAssign _ ih => exact ih.imp fun n h => .exprAssign h
  | comma _ _ iha ihb => exact (two iha ihb).imp fun n h => .comma h.1 h.2
  | initExpr _ ih => exact ih.imp fun n h => .initExpr h
  | initBraces _ ih => exact ih.imp fun n h => .initBraces h
  | @braces l r items tc hl hr he _ hb _ hc ihi ihd =>
    obtain ⟨n1, h1⟩ := exists_bound (P := fun n (it : WItem τ) => Der d isTypedef (I n) .init it.toks it.init)
      (fun n m a hnm h => up hnm h) items ihi
    obtain ⟨n2, h2⟩ := exists_bound (P := fun n (it : WItem τ) => ∀ l ts e r, WDesig.index l ts e r ∈ it.desigs →
        Der d isTypedef (I n) .cond ts e) (fun n m a hnm h l ts e r hm => up hnm (h l ts e r hm)) items (fun it hit => by
      obtain ⟨n, hn⟩ := exists_bound (P := fun n (w : WDesig τ) => ∀ l ts e r, w = .index l ts e r →
          Der d isTypedef (I n) .cond ts e) (fun n m a hnm h l ts e r hm => up hnm (h l ts e r hm)) it.desigs
        (fun w hw => by
          cases w with
          | index l ts e r =>
            obtain ⟨n, hn⟩ := ihd it hit l ts e r hw
            exact ⟨n, fun _ _ _ _ he => by cases he; exact hn⟩
          | member s => exact ⟨0, fun _ _ _ _ he => by cases he⟩)
      exact ⟨n, fun l ts e r hm => hn _ hm l ts e r rfl⟩)
    exact ⟨max n1 n2, .braces hl hr he (fun it hit => up (Nat.le_max_left ..) (h1 it hit)) hb
      (fun it hit l ts e r hm => up (Nat.le_max_right ..) (h2 it hit l ts e r hm)) hc⟩

end Kefir.Parser

namespace Kefir.DeclParser
open Kefir.Parser (Tok Expr Res lp rp comma colon exists_bound)
open Kefir.Declr

/-- `d` allows no more than `d'`. -/
structure Dialect.le (d d' : Dialect) : Prop where
  starBound : d.starBound = true → d'.starBound = true
  abstractStar : d.abstractStar = true → d'.abstractStar = true
  typedefParam : d.typedefParam = true → d'.typedefParam = true
  nameParam : d.nameParam = true → d'.nameParam = true
  atomicType : d.atomicType = true → d'.atomicType = true
  atomicOpen : d.atomicOpen = true → d'.atomicOpen = true
  atomicParen : d.atomicParen = true → d'.atomicParen = true
  anySpecifiers : d.anySpecifiers = true → d'.anySpecifiers = true
  noType : d.noType = true → d'.noType = true
  emptyStruct : d.emptyStruct = true → d'.emptyStruct = true
  vaName : d.vaName = true → d'.vaName = true

theorem Dialect.le_refl (d : Dialect) : d.le d := ⟨id, id, id, id, id, id, id, id, id, id, id⟩

theorem Dialect.common_le (d : Dialect) : Dialect.le .common d := by constructor <;> (intro h; cases h)

theorem _root_.Kefir.Parser.Dialect.common_le (d : Parser.Dialect) : Parser.Dialect.le .common d :=
  ⟨(by intro h; cases h), (by intro h; cases h), (by intro h; cases h), (by intro h; cases h), (by intro h; cases h)⟩

theorem _root_.Kefir.Parser.Dialect.le_refl (d : Parser.Dialect) : d.le d := ⟨id, id, id, id, id⟩

section
variable {d d' : Dialect} {td : String → Bool} {A A' C C' : List Tok → Expr Syn → Prop}

theorem SpecsOk.mono (hd : d.le d') {r : Bool} {ss : List (Spec Syn)} (h : SpecsOk d r ss) : SpecsOk d' r ss :=
  ⟨h.1, h.2.1.imp hd.noType id, fun hr => (h.2.2 hr).imp hd.anySpecifiers id⟩

theorem QualsGlue.mono (hd : d.le d') {q : List Qual} {ts : List Tok} (h : QualsGlue d q ts) : QualsGlue d' q ts :=
  h.imp hd.atomicParen id

theorem Brackets.mono (hd : d.le d') (hA : ∀ ts e, A ts e → A' ts e) {a : Bool} {tb : List Tok} {st : Bool}
    {q : List Qual} {b : Bound Syn} (h : Brackets d A a tb st q b) : Brackets d' A' a tb st q b := by
  cases h with
  | empty hl hr => exact .empty hl hr
  | expr hl hr he hs hg => exact .expr hl hr (hA _ _ he) (hs.imp hd.starBound id) (hg.mono hd)
  | staticQuals hl hr he hs hg => exact .staticQuals hl hr (hA _ _ he) (hs.imp hd.starBound id) (hg.mono hd)
  | qualsStatic hl hr he hs => exact .qualsStatic hl hr (hA _ _ he) (hs.imp hd.starBound id)
  | star hl hr hs => exact .star hl hr (hs.imp id (Or.imp id hd.abstractStar))

/-- More expressions and a more liberal dialect give more declarations. -/
theorem Der.mono (hd : d.le d') (hA : ∀ ts e, A ts e → A' ts e) (hC : ∀ ts e, C ts e → C' ts e) {s : Sym}
    {ts : List Tok} {v : s.Val} (h : Der d td A C s ts v) : Der d' td A' C' s ts v := by
  induction h with
  | word w => exact .word w
  | complex => exact .complex
  | atomicType h _ ih => exact .atomicType (hd.atomicType h) ih
  | atomicOpen h _ ih => exact .atomicOpen (hd.atomicOpen h) ih
  | tagRef k s => exact .tagRef k s
  | tagMembers hk hl hr _ he ih => exact .tagMembers hk hl hr ih fun h => hd.emptyStruct (he h)
  | tagEnumerators hl hr hn ht hv hc => exact .tagEnumerators hl hr hn ht (fun e he ts v h => hC _ _ (hv e he ts v h)) hc
  | typedefName h hv => exact .typedefName h hv
  | vaList => exact .vaList
  | qual q => exact .qual q
  | storage s => exact .storage s
  | fn f => exact .fn f
  | alignExpr h => exact .alignExpr (hC _ _ h)
  | alignType _ h ih => exact .alignType ih (h.imp hd.vaName id)
  | specsNil => exact .specsNil
  | specsCons _ _ ih ih' => exact .specsCons ih ih'
  | ptr _ hg ih => exact .ptr ih (hg.mono hd)
  | dtorDirect _ ih => exact .dtorDirect ih
  | name h => exact .name (h.imp hd.vaName id)
  | paren _ ih => exact .paren ih
  | arr _ hb ih => exact .arr ih (hb.mono hd hA)
  | func _ _ ih ih' => exact .func ih ih'
  | absPtr => exact .absPtr
  | absPtrAbs _ hg ih => exact .absPtrAbs ih (hg.mono hd)
  | absDirect _ ih => exact .absDirect ih
  | odabsNone => exact .odabsNone
  | odabsSome _ ih => exact .odabsSome ih
  | dabsParen _ ih => exact .dabsParen ih
  | dabsArr _ hb ih => exact .dabsArr ih (hb.mono hd hA)
  | dabsFunc _ _ ih ih' => exact .dabsFunc ih ih'
  | parensList _ ih => exact .parensList ih
  | parensEllipsis _ ih => exact .parensEllipsis ih
  | parensEmpty => exact .parensEmpty
  | parensIdents hn ht hv => exact .parensIdents hn ht fun s hs => (hv s hs).imp hd.vaName id
  | paramDtor _ ho _ hg hn ih ih' => exact .paramDtor ih (ho.mono hd) ih' hg (hn.imp hd.nameParam id)
  | paramAbs _ ho _ hg hn ih ih' => exact .paramAbs ih (ho.mono hd) ih' hg (hn.imp hd.typedefParam id)
  | paramNone _ ho ih => exact .paramNone ih (ho.mono hd)
  | paramsOne _ ih => exact .paramsOne ih
  | paramsCons _ _ ih ih' => exact .paramsCons ih ih'
  | membersNil => exact .membersNil
  | membersCons _ _ ih ih' => exact .membersCons ih ih'
  | memberDecl _ ho _ hg ih ih' => exact .memberDecl ih (ho.mono hd) ih' hg
  | memberNone _ ho ih => exact .memberNone ih (ho.mono hd)
  | memberAssert h => exact .memberAssert (hC _ _ h)
  | mdtorsOne _ ih => exact .mdtorsOne ih
  | mdtorsCons _ _ ih ih' => exact .mdtorsCons ih ih'
  | mdtor _ ih => exact .mdtor ih
  | mdtorBits _ h ih => exact .mdtorBits ih (hC _ _ h)
  | mdtorUnnamed h => exact .mdtorUnnamed (hC _ _ h)
  | typeNameAbs _ ho _ hg ih ih' => exact .typeNameAbs ih (ho.mono hd) ih' hg
  | typeNameNone _ ho ih => exact .typeNameNone ih (ho.mono hd)

end

section
variable {d : Dialect} {td : String → Bool} {A C : Nat → List Tok → Expr Syn → Prop}

/-- A derivation uses finitely many expressions. -/
theorem Der.finite (hA : ∀ n m ts e, n ≤ m → A n ts e → A m ts e) (hC : ∀ n m ts e, n ≤ m → C n ts e → C m ts e)
    {s : Sym} {ts : List Tok} {v : s.Val}
    (h : Der d td (fun ts e => ∃ n, A n ts e) (fun ts e => ∃ n, C n ts e) s ts v) :
    ∃ n, Der d td (A n) (C n) s ts v := by
  have up : ∀ {n m : Nat} {s : Sym} {ts} {v : s.Val}, n ≤ m → Der d td (A n) (C n) s ts v →
      Der d td (A m) (C m) s ts v :=
    fun hnm h => h.mono (Dialect.le_refl d) (fun ts e => hA _ _ ts e hnm) (fun ts e => hC _ _ ts e hnm)
  have two : ∀ {s1 : Sym} {ts1} {v1 : s1.Val} {s2 : Sym} {ts2} {v2 : s2.Val}, (∃ n, Der d td (A n) (C n) s1 ts1 v1) →
      (∃ n, Der d td (A n) (C n) s2 ts2 v2) → ∃ n, Der d td (A n) (C n) s1 ts1 v1 ∧ Der d td (A n) (C n) s2 ts2 v2 := by
    rintro s1 ts1 v1 s2 ts2 v2 ⟨n, hn⟩ ⟨m, hm⟩
    exact ⟨max n m, up (Nat.le_max_left ..) hn, up (Nat.le_max_right ..) hm⟩
  have br : ∀ {s1 : Sym} {ts1} {v1 : s1.Val} {a tb st q b}, (∃ n, Der d td (A n) (C n) s1 ts1 v1) →
      Brackets d (fun ts e => ∃ n, A n ts e) a tb st q b →
      ∃ n, Der d td (A n) (C n) s1 ts1 v1 ∧ Brackets d (A n) a tb st q b := by
    rintro s1 ts1 v1 a tb st q b ⟨n, hn⟩ hb
    cases hb with
    | empty hl hr => exact ⟨n, hn, .empty hl hr⟩
    | expr hl hr he hs hg =>
      obtain ⟨m, hm⟩ := he
      exact ⟨max n m, up (Nat.le_max_left ..) hn, .expr hl hr (hA _ _ _ _ (Nat.le_max_right ..) hm) hs hg⟩
    | staticQuals hl hr he hs hg =>
      obtain ⟨m, hm⟩ := he
      exact ⟨max n m, up (Nat.le_max_left ..) hn, .staticQuals hl hr (hA _ _ _ _ (Nat.le_max_right ..) hm) hs hg⟩
    | qualsStatic hl hr he hs =>
      obtain ⟨m, hm⟩ := he
      exact ⟨max n m, up (Nat.le_max_left ..) hn, .qualsStatic hl hr (hA _ _ _ _ (Nat.le_max_right ..) hm) hs⟩
    | star hl hr hs => exact ⟨n, hn, .star hl hr hs⟩
  induction h with
  | word w => exact ⟨0, .word w⟩
  | complex => exact ⟨0, .complex⟩
  | atomicType h _ ih => exact ih.imp fun n => .atomicType h
  | atomicOpen h _ ih => exact ih.imp fun n => .atomicOpen h
  | tagRef k s => exact ⟨0, .tagRef k s⟩
  | tagMembers hk hl hr _ he ih => exact ih.imp fun n h => .tagMembers hk hl hr h he
  | @tagEnumerators has n l r es tc hl hr hn ht hv hc =>
    obtain ⟨n, h⟩ := exists_bound (P := fun n (e : WEnum) => ∀ ts v, e.value = some (ts, v) → C n ts v)
      (fun n m a hnm h ts v he => hC _ _ _ _ hnm (h ts v he)) es (fun e he => by
        cases h : e.value with
        | none => exact ⟨0, fun _ _ h => by cases h⟩
        | some w =>
          obtain ⟨n, hn⟩ := hv e he w.1 w.2 h
          exact ⟨n, fun ts v h => by cases h; exact hn⟩)
    exact ⟨n, .tagEnumerators hl hr hn ht h hc⟩
  | typedefName h hv => exact ⟨0, .typedefName h hv⟩
  | vaList => exact ⟨0, .vaList⟩
  | qual q => exact ⟨0, .qual q⟩
  | storage s => exact ⟨0, .storage s⟩
  | fn f => exact ⟨0, .fn f⟩
  | alignExpr h => exact h.imp fun n => .alignExpr
  | alignType _ h ih => exact ih.imp fun n h' => .alignType h' h
  | specsNil => exact ⟨0, .specsNil⟩
  | specsCons _ _ ih ih' => exact (two ih ih').imp fun n h => .specsCons h.1 h.2
  | ptr _ hg ih => exact ih.imp fun n h => .ptr h hg
  | dtorDirect _ ih => exact ih.imp fun n => .dtorDirect
  | name h => exact ⟨0, .name h⟩
  | paren _ ih => exact ih.imp fun n => .paren
  | arr _ hb ih => exact (br ih hb).imp fun n h => .arr h.1 h.2
  | func _ _ ih ih' => exact (two ih ih').imp fun n h => .func h.1 h.2
  | absPtr => exact ⟨0, .absPtr⟩
  | absPtrAbs _ hg ih => exact ih.imp fun n h => .absPtrAbs h hg
  | absDirect _ ih => exact ih.imp fun n => .absDirect
  | odabsNone => exact ⟨0, .odabsNone⟩
  | odabsSome _ ih => exact ih.imp fun n => .odabsSome
  | dabsParen _ ih => exact ih.imp fun n => .dabsParen
  | dabsArr _ hb ih => exact (br ih hb).imp fun n h => .dabsArr h.1 h.2
  | dabsFunc _ _ ih ih' => exact (two ih ih').imp fun n h => .dabsFunc h.1 h.2
  | parensList _ ih => exact ih.imp fun n => .parensList
  | parensEllipsis _ ih => exact ih.imp fun n => .parensEllipsis
  | parensEmpty => exact ⟨0, .parensEmpty⟩
  | parensIdents hn ht hv => exact ⟨0, .parensIdents hn ht hv⟩
  | paramDtor _ ho _ hg hn ih ih' => exact (two ih ih').imp fun n h => .paramDtor h.1 ho h.2 hg hn
  | paramAbs _ ho _ hg hn ih ih' => exact (two ih ih').imp fun n h => .paramAbs h.1 ho h.2 hg hn
  | paramNone _ ho ih => exact ih.imp fun n h => .paramNone h ho
  | paramsOne _ ih => exact ih.imp fun n => .paramsOne
  | paramsCons _ _ ih ih' => exact (two ih ih').imp fun n h => .paramsCons h.1 h.2
  | membersNil => exact ⟨0, .membersNil⟩
  | membersCons _ _ ih ih' => exact (two ih ih').imp fun n h => .membersCons h.1 h.2
  | memberDecl _ ho _ hg ih ih' => exact (two ih ih').imp fun n h => .memberDecl h.1 ho h.2 hg
  | memberNone _ ho ih => exact ih.imp fun n h => .memberNone h ho
  | memberAssert h => exact h.imp fun n => .memberAssert
  | mdtorsOne _ ih => exact ih.imp fun n => .mdtorsOne
  | mdtorsCons _ _ ih ih' => exact (two ih ih').imp fun n h => .mdtorsCons h.1 h.2
  | mdtor _ ih => exact ih.imp fun n => .mdtor
  | mdtorBits _ h ih =>
    obtain ⟨n, hn⟩ := ih
    obtain ⟨m, hm⟩ := h
    exact ⟨max n m, .mdtorBits (up (Nat.le_max_left ..) hn) (hC _ _ _ _ (Nat.le_max_right ..) hm)⟩
  | mdtorUnnamed h => exact h.imp fun n => .mdtorUnnamed
  | typeNameAbs _ ho _ hg ih ih' => exact (two ih ih').imp fun n h => .typeNameAbs h.1 ho h.2 hg
  | typeNameNone _ ho ih => exact ih.imp fun n h => .typeNameNone h ho

end

section
variable {p p' : Parser.Dialect} {d d' : Dialect} {td : String → Bool}

theorem TypeNames.mono (hp : p.le p') (hd : d.le d') {n : Nat} {ts : List Tok} {t : Syn}
    (h : TypeNames p d td n ts t) : TypeNames p' d' td n ts t := by
  induction n generalizing ts t with
  | zero => exact h
  | succ n ih =>
    exact Der.mono hd (fun _ _ h => (h.mono hp).mono_type fun _ _ h => ih h)
      (fun _ _ h => (h.mono hp).mono_type fun _ _ h => ih h) h

theorem TypeNames.succ {n : Nat} {ts : List Tok} {t : Syn} (h : TypeNames p d td n ts t) :
    TypeNames p d td (n + 1) ts t := by
  induction n generalizing ts t with
  | zero => exact h.elim
  | succ n ih =>
    exact Der.mono (Dialect.le_refl d) (fun _ _ h => h.mono_type fun _ _ h => ih h)
      (fun _ _ h => h.mono_type fun _ _ h => ih h) h

theorem TypeNames.up {n m : Nat} (hnm : n ≤ m) {ts : List Tok} {t : Syn} (h : TypeNames p d td n ts t) :
    TypeNames p d td m ts t := by
  induction hnm with
  | refl => exact h
  | step _ ih => exact ih.succ

theorem IsTypeName.mono (hp : p.le p') (hd : d.le d') {ts : List Tok} {t : Syn} (h : IsTypeName p d td ts t) :
    IsTypeName p' d' td ts t := h.imp fun _ h => h.mono hp hd

theorem IsExpr.mono (hp : p.le p') (hd : d.le d') {s : Parser.Sym} {ts : List Tok} {e : Expr Syn}
    (h : IsExpr p d td s ts e) : IsExpr p' d' td s ts e :=
  (Parser.Der.mono hp h).mono_type fun _ _ h => h.mono hp hd

theorem IsDecl.mono (hp : p.le p') (hd : d.le d') {s : Sym} {ts : List Tok} {v : s.Val}
    (h : IsDecl p d td s ts v) : IsDecl p' d' td s ts v :=
  Der.mono hd (fun _ _ h => IsExpr.mono hp hd h) (fun _ _ h => IsExpr.mono hp hd h) h

/-- Type names are those that the grammar of declarations derives over the expressions whose type names are these. -/
theorem isTypeName_iff {ts : List Tok} {t : Syn} : IsTypeName p d td ts t ↔ IsDecl p d td .typeName ts t := by
  constructor
  · rintro ⟨n, h⟩
    cases n with
    | zero => exact h.elim
    | succ n =>
      exact Der.mono (Dialect.le_refl d) (fun _ _ h => h.mono_type fun _ _ h => ⟨n, h⟩)
        (fun _ _ h => h.mono_type fun _ _ h => ⟨n, h⟩) h
  · intro h
    have hI : ∀ n m ts t, n ≤ m → TypeNames p d td n ts t → TypeNames p d td m ts t := fun _ _ _ _ hnm h => h.up hnm
    have h : Der d td (fun ts e => ∃ n, Parser.Der p td (TypeNames p d td n) .assign ts e)
        (fun ts e => ∃ n, Parser.Der p td (TypeNames p d td n) .cond ts e) .typeName ts t :=
      Der.mono (Dialect.le_refl d) (fun _ _ h => Parser.Der.finite hI h) (fun _ _ h => Parser.Der.finite hI h) h
    obtain ⟨n, hn⟩ := Der.finite (fun _ _ _ _ hnm h => h.mono_type fun ts t => hI _ _ ts t hnm)
      (fun _ _ _ _ hnm h => h.mono_type fun ts t => hI _ _ ts t hnm) h
    exact ⟨n + 1, hn⟩

end

end Kefir.DeclParser
