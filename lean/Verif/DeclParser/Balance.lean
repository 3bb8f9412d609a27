import Verif.DeclParser.Mono

/-! # Parentheses are balanced in C17 type names -/

namespace Kefir.Parser
variable {τ : Type}

/-- As many opening as closing parentheses. -/
def Balanced (ts : List Tok) : Prop := ts.count lp = ts.count rp

theorem Balanced.append {a b : List Tok} (ha : Balanced a) (hb : Balanced b) : Balanced (a ++ b) := by
  simp only [Balanced, List.count_append] at *; omega

theorem Balanced.cons {t : Tok} {b : List Tok} (h1 : t ≠ lp) (h2 : t ≠ rp) (hb : Balanced b) : Balanced (t :: b) := by
  simp only [Balanced, List.count_cons, beq_iff_eq, h1, h2, if_false] at *; omega

theorem Balanced.nil : Balanced [] := rfl

theorem Balanced.paren {b c : List Tok} (hb : Balanced b) (hc : Balanced c) : Balanced (lp :: b ++ rp :: c) := by
  simp [Balanced, List.count_append] at *; omega

theorem Balanced.paren' {b : List Tok} (hb : Balanced b) : Balanced (lp :: b ++ [rp]) := hb.paren .nil

theorem Balanced.sepComma {l : List (List Tok)} (h : ∀ a ∈ l, Balanced a) : Balanced (sepComma l) := by
  fun_induction Parser.sepComma l with
  | case1 => exact .nil
  | case2 x => exact h x (by simp)
  | case3 x xs _ ih =>
    exact (h x (by simp)).append (.cons (by simp) (by simp) (ih fun a ha => h a (by simp [ha])))

theorem Balanced.flatMap {α : Type} {f : α → List Tok} {l : List α} (h : ∀ a ∈ l, Balanced (f a)) :
    Balanced (l.flatMap f) := by
  induction l with
  | nil => exact .nil
  | cons x l ih => exact (h x (by simp)).append (ih fun a ha => h a (by simp [ha]))

theorem Balanced.optComma {a e : Bool} {tc : List Tok} (h : optComma a e tc) : Balanced tc := by
  cases tc with
  | nil => exact .nil
  | cons t r => rw [h.1]; rfl

theorem bracket_ne {t : Tok} (h : t.isLBracket = true ∨ t.isRBracket = true ∨ t.isLBrace = true ∨ t.isRBrace = true) :
    t ≠ lp ∧ t ≠ rp := by
  constructor <;> (rintro rfl; revert h; decide)

theorem ops_ne {l : Level} {p : Kefir.Lexer.Punct} {op : BinOp} (h : (p, op) ∈ l.ops) : Tok.punct p ≠ lp ∧ Tok.punct p ≠ rp := by
  constructor <;> (intro he; cases he; cases l <;> simp [Level.ops] at h)

theorem aops_ne {p : Kefir.Lexer.Punct} {op : AssignOp} (h : (p, op) ∈ assignOps) :
    Tok.punct p ≠ lp ∧ Tok.punct p ≠ rp := by
  constructor <;> (intro he; cases he; simp [assignOps] at h)

theorem uops_ne {p : Kefir.Lexer.Punct} {op : UnOp} (h : (p, op) ∈ prefixOps ∨ (p, op) ∈ postfixOps ∨ (p, op) ∈ unaryOps) :
    Tok.punct p ≠ lp ∧ Tok.punct p ≠ rp := by
  constructor <;> (intro he; cases he; simp [prefixOps, postfixOps, unaryOps] at h)

theorem Der.balanced {d : Dialect} {td : String → Bool} {I : List Tok → τ → Prop}
    (hI : ∀ ts t, I ts t → Balanced ts) {s : Sym} {ts : List Tok} {e : Expr τ} (h : Der d td I s ts e) :
    Balanced ts := by
  induction h with
  | ident | const | str => rfl
  | paren _ ih => exact ih.paren'
  | @generic tc c as _ hne _ ht hl ihc iha =>
    refine .cons (by simp) (by simp) ?_
    refine Balanced.paren' (ihc.append (.flatMap fun a ha => ?_))
    refine .cons (by simp) (by simp) (.append ?_ (.cons (by simp) (by simp) (iha a ha)))
    have := ht a ha
    cases hh : a.head with
    | some t => rw [hh] at this; exact hI _ _ this
    | none =>
      rw [hh] at this
      rw [show a.headToks = [.kw .kDefault] from this]; rfl
  | postfixPrimary _ ih => exact ih
  | @builtin s op args tc hs ht _ hc ih =>
    refine .cons (by simp) (by simp) ?_
    refine Balanced.paren' (Balanced.append (.sepComma fun a ha => ?_) (.optComma hc))
    obtain ⟨b, hb, rfl⟩ := List.mem_map.1 ha
    cases b with
    | type ts t => exact hI _ _ (ht _ _ hb)
    | expr ts e => exact ih _ _ hb
  | subscript _ hl _ hr iha ihi =>
    have h1 := bracket_ne (.inl hl)
    have h2 := bracket_ne (.inr (.inl hr))
    exact Balanced.append (iha.append (.cons h1.1 h1.2 ihi)) (.cons h2.1 h2.2 .nil) |> fun h => by simpa using h
  | @call tf f args tc _ _ hc ihf iha =>
    have : Balanced (lp :: (sepComma (args.map (·.1)) ++ tc) ++ [rp]) := by
      refine Balanced.paren' (Balanced.append (.sepComma fun a ha => ?_) (.optComma hc))
      obtain ⟨b, hb, rfl⟩ := List.mem_map.1 ha
      exact iha b hb
    simpa using ihf.append this
  | member _ ih => exact ih.append rfl
  | arrow _ ih => exact ih.append rfl
  | postfixOp _ hp ih =>
    have := uops_ne (.inr (.inl hp))
    exact ih.append (.cons this.1 this.2 .nil)
  | literal ht _ ih => exact (hI _ _ ht).paren ih
  | postfixLiteral hl _ ih => exact ih
  | unaryPostfix _ ih => exact ih
  | unaryLiteral _ ih => exact ih
  | prefixOp hp _ ih =>
    have := uops_ne (.inl hp)
    exact .cons this.1 this.2 ih
  | unaryOp hp _ ih =>
    have := uops_ne (.inr (.inr hp))
    exact .cons this.1 this.2 ih
  | sizeofExpr _ ih => exact .cons (by simp) (by simp) ih
  | sizeofType ht => exact .cons (by simp) (by simp) (hI _ _ ht).paren'
  | alignofType ht => exact .cons (by simp) (by simp) (hI _ _ ht).paren'
  | alignofExpr ha _ ih => exact .cons (by simp) (by simp) ih.paren'
  | castUnary _ ih => exact ih
  | cast ht _ ih => exact (hI _ _ ht).paren ih
  | binOperand _ ih => exact ih
  | binOp _ hp _ iha ihb => exact iha.append (.cons (ops_ne hp).1 (ops_ne hp).2 ihb)
  | condBin _ ih => exact ih
  | cond _ _ _ ihc iha ihb =>
    simpa using ihc.append (.cons (t := .punct .questionMark) (by simp) (by simp)
      (iha.append (.cons (t := colon) (by simp) (by simp) ihb)))
  | assignCond _ ih => exact ih
  | assign _ hp _ iha ihb => exact iha.append (.cons (aops_ne hp).1 (aops_ne hp).2 ihb)
  | exprAssign _ ih => exact ih
  | comma _ _ iha ihb => exact iha.append (.cons (by simp) (by simp) ihb)
  | initExpr _ ih => exact ih
  | initBraces _ ih => exact ih
  | @braces l r items tc hl hr he _ hb _ hc ihi ihd =>
    have h1 := bracket_ne (.inr (.inr (.inl hl)))
    have h2 := bracket_ne (.inr (.inr (.inr hr)))
    refine .append (.append (.cons h1.1 h1.2 (.sepComma fun a ha => ?_)) (.optComma hc)) (.cons h2.1 h2.2 .nil)
    obtain ⟨it, hit, rfl⟩ := List.mem_map.1 ha
    have hw : Balanced (it.desigs.flatMap WDesig.toks) := by
      refine .flatMap fun w hw => ?_
      cases w with
      | index l ts e r =>
        have hbr := hb it hit l ts e r hw
        have h1 := bracket_ne (.inl hbr.1)
        have h2 := bracket_ne (.inr (.inl hbr.2))
        exact .append (.cons h1.1 h1.2 (ihd it hit l ts e r hw)) (.cons h2.1 h2.2 .nil)
      | member s => rfl
    unfold WItem.all
    split
    · exact ihi it hit
    · exact hw.append (.cons (by simp) (by simp) (ihi it hit))

end Kefir.Parser

namespace Kefir.DeclParser
open Kefir.Parser (Tok Expr Res lp rp comma colon Balanced bracket_ne)
open Kefir.Declr

theorem balanced_qualToks (q : List Qual) : Balanced (qualToks q) := by
  induction q with
  | nil => exact .nil
  | cons x q ih => exact .cons (by simp) (by simp) ih

theorem balanced_tagToks (n : Option String) : Balanced (tagToks n) := by cases n <;> rfl

section
variable {d : Dialect} {td : String → Bool} {A C : List Tok → Expr Syn → Prop}

theorem Brackets.balanced (hA : ∀ ts e, A ts e → Balanced ts) {a : Bool} {tb : List Tok} {st : Bool} {q : List Qual}
    {b : Bound Syn} (h : Brackets d A a tb st q b) : Balanced tb := by
  cases h with
  | empty hl hr =>
    have h1 := bracket_ne (.inl hl)
    have h2 := bracket_ne (.inr (.inl hr))
    exact .append (.cons h1.1 h1.2 (balanced_qualToks _)) (.cons h2.1 h2.2 .nil)
  | expr hl hr he =>
    have h1 := bracket_ne (.inl hl)
    have h2 := bracket_ne (.inr (.inl hr))
    exact .append (.append (.cons h1.1 h1.2 (balanced_qualToks _)) (hA _ _ he)) (.cons h2.1 h2.2 .nil)
  | staticQuals hl hr he =>
    have h1 := bracket_ne (.inl hl)
    have h2 := bracket_ne (.inr (.inl hr))
    exact .append (.append (.cons h1.1 h1.2 (.cons (by simp) (by simp) (balanced_qualToks _))) (hA _ _ he))
      (.cons h2.1 h2.2 .nil)
  | qualsStatic hl hr he =>
    have h1 := bracket_ne (.inl hl)
    have h2 := bracket_ne (.inr (.inl hr))
    exact .append (.append (.cons h1.1 h1.2 (balanced_qualToks _)) (.cons (by simp) (by simp) (hA _ _ he)))
      (.cons h2.1 h2.2 .nil)
  | star hl hr =>
    have h1 := bracket_ne (.inl hl)
    have h2 := bracket_ne (.inr (.inl hr))
    exact .append (.cons h1.1 h1.2 (balanced_qualToks _)) (.cons (by simp) (by simp) (.cons h2.1 h2.2 .nil))

theorem Der.balanced (hd : d.atomicOpen = false) (hA : ∀ ts e, A ts e → Balanced ts) (hC : ∀ ts e, C ts e → Balanced ts)
    {s : Sym} {ts : List Tok} {v : s.Val} (h : Der d td A C s ts v) : Balanced ts := by
  have b1 : ∀ {t : Tok}, t.isLBrace = true → t ≠ lp ∧ t ≠ rp := fun h => bracket_ne (.inr (.inr (.inl h)))
  have b2 : ∀ {t : Tok}, t.isRBrace = true → t ≠ lp ∧ t ≠ rp := fun h => bracket_ne (.inr (.inr (.inr h)))
  induction h with
  | word w => cases w <;> rfl
  | qual w => cases w <;> rfl
  | storage w => cases w <;> rfl
  | fn w => cases w <;> rfl
  | tagRef k s => cases k <;> rfl
  | complex | typedefName | vaList | specsNil | name | odabsNone | membersNil | parensEmpty => rfl
  | atomicType _ _ ih => exact .cons (by simp) (by simp) ih.paren'
  | atomicOpen h => rw [hd] at h; cases h
  | tagMembers hk hl hr _ he ih =>
    exact .append (.append (.cons (by simp) (by simp) (balanced_tagToks _)) (.cons (b1 hl).1 (b1 hl).2 ih))
      (.cons (b2 hr).1 (b2 hr).2 .nil)
  | @tagEnumerators has n l r es tc hl hr hn ht hv hc =>
    refine .append (.append (.append (.cons (by simp) (by simp) (balanced_tagToks _))
      (.cons (b1 hl).1 (b1 hl).2 (.sepComma fun a ha => ?_))) (.optComma hc)) (.cons (b2 hr).1 (b2 hr).2 .nil)
    obtain ⟨e, he, rfl⟩ := List.mem_map.1 ha
    unfold WEnum.toks
    cases hw : e.value with
    | none => exact rfl
    | some w => exact .cons (by simp) (by simp) (.cons (by simp) (by simp) (hC _ _ (hv e he w.1 w.2 hw)))
  | alignExpr h => exact .cons (by simp) (by simp) (hC _ _ h).paren'
  | alignType _ h ih => exact .cons (by simp) (by simp) ih.paren'
  | specsCons _ _ ih ih' => exact ih.append ih'
  | ptr _ hg ih => exact .append (.cons (by simp) (by simp) (balanced_qualToks _)) ih
  | dtorDirect _ ih => exact ih
  | paren _ ih => exact ih.paren'
  | arr _ hb ih => exact ih.append (hb.balanced hA)
  | func _ _ ih ih' => exact ih.append ih'
  | absPtr => exact .cons (by simp) (by simp) (balanced_qualToks _)
  | absPtrAbs _ hg ih => exact .append (.cons (by simp) (by simp) (balanced_qualToks _)) ih
  | absDirect _ ih => exact ih
  | odabsSome _ ih => exact ih
  | dabsParen _ ih => exact ih.paren'
  | dabsArr _ hb ih => exact ih.append (hb.balanced hA)
  | dabsFunc _ _ ih ih' => exact ih.append ih'
  | parensList _ ih => exact ih.paren'
  | @parensEllipsis a ts ps _ ih =>
    have : Balanced (lp :: (ts ++ [comma, .punct .ellipsis]) ++ [rp]) := Balanced.paren' (ih.append rfl)
    simpa using this
  | parensIdents hn ht hv =>
    refine Balanced.paren' (.sepComma fun a ha => ?_)
    obtain ⟨s, -, rfl⟩ := List.mem_map.1 ha
    exact .cons (by simp) (by simp) .nil
  | paramDtor _ ho _ hg hn ih ih' => exact ih.append ih'
  | paramAbs _ ho _ hg hn ih ih' => exact ih.append ih'
  | paramNone _ ho ih => exact ih
  | paramsOne _ ih => exact ih
  | paramsCons _ _ ih ih' => exact ih.append (.cons (by simp) (by simp) ih')
  | membersCons _ _ ih ih' => exact ih.append ih'
  | memberDecl _ ho _ hg ih ih' => exact (ih.append ih').append rfl
  | memberNone _ ho ih => exact ih.append rfl
  | @memberAssert ts e k v h =>
    have : Balanced (.kw .kStaticAssert :: (lp :: (ts ++ [comma, .str k v]) ++ rp :: [semi])) :=
      .cons (by simp) (by simp) (((hC _ _ h).append (.cons (by simp) (by simp) (.cons (by simp) (by simp) .nil))).paren rfl)
    simpa using this
  | mdtorsOne _ ih => exact ih
  | mdtorsCons _ _ ih ih' => exact ih.append (.cons (by simp) (by simp) ih')
  | mdtor _ ih => exact ih
  | mdtorBits _ h ih => exact ih.append (.cons (by simp) (by simp) (hC _ _ h))
  | mdtorUnnamed h => exact .cons (by simp) (by simp) (hC _ _ h)
  | typeNameAbs _ ho _ hg ih ih' => exact ih.append ih'
  | typeNameNone _ ho ih => exact ih

theorem IsTypeName.balanced {p : Parser.Dialect} (hd : d.atomicOpen = false) {ts : List Tok} {t : Syn}
    (h : IsTypeName p d td ts t) : Balanced ts := by
  obtain ⟨n, h⟩ := h
  induction n generalizing ts t with
  | zero => exact h.elim
  | succ n ih =>
    exact Der.balanced hd (fun _ _ h => h.balanced fun _ _ h => ih h) (fun _ _ h => h.balanced fun _ _ h => ih h) h

end

end Kefir.DeclParser
