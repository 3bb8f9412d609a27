import Verif.DeclParser.Fuel
import Verif.Parser.Complete

/-! What is assumed of the rules for expressions, and first tokens. -/

namespace Kefir.DeclParser
open Kefir.Lexer (Punct Keyword)
open Kefir.Parser (Tok Expr Res lp rp comma colon expect tokIs tokLBracket tokRBracket tokLBrace tokRBrace headIs
  exprStart sepComma optComma)
open Kefir.Declr

/-- Tokens that end an expression. -/
def exprEnd (t : Tok) : Bool :=
  t == rp || t == comma || t == semi || t.isRBrace || t.isRBracket

/-- The rules for expressions consume only the expressions `IsAssign` and `IsCond`. -/
structure Env.Sound (E : Env) (IsAssign IsCond : List Tok → Expr Syn → Prop) : Prop where
  assign_start : ∀ ts e, IsAssign ts e → headIs (exprStart E.isTypedef) ts = true
  assign_sound : ∀ ts e r, E.assign ts = .ok e r → ∃ pre, ts = pre ++ r ∧ IsAssign pre e
  cond_sound : ∀ ts e r, E.cond ts = .ok e r → ∃ pre, ts = pre ++ r ∧ IsCond pre e

/-- The rules for expressions find the expressions `IsAssign` and `IsCond` that are followed by a closing token, `,` or
`;`, and do not match what cannot start an expression. -/
structure Env.Accepts (E : Env) (IsAssign IsCond : List Tok → Expr Syn → Prop) : Prop where
  fits : E.fits
  assign_start : ∀ ts e, IsAssign ts e → headIs (exprStart E.isTypedef) ts = true
  cond_start : ∀ ts e, IsCond ts e → headIs (exprStart E.isTypedef) ts = true
  assign_other : ∀ ts, headIs (exprStart E.isTypedef) ts = false → E.assign ts = .noMatch
  cond_other : ∀ ts, headIs (exprStart E.isTypedef) ts = false → E.cond ts = .noMatch
  assign_complete : ∀ ts e f r, IsAssign ts e → exprEnd f = true → E.assign (ts ++ f :: r) = .ok e (f :: r)
  cond_complete : ∀ ts e f r, IsCond ts e → exprEnd f = true → E.cond (ts ++ f :: r) = .ok e (f :: r)

/-- Keywords that start a declaration specifier. -/
def specKw : Keyword → Bool
  | .kTypedef | .kExtern | .kStatic | .kThreadLocal | .kAuto | .kRegister | .kVoid | .kChar | .kShort | .kInt
  | .kLong | .kFloat | .kDouble | .kSigned | .kUnsigned | .kBool | .kComplex | .kAtomic | .kStruct | .kUnion | .kEnum
  | .kConst | .kRestrict | .kVolatile | .kInline | .kNoreturn | .kAlignas => true
  | _ => false

/-- Tokens that start a declaration specifier. -/
def specTok (isTypedef : String → Bool) : Tok → Bool
  | .kw k => specKw k
  | .ident s => s == vaListName || isTypedef s
  | _ => false

/-- First tokens of declarators. -/
def dtorTok (va : Bool) : Tok → Bool
  | .punct .star | .punct .leftParenthese => true
  | .ident s => va || s != vaListName
  | _ => false

/-- First tokens of abstract declarators. -/
def absTok : Tok → Bool
  | .punct .star | .punct .leftParenthese => true
  | t => t.isLBracket

/-- What is known of the first token. -/
def Head (d : Dialect) (isTypedef : String → Bool) : (s : Sym) → List Tok → s.Val → Prop
  | .spec _, ts, _ => headIs (specTok isTypedef) ts = true
  | .specs _, ts, v => ts = [] ∧ v = [] ∨ headIs (specTok isTypedef) ts = true
  | .dtor, ts, _ => headIs (dtorTok d.vaName) ts = true
  | .direct, ts, _ => headIs (dtorTok d.vaName) ts = true ∧ headIs (tokIs .star) ts = false
  | .abs, ts, _ => headIs absTok ts = true
  | .dabs, ts, _ => headIs absTok ts = true ∧ headIs (tokIs .star) ts = false
  | .odabs, ts, v => ts = [] ∧ v = .name none ∨ headIs absTok ts = true ∧ headIs (tokIs .star) ts = false
  | .parens _, ts, _ => headIs (tokIs .leftParenthese) ts = true
  | .param, ts, _ => headIs (specTok isTypedef) ts = true
  | .params, ts, _ => headIs (specTok isTypedef) ts = true
  | .members, ts, v => ts = [] ∧ v = [] ∨ headIs (fun t => specTok isTypedef t || t == .kw .kStaticAssert) ts = true
  | .member, ts, _ => headIs (fun t => specTok isTypedef t || t == .kw .kStaticAssert) ts = true
  | .mdtors, ts, _ => headIs (fun t => dtorTok d.vaName t || t == colon) ts = true
  | .mdtor, ts, _ => headIs (fun t => dtorTok d.vaName t || t == colon) ts = true
  | .typeName, ts, _ => headIs (specTok isTypedef) ts = true

theorem headIs_append {f : Tok → Bool} {ts us : List Tok} (h : headIs f ts = true) : headIs f (ts ++ us) = true := by
  cases ts with
  | nil => cases h
  | cons t r => exact h

theorem headIs_append_false {f : Tok → Bool} {ts us : List Tok} (hn : ts ≠ []) (h : headIs f ts = false) :
    headIs f (ts ++ us) = false := by
  cases ts with
  | nil => exact absurd rfl hn
  | cons t r => exact h

theorem headIs_ne_nil {f : Tok → Bool} {ts : List Tok} (h : headIs f ts = true) : ts ≠ [] := by
  rintro rfl; cases h

theorem headIs_imp {f g : Tok → Bool} {ts : List Tok} (h : headIs f ts = true) (hi : ∀ t, f t = true → g t = true) :
    headIs g ts = true := by
  cases ts with
  | nil => cases h
  | cons t r => exact hi _ h

theorem headIs_not {f g : Tok → Bool} {ts : List Tok} (h : headIs f ts = true) (hi : ∀ t, f t = true → g t = false) :
    headIs g ts = false := by
  cases ts with
  | nil => cases h
  | cons t r => exact hi _ h

section
variable {d : Dialect} {isTypedef : String → Bool} {IsAssign IsCond : List Tok → Expr Syn → Prop}

theorem Brackets.head {a : Bool} {tb : List Tok} {st : Bool} {q : List Qual} {b : Bound Syn}
    (h : Brackets d IsAssign a tb st q b) : headIs Tok.isLBracket tb = true := by
  cases h <;> assumption

theorem lbracket_absTok {t : Tok} (h : t.isLBracket = true) : absTok t = true ∧ tokIs .star t = false := by
  unfold Tok.isLBracket at h
  split at h
  · exact ⟨rfl, rfl⟩
  · exact ⟨rfl, rfl⟩
  · cases h

/-- The first token of each nonterminal. -/
theorem Der.head {s : Sym} {ts : List Tok} {v : s.Val} (h : Der d isTypedef IsAssign IsCond s ts v) :
    Head d isTypedef s ts v := by
  induction h with
  | word w => cases w <;> rfl
  | complex | atomicType | atomicOpen | tagEnumerators | alignExpr | alignType => rfl
  | tagRef k => cases k <;> rfl
  | @tagMembers has k => cases k <;> rfl
  | typedefName h => simp [Head, headIs, specTok, h]
  | vaList => simp [Head, headIs, specTok]
  | qual q => cases q <;> rfl
  | storage q => cases q <;> rfl
  | fn q => cases q <;> rfl
  | specsNil => exact .inl ⟨rfl, rfl⟩
  | specsCons _ _ ih => exact .inr (headIs_append ih)
  | ptr => rfl
  | dtorDirect _ ih => exact ih.1
  | @name s h =>
    refine ⟨?_, rfl⟩
    simp only [headIs, dtorTok]
    rcases h with h | h
    · simp [h]
    · simp [h]
  | paren => exact ⟨rfl, rfl⟩
  | arr _ _ ih => exact ⟨headIs_append ih.1, headIs_append_false (headIs_ne_nil ih.1) ih.2⟩
  | func _ _ ih => exact ⟨headIs_append ih.1, headIs_append_false (headIs_ne_nil ih.1) ih.2⟩
  | absPtr => rfl
  | absPtrAbs => rfl
  | absDirect _ ih => exact ih.1
  | odabsNone => exact .inl ⟨rfl, rfl⟩
  | odabsSome _ ih => exact .inr ih
  | dabsParen => exact ⟨rfl, rfl⟩
  | dabsArr _ hb ih =>
    rcases ih with ⟨rfl, -⟩ | ih
    · exact ⟨headIs_imp hb.head fun t ht => (lbracket_absTok ht).1,
        headIs_not hb.head fun t ht => (lbracket_absTok ht).2⟩
    · exact ⟨headIs_append ih.1, headIs_append_false (headIs_ne_nil ih.1) ih.2⟩
  | dabsFunc _ _ ih ih' =>
    rcases ih with ⟨rfl, -⟩ | ih
    · have ih' : headIs (tokIs .leftParenthese) _ = true := ih'
      exact ⟨headIs_imp ih' fun t ht => by rw [Kefir.Parser.tokIs_eq ht]; rfl,
        headIs_not ih' fun t ht => by rw [Kefir.Parser.tokIs_eq ht]; rfl⟩
    · exact ⟨headIs_append ih.1, headIs_append_false (headIs_ne_nil ih.1) ih.2⟩
  | parensList | parensEllipsis | parensEmpty | parensIdents => rfl
  | paramDtor _ hok _ _ _ ih =>
    rcases ih with ⟨-, rfl⟩ | ih
    · exact absurd rfl hok.1
    · exact headIs_append ih
  | paramAbs _ hok _ _ _ ih =>
    rcases ih with ⟨-, rfl⟩ | ih
    · exact absurd rfl hok.1
    · exact headIs_append ih
  | paramNone _ hok ih =>
    rcases ih with ⟨-, rfl⟩ | ih
    · exact absurd rfl hok.1
    · exact ih
  | paramsOne _ ih => exact ih
  | paramsCons _ _ ih => exact headIs_append ih
  | membersNil => exact .inl ⟨rfl, rfl⟩
  | membersCons _ _ ih => exact .inr (headIs_append ih)
  | memberDecl _ hok _ _ ih =>
    rcases ih with ⟨-, rfl⟩ | ih
    · exact absurd rfl hok.1
    · exact headIs_append (headIs_append (headIs_imp ih fun t ht => by simp [ht]))
  | memberNone _ hok ih =>
    rcases ih with ⟨-, rfl⟩ | ih
    · exact absurd rfl hok.1
    · exact headIs_append (headIs_imp ih fun t ht => by simp [ht])
  | memberAssert => simp [Head, headIs]
  | mdtorsOne _ ih => exact ih
  | mdtorsCons _ _ ih => exact headIs_append ih
  | mdtor _ ih => exact headIs_imp ih fun t ht => by simp [ht]
  | mdtorBits _ _ ih => exact headIs_append (headIs_imp ih fun t ht => by simp [ht])
  | mdtorUnnamed => simp [Head, headIs]
  | typeNameAbs _ hok _ _ ih =>
    rcases ih with ⟨-, rfl⟩ | ih
    · exact absurd rfl hok.1
    · exact headIs_append ih
  | typeNameNone _ hok ih =>
    rcases ih with ⟨-, rfl⟩ | ih
    · exact absurd rfl hok.1
    · exact ih

end

end Kefir.DeclParser
