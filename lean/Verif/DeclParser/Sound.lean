import Verif.DeclParser.Complete
import Verif.Parser.Sound

/-! What the rules accept is derived by the grammar of the kefir dialect, with the tree they build. -/

namespace Kefir.DeclParser
open Kefir.Lexer (Punct Keyword)
open Kefir.Parser (Tok Expr Res lp rp comma colon expect tokIs tokLBracket tokRBracket tokLBrace tokRBrace headIs
  exprStart sepComma optComma tokIs_eq tokLBracket_eq tokRBracket_eq tokLBrace_eq tokRBrace_eq expect_ok)
open Kefir.Parser.Res (andThen_ok must_ok orElse_ok)
open Kefir.Declr

attribute [local irreducible] run

set_option linter.unusedSectionVars false

theorem caseOf_ok {α β : Type} {x : Res α} {k : α → List Tok → Res β} {z : Res β} {b : β} {r : List Tok} :
    caseOf x k z = .ok b r ↔ (∃ a r1, x = .ok a r1 ∧ k a r1 = .ok b r) ∨ x = .noMatch ∧ z = .ok b r := by
  cases x <;> simp [caseOf, and_assoc]

theorem skipAttrs_ok {α : Type} {ts : List Tok} {x : Res α} {b : α} {r : List Tok} :
    skipAttrs ts x = .ok b r ↔ headIs (tokKw .kAttribute) ts = false ∧ x = .ok b r := by
  unfold skipAttrs
  cases headIs (tokKw .kAttribute) ts <;> simp

theorem tokKw_eq {k : Keyword} {t : Tok} (h : tokKw k t = true) : t = .kw k := by
  cases t <;> simp_all [tokKw]

theorem quals_sound (ts : List Tok) : ts = qualToks (quals ts).1 ++ (quals ts).2 := by
  induction ts with
  | nil => rfl
  | cons t r ih =>
    unfold quals
    split
    all_goals first
      | (rename_i h; obtain ⟨rfl, rfl⟩ := List.cons.inj h
         simp only [qualToks, List.map_cons, List.cons_append] at ih ⊢
         rw [← ih]; rfl)
      | rfl

theorem head_lp {ts : List Tok} (h : headIs (tokIs .leftParenthese) ts = false) : ts.head? ≠ some lp := by
  cases ts with
  | nil => simp
  | cons t r => intro hh; simp at hh; subst hh; cases h

theorem head_star {ts : List Tok} (h : headIs (tokIs .star) ts = false) : ts.head? ≠ some star := by
  cases ts with
  | nil => simp
  | cons t r => intro hh; simp at hh; subst hh; cases h

theorem declHead_mono {b : Bool} {td : List Tok} {t : Tok} (h : declHead b td = some t) (us : List Tok) :
    declHead b (td ++ us) = some t := by
  induction td generalizing b with
  | nil => cases h
  | cons x td ih =>
    simp only [List.cons_append, declHead] at h ⊢
    split
    · rename_i hx; rw [if_pos hx] at h; exact ih h
    · rename_i hx
      rw [if_neg hx] at h
      split
      · rename_i hx; rw [if_pos hx] at h; exact ih h
      · rename_i hx
        rw [if_neg hx] at h
        cases x with
        | kw k =>
          simp only at h ⊢
          split
          · rename_i hk; rw [if_pos hk] at h; exact ih h
          · rename_i hk; rw [if_neg hk] at h; exact h
        | _ => exact h

/-- What the rules claim about the tokens `pre` that they consume before `r`. -/
def Claim (E : Env) (IsAssign IsCond : List Tok → Expr Syn → Prop) :
    (nt : NT) → List Tok → nt.Val → List Tok → Prop
  | .spec has, pre, v, r => Der Dialect.kefir E.isTypedef IsAssign IsCond (.spec has) pre v ∧
      (v = .qual .atomic → r.head? ≠ some lp)
  | .specs acc, pre, v, r => ∃ ss, v = acc ++ ss ∧ v ≠ [] ∧
      Der Dialect.kefir E.isTypedef IsAssign IsCond (.specs (hasTypeSpecifiers acc)) pre ss ∧
      (SpecsGlue acc (pre ++ r) → SpecsGlue v r)
  | .declarator, pre, v, _ => Der Dialect.kefir E.isTypedef IsAssign IsCond .dtor pre v
  | .tail a d, pre, v, _ =>
      (a = false → ∀ td, Der Dialect.kefir E.isTypedef IsAssign IsCond .direct td d →
        Der Dialect.kefir E.isTypedef IsAssign IsCond .direct (td ++ pre) v) ∧
      (a = true → ∀ td, Der Dialect.kefir E.isTypedef IsAssign IsCond .odabs td d →
        Der Dialect.kefir E.isTypedef IsAssign IsCond .odabs (td ++ pre) v)
  | .abstract, pre, v, _ => Der Dialect.kefir E.isTypedef IsAssign IsCond .abs pre v
  | .ptrTail, pre, v, _ => (pre = [] ∧ v = .name none) ∨ Der Dialect.kefir E.isTypedef IsAssign IsCond .abs pre v
  | .param, pre, v, _ => Der Dialect.kefir E.isTypedef IsAssign IsCond .param pre v
  | .params acc, pre, v, _ => ∃ ps pp, v.1 = acc ++ ps ∧ pre = pp ++ (if v.2 then [comma, .punct .ellipsis] else []) ∧
      ∀ tp p, Der Dialect.kefir E.isTypedef IsAssign IsCond .param tp p →
        Der Dialect.kefir E.isTypedef IsAssign IsCond .params (tp ++ pp) (p :: ps)
  | .members acc, pre, v, _ => ∃ ms pm b, v = acc ++ ms ∧ pre = pm ++ [b] ∧ b.isRBrace = true ∧
      Der Dialect.kefir E.isTypedef IsAssign IsCond .members pm ms
  | .member, pre, v, _ => Der Dialect.kefir E.isTypedef IsAssign IsCond .member pre v
  | .mdtors acc, pre, v, _ => ∃ ds, v = acc ++ ds ∧ Der Dialect.kefir E.isTypedef IsAssign IsCond .mdtors pre ds
  | .enums acc, pre, v, _ => ∃ (es : List WEnum) (tc : List Tok) (b : Tok),
      v = acc ++ es.map WEnum.node ∧ pre = sepComma (es.map WEnum.toks) ++ tc ++ [b] ∧ b.isRBrace = true ∧ es ≠ [] ∧
      (∀ e ∈ es, E.isTypedef e.name = false) ∧ (∀ e ∈ es, ∀ ts v, e.value = some (ts, v) → IsCond ts v) ∧
      optComma true es.isEmpty tc
  | .typeName, pre, v, _ => Der Dialect.kefir E.isTypedef IsAssign IsCond .typeName pre v

/-- All rules keep their claims. -/
def Rec.sound (E : Env) (IsAssign IsCond : List Tok → Expr Syn → Prop) (f : Rec) : Prop :=
  ∀ nt ts v r, f nt ts = .ok v r → ∃ pre, ts = pre ++ r ∧ Claim E IsAssign IsCond nt pre v r

section
variable {E : Env} {IsAssign IsCond : List Tok → Expr Syn → Prop} {f : Rec}

local notation "R" => run E
local notation "D" => Der Dialect.kefir E.isTypedef IsAssign IsCond
local notation "S" => Rec.sound E IsAssign IsCond

variable (hE : E.Sound IsAssign IsCond)
include hE

/-! ### When a declarator does not match -/

theorem expect_ne {α : Type} {g : Tok → Bool} {ts : List Tok} {x : Res α} {k : List Tok → Res α}
    (hx : x ≠ .noMatch) (hk : ∀ t r, ts = t :: r → k r ≠ .noMatch) : expect g ts x k ≠ .noMatch := by
  cases ts with
  | nil => exact hx
  | cons t r =>
    simp only [expect]
    split
    · exact hk t r rfl
    · exact hx

theorem arrayEnd_ne (st q b ts) : arrayEnd st q b ts ≠ .noMatch :=
  expect_ne hE (by simp) fun _ _ _ => by simp

theorem arrayLength_ne (st q ts) : arrayLength E st q ts ≠ .noMatch := by
  unfold arrayLength
  refine expect_ne hE ?_ fun t r _ => ?_
  · cases E.assign ts with
    | ok e r => exact arrayEnd_ne hE _ _ _ _
    | noMatch => simp only [caseOf]; split
                 · simp
                 · exact arrayEnd_ne hE _ _ _ _
    | _ => simp [caseOf]
  · split
    · simp
    · exact arrayEnd_ne hE _ _ _ _

theorem array_ne (ts) : array E ts ≠ .noMatch := by
  unfold array
  exact expect_ne hE (expect_ne hE (arrayLength_ne hE _ _ _) fun _ _ _ => arrayLength_ne hE _ _ _) fun _ _ _ =>
    expect_ne hE (arrayLength_ne hE _ _ _) fun _ _ _ => by simp

theorem must_ne {α β : Type} {x : Res α} {k : α → List Tok → Res β} (h : ∀ a r, k a r ≠ .noMatch) :
    x.must k ≠ .noMatch := by
  cases x <;> simp [Res.must, h]

theorem parens_ne (a : Bool) (ts) : parens E f a ts ≠ .noMatch := by
  unfold parens
  cases f .param ts with
  | ok p r => exact must_ne hE fun _ _ => expect_ne hE (by simp) fun _ _ _ => by simp
  | noMatch =>
    simp only [caseOf]
    split
    · exact expect_ne hE (by simp) fun _ _ _ => by simp
    · exact must_ne hE fun _ _ => expect_ne hE (by simp) fun _ _ _ => by simp
  | _ => simp [caseOf]

theorem tail_ne (n : Nat) (a : Bool) (d : Dtor Syn) (ts : List Tok) : parse E n (.tail a d) ts ≠ .noMatch := by
  induction n generalizing d ts with
  | zero => simp [parse]
  | succ n ih =>
    show dtorTail E (parse E n) a d ts ≠ _
    unfold dtorTail
    refine expect_ne hE (expect_ne hE (by simp) fun _ r _ => ?_) fun _ r _ => ?_
    · have := parens_ne hE (f := parse E n) a r
      cases h : parens E (parse E n) a r <;> simp_all [Res.andThen]
    · have := array_ne hE r
      cases h : array E r <;> simp_all [Res.andThen]

theorem declarator_ne (n : Nat) {ts : List Tok} {s : String} (h : declHead false ts = some (.ident s)) :
    parse E n .declarator ts ≠ .noMatch := by
  induction n generalizing ts with
  | zero => simp [parse]
  | succ n ih =>
    show declarator (parse E n) ts ≠ _
    unfold declarator skipAttrs
    split
    · simp
    · have key : (if headIs (tokIs .star) ts then pointer (parse E n .declarator) ts else direct (parse E n) ts) ≠
          .noMatch := by
        cases ts with
        | nil => cases h
        | cons t r =>
          by_cases hs : t = star
          · subst hs
            rw [if_pos (by rfl), pointer, expect_hit rfl]
            have h' : declHead true r = some (.ident s) := h
            rw [declHead_quals] at h'
            have := ih h'
            cases hp : parse E n .declarator (quals r).2 <;> simp_all [Res.andThen]
          · have h1 : headIs (tokIs .star) (t :: r) = false := by
              cases hh : tokIs .star t with
              | false => exact hh
              | true => exact absurd (tokIs_eq hh) hs
            rw [h1, if_neg (by simp)]
            unfold direct
            by_cases hl : t = lp
            · subst hl
              rw [declHead_lp] at h
              have := ih h
              rw [expect_hit rfl]
              cases hp : parse E n .declarator r with
              | ok d r => exact expect_ne hE (by simp) fun _ _ _ => tail_ne hE n _ _ _
              | noMatch => exact absurd hp this
              | _ => simp [Res.andThen]
            · rw [declHead_known hs hl] at h
              cases h
              rw [expect_miss rfl]
              exact tail_ne hE n _ _ _
      cases hx : (if headIs (tokIs .star) ts then pointer (parse E n .declarator) ts else direct (parse E n) ts) with
      | ok d r => simp only [Res.andThen]; split <;> simp
      | noMatch => exact absurd hx key
      | _ => simp [Res.andThen]

/-! ### Specifiers -/

theorem identTail_sound {ts : List Tok} {ids : List String} {r : List Tok}
    (h : identTail E.isTypedef ts = .ok ids r) :
    ids ≠ [] ∧ ts = sepComma (ids.map fun s => [.ident s]) ++ r ∧ ∀ s ∈ ids, E.isTypedef s = false := by
  fun_induction identTail E.isTypedef ts generalizing ids r with
  | case1 => cases h
  | case2 s r' hs ih =>
    obtain ⟨l, r1, h1, h2⟩ := andThen_ok.1 h
    cases h2
    obtain ⟨hn, rfl, ht⟩ := ih h1
    refine ⟨by simp, ?_, ?_⟩
    · rw [List.map_cons, Kefir.Parser.sepComma_cons _ (by simpa using hn)]; rfl
    · intro x hx
      rcases List.mem_cons.1 hx with rfl | hx
      · simpa using hs
      · exact ht x hx
  | case3 => cases h
  | case4 s r' _ hs =>
    cases h
    exact ⟨by simp, rfl, by simpa using hs⟩
  | case5 => cases h

theorem structSpec_sound (h : S f) {k : TagKind} (hk : k ≠ .enum) {has : Bool} {ts : List Tok} {v : Spec Syn}
    {r : List Tok} (he : structSpec f k ts = .ok v r) :
    ∃ pre, ts = pre ++ r ∧ D (.spec has) (.kw (TagKind.kw k) :: pre) v ∧ v ≠ .qual .atomic := by
  unfold structSpec at he
  replace he := (skipAttrs_ok.1 he).2
  have body : ∀ l n ts', l.isLBrace = true → structBody f k n ts' = .ok v r →
      ∃ pre, ts' = pre ++ r ∧ D (.spec has) (.kw (TagKind.kw k) :: (tagToks n ++ l :: pre)) v ∧ v ≠ .qual .atomic := by
    intro l n ts' hl hb
    unfold structBody at hb
    obtain ⟨ms, r1, h1, h2⟩ := andThen_ok.1 hb
    obtain ⟨-, h2⟩ := skipAttrs_ok.1 h2
    cases h2
    obtain ⟨pre, rfl, ms', pm, b, h3, rfl, hb', hd⟩ := h _ _ _ _ h1
    rw [List.nil_append] at h3
    subst h3
    refine ⟨_, rfl, ?_, by simp⟩
    have := Der.tagMembers (d := Dialect.kefir) (isTypedef := E.isTypedef) (IsAssign := IsAssign) (IsCond := IsCond)
      (has := has) (n := n) hk hl hb' hd (fun _ => rfl)
    simpa using this
  split at he
  · rename_i s r1
    rcases expect_ok.1 he with ⟨l, r2, rfl, hl, he⟩ | ⟨-, he⟩
    · obtain ⟨pre, rfl, hd, hv⟩ := body l (some s) r2 (by rw [← tokLBrace_eq, hl]) he
      exact ⟨_, rfl, hd, hv⟩
    · cases he
      exact ⟨[.ident s], rfl, .tagRef k s, by simp⟩
  · rcases expect_ok.1 he with ⟨l, r2, rfl, hl, he⟩ | ⟨-, he⟩
    · obtain ⟨pre, rfl, hd, hv⟩ := body l none r2 (by rw [← tokLBrace_eq, hl]) he
      exact ⟨_, rfl, hd, hv⟩
    · cases he

theorem enumSpec_sound (h : S f) {has : Bool} {ts : List Tok} {v : Spec Syn}
    {r : List Tok} (he : enumSpec f ts = .ok v r) :
    ∃ pre, ts = pre ++ r ∧ D (.spec has) (.kw .kEnum :: pre) v ∧ v ≠ .qual .atomic := by
  unfold enumSpec at he
  replace he := (skipAttrs_ok.1 he).2
  have body : ∀ l n ts', l.isLBrace = true → enumBody f n ts' = .ok v r →
      ∃ pre, ts' = pre ++ r ∧ D (.spec has) (.kw .kEnum :: (tagToks n ++ l :: pre)) v ∧ v ≠ .qual .atomic := by
    intro l n ts' hl hb
    unfold enumBody at hb
    obtain ⟨ms, r1, h1, h2⟩ := andThen_ok.1 hb
    obtain ⟨-, h2⟩ := skipAttrs_ok.1 h2
    cases h2
    obtain ⟨pre, rfl, es, tc, b, h3, rfl, hb', hn, ht, hv, htc⟩ := h _ _ _ _ h1
    rw [List.nil_append] at h3
    subst h3
    refine ⟨_, rfl, ?_, by simp⟩
    have := Der.tagEnumerators (d := Dialect.kefir) (isTypedef := E.isTypedef) (IsAssign := IsAssign) (IsCond := IsCond)
      (has := has) (n := n) hl hb' hn ht hv htc
    simpa using this
  split at he
  · rename_i s r1
    rcases expect_ok.1 he with ⟨l, r2, rfl, hl, he⟩ | ⟨-, he⟩
    · obtain ⟨pre, rfl, hd, hv⟩ := body l (some s) r2 (by rw [← tokLBrace_eq, hl]) he
      exact ⟨_, rfl, hd, hv⟩
    · cases he
      exact ⟨[.ident s], rfl, .tagRef .enum s, by simp⟩
  · rcases expect_ok.1 he with ⟨l, r2, rfl, hl, he⟩ | ⟨-, he⟩
    · obtain ⟨pre, rfl, hd, hv⟩ := body l none r2 (by rw [← tokLBrace_eq, hl]) he
      exact ⟨_, rfl, hd, hv⟩
    · cases he

theorem keywordSpec_sound (h : S f) {k : Keyword} {has : Bool} {ts : List Tok} {v : Spec Syn}
    {r : List Tok} (he : keywordSpec E f k ts = .ok v r) :
    ∃ pre, ts = pre ++ r ∧ D (.spec has) (.kw k :: pre) v ∧ (v = .qual .atomic → r.head? ≠ some lp) := by
  cases k <;> simp only [keywordSpec] at he <;> try cases he
  case kAuto => exact ⟨[], rfl, .storage .auto, by simp⟩
  case kChar => exact ⟨[], rfl, .word .char, by simp⟩
  case kConst => exact ⟨[], rfl, .qual .const, by simp⟩
  case kDouble => exact ⟨[], rfl, .word .double, by simp⟩
  case kEnum =>
    obtain ⟨pre, rfl, hd, hv⟩ := enumSpec_sound hE h (has := has) he
    exact ⟨pre, rfl, hd, fun hh => absurd hh hv⟩
  case kExtern => exact ⟨[], rfl, .storage .extern, by simp⟩
  case kFloat => exact ⟨[], rfl, .word .float, by simp⟩
  case kInline => exact ⟨[], rfl, .fn .inline, by simp⟩
  case kInt => exact ⟨[], rfl, .word .int, by simp⟩
  case kLong => exact ⟨[], rfl, .word .long, by simp⟩
  case kRegister => exact ⟨[], rfl, .storage .register, by simp⟩
  case kRestrict => exact ⟨[], rfl, .qual .restrict, by simp⟩
  case kShort => exact ⟨[], rfl, .word .short, by simp⟩
  case kSigned => exact ⟨[], rfl, .word .signed, by simp⟩
  case kStatic => exact ⟨[], rfl, .storage .static, by simp⟩
  case kStruct =>
    obtain ⟨pre, rfl, hd, hv⟩ := structSpec_sound hE h (by simp) (has := has) he
    exact ⟨pre, rfl, hd, fun hh => absurd hh hv⟩
  case kTypedef => exact ⟨[], rfl, .storage .typedef, by simp⟩
  case kUnion =>
    obtain ⟨pre, rfl, hd, hv⟩ := structSpec_sound hE h (by simp) (has := has) he
    exact ⟨pre, rfl, hd, fun hh => absurd hh hv⟩
  case kUnsigned => exact ⟨[], rfl, .word .unsigned, by simp⟩
  case kVoid => exact ⟨[], rfl, .word .void, by simp⟩
  case kVolatile => exact ⟨[], rfl, .qual .volatile, by simp⟩
  case kAlignas =>
    unfold alignSpec at he
    rcases expect_ok.1 he with ⟨t, r1, rfl, ht, he⟩ | ⟨-, he⟩
    · obtain ⟨a, r2, h1, h2⟩ := must_ok.1 he
      rcases expect_ok.1 h2 with ⟨t', r3, rfl, ht', he⟩ | ⟨-, he⟩
      · cases he
        rw [tokIs_eq ht] at *
        rw [tokIs_eq ht'] at *
        rcases orElse_ok.1 h1 with h1 | ⟨-, h1⟩
        · obtain ⟨e, r4, h3, h4⟩ := andThen_ok.1 h1
          cases h4
          obtain ⟨pre, rfl, hc⟩ := hE.cond_sound _ _ _ h3
          refine ⟨lp :: pre ++ [rp], by simp, ?_, by simp⟩
          exact Der.alignExpr hc
        · obtain ⟨pre, rfl, hd⟩ := h _ _ _ _ h1
          refine ⟨lp :: pre ++ [rp], by simp, ?_, by simp⟩
          exact Der.alignType hd (.inl rfl)
      · cases he
    · cases he
  case kAtomic =>
    unfold atomicSpec at he
    rcases expect_ok.1 he with ⟨t, r1, rfl, ht, he⟩ | ⟨hn, he⟩
    · obtain ⟨a, r2, h1, h2⟩ := must_ok.1 he
      cases h2
      rw [tokIs_eq ht] at *
      obtain ⟨pre, rfl, hd⟩ := h _ _ _ _ h1
      exact ⟨lp :: pre, by simp, Der.atomicOpen rfl hd, by simp⟩
    · cases he
      exact ⟨[], rfl, .qual .atomic, fun _ => head_lp hn⟩
  case kBool => exact ⟨[], rfl, .word .bool, by simp⟩
  case kComplex => exact ⟨[], rfl, .complex, by simp⟩
  case kNoreturn => exact ⟨[], rfl, .fn .noreturn, by simp⟩
  case kThreadLocal => exact ⟨[], rfl, .storage .threadLocal, by simp⟩

theorem specifier_sound (h : S f) {has : Bool} {ts : List Tok} {v : Spec Syn}
    {r : List Tok} (he : specifier E f has ts = .ok v r) :
    ∃ pre, ts = pre ++ r ∧ D (.spec has) pre v ∧ (v = .qual .atomic → r.head? ≠ some lp) := by
  unfold specifier at he
  replace he := (skipAttrs_ok.1 he).2
  split at he
  · rename_i k r1
    obtain ⟨pre, rfl, hd, hv⟩ := keywordSpec_sound hE h (has := has) he
    exact ⟨_, rfl, hd, hv⟩
  · rename_i s r1
    split at he
    · rename_i hs
      subst hs
      cases he
      exact ⟨[.ident vaListName], rfl, .vaList, by simp⟩
    · rename_i hs
      split at he
      · rename_i ht
        cases he
        cases has
        · exact ⟨[.ident s], rfl, .typedefName (by simpa using ht) hs, by simp⟩
        · simp at ht
      · cases he
  · cases he

theorem specList_sound (h : S f) {acc : List (Spec Syn)} {ts : List Tok} {v : List (Spec Syn)}
    {r : List Tok} (he : specList f acc ts = .ok v r) :
    ∃ pre, ts = pre ++ r ∧ Claim E IsAssign IsCond (.specs acc) pre v r := by
  unfold specList at he
  rcases caseOf_ok.1 he with ⟨s, r1, h1, h2⟩ | ⟨-, h2⟩
  · obtain ⟨pre, rfl, hd, hg⟩ := h _ _ _ _ h1
    obtain ⟨pre', rfl, ss, rfl, hv, hd', hg'⟩ := h _ _ _ _ h2
    refine ⟨pre ++ pre', by simp, s :: ss, by simp, hv, ?_, fun _ => ?_⟩
    · refine .specsCons hd ?_
      have : hasTypeSpecifiers (acc ++ [s]) = (hasTypeSpecifiers acc || isType s) := by
        simp only [hasTypeSpecifiers, List.any_append]
        cases s <;> rfl
      rw [← this]
      exact hd'
    · refine hg' ?_
      intro hl
      rw [List.getLast?_append] at hl
      simp at hl
      exact hg hl
  · split at h2
    · cases h2
    · rename_i hacc
      cases h2
      exact ⟨[], rfl, [], by simp, by simpa using hacc, .specsNil, fun h => h⟩

/-! ### Members and enumerators -/

theorem mdtorsNext_sound (h : S f) {acc : List (Dtor Syn × Option Syn)} {p : Dtor Syn × Option Syn}
    {tp : List Tok} (hp : D .mdtor tp p) {ts : List Tok} {v : List (Dtor Syn × Option Syn)}
    {r : List Tok} (he : mdtorsNext f (acc ++ [p]) ts = .ok v r) :
    ∃ pre ds, ts = pre ++ r ∧ v = acc ++ ds ∧ D .mdtors (tp ++ pre) ds := by
  unfold mdtorsNext at he
  rcases expect_ok.1 he with ⟨t, r1, rfl, ht, he⟩ | ⟨-, he⟩
  · rw [tokIs_eq ht]
    obtain ⟨pre, rfl, ds, rfl, hd⟩ := h _ _ _ _ he
    exact ⟨comma :: pre, p :: ds, rfl, by simp, .mdtorsCons hp hd⟩
  · cases he
    exact ⟨[], [p], rfl, rfl, by rw [List.append_nil]; exact .mdtorsOne hp⟩

theorem mdtors_sound (h : S f) {acc : List (Dtor Syn × Option Syn)} {ts : List Tok}
    {v : List (Dtor Syn × Option Syn)} {r : List Tok} (he : mdtors E f acc ts = .ok v r) :
    ∃ pre, ts = pre ++ r ∧ ∃ ds, v = acc ++ ds ∧ D .mdtors pre ds := by
  unfold mdtors at he
  rcases caseOf_ok.1 he with ⟨d, r1, h1, h2⟩ | ⟨-, h2⟩
  · obtain ⟨pre, rfl, hd⟩ := h _ _ _ _ h1
    unfold mdtorWidth at h2
    rcases expect_ok.1 h2 with ⟨t, r2, rfl, ht, he⟩ | ⟨-, he⟩
    · rw [tokIs_eq ht]
      obtain ⟨e, r3, h3, h4⟩ := must_ok.1 he
      obtain ⟨pe, rfl, hc⟩ := hE.cond_sound _ _ _ h3
      obtain ⟨pre', ds, rfl, rfl, hds⟩ := mdtorsNext_sound hE h (Der.mdtorBits hd hc) h4
      exact ⟨_, by simp, ds, rfl, hds⟩
    · obtain ⟨pre', ds, rfl, rfl, hds⟩ := mdtorsNext_sound hE h (Der.mdtor hd) he
      exact ⟨_, by simp, ds, rfl, hds⟩
  · split at h2
    · unfold mdtorWidth at h2
      rename_i hc
      rcases expect_ok.1 h2 with ⟨t, r2, rfl, ht, he⟩ | ⟨hn, he⟩
      · rw [tokIs_eq ht]
        obtain ⟨e, r3, h3, h4⟩ := must_ok.1 he
        obtain ⟨pe, rfl, hce⟩ := hE.cond_sound _ _ _ h3
        obtain ⟨pre', ds, rfl, rfl, hds⟩ := mdtorsNext_sound hE h (Der.mdtorUnnamed hce) h4
        exact ⟨_, by simp, ds, rfl, hds⟩
      · rw [hn] at hc; cases hc
    · cases h2

theorem glue_prefix {ss : List (Spec Syn)} {td r : List Tok} (hn : td ≠ []) (h : SpecsGlue ss (td ++ r)) :
    SpecsGlue ss td := by
  intro hl
  rw [← head?_append (us := r) hn]
  exact h hl

theorem memberDecl_sound (h : S f) {ts : List Tok} {v : Member Syn} {r : List Tok}
    (he : memberDecl f ts = .ok v r) : ∃ pre, ts = pre ++ r ∧ D .member pre v := by
  unfold memberDecl at he
  obtain ⟨ss, r1, h1, h2⟩ := andThen_ok.1 he
  obtain ⟨pre, rfl, ss', h3, hn, hd, hg⟩ := h _ _ _ _ h1
  rw [List.nil_append] at h3
  subst h3
  have hok : SpecsOk Dialect.kefir true ss := ⟨hn, .inl rfl, fun _ => .inl rfl⟩
  have hg := hg (by intro h; cases h)
  rcases expect_ok.1 h2 with ⟨t, r2, rfl, ht, h2⟩ | ⟨-, h2⟩
  · cases h2
    rw [tokIs_eq ht]
    exact ⟨pre ++ [semi], by simp, .memberNone hd hok⟩
  · obtain ⟨ds, r2, h3, h4⟩ := andThen_ok.1 h2
    obtain ⟨pre', rfl, ds', h5, hds⟩ := h _ _ _ _ h3
    rw [List.nil_append] at h5
    subst h5
    rcases expect_ok.1 h4 with ⟨t, r2, rfl, ht, h4⟩ | ⟨-, h4⟩
    · cases h4
      rw [tokIs_eq ht] at *
      exact ⟨pre ++ pre' ++ [semi], by simp, .memberDecl hd hok hds (glue_prefix hE (headIs_ne_nil hds.head) hg)⟩
    · cases h4

theorem memberAssert_sound {ts : List Tok} {v : Member Syn} {r : List Tok}
    (he : memberAssert E ts = .ok v r) : ∃ pre, ts = pre ++ r ∧ D .member pre v := by
  unfold memberAssert at he
  rcases expect_ok.1 he with ⟨t, r1, rfl, ht, he⟩ | ⟨-, he⟩
  · rw [tokKw_eq ht]
    rcases expect_ok.1 he with ⟨t, r2, rfl, ht, he⟩ | ⟨-, he⟩
    · rw [tokIs_eq ht]
      obtain ⟨e, r3, h3, he'⟩ := must_ok.1 he
      obtain ⟨pe, rfl, hc⟩ := hE.cond_sound _ _ _ h3
      rcases expect_ok.1 he' with ⟨t, r4, rfl, ht, he⟩ | ⟨-, he⟩
      · rw [tokIs_eq ht]
        unfold assertMessage at he
        split at he
        · rename_i k v' r5
          rcases expect_ok.1 he with ⟨t, r6, rfl, ht, he⟩ | ⟨-, he⟩
          · rw [tokIs_eq ht]
            rcases expect_ok.1 he with ⟨t, r6, rfl, ht, he⟩ | ⟨-, he⟩
            · rw [tokIs_eq ht]
              cases he
              rw [Kefir.Parser.strNode_eq]
              exact ⟨_, by simp, Der.memberAssert hc⟩
            · cases he
          · cases he
        · cases he
      · cases he
    · cases he
  · cases he

theorem members_sound (h : S f) {acc : List (Member Syn)} {ts : List Tok} {v : List (Member Syn)} {r : List Tok}
    (he : members f acc ts = .ok v r) :
    ∃ pre, ts = pre ++ r ∧ Claim E IsAssign IsCond (.members acc) pre v r := by
  unfold members at he
  rcases caseOf_ok.1 he with ⟨d, r1, h1, h2⟩ | ⟨-, h2⟩
  · obtain ⟨pre, rfl, hd⟩ := h _ _ _ _ h1
    obtain ⟨pre', rfl, ms, pm, b, rfl, rfl, hb, hd'⟩ := h _ _ _ _ h2
    exact ⟨pre ++ (pm ++ [b]), by simp, d :: ms, pre ++ pm, b, by simp, by simp, hb, .membersCons hd hd'⟩
  · rcases expect_ok.1 h2 with ⟨t, r6, rfl, ht, he⟩ | ⟨-, he⟩
    · cases he
      exact ⟨[t], rfl, [], [], t, by simp, rfl, by rw [← tokRBrace_eq, ht], .membersNil⟩
    · cases he

theorem enumsNext_sound (h : S f) {acc : List (String × Option Syn)} {e : WEnum} {ts : List Tok}
    (ht : E.isTypedef e.name = false) (hv : ∀ ts v, e.value = some (ts, v) → IsCond ts v)
    {v : List (String × Option Syn)} {r : List Tok} (he : enumsNext f (acc ++ [e.node]) ts = .ok v r) :
    ∃ pre, ts = pre ++ r ∧ Claim E IsAssign IsCond (.enums acc) (e.toks ++ pre) v r := by
  unfold enumsNext at he
  rcases expect_ok.1 he with ⟨t, r1, rfl, hc, he⟩ | ⟨-, he⟩
  · rw [tokIs_eq hc]
    rcases expect_ok.1 he with ⟨t, r2, rfl, hb, he⟩ | ⟨-, he⟩
    · cases he
      refine ⟨[comma, t], rfl, [e], [comma], t, rfl, by simp [sepComma], by rw [← tokRBrace_eq, hb], by simp,
        by simpa using ht, by simpa using hv, rfl, rfl, rfl⟩
    · obtain ⟨pre, rfl, es, tc, b, rfl, rfl, hb, hn, ht', hv', htc⟩ := h _ _ _ _ he
      refine ⟨comma :: (sepComma (es.map WEnum.toks) ++ tc ++ [b]), rfl, e :: es, tc, b, by simp, ?_, hb, by simp, ?_, ?_, ?_⟩
      · rw [List.map_cons, Kefir.Parser.sepComma_cons _ (by simpa using hn)]; simp
      · intro x hx
        rcases List.mem_cons.1 hx with rfl | hx
        · exact ht
        · exact ht' x hx
      · intro x hx
        rcases List.mem_cons.1 hx with rfl | hx
        · exact hv
        · exact hv' x hx
      · cases tc with
        | nil => trivial
        | cons c tc => exact ⟨htc.1, rfl, rfl⟩
  · rcases expect_ok.1 he with ⟨t, r2, rfl, hb, he⟩ | ⟨-, he⟩
    · cases he
      exact ⟨[t], rfl, [e], [], t, rfl, by simp [sepComma], by rw [← tokRBrace_eq, hb], by simp,
        by simpa using ht, by simpa using hv, trivial⟩
    · cases he

theorem enums_sound (h : S f) {acc : List (String × Option Syn)} {ts : List Tok}
    {v : List (String × Option Syn)} {r : List Tok} (he : enums E f acc ts = .ok v r) :
    ∃ pre, ts = pre ++ r ∧ Claim E IsAssign IsCond (.enums acc) pre v r := by
  unfold enums at he
  split at he
  · rename_i s r1
    split at he
    · cases he
    · rename_i hs
      replace he := (skipAttrs_ok.1 he).2
      rcases expect_ok.1 he with ⟨t, r2, rfl, hc, he⟩ | ⟨-, he⟩
      · rw [tokIs_eq hc]
        obtain ⟨e, r3, h3, he'⟩ := must_ok.1 he
        obtain ⟨pe, rfl, hc⟩ := hE.cond_sound _ _ _ h3
        obtain ⟨pre, rfl, hcl⟩ := enumsNext_sound hE h (e := ⟨s, some (pe, e)⟩) (by simpa using hs)
          (by intro ts v h; cases h; exact hc) he'
        exact ⟨_, by simp [WEnum.toks], hcl⟩
      · obtain ⟨pre, rfl, hcl⟩ := enumsNext_sound hE h (e := ⟨s, none⟩) (by simpa using hs)
          (by intro ts v h; cases h) he
        exact ⟨_, by simp [WEnum.toks], hcl⟩
  · cases he

/-! ### Declarators -/

theorem odabs_inv {ts : List Tok} {v : Dtor Syn} (h : D .odabs ts v) : ts = [] ∧ v = .name none ∨ D .dabs ts v := by
  cases h with
  | odabsNone => exact .inl ⟨rfl, rfl⟩
  | odabsSome h => exact .inr h

theorem arrayLength_sound {st : Bool} {q : List Qual} {ts : List Tok} {x : Bool × List Qual × Bound Syn}
    {r : List Tok} (he : arrayLength E st q ts = .ok x r) : ∃ c, c.isRBracket = true ∧ x.1 = st ∧ x.2.1 = q ∧
      (st = false ∧ x.2.2 = .unbounded ∧ ts = c :: r ∨ st = false ∧ x.2.2 = .star ∧ ts = star :: c :: r ∨
        ∃ te e, x.2.2 = .expr (.expr e) ∧ ts = te ++ c :: r ∧ IsAssign te e ∧ te.head? ≠ some star) := by
  have fin : ∀ st q b ts, arrayEnd st q b ts = .ok x r → x = (st, q, b) ∧ ∃ c, c.isRBracket = true ∧ ts = c :: r := by
    intro st q b ts h
    unfold arrayEnd at h
    rcases expect_ok.1 h with ⟨t, r2, rfl, hb, he⟩ | ⟨-, he⟩
    · cases he
      exact ⟨rfl, t, by rw [← tokRBracket_eq, hb], rfl⟩
    · cases he
  unfold arrayLength at he
  rcases expect_ok.1 he with ⟨t, r2, rfl, hs, he⟩ | ⟨hs, he⟩
  · rw [tokIs_eq hs]
    split at he
    · cases he
    · rename_i hst
      obtain ⟨rfl, c, hc, rfl⟩ := fin _ _ _ _ he
      exact ⟨c, hc, rfl, rfl, .inr (.inl ⟨by simpa using hst, rfl, rfl⟩)⟩
  · rcases caseOf_ok.1 he with ⟨e, r1, h1, h2⟩ | ⟨-, h2⟩
    · obtain ⟨pe, rfl, ha⟩ := hE.assign_sound _ _ _ h1
      obtain ⟨rfl, c, hc, rfl⟩ := fin _ _ _ _ h2
      refine ⟨c, hc, rfl, rfl, .inr (.inr ⟨pe, e, rfl, rfl, ha, ?_⟩)⟩
      rw [← head?_append (us := c :: r) (headIs_ne_nil (hE.assign_start _ _ ha))]
      exact head_star hs
    · split at h2
      · cases h2
      · rename_i hst
        obtain ⟨rfl, c, hc, rfl⟩ := fin _ _ _ _ h2
        exact ⟨c, hc, rfl, rfl, .inl ⟨by simpa using hst, rfl, rfl⟩⟩

theorem array_sound {ts : List Tok} {x : Bool × List Qual × Bound Syn} {r : List Tok} (he : array E ts = .ok x r)
    (a : Bool) {l : Tok} (hl : l.isLBracket = true) :
    ∃ pre, ts = pre ++ r ∧ Brackets Dialect.kefir IsAssign a (l :: pre) x.1 x.2.1 x.2.2 := by
  obtain ⟨st', q', b'⟩ := x
  unfold array at he
  rcases expect_ok.1 he with ⟨t, r1, rfl, hs, he⟩ | ⟨-, he⟩
  · rw [tokKw_eq hs]
    rcases expect_ok.1 he with ⟨t', r2, -, -, he⟩ | ⟨-, he⟩
    · cases he
    · obtain ⟨c, hc, h1, h2, h3⟩ := arrayLength_sound hE he
      simp only at h1 h2 h3 ⊢
      subst h1 h2
      rcases h3 with ⟨h, -⟩ | ⟨h, -⟩ | ⟨te, e, rfl, h4, ha, hst⟩
      · cases h
      · cases h
      · refine ⟨.kw .kStatic :: qualToks (quals r1).1 ++ te ++ [c], ?_, ?_⟩
        · have := quals_sound r1
          rw [h4] at this
          simp only [List.cons_append, List.append_assoc, List.nil_append]
          rw [← this]
        · exact Brackets.staticQuals hl hc ha (.inr hst) (.inl rfl)
  · rcases expect_ok.1 he with ⟨t', r2, hr2, hs, he⟩ | ⟨-, he⟩
    · have hq := quals_sound ts
      rw [hr2, tokKw_eq hs] at hq
      obtain ⟨c, hc, h1, h2, h3⟩ := arrayLength_sound hE he
      simp only at h1 h2 h3 ⊢
      subst h1 h2
      rcases h3 with ⟨h, -⟩ | ⟨h, -⟩ | ⟨te, e, rfl, h4, ha, hst⟩
      · cases h
      · cases h
      · refine ⟨qualToks (quals ts).1 ++ .kw .kStatic :: te ++ [c], ?_, ?_⟩
        · simp only [List.cons_append, List.append_assoc, List.nil_append]
          rw [← h4, ← hq]
        · exact Brackets.qualsStatic hl hc ha (.inr hst)
    · have hq := quals_sound ts
      obtain ⟨c, hc, h1, h2, h3⟩ := arrayLength_sound hE he
      simp only at h1 h2 h3 ⊢
      subst h1 h2
      rcases h3 with ⟨-, rfl, h4⟩ | ⟨-, rfl, h4⟩ | ⟨te, e, rfl, h4, ha, hst⟩
      · refine ⟨qualToks (quals ts).1 ++ [c], ?_, .empty hl hc⟩
        rw [List.append_assoc, List.singleton_append, ← h4, ← hq]
      · refine ⟨qualToks (quals ts).1 ++ [star, c], ?_, .star hl hc (.inr (.inr rfl))⟩
        rw [List.append_assoc]
        show ts = _ ++ star :: c :: r
        rw [← h4, ← hq]
      · refine ⟨qualToks (quals ts).1 ++ te ++ [c], ?_, .expr hl hc ha (.inr hst) (.inl rfl)⟩
        rw [List.append_assoc, List.append_assoc, List.singleton_append, ← h4, ← hq]

theorem parens_sound (h : S f) {a : Bool} {ts : List Tok} {ps : Params Syn × Bool} {r : List Tok}
    (he : parens E f a ts = .ok ps r) : ∃ pre, ts = pre ++ r ∧ D (.parens a) (lp :: pre) ps := by
  unfold parens at he
  rcases caseOf_ok.1 he with ⟨p, r1, h1, h2⟩ | ⟨-, h2⟩
  · obtain ⟨tp, rfl, hp⟩ := h _ _ _ _ h1
    obtain ⟨x, r2, h3, h4⟩ := must_ok.1 h2
    obtain ⟨pre, rfl, ps', pp, h5, rfl, hps⟩ := h _ _ _ _ h3
    have hps := hps tp p hp
    rcases expect_ok.1 h4 with ⟨t, r3, rfl, hs, h4⟩ | ⟨-, h4⟩
    · cases h4
      rw [tokIs_eq hs, declParams_eq]
      obtain ⟨xs, xe⟩ := x
      simp only at h5 ⊢
      subst h5
      cases xe
      · exact ⟨tp ++ pp ++ [rp], by simp, .parensList hps⟩
      · exact ⟨tp ++ pp ++ [comma, .punct .ellipsis, rp], by simp, .parensEllipsis hps⟩
    · cases h4
  · split at h2
    · rcases expect_ok.1 h2 with ⟨t, r3, rfl, hs, h4⟩ | ⟨-, h4⟩
      · cases h4
        rw [tokIs_eq hs]
        exact ⟨[rp], rfl, .parensEmpty⟩
      · cases h4
    · rename_i ha
      have ha : a = false := by simpa using ha
      subst ha
      obtain ⟨ids, r2, h3, h4⟩ := must_ok.1 h2
      rcases expect_ok.1 h4 with ⟨t, r3, rfl, hs, h4⟩ | ⟨-, h4⟩
      · cases h4
        rw [tokIs_eq hs] at *
        unfold identList at h3
        split at h3
        · obtain ⟨hn, rfl, ht⟩ := identTail_sound hE h3
          rw [identParams_eq]
          exact ⟨sepComma (ids.map fun s => [.ident s]) ++ [rp], by simp,
            .parensIdents hn ht fun _ _ => .inl rfl⟩
        · cases h3
          exact ⟨[rp], rfl, .parensEmpty⟩
      · cases h4

theorem dtorTail_sound (h : S f) {a : Bool} {d : Dtor Syn} {ts : List Tok} {v : Dtor Syn} {r : List Tok}
    (he : dtorTail E f a d ts = .ok v r) : ∃ pre, ts = pre ++ r ∧ Claim E IsAssign IsCond (.tail a d) pre v r := by
  unfold dtorTail at he
  rcases expect_ok.1 he with ⟨t, r1, rfl, hl, he⟩ | ⟨-, he⟩
  · obtain ⟨b, r2, h1, h2⟩ := andThen_ok.1 he
    obtain ⟨pre, rfl, hb⟩ := array_sound hE h1 a (by rw [← tokLBracket_eq, hl])
    obtain ⟨pre', rfl, hc⟩ := h _ _ _ _ h2
    refine ⟨t :: pre ++ pre', by simp, fun ha td htd => ?_, fun ha td htd => ?_⟩
    · subst ha
      have := hc.1 rfl _ (Der.arr htd hb)
      simpa using this
    · subst ha
      have := hc.2 rfl _ (.odabsSome (Der.dabsArr htd hb))
      simpa using this
  · rcases expect_ok.1 he with ⟨t, r1, rfl, hl, he⟩ | ⟨-, he⟩
    · rw [tokIs_eq hl]
      obtain ⟨ps, r2, h1, h2⟩ := andThen_ok.1 he
      obtain ⟨pre, rfl, hp⟩ := parens_sound hE h h1
      obtain ⟨pre', rfl, hc⟩ := h _ _ _ _ h2
      refine ⟨lp :: pre ++ pre', by simp, fun ha td htd => ?_, fun ha td htd => ?_⟩
      · subst ha
        have := hc.1 rfl _ (Der.func htd hp)
        simpa using this
      · subst ha
        have := hc.2 rfl _ (.odabsSome (Der.dabsFunc htd hp))
        simpa using this
    · cases he
      exact ⟨[], rfl, fun _ td htd => by rw [List.append_nil]; exact htd,
        fun _ td htd => by rw [List.append_nil]; exact htd⟩

theorem declarator_sound (h : S f) {ts : List Tok} {v : Dtor Syn} {r : List Tok}
    (he : declarator f ts = .ok v r) : ∃ pre, ts = pre ++ r ∧ D .dtor pre v := by
  unfold declarator at he
  replace he := (skipAttrs_ok.1 he).2
  obtain ⟨d, r1, h1, h2⟩ := andThen_ok.1 he
  obtain ⟨-, h2⟩ := skipAttrs_ok.1 h2
  cases h2
  split at h1
  · unfold pointer at h1
    rcases expect_ok.1 h1 with ⟨t, r1, rfl, hl, he⟩ | ⟨-, he⟩
    · rw [tokIs_eq hl]
      obtain ⟨d', r2, h3, h4⟩ := andThen_ok.1 he
      cases h4
      obtain ⟨pre, h5, hd⟩ := h _ _ _ _ h3
      have hq := quals_sound r1
      rw [h5] at hq
      refine ⟨star :: qualToks (quals r1).1 ++ pre, ?_, .ptr hd (.inl rfl)⟩
      rw [List.cons_append, List.cons_append, List.append_assoc, ← hq]
    · cases he
  · unfold direct at h1
    rcases expect_ok.1 h1 with ⟨t, r1, rfl, hl, he⟩ | ⟨-, he⟩
    · rw [tokIs_eq hl]
      obtain ⟨d', r2, h3, h4⟩ := andThen_ok.1 he
      obtain ⟨pre, rfl, hd⟩ := h _ _ _ _ h3
      rcases expect_ok.1 h4 with ⟨t, r3, rfl, hl, he⟩ | ⟨-, he⟩
      · rw [tokIs_eq hl]
        obtain ⟨pre', rfl, hc⟩ := h _ _ _ _ he
        exact ⟨lp :: pre ++ [rp] ++ pre', by simp, .dtorDirect (hc.1 rfl _ (.paren hd))⟩
      · cases he
    · split at he
      · rename_i s r2 _ _
        obtain ⟨pre', rfl, hc⟩ := h _ _ _ _ he
        exact ⟨[.ident s] ++ pre', by simp, .dtorDirect (hc.1 rfl _ (.name (.inl rfl)))⟩
      · cases he

theorem directAbstract_sound (h : S f) {p : Bool} {ts : List Tok} {v : Dtor Syn} {r : List Tok}
    (he : directAbstract f p ts = .ok v r) :
    ∃ pre, ts = pre ++ r ∧ D .odabs pre v ∧ (p = false → v ≠ .name none) := by
  unfold directAbstract at he
  obtain ⟨d, r1, h1, h2⟩ := andThen_ok.1 he
  obtain ⟨d', r2, h3, h4⟩ := andThen_ok.1 h2
  have hv : v = d' ∧ r = r2 ∧ (p = false → v ≠ .name none) := by
    unfold notEmpty at h4
    split at h4
    · split at h4
      · cases h4; exact ⟨rfl, rfl, fun h => by simp_all⟩
      · cases h4
    · cases h4
      rename_i hn
      exact ⟨rfl, rfl, fun _ => hn⟩
  obtain ⟨rfl, rfl, hv⟩ := hv
  obtain ⟨pre', rfl, hc⟩ := h _ _ _ _ h3
  unfold abstractBase at h1
  rcases orElse_ok.1 h1 with h1 | ⟨-, h1⟩
  · rcases expect_ok.1 h1 with ⟨t, r1, rfl, hl, h1⟩ | ⟨-, h1⟩
    · rw [tokIs_eq hl]
      obtain ⟨d'', r2, h5, h6⟩ := andThen_ok.1 h1
      obtain ⟨pre, rfl, hd⟩ := h _ _ _ _ h5
      rcases expect_ok.1 h6 with ⟨t, r3, rfl, hl, h6⟩ | ⟨-, h6⟩
      · rw [tokIs_eq hl]
        cases h6
        exact ⟨lp :: pre ++ [rp] ++ pre', by simp, hc.2 rfl _ (.odabsSome (.dabsParen hd)), hv⟩
      · cases h6
    · cases h1
  · cases h1
    exact ⟨pre', rfl, by simpa using hc.2 rfl [] .odabsNone, hv⟩

theorem pointerTail_sound (h : S f) {ts : List Tok} {v : Dtor Syn} {r : List Tok}
    (he : pointer (f .ptrTail) ts = .ok v r) : ∃ pre, ts = pre ++ r ∧ D .abs pre v := by
  unfold pointer at he
  rcases expect_ok.1 he with ⟨t, r1, rfl, hl, he⟩ | ⟨-, he⟩
  · rw [tokIs_eq hl]
    obtain ⟨d', r2, h3, h4⟩ := andThen_ok.1 he
    cases h4
    obtain ⟨pre, h5, hd⟩ := h _ _ _ _ h3
    have hq := quals_sound r1
    rw [h5] at hq
    refine ⟨star :: qualToks (quals r1).1 ++ pre, ?_, ?_⟩
    · rw [List.cons_append, List.cons_append, List.append_assoc, ← hq]
    · rcases hd with ⟨rfl, rfl⟩ | hd
      · rw [List.append_nil]; exact .absPtr
      · exact .absPtrAbs hd (.inl rfl)
  · cases he

theorem abstract_sound (h : S f) {ts : List Tok} {v : Dtor Syn} {r : List Tok}
    (he : abstractDeclarator f ts = .ok v r) : ∃ pre, ts = pre ++ r ∧ D .abs pre v := by
  unfold abstractDeclarator at he
  replace he := (skipAttrs_ok.1 he).2
  obtain ⟨d, r1, h1, h2⟩ := andThen_ok.1 he
  obtain ⟨-, h2⟩ := skipAttrs_ok.1 h2
  cases h2
  split at h1
  · exact pointerTail_sound hE h h1
  · obtain ⟨pre, rfl, hd, hv⟩ := directAbstract_sound hE h h1
    rcases odabs_inv hE hd with ⟨-, rfl⟩ | hd
    · exact absurd rfl (hv rfl)
    · exact ⟨pre, rfl, .absDirect hd⟩

theorem ptrTail_sound (h : S f) {ts : List Tok} {v : Dtor Syn} {r : List Tok}
    (he : ptrTail f ts = .ok v r) : ∃ pre, ts = pre ++ r ∧ Claim E IsAssign IsCond .ptrTail pre v r := by
  unfold ptrTail at he
  rcases orElse_ok.1 he with h1 | ⟨-, h1⟩
  · obtain ⟨pre, rfl, hd⟩ := pointerTail_sound hE h h1
    exact ⟨pre, rfl, .inr hd⟩
  · obtain ⟨pre, rfl, hd, hv⟩ := directAbstract_sound hE h h1
    rcases odabs_inv hE hd with hd | hd
    · exact ⟨pre, rfl, .inl hd⟩
    · exact ⟨pre, rfl, .inr (.absDirect hd)⟩

theorem param_sound (h : S f) (hf : ∀ ts s, declHead false ts = some (.ident s) → f .declarator ts ≠ .noMatch)
    {ts : List Tok} {v : List (Spec Syn) × Dtor Syn} {r : List Tok}
    (he : param f ts = .ok v r) : ∃ pre, ts = pre ++ r ∧ D .param pre v := by
  unfold param at he
  obtain ⟨ss, r1, h1, h2⟩ := andThen_ok.1 he
  obtain ⟨pre, rfl, ss', h3, hn, hd, hg⟩ := h _ _ _ _ h1
  rw [List.nil_append] at h3
  subst h3
  have hok : SpecsOk Dialect.kefir false ss := ⟨hn, .inl rfl, fun h => by cases h⟩
  have hg := hg (by intro h; cases h)
  obtain ⟨d, r2, h4, h5⟩ := andThen_ok.1 h2
  cases h5
  rcases orElse_ok.1 h4 with h4 | ⟨hnm, h4⟩
  · obtain ⟨pre', rfl, hd'⟩ := h _ _ _ _ h4
    exact ⟨pre ++ pre', by simp, .paramDtor hd hok hd' (glue_prefix hE (headIs_ne_nil hd'.head) hg) (.inl rfl)⟩
  · rcases orElse_ok.1 h4 with h4 | ⟨-, h4⟩
    · obtain ⟨pre', rfl, hd'⟩ := h _ _ _ _ h4
      refine ⟨pre ++ pre', by simp, .paramAbs hd hok hd' (glue_prefix hE (headIs_ne_nil hd'.head) hg) (.inr ?_)⟩
      intro s hs
      exact hf _ s (declHead_mono hs r) hnm
    · cases h4
      exact ⟨pre, rfl, .paramNone hd hok⟩

theorem params_sound (h : S f) {acc : List (List (Spec Syn) × Dtor Syn)} {ts : List Tok}
    {v : List (List (Spec Syn) × Dtor Syn) × Bool} {r : List Tok}
    (he : params f acc ts = .ok v r) : ∃ pre, ts = pre ++ r ∧ Claim E IsAssign IsCond (.params acc) pre v r := by
  unfold params at he
  rcases expect_ok.1 he with ⟨t, r1, rfl, hl, he⟩ | ⟨-, he⟩
  · rw [tokIs_eq hl]
    rcases caseOf_ok.1 he with ⟨p, r2, h1, h2⟩ | ⟨-, h2⟩
    · obtain ⟨tp, rfl, hp⟩ := h _ _ _ _ h1
      obtain ⟨pre, rfl, ps, pp, h3, rfl, hps⟩ := h _ _ _ _ h2
      refine ⟨comma :: tp ++ (pp ++ _), by simp; rfl, p :: ps, comma :: tp ++ pp, by rw [h3]; simp, by simp, ?_⟩
      intro tp' p' hp'
      exact .paramsCons hp' (hps tp p hp)
    · rcases expect_ok.1 h2 with ⟨t, r2, rfl, hl, h2⟩ | ⟨-, h2⟩
      · rw [tokIs_eq hl]
        cases h2
        exact ⟨[comma, .punct .ellipsis], rfl, [], [], by simp, rfl, fun tp p hp => by rw [List.append_nil]; exact .paramsOne hp⟩
      · cases h2
  · cases he
    exact ⟨[], rfl, [], [], by simp, rfl, fun tp p hp => by rw [List.append_nil]; exact .paramsOne hp⟩

theorem typeName_sound (h : S f) {ts : List Tok} {v : Syn} {r : List Tok}
    (he : typeName f ts = .ok v r) : ∃ pre, ts = pre ++ r ∧ D .typeName pre v := by
  unfold typeName at he
  obtain ⟨ss, r1, h1, h2⟩ := andThen_ok.1 he
  obtain ⟨pre, rfl, ss', h3, hn, hd, hg⟩ := h _ _ _ _ h1
  rw [List.nil_append] at h3
  subst h3
  have hok : SpecsOk Dialect.kefir true ss := ⟨hn, .inl rfl, fun _ => .inl rfl⟩
  have hg := hg (by intro h; cases h)
  obtain ⟨d, r2, h4, h5⟩ := andThen_ok.1 h2
  cases h5
  rcases orElse_ok.1 h4 with h4 | ⟨-, h4⟩
  · obtain ⟨pre', rfl, hd'⟩ := h _ _ _ _ h4
    exact ⟨pre ++ pre', by simp, .typeNameAbs hd hok hd' (glue_prefix hE (headIs_ne_nil hd'.head) hg)⟩
  · cases h4
    exact ⟨pre, rfl, .typeNameNone hd hok⟩

theorem parse_sound (n : Nat) : S (parse E n) := by
  induction n with
  | zero => intro nt ts v r h; cases h
  | succ n ih =>
    intro nt ts v r h
    cases nt with
    | spec has => exact specifier_sound hE ih h
    | specs acc => exact specList_sound hE ih h
    | declarator => exact declarator_sound hE ih h
    | tail a d => exact dtorTail_sound hE ih h
    | abstract => exact abstract_sound hE ih h
    | ptrTail => exact ptrTail_sound hE ih h
    | param => exact param_sound hE ih (fun ts s => declarator_ne hE n) h
    | params acc => exact params_sound hE ih h
    | members acc => exact members_sound hE ih h
    | member =>
      rcases orElse_ok.1 (show (memberDecl (parse E n) ts).orElse (memberAssert E ts) = .ok v r from h) with h | ⟨-, h⟩
      · exact memberDecl_sound hE ih h
      · exact memberAssert_sound hE h
    | mdtors acc => exact mdtors_sound hE ih h
    | enums acc => exact enums_sound hE ih h
    | typeName => exact typeName_sound hE ih h

theorem run_sound : S (run E) := by
  intro nt ts v r h
  exact parse_sound hE (nt.bound ts + 1) nt ts v r (by unfold run at h; exact h)

end

end Kefir.DeclParser
