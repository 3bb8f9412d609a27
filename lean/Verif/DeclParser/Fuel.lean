import Verif.DeclParser.Model

/-! The rules of the model need only as much depth as the length of the input allows: more fuel changes no result, and
`4 * length + 4` is always enough. -/

namespace Kefir.DeclParser
open Kefir.Lexer (Punct Keyword)
open Kefir.Parser (Tok Expr Res lp rp comma colon expect tokIs tokLBracket tokRBracket tokLBrace tokRBrace headIs
  strNode expect_le expect_fits)
open Kefir.Declr

variable {α β : Type}

theorem caseOf_le {x y : Res α} {k k' : α → List Tok → Res β} {z z' : Res β} (h : x.le y)
    (hk : ∀ a r, (k a r).le (k' a r)) (hz : z.le z') : (caseOf x k z).le (caseOf y k' z') := by
  rcases h with rfl | rfl
  · exact .inl rfl
  · cases x with
    | ok a r => exact hk a r
    | noMatch => exact hz
    | _ => exact .inr rfl

theorem skipAttrs_le {ts : List Tok} {x y : Res α} (h : x.le y) : (skipAttrs ts x).le (skipAttrs ts y) := by
  unfold skipAttrs; split
  · exact .inr rfl
  · exact h

/-- One more result. -/
def Rec.le (f g : Rec) : Prop := ∀ nt ts, (f nt ts).le (g nt ts)

theorem pointer_le {f g : List Tok → Res (Dtor Syn)} (h : ∀ ts, (f ts).le (g ts)) (ts : List Tok) :
    (pointer f ts).le (pointer g ts) := by
  unfold pointer
  exact expect_le (Res.le_refl _) fun r => Res.andThen_le (h _) fun _ _ => Res.le_refl _

/-- Take the rules apart. -/
macro "le_step" h:ident : tactic => `(tactic|
  repeat' first
    | exact Res.le_refl _
    | exact $h _ _
    | apply Res.andThen_le
    | apply Res.must_le
    | apply Res.orElse_le
    | apply caseOf_le
    | apply skipAttrs_le
    | apply expect_le
    | apply pointer_le
    | intro _
    | split)

theorem structSpec_le {f g : Rec} (h : f.le g) (k : TagKind) (ts : List Tok) :
    (structSpec f k ts).le (structSpec g k ts) := by
  unfold structSpec structBody; le_step h

theorem enumSpec_le {f g : Rec} (h : f.le g) (ts : List Tok) : (enumSpec f ts).le (enumSpec g ts) := by
  unfold enumSpec enumBody; le_step h

theorem keywordSpec_le (E : Env) {f g : Rec} (h : f.le g) (k : Keyword) (ts : List Tok) :
    (keywordSpec E f k ts).le (keywordSpec E g k ts) := by
  cases k <;> simp only [keywordSpec] <;>
    first
    | exact Res.le_refl _
    | exact structSpec_le h _ _
    | exact enumSpec_le h _
    | (simp only [alignSpec]; le_step h)
    | (simp only [atomicSpec]; le_step h)

theorem directAbstract_le {f g : Rec} (h : f.le g) (p : Bool) (ts : List Tok) :
    (directAbstract f p ts).le (directAbstract g p ts) := by
  unfold directAbstract abstractBase; le_step h

theorem parens_le (E : Env) {f g : Rec} (h : f.le g) (a : Bool) (ts : List Tok) :
    (parens E f a ts).le (parens E g a ts) := by
  unfold parens; le_step h

theorem direct_le {f g : Rec} (h : f.le g) (ts : List Tok) : (direct f ts).le (direct g ts) := by
  unfold direct; le_step h

theorem step_le (E : Env) {f g : Rec} (h : f.le g) : (step E f).le (step E g) := by
  intro nt ts
  cases nt with
  | spec has =>
    simp only [step, specifier]
    apply skipAttrs_le
    split
    · exact keywordSpec_le E h _ _
    · exact Res.le_refl _
    · exact Res.le_refl _
  | specs acc => simp only [step, specList]; le_step h
  | declarator =>
    simp only [step, declarator]
    apply skipAttrs_le
    apply Res.andThen_le
    · split
      · exact pointer_le (fun ts => h _ ts) _
      · exact direct_le h _
    · intro _ _; exact Res.le_refl _
  | tail a d =>
    simp only [step, dtorTail]
    apply expect_le
    · apply expect_le (Res.le_refl _)
      intro r; exact Res.andThen_le (parens_le E h _ _) fun _ _ => h _ _
    · intro r; exact Res.andThen_le (Res.le_refl _) fun _ _ => h _ _
  | abstract =>
    simp only [step, abstractDeclarator]
    apply skipAttrs_le
    apply Res.andThen_le
    · split
      · exact pointer_le (fun ts => h _ ts) _
      · exact directAbstract_le h _ _
    · intro _ _; exact Res.le_refl _
  | ptrTail =>
    simp only [step, ptrTail]
    exact Res.orElse_le (pointer_le (fun ts => h _ ts) _) (directAbstract_le h _ _)
  | param => simp only [step, param]; le_step h
  | params acc => simp only [step, params]; le_step h
  | members acc => simp only [step, members]; le_step h
  | member => simp only [step, memberDecl]; le_step h
  | mdtors acc => simp only [step, mdtors, mdtorWidth, mdtorsNext]; le_step h
  | enums acc => simp only [step, enums, enumsNext]; le_step h
  | typeName => simp only [step, typeName]; le_step h

theorem parse_le_succ (E : Env) (n : Nat) : (parse E n).le (parse E (n + 1)) := by
  induction n with
  | zero => intro nt ts; exact .inl rfl
  | succ n ih => exact step_le E ih

theorem parse_le (E : Env) {n m : Nat} (h : n ≤ m) : (parse E n).le (parse E m) := by
  induction m with
  | zero => cases Nat.le_zero.1 h; intro nt ts; exact .inr rfl
  | succ m ih =>
    rcases Nat.lt_or_ge m n with hm | hm
    · cases Nat.le_antisymm h hm; intro nt ts; exact .inr rfl
    · intro nt ts
      rcases ih hm nt ts with h1 | h1
      · exact .inl h1
      · rw [h1]; exact parse_le_succ E m nt ts

/-! ### Enough fuel -/

theorem caseOf_fits {x : Res α} {k : α → List Tok → Res β} {z : Res β} {m n : Nat} (h : x.fits m)
    (hk : ∀ a r, r.length < m → (k a r).fits n) (hz : z.fits n) : (caseOf x k z).fits n := by
  cases x with
  | ok a r => exact hk a r (h.2 a r rfl)
  | noMatch => exact hz
  | error => exact Res.error_fits n
  | fuel => exact absurd rfl h.1

theorem skipAttrs_fits {ts : List Tok} {x : Res α} {n : Nat} (h : x.fits n) : (skipAttrs ts x).fits n := by
  unfold skipAttrs; split
  · exact Res.error_fits n
  · exact h

theorem quals_length (ts : List Tok) : (quals ts).2.length ≤ ts.length := by
  fun_induction quals ts <;> simp_all <;> omega

theorem identTail_fits (f : String → Bool) (ts : List Tok) : (identTail f ts).fits ts.length := by
  fun_induction identTail f ts with
  | case1 => exact Res.error_fits _
  | case2 s r h ih => exact Res.andThen_fits (Res.fits_mono ih (Nat.le_refl _)) fun _ _ hr => Res.ok_fits (by simp; omega)
  | case3 => exact Res.error_fits _
  | case4 => exact Res.ok_fits (by simp)
  | case5 => exact Res.error_fits _

/-- Whether a rule may succeed without consuming anything. -/
def NT.slack : NT → Nat
  | .specs [] => 0
  | .specs _ | .tail .. | .abstract | .ptrTail | .params _ => 1
  | _ => 0

/-- The order in which rules call each other without consuming anything. -/
def NT.rank : NT → Nat
  | .spec _ | .tail .. | .params _ | .enums _ => 0
  | .specs _ | .declarator | .abstract | .ptrTail => 1
  | .param | .member | .mdtors _ | .typeName => 2
  | .members _ => 3

/-- The depth that a rule needs. -/
def NT.bound (nt : NT) (ts : List Tok) : Nat := 4 * ts.length + nt.rank

/-- `f` gives a result wherever less depth than `n` is needed. -/
def Rec.fits (f : Rec) (n : Nat) : Prop := ∀ nt ts, nt.bound ts < n → (f nt ts).fits (ts.length + nt.slack)

/-- The rules for expressions give a result and consume something. -/
def Env.fits (E : Env) : Prop := ∀ ts, (E.assign ts).fits ts.length ∧ (E.cond ts).fits ts.length

/-- The same for inputs that need less depth than `n`. -/
def Env.fitsTo (E : Env) (n : Nat) : Prop :=
  ∀ ts, 4 * ts.length + 4 < n → (E.assign ts).fits ts.length ∧ (E.cond ts).fits ts.length

theorem Env.fits.to {E : Env} (h : E.fits) (n : Nat) : E.fitsTo n := fun ts _ => h ts

theorem slack_snoc (acc : List (Spec Syn)) (s : Spec Syn) : (NT.specs (acc ++ [s])).slack = 1 := by
  cases acc <;> rfl

theorem slack_le (nt : NT) : nt.slack ≤ 1 := by unfold NT.slack; split <;> omega

/-- Take the rules apart. -/
macro "fits_step" h:ident hE:ident : tactic => `(tactic|
  repeat' first
    | exact Res.noMatch_fits _
    | exact Res.error_fits _
    | refine Res.ok_fits ?_
    | refine Res.andThen_fits ($h _ _ ?_) ?_
    | refine Res.must_fits ($h _ _ ?_) ?_
    | refine caseOf_fits ($h _ _ ?_) ?_ ?_
    | refine Res.andThen_fits ($hE _ ?_).1 ?_
    | refine Res.must_fits ($hE _ ?_).1 ?_
    | refine caseOf_fits ($hE _ ?_).1 ?_ ?_
    | refine Res.andThen_fits ($hE _ ?_).2 ?_
    | refine Res.must_fits ($hE _ ?_).2 ?_
    | refine Res.fits_mono ($h _ _ ?_) ?_
    | refine Res.orElse_fits ?_ ?_
    | refine skipAttrs_fits ?_
    | refine expect_fits ?_ ?_
    | intro _
    | omega
    | (simp [NT.bound, NT.rank, NT.slack] at *; done)
    | (simp [NT.bound, NT.rank, NT.slack] at *; omega)
    | split)

theorem structSpec_fits {f : Rec} {n : Nat} (h : f.fits n) (k : TagKind) (ts : List Tok)
    (hb : 4 * ts.length < n) : (structSpec f k ts).fits ts.length := by
  unfold structSpec structBody
  refine skipAttrs_fits ?_
  split
  · rename_i s r
    refine expect_fits (Res.ok_fits (by simp)) fun r' hr' => ?_
    simp at hb
    fits_step h h
  · fits_step h h

theorem enumSpec_fits {f : Rec} {n : Nat} (h : f.fits n) (ts : List Tok)
    (hb : 4 * ts.length < n) : (enumSpec f ts).fits ts.length := by
  unfold enumSpec enumBody
  refine skipAttrs_fits ?_
  split
  · rename_i s r
    refine expect_fits (Res.ok_fits (by simp)) fun r' hr' => ?_
    simp at hb
    fits_step h h
  · fits_step h h

theorem alignSpec_fits (E : Env) {f : Rec} {n : Nat} (hE : E.fitsTo (n + 1)) (h : f.fits n) (ts : List Tok)
    (hb : 4 * ts.length < n) : (alignSpec E f ts).fits ts.length := by
  unfold alignSpec
  refine expect_fits (Res.error_fits _) fun r hr => ?_
  refine Res.must_fits (m := r.length) ?_ ?_
  · fits_step h hE
  · fits_step h hE

theorem atomicSpec_fits {f : Rec} {n : Nat} (h : f.fits n) (ts : List Tok)
    (hb : 4 * ts.length < n) : (atomicSpec f ts).fits (ts.length + 1) := by
  unfold atomicSpec
  fits_step h h

theorem keywordSpec_fits (E : Env) {f : Rec} {n : Nat} (hE : E.fitsTo (n + 1)) (h : f.fits n) (k : Keyword) (ts : List Tok)
    (hb : 4 * ts.length < n) : (keywordSpec E f k ts).fits (ts.length + 1) := by
  cases k <;> simp only [keywordSpec] <;>
    first
    | exact Res.ok_fits (by simp)
    | exact Res.noMatch_fits _
    | exact atomicSpec_fits h _ hb
    | exact Res.fits_mono (structSpec_fits h _ _ hb) (by simp)
    | exact Res.fits_mono (enumSpec_fits h _ hb) (by simp)
    | exact Res.fits_mono (alignSpec_fits E hE h _ hb) (by simp)

theorem pointer_fits {f : List Tok → Res (Dtor Syn)} {ts : List Tok}
    (h : ∀ us, us.length < ts.length → (f us).fits (us.length + 1)) : (pointer f ts).fits ts.length := by
  unfold pointer
  refine expect_fits (Res.noMatch_fits _) fun r hr => ?_
  have := quals_length r
  refine Res.andThen_fits (h _ (by omega)) fun d r' hr' => Res.ok_fits (by omega)

theorem direct_fits {f : Rec} {n : Nat} (h : f.fits n) (ts : List Tok) (hb : 4 * ts.length < n) :
    (direct f ts).fits ts.length := by
  unfold direct
  refine expect_fits ?_ fun r hr => ?_
  · split
    · exact Res.fits_mono (h _ _ (by simp [NT.bound, NT.rank] at *; omega)) (by simp [NT.slack])
    · exact Res.noMatch_fits _
  · fits_step h h

theorem arrayLength_fits (E : Env) {n : Nat} (hE : E.fitsTo n) (st : Bool) (q : List Qual) (ts : List Tok)
    (hb : 4 * ts.length + 4 < n) :
    (arrayLength E st q ts).fits ts.length := by
  unfold arrayLength arrayEnd
  fits_step hE hE

theorem array_fits (E : Env) {n : Nat} (hE : E.fitsTo n) (ts : List Tok) (hb : 4 * ts.length + 4 < n) :
    (array E ts).fits ts.length := by
  unfold array
  refine expect_fits (expect_fits ?_ fun r hr => ?_) fun r hr => expect_fits ?_ fun _ _ => Res.error_fits _
  · exact Res.fits_mono (arrayLength_fits E hE _ _ _ (by have := quals_length ts; omega)) (quals_length ts)
  · exact Res.fits_mono (arrayLength_fits E hE _ _ _ (by have := quals_length ts; omega)) (by have := quals_length ts; omega)
  · exact Res.fits_mono (arrayLength_fits E hE _ _ _ (by have := quals_length r; omega)) (by have := quals_length r; omega)

theorem identList_fits (E : Env) (ts : List Tok) : (identList E ts).fits (ts.length + 1) := by
  unfold identList
  split
  · exact Res.fits_mono (identTail_fits _ _) (by simp)
  · exact Res.ok_fits (by simp)

theorem parens_fits (E : Env) {f : Rec} {n : Nat} (h : f.fits n) (a : Bool) (ts : List Tok)
    (hb : 4 * ts.length + 2 < n) : (parens E f a ts).fits ts.length := by
  unfold parens
  refine caseOf_fits (h _ _ (by simp [NT.bound, NT.rank]; omega)) ?_ ?_
  · fits_step h h
  · split
    · fits_step h h
    · refine Res.must_fits (identList_fits E ts) fun _ _ hr => ?_
      fits_step h h

theorem abstractBase_fits {f : Rec} {n : Nat} (h : f.fits n) (ts : List Tok) (hb : 4 * ts.length < n) :
    (abstractBase f ts).fits (ts.length + 1) := by
  unfold abstractBase
  fits_step h h

theorem notEmpty_fits (p : Bool) (d : Dtor Syn) (ts : List Tok) : (notEmpty p d ts).fits (ts.length + 1) := by
  unfold notEmpty
  split
  · split
    · exact Res.ok_fits (by simp)
    · exact Res.noMatch_fits _
  · exact Res.ok_fits (by simp)

theorem directAbstract_fits {f : Rec} {n : Nat} (h : f.fits n) (p : Bool) (ts : List Tok) (hb : 4 * ts.length < n) :
    (directAbstract f p ts).fits (ts.length + 1) := by
  unfold directAbstract
  refine Res.andThen_fits (abstractBase_fits h ts hb) fun d r hr => ?_
  refine Res.andThen_fits (h _ _ (by simp [NT.bound, NT.rank]; omega)) fun d r' hr' => ?_
  simp [NT.slack] at hr'
  exact Res.fits_mono (notEmpty_fits _ _ _) (by omega)

theorem step_fits (E : Env) {f : Rec} {n : Nat} (hE : E.fitsTo (n + 1)) (h : f.fits n) : (step E f).fits (n + 1) := by
  intro nt ts hb
  cases nt with
  | spec has =>
    simp only [step, specifier]
    refine skipAttrs_fits ?_
    split
    · exact keywordSpec_fits E hE h _ _ (by simp [NT.bound, NT.rank] at hb; omega)
    · fits_step h hE
    · exact Res.noMatch_fits _
  | specs acc =>
    simp only [step, specList]
    refine caseOf_fits (h _ _ (by simp [NT.bound, NT.rank] at *; omega)) (fun s r hr => ?_) ?_
    · have := slack_snoc acc s
      simp [NT.slack] at hr
      exact Res.fits_mono (h _ _ (by simp [NT.bound, NT.rank] at *; omega)) (by omega)
    · cases acc with
      | nil => exact Res.noMatch_fits _
      | cons a b => exact Res.ok_fits (by simp [NT.slack])
  | declarator =>
    have hb' : 4 * ts.length < n := by simp [NT.bound, NT.rank] at hb; omega
    simp only [step, declarator]
    refine skipAttrs_fits ?_
    refine Res.andThen_fits (m := ts.length) ?_ ?_
    · split
      · exact pointer_fits fun us hu =>
          Res.fits_mono (h _ _ (by simp [NT.bound, NT.rank] at *; omega)) (by simp [NT.slack])
      · exact direct_fits h _ hb'
    · fits_step h hE
  | tail a d =>
    simp [NT.bound, NT.rank] at hb
    simp only [step, dtorTail]
    refine expect_fits (expect_fits (Res.ok_fits (by simp [NT.slack])) fun r hr => ?_) fun r hr => ?_
    · refine Res.andThen_fits (parens_fits E h _ _ (by omega)) fun _ r' hr' => ?_
      fits_step h hE
    · refine Res.andThen_fits (array_fits E hE _ (by omega)) fun _ r' hr' => ?_
      fits_step h hE
  | abstract =>
    have hb' : 4 * ts.length < n := by simp [NT.bound, NT.rank] at hb; omega
    simp only [step, abstractDeclarator]
    refine skipAttrs_fits ?_
    refine Res.andThen_fits (m := ts.length + 1) ?_ ?_
    · split
      · exact Res.fits_mono (pointer_fits fun us hu =>
          Res.fits_mono (h _ _ (by simp [NT.bound, NT.rank] at *; omega)) (by simp [NT.slack])) (by simp)
      · exact directAbstract_fits h _ _ hb'
    · fits_step h hE
  | ptrTail =>
    have hb' : 4 * ts.length < n := by simp [NT.bound, NT.rank] at hb; omega
    simp only [step, ptrTail]
    refine Res.orElse_fits ?_ ?_
    · exact Res.fits_mono (pointer_fits fun us hu =>
          Res.fits_mono (h _ _ (by simp [NT.bound, NT.rank] at *; omega)) (by simp [NT.slack])) (by simp)
    · exact directAbstract_fits h _ _ hb'
  | param =>
    simp only [step, param]
    refine Res.andThen_fits (h _ _ (by simp [NT.bound, NT.rank] at *; omega)) fun ss r hr => ?_
    simp [NT.slack, NT.bound, NT.rank] at hr hb
    refine Res.andThen_fits (m := ts.length) ?_ ?_
    · refine Res.orElse_fits ?_ (Res.orElse_fits ?_ ?_)
      · exact Res.fits_mono (h _ _ (by simp [NT.bound, NT.rank] at *; omega)) (by simp [NT.slack]; omega)
      · exact Res.fits_mono (h _ _ (by simp [NT.bound, NT.rank] at *; omega)) (by simp [NT.slack]; omega)
      · exact Res.ok_fits hr
    · fits_step h hE
  | params acc => simp only [step, params]; fits_step h hE
  | members acc => simp only [step, members]; fits_step h hE
  | member =>
    simp only [step, memberDecl, memberAssert, assertMessage]
    refine Res.orElse_fits ?_ ?_
    · fits_step h hE
    · fits_step h hE
  | mdtors acc =>
    simp only [step]
    have hn : ∀ acc' us, us.length < ts.length → (mdtorsNext f acc' us).fits ts.length := by
      intro acc' us hu; unfold mdtorsNext; fits_step h hE
    have hw : ∀ d us, us.length < ts.length ∨ us = ts ∧ headIs (tokIs .colon) ts = true →
        (mdtorWidth E f acc d us).fits ts.length := by
      intro d us hu
      unfold mdtorWidth
      rcases hu with hu | ⟨rfl, hu⟩
      · refine expect_fits (hn _ _ hu) fun r hr => ?_
        exact Res.must_fits (hE _ (by simp [NT.bound, NT.rank] at hb; omega)).2 fun _ _ _ => hn _ _ (by omega)
      · cases us with
        | nil => cases hu
        | cons t r =>
          have hu' : tokIs .colon t = true := hu
          simp only [expect, hu', if_true]
          exact Res.must_fits (hE _ (by simp [NT.bound, NT.rank] at hb; omega)).2 fun _ _ _ => hn _ _ (by simp; omega)
    unfold mdtors
    refine caseOf_fits (h _ _ (by simp [NT.bound, NT.rank] at *; omega)) (fun d r hr => ?_) ?_
    · exact hw _ _ (.inl (by simpa [NT.slack] using hr))
    · split
      · exact hw _ _ (.inr ⟨rfl, ‹_›⟩)
      · exact Res.error_fits _
  | enums acc =>
    simp only [step, enums, enumsNext]
    split
    · fits_step h hE
    · exact Res.error_fits _
  | typeName =>
    simp only [step, typeName]
    refine Res.andThen_fits (h _ _ (by simp [NT.bound, NT.rank] at *; omega)) fun ss r hr => ?_
    simp [NT.slack, NT.bound, NT.rank] at hr hb
    refine Res.andThen_fits (m := ts.length) ?_ ?_
    · refine Res.orElse_fits ?_ ?_
      · exact Res.fits_mono (h _ _ (by simp [NT.bound, NT.rank] at *; omega)) (by simp [NT.slack]; omega)
      · exact Res.ok_fits hr
    · fits_step h hE

theorem parse_fitsTo (E : Env) (n : Nat) (hE : E.fitsTo n) : (parse E n).fits n := by
  induction n with
  | zero => intro nt ts h; exact absurd h (Nat.not_lt_zero _)
  | succ n ih => exact step_fits E hE (ih fun ts h => hE ts (by omega))

theorem parse_fits (E : Env) (hE : E.fits) (n : Nat) : (parse E n).fits n := parse_fitsTo E n (hE.to n)

/-- The rules with as much depth as they need. -/
def run (E : Env) : Rec := fun nt ts => parse E (nt.bound ts + 1) nt ts

theorem run_fits (E : Env) (hE : E.fits) (nt : NT) (ts : List Tok) :
    (run E nt ts).fits (ts.length + nt.slack) := parse_fits E hE _ nt ts (Nat.lt_succ_self _)

theorem parse_le_run (E : Env) (hE : E.fits) (n : Nat) : (parse E n).le (run E) := by
  intro nt ts
  rcases Nat.le_total n (nt.bound ts + 1) with h | h
  · exact parse_le E h nt ts
  · rcases parse_le E h nt ts with h1 | h1
    · exact absurd h1 (run_fits E hE nt ts).1
    · exact .inr h1.symm

/-- The rules call each other. -/
theorem run_eq (E : Env) (hE : E.fits) (nt : NT) (ts : List Tok) : run E nt ts = step E (run E) nt ts := by
  rcases step_le E (parse_le_run E hE (nt.bound ts)) nt ts with h | h
  · exact absurd h (run_fits E hE nt ts).1
  · exact h

theorem run_of_parse (E : Env) (hE : E.fits) {n : Nat} {nt : NT} {ts : List Tok}
    (h : parse E n nt ts ≠ .fuel) : run E nt ts = parse E n nt ts := by
  rcases parse_le_run E hE n nt ts with h1 | h1
  · exact absurd h1 h
  · exact h1.symm

theorem parse_eq_run (E : Env) (hE : E.fits) {n : Nat} {nt : NT} {ts : List Tok}
    (h : nt.bound ts < n) : parse E n nt ts = run E nt ts :=
  (run_of_parse E hE (parse_fits E hE n nt ts h).1).symm

/-! ### Fewer expressions -/

/-- The same typedef names and more results for expressions. -/
def Env.le (E E' : Env) : Prop :=
  E.isTypedef = E'.isTypedef ∧ ∀ ts, (E.assign ts).le (E'.assign ts) ∧ (E.cond ts).le (E'.cond ts)

/-- Take the rules apart. -/
macro "env_step" h:ident hE:ident : tactic => `(tactic|
  repeat' first
    | exact Res.le_refl _
    | exact $h _ _
    | exact (($hE).2 _).1
    | exact (($hE).2 _).2
    | apply Res.andThen_le
    | apply Res.must_le
    | apply Res.orElse_le
    | apply caseOf_le
    | apply skipAttrs_le
    | apply expect_le
    | intro _
    | split)

theorem step_le_env {E E' : Env} (hE : E.le E') {f g : Rec} (h : f.le g) : (step E f).le (step E' g) := by
  have h1 := step_le E h
  have hx := hE.1
  intro nt ts
  cases nt with
  | spec has =>
    simp only [step, specifier, hx]
    apply skipAttrs_le
    split
    · rename_i k r
      cases k <;> simp only [keywordSpec] <;>
        first
        | exact Res.le_refl _
        | exact structSpec_le h _ _
        | exact enumSpec_le h _
        | (simp only [alignSpec]; env_step h hE)
        | (simp only [atomicSpec]; env_step h hE)
    · exact Res.le_refl _
    · exact Res.le_refl _
  | tail a d =>
    simp only [step, dtorTail]
    apply expect_le
    · apply expect_le (Res.le_refl _)
      intro r
      refine Res.andThen_le ?_ fun _ _ => h _ _
      unfold parens identList
      simp only [hx]
      env_step h hE
    · intro r
      refine Res.andThen_le ?_ fun _ _ => h _ _
      unfold array arrayLength
      env_step h hE
  | member => simp only [step, memberDecl, memberAssert]; env_step h hE
  | mdtors acc => simp only [step, mdtors, mdtorWidth, mdtorsNext]; env_step h hE
  | enums acc => simp only [step, enums, enumsNext, hx]; env_step h hE
  | _ => exact h1 _ ts

theorem parse_le_env {E E' : Env} (hE : E.le E') (n : Nat) : (parse E n).le (parse E' n) := by
  induction n with
  | zero => intro nt ts; exact .inl rfl
  | succ n ih => exact step_le_env hE ih

theorem run_le_env {E E' : Env} (hE : E.le E') : (run E).le (run E') := fun nt ts => parse_le_env hE _ nt ts

theorem NT.rank_le (nt : NT) : nt.rank ≤ 3 := by cases nt <;> simp [NT.rank]

theorem run_fitsTo (E : Env) (nt : NT) (ts : List Tok)
    (hE : ∀ us, us.length < ts.length → (E.assign us).fits us.length ∧ (E.cond us).fits us.length) :
    (run E nt ts).fits (ts.length + nt.slack) :=
  parse_fitsTo E _ (fun us hu => hE us (by have := nt.rank_le; simp [NT.bound] at hu; omega)) nt ts
    (Nat.lt_succ_self _)
end Kefir.DeclParser
