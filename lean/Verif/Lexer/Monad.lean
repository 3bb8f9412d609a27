import Verif.Lexer.Cursor
/-!
# Matcher programs

A matcher reads and moves the cursor and returns a `kefir_result_t` with its out-parameters.  The
cursor after a failed call is visible to the caller, so the cursor is threaded through errors.
`none` means that the call does not return.
-/

namespace Kefir.Lexer

/-- A matcher: from a cursor to a result and a cursor, or divergence. -/
abbrev Lex (α : Type) := ExceptT Err (StateT Cursor Option) α

/-- `kefir_lexer_source_cursor_at`. -/
def peek (k : Nat) : Lex Chr := fun c => some (.ok (c.at k), c)

/-- `REQUIRE_OK(kefir_lexer_source_cursor_next(cursor, k))`. -/
def skip (k : Nat) : Lex Unit := fun c => some (nextRes c.stop c.text.length k, c.adv k)

/-- `kefir_lexer_source_cursor_next(cursor, k)` with the result discarded. -/
def skip_ (k : Nat) : Lex Unit := fun c => some (.ok (), c.adv k)

/-- Returning an error code. -/
def fail {α : Type} (e : Err) : Lex α := fun c => some (.error e, c)

/-- Calling a matcher and keeping its result code. -/
def attempt {α : Type} (x : Lex α) : Lex (Res α) := fun c =>
  match x c with
  | none => none
  | some (r, c') => some (.ok r, c')

open Lean.Order in
@[partial_fixpoint_monotone]
theorem monotone_attempt {α γ : Type} [PartialOrder γ] (f : γ → Lex α) (hf : monotone f) :
    monotone (fun x => attempt (f x)) := by
  intro x y hxy
  have h := hf x y hxy
  intro c
  have hc := h c
  have hc' : FlatOrder.rel (f x c) (f y c) := hc
  have key : ∀ a b : Option (Except Err α × Cursor), FlatOrder.rel (b := none) a b →
      FlatOrder.rel (b := none)
        (match a with | none => none | some (r, c') => some ((.ok r : Except Err (Res α)), c'))
        (match b with | none => none | some (r, c') => some ((.ok r : Except Err (Res α)), c')) := by
    intro a b hab
    cases hab with
    | bot => exact FlatOrder.rel.bot
    | refl => exact FlatOrder.rel.refl
  exact key _ _ hc'

/-- `cursor->location`. -/
def location : Lex (Nat × Nat) := fun c => some (.ok (c.line, c.col), c)

/-- The idiom `res = x(…); if (res == KEFIR_NO_MATCH) res = y(…);` -/
def orElse {α : Type} (x y : Lex α) : Lex α := fun c =>
  match x c with
  | some (.error .noMatch, c') => y c'
  | r => r

/-- source/lexer/lexer.c:70-84 `kefir_lexer_apply`: the cursor is restored on NO_MATCH. -/
def apply {α : Type} (x : Lex α) : Lex α := fun c =>
  match x c with
  | some (.error .noMatch, _) => some (.error .noMatch, c)
  | r => r

theorem bind_apply {α β : Type} (x : Lex α) (f : α → Lex β) (c : Cursor) :
    (x >>= f) c = match x c with
      | none => none
      | some (.ok a, c') => f a c'
      | some (.error e, c') => some (.error e, c') := by
  show ExceptT.bind x f c = _
  unfold ExceptT.bind ExceptT.mk
  show StateT.bind x _ c = _
  unfold StateT.bind
  cases h : x c with
  | none => rfl
  | some r =>
    obtain ⟨r, c'⟩ := r
    cases r <;> rfl

theorem pure_apply {α : Type} (a : α) (c : Cursor) : (pure a : Lex α) c = some (.ok a, c) := rfl

@[simp] theorem bind_some {α β : Type} {x : Lex α} {f : α → Lex β} {c c' : Cursor} {a : α}
    (h : x c = some (.ok a, c')) : (x >>= f) c = f a c' := by
  rw [bind_apply, h]

theorem bind_err {α β : Type} {x : Lex α} {f : α → Lex β} {c c' : Cursor} {e : Err}
    (h : x c = some (.error e, c')) : (x >>= f) c = some (.error e, c') := by
  rw [bind_apply, h]

theorem peek_bind {β : Type} (k : Nat) (f : Chr → Lex β) (c : Cursor) :
    (peek k >>= f) c = f (c.at k) c := bind_some rfl

theorem location_bind {β : Type} (f : Nat × Nat → Lex β) (c : Cursor) :
    (location >>= f) c = f (c.line, c.col) c := bind_some rfl

theorem skip__bind {β : Type} (k : Nat) (f : Unit → Lex β) (c : Cursor) :
    (skip_ k >>= f) c = f () (c.adv k) := bind_some rfl

theorem fail_bind {α β : Type} (e : Err) (f : α → Lex β) (c : Cursor) :
    (fail e >>= f) c = some (.error e, c) := bind_err rfl

theorem skip_ok {k : Nat} {c : Cursor} (h : k ≤ c.text.length) :
    skip k c = some (.ok (), c.adv k) := by
  unfold skip nextRes
  rw [if_neg]
  omega

theorem skip_bind {β : Type} {k : Nat} {f : Unit → Lex β} {c : Cursor}
    (h : k ≤ c.text.length) : (skip k >>= f) c = f () (c.adv k) := bind_some (skip_ok h)

theorem attempt_apply {α : Type} {x : Lex α} {c c' : Cursor} {r : Res α}
    (h : x c = some (r, c')) : attempt x c = some (.ok r, c') := by
  simp [attempt, h]

theorem attempt_bind {α β : Type} {x : Lex α} {f : Res α → Lex β} {c c' : Cursor} {r : Res α}
    (h : x c = some (r, c')) : (attempt x >>= f) c = f r c' := bind_some (attempt_apply h)

theorem at_pos {c : Cursor} {k : Nat} (h : c.at k ≠ 0) : k < c.text.length := by
  unfold Cursor.at at h
  rw [List.getD_eq_getElem?_getD] at h
  rcases Nat.lt_or_ge k c.text.length with hk | hk
  · exact hk
  · rw [List.getElem?_eq_none hk] at h
    exact absurd rfl h

/-- `for (; p(chr); next(1), chr = at(0)) acc = step(acc, chr);` — the form of every digit loop of
the lexer.  The result of `next` is discarded in the C code. -/
def scanWhile {α : Type} (p : Chr → Bool) (step : α → Chr → α) (acc : α) : Lex α := do
  let chr ← peek 0
  if p chr then do
    skip_ 1
    scanWhile p step (step acc chr)
  else pure acc
partial_fixpoint

theorem scanWhile_eq {α : Type} (p : Chr → Bool) (h0 : p 0 = false) (step : α → Chr → α) (acc : α)
    (c : Cursor) :
    scanWhile p step acc c = some (.ok ((c.text.takeWhile p).foldl step acc),
      c.adv (c.text.takeWhile p).length) := by
  generalize hn : c.text = t
  induction t generalizing acc c with
  | nil =>
    rw [scanWhile, peek_bind]
    simp [Cursor.at, hn, h0, pure_apply, Cursor.adv_zero]
  | cons a t ih =>
    rw [scanWhile, peek_bind]
    have ha : c.at 0 = a := by simp [Cursor.at, hn]
    rw [ha]
    by_cases hp : p a
    · rw [if_pos hp, skip__bind, ih _ _ (by rw [Cursor.text_adv, hn]; rfl), Cursor.adv_adv]
      rw [List.takeWhile_cons_of_pos hp]
      simp [Nat.add_comm]
    · rw [if_neg hp]
      rw [List.takeWhile_cons_of_neg hp]
      simp [pure_apply, Cursor.adv_zero]

end Kefir.Lexer
