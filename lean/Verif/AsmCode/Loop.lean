import Verif.AsmCode.All

/-! # Assembly text of code: the whole body -/

namespace Kefir.AsmCode
open Kefir.StaticData Kefir.AsmData

variable {P : Program} {f : Func}

def afterAll (P : Program) (f : Func) (is : List Ins) (st : St) : St := is.foldl (fun s i => after P f i s) st

theorem afterAll_append (a b : List Ins) (st : St) : afterAll P f (a ++ b) st = afterAll P f b (afterAll P f a st) := by
  unfold afterAll
  rw [List.foldl_append]

def Stuck (P : Program) (f : Func) (st : St) (k : Nat) (e : Err) : Prop :=
  entryAt P f k = none ∨
  (e = .alreadyExists ∧ ∃ i n, f.body[k]? = some i ∧ i.opcode = 0x72 ∧ nodeOf P i = some n ∧ n.fetch = some .vaList ∧
    vaLabel f.name (.typed i.lo i.hi) ∈ (afterAll P f (f.body.take k) st).appendix.map Prod.fst)

theorem drop_get {α : Type} {l : List α} {k : Nat} {x : α} (h : l[k]? = some x) : l.drop k = x :: l.drop (k + 1) := by
  obtain ⟨hk, rfl⟩ := List.getElem?_eq_some_iff.mp h
  exact List.drop_eq_getElem_cons hk

theorem take_get {α : Type} {l : List α} {k : Nat} {x : α} (h : l[k]? = some x) : l.take (k + 1) = l.take k ++ [x] := by
  obtain ⟨hk, rfl⟩ := List.getElem?_eq_some_iff.mp h
  rw [List.take_succ_eq_append_getElem hk]

theorem loop_good (hN : Names P) (hU : Usual f) (hF : FetchesValues P f) (st0 : St) :
    (turns pc : Nat) → (st : St) → f.body.length ≤ pc + turns → pc ≤ f.body.length →
    st = afterAll P f (f.body.take pc) st0 →
    match bodyLoop P f turns pc st with
    | .ok (cs, st') =>
      st' = afterAll P f f.body st0 ∧
      ∃ es : List Entry, es.length = f.body.length - pc ∧ (∀ k, k < es.length → entryAt P f (pc + k) = es[k]?) ∧
        Emits cs (es.flatMap Entry.cells)
    | .error e => ∃ k, k < f.body.length ∧ Stuck P f st0 k e
  | 0, pc, st, hl, hp, hs => by
    have e : pc = f.body.length := by omega
    refine ⟨?_, [], by simp [e], by simp, Emits.nil⟩
    rw [hs, e, List.take_length]
  | turns + 1, pc, st, hl, hp, hs => by
    unfold bodyLoop
    by_cases hlt : pc < f.body.length
    · rw [if_pos hlt]
      have hi : f.body[pc]? = some f.body[pc] := List.getElem?_eq_getElem hlt
      have g := @instruction_good P f pc f.body[pc] st hN hU hF hi
      have hs1 : after P f f.body[pc] st = afterAll P f (f.body.take (pc + 1)) st0 := by
        rw [take_get hi, afterAll_append, ← hs]; rfl
      cases hx : instruction P f st pc with
      | error e =>
        rw [hx] at g
        refine ⟨pc, hlt, ?_⟩
        rcases g with g | ⟨h1, h2, n, h3, h4, h5⟩
        · exact .inl g
        · exact .inr ⟨h1, _, n, hi, h2, h3, h4, by rw [← hs]; exact h5⟩
      | ok r =>
        obtain ⟨cs, w, st'⟩ := r
        rw [hx] at g
        obtain ⟨ga, ⟨rfl, e, h1, h2⟩ | ⟨rfl, e, e', j, hj, hjo, h1, h2, h3⟩⟩ := g
        · have ih := loop_good hN hU hF st0 turns (pc + 1) st' (by omega) (by omega) (ga.trans hs1)
          simp only
          cases hb : bodyLoop P f turns (pc + 1) st' with
          | error e' => rw [hb] at ih; exact ih
          | ok r =>
            obtain ⟨rest, st''⟩ := r
            rw [hb] at ih
            obtain ⟨ha, es, hlen, hes, hem⟩ := ih
            refine ⟨ha, e :: es, by simp only [List.length_cons]; omega, ?_, ?_⟩
            · intro k hk
              cases k with
              | zero => exact h1
              | succ k =>
                rw [List.getElem?_cons_succ, show pc + (k + 1) = pc + 1 + k by omega]
                exact hes k (by simpa using hk)
            · rw [List.flatMap_cons]
              exact h2.append hem
        · have hj2 : pc + 1 < f.body.length := (List.getElem?_eq_some_iff.mp hj).1
          have hs2 : st' = afterAll P f (f.body.take (pc + 2)) st0 := by
            rw [take_get hj, afterAll_append, ← hs1, ← ga]
            show st' = after P f j st'
            rw [quiet (by rw [hjo]; decide)]
          have ih := loop_good hN hU hF st0 turns (pc + 2) st' (by omega) (by omega) hs2
          simp only
          cases hb : bodyLoop P f turns (pc + 2) st' with
          | error e' => rw [hb] at ih; exact ih
          | ok r =>
            obtain ⟨rest, st''⟩ := r
            rw [hb] at ih
            obtain ⟨ha, es, hlen, hes, hem⟩ := ih
            refine ⟨ha, e :: e' :: es, by simp only [List.length_cons]; omega, ?_, ?_⟩
            · intro k hk
              match k with
              | 0 => exact h1
              | 1 => exact h2
              | k + 2 =>
                rw [List.getElem?_cons_succ, List.getElem?_cons_succ, show pc + (k + 2) = pc + 2 + k by omega]
                exact hes k (by simpa using hk)
            · rw [List.flatMap_cons, List.flatMap_cons, ← List.append_assoc]
              exact h3.append hem
    · rw [if_neg hlt]
      have e : pc = f.body.length := by omega
      refine ⟨?_, [], by simp [e], by simp, Emits.nil⟩
      rw [hs, e, List.take_length]

/-! ### The size of entries -/

theorem address_length (t : Target) (o : Int) : (addressBytes t o).length = 8 := by
  unfold addressBytes
  simp

theorem le_length (v : Nat) : (le 8 v).length = 8 := by unfold le; simp

theorem fetch_size {i : Ins} {n : Node} {e : Entry} (h : fetchEntry f i n = some e) : e.operand.length = 8 := by
  unfold fetchEntry at h
  cases hf : n.fetch with
  | none => rw [hf] at h; cases h
  | some x =>
    rw [hf] at h
    cases x <;> cases h <;> exact le_length 0

theorem entry_size {i : Ins} {next : Option Ins} {e : Entry} (h : entry P f i next = some e) : e.cells.length = 16 := by
  have key : e.operand.length = 8 := by
    have hm : ∀ {α : Type} {o : Option α} {g : α → Entry}, o.map g = some e → (∀ a, (g a).operand.length = 8) →
        e.operand.length = 8 := by
      intro α o g h1 h2
      cases o with
      | none => cases h1
      | some a => cases h1; exact h2 a
    unfold entry at h
    split at h
    all_goals try (exact hm h fun _ => le_length _)
    all_goals try (exact hm h fun _ => address_length _ _)
    all_goals try (cases h; exact le_length _)
    · split at h
      · exact hm h fun _ => address_length _ _
      · cases h
    · split at h
      · exact hm h fun _ => address_length _ _
      · cases h
    · split at h
      · split at h
        · cases h; exact le_length _
        · cases h
      · cases h
    · split at h
      · cases h; exact address_length _ _
      · cases h
    · split at h
      · cases h; exact address_length _ _
      · cases h
    · cases hn : nodeOf P i with
      | none => rw [hn] at h; cases h
      | some n => rw [hn] at h; exact fetch_size h
  unfold Entry.cells
  rw [List.length_append, address_length, key]

/-- Pieces of equal length. -/
theorem piece {es : List Entry} (h : ∀ e ∈ es, e.cells.length = 16) {k : Nat} {e : Entry} (hk : es[k]? = some e) :
    ((es.flatMap Entry.cells).drop (16 * k)).take 16 = e.cells := by
  induction es generalizing k with
  | nil => simp at hk
  | cons x es ih =>
    have hx := h x List.mem_cons_self
    rw [List.flatMap_cons]
    cases k with
    | zero =>
      simp only [List.getElem?_cons_zero, Option.some.injEq] at hk
      subst hk
      rw [Nat.mul_zero, List.drop_zero, List.take_append_of_le_length (by omega), List.take_of_length_le (by omega)]
    | succ k =>
      rw [List.getElem?_cons_succ] at hk
      rw [show 16 * (k + 1) = x.cells.length + 16 * k by omega, List.drop_length_add_append]
      exact ih (fun e he => h e (List.mem_cons_of_mem _ he)) hk

theorem pieces_length {es : List Entry} (h : ∀ e ∈ es, e.cells.length = 16) :
    (es.flatMap Entry.cells).length = 16 * es.length := by
  induction es with
  | nil => rfl
  | cons x es ih =>
    have hx := h x List.mem_cons_self
    rw [List.flatMap_cons, List.length_append, ih (fun e he => h e (List.mem_cons_of_mem _ he)), List.length_cons]
    omega

end Kefir.AsmCode
