import Verif.Carry.Model
import Verif.Vla.Lemmas

/-! Lemmas about moving the stack of operands. -/

namespace Kefir.Carry
open Kefir.Vla (place place_le)

theorem up_at (n : Nat) (m : Mem) (rdi rsi : Nat) (h : rdi ≤ rsi) (x : Nat) :
    (movsUp m rdi rsi n).1 x = if rdi ≤ x ∧ x < rdi + n then m (x - rdi + rsi) else m x := by
  induction n generalizing m rdi rsi with
  | zero => rw [movsUp, if_neg (by omega)]
  | succ n ih =>
    rw [movsUp, ih _ _ _ (by omega)]
    by_cases h1 : rdi + 1 ≤ x ∧ x < rdi + 1 + n
    · rw [if_pos h1, if_pos (by omega), setByte, if_neg (by omega)]
      congr 1
      omega
    · rw [if_neg h1, setByte]
      by_cases h2 : x = rdi
      · rw [if_pos h2, if_pos (by omega)]
        congr 1
        omega
      · rw [if_neg h2, if_neg (by omega)]

theorem down_at (n : Nat) (m : Mem) (rdi rsi : Nat) (h : rsi ≤ rdi) (hn : n ≤ rsi) (x : Nat) :
    (movsDown m rdi rsi n).1 x = if rdi < x + n ∧ x ≤ rdi then m (x - (rdi - rsi)) else m x := by
  induction n generalizing m rdi rsi with
  | zero => rw [movsDown, if_neg (by omega)]
  | succ n ih =>
    rw [movsDown, ih _ _ _ (by omega) (by omega)]
    by_cases h1 : rdi - 1 < x + n ∧ x ≤ rdi - 1
    · rw [if_pos h1, if_pos (by omega), setByte, if_neg (by omega)]
      congr 1
      omega
    · rw [if_neg h1, setByte]
      by_cases h2 : x = rdi
      · rw [if_pos h2, if_pos (by omega)]
        congr 1
        omega
      · rw [if_neg h2, if_neg (by omega)]

theorem down_rdi (n : Nat) (m : Mem) (rdi rsi : Nat) : (movsDown m rdi rsi n).2.1 = rdi - n := by
  induction n generalizing m rdi rsi with
  | zero => rfl
  | succ n ih =>
    rw [movsDown, ih]
    omega

theorem word_congr (m m' : Mem) (a b : Nat) (h : ∀ i, i < 8 → m' (b + i) = m (a + i)) : word m' b = word m a := by
  have h0 := h 0 (by omega)
  rw [Nat.add_zero, Nat.add_zero] at h0
  simp only [word, h0, h 1 (by omega), h 2 (by omega), h 3 (by omega), h 4 (by omega), h 5 (by omega), h 6 (by omega),
    h 7 (by omega)]

theorem word_set (m : Mem) (a w : Nat) (hw : w < 2 ^ 64) : word (setWord m a w) a = w := by
  have h : ∀ i, i < 8 → setWord m a w (a + i) = w / 256 ^ i % 256 := by
    intro i hi
    rw [setWord, if_pos (by omega)]
    have : a + i - a = i := by omega
    rw [this]
  have h0 := h 0 (by omega)
  rw [Nat.add_zero] at h0
  simp only [word, h0, h 1 (by omega), h 2 (by omega), h 3 (by omega), h 4 (by omega), h 5 (by omega), h 6 (by omega),
    h 7 (by omega)]
  simp only [Nat.reducePow, Nat.div_one] at hw ⊢
  omega

theorem holds_le (m : Mem) (ws : List Nat) (a b : Nat) (h : Holds m a b ws) : a ≤ b := by
  induction ws generalizing a with
  | nil => exact Nat.le_of_eq h
  | cons w ws ih => exact Nat.le_trans (Nat.le_add_right a 8) (ih _ h.2)

theorem holds_move (m m' : Mem) (ws : List Nat) (a b a' b' : Nat) (h : Holds m a b ws) (hb : b' = a' + (b - a))
    (hm : ∀ i, a + i < b → m' (a' + i) = m (a + i)) : Holds m' a' b' ws := by
  induction ws generalizing a a' with
  | nil =>
    have h : a = b := h
    subst h
    show a' = b'
    omega
  | cons w ws ih =>
    have hle := holds_le m ws _ _ h.2
    refine ⟨?_, ih (a + 8) (a' + 8) h.2 (by omega) ?_⟩
    · rw [← h.1]
      exact word_congr _ _ _ _ (fun i hi => hm i (by omega))
    · intro i hi
      have := hm (8 + i) (by omega)
      rwa [← Nat.add_assoc, ← Nat.add_assoc] at this

/-- The machine has the values on its stack, and the cells are those of the storage. -/
structure Rel (s : Machine) (st : Vla.State) (ws : List Nat) : Prop where
  holds : Holds s.mem s.rsp s.base ws
  base : s.base = st.base
  scope : s.scope = st.scope
  baseLt : s.base < 2 ^ 64
  scopeLt : s.scope < 2 ^ 64
  wordsLt : ∀ w ∈ ws, w < 2 ^ 64
  pos : 0 < s.rsp

theorem push_ok (s : Machine) (ws : List Nat) (w : Nat) (h : Holds s.mem s.rsp s.base ws) (hw : w < 2 ^ 64) (s' : Machine)
    (hs : push s w = some s') :
    Holds s'.mem s'.rsp s.base (w :: ws) ∧ s'.base = s.base ∧ s'.scope = s.scope ∧ 0 < s'.rsp ∧
      ∀ x, s.base ≤ x → s'.mem x = s.mem x := by
  have hle := holds_le _ _ _ _ h
  unfold push at hs
  split at hs
  · rename_i h8
    cases hs
    refine ⟨⟨word_set _ _ _ hw, ?_⟩, rfl, rfl, ?_, ?_⟩
    · have e : s.rsp - 8 + 8 = s.rsp := by omega
      dsimp only
      rw [e]
      refine holds_move s.mem _ ws s.rsp s.base s.rsp s.base h (by omega) ?_
      intro i hi
      rw [setWord, if_neg (by omega)]
    · show 0 < s.rsp - 8
      omega
    · intro x hx
      show setWord s.mem (s.rsp - 8) w x = s.mem x
      rw [setWord, if_neg (by omega)]
  · cases hs

theorem exec_ok (s s' : Machine) (st st' : Vla.State) (ws ws' : List Nat) (op : Op) (hr : Rel s st ws)
    (he : effect st ws op = some (st', ws')) (hx : exec s op = some s') :
    Rel s' st' ws' ∧ ∀ x, s.base ≤ x → s'.base ≤ x → s'.mem x = s.mem x := by
  cases op with
  | push w =>
    simp only [effect] at he
    split at he
    · rename_i hw
      simp only [Option.some.injEq, Prod.mk.injEq] at he
      obtain ⟨rfl, rfl⟩ := he
      obtain ⟨h1, h2, h3, h4, h5⟩ := push_ok s ws w hr.holds hw s' hx
      refine ⟨⟨by rw [h2]; exact h1, by rw [h2, hr.base], by rw [h3, hr.scope], by rw [h2]; exact hr.baseLt,
        by rw [h3]; exact hr.scopeLt, ?_, h4⟩, fun x hx _ => h5 x hx⟩
      intro v hv
      rcases List.mem_cons.mp hv with rfl | hv
      · exact hw
      · exact hr.wordsLt v hv
    · cases he
  | pop =>
    cases ws with
    | nil => cases he
    | cons w ws =>
      cases he
      cases hx
      exact ⟨⟨hr.holds.2, hr.base, hr.scope, hr.baseLt, hr.scopeLt, fun v hv => hr.wordsLt v (List.mem_cons_of_mem _ hv),
        Nat.lt_add_right 8 hr.pos⟩, fun x _ _ => rfl⟩
  | pushscope =>
    cases he
    simp only [exec, pushscope, Option.map_eq_some_iff] at hx
    obtain ⟨s1, h0, rfl⟩ := hx
    obtain ⟨h1, h2, h3, h4, h5⟩ := push_ok s ws s.scope hr.holds hr.scopeLt s1 h0
    have hb : s1.base < 2 ^ 64 := by rw [h2]; exact hr.baseLt
    refine ⟨⟨?_, by show s1.base = _; rw [h2, hr.base], by show s1.base = st.base; rw [h2, hr.base], hb, hb, ?_, h4⟩, fun x hx _ => h5 x hx⟩
    · show Holds s1.mem s1.rsp s1.base (st.scope :: ws)
      rw [h2, ← hr.scope]
      exact h1
    · intro v hv
      rcases List.mem_cons.mp hv with rfl | hv
      · rw [← hr.scope]; exact hr.scopeLt
      · exact hr.wordsLt v hv
  | popscope =>
    cases ws with
    | nil => cases he
    | cons w ws =>
      simp only [effect] at he
      split at he
      · rename_i hc
        simp only [Option.some.injEq, Prod.mk.injEq] at he
        obtain ⟨rfl, rfl⟩ := he
        cases hx
        have hle := holds_le _ _ _ _ hr.holds.2
        have hp := hr.pos
        have hws : ∀ v ∈ ws, v < 2 ^ 64 := fun v hv => hr.wordsLt v (List.mem_cons_of_mem _ hv)
        by_cases h0 : s.scope = 0
        · have h0' : st.scope = 0 := by rw [← hr.scope]; exact h0
          have e1 : popscope s = { s with rsp := s.rsp + 8 } := by
            unfold popscope
            rw [if_pos h0]
          have e2 : Vla.popscope w st = st := by
            unfold Vla.popscope
            rw [if_pos h0']
          rw [e1, e2]
          exact ⟨⟨hr.holds.2, hr.base, hr.scope, hr.baseLt, hr.scopeLt, hws, Nat.lt_add_right 8 hp⟩, fun x _ _ => rfl⟩
        · have h0' : ¬ st.scope = 0 := by rw [← hr.scope]; exact h0
          have hbs : s.base ≤ s.scope := by
            rw [hr.base, hr.scope]
            exact hc.resolve_left h0'
          have e1 : popscope s = { mem := (movsDown s.mem (s.scope - 1) (s.base - 1) (s.base - (s.rsp + 8))).1, rsp := s.scope - 1 - (s.base - (s.rsp + 8)) + 1, base := s.scope, scope := word s.mem s.rsp } := by
            unfold popscope
            rw [if_neg h0]
            dsimp only
            rw [down_rdi]
          have e2 : Vla.popscope w st = { st with base := st.scope, scope := w } := by
            unfold Vla.popscope
            rw [if_neg h0']
          rw [e1, e2]
          have hat := fun x => down_at (s.base - (s.rsp + 8)) s.mem (s.scope - 1) (s.base - 1) (by omega) (by omega) x
          have hw := hr.wordsLt w List.mem_cons_self
          refine ⟨⟨?_, hr.scope, hr.holds.1, hr.scopeLt, ?_, hws, Nat.succ_pos _⟩, ?_⟩
          · dsimp only
            refine holds_move s.mem _ ws (s.rsp + 8) s.base _ s.scope hr.holds.2 (by omega) ?_
            intro i hi
            rw [hat, if_pos (by omega)]
            congr 1
            omega
          · dsimp only
            rw [hr.holds.1]
            exact hw
          · intro x h1 h2
            dsimp only at h2 ⊢
            rw [hat, if_neg (by omega)]
      · cases he
  | alloca reset =>
    match ws, he, hr with
    | [], he, _ => cases he
    | [_], he, _ => cases he
    | al :: sz :: ws, he, hr =>
      simp only [effect, Option.map_eq_some_iff, Prod.mk.injEq] at he
      obtain ⟨⟨st1, p⟩, h1, rfl, rfl⟩ := he
      have hal := hr.holds.1
      have hsz := hr.holds.2.1
      have hh := hr.holds.2.2
      have hle := holds_le _ _ _ _ hh
      have hlb := hr.baseLt
      obtain ⟨q1, q2, q3, q4⟩ := Vla.alloca_eq _ _ _ _ _ h1
      have hbase : (if reset = true then { st with scope := 0 } else st).base = st.base := by split <;> rfl
      rw [hbase] at q2
      have hp : p = place s.base sz al := by
        rw [hr.base]
        unfold Vla.alloca at h1
        rw [hbase] at h1
        split at h1
        · simp only [Option.some.injEq, Prod.mk.injEq] at h1
          exact h1.2.symm
        · cases h1
      have hpl : p ≤ s.base := by rw [hr.base]; omega
      generalize hs0 : (if reset = true then { s with scope := 0 } else s : Machine) = s0 at *
      have m0 : s0.mem = s.mem := by rw [← hs0]; split <;> rfl
      have r0 : s0.rsp = s.rsp := by rw [← hs0]; split <;> rfl
      have b0 : s0.base = s.base := by rw [← hs0]; split <;> rfl
      have c0 : s0.scope = (if reset = true then { st with scope := 0 } else st).scope := by
        rw [← hs0]
        split
        · rfl
        · exact hr.scope
      have cl : s0.scope < 2 ^ 64 := by
        rw [← hs0]
        split
        · exact Nat.pow_pos (by decide)
        · exact hr.scopeLt
      simp only [exec, alloca, hs0] at hx
      rw [m0, r0, b0, hal, hsz, ← hp] at hx
      split at hx
      · rename_i hroom
        have e16 : s.rsp + 8 + 8 = s.rsp + 16 := by omega
        rw [e16] at hh hle
        have hat := fun x => up_at (s.base - (s.rsp + 16)) s.mem (p - (s.base - (s.rsp + 16))) (s.rsp + 16) (by omega) x
        have hmoved : Holds (movsUp s.mem (p - (s.base - (s.rsp + 16))) (s.rsp + 16) (s.base - (s.rsp + 16))).1
            (p - (s.base - (s.rsp + 16))) p ws := by
          refine holds_move s.mem _ ws (s.rsp + 16) s.base _ p hh (by omega) ?_
          intro i hi
          rw [hat, if_pos (by omega)]
          congr 1
          omega
        obtain ⟨h1, h2, h3, h4, h5⟩ := push_ok _ ws p hmoved (by omega) s' hx
        dsimp only at h1 h2 h3 h5
        refine ⟨⟨by rw [h2]; exact h1, ?_, ?_, by omega, by rw [h3]; exact cl, ?_, h4⟩, ?_⟩
        · rw [h2, q1]
        · rw [h3, q1]; exact c0
        · intro v hv
          rcases List.mem_cons.mp hv with rfl | hv
          · omega
          · exact hr.wordsLt v (List.mem_cons_of_mem _ (List.mem_cons_of_mem _ hv))
        · intro x hx1 hx2
          rw [h5 x (by omega), hat, if_neg (by omega)]
      · cases hx

theorem execs_ok (ops : List Op) (s s' : Machine) (st st' : Vla.State) (ws ws' : List Nat) (hr : Rel s st ws)
    (he : effects st ws ops = some (st', ws')) (hx : execs s ops = some s') : Rel s' st' ws' := by
  induction ops generalizing s st ws with
  | nil =>
    cases he
    cases hx
    exact hr
  | cons op ops ih =>
    simp only [effects, execs, Option.bind_eq_some_iff] at he hx
    obtain ⟨⟨st1, ws1⟩, h1, h2⟩ := he
    obtain ⟨s1, h3, h4⟩ := hx
    exact ih s1 st1 ws1 (exec_ok s s1 st st1 ws ws1 op hr h1 h3).1 h2 h4

/-! ## The cells of the scopes -/

/-- Addresses that are not 0 grow outwards. -/
def Ord : Nat → List Nat → Prop
  | _, [] => True
  | lo, x :: xs => (x = 0 ∨ lo ≤ x) ∧ Ord (max lo x) xs

theorem ord_mono (xs : List Nat) (a b : Nat) (h : a ≤ b) (ho : Ord b xs) : Ord a xs := by
  induction xs generalizing a b with
  | nil => trivial
  | cons x xs ih => exact ⟨ho.1.imp id (Nat.le_trans h), ih _ (max b x) (by omega) ho.2⟩

/-- The first elements of the blocks that have declared an array. -/
def heads : List Vla.Block → List Nat
  | [] => []
  | b :: bs => if b.elements = [] then heads bs else b.head :: heads bs

theorem ord_step (top : Nat) (e : Vla.Event) (s s' : Vla.State) (os : List (List Vla.Object)) (op : Vla.Open) (p : Nat)
    (hn : Vla.Inv top s os op) (hst : Vla.step s e = some (s', p))
    (hlv : e = .leave → ∀ b bs, s.blocks = b :: bs → b.contains = true → b.elements ≠ [])
    (ho : Ord s.base (s.scope :: heads s.blocks)) : Ord s'.base (s'.scope :: heads s'.blocks) := by
  obtain ⟨base, scope, blocks⟩ := s
  cases e with
  | enter c stale =>
    simp only [Vla.step, Option.some.injEq, Prod.mk.injEq] at hst
    obtain ⟨rfl, rfl⟩ := hst
    simpa only [heads, if_true] using ho
  | builtin size al =>
    simp only [Vla.step] at hst
    obtain ⟨rfl, h2, h3, _⟩ := Vla.alloca_eq _ _ _ _ _ hst
    dsimp only at h2 ho ⊢
    exact ⟨Or.inl rfl, ord_mono _ _ (max base scope) (by omega) ho.2⟩
  | declare size al =>
    cases blocks with
    | nil => simp [Vla.step] at hst
    | cons b bs =>
      simp only [Vla.step, Vla.pushscope] at hst
      obtain ⟨rfl, h2, h3, h4⟩ := Vla.alloca_eq _ _ _ _ _ hst
      dsimp only at h2 ho ⊢
      have hm : max p base = base := by omega
      refine ⟨Or.inr (by omega), ?_⟩
      rw [hm, heads, if_neg (by simp)]
      rw [heads] at ho
      by_cases he : b.elements = []
      · rw [if_pos he] at ho
        have : Vla.Block.head { b with elements := b.elements ++ [scope] } = scope := by simp [Vla.Block.head, he]
        rw [this]
        exact ho
      · rw [if_neg he] at ho
        have : Vla.Block.head { b with elements := b.elements ++ [scope] } = b.head := by
          unfold Vla.Block.head
          cases h : b.elements with
          | nil => exact absurd h he
          | cons x xs => simp
        rw [this]
        exact ord_mono _ _ (max base scope) (by omega) ho.2
  | leave =>
    cases blocks with
    | nil => simp [Vla.step] at hst
    | cons b bs =>
      simp only [Vla.step] at hst
      by_cases hc : b.contains = true
      · have hne := hlv rfl b bs rfl hc
        rw [if_pos hc] at hst
        simp only [Option.some.injEq, Prod.mk.injEq] at hst
        obtain ⟨rfl, rfl⟩ := hst
        dsimp only at ho
        rw [heads, if_neg hne] at ho
        unfold Vla.popscope
        dsimp only
        split
        · rename_i h0
          subst h0
          exact ⟨Or.inl rfl, ord_mono _ _ (max (max base 0) b.head) (by dsimp only; omega) ho.2.2⟩
        · rename_i h0
          have := ho.1.resolve_left h0
          exact ord_mono _ _ (max base scope) (by dsimp only; omega) ho.2
      · have he : b.elements = [] := Classical.byContradiction fun h =>
          hc (hn.declared b List.mem_cons_self h)
        rw [if_neg hc] at hst
        simp only [Option.some.injEq, Prod.mk.injEq] at hst
        obtain ⟨rfl, rfl⟩ := hst
        dsimp only at ho
        rwa [heads, if_pos he] at ho

theorem ord_run (top : Nat) (es : List Vla.Event) (s s' : Vla.State) (os os' : List (List Vla.Object)) (op : Vla.Open)
    (hn : Vla.Inv top s os op) (hp : Vla.proper op es = true) (hr : Vla.run s os es = some (s', os'))
    (ho : Ord s.base (s.scope :: heads s.blocks)) : Ord s'.base (s'.scope :: heads s'.blocks) := by
  induction es generalizing s os op with
  | nil =>
    simp only [Vla.run, Option.some.injEq, Prod.mk.injEq] at hr
    obtain ⟨rfl, rfl⟩ := hr
    exact ho
  | cons e es ih =>
    simp only [Vla.run] at hr
    split at hr
    · cases hr
    · rename_i s1 p hst
      obtain ⟨h1, h2, h3⟩ := Vla.proper_step top e es s s1 os op p hn hp hst
      have hrun : Vla.run s os [e] = some (s1, Vla.alive os e p) := by simp only [Vla.run, hst]
      obtain ⟨op', hn'⟩ := Vla.inv_run top [e] s s1 os _ _ hn h1 hrun
      have hs := hn'.shape
      subst hs
      exact ih _ _ _ hn' h2 hr (ord_step top e s s1 os op p hn hst h3 ho)

end Kefir.Carry
