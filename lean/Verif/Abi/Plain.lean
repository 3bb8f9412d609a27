import Verif.Abi.Packed

/-!
# Structures and unions of scalars are packed
-/

namespace Kefir.Abi

open Kefir.Layout

theorem roundUp_eq {start a o : Nat} (ha : 0 < a) (h1 : start ≤ o) (h2 : o % a = 0) (h3 : o < start + a) :
    o = roundUp start a := by
  obtain ⟨k, rfl⟩ := Nat.dvd_of_mod_eq_zero h2
  unfold roundUp
  have : (start + a - 1) / a = k := by
    rw [Nat.div_eq_iff (by omega)]
    constructor
    · rw [Nat.mul_comm]; omega
    · rw [Nat.mul_comm]; omega
  rw [this, Nat.mul_comm]

/-- A scalar after `p`. -/
theorem value_packed {k : Leaf} {n : Nat} (hv : ValueLeaf k n) {d : Data} {ls} (hl : Laid (.leaf k 0 n) (.node d ls))
    {base p : Nat} (h1 : p ≤ base) (h2 : base % d.alignment = 0) (h3 : base < p + d.alignment)
    (h4 : base + d.size ≤ 16 ∨ base = p) :
    Packed (.leaf k 0 n) (.node d ls) base p (base + d.size) := by
  obtain ⟨hk, hs⟩ := hv
  obtain ⟨hsz, hal⟩ : d.size = leafSize k n ∧ d.alignment = effective 0 (leafAlign k) := by
    cases hl; constructor <;> assumption
  have hal : d.alignment = leafAlign k := hal
  refine .leaf (by intro h; simp [h] at hk) (by intro h; simp [h] at hk) (by intro h; simp [h] at hk) (by omega)
    (roundUp_eq (by have := leafAlign_pos k; omega) h1 h2 h3) ?_ ?_
  · by_cases hld : k = .longDouble
    · subst hld
      have e1 : d.size = 16 := hsz
      have e2 : d.alignment = 16 := hal
      rw [e2] at h2 h3
      right; omega
    · left; rw [hal]
      cases k <;> first
        | exact absurd rfl hld
        | simp [leafAlign]
  · intro h; subst h
    have e2 : d.alignment = 16 := hal
    rw [e2] at h2; omega

theorem value_mod (k : Leaf) (n : Nat) (h : k ∉ [.pad, .builtin, .bits]) : leafSize k n % leafAlign k = 0 := by
  cases k <;> simp_all [leafSize, leafAlign] <;> omega

theorem values_packed {k : Leaf} {n : Nat} (hv : ValueLeaf k n) {d : Data} {ls} (hl : Laid (.leaf k 0 n) (.node d ls)) :
    ∀ (m base : Nat), base % d.alignment = 0 →
    PackedN (.leaf k 0 n) (.node d ls) base m base (base + m * d.size)
  | 0, base, _ => by rw [Nat.zero_mul]; exact .zero
  | m + 1, base, hb => by
    obtain ⟨hsz, hal⟩ : d.size = leafSize k n ∧ d.alignment = effective 0 (leafAlign k) := by
      cases hl; constructor <;> assumption
    have hal : d.alignment = leafAlign k := hal
    have hm := value_mod k n hv.1
    rw [← hsz, ← hal] at hm
    have hp := leafAlign_pos k
    have h1 := value_packed hv hl (Nat.le_refl base) hb (by omega) (.inr rfl)
    have h2 := values_packed hv hl m (base + d.size) (by rw [Nat.add_mod, hb, hm]; simp)
    have : base + d.size + m * d.size = base + (m + 1) * d.size := by rw [Nat.succ_mul]; omega
    rw [this] at h2
    exact .succ h1 h2

/-- A member after `start`. -/
theorem member_packed {t : Ty} (hp : PlainMember t) {l : LTree} (hl : Laid t l) {start : Nat}
    (h1 : start ≤ l.data.offset) (h2 : t.isBits = true → l.data.offset = start)
    (h3 : t.isBits = false → l.data.offset % l.data.alignment = 0)
    (h4 : t.isBits = false → l.data.offset < start + l.data.alignment) (h5 : l.stop ≤ 16) :
    Packed t l l.data.offset start l.stop := by
  obtain ⟨d, ls⟩ := l
  simp only [LTree.data, LTree.stop] at *
  cases hp with
  | scalar hv =>
    have hb : ∀ k n, ValueLeaf k n → Ty.isBits (.leaf k 0 n) = false := by
      intro k n hv; cases k <;> simp_all [Ty.isBits, ValueLeaf]
    exact value_packed hv hl h1 (h3 (hb _ _ hv)) (h4 (hb _ _ hv)) (.inl h5)
  | bits hn => rw [h2 rfl]; exact .bits hn
  | array hv hm =>
    rename_i k n m
    obtain ⟨l, rfl, hle, hsz, ho, hal⟩ : ∃ l, ls = [l] ∧ Laid (.leaf k 0 n) l ∧ d.size = m * l.data.size ∧
        l.data.offset = 0 ∧ d.alignment = effective 0 l.data.alignment := by
      cases hl; exact ⟨_, rfl, by assumption, by assumption, by assumption, by assumption⟩
    have hal : d.alignment = l.data.alignment := hal
    obtain ⟨m, rfl⟩ : ∃ m', m = m' + 1 := ⟨m - 1, by omega⟩
    obtain ⟨d', ls'⟩ := l
    simp only [LTree.data] at *
    obtain ⟨hsz', hal'⟩ : d'.size = leafSize k n ∧ d'.alignment = effective 0 (leafAlign k) := by
      cases hle; constructor <;> assumption
    have hal' : d'.alignment = leafAlign k := hal'
    have hmod := value_mod k n hv.1
    rw [← hsz', ← hal'] at hmod
    have hsm : (m + 1) * d'.size = m * d'.size + d'.size := Nat.succ_mul ..
    refine .array ?_
    simp only [LTree.data, ho, Nat.add_zero]
    have hb := h3 rfl
    have g1 := value_packed hv hle h1 (by rw [← hal]; exact hb) (by rw [← hal]; exact h4 rfl)
      (.inl (by omega))
    have g2 := values_packed hv hle m (d.offset + d'.size)
      (by rw [Nat.add_mod, ← hal, hb, hal, hmod]; simp)
    have : d.offset + d'.size + m * d'.size = d.offset + d.size := by omega
    rw [this] at g2
    exact .succ g1 g2

theorem members_packed : ∀ {start : Nat} {ts : List Ty} {ls : List LTree}, Consecutive start ts ls → LaidAll ts ls →
    (∀ t ∈ ts, PlainMember t) → (∀ l ∈ ls, l.stop ≤ 16) → ∃ p', PackedAll ts ls 0 start p'
  | start, _, _, .nil, _, _, _ => ⟨start, .nil⟩
  | start, _, _, .cons (l := l) h1 h2 h3 h4 hc, hl, hp, hs => by
    obtain ⟨hlt, hls⟩ : Laid _ l ∧ LaidAll _ _ := by cases hl; constructor <;> assumption
    have h := member_packed (hp _ (List.mem_cons_self ..)) hlt h1 h2 h3 h4 (hs _ (List.mem_cons_self ..))
    obtain ⟨p', hp'⟩ := members_packed hc hls (fun t ht => hp t (List.mem_cons_of_mem _ ht))
      (fun l hl => hs l (List.mem_cons_of_mem _ hl))
    exact ⟨p', .cons (by rw [Nat.zero_add]; exact h) hp'⟩

theorem alignment_pos {t : Ty} (hp : PlainMember t) {l : LTree} (hl : Laid t l) (hb : t.isBits = false) :
    0 < l.data.alignment := by
  cases hp with
  | scalar hv =>
    cases hl with
    | leaf _ h => simp only [LTree.data, h]; exact effective_pos _ _ (leafAlign_pos _)
  | bits => simp [Ty.isBits] at hb
  | array hv hm =>
    cases hl with
    | array hle _ h _ =>
      cases hle with
      | leaf _ h' =>
        simp only [LTree.data] at h ⊢
        rw [h, h']
        exact effective_pos _ _ (effective_pos _ _ (leafAlign_pos _))

theorem union_packed : ∀ {ts : List Ty} {ls : List LTree} (m : Nat), LaidAll ts ls → (∀ t ∈ ts, PlainMember t) →
    (∀ l ∈ ls, l.data.offset = 0) → (∀ l ∈ ls, l.data.size ≤ 16) → ∃ m', PackedUnion ts ls 0 0 m m'
  | _, _, m, .nil, _, _, _ => ⟨m, .nil⟩
  | _, _, m, .cons (t := t) (l := l) hl hls, hp, ho, hs => by
    have ho' := ho l (List.mem_cons_self ..)
    have h := member_packed (start := 0) (hp _ (List.mem_cons_self ..)) hl (Nat.zero_le _) (fun _ => ho')
      (fun _ => by rw [ho', Nat.zero_mod])
      (fun hb => by rw [ho']; have := alignment_pos (hp _ (List.mem_cons_self ..)) hl hb; omega)
      (by have := hs l (List.mem_cons_self ..); simp only [LTree.stop]; omega)
    obtain ⟨m', hm'⟩ := union_packed (max m l.stop) hls (fun t ht => hp t (List.mem_cons_of_mem _ ht))
      (fun l hl => ho l (List.mem_cons_of_mem _ hl)) (fun l hl => hs l (List.mem_cons_of_mem _ hl))
    exact ⟨m', .cons (by rw [Nat.zero_add]; exact h) hm'⟩

/-- Structures and unions of scalars are packed. -/
theorem plain_packed {t : Ty} (hp : Plain t) {l : LTree} (hl : Laid t l) (hs : l.data.size ≤ 16) :
    ∃ p', Packed t l 0 0 p' := by
  cases hp with
  | struct hp =>
    cases hl with
    | struct ha hc _ _ _ hle _ =>
      simp only [LTree.data] at hs
      obtain ⟨p', h⟩ := members_packed hc ha hp (fun l hl => by have := member_stop_le hc l hl; omega)
      exact ⟨p', .struct h⟩
  | union hp =>
    cases hl with
    | union ha ho _ _ _ hle _ =>
      simp only [LTree.data] at hs
      obtain ⟨m', h⟩ := union_packed 0 ha hp ho (fun l hl => by have := hle l hl; omega)
      exact ⟨m', .union h⟩

end Kefir.Abi
