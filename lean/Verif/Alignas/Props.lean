import Verif.Alignas.Lemmas

/-!
# C103: alignment specifiers
-/

namespace Kefir.Alignas

/-- C103, acceptance, for types that have the alignment of what the specifiers name (not so for pointers,
`C103_pointer_false`, `C103_pointer_rejected_false`) and specifiers that are valid one by one: the declarations of an
object are accepted exactly if in each of them the specifiers together are not less strict than the type. -/
theorem C103_accepted_partial (natural : Nat) (ds : List (List Request))
    (hv : ∀ rs ∈ ds, ∀ r ∈ rs, r.Valid ∧ r.amount < 2 ^ 64) :
    (∃ a, declare natural ds = some a) ↔ ds ≠ [] ∧ ∀ rs ∈ ds, (Declaration.mk rs natural).Valid := by
  rw [← Option.isSome_iff_exists, declare_isSome]
  have h : ∀ rs ∈ ds, ((specified natural rs).isSome = true ↔ (Declaration.mk rs natural).Valid) := fun rs hr =>
    specified_isSome (fun r h => ⟨(hv rs hr r h).1.nonneg, (hv rs hr r h).2⟩)
  constructor
  · exact fun ⟨h1, h2⟩ => ⟨h1, fun rs hr => (h rs hr).mp (h2 rs hr)⟩
  · exact fun ⟨h1, h2⟩ => ⟨h1, fun rs hr => (h rs hr).mpr (h2 rs hr)⟩

/-- C103, placement, for types that have the alignment of what the specifiers name and requests up to 128 (for others
see `C103_large_false`): if the declarations are accepted, an address is a multiple of the alignment given to the object
exactly if it suits the type and every request of every declaration.  So the object is aligned for all of them, and not
more than that.  And where it is put as a part of a structure or of the storage of a program or function suits them. -/
theorem C103_object_partial (natural : Nat) (hn : ∃ k, natural = 2 ^ k) (ds : List (List Request)) (a : Nat)
    (hv : ∀ rs ∈ ds, ∀ r ∈ rs, r.Valid ∧ r.amount ≤ 128) (h : declare natural ds = some a)
    (c : Layout.Compound) (code : Layout.TypeCode) (param size : Nat) :
    (∀ address, (place c code param size natural a).alignment ∣ address ↔
      ∀ rs ∈ ds, (Declaration.mk rs natural).Suits address) ∧
    (c.aggregate = true → code ≠ .leaf .bits → c.offset ≤ (place c code param size natural a).offset ∧
      ∀ rs ∈ ds, (Declaration.mk rs natural).Suits (place c code param size natural a).offset) := by
  have hpos : 0 < natural := by obtain ⟨k, rfl⟩ := hn; exact Nat.two_pow_pos k
  have hc : ∀ rs ∈ ds, ∀ r ∈ rs, (contribution r : Int) = r.amount := fun rs hr r hrr =>
    contribution_eq (hv rs hr r hrr).1.nonneg (by have := (hv rs hr r hrr).2; omega)
  have hlt : ∀ rs ∈ ds, ∀ r ∈ rs, contribution r < 2 ^ 64 := fun rs hr r hrr => by
    have := hc rs hr r hrr; have := (hv rs hr r hrr).2; omega
  obtain ⟨⟨-, h2, h3⟩, h4⟩ := declare_largest hlt h
  have hne : ds ≠ [] := by intro hd; subst hd; cases h
  have ha : a ≤ 128 := by
    rcases h3 with h3 | ⟨r, hr, h3⟩
    · omega
    · obtain ⟨rs, hrs, hr⟩ := List.mem_flatten.mp hr
      have := hc rs hrs r hr; have := (hv rs hrs r hr).2; omega
  have heff : (place c code param size natural a).alignment = if a = 0 then natural else a := by
    simp only [place, Layout.update_alignment, Layout.effective, entry]
    rw [Nat.mod_eq_of_lt (by omega : a < 2 ^ 8)]
  have key : ∀ address, (if a = 0 then natural else a) ∣ address ↔
      ∀ rs ∈ ds, (Declaration.mk rs natural).Suits address := by
    intro address
    have hpow : a ≠ 0 → ∃ k, a = 2 ^ k := by
      intro ha0
      rcases h3 with h3 | ⟨r, hr, h3⟩
      · exact absurd h3 ha0
      · obtain ⟨rs, hrs, hr⟩ := List.mem_flatten.mp hr
        have h5 := hc rs hrs r hr
        rcases (hv rs hrs r hr).1 with h6 | ⟨k, h6⟩
        · omega
        · refine ⟨k, ?_⟩
          rw [h3, h6] at h5
          exact_mod_cast h5
    constructor
    · intro hd rs hrs
      refine ⟨?_, ?_⟩
      · by_cases ha0 : a = 0
        · rwa [if_pos ha0] at hd
        · rw [if_neg ha0] at hd
          exact Nat.dvd_trans (Layout.pow_dvd_of_le hn (hpow ha0) (h4 ha0)) hd
      · intro r hr hr0
        have h5 := hc rs hrs r hr
        have h6 := h2 r (List.mem_flatten.mpr ⟨rs, hrs, hr⟩)
        have ha0 : a ≠ 0 := by omega
        rw [if_neg ha0] at hd
        rcases (hv rs hrs r hr).1 with h7 | ⟨k, h7⟩
        · exact absurd h7 hr0
        · have h8 : contribution r = 2 ^ k := by rw [h7] at h5; exact_mod_cast h5
          have := Nat.dvd_trans (Layout.pow_dvd_of_le ⟨k, h8⟩ (hpow ha0) h6) hd
          rw [← h5]
          exact Int.ofNat_dvd.mpr this
    · intro hs
      by_cases ha0 : a = 0
      · rw [if_pos ha0]
        obtain ⟨rs, hrs⟩ := List.exists_mem_of_ne_nil ds hne
        exact (hs rs hrs).1
      · rw [if_neg ha0]
        rcases h3 with h3 | ⟨r, hr, h3⟩
        · exact absurd h3 ha0
        · obtain ⟨rs, hrs, hr⟩ := List.mem_flatten.mp hr
          have h5 := hc rs hrs r hr
          have h6 := (hs rs hrs).2 r hr (by omega)
          rw [← h5, h3] at h6
          exact Int.ofNat_dvd.mp h6
  refine ⟨fun address => by rw [heff]; exact key address, fun hagg hbits => ?_⟩
  have hoff : (place c code param size natural a).offset =
      Layout.padAligned c.offset (if a = 0 then natural else a) := by
    have hb : (entry code param a).code ≠ .leaf .bits := hbits
    simp only [place, Layout.update_offset]
    rw [if_pos ⟨hagg, hb⟩]
    have he : (entry code param a).alignment = a := Nat.mod_eq_of_lt (by omega : a < 2 ^ 8)
    rw [he, Layout.effective]
  rw [hoff]
  refine ⟨Layout.padAligned_ge _ _, (key _).mp (Nat.dvd_of_mod_eq_zero (Layout.padAligned_mod _ _ ?_))⟩
  split <;> omega

/-- C103, order: the same specifiers in another order, or spread over other declarations, give the same alignment. -/
theorem C103_order (base base' a a' : Nat) (ds ds' : List (List Request)) (hp : ds.flatten.Perm ds'.flatten)
    (ht : ∀ rs ∈ ds, ∀ t, Request.type t ∈ rs → t < 2 ^ 64)
    (h : declare base ds = some a) (h' : declare base' ds' = some a') : a = a' := by
  have hlt : ∀ r ∈ ds.flatten, contribution r < 2 ^ 64 := by
    intro r hr
    obtain ⟨rs, hrs, hr⟩ := List.mem_flatten.mp hr
    cases r with
    | type t => exact ht rs hrs t hr
    | value v => simp only [contribution, toSize]; omega
  obtain ⟨⟨-, h1, h2⟩, -⟩ := declare_largest (fun rs hrs r hr => hlt r (List.mem_flatten.mpr ⟨rs, hrs, hr⟩)) h
  obtain ⟨⟨-, h3, h4⟩, -⟩ := declare_largest
    (fun rs hrs r hr => hlt r (hp.mem_iff.mpr (List.mem_flatten.mpr ⟨rs, hrs, hr⟩))) h'
  apply Nat.le_antisymm
  · rcases h2 with h2 | ⟨r, hr, h2⟩
    · omega
    · have := h3 r (hp.mem_iff.mp hr); omega
  · rcases h4 with h4 | ⟨r, hr, h4⟩
    · omega
    · have := h1 r (hp.mem_iff.mpr hr); omega

/-- A structure of which one byte is used. -/
def oneByte : Layout.Compound := { offset := 1, maxAlignment := 1, maxSize := 1, aggregate := true, aligned := true }

/-- `extern _Alignas(0) _Alignas(double) int x; _Alignas(32) _Alignas(4) int x;`: the hypotheses hold, the object gets
the alignment 32. -/
example : (∀ rs ∈ [[Request.value 0, .type 8], [.value 32, .value 4]], ∀ r ∈ rs, r.Valid ∧ r.amount ≤ 128) ∧
    declare 4 [[.value 0, .type 8], [.value 32, .value 4]] = some 32 ∧
    place oneByte (.leaf .int) 0 4 4 32 = ⟨4, 32, true, 32⟩ := by
  refine ⟨?_, by decide, by decide⟩
  intro rs hrs r hr
  simp only [List.mem_cons, List.not_mem_nil, or_false] at hrs
  rcases hrs with rfl | rfl <;> simp only [List.mem_cons, List.not_mem_nil, or_false] at hr <;>
    rcases hr with rfl | rfl
  · exact ⟨.inl rfl, by decide⟩
  · exact ⟨.inr ⟨3, rfl⟩, by decide⟩
  · exact ⟨.inr ⟨5, rfl⟩, by decide⟩
  · exact ⟨.inr ⟨2, rfl⟩, by decide⟩

/-- `_Alignas(2) int x;` is rejected. -/
example : declare 4 [[.value 2]] = none := by decide

/-- C103 is false of alignments above 128: the IR has eight bits for them.  `_Alignas(256) int x;` is accepted, and the
object has the alignment 4. -/
theorem C103_large_false : ∃ (rs : List Request) (a : Nat), (∀ r ∈ rs, r.Valid) ∧ (Declaration.mk rs 4).Valid ∧
    declare 4 [rs] = some a ∧ (place oneByte (.leaf .int) 0 4 4 a).alignment = 4 ∧
    ¬ (Declaration.mk rs 4).Suits (place oneByte (.leaf .int) 0 4 4 a).offset := by
  refine ⟨[.value 256], 256, ?_, .inr ⟨_, List.mem_cons_self, by decide⟩, by decide, by decide, ?_⟩
  · intro r hr
    rw [List.mem_singleton.mp hr]
    exact .inr ⟨8, rfl⟩
  · intro h
    exact absurd (h.2 _ List.mem_cons_self (by decide)) (by decide)

/-- C103 is false of pointers: the check uses the type of the specifiers.  `_Alignas(2) char *p;` is accepted, and the
pointer is put at a multiple of 2. -/
theorem C103_pointer_false : ∃ (rs : List Request) (a : Nat), (∀ r ∈ rs, r.Valid) ∧ ¬ (Declaration.mk rs 8).Valid ∧
    declare 1 [rs] = some a ∧ (place oneByte (.leaf .word) 0 8 8 a).offset = 2 := by
  refine ⟨[.value 2], 2, ?_, ?_, by decide, by decide⟩
  · intro r hr
    rw [List.mem_singleton.mp hr]
    exact .inr ⟨1, rfl⟩
  · intro h
    rcases h with h | ⟨r, hr, h⟩
    · exact absurd (h _ List.mem_cons_self) (by decide)
    · rw [List.mem_singleton.mp hr] at h
      exact absurd h (by decide)

/-- C103 is false of pointers: `_Alignas(8) long double *p;` is valid and rejected. -/
theorem C103_pointer_rejected_false : ∃ rs : List Request, (∀ r ∈ rs, r.Valid) ∧ (Declaration.mk rs 8).Valid ∧
    declare 16 [rs] = none := by
  refine ⟨[.value 8], ?_, .inr ⟨_, List.mem_cons_self, by decide⟩, by decide⟩
  intro r hr
  rw [List.mem_singleton.mp hr]
  exact .inr ⟨3, rfl⟩

/-- C103 is false of alignments that are not powers of two: `_Alignas(6) int x;` is accepted, and `x` is not aligned
as an `int`. -/
theorem C103_power_false : ∃ (r : Request) (a : Nat), ¬ r.Valid ∧ declare 4 [[r]] = some a ∧
    (place oneByte (.leaf .int) 0 4 4 a).offset = 6 := by
  refine ⟨.value 6, 6, ?_, by decide, by decide⟩
  rintro (h | ⟨k, h⟩)
  · exact absurd h (by decide)
  · have h' : (6 : Nat) = 2 ^ k := by
      simp only [Request.amount] at h
      exact_mod_cast h
    rcases k with _ | _ | _ | k
    · exact absurd h' (by decide)
    · exact absurd h' (by decide)
    · exact absurd h' (by decide)
    · have : 8 ≤ 2 ^ (k + 1 + 1 + 1) := by
        have := Nat.two_pow_pos k
        rw [Nat.pow_succ, Nat.pow_succ, Nat.pow_succ]; omega
      omega

/-- C103 is false of negative alignments: `_Alignas(-1) int x;` is accepted, and the object has the alignment 255. -/
theorem C103_negative_false : ∃ a, declare 4 [[.value (-1)]] = some a ∧
    (place oneByte (.leaf .int) 0 4 4 a).alignment = 255 := ⟨2 ^ 64 - 1, by decide, by decide⟩

end Kefir.Alignas
