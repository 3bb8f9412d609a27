import Verif.AsmCode.Loop

/-! # Assembly text of code: what the entries refer to -/

namespace Kefir.AsmCode
open Kefir.StaticData Kefir.AsmData

variable {P : Program} {f : Func}

/-! ### Numbers and labels -/

theorem toString_chars {n : Nat} {c : Char} (h : c ∈ (toString n).toList) : c.isDigit = true := by
  have : (toString n).toList = Nat.toDigits 10 n := by
    show (Nat.repr n).toList = _
    unfold Nat.repr
    rw [String.toList_ofList]
  rw [this] at h
  exact Nat.isDigit_of_mem_toDigits (by decide) (by decide) h

theorem toString_inj {m n : Nat} (h : toString m = toString n) : m = n := by
  rw [← decS_eq, ← decS_eq] at h
  have h' : dec m = dec n := String.ofList_injective h
  have := congrArg number h'
  rw [dec_number, dec_number] at this
  exact Option.some.inj this

theorem toString_ne (n : Nat) : (toString n).toList ≠ [] := by
  have : (toString n).toList = Nat.toDigits 10 n := by
    show (Nat.repr n).toList = _
    unfold Nat.repr
    rw [String.toList_ofList]
  rw [this]
  exact Nat.toDigits_ne_nil

/-- Text is cut at the first character that is not a digit. -/
theorem cut {a b x y : List Char} {c : Char} (hc : c.isDigit = false) (ha : ∀ d ∈ a, d.isDigit = true)
    (hb : ∀ d ∈ b, d.isDigit = true) (h : a ++ c :: x = b ++ c :: y) : a = b ∧ x = y := by
  induction a generalizing b with
  | nil =>
    cases b with
    | nil => exact ⟨rfl, by simpa using h⟩
    | cons d b =>
      simp only [List.nil_append, List.cons_append, List.cons.injEq] at h
      have := hb d List.mem_cons_self
      rw [← h.1, hc] at this
      cases this
  | cons d a ih =>
    cases b with
    | nil =>
      simp only [List.nil_append, List.cons_append, List.cons.injEq] at h
      have := ha d List.mem_cons_self
      rw [h.1, hc] at this
      cases this
    | cons d' b =>
      simp only [List.cons_append, List.cons.injEq] at h
      obtain ⟨h1, h2⟩ := ih (fun x hx => ha x (List.mem_cons_of_mem _ hx)) (fun x hx => hb x (List.mem_cons_of_mem _ hx)) h.2
      exact ⟨by rw [h.1, h1], h2⟩

/-- The part of a label that depends on the key. -/
def keyText : VaKey → List Char
  | .start => 's' :: "tart".toList
  | .stop => 'e' :: "nd".toList
  | .scalar c => (toString c).toList ++ '_' :: "type".toList
  | .typed t k => 't' :: ("ype".toList ++ ((toString t).toList ++ '_' :: (toString k).toList))

theorem vaLabel_text (f : String) (k : VaKey) :
    (vaLabel f k).toList = "__".toList ++ (f.toList ++ ("_vararg_".toList ++ keyText k)) := by
  cases k with
  | start =>
    have : "_vararg_start".toList = "_vararg_".toList ++ keyText .start := by decide +kernel
    rw [vaLabel, String.toList_append, String.toList_append, this, List.append_assoc]
  | stop =>
    have : "_vararg_end".toList = "_vararg_".toList ++ keyText .stop := by decide +kernel
    rw [vaLabel, String.toList_append, String.toList_append, this, List.append_assoc]
  | scalar c =>
    have : "_type".toList = '_' :: "type".toList := by decide +kernel
    rw [vaLabel, String.toList_append, String.toList_append, String.toList_append, String.toList_append, this, keyText]
    simp only [List.append_assoc]
  | typed t k =>
    have h1 : "_vararg_type".toList = "_vararg_".toList ++ ('t' :: "ype".toList) := by decide +kernel
    have h2 : "_".toList = ['_'] := by decide +kernel
    rw [vaLabel, String.toList_append, String.toList_append, String.toList_append, String.toList_append, String.toList_append,
      h1, h2, keyText]
    simp only [List.append_assoc, List.cons_append, List.nil_append]

theorem scalar_head (c : Nat) : ∃ d ds, keyText (.scalar c) = d :: ds ∧ d.isDigit = true := by
  cases h : (toString c).toList with
  | nil => exact absurd h (toString_ne c)
  | cons d ds =>
    refine ⟨d, ds ++ '_' :: "type".toList, by rw [keyText, h]; rfl, toString_chars (n := c) (by rw [h]; exact List.mem_cons_self)⟩

theorem keyText_inj {a b : VaKey} (h : keyText a = keyText b) : a = b := by
  have us : Char.isDigit '_' = false := by decide
  have dig : ∀ (n : Nat), ∀ d ∈ (toString n).toList, d.isDigit = true := fun n d hd => toString_chars hd
  have dn : ∀ {m n : Nat}, (toString m).toList = (toString n).toList → m = n := fun h => toString_inj (String.toList_inj.mp h)
  cases a with
  | start =>
    cases b with
    | start => rfl
    | stop => exact absurd (List.cons.inj h).1 (by decide)
    | scalar c =>
      obtain ⟨d, ds, e, hd⟩ := scalar_head c
      rw [e] at h
      rw [← (List.cons.inj h).1] at hd
      exact absurd hd (by decide)
    | typed t k => exact absurd (List.cons.inj h).1 (by decide)
  | stop =>
    cases b with
    | start => exact absurd (List.cons.inj h).1 (by decide)
    | stop => rfl
    | scalar c =>
      obtain ⟨d, ds, e, hd⟩ := scalar_head c
      rw [e] at h
      rw [← (List.cons.inj h).1] at hd
      exact absurd hd (by decide)
    | typed t k => exact absurd (List.cons.inj h).1 (by decide)
  | scalar c =>
    obtain ⟨d, ds, e, hd⟩ := scalar_head c
    cases b with
    | start => rw [e] at h; rw [(List.cons.inj h).1] at hd; exact absurd hd (by decide)
    | stop => rw [e] at h; rw [(List.cons.inj h).1] at hd; exact absurd hd (by decide)
    | scalar c' => rw [dn (cut us (dig c) (dig c') h).1]
    | typed t k => rw [e] at h; rw [(List.cons.inj h).1] at hd; exact absurd hd (by decide)
  | typed t k =>
    cases b with
    | start => exact absurd (List.cons.inj h).1 (by decide)
    | stop => exact absurd (List.cons.inj h).1 (by decide)
    | scalar c =>
      obtain ⟨d, ds, e, hd⟩ := scalar_head c
      rw [e] at h
      rw [← (List.cons.inj h).1] at hd
      exact absurd hd (by decide)
    | typed t' k' =>
      have h' := List.append_cancel_left (List.cons.inj h).2
      obtain ⟨h1, h2⟩ := cut us (dig t) (dig t') h'
      rw [dn h1, dn h2]

theorem vaLabel_inj {f : String} {a b : VaKey} (h : vaLabel f a = vaLabel f b) : a = b := by
  have h' := congrArg String.toList h
  rw [vaLabel_text, vaLabel_text] at h'
  exact keyText_inj (List.append_cancel_left (List.append_cancel_left (List.append_cancel_left h')))

/-! ### Appended code -/

theorem mem_noteKey {a : List (String × Routine)} {k : String} {r : Routine} {x : String × Routine}
    (h : x ∈ noteKey a k r) : x ∈ a ∨ x = (k, r) := by
  unfold noteKey at h
  split at h
  · exact .inl h
  · rcases List.mem_append.mp h with h | h
    · exact .inl h
    · exact .inr (List.mem_singleton.mp h)

theorem noteKey_mem (a : List (String × Routine)) (k : String) (r : Routine) : k ∈ (noteKey a k r).map Prod.fst := by
  unfold noteKey
  split
  · rename_i h
    obtain ⟨p, hp, hpe⟩ := List.any_eq_true.mp h
    exact List.mem_map.mpr ⟨p, hp, by simpa using hpe⟩
  · simp

theorem noteKey_old {a : List (String × Routine)} {k : String} {r : Routine} {x : String × Routine} (h : x ∈ a) :
    x ∈ noteKey a k r := by
  unfold noteKey
  split
  · exact h
  · exact List.mem_append_left _ h

theorem noteKey_nodup {a : List (String × Routine)} {k : String} {r : Routine} (h : (a.map Prod.fst).Nodup) :
    ((noteKey a k r).map Prod.fst).Nodup := by
  unfold noteKey
  split
  · exact h
  · rename_i hn
    rw [List.map_append, List.nodup_append]
    refine ⟨h, by simp, ?_⟩
    intro x hx y hy e
    simp only [List.map_cons, List.map_nil, List.mem_singleton] at hy
    subst hy
    obtain ⟨p, hp, rfl⟩ := List.mem_map.mp hx
    exact hn (List.any_eq_true.mpr ⟨p, hp, by simp [e]⟩)

theorem note_old {α : Type} [DecidableEq α] {l : List α} {x y : α} (h : y ∈ l) : y ∈ note l x := by
  unfold note
  split
  · exact h
  · exact List.mem_append_left _ h

theorem note_mem {α : Type} [DecidableEq α] (l : List α) (x : α) : x ∈ note l x := by
  unfold note
  split
  · assumption
  · simp

theorem note_nodup {α : Type} [DecidableEq α] {l : List α} {x : α} (h : l.Nodup) : (note l x).Nodup := by
  unfold note
  split
  · exact h
  · rename_i hn
    rw [List.nodup_append]
    refine ⟨h, by simp, ?_⟩
    intro a ha b hb e
    obtain rfl := List.mem_singleton.mp hb
    exact hn (e ▸ ha)

/-- What a later state has in addition. -/
structure Extends (a b : St) : Prop where
  gates : ∀ x ∈ a.gates, x ∈ b.gates
  vgates : ∀ x ∈ a.vgates, x ∈ b.vgates
  tls : ∀ x ∈ a.tls, x ∈ b.tls

theorem Extends.refl (a : St) : Extends a a := ⟨fun _ h => h, fun _ h => h, fun _ h => h⟩
theorem Extends.trans {a b c : St} (h : Extends a b) (h' : Extends b c) : Extends a c :=
  ⟨fun x hx => h'.gates x (h.gates x hx), fun x hx => h'.vgates x (h.vgates x hx), fun x hx => h'.tls x (h.tls x hx)⟩

theorem after_extends (i : Ins) (st : St) : Extends st (after P f i st) := by
  unfold after
  refine ⟨fun x hx => ?_, fun x hx => ?_, fun x hx => ?_⟩
  · show x ∈ if i.opcode = 6 then note st.gates i.lo else st.gates
    split
    · exact note_old hx
    · exact hx
  · show x ∈ if i.opcode = 7 then note st.vgates i.lo else st.vgates
    split
    · exact note_old hx
    · exact hx
  · show x ∈ if i.opcode = 0x6e then (match P.symbols i.lo with | some s => note st.tls s | none => st.tls) else st.tls
    split
    · split
      · exact note_old hx
      · exact hx
    · exact hx

theorem after_appendix_old {i : Ins} {st : St} {x : String × Routine} (h : x ∈ st.appendix) : x ∈ (after P f i st).appendix := by
  show x ∈ match needs P i with
    | some (k, r) => noteKey st.appendix (vaLabel f.name k) r
    | none => st.appendix
  split
  · exact noteKey_old h
  · exact h

theorem afterAll_extends (is : List Ins) (st : St) : Extends st (afterAll P f is st) := by
  induction is generalizing st with
  | nil => exact Extends.refl st
  | cons i is ih => exact (after_extends i st).trans (ih (after P f i st))

theorem afterAll_old {is : List Ins} {st : St} {x : String × Routine} (h : x ∈ st.appendix) :
    x ∈ (afterAll P f is st).appendix := by
  induction is generalizing st with
  | nil => exact h
  | cons i is ih => exact ih (after_appendix_old h)

theorem afterAll_from {is : List Ins} {st : St} {x : String × Routine} (h : x ∈ (afterAll P f is st).appendix) :
    x ∈ st.appendix ∨ ∃ i ∈ is, ∃ k r, needs P i = some (k, r) ∧ x = (vaLabel f.name k, r) := by
  induction is generalizing st with
  | nil => exact .inl h
  | cons i is ih =>
    rcases ih h with h | ⟨j, hj, k, r, h1, h2⟩
    · have h' : x ∈ match needs P i with
        | some (k, r) => noteKey st.appendix (vaLabel f.name k) r
        | none => st.appendix := h
      split at h'
      · rename_i k r hn
        rcases mem_noteKey h' with h' | h'
        · exact .inl h'
        · exact .inr ⟨i, List.mem_cons_self, k, r, hn, h'⟩
      · exact .inl h'
    · exact .inr ⟨j, List.mem_cons_of_mem _ hj, k, r, h1, h2⟩

theorem afterAll_has {is : List Ins} {st : St} {i : Ins} (hi : i ∈ is) {k : VaKey} {r : Routine}
    (hn : needs P i = some (k, r)) : ∃ r', (vaLabel f.name k, r') ∈ (afterAll P f is st).appendix := by
  induction is generalizing st with
  | nil => cases hi
  | cons j is ih =>
    rcases List.mem_cons.mp hi with rfl | hi
    · have h : (vaLabel f.name k) ∈ (after P f i st).appendix.map Prod.fst := by
        show _ ∈ (match needs P i with
          | some (k, r) => noteKey st.appendix (vaLabel f.name k) r
          | none => st.appendix).map Prod.fst
        rw [hn]
        exact noteKey_mem _ _ _
      obtain ⟨⟨s, r'⟩, hp, e⟩ := List.mem_map.mp h
      simp only at e
      subst e
      exact ⟨r', afterAll_old (is := is) (st := after P f i st) hp⟩
    · exact ih hi

theorem afterAll_nodup {is : List Ins} {st : St} (h : (st.appendix.map Prod.fst).Nodup) :
    ((afterAll P f is st).appendix.map Prod.fst).Nodup := by
  induction is generalizing st with
  | nil => exact h
  | cons i is ih =>
    refine ih ?_
    show ((match needs P i with
      | some (k, r) => noteKey st.appendix (vaLabel f.name k) r
      | none => st.appendix).map Prod.fst).Nodup
    split
    · exact noteKey_nodup h
    · exact h

theorem afterAll_uses {is : List Ins} {st : St} {i : Ins} (hi : i ∈ is) :
    (i.opcode = 6 → i.lo ∈ (afterAll P f is st).gates) ∧ (i.opcode = 7 → i.lo ∈ (afterAll P f is st).vgates) ∧
    (i.opcode = 0x6e → ∀ s, P.symbols i.lo = some s → s ∈ (afterAll P f is st).tls) := by
  induction is generalizing st with
  | nil => cases hi
  | cons j is ih =>
    rcases List.mem_cons.mp hi with rfl | hi
    · have ext := @afterAll_extends P f is (after P f i st)
      refine ⟨fun h => ext.gates _ ?_, fun h => ext.vgates _ ?_, fun h s hs => ext.tls _ ?_⟩
      · show _ ∈ if i.opcode = 6 then note st.gates i.lo else st.gates
        rw [if_pos h]; exact note_mem _ _
      · show _ ∈ if i.opcode = 7 then note st.vgates i.lo else st.vgates
        rw [if_pos h]; exact note_mem _ _
      · show _ ∈ if i.opcode = 0x6e then (match P.symbols i.lo with | some s => note st.tls s | none => st.tls) else st.tls
        rw [if_pos h, hs]; exact note_mem _ _
    · exact ih hi

theorem afterAll_sets {is : List Ins} {st : St} (h : st.gates.Nodup ∧ st.vgates.Nodup ∧ st.tls.Nodup) :
    (afterAll P f is st).gates.Nodup ∧ (afterAll P f is st).vgates.Nodup ∧ (afterAll P f is st).tls.Nodup := by
  induction is generalizing st with
  | nil => exact h
  | cons i is ih =>
    refine ih ⟨?_, ?_, ?_⟩
    · show (if i.opcode = 6 then note st.gates i.lo else st.gates).Nodup
      split
      · exact note_nodup h.1
      · exact h.1
    · show (if i.opcode = 7 then note st.vgates i.lo else st.vgates).Nodup
      split
      · exact note_nodup h.2.1
      · exact h.2.1
    · show (if i.opcode = 0x6e then (match P.symbols i.lo with | some s => note st.tls s | none => st.tls) else st.tls).Nodup
      split
      · split
        · exact note_nodup h.2.2
        · exact h.2.2
      · exact h.2.2

theorem afterAll_gates {is : List Ins} {st : St} {id : Nat} (h : id ∈ (afterAll P f is st).gates) :
    id ∈ st.gates ∨ ∃ i ∈ is, i.opcode = 6 ∧ i.lo = id := by
  induction is generalizing st with
  | nil => exact .inl h
  | cons i is ih =>
    rcases ih h with h | ⟨j, hj, h1, h2⟩
    · have h' : id ∈ if i.opcode = 6 then note st.gates i.lo else st.gates := h
      split at h'
      · rename_i hop
        unfold note at h'
        split at h'
        · exact .inl h'
        · rcases List.mem_append.mp h' with h' | h'
          · exact .inl h'
          · exact .inr ⟨i, List.mem_cons_self, hop, (List.mem_singleton.mp h').symm⟩
      · exact .inl h'
    · exact .inr ⟨j, List.mem_cons_of_mem _ hj, h1, h2⟩

/-! ### What an instruction needs -/

theorem needs_inv {i : Ins} {k : VaKey} {r : Routine} (h : needs P i = some (k, r)) :
    (i.opcode = 0x70 ∧ k = .start ∧ r = .start) ∨ (i.opcode = 0x73 ∧ k = .stop ∧ r = .stop) ∨
    (i.opcode = 0x72 ∧ ∃ n, nodeOf P i = some n ∧
      ((n.fetch = some .integer ∧ k = .scalar n.code ∧ r = .integer n.code (if n.code = 18 then n.param else 0)) ∨
       (n.fetch = some .floating ∧ k = .scalar n.code ∧ r = .sse n.code) ∨
       (n.fetch = some .aggregate ∧ k = .typed i.lo i.hi ∧ r = .aggregate i.lo i.hi) ∨
       (n.fetch = some .vaList ∧ k = .typed i.lo i.hi ∧ r = .vaList))) := by
  unfold needs at h
  split at h
  · rename_i op
    cases h; exact .inl ⟨op, rfl, rfl⟩
  · rename_i op
    cases h; exact .inr (.inl ⟨op, rfl, rfl⟩)
  · rename_i op
    refine .inr (.inr ⟨op, ?_⟩)
    cases hn : nodeOf P i with
    | none => rw [hn] at h; cases h
    | some n =>
      rw [hn, Option.bind_some] at h
      refine ⟨n, rfl, ?_⟩
      cases hf : n.fetch with
      | none => rw [hf] at h; cases h
      | some x =>
        rw [hf] at h
        cases x with
        | integer => cases h; exact .inl ⟨rfl, rfl, rfl⟩
        | floating => cases h; exact .inr (.inl ⟨rfl, rfl, rfl⟩)
        | longDouble => cases h
        | aggregate => cases h; exact .inr (.inr (.inl ⟨rfl, rfl, rfl⟩))
        | vaList => cases h; exact .inr (.inr (.inr ⟨rfl, rfl, rfl⟩))
  · cases h

theorem integer_code {n : Node} (h : n.fetch = some .integer) : n.code ≠ 9 ∧ n.code ≠ 10 := by
  obtain ⟨code, param, size, offset⟩ := n
  constructor
  · intro e
    simp only at e
    subst e
    cases h
  · intro e
    simp only at e
    subst e
    cases h

theorem floating_code {n : Node} (h : n.fetch = some .floating) : n.code = 9 ∨ n.code = 10 := by
  obtain ⟨code, param, size, offset⟩ := n
  unfold Node.fetch at h
  simp only at h ⊢
  split at h
  all_goals try contradiction
  all_goals try (split at h <;> contradiction)
  · exact .inl rfl
  · exact .inr rfl

/-- The same label, the same purpose, except for bits. -/
theorem needs_det {i j : Ins} {k : VaKey} {r r' : Routine} (h : needs P i = some (k, r)) (h' : needs P j = some (k, r'))
    (hb : ∀ b, r ≠ .integer 18 b) : r' = r := by
  have node : ∀ {a b : Nat} {n n' : Node}, i.lo = a → i.hi = b → j.lo = a → j.hi = b → nodeOf P i = some n → nodeOf P j = some n' → n' = n := by
    intro a b n n' h1 h2 h3 h4 h5 h6
    unfold nodeOf at h5 h6
    rw [h1, h2] at h5
    rw [h3, h4, h5] at h6
    exact (Option.some.inj h6).symm
  rcases needs_inv h with ⟨_, rfl, rfl⟩ | ⟨_, rfl, rfl⟩ | ⟨_, n, hn, hc⟩ <;>
  rcases needs_inv h' with ⟨_, k2, rfl⟩ | ⟨_, k2, rfl⟩ | ⟨_, n', hn', hc'⟩
  · rfl
  · cases k2
  · rcases hc' with ⟨_, k2, _⟩ | ⟨_, k2, _⟩ | ⟨_, k2, _⟩ | ⟨_, k2, _⟩ <;> cases k2
  · cases k2
  · rfl
  · rcases hc' with ⟨_, k2, _⟩ | ⟨_, k2, _⟩ | ⟨_, k2, _⟩ | ⟨_, k2, _⟩ <;> cases k2
  · rcases hc with ⟨_, k1, _⟩ | ⟨_, k1, _⟩ | ⟨_, k1, _⟩ | ⟨_, k1, _⟩ <;> rw [k1] at k2 <;> cases k2
  · rcases hc with ⟨_, k1, _⟩ | ⟨_, k1, _⟩ | ⟨_, k1, _⟩ | ⟨_, k1, _⟩ <;> rw [k1] at k2 <;> cases k2
  · rcases hc with ⟨f1, rfl, rfl⟩ | ⟨f1, rfl, rfl⟩ | ⟨f1, rfl, rfl⟩ | ⟨f1, rfl, rfl⟩ <;>
    rcases hc' with ⟨f2, k2, rfl⟩ | ⟨f2, k2, rfl⟩ | ⟨f2, k2, rfl⟩ | ⟨f2, k2, rfl⟩
    all_goals first | (exact VaKey.noConfusion k2) | skip
    · have e : n.code = n'.code := VaKey.scalar.inj k2
      have : n.code ≠ 18 := by
        intro e'
        exact hb (if n.code = 18 then n.param else 0) (by rw [e'])
      rw [← e, if_neg this, if_neg this]
    · have e : n.code = n'.code := VaKey.scalar.inj k2
      have := integer_code f1
      have := floating_code f2
      omega
    · have e : n.code = n'.code := VaKey.scalar.inj k2
      have := integer_code f2
      have := floating_code f1
      omega
    · have e : n.code = n'.code := VaKey.scalar.inj k2
      rw [e]
    · obtain ⟨e1, e2⟩ := VaKey.typed.inj k2
      rw [e1, e2]
    · obtain ⟨e1, e2⟩ := VaKey.typed.inj k2
      have := node e1 e2 rfl rfl hn hn'
      rw [this, f1] at f2
      cases f2
    · obtain ⟨e1, e2⟩ := VaKey.typed.inj k2
      have := node e1 e2 rfl rfl hn hn'
      rw [this, f1] at f2
      cases f2
    · rfl

/-! ### Gates -/

theorem last_digits {a b : List Char} {m n : Nat} {c : Char} (hc : c.isDigit = false)
    (h : a ++ c :: (toString m).toList = b ++ c :: (toString n).toList) : m = n := by
  have h' := congrArg List.reverse h
  simp only [List.reverse_append, List.reverse_cons, List.append_assoc, List.cons_append, List.nil_append] at h'
  have := (cut hc (fun d hd => toString_chars (List.mem_reverse.mp hd)) (fun d hd => toString_chars (List.mem_reverse.mp hd)) h').1
  exact toString_inj (String.toList_inj.mp (List.reverse_inj.mp this))

theorem gateLabel_text (id : Nat) (d : Decl) : ∃ a, (gateLabel id d).toList = a ++ 'e' :: (toString id).toList := by
  unfold gateLabel
  split
  · rename_i n _ _
    have h : "_gate".toList = "_gat".toList ++ ['e'] := by decide +kernel
    exact ⟨"__kefirrt_sfunction_".toList ++ (n.toList ++ "_gat".toList), by
      rw [String.toList_append, String.toList_append, String.toList_append, h]
      simp only [List.append_assoc, List.cons_append, List.nil_append]⟩
  · have h : "__kefirrt_ifunction_gate".toList = "__kefirrt_ifunction_gat".toList ++ ['e'] := by decide +kernel
    exact ⟨"__kefirrt_ifunction_gat".toList, by
      rw [String.toList_append, h]
      simp only [List.append_assoc, List.cons_append, List.nil_append]⟩

theorem gateLabel_inj {m n : Nat} {d d' : Decl} (h : gateLabel m d = gateLabel n d') : m = n := by
  obtain ⟨a, ha⟩ := gateLabel_text m d
  obtain ⟨b, hb⟩ := gateLabel_text n d'
  refine last_digits (a := a) (b := b) (c := 'e') (by decide) ?_
  rw [← ha, ← hb, h]

end Kefir.AsmCode
