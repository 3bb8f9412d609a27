import Verif.Locals.Main

/-!
# Addresses of objects
-/

namespace Kefir.Locals

open Kefir.Layout

/-- Offset stored for an entry. -/
def offAt (v : List (Option Data)) (i : Nat) : Nat :=
  match v[i]? with
  | some (some d) => d.offset
  | _ => 0

def sumOff (v : List (Option Data)) : List Nat → Nat
  | [] => 0
  | i :: is => offAt v i + sumOff v is

theorem sumOff_append (v : List (Option Data)) : ∀ xs ys, sumOff v (xs ++ ys) = sumOff v xs + sumOff v ys
  | [], ys => by simp [sumOff]
  | x :: xs, ys => by simp only [List.cons_append, sumOff, sumOff_append v xs ys]; omega

theorem offAt_of {v : List (Option Data)} {i : Nat} {d : Data} (h : v[i]? = some (some d)) : offAt v i = d.offset := by
  simp [offAt, h]

theorem run_resolve (f : Frame) : ∀ (chain : List Nat) (p : Nat),
    f.run p (f.resolve chain) = p + sumOff f.layout chain
  | [], p => by simp [Frame.resolve, Frame.run, sumOff]
  | i :: is, p => by
    have ih := run_resolve f is
    have ho : f.offset i = offAt f.layout i := rfl
    simp only [Frame.resolve] at ih
    simp only [Frame.resolve, List.filter_cons, sumOff, ho]
    by_cases h : offAt f.layout i = 0
    · have := ih p
      simp only [ne_eq, decide_not] at this
      simp [h, this]
    · have := ih (p + offAt f.layout i)
      simp only [ne_eq, decide_not] at this
      simp [h, Frame.run, this, ho, Nat.add_assoc]

theorem address_eq (f : Frame) (o : Obj) : f.address o = sumOff f.layout o.chain := by
  rw [Frame.address, run_resolve]; simp

/-! ## Objects of one scope -/

/-- Objects of identifiers: which entry they have. -/
theorem objIds_mem : ∀ {ids : List Ident} {chain path : List Nat} {i k : Nat} {o : Obj}, o ∈ objIds chain path i k ids →
    ∃ (n : Nat) (m : Nat) (ty : Ty), ids[n]? = some (.auto ty) ∧ (autos ids)[m]? = some ty ∧ o.path = path ∧ o.num = k + n ∧
      m = (autos (ids.take n)).length ∧ o.chain = chain ++ [i + (flattenAll ((autos ids).take m)).length]
  | .auto ty :: ids, chain, path, i, k, o, h => by
    simp only [objIds, List.mem_cons] at h
    rcases h with rfl | h
    · exact ⟨0, 0, ty, rfl, by simp [autos], rfl, rfl, by simp [autos], by simp [flattenAll]⟩
    · obtain ⟨n, m, ty', h1, h2, h3, h4, h5, h6⟩ := objIds_mem h
      refine ⟨n + 1, m + 1, ty', by simpa using h1, by simpa [autos] using h2, h3, by omega, by simp [autos, h5], ?_⟩
      simp only [h6, autos, List.take_succ_cons, flattenAll, List.length_append, Nat.add_assoc]
  | .label :: ids, chain, path, i, k, o, h => by
    simp only [objIds] at h
    obtain ⟨n, m, ty', h1, h2, h3, h4, h5, h6⟩ := objIds_mem h
    exact ⟨n + 1, m, ty', by simpa using h1, by simpa [autos] using h2, h3, by omega, by simp [autos, h5],
      by simpa [autos] using h6⟩
  | .other :: ids, chain, path, i, k, o, h => by
    simp only [objIds] at h
    obtain ⟨n, m, ty', h1, h2, h3, h4, h5, h6⟩ := objIds_mem h
    exact ⟨n + 1, m, ty', by simpa using h1, by simpa [autos] using h2, h3, by omega, by simp [autos, h5],
      by simpa [autos] using h6⟩

theorem objIds_complete : ∀ {ids : List Ident} {n : Nat} {ty : Ty}, ids[n]? = some (.auto ty) →
    ∀ (chain path : List Nat) (i k : Nat), ∃ o ∈ objIds chain path i k ids, o.path = path ∧ o.num = k + n
  | .auto t :: ids, 0, ty, _, chain, path, i, k => ⟨⟨path, k, chain ++ [i]⟩, by simp [objIds], rfl, rfl⟩
  | .label :: _, 0, _, h, _, _, _, _ => by simp at h
  | .other :: _, 0, _, h, _, _, _, _ => by simp at h
  | .auto t :: ids, n + 1, ty, h, chain, path, i, k => by
    obtain ⟨o, ho, h1, h2⟩ := objIds_complete (ids := ids) (n := n) (ty := ty) (by simpa using h) chain path
      (i + (flatten t).length) (k + 1)
    exact ⟨o, by simp [objIds, ho], h1, by omega⟩
  | .label :: ids, n + 1, ty, h, chain, path, i, k => by
    obtain ⟨o, ho, h1, h2⟩ := objIds_complete (ids := ids) (n := n) (ty := ty) (by simpa using h) chain path i (k + 1)
    exact ⟨o, by simp [objIds, ho], h1, by omega⟩
  | .other :: ids, n + 1, ty, h, chain, path, i, k => by
    obtain ⟨o, ho, h1, h2⟩ := objIds_complete (ids := ids) (n := n) (ty := ty) (by simpa using h) chain path i (k + 1)
    exact ⟨o, by simp [objIds, ho], h1, by omega⟩

/-- Different identifiers are different objects. -/
theorem autos_take_lt : ∀ (ids : List Ident) (a b : Nat), a < b → (∃ ty, ids[a]? = some (Ident.auto ty)) →
    (autos (ids.take a)).length < (autos (ids.take b)).length
  | [], a, b, _, ⟨ty, h⟩ => by simp at h
  | x :: ids, a, b + 1, hab, ⟨ty, h⟩ => by
    cases a with
    | zero =>
      simp only [List.getElem?_cons_zero, Option.some.injEq] at h
      subst h
      simp [autos]
    | succ a =>
      have ih := autos_take_lt ids a b (by omega) ⟨ty, by simpa using h⟩
      cases x <;> simp only [List.take_succ_cons, autos, List.length_cons] <;> omega

/-- All objects of a scope have a member of the layout. -/
theorem laidAll_get : ∀ {ts ls}, LaidAll ts ls → ∀ (m : Nat) ty, ts[m]? = some ty → ∃ l, ls[m]? = some l ∧ Laid ty l
  | _, _, .nil, m, ty, h => by simp at h
  | _, _, .cons h hs, 0, ty, e => by
    simp only [List.getElem?_cons_zero, Option.some.injEq] at e; subst e; exact ⟨_, rfl, h⟩
  | _, _, .cons h hs, m + 1, ty, e => by
    simp only [List.getElem?_cons_succ] at e ⊢; exact laidAll_get hs m ty e

/-- Members that are not bit-fields are aligned. -/
theorem consecutive_aligned : ∀ {o ts ls}, Consecutive o ts ls → (∀ ty ∈ ts, ty.isBits = false) → ∀ l ∈ ls,
    l.data.offset % l.data.alignment = 0
  | _, _, _, .nil, _, l, h => by simp at h
  | _, _, _, .cons _ _ h _ hs, hb, l, hl => by
    simp only [List.mem_cons] at hl
    rcases hl with rfl | hl
    · exact h (hb _ (by simp))
    · exact consecutive_aligned hs (fun ty hty => hb ty (by simp [hty])) l hl

theorem consecutive_lt {o ts ls} (hc : Consecutive o ts ls) : ∀ (i j : Nat) a b, i < j → ls[i]? = some a →
    ls[j]? = some b → a.stop ≤ b.data.offset := by
  induction hc with
  | nil => intro i j a b _ ha; simp at ha
  | cons h1 h2 h3 h4 h5 ih =>
    intro i j a b hij ha hb
    cases j with
    | zero => omega
    | succ j =>
      simp only [List.getElem?_cons_succ] at hb
      cases i with
      | zero =>
        simp only [List.getElem?_cons_zero, Option.some.injEq] at ha
        subst ha
        exact consecutive_start h5 j b hb
      | succ i =>
        simp only [List.getElem?_cons_succ] at ha
        exact ih i j a b (by omega) ha hb

/-! ## Objects of all scopes -/

/-- What is known about an object of the scope `s`: its address relative to the scope is the sum of the offsets
of `rest`, and there it fits into the area of the scope. -/
structure At (P : Prop) (v : List (Option Data)) (chain path : List Nat) (sz : Nat) (s : Scope) (o : Obj)
    (rest rel : List Nat) (ty : Ty) (l : LTree) : Prop where
  chain : o.chain = chain ++ rest
  path : o.path = path ++ rel
  declared : Declares s rel o.num ty
  laid : Laid ty l
  data : ∃ pre i, rest = pre ++ [i] ∧ Sub v i l
  fits : sumOff v rest + l.data.size ≤ sz
  aligned : P → l.data.alignment ∣ sumOff v rest

theorem p2_dvd {a b : Nat} (ha : ∃ e, a = 2 ^ e) (hb : P2 b) (hb0 : 0 < b) (h : a ≤ b) : a ∣ b := by
  rcases hb with rfl | hb
  · omega
  · exact pow_dvd_of_le ha hb h

mutual
theorem objs_at {P : Prop} {v : List (Option Data)} : ∀ (s : Scope) (chain path : List Nat) (i sz al : Nat),
    Proper s → (P → ∀ ty, s.Uses ty → PowTy ty) → Placed P v i sz al s → ∀ o ∈ objs chain path i s,
    ∃ rest rel ty l, At P v chain path sz s o rest rel ty l ∧ l.data.alignment ≤ al
  | .node ids subs, chain, path, i, sz, al, hp, hP, hpl, o, ho => by
    obtain ⟨hty, _, hsubs⟩ : (∀ ty, Ident.auto ty ∈ ids → WF ty ∧ ty.isBits = false) ∧ Ident.label ∉ ids ∧
      ProperAll subs := by cases hp; exact ⟨by assumption, by assumption, by assumption⟩
    by_cases he : scopeEmpty (.node ids subs) = true
    · simp [objs, he] at ho
    · simp only [Placed] at hpl
      obtain ⟨d, ls, hd, hd0, hds, hda, hlaid, hcons, hidx, hmem, hun⟩ := hpl (by simpa using he)
      simp only [objs, he, Bool.false_eq_true, if_false, List.mem_append] at ho
      rcases ho with ho | ho
      · obtain ⟨n, m, ty, h1, h2, h3, h4, h5, h6⟩ := objIds_mem ho
        obtain ⟨l, hl, hll⟩ := laidAll_get hlaid m ty h2
        have hsub := hidx m l hl
        have hv := hsub.head
        have hlm := List.mem_of_getElem? hl
        have hs := (hmem l hlm).1
        have ha := (hmem l hlm).2
        have hsum : sumOff v [i, i + 1 + (flattenAll ((autos ids).take m)).length] = l.data.offset := by
          simp only [sumOff, offAt_of hd, offAt_of hv, hd0]; omega
        refine ⟨[i, i + 1 + (flattenAll ((autos ids).take m)).length], [], ty, l, ⟨?_, by simp [h3], ?_, hll,
          ⟨[i], _, rfl, hsub⟩, ?_, ?_⟩, by omega⟩
        · rw [h6]; simp
        · refine .here ?_
          rw [h4]; simpa using h1
        · rw [hsum]; simp only [LTree.stop] at hs; omega
        · intro _
          rw [hsum]
          refine Nat.dvd_of_mod_eq_zero (consecutive_aligned hcons ?_ l hlm)
          intro ty hty'
          exact (hty ty (autos_mem hty')).2
      · by_cases hs : subsEmpty subs = true
        · simp [hs] at ho
        · simp only [hs, Bool.false_eq_true, if_false] at ho
          obtain ⟨du, u1, u2, u3, u4, u5, u6, u7⟩ := hun (by simpa using hs)
          obtain ⟨rest, rel, ty, l, ⟨a1, a2, a3, a4, a5, a6, a7⟩, a8⟩ := objsAll_at (P := P) ids subs [] subs
            (chain ++ [i] ++ [i + 1 + (flattenAll (autos ids)).length]) path _ _ _ 0 rfl rfl hsubs hP u7 o ho
          obtain ⟨pre, x, hx, hxv⟩ := a5
          have hsum : sumOff v ([i, i + 1 + (flattenAll (autos ids)).length] ++ rest) =
              du.offset + sumOff v rest := by
            rw [sumOff_append]
            simp only [sumOff, offAt_of hd, offAt_of u1, hd0]; omega
          refine ⟨[i, i + 1 + (flattenAll (autos ids)).length] ++ rest, rel, ty, l, ⟨?_, a2, a3, a4,
            ⟨[i, i + 1 + (flattenAll (autos ids)).length] ++ pre, x, by rw [hx]; simp, hxv⟩, ?_, ?_⟩, by omega⟩
          · rw [a1]; simp
          · rw [hsum]; omega
          · intro hp
            rw [hsum]
            have hpow := hP hp ty ⟨rel, o.num, a3⟩ l a4
            have hpos : 0 < l.data.alignment := by obtain ⟨e, h⟩ := hpow; rw [h]; exact Nat.two_pow_pos e
            refine Nat.dvd_add ?_ (a7 hp)
            refine Nat.dvd_trans (p2_dvd hpow (u6 hp) (by omega) a8) ?_
            exact Nat.dvd_of_mod_eq_zero (u5 (by omega))

theorem objsAll_at {P : Prop} {v : List (Option Data)} (ids : List Ident) (all : List Scope) :
    ∀ (done ss : List Scope) (chain path : List Nat) (i sz al n : Nat), all = done ++ ss → done.length = n →
    ProperAll ss → (P → ∀ ty, (Scope.node ids all).Uses ty → PowTy ty) → PlacedAll P v i sz al ss →
    ∀ o ∈ objsAll chain path i n ss,
    ∃ rest rel ty l, At P v chain path sz (.node ids all) o rest rel ty l ∧ l.data.alignment ≤ al
  | done, [], chain, path, i, sz, al, n, _, _, _, _, _, o, ho => by simp [objsAll] at ho
  | done, s :: ss, chain, path, i, sz, al, n, hall, hn, hp, hP, hpl, o, ho => by
    obtain ⟨hps, hpss⟩ : Proper s ∧ ProperAll ss := by cases hp; constructor <;> assumption
    simp only [objsAll, List.mem_append] at ho
    rcases ho with ho | ho
    · have hget : all[n]? = some s := by rw [hall, ← hn]; simp
      obtain ⟨rest, rel, ty, l, ⟨a1, a2, a3, a4, a5, a6, a7⟩, a8⟩ := objs_at s chain (path ++ [n]) i sz al hps
        (fun p ty hu => hP p ty (uses_sub (List.mem_of_getElem? hget) hu)) hpl.1 o ho
      exact ⟨rest, n :: rel, ty, l, ⟨a1, by rw [a2]; simp, .sub hget a3, a4, a5, a6, a7⟩, a8⟩
    · exact objsAll_at ids all (done ++ [s]) ss chain path _ sz al (n + 1) (by rw [hall]; simp)
        (by simp [hn]) hpss hP hpl.2 o ho
end

mutual
theorem objs_complete : ∀ (s : Scope) {rel : List Nat} {k : Nat} {ty : Ty}, Declares s rel k ty →
    ∀ (chain path : List Nat) (i : Nat), ∃ o ∈ objs chain path i s, o.path = path ++ rel ∧ o.num = k
  | .node ids subs, rel, k, ty, h, chain, path, i => by
    cases h with
    | here h =>
      have he : scopeEmpty (.node ids subs) = false := by
        have : ∀ (ids : List Ident) (k : Nat), ids[k]? = some (.auto ty) → idsEmpty ids = false := by
          intro ids
          induction ids with
          | nil => intro k h; simp at h
          | cons x ids ih =>
            intro k h
            cases x with
            | auto t => rfl
            | label => rfl
            | other =>
              cases k with
              | zero => simp at h
              | succ k => simp only [idsEmpty]; exact ih k (by simpa using h)
        simp [scopeEmpty, this ids k h]
      obtain ⟨o, ho, h1, h2⟩ := objIds_complete h (chain ++ [i]) path (i + 1) 0
      exact ⟨o, by simp [objs, he, ho], by simp [h1], by omega⟩
    | @sub _ _ s path' _ _ j hj h =>
      have hne := declares_nonempty s h
      have hs : subsEmpty subs = false := subsEmpty_of_mem subs (List.mem_of_getElem? hj) hne
      have he : scopeEmpty (.node ids subs) = false := by simp [scopeEmpty, hs]
      obtain ⟨o, ho, h1, h2⟩ := objsAll_complete subs hj h
        (chain ++ [i] ++ [i + 1 + (flattenAll (autos ids)).length]) path
        (i + 1 + (flattenAll (autos ids)).length + 1) 0
      exact ⟨o, by simp [objs, he, hs]; right; simpa using ho, by rw [h1]; simp, h2⟩

theorem objsAll_complete : ∀ (ss : List Scope) {j : Nat} {s : Scope} {rel : List Nat} {k : Nat} {ty : Ty},
    ss[j]? = some s → Declares s rel k ty → ∀ (chain path : List Nat) (i n : Nat),
    ∃ o ∈ objsAll chain path i n ss, o.path = path ++ [n + j] ++ rel ∧ o.num = k
  | [], j, s, _, _, _, h, _, _, _, _, _ => by simp at h
  | s' :: ss, 0, s, rel, k, ty, hj, h, chain, path, i, n => by
    simp only [List.getElem?_cons_zero, Option.some.injEq] at hj
    subst hj
    obtain ⟨o, ho, h1, h2⟩ := objs_complete s' h chain (path ++ [n]) i
    exact ⟨o, by simp [objsAll, ho], by rw [h1]; simp, h2⟩
  | s' :: ss, j + 1, s, rel, k, ty, hj, h, chain, path, i, n => by
    obtain ⟨o, ho, h1, h2⟩ := objsAll_complete ss (j := j) (by simpa using hj) h chain path (i + (ent s').length) (n + 1)
    exact ⟨o, by simp [objsAll, ho], by rw [h1, show n + 1 + j = n + (j + 1) by omega], h2⟩

theorem declares_nonempty : ∀ (s : Scope) {rel : List Nat} {k : Nat} {ty : Ty}, Declares s rel k ty →
    scopeEmpty s = false
  | .node ids subs, rel, k, ty, h => by
    cases h with
    | here h =>
      have : ∀ (ids : List Ident) (k : Nat), ids[k]? = some (.auto ty) → idsEmpty ids = false := by
        intro ids
        induction ids with
        | nil => intro k h; simp at h
        | cons x ids ih =>
          intro k h
          cases x with
          | auto t => rfl
          | label => rfl
          | other =>
            cases k with
            | zero => simp at h
            | succ k => simp only [idsEmpty]; exact ih k (by simpa using h)
      simp [scopeEmpty, this ids k h]
    | @sub _ _ s path' _ _ j hj h =>
      have hne := declares_nonempty s h
      have hs : subsEmpty subs = false := subsEmpty_of_mem subs (List.mem_of_getElem? hj) hne
      simp [scopeEmpty, hs]

theorem subsEmpty_of_mem : ∀ (ss : List Scope) {s : Scope}, s ∈ ss → scopeEmpty s = false → subsEmpty ss = false
  | s' :: ss, s, hm, h => by
    simp only [List.mem_cons] at hm
    rcases hm with rfl | hm
    · simp [subsEmpty, h]
    · simp [subsEmpty, subsEmpty_of_mem ss hm h]
end

end Kefir.Locals
