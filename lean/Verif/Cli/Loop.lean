import Verif.Cli.Lemmas

/-! # The loop over the arguments -/
namespace Kefir.Cli

theorem getLong_size {s args e a args' l'} (h : getLong s args = .option e a args' l') :
    size args' l' ≤ size args [] := by
  simp only [getLong] at h
  split at h
  · cases h
  · split at h
    · split at h
      · cases h; exact Nat.le_refl _
      · cases h
    · split at h
      · split at h
        · cases h; simp [size]
        · cases h
      · cases h; exact Nat.le_refl _

theorem getShort_size {c l args e a args' l'} (h : getShort c l args = .option e a args' l') :
    size args' l' ≤ size args l := by
  simp only [getShort] at h
  split at h
  · cases h
  · split at h
    · split at h
      · cases h
      · cases h; simp [size]
      · cases h; simp [size]
    · cases h; exact Nat.le_refl _

theorem getopt_size {args l e a args' l'} (h : getopt args l = .option e a args' l') :
    size args' l' < size args l := by
  unfold getopt at h
  split at h
  · have := getShort_size h
    simp only [size, List.length_cons] at this ⊢; omega
  · split at h
    · cases h
    · split at h
      · split at h
        · cases h
        · have := getLong_size h
          simp only [size, List.length_cons, List.length_nil, List.map_cons, List.sum_cons] at this ⊢; omega
      · have := getShort_size h
        simp only [size, List.length_cons, List.length_nil, List.map_cons, List.sum_cons] at this ⊢; omega
      · cases h

/-- More calls than characters make no difference. -/
theorem loopN_fuel (n m : Nat) (o : Options) (args : List Str) (l : Str) (hn : size args l < n)
    (hm : size args l < m) : loopN n o args l = loopN m o args l := by
  induction n generalizing m o args l with
  | zero => omega
  | succ n ih =>
    cases m with
    | zero => omega
    | succ m =>
      simp only [loopN]
      split
      · rfl
      · rfl
      · rename_i hg
        have := getopt_size hg
        congr 1
        funext o
        exact ih m o _ _ (by omega) (by omega)

/-- The loop, one call at a time. -/
theorem loop_eq (o : Options) (args : List Str) (l : Str) :
    loop o args l = match getopt args l with
      | .error e => .error e
      | .done operands => .ok (o, operands)
      | .option e arg args l => process o e arg >>= fun o => loop o args l := by
  rw [loop, loopN]
  split
  · rename_i h; simp only [h]
  · rename_i h; simp only [h]
  · rename_i h
    simp only [h]
    have := getopt_size h
    congr 1
    funext o
    exact loopN_fuel _ _ _ _ _ (by omega) (by omega)

theorem loop_option {o args l e a args' l' m} (h : getopt args l = .option e a args' l') (hs : Stands e m) :
    loop o args l = step o (m a) >>= fun o => loop o args' l' := by
  rw [loop_eq, h]
  simp only [stands_process hs]

theorem loop_error {o args l e} (h : getopt args l = .error e) : loop o args l = .error e := by
  rw [loop_eq, h]

theorem loop_done {o args l fs} (h : getopt args l = .done fs) : loop o args l = .ok (o, fs) := by
  rw [loop_eq, h]

/-- The effect of options one after the other. -/
def steps (o : Options) : List Opt → Except Err Options
  | [] => .ok o
  | x :: xs => step o x >>= fun o => steps o xs

theorem steps_append (o : Options) (xs ys : List Opt) : steps o (xs ++ ys) = steps o xs >>= fun o => steps o ys := by
  induction xs generalizing o with
  | nil => rfl
  | cons x xs ih =>
    simp only [List.cons_append, steps]
    cases step o x with
    | error e => rfl
    | ok o => exact ih o

theorem steps_one (o : Options) (x : Opt) : steps o [x] = step o x := by
  simp only [steps]
  cases step o x <;> rfl

/-! ### Options that are spelled out -/

theorem getopt_long {e : CliOption} (he : e ∈ table) (args : List Str) :
    getopt (('-' :: '-' :: e.long.toList) :: args) [] =
      if e.hasArgument then (match args with
        | v :: args => .option e v args []
        | [] => .error .missing)
      else .option e [] args [] := by
  have hn := table_name e he
  simp only [getopt, if_neg hn.1, getLong, longName_all hn.2, findLong_exact he, List.drop_length]
  cases args <;> rfl

theorem getopt_longEq {e : CliOption} (he : e ∈ table) (v : Str) (args : List Str) :
    getopt (('-' :: '-' :: e.long.toList ++ '=' :: v) :: args) [] =
      if e.hasArgument then .option e v args [] else .error .unknown := by
  have hn := table_name e he
  simp only [getopt, List.cons_append, getLong, longName_eq hn.2, findLong_exact he, List.drop_left,
    if_neg (show e.long.toList ++ '=' :: v ≠ [] by simp)]

theorem getopt_letter (c : Char) (l : Str) (args : List Str) : getopt args (c :: l) = getShort c l args := rfl

theorem getopt_word {c : Char} (hc : c ≠ '-') (l : Str) (args : List Str) :
    getopt (('-' :: c :: l) :: args) [] = getopt args (c :: l) := by
  simp only [getopt]

theorem loop_word {o : Options} {c : Char} (hc : c ≠ '-') (l : Str) (args : List Str) :
    loop o (('-' :: c :: l) :: args) [] = loop o args (c :: l) := by
  rw [loop_eq, loop_eq, getopt_word hc]

/-- The entry of an option with a letter. -/
theorem entry_short {x : Opt} {c} (h : x.short = some c) :
    ∃ e m, Stands e m ∧ findShort c = some e ∧ m ((x.arg).getD []) = x ∧ e.hasArgument = x.arg.isSome ∧ c ≠ '-' := by
  obtain ⟨n, hn⟩ := long_of_short h
  obtain ⟨e, m, hs, _, hm⟩ := stands_of_long hn
  have := stands_names hs ((x.arg).getD [])
  rw [hm] at this
  have hsh : e.short = some c := by rw [← this.2.1, h]
  refine ⟨e, m, hs, findShort_exact hs.mem hsh, hm, ?_, fun hc => table_letter e hs.mem (hc ▸ hsh)⟩
  rw [this.2.2]
  cases e.hasArgument <;> rfl

theorem entry_long {x : Opt} {n : Str} (h : Exact n x) :
    ∃ e m, Stands e m ∧ n = e.long.toList ∧ m ((x.arg).getD []) = x ∧ e.hasArgument = x.arg.isSome := by
  obtain ⟨n', hn, rfl⟩ := h
  obtain ⟨e, m, hs, hl, hm⟩ := stands_of_long hn
  have := stands_names hs ((x.arg).getD [])
  rw [hm] at this
  refine ⟨e, m, hs, by rw [hl], hm, ?_⟩
  rw [this.2.2]
  cases e.hasArgument <;> rfl

theorem loop_letters {cs fs} (h : Letters cs fs) (o : Options) (args : List Str) (l : Str) :
    loop o args (cs ++ l) = steps o fs >>= fun o => loop o args l := by
  induction h generalizing o with
  | nil => rfl
  | @cons c x cs os hx ha _ ih =>
    obtain ⟨e, m, hs, hf, hm, harg, _⟩ := entry_short hx
    have hg : getopt args (c :: (cs ++ l)) = .option e [] args (cs ++ l) := by
      simp [getopt_letter, getShort, hf, harg, ha]
    rw [List.cons_append, loop_option hg hs]
    have : m [] = x := by rw [← hm, ha]; rfl
    rw [this, steps]
    cases step o x with
    | error e => rfl
    | ok o => exact ih o

theorem loop_letter_arg {x : Opt} {c v} (hx : x.short = some c) (ha : x.arg = some v) (hv : v ≠ []) (o : Options)
    (args : List Str) : loop o args (c :: v) = step o x >>= fun o => loop o args [] := by
  obtain ⟨e, m, hs, hf, hm, harg, _⟩ := entry_short hx
  have hg : getopt args (c :: v) = .option e v args [] := by
    cases v with
    | nil => exact absurd rfl hv
    | cons a v => simp [getopt_letter, getShort, hf, harg, ha]
  rw [loop_option hg hs]
  have : m v = x := by rw [← hm, ha]; rfl
  rw [this]

theorem loop_letter_next {x : Opt} {c v} (hx : x.short = some c) (ha : x.arg = some v) (o : Options)
    (args : List Str) : loop o (v :: args) [c] = step o x >>= fun o => loop o args [] := by
  obtain ⟨e, m, hs, hf, hm, harg, _⟩ := entry_short hx
  have hg : getopt (v :: args) [c] = .option e v args [] := by
    simp [getopt_letter, getShort, hf, harg, ha]
  rw [loop_option hg hs]
  have : m v = x := by rw [← hm, ha]; rfl
  rw [this]

theorem letters_head {cs fs} (h : Letters cs fs) {c : Char} (hc : c ≠ '-') (l : Str) :
    ∃ c' l', cs ++ c :: l = c' :: l' ∧ c' ≠ '-' := by
  cases h with
  | nil => exact ⟨c, l, rfl, hc⟩
  | cons hx _ _ => exact ⟨_, _, rfl, (entry_short hx).choose_spec.choose_spec.2.2.2.2⟩

theorem bind_assoc' {α β γ : Type} (x : Except Err α) (f : α → Except Err β) (g : β → Except Err γ) :
    (x >>= f) >>= g = x >>= fun a => f a >>= g := by
  cases x <;> rfl

/-- Options that are spelled out have their effects, then the rest is read. -/
theorem loop_spells {args os} (h : Spells Exact args os) (o : Options) (tail : List Str) :
    loop o (args ++ tail) [] = steps o os >>= fun o => loop o tail [] := by
  induction h generalizing o with
  | nil => rfl
  | @long n x args os hn ha _ ih =>
    obtain ⟨e, m, hs, rfl, hm, harg⟩ := entry_long hn
    have hg := getopt_long hs.mem (args ++ tail)
    rw [harg, ha] at hg
    rw [List.cons_append, loop_option hg hs]
    have : m [] = x := by rw [← hm, ha]; rfl
    rw [this, steps, bind_assoc']
    simp only [ih]
  | @longEq n x v args os hn ha _ ih =>
    obtain ⟨e, m, hs, rfl, hm, harg⟩ := entry_long hn
    have hg := getopt_longEq hs.mem v (args ++ tail)
    rw [harg, ha] at hg
    rw [List.cons_append, loop_option hg hs]
    have : m v = x := by rw [← hm, ha]; rfl
    rw [this, steps, bind_assoc']
    simp only [ih]
  | @longNext n x v args os hn ha _ ih =>
    obtain ⟨e, m, hs, rfl, hm, harg⟩ := entry_long hn
    have hg := getopt_long hs.mem (v :: (args ++ tail))
    rw [harg, ha] at hg
    rw [List.cons_append, List.cons_append, loop_option hg hs]
    have : m v = x := by rw [← hm, ha]; rfl
    rw [this, steps, bind_assoc']
    simp only [ih]
  | @letters cs fs args os hl hne _ ih =>
    cases hl with
    | nil => exact absurd rfl hne
    | @cons c x cs fs hx ha hl =>
      have hc := (entry_short hx).choose_spec.choose_spec.2.2.2.2
      rw [List.cons_append, loop_word hc]
      have := loop_letters (.cons hx ha hl) o (args ++ tail) []
      rw [List.append_nil] at this
      rw [this, steps_append, bind_assoc']
      simp only [ih]
  | @lettersArg cs fs c x v args os hl hx ha hv _ ih =>
    have hc := (entry_short hx).choose_spec.choose_spec.2.2.2.2
    obtain ⟨c', l', he, hc'⟩ := letters_head hl hc v
    have hw : '-' :: cs ++ c :: v = '-' :: c' :: l' := by rw [List.cons_append, he]
    rw [List.cons_append, hw, loop_word hc', ← he, loop_letters hl, steps_append, bind_assoc']
    simp only [loop_letter_arg hx ha hv, steps, bind_assoc', ih]
  | @lettersNext cs fs c x v args os hl hx ha _ ih =>
    have hc := (entry_short hx).choose_spec.choose_spec.2.2.2.2
    obtain ⟨c', l', he, hc'⟩ := letters_head hl hc []
    have hw : '-' :: cs ++ [c] = '-' :: c' :: l' := by rw [List.cons_append, he]
    rw [List.cons_append, hw, loop_word hc', ← he, loop_letters hl, steps_append, bind_assoc']
    simp only [List.cons_append, loop_letter_next hx ha, steps, bind_assoc', ih]

theorem loop_operands {tail fs} (h : Operands tail fs) (o : Options) : loop o tail [] = .ok (o, fs) := by
  apply loop_done
  cases h with
  | none => rfl
  | @plain f fs hf =>
    unfold getopt
    simp only
    split
    · rename_i h
      rcases hf with hf | hf
      · simp at hf
      · cases hf
    · rename_i h
      rcases hf with hf | hf
      · simp at hf
      · cases hf
    · rfl
  | dashes => rfl

/-! ### What is accepted is spelled out -/

/-- The letters `l` and the arguments `pre` give the options `os`. -/
def Reads (l : Str) (pre : List Str) (os : List Opt) : Prop :=
  ∃ cs fs os', Letters cs fs ∧
    ((l = cs ∧ os = fs ++ os' ∧ Spells Abbreviates pre os') ∨
     (∃ c x v, x.short = some c ∧ x.arg = some v ∧ v ≠ [] ∧ l = cs ++ c :: v ∧ os = fs ++ x :: os' ∧
        Spells Abbreviates pre os') ∨
     (∃ c x v pre', x.short = some c ∧ x.arg = some v ∧ l = cs ++ [c] ∧ pre = v :: pre' ∧ os = fs ++ x :: os' ∧
        Spells Abbreviates pre' os'))

theorem reads_nil {pre os} : Reads [] pre os ↔ Spells Abbreviates pre os := by
  constructor
  · rintro ⟨cs, fs, os', hl, ⟨rfl, rfl, h⟩ | ⟨c, x, v, _, _, _, h, _⟩ | ⟨c, x, v, pre', _, _, h, _⟩⟩
    · cases hl; exact h
    · simp at h
    · simp at h
  · exact fun h => ⟨[], [], os, .nil, .inl ⟨rfl, rfl, h⟩⟩

theorem reads_cons {c x l pre os} (hx : x.short = some c) (ha : x.arg = none) (h : Reads l pre os) :
    Reads (c :: l) pre (x :: os) := by
  obtain ⟨cs, fs, os', hl, ⟨rfl, rfl, h⟩ | ⟨c', x', v, h1, h2, h3, rfl, rfl, h⟩ |
    ⟨c', x', v, pre', h1, h2, rfl, rfl, rfl, h⟩⟩ := h
  · exact ⟨_, _, os', .cons hx ha hl, .inl ⟨rfl, rfl, h⟩⟩
  · exact ⟨_, _, os', .cons hx ha hl, .inr (.inl ⟨c', x', v, h1, h2, h3, rfl, rfl, h⟩)⟩
  · exact ⟨_, _, os', .cons hx ha hl, .inr (.inr ⟨c', x', v, pre', h1, h2, rfl, rfl, rfl, h⟩)⟩

/-- A word of letters. -/
theorem reads_word {l pre os} (hl : l ≠ []) (h : Reads l pre os) : Spells Abbreviates (('-' :: l) :: pre) os := by
  obtain ⟨cs, fs, os', hcs, ⟨rfl, rfl, h⟩ | ⟨c', x', v, h1, h2, h3, rfl, rfl, h⟩ |
    ⟨c', x', v, pre', h1, h2, rfl, rfl, rfl, h⟩⟩ := h
  · exact .letters hcs hl h
  · exact .lettersArg hcs h1 h2 h3 h
  · exact .lettersNext hcs h1 h2 h

/-- One letter: the options that the state after it reads, with the option of the letter. -/
theorem getShort_reads {c l args e a args' l'} (h : getShort c l args = .option e a args' l') :
    ∃ m, Stands e m ∧ ∀ pre tail os, args' = pre ++ tail → Reads l' pre os →
      ∃ pre', args = pre' ++ tail ∧ Reads (c :: l) pre' (m a :: os) := by
  simp only [getShort] at h
  split at h
  · cases h
  · rename_i e' hf
    obtain ⟨he, hsh⟩ := findShort_some hf
    obtain ⟨m, hs⟩ := stands_of_mem he
    have hn := fun v => stands_names hs v
    split at h
    · rename_i harg
      split at h
      · cases h
      · cases h
        refine ⟨m, hs, fun pre tail os hp hr => ?_⟩
        subst hp
        refine ⟨a :: pre, rfl, [], [], os, .nil, .inr (.inr ⟨c, m a, a, pre, ?_, ?_, rfl, rfl, rfl, reads_nil.1 hr⟩)⟩
        · rw [(hn a).2.1, hsh]
        · rw [(hn a).2.2, if_pos harg]
      · rename_i hne1 hne2
        cases h
        refine ⟨m, hs, fun pre tail os hp hr => ?_⟩
        subst hp
        refine ⟨pre, rfl, [], [], os, .nil, .inr (.inl ⟨c, m l, l, ?_, ?_, ?_, rfl, rfl, reads_nil.1 hr⟩)⟩
        · rw [(hn l).2.1, hsh]
        · rw [(hn l).2.2, if_pos harg]
        · rintro rfl
          cases hpt : pre ++ tail with
          | nil => exact hne1 rfl hpt
          | cons v r => exact hne2 v r rfl hpt
    · rename_i harg
      cases h
      refine ⟨m, hs, fun pre tail os hp hr => ⟨pre, hp, reads_cons ?_ ?_ hr⟩⟩
      · rw [(hn []).2.1, hsh]
      · rw [(hn []).2.2, if_neg harg]

theorem getLong_reads {s args e a args' l'} (h : getLong s args = .option e a args' l') :
    ∃ m, Stands e m ∧ ∀ pre tail os, args' = pre ++ tail → Reads l' pre os →
      ∃ pre', args = pre' ++ tail ∧ Spells Abbreviates (('-' :: '-' :: s) :: pre') (m a :: os) := by
  simp only [getLong] at h
  split at h
  · cases h
  · rename_i e' hf
    obtain ⟨he, hp⟩ := findLong_prefix hf
    obtain ⟨m, hs⟩ := stands_of_mem he
    have hn := fun v => stands_names hs v
    have hab : ∀ v, Abbreviates (longName s) (m v) := fun v => ⟨_, (hn v).1, hp⟩
    obtain ⟨_, ⟨h1, h2⟩ | ⟨v, h1, h2⟩⟩ := longName_split s
    · rw [h2] at h
      simp only at h
      split at h
      · rename_i harg
        split at h
        · cases h
          refine ⟨m, hs, fun pre tail os hp hr => ⟨a :: pre, by rw [hp]; rfl, ?_⟩⟩
          have := Spells.longNext (hab a) (by rw [(hn a).2.2, if_pos harg]) (reads_nil.1 hr)
          rwa [← h1] at this
        · cases h
      · rename_i harg
        cases h
        refine ⟨m, hs, fun pre tail os hp hr => ⟨pre, hp, ?_⟩⟩
        have := Spells.long (hab []) (by rw [(hn []).2.2, if_neg harg]) (reads_nil.1 hr)
        rwa [← h1] at this
    · rw [h2] at h
      simp only at h
      split at h
      · rename_i harg
        cases h
        refine ⟨m, hs, fun pre tail os hp hr => ⟨pre, hp, ?_⟩⟩
        have := Spells.longEq (hab a) (by rw [(hn a).2.2, if_pos harg]) (reads_nil.1 hr)
        rwa [List.cons_append, List.cons_append, ← h1] at this
      · cases h

theorem bind_ok {α β : Type} {x : Except Err α} {f : α → Except Err β} {b} (h : x >>= f = .ok b) :
    ∃ a, x = .ok a ∧ f a = .ok b := by
  cases x with
  | error e => cases h
  | ok a => exact ⟨a, rfl, h⟩

theorem getopt_reads {args l e a args' l'} (h : getopt args l = .option e a args' l') :
    ∃ m, Stands e m ∧ ∀ pre tail os, args' = pre ++ tail → Reads l' pre os →
      ∃ pre', args = pre' ++ tail ∧ Reads l pre' (m a :: os) := by
  unfold getopt at h
  split at h
  · exact getShort_reads h
  · split at h
    · cases h
    · split at h
      · split at h
        · cases h
        · obtain ⟨m, hs, H⟩ := getLong_reads h
          refine ⟨m, hs, fun pre tail os hp hr => ?_⟩
          obtain ⟨pre', hp', hr'⟩ := H pre tail os hp hr
          exact ⟨_ :: pre', by rw [hp']; rfl, reads_nil.2 hr'⟩
      · obtain ⟨m, hs, H⟩ := getShort_reads h
        refine ⟨m, hs, fun pre tail os hp hr => ?_⟩
        obtain ⟨pre', hp', hr'⟩ := H pre tail os hp hr
        exact ⟨_ :: pre', by rw [hp']; rfl, reads_nil.2 (reads_word (by simp) hr')⟩
      · cases h

theorem plain_of {a : Str} (h : ∀ c l, a = '-' :: c :: l → False) : a.head? ≠ some '-' ∨ a = ['-'] := by
  cases a with
  | nil => exact .inl (by simp)
  | cons c a =>
    by_cases hc : c = '-'
    · subst hc
      cases a with
      | nil => exact .inr rfl
      | cons d a => exact (h d a rfl).elim
    · exact .inl (by simpa using hc)

theorem getopt_done {args l fs} (h : getopt args l = .done fs) : l = [] ∧ Operands args fs := by
  unfold getopt at h
  split at h
  · exfalso
    simp only [getShort] at h
    split at h
    · cases h
    · split at h
      · split at h <;> cases h
      · cases h
  · refine ⟨rfl, ?_⟩
    split at h
    · cases h; exact .none
    · split at h
      · split at h
        · rename_i hs; cases h; subst hs; exact .dashes
        · exfalso
          simp only [getLong] at h
          split at h
          · cases h
          · split at h
            · split at h <;> cases h
            · split at h
              · split at h <;> cases h
              · cases h
      · exfalso
        simp only [getShort] at h
        split at h
        · cases h
        · split at h
          · split at h <;> cases h
          · cases h
      · cases h
        exact .plain (plain_of (by assumption))

/-- Arguments that are accepted are options, possibly abbreviated, and operands. -/
theorem loop_ok (n : Nat) : ∀ (o : Options) (args : List Str) (l : Str) (o' : Options) (fs : List Str),
    size args l < n → loop o args l = .ok (o', fs) →
    ∃ pre tail os, args = pre ++ tail ∧ Reads l pre os ∧ Operands tail fs ∧ steps o os = .ok o' := by
  induction n with
  | zero => intro o args l o' fs h; omega
  | succ n ih =>
    intro o args l o' fs hn h
    cases hg : getopt args l with
    | error e => rw [loop_error hg] at h; cases h
    | done operands =>
      rw [loop_done hg] at h
      cases h
      obtain ⟨rfl, ho⟩ := getopt_done hg
      exact ⟨[], args, [], rfl, reads_nil.2 .nil, ho, rfl⟩
    | option e a args' l' =>
      obtain ⟨m, hs, H⟩ := getopt_reads hg
      rw [loop_option hg hs] at h
      obtain ⟨o1, h1, h2⟩ := bind_ok h
      obtain ⟨pre, tail, os, hp, hr, ho, hst⟩ := ih o1 args' l' o' fs (by have := getopt_size hg; omega) h2
      obtain ⟨pre', hp', hr'⟩ := H pre tail os hp hr
      exact ⟨pre', tail, _, hp', hr', ho, by rw [steps, h1]; exact hst⟩

end Kefir.Cli
