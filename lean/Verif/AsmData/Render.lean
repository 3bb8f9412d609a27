import Verif.AsmData.Lex

/-! # Data as text: lines and statements -/

namespace Kefir.AsmData
open Kefir.StaticData

/-! ### What the calls stand for -/

/-- The bytes of a directive's argument. -/
def widthOf : Width → Nat
  | .byte | .ascii => 1
  | .word => 2
  | .double => 4
  | .quad => 8

def argCells (n : Nat) : Arg → List Cell
  | .hex _ v | .dec v => directive n v
  | .int v => le n (v % 2 ^ (8 * n)).toNat
  | .sum t v => addressBytes (.symbol (String.ofList t)) v
  | .address t o => addressBytes t o
  | .str bs => bs.map .byte

def callCells : Call → List Cell
  | .raw w args => args.flatMap (argCells (widthOf w))
  | .zero n => zeros n
  | _ => []

def callItems : Call → List Item
  | .sect n => [.sect (String.ofList n)]
  | .align n => [.align n]
  | .label n => [.label (String.ofList n)]
  | .newline => []
  | c => (callCells c).map fun x => .cell (named x)

/-- A name of an identifier or a literal. -/
def targetOK : Target → Prop
  | .symbol n => isName n.toList = true
  | .literal _ => True

/-- An argument that fits the directive. -/
def argOK (w : Width) : Arg → Prop
  | .hex n v => w ≠ .ascii ∧ 0 < n ∧ v < 16 ^ n
  | .dec _ => w ≠ .ascii
  | .int _ => w ≠ .ascii
  | .sum t _ => w = .quad ∧ isName t = true
  | .address t _ => w = .quad ∧ targetOK t
  | .str _ => False

/-- A well-formed call. -/
def callOK : Call → Prop
  | .sect n | .label n => isName n = true
  | .raw .ascii args => ∃ bs, args = [.str bs] ∧ ∀ b ∈ bs, b < 256
  | .raw w args => ∀ a ∈ args, argOK w a
  | _ => True

/-! ### Tokens of a call -/

def argToks : Arg → List Tok
  | .hex n v => [.word (hexText n v)]
  | .dec v => [.word (dec v)]
  | .int v => if v < 0 then [.punct '-', .word (dec v.natAbs)] else [.word (dec v.natAbs)]
  | .sum t v => [.word t, .punct '+', .word (dec v)]
  | .address t o =>
    if o > 0 then [.word (targetText t), .punct '+', .word (dec o.natAbs)]
    else if o < 0 then [.word (targetText t), .punct '-', .word (dec o.natAbs)]
    else [.word (targetText t)]
  | .str bs => [.str bs]

def moreToks : List Arg → List Tok
  | [] => []
  | a :: as => .punct ',' :: (argToks a ++ moreToks as)

def argsToks : List Arg → List Tok
  | [] => []
  | a :: as => argToks a ++ moreToks as

def widthText : Width → Text
  | .byte => ".byte".toList
  | .word => ".word".toList
  | .double => ".long".toList
  | .quad => ".quad".toList
  | .ascii => ".ascii".toList

def callToks : Call → List Tok
  | .sect n => [.word ".section".toList, .word n]
  | .align n => [.word ".align".toList, .word (dec n)]
  | .label n => [.word n, .punct ':']
  | .raw w args => .word (widthText w) :: argsToks args
  | .zero n => [.word ".zero".toList, .word (dec n)]
  | .newline => []

/-! ### Text of a call -/

def argText : Arg → Text
  | .hex n v => hexText n v
  | .dec v => dec v
  | .int v => decInt v
  | .sum t v => t ++ " + ".toList ++ dec v
  | .address t o => addressText t o
  | .str bs => '"' :: (bs.flatMap stringChar ++ ['"'])

def moreText : List Arg → Text
  | [] => []
  | a :: as => ',' :: ' ' :: (argText a ++ moreText as)

def argsText : List Arg → Text
  | [] => []
  | a :: as => ' ' :: (argText a ++ moreText as)

def lineText : Call → Text
  | .sect n => ".section ".toList ++ n
  | .align n => indentation ++ (".align".toList ++ ' ' :: dec n)
  | .label n => n ++ [':']
  | .raw w args => indentation ++ (widthText w ++ argsText args)
  | .zero n => indentation ++ (".zero ".toList ++ dec n)
  | .newline => []

theorem lineText_sect (n : Text) : lineText (.sect n) = ".section ".toList ++ n := rfl
theorem lineText_align (n : Nat) : lineText (.align n) = indentation ++ (".align".toList ++ ' ' :: dec n) := rfl
theorem lineText_label (n : Text) : lineText (.label n) = n ++ [':'] := rfl
theorem lineText_raw (w : Width) (as : List Arg) :
    lineText (.raw w as) = indentation ++ (widthText w ++ argsText as) := rfl
theorem lineText_zero (n : Nat) : lineText (.zero n) = indentation ++ (".zero ".toList ++ dec n) := rfl
theorem call_sect (g : Gen) (n : Text) : g.call (.sect n) = g.line.print (".section ".toList ++ n) := rfl
theorem call_align (g : Gen) (n : Nat) : g.call (.align n) = (g.instr ".align".toList).argument (dec n) := rfl
theorem call_zero (g : Gen) (n : Nat) : g.call (.zero n) =
    { ((g.line.print indentation).print (".zero ".toList ++ dec n)) with arguments := 0 } := rfl

theorem arg_first (g : Gen) (a : Arg) (h : g.arguments = 0) :
    (g.arg a).out = g.out ++ ' ' :: argText a ∧ (g.arg a).arguments = 1 ∧ (g.arg a).empty = g.empty := by
  cases a <;> simp [Gen.arg, Gen.argument, Gen.stringLiteral, Gen.separator, Gen.print, h, argText, hexText]

theorem arg_next (g : Gen) (a : Arg) (h : g.arguments > 0) :
    (g.arg a).out = g.out ++ ',' :: ' ' :: argText a ∧ (g.arg a).arguments > 0 ∧ (g.arg a).empty = g.empty := by
  cases a <;> simp [Gen.arg, Gen.argument, Gen.stringLiteral, Gen.separator, Gen.print, h, argText, hexText]

theorem args_more : (as : List Arg) → (g : Gen) → g.arguments > 0 →
    (as.foldl Gen.arg g).out = g.out ++ moreText as ∧ (as.foldl Gen.arg g).empty = g.empty
  | [], g, _ => by simp [moreText]
  | a :: as, g, h => by
    obtain ⟨h1, h2, h3⟩ := arg_next g a h
    obtain ⟨i1, i2⟩ := args_more as (g.arg a) h2
    rw [List.foldl_cons, i1, i2, h1, h3]
    simp [moreText]

theorem args_out (as : List Arg) (g : Gen) (h : g.arguments = 0) :
    (as.foldl Gen.arg g).out = g.out ++ argsText as ∧ (as.foldl Gen.arg g).empty = g.empty := by
  cases as with
  | nil => simp [argsText]
  | cons a as =>
    obtain ⟨h1, h2, h3⟩ := arg_first g a h
    obtain ⟨i1, i2⟩ := args_more as (g.arg a) (by omega)
    rw [List.foldl_cons, i1, i2, h1, h3]
    simp [argsText]

theorem line_out (g : Gen) (h : g.empty = false) (t : Text) :
    (g.line.print t).out = g.out ++ '\n' :: t ∧ (g.line.print t).empty = false := by
  simp only [Gen.line, Gen.print, h, Bool.not_false, if_true, List.append_assoc, List.cons_append, List.nil_append,
    and_self]

theorem argument_out (g : Gen) (t : Text) (h : g.arguments = 0) :
    (g.argument t).out = g.out ++ ' ' :: t ∧ (g.argument t).empty = g.empty := by
  simp [Gen.argument, Gen.separator, Gen.print, h]

theorem rawdata_out (g : Gen) (w : Width) : (g.rawdata w).out = (g.line.print indentation).out ++ widthText w ∧
    (g.rawdata w).empty = (g.line.print indentation).empty := by
  cases w <;> exact ⟨rfl, rfl⟩

theorem call_out (g : Gen) (c : Call) (h : g.empty = false) :
    (g.call c).out = g.out ++ '\n' :: lineText c ∧ (g.call c).empty = false := by
  cases c with
  | sect n =>
    rw [call_sect, lineText_sect]
    generalize ".section ".toList = s
    exact line_out g h _
  | align n =>
    obtain ⟨h1, h2⟩ := line_out g h indentation
    rw [call_align, lineText_align]
    generalize ".align".toList = s
    obtain ⟨i1, i2⟩ := argument_out (g.instr s) (dec n) rfl
    refine ⟨?_, i2.trans h2⟩
    refine i1.trans ?_
    show ((g.line.print indentation).out ++ s) ++ ' ' :: dec n = _
    rw [h1]
    simp only [List.append_assoc, List.cons_append]
  | label n =>
    obtain ⟨h1, h2⟩ := line_out g h n
    refine ⟨?_, h2⟩
    show (g.line.print n).out ++ [':'] = _
    rw [h1]
    simp only [lineText_label, List.append_assoc, List.cons_append]
  | raw w as =>
    obtain ⟨h1, h2⟩ := args_out as (g.rawdata w) rfl
    obtain ⟨i1, i2⟩ := line_out g h indentation
    obtain ⟨j1, j2⟩ := rawdata_out g w
    refine ⟨?_, h2.trans (j2.trans i2)⟩
    refine h1.trans ?_
    rw [j1, i1]
    simp only [lineText_raw, List.append_assoc, List.cons_append]
  | zero n =>
    obtain ⟨h1, h2⟩ := line_out g h indentation
    rw [call_zero, lineText_zero]
    generalize ".zero ".toList = s
    refine ⟨?_, h2⟩
    show (g.line.print indentation).out ++ (s ++ dec n) = _
    rw [h1]
    simp only [List.append_assoc, List.cons_append]
  | newline => exact ⟨rfl, h⟩

theorem calls_out : (cs : List Call) → (g : Gen) → g.empty = false →
    (g.calls cs).out = g.out ++ cs.flatMap fun c => '\n' :: lineText c
  | [], g, _ => by simp [Gen.calls]
  | c :: cs, g, h => by
    obtain ⟨h1, h2⟩ := call_out g c h
    have ih := calls_out cs (g.call c) h2
    unfold Gen.calls at ih ⊢
    rw [List.foldl_cons, ih, h1, List.flatMap_cons, List.append_assoc]

/-! ### The tokens of the text -/

theorem name_word {w : Text} (h : isName w = true) : w ≠ [] ∧ w.all wordChar = true := by
  cases w with
  | nil => simp [isName] at h
  | cons c cs =>
    simp only [isName, Bool.and_eq_true] at h
    exact ⟨by simp, by simp only [List.all_cons, h.1.1, h.2, Bool.and_self]⟩

theorem literal_name (id : Nat) : isName ("__kefirrt_string_literal".toList ++ dec id) = true := by
  have : ("__kefirrt_string_literal".toList ++ dec id) =
    '_' :: ("_kefirrt_string_literal".toList ++ dec id) := rfl
  rw [this]
  simp only [isName, List.all_append, (dec_facts id).1, Bool.and_true]
  decide

theorem target_name {t : Target} (h : targetOK t) : isName (targetText t) = true := by
  cases t with
  | symbol n => exact h
  | literal id => exact literal_name id

theorem tokens_arg {w : Width} {a : Arg} (h : argOK w a) {rest : Text} (he : Ends rest) :
    tokens .start (argText a ++ rest) = pre (argToks a) (tokens .start rest) := by
  cases a with
  | hex n v => exact tokens_word (w := hexText n v) (List.cons_ne_nil _ _) (hexText_word n v) he
  | dec v => exact tokens_word (dec_ne v) (dec_facts v).1 he
  | int v =>
    simp only [argText, argToks, decInt]
    by_cases hv : v < 0
    · rw [if_pos hv, if_pos hv, List.cons_append, tokens_punct _ (by simp), tokens_word (dec_ne _) (dec_facts _).1 he, pre_pre]
      rfl
    · rw [if_neg hv, if_neg hv]
      exact tokens_word (dec_ne _) (dec_facts _).1 he
  | sum t v =>
    obtain ⟨n1, n2⟩ := name_word h.2
    simp only [argText, argToks]
    have e : t ++ " + ".toList ++ dec v ++ rest = t ++ (' ' :: '+' :: ' ' :: (dec v ++ rest)) := by simp
    rw [e, tokens_word n1 n2 (ends_blank _), tokens_blank, tokens_punct _ (by simp), tokens_blank,
      tokens_word (dec_ne _) (dec_facts _).1 he, pre_pre, pre_pre]
    rfl
  | address t o =>
    obtain ⟨n1, n2⟩ := name_word (target_name h.2)
    simp only [argText, addressText, argToks]
    by_cases h1 : o > 0
    · rw [if_pos h1, if_pos h1]
      have : decInt o = dec o.natAbs := by rw [decInt, if_neg (by omega)]
      rw [this]
      have e : targetText t ++ " + ".toList ++ dec o.natAbs ++ rest =
        targetText t ++ (' ' :: '+' :: ' ' :: (dec o.natAbs ++ rest)) := by simp
      rw [e, tokens_word n1 n2 (ends_blank _), tokens_blank, tokens_punct _ (by simp), tokens_blank,
        tokens_word (dec_ne _) (dec_facts _).1 he, pre_pre, pre_pre]
      rfl
    · rw [if_neg h1, if_neg h1]
      by_cases h2 : o < 0
      · rw [if_pos h2, if_pos h2]
        have : decInt o = '-' :: dec o.natAbs := by rw [decInt, if_pos h2]
        rw [this]
        have e : targetText t ++ " ".toList ++ '-' :: dec o.natAbs ++ rest =
          targetText t ++ (' ' :: '-' :: (dec o.natAbs ++ rest)) := by simp
        rw [e, tokens_word n1 n2 (ends_blank _), tokens_blank, tokens_punct _ (by simp),
          tokens_word (dec_ne _) (dec_facts _).1 he, pre_pre, pre_pre]
        rfl
      · rw [if_neg h2, if_neg h2]
        exact tokens_word n1 n2 he
  | str bs => exact absurd h id

theorem ends_more (as : List Arg) : Ends (moreText as) := by
  cases as with
  | nil => exact Or.inl rfl
  | cons a as => exact ends_comma _

theorem tokens_more {w : Width} : (as : List Arg) → (∀ a ∈ as, argOK w a) → tokens .start (moreText as) = some (moreToks as)
  | [], _ => rfl
  | a :: as, h => by
    rw [moreText, tokens_punct _ (by simp), tokens_blank, tokens_arg (h a List.mem_cons_self) (ends_more as),
      tokens_more as (fun x hx => h x (List.mem_cons_of_mem _ hx)), pre_some, pre_some]
    rfl

theorem tokens_args {w : Width} (as : List Arg) (h : ∀ a ∈ as, argOK w a) :
    tokens .start (argsText as) = some (argsToks as) := by
  cases as with
  | nil => rfl
  | cons a as =>
    rw [argsText, tokens_blank, tokens_arg (h a List.mem_cons_self) (ends_more as),
      tokens_more as (fun x hx => h x (List.mem_cons_of_mem _ hx)), pre_some]
    rfl

theorem ends_args (as : List Arg) : Ends (argsText as) := by
  cases as with
  | nil => exact Or.inl rfl
  | cons a as => exact ends_blank _

theorem widthText_word (w : Width) : widthText w ≠ [] ∧ (widthText w).all wordChar = true := by cases w <;> decide +kernel

theorem section_space : ".section ".toList = ".section".toList ++ [' '] := by decide +kernel

theorem zero_space : ".zero ".toList = ".zero".toList ++ [' '] := by decide +kernel

theorem tokens_call {c : Call} (h : callOK c) : tokens .start (lineText c) = some (callToks c) := by
  cases c with
  | sect n =>
    obtain ⟨n1, n2⟩ := name_word (w := n) h
    have e : lineText (.sect n) = ".section".toList ++ (' ' :: (n ++ [])) := by
      simp only [lineText_sect, section_space, List.append_assoc, List.cons_append, List.nil_append, List.append_nil]
    rw [e, tokens_word (by decide +kernel) (by decide +kernel) (ends_blank _), tokens_blank, tokens_word n1 n2 (Or.inl rfl), tokens, pre_some, pre_some]
    rfl
  | align n =>
    have e : lineText (.align n) = indentation ++ (".align".toList ++ (' ' :: (dec n ++ []))) := by
      simp only [lineText_align, List.append_nil]
    rw [e, tokens_indent, tokens_word (by decide +kernel) (by decide +kernel) (ends_blank _), tokens_blank,
      tokens_word (dec_ne _) (dec_facts _).1 (Or.inl rfl), tokens, pre_some, pre_some]
    rfl
  | label n =>
    obtain ⟨n1, n2⟩ := name_word (w := n) h
    rw [lineText_label, tokens_word n1 n2 (ends_colon _), tokens_punct _ (by simp)]
    rfl
  | raw w as =>
    rw [lineText_raw, tokens_indent, tokens_word (widthText_word w).1 (widthText_word w).2 (ends_args as)]
    by_cases hw : w = .ascii
    · subst hw
      obtain ⟨bs, rfl, hb⟩ := h
      have e : argsText [.str bs] = ' ' :: '"' :: (bs.flatMap stringChar ++ '"' :: []) := by
        simp [argsText, argText, moreText]
      rw [e, tokens_blank, tokens_string [] hb]
      rfl
    · have h' : ∀ a ∈ as, argOK w a := by cases w <;> first | exact h | exact absurd rfl hw
      rw [tokens_args as h', pre_some]
      rfl
  | zero n =>
    have e : lineText (.zero n) = indentation ++ (".zero".toList ++ (' ' :: (dec n ++ []))) := by
      simp only [lineText_zero, zero_space, List.append_assoc, List.cons_append, List.nil_append, List.append_nil]
    rw [e, tokens_indent, tokens_word (by decide +kernel) (by decide +kernel) (ends_blank _), tokens_blank,
      tokens_word (dec_ne _) (dec_facts _).1 (Or.inl rfl), tokens, pre_some, pre_some]
    rfl
  | newline => rfl

theorem tokens_calls : (cs : List Call) → (∀ c ∈ cs, callOK c) → (t : Text) → (ts : List Tok) →
    tokens .start t = some ts →
    tokens .start (t ++ (cs.flatMap (fun c => '\n' :: lineText c) ++ ['\n'])) =
      some (ts ++ (cs.flatMap (fun c => .newline :: callToks c) ++ [.newline]))
  | [], _, t, ts, h => by
    rw [List.flatMap_nil, List.nil_append, tokens_line t .start ts [] h]
    simp [tokens, pre]
  | c :: cs, hc, t, ts, h => by
    rw [List.flatMap_cons, List.cons_append, List.cons_append, List.append_assoc, tokens_line t .start ts _ h,
      tokens_calls cs (fun x hx => hc x (List.mem_cons_of_mem _ hx)) _ _ (tokens_call (hc c List.mem_cons_self)), pre_some]
    simp

/-! ### Statements -/

theorem argToks_comma {w : Width} {a : Arg} (h : argOK w a) : ∀ t ∈ argToks a, t ≠ .punct ',' := by
  cases a with
  | hex n v => simp [argToks]
  | dec v => simp [argToks]
  | int v => simp only [argToks]; split <;> simp
  | sum t v => simp [argToks]
  | address t o =>
    simp only [argToks]
    split
    · simp
    · split <;> simp
  | str bs => simp [argToks]

theorem operands_skip (n : Nat) : (a cur rest : List Tok) → (∀ t ∈ a, t ≠ .punct ',') →
    operands n cur (a ++ rest) = operands n (cur ++ a) rest
  | [], cur, rest, _ => by simp
  | t :: a, cur, rest, h => by
    rw [List.cons_append, operands, if_neg (h t List.mem_cons_self),
      operands_skip n a (cur ++ [t]) rest (fun x hx => h x (List.mem_cons_of_mem _ hx))]
    simp

theorem le_directive (n v : Nat) : (directive n v).map named = le n (v % 2 ^ (8 * n)) := by
  unfold directive le
  rw [List.map_map]
  rfl

theorem le_named (n v : Nat) : (le n v).map named = le n v := by
  unfold le
  rw [List.map_map]
  rfl

theorem named_address (t : Target) (o : Int) :
    (addressBytes t o).map named = addressBytes (.symbol (String.ofList (targetText t))) o := by
  unfold addressBytes
  rw [List.map_map]
  congr 1
  funext i
  cases t with
  | symbol n =>
    show Cell.address (.symbol n) o i = .address (.symbol (String.ofList n.toList)) o i
    rw [String.ofList_toList]
  | literal id =>
    show Cell.address (.symbol (literalName id)) o i =
      .address (.symbol (String.ofList ("__kefirrt_string_literal".toList ++ dec id))) o i
    rw [String.ofList_append, dec_repr, String.ofList_toList]
    rfl

theorem operand_sum {w : Width} {t : Text} (hw : w = .quad) (ht : isName t = true) (v : Nat) :
    operand (widthOf w) (argToks (.sum t v)) = some ((argCells (widthOf w) (.sum t v)).map named) := by
  subst hw
  have e : ((argCells (widthOf .quad) (.sum t v)).map named) = addressBytes (.symbol (String.ofList t)) (v : Int) :=
    (named_address (.symbol (String.ofList t)) (v : Int)).trans
      (congrArg (fun x => addressBytes (.symbol (String.ofList x)) (v : Int)) String.toList_ofList)
  rw [e]
  show operand 8 [.word t, .punct '+', .word (dec v)] = _
  simp only [operand, ht, and_self, if_true, dec_number]

theorem operand_arg {w : Width} {a : Arg} (h : argOK w a) :
    operand (widthOf w) (argToks a) = some ((argCells (widthOf w) a).map named) := by
  cases a with
  | hex n v =>
    simp only [argToks, operand, hexText_notName, Bool.false_eq_true, if_false, hexText_number h.2.1 h.2.2,
      Option.map_some, argCells, le_directive]
  | dec v =>
    simp only [argToks, operand, dec_notName, Bool.false_eq_true, if_false, dec_number, Option.map_some, argCells,
      le_directive]
  | int v =>
    simp only [argToks, argCells, le_named]
    generalize hp : 2 ^ (8 * widthOf w) = p
    have hp0 : 0 < p := by rw [← hp]; exact Nat.two_pow_pos _
    have hpi : ((2 : Int) ^ (8 * widthOf w)) = (p : Int) := by rw [← hp]; simp
    rw [hpi]
    by_cases hv : v < 0
    · rw [if_pos hv]
      simp only [operand, dec_number, Option.map_some, hp]
      congr 2
      obtain ⟨k, rfl⟩ : ∃ k : Nat, v = -(k : Int) := ⟨v.natAbs, by omega⟩
      have hk := Nat.mod_add_div k p
      have hlt := Nat.mod_lt k hp0
      have : (-(k : Int)) % (p : Int) = (((p - k % p) % p : Nat) : Int) := by
        have e1 : (-(k : Int)) = ((p - k % p : Nat) : Int) + (p : Int) * (-(k / p : Nat) - 1 : Int) := by
          rw [Int.mul_sub, Int.mul_neg, ← Int.natCast_mul]
          omega
        rw [e1, Int.add_mul_emod_self_left]
        simp
      rw [this, Int.toNat_natCast, Int.natAbs_neg, Int.natAbs_natCast]
    · rw [if_neg hv]
      simp only [operand, dec_notName, Bool.false_eq_true, if_false, dec_number, Option.map_some, hp]
      obtain ⟨k, rfl⟩ : ∃ k : Nat, v = (k : Int) := ⟨v.natAbs, by omega⟩
      rw [← Int.natCast_emod, Int.toNat_natCast, Int.natAbs_natCast]
  | sum t v => exact operand_sum h.1 h.2 v
  | address t o =>
    obtain ⟨rfl, ht⟩ := h
    have hn := target_name ht
    simp only [argToks, argCells, named_address, widthOf]
    by_cases h1 : o > 0
    · rw [if_pos h1]
      have : ((o.natAbs : Nat) : Int) = o := by omega
      simp only [operand, hn, and_self, if_true, dec_number, this]
    · rw [if_neg h1]
      by_cases h2 : o < 0
      · rw [if_pos h2]
        have : (-((o.natAbs : Nat) : Int)) = o := by omega
        simp only [operand, hn, and_self, if_true, dec_number, this]
      · rw [if_neg h2]
        have : o = 0 := by omega
        subst this
        simp only [operand, hn, if_true]
  | str bs => exact absurd h id

theorem operands_args {w : Width} : (as : List Arg) → (a : Arg) → argOK w a → (∀ x ∈ as, argOK w x) →
    operands (widthOf w) [] (argToks a ++ moreToks as) =
      some (((a :: as).flatMap (argCells (widthOf w))).map named)
  | [], a, ha, _ => by
    rw [operands_skip _ _ _ _ (argToks_comma ha), moreToks, operands, List.nil_append, operand_arg ha]
    simp
  | b :: as, a, ha, h => by
    rw [operands_skip _ _ _ _ (argToks_comma ha), moreToks, operands, if_pos rfl, List.nil_append, operand_arg ha,
      operands_args as b (h b List.mem_cons_self) (fun x hx => h x (List.mem_cons_of_mem _ hx))]
    simp

theorem operandList_args {w : Width} (as : List Arg) (h : ∀ x ∈ as, argOK w x) :
    operandList (widthOf w) (argsToks as) = some ((as.flatMap (argCells (widthOf w))).map named) := by
  cases as with
  | nil => rfl
  | cons a as =>
    rw [argsToks]
    have := operands_args as a (h a List.mem_cons_self) (fun x hx => h x (List.mem_cons_of_mem _ hx))
    rw [← this]
    cases ht : argToks a ++ moreToks as with
    | nil =>
      exfalso
      have h0 : argToks a = [] := by
        cases hh : argToks a with
        | nil => rfl
        | cons x xs => rw [hh] at ht; simp at ht
      cases a with
      | hex n v => simp [argToks] at h0
      | dec v => simp [argToks] at h0
      | int v => simp only [argToks] at h0; split at h0 <;> simp at h0
      | sum t v => simp [argToks] at h0
      | address t o =>
        simp only [argToks] at h0
        split at h0
        · simp at h0
        · split at h0 <;> simp at h0
      | str bs => simp [argToks] at h0
    | cons t ts => rfl

theorem argsToks_colon {w : Width} (as : List Arg) (h : ∀ x ∈ as, argOK w x) : argsToks as ≠ [.punct ':'] := by
  cases as with
  | nil => simp [argsToks]
  | cons a as =>
    cases a with
    | hex n v => simp [argsToks, argToks]
    | dec v => simp [argsToks, argToks]
    | int v => simp only [argsToks, argToks]; split <;> simp
    | sum t v => simp [argsToks, argToks]
    | address t o =>
      simp only [argsToks, argToks]
      split
      · simp
      · split <;> simp
    | str bs => simp [argsToks, argToks]

theorem statement_word (w : Text) (ts : List Tok) (h : ts ≠ [.punct ':']) :
    statement (.word w :: ts) =
      if w = ".byte".toList then (operandList 1 ts).map (·.map .cell)
      else if w = ".word".toList then (operandList 2 ts).map (·.map .cell)
      else if w = ".long".toList then (operandList 4 ts).map (·.map .cell)
      else if w = ".quad".toList then (operandList 8 ts).map (·.map .cell)
      else
        match ts with
        | [.str bs] => if w = ".ascii".toList then some (bs.map fun b => .cell (.byte b)) else none
        | [.word a] =>
          if w = ".zero".toList then (number a).map fun n => (zeros n).map .cell
          else if w = ".align".toList then (number a).map fun n => [.align n]
          else if w = ".section".toList then some [.sect (String.ofList a)]
          else none
        | _ => none := by
  rw [statement.eq_def]
  split
  · simp at *
  · rename_i heq; injection heq with _ e; exact absurd e h
  · rename_i heq; injection heq with e1 e2; injection e1 with e1; subst e1; subst e2; rfl
  · rename_i hn; exact absurd rfl (hn _ _)

theorem statement_raw {w : Width} (hw : w ≠ .ascii) (as : List Arg) (h : ∀ x ∈ as, argOK w x) :
    statement (.word (widthText w) :: argsToks as) =
      some (((as.flatMap (argCells (widthOf w))).map named).map .cell) := by
  have hl := operandList_args as h
  have hc := argsToks_colon as h
  rw [statement_word _ _ hc]
  generalize argsToks as = ts at hl ⊢
  cases w with
  | byte => rw [if_pos (by decide +kernel), show (1 : Nat) = widthOf .byte from rfl, hl]; rfl
  | word => rw [if_neg (by decide +kernel), if_pos (by decide +kernel), show (2 : Nat) = widthOf .word from rfl, hl]; rfl
  | double =>
    rw [if_neg (by decide +kernel), if_neg (by decide +kernel), if_pos (by decide +kernel), show (4 : Nat) = widthOf .double from rfl, hl]; rfl
  | quad =>
    rw [if_neg (by decide +kernel), if_neg (by decide +kernel), if_neg (by decide +kernel), if_pos (by decide +kernel),
      show (8 : Nat) = widthOf .quad from rfl, hl]; rfl
  | ascii => exact absurd rfl hw

theorem statement_call {c : Call} (h : callOK c) : statement (callToks c) = some (callItems c) := by
  cases c with
  | sect n =>
    simp only [callToks, callItems]
    rw [statement_word _ _ (by simp), if_neg (by decide +kernel), if_neg (by decide +kernel), if_neg (by decide +kernel), if_neg (by decide +kernel)]
    show (if _ then _ else if _ then _ else if _ then _ else _) = _
    rw [if_neg (by decide +kernel), if_neg (by decide +kernel), if_pos (by decide +kernel)]
  | align n =>
    simp only [callToks, callItems]
    rw [statement_word _ _ (by simp), if_neg (by decide +kernel), if_neg (by decide +kernel), if_neg (by decide +kernel), if_neg (by decide +kernel)]
    show (if _ then _ else if _ then _ else if _ then _ else _) = _
    rw [if_neg (by decide +kernel), if_pos (by decide +kernel), dec_number]
    rfl
  | label n =>
    have h' : isName n = true := h
    simp only [callToks, callItems, statement, h', if_true]
  | raw w as =>
    simp only [callToks, callItems, callCells]
    by_cases hw : w = .ascii
    · subst hw
      obtain ⟨bs, rfl, hb⟩ := h
      simp only [argsToks, argToks, moreToks, List.append_nil]
      rw [statement_word _ _ (by simp), if_neg (by decide +kernel), if_neg (by decide +kernel), if_neg (by decide +kernel), if_neg (by decide +kernel)]
      show (if _ then _ else _) = _
      rw [if_pos (by decide +kernel)]
      simp [argCells, named]
    · have h' : ∀ a ∈ as, argOK w a := by cases w <;> first | exact h | exact absurd rfl hw
      rw [statement_raw hw as h', List.map_map]
      rfl
  | zero n =>
    simp only [callToks, callItems, callCells]
    rw [statement_word _ _ (by simp), if_neg (by decide +kernel), if_neg (by decide +kernel), if_neg (by decide +kernel), if_neg (by decide +kernel)]
    show (if _ then _ else if _ then _ else if _ then _ else _) = _
    rw [if_pos (by decide +kernel), dec_number, Option.map_some]
    congr 1
    simp [zeros, named]
  | newline => rfl

theorem callToks_newline {c : Call} : ∀ t ∈ callToks c, t ≠ .newline := by
  have harg : ∀ a, ∀ t ∈ argToks a, t ≠ .newline := by
    intro a
    cases a with
    | hex n v => simp [argToks]
    | dec v => simp [argToks]
    | int v => simp only [argToks]; split <;> simp
    | sum t v => simp [argToks]
    | address t o =>
      simp only [argToks]
      split
      · simp
      · split <;> simp
    | str bs => simp [argToks]
  have hmore : ∀ as, ∀ t ∈ moreToks as, t ≠ .newline := by
    intro as
    induction as with
    | nil => simp [moreToks]
    | cons a as ih =>
      intro t ht
      simp only [moreToks, List.mem_cons, List.mem_append] at ht
      rcases ht with rfl | ht | ht
      · simp
      · exact harg a t ht
      · exact ih t ht
  cases c with
  | raw w as =>
    intro t ht
    simp only [callToks, List.mem_cons] at ht
    rcases ht with rfl | ht
    · simp
    · cases as with
      | nil => simp [argsToks] at ht
      | cons a as =>
        simp only [argsToks, List.mem_append] at ht
        rcases ht with ht | ht
        · exact harg a t ht
        · exact hmore as t ht
  | _ => simp [callToks]

theorem statements_skip : (a cur rest : List Tok) → (∀ t ∈ a, t ≠ .newline) →
    statements cur (a ++ rest) = statements (cur ++ a) rest
  | [], cur, rest, _ => by simp
  | t :: a, cur, rest, h => by
    rw [List.cons_append, statements, if_neg (h t List.mem_cons_self),
      statements_skip a (cur ++ [t]) rest (fun x hx => h x (List.mem_cons_of_mem _ hx))]
    simp

theorem statements_calls : (cs : List Call) → (∀ c ∈ cs, callOK c) → (cur : List Tok) → (is : List Item) →
    statement cur = some is →
    statements cur (cs.flatMap (fun c => .newline :: callToks c) ++ [.newline]) = some (is ++ cs.flatMap callItems)
  | [], _, cur, is, h => by
    rw [List.flatMap_nil, List.nil_append, statements, if_pos rfl, h, statements]
    rfl
  | c :: cs, hc, cur, is, h => by
    rw [List.flatMap_cons, List.cons_append, List.cons_append, statements, if_pos rfl, h, List.append_assoc,
      statements_skip _ _ _ callToks_newline, List.nil_append,
      statements_calls cs (fun x hx => hc x (List.mem_cons_of_mem _ hx)) _ _ (statement_call (hc c List.mem_cons_self))]
    simp

/-- The text of well-formed calls assembles to what the calls stand for. -/
theorem assemble_calls (g : Gen) (hg : g.empty = false) (ho : g.out = []) (cs : List Call) (h : ∀ c ∈ cs, callOK c) :
    assemble (dataText g cs) = some (cs.flatMap callItems) := by
  unfold dataText Gen.close Gen.print
  simp only
  rw [calls_out cs g hg, ho, List.nil_append]
  unfold assemble
  have ht := tokens_calls cs h [] [] rfl
  rw [List.nil_append, List.nil_append] at ht
  rw [ht]
  simp only
  rw [statements_calls cs h [] [] rfl]
  rfl

end Kefir.AsmData
