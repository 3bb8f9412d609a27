import Verif.Scope.Lemmas
import Verif.SymbolTable.Props

namespace Kefir.Scope

open Kefir.HashTree (Ops Node Map Rel runCalls)
open Kefir.SymbolTable (StrPtr strOps str_lawful)

/-- Forget the addresses of the names. -/
def PCall.bytes : PCall StrPtr → PCall (List UInt8)
  | .push => .push
  | .pop => .pop
  | .declare kind name => .declare kind name.str
  | .isTypedef name => .isTypedef name.str

/-- A hash tree represents a list of declarations. -/
def RelN (block : Node StrPtr Kind) (scope : List (List UInt8 × Kind)) : Prop :=
  ∃ m : Map StrPtr Kind, Rel strOps block m ∧ m.map (fun p => (p.1.str, p.2)) = scope

theorem kindIn_eq {m : Map StrPtr Kind} (name : StrPtr) :
    kindIn name.str (m.map (fun p => (p.1.str, p.2))) =
      (m.find? (fun p => strOps.compareKeys p.1 name)).map (·.2) := by
  unfold kindIn
  rw [List.find?_map]
  simp only [Option.map_map]
  rfl

theorem blockIsTypedef_spec {block : Node StrPtr Kind} {scope : List (List UInt8 × Kind)}
    (h : RelN block scope) (name : StrPtr) :
    blockIsTypedef block name = match kindIn name.str scope with
      | some k => .ok (k == .typedefName)
      | none => .error .notFound := by
  obtain ⟨m, hr, rfl⟩ := h
  rw [kindIn_eq]
  have := flatAt_spec str_lawful hr name
  unfold flatAt at this
  unfold blockIsTypedef
  cases hf : m.find? (fun p => strOps.compareKeys p.1 name) with
  | some p =>
    rw [hf] at this
    cases ha : HashTree.at' strOps name block with
    | ok e => rw [ha] at this; simp at this; simp [this]
    | error e => rw [ha] at this; simp at this
  | none =>
    rw [hf] at this
    cases ha : HashTree.at' strOps name block with
    | ok e => rw [ha] at this; simp at this
    | error e => rw [ha] at this; simp at this; simp [this]

theorem blockDeclare_spec {block : Node StrPtr Kind} {scope : List (List UInt8 × Kind)}
    (h : RelN block scope) (kind : Kind) (name : StrPtr) :
    match kindIn name.str scope with
    | none => ∃ block', blockDeclare kind name block = .ok block' ∧
        RelN block' ((name.str, kind) :: scope)
    | some k => blockDeclare kind name block =
        if k = kind then .ok block else .error .alreadyExists := by
  have ht := blockIsTypedef_spec h name
  obtain ⟨m, hr, rfl⟩ := h
  have hk := kindIn_eq (m := m) name
  have hi := flatInsert_spec str_lawful hr name kind
  unfold flatInsert at hi
  unfold blockDeclare
  cases hf : m.find? (fun p => strOps.compareKeys p.1 name) with
  | none =>
    rw [hf] at hk
    rw [hk]
    have hany : m.any (fun p => strOps.compareKeys p.1 name) = false := by
      rw [List.any_eq_false]; intro x hx; exact List.find?_eq_none.1 hf x hx
    rcases hi with ⟨h1, _⟩ | ⟨_, t', h2, h3⟩
    · rw [hany] at h1; cases h1
    · cases ha : HashTree.insert strOps true name kind block with
      | error e => rw [ha] at h2; simp at h2
      | ok b =>
        rw [ha] at h2; simp at h2; subst h2
        exact ⟨b, rfl, _, h3, rfl⟩
  | some p =>
    rw [hf] at hk
    rw [hk] at ht ⊢
    have hany : m.any (fun p => strOps.compareKeys p.1 name) = true :=
      List.any_eq_true.2 ⟨p, List.mem_of_find?_eq_some hf, by have := List.find?_some hf; exact this⟩
    rcases hi with ⟨_, h2⟩ | ⟨h1, _⟩
    · cases ha : HashTree.insert strOps true name kind block with
      | ok b => rw [ha] at h2; simp at h2
      | error e =>
        rw [ha] at h2; simp at h2; subst h2
        simp only [Option.map_some] at ht ⊢
        simp only [ht]
        rcases p with ⟨q, k⟩
        cases k <;> cases kind <;> rfl
    · rw [hany] at h1; cases h1

/-- The scopes of the parser represent the stack of declarations. -/
inductive RelNs : List (Node StrPtr Kind) → Names → Prop
  | nil : RelNs [] []
  | cons {b : Node StrPtr Kind} {bs : List (Node StrPtr Kind)} {s : List (List UInt8 × Kind)}
      {ss : Names} : RelN b s → RelNs bs ss → RelNs (b :: bs) (s :: ss)

theorem relNs_length {bs : List (Node StrPtr Kind)} {ss : Names} (h : RelNs bs ss) :
    bs.length = ss.length := by
  induction h with
  | nil => rfl
  | cons _ _ ih => simp [ih]

theorem isTypedefLoop_spec {bs : List (Node StrPtr Kind)} {ss : Names} (h : RelNs bs ss)
    (name : StrPtr) :
    parserIsTypedefLoop name bs = match kindOf name.str ss with
      | some k => .ok (k == .typedefName)
      | none => .error .notFound := by
  induction h with
  | nil => rfl
  | cons h1 _ ih =>
    rename_i b bs s ss _
    simp only [parserIsTypedefLoop, blockIsTypedef_spec h1, kindOf, List.findSome?_cons]
    cases kindIn name.str s with
    | some k => rfl
    | none => exact ih

/-- The symbol table, if there is one, was filled by insertions only. -/
def TableOK (fresh : Nat → Nat) : Option SymbolTable.Table → Prop
  | none => True
  | some t => ∃ ss, SymbolTable.Inv fresh t ss

structure RelP (fresh : Nat → Nat) (p : ParserScope) (s : Names) : Prop where
  blocks : RelNs p.blocks s
  table : TableOK fresh p.symbols

theorem parserStep_refines {fresh : Nat → Nat} {p : ParserScope} {s : Names}
    (h : RelP fresh p s) (c : PCall StrPtr) :
    RelP fresh (parserStep fresh p c).1 (namesStep s c.bytes).1 ∧
      (parserStep fresh p c).2 = (namesStep s c.bytes).2 := by
  obtain ⟨blocks, symbols⟩ := p
  obtain ⟨hb, ht⟩ := h
  simp only at hb ht
  cases c with
  | push =>
    exact ⟨⟨.cons ⟨[], Rel.empty, rfl⟩ hb, ht⟩, rfl⟩
  | pop =>
    simp only [parserStep, parserPop, PCall.bytes, namesStep]
    cases hb with
    | nil => exact ⟨⟨.nil, ht⟩, rfl⟩
    | cons h1 h2 =>
      cases h2 with
      | nil => exact ⟨⟨.cons h1 .nil, ht⟩, rfl⟩
      | cons h3 h4 =>
        simp only [List.length_cons, List.tail_cons]
        rw [if_pos (by omega)]
        exact ⟨⟨.cons h3 h4, ht⟩, rfl⟩
  | declare kind name =>
    simp only [parserStep, parserDeclare, PCall.bytes, namesStep]
    cases hb with
    | nil => exact ⟨⟨.nil, ht⟩, rfl⟩
    | cons h1 h2 =>
      rename_i b bs sc ss
      simp only
      cases symbols with
      | none =>
        have hd := blockDeclare_spec h1 kind name
        simp only
        cases hk : kindIn name.str sc with
        | none =>
          rw [hk] at hd
          obtain ⟨b', e1, e2⟩ := hd
          simp only [e1]
          exact ⟨⟨.cons e2 h2, ht⟩, trivial⟩
        | some k =>
          rw [hk] at hd
          simp only at hd
          by_cases he : k = kind
          · rw [if_pos he] at hd
            simp only [hd, he, if_true]
            exact ⟨⟨.cons h1 h2, ht⟩, trivial⟩
          · rw [if_neg he] at hd
            simp only [hd, he, if_false]
            exact ⟨⟨.cons h1 h2, ht⟩, trivial⟩
      | some table =>
        obtain ⟨names, hinv⟩ := ht
        obtain ⟨names', i, hi, hs, _, hr, hinv'⟩ := SymbolTable.insert_spec hinv name
        simp only
        cases hq : SymbolTable.insert fresh table name with
        | mk table' r =>
          rw [hq] at hr hinv'
          simp only at hr hinv'
          subst hr
          have hstr : (SymbolTable.canon fresh names' i hi).str = name.str := hs
          have hd := blockDeclare_spec h1 kind (SymbolTable.canon fresh names' i hi)
          rw [hstr] at hd
          simp only
          cases hk : kindIn name.str sc with
          | none =>
            rw [hk] at hd
            obtain ⟨b', e1, e2⟩ := hd
            simp only [e1]
            exact ⟨⟨.cons e2 h2, _, hinv'⟩, trivial⟩
          | some k =>
            rw [hk] at hd
            simp only at hd
            by_cases he : k = kind
            · rw [if_pos he] at hd
              simp only [hd, he, if_true]
              exact ⟨⟨.cons h1 h2, _, hinv'⟩, trivial⟩
            · rw [if_neg he] at hd
              simp only [hd, he, if_false]
              exact ⟨⟨.cons h1 h2, _, hinv'⟩, trivial⟩
  | isTypedef name =>
    simp only [parserStep, parserIsTypedef, PCall.bytes, namesStep, isTypedefLoop_spec hb]
    cases kindOf name.str s with
    | some k => exact ⟨⟨hb, ht⟩, rfl⟩
    | none => exact ⟨⟨hb, ht⟩, rfl⟩

theorem parserRun_refines {fresh : Nat → Nat} (cs : List (PCall StrPtr)) {p : ParserScope}
    {s : Names} (h : RelP fresh p s) :
    (runCalls (parserStep fresh) p cs).2 = (runCalls namesStep s (cs.map PCall.bytes)).2 := by
  induction cs generalizing p s with
  | nil => rfl
  | cons c cs ih =>
    obtain ⟨h1, h2⟩ := parserStep_refines h c
    simp only [List.map_cons, runCalls]
    rw [h2, ih h1]

end Kefir.Scope
