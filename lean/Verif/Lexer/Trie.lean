import Verif.Base
import Verif.Lexer.Spec
/-!
# Tries (`source/core/trie.c`) and their use for punctuators and keywords
-/

namespace Kefir.Lexer

/-- headers/kefir/core/trie.h: a vertex' value and its children, in list order.  The value
`PUNCTUATOR_NONE`/`KEYWORD_NONE` (all bits set) is `none`; the values stored are enumerators, which
are never all ones.  Simplification: allocation never fails. -/
inductive Trie (V : Type) where
  | node (value : Option V) (children : List (Chr × Trie V))

namespace Trie
variable {V : Type}

/-- source/core/trie.c:38-45 `kefir_trie_init`. -/
def empty : Trie V := .node none []

def value : Trie V → Option V
  | .node v _ => v

def children : Trie V → List (Chr × Trie V)
  | .node _ cs => cs

/-- source/core/trie.c:81-96 `kefir_trie_at`: the first child with the key. -/
def findChild (k : Chr) : List (Chr × Trie V) → Option (Trie V)
  | [] => none
  | (k', t) :: cs => if k' = k then some t else findChild k cs

/-- Replacing the child `kefir_trie_at` found (the C code updates it in place). -/
def setChild (k : Chr) (t : Trie V) : List (Chr × Trie V) → List (Chr × Trie V)
  | [] => []
  | (k', t') :: cs => if k' = k then (k', t) :: cs else (k', t') :: setChild k t cs

/-- source/lexer/tokens/punctuator.c:86-110 `insert_punctuator` and
source/lexer/tokens/keyword.c:80-104 `insert_keyword` (the same code).  With
source/core/trie.c:55-79 `kefir_trie_insert_vertex`, which appends the vertex.  On the empty literal,
which the tables do not contain, the C code reads past the string; the model reports an error. -/
def insert : List Chr → V → Trie V → Res (Trie V)
  | [], _, _ => .error .invalidParameter
  | [k], v, .node v0 cs =>
    match findChild k cs with
    | none => .ok (.node v0 (cs ++ [(k, .node (some v) [])]))
    | some (.node none cs') => .ok (.node v0 (setChild k (.node (some v) cs') cs))
    | some (.node (some _) _) => .error .internalError
  | k :: l, v, .node v0 cs =>
    match findChild k cs with
    | none =>
      match insert l v (.node none []) with
      | .ok t => .ok (.node v0 (cs ++ [(k, t)]))
      | .error e => .error e
    | some t0 =>
      match insert l v t0 with
      | .ok t => .ok (.node v0 (setChild k t cs))
      | .error e => .error e

/-- source/lexer/tokens/punctuator.c:112-126 `kefir_lexer_init_punctuators`,
source/lexer/tokens/keyword.c:106-119 `kefir_lexer_init_keywords`. -/
def build : List (List Chr × V) → Trie V → Res (Trie V)
  | [], t => .ok t
  | (l, v) :: r, t =>
    match insert l v t with
    | .ok t' => build r t'
    | .error e => .error e

/-- The vertex at the end of a path, if there is one. -/
def walk (t : Trie V) : List Chr → Option (Trie V)
  | [] => some t
  | k :: p =>
    match findChild k t.children with
    | none => none
    | some t' => walk t' p

/-- What is stored at the end of a path: `none` if there is no vertex. -/
def get (t : Trie V) (p : List Chr) : Option (Option V) := (t.walk p).map value

theorem findChild_setChild (k k' : Chr) (t : Trie V) (cs : List (Chr × Trie V)) :
    findChild k' (setChild k t cs) =
      if k' = k then (findChild k cs).map (fun _ => t) else findChild k' cs := by
  induction cs with
  | nil => simp [setChild, findChild]
  | cons x cs ih =>
    obtain ⟨k0, t0⟩ := x
    simp only [setChild]
    by_cases h : k0 = k
    · subst h
      by_cases h' : k' = k0
      · subst h'; simp [findChild]
      · rw [if_pos rfl]
        simp [findChild, h', Ne.symm h']
    · rw [if_neg h]
      simp only [findChild, ih]
      by_cases h' : k' = k
      · subst h'; simp [h]
      · simp [h']

theorem findChild_append (k k' : Chr) (t : Trie V) (cs : List (Chr × Trie V)) :
    findChild k' (cs ++ [(k, t)]) =
      match findChild k' cs with
      | some t' => some t'
      | none => if k = k' then some t else none := by
  induction cs with
  | nil => simp [findChild]
  | cons x cs ih =>
    obtain ⟨k0, t0⟩ := x
    simp only [List.cons_append, findChild]
    split
    · rfl
    · exact ih

theorem get_nil (t : Trie V) : t.get [] = some t.value := rfl

theorem get_cons (v : Option V) (cs) (k : Chr) (p : List Chr) :
    (Trie.node v cs).get (k :: p) = (findChild k cs).bind (fun t => t.get p) := by
  simp only [get, walk, children]
  cases findChild k cs <;> rfl

/-- Effect of an insertion on what the paths hold. -/
theorem get_insert (l : List Chr) (v : V) (t t' : Trie V) (h : insert l v t = .ok t')
    (p : List Chr) :
    t'.get p = if p = l then some (some v)
      else match t.get p with
        | some x => some x
        | none => if p <+: l then some none else none := by
  induction l generalizing t t' p with
  | nil => cases h
  | cons k l ih =>
    obtain ⟨v0, cs⟩ := t
    have emptyget : ∀ q, (Trie.node (none : Option V) []).get q = if q = [] then some none else none := by
      intro q
      cases q with
      | nil => rfl
      | cons a q => simp [get_cons, findChild]
    cases l with
    | nil =>
      simp only [insert] at h
      cases hf : findChild k cs with
      | none =>
        rw [hf] at h
        cases h
        cases p with
        | nil => simp [get_nil, value]
        | cons a p =>
          rw [get_cons, get_cons, findChild_append]
          by_cases ha : a = k
          · subst ha
            simp only [hf, if_true, Option.bind_some, Option.bind_none]
            cases p with
            | nil => simp [get_nil, value]
            | cons b p => simp [get_cons, findChild]
          · simp only [show ¬ k = a from Ne.symm ha, if_false]
            have h1 : ¬ (a :: p = [k]) := by simp [ha]
            have h2 : ¬ (a :: p <+: [k]) := by simp [List.cons_prefix_cons, ha]
            rw [if_neg h1]
            cases hfa : findChild a cs with
            | none => simp [h2]
            | some t1 => 
              simp only [Option.bind_some]
              cases t1.get p <;> simp [h2]
      | some t0 =>
        rw [hf] at h
        obtain ⟨v1, cs1⟩ := t0
        cases v1 with
        | some _ => cases h
        | none =>
          cases h
          cases p with
          | nil => simp [get_nil, value]
          | cons a p =>
            rw [get_cons, get_cons, findChild_setChild]
            by_cases ha : a = k
            · subst ha
              simp only [hf, if_true, Option.map_some, Option.bind_some]
              cases p with
              | nil => simp [get_nil, value]
              | cons b p =>
                simp only [get_cons, List.cons.injEq, reduceCtorEq, and_false, if_false,
                  List.cons_prefix_cons, List.prefix_nil]
                cases (findChild b cs1).bind fun t => t.get p <;> simp
            · rw [if_neg ha]
              have h1 : ¬ (a :: p = [k]) := by simp [ha]
              have h2 : ¬ (a :: p <+: [k]) := by simp [List.cons_prefix_cons, ha]
              rw [if_neg h1, if_neg h2]
              cases hfa : findChild a cs with
              | none => simp
              | some t1 =>
                simp only [Option.bind_some]
                cases t1.get p <;> rfl
    | cons k2 l =>
      simp only [insert] at h
      cases hf : findChild k cs with
      | none =>
        rw [hf] at h
        simp only at h
        cases hi : insert (k2 :: l) v (.node none []) with
        | error e => rw [hi] at h; cases h
        | ok t1 =>
          rw [hi] at h
          cases h
          cases p with
          | nil => simp [get_nil, value]
          | cons a p =>
            rw [get_cons, get_cons, findChild_append]
            by_cases ha : a = k
            · subst ha
              simp only [hf, if_true, Option.bind_some, Option.bind_none]
              rw [ih _ _ hi, emptyget]
              simp only [List.cons.injEq, true_and, List.cons_prefix_cons]
              split
              · rfl
              · by_cases hp : p = []
                · subst hp; simp
                · simp [hp]
            · simp only [show ¬ k = a from Ne.symm ha, if_false]
              have h1 : ¬ (a :: p = k :: k2 :: l) := by simp [ha]
              have h2 : ¬ (a :: p <+: k :: k2 :: l) := by simp [List.cons_prefix_cons, ha]
              rw [if_neg h1, if_neg h2]
              cases hfa : findChild a cs with
              | none => simp
              | some t1 =>
                simp only [Option.bind_some]
                cases t1.get p <;> rfl
      | some t0 =>
        rw [hf] at h
        simp only at h
        cases hi : insert (k2 :: l) v t0 with
        | error e => rw [hi] at h; cases h
        | ok t1 =>
          rw [hi] at h
          cases h
          cases p with
          | nil => simp [get_nil, value]
          | cons a p =>
            rw [get_cons, get_cons, findChild_setChild]
            by_cases ha : a = k
            · subst ha
              simp only [hf, if_true, Option.map_some, Option.bind_some]
              rw [ih _ _ hi]
              simp only [List.cons.injEq, true_and, List.cons_prefix_cons]
            · rw [if_neg ha]
              have h1 : ¬ (a :: p = k :: k2 :: l) := by simp [ha]
              have h2 : ¬ (a :: p <+: k :: k2 :: l) := by simp [List.cons_prefix_cons, ha]
              rw [if_neg h1, if_neg h2]
              cases hfa : findChild a cs with
              | none => simp
              | some t1 =>
                simp only [Option.bind_some]
                cases t1.get p <;> rfl

end Trie
end Kefir.Lexer
