import Verif.Preproc.Token

/-!
# Model of `source/preprocessor/token_sequence.c`

A token sequence is a stack of token buffers, each with the index of its next token.  The head of
the Lean list is the tail of the C list (the top of the stack).  Simplifications: allocation
succeeds; a token handed out is read, not moved (the moved-from slot is behind the index and never
read again).
-/

namespace Kefir.Preproc.Sequence

open Kefir.Preproc

/-- `struct buffer_element`, `source/preprocessor/token_sequence.c:25-28`. -/
structure Element where
  buffer : List Tok
  index : Nat
  deriving DecidableEq, Repr

/-- `struct kefir_preprocessor_token_sequence`. -/
abbrev Seq := List Element

/-- `kefir_preprocessor_token_sequence_init`, `source/preprocessor/token_sequence.c:43-49`. -/
def init : Seq := []

/-- `kefir_preprocessor_token_sequence_push_front`, `source/preprocessor/token_sequence.c:60-89`. -/
def pushFront (src : List Tok) (seq : Seq) : Seq := ⟨src, 0⟩ :: seq

/-- `next_buffer_elt`, `source/preprocessor/token_sequence.c:91-104`: exhausted buffers are popped;
the result is the stack whose top is the buffer element found. -/
def nextBufferElt : Seq → Res (Element × Seq)
  | [] => .error .iteratorEnd
  | e :: rest =>
    if e.index = e.buffer.length then nextBufferElt rest
    else .ok (e, rest)

/-- `kefir_preprocessor_token_sequence_next`, `source/preprocessor/token_sequence.c:106-119`.  On
`KEFIR_ITERATOR_END` every element has been popped. Reading past the end of a buffer would be the
error `outOfBounds`. -/
def next (seq : Seq) : Seq × Res Tok :=
  match nextBufferElt seq with
  | .error c => ([], .error c)
  | .ok (e, rest) =>
    match e.buffer[e.index]? with
    | none => (e :: rest, .error .outOfBounds)
    | some t => ({ e with index := e.index + 1 } :: rest, .ok t)

/-- `kefir_preprocessor_token_sequence_current`, `source/preprocessor/token_sequence.c:138-149`. -/
def current (seq : Seq) : Seq × Res Tok :=
  match nextBufferElt seq with
  | .error c => ([], .error c)
  | .ok (e, rest) =>
    match e.buffer[e.index]? with
    | none => (e :: rest, .error .outOfBounds)
    | some t => (e :: rest, .ok t)

/-- `kefir_preprocessor_token_sequence_shift`, `source/preprocessor/token_sequence.c:121-136`: the
next token is appended to `buffer`. -/
def shift (seq : Seq) (buffer : List Tok) : Seq × Res (List Tok) :=
  match next seq with
  | (seq', .ok t) => (seq', .ok (buffer ++ [t]))
  | (seq', .error c) => (seq', .error c)

/-- Tokens that have not been handed out yet; bounds the loop of `skipWhitespaces`. -/
def pending : Seq → Nat
  | [] => 0
  | e :: rest => (e.buffer.length - e.index) + pending rest

/-- The loop of `kefir_preprocessor_token_sequence_skip_whitespaces`,
`source/preprocessor/token_sequence.c:151-180`, with `buffer` collecting the skipped tokens
(callers passing NULL drop them).  The loop count is an argument; the API function supplies one
more than the number of pending tokens, which the theorem below shows to be enough: `internalError`
never comes out. -/
def skipLoop : Nat → Seq → List Tok → Seq × Res (Option Tok × List Tok)
  | 0, seq, _ => (seq, .error .internalError)
  | n + 1, seq, buffer =>
    match current seq with
    | (seq', .error .iteratorEnd) => (seq', .ok (none, buffer))
    | (seq', .error c) => (seq', .error c)
    | (seq', .ok t) =>
      if !t.isWs then (seq', .ok (some t, buffer))
      else
        match shift seq' buffer with
        | (seq'', .ok buffer') => skipLoop n seq'' buffer'
        | (seq'', .error c) => (seq'', .error c)

/-- `kefir_preprocessor_token_sequence_skip_whitespaces`,
`source/preprocessor/token_sequence.c:151-180`. -/
def skipWhitespaces (seq : Seq) (buffer : List Tok) : Seq × Res (Option Tok × List Tok) :=
  skipLoop (pending seq + 1) seq buffer

/-- A call of the token sequence API. -/
inductive Call where
  | pushFront (src : List Tok)
  | next
  | current
  | shift (buffer : List Tok)
  | skipWhitespaces (buffer : List Tok)

/-- What a call reports. -/
inductive Reply where
  | done
  | token (r : Res Tok)
  | buffer (r : Res (List Tok))
  | skipped (r : Res (Option Tok × List Tok))

/-- One call on the implementation. -/
def implStep (seq : Seq) : Call → Seq × Reply
  | .pushFront src => (pushFront src seq, .done)
  | .next => let r := next seq; (r.1, .token r.2)
  | .current => let r := current seq; (r.1, .token r.2)
  | .shift b => let r := shift seq b; (r.1, .buffer r.2)
  | .skipWhitespaces b => let r := skipWhitespaces seq b; (r.1, .skipped r.2)

/-! ## Specification: a list of tokens -/

/-- One call on a plain list of tokens. -/
def specStep (l : List Tok) : Call → List Tok × Reply
  | .pushFront src => (src ++ l, .done)
  | .next =>
    match l with
    | [] => ([], .token (.error .iteratorEnd))
    | t :: rest => (rest, .token (.ok t))
  | .current =>
    match l with
    | [] => ([], .token (.error .iteratorEnd))
    | t :: rest => (t :: rest, .token (.ok t))
  | .shift b =>
    match l with
    | [] => ([], .buffer (.error .iteratorEnd))
    | t :: rest => (rest, .buffer (.ok (b ++ [t])))
  | .skipWhitespaces b =>
    (l.dropWhile Tok.isWs, .skipped (.ok ((l.dropWhile Tok.isWs).head?, b ++ l.takeWhile Tok.isWs)))

/-- The replies to a history of calls. -/
def replies {S : Type} (step : S → Call → S × Reply) : S → List Call → List Reply
  | _, [] => []
  | s, c :: cs => (step s c).2 :: replies step (step s c).1 cs

/-! ## Proof -/

/-- The tokens still to come. -/
def abs : Seq → List Tok
  | [] => []
  | e :: rest => e.buffer.drop e.index ++ abs rest

/-- Indices stay within their buffers. -/
def WF (seq : Seq) : Prop := ∀ e ∈ seq, e.index ≤ e.buffer.length

theorem pending_abs : ∀ seq, pending seq = (abs seq).length
  | [] => rfl
  | e :: rest => by simp [pending, abs, pending_abs rest]

theorem nextBufferElt_spec : ∀ seq, WF seq →
    match nextBufferElt seq with
    | .error c => c = .iteratorEnd ∧ abs seq = []
    | .ok (e, rest) => WF (e :: rest) ∧ e.index < e.buffer.length ∧ abs (e :: rest) = abs seq
  | [], _ => by simp [nextBufferElt, abs]
  | e :: rest, wf => by
    have wf' : WF rest := fun x hx => wf x (by simp [hx])
    have ih := nextBufferElt_spec rest wf'
    have hle := wf e (by simp)
    rw [nextBufferElt]
    by_cases h : e.index = e.buffer.length
    · rw [if_pos h]
      have hd : abs (e :: rest) = abs rest := by simp [abs, h]
      rw [hd]; exact ih
    · rw [if_neg h]
      exact ⟨wf, by omega, rfl⟩

theorem current_spec (seq : Seq) (wf : WF seq) :
    WF (current seq).1 ∧ abs (current seq).1 = abs seq ∧
    (current seq).2 = match abs seq with
      | [] => .error .iteratorEnd
      | t :: _ => .ok t := by
  have h := nextBufferElt_spec seq wf
  rw [current]
  cases hn : nextBufferElt seq with
  | error c =>
    rw [hn] at h
    obtain ⟨rfl, h2⟩ := h
    simp [h2, abs, WF]
  | ok p =>
    obtain ⟨e, rest⟩ := p
    rw [hn] at h
    obtain ⟨h1, h2, h3⟩ := h
    simp only [List.getElem?_eq_getElem h2]
    refine ⟨h1, h3, ?_⟩
    rw [← h3, abs, List.drop_eq_getElem_cons h2]
    rfl

theorem next_spec (seq : Seq) (wf : WF seq) :
    WF (next seq).1 ∧ abs (next seq).1 = (abs seq).tail ∧
    (next seq).2 = match abs seq with
      | [] => .error .iteratorEnd
      | t :: _ => .ok t := by
  have h := nextBufferElt_spec seq wf
  rw [next]
  cases hn : nextBufferElt seq with
  | error c =>
    rw [hn] at h
    obtain ⟨rfl, h2⟩ := h
    simp [h2, abs, WF]
  | ok p =>
    obtain ⟨e, rest⟩ := p
    rw [hn] at h
    obtain ⟨h1, h2, h3⟩ := h
    simp only [List.getElem?_eq_getElem h2]
    have habs : abs seq = e.buffer[e.index] :: (e.buffer.drop (e.index + 1) ++ abs rest) := by
      rw [← h3, abs, List.drop_eq_getElem_cons h2]; rfl
    refine ⟨?_, ?_, ?_⟩
    · intro x hx
      rcases List.mem_cons.1 hx with rfl | hx
      · exact h2
      · exact h1 x (by simp [hx])
    · rw [habs]; rfl
    · rw [habs]

theorem shift_spec (seq : Seq) (wf : WF seq) (b : List Tok) :
    WF (shift seq b).1 ∧ abs (shift seq b).1 = (abs seq).tail ∧
    (shift seq b).2 = match abs seq with
      | [] => .error .iteratorEnd
      | t :: _ => .ok (b ++ [t]) := by
  obtain ⟨h1, h2, h3⟩ := next_spec seq wf
  rw [shift]
  rcases hn : next seq with ⟨s', r⟩
  rw [hn] at h1 h2 h3
  cases ha : abs seq with
  | nil => rw [ha] at h3 h2; simp only at h3; subst h3; exact ⟨h1, h2, rfl⟩
  | cons t l => rw [ha] at h3 h2; simp only at h3; subst h3; exact ⟨h1, h2, rfl⟩

theorem skipLoop_spec : ∀ n seq b, WF seq → (abs seq).length < n →
    WF (skipLoop n seq b).1 ∧ abs (skipLoop n seq b).1 = (abs seq).dropWhile Tok.isWs ∧
    (skipLoop n seq b).2 =
      .ok (((abs seq).dropWhile Tok.isWs).head?, b ++ (abs seq).takeWhile Tok.isWs)
  | 0, _, _, _, h => by omega
  | n + 1, seq, b, wf, h => by
    obtain ⟨h1, h2, h3⟩ := current_spec seq wf
    rw [skipLoop]
    rcases hc : current seq with ⟨s', r⟩
    rw [hc] at h1 h2 h3
    simp only at h1 h2 h3
    cases ha : abs seq with
    | nil => rw [ha] at h3 h2; simp only at h3; subst h3; exact ⟨h1, by simpa using h2, by simp⟩
    | cons t l =>
      rw [ha] at h3 h2 h
      simp only at h3
      subst h3
      cases ht : t.isWs with
      | false => simpa [ht, h2] using h1
      | true =>
        obtain ⟨g1, g2, g3⟩ := shift_spec s' h1 b
        rcases hs : shift s' b with ⟨s'', r''⟩
        rw [hs] at g1 g2 g3
        rw [h2] at g2 g3
        simp only [List.tail_cons] at g1 g2 g3
        subst g3
        have ih := skipLoop_spec n s'' (b ++ [t]) g1 (by rw [g2]; simp at h; omega)
        simp only [hs, ht, Bool.not_true, Bool.false_eq_true, if_false]
        rw [g2] at ih
        simpa [ht] using ih

/-- One step preserves the correspondence. -/
theorem step_refines (seq : Seq) (wf : WF seq) (c : Call) :
    WF (implStep seq c).1 ∧ abs (implStep seq c).1 = (specStep (abs seq) c).1 ∧
    (implStep seq c).2 = (specStep (abs seq) c).2 := by
  cases c with
  | pushFront src =>
    refine ⟨?_, by simp [implStep, specStep, pushFront, abs], rfl⟩
    intro e he
    rcases List.mem_cons.1 he with rfl | he
    · simp
    · exact wf e he
  | next =>
    obtain ⟨h1, h2, h3⟩ := next_spec seq wf
    refine ⟨h1, ?_, ?_⟩
    · simp only [implStep, h2, specStep]; cases abs seq <;> rfl
    · simp only [implStep, h3, specStep]; cases abs seq <;> rfl
  | current =>
    obtain ⟨h1, h2, h3⟩ := current_spec seq wf
    refine ⟨h1, ?_, ?_⟩
    · simp only [implStep, h2, specStep]; cases abs seq <;> rfl
    · simp only [implStep, h3, specStep]; cases abs seq <;> rfl
  | shift b =>
    obtain ⟨h1, h2, h3⟩ := shift_spec seq wf b
    refine ⟨h1, ?_, ?_⟩
    · simp only [implStep, h2, specStep]; cases abs seq <;> rfl
    · simp only [implStep, h3, specStep]; cases abs seq <;> rfl
  | skipWhitespaces b =>
    obtain ⟨h1, h2, h3⟩ := skipLoop_spec (pending seq + 1) seq b wf (by rw [pending_abs]; omega)
    exact ⟨h1, h2, by simp only [implStep, skipWhitespaces, h3, specStep]⟩

theorem replies_refine : ∀ (cs : List Call) (seq : Seq), WF seq →
    replies implStep seq cs = replies specStep (abs seq) cs
  | [], _, _ => rfl
  | c :: cs, seq, wf => by
    obtain ⟨h1, h2, h3⟩ := step_refines seq wf c
    simp only [replies, h3, replies_refine cs _ h1, h2]

/-- **C58.** A token sequence behaves as the list of its tokens: pushing a buffer puts its tokens in
front, reading takes the first token, skipping white space drops the leading white-space tokens and
reports them — for every history of calls, whatever buffers they are spread over. -/
theorem C58_sequence_is_a_list (history : List Call) :
    replies implStep init history = replies specStep [] history := by
  simpa [abs, init] using replies_refine history init (by simp [WF, init])

/-- Reading across three buffers, one of them empty. -/
example : replies implStep init
    [.pushFront [.ws false, .ident ['a'] false], .pushFront [], .pushFront [.ws true],
     .skipWhitespaces [], .next, .current]
    = [.done, .done, .done, .skipped (.ok (some (.ident ['a'] false), [.ws true, .ws false])),
       .token (.ok (.ident ['a'] false)), .token (.error .iteratorEnd)] := by
  simp [replies, implStep, init, pushFront, skipWhitespaces, skipLoop, pending, current, shift, next,
    nextBufferElt, Tok.isWs]

end Kefir.Preproc.Sequence
