import Verif.Directive.Match
/-!
# What the directive scanner does with the lines of a file
-/

namespace Kefir.Directive

open Kefir.Lexer Kefir.PpToken

variable {sc : StrCodec} {t : Tries}

/-- The scanner, started at the beginning of a line, reads what matters of `ds`. -/
def Reads (sc : StrCodec) (t : Tries) (c : Cursor) (ds : List Directive) : Prop :=
  ∃ ds', Scans sc t true c ds' ∧ ds'.filterMap Directive.observe = ds

theorem scannerNext_false (c : Cursor) : scannerNext sc t false c = nextPpToken sc t c := by
  rw [scannerNext, if_pos rfl]

theorem scannerNext_text {c : Cursor} (h : matchDirective c = some (.ok (.ppToken, true), c)) :
    scannerNext sc t true c = nextPpToken sc t c := by
  rw [scannerNext, if_neg (by simp), bind_some h]

theorem scannerNext_noHash {c : Cursor} (h : NoHash c.text) :
    (c.text = [] ∧ scannerNext sc t true c = some (.ok (.sentinel, true), c)) ∨
    scannerNext sc t true c = nextPpToken sc t c := by
  rcases h with h | ⟨x, hx, h1, h2⟩
  · left
    refine ⟨h, ?_⟩
    rw [scannerNext, if_neg (by simp), bind_some (matchDirective_end h)]
    rfl
  · exact Or.inr (scannerNext_text (matchDirective_text hx h1 h2))

theorem nextPpToken_of {c c' : Cursor} {τ : Token} (h : Next sc t c τ c') (he : τ ≠ .sentinel) :
    nextPpToken sc t c = some (.ok (.token τ, decide (τ = .ppWhitespace true)), c') := by
  rw [nextPpToken, bind_some (nextToken_of h), if_neg he]
  rfl

theorem nextPpToken_end {c : Cursor} (h : c.text = []) :
    nextPpToken sc t c = some (.ok (.sentinel, true), c) := by
  rw [nextPpToken, bind_some (nextToken_end h), if_pos rfl]
  rfl

/-- Where no `#` comes, it does not matter whether a line begins. -/
theorem scans_noHash {c : Cursor} {ds : List Directive} (h : NoHash c.text) (hs : Scans sc t true c ds) :
    Scans sc t false c ds := by
  have key : scannerNext sc t false c = scannerNext sc t true c := by
    rcases scannerNext_noHash (sc := sc) (t := t) h with ⟨h1, h2⟩ | h2
    · rw [h2, scannerNext_false, nextPpToken_end h1]
    · rw [h2, scannerNext_false]
  cases hs with
  | stop h => exact .stop (key.trans h)
  | next h hd hs => exact .next (key.trans h) hd hs

theorem reads_end {c : Cursor} {ds : List Directive} (h : c.text = []) : Reads sc t c ds ↔ ds = [] := by
  have e : scannerNext sc t true c = some (.ok (.sentinel, true), c) := by
    rw [scannerNext, if_neg (by simp), bind_some (matchDirective_end h)]
    rfl
  constructor
  · rintro ⟨ds', hs, rfl⟩
    cases hs with
    | stop _ => rfl
    | next h' hd _ =>
      rw [e] at h'
      simp only [Option.some.injEq, Prod.mk.injEq, Except.ok.injEq] at h'
      exact absurd h'.1.1.symm hd
  · rintro rfl
    exact ⟨[], .stop e, rfl⟩

/-- The rest of a plain line is skipped. -/
theorem skipLine_plain {c c' : Cursor} (h : PlainEnd sc t c c') :
    ∃ c'', skipLine c = some (.ok (), c'') ∧ ∀ ds, Reads sc t c' ds → Reads sc t c'' ds := by
  rcases h with ⟨h1, h2, h3⟩ | ⟨s, r, ht, h1, h2, h3⟩
  · obtain ⟨c'', e, h⟩ := skipLine_last h1 h2
    exact ⟨c'', e, fun ds hd => (reads_end h).2 ((reads_end h3).1 hd)⟩
  · refine ⟨_, skipLine_eq ht h1 h2, ?_⟩
    rcases h3 with h3 | ⟨⟨nl, hn⟩, h4, h5⟩
    · rw [h3]
      exact fun _ h => h
    · rintro ds ⟨ds', hs, rfl⟩
      have hstep : scannerNext sc t true (c.adv (s.length + 1)) =
          some (.ok (.token (.ppWhitespace nl), decide (nl = true)), c') := by
        rcases scannerNext_noHash (sc := sc) (t := t) h4 with ⟨h6, -⟩ | h6
        · exfalso
          obtain ⟨i, j, hn⟩ := hn
          have := C78_end sc t _ h6
          rw [hn] at this
          simp at this
        · rw [h6, nextPpToken_of hn (by simp)]
          cases nl <;> rfl
      refine ⟨.token (.ppWhitespace nl) :: ds', .next hstep (by simp) ?_, rfl⟩
      cases nl with
      | true => exact hs
      | false => exact scans_noHash h5 hs

theorem nextIdentifier_eq {c c1 c2 c' : Cursor} {x : List UInt8} (hw : White sc t c c1)
    (hx : Next sc t c1 (.identifier x) c2) (hs : skipLine c2 = some (.ok (), c')) :
    nextIdentifier sc t c = some (.ok x, c') := by
  obtain ⟨τs, h1, h2⟩ := hw
  rw [nextIdentifier, bind_some (skipWhitespaces_eq h1 h2 hx (by simp))]
  simp only []
  rw [bind_some hs]
  rfl

theorem nextInclude_header {c c1 c' : Cursor} {sys : Bool} {s r : List Chr} {bs : List UInt8}
    (ho : OnlyBlanks c c1)
    (ht : c1.text = ch (if sys then '<' else '"') :: (s ++ ch (if sys then '>' else '"') :: r))
    (hc : ∀ x ∈ s, x ≠ ch '\n' ∧ x ≠ ch (if sys then '>' else '"'))
    (hb : Encoded sc.encode s bs) (hs : skipLine (c1.adv (s.length + 2)) = some (.ok (), c')) :
    nextInclude sc t c = some (.ok [.ppHeader sys bs], c') := by
  have h1 : (do skipBlanks; matchHeaderName sc.cd : Lex Token) c =
      some (.ok (.ppHeader sys bs), c1.adv (s.length + 2)) := by
    rw [bind_some (skipBlanks_only ho (first_not_blank ht ?_)), matchHeaderName_eq ht hc hb]
    intro h
    cases sys <;> exact absurd h.1 (by decide)
  have h2 : attempt (do skipBlanks; matchHeaderName sc.cd : Lex Token) c =
      some (.ok (.ok (.ppHeader sys bs)), c1.adv (s.length + 2)) := by
    unfold attempt
    rw [h1]
  rw [nextInclude, save_bind, bind_some h2]
  simp only []
  rw [bind_some hs]
  rfl

theorem nextInclude_tokens {c c' : Cursor} {τs : List Token} {x : Chr} (hl : LineTokens sc t c τs c')
    (hf : FirstChar c.text x) (hx : x ∉ str "<\"") :
    ∃ τs', nextInclude sc t c = some (.ok τs', c') ∧ significant τs' = significant τs := by
  obtain ⟨τs', h1, h2⟩ := scan_after_blanks hl
  refine ⟨τs', ?_, h2⟩
  obtain ⟨bl, r, hb, ht, hxb⟩ := hf
  have h3 : (do skipBlanks; matchHeaderName sc.cd : Lex Token) c =
      some (.error .noMatch, c.adv bl.length) := by
    rw [bind_some (skipBlanks_eq hb ht (first_not_blank rfl hxb))]
    exact matchHeaderName_none (by rw [Cursor.text_adv, ht, List.drop_left]) hx
  have h4 : attempt (do skipBlanks; matchHeaderName sc.cd : Lex Token) c =
      some (.ok (.error .noMatch), c.adv bl.length) := by
    unfold attempt
    rw [h3]
  rw [nextInclude, save_bind, bind_some h4]
  simp only []
  rw [restore_bind]
  exact h1

/-- A directive whose name has been matched. -/
theorem scan_contents {name : String} {c c3 c' : Cursor} {d : Directive}
    (hm : ∀ k, (str name, k) ∈ knownDirectives → matchDirective c = some (.ok (k, false), c3))
    (hd : Contents sc t True name c3 c' d) :
    ∃ d' c'', scannerNext sc t true c = some (.ok (d', true), c'') ∧ d' ≠ .sentinel ∧
      d'.observe = some d ∧ ∀ ds, Reads sc t c' ds → Reads sc t c'' ds := by
  cases hd with
  | tokens hl hmean hh hp =>
    obtain ⟨hp1, hp2⟩ := hp trivial
    cases hmean with
    | ifD =>
      refine ⟨.ifD _, c', ?_, by simp, rfl, fun _ h => h⟩
      rw [scannerNext, if_neg (by simp), bind_some (hm .ifD (by decide))]
      simp only []
      rw [bind_some (scanPpTokens_line hl [])]
      rfl
    | elif =>
      refine ⟨.elif _, c', ?_, by simp, rfl, fun _ h => h⟩
      rw [scannerNext, if_neg (by simp), bind_some (hm .elif (by decide))]
      simp only []
      rw [bind_some (scanPpTokens_line hl [])]
      rfl
    | error =>
      obtain ⟨τs', h1, h2⟩ := scan_after_blanks hl
      refine ⟨.error τs', c', ?_, by simp, by rw [← h2]; rfl, fun _ h => h⟩
      rw [scannerNext, if_neg (by simp), bind_some (hm .error (by decide))]
      simp only []
      rw [← bind_assoc, bind_some h1]
      rfl
    | line =>
      obtain ⟨τs', h1, h2⟩ := scan_after_blanks hl
      refine ⟨.line τs', c', ?_, by simp, by rw [← h2]; rfl, fun _ h => h⟩
      rw [scannerNext, if_neg (by simp), bind_some (hm .line (by decide))]
      simp only []
      rw [← bind_assoc, bind_some h1]
      rfl
    | pragma => exact absurd rfl hp1
    | «include» =>
      obtain ⟨x, hf, hx⟩ := hp2 rfl
      obtain ⟨τs', h1, h2⟩ := nextInclude_tokens hl hf hx
      refine ⟨.«include» τs', c', ?_, by simp, by rw [← h2]; rfl, fun _ h => h⟩
      rw [scannerNext, if_neg (by simp), bind_some (hm .«include» (by decide))]
      simp only []
      rw [bind_some h1]
      rfl
    | object ws x r hw hr =>
      have := nextDefine_eq hl (.object ws x r hw hr)
      refine ⟨.define x none (trim r), c', ?_, by simp, rfl, fun _ h => h⟩
      rw [scannerNext, if_neg (by simp), bind_some (hm .define (by decide))]
      simp only []
      rw [bind_some this]
      rfl
    | function ws x inner r ps va hw hpar =>
      have := nextDefine_eq hl (.function ws x inner r ps va hw hpar)
      refine ⟨.define x (some (ps, va)) (trim r), c', ?_, by simp, rfl, fun _ h => h⟩
      rw [scannerNext, if_neg (by simp), bind_some (hm .define (by decide))]
      simp only []
      rw [bind_some this]
      rfl
  | bare hl hτ hb hp =>
    obtain ⟨c'', h1, h2⟩ := skipLine_plain (hp trivial)
    simp only [bare, List.mem_cons, Prod.mk.injEq, List.not_mem_nil, or_false] at hb
    rcases hb with ⟨rfl, rfl⟩ | ⟨rfl, rfl⟩
    · refine ⟨.elseD, c'', ?_, by simp, rfl, h2⟩
      rw [scannerNext, if_neg (by simp), bind_some (hm .elseD (by decide))]
      simp only []
      rw [bind_some h1]
      rfl
    · refine ⟨.endif, c'', ?_, by simp, rfl, h2⟩
      rw [scannerNext, if_neg (by simp), bind_some (hm .endif (by decide))]
      simp only []
      rw [bind_some h1]
      rfl
  | named hw hx hl hτ hb hp =>
    obtain ⟨c'', h1, h2⟩ := skipLine_plain (hp trivial)
    have h3 := nextIdentifier_eq hw hx h1
    simp only [named, List.mem_cons, Prod.mk.injEq, List.not_mem_nil, or_false] at hb
    rcases hb with ⟨rfl, rfl⟩ | ⟨rfl, rfl⟩ | ⟨rfl, rfl⟩
    · refine ⟨.ifdef _, c'', ?_, by simp, rfl, h2⟩
      rw [scannerNext, if_neg (by simp), bind_some (hm .ifdef (by decide))]
      simp only []
      rw [bind_some h3]
      rfl
    · refine ⟨.ifndef _, c'', ?_, by simp, rfl, h2⟩
      rw [scannerNext, if_neg (by simp), bind_some (hm .ifndef (by decide))]
      simp only []
      rw [bind_some h3]
      rfl
    · refine ⟨.undef _, c'', ?_, by simp, rfl, h2⟩
      rw [scannerNext, if_neg (by simp), bind_some (hm .undef (by decide))]
      simp only []
      rw [bind_some h3]
      rfl
  | @header _ _ _ sys _ _ bs _ hw ht hs hc hb hl hτ hp =>
    obtain ⟨ho, hp⟩ := hp trivial
    obtain ⟨c'', h1, h2⟩ := skipLine_plain hp
    have h3 := nextInclude_header (t := t) ho ht hc hb h1
    refine ⟨.«include» [.ppHeader sys bs], c'', ?_, by simp, rfl, h2⟩
    rw [scannerNext, if_neg (by simp), bind_some (hm .«include» (by decide))]
    simp only []
    rw [bind_some h3]
    rfl

/-- The rest of a text line. -/
theorem scans_text {c c' : Cursor} {τs : List Token} (hl : LineTokens sc t c τs c') {ds : List Directive}
    (hr : Reads sc t c' ds) :
    ∃ ds', Scans sc t false c ds' ∧ ds'.filterMap Directive.observe = (significant τs).map .token ++ ds := by
  induction τs generalizing c with
  | nil =>
    cases hl with
    | newline hs h =>
      cases hs
      obtain ⟨ds', h1, h2⟩ := hr
      refine ⟨.token (.ppWhitespace true) :: ds', .next (flag := true) (c' := c') ?_ (by simp) h1, h2⟩
      rw [scannerNext_false, nextPpToken_of h (by simp)]
      rfl
    | lastLine hs h =>
      cases hs
      have := (reads_end h).1 hr
      subst this
      exact ⟨[], .stop (by rw [scannerNext_false, nextPpToken_end h]), rfl⟩
  | cons τ τs ih =>
    obtain ⟨c1, h, hn, he, hl'⟩ := hl.uncons
    obtain ⟨ds', h1, h2⟩ := ih hl'
    refine ⟨.token τ :: ds', .next (flag := false) (c' := c1) ?_ (by simp) h1, ?_⟩
    · rw [scannerNext_false, nextPpToken_of h he, decide_eq_false hn]
    · rw [significant_cons, List.filterMap_cons]
      simp only [Directive.observe]
      by_cases hw : isWhite τ = true
      · rw [if_pos hw, if_pos hw]
        exact h2
      · rw [if_neg hw, if_neg hw]
        simp only [h2]
        rfl

/-- The scanner reads every plain file. -/
theorem reads_file {c : Cursor} {ds : List Directive} (h : File sc t True c ds) : Reads sc t c ds := by
  induction h with
  | stop c h => exact (reads_end h).2 rfl
  | @text c c' τs ds hl hne hh hp hf ih =>
    obtain ⟨ds', h1, h2⟩ := scans_text hl ih
    refine ⟨ds', ?_, h2⟩
    have hsame : scannerNext sc t true c = scannerNext sc t false c := by
      rcases scannerNext_noHash (sc := sc) (t := t) (hp trivial) with ⟨h3, -⟩ | h3
      · exact absurd h3 hne
      · rw [h3, scannerNext_false]
    cases h1 with
    | stop h => exact .stop (hsame.trans h)
    | next h hd hs => exact .next (hsame.trans h) hd hs
  | @directive c ch c1 c2 c3 c' name d ds hh hw hn hd hp hf ih =>
    obtain ⟨p1, ⟨r, p2⟩, rfl⟩ := hh.plain trivial
    obtain ⟨q1, r', q2, q3, q4⟩ := hp trivial
    obtain ⟨d', c'', e1, e2, e3, e4⟩ := scan_contents
      (fun k hk => matchDirective_known p1 p2 q1 hk q2 q3 q4) hd
    obtain ⟨ds', h1, h2⟩ := e4 ds ih
    refine ⟨d' :: ds', .next e1 e2 h1, ?_⟩
    rw [List.filterMap_cons, e3]
    simp only [h2]
  | @empty c ch c1 c' τs ds hh hl hτ hp hf ih =>
    obtain ⟨p1, ⟨r, p2⟩, rfl⟩ := hh.plain trivial
    obtain ⟨c2, q1, ⟨r', q2⟩, q3⟩ := hp trivial
    obtain ⟨ds', h1, h2⟩ := ih
    have hn : NoHash c2.text := Or.inr ⟨Lexer.ch '\n', ⟨[], r', by simp, q2, fun h => h.2 rfl⟩,
      by decide, by decide⟩
    refine ⟨.empty :: .token (.ppWhitespace true) :: ds', .next (flag := true) (c' := c2) ?_ (by simp)
      (.next (flag := true) (c' := c') ?_ (by simp) h1), ?_⟩
    · rw [scannerNext, if_neg (by simp), bind_some (matchDirective_empty p1 p2 q1 q2)]
      rfl
    · rcases scannerNext_noHash (sc := sc) (t := t) hn with ⟨h3, -⟩ | h3
      · rw [q2] at h3
        cases h3
      · rw [h3, nextPpToken_of q3 (by simp)]
        rfl
    · simp only [List.filterMap_cons, Directive.observe]
      rw [← h2]
      rfl
  | @non c ch c1 c' τ0 τ τs r ds hh hl h0 hτ hn hp hf ih =>
    obtain ⟨p1, ⟨r, p2⟩, rfl⟩ := hh.plain trivial
    obtain ⟨c2, x, r', q1, q2, q3, q4⟩ := hp trivial
    obtain ⟨ds', h1, h2⟩ := ih
    refine ⟨.non (τ0 :: τs) :: ds', .next (flag := true) (c' := c') ?_ (by simp) h1, ?_⟩
    · rw [scannerNext, if_neg (by simp), bind_some (matchDirective_non p1 p2 q1 q2 q3 q4)]
      simp only []
      rw [bind_some (scanPpTokens_line hl [])]
      rfl
    · simp only [List.filterMap_cons, Directive.observe]
      rw [h2]

end Kefir.Directive
