import Verif.Directive.Refute
import Verif.LineDir.Model
import Verif.AsmData.Lex
/-!
# Lemmas on `#line`
-/

namespace Kefir.LineDir

open Kefir.Lexer Kefir.PpToken Kefir.Directive

variable {sc : StrCodec} {t : Tries}

/-! ## Numbers -/

theorem takeWhile_all {α : Type} {p : α → Bool} {l : List α} (h : ∀ x ∈ l, p x = true) : l.takeWhile p = l := by
  induction l with
  | nil => rfl
  | cons x l ih =>
    rw [List.takeWhile_cons_of_pos (h x List.mem_cons_self), ih fun y hy => h y (List.mem_cons_of_mem _ hy)]

theorem digitValue_some {b : UInt8} {d : Nat} (h : digitValue b = some d) :
    isDigitByte b = true ∧ d = b.toNat - 48 := by
  unfold digitValue at h
  split at h
  · rename_i hb
    cases h
    exact ⟨by simp [isDigitByte, hb.1, hb.2], rfl⟩
  · cases h

theorem denotes_facts {bs : List UInt8} {n : Nat} (h : Denotes bs n) :
    (∀ b ∈ bs, isDigitByte b = true) ∧ bs.foldl (fun n b => 10 * n + (b.toNat - 48)) 0 = n := by
  induction h with
  | @one b d h =>
    obtain ⟨h1, h2⟩ := digitValue_some h
    exact ⟨by simpa using h1, by simp [h2]⟩
  | @snoc bs b n d hs h ih =>
    obtain ⟨h1, h2⟩ := digitValue_some h
    refine ⟨?_, by rw [List.foldl_append, ih.2, h2]; rfl⟩
    intro x hx
    rcases List.mem_append.1 hx with hx | hx
    · exact ih.1 x hx
    · rw [List.mem_singleton.1 hx]; exact h1

theorem strtoul_denotes {bs : List UInt8} {n : Nat} (h : Denotes bs n) (hn : n ≤ 2147483647) :
    strtoul bs = (n, bs.length) := by
  obtain ⟨h1, h2⟩ := denotes_facts h
  have : bs.takeWhile isDigitByte = bs := takeWhile_all fun b hb => h1 b hb
  unfold strtoul
  simp only [this, h2]
  rw [Nat.min_eq_left (by omega)]

def digitByte (d : Nat) : UInt8 := UInt8.ofNat (48 + d)

theorem digit_table : ∀ d : Fin 10, UInt8.ofNat (Nat.digitChar d.val).toNat = digitByte d.val ∧
    digitValue (digitByte d.val) = some d.val ∧ (digitByte d.val = 48 → d.val = 0) := by decide

theorem decimal_constant (n : Nat) :
    Constant ((Nat.toDigits 10 n).map fun c => UInt8.ofNat c.toNat) n ∧
      (n ≠ 0 → ((Nat.toDigits 10 n).map fun c => UInt8.ofNat c.toNat).head? ≠ some 48) := by
  induction n using Nat.strongRecOn with
  | ind n ih =>
    by_cases h : n < 10
    · obtain ⟨h1, h2, h3⟩ := digit_table ⟨n, h⟩
      simp only at h1 h2 h3
      rw [Nat.toDigits_of_lt_base h]
      simp only [List.map_cons, List.map_nil, h1]
      refine ⟨⟨.one h2, ?_⟩, ?_⟩
      · intro h; simpa using h
      · intro hn hh; exact hn (h3 (by simpa using hh))
    · obtain ⟨⟨i1, i2⟩, i3⟩ := ih (n / 10) (by omega)
      obtain ⟨h1, h2, -⟩ := digit_table ⟨n % 10, Nat.mod_lt _ (by decide)⟩
      simp only at h1 h2
      rw [Nat.toDigits_of_base_le (by decide) (by omega), List.map_append]
      have i3 := i3 (by omega)
      have hd := Denotes.snoc i1 h2
      rw [Nat.div_add_mod n 10] at hd
      have hne : Nat.toDigits 10 (n / 10) ≠ [] := Nat.toDigits_ne_nil
      have hhead : ((Nat.toDigits 10 (n / 10)).map (fun c => UInt8.ofNat c.toNat) ++
          [digitByte (n % 10)]).head? ≠ some 48 := by
        cases hl : Nat.toDigits 10 (n / 10) with
        | nil => exact absurd hl hne
        | cons x xs => rw [hl] at i3; simpa using i3
      simp only [List.map_cons, List.map_nil, h1]
      exact ⟨⟨hd, fun h => absurd h hhead⟩, fun _ => hhead⟩

/-! ## The tokens of the directive -/

theorem sourceFile_white {ws : List Token} (h : significant ws = []) (r : List Token) :
    sourceFile (ws ++ r) = sourceFile r := by
  induction ws with
  | nil => rfl
  | cons τ ws ih =>
    have hτ : isWhite τ = true := by
      cases hw : isWhite τ with
      | true => rfl
      | false => simp [significant, hw] at h
    have h' : significant ws = [] := by simpa [significant, hτ] using h
    cases τ <;> cases hτ
    rename_i nl
    rw [List.cons_append, sourceFile]
    exact ih h'

theorem significant_cons {τs : List Token} {τ : Token} {r : List Token} (h : significant τs = τ :: r) :
    ∃ ws rest, τs = ws ++ τ :: rest ∧ significant ws = [] ∧ significant rest = r := by
  induction τs with
  | nil => cases h
  | cons x τs ih =>
    cases hx : isWhite x with
    | false =>
      have : significant (x :: τs) = x :: significant τs := by simp [significant, hx]
      rw [this] at h
      injection h with h1 h2
      subst h1
      exact ⟨[], τs, rfl, rfl, h2⟩
    | true =>
      have hs : significant (x :: τs) = significant τs := by simp [significant, hx]
      rw [hs] at h
      obtain ⟨ws, rest, h1, h2, h3⟩ := ih h
      exact ⟨x :: ws, rest, by rw [h1]; rfl, by simpa [significant, hx] using h2, h3⟩

theorem processLine_control {subst : List Token → Except Err (List Token)} {file : List UInt8}
    {τs τs' : List Token} {n : Nat} {name : Option (List UInt8)} (hs : subst τs = .ok τs')
    (hc : Control (significant τs') n name) (hf : ∀ τ r, τs' = τ :: r → isWhite τ = false) (c : Cursor) :
    processLine subst file τs c = some (.ok (name.getD file), { c with line := n }) := by
  have first : ∀ {τ : Token} {r : List Token}, significant τs' = τ :: r → ∃ rest, τs' = τ :: rest ∧
      significant rest = r := by
    intro τ r h
    cases τs' with
    | nil => cases h
    | cons x rest =>
      have hx := hf x rest rfl
      have : significant (x :: rest) = x :: significant rest := by simp [significant, hx]
      rw [this] at h
      injection h with h1 h2
      exact ⟨rest, by rw [h1], h2⟩
  generalize hg : significant τs' = sig at hc
  cases hc with
  | @number ds n hd hn =>
    obtain ⟨rest, h1, h2⟩ := first hg
    have hr := sourceFile_white h2 []
    rw [List.append_nil] at hr
    simp only [processLine, hs, h1, strtoul_denotes hd hn.2, hr, sourceFile]
    rw [if_pos trivial, Nat.mod_eq_of_lt (by omega)]
  | @named ds name n hd hn h0 =>
    obtain ⟨rest, h1, h2⟩ := first hg
    obtain ⟨ws, rest', h3, h4, -⟩ := significant_cons h2
    have hr := sourceFile_white h4 (.string .multibyte name :: rest')
    have hname : name.takeWhile (· ≠ 0) = name := by
      refine takeWhile_all fun b hb => ?_
      rw [decide_eq_true_eq]
      rintro rfl
      exact h0 hb
    simp only [processLine, hs, h1, strtoul_denotes hd hn.2, h3, hr, sourceFile, hname]
    rw [if_pos trivial, Nat.mod_eq_of_lt (by omega)]

/-! ## Lines -/

theorem foldl_line (p : List Chr) (l k : Nat) : (p.foldl locStep (l, k)).1 = l + newlines p := by
  induction p generalizing l k with
  | nil => rfl
  | cons x p ih =>
    rw [List.foldl_cons]
    by_cases h : x = ch '\n'
    · rw [show locStep (l, k) x = (l + 1, 1) from if_pos h, ih, h]
      unfold newlines
      rw [List.count_cons_self]
      omega
    · rw [show locStep (l, k) x = (l, k + 1) from if_neg h, ih]
      unfold newlines
      rw [List.count_cons_of_ne h]

theorem adv_line (c : Cursor) (k : Nat) : ∃ p, c.rest = p ++ (c.adv k).rest ∧
    (splice p).length = min k c.text.length ∧ (c.adv k).line = c.line + newlines p := by
  obtain ⟨p, h1, h2, -, h4⟩ := advList_loc c.rest k c.line c.col
  refine ⟨p, h1, h4, ?_⟩
  show (advList c.rest k c.line c.col).2.1 = _
  rw [h2, foldl_line]

theorem ppNext_line {c c' : Cursor} {τ : LocToken} (h : ppNext sc t c = some (.ok τ, c')) : τ.line = c.line := by
  unfold ppNext at h
  have h2 : ∀ {f : Lex LocToken}, apply f c = some (.ok τ, c') → f c = some (.ok τ, c') := by
    intro f hf
    unfold apply at hf
    split at hf <;> first | exact hf | cases hf | skip
    all_goals simp_all
  have h3 := h2 h
  unfold ppNextImpl at h3
  simp only [bind_apply, location, pure_apply] at h3
  split at h3
  · cases h3
  · cases h3; rfl
  · cases h3

theorem scannerNext_line {c c' : Cursor} {τs : List Token} {plain : Prop} (hp : plain)
    (h : LineDirective sc t plain c τs c') :
    scannerNext sc t true c = some (.ok (.line τs, true), c') := by
  obtain ⟨h, n, a, b, e, c2, h1, ⟨r, h2⟩, h3, ⟨r', h4, h5, h6⟩, h7, ⟨x, r'', h8, h9⟩, h10, -, h11, h12⟩ := h
  have hm := matchDirective_known h1 h2 h3 (name := str "line") (k := .line) (by decide) h4 h5 h6
  rw [scannerNext, if_neg (by simp), bind_some hm]
  simp only []
  rw [h12 hp] at h11
  rw [bind_some (skipBlanks_only h7 (first_not_blank h8 h9)),
    bind_some (scanPpTokens_line (.newline h10 h11) [])]
  rfl

end Kefir.LineDir
