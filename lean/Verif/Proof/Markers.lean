import Verif.Proof.Lines
/-!
# Scanning lines that begin with a marker
-/
namespace Adoc.Scanner
open Spec Props

/-- The beginning of a line. -/
def AtStart (pre : Str) : Prop := pre = [] ∨ ∃ r, pre = r ++ [10]

theorem AtStart.newLine {pre : Str} (h : AtStart pre) (s : Scanner) (rest : Str) (h1 : s.src = pre ++ rest)
    (h2 : s.start = pre.length) : s.startsNewLine = true := by
  unfold startsNewLine
  rw [h1, h2]
  rcases h with rfl | ⟨r, rfl⟩
  · rfl
  · simp

/-- The markers of headings and list items, with their token types. -/
inductive Marker : Str → TokenType → Prop where
  | title : Marker b!"= " .heading1
  | head1 : Marker b!"== " .heading2
  | head2 : Marker b!"=== " .heading3
  | head3 : Marker b!"==== " .heading4
  | head4 : Marker b!"===== " .heading5
  | star : Marker b!"* " .unorderedListItem
  | dot : Marker b!". " .orderedListItem

theorem peek_at (pre rest : Str) (b c : UInt8) (hc : isCont c = false) :
    peekAt (pre ++ b :: c :: rest) (pre.length + 1) = c :=
  peekAt_eq (by rw [List.getElem?_append_right (by omega)]; simp) hc

theorem adv_equals (pre rest : Str) (k : Nat) :
    adv (pre ++ (List.replicate (k + 1) c!"=" ++ c!" " :: rest)) (· = c!"=") (pre.length + 1) = pre.length + (k + 1) := by
  apply adv_eq
  · omega
  · simp
  · intro i h1 h2
    rw [peekAt_eq (b := c!"=")]
    · decide
    · rw [List.getElem?_append_right (by omega), List.getElem?_append_left (by simp; omega), List.getElem?_replicate,
        if_pos (by omega)]
    · decide
  · right
    rw [peekAt_eq (b := c!" ")]
    · decide
    · rw [List.getElem?_append_right (by omega), List.getElem?_append_right (by simp)]
      simp
    · decide

/-- A token that is not checked further. -/
theorem addToken_mid (pre mk rest : Str) (col n : Nat) (fs : List Str) (ty : TokenType) (hmk : Starts (mk ++ rest))
    (hr : Starts rest) (hv : ∀ t : Token, t.ty = ty → t.validate = t) :
    addToken ⟨pre ++ (mk ++ rest), pre.length, col, pre.length + mk.length, n, true, false, fs⟩ ty false 0
      = (.tok ⟨ty, mk, none, n, col, col + mk.length - 1, fs⟩, cut (pre ++ mk) rest pre.length (col + mk.length) n fs) := by
  unfold addToken
  simp only [slice_mid pre mk rest hmk hr]
  simp [hv, cut]

theorem next_marker (pre mk rest : Str) (st n : Nat) (fs : List Str) (ty : TokenType) (hm : Marker mk ty)
    (hs : AtStart pre) (hr : Starts rest) :
    (cut pre (mk ++ rest) st 1 n fs).next
      = some (.tok ⟨ty, mk, none, n, 1, mk.length, fs⟩, cut (pre ++ mk) rest pre.length (1 + mk.length) n fs) := by
  obtain ⟨b, bs, hb, hbc⟩ : ∃ b bs, mk = b :: bs ∧ isCont b = false := by
    cases hm <;> exact ⟨_, _, rfl, by decide⟩
  have hget : (pre ++ (mk ++ rest)).getD pre.length 0 = b := by simp [hb]
  have hstart : Starts (mk ++ rest) := by rw [hb]; exact starts_ascii _ _ hbc
  have hlen : 1 + mk.length - 1 = mk.length := by omega
  have htok := addToken_mid pre mk rest 1 n fs ty hstart hr (by
    intro t ht
    unfold Token.validate
    rw [ht]
    cases hm <;> rfl)
  rw [hlen] at htok
  rw [← htok]
  unfold next isAtEnd
  rw [if_neg (by simp [cut, hb])]
  unfold scanToken
  simp only [cut, hget]
  have hno : ∀ (w : Str) k, w ≠ [0] → ¬w <+: bs ++ rest → peeksAheadAt (pre ++ (mk ++ rest)) (pre.length + 1) k ≠ w := by
    intro w k hw hp h
    rw [hb] at h
    exact hp (peeks_prefix pre (bs ++ rest) w b k h hw)
  generalize hsc : (⟨pre ++ (mk ++ rest), pre.length, 1, pre.length + 1, n, true, false, fs⟩ : Scanner) = s
  have hsrc : s.src = pre ++ (mk ++ rest) := by rw [← hsc]
  have hnl : s.startsNewLine = true := hs.newLine s (mk ++ rest) hsrc (by rw [← hsc])
  have htag : s.startsEndTagLine = false := by rw [← hsc]; rfl
  have hrep : s.startsRepeated b 4 = false := by
    unfold startsRepeated
    rw [Bool.and_eq_false_iff]; right
    simp only [decide_eq_false_iff_not]
    rw [← hsc]
    apply hno
    · simp
    · cases hm <;> cases hb <;> simp [List.cons_prefix_cons]
  have hpk : ∀ c cs, bs = c :: cs → isCont c = false → s.peek = c := by
    intro c cs h hc
    rw [← hsc]
    show peekAt (pre ++ (mk ++ rest)) (pre.length + 1) = c
    rw [hb, h]
    exact peek_at _ _ _ _ hc
  have hdel : ∀ c, c = b → s.scanDelimChar c = if c = c!"=" then s.scanEquals
    else if c = c!"-" then s.scanMinus
    else if c = c!"*" then s.scanStar
    else if c = c!"/" then s.scanSlash
    else if c = c!"+" then s.scanPlus
    else if c = c!"_" then s.inlineFormatting c!"_" .emphasis .unconstrainedEmphasis
    else if c = c!"." then s.scanDot
    else s.addText := by
    intro c hc
    unfold scanDelimChar
    rw [hc, htag, hnl, hrep]; rfl
  congr 1
  have hhead : ∀ k, mk = List.replicate (k + 1) c!"=" ++ [c!" "] → s.addHeading = match k + 1 with
      | 1 => addToken { s with current := pre.length + mk.length } .heading1 false 0
      | 2 => addToken { s with current := pre.length + mk.length } .heading2 false 0
      | 3 => addToken { s with current := pre.length + mk.length } .heading3 false 0
      | 4 => addToken { s with current := pre.length + mk.length } .heading4 false 0
      | 5 => addToken { s with current := pre.length + mk.length } .heading5 false 0
      | _ => (.err (.headingLevel s.line), { s with current := pre.length + mk.length }) := by
    intro k hk
    have h1 : adv s.src (· = c!"=") s.current = pre.length + (k + 1) := by
      rw [hsrc, ← hsc, hk]
      simpa using adv_equals pre rest k
    unfold addHeading
    rw [h1]
    have h2 : pre.length + mk.length - 1 - s.start = k + 1 := by rw [← hsc, hk]; simp
    have h3 : pre.length + (k + 1) + 1 = pre.length + mk.length := by rw [hk]; simp; omega
    simp only [h3, h2]
    rfl
  have heq : ∀ k, mk = List.replicate (k + 1) c!"=" ++ [c!" "] → s.scanEquals = s.addHeading := by
    intro k hk
    unfold scanEquals
    rw [if_neg, hnl]; · rfl
    intro h
    rw [hb] at hk
    cases k with
    | zero =>
      simp at hk
      rw [hpk _ _ hk.2 (by decide)] at h; cases h
    | succ k =>
      rw [List.replicate_succ, List.replicate_succ] at hk
      simp at hk
      rw [hpk _ _ hk.2 (by decide)] at h; cases h
  cases hm with
  | title =>
    cases hb
    show s.scanDelimChar c!"=" = _
    rw [hdel _ rfl, if_pos rfl, heq 0 rfl, hhead 0 rfl, ← hsc]
    rfl
  | head1 =>
    cases hb
    show s.scanDelimChar c!"=" = _
    rw [hdel _ rfl, if_pos rfl, heq 1 rfl, hhead 1 rfl, ← hsc]
    rfl
  | head2 =>
    cases hb
    show s.scanDelimChar c!"=" = _
    rw [hdel _ rfl, if_pos rfl, heq 2 rfl, hhead 2 rfl, ← hsc]
    rfl
  | head3 =>
    cases hb
    show s.scanDelimChar c!"=" = _
    rw [hdel _ rfl, if_pos rfl, heq 3 rfl, hhead 3 rfl, ← hsc]
    rfl
  | head4 =>
    cases hb
    show s.scanDelimChar c!"=" = _
    rw [hdel _ rfl, if_pos rfl, heq 4 rfl, hhead 4 rfl, ← hsc]
    rfl
  | star =>
    cases hb
    show s.scanDelimChar c!"*" = _
    rw [hdel _ rfl, if_neg (by decide), if_neg (by decide), if_pos rfl]
    unfold scanStar addListItem
    rw [hnl, hpk _ _ rfl (by decide), ← hsc]
    rfl
  | dot =>
    cases hb
    show s.scanDelimChar c!"." = _
    rw [hdel _ rfl, if_neg (by decide), if_neg (by decide), if_neg (by decide), if_neg (by decide), if_neg (by decide),
      if_neg (by decide), if_pos rfl]
    unfold scanDot addListItem
    have h2 : s.peeksAhead 2 ≠ b!".." := by
      rw [← hsc]
      apply hno
      · decide
      · simp [List.cons_prefix_cons]
    rw [if_neg h2, hnl, hpk _ _ rfl (by decide), ← hsc]
    rfl

end Adoc.Scanner
