import Verif.Proof.ScanTrace
/-! # The scanner on a text preceded by a complete line behaves as on the text alone -/
namespace Adoc.Scanner

/-- A preceding text that ends a line, the next position being a character boundary. -/
structure Before (a b : Str) : Prop where
  nl : a.getLast? = some 10
  boundary : isBoundary (a ++ b) a.length = true

namespace Before
variable {a b : Str} (h : Before a b)
include h

theorem pos : 0 < a.length := by
  cases a with
  | nil => have := h.nl; simp at this
  | cons x xs => simp

theorem last : (a ++ b).getD (a.length - 1) 0 = 10 := by
  have h1 := h.nl
  have hp := h.pos
  rw [List.getLast?_eq_getElem?] at h1
  rw [List.getD_eq_getElem?_getD, List.getElem?_append_left (by omega), h1]; rfl

theorem bnd (i : Nat) : isBoundary (a ++ b) (a.length + i) = isBoundary b i := by
  have hp := h.pos
  by_cases hi : i = 0
  · subst hi; rw [Nat.add_zero, h.boundary]; simp [isBoundary]
  · unfold isBoundary
    rw [if_neg (by omega), if_neg hi, List.getElem?_append_right (by omega), Nat.add_sub_cancel_left]
    cases b[i]? with
    | none => simp
    | some x => rfl

theorem getD (i : Nat) : (a ++ b).getD (a.length + i) 0 = b.getD i 0 := by
  rw [List.getD_eq_getElem?_getD, List.getD_eq_getElem?_getD, List.getElem?_append_right (by omega),
    Nat.add_sub_cancel_left]

theorem getE (i : Nat) : (a ++ b)[a.length + i]? = b[i]? := by
  rw [List.getElem?_append_right (by omega), Nat.add_sub_cancel_left]

theorem getD_pred (i : Nat) (hi : 1 ≤ i) : (a ++ b).getD (a.length + i - 1) 0 = b.getD (i - 1) 0 := by
  rw [show a.length + i - 1 = a.length + (i - 1) by omega, h.getD]

theorem peekAt (i : Nat) : peekAt (a ++ b) (a.length + i) = Scanner.peekAt b i := by
  unfold Scanner.peekAt; rw [h.bnd, h.getD]

theorem peeksAheadAt (i n : Nat) : peeksAheadAt (a ++ b) (a.length + i) n = Scanner.peeksAheadAt b i n := by
  unfold Scanner.peeksAheadAt
  rw [Nat.add_assoc, h.bnd, List.drop_append, List.drop_eq_nil_of_le (by omega), List.nil_append,
    Nat.add_sub_cancel_left]
  simp only [List.length_append, Nat.add_le_add_iff_left, Nat.add_lt_add_iff_left]

theorem advF (p : UInt8 → Bool) (n i : Nat) : advF (a ++ b) p n (a.length + i) = a.length + Scanner.advF b p n i := by
  induction n generalizing i with
  | zero => rfl
  | succ n ih =>
    rw [Scanner.advF, Scanner.advF, h.peekAt]
    simp only [List.length_append, Nat.add_lt_add_iff_left]
    split
    · exact ih (i + 1)
    · rfl

theorem adv (p : UInt8 → Bool) (i : Nat) : adv (a ++ b) p (a.length + i) = a.length + Scanner.adv b p i := by
  unfold Scanner.adv
  rw [List.length_append, show a.length + b.length - (a.length + i) = b.length - i by omega, h.advF]

theorem slice (i j : Nat) : slice (a ++ b) (a.length + i) (a.length + j) = Adoc.slice b i j := by
  unfold Adoc.slice
  rw [h.bnd, h.bnd, List.drop_append, List.drop_eq_nil_of_le (by omega), List.nil_append,
    Nat.add_sub_cancel_left, Nat.add_sub_add_left]
  simp only [List.length_append, Nat.add_le_add_iff_left]

theorem tableCellEnd (n i : Nat) (hi : 1 ≤ i) :
    tableCellEnd (a ++ b) n (a.length + i) = a.length + Scanner.tableCellEnd b n i := by
  induction n generalizing i with
  | zero => rfl
  | succ n ih =>
    rw [Scanner.tableCellEnd, Scanner.tableCellEnd, h.adv]
    have := adv_ge b (fun b => b ≠ c!"\n" && b ≠ 0 && b ≠ c!"|") i
    rw [h.peekAt, h.getD_pred _ (by omega)]
    split
    · exact ih (_ + 1) (by omega)
    · rfl

theorem linkEnd (n i : Nat) :
    linkEnd (a ++ b) n (a.length + i) = ((Scanner.linkEnd b n i).1, a.length + (Scanner.linkEnd b n i).2) := by
  induction n generalizing i with
  | zero => rfl
  | succ n ih =>
    rw [Scanner.linkEnd, Scanner.linkEnd, h.adv]
    dsimp only
    rw [h.peekAt, h.peeksAheadAt]
    repeat' split
    all_goals first | rfl | exact ih (_ + 1)

theorem findPat (pat : Str) (n i : Nat) :
    findPat (a ++ b) pat n (a.length + i) = (Scanner.findPat b pat n i).map (a.length + ·) := by
  induction n generalizing i with
  | zero => rfl
  | succ n ih =>
    rw [Scanner.findPat, Scanner.findPat, h.peeksAheadAt, Nat.add_assoc, h.bnd, h.bnd]
    simp only [List.length_append, Nat.add_le_add_iff_left]
    repeat' split
    all_goals first | rfl | exact ih (_ + 1)

theorem peekLineEnd (i n c : Nat) : peekLineEnd (a ++ b) (a.length + i) n c = Scanner.peekLineEnd b i n c := by
  induction n generalizing c with
  | zero => rfl
  | succ n ih =>
    rw [Scanner.peekLineEnd, Scanner.peekLineEnd, h.peeksAheadAt, ih]

end Before

/-- The scanner `t` with `a` put before its text, `l` lines further down. -/
def sh (a : Str) (l : Nat) (t : Scanner) : Scanner :=
  { t with src := a ++ t.src, start := a.length + t.start, current := a.length + t.current, line := l + t.line }

/-- An item `l` lines further down. -/
def shItem (l : Nat) : Item → Item
  | .tok t => .tok { t with line := l + t.line }
  | .err (.headingLevel n) => .err (.headingLevel (l + n))
  | it => it

def shR (a : Str) (l : Nat) (r : Item × Scanner) : Item × Scanner := (shItem l r.1, sh a l r.2)

theorem shR_ite (a : Str) (l : Nat) (p : Prop) [Decidable p] (x y : Item × Scanner) :
    shR a l (if p then x else y) = if p then shR a l x else shR a l y := by split <;> rfl

theorem validate_line_comm (ty : TokenType) (x : Str) (y : Option Str) (n k c d : Nat) (f : List Str) :
    (⟨ty, x, y, k + n, c, d, f⟩ : Token).validate =
      { (⟨ty, x, y, n, c, d, f⟩ : Token).validate with line := k + (⟨ty, x, y, n, c, d, f⟩ : Token).validate.line } := by
  unfold Token.validate; dsimp only
  cases ty <;> dsimp only <;> split <;> rfl

section
variable {a : Str} {l : Nat} {t : Scanner}

theorem sh_addToken (h : Before a t.src) (ty : TokenType) (lit : Bool) (n : Nat) :
    addToken (sh a l t) ty lit n = shR a l (addToken t ty lit n) := by
  unfold addToken
  simp only [sh, h.slice]
  split
  · rfl
  · split
    · simp only [shR, shItem, Prod.mk.injEq, Item.tok.injEq]
      exact ⟨validate_line_comm .., by simp [sh, Nat.add_assoc]⟩
    · simp only [shR, shItem, Prod.mk.injEq, Item.tok.injEq]
      exact ⟨validate_line_comm .., by simp [sh]⟩

theorem sh_addText (h : Before a t.src) : addText (sh a l t) = shR a l (addText t) := by
  unfold addText
  rw [← sh_addToken (by exact h)]
  simp only [sh, h.adv]

theorem sh_cur (k : Nat) : { sh a l t with current := (sh a l t).current + k } = sh a l { t with current := t.current + k } := by
  simp [sh, Nat.add_assoc]

theorem sh_peek (h : Before a t.src) : peek (sh a l t) = peek t := by simp only [peek, sh, h.peekAt]

theorem sh_peeks (h : Before a t.src) (n : Nat) : peeksAhead (sh a l t) n = peeksAhead t n := by
  simp only [peeksAhead, sh, h.peeksAheadAt]

theorem sh_newLine (h : Before a t.src) : startsNewLine (sh a l t) = startsNewLine t := by
  have hp := h.pos
  rw [Bool.eq_iff_iff]
  unfold startsNewLine
  simp only [Bool.or_eq_true, decide_eq_true_eq]
  show (a.length + t.start = 0 ∨ (a ++ t.src).getD (a.length + t.start - 1) 0 = 10) ↔ _
  by_cases hs : t.start = 0
  · rw [hs, Nat.add_zero, h.last]; simp
  · rw [h.getD_pred _ (by omega)]
    constructor
    · rintro (h | h)
      · omega
      · exact .inr h
    · rintro (h | h)
      · omega
      · exact .inr h

/-- `peekBack` is the same except at the very start, where it is a newline instead of nothing. -/
theorem sh_back (h : Before a t.src) :
    (peekBack (sh a l t) = peekBack t) ∨ (peekBack (sh a l t) = 10 ∧ peekBack t = 0) := by
  have hp := h.pos
  have e : peekBack (sh a l t) = peekAt (a ++ t.src) (a.length + t.start - 1) :=
    if_neg (show ¬ a.length + t.start = 0 by omega)
  rw [e]
  unfold peekBack
  by_cases hs : t.start = 0
  · right
    rw [if_pos hs, hs, Nat.add_zero]
    refine ⟨?_, rfl⟩
    unfold peekAt
    rw [h.last, if_pos]
    unfold isBoundary
    split
    · rfl
    · have hl := h.last
      have : a.length - 1 < (a ++ t.src).length := by simp; omega
      rw [List.getD_eq_getElem?_getD, List.getElem?_eq_getElem this] at hl
      rw [List.getElem?_eq_getElem this]
      simp only [Option.getD_some] at hl
      rw [hl]; rfl
  · left
    rw [if_neg hs, show a.length + t.start - 1 = a.length + (t.start - 1) by omega, h.peekAt]

theorem sh_back_space (h : Before a t.src) : (peekBack (sh a l t) = c!" ") = (peekBack t = c!" ") := by
  rcases sh_back (l := l) h with h | ⟨h1, h2⟩
  · rw [h]
  · rw [h1, h2]; simp

theorem sh_back_begins (h : Before a t.src) : beginsInline (peekBack (sh a l t)) = beginsInline (peekBack t) := by
  rcases sh_back (l := l) h with h | ⟨h1, h2⟩
  · rw [h]
  · rw [h1, h2]; decide

theorem sh_back_open (h : Before a t.src) :
    (peekBack (sh a l t) = 0 ∨ peekBack (sh a l t) = c!" " ∨ peekBack (sh a l t) = c!"\n") =
    (peekBack t = 0 ∨ peekBack t = c!" " ∨ peekBack t = c!"\n") := by
  rcases sh_back (l := l) h with h | ⟨h1, h2⟩
  · rw [h]
  · rw [h1, h2]; simp

theorem sh_repeated (h : Before a t.src) (c : UInt8) (n : Nat) : startsRepeated (sh a l t) c n = startsRepeated t c n := by
  unfold startsRepeated
  rw [sh_peeks h]
  simp only [sh, List.length_append, Nat.add_assoc, Nat.add_le_add_iff_left]

theorem sh_endTag (ht : t.expectingTagEnd = false) :
    startsEndTagLine (sh a l t) = false ∧ startsEndTagLine t = false := by
  simp [startsEndTagLine, sh, ht]

theorem sh_heading (h : Before a t.src) : addHeading (sh a l t) = shR a l (addHeading t) := by
  unfold addHeading
  simp only [sh, h.adv]
  have e : ∀ k, a.length + k + 1 - 1 - (a.length + t.start) = k + 1 - 1 - t.start := by omega
  rw [e]
  have f := fun (ty : TokenType) (k : Nat) =>
    sh_addToken (a := a) (l := l) (t := { t with current := k + 1 }) (by exact h) ty false 0
  simp only [sh, ← Nat.add_assoc] at f
  split
  · rw [f]
  · rw [f]
  · rw [f]
  · rw [f]
  · rw [f]
  · simp [shR, shItem, sh, Nat.add_assoc]

theorem sh_listItem (h : Before a t.src) (ty : TokenType) : addListItem (sh a l t) ty = shR a l (addListItem t ty) := by
  unfold addListItem
  rw [sh_cur, sh_addToken (by exact h)]

theorem sh_bracket (h : Before a t.src) (ty : TokenType) :
    addThroughBracket (sh a l t) ty = shR a l (addThroughBracket t ty) := by
  unfold addThroughBracket
  simp only [sh, h.adv, List.length_append, Nat.add_le_add_iff_left]
  rw [shR_ite, ← sh_addToken (by exact h)]
  simp only [sh, Nat.add_assoc]
  rfl

theorem sh_cell (h : Before a t.src) (hc : 1 ≤ t.current) : addTableCell (sh a l t) = shR a l (addTableCell t) := by
  unfold addTableCell
  rw [← sh_addToken (by exact h)]
  simp only [sh, List.length_append]
  rw [show a.length + t.src.length + 1 - (a.length + t.current) = t.src.length + 1 - t.current by omega,
    h.tableCellEnd _ _ hc]

theorem sh_link (h : Before a t.src) : addLink (sh a l t) = shR a l (addLink t) := by
  unfold addLink
  dsimp only
  rw [← sh_addToken (by exact h)]
  simp only [sh, List.length_append]
  rw [show a.length + t.src.length + 1 - (a.length + t.current) = t.src.length + 1 - t.current by omega,
    h.linkEnd]

theorem sh_xref (h : Before a t.src) : addCrossReference (sh a l t) = shR a l (addCrossReference t) := by
  unfold addCrossReference
  simp only [sh, List.length_append]
  rw [show a.length + t.src.length + 1 - (a.length + t.current) = t.src.length + 1 - t.current by omega,
    h.findPat]
  cases findPat t.src b!">>" (t.src.length + 1 - t.current) t.current with
  | none => rfl
  | some i =>
    simp only [Option.map_some]
    rw [← sh_addToken (by exact h)]
    simp only [sh, Nat.add_assoc]

theorem sh_anchor (h : Before a t.src) : addBlockAnchor (sh a l t) = shR a l (addBlockAnchor t) := by
  unfold addBlockAnchor
  simp only [sh, List.length_append]
  rw [show a.length + t.src.length + 1 - (a.length + t.current) = t.src.length + 1 - t.current by omega,
    h.findPat]
  cases findPat t.src b!"]]\n" (t.src.length + 1 - t.current) t.current with
  | none => rfl
  | some i =>
    simp only [Option.map_some]
    rw [← sh_addToken (by exact h)]
    simp only [sh, Nat.add_assoc]

theorem sh_skipLine (h : Before a t.src) : skipLine (sh a l t) = sh a l (skipLine t) := by
  unfold skipLine
  simp only [sh, h.adv, h.peekAt]
  split <;> simp [Nat.add_assoc]

theorem src_addToken (s : Scanner) (ty : TokenType) (lit : Bool) (n : Nat) : (addToken s ty lit n).2.src = s.src := by
  unfold addToken
  repeat' split
  all_goals rfl

theorem sh_tag (h : Before a t.src) (he : t.expectingTagEnd = false) : addTag (sh a l t) = shR a l (addTag t) := by
  have e1 : tagStart (sh a l t) = some (sh a l t) := by simp [tagStart, sh, he]
  have e2 : tagStart t = some t := by simp [tagStart, he]
  unfold addTag
  rw [e1, e2]
  simp only []
  have key : ∀ b ty, addToken { sh a l t with current := adv (sh a l t).src (· ≠ c!"]") (sh a l t).current + 1, expectingTagEnd := b }
      ty true 1 = shR a l (addToken { t with current := adv t.src (· ≠ c!"]") t.current + 1, expectingTagEnd := b } ty true 1) := by
    intro b ty
    rw [← sh_addToken (by exact h)]
    simp only [sh, h.adv, Nat.add_assoc]
  simp only [key]
  have hs : slice (sh a l t).src (sh a l t).start (adv (sh a l t).src (· ≠ c!"]") (sh a l t).current + 1)
      = slice t.src t.start (adv t.src (· ≠ c!"]") t.current + 1) := by
    simp only [sh, h.adv, Nat.add_assoc, h.slice]
  rw [hs]
  split
  · simp [shR, shItem, sh, h.adv, Nat.add_assoc]
  · split
    · simp only [shR, Prod.mk.injEq, true_and]
      exact sh_skipLine (by rw [src_addToken]; exact h)
    · split
      · simp only [shR, Prod.mk.injEq, true_and]
        exact sh_skipLine (by rw [src_addToken]; exact h)
      · simp [shR, shItem, sh, h.adv, Nat.add_assoc]

theorem sh_attr (h : Before a t.src) : startsAttr (sh a l t) = startsAttr t := by
  unfold startsAttr
  simp only [sh, h.adv, h.getE]

theorem sh_attrRef (h : Before a t.src) : startsAttributeReference (sh a l t) = startsAttributeReference t := by
  unfold startsAttributeReference
  simp only [sh, h.adv, h.getE]

theorem sh_charref (h : Before a t.src) : startsCharref (sh a l t) = startsCharref t := by
  unfold startsCharref
  simp only [sh, h.adv, h.getE]

theorem sh_formatting (h : Before a t.src) (c : UInt8) (x y : TokenType) :
    inlineFormatting (sh a l t) c x y = shR a l (inlineFormatting t c x y) := by
  unfold inlineFormatting
  simp only [sh_back_space h, sh_back_begins h, sh_peek h, sh_addText h, sh_cur, shR_ite, sh_addToken h,
    sh_addToken (t := { t with current := t.current + 1 }) (by exact h)]

theorem sh_attribution (h : Before a t.src) (hc : 1 ≤ t.current) :
    attributionEnd (sh a l t) = (attributionEnd t).map (a.length + ·) := by
  unfold attributionEnd
  rw [sh_newLine h]
  have := adv_ge t.src (· ≠ c!"\n") t.current
  simp only [sh, h.adv]
  rw [h.getD_pred _ (by omega)]
  split <;> rfl

theorem sh_calloutScan (h : Before a t.src) :
    calloutScan (sh a l t) = ((calloutScan t).1, sh a l (calloutScan t).2) := by
  unfold calloutScan
  simp only [sh, h.adv, h.peekAt]
  split <;> simp [Nat.add_assoc]

theorem calloutScan_src (s : Scanner) : (calloutScan s).2.src = s.src := by
  unfold calloutScan; dsimp only; split <;> rfl

theorem sh_calloutItem (h : Before a t.src) :
    startsCalloutListItem (sh a l t) = ((startsCalloutListItem t).1, sh a l (startsCalloutListItem t).2) := by
  unfold startsCalloutListItem
  simp only [sh_calloutScan h]
  rw [sh_peek (by rw [calloutScan_src]; exact h)]

theorem sh_callout (h : Before a t.src) :
    startsCallout (sh a l t) = ((startsCallout t).1, sh a l (startsCallout t).2) := by
  unfold startsCallout
  simp only [sh_calloutScan h]
  rw [sh_peek (by rw [calloutScan_src]; exact h)]

theorem sh_callouts (h : Before a t.src) : scanCallouts (sh a l t) = shR a l (scanCallouts t) := by
  have fin : ∀ t : Scanner, Before a t.src →
      (if (startsCallout (sh a l t)).1 = true then addToken (startsCallout (sh a l t)).2 .codeCallout true 0
        else (startsCallout (sh a l t)).2.addText) = shR a l (if (startsCallout t).1 = true then
          addToken (startsCallout t).2 .codeCallout true 0 else (startsCallout t).2.addText) := by
    intro t h
    have hs : (startsCallout t).2.src = t.src := calloutScan_src t
    rw [sh_callout h]
    simp only [shR_ite]
    rw [sh_addToken (by rw [hs]; exact h), sh_addText (by rw [hs]; exact h)]
  have hs : (startsCalloutListItem t).2.src = t.src := calloutScan_src t
  unfold scanCallouts
  simp only [sh_newLine h, sh_calloutItem h, shR_ite]
  rw [sh_cur, sh_addToken (by dsimp only; rw [hs]; exact h)]
  have f1 := fin t h
  have f2 := fin (startsCalloutListItem t).2 (by rw [hs]; exact h)
  simp only [shR_ite] at f1 f2
  rw [f1, f2]

theorem sh_parens (h : Before a t.src) : addParens (sh a l t) = shR a l (addParens t) := by
  unfold addParens
  simp only [sh, h.adv, List.length_append, Nat.add_le_add_iff_left]
  rw [shR_ite, ← sh_addToken (by exact h)]
  simp only [sh, Nat.add_assoc]
  rfl

theorem sh_add (h : Before a t.src) (k : Nat) (ty : TokenType) (lit : Bool) (n : Nat) :
    addToken { sh a l t with current := (sh a l t).current + k } ty lit n
      = shR a l (addToken { t with current := t.current + k } ty lit n) := by
  rw [sh_cur, sh_addToken (by exact h)]

theorem sh_word (h : Before a t.src) (w : Str) (ty : TokenType) (lit : Bool) :
    scanWord (sh a l t) w ty lit = shR a l (scanWord t w ty lit) := by
  unfold scanWord
  rw [sh_peeks h, shR_ite, sh_add h, sh_addText h]

theorem sh_quote (h : Before a t.src) (he : t.expectingTagEnd = false) : scanQuote (sh a l t) = shR a l (scanQuote t) := by
  unfold scanQuote
  simp only [sh_back_open h, sh_repeated h, sh_peek h, sh_peeks h, (sh_endTag (a := a) (l := l) he).1, (sh_endTag (a := a) (l := l) he).2,
    shR_ite, sh_add h, sh_addToken h, sh_addText h, Bool.false_eq_true, if_false]

theorem sh_less (h : Before a t.src) (he : t.expectingTagEnd = false) : scanLess (sh a l t) = shR a l (scanLess t) := by
  unfold scanLess
  simp only [sh_repeated h, sh_peek h, (sh_endTag (a := a) (l := l) he).1, (sh_endTag (a := a) (l := l) he).2,
    shR_ite, sh_add h, sh_xref h, sh_callouts h, Bool.false_eq_true, if_false]

theorem sh_emdash (h : Before a t.src) : startsEmdash (sh a l t) = startsEmdash t := by
  unfold startsEmdash; rw [sh_peeks h, sh_peek h]

theorem sh_delim (h : Before a t.src) (he : t.expectingTagEnd = false) (c : UInt8) :
    scanDelimChar (sh a l t) c = shR a l (scanDelimChar t c) := by
  have h1 : scanEquals (sh a l t) = shR a l (scanEquals t) := by
    unfold scanEquals
    simp only [sh_peek h, sh_newLine h, shR_ite, sh_add h, sh_heading h, sh_addText h]
  have h2 : scanMinus (sh a l t) = shR a l (scanMinus t) := by
    unfold scanMinus
    simp only [sh_peek h, sh_newLine h, shR_ite, sh_add h, sh_emdash h, sh_repeated h, sh_addText h]
  have h3 : scanStar (sh a l t) = shR a l (scanStar t) := by
    unfold scanStar
    simp only [sh_peek h, sh_newLine h, shR_ite, sh_listItem h, sh_formatting h]
  have h4 : scanSlash (sh a l t) = shR a l (scanSlash t) := by
    unfold scanSlash
    have : addToken { sh a l t with current := adv (sh a l t).src (· ≠ c!"\n") (sh a l t).current } .comment true 0
        = shR a l (addToken { t with current := adv t.src (· ≠ c!"\n") t.current } .comment true 0) := by
      rw [← sh_addToken (by exact h)]; simp only [sh, h.adv]
    simp only [sh_peek h, sh_peeks h, sh_newLine h, shR_ite, sh_add h, sh_addText h, this,
      (sh_endTag (a := a) (l := l) he).1, (sh_endTag (a := a) (l := l) he).2, Bool.false_eq_true, if_false]
  have h5 : scanPlus (sh a l t) = shR a l (scanPlus t) := by
    unfold scanPlus
    simp only [sh_peek h, sh_newLine h, shR_ite, sh_addToken h, sh_back_space h, sh_formatting h]
  have h6 : scanDot (sh a l t) = shR a l (scanDot t) := by
    unfold scanDot
    simp only [sh_peek h, sh_peeks h, sh_newLine h, shR_ite, sh_add h, sh_addToken h, sh_listItem h, sh_addText h]
  unfold scanDelimChar
  simp only [sh_newLine h, sh_repeated h, shR_ite, h1, h2, h3, h4, h5, h6, sh_formatting h, sh_addText h,
    (sh_endTag (a := a) (l := l) he).1, (sh_endTag (a := a) (l := l) he).2, Bool.false_eq_true, if_false]
  have h7 : (match TokenType.blockFromChar c with
      | some ty => addToken { sh a l t with current := (sh a l t).current + 3 } ty false 0
      | none => (.err .characterMatch, { sh a l t with current := (sh a l t).current + 3 }))
      = shR a l (match TokenType.blockFromChar c with
      | some ty => addToken { t with current := t.current + 3 } ty false 0
      | none => (.err .characterMatch, { t with current := t.current + 3 })) := by
    cases TokenType.blockFromChar c with
    | some ty => exact sh_add h _ _ _ _
    | none => simp only [sh_cur]; rfl
  split
  · exact h7
  · rfl

theorem sh_scanBracket (h : Before a t.src) (hc : 1 ≤ t.current) : scanBracket (sh a l t) = shR a l (scanBracket t) := by
  unfold scanBracket
  simp only [sh_newLine h, sh_peek h, sh_attribution h hc, shR_ite, sh_anchor h]
  congr 1
  cases attributionEnd t with
  | none => simp only [Option.map_none, shR_ite, sh_bracket h, sh_addText h]
  | some j =>
    simp only [Option.map_some]
    rw [← sh_addToken (by exact h)]
    simp only [sh, Nat.add_assoc, h.getD]

theorem sh_backtick (h : Before a t.src) : scanBacktick (sh a l t) = shR a l (scanBacktick t) := by
  unfold scanBacktick
  simp only [sh_peek h, sh_peeks h, shR_ite, sh_add h, sh_formatting h]

theorem sh_hash (h : Before a t.src) (he : t.expectingTagEnd = false) : scanHash (sh a l t) = shR a l (scanHash t) := by
  unfold scanHash
  simp only [shR_ite, sh_formatting h, (sh_endTag (a := a) (l := l) he).1, (sh_endTag (a := a) (l := l) he).2,
    Bool.false_eq_true, if_false]

theorem sh_colon (h : Before a t.src) : scanColon (sh a l t) = shR a l (scanColon t) := by
  have h1 : scanColonRest (sh a l t) = shR a l (scanColonRest t) := by
    unfold scanColonRest
    simp only [ne_eq, sh_back_space h, sh_peeks h, shR_ite, sh_add h, sh_addText h]
  unfold scanColon
  simp only [sh_newLine h, sh_attr h, shR_ite, h1]
  congr 1
  cases startsAttr t with
  | none => rfl
  | some b =>
    cases b with
    | false => rfl
    | true =>
      simp only [shR_ite]
      rw [← sh_addToken (by exact h)]
      simp only [sh, h.adv, List.length_append, Nat.add_le_add_iff_left]
      rfl

theorem sh_i (h : Before a t.src) : scanI (sh a l t) = shR a l (scanI t) := by
  unfold scanI
  simp only [sh_newLine h, sh_peeks h, shR_ite, sh_bracket h, sh_addText h]

theorem sh_amp (h : Before a t.src) : scanAmp (sh a l t) = shR a l (scanAmp t) := by
  unfold scanAmp
  rw [sh_charref h]
  cases startsCharref t with
  | none => rfl
  | some b =>
    cases b with
    | false => exact sh_addText h
    | true =>
      simp only []
      rw [← sh_addToken (by exact h)]
      simp only [sh, h.adv, Nat.add_assoc]

theorem sh_brace (h : Before a t.src) : scanBrace (sh a l t) = shR a l (scanBrace t) := by
  unfold scanBrace
  rw [sh_attrRef h]
  cases startsAttributeReference t with
  | none => rfl
  | some b =>
    cases b with
    | false => exact sh_addText h
    | true =>
      simp only []
      rw [← sh_addToken (by exact h)]
      simp only [sh, h.adv, Nat.add_assoc]

theorem sh_pipe (h : Before a t.src) (hc : 1 ≤ t.current) : scanPipe (sh a l t) = shR a l (scanPipe t) := by
  have h3 : Before a ({ t with current := t.current + 3 } : Scanner).src := h
  unfold scanPipe
  simp only [sh_newLine h, sh_peeks h, shR_ite, sh_cur, sh_peek h3, sh_addToken h3, sh_addText h3, sh_cell h hc,
    sh_addText h, Bool.or_eq_true, decide_eq_true_eq, sh_back_space h]

theorem sh_double (h : Before a t.src) : scanDouble (sh a l t) = shR a l (scanDouble t) := by
  unfold scanDouble
  simp only [sh_back_open h, sh_peek h, shR_ite, sh_add h, sh_addText h]

theorem sh_space (h : Before a t.src) (he : t.expectingTagEnd = false) : scanSpace (sh a l t) = shR a l (scanSpace t) := by
  unfold scanSpace
  simp only [shR_ite, sh_addText h, (sh_endTag (a := a) (l := l) he).1, (sh_endTag (a := a) (l := l) he).2,
    Bool.false_eq_true, if_false]

theorem sh_startsParens (h : Before a t.src) : startsParens (sh a l t) = startsParens t := by
  unfold startsParens; simp only [sh_peeks h]

theorem sh_dispatch (h : Before a t.src) (he : t.expectingTagEnd = false) (hc : 1 ≤ t.current) (c : UInt8) :
    dispatch (sh a l t) c = shR a l (dispatch t c) := by
  unfold dispatch
  simp only [shR_ite, sh_addToken h, sh_quote h he, sh_less h he, sh_delim h he, sh_scanBracket h hc, sh_backtick h,
    sh_hash h he, sh_colon h, sh_startsParens h, sh_parens h, sh_addText h, sh_word h, sh_peeks h, sh_link h, sh_i h,
    sh_tag h he, sh_amp h, sh_brace h, sh_pipe h hc, sh_double h, sh_space h he]

theorem sh_next (h : Before a t.src) (he : t.expectingTagEnd = false) :
    next (sh a l t) = (next t).map (shR a l) := by
  unfold next
  have e1 : isAtEnd (sh a l t) = isAtEnd t := by
    rw [Bool.eq_iff_iff]
    simp only [isAtEnd, decide_eq_true_eq]
    show (a ++ t.src).length ≤ a.length + t.current ↔ _
    rw [List.length_append]; omega
  have e2 : scanToken { sh a l t with start := (sh a l t).current } = shR a l (scanToken { t with start := t.current }) := by
    unfold scanToken
    have h1 : Before a ({ t with start := t.current, current := t.current + 1 } : Scanner).src := h
    rw [← sh_dispatch h1 (by exact he) (by dsimp only; omega)]
    show dispatch _ ((a ++ t.src).getD (a.length + t.current) 0) = dispatch _ (t.src.getD t.current 0)
    rw [h.getD]
    rfl
  rw [e1, e2]
  show (if _ then (if t.scanning = true then _ else _) else _) = _
  split
  · split
    · rfl
    · rfl
  · rfl

end

theorem shItem_returned (l : Nat) (it : Item) : (shItem l it).returned = it.returned := by
  cases it with
  | err e => cases e <;> rfl
  | _ => rfl

theorem sh_runF {a : Str} {l : Nat} (n : Nat) (t : Scanner) (h : Before a t.src) (he : t.expectingTagEnd = false)
    (hs : ∀ it ∈ runF n t, ∀ u, it = .tok u → u.ty ≠ .startTag) :
    runF n (sh a l t) = (runF n t).map (shItem l) := by
  induction n generalizing t with
  | zero => rfl
  | succ n ih =>
    rw [runF_succ] at hs ⊢
    rw [runF_succ, sh_next h he]
    cases hn : t.next with
    | none => rfl
    | some p =>
      obtain ⟨it, t'⟩ := p
      rw [hn] at hs
      simp only [List.mem_cons] at hs
      simp only [Option.map_some, shR, shItem_returned, List.map_cons, List.cons.injEq, true_and]
      split
      · rename_i hr
        rw [if_pos hr] at hs
        refine ih t' (by rw [(next_src hn hr).1]; exact h) ?_ (fun i hi => hs i (.inr hi))
        cases next_spec hn with
        | eof => exact he
        | plain _ _ _ hp => rw [hp.expecting, he]
        | tag u _ _ ht =>
          rcases ht.ty with h1 | h1
          · exact absurd h1.1 (hs _ (.inl rfl) u rfl)
          · exact h1.2
        | err _ _ _ hp => rw [hp.expecting, he]
        | panic => cases hr
        | hang => cases hr
      · rfl

/-- The field `start` does not matter between calls. -/
theorem runF_start (n : Nat) (s : Scanner) (k : Nat) : runF n { s with start := k } = runF n s := by
  cases n with
  | zero => rfl
  | succ n =>
    have e : ({ s with start := k } : Scanner).isAtEnd = s.isAtEnd := rfl
    rw [runF_succ, runF_succ]
    unfold next
    rw [e]
    cases hE : s.isAtEnd with
    | false => rfl
    | true =>
      cases hS : s.scanning with
      | false => simp
      | true =>
        simp only [if_true]
        have : ∀ r : Scanner, r.isAtEnd = true → r.scanning = false → runF n r = [] := by
          intro r h1 h2
          cases n with
          | zero => rfl
          | succ n => rw [runF_succ]; simp [next, h1, h2]
        rw [this { s with start := k, scanning := false } hE rfl, this { s with scanning := false } hE rfl]

end Adoc.Scanner
