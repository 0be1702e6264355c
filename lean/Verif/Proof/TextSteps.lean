import Verif.Proof.Lines
import Verif.Proof.Steps
import Verif.Props.Location
/-!
# The parser on text tokens
-/
namespace Adoc.Parser
open Props Scanner

/-- Merging two ranges that follow each other. -/
theorem reconcile_seq (a b c d : Location) (h1 : before a b) (h2 : before b c) (h3 : before c d) :
    reconcile [a, b] [c, d] = [a, d] := by
  rw [C12_reconcile]
  have h4 := before_trans h1 h2
  have h5 := before_trans h4 h3
  simp [earliest, latest, h1, h2, h3, h4, h5]

theorem reconcile_self (a b : Location) (h : before a b) : reconcile [a, b] [a, b] = [a, b] := by
  rw [C12_reconcile]
  have h0 := before_refl a
  by_cases hb : before b a
  · simp [earliest, latest, h, h0, hb]
  · simp [earliest, latest, h, h0, hb]

theorem before_line (n c m d : Nat) (fs : List Str) (h : n < m ∨ n = m ∧ c ≤ d) : before ⟨n, c, fs⟩ ⟨m, d, fs⟩ := by
  unfold before; simp; omega

/-- Tokens that may be in the header are dispatched whether or not there is an open header. -/
theorem tokenInto_inHeader (w : World) (k : Nat) (t : Token) (p : Parser) (ht : t.canBeInHeader = true)
    (ho : p.openText = none) : tokenInto w (k + 1) t p = p.dispatchToken w (tokenInto w k) t := by
  have : p.verbatim t = none := by unfold verbatim; rw [ho]
  simp only [tokenInto, step, ht, Bool.not_true, Bool.and_false, Bool.false_eq_true, if_false]
  show (match p.verbatim t with
    | some pass => p.parseText t pass
    | none => p.dispatchToken w (tokenInto w k) t) = _
  rw [this]

/-- A text token with the given text. -/
def textTok (x : Str) (n col : Nat) (fs : List Str) : Token := ⟨.text, x, some x, n, col, col + x.length - 1, fs⟩

theorem text_step (w : World) (k : Nat) (p : Parser) (x : Str) (n col : Nat) (fs : List Str) (ho : p.openText = none) :
    tokenInto w (k + 1) (textTok x n col fs) p = p.parseText (textTok x n col fs) false := by
  rw [tokenInto_inHeader w k _ p rfl ho]; rfl

theorem _root_.Adoc.Scanner.Pieces.nil_inv {n col : Nat} {fs : List Str} {ts : List Token} (h : Pieces n fs col [] ts) :
    ts = [] := by
  generalize hl : ([] : Str) = l at h
  cases h with
  | nil => rfl
  | cons _ y _ _ hy => simp at hl; exact absurd hl.1 hy

/-- Further text tokens are added to the pending text. -/
theorem feed_more (w : World) (k n : Nat) (fs : List Str) (col : Nat) (l : Str) (ts : List Token) (hl : l ≠ [])
    (h : Pieces n fs col l ts) (p : Parser) (v : Str) (a b : Location) (ho : p.openText = none) (hd : p.dangling = none)
    (hi : p.inlines = [.lit .text v [a, b]]) (h1 : before a b) (h2 : before b ⟨n, col, fs⟩) :
    feed (tokenInto w (k + 1)) true (ts.map .tok) p = .ok { p with
      inlines := [.lit .text (v ++ l) [a, ⟨n, col + l.length - 1, fs⟩]], lastTy := .text } := by
  induction h generalizing p v b with
  | nil => exact absurd rfl hl
  | cons col x rest ts hx h ih =>
    have hxl : 0 < x.length := List.length_pos_iff.2 hx
    have hs : tokenInto w (k + 1) (textTok x n col fs) p = .ok { p with
        inlines := [.lit .text (v ++ x) [a, ⟨n, col + x.length - 1, fs⟩]] } := by
      rw [text_step w k p x n col fs ho]
      simp only [Parser.parseText, hd, Parser.addText, hi, Inline.litAdd, textTok, Token.text, Token.locations,
        Token.firstLocation, Token.lastLocation]
      rw [reconcile_seq _ _ _ _ h1 h2 (before_line _ _ _ _ _ (by omega))]
      rfl
    have hf := feed_cons _ _ (ts.map .tok) _ _ hs
    rw [List.map_cons]
    refine hf.trans ?_
    by_cases hr : rest = []
    · subst hr
      rw [h.nil_inv]
      simp [feed, textTok]
    · rw [ih hr _ _ _ (by exact ho) (by exact hd) rfl (before_trans (before_trans h1 h2) (before_line _ _ _ _ _ (by omega)))
        (before_line _ _ _ _ _ (by omega))]
      simp [List.append_assoc, Nat.add_assoc]

/-- Text tokens when no text is pending. -/
theorem feed_text (w : World) (k n : Nat) (fs : List Str) (col : Nat) (l : Str) (ts : List Token) (hl : l ≠ [])
    (h : Pieces n fs col l ts) (p : Parser) (ho : p.openText = none) (hd : p.dangling = none) (hi : p.inlines = []) :
    feed (tokenInto w (k + 1)) true (ts.map .tok) p = .ok { p with
      inlines := [.lit .text l [⟨n, col, fs⟩, ⟨n, col + l.length - 1, fs⟩]], lastTy := .text } := by
  cases h with
  | nil => exact absurd rfl hl
  | cons _ x rest ts hx h =>
    have hxl : 0 < x.length := List.length_pos_iff.2 hx
    have hs : tokenInto w (k + 1) (textTok x n col fs) p = .ok { p with
        inlines := [.lit .text x [⟨n, col, fs⟩, ⟨n, col + x.length - 1, fs⟩]] } := by
      rw [text_step w k p x n col fs ho]
      simp only [Parser.parseText, hd, Parser.addText, hi, textTok, Token.text, Token.locations,
        Token.firstLocation, Token.lastLocation]
      rfl
    rw [List.map_cons]
    refine (feed_cons _ _ (ts.map .tok) _ _ hs).trans ?_
    by_cases hr : rest = []
    · subst hr
      rw [h.nil_inv]
      simp [feed, textTok]
    · rw [feed_more w k n fs _ rest ts hr h _ x _ _ (by exact ho) (by exact hd) rfl (before_line _ _ _ _ _ (by omega))
        (before_line _ _ _ _ _ (by omega))]
      simp [Nat.add_assoc]

/-- Text tokens after a line of pending text: the newline between them is added too. -/
theorem feed_next (w : World) (k n : Nat) (fs : List Str) (col : Nat) (l : Str) (ts : List Token) (hl : l ≠ [])
    (h : Pieces n fs col l ts) (p : Parser) (v : Str) (a b : Location) (m c : Nat) (ho : p.openText = none)
    (hd : p.dangling = some (newline m c fs)) (hpr : p.preserveNl = false) (hi : p.inlines = [.lit .text v [a, b]])
    (h1 : before a b) (h2 : before b ⟨m, c, fs⟩) (h3 : before ⟨m, c, fs⟩ ⟨n, col, fs⟩) :
    feed (tokenInto w (k + 1)) true (ts.map .tok) p = .ok { p with
      inlines := [.lit .text (v ++ b!"\n" ++ l) [a, ⟨n, col + l.length - 1, fs⟩]], lastTy := .text, dangling := none } := by
  cases h with
  | nil => exact absurd rfl hl
  | cons _ x rest ts hx h =>
    have hxl : 0 < x.length := List.length_pos_iff.2 hx
    have hs : tokenInto w (k + 1) (textTok x n col fs) p = .ok { p with
        inlines := [.lit .text (v ++ b!"\n" ++ x) [a, ⟨n, col + x.length - 1, fs⟩]], dangling := none } := by
      rw [text_step w k p x n col fs ho]
      simp only [Parser.parseText, hd, hpr, Parser.addText, hi, Inline.litAdd, textTok, newline, Token.text,
        Token.locations, Token.firstLocation, Token.lastLocation, Bool.false_eq_true, if_false, bind, Except.bind,
        reduceCtorEq]
      rw [reconcile_seq _ _ _ _ h1 h2 (before_refl _), reconcile_seq _ _ _ _ (before_trans h1 h2) h3
        (before_line _ _ _ _ _ (by omega))]
    rw [List.map_cons]
    refine (feed_cons _ _ (ts.map .tok) _ _ hs).trans ?_
    have h13 := before_trans (before_trans h1 h2) h3
    by_cases hr : rest = []
    · subst hr
      rw [h.nil_inv]
      simp [feed, textTok]
    · rw [feed_more w k n fs _ rest ts hr h _ (v ++ b!"\n" ++ x) a _ (by exact ho) (by rfl) rfl
        (before_trans h13 (before_line _ _ _ _ _ (by omega))) (before_line _ _ _ _ _ (by omega))]
      simp [Nat.add_assoc, List.append_assoc]

end Adoc.Parser
