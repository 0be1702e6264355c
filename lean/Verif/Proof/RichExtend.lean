import Verif.Proof.RichBefore
import Verif.Proof.RichCheck
/-!
# A text is read line by line

What is written after the end of a line does not change what the signs before it are.
-/
namespace Adoc.Spec
open Lexical

/-- Every text among the signs is one plain run where it stands. -/
def Sure (before : Str) : List Sign → Prop
  | [] => True
  | .text l :: ss => Run before l (written ss) ∧ Sure (before ++ l) ss
  | .mark _ l :: ss => Sure (before ++ l) ss

end Adoc.Spec

namespace Adoc.Rich
open Spec Lexical

theorem prefix_line {x y r : Str} (h : x <+: y ++ r) (hx : 10 ∉ x) (hy : (10 : UInt8) ∈ y) : x <+: y := by
  rcases List.prefix_append_iff.1 h with h | ⟨z, rfl, _⟩
  · exact h
  · exact absurd (List.mem_append_left _ hy) hx
where
  List.prefix_append_iff {x y r : Str} : x <+: y ++ r ↔ x <+: y ∨ ∃ z, x = y ++ z ∧ z <+: r := by
    constructor
    · intro h
      rcases List.prefix_or_prefix_of_prefix h (List.prefix_append y r) with h' | h'
      · exact .inl h'
      · obtain ⟨z, rfl⟩ := h'
        exact .inr ⟨z, rfl, (List.prefix_append_right_inj y).1 h⟩
    · rintro (h | ⟨z, rfl, h⟩)
      · exact h.trans (List.prefix_append _ _)
      · exact (List.prefix_append_right_inj y).2 h

theorem prefix_newline {x y r : Str} (h : x ++ [10] <+: y ++ r) (hx : 10 ∉ x) (hy : (10 : UInt8) ∈ y) : x ++ [10] <+: y := by
  have h1 := prefix_line ((List.prefix_append x [10]).trans h) hx hy
  obtain ⟨z, rfl⟩ := h1
  rw [List.append_assoc] at h
  rw [List.prefix_append_right_inj] at h ⊢
  have hz : (10 : UInt8) ∈ z := (List.mem_append.1 hy).resolve_left hx
  cases z with
  | nil => cases hz
  | cons b z => simpa using h

theorem head_line {y : Str} (r : Str) (hy : (10 : UInt8) ∈ y) : (y ++ r).head? = y.head? ∧ y ++ r ≠ [] ∧ y ≠ [] := by
  cases y with
  | nil => cases hy
  | cons b y => simp

theorem cons_line {y r z : Str} {c : UInt8} (h : y ++ r = c :: z) (hc : c ≠ 10) (hy : (10 : UInt8) ∈ y) :
    ∃ y', y = c :: y' ∧ z = y' ++ r ∧ 10 ∈ y' := by
  cases y with
  | nil => cases hy
  | cons b y =>
    simp only [List.cons_append, List.cons.injEq] at h
    obtain ⟨rfl, rfl⟩ := h
    exact ⟨y, rfl, rfl, (List.mem_cons.1 hy).resolve_left fun h => hc h.symm⟩

theorem delimiterLine_line {before y : Str} (r : Str) (hy : (10 : UInt8) ∈ y) (h : ¬DelimiterLine before y) :
    ¬DelimiterLine before (y ++ r) := by
  rintro ⟨h1, c, hc, h2⟩
  refine h ⟨h1, c, hc, prefix_newline (x := [c, c, c, c]) h2 ?_ hy⟩
  intro hx
  simp only [List.mem_cons, List.not_mem_nil, or_false, or_self] at hx
  subst hx
  revert hc; decide

/-- A sign of a line is the same whatever comes after the line. -/
theorem lexeme_line {ty : TokenType} {before l after : Str} (r : Str) (ha : (10 : UInt8) ∈ after) (h : Lexeme ty before l after) :
    Lexeme ty before l (after ++ r) := by
  obtain ⟨hh, hn, hn'⟩ := head_line r ha
  have hle : LineEnd (after ++ r) ↔ LineEnd after := by unfold LineEnd; rw [hh]; simp [hn, hn']
  have hcl : Closer (after ++ r) ↔ Closer after := by unfold Closer; rw [hh]; simp [hn, hn']
  have hqe : ∀ {x : Str}, (10 : UInt8) ∈ x → (QuoteEnd (x ++ r) ↔ QuoteEnd x) := fun hx => by
    obtain ⟨hh, hn, hn'⟩ := head_line r hx
    unfold QuoteEnd; rw [hh]; simp [hn, hn']
  have hde : DashEnd (after ++ r) ↔ DashEnd after := by unfold DashEnd; rw [hh]; simp [hn, hn']
  have hdl : ∀ {before}, ¬DelimiterLine before (l ++ after) → ¬DelimiterLine before (l ++ (after ++ r)) := fun h => by
    rw [← List.append_assoc]; exact delimiterLine_line r (List.mem_append_right _ ha) h
  have hsi : ∀ {c}, Single c before l after → Single c before l (after ++ r) := fun h => by
    unfold Single at h ⊢; rw [hh, hcl]; exact h
  have hbl : BracketLine before l after → BracketLine before l (after ++ r) := fun h => by
    unfold BracketLine at h ⊢; rw [hle]; exact h
  have hanc : Anchor before l after → Anchor before l (after ++ r) := fun h => by
    unfold Anchor at h ⊢; rw [hh]; exact h
  have href : Reference before l after → Reference before l (after ++ r) := fun ⟨h1, h2⟩ => ⟨h1, fun h => h2 (by
    rw [← List.append_assoc] at h
    exact prefix_newline (x := b!"<<<") h (by decide) (List.mem_append_right _ ha))⟩
  cases ty with
  | newLineChar | superscript | subscript | orderedListItem | unorderedListItem | descriptionListMarker | codeCalloutListItem
    | blockImageMacro | inlineImageMacro | linkMacro | footnoteMacro | passthroughInlineMacro | inlineMacroClose
    | openDoubleQuote | openSingleQuote | «include» | attributeReference | eof | email | startTag | endTag => exact h
  | lineContinuation | thematicBreak | pageBreak | openBlock | blockContinuation | passthroughBlock | sidebarBlock | sourceBlock
    | quoteVerseBlock | commentBlock | literalBlock | exampleBlock | codeCallout | «attribute» =>
    simp only [Lexeme, Delimiter] at h ⊢; rw [hh]; exact h
  | heading1 | heading2 | heading3 | heading4 | heading5 =>
    simp only [Lexeme, Lexical.Heading] at h ⊢; exact ⟨h.1, h.2.1, hdl h.2.2⟩
  | notePara | tipPara | importantPara | cautionPara | warningPara =>
    simp only [Lexeme, Admonition] at h ⊢; exact h.imp id fun h => ⟨hbl h.1, h.2⟩
  | unconstrainedStrong | unconstrainedEmphasis | unconstrainedMonospace | unconstrainedLiteral | unconstrainedMark =>
    simp only [Lexeme, Double] at h ⊢; exact ⟨h.1, hdl h.2⟩
  | emphasis | mark => exact hsi h
  | strong => simp only [Lexeme] at h ⊢; rw [hh]; exact ⟨hsi h.1, h.2⟩
  | literal => simp only [Lexeme] at h ⊢; rw [hh]; exact ⟨hsi h.1, h.2⟩
  | monospace =>
    simp only [Lexeme] at h ⊢
    refine ⟨hsi h.1, ?_⟩
    rintro ⟨z, hz, hq⟩
    apply h.2
    rcases hz with hz | hz
    · obtain ⟨y, rfl, rfl, hy⟩ := cons_line hz (by decide) ha
      exact ⟨y, .inl rfl, (hqe hy).1 hq⟩
    · obtain ⟨y, rfl, rfl, hy⟩ := cons_line hz (by decide) ha
      exact ⟨y, .inr rfl, (hqe hy).1 hq⟩
  | comment =>
    simp only [Lexeme] at h ⊢
    refine ⟨h.1, h.2.1, hdl h.2.2.1, ?_⟩
    rw [hle]
    rcases h.2.2.2 with ⟨h1, h2⟩ | h2
    · exact .inl ⟨h1, h2.imp (·.trans (List.prefix_append _ _)) (·.trans (List.prefix_append _ _))⟩
    · exact .inr h2
  | blockLabel =>
    simp only [Lexeme] at h ⊢
    rw [hh]
    exact ⟨h.1, h.2.1, h.2.2.1, fun h' => h.2.2.2 (prefix_line h' (by decide) ha)⟩
  | table => simp only [Lexeme] at h ⊢; rw [hh, hle]; exact h
  | tableCell =>
    simp only [Lexeme, Cell] at h ⊢
    rw [hh]
    simpa [hn, hn'] using h
  | hyperlink =>
    simp only [Lexeme, UrlEnd] at h ⊢
    refine ⟨h.1, h.2.1, ?_⟩
    rw [hh]
    rcases h.2.2 with ⟨h1, h2⟩ | ⟨b, y, rfl, h1, h2⟩ | ⟨b, y, rfl, h1, h2⟩
    · exact .inl ⟨by simpa [hn, hn'] using h1, h2⟩
    · refine .inr (.inl ⟨b, y ++ r, rfl, h1, ?_⟩)
      have hb : b ≠ 10 := by rintro rfl; revert h1; decide
      have hy : (10 : UInt8) ∈ y := (List.mem_cons.1 ha).resolve_left fun h => hb h.symm
      obtain ⟨hh, hn, hn'⟩ := head_line r hy
      unfold UrlStop at h2 ⊢
      rw [hh]
      simpa [hn, hn'] using h2
    · exact .inr (.inr ⟨b, y ++ r, rfl, h1, h2⟩)
  | text =>
    simp only [Lexeme, Lexical.Piece] at h ⊢
    rw [hh]
    refine h.imp (fun h => ⟨h.1, h.2.1, by simpa [hn, hn'] using h.2.2⟩) fun h => ⟨h.1, h.2.imp hanc href⟩
  | charRef =>
    simp only [Lexeme] at h ⊢
    rw [hde]
    refine h.imp id (.imp (fun h => ⟨h.1, hdl h.2⟩) (.imp id (.imp (fun h => ⟨h.1, ?_⟩) id)))
    obtain ⟨z, rfl, hz⟩ := h.2
    have hy : (10 : UInt8) ∈ z := (List.mem_cons.1 ha).resolve_left (by decide)
    exact ⟨z ++ r, rfl, (hqe hy).2 hz⟩
  | closeDoubleQuote | closeSingleQuote => exact ⟨h.1, (hqe ha).2 h.2⟩
  | inlineStyle =>
    simp only [Lexeme] at h ⊢
    refine ⟨h.1, ?_⟩
    rintro ⟨h1, line, rest, e, h2, h3, h4⟩
    refine h.2 ⟨h1, ?_⟩
    have hp : line <+: l ++ after := by
      refine prefix_line (r := r) ?_ h2 (List.mem_append_right _ ha)
      rw [List.append_assoc, e]
      exact List.prefix_append _ _
    obtain ⟨rest', he⟩ := hp
    refine ⟨line, rest', he.symm, h2, ?_, h4⟩
    rw [← List.append_assoc, ← he, List.append_assoc, List.append_cancel_left_eq] at e
    have hy : (10 : UInt8) ∈ rest' := by
      have : (10 : UInt8) ∈ line ++ rest' := by rw [he]; exact List.mem_append_right _ ha
      exact (List.mem_append.1 this).resolve_left h2
    obtain ⟨hh, hn, hn'⟩ := head_line r hy
    rw [← e] at h3
    unfold LineEnd at h3 ⊢
    rw [hh] at h3
    simpa [hn, hn'] using h3
  | blockAnchor => exact ⟨hanc h.1, h.2⟩
  | elementAttributes => exact ⟨hbl h.1, h.2⟩
  | crossReference => exact ⟨href h.1, h.2⟩

theorem run_line {before l after : Str} (r : Str) (ha : (10 : UInt8) ∈ after) (h : Run before l after) : Run before l (after ++ r) := by
  obtain ⟨h1, h2, h3, h4, h5⟩ := h
  cases after with
  | nil => cases ha
  | cons b y =>
    refine ⟨h1, h2, h3, h4, .inr ?_⟩
    rcases h5 with h5 | ⟨c, z, e, h5⟩ | ⟨z, e, h5⟩
    · cases h5
    · cases e; exact .inl ⟨_, _, rfl, h5⟩
    · exact .inr ⟨z ++ r, by rw [e, List.append_assoc], h5⟩

/-- Signs that end with a newline are legible whatever follows. -/
theorem legible_line (ss : List Sign) (before rest : Str) (h : Legible before ss []) (hs : Sure before ss)
    (hl : ss.getLast? = some Spec.newline) : Legible before ss rest := by
  induction ss generalizing before with
  | nil => trivial
  | cons s ss ih =>
    cases ss with
    | nil =>
      simp only [List.getLast?_singleton, Option.some.injEq] at hl
      subst hl
      exact ⟨rfl, trivial⟩
    | cons s' ss =>
      have hl' : (s' :: ss).getLast? = some Spec.newline := by rw [← hl]; simp [List.getLast?_cons]
      have hn : (10 : UInt8) ∈ written (s' :: ss) := by
        obtain ⟨a, ha⟩ : ∃ a, s' :: ss = a ++ [Spec.newline] := List.getLast?_eq_some_iff.1 hl'
        rw [ha, written_append]
        simp [written, Spec.newline, Sign.str]
      refine ⟨?_, ih _ h.2 ?_ hl'⟩
      · cases s with
        | text l =>
          have hr := run_line rest hn hs.1
          obtain ⟨b, bs, hb, _⟩ := hr.first
          exact ⟨by rw [hb]; simp, [l], by simp, .inl (by simpa using hr), trivial⟩
        | mark ty l =>
          have := h.1
          simp only [List.append_nil] at this
          exact lexeme_line rest hn this
      · cases s with
        | text l => exact hs.2
        | mark ty l => exact hs

end Adoc.Rich
