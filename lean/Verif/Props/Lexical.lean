import Verif.Proof.LexicalComplete4
/-!
# The lexical grammar: C49, C50, C51

The grammar is `Lexical.Lexeme` (`Verif/Spec/Lexical.lean`); it does not refer to the scanner.
-/
namespace Adoc.Props
open Adoc Scanner Lexical

/-- A rule matches no empty text. -/
theorem lexeme_ne_nil {ty : TokenType} {before l after : Str} (h : Lexeme ty before l after) : l ≠ [] := by
  rintro rfl
  cases ty <;> simp [Lexeme, Delimiter, Heading, Single, Double, Admonition, BracketLine, Cell, Bracketed, Anchor, Reference, Piece] at h

/-- The scanner at a position of a UTF-8 text, after tokens without tags. -/
theorem here_at {src : Str} {toks : List Token} {rest : List Item} {l after : Str} (hu : ∃ cs, src = enc cs)
    (h : scan src = toks.map .tok ++ rest) (hn : ∀ t ∈ toks, ¬IsTag t) (hsrc : src = source toks ++ (l ++ after)) (hl : l ++ after ≠ []) :
    ∃ s c r rest' it s', s.src = src ∧ Here (source toks) c r s ∧ c :: r = l ++ after ∧ rest = it :: rest'
      ∧ dispatch (at_ s (s.start + 1)) c = (it, s') := by
  obtain ⟨s, it, s', rest', a1, a2, a3, a4, a5, a6, a7, a8⟩ := scan_at h hn hsrc hl
  cases hc : l ++ after with
  | nil => exact absurd hc hl
  | cons c r =>
    rw [hc] at hsrc
    have hsrc' : s.src = source toks ++ c :: r := by rw [a1, hsrc]
    refine ⟨s, c, r, rest', it, s', a1, ⟨hsrc', by rw [a3, a2], a4, by rw [a1]; exact hu⟩, rfl, a8, ?_⟩
    have hb : s.src.getD s.current 0 = c := by
      rw [a2, hsrc']; simp [List.getD_eq_getElem?_getD]
    rw [← a7, scanToken, hb, ← a3]

/-! ## C49: every token is written as the grammar says -/

/-- **C49**: in a UTF-8 text, every token before the end, with no tag before it, is a tag or is written where it stands
as the rule of its type says. -/
theorem C49_sound (cs : List Char) (toks : List Token) (t : Token) (rest : List Item)
    (h : scan (enc cs) = toks.map .tok ++ .tok t :: rest) (hn : ∀ t ∈ toks, ¬IsTag t) (he : t.ty ≠ .eof) :
    IsTag t ∨ ∃ after, enc cs = source toks ++ t.lexeme ++ after ∧ Lexeme t.ty (source toks) t.lexeme after := by
  obtain ⟨tail, hsrc, ht⟩ := source_split h hn he
  obtain ⟨s, c, r, rest', it, s', h1, H, hw, h2, h3⟩ := here_at (l := []) (after := tail) ⟨cs, rfl⟩ h hn hsrc ht
  cases h2
  rcases H.dispatch t s' h3 with h | ⟨after, h4, h5⟩
  · exact .inl h
  · exact .inr ⟨after, by rw [← h1, h4], h5⟩

-- a strong marker between a blank and a letter
example : ∃ toks t rest, scan (enc "né *ß*".toList) = toks.map .tok ++ .tok t :: rest ∧ source toks = enc "né ".toList
    ∧ t.ty = .strong ∧ t.lexeme = b!"*" :=
  ⟨[⟨.text, [110, 195, 169, 32], some [110, 195, 169, 32], 1, 1, 4, []⟩], ⟨.strong, b!"*", none, 1, 5, 5, []⟩,
    (scan (enc "né *ß*".toList)).drop 2, by decide, by decide, rfl, rfl⟩

/-! ## C50: wherever a rule matches, its token is returned -/

/-- **C50**: if the rule of `ty` matches `l` at the position after the tokens read so far, then the next token is `l` with
type `ty`. Only for an anchor or a cross reference with characters outside ASCII may the scanner panic instead. -/
theorem C50_complete (cs : List Char) (toks : List Token) (rest : List Item) (ty : TokenType) (l after : Str)
    (h : scan (enc cs) = toks.map .tok ++ rest) (hn : ∀ t ∈ toks, ¬IsTag t) (hsrc : enc cs = source toks ++ l ++ after)
    (hty : ty ≠ .text) (hl : Lexeme ty (source toks) l after) :
    (∃ t rest', rest = .tok t :: rest' ∧ t.ty = ty ∧ t.lexeme = l)
    ∨ (ty = .blockAnchor ∨ ty = .crossReference) ∧ (∃ b ∈ l, 128 ≤ b.toNat) ∧ ∃ rest', rest = .panic .slice :: rest' := by
  have hne := lexeme_ne_nil hl
  rw [List.append_assoc] at hsrc
  obtain ⟨s, c, r, rest', it, s', h1, H, hw, rfl, h3⟩ := here_at ⟨cs, rfl⟩ h hn hsrc (by simp [hne])
  by_cases ha : ty = .blockAnchor
  · subst ha
    obtain ⟨hl, hb⟩ : Anchor _ l after ∧ ¬Blank l := hl
    rcases H.anchorC hw hl with ⟨h4, _⟩ | ⟨⟨s2, h4⟩, h5⟩
    · obtain ⟨t, s2, h5, h6, h7⟩ := h4 hb
      rw [h3] at h5; cases h5
      exact .inl ⟨t, rest', rfl, h6, h7⟩
    · rw [h3] at h4; cases h4
      exact .inr ⟨.inl rfl, h5, rest', rfl⟩
  by_cases hx : ty = .crossReference
  · subst hx
    obtain ⟨hl, hb⟩ : Reference _ l after ∧ ¬Blank l := hl
    rcases H.xrefC hw hl with ⟨h4, _⟩ | ⟨⟨s2, h4⟩, h5⟩
    · obtain ⟨t, s2, h5, h6, h7⟩ := h4 hb
      rw [h3] at h5; cases h5
      exact .inl ⟨t, rest', rfl, h6, h7⟩
    · rw [h3] at h4; cases h4
      exact .inr ⟨.inr rfl, h5, rest', rfl⟩
  obtain ⟨t, s2, h5, h6, h7⟩ := H.complete ty ⟨ha, hx, hty⟩ hw hl
  rw [h3] at h5; cases h5
  exact .inl ⟨t, rest', rfl, h6, h7⟩

/-- **C50**, anchors and cross references that contain a blank or a newline: they are text as a whole. -/
theorem C50_blank (cs : List Char) (toks : List Token) (rest : List Item) (l after : Str)
    (h : scan (enc cs) = toks.map .tok ++ rest) (hn : ∀ t ∈ toks, ¬IsTag t) (hsrc : enc cs = source toks ++ l ++ after)
    (hl : Anchor (source toks) l after ∨ Reference (source toks) l after) (hb : Blank l) :
    (∃ t rest', rest = .tok t :: rest' ∧ t.ty = .text ∧ t.lexeme = l)
    ∨ (∃ b ∈ l, 128 ≤ b.toNat) ∧ ∃ rest', rest = .panic .slice :: rest' := by
  have hne : l ≠ [] := by rintro rfl; rcases hb with h | h <;> cases h
  rw [List.append_assoc] at hsrc
  obtain ⟨s, c, r, rest', it, s', h1, H, hw, rfl, h3⟩ := here_at ⟨cs, rfl⟩ h hn hsrc (by simp [hne])
  have : Gives .text l (dispatch (at_ s (s.start + 1)) c)
      ∨ (∃ s', dispatch (at_ s (s.start + 1)) c = (.panic .slice, s')) ∧ ∃ b ∈ l, 128 ≤ b.toNat := by
    rcases hl with hl | hl
    · exact (H.anchorC hw hl).imp_left fun h => h.2 hb
    · exact (H.xrefC hw hl).imp_left fun h => h.2 hb
  rcases this with ⟨t, s2, h5, h6, h7⟩ | ⟨⟨s2, h4⟩, h5⟩
  · rw [h3] at h5; cases h5
    exact .inl ⟨t, rest', rfl, h6, h7⟩
  · rw [h3] at h4; cases h4
    exact .inr ⟨h5, rest', rfl⟩

-- a link after a word
example : ∃ toks rest, scan (enc "see https://a.b/c?d=1[x]".toList) = toks.map .tok ++ rest
    ∧ enc "see https://a.b/c?d=1[x]".toList = source toks ++ b!"https://a.b/c?d=1[" ++ b!"x]"
    ∧ Lexeme .linkMacro (source toks) b!"https://a.b/c?d=1[" b!"x]" :=
  ⟨((scan (enc "see https://a.b/c?d=1[x]".toList)).take 3).filterMap Item.tok?,
    (scan (enc "see https://a.b/c?d=1[x]".toList)).drop 3, by decide, by decide,
    b!"https://a.b/c?d=1", rfl, by decide, by
      intro b hb
      have : ∀ b ∈ b!"https://a.b/c?d=1", b ≠ 0 ∧ b ≠ c!" " ∧ b.toNat < 128 ∧ (Punct b → b ∈ urlPunct) := by
        unfold Punct; decide
      exact this b hb⟩

-- a cross reference that contains a blank
example : ∃ toks rest, scan (enc "x <<a b>>".toList) = toks.map .tok ++ rest
    ∧ enc "x <<a b>>".toList = source toks ++ b!"<<a b>>" ++ [] ∧ Reference (source toks) b!"<<a b>>" [] ∧ Blank b!"<<a b>>" :=
  ⟨((scan (enc "x <<a b>>".toList)).take 1).filterMap Item.tok?, (scan (enc "x <<a b>>".toList)).drop 1,
    by decide, by decide, ⟨⟨b!"a b", rfl, by decide⟩, by decide⟩, .inl (by decide)⟩

/-- **C50**, the exception is real: a cross reference with a character of two bytes stops the scanner. -/
theorem C50_reference_outside_ascii_panics :
    Lexeme .crossReference [] (enc "<<é>>".toList) [] ∧ scan (enc "<<é>>".toList) = [.panic .slice] := by
  refine ⟨⟨⟨⟨[195, 169], by decide, by decide⟩, by decide⟩, by unfold Blank; decide⟩, by decide⟩

/-! ## C51: one reading at each position -/

/-- A text ends at the first occurrence of its end. -/
theorem first_unique {pat a b a' b' : Str} (hp : pat ≠ []) (h : a ++ (pat ++ b) = a' ++ (pat ++ b'))
    (h1 : ¬pat <:+: a ++ pat.dropLast) (h2 : ¬pat <:+: a' ++ pat.dropLast) : a = a' := by
  have hpl := List.length_pos_iff.2 hp
  have key : ∀ a b a' b' : Str, a ++ (pat ++ b) = a' ++ (pat ++ b') → a.length < a'.length → pat <:+: a' ++ pat.dropLast := by
    intro a b a' b' h hlt
    have e1 : a ++ pat <+: a' ++ (pat ++ b') := ⟨b, by rw [← h]; simp⟩
    have e2 : a' ++ pat.dropLast <+: a' ++ (pat ++ b') := by
      rw [List.prefix_append_right_inj]
      exact (List.dropLast_prefix pat).trans (List.prefix_append _ _)
    have e3 := List.prefix_of_prefix_length_le e1 e2 (by simp; omega)
    exact (List.suffix_append a pat).isInfix.trans e3.isInfix
  have hl : a.length = a'.length := by
    rcases Nat.lt_trichotomy a.length a'.length with h3 | h3 | h3
    · exact absurd (key _ _ _ _ h h3) h2
    · exact h3
    · exact absurd (key _ _ _ _ h.symm h3) h1
  exact (List.append_inj h hl).1

/-- **C51**: a token of type text stands only where no rule of another type matches. -/
theorem C51_text_last (cs : List Char) (toks : List Token) (t : Token) (rest : List Item)
    (h : scan (enc cs) = toks.map .tok ++ .tok t :: rest) (hn : ∀ t ∈ toks, ¬IsTag t) (ht : t.ty = .text)
    (ty : TokenType) (hty : ty ≠ .text) (l after : Str) (hsrc : enc cs = source toks ++ l ++ after) :
    ¬Lexeme ty (source toks) l after := by
  intro hl
  rcases C50_complete cs toks _ ty l after h hn hsrc hty hl with ⟨t', rest', h1, h2, _⟩ | ⟨_, _, rest', h1⟩
  · cases h1
    exact hty (h2.symm.trans ht)
  · cases h1

-- the text `x` at the beginning
example : ∃ t rest, scan (enc "x*".toList) = ([] : List Token).map .tok ++ .tok t :: rest ∧ t.ty = .text :=
  ⟨⟨.text, b!"x", some b!"x", 1, 1, 1, []⟩, (scan (enc "x*".toList)).drop 1, by decide, rfl⟩

/-- **C51**: at each position of a UTF-8 text at most one rule matches, and in one way. -/
theorem C51_unambiguous (cs : List Char) (before l after l' after' : Str) (ty ty' : TokenType)
    (h : enc cs = before ++ l ++ after) (h' : enc cs = before ++ l' ++ after') (hty : ty ≠ .text) (hty' : ty' ≠ .text)
    (hl : Lexeme ty before l after) (hl' : Lexeme ty' before l' after') : ty = ty' ∧ l = l' := by
  have hne := lexeme_ne_nil hl
  rw [List.append_assoc] at h h'
  obtain ⟨c, r, hc⟩ : ∃ c r, l ++ after = c :: r := by
    cases l with
    | nil => exact absurd rfl hne
    | cons c l => exact ⟨c, l ++ after, rfl⟩
  have hw' : c :: r = l' ++ after' := by
    rw [← hc]
    exact List.append_cancel_left (h.symm.trans h')
  let s : Scanner := { Scanner.new (enc cs) with start := before.length }
  have H : Here before c r s := ⟨by rw [← hc]; exact h, rfl, rfl, cs, rfl⟩
  -- the result at this position
  have key : ∀ (ty : TokenType) (l after : Str), c :: r = l ++ after → ty ≠ .text → Lexeme ty before l after →
      Gives ty l (dispatch (at_ s (s.start + 1)) c)
      ∨ (∃ s', dispatch (at_ s (s.start + 1)) c = (.panic .slice, s')) ∧ (ty = .blockAnchor ∨ ty = .crossReference) := by
    intro ty l after hw hty hl
    by_cases ha : ty = .blockAnchor
    · subst ha
      rcases H.anchorC hw hl.1 with ⟨h4, _⟩ | ⟨h4, _⟩
      · exact .inl (h4 hl.2)
      · exact .inr ⟨h4, .inl rfl⟩
    by_cases hx : ty = .crossReference
    · subst hx
      rcases H.xrefC hw hl.1 with ⟨h4, _⟩ | ⟨h4, _⟩
      · exact .inl (h4 hl.2)
      · exact .inr ⟨h4, .inr rfl⟩
    exact .inl (H.complete ty ⟨ha, hx, hty⟩ hw hl)
  rcases key ty l after hc.symm hty hl with ⟨t, s1, e1, e2, e3⟩ | ⟨⟨s1, e1⟩, ha⟩ <;>
    rcases key ty' l' after' hw' hty' hl' with ⟨t', s2, f1, f2, f3⟩ | ⟨⟨s2, f1⟩, ha'⟩
  · rw [e1] at f1; cases f1
    exact ⟨e2.symm.trans f2, e3.symm.trans f3⟩
  · rw [e1] at f1; cases f1
  · rw [e1] at f1; cases f1
  · have heq := hc.trans hw'
    rcases ha with rfl | rfl <;> rcases ha' with rfl | rfl
    · obtain ⟨⟨_, h2, body, rfl, h3⟩, _⟩ : Anchor before l after ∧ _ := hl
      obtain ⟨⟨_, h2', body', rfl, h3'⟩, _⟩ : Anchor before l' after' ∧ _ := hl'
      obtain ⟨q, rfl⟩ := Here.lineEnd_cases h2
      obtain ⟨q', rfl⟩ := Here.lineEnd_cases h2'
      have := first_unique (pat := b!"]]\n") (by decide) (a := body) (b := q) (a' := body') (b' := q')
        (by simp at heq; simpa using heq) h3 h3'
      exact ⟨rfl, by rw [this]⟩
    · obtain ⟨⟨_, h2, body, rfl, h3⟩, _⟩ : Anchor before l after ∧ _ := hl
      obtain ⟨⟨⟨body', rfl, h3'⟩, _⟩, _⟩ : Reference before l' after' ∧ _ := hl'
      simp at heq
    · obtain ⟨⟨⟨body', rfl, h3'⟩, _⟩, _⟩ : Reference before l after ∧ _ := hl
      obtain ⟨⟨_, h2, body, rfl, h3⟩, _⟩ : Anchor before l' after' ∧ _ := hl'
      simp at heq
    · obtain ⟨⟨⟨body, rfl, h3⟩, _⟩, _⟩ : Reference before l after ∧ _ := hl
      obtain ⟨⟨⟨body', rfl, h3'⟩, _⟩, _⟩ : Reference before l' after' ∧ _ := hl'
      have := first_unique (pat := b!">>") (by decide) (a := body) (b := after) (a' := body') (b' := after')
        (by simp at heq; simpa using heq) h3 h3'
      exact ⟨rfl, by rw [this]⟩

-- `*` at the beginning of a line: a list item, not a marker
example : Lexeme .unorderedListItem [] b!"* " b!"a" ∧ ¬Lexeme .strong [] b!"*" b!" a" := by
  refine ⟨⟨.inl rfl, rfl⟩, ?_⟩
  rintro ⟨_, h⟩
  exact h ⟨.inl rfl, rfl⟩

/-! ## What the rules mean for authors -/

/-- **C49**: a marker after a letter outside ASCII counts as opening (after an ASCII letter it does not). -/
theorem C49_marker_after_letter_outside_ascii :
    (scan (enc "é*a".toList)).filterMap Item.tok? = [⟨.text, [195, 169], some [195, 169], 1, 1, 2, []⟩,
      ⟨.strong, b!"*", none, 1, 3, 3, []⟩, ⟨.text, b!"a", some b!"a", 1, 4, 4, []⟩, Token.final 1 []]
    ∧ (scan (enc "e*a".toList)).filterMap Item.tok? = [⟨.text, b!"e", some b!"e", 1, 1, 1, []⟩,
      ⟨.text, b!"*a", some b!"*a", 1, 2, 3, []⟩, Token.final 1 []] := by decide

/-- **C49**: the label of an admonition is recognised inside a line, and three quotes at the end of any line are a
thematic break. -/
theorem C49_block_markers_inside_lines :
    (scan (enc "a NOTE: b'''\n".toList)).filterMap (fun i => i.tok?.map fun t => (t.ty, t.lexeme)) =
      [(.text, b!"a "), (.notePara, b!"NOTE: "), (.text, b!"b"), (.thematicBreak, b!"'''"), (.newLineChar, b!"\n"), (.eof, [])] := by
  decide

/-- **C49**: a URL ends at a hyphen and goes on over the end of a line. -/
theorem C49_url_extent :
    (scan (enc "http://a-b".toList)).head? = some (.tok ⟨.hyperlink, b!"http://a", some b!"http://a", 1, 1, 8, []⟩)
    ∧ (scan (enc "http://a\nb c".toList)).head? = some (.tok ⟨.hyperlink, b!"http://a\nb", some b!"http://a\nb", 1, 1, 10, []⟩) := by
  decide

end Adoc.Props
