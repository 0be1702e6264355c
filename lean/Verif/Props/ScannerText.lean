import Verif.Props.Scanner
import Verif.Proof.Utf8
/-!
# Properties of the scanner: C06, C09, C10
-/
namespace Adoc.Props
open Adoc Scanner

/-! ## C06: characters are never split -/

/-- **C06**: for a source that is the UTF-8 encoding of `cs`, the lexeme of every token is the encoding of a
contiguous run of `cs`. -/
theorem C06_lexeme_chars (cs : List Char) (t : Token) (h : .tok t ∈ scan (enc cs)) :
    ∃ a m b, cs = a ++ m ++ b ∧ t.lexeme = enc m := by
  obtain ⟨pre, rest, hsplit⟩ := List.append_of_mem h
  have hret := returned_of_runF (n := (enc cs).length + 2) (s := Scanner.new (enc cs)) (pre := pre)
    (rest := .tok t :: rest) hsplit (by simp)
  obtain ⟨s1, h1, h2⟩ := trace_of_runF (n := (enc cs).length + 2) (s := Scanner.new (enc cs)) hsplit hret
  obtain ⟨s2, hn⟩ := runF_head h2
  have hsrc : s1.src = enc cs := (trace_src h1).1
  cases next_spec hn with
  | eof => exact ⟨[], [], cs, rfl, rfl⟩
  | plain _ _ _ hp =>
    have hb := hp.bstart; have he := hp.bend; have hl := hp.lex
    rw [hsrc] at hb he hl
    obtain ⟨a, m, b, h1, _, h3⟩ := slice_chars cs _ _ (Nat.le_of_lt hp.lt) hb he
    exact ⟨a, m, b, h1, by rw [hl, h3]⟩
  | tag _ _ _ ht =>
    obtain ⟨i, j, _, hij, _, hb, he, hl⟩ := ht.lex
    rw [hsrc] at hb he hl
    obtain ⟨a, m, b, h1, _, h3⟩ := slice_chars cs _ _ (Nat.le_of_lt hij) hb he
    exact ⟨a, m, b, h1, by rw [hl, h3]⟩

example : ∃ t, .tok t ∈ scan (enc "né *ß*".toList) ∧ t.lexeme = enc "né ".toList :=
  ⟨⟨.text, [110, 195, 169, 32], some [110, 195, 169, 32], 1, 1, 4, []⟩, by decide, by decide⟩

/-! ## Positions -/

/-- A text after which a new line begins. -/
def AtLineStart (p : Str) : Prop := p = [] ∨ p.getLast? = some 10

theorem trace_state {s s' : Scanner} {toks : List Token} (h : Trace s (toks.map .tok) s')
    (hn : ∀ t ∈ toks, ¬IsTag t) :
    s'.current = s.current + (source toks).length ∧ s'.expectingTagEnd = s.expectingTagEnd := by
  generalize hi : toks.map Item.tok = its at h
  induction h generalizing toks with
  | nil => simp at hi; subst hi; simp [source]
  | @cons s s1 s' it its hnx hr ht ih =>
    cases toks with
    | nil => cases hi
    | cons t toks =>
      simp only [List.map_cons, List.cons.injEq] at hi
      obtain ⟨rfl, hi⟩ := hi
      have ih1 := ih (fun t h => hn t (List.mem_cons_of_mem _ h)) hi
      simp only [source, List.flatMap_cons, List.length_append] at ih1 ⊢
      cases next_spec hnx with
      | eof hl _ => simpa [Token.final] using ih1
      | plain _ _ hlt hp =>
        have h1 := congrArg List.length hp.lex
        rw [take_length hp.le] at h1
        have := hp.lt
        exact ⟨by omega, by rw [ih1.2, hp.expecting]⟩
      | tag _ _ _ htag =>
        exact absurd (by rcases htag.ty with h | h; exact .inl h.1; exact .inr h.1) (hn t (List.mem_cons_self ..))

/-- The scanner after tokens that cover the text `p`, with text left. -/
theorem scan_at {src : Str} {toks : List Token} {rest : List Item} {tail : Str}
    (h : scan src = toks.map .tok ++ rest) (hn : ∀ t ∈ toks, ¬IsTag t) (hsrc : src = source toks ++ tail)
    (ht : tail ≠ []) :
    ∃ s it s' rest', s.src = src ∧ s.current = (source toks).length ∧ s.start = s.current
      ∧ s.expectingTagEnd = false ∧ s.fileStack = []
      ∧ ((∀ t ∈ toks, t.ty = .newLineChar ∨ 10 ∉ t.lexeme) → s.line = 1 + (source toks).count 10)
      ∧ scanToken s = (it, s') ∧ rest = it :: rest' := by
  obtain ⟨s, h1, h2⟩ := scan_trace h
  obtain ⟨h3, h4⟩ := trace_state h1 hn
  obtain ⟨h5, h6, _⟩ := trace_src h1
  have hcur : s.current = (source toks).length := by simpa [Scanner.new, newWithStack] using h3
  have hlen : toks.length ≤ src.length + 1 := by
    have := C03_items_bounded src; rw [h] at this; simp at this; omega
  have hlt : s.current < s.src.length := by
    rw [hcur, h5]
    have : 0 < tail.length := by cases tail <;> simp_all
    simp only [Scanner.new, newWithStack]
    rw [hsrc, List.length_append]; omega
  obtain ⟨k, hk⟩ : ∃ k, src.length + 2 - toks.length = k + 1 := ⟨src.length + 1 - toks.length, by omega⟩
  have hnx : s.next = some (scanToken { s with start := s.current }) := by
    unfold Scanner.next
    rw [if_neg (by simp [Scanner.isAtEnd]; omega)]
  rw [hk, runF_succ, hnx] at h2
  refine ⟨{ s with start := s.current }, (scanToken { s with start := s.current }).1,
    (scanToken { s with start := s.current }).2, _, h5, hcur, rfl, h4, h6, ?_, rfl, h2.symm⟩
  intro hl
  exact trace_line h1 hn hl

theorem startsNewLine_iff {s : Scanner} {p tail : Str} (hs : s.src = p ++ tail) (hc : s.start = p.length) :
    s.startsNewLine = true ↔ AtLineStart p := by
  unfold startsNewLine AtLineStart
  rw [hs, hc]
  rcases List.eq_nil_or_concat p with rfl | ⟨q, x, rfl⟩
  · simp
  · simp [List.getD_eq_getElem?_getD, List.getElem?_append]

theorem peeksAheadAt_eq {src : Str} {i n : Nat} {pat : Str} (h : peeksAheadAt src i n = pat) (hp : pat ≠ [0]) :
    i < src.length ∧ i + n ≤ src.length ∧ isBoundary src (i + n) = true ∧ (src.drop i).take n = pat := by
  unfold peeksAheadAt at h
  split at h
  · exact absurd h.symm hp
  · rename_i hc
    rw [not_or, not_or] at hc
    exact ⟨by omega, by omega, by simpa using hc.2.2, h⟩

theorem peeksAheadAt_of {src p rest : Str} {i : Nat} {b : UInt8} {tail : Str} (hs : src = p ++ rest ++ b :: tail)
    (hi : i = p.length) (hb : isCont b = false) : peeksAheadAt src i rest.length = rest := by
  unfold peeksAheadAt
  have hl : src.length = p.length + rest.length + 1 + tail.length := by simp [hs]; omega
  rw [if_neg]
  · rw [hs, hi, List.append_assoc, List.drop_left, List.take_left]
  · rw [not_or, not_or]
    refine ⟨by omega, by omega, ?_⟩
    rw [Bool.not_eq_false]
    unfold isBoundary
    split
    · rfl
    · rw [hs, hi, List.getElem?_append_right (by simp)]; simp [hb]

/-! ## C09: block delimiters -/

/-- Delimiter characters and the blocks they delimit. -/
def delimiters : List (UInt8 × TokenType) :=
  [(c!"+", .passthroughBlock), (c!"*", .sidebarBlock), (c!"-", .sourceBlock), (c!"_", .quoteVerseBlock),
   (c!"/", .commentBlock), (c!"=", .exampleBlock), (c!".", .literalBlock)]

theorem blockFromChar_iff (c : UInt8) (ty : TokenType) :
    TokenType.blockFromChar c = some ty ↔ (c, ty) ∈ delimiters := by
  unfold TokenType.blockFromChar delimiters
  constructor
  · intro h; repeat' split at h
    all_goals first | (cases h; subst_vars; simp) | cases h
  · intro h
    simp only [List.mem_cons, Prod.mk.injEq, List.not_mem_nil, or_false] at h
    rcases h with ⟨rfl, rfl⟩ | ⟨rfl, rfl⟩ | ⟨rfl, rfl⟩ | ⟨rfl, rfl⟩ | ⟨rfl, rfl⟩ | ⟨rfl, rfl⟩ | ⟨rfl, rfl⟩ <;> rfl

theorem addToken_ty {s : Scanner} {ty : TokenType} {lit : Bool} {a : Nat} {t : Token} {s' : Scanner}
    (h : addToken s ty lit a = (.tok t, s')) (ht : special t.ty = true) : t.ty = ty := by
  rcases addToken_panic_or s ty lit a with ⟨p, s1, h1⟩ | ⟨text, hs, h1, h2⟩
  · rw [h1] at h; cases h
  rw [h] at h1
  simp only [Item.tok.injEq] at h1
  rcases validate_ty ⟨ty, text, if lit then some text else none, s.line,
        s.startcol, s.startcol + text.length - 1, s.fileStack⟩ with h | h
  · rw [← h1] at h; exact h
  · rw [← h1] at h; rw [h.1] at ht; cases ht

/-- If a scanning step returns a special token other than a newline or tag, `Ok` holds for it. -/
theorem step_ok {s s' : Scanner} {t : Token} (hst : s.start = s.current) (h : scanToken s = (.tok t, s'))
    (ht : special t.ty = true) (h1 : ¬IsTag t) (h2 : t.ty ≠ .newLineChar) :
    Ok s s'.current t.ty ∧ t.lexeme = (s.src.drop s.start).take (s'.current - s.start) := by
  have hs := step_scanToken s hst
  rw [h] at hs
  generalize hr : ((Item.tok t, s') : Item × Scanner) = r at hs
  cases hs with
  | tok e ty lit he hty =>
    have h3 := addToken_ty hr.symm ht
    have hp := Plain.of_addToken (s := s) (e := e) (ty := ty) (lit := lit) (a := 0) (t := t) (s' := s') (by omega) hty.ty.1
      (.inl ⟨rfl, hty.ty.2.2.2⟩) (by rw [hr, ← hst])
    have hcur : s'.current = e := by
      rcases addToken_panic_or { s with current := e } ty lit 0 with ⟨p, s1, h1⟩ | ⟨text, hs, h1, h2⟩
      · rw [h1] at hr; cases hr
      · rw [← hr] at h2; dsimp only at h2; rw [h2]; rfl
    rw [hcur, h3]
    refine ⟨hty, ?_⟩
    rw [hp.lex, hcur, hst]
  | nl hc => exact absurd (addToken_ty hr.symm ht) h2
  | tag =>
    have := (Tag.of_addTag (s := s) (t := t) (s' := s') (by rw [hr, ← hst])).ty
    exact absurd (by rcases this with h | h; exact .inl h.1; exact .inr h.1) h1
  | err => cases hr
  | panic => cases hr
  | hang => cases hr

theorem dispatch_delim (s : Scanner) (c : UInt8) (ty : TokenType) (h : (c, ty) ∈ delimiters) :
    dispatch s c = scanDelimChar s c := by
  simp only [delimiters, List.mem_cons, Prod.mk.injEq, List.not_mem_nil, or_false] at h
  unfold dispatch
  rw [if_neg, if_neg, if_neg, if_pos]
  · rcases h with ⟨rfl, _⟩ | ⟨rfl, _⟩ | ⟨rfl, _⟩ | ⟨rfl, _⟩ | ⟨rfl, _⟩ | ⟨rfl, _⟩ | ⟨rfl, _⟩ <;> simp
  all_goals
    rcases h with ⟨rfl, _⟩ | ⟨rfl, _⟩ | ⟨rfl, _⟩ | ⟨rfl, _⟩ | ⟨rfl, _⟩ | ⟨rfl, _⟩ | ⟨rfl, _⟩ <;> decide

theorem delim_special {c : UInt8} {ty : TokenType} (h : (c, ty) ∈ delimiters) :
    special ty = true ∧ ty ≠ .startTag ∧ ty ≠ .endTag ∧ ty ≠ .newLineChar ∧ isCont c = false ∧ headingOf 1 ≠ some ty ∧
    headingOf 2 ≠ some ty ∧ headingOf 3 ≠ some ty ∧ headingOf 4 ≠ some ty ∧ headingOf 5 ≠ some ty := by
  simp only [delimiters, List.mem_cons, Prod.mk.injEq, List.not_mem_nil, or_false] at h
  rcases h with ⟨rfl, rfl⟩ | ⟨rfl, rfl⟩ | ⟨rfl, rfl⟩ | ⟨rfl, rfl⟩ | ⟨rfl, rfl⟩ | ⟨rfl, rfl⟩ | ⟨rfl, rfl⟩ <;> decide

/-- Split of the source at the position of the first token after `toks`. -/
theorem source_split {src : Str} {toks : List Token} {t : Token} {rest : List Item}
    (h : scan src = toks.map .tok ++ .tok t :: rest) (hn : ∀ t ∈ toks, ¬IsTag t) (he : t.ty ≠ .eof) :
    ∃ tail, src = source toks ++ tail ∧ tail ≠ [] := by
  obtain ⟨s, h1, h2⟩ := scan_trace h
  obtain ⟨h3, _⟩ := trace_source h1 hn
  obtain ⟨s2, hnx⟩ := runF_head h2
  have hsrc := (trace_src h1).1
  refine ⟨src.drop s.current, by simpa [Scanner.new, newWithStack] using h3.symm, ?_⟩
  have : s.current < s.src.length := by
    cases next_spec hnx with
    | eof => exact absurd rfl he
    | plain _ _ hlt => exact hlt
    | tag _ _ hlt => exact hlt
  rw [hsrc] at this
  simp only [Scanner.new, newWithStack] at this
  intro hd
  have := List.drop_eq_nil_iff.1 hd
  omega

/-- **C09**, soundness: a delimiter token is emitted only for a line of exactly four copies of its character. -/
theorem C09_sound (src : Str) (toks : List Token) (t : Token) (rest : List Item)
    (h : scan src = toks.map .tok ++ .tok t :: rest) (hn : ∀ t ∈ toks, ¬IsTag t)
    (c : UInt8) (hd : (c, t.ty) ∈ delimiters) :
    AtLineStart (source toks) ∧ t.lexeme = [c, c, c, c] ∧ ∃ tail, src = source toks ++ [c, c, c, c, 10] ++ tail := by
  obtain ⟨hsp, hd1, hd2, hd3, hcont, hh⟩ := delim_special hd
  have hne : t.ty ≠ .eof := by intro h; rw [h] at hd; revert hd; simp [delimiters]
  obtain ⟨tail, hsrc, ht⟩ := source_split h hn hne
  obtain ⟨s, it, s', rest', a1, a2, a3, a4, a5, a6, a7, a8⟩ := scan_at h hn hsrc ht
  simp only [List.cons.injEq] at a8
  obtain ⟨rfl, _⟩ := a8
  obtain ⟨hok, hlex⟩ := step_ok a3 a7 hsp (by rintro (h | h); exact hd1 h; exact hd2 h) hd3
  have htail : src.drop s.start = tail := by rw [a3, a2, hsrc, List.drop_left]
  generalize hty : t.ty = ty at *
  cases hok with
  | simple hs => rw [hs] at hsp; cases hsp
  | heading n _ _ _ _ hh' =>
    exfalso
    unfold headingOf at hh'
    simp only [headingOf] at hh
    split at hh' <;> simp_all
  | delim c' hc' hnl he hr hty' =>
    have hcc : c' = c := by
      rw [blockFromChar_iff] at hty'
      revert hty' hd
      simp only [delimiters, List.mem_cons, Prod.mk.injEq, List.not_mem_nil, or_false]
      rintro (⟨rfl, rfl⟩ | ⟨rfl, rfl⟩ | ⟨rfl, rfl⟩ | ⟨rfl, rfl⟩ | ⟨rfl, rfl⟩ | ⟨rfl, rfl⟩ | ⟨rfl, rfl⟩) <;> simp
    subst hcc
    unfold startsRepeated peeksAhead at hr
    simp only [Bool.and_eq_true, decide_eq_true_eq] at hr
    obtain ⟨_, _, _, hpa⟩ := peeksAheadAt_eq hr.2 (by simp [List.replicate])
    have hlt : s.start < s.src.length := by
      rw [a1, a3, a2, hsrc, List.length_append]
      have : 0 < tail.length := by cases tail <;> simp_all
      omega
    have hcons : tail = c' :: src.drop (s.start + 1) := by
      rw [← htail, ← a1, List.drop_eq_getElem_cons hlt]
      congr 1
      rw [List.getD_eq_getElem?_getD, List.getElem?_eq_getElem hlt] at hc'
      simpa using hc'
    rw [a1] at hpa
    have h4 : src.drop (s.start + 1) = [c', c', c', 10] ++ (src.drop (s.start + 1)).drop 4 := by
      conv => lhs; rw [← List.take_append_drop 4 (src.drop (s.start + 1))]
      rw [hpa]; simp [List.replicate]
    refine ⟨(startsNewLine_iff (tail := tail) (by rw [a1, hsrc]) (by rw [a3, a2])).1 hnl, ?_, (src.drop (s.start + 1)).drop 4, ?_⟩
    · rw [hlex, a1, htail, he, Nat.add_sub_cancel_left, hcons, h4]; rfl
    · conv => lhs; rw [hsrc, hcons, h4]
      simp

/-- **C09**, completeness: at a line start, a line of exactly four copies of a delimiter character gives its delimiter
token (outside include-tag regions; the source is UTF-8, as every `&str` is). -/
theorem C09_complete (src : Str) (toks : List Token) (rest : List Item) (tail : Str)
    (h : scan src = toks.map .tok ++ rest) (hn : ∀ t ∈ toks, ¬IsTag t) (hl : AtLineStart (source toks))
    (c : UInt8) (ty : TokenType) (hd : (c, ty) ∈ delimiters) (hu : ∃ cs, src = enc cs)
    (hsrc : src = source toks ++ [c, c, c, c, 10] ++ tail) :
    ∃ t rest', rest = .tok t :: rest' ∧ t.ty = ty ∧ t.lexeme = [c, c, c, c] := by
  obtain ⟨s, it, s', rest', a1, a2, a3, a4, a5, a6, a7, a8⟩ := scan_at (tail := [c, c, c, c, 10] ++ tail) h hn
    (by rw [hsrc, List.append_assoc]) (by simp)
  obtain ⟨hsp, hd1, hd2, hd3, hcont, hh⟩ := delim_special hd
  have hc : s.src.getD s.current 0 = c := by
    rw [a1, a2, hsrc, List.getD_eq_getElem?_getD, List.append_assoc, List.getElem?_append_right (Nat.le_refl _)]; simp
  have hnl := (startsNewLine_iff (s := { s with current := s.current + 1 }) (p := source toks) (tail := [c, c, c, c, 10] ++ tail)
    (by dsimp only; rw [a1, hsrc, List.append_assoc]) (by dsimp only; rw [a3, a2])).2 hl
  have hbc : ∀ k, k ≤ 4 → isBoundary src ((source toks).length + k) = true := by
    intro k hk
    unfold isBoundary
    split
    · rfl
    · rw [hsrc, List.append_assoc, List.getElem?_append_right (by omega), Nat.add_sub_cancel_left]
      match k, hk with
      | 0, _ => simp [hcont]
      | 1, _ => simp [hcont]
      | 2, _ => simp [hcont]
      | 3, _ => simp [hcont]
      | 4, _ => simp [isCont]
  have hlen : (source toks).length + 5 ≤ src.length := by rw [hsrc]; simp
  have hrep : startsRepeated { s with current := s.current + 1 } c 4 = true := by
    unfold startsRepeated peeksAhead peeksAheadAt
    dsimp only
    rw [a1, a2]
    have hb5 : isBoundary src ((source toks).length + 1 + 4) = true := by
      obtain ⟨cs, hcs⟩ := hu
      have := (boundary_ascii cs ((source toks).length + 4) 10 (by
        rw [← hcs, hsrc, List.append_assoc, List.getElem?_append_right (by omega), Nat.add_sub_cancel_left]
        rfl) (by decide)).2
      rw [← hcs] at this; exact this
    rw [if_neg (by rw [not_or, not_or, Bool.not_eq_false]; exact ⟨by omega, by omega, hb5⟩)]
    simp only [Bool.and_eq_true, decide_eq_true_eq]
    refine ⟨by omega, ?_⟩
    rw [show (source toks).length + 1 = (source toks ++ [c]).length by simp]
    rw [show src = (source toks ++ [c]) ++ ([c, c, c, 10] ++ tail) by rw [hsrc]; simp]
    rw [List.drop_left]; rfl
  have hst : s.startsEndTagLine = false := by simp [startsEndTagLine, a4]
  have h7 := a7
  unfold scanToken at h7
  rw [hc, dispatch_delim _ c ty hd] at h7
  unfold scanDelimChar at h7
  rw [if_neg (by simp [startsEndTagLine, a4]), if_pos (by simp [hnl, hrep]), (blockFromChar_iff c ty).2 hd] at h7
  rcases addToken_panic_or { s with current := s.current + 1 + 3 } ty false 0 with ⟨p, s1, h1⟩ | ⟨text, hs, h1, h2⟩
  · exfalso
    unfold addToken slice at h1
    dsimp only at h1
    rw [if_pos] at h1
    · simp at h1
    · rw [a1, a3, a2]
      exact ⟨by omega, by omega, hbc 0 (by omega), hbc 4 (by omega)⟩
  · dsimp only at h7 h1
    rw [h7] at h1
    dsimp only at h1
    subst h1
    refine ⟨_, rest', a8, ?_, ?_⟩
    · rcases validate_ty ⟨ty, text, if false = true then some text else none, s.line,
        s.startcol, s.startcol + text.length - 1, s.fileStack⟩ with h | h
      · exact h
      · exfalso; dsimp only at h
        rcases h.2 with h | h <;> rw [h] at hsp <;> cases hsp
    · rw [validate_lexeme]
      obtain ⟨_, _, _, _, ht⟩ := slice_some hs
      dsimp only at ht ⊢
      rw [ht, a1, a3, a2, hsrc, List.append_assoc, List.drop_left]
      rw [show (source toks).length + 1 + 3 - (source toks).length = 4 by omega]; rfl

-- a listing delimiter after a text line, and a line of five that is not one
example : ∃ (toks : List Token) (t : Token) (rest : List Item), scan b!"x y\n----\nz\n" = toks.map .tok ++ .tok t :: rest
    ∧ (∀ t ∈ toks, ¬IsTag t) ∧ (c!"-", t.ty) ∈ delimiters ∧ source toks = b!"x y\n" :=
  ⟨((scan b!"x y\n----\nz\n").take 2).filterMap Item.tok?, ⟨.sourceBlock, b!"----", none, 2, 1, 4, []⟩,
    (scan b!"x y\n----\nz\n").drop 3, by decide, by unfold IsTag; decide, by decide, by decide⟩
example : ∀ it ∈ scan b!"-----\n", ∀ t, it = .tok t → (c!"-", t.ty) ∉ delimiters := by
  have : ∀ it ∈ scan b!"-----\n", (it.tok?.all fun t => (c!"-", t.ty) ∉ delimiters) = true := by decide
  intro it hi t ht; have := this it hi; subst ht; simpa [Item.tok?] using this

/-! ## C10: heading markers -/

theorem peekAt_eq {src : Str} {i : Nat} {b : UInt8} (h : src[i]? = some b) (hb : isCont b = false) :
    peekAt src i = b := by
  unfold peekAt
  rw [if_pos]
  · simp [List.getD_eq_getElem?_getD, h]
  · unfold isBoundary; split
    · rfl
    · rw [h]; simp [hb]

theorem peekAt_cases (src : Str) (i : Nat) : peekAt src i = 0 ∨ src[i]? = some (peekAt src i) := by
  unfold peekAt
  split
  · rw [List.getD_eq_getElem?_getD]
    cases h : src[i]? with
    | none => left; rfl
    | some b => right; rfl
  · left; rfl

/-- `adv` over a run of `c` ends after the run. -/
theorem adv_run {src : Str} {c x : UInt8} {i m : Nat} {tail : Str} (h : src.drop i = List.replicate m c ++ x :: tail)
    (hc : isCont c = false) (hc0 : c ≠ 0) (hx : x ≠ c) : adv src (· = c) i = i + m := by
  have hget : ∀ k, src[i + k]? = (List.replicate m c ++ x :: tail)[k]? := by
    intro k; rw [← h, List.getElem?_drop]
  have hge : i + m ≤ adv src (· = c) i := by
    apply Decidable.byContradiction
    intro hlt
    have hge := adv_ge src (· = c) i
    have hk : adv src (· = c) i = i + (adv src (· = c) i - i) := by omega
    generalize adv src (· = c) i - i = k at hk
    have h1 : src[i + k]? = some c := by
      rw [hget, List.getElem?_append_left (by rw [List.length_replicate]; omega), List.getElem?_replicate, if_pos (by omega)]
    have hl : i + k < src.length := (List.getElem?_eq_some_iff.1 h1).1
    have := adv_stop src (· = c) i (by omega)
    rw [hk, peekAt_eq h1 hc] at this
    simp at this
  have hle : adv src (· = c) i ≤ i + m := by
    apply Decidable.byContradiction
    intro hlt
    have h2 := (adv_all src (· = c) i (i + m) (by omega) (by omega)).2
    have h1 : src[i + m]? = some x := by rw [hget, List.getElem?_append_right (by simp)]; simp
    rcases peekAt_cases src (i + m) with h3 | h3
    · rw [h3] at h2; simp at h2; exact hc0 h2.symm
    · rw [h1] at h3; simp only [Option.some.injEq] at h3; rw [← h3] at h2; simp at h2; exact hx h2
  omega

/-- The state at a line of `n` equals signs leads to `addHeading`. -/
theorem heading_dispatch {s : Scanner} {p tail : Str} {n : Nat} {x : UInt8} (hs : s.src = p ++ (List.replicate (n + 1) c!"=" ++ x :: tail))
    (hc : s.current = p.length) (hst : s.start = s.current) (he : s.expectingTagEnd = false) (hl : AtLineStart p)
    (hx : x ≠ c!"=") (h1 : ¬(n + 1 = 4 ∧ x = 10)) (h2 : ¬(n + 1 = 1 ∧ x = c!">")) :
    scanToken s = addHeading { s with current := s.current + 1 }
      ∧ adv s.src (· = c!"=") (s.current + 1) = p.length + (n + 1) := by
  have hd : s.src.getD s.current 0 = c!"=" := by
    rw [hs, hc, List.getD_eq_getElem?_getD, List.getElem?_append_right (Nat.le_refl _)]; simp [List.replicate_succ]
  have hdrop : s.src.drop (s.current + 1) = List.replicate n c!"=" ++ x :: tail := by
    rw [hs, hc, show p.length + 1 = (p ++ [c!"="]).length by simp,
      show p ++ (List.replicate (n + 1) c!"=" ++ x :: tail) = (p ++ [c!"="]) ++ (List.replicate n c!"=" ++ x :: tail) by
        simp [List.replicate_succ], List.drop_left]
  have hnl := (startsNewLine_iff (s := { s with current := s.current + 1 }) (p := p)
    (tail := List.replicate (n + 1) c!"=" ++ x :: tail) (by dsimp only; rw [hs]) (by dsimp only; rw [hst, hc])).2 hl
  refine ⟨?_, ?_⟩
  · unfold scanToken
    rw [hd, dispatch_delim _ _ .exampleBlock (by decide)]
    unfold scanDelimChar
    rw [if_neg (by simp [startsEndTagLine, he]), if_neg, if_pos rfl]
    · unfold scanEquals
      rw [if_neg, if_pos hnl]
      intro hp
      unfold peek at hp
      dsimp only at hp
      have hget : s.src[s.current + 1]? = (List.replicate n c!"=" ++ x :: tail)[0]? := by
        rw [← hdrop, List.getElem?_drop]
      rcases peekAt_cases s.src (s.current + 1) with h3 | h3
      · rw [h3] at hp; cases hp
      · rw [hp, hget] at h3
        cases n with
        | zero => simp at h3; exact h2 ⟨rfl, h3⟩
        | succ n => simp [List.replicate_succ] at h3
    · simp only [hnl, Bool.true_and]
      intro hr
      unfold startsRepeated peeksAhead at hr
      simp only [Bool.and_eq_true, decide_eq_true_eq] at hr
      obtain ⟨_, _, _, hpa⟩ := peeksAheadAt_eq hr.2 (by simp [List.replicate])
      rw [hdrop] at hpa
      match n with
      | 0 => simp [List.replicate] at hpa; exact hx hpa.1
      | 1 => simp [List.replicate] at hpa; exact hx hpa.1
      | 2 => simp [List.replicate] at hpa; exact hx hpa.1
      | 3 => simp [List.replicate] at hpa; exact h1 ⟨rfl, hpa⟩
      | n + 4 => simp [List.replicate_succ] at hpa
  · rw [adv_run hdrop (by decide) (by decide) hx, hc]; omega

/-- The heading token of a level, as a table. -/
def headings : List (Nat × TokenType) :=
  [(1, .heading1), (2, .heading2), (3, .heading3), (4, .heading4), (5, .heading5)]

/-- **C10**: at a line start, `n ≤ 5` equals signs followed by an ASCII character other than `=` (not the example
delimiter `====` + newline, not the arrow `=>`) give the heading token of level `n`, with the marker and that
character as lexeme. -/
theorem C10_heading (src : Str) (toks : List Token) (rest : List Item) (tail : Str) (n : Nat) (ty : TokenType) (x : UInt8)
    (h : scan src = toks.map .tok ++ rest) (hn : ∀ t ∈ toks, ¬IsTag t) (hl : AtLineStart (source toks))
    (hu : ∃ cs, src = enc cs) (hsrc : src = source toks ++ List.replicate n c!"=" ++ x :: tail)
    (hty : (n, ty) ∈ headings) (hx : x ≠ c!"=") (ha : x.toNat < 128) (h1 : ¬(n = 4 ∧ x = 10)) (h2 : ¬(n = 1 ∧ x = c!">")) :
    ∃ t rest', rest = .tok t :: rest' ∧ t.ty = ty ∧ t.lexeme = List.replicate n c!"=" ++ [x] := by
  obtain ⟨n, rfl⟩ : ∃ m, n = m + 1 := ⟨n - 1, by
    simp only [headings, List.mem_cons, Prod.mk.injEq, List.not_mem_nil, or_false] at hty; omega⟩
  rw [List.append_assoc] at hsrc
  obtain ⟨s, it, s', rest', a1, a2, a3, a4, a5, a6, a7, a8⟩ := scan_at h hn hsrc (by simp)
  obtain ⟨b1, b2⟩ := heading_dispatch (s := s) (by rw [a1, hsrc]) a2 a3 a4 hl hx h1 h2
  have hlen : (source toks).length + (n + 1) + 1 ≤ src.length := by rw [hsrc]; simp; omega
  have hget : src[(source toks).length + (n + 1)]? = some x := by
    rw [hsrc, List.getElem?_append_right (by omega), Nat.add_sub_cancel_left, List.getElem?_append_right (by simp)]; simp
  have hbe : isBoundary src ((source toks).length + (n + 1) + 1) = true := by
    obtain ⟨cs, rfl⟩ := hu
    exact (boundary_ascii cs _ x hget ha).2
  have hbs : isBoundary src (source toks).length = true := by
    unfold isBoundary; split
    · rfl
    · rw [hsrc, List.getElem?_append_right (Nat.le_refl _)]; simp [List.replicate_succ, isCont]
  rw [b1] at a7
  unfold addHeading at a7
  dsimp only at a7
  rw [b2, show (source toks).length + (n + 1) + 1 - 1 - s.start = n + 1 by omega] at a7
  have fin : ∀ ty', special ty' = true → addToken { s with current := (source toks).length + (n + 1) + 1 } ty' false 0 = (it, s') →
      ∃ t rest', rest = .tok t :: rest' ∧ t.ty = ty' ∧ t.lexeme = List.replicate (n + 1) c!"=" ++ [x] := by
    intro ty' hsp h7
    rcases addToken_panic_or { s with current := (source toks).length + (n + 1) + 1 } ty' false 0 with ⟨p, s1, h1⟩ | ⟨text, hs, h1, h2⟩
    · exfalso
      unfold addToken slice at h1
      dsimp only at h1
      rw [if_pos] at h1
      · simp at h1
      · rw [a1, a3, a2]; exact ⟨by omega, by omega, hbs, hbe⟩
    · rw [h7] at h1
      dsimp only at h1
      subst h1
      refine ⟨_, rest', a8, ?_, ?_⟩
      · rcases validate_ty ⟨ty', text, if false = true then some text else none, s.line,
          s.startcol, s.startcol + text.length - 1, s.fileStack⟩ with h | h
        · exact h
        · exfalso; dsimp only at h
          rcases h.2 with h | h <;> rw [h] at hsp <;> cases hsp
      · rw [validate_lexeme]
        obtain ⟨_, _, _, _, ht⟩ := slice_some hs
        dsimp only at ht ⊢
        rw [ht, a1, a3, a2, hsrc, List.drop_left,
          show (source toks).length + (n + 1) + 1 - (source toks).length = (n + 1) + 1 by omega,
          show List.replicate (n + 1) c!"=" ++ x :: tail = (List.replicate (n + 1) c!"=" ++ [x]) ++ tail by simp]
        rw [List.take_append_of_le_length (by simp), List.take_of_length_le (by simp)]
  simp only [headings, List.mem_cons, Prod.mk.injEq, List.not_mem_nil, or_false] at hty
  rcases hty with ⟨h, rfl⟩ | ⟨h, rfl⟩ | ⟨h, rfl⟩ | ⟨h, rfl⟩ | ⟨h, rfl⟩ <;>
    (obtain rfl : n = _ := Nat.succ.inj h; exact fin _ rfl a7)

/-- **C10**: more than five equals signs at a line start give the heading-level error, with the line number. -/
theorem C10_too_deep (src : Str) (toks : List Token) (rest : List Item) (tail : Str) (n : Nat) (x : UInt8)
    (h : scan src = toks.map .tok ++ rest) (hn : ∀ t ∈ toks, ¬IsTag t)
    (hlines : ∀ t ∈ toks, t.ty = .newLineChar ∨ 10 ∉ t.lexeme) (hl : AtLineStart (source toks))
    (hsrc : src = source toks ++ List.replicate n c!"=" ++ x :: tail) (hx : x ≠ c!"=") (h5 : 5 < n) :
    ∃ rest', rest = .err (.headingLevel (1 + (source toks).count 10)) :: rest' := by
  obtain ⟨n, rfl⟩ : ∃ m, n = m + 6 := ⟨n - 6, by omega⟩
  rw [List.append_assoc] at hsrc
  obtain ⟨s, it, s', rest', a1, a2, a3, a4, a5, a6, a7, a8⟩ := scan_at h hn hsrc (by simp)
  obtain ⟨b1, b2⟩ := heading_dispatch (n := n + 5) (s := s) (by rw [a1, hsrc]) a2 a3 a4 hl hx (by omega) (by omega)
  rw [b1] at a7
  unfold addHeading at a7
  dsimp only at a7
  rw [b2, show (source toks).length + (n + 5 + 1) + 1 - 1 - s.start = n + 6 by omega] at a7
  have h7 : it = .err (.headingLevel s.line) := by
    split at a7
    · omega
    · omega
    · omega
    · omega
    · omega
    · rw [Prod.mk.injEq] at a7; exact a7.1.symm
  exact ⟨rest', by rw [a8, h7, a6 hlines]⟩

/-- **C10**, soundness: a heading token of level `n` comes only from `n` equals signs at a line start, plus one more
character. -/
theorem C10_sound (src : Str) (toks : List Token) (t : Token) (rest : List Item) (n : Nat)
    (h : scan src = toks.map .tok ++ .tok t :: rest) (hn : ∀ t ∈ toks, ¬IsTag t) (hty : (n, t.ty) ∈ headings) :
    AtLineStart (source toks) ∧ ∃ x tail, x ≠ c!"=" ∧ t.lexeme = List.replicate n c!"=" ++ [x]
      ∧ src = source toks ++ t.lexeme ++ tail := by
  have hsp : special t.ty = true ∧ t.ty ≠ .startTag ∧ t.ty ≠ .endTag ∧ t.ty ≠ .newLineChar ∧ t.ty ≠ .eof ∧
      headingOf n = some t.ty := by
    simp only [headings, List.mem_cons, Prod.mk.injEq, List.not_mem_nil, or_false] at hty
    rcases hty with ⟨rfl, h⟩ | ⟨rfl, h⟩ | ⟨rfl, h⟩ | ⟨rfl, h⟩ | ⟨rfl, h⟩ <;> rw [h] <;> decide
  obtain ⟨hsp, hd1, hd2, hd3, hne, hho⟩ := hsp
  obtain ⟨tail, hsrc, ht⟩ := source_split h hn hne
  obtain ⟨s, it, s', rest', a1, a2, a3, a4, a5, a6, a7, a8⟩ := scan_at h hn hsrc ht
  simp only [List.cons.injEq] at a8
  obtain ⟨rfl, _⟩ := a8
  obtain ⟨hok, hlex⟩ := step_ok a3 a7 hsp (by rintro (h | h); exact hd1 h; exact hd2 h) hd3
  have htail : src.drop s.start = tail := by rw [a3, a2, hsrc, List.drop_left]
  generalize hty' : t.ty = ty at *
  have hle : s'.current ≤ src.length := by
    have hs := step_scanToken s a3
    rw [a7] at hs
    generalize hr : ((Item.tok t, s') : Item × Scanner) = r at hs
    have : ∀ e ty' lit a, (Item.tok t, s') = addToken { s with current := e } ty' lit a → s'.current ≤ src.length := by
      intro e ty' lit a hr
      rcases addToken_panic_or { s with current := e } ty' lit a with ⟨p, s1, h1⟩ | ⟨text, hs, h1, h2⟩
      · rw [h1] at hr; cases hr
      · rw [← hr] at h2; dsimp only at h2; rw [h2]
        obtain ⟨_, hle, _⟩ := slice_some hs
        dsimp only at hle; rw [a1] at hle
        split <;> exact hle
    cases hs with
    | tok e ty lit he hty => exact this _ _ _ _ hr
    | nl hc => exact this _ _ _ _ hr
    | tag =>
      have := (Tag.of_addTag (s := s) (t := t) (s' := s') (by rw [hr, ← a3])).ty
      exfalso; rcases this with h | h <;> rw [hty'] at h
      · exact hd1 h.1
      · exact hd2 h.1
    | err => cases hr
    | panic => cases hr
    | hang => cases hr
  cases hok with
  | simple hs => rw [hs] at hsp; cases hsp
  | delim c _ _ _ _ hb =>
    exfalso
    rw [blockFromChar_iff] at hb
    obtain ⟨_, _, _, _, _, h1, h2, h3, h4, h5⟩ := delim_special hb
    unfold headingOf at hho
    split at hho
    · exact h1 hho
    · exact h2 hho
    · exact h3 hho
    · exact h4 hho
    · exact h5 hho
    · cases hho
  | heading m hc hnl he he' hm =>
    have hmn : m = n := by
      have hinj : ∀ a b : Nat, ∀ ty, headingOf a = some ty → headingOf b = some ty → a = b := by
        intro a b ty h1 h2
        unfold headingOf at h1 h2
        split at h1 <;> split at h2 <;> cases h1 <;> cases h2 <;> rfl
      exact hinj _ _ _ hm hho
    subst hmn
    have hm1 : 1 ≤ m := by have := adv_ge s.src (· = c!"=") (s.start + 1); omega
    have hlt : s.start + m < src.length := by omega
    have hstop := adv_stop s.src (· = c!"=") (s.start + 1) (by rw [he, a1]; exact hlt)
    have hall := adv_all s.src (· = c!"=") (s.start + 1)
    rw [he] at hall hstop
    have hrun : ∀ k, k < m → src[s.start + k]? = some c!"=" := by
      intro k hk
      cases k with
      | zero =>
        have : s.start < s.src.length := by rw [a1]; omega
        rw [List.getD_eq_getElem?_getD, List.getElem?_eq_getElem this] at hc
        rw [← a1, Nat.add_zero, List.getElem?_eq_getElem this]; simpa using hc
      | succ k =>
        have h1 := hall (s.start + (k + 1)) (by omega) (by omega)
        simp only [decide_eq_true_eq] at h1
        rcases peekAt_cases s.src (s.start + (k + 1)) with h3 | h3
        · rw [h3] at h1; cases h1.2
        · rw [h1.2, a1] at h3; exact h3
    have hx : ∃ x, src[s.start + m]? = some x ∧ x ≠ c!"=" := by
      refine ⟨src[s.start + m], List.getElem?_eq_getElem hlt, ?_⟩
      intro hxe
      have : s.src[s.start + m]? = some c!"=" := by rw [a1, List.getElem?_eq_getElem hlt, hxe]
      rw [peekAt_eq this (by decide)] at hstop
      simp at hstop
    obtain ⟨x, hx1, hx2⟩ := hx
    have hlexeq : t.lexeme = List.replicate m c!"=" ++ [x] := by
      rw [hlex, he', a1, show s.start + m + 1 - s.start = m + 1 by omega]
      apply List.ext_getElem?
      intro k
      by_cases hk : k < m
      · rw [List.getElem?_take_of_lt (by omega), List.getElem?_drop, hrun k hk, List.getElem?_append_left (by simpa)]
        simp [hk]
      · by_cases hk2 : k = m
        · subst hk2
          rw [List.getElem?_take_of_lt (by omega), List.getElem?_drop, hx1, List.getElem?_append_right (by simp)]
          simp
        · rw [List.getElem?_eq_none (by simp; omega), List.getElem?_eq_none (by simp; omega)]
    refine ⟨(startsNewLine_iff (tail := tail) (by rw [a1, hsrc]) (by rw [a3, a2])).1 hnl, x, tail.drop (m + 1), hx2, hlexeq, ?_⟩
    have : t.lexeme = tail.take (m + 1) := by
      rw [hlex, a1, htail, he', show s.start + m + 1 - s.start = m + 1 by omega]
    rw [this, List.append_assoc, List.take_append_drop, ← hsrc]

example : ∃ (toks : List Token) (t : Token) (rest : List Item), scan b!"a\n=== b c\n" = toks.map .tok ++ .tok t :: rest
    ∧ (∀ t ∈ toks, ¬IsTag t) ∧ (3, t.ty) ∈ headings ∧ source toks = b!"a\n" ∧ t.lexeme = b!"=== " :=
  ⟨((scan b!"a\n=== b c\n").take 2).filterMap Item.tok?, ⟨.heading3, b!"=== ", none, 2, 1, 4, []⟩,
    (scan b!"a\n=== b c\n").drop 3, by decide, by unfold IsTag; decide, by decide, by decide, rfl⟩

/-- **C10**, a consequence of the lexeme rule: the character after the marker is always swallowed, even when it is
not a space. -/
theorem C10_swallows_following_character :
    (scan b!"=foo\n").head? = some (.tok ⟨.heading1, b!"=f", none, 1, 1, 2, []⟩) := by decide

end Adoc.Props
