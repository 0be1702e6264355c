import Verif.Proof.Blame
import Verif.Proof.BlameScan
/-!
# Where errors come from: places in the texts
-/
namespace Adoc.Blame

open Spec Scanner
open Props (OneLine)

/-- What stands at a token, at a place of the kind `b`. -/
def Here (b : Prop) (rest : Str) (t : Token) : Prop :=
  match t.ty with
  | .heading1 => b ∧ ∃ x tail, rest = List.replicate 1 c!"=" ++ x :: tail ∧ x ≠ c!"="
  | .heading2 => b ∧ ∃ x tail, rest = List.replicate 2 c!"=" ++ x :: tail ∧ x ≠ c!"="
  | .heading3 => b ∧ ∃ x tail, rest = List.replicate 3 c!"=" ++ x :: tail ∧ x ≠ c!"="
  | .heading4 => b ∧ ∃ x tail, rest = List.replicate 4 c!"=" ++ x :: tail ∧ x ≠ c!"="
  | .heading5 => b ∧ ∃ x tail, rest = List.replicate 5 c!"=" ++ x :: tail ∧ x ≠ c!"="
  | .include => b ∧ b!"include::" <+: t.text ∧ t.text <+: rest
  | .blockImageMacro => b ∧ b!"image::" <+: t.text ∧ t.text <+: rest
  | .passthroughBlock | .literalBlock | .sourceBlock | .commentBlock | .quoteVerseBlock =>
    b ∧ ∃ c, TokenType.blockFromChar c = some t.ty ∧ [c, c, c, c, 10] <+: rest
  | .tableCell => t.text = t.lexeme ∧ ∃ r, t.text = c!"|" :: r
  | _ => True

theorem Here.move {b b' : Prop} {rest after : Str} {t : Token} {l c1 c2 : Nat} (hb : b → b') (h : Here b rest t) :
    Here b' (rest ++ after) { t with line := l, startcol := c1, endcol := c2 } := by
  obtain ⟨ty, lexeme, lit, line, d1, d2, fs⟩ := t
  cases ty <;> first
    | trivial
    | (obtain ⟨h1, x, tail, rfl, h2⟩ := h
       exact ⟨hb h1, x, tail ++ after, by simp, h2⟩)
    | (obtain ⟨h1, h2, h3⟩ := h
       exact ⟨hb h1, h2, h3.trans (List.prefix_append _ _)⟩)
    | (obtain ⟨h1, c, h2, h3⟩ := h
       exact ⟨hb h1, c, h2, h3.trans (List.prefix_append _ _)⟩)
    | exact h

theorem here_of {s : Scanner} {t : Token} (h : TokFact s t) (hle : s.start ≤ s.src.length) :
    Here (Lexical.LineStart (s.src.take s.start)) (s.src.drop s.start) t := by
  obtain ⟨ty, lexeme, lit, line, d1, d2, fs⟩ := t
  cases ty <;> first
    | trivial
    | exact ⟨newLine_iff h.1 hle, h.2⟩
    | exact h

/-- The place of an item in a text. -/
theorem local_place {src : Str} {fs : List Str} {it : Item} (h : Reached (newWithStack src fs).run it)
    (hn : ∀ t, Reached (newWithStack src fs).run (.tok t) → OneLine t) :
    ∃ before rest, src = before ++ rest
      ∧ (∀ t, it = .tok t → t.line = lineAfter before ∧ t.lexeme <+: rest ∧ Here (Lexical.LineStart before) rest t)
      ∧ ∀ e, it = .err e → match e with
        | .headingLevel l => l = lineAfter before ∧ Lexical.LineStart before ∧ List.replicate 6 c!"=" <+: rest
        | .tagError x => x <:+: src
        | .characterMatch => False := by
  obtain ⟨toks, rest, h⟩ := h
  obtain ⟨s, s', h1, h2, h3, h4⟩ := run_at h (fun t ht => by
    obtain ⟨a, b, rfl⟩ := List.append_of_mem ht
    exact hn t ⟨a, b.map .tok ++ it :: rest, by rw [h]; simp⟩)
  refine ⟨src.take s.current, src.drop s.current, (List.take_append_drop _ _).symm, ?_, ?_⟩
  · rintro t rfl
    cases next_spec h4 with
    | eof hl _ => exact ⟨h3, List.nil_prefix, trivial⟩
    | tag _ _ _ htag => exact absurd (by rcases htag.ty with h | h; exact .inl h.1; exact .inr h.1) (hn t ⟨toks, rest, h⟩).1
    | plain _ _ hlt hp =>
      refine ⟨hp.line.trans h3, ?_, ?_⟩
      · rw [hp.lex, h1]; exact List.take_prefix _ _
      · have := here_of ((next_fact h4 hlt).1 t rfl) (by rw [h1]; exact h2)
        rw [← h1]; exact this
  · rintro e rfl
    cases next_spec h4 with
    | err _ _ hlt _ =>
      have := (next_fact h4 hlt).2 e rfl
      cases e with
      | headingLevel l =>
        obtain ⟨a, b, c⟩ := this
        have b := newLine_iff b (by rw [h1]; exact h2)
        dsimp only at a b c ⊢
        rw [h1] at b c
        exact ⟨a.trans h3, b, c⟩
      | tagError x =>
        have := this.1
        dsimp only at this ⊢
        rw [h1] at this; exact this
      | characterMatch => exact this

variable {w : World} {src : Str}

/-- What is known about the items that are read: their places in a text. -/
def Placed (text : Str) (items : List Item) : Prop :=
  (∀ t, Reached items (.tok t) → ∃ before rest, text = before ++ rest ∧ t.line = lineAfter before ∧ t.lexeme <+: rest ∧ Here (BlockStart before) rest t)
  ∧ ∀ e, Reached items (.err e) → match e with
    | .headingLevel l => ∃ before rest, text = before ++ rest ∧ List.replicate 6 c!"=" <+: rest ∧
        (Lexical.LineStart before ∧ l = lineAfter before ∨ before.getLast? = some c!"|" ∧ l = 1)
    | .tagError x => x <:+: text
    | .characterMatch => False

theorem Here.weaken {b b' : Prop} {rest : Str} {t : Token} (hb : b → b') (h : Here b rest t) : Here b' rest t := by
  have := Here.move (after := []) (l := t.line) (c1 := t.startcol) (c2 := t.endcol) hb h
  rw [List.append_nil] at this
  exact this

theorem placed_run {text : Str} {fs : List Str} (hn : ∀ t, Reached (newWithStack text fs).run (.tok t) → OneLine t) :
    Placed text (newWithStack text fs).run := by
  refine ⟨fun t ht => ?_, fun e he => ?_⟩
  · obtain ⟨before, rest, h1, h2, -⟩ := local_place ht hn
    obtain ⟨a, b, c⟩ := h2 t rfl
    exact ⟨before, rest, h1, a, b, c.weaken .inl⟩
  · obtain ⟨before, rest, h1, -, h2⟩ := local_place he hn
    have := h2 e rfl
    cases e with
    | headingLevel l => exact ⟨before, rest, h1, this.2.2, .inl ⟨this.2.1, this.1⟩⟩
    | tagError x => exact this
    | characterMatch => exact this

theorem reached_inCell {c : Token} {items : List Item} {it : Item} (h : Reached (items.map (inCell c)) it) :
    ∃ it', Reached items it' ∧ it = inCell c it' := by
  obtain ⟨toks, rest, h⟩ := h
  obtain ⟨l1, l2, rfl, h1, h2⟩ := List.map_eq_append_iff.1 h
  obtain ⟨it', l3, rfl, rfl, rfl⟩ := List.map_eq_cons_iff.1 h2
  refine ⟨it', ?_, rfl⟩
  have : ∀ (l : List Item) (toks : List Token), l.map (inCell c) = toks.map .tok → ∃ toks' : List Token, l = toks'.map .tok := by
    intro l
    induction l with
    | nil => exact fun _ _ => ⟨[], rfl⟩
    | cons a l ih =>
      intro toks h
      cases toks with
      | nil => cases h
      | cons t toks =>
        simp only [List.map_cons, List.cons.injEq] at h
        obtain ⟨toks', rfl⟩ := ih toks h.2
        cases a with
        | tok u => exact ⟨u :: toks', rfl⟩
        | err _ => cases h.1
        | panic _ => cases h.1
        | hang => cases h.1
  obtain ⟨toks', rfl⟩ := this l1 toks h1
  exact ⟨toks', l3, rfl⟩

/-- Every token that is read is on one line. -/
def Calm (w : World) (src : Str) : Prop := ∀ fs items t, Read w src fs items → Reached items (.tok t) → OneLine t

theorem getLast_bar {a pre : Str} (h : Lexical.LineStart pre) (hn : 10 ∉ pre) : (a ++ c!"|" :: pre).getLast? = some c!"|" := by
  rcases h with rfl | h
  · simp
  · exact absurd (List.mem_of_getLast? h) hn

theorem placed_cell {text : Str} {items : List Item} {c : Token} (hp : Placed text items) (hc : Reached items (.tok c)) (hty : c.ty = .tableCell)
    (ho : OneLine c) (hn : ∀ t, Reached (scan (c.text.drop 1)) (.tok t) → OneLine t) : Placed text ((scan (c.text.drop 1)).map (inCell c)) := by
  obtain ⟨cb, cr, h1, h2, h3, h4⟩ := hp.1 c hc
  unfold Here at h4
  rw [hty] at h4
  obtain ⟨h4, r, h5⟩ := h4
  have hnl : 10 ∉ c.text := by
    have := ho.2
    rw [hty] at this
    rw [h4]; simpa using this
  rw [h5] at hnl hn ⊢
  rw [← h4, h5] at h3
  obtain ⟨ca, rfl⟩ := h3
  simp only [List.drop_succ_cons, List.drop_zero] at hn ⊢
  have hr : 10 ∉ r := fun h => hnl (by simp [h])
  refine ⟨fun t ht => ?_, fun e he => ?_⟩
  · obtain ⟨it', hr', he⟩ := reached_inCell ht
    obtain ⟨pre, rest, g1, g2, -⟩ := local_place hr' hn
    cases it' with
    | err _ => cases he
    | panic _ => cases he
    | hang => cases he
    | tok u =>
      obtain ⟨a, b, d⟩ := g2 u rfl
      cases he
      have hpre : 10 ∉ pre := fun h => hr (by rw [g1]; simp [h])
      refine ⟨cb ++ c!"|" :: pre, rest ++ ca, by rw [h1, g1]; simp, ?_, b.trans (List.prefix_append _ _), ?_⟩
      · dsimp only
        rw [a, h2]
        simp [lineAfter, List.count_eq_zero.2 hpre, show (c!"|" : UInt8) ≠ 10 by decide]
      · exact d.move fun hl => .inr (getLast_bar hl hpre)
  · obtain ⟨it', hr', he⟩ := reached_inCell he
    obtain ⟨pre, rest, g1, -, g2⟩ := local_place hr' hn
    cases it' with
    | tok _ => cases he
    | panic _ => cases he
    | hang => cases he
    | err e' =>
      cases he
      have := g2 e rfl
      cases e with
      | headingLevel l =>
        have hpre : 10 ∉ pre := fun h => hr (by rw [g1]; simp [h])
        refine ⟨cb ++ c!"|" :: pre, rest ++ ca, by rw [h1, g1]; simp, this.2.2.trans (List.prefix_append _ _), .inr ⟨getLast_bar this.2.1 hpre, ?_⟩⟩
        rw [this.1]; simp [lineAfter, List.count_eq_zero.2 hpre]
      | tagError x =>
        refine this.trans ⟨cb ++ [c!"|"], ca, ?_⟩
        rw [h1]; simp
      | characterMatch => exact this

theorem names_text {t : Token} {target name : Str} {n : Nat} (hn : n = name.length) (h : name <+: t.text) (h2 : ∃ rest, t.text.drop n = target ++ c!"[" :: rest)
    {rest : Str} (h3 : t.text <+: rest) : ∃ r, rest = name ++ target ++ c!"[" :: r := by
  obtain ⟨a, ha⟩ := h
  obtain ⟨b, hb⟩ := h2
  obtain ⟨c, hc⟩ := h3
  rw [← ha, hn, List.drop_left] at hb
  exact ⟨b ++ c, by rw [← hc, ← ha, hb]; simp⟩

theorem read_placed (hn : Calm w src) {fs : List Str} {items : List Item} (h : Read w src fs items) : ∃ text, Text w src fs text ∧ Placed text items := by
  induction h with
  | input => exact ⟨src, .input, placed_run (fs := []) fun t ht => hn _ _ t .input ht⟩
  | @included fs items t target path text' hr ht hty hnm hw hread ih =>
    obtain ⟨text, h1, h2⟩ := ih
    obtain ⟨before, rest, g1, g2, g3, g4⟩ := h2.1 t ht
    unfold Here at g4
    rw [hty] at g4
    obtain ⟨a, b, c⟩ := g4
    have hx := hnm.1
    rw [if_pos hty] at hx
    obtain ⟨r, rfl⟩ := names_text rfl b hx c
    exact ⟨text', .included h1 ⟨before, g1, a, rfl⟩ hnm.2 hw hread,
      placed_run fun u hu => hn _ _ u (.included hr ht hty hnm hw hread) hu⟩
  | @cell fs items t hr ht hty ih =>
    obtain ⟨text, h1, h2⟩ := ih
    refine ⟨text, h1, placed_cell h2 ht hty (hn _ _ t hr ht) fun u hu => ?_⟩
    have := hn _ _ _ (.cell hr ht hty) (hu.inCell (c := t))
    exact this

/-- An explained error names the line where its cause stands. -/
theorem cause_of (hn : Calm w src) {e : ParserError} (h : Fault w src e) : Cause w src e := by
  cases h with
  | other h => exact .other h
  | @scanner fs items e hr he =>
    obtain ⟨text, h1, h2⟩ := read_placed hn hr
    have := h2.2 e he
    cases e with
    | headingLevel l =>
      obtain ⟨before, rest, g1, ⟨r, rfl⟩, ⟨g2, rfl⟩ | ⟨g2, rfl⟩⟩ := this
      · exact .deep h1 g1 g2
      · exact .cell h1 g1 g2
    | tagError x => exact .tag h1 this
    | characterMatch => exact this.elim
  | @title fs items t hr ht hty _ =>
    obtain ⟨text, h1, h2⟩ := read_placed hn hr
    obtain ⟨before, rest, g1, g2, g3, g4⟩ := h2.1 t ht
    unfold Here at g4
    rw [hty] at g4
    obtain ⟨a, x, tail, rfl, b⟩ := g4
    exact .title h1 ⟨before, g1, a, g2⟩ b
  | @level fs items t n o hr ht hl ho =>
    obtain ⟨text, h1, h2⟩ := read_placed hn hr
    obtain ⟨before, rest, g1, g2, g3, g4⟩ := h2.1 t ht
    unfold levelOf at hl
    unfold Here at g4
    split at hl
    all_goals first | cases hl; done | skip
    all_goals
      rename_i hty
      rw [hty] at g4
      obtain ⟨a, x, tail, rfl, b⟩ := g4
      cases hl
      exact .level h1 ⟨before, g1, a, g2⟩ b (by omega)
  | @target fs items t tg hr ht hty hnm hw =>
    obtain ⟨text, h1, h2⟩ := read_placed hn hr
    obtain ⟨before, rest, g1, g2, g3, g4⟩ := h2.1 t ht
    unfold Here at g4
    have hx := hnm.1
    rcases hty with hty | hty
    · rw [hty] at g4
      rw [if_pos hty] at hx
      obtain ⟨a, b, c⟩ := g4
      obtain ⟨r, rfl⟩ := names_text rfl b hx c
      exact .target h1 (.inl rfl) ⟨before, g1, a, g2⟩ hnm.2 hw
    · rw [hty] at g4
      rw [if_neg (by rw [hty]; decide)] at hx
      obtain ⟨a, b, c⟩ := g4
      obtain ⟨r, rfl⟩ := names_text rfl b hx c
      exact .target h1 (.inr rfl) ⟨before, g1, a, g2⟩ hnm.2 hw
  | @closing fs items t hr ht hl =>
    obtain ⟨text, h1, h2⟩ := read_placed hn hr
    obtain ⟨before, rest, g1, g2, g3, g4⟩ := h2.1 t ht
    have : BlockStart before ∧ ∃ c, TokenType.blockFromChar c = some t.ty ∧ [c, c, c, c, 10] <+: rest := by
      unfold Here at g4
      unfold isLeafDelimiter at hl
      split at hl
      all_goals first | cases hl; done | skip
      all_goals
        rename_i hty
        rw [hty] at g4 ⊢
        exact g4
    obtain ⟨a, c, b, r, rfl⟩ := this
    refine .closing (c := c) (rest := r) h1 ⟨before, g1, a, g2⟩ ?_
    unfold TokenType.blockFromChar at b
    repeat' split at b
    all_goals first
      | cases b; done
      | (rename_i h; subst h; decide)
      | (rw [← Option.some.inj b] at hl; cases hl)

end Adoc.Blame
