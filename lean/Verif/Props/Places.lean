import Verif.Proof.PlacesParser
import Verif.Props.Scanner
import Verif.Props.Parser
/-!
# C77: locations are positions of the source
-/
namespace Adoc.Props
open Spec Scanner

/-! ## Positions of tokens -/

theorem lineAfter_append (a b : Str) : lineAfter (a ++ b) = lineAfter a + b.count 10 := by
  simp [lineAfter, List.count_append]; omega

theorem colAfter_newline (a : Str) : colAfter (a ++ [10]) = 1 := by simp [colAfter]

theorem takeWhile_all {α : Type} {f : α → Bool} {a b : List α} (h : ∀ x ∈ a, f x = true) :
    (a ++ b).takeWhile f = a ++ b.takeWhile f := by
  induction a with
  | nil => rfl
  | cons x a ih => simp [h x (by simp), ih fun y hy => h y (by simp [hy])]

theorem colAfter_append {a b : Str} (h : 10 ∉ b) : colAfter (a ++ b) = colAfter a + b.length := by
  unfold colAfter
  rw [List.reverse_append, takeWhile_all (by
    intro x hx
    have : x ≠ 10 := by rintro rfl; exact h (List.mem_reverse.1 hx)
    simpa using this)]
  simp; omega

/-- A token stands where its line and columns say. -/
def Stands (src : Str) (t : Token) : Prop :=
  (∃ pre rest, src = pre ++ t.lexeme ++ rest ∧ t.lexeme ≠ [] ∧ t.line = lineAfter pre ∧ t.startcol = colAfter pre
    ∧ t.endcol + 1 = t.startcol + t.lexeme.length ∧ (10 ∉ t.lexeme ∨ t.lexeme = [10]))
  ∨ (t.ty = .eof ∧ t.line = lineAfter src ∧ t.startcol = 0 ∧ t.endcol = 0)

/-- No tag, and no newline inside unless it is one. -/
def OneLine (t : Token) : Prop := ¬IsTag t ∧ (t.ty = .newLineChar ∨ 10 ∉ t.lexeme)

instance (t : Token) : Decidable (OneLine t) := by unfold OneLine IsTag; infer_instance

theorem trace_pos {src : Str} {s s' : Scanner} {toks : List Token} (h : Trace s (toks.map .tok) s')
    (hn : ∀ t ∈ toks, OneLine t) (hs : s.src = src) (hc : s.current ≤ src.length) (hl : s.line = lineAfter (src.take s.current))
    (hcol : s.startcol = colAfter (src.take s.current)) :
    s'.src = src ∧ s'.current ≤ src.length ∧ s'.line = lineAfter (src.take s'.current) ∧ s'.startcol = colAfter (src.take s'.current) := by
  generalize hi : toks.map Item.tok = its at h
  induction h generalizing toks with
  | nil => exact ⟨hs, hc, hl, hcol⟩
  | @cons s s1 s' it its hnx hr ht ih =>
    cases toks with
    | nil => cases hi
    | cons t toks =>
      simp only [List.map_cons, List.cons.injEq] at hi
      obtain ⟨rfl, hi⟩ := hi
      have ht1 := hn t (by simp)
      have ih := fun a b c d => ih (toks := toks) (fun t h => hn t (List.mem_cons_of_mem _ h)) a b c d hi
      cases next_spec hnx with
      | eof hl' _ => exact ih hs hc hl hcol
      | tag _ _ _ htag => exact absurd (by rcases htag.ty with h | h; exact .inl h.1; exact .inr h.1) ht1.1
      | plain _ _ hlt hp =>
        have hle := hp.le
        rw [hs] at hle
        have hsplit : src.take s1.current = src.take s.current ++ t.lexeme := by
          rw [hp.lex, hs, ← List.take_add]
          congr 1; have := hp.lt; omega
        apply ih (hp.src.trans hs) hle
        · rw [hsplit, lineAfter_append, ← hl]
          by_cases hty : t.ty = .newLineChar
          · obtain ⟨a, b, _⟩ := hp.nl hty
            rw [b, a]; rfl
          · obtain ⟨b, _⟩ := hp.notnl hty
            rw [b, List.count_eq_zero.2 (ht1.2.resolve_left hty)]; rfl
        · rw [hsplit]
          by_cases hty : t.ty = .newLineChar
          · obtain ⟨a, _, b⟩ := hp.nl hty
            rw [b, a, colAfter_newline]
          · obtain ⟨_, b⟩ := hp.notnl hty
            rw [b, colAfter_append (ht1.2.resolve_left hty), hcol]

/-- **C77**: every token of a scan without tags and without tokens that run over a line end stands where its line and
columns say. -/
theorem C77_tokens (src : Str) (toks : List Token) (t : Token) (rest : List Item) (h : scan src = toks.map .tok ++ .tok t :: rest)
    (hn : ∀ u ∈ toks ++ [t], OneLine u) : Stands src t := by
  obtain ⟨s', h1, h2⟩ := scan_trace h
  obtain ⟨p1, p2, p3, p4⟩ := trace_pos (src := src) h1 (fun t h => hn t (by simp [h])) rfl (by simp [Scanner.new, newWithStack]) rfl rfl
  obtain ⟨s2, h4⟩ := runF_head h2
  cases next_spec h4 with
  | eof hl _ =>
    right
    rw [List.take_of_length_le (by rw [p1] at hl; exact hl)] at p3
    exact ⟨rfl, p3, rfl, rfl⟩
  | tag _ _ _ htag => exact absurd (by rcases htag.ty with h | h; exact .inl h.1; exact .inr h.1) (hn t (by simp)).1
  | plain _ _ _ hp =>
    have hle := hp.le
    have hlt := hp.lt
    left
    refine ⟨src.take s'.current, src.drop s2.current, ?_, ?_, hp.line.trans p3, hp.startcol.trans p4, ?_, ?_⟩
    · rw [hp.lex, p1, ← List.take_add, show s'.current + (s2.current - s'.current) = s2.current by omega, List.take_append_drop]
    · intro he
      have := congrArg List.length hp.lex
      rw [he, take_length hle] at this
      simp at this; omega
    · have := hp.endcol; have := hp.startcol; omega
    · by_cases hty : t.ty = .newLineChar
      · exact .inr (hp.nl hty).1
      · exact .inl ((hn t (by simp)).2.resolve_left hty)

/-- The bytes of a token that stands are positions of the source. -/
theorem Stands.tok {src : Str} {t : Token} (h : Stands src t) : (sourcePlaces src).Tok t := by
  rcases h with ⟨pre, rest, hs, hne, hl, hc, he, hnl⟩ | ⟨_, hl, h0, h0'⟩
  · have hpos : 1 ≤ t.lexeme.length := List.length_pos_iff.2 hne
    refine ⟨.inl ?_, .inl ?_, by omega⟩
    · cases hx : t.lexeme with
      | nil => exact absurd hx hne
      | cons b bs => exact ⟨pre, b, bs ++ rest, by rw [hs, hx]; simp, hl, hc⟩
    · have hd := List.dropLast_concat_getLast hne
      have hnl : 10 ∉ t.lexeme.dropLast := by
        rcases hnl with hx | hx
        · exact fun hm => hx ((List.dropLast_sublist _).subset hm)
        · rw [hx]; simp
      refine ⟨pre ++ t.lexeme.dropLast, t.lexeme.getLast hne, rest, ?_, ?_, ?_⟩
      · conv => lhs; rw [hs, ← hd]
        simp
      · rw [lineAfter_append, List.count_eq_zero.2 hnl]; exact hl
      · rw [colAfter_append hnl, ← hc]
        simp; omega
  · exact ⟨.inr ⟨hl, h0⟩, .inr ⟨hl, h0'⟩, by omega⟩

/-! ## Documents -/

/-- The tokens of a scan. -/
def tokens (src : Str) : List Token := (scan src).filterMap Item.tok?

/-- The contents of the table cells of a source. -/
def cells (src : Str) : List Str := ((tokens src).filter (·.ty = .tableCell)).map (·.lexeme.drop 1)

/-- All tokens that are parsed: those of the source and those of its table cells. -/
def allTokens (src : Str) : List Token := tokens src ++ (cells src).flatMap tokens

/-- A source without includes, include tags, tokens that run over a line end, and cells in cells; and without attribute
entries or without attribute references. -/
structure Locatable (src : Str) : Prop where
  line : ∀ t ∈ allTokens src, OneLine t ∧ t.ty ≠ .include
  cell : ∀ t ∈ (cells src).flatMap tokens, t.ty ≠ .tableCell
  attr : (∀ t ∈ allTokens src, t.ty ≠ .attribute) ∨ (∀ t ∈ allTokens src, t.ty ≠ .attributeReference)

instance (src : Str) : Decidable (Locatable src) :=
  if h : (∀ t ∈ allTokens src, OneLine t ∧ t.ty ≠ .include) ∧ (∀ t ∈ (cells src).flatMap tokens, t.ty ≠ .tableCell) ∧
      ((∀ t ∈ allTokens src, t.ty ≠ .attribute) ∨ (∀ t ∈ allTokens src, t.ty ≠ .attributeReference))
  then isTrue ⟨h.1, h.2.1, h.2.2⟩ else isFalse fun ⟨a, b, c⟩ => h ⟨a, b, c⟩

theorem mem_tokens {src : Str} {t : Token} : t ∈ tokens src ↔ .tok t ∈ scan src := by
  unfold tokens
  rw [List.mem_filterMap]
  constructor
  · rintro ⟨x, hx, h⟩
    cases x <;> simp only [Item.tok?, reduceCtorEq, Option.some.injEq] at h
    exact h ▸ hx
  · exact fun h => ⟨_, h, rfl⟩

theorem split_mem {src : Str} {pre : List Token} {t : Token} {rest : List Item} (h : scan src = pre.map .tok ++ .tok t :: rest) :
    ∀ u ∈ pre ++ [t], u ∈ tokens src := by
  intro u hu
  rw [mem_tokens, h]
  rcases List.mem_append.1 hu with hu | hu
  · exact List.mem_append_left _ (List.mem_map_of_mem hu)
  · simp at hu; subst hu; simp

/-- A token of the source, or of a table cell moved to the place of the cell. -/
def Parsed (src : Str) (t : Token) : Prop :=
  (∃ (pre : List Token) (rest : List Item), scan src = pre.map .tok ++ .tok t :: rest) ∨
  ∃ c, (∃ (pre : List Token) (rest : List Item), scan src = pre.map .tok ++ .tok c :: rest) ∧ c.ty = .tableCell ∧
    ∃ (pre : List Token) (u : Token) (rest : List Item), scan (c.lexeme.drop 1) = pre.map .tok ++ .tok u :: rest ∧ u.offsetBy c.line c.startcol = .ok t

theorem Parsed.all {src : Str} {t : Token} (h : Parsed src t) : ∃ u ∈ allTokens src, u.ty = t.ty := by
  rcases h with ⟨pre, rest, h⟩ | ⟨c, ⟨pre', rest', h'⟩, hty, pre, u, rest, h, ho⟩
  · exact ⟨t, List.mem_append_left _ (split_mem h t (by simp)), rfl⟩
  · refine ⟨u, List.mem_append_right _ (List.mem_flatMap.2 ⟨_, ?_, split_mem h u (by simp)⟩), ?_⟩
    · exact List.mem_map.2 ⟨c, List.mem_filter.2 ⟨split_mem h' c (by simp), by simpa using hty⟩, rfl⟩
    · unfold Token.offsetBy at ho
      split at ho <;> cases ho
      rfl

theorem cell_mem {src : Str} {c : Token} (h : c ∈ tokens src) (hty : c.ty = .tableCell) : c.lexeme.drop 1 ∈ cells src :=
  List.mem_map.2 ⟨c, List.mem_filter.2 ⟨h, by simpa using hty⟩, rfl⟩

theorem count_take {l : Str} (h : 10 ∉ l) : lineAfter l = 1 := by simp [lineAfter, List.count_eq_zero.2 h]

theorem Parsed.stands {src : Str} (hs : Locatable src) {t : Token} (h : Parsed src t) : (sourcePlaces src).Tok t := by
  rcases h with ⟨pre, rest, h⟩ | ⟨c, ⟨pre', rest', h'⟩, hty, pre, u, rest, h, ho⟩
  · exact (C77_tokens src pre t rest h fun u hu => (hs.line u (List.mem_append_left _ (split_mem h u hu))).1).tok
  · have hc := C77_tokens src pre' c rest' h' fun u hu => (hs.line u (List.mem_append_left _ (split_mem h' u hu))).1
    have hu := C77_tokens _ pre u rest h fun u hu =>
      (hs.line u (List.mem_append_right _ (List.mem_flatMap.2 ⟨_, cell_mem (split_mem h' c (by simp)) hty, split_mem h u hu⟩))).1
    unfold Token.offsetBy at ho
    split at ho <;> cases ho
    rename_i hline
    rcases hc with ⟨cpre, crest, hsrc, hne, hl, hcol, hend, hnl⟩ | ⟨he, _⟩
    · have hnl : 10 ∉ c.lexeme := by
        have := (hs.line c (List.mem_append_left _ (split_mem h' c (by simp)))).1.2
        rw [hty] at this
        simpa using this
      cases hx : c.lexeme with
      | nil => exact absurd hx hne
      | cons b bs =>
        rw [hx] at hsrc hnl hu
        simp only [List.drop_succ_cons, List.drop_zero] at hu
        have hb : b ≠ 10 := fun he => hnl (by simp [he])
        have hbs : 10 ∉ bs := fun he => hnl (by simp [he])
        rcases hu with ⟨upre, urest, husrc, hune, hul, hucol, huend, hunl⟩ | ⟨_, hul, hu0, hu1⟩
        · refine Stands.tok (.inl ⟨cpre ++ b :: upre, urest ++ crest, ?_, hune, ?_, ?_, ?_, hunl⟩)
          · rw [hsrc, husrc]; simp
          · have hup : 10 ∉ upre := fun he => hbs (by rw [husrc]; simp [he])
            dsimp only
            rw [lineAfter_append, hul, hl, count_take hup, List.count_eq_zero.2 (by simp [hup, hb.symm])]
            simp [lineAfter]
          · have hup : 10 ∉ upre := fun he => hbs (by rw [husrc]; simp [he])
            dsimp only
            rw [colAfter_append (by simp [hup, hb.symm]), hucol, hcol, show upre = [] ++ upre from rfl, colAfter_append hup]
            simp [colAfter]; omega
          · dsimp only; omega
        · have hl' : u.line + (c.line - 1) = lineAfter cpre := by
            rw [hul, count_take hbs, hl]
            simp [lineAfter]
          refine ⟨.inl ⟨cpre, b, bs ++ crest, by rw [hsrc]; simp, hl', ?_⟩, .inl ⟨cpre, b, bs ++ crest, by rw [hsrc]; simp, hl', ?_⟩, ?_⟩
          · dsimp only; omega
          · dsimp only; omega
          · dsimp only; omega
    · rw [hty] at he; cases he

/-- **C77** (partial: see `Locatable`): every node of a parsed document, at any depth, has a location; its begin and its end are the
line and column of bytes of the source (or of the end of the input), and it does not end before it begins. -/
theorem C77_locations_partial (src : Str) (hne : src ≠ []) (hs : Locatable src) (w : World) (fuel : Nat) {p q : Parser}
    (hp : p = Parser.new ∨ p = Parser.newNoTargets) (h : Parser.parse w fuel (scan src) p = .ok q) : (sourcePlaces src).Graph q.asg := by
  refine Places.parse_places (P := sourcePlaces src) (T := Parsed src) (w := w) ⟨?_, fun t ht => ht.stands hs, ?_, ?_, ?_⟩
    (fun pre t rest h => .inl ⟨pre, rest, h⟩) hp h
  · cases src with
    | nil => exact absurd rfl hne
    | cons b bs => exact .inl ⟨[], b, bs, rfl, rfl, rfl⟩
  · refine hs.attr.imp ?_ ?_ <;>
    · intro ha t ht hty
      obtain ⟨u, hu, h⟩ := ht.all
      exact ha u hu (h.trans hty)
  · rintro t s pre u rest v (⟨pre', rest', h'⟩ | ⟨c, ⟨pre', rest', h'⟩, hcty, pre', u', rest', hh, ho⟩) hty hsl hsc hv
    · refine .inr ⟨t, ⟨pre', rest', h'⟩, hty, pre, u, rest, ?_, hv⟩
      have htext := C11_text src t (mem_tokens.1 (split_mem h' t (by simp)))
      rw [hty] at htext
      rw [show t.text = t.lexeme from htext] at hsl
      unfold sliceM slice at hsl
      split at hsl <;> cases hsl
      rename_i hx
      split at hx <;> cases hx
      rw [List.take_of_length_le (by simp)] at hsc
      exact hsc
    · have := hs.cell u' (List.mem_flatMap.2 ⟨_, cell_mem (split_mem h' c (by simp)) hcty, split_mem hh u' (by simp)⟩)
      unfold Token.offsetBy at ho
      split at ho <;> cases ho
      exact absurd hty this
  · intro t path s fs u ht hty _ _
    obtain ⟨x, hx, h⟩ := ht.all
    exact absurd (h.trans hty) (hs.line x hx).2

/-- Text and location of the literals of the first block. -/
def firstTexts (g : Asg) : List (Str × List (Nat × Nat)) :=
  match g.blocks with
  | .leaf _ _ _ is _ _ :: _ => is.filterMap fun
    | .lit _ v l => some (v, l.map fun a => (a.line, a.col))
    | _ => none
  | _ => []

-- a document with a header, a section, inline markup, an undefined attribute, a listing and a table
example : Locatable b!"= T *b*\n\n== S\n\na _b_ {x} c\n\n----\ncode | d\n----\n\n|===\n|x *y* |z\n|===\n" := by decide +kernel
example : returns ((parseText emptyWorld 5 b!"a *b* c\nd {x} e\n").map firstTexts)
    [(b!"a ", [(1, 1), (1, 2)]), (b!" c\nd {x} e", [(1, 6), (2, 7)])] = true := by decide +kernel

/-! ## Where it fails -/

/-- **C77**, the end of the input: text of a listing that is not closed ends in column 0. -/
theorem C77_end_of_input : returns ((parseText emptyWorld 5 b!"----\na\n").map firstTexts)
    [(b!"\na\n", [(1, 5), (3, 0)])] = true := by decide +kernel

/-- **C77** is false with attribute references: the end is computed from the length of the value, line 3 has three bytes. -/
theorem C77_attribute_reference : returns ((parseText emptyWorld 5 b!":a: abcdef\n\n{a}\n").map firstTexts)
    [(b!"abcdef", [(3, 1), (3, 6)])] = true := by decide +kernel

/-- **C77** is false with attribute references: if the value is empty, the text ends before it begins. -/
theorem C77_empty_attribute : returns ((parseText emptyWorld 5 b!":a:\n\n{a}\n").map firstTexts)
    [([], [(3, 1), (3, 0)])] = true := by decide +kernel

/-- **C77** is false with a hyperlink that runs over a line end: `b` is on line 3. -/
theorem C77_spanning_token : returns ((parseText emptyWorld 5 b!"http://a\nx[y] y\nb").map firstTexts)
    [(b!" y\nb", [(1, 14), (2, 1)])] = true := by decide +kernel

end Adoc.Props
