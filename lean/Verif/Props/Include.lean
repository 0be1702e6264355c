import Verif.Props.Attributes
import Verif.Props.ScannerText
/-!
# Properties of include directives: C25 and C27

`included` says what it means that a list of tokens is what an include contributes: these tokens, and no others, are
handed to the parser one by one.
-/
namespace Adoc.Props
open Adoc Parser

/-- Exactly these tokens are processed as the content of an included file. -/
def included (f : Token → Parser → M Parser) (asciidoc : Bool) : List Token → Parser → M Parser
  | [], p => .ok p
  | t :: ts, p => includeToken f asciidoc t p >>= included f asciidoc ts

/-- The end of an include: pending text becomes a block, the blocks opened in the file are closed, and the file is
left. `len` is the number of blocks that were open before. -/
def leaveFile (len : Nat) (p : Parser) : M Parser := do
  let p ← p.addInlines
  let p ← drain len p.blocks.length p
  return { p with files := p.files.dropLast }

/-! ## C25 -/

/-- Without a selection every token of the file is processed. -/
theorem C25_everything (f : Token → Parser → M Parser) (asciidoc toEnd : Bool) (toks : List Token) (cur : Option Str)
    (p : Parser) : includeLoop f asciidoc toEnd [] (toks.map .tok) [] cur p = included f asciidoc toks p := by
  induction toks generalizing p with
  | nil => rfl
  | cons t toks ih =>
    simp only [List.map_cons, includeLoop, lineFilter, List.isEmpty_nil, if_true, tagFilter, included, bind,
      Except.bind]
    split
    · rfl
    · exact ih _

/-- **C25** (closed selection), for any tags: the include behaves as if the file had only the tokens on the selected
lines. -/
theorem C25_lines (f : Token → Parser → M Parser) (asciidoc : Bool) (tags : List Str) (toks : List Token)
    (lines : List Int) (hl : lines ≠ []) (cur : Option Str) (p : Parser) :
    includeLoop f asciidoc false tags (toks.map .tok) lines cur p
      = includeLoop f asciidoc false tags ((toks.filter fun t => (t.line : Int) ∈ lines).map .tok) [] cur p := by
  have hne : lines.isEmpty = false := by cases lines <;> simp_all
  induction toks generalizing p cur with
  | nil => rfl
  | cons t toks ih =>
    by_cases h : (t.line : Int) ∈ lines
    · rw [List.filter_cons_of_pos (by simpa using h)]
      simp only [List.map_cons, includeLoop, lineFilter, hne, Bool.false_eq_true, if_false, List.contains_iff_mem.2 h,
        Bool.not_true, Bool.false_and, List.isEmpty_nil, if_true, bind, Except.bind]
      split
      · rfl
      · split
        · rfl
        · exact ih _ _
    · rw [List.filter_cons_of_neg (by simpa using h)]
      have hc : lines.contains (t.line : Int) = false := by simpa using h
      simp only [List.map_cons, includeLoop, lineFilter, hne, Bool.false_eq_true, if_false, hc, Bool.not_false, if_true]
      exact ih _ _

/-- Once the line set is empty no token is skipped for its line. -/
private theorem loop_toEnd (f : Token → Parser → M Parser) (asciidoc a b : Bool) (tags : List Str) (items : List Item)
    (cur : Option Str) (p : Parser) :
    includeLoop f asciidoc a tags items [] cur p = includeLoop f asciidoc b tags items [] cur p := by
  induction items generalizing p cur with
  | nil => rfl
  | cons i items ih =>
    cases i with
    | tok t =>
      simp only [includeLoop, lineFilter, List.isEmpty_nil, if_true, bind, Except.bind]
      split
      · rfl
      · split
        · rfl
        · exact ih _ _
    | _ => rfl

/-- **C25** (open-ended selection), for any tags: the tokens on the listed lines, and all tokens from the last listed
line on. The file has a token on that line (if it is that long), and tokens come in line order. -/
theorem C25_open (f : Token → Parser → M Parser) (asciidoc : Bool) (tags : List Str) (toks : List Token)
    (lines : List Int) (last : Int) (hl : lines.getLast? = some last) (cur : Option Str) (p : Parser)
    (hord : toks.Pairwise (fun t u => t.line ≤ u.line))
    (hbound : ∀ t ∈ toks, last < (t.line : Int) → ∃ u ∈ toks, (u.line : Int) = last) :
    includeLoop f asciidoc true tags (toks.map .tok) lines cur p
      = includeLoop f asciidoc false tags
          ((toks.filter fun t => (t.line : Int) ∈ lines ∨ last ≤ (t.line : Int)).map .tok) [] cur p := by
  have hne : lines.isEmpty = false := by cases lines <;> simp_all
  induction toks generalizing p cur with
  | nil => rfl
  | cons t toks ih =>
    by_cases hlast : last ≤ (t.line : Int)
    · -- the first token from the bound on is on the bound itself
      have heq : (t.line : Int) = last := by
        by_cases hlt : last < (t.line : Int)
        · obtain ⟨u, hu, hul⟩ := hbound t (by simp) hlt
          rcases List.mem_cons.1 hu with rfl | hu
          · exact hul
          · have := (List.pairwise_cons.1 hord).1 u hu
            omega
        · omega
      have hmem : (t.line : Int) ∈ lines := by
        rw [heq]; exact List.mem_of_getLast? hl
      have hall : ∀ u ∈ toks, decide ((u.line : Int) ∈ lines ∨ last ≤ (u.line : Int)) = true := by
        intro u hu
        have := (List.pairwise_cons.1 hord).1 u hu
        simp only [decide_eq_true_eq]
        exact .inr (by omega)
      rw [List.filter_cons_of_pos (by simpa using .inl hmem), List.filter_eq_self.2 hall]
      simp only [List.map_cons, includeLoop, lineFilter, hne, Bool.false_eq_true, if_false, List.contains_iff_mem.2 hmem,
        Bool.not_true, hl, hlast, decide_true, Bool.and_true, List.isEmpty_nil, if_true, bind, Except.bind]
      split
      · rfl
      · split
        · rfl
        · exact loop_toEnd ..
    · have hord' := (List.pairwise_cons.1 hord).2
      have hb' : ∀ t' ∈ toks, last < (t'.line : Int) → ∃ u ∈ toks, (u.line : Int) = last := by
        intro t' ht' hlt
        obtain ⟨u, hu, hul⟩ := hbound t' (by simp [ht']) hlt
        rcases List.mem_cons.1 hu with rfl | hu
        · omega
        · exact ⟨u, hu, hul⟩
      by_cases h : (t.line : Int) ∈ lines
      · rw [List.filter_cons_of_pos (by simpa using .inl h)]
        simp only [List.map_cons, includeLoop, lineFilter, hne, Bool.false_eq_true, if_false, List.contains_iff_mem.2 h,
          Bool.not_true, hl, hlast, decide_false, Bool.and_false, List.isEmpty_nil, if_true, bind, Except.bind]
        split
        · rfl
        · split
          · rfl
          · exact ih _ _ hord' hb'
      · rw [List.filter_cons_of_neg (by simp [h]; omega)]
        have hc : lines.contains (t.line : Int) = false := by simpa using h
        simp only [List.map_cons, includeLoop, lineFilter, hne, Bool.false_eq_true, if_false, hc, Bool.not_false, if_true]
        exact ih _ _ hord' hb'

/-- The part of an include directive that is common to all selections: the directive names a readable file, whose
scan is `toks`. -/
structure Opens (w : World) (p : Parser) (t : Token) (target : Str) (m : Option Meta) (toks : List Token) : Prop where
  attrs : targetAndAttrs t = .ok (target, m)
  file : ∃ path src, w.resolve p.files target = some path ∧ w.read path = some src
    ∧ (Scanner.newWithStack src (p.files ++ [target])).run = toks.map .tok

/-- **C25, partial**, for the directive `include::target[lines=…]`: what is processed are the tokens of the file that are on the
selected lines. -/
theorem C25_directive_partial (w : World) (f : Token → Parser → M Parser) (p : Parser) (t : Token) (target value : Str)
    (m : Meta) (toks : List Token) (lines : List Int) (ho : Opens w p t target (some m) toks)
    (hoff : m.attributes.get? b!"leveloffset" = none) (htag : m.attributes.get? b!"tag" = none)
    (htags : m.attributes.get? b!"tags" = none) (hlines : m.attributes.get? b!"lines" = some value)
    (hr : pageRanges value = .ok lines) (hne : lines ≠ []) (hcl : lines.getLast? ≠ some (-1)) :
    parseInclude w f p t
      = (included f (isAsciidoc target) (toks.filter fun t => (t.line : Int) ∈ lines)
          { p with files := p.files ++ [target] } >>= leaveFile p.blocks.length) := by
  obtain ⟨path, src, h1, h2, h3⟩ := ho.file
  unfold parseInclude
  rw [ho.attrs]
  simp only [bind, Except.bind, selection, hoff, htag, htags, hlines, selectLines, hr, hcl, if_false, pure,
    Except.pure, h1, h2, h3, List.append_nil]
  rw [C25_lines _ _ _ _ _ hne, C25_everything]
  rfl

/-- **C25, partial**, for an open-ended selection. -/
theorem C25_directive_open_partial (w : World) (f : Token → Parser → M Parser) (p : Parser) (t : Token) (target value : Str)
    (m : Meta) (toks : List Token) (lines : List Int) (last : Int) (ho : Opens w p t target (some m) toks)
    (hoff : m.attributes.get? b!"leveloffset" = none) (htag : m.attributes.get? b!"tag" = none)
    (htags : m.attributes.get? b!"tags" = none) (hlines : m.attributes.get? b!"lines" = some value)
    (hr : pageRanges value = .ok (lines ++ [last, -1])) (hord : toks.Pairwise (fun t u => t.line ≤ u.line))
    (hbound : ∀ t ∈ toks, last < (t.line : Int) → ∃ u ∈ toks, (u.line : Int) = last) :
    parseInclude w f p t
      = (included f (isAsciidoc target)
          (toks.filter fun t => (t.line : Int) ∈ lines ∨ last ≤ (t.line : Int))
          { p with files := p.files ++ [target] } >>= leaveFile p.blocks.length) := by
  obtain ⟨path, src, h1, h2, h3⟩ := ho.file
  have hl1 : (lines ++ [last, -1]).getLast? = some (-1) := by simp
  have hl2 : (lines ++ [last, -1]).dropLast = lines ++ [last] := by
    rw [show lines ++ [last, -1] = (lines ++ [last]) ++ [-1] by simp, List.dropLast_concat]
  have hfil : (toks.filter fun t => (t.line : Int) ∈ lines ++ [last] ∨ last ≤ (t.line : Int))
      = toks.filter fun t => (t.line : Int) ∈ lines ∨ last ≤ (t.line : Int) := by
    apply List.filter_congr
    intro t _
    simp only [List.mem_append, List.mem_singleton, decide_eq_decide]
    constructor
    · rintro ((h | h) | h)
      · exact .inl h
      · exact .inr (by omega)
      · exact .inr h
    · rintro (h | h)
      · exact .inl (.inl h)
      · exact .inr h
  unfold parseInclude
  rw [ho.attrs]
  simp only [bind, Except.bind, selection, hoff, htag, htags, hlines, selectLines, hr, hl1, hl2, if_true, pure,
    Except.pure, h1, h2, h3, List.append_nil]
  rw [C25_open _ _ _ _ _ last (by simp) _ _ hord hbound, C25_everything, hfil]
  rfl

/-- The tokens of a run come in the order of their lines, and no line before the last one is left out. -/
theorem run_lines (n : Nat) : ∀ (s : Scanner) (toks : List Token), Scanner.runF n s = toks.map .tok →
    toks.Pairwise (fun t u => t.line ≤ u.line) ∧ (∀ t ∈ toks, s.line ≤ t.line)
      ∧ ∀ l, s.line ≤ l → (∃ t ∈ toks, l < t.line) → ∃ u ∈ toks, u.line = l := by
  induction n with
  | zero =>
    intro s toks h
    cases toks with
    | nil => exact ⟨.nil, by simp, by simp⟩
    | cons t toks => cases h
  | succ n ih =>
    intro s toks h
    cases toks with
    | nil => exact ⟨.nil, by simp, by simp⟩
    | cons t toks =>
      rw [Scanner.runF_succ] at h
      cases hn : s.next with
      | none => rw [hn] at h; cases h
      | some x =>
        obtain ⟨it, s'⟩ := x
        rw [hn] at h
        simp only [List.map_cons, List.cons.injEq] at h
        obtain ⟨rfl, h⟩ := h
        simp only [Item.returned, if_true] at h
        obtain ⟨h1, h2, h3⟩ := ih s' toks h
        have hline := next_tok_line hn
        have hstep : s.line ≤ s'.line ∧ s'.line ≤ s.line + 1 := by
          cases Scanner.next_spec hn with
          | eof => exact ⟨Nat.le_refl _, Nat.le_succ _⟩
          | plain _ _ _ hp =>
            by_cases hty : t.ty = .newLineChar
            · have := (hp.nl hty).2.1; omega
            · have := (hp.notnl hty).1; omega
          | tag _ _ _ ht => have := ht.line'; omega
        refine ⟨List.pairwise_cons.2 ⟨fun u hu => ?_, h1⟩, fun u hu => ?_, fun l hl ⟨u, hu, hlt⟩ => ?_⟩
        · have := h2 u hu; omega
        · rcases List.mem_cons.1 hu with rfl | hu
          · omega
          · have := h2 u hu; omega
        · by_cases he : l = s.line
          · exact ⟨t, by simp, by omega⟩
          · rcases List.mem_cons.1 hu with rfl | hu
            · omega
            · obtain ⟨v, hv, hv'⟩ := h3 l (by omega) ⟨u, hu, hlt⟩
              exact ⟨v, by simp [hv], hv'⟩

/-- **C25, partial**, for an open-ended selection and every file: what is processed are the tokens on the selected lines and all from
the last bound on. -/
theorem C25_file_open_partial (w : World) (f : Token → Parser → M Parser) (p : Parser) (t : Token) (target value : Str)
    (m : Meta) (toks : List Token) (lines : List Int) (last : Int) (ho : Opens w p t target (some m) toks)
    (hoff : m.attributes.get? b!"leveloffset" = none) (htag : m.attributes.get? b!"tag" = none)
    (htags : m.attributes.get? b!"tags" = none) (hlines : m.attributes.get? b!"lines" = some value)
    (hr : pageRanges value = .ok (lines ++ [last, -1])) (hlast : 0 < last) :
    parseInclude w f p t
      = (included f (isAsciidoc target)
          (toks.filter fun t => (t.line : Int) ∈ lines ∨ last ≤ (t.line : Int))
          { p with files := p.files ++ [target] } >>= leaveFile p.blocks.length) := by
  obtain ⟨path, src, _, _, h3⟩ := ho.file
  obtain ⟨h4, _, h5⟩ := run_lines _ _ _ h3
  refine C25_directive_open_partial w f p t target value m toks lines last ho hoff htag htags hlines hr h4 fun u hu hlt => ?_
  obtain ⟨v, hv, hv'⟩ := h5 last.toNat (by simp only [Scanner.newWithStack]; omega) ⟨u, hu, by omega⟩
  exact ⟨v, hv, by omega⟩

/-- A file system with one file of the given content. -/
def withFile (content : Str) : World := ⟨fun _ t => if t = b!"a.adoc" then some t else none, fun _ => some content⟩

example : returns ((parseText (withFile b!"one\n\ntwo\n\nthree\n") 5 b!"include::a.adoc[lines=3]\n").map Asg.allText)
    b!"two" = true := by decide +kernel
example : returns ((parseText (withFile b!"one\n\ntwo\n\nthree\n") 5 b!"include::a.adoc[lines=3..]\n").map Asg.allText)
    b!"twothree" = true := by decide +kernel

private theorem of_returns {α : Type} [DecidableEq α] {x : M α} {v : α} (h : returns x v = true) : x = .ok v := by
  unfold returns at h
  split at h
  · rw [of_decide_eq_true h]
  · cases h

/-- The hypotheses of `C25_directive_open_partial` hold of a concrete directive and file. -/
example : Opens (withFile b!"one\n\ntwo\n") Parser.new
      ⟨.include, b!"include::a.adoc[lines=1;3..]", some b!"include::a.adoc[lines=1;3..]", 1, 1, 28, []⟩ b!"a.adoc"
      (some { attributes := [(b!"lines", b!"1;3..")], inlineMeta := true : Meta })
      [⟨.text, b!"on", some b!"on", 1, 1, 2, [b!"a.adoc"]⟩, ⟨.text, b!"e", some b!"e", 1, 3, 3, [b!"a.adoc"]⟩,
       ⟨.newLineChar, b!"\n", none, 1, 4, 4, [b!"a.adoc"]⟩, ⟨.newLineChar, b!"\n", none, 2, 1, 1, [b!"a.adoc"]⟩,
       ⟨.text, b!"two", some b!"two", 3, 1, 3, [b!"a.adoc"]⟩, ⟨.newLineChar, b!"\n", none, 3, 4, 4, [b!"a.adoc"]⟩,
       ⟨.eof, [], none, 4, 0, 0, [b!"a.adoc"]⟩]
    ∧ pageRanges b!"1;3.." = .ok ([1] ++ [3, -1]) :=
  ⟨⟨of_returns (by decide +kernel), _, _, rfl, rfl, by decide +kernel⟩, of_returns (by decide +kernel)⟩

/-- **C25** is false for a selection that is empty: it selects every line. -/
theorem C25_empty_selects_all :
    returns (pageRanges b!"3..1") [] = true ∧
    returns ((parseText (withFile b!"one\n\ntwo\n") 5 b!"include::a.adoc[lines=3..1]\n").map Asg.allText) b!"onetwo" = true :=
  ⟨by decide +kernel, by decide +kernel⟩

/-- **C25** is false for an open-ended selection from line 0: it selects nothing. -/
theorem C25_from_zero :
    returns (pageRanges b!"0..") [0, -1] = true ∧
    returns ((parseText (withFile b!"one\n\ntwo\n") 5 b!"include::a.adoc[lines=0..]\n").map Asg.allText) b!"" = true :=
  ⟨by decide +kernel, by decide +kernel⟩

/-! ## C27 -/

/-- An opening include tag with the given name. -/
def Token.opens (t : Token) (g : Str) : Prop := t.ty = .startTag ∧ t.lexeme = b!"tag::" ++ g ++ b!"[]"
/-- A closing include tag with the given name. -/
def Token.closes (t : Token) (g : Str) : Prop := t.ty = .endTag ∧ t.lexeme = b!"end::" ++ g ++ b!"[]"

/-- A tag token is one of the two, with a name that is text. -/
def TagShape (t : Token) : Prop :=
  t.ty = .startTag ∨ t.ty = .endTag → ∃ g, Starts g ∧ (Token.opens t g ∨ Token.closes t g)

/-- A piece of a tagged file: text before a region, the tags of the region, and its content. -/
structure Region where
  before : List Token
  start : Token
  name : Str
  inner : List Token
  stop : Token

/-- A region selected by `tags`: no selected tag is opened before it or in it, and it ends at its first closing tag. -/
structure Region.Selected (tags : List Str) (r : Region) : Prop where
  chosen : r.name ∈ tags
  text : Starts r.name
  opens : Token.opens r.start r.name
  closes : Token.closes r.stop r.name
  beforeShape : ∀ t ∈ r.before, TagShape t
  beforeOut : ∀ t ∈ r.before, ∀ g ∈ tags, ¬ Token.opens t g
  innerShape : ∀ t ∈ r.inner, TagShape t
  innerIn : ∀ t ∈ r.inner, ¬ Token.closes t r.name ∧ ∀ g ∈ tags, ¬ Token.opens t g

/-- All tokens of a region, in order. -/
def Region.tokens (r : Region) : List Token := r.before ++ r.start :: r.inner ++ [r.stop]

private theorem tag_name (t : Token) (g : Str) (hs : Starts g) (h : Token.opens t g ∨ Token.closes t g) :
    t.tag = .ok (some g) := by
  have key : ∀ pre : Str, pre.length = 5 → sliceM (pre ++ g ++ b!"[]") 5 ((pre ++ g ++ b!"[]").length - 2) = .ok g := by
    intro pre hp
    rw [List.append_assoc]
    refine sliceM_mid pre g b!"[]" ?_ ?_ _ _ hp.symm ?_
    · intro b hb
      cases g with
      | nil => simp at hb; subst hb; decide
      | cons x g => exact hs b (by simpa using hb)
    · intro b hb; simp at hb; subst hb; decide
    · simp; omega
  unfold Token.tag
  rcases h with ⟨ht, hl⟩ | ⟨ht, hl⟩ <;> rw [ht, hl] <;> simp only [bind, Except.bind]
  · rw [key b!"tag::" rfl]; rfl
  · rw [key b!"end::" rfl]; rfl

private theorem tags_isEmpty {tags : List Str} {g : Str} (h : g ∈ tags) : tags.isEmpty = false := by
  cases tags <;> simp_all

/-- Outside the selected regions a token is skipped. -/
private theorem filter_out (tags : List Str) (hne : tags.isEmpty = false) (t : Token) (hs : TagShape t)
    (ho : ∀ g ∈ tags, ¬ Token.opens t g) : tagFilter tags none t = .ok (none, false) := by
  unfold tagFilter
  rw [hne]
  simp only [Bool.false_eq_true, if_false]
  split
  · rename_i ht
    obtain ⟨g, hg, h⟩ := hs (.inl ht)
    rw [tag_name t g hg h]
    rcases h with h | h
    · have : g ∉ tags := fun hm => ho g hm h
      simp [bind, Except.bind, pure, Except.pure, this]
    · rw [h.1] at ht; cases ht
  · split
    · rename_i ht
      obtain ⟨g, hg, h⟩ := hs (.inr ht)
      rw [tag_name t g hg h]
      simp [bind, Except.bind, pure, Except.pure]
    · rfl

/-- Inside a selected region a token is kept. -/
private theorem filter_in (tags : List Str) (hne : tags.isEmpty = false) (name : Str) (t : Token) (hs : TagShape t)
    (hc : ¬ Token.closes t name) (ho : ∀ g ∈ tags, ¬ Token.opens t g) :
    tagFilter tags (some name) t = .ok (some name, true) := by
  unfold tagFilter
  rw [hne]
  simp only [Bool.false_eq_true, if_false]
  split
  · rename_i ht
    obtain ⟨g, hg, h⟩ := hs (.inl ht)
    rw [tag_name t g hg h]
    rcases h with h | h
    · have : g ∉ tags := fun hm => ho g hm h
      simp [bind, Except.bind, pure, Except.pure, this]
    · rw [h.1] at ht; cases ht
  · split
    · rename_i ht
      obtain ⟨g, hg, h⟩ := hs (.inr ht)
      rw [tag_name t g hg h]
      rcases h with h | h
      · rw [h.1] at ht; cases ht
      · have : name ≠ g := fun e => hc (e ▸ h)
        simp [bind, Except.bind, pure, Except.pure, this]
    · rfl

section
variable (f : Token → Parser → M Parser) (asciidoc toEnd : Bool) (tags : List Str) (hne : tags.isEmpty = false)
include hne

private theorem loop_out (xs : List Token) (rest : List Item) (p : Parser) (hs : ∀ t ∈ xs, TagShape t)
    (ho : ∀ t ∈ xs, ∀ g ∈ tags, ¬ Token.opens t g) :
    includeLoop f asciidoc toEnd tags (xs.map .tok ++ rest) [] none p = includeLoop f asciidoc toEnd tags rest [] none p := by
  induction xs with
  | nil => rfl
  | cons t xs ih =>
    simp only [List.map_cons, List.cons_append, includeLoop, lineFilter, List.isEmpty_nil, if_true,
      filter_out tags hne t (hs t (by simp)) (ho t (by simp)), bind, Except.bind, Bool.false_eq_true, if_false]
    exact ih (fun t h => hs t (by simp [h])) (fun t h => ho t (by simp [h]))

private theorem loop_in (name : Str) (xs : List Token) (rest : List Item) (p : Parser) (hs : ∀ t ∈ xs, TagShape t)
    (hi : ∀ t ∈ xs, ¬ Token.closes t name ∧ ∀ g ∈ tags, ¬ Token.opens t g) :
    includeLoop f asciidoc toEnd tags (xs.map .tok ++ rest) [] (some name) p
      = (included f asciidoc xs p >>= includeLoop f asciidoc toEnd tags rest [] (some name)) := by
  induction xs generalizing p with
  | nil => rfl
  | cons t xs ih =>
    simp only [List.map_cons, List.cons_append, includeLoop, lineFilter, List.isEmpty_nil, if_true,
      filter_in tags hne name t (hs t (by simp)) (hi t (by simp)).1 (hi t (by simp)).2, bind, Except.bind, included]
    split
    · rfl
    · exact ih _ (fun t h => hs t (by simp [h])) (fun t h => hi t (by simp [h]))

end

private theorem loop_start (f : Token → Parser → M Parser) (asciidoc toEnd : Bool) (tags : List Str) (t : Token)
    (name : Str) (hm : name ∈ tags) (hs : Starts name) (ho : Token.opens t name) (rest : List Item) (cur : Option Str)
    (p : Parser) :
    includeLoop f asciidoc toEnd tags (.tok t :: rest) [] cur p
      = includeLoop f asciidoc toEnd tags rest [] (some name) p := by
  simp only [includeLoop, lineFilter, List.isEmpty_nil, if_true, tagFilter, tags_isEmpty hm, Bool.false_eq_true,
    if_false, ho.1, tag_name t name hs (.inl ho), bind, Except.bind, pure, Except.pure, List.contains_iff_mem.2 hm]

private theorem loop_stop (f : Token → Parser → M Parser) (asciidoc toEnd : Bool) (tags : List Str) (t : Token)
    (name : Str) (hm : name ∈ tags) (hs : Starts name) (ho : Token.closes t name) (rest : List Item) (p : Parser) :
    includeLoop f asciidoc toEnd tags (.tok t :: rest) [] (some name) p
      = includeLoop f asciidoc toEnd tags rest [] none p := by
  simp only [includeLoop, lineFilter, List.isEmpty_nil, if_true, tagFilter, tags_isEmpty hm, Bool.false_eq_true,
    if_false, ho.1, tag_name t name hs (.inr ho), bind, Except.bind, pure, Except.pure, reduceCtorEq]

private theorem included_append (f : Token → Parser → M Parser) (asciidoc : Bool) (xs ys : List Token) (p : Parser) :
    included f asciidoc (xs ++ ys) p = (included f asciidoc xs p >>= included f asciidoc ys) := by
  induction xs generalizing p with
  | nil => rfl
  | cons t xs ih =>
    simp only [List.cons_append, included, bind, Except.bind]
    split
    · rfl
    · exact ih _

/-- **C27, partial.** A file that consists of selected regions, with any other tokens between and after them: exactly
the tokens in the regions are processed. Tags that are not selected may be opened and closed anywhere.

Missing from the full statement: a selected region inside another selected region; for these the claim is false, see
`C27_nested`. -/
theorem C27_regions_partial (f : Token → Parser → M Parser) (asciidoc toEnd : Bool) (tags : List Str) (ht : tags ≠ [])
    (rs : List Region) (hr : ∀ r ∈ rs, r.Selected tags) (after : List Token) (hs : ∀ t ∈ after, TagShape t)
    (ho : ∀ t ∈ after, ∀ g ∈ tags, ¬ Token.opens t g) (p : Parser) :
    includeLoop f asciidoc toEnd tags ((rs.flatMap Region.tokens ++ after).map .tok) [] none p
      = included f asciidoc (rs.flatMap Region.inner) p := by
  have hne : tags.isEmpty = false := by cases tags <;> simp_all
  induction rs generalizing p with
  | nil =>
    have := loop_out f asciidoc toEnd tags hne after [] p hs ho
    rw [List.append_nil] at this
    rw [List.flatMap_nil, List.nil_append, this]
    rfl
  | cons r rs ih =>
    have h := hr r (by simp)
    simp only [List.flatMap_cons, Region.tokens, List.map_append, List.append_assoc, List.map_cons, List.cons_append,
      List.nil_append]
    rw [loop_out f asciidoc toEnd tags hne _ _ _ h.beforeShape h.beforeOut,
      loop_start _ _ _ _ _ _ h.chosen h.text h.opens, loop_in f asciidoc toEnd tags hne _ _ _ _ h.innerShape h.innerIn,
      included_append]
    simp only [bind, Except.bind]
    split
    · rfl
    · rw [loop_stop _ _ _ _ _ _ h.chosen h.text h.closes]
      have := ih (fun r h => hr r (by simp [h])) (by assumption)
      rw [List.map_append] at this
      exact this

/-- **C27** for the directive `include::target[tags=…]` (or `tag=…`) without other selections. -/
theorem C27_directive_partial (w : World) (f : Token → Parser → M Parser) (p : Parser) (t : Token) (target : Str)
    (m : Meta) (tags : List Str) (rs : List Region) (after : List Token)
    (ho : Opens w p t target (some m) (rs.flatMap Region.tokens ++ after))
    (hoff : m.attributes.get? b!"leveloffset" = none) (hlines : m.attributes.get? b!"lines" = none)
    (hsel : (m.attributes.get? b!"tags" = none ∧ ∃ g, m.attributes.get? b!"tag" = some g ∧ tags = [g])
      ∨ (m.attributes.get? b!"tag" = none ∧ ∃ v, m.attributes.get? b!"tags" = some v ∧ tags = splitOnB c!";" v))
    (ht : tags ≠ []) (hr : ∀ r ∈ rs, r.Selected tags) (hs : ∀ t ∈ after, TagShape t)
    (hout : ∀ t ∈ after, ∀ g ∈ tags, ¬ Token.opens t g) :
    parseInclude w f p t
      = (included f (isAsciidoc target) (rs.flatMap Region.inner)
          { p with files := p.files ++ [target] } >>= leaveFile p.blocks.length) := by
  obtain ⟨path, src, h1, h2, h3⟩ := ho.file
  unfold parseInclude
  rw [ho.attrs]
  rcases hsel with ⟨hn, g, hg, rfl⟩ | ⟨hn, v, hg, rfl⟩
  · simp only [bind, Except.bind, selection, hoff, hlines, hn, hg, pure, Except.pure, h1, h2, h3, List.append_nil]
    rw [C27_regions_partial _ _ _ _ ht rs hr after hs hout]
    rfl
  · simp only [bind, Except.bind, selection, hoff, hlines, hn, hg, pure, Except.pure, h1, h2, h3, List.nil_append]
    rw [C27_regions_partial _ _ _ _ ht rs hr after hs hout]
    rfl

/-- The hypotheses on a region hold of a concrete one, with an unselected tag inside. -/
example : (Region.mk [⟨.text, b!"x", some b!"x", 1, 1, 1, []⟩] ⟨.startTag, b!"tag::a[]", none, 2, 1, 8, []⟩ b!"a"
    [⟨.startTag, b!"tag::b[]", none, 3, 1, 8, []⟩, ⟨.text, b!"y", some b!"y", 4, 1, 1, []⟩]
    ⟨.endTag, b!"end::a[]", none, 5, 1, 8, []⟩).Selected [b!"a"] where
  chosen := by decide
  text := by unfold Starts; decide
  opens := ⟨rfl, rfl⟩
  closes := ⟨rfl, rfl⟩
  beforeShape := by intro t ht; simp at ht; subst ht; intro h; rcases h with h | h <;> cases h
  beforeOut := by intro t ht g _ h; simp at ht; subst ht; cases h.1
  innerShape := by
    intro t ht; simp at ht
    rcases ht with rfl | rfl
    · exact fun _ => ⟨b!"b", by unfold Starts; decide, .inl ⟨rfl, rfl⟩⟩
    · intro h; rcases h with h | h <;> cases h
  innerIn := by
    intro t ht; simp at ht
    rcases ht with rfl | rfl
    · refine ⟨fun h => absurd h.1 (by decide), fun g hg h => ?_⟩
      simp at hg; subst hg
      exact absurd h.2 (by decide)
    · exact ⟨fun h => absurd h.1 (by decide), fun g _ h => absurd h.1 (by decide)⟩

/-- **C27** is false for nested selected regions: the end of the inner one ends the outer one. Of
`tag::a[] x tag::b[] y end::b[] z end::a[]` the text `z` is not included. -/
theorem C27_nested : returns ((includeLoop (tokenInto emptyWorld 1) true false [b!"a", b!"b"]
      ([⟨.startTag, b!"tag::a[]", none, 1, 1, 8, []⟩, ⟨.text, b!"x", some b!"x", 2, 1, 1, []⟩,
        ⟨.startTag, b!"tag::b[]", none, 3, 1, 8, []⟩, ⟨.text, b!"y", some b!"y", 4, 1, 1, []⟩,
        ⟨.endTag, b!"end::b[]", none, 5, 1, 8, []⟩, ⟨.text, b!"z", some b!"z", 6, 1, 1, []⟩,
        ⟨.endTag, b!"end::a[]", none, 7, 1, 8, []⟩].map .tok) [] none Parser.new).map
      fun p => p.inlines.map Inline.locations) [[⟨2, 1, []⟩, ⟨4, 1, []⟩]] = true := by
  decide +kernel

/-- In the text of such a file the scanner already loses the inner region: there is no token for its line `y`. -/
theorem C27_nested_scan : ((scan b!"tag::a[]\nx\ntag::b[]\ny\nend::b[]\nz\nend::a[]\n").filterMap Item.tok?).map Token.lexeme
    = [b!"tag::a[]", b!"x", b!"\n", b!"end::b[]", b!"z", b!"\n", b!"end::a[]", []] := by decide +kernel

end Adoc.Props
