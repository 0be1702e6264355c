import Verif.Proof.RichAfter
import Verif.Props.Before
/-!
# C102: what a document says does not change what follows it
-/
namespace Adoc.Props
open Spec Rich

/-- A document after which any text is read on its own: it ends with a block, which is not an admonition, a delimited block or a
table, and a blank line; its texts are plain where they stand; there are no headings, links, cross references, description lists
or ids. -/
structure Settles (w : World) (d : RichDoc) : Prop where
  ok : d.Ok
  legible : Legible [] d.signs []
  sure : Sure [] d.signs
  newline : d.signs.getLast? = some Spec.newline
  utf8 : ∃ cs, written d.signs = enc cs
  targets : ∀ x ∈ d.targets, There w [] x
  gaps : ∀ c ∈ d.blocks, c.gap.Ok 2 false
  last : ∃ init c, d.blocks = init ++ [c] ∧ c.blk.isBox = false ∧ c.gap.remarks = []
  plain : ∀ c ∈ d.blocks, c.blk.refers = false ∧ c.blk.isHead = false ∧ c.blk.isDlist = false
  ids : d.ids = []

/-- The blocks of a document are where it says in the graph of a longer one. -/
def Has (g : Asg) (d : RichDoc) : Prop :=
  listedL [] (g.blocks.take d.blocks.length) = contents (g.idHash.map fun x => (x.1, bareL x.2)) [] d.blocks

theorem has_consolidate (a : Asg) (d : RichDoc) (h1 : a.blocks.length = d.blocks.length)
    (h2 : listedL [] a.blocks = contents [] [] d.blocks) (g : Asg) : Has (beforeAll a g).consolidate d := by
  unfold Has
  obtain ⟨e1, e2⟩ := consolidate_blocks (beforeAll a g)
  rw [e1, e2]
  have e3 : (beforeAll a g).blocks = a.blocks ++ g.blocks := rfl
  rw [e3, mapInlinesL_append, List.take_append_of_le_length (by rw [mapInlinesL_length, h1]; exact Nat.le_refl _),
    List.take_of_length_le (by rw [mapInlinesL_length, h1]; exact Nat.le_refl _)]
  have hres := listedL_resolve (beforeAll a g).idHash ((beforeAll a g).idHash.map bareKV)
    (fun i => parse_before.get_bareKV _ i) [] a.blocks
  have hc := contents_resolve ((beforeAll a g).idHash.map bareKV) [] d.blocks
  rw [List.map_nil] at hres hc
  rw [hres, h2]
  exact hc.symm

/-- **C102, partial**: take two beginnings of a document with the same number of lines and with the same attributes, which may
differ in everything else, and let the same text follow. Then both documents fail in the same way, or both are converted, and what comes
after the blocks of the beginnings is the same, with the same locations.

Missing: beginnings with headings, links, cross references, description lists (`C102_dlist`, `C102_panics`, `C102_ref`) or ids, and
with an admonition, a delimited block or a table at the end (`C102_box`); text with an opening include tag
(`C08_closing_tag_column_is_absolute`); documents outside the class of `Spec/RichDoc`. -/
theorem C102_after_partial (w : World) (k : Nat) (d e : RichDoc) (cs : List Char) (hd : Settles w d) (he : Settles w e)
    (hlines : lineEnds d.signs = lineEnds e.signs) (hattrs : (d.head.map Head.defs).getD [] = (e.head.map Head.defs).getD [])
    (ht : ∀ t, .tok t ∈ scan (enc cs) → t.ty ≠ .startTag) :
    (∃ x, parseText w (k + 2) (written d.signs ++ enc cs) = .error x ∧ parseText w (k + 2) (written e.signs ++ enc cs) = .error x)
      ∨ ∃ g h : Asg, parseText w (k + 2) (written d.signs ++ enc cs) = .ok g ∧ parseText w (k + 2) (written e.signs ++ enc cs) = .ok h
        ∧ g.blocks.drop d.blocks.length = h.blocks.drop e.blocks.length ∧ g.idHash = h.idHash ∧ Has g d ∧ Has h e := by
  have key : ∀ d : RichDoc, Settles w d → ∃ a : Asg, a.blocks.length = d.blocks.length ∧ listedL [] a.blocks = contents [] [] d.blocks
      ∧ parseText w (k + 2) (written d.signs ++ enc cs)
        = (Parser.Framing.upToEnd w (k + 2) ((scan (enc cs)).map (shiftItem (lineEnds d.signs))) (afterwards ((d.head.map Head.defs).getD []))).map
          fun q => (beforeAll a q.asg).consolidate := by
    intro d h
    obtain ⟨init, c, h1, h2, h3⟩ := h.last
    obtain ⟨ds, e⟩ := h.utf8
    exact parse_after w k d (enc cs) h.ok (legible_line _ _ _ h.legible h.sure h.newline) ⟨ds ++ cs, by rw [e, enc_append]⟩ h.targets h.gaps
      init c h1 h2 h3 h.plain h.ids ht
  obtain ⟨a, a1, a2, a3⟩ := key d hd
  obtain ⟨b, b1, b2, b3⟩ := key e he
  rw [a3, b3, hlines, hattrs]
  cases Parser.Framing.upToEnd w (k + 2) ((scan (enc cs)).map (shiftItem (lineEnds e.signs))) (afterwards ((e.head.map Head.defs).getD [])) with
  | error x => exact .inl ⟨x, rfl, rfl⟩
  | ok q =>
    refine .inr ⟨_, _, rfl, rfl, ?_, ?_, has_consolidate a d a1 a2 _, has_consolidate b e b1 b2 _⟩
    · have hdrop : ∀ (a : Asg) (n : Nat), a.blocks.length = n →
          (beforeAll a q.asg).consolidate.blocks.drop n = Block.mapInlinesL (Inline.resolveXref q.asg.idHash) q.asg.blocks := by
        intro a n h
        have e3 : (beforeAll a q.asg).blocks = a.blocks ++ q.asg.blocks := rfl
        rw [(consolidate_blocks _).2, e3, mapInlinesL_append, List.drop_left' (by rw [mapInlinesL_length, h])]
        rfl
      rw [hdrop a _ a1, hdrop b _ b1]
    · rw [(consolidate_blocks _).1, (consolidate_blocks _).1]
      rfl

/-! ## A case -/

/-- A beginning. -/
def firstDoc : RichDoc where
  blocks := [
    ⟨[], .para [.text [b!"a "], .span .strong [.text [b!"b"]]], 2⟩,
    ⟨[], .list .unordered [[.text [b!"i"]], [.text [b!"j"]]], 2⟩]

/-- Another one with as many lines. -/
def otherDoc : RichDoc where
  blocks := [
    ⟨[], .para [.text [b!"x", b!"y"]], 2⟩,
    ⟨[], .brk .thematic, 2⟩]

theorem first_written : written firstDoc.signs = b!"a *b*\n\n* i\n* j\n\n" := by decide +kernel
theorem other_written : written otherDoc.signs = b!"x\ny\n\n'''\n\n" := by decide +kernel

theorem first_settles (w : World) : Settles w firstDoc where
  ok := {
    head := nofun
    blocks := by
      intro e he
      simp only [firstDoc, List.mem_cons, List.not_mem_nil, or_false] at he
      rcases he with rfl | rfl
      all_goals refine ⟨?_, ?_, ?_⟩
      all_goals simp [TagsOk, Blk.Ok, Piece.Ok, ProseOk, ElemsOk, PartsOk, TextLines, EndsLine, TagsFor, Spec.OneLine, Elem.signs, textSigns,
        lineSigns, Spec.newline]
      all_goals decide
    gaps := by simp [firstDoc, GapsOk, Blk.ending]
    flow := by decide +kernel
    ids := by decide +kernel
    icons := Scanner.no_callouts (by decide)
    signs := signsOk_of _ (by decide +kernel) }
  legible := Scanner.legible_of_legibleB (ascii_enc _ (by rw [first_written]; decide +kernel)) (by decide +kernel)
  sure := by
    have e : firstDoc.signs = [.text b!"a ", .mark .strong b!"*", .text b!"b", .mark .strong b!"*", Spec.newline, Spec.newline,
      .mark .unorderedListItem b!"* ", .text b!"i", Spec.newline, .mark .unorderedListItem b!"* ", .text b!"j", Spec.newline,
      Spec.newline] := by decide +kernel
    rw [e]
    refine ⟨?_, ?_, ?_, ?_, trivial⟩ <;> exact Scanner.run_of_runB (by decide +kernel)
  newline := by decide +kernel
  utf8 := ascii_enc _ (by rw [first_written]; decide +kernel)
  targets := fun _ h => by cases h
  gaps := by decide +kernel
  last := ⟨[_], _, rfl, rfl, rfl⟩
  plain := by decide +kernel
  ids := by decide +kernel

theorem other_settles (w : World) : Settles w otherDoc where
  ok := {
    head := nofun
    blocks := by
      intro e he
      simp only [otherDoc, List.mem_cons, List.not_mem_nil, or_false] at he
      rcases he with rfl | rfl
      all_goals refine ⟨?_, ?_, ?_⟩
      all_goals simp [TagsOk, Blk.Ok, Piece.Ok, ProseOk, ElemsOk, PartsOk, TextLines, EndsLine, TagsFor, Spec.newline]
      all_goals decide
    gaps := by simp [otherDoc, GapsOk, Blk.ending]
    flow := by decide +kernel
    ids := by decide +kernel
    icons := Scanner.no_callouts (by decide)
    signs := signsOk_of _ (by decide +kernel) }
  legible := Scanner.legible_of_legibleB (ascii_enc _ (by rw [other_written]; decide +kernel)) (by decide +kernel)
  sure := by
    have e : otherDoc.signs = [.text b!"x", Spec.newline, .text b!"y", Spec.newline, Spec.newline, .mark .thematicBreak b!"'''",
      Spec.newline, Spec.newline] := by decide +kernel
    rw [e]
    refine ⟨?_, ?_, trivial⟩ <;> exact Scanner.run_of_runB (by decide +kernel)
  newline := by decide +kernel
  utf8 := ascii_enc _ (by rw [other_written]; decide +kernel)
  targets := fun _ h => by cases h
  gaps := by decide +kernel
  last := ⟨[_], _, rfl, rfl, rfl⟩
  plain := by decide +kernel
  ids := by decide +kernel

/-- Whatever follows the two beginnings is read in the same way. -/
example (cs : List Char) (ht : ∀ t, .tok t ∈ scan (enc cs) → t.ty ≠ .startTag) (g : Asg)
    (h : parseText emptyWorld 2 (b!"a *b*\n\n* i\n* j\n\n" ++ enc cs) = .ok g) :
    ∃ g', parseText emptyWorld 2 (b!"x\ny\n\n'''\n\n" ++ enc cs) = .ok g' ∧ g.blocks.drop 2 = g'.blocks.drop 2 := by
  rw [← first_written] at h
  rw [← other_written]
  rcases C102_after_partial emptyWorld 0 firstDoc otherDoc cs (first_settles _) (other_settles _) (by decide +kernel) rfl ht with
    ⟨x, h1, _⟩ | ⟨g1, g2, h1, h2, h3, _⟩
  · rw [h] at h1; cases h1
  · rw [h] at h1; cases h1
    exact ⟨g2, h2, h3⟩

/-- For example sections in a block that is not closed, after the two beginnings. -/
example : returns ((parseText emptyWorld 5 b!"a *b*\n\n* i\n* j\n\n====\nu\n\n<<y>>\n\n* z\n== Two\n").map fun g => sketchBs g.blocks)
      b!"(a |strong(b)) list[item(i)[] item(j)[]] list[item()[section(zTwo)[]]] (xref y()) example[(u)]" = true
    ∧ returns ((parseText emptyWorld 5 b!"x\ny\n\n'''\n\n====\nu\n\n<<y>>\n\n* z\n== Two\n").map fun g => sketchBs g.blocks)
      b!"(x\ny) break list[item()[section(zTwo)[]]] (xref y()) example[(u)]" = true := by decide +kernel

/-! ## Where the claim is false -/

/-- **C102** is false after a description list: line ends in paragraphs are pieces of text of their own from there on. -/
theorem C102_dlist : returns ((parseText emptyWorld 5 b!"a\n\nb\nc\n").map fun g => sketchBs g.blocks) b!"(a) (b\nc)" = true
    ∧ returns ((parseText emptyWorld 5 b!"a:: b\n\nb\nc\n").map fun g => sketchBs g.blocks) b!"terms[term(a)(b)[]] (b|\n|c)" = true := by
  decide +kernel

/-- **C102** is false after a description list: a text may panic that does not panic after a paragraph. -/
theorem C102_panics : returns ((parseText emptyWorld 5 b!"a\n\n_:n: v\n*b*\n* footnote:[f]\n\n").map fun g => sketchBs g.blocks)
      b!"(a) list[item(emphasis!(:n: v|strong(\nb))|footnote!(f))[]]" = true
    ∧ panics (parseText emptyWorld 5 b!"a:: b\n\n_:n: v\n*b*\n* footnote:[f]\n\n") .todo = true := by decide +kernel

/-- **C102** is false after a cross reference: the next section ends with its first block. -/
theorem C102_ref : returns ((parseText emptyWorld 5 b!"a\n\n== S\n\nb\n\nc\n").map fun g => sketchBs g.blocks)
      b!"(a) section(S)[(b) (c)]" = true
    ∧ returns ((parseText emptyWorld 5 b!"<<x>>\n\n== S\n\nb\n\nc\n").map fun g => sketchBs g.blocks)
      b!"(xref x()) section(S)[(b)] (c)" = true := by decide +kernel

/-- **C102** is false after a delimited block: a section that follows is in it. -/
theorem C102_box : returns ((parseText emptyWorld 5 b!"a\n\n== S\n\nb\n").map fun g => sketchBs g.blocks) b!"(a) section(S)[(b)]" = true
    ∧ returns ((parseText emptyWorld 5 b!"--\na\n--\n\n== S\n\nb\n").map fun g => sketchBs g.blocks)
      b!"open[(a) section(S)[(b)]]" = true := by decide +kernel

end Adoc.Props
