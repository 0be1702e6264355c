import Verif.Proof.Unplaced
import Verif.Props.RichComments
/-!
# C107: how a source is laid out, and how it is divided into files, does not change the outputs
-/
namespace Adoc.Props
open Spec Rich Parser

/-- Graphs whose blocks are the same, in the same sections and in the same order, with the same title, differ at most in
locations, and then the page and the Word document are the same, byte by byte and paragraph by paragraph: whether an error
is reported, and which one, is the same too. -/
theorem C107_outputs {g h : Asg} (hb : listedL [] g.blocks = listedL [] h.blocks)
    (hh : g.header.map (fun x => bareL x.title) = h.header.map fun x => bareL x.title) :
    (∀ sees, Html.render sees g = Html.render sees h) ∧ ∀ io, Docx.render io g = Docx.render io h :=
  have e := listedL_bare _ _ _ hb
  ⟨fun sees => page_same sees e hh, fun io => word_same io e hh⟩

/-- Only the locations differ: two graphs of one shape in different places of a source. -/
example : Html.render true { Asg.new with blocks := [.leaf .paragraph .paragraph none [literal b!"a"] none [⟨1, 1, []⟩]] }
    = Html.render true { Asg.new with blocks := [.leaf .paragraph .paragraph none [literal b!"a"] none [⟨7, 1, []⟩]] } :=
  (C107_outputs rfl rfl).1 true

/-- What documents say: the title, the blocks and the metadata lines before them; but neither the blank lines and comments
between them nor the attributes that are defined. -/
structure SameSaid (head head' : Option Head) (cs cs' : List Tagged) : Prop where
  title : head.map Head.title = head'.map Head.title
  blocks : cs.map (fun e => (e.tags, e.blk)) = cs'.map fun e => (e.tags, e.blk)

theorem sameSaid_outputs {g g' : Asg} {head head' : Option Head} {cs cs' : List Tagged} (hs : SameSaid head head' cs cs')
    (h1 : listedL [] g.blocks = contents (cs.flatMap Tagged.ids) [] cs)
    (h2 : listedL [] g'.blocks = contents (cs'.flatMap Tagged.ids) [] cs')
    (h3 : g.header.map (fun h => bareL h.title) = head.map (fun h => shownL [] h.title))
    (h4 : g'.header.map (fun h => bareL h.title) = head'.map (fun h => shownL [] h.title)) :
    (∀ sees, Html.render sees g = Html.render sees g') ∧ ∀ io, Docx.render io g = Docx.render io g' := by
  refine C107_outputs ?_ ?_
  · rw [h1, h2, (contents_gaps [] [] _ _ hs.blocks).2]
    exact (contents_gaps _ _ _ _ hs.blocks).1
  · rw [h3, h4]
    have := congrArg (Option.map (shownL [])) hs.title
    simpa only [Option.map_map, Function.comp_def] using this

/-- **C107, partial** (documents of one file): two documents of the class of `Spec/RichDoc` with the same title and blocks,
but other blank lines and comments between them and other attributes in the header, are both parsed, and the page and the
Word document are exactly the same.

Missing: documents outside the class, for some of which the claim is false (below), and blank lines and comments inside of
blocks. -/
theorem C107_layout_partial (w w' : World) (k k' : Nat) (d d' : RichDoc) (hs : SameSaid d.head d'.head d.blocks d'.blocks)
    (ho : d.Ok) (hl : Legible [] d.signs []) (hu : ∃ cs, written d.signs = enc cs) (hw : ∀ x ∈ d.targets, There w [] x)
    (ho' : d'.Ok) (hl' : Legible [] d'.signs []) (hu' : ∃ cs, written d'.signs = enc cs)
    (hw' : ∀ x ∈ d'.targets, There w' [] x) :
    ∃ g g', parseText w (k + 2) (written d.signs) = .ok g ∧ parseText w' (k' + 2) (written d'.signs) = .ok g'
      ∧ (∀ sees, Html.render sees g = Html.render sees g') ∧ ∀ io, Docx.render io g = Docx.render io g' := by
  obtain ⟨g, h1, h2, h3, _⟩ := parse_rich w k d ho hl hu hw
  obtain ⟨g', h5, h6, h7, _⟩ := parse_rich w' k' d' ho' hl' hu' hw'
  exact ⟨g, g', h1, h5, sameSaid_outputs hs h2 h6 h3 h7⟩

/-- **C107, partial** (comments): without its comments a document gives the same page and the same Word document. -/
theorem C107_comments_partial (w : World) (k : Nat) (d : RichDoc) (ho : d.Ok)
    (hl : Legible [] d.signs []) (hu : ∃ cs, written d.signs = enc cs)
    (hl' : Legible [] (uncommented d).signs []) (hu' : ∃ cs, written (uncommented d).signs = enc cs)
    (hw : ∀ x ∈ d.targets, There w [] x) :
    ∃ g g', parseText w (k + 2) (written d.signs) = .ok g ∧ parseText w (k + 2) (written (uncommented d).signs) = .ok g'
      ∧ (∀ sees, Html.render sees g = Html.render sees g') ∧ ∀ io, Docx.render io g = Docx.render io g' := by
  obtain ⟨g, g', h1, h2, h3, h4, _⟩ := C21_documents_partial w k d ho hl hu hl' hu' hw
  exact ⟨g, g', h1, h2, C107_outputs h3 h4⟩

/-- **C107, partial** (documents of several files): two documents with the same title and blocks give the same page and the
same Word document, however the blocks are divided into files and files that these include. -/
theorem C107_files_partial (w w' : World) (k k' : Nat) (d d' : Book)
    (hs : SameSaid d.head d'.head (blocksL d.parts) (blocksL d'.parts))
    (ho : d.Ok) (hl : Legible [] d.signs []) (hu : ∃ cs, written d.signs = enc cs) (hw : foundL w d.parts [])
    (ho' : d'.Ok) (hl' : Legible [] d'.signs []) (hu' : ∃ cs, written d'.signs = enc cs) (hw' : foundL w' d'.parts []) :
    ∃ g g', parseText w (k + depthL d.parts + 2) (written d.signs) = .ok g
      ∧ parseText w' (k' + depthL d'.parts + 2) (written d'.signs) = .ok g'
      ∧ (∀ sees, Html.render sees g = Html.render sees g') ∧ ∀ io, Docx.render io g = Docx.render io g' := by
  obtain ⟨g, h1, h2, h3, _⟩ := parse_book w k d ho hl hu hw
  obtain ⟨g', h5, h6, h7, _⟩ := parse_book w' k' d' ho' hl' hu' hw'
  exact ⟨g, g', h1, h5, sameSaid_outputs hs h2 h6 h3 h7⟩

/-- **C107, partial** (one file or several): including files gives the same page and the same Word document as writing
their blocks in one file. -/
theorem C107_split_partial (w w' : World) (k k' : Nat) (d : Book) (d' : RichDoc)
    (hs : SameSaid d.head d'.head (blocksL d.parts) d'.blocks)
    (ho : d.Ok) (hl : Legible [] d.signs []) (hu : ∃ cs, written d.signs = enc cs) (hw : foundL w d.parts [])
    (ho' : d'.Ok) (hl' : Legible [] d'.signs []) (hu' : ∃ cs, written d'.signs = enc cs)
    (hw' : ∀ x ∈ d'.targets, There w' [] x) :
    ∃ g g', parseText w (k + depthL d.parts + 2) (written d.signs) = .ok g
      ∧ parseText w' (k' + 2) (written d'.signs) = .ok g'
      ∧ (∀ sees, Html.render sees g = Html.render sees g') ∧ ∀ io, Docx.render io g = Docx.render io g' := by
  obtain ⟨g, h1, h2, h3, _⟩ := parse_book w k d ho hl hu hw
  obtain ⟨g', h5, h6, h7, _⟩ := parse_rich w' k' d' ho' hl' hu' hw'
  exact ⟨g, g', h1, h5, sameSaid_outputs hs h2 h6 h3 h7⟩

/-! ## Documents of the classes -/

theorem remark_ascii : ∀ b ∈ written remarkDoc.signs, b.toNat < 128 := by rw [remark_written]; decide +kernel
theorem bare_ascii : ∀ b ∈ written (uncommented remarkDoc).signs, b.toNat < 128 := by rw [bare_written]; decide +kernel
theorem bookWhole_ascii : ∀ b ∈ written bookWhole.signs, b.toNat < 128 := by rw [bookWhole_written]; decide +kernel

example : ∃ g g', parseText emptyWorld 2 remarkText = .ok g ∧ parseText emptyWorld 2 bareText = .ok g'
    ∧ (∀ sees, Html.render sees g = Html.render sees g') ∧ ∀ io, Docx.render io g = Docx.render io g' := by
  obtain ⟨g, g', h1, h2, h3⟩ := C107_layout_partial emptyWorld emptyWorld 0 0 remarkDoc (uncommented remarkDoc)
    ⟨rfl, by decide +kernel⟩ remark_ok
    (Scanner.legible_of_legibleB (ascii_enc _ remark_ascii) (by decide +kernel)) (ascii_enc _ remark_ascii) (fun _ h => by cases h)
    (uncommented_ok remark_ok)
    (Scanner.legible_of_legibleB (ascii_enc _ bare_ascii) (by decide +kernel)) (ascii_enc _ bare_ascii) (fun _ h => by cases h)
  exact ⟨g, g', by rw [← remark_written]; exact h1, by rw [← bare_written]; exact h2, h3⟩

example : ∃ g g', parseText bookWorld 4 bookText = .ok g ∧ parseText emptyWorld 2 bookWholeText = .ok g'
    ∧ (∀ sees, Html.render sees g = Html.render sees g') ∧ ∀ io, Docx.render io g = Docx.render io g' := by
  obtain ⟨g, g', h1, h2, h3⟩ := C107_split_partial bookWorld emptyWorld 0 0 bookDoc bookWhole ⟨rfl, by decide +kernel⟩
    bookSample_ok bookSample_legible (ascii_enc _ bookSample_ascii) bookSample_found bookWhole_ok
    (Scanner.legible_of_legibleB (ascii_enc _ bookWhole_ascii) (by decide +kernel)) (ascii_enc _ bookWhole_ascii)
    (fun _ h => by cases h)
  exact ⟨g, g', by rw [← bookSample_written]; exact h1, by rw [← bookWhole_written]; exact h2, h3⟩

/-- The book of `Props/RichBooks` with an attribute and more blank lines after the title. -/
def bookMore : Book := { bookDoc with head := some ⟨[.text [b!"T"]], [(b!"x", b!"v")], 4⟩ }

theorem bookMore_ok : bookMore.Ok :=
  { bookSample_ok with
    icons := by rintro ⟨e, he, hc⟩; exact absurd hc (by revert e he; decide +kernel)
    head := by
      intro h hh
      cases hh
      refine ⟨⟨?_, ?_, by decide⟩, signsOk_of _ (by decide +kernel)⟩
      · simp [ProseOk, ElemsOk, TextLines, EndsLine, Spec.OneLine, Elem.signs, textSigns, lineSigns, Elem.plain]
        decide
      · intro kv hkv
        simp only [List.mem_cons, List.not_mem_nil, or_false] at hkv
        subst hkv
        exact ⟨by decide, by decide⟩ }

theorem bookMore_ascii : ∀ b ∈ written bookMore.signs, b.toNat < 128 := by decide +kernel

example : ∃ g g', parseText bookWorld 4 bookText = .ok g ∧ parseText bookWorld 4 (written bookMore.signs) = .ok g'
    ∧ (∀ sees, Html.render sees g = Html.render sees g') ∧ ∀ io, Docx.render io g = Docx.render io g' := by
  obtain ⟨g, g', h1, h2, h3⟩ := C107_files_partial bookWorld bookWorld 0 0 bookDoc bookMore ⟨rfl, rfl⟩
    bookSample_ok bookSample_legible (ascii_enc _ bookSample_ascii) bookSample_found bookMore_ok
    (Scanner.legible_of_legibleB (ascii_enc _ bookMore_ascii) (by decide +kernel)) (ascii_enc _ bookMore_ascii) bookSample_found
  exact ⟨g, g', by rw [← bookSample_written]; exact h1, h2, h3⟩

/-! ## Where the claim is false -/

/-- Both texts are converted to pages, and the pages are not the same. -/
def pagesDiffer (a b : Str) : Bool :=
  match (parseText emptyWorld 5 a).bind (Html.render true), (parseText emptyWorld 5 b).bind (Html.render true) with
  | .ok p, .ok q => p != q
  | _, _ => false

/-- **C107** is false: a comment before the title of a document is refused, a blank line between the items of a
description list makes two lists, and a comment block without a blank line after it is seen as a line end in the text. -/
theorem C107_seen :
    errs (parseText emptyWorld 5 b!"// c\n= T\n\na\n") (.topLevelHeading 2) = true
      ∧ pagesDiffer b!"a:: b\n\nc:: d\n" b!"a:: b\nc:: d\n" = true
      ∧ pagesDiffer b!"a\n\n////\nc\n////\nb\n" b!"a\n\n////\nc\n////\n\nb\n" = true := by
  decide +kernel

end Adoc.Props
