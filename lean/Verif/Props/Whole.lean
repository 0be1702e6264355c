import Verif.Props.Run
import Verif.Props.Dom
import Verif.Props.JsonRead
import Verif.Props.Ink
import Verif.Props.RichPages
/-!
# C97: from the source file to the output file

A run of the program on a document that is given by its blocks (`Spec.Book`: text with markup, lists, tables, boxes, listings,
headings, included files and so on): the run succeeds, and the file that it writes has in it what the document says.

Missing for the full claim: documents outside of the class, such as those with unmatched markers or nested lists.
-/
namespace Adoc.Props
open Cli Spec Rich Markup Dom Ink

/-- Where the output of a run is, and that there is nothing else: in the file of its destination or on standard output, after the
number of words if that was asked for. -/
structure Leaves (s : System) (c : Call) (x : Cli.Content) : Prop where
  success : (run s c).status = .success
  file : ∀ path, destination c.toArgs = .file path → (run s c).files = [(path, x)] ∧ (c.count = false → (run s c).stdout = [])
  stdout : destination c.toArgs = .stdout → (run s c).files = []
    ∧ ∃ text line, x = .text text ∧ (run s c).stdout = line ++ text ++ b!"\n" ∧ (c.count = false → line = [])

/-- A run on a source that has a graph. -/
theorem leaves_graph {s : System} {c : Call} {src : Str} {g : Asg} (hs : SourceOf s c src) (hgr : Cli.graphOf s c src = .ok g)
    (hd : destination c.toArgs ≠ .refused) (hw : ∀ path, destination c.toArgs = .file path → s.writable path = true) {x : Cli.Content}
    (hm : Made s c.backend g x) : Leaves s c x := by
  have hrun : run s c = output s c (countLine c g) g := by
    unfold run
    rw [(source_iff s c src).2 hs]
    dsimp only
    rw [hgr]
  have hcl : c.count = false → countLine c g = [] := by intro h; unfold countLine; rw [h]; rfl
  have text : ∀ t, x = .text t → c.backend ≠ .docx → output s c (countLine c g) g = renderString s c (countLine c g) t → Leaves s c x := by
    intro t hx hb ho
    subst hx
    have hdest : destination c.toArgs = match readOutput c.toArgs with | some p => .file p | none => .stdout := by
      unfold destination
      cases hc : c.backend with
      | docx => exact absurd hc hb
      | htmlbook => rfl
      | json => rfl
    unfold renderString at ho
    rw [← hrun] at ho
    cases hp : readOutput c.toArgs with
    | none =>
      rw [hp] at hdest ho
      dsimp only at hdest ho
      exact ⟨by rw [ho], fun p h => (by rw [hdest] at h; cases h), fun _ => by rw [ho]; exact ⟨rfl, t, _, rfl, rfl, hcl⟩⟩
    | some p =>
      rw [hp] at hdest ho
      dsimp only at hdest ho
      rw [if_pos (hw p hdest)] at ho
      refine ⟨by rw [ho], fun q h => ?_, fun h => (by rw [hdest] at h; cases h)⟩
      rw [hdest] at h
      cases h
      rw [ho]
      exact ⟨rfl, hcl⟩
  cases hb : c.backend with
  | htmlbook =>
    rw [hb] at hm
    obtain ⟨page, h1, h2⟩ := hm
    refine text page h2 (by rw [hb]; exact fun h => by cases h) ?_
    unfold output
    rw [hb]
    dsimp only
    rw [h1]
  | json =>
    rw [hb] at hm
    refine text _ hm (by rw [hb]; exact fun h => by cases h) ?_
    unfold output
    rw [hb]
  | docx =>
    rw [hb] at hm
    obtain ⟨d, h1, rfl⟩ := hm
    have hdest : destination c.toArgs = if c.noResolve then .refused else match readOutput c.toArgs with | some p => .file p | none => .refused := by
      unfold destination
      rw [hb]
      split <;> rfl
    unfold output at hrun
    rw [hb] at hrun
    dsimp only at hrun
    split at hdest
    · exact absurd hdest hd
    · rename_i hx
      rw [if_neg hx] at hrun
      cases hp : readOutput c.toArgs with
      | none => rw [hp] at hdest; exact absurd hdest hd
      | some p =>
        rw [hp] at hdest hrun
        dsimp only at hdest hrun
        rw [if_pos (hw p hdest), h1] at hrun
        dsimp only at hrun
        refine ⟨by rw [hrun], fun q h => ?_, fun h => (by rw [hdest] at h; cases h)⟩
        rw [hdest] at h
        cases h
        rw [hrun]
        exact ⟨rfl, hcl⟩

theorem leaves_of {s : System} {c : Call} {src : Str} {g : Asg} (hs : SourceOf s c src) (hg : parseText s.world s.fuel src = .ok g)
    (hd : destination c.toArgs ≠ .refused) (hw : ∀ path, destination c.toArgs = .file path → s.writable path = true) {x : Cli.Content}
    (hm : Made s c.backend g x) : Leaves s c x := by
  refine leaves_graph hs ?_ hd hw hm
  unfold Cli.graphOf
  split
  · exact (C94_keeps (fun _ _ _ h => h) (fun _ _ h => h) (Nat.le_refl _) hg).2
  · exact hg

/-- What a run needs: the source, the files it includes, room for them, and a destination that can be written to. -/
structure Given (s : System) (c : Call) (d : Book) : Prop where
  source : SourceOf s c (Spec.written d.signs)
  files : foundL s.world d.parts []
  room : depthL d.parts + 2 ≤ s.fuel
  taken : destination c.toArgs ≠ .refused
  writable : ∀ path, destination c.toArgs = .file path → s.writable path = true

theorem Given.graph {s : System} {c : Call} {d : Book} (h : Given s c d) {P : Asg → Prop}
    (hx : ∀ k, ∃ g, parseText s.world (k + depthL d.parts + 2) (Spec.written d.signs) = .ok g ∧ P g) :
    ∃ g, parseText s.world s.fuel (Spec.written d.signs) = .ok g ∧ P g := by
  obtain ⟨g, h1, h2⟩ := hx (s.fuel - (depthL d.parts + 2))
  have hr := h.room
  rw [show s.fuel - (depthL d.parts + 2) + depthL d.parts + 2 = s.fuel by omega] at h1
  exact ⟨g, h1, h2⟩

/-- HTML: the page has the elements, the text and the targets of links that the document describes. -/
theorem C97_html_partial (s : System) (c : Call) (d : Book) (ho : d.Ok) (hl : Legible [] d.signs [])
    (hu : ∃ cs, Spec.written d.signs = enc cs) (h : Given s c d) (hp : d.whole.Printable) (hb : c.backend = .htmlbook) :
    ∃ page, Leaves s c (.text page) ∧ met page = d.whole.unrolled s.sees
      ∧ squash (seen page) = squash (headWords d.head ++ (blocksL d.parts).flatMap (Tagged.words d.whole.titles))
      ∧ balanced page = true
      ∧ ∀ e ∈ blocksL d.parts, ∀ x ∈ anchors false (e.block d.whole.ids), x ∈ Markup.ids page := by
  obtain ⟨g, h1, page, h2, h3, h4, h5, h6⟩ := h.graph (P := fun g => ∃ page, Html.render s.sees g = .ok page
      ∧ met page = d.whole.unrolled s.sees
      ∧ squash (seen page) = squash (headWords d.head ++ (blocksL d.parts).flatMap (Tagged.words d.whole.titles))
      ∧ balanced page = true
      ∧ ∀ e ∈ blocksL d.parts, ∀ x ∈ anchors false (e.block d.whole.ids), x ∈ Markup.ids page) (by
    intro k
    obtain ⟨g, page, e1, e2, e3, e4, e5, e6⟩ := C85_book_partial s.sees s.world k d ho hl hu h.files hp
    obtain ⟨g', page', f1, f2, f3⟩ := C87_book_partial s.sees s.world k d ho hl hu h.files hp
    rw [e1] at f1
    cases f1
    rw [e2] at f2
    cases f2
    exact ⟨g, e1, page, e2, f3, e3, e4, e6⟩)
  exact ⟨page, leaves_of h.source h1 h.taken h.writable (by rw [hb]; exact ⟨page, h2, rfl⟩), h3, h4, h5, h6⟩

/-- JSON: what is read back from the text are the blocks, the title and the attributes of the document. -/
theorem C97_json_partial (s : System) (c : Call) (d : Book) (ho : d.Ok) (hl : Legible [] d.signs [])
    (hu : ∃ cs, Spec.written d.signs = enc cs) (h : Given s c d) (hb : c.backend = .json) :
    ∃ text g', Leaves s c (.text text) ∧ JsonRead.document text = some g'
      ∧ listedL [] g'.blocks = (contents d.whole.ids [] (blocksL d.parts)).map (shownEntry s.ord)
      ∧ g'.header.map (fun h => bareL h.title) = d.head.map (fun h => shownInlines s.ord (shownL [] h.title))
      ∧ g'.attributes = d.head.map fun h => s.ord h.defs := by
  obtain ⟨g, h1, g', h2⟩ := h.graph (P := fun g => ∃ g', JsonRead.document (jsonText s.ord g) = some g'
      ∧ listedL [] g'.blocks = (contents d.whole.ids [] (blocksL d.parts)).map (shownEntry s.ord)
      ∧ g'.header.map (fun h => bareL h.title) = d.head.map (fun h => shownInlines s.ord (shownL [] h.title))
      ∧ g'.attributes = d.head.map fun h => s.ord h.defs) (by
    intro k
    obtain ⟨g, g', e1, e2⟩ := C90_book_partial s.ord s.world k d ho hl hu h.files
    exact ⟨g, e1, g', e2⟩)
  exact ⟨_, g', leaves_of h.source h1 h.taken h.writable (by rw [hb]; rfl), h2⟩

/-- Word: each text of the document is in the body of the Word document, with the formatting of the spans around it. -/
theorem C97_word_partial (s : System) (c : Call) (d : Book) (ho : d.Ok) (hl : Legible [] d.signs [])
    (hu : ∃ cs, Spec.written d.signs = enc cs) (h : Given s c d) (hb : c.backend = .docx)
    (hf : ∀ e ∈ d.whole.blocks, Word.fine s.pictures (e.block d.whole.ids)) (hc : ∀ x ∈ d.whole.wants, x.all Clear) :
    ∃ doc, Leaves s c (.word doc) ∧ Has Inked (d.whole.wants.map (Want.map (marksL []))) doc.body := by
  obtain ⟨g, h1, doc, h2, h3⟩ := h.graph (P := fun g => ∃ doc, Docx.render s.pictures g = .ok doc
      ∧ Has Inked (d.whole.wants.map (Want.map (marksL []))) doc.body) (by
    intro k
    obtain ⟨g, doc, e1, e2⟩ := C88_book_partial s.world k d ho hl hu h.files s.pictures hf hc
    exact ⟨g, e1, doc, e2⟩)
  exact ⟨doc, leaves_of h.source h1 h.taken h.writable (by rw [hb]; exact ⟨doc, h2, rfl⟩), h3⟩

/-! ## Example -/

/-- A system with the files of the book. -/
def bookDesk : System where
  world := bookWorld
  fuel := 64
  input := fun p => if p = b!"book.adoc" then some bookText else none
  stdin := none
  writable := fun p => p = b!"book.html" ∨ p = b!"book.json" ∨ p = b!"out.docx"
  pictures := fun _ => some ()
  sees := true
  ord := id

theorem bookGiven (c : Call) (hf : c.file = b!"book.adoc") (hd : destination c.toArgs = .file b!"book.html"
    ∨ destination c.toArgs = .file b!"book.json" ∨ destination c.toArgs = .file b!"out.docx") : Given bookDesk c bookDoc where
  source := by
    unfold SourceOf
    rw [hf, bookSample_written]
    rfl
  files := bookSample_found
  room := by decide
  taken := by
    rcases hd with h | h | h <;> rw [h] <;> exact fun h => by cases h
  writable := by
    intro path hp
    rcases hd with h | h | h <;> (rw [h] at hp; cases hp; rfl)

/-- `asciidocr book.adoc` writes the page to `book.html` and says nothing. -/
theorem C97_sample : ∃ page, (run bookDesk ⟨⟨b!"book.adoc", none, .htmlbook, false⟩, false⟩) = ⟨[], [(b!"book.html", .text page)], .success⟩
    ∧ squash (seen page) = squash bookDoc.whole.words ∧ b!"a" ∈ Markup.ids page := by
  obtain ⟨page, h1, _, h2, _, h3⟩ := C97_html_partial bookDesk ⟨⟨b!"book.adoc", none, .htmlbook, false⟩, false⟩ bookDoc bookSample_ok
    bookSample_legible (ascii_enc _ bookSample_ascii) (bookGiven _ rfl (.inl (by decide +kernel))) bookSample_printable rfl
  have hd : destination (⟨⟨b!"book.adoc", none, .htmlbook, false⟩, false⟩ : Call).toArgs = .file b!"book.html" := by decide +kernel
  obtain ⟨f1, f2⟩ := h1.file _ hd
  refine ⟨page, ?_, h2, ?_⟩
  · have := h1.success
    cases hr : run bookDesk ⟨⟨b!"book.adoc", none, .htmlbook, false⟩, false⟩ with
    | mk a b st =>
      rw [hr] at f1 f2 this
      have e : a = [] := f2 rfl
      cases f1
      cases this
      rw [e]
  · exact h3 ⟨[.anchor b!"a"], .head 1 [.text [b!"One"]], 2⟩ (by simp [bookDoc, blocksL, Passage.blocks, oneParts]) b!"a" (by decide +kernel)

/-- `asciidocr -x -c -b json book.adoc`. -/
theorem C97_json_sample : ∃ text g', (run bookDesk ⟨⟨b!"book.adoc", none, .json, true⟩, true⟩).files = [(b!"book.json", .text text)]
    ∧ JsonRead.document text = some g' ∧ (listedL [] g'.blocks).length = 7 := by
  obtain ⟨text, g', h1, h2, h3, _⟩ := C97_json_partial bookDesk ⟨⟨b!"book.adoc", none, .json, true⟩, true⟩ bookDoc bookSample_ok
    bookSample_legible (ascii_enc _ bookSample_ascii) (bookGiven _ rfl (.inr (.inl (by decide +kernel)))) rfl
  exact ⟨text, g', (h1.file _ (by decide +kernel)).1, h2, by rw [h3]; decide +kernel⟩

/-- `asciidocr -b docx book.adoc out.docx`. -/
theorem C97_word_sample : ∃ doc, (run bookDesk ⟨⟨b!"book.adoc", some b!"out.docx", .docx, false⟩, false⟩).files = [(b!"out.docx", .word doc)]
    ∧ Has Inked (bookDoc.whole.wants.map (Want.map (marksL []))) doc.body := by
  obtain ⟨doc, h1, h2⟩ := C97_word_partial bookDesk ⟨⟨b!"book.adoc", some b!"out.docx", .docx, false⟩, false⟩ bookDoc bookSample_ok
    bookSample_legible (ascii_enc _ bookSample_ascii) (bookGiven _ rfl (.inr (.inr (by decide +kernel)))) rfl (by
      intro e he
      simp only [Book.whole, bookDoc, blocksL, Passage.blocks, introParts, oneParts, moreParts, deepParts, List.cons_append, List.nil_append, List.mem_cons, List.not_mem_nil, or_false] at he
      rcases he with rfl | rfl | rfl | rfl | rfl | rfl | rfl
      all_goals simp [Tagged.block, Blk.block, Piece.block, Word.fine, Word.fineL]) (all_clear (by decide +kernel))
  exact ⟨doc, (h1.file _ (by decide +kernel)).1, h2⟩

end Adoc.Props
