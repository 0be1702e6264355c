import Verif.Props.Looks
import Verif.Props.Ink
/-!
# C105 from the source text
-/
namespace Adoc.Props
open Spec Rich Parser Ink

/-- The look of the title of a document. -/
def titleLook : Docx.Look :=
  { font := some b!"Times New Roman", size := some 24, line := some 480, first := some 0, bold := true }

/-- The looks of the paragraphs of a Word document are those of the blocks of the source, one by one, after the title. -/
def Looks (d : RichDoc) (doc : Docx.Doc) : Prop :=
  (Word.bodyParas doc).map (fun p => Word.seen doc 3 p.style) =
    (if d.head.isSome then [some titleLook] else []) ++
      (d.blocks.flatMap fun e => Word.roles .body (e.block d.ids)).map Word.Role.look

private theorem looks_of {io : Str → Option Unit} {g : Asg} {doc : Docx.Doc} {d : RichDoc} (h : Docx.render io g = .ok doc)
    (hg : Goes d doc) (hc : ∃ x, Word.calmL false (d.blocks.map fun e => e.block d.ids) = some x)
    (ht : ∀ h ∈ d.head, shownL [] h.title ≠ []) : Looks d doc := by
  obtain ⟨hs, hh⟩ := hg.2.2 hc ht
  have hb : ∀ r ∈ d.blocks.flatMap fun e => Word.roles .body (e.block d.ids), Docx.Role.Boxed r := by
    intro r hr
    obtain ⟨e, _, hr⟩ := List.mem_flatMap.1 hr
    exact Docx.roles_boxed .body trivial _ r hr
  have sub := body_sub doc
  unfold Looks
  cases hd : d.head with
  | none =>
    rw [hd] at hs
    exact by_role h _ hb _ sub hs
  | some y =>
    rw [hd] at hs hh
    obtain ⟨p, hp, e⟩ := hh rfl
    cases hx : Word.bodyParas doc with
    | nil => rw [hx] at hp; simp at hp
    | cons q ps =>
      rw [hx] at hp hs sub
      obtain rfl : q = p := by simpa using hp
      rw [List.map_cons, by_role h _ hb ps (fun q hq => sub q (by simp [hq])) hs,
        C105_looks_partial io g doc h q (sub q (by simp)) (by rw [e]; decide), e]
      rfl

/-- C105 from the source text: for documents of the class in which no plain paragraph comes directly after a block with a style of
its own, parsing and writing the Word document succeed, and each paragraph looks as the block of the source that it comes from.

Missing: documents outside the class, and documents that are not calm, where paragraphs take on the style of the block before
(C55). -/
theorem C105_source_partial (w : World) (k : Nat) (d : RichDoc) (ho : d.Ok) (hl : Legible [] d.signs [])
    (hu : ∃ cs, written d.signs = enc cs) (hw : ∀ x ∈ d.targets, There w [] x) (io : Str → Option Unit)
    (hf : ∀ e ∈ d.blocks, Word.fine io (e.block d.ids))
    (hc : ∃ x, Word.calmL false (d.blocks.map fun e => e.block d.ids) = some x) (ht : ∀ h ∈ d.head, shownL [] h.title ≠ []) :
    ∃ g doc, parseText w (k + 2) (written d.signs) = .ok g ∧ Docx.render io g = .ok doc ∧ Looks d doc := by
  obtain ⟨g, doc, h1, h2, h3⟩ := C86_paragraphs_partial w k d ho hl hu hw io hf
  exact ⟨g, doc, h1, h2, looks_of h2 h3 hc ht⟩

/-- The same for documents that include other files. -/
theorem C105_book_partial (w : World) (k : Nat) (d : Book) (ho : d.Ok) (hl : Legible [] d.signs [])
    (hu : ∃ cs, written d.signs = enc cs) (hw : foundL w d.parts []) (io : Str → Option Unit)
    (hf : ∀ e ∈ d.whole.blocks, Word.fine io (e.block d.whole.ids))
    (hc : ∃ x, Word.calmL false (d.whole.blocks.map fun e => e.block d.whole.ids) = some x)
    (ht : ∀ h ∈ d.whole.head, shownL [] h.title ≠ []) :
    ∃ g doc, parseText w (k + depthL d.parts + 2) (written d.signs) = .ok g ∧ Docx.render io g = .ok doc ∧ Looks d.whole doc := by
  obtain ⟨g, doc, h1, h2, h3⟩ := C86_book_partial w k d ho hl hu hw io hf
  exact ⟨g, doc, h1, h2, looks_of h2 h3 hc ht⟩

/-- The document of several files of `Props/RichBooks`. -/
example : ∃ g doc, parseText bookWorld (depthL bookDoc.parts + 2) bookText = .ok g ∧ Docx.render (fun _ => some ()) g = .ok doc
    ∧ (Word.bodyParas doc).map (fun p => Word.seen doc 3 p.style) = some titleLook ::
      [Word.Role.body, .heading 1, .body, .bullet, .bullet, .heading 1, .body, .body].map Word.Role.look := by
  obtain ⟨g, doc, h1, h2, h3⟩ := C105_book_partial bookWorld 0 bookDoc bookSample_ok bookSample_legible
    (ascii_enc _ bookSample_ascii) bookSample_found (fun _ => some ()) (by
      intro e he
      simp only [Book.whole, bookDoc, blocksL, Passage.blocks, introParts, oneParts, moreParts, deepParts, List.cons_append, List.nil_append, List.mem_cons, List.not_mem_nil, or_false] at he
      rcases he with rfl | rfl | rfl | rfl | rfl | rfl | rfl
      all_goals simp [Tagged.block, Blk.block, Piece.block, Word.fine, Word.fineL]) ⟨false, by decide +kernel⟩ (by decide +kernel)
  rw [bookSample_written, Nat.zero_add] at h1
  exact ⟨g, doc, h1, h2, h3⟩

end Adoc.Props
