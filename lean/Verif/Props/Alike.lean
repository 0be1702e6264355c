import Verif.Spec.Alike
import Verif.Props.RichPages
/-!
# C106: the HTML page and the Word document show the same text
-/
namespace Adoc.Props
open Spec Rich Parser Markup Alike

mutual
private theorem sameI_read (i : Inline) (h : sameI i = true) : readI i = Word.shown i := by
  match i with
  | .lit n v l =>
    simp only [sameI, Bool.and_eq_true, decide_eq_true_eq] at h
    obtain ⟨rfl, h⟩ := h
    simp only [readI, Word.shown, Docx.refdChar, seen_noTag h]
  | .brk l => rfl
  | .span v f is m l o =>
    simp only [sameI] at h
    simp only [readI, Word.shown, sameIs_read is h]
  | .ref v t is m l =>
    simp only [sameI, Bool.and_eq_true, Bool.or_eq_true, decide_eq_true_eq, Bool.not_eq_true'] at h
    have := sameIs_read is h.2
    cases v with
    | image => simp only [readI, Word.shown, this]
    | link =>
      have e : is.isEmpty = false := by simpa using h.1
      simp only [readI, Word.shown, this, e, Bool.false_eq_true, if_false]
    | xref =>
      have e : is.isEmpty = false := by simpa using h.1
      simp only [readI, Word.shown, this, e, Bool.false_eq_true, if_false]
private theorem sameIs_read (is : List Inline) (h : sameIs is = true) : readIs is = Word.shownL is := by
  match is with
  | [] => rfl
  | i :: is =>
    simp only [sameIs, Bool.and_eq_true] at h
    simp only [readIs, Word.shownL, sameI_read i h.1, sameIs_read is h.2]
end

private theorem credit_none {m : Option Meta} (h : uncredited m = true) : credit m = [] ∧ Word.source m = [] := by
  cases m with
  | none => exact ⟨rfl, rfl⟩
  | some m =>
    have e : m.attributes.get? b!"attribution" = none := by simpa [uncredited] using h
    constructor
    · simp [credit, value, e]
    · simp only [Word.source, Option.bind_some, e]

mutual
/-- What there is to read in a block on the page is what there is to read in it in the Word document. -/
theorem same_read (b : Block) (h : same b = true) : Markup.read b = Word.content b := by
  match b with
  | .section t m v bs l =>
    simp only [same, Bool.and_eq_true] at h
    simp only [Markup.read, Word.content, sameIs_read t h.1.1, (credit_none h.1.2).1, sameL_read bs h.2, List.append_nil]
  | .list v bs m l =>
    simp only [same, Bool.and_eq_true] at h
    simp only [Markup.read, Word.content, (credit_none h.2).1, sameL_read bs h.1, List.append_nil]
  | .listItem k p bs m l =>
    simp only [same, Bool.and_eq_true] at h
    simp only [Markup.read, Word.content, sameIs_read p h.1.1, (credit_none h.2).1, sameL_read bs h.1.2, List.append_nil]
  | .dlist bs m l =>
    simp only [same, Bool.and_eq_true] at h
    simp only [Markup.read, Word.content, (credit_none h.2).1, sameL_read bs h.1, List.append_nil]
  | .dlistItem t p bs m l =>
    simp only [same, Bool.and_eq_true] at h
    simp only [Markup.read, Word.content, sameIs_read t h.1.1.1, sameIs_read p h.1.1.2, (credit_none h.2).1,
      sameL_read bs h.1.2, List.append_nil]
  | .brk v l =>
    simp only [same, decide_eq_true_eq] at h
    subst h
    rfl
  | .image t c m l =>
    simp only [same, Bool.and_eq_true] at h
    simp only [Markup.read, Word.content, sameIs_read c h.1, (credit_none h.2).1, List.append_nil]
  | .leaf n f d is m l =>
    simp only [same] at h
    simp only [Markup.read, Word.content, sameIs_read is h]
  | .parent n v d bs t m l =>
    simp only [same, Bool.and_eq_true, Option.isNone_iff_eq_none] at h
    obtain ⟨⟨⟨rfl, ht⟩, hb⟩, hm⟩ := h
    cases n <;> simp [Markup.read, Word.content, Word.label, Word.parTexts, sameIs_read t ht, sameL_read bs hb,
      (credit_none hm).1, (credit_none hm).2]
  | .tableCell is m l =>
    simp only [same, Bool.and_eq_true] at h
    simp only [Markup.read, Word.content, sameIs_read is h.1, (credit_none h.2).1, List.append_nil]
/-- The same for each block. -/
theorem sameL_read (bs : List Block) (h : sameL bs = true) : readL bs = Word.contentL bs := by
  match bs with
  | [] => rfl
  | b :: bs =>
    simp only [sameL, Bool.and_eq_true] at h
    simp only [readL, Word.contentL, same_read b h.1, sameL_read bs h.2]
end

/-- C106, partial: if both are written, the text that a reader of the page sees is the text of the paragraphs of the Word document,
up to white space.

Missing: character references, `<` in texts, references without a text, thematic breaks, labels of admonitions, attributions and
captions, for which it is false (below), and the constructs that are lost in one of them (C54, C62). -/
theorem C106_alike_partial (sees : Bool) (io : Str → Option Unit) (g : Asg) (hs : sameDoc g = true)
    (ht : tidyDoc balanced g = true) (hw : writtenDoc g = true) (hk : Word.keptL g.blocks = true) (page : Str)
    (hp : Html.render sees g = .ok page) (d : Docx.Doc) (hd : Docx.render io g = .ok d) :
    Alike (seen page) ((Word.bodyParas d).map Word.paraText).flatten := by
  refine ⟨readDoc g, C62_text_partial sees g ht hw page hp, ?_⟩
  have e : readDoc g = Word.contentDoc g := by
    simp only [sameDoc, Bool.and_eq_true] at hs
    simp only [readDoc, Word.contentDoc, sameL_read _ hs.2]
    congr 1
    cases hg : g.header with
    | none => rfl
    | some h =>
      have h1 := hs.1
      rw [hg] at h1
      exact sameIs_read _ h1
  rw [e]
  exact C54_content_partial io g d hd hk

/-- What both show of a source text. -/
def bothShow (src : Str) : Option (Str × Str) :=
  match parseText emptyWorld 5 src with
  | .ok g =>
    match Html.render true g, Docx.render (fun _ => some ()) g with
    | .ok page, .ok d => some (squash (seen page), ((Word.bodyParas d).map Word.paraText).flatten)
    | _, _ => none
  | .error _ => none

/-- The conditions of `C106_alike_partial` for the graph of a source text. -/
def alikeSource (src : Str) : Bool :=
  match parseText emptyWorld 5 src with
  | .ok g => sameDoc g && tidyDoc balanced g && writtenDoc g && Word.keptL g.blocks
  | .error _ => false

example : alikeSource b!"= Doc\n\nSome *bold* text.\n\n== One\n\n* a\n* b\n\n====\nin a box\n====\n" = true ∧
    bothShow b!"= Doc\n\nSome *bold* text.\n\n== One\n\n* a\n* b\n\n====\nin a box\n====\n" =
      some (b!"DocSomeboldtext.Oneabinabox", b!"DocSome bold text.Oneabin a box") := by decide +kernel

/-- The property as stated is false: Word documents have the labels of admonitions, and a number sign for a thematic break. -/
theorem C106_labels : bothShow b!"NOTE: x\n" = some (b!"x", b!"Notex") ∧ bothShow b!"a\n\n'''\n" = some (b!"a", b!"a#") := by
  decide +kernel

/-- References without a text show their target on the page and nothing in the Word document. -/
theorem C106_references :
    bothShow b!"see <<nowhere>> here\n" = some (b!"see#nowherehere", b!"see  here") ∧
    bothShow b!"see http://x.org[] here\n" = some (b!"seehttp://x.orghere", b!"see  here") := by decide +kernel

/-- The citation is on the page only, and a dash before the attribution in the Word document only. -/
theorem C106_attribution :
    bothShow b!"[quote,Me,Book]\n____\na\n____\n" = some (b!"aMe,Book", b!"a— Me\n") := by decide +kernel

/-- The title of a quotation is on the page only; text between angle brackets is in the Word document only. -/
theorem C106_lost : bothShow b!".T\n____\na\n____\n" = some (b!"Ta", b!"a") ∧
    bothShow b!"a < b > c\n" = some (b!"ac", b!"a < b > c") := by decide +kernel

/-! ## From the source text -/

private theorem word_of_contents {g : Asg} {d : RichDoc} (h2 : listedL [] g.blocks = contents d.ids [] d.blocks)
    (h3 : g.header.map (fun h => bareL h.title) = d.head.map fun h => shownL [] h.title) (io : Str → Option Unit)
    (hk : ∀ e ∈ d.blocks, Word.kept (e.block d.ids) = true) (hf : ∀ e ∈ d.blocks, Word.fine io (e.block d.ids)) :
    ∃ doc, Docx.render io g = .ok doc
      ∧ Word.SameWords (headShown d.head ++ d.blocks.flatMap fun e => Word.content (e.block d.ids))
        ((Word.bodyParas doc).map Word.paraText).flatten := by
  obtain ⟨doc, hdoc⟩ := C58_returns io g ((fineL_listed io g.blocks []).1 (forall_blocks h2 hf))
  refine ⟨doc, hdoc, ?_⟩
  have := C54_content_partial io g doc hdoc (by
    rw [← keptL_listed g.blocks []]
    exact all_blocks h2 hk)
  have e : Word.contentDoc g = headShown d.head ++ d.blocks.flatMap fun e => Word.content (e.block d.ids) := by
    rw [Word.contentDoc, ← contentL_listed g.blocks [], flatMap_blocks h2]
    congr 1
    cases hg : g.header with
    | none =>
      cases hd : d.head with
      | none => rfl
      | some e => rw [hg, hd] at h3; simp at h3
    | some x =>
      cases hd : d.head with
      | none => rw [hg, hd] at h3; simp at h3
      | some e =>
        rw [hg, hd] at h3
        have h3 : bareL x.title = shownL [] e.title := Option.some.inj h3
        simp only [headShown]
        rw [← Rich.shownL_bare, h3]
  rwa [e] at this

private theorem words_alike {d : RichDoc} (hp : d.Printable) (hs : ∀ e ∈ d.blocks, same (e.block d.ids) = true)
    (hh : ∀ h ∈ d.head, sameIs (shownL [] h.title) = true) :
    d.words = headShown d.head ++ d.blocks.flatMap fun e => Word.content (e.block d.ids) := by
  rw [RichDoc.words]
  congr 1
  · cases hd : d.head with
    | none => rfl
    | some h =>
      simp only [headWords, headShown]
      rw [← sameIs_read _ (hh h hd), read_shownL_nil (hp.title h hd)]
  · have key : ∀ es : List Tagged, (∀ e ∈ es, e ∈ d.blocks) →
        es.flatMap (Tagged.words d.titles) = es.flatMap fun e => Word.content (e.block d.ids) := by
      intro es
      induction es with
      | nil => exact fun _ => rfl
      | cons e es ih =>
        intro hes
        rw [List.flatMap_cons, List.flatMap_cons, ih fun x hx => hes x (List.mem_cons_of_mem _ hx)]
        congr 1
        have he := hes e List.mem_cons_self
        rw [← same_read _ (hs e he)]
        have := hp.clean e he
        rw [doc_ids] at this ⊢
        exact (read_blk this).symm
    exact key _ fun _ h => h

/-- C106 for documents of the class: parsing and writing both outputs succeed, and they show the same text. -/
theorem C106_source_partial (sees : Bool) (w : World) (k : Nat) (d : RichDoc) (ho : d.Ok) (hl : Legible [] d.signs [])
    (hu : ∃ cs, written d.signs = enc cs) (hw : ∀ x ∈ d.targets, There w [] x) (hp : d.Printable) (io : Str → Option Unit)
    (hk : ∀ e ∈ d.blocks, Word.kept (e.block d.ids) = true) (hf : ∀ e ∈ d.blocks, Word.fine io (e.block d.ids))
    (hs : ∀ e ∈ d.blocks, same (e.block d.ids) = true) (hh : ∀ h ∈ d.head, sameIs (shownL [] h.title) = true) :
    ∃ g page doc, parseText w (k + 2) (written d.signs) = .ok g ∧ Html.render sees g = .ok page ∧ Docx.render io g = .ok doc
      ∧ Alike (seen page) ((Word.bodyParas doc).map Word.paraText).flatten := by
  obtain ⟨g, h1, h2, h3, _⟩ := C23_rich_partial w k d ho hl hu hw
  obtain ⟨page, p1, p2, _⟩ := page_of_contents sees hp h2 h3
  obtain ⟨doc, d1, d2⟩ := word_of_contents h2 h3 io hk hf
  exact ⟨g, page, doc, h1, p1, d1, d.words, p2, words_alike hp hs hh ▸ d2⟩

/-- The same for documents that include other files. -/
theorem C106_book_partial (sees : Bool) (w : World) (k : Nat) (d : Book) (ho : d.Ok) (hl : Legible [] d.signs [])
    (hu : ∃ cs, written d.signs = enc cs) (hw : foundL w d.parts []) (hp : d.whole.Printable) (io : Str → Option Unit)
    (hk : ∀ e ∈ d.whole.blocks, Word.kept (e.block d.whole.ids) = true)
    (hf : ∀ e ∈ d.whole.blocks, Word.fine io (e.block d.whole.ids))
    (hs : ∀ e ∈ d.whole.blocks, same (e.block d.whole.ids) = true)
    (hh : ∀ h ∈ d.whole.head, sameIs (shownL [] h.title) = true) :
    ∃ g page doc, parseText w (k + depthL d.parts + 2) (written d.signs) = .ok g ∧ Html.render sees g = .ok page
      ∧ Docx.render io g = .ok doc ∧ Alike (seen page) ((Word.bodyParas doc).map Word.paraText).flatten := by
  obtain ⟨g, h1, h2, h3, _⟩ := parse_book w k d ho hl hu hw
  obtain ⟨page, p1, p2, _⟩ := page_of_contents sees hp h2 h3
  obtain ⟨doc, d1, d2⟩ := word_of_contents (d := d.whole) h2 h3 io hk hf
  exact ⟨g, page, doc, h1, p1, d1, d.whole.words, p2, words_alike hp hs hh ▸ d2⟩

/-- The document of several files of `Props/RichBooks`. -/
example : ∃ g page doc, parseText bookWorld (depthL bookDoc.parts + 2) bookText = .ok g ∧ Html.render true g = .ok page
    ∧ Docx.render (fun _ => some ()) g = .ok doc ∧ Alike (seen page) ((Word.bodyParas doc).map Word.paraText).flatten := by
  obtain ⟨g, page, doc, h1, h2⟩ := C106_book_partial true bookWorld 0 bookDoc bookSample_ok bookSample_legible
    (ascii_enc _ bookSample_ascii) bookSample_found ⟨by decide +kernel, by decide +kernel, by decide +kernel, by decide +kernel⟩
    (fun _ => some ()) (by decide +kernel) (by
      intro e he
      simp only [Book.whole, bookDoc, blocksL, Passage.blocks, introParts, oneParts, moreParts, deepParts, List.cons_append, List.nil_append, List.mem_cons, List.not_mem_nil, or_false] at he
      rcases he with rfl | rfl | rfl | rfl | rfl | rfl | rfl
      all_goals simp [Tagged.block, Blk.block, Piece.block, Word.fine, Word.fineL]) (by decide +kernel) (by decide +kernel)
  rw [bookSample_written, Nat.zero_add] at h1
  exact ⟨g, page, doc, h1, h2⟩

end Adoc.Props
