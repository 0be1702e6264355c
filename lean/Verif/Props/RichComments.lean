import Verif.Props.RichBooks
import Verif.Props.Verbatim
import Verif.Props.Blame
/-!
# C21: comments in documents

Comments between the blocks of a document of the class of `Spec/RichDoc`, and comment lines between lines of text.
-/
namespace Adoc.Props
open Spec Rich Parser

/-! ## Between blocks -/

/-- The newlines without the comments. -/
def bareGap (g : Gap) : Gap := ⟨g.newlines, []⟩

/-- A document without its comments. -/
def uncommented (d : RichDoc) : RichDoc where
  head := d.head
  lead := bareGap d.lead
  blocks := d.blocks.map fun e => { e with gap := bareGap e.gap }

theorem bareGap_signs {g : Gap} {s : Sign} (h : s ∈ (bareGap g).signs) : s ∈ g.signs := by
  simp only [bareGap, Gap.signs, List.flatMap_nil, List.append_nil] at h
  exact List.mem_append_left _ h

theorem bareGap_ok {n : Nat} {last : Bool} {g : Gap} (hn : n ≤ 2) (h : g.Ok n last) : (bareGap g).Ok n last := by
  refine ⟨?_, trivial⟩
  have := h.1
  simp only [bareGap, List.isEmpty_nil, if_true]
  split at this <;> omega

theorem ending_le (b : Blk) : b.ending ≤ 2 := by
  cases b <;> simp only [Blk.ending] <;> (try split) <;> omega

theorem bareGap_gaps : ∀ es : List Tagged, GapsOk es → GapsOk (es.map fun e => { e with gap := bareGap e.gap })
  | [], _ => trivial
  | [e], h => bareGap_ok (ending_le e.blk) h
  | _ :: e' :: es, h => ⟨bareGap_ok (Nat.le_refl 2) h.1, bareGap_gaps (e' :: es) h.2⟩

theorem uncommented_ids (d : RichDoc) : (uncommented d).ids = d.ids := by
  show (d.blocks.map _).flatMap Tagged.ids = d.blocks.flatMap Tagged.ids
  rw [List.flatMap_map]
  rfl

/-- Without its comments a document is still well formed. -/
theorem uncommented_ok {d : RichDoc} (h : d.Ok) : (uncommented d).Ok where
  head := h.head
  lead := trivial
  blocks := by
    intro e he
    obtain ⟨c, hc, rfl⟩ := List.mem_map.1 he
    exact ⟨(h.blocks c hc).tags, (h.blocks c hc).blk, (h.blocks c hc).place⟩
  gaps := bareGap_gaps _ h.gaps
  flow := by
    have : (uncommented d).blocks.map (·.blk) = d.blocks.map (·.blk) := by simp [uncommented]
    rw [this]
    exact h.flow
  ids := by rw [uncommented_ids]; exact h.ids
  signs := by
    intro s hs
    refine h.signs s ?_
    simp only [RichDoc.signs, uncommented, List.mem_append, List.mem_flatMap, List.mem_map] at hs ⊢
    rcases hs with hs | hs | ⟨e, ⟨c, hc, rfl⟩, hs⟩
    · exact .inl hs
    · exact .inr (.inl (bareGap_signs hs))
    · refine .inr (.inr ⟨c, hc, ?_⟩)
      simp only [Tagged.signs, List.mem_append] at hs ⊢
      rcases hs with hs | hs | hs
      · exact .inl hs
      · exact .inr (.inl hs)
      · exact .inr (.inr (bareGap_signs hs))
  icons := by
    rintro ⟨e, he, hc⟩
    obtain ⟨c, hc', rfl⟩ := List.mem_map.1 he
    exact h.icons ⟨c, hc', hc⟩

/-- **C21, partial** (documents): comments between the blocks of a document, at its beginning and at its end, line comments
and comment blocks with any text in them, leave no trace: the graph is that of the document without the comments, up to
locations.

Missing: comments without a blank line before or after them, for which the claim is false in places (`C21_newline`,
`C21_text_before`, `C21_metadata`, and below), and comments inside of blocks, for which see `C21_inner_partial`. -/
theorem C21_documents_partial (w : World) (k : Nat) (d : RichDoc) (ho : d.Ok)
    (hl : Legible [] d.signs []) (hu : ∃ cs, written d.signs = enc cs)
    (hl' : Legible [] (uncommented d).signs []) (hu' : ∃ cs, written (uncommented d).signs = enc cs)
    (hw : ∀ x ∈ d.targets, There w [] x) :
    ∃ g g', parseText w (k + 2) (written d.signs) = .ok g ∧ parseText w (k + 2) (written (uncommented d).signs) = .ok g'
      ∧ listedL [] g.blocks = listedL [] g'.blocks
      ∧ g.header.map (fun h => bareL h.title) = g'.header.map (fun h => bareL h.title)
      ∧ g.attributes = g'.attributes := by
  obtain ⟨g, h1, h2, h3, h4⟩ := parse_rich w k d ho hl hu hw
  obtain ⟨g', h5, h6, h7, h8⟩ := parse_rich w k (uncommented d) (uncommented_ok ho) hl' hu' (fun x hx => hw x (by
    obtain ⟨e, he, hx⟩ := List.mem_flatMap.1 hx
    obtain ⟨c, hc, rfl⟩ := List.mem_map.1 he
    exact List.mem_flatMap.2 ⟨c, hc, hx⟩))
  refine ⟨g, g', h1, h5, ?_, by rw [h3, h7]; rfl, by rw [h4, h8]; rfl⟩
  rw [h2, h6, uncommented_ids]
  exact (contents_gaps _ _ _ _ (by simp [uncommented])).1

/-! ### A document of the class -/

/-- A document with comments at the beginning, between blocks and at the end. -/
def remarkDoc : RichDoc where
  head := some ⟨[.text [b!"T"]], [], 2⟩
  lead := ⟨1, [.line b!"// first" 2, .block b!"////" [newline, .mark .heading2 b!"== ", .text b!"No", newline, newline,
    .mark .sourceBlock b!"----", newline] 2]⟩
  blocks := [
    ⟨[.anchor b!"a"], .head 1 [.text [b!"One"]], ⟨2, [.line b!"// second *" 3]⟩⟩,
    ⟨[], .para [.text [b!"p"]], ⟨2, [.block b!"////" [newline] 2, .line b!"//" 2]⟩⟩,
    ⟨[], .list .unordered [[.text [b!"i"]], [.text [b!"j"]]], 2⟩,
    ⟨[], .para [.text [b!"end "], .xref b!"a"], ⟨2, [.line b!"// last" 0]⟩⟩]

/-- How it is written. -/
def remarkText : Str := b!"= T


// first

////
== No

----
////

[[a]]
== One

// second *


p

////
////

//

* i
* j

end <<a>>

// last"

theorem remark_written : written remarkDoc.signs = remarkText := by decide +kernel

theorem remark_ok : remarkDoc.Ok where
  head := by
    intro h hh
    cases hh
    refine ⟨?_, by simp, by decide⟩
    simp [ProseOk, ElemsOk, TextLines, EndsLine, Spec.OneLine, Elem.signs, textSigns, lineSigns, Elem.plain]
    decide
  lead := by decide
  blocks := by
    intro e he
    simp only [remarkDoc, List.mem_cons, List.not_mem_nil, or_false] at he
    rcases he with rfl | rfl | rfl | rfl
    all_goals refine ⟨?_, ?_, ?_⟩
    all_goals simp [TagsOk, Blk.Ok, Piece.Ok, ProseOk, ElemsOk, PartsOk, TextLines, EndsLine, TagsFor, Spec.OneLine, Elem.signs, textSigns,
      lineSigns, Spec.newline]
    all_goals decide
  gaps := by simp [remarkDoc, GapsOk, Blk.ending, Remark.Ok, Remark.gap, Spec.newline, endsComment]
  flow := by decide +kernel
  ids := by decide +kernel
  icons := Scanner.no_callouts (by decide)
  signs := signsOk_of _ (by decide +kernel)

/-- The text without the comments. -/
def bareText : Str := b!"= T


[[a]]
== One

p

* i
* j

end <<a>>

"

theorem bare_written : written (uncommented remarkDoc).signs = bareText := by decide +kernel

/-- Both texts have the same graph up to locations. -/
example : ∃ g g', parseText emptyWorld 2 remarkText = .ok g ∧ parseText emptyWorld 2 bareText = .ok g'
    ∧ listedL [] g.blocks = listedL [] g'.blocks := by
  have ha : ∀ b ∈ written remarkDoc.signs, b.toNat < 128 := by rw [remark_written]; decide +kernel
  have hb : ∀ b ∈ written (uncommented remarkDoc).signs, b.toNat < 128 := by rw [bare_written]; decide +kernel
  obtain ⟨g, g', h1, h2, h3, _⟩ := C21_documents_partial emptyWorld 0 remarkDoc remark_ok
    (Scanner.legible_of_legibleB (ascii_enc _ ha) (by decide +kernel)) (ascii_enc _ ha)
    (Scanner.legible_of_legibleB (ascii_enc _ hb) (by decide +kernel)) (ascii_enc _ hb) (fun _ h => by cases h)
  exact ⟨g, g', by rw [← remark_written]; exact h1, by rw [← bare_written]; exact h2, h3⟩

/-! ### Where the claim is false -/

/-- **C21** is false for a comment before the title of the document: the title is an error then. -/
theorem C21_before_title : errs (parseText emptyWorld 5 b!"// c\n= T\n\na\n") (.topLevelHeading 2) = true
    ∧ returns ((parseText emptyWorld 5 b!"= T\n\na\n").map fun g => sketchBs g.blocks) b!"(a)" = true := by decide +kernel

/-- **C21** is false for a comment block without a blank line after it: the newline is in the next paragraph. -/
theorem C21_block_newline : returns ((parseText emptyWorld 5 b!"a\n\n////\nc\n////\nb\n").map fun g => sketchBs g.blocks)
    b!"(a) (\nb)" = true := by decide +kernel

/-! ## Between lines of text -/

/-- **C21, partial** (comment lines): wherever a newline is only kept in mind until the next token comes, as it is in the
text of paragraphs, list items and spans, a line with a comment that follows is as if it were not there: everything that
comes after it leads to the same result, with the same locations.

Missing: comment lines in the header and in titles, after a blank line, after a continuation, or after the delimiter of a
block. -/
theorem C21_inner_partial (w : World) (k : Nat) (p : Parser) (n c n' : Token) (hn : n.ty = .newLineChar) (hc : c.ty = .comment)
    (hn' : n'.ty = .newLineChar) (hh : p.header = none) (ho : p.openText = none) (ht : p.title = none)
    (hl : p.lastTy ≠ .newLineChar) (he : p.lastTy ≠ .eof) (hi : p.inCont = false) (hcl : p.lastTy.clearsNewlineAfter = false)
    (items : List Item) :
    feed (tokenInto w (k + 1)) true (.tok n :: .tok c :: .tok n' :: items) p = feed (tokenInto w (k + 1)) true (.tok n' :: items) p := by
  have h1 := newLine_first w k p n hn hh ho ht hl he hi hcl
  have h2 := C21_line_partial w k { p with inBlockLine := false, dangling := some n, lastTy := .newLineChar } c hc (.inl ho)
  have h3 := newLine_first w k { p with inBlockLine := false, dangling := some n, lastTy := .comment } n' hn' hh ho ht nofun nofun hi rfl
  have h4 := newLine_first w k p n' hn' hh ho ht hl he hi hcl
  rw [feed_cons _ _ _ _ _ h1, hn, feed_cons _ _ _ _ _ h2, hc, feed_cons _ _ _ _ _ h3, feed_cons _ _ _ _ _ h4]

/-- In a paragraph, in a span and in a list item. -/
example : returns ((parseText emptyWorld 5 b!"a *b\n// c\nd* e\n\n* i\n// c\nj\n").map fun g => sketchBs g.blocks)
      b!"(a |strong(b\nd)| e) list[item()[(i\nj)]]" = true
    ∧ returns ((parseText emptyWorld 5 b!"a *b\nd* e\n\n* i\nj\n").map fun g => sketchBs g.blocks)
      b!"(a |strong(b\nd)| e) list[item()[(i\nj)]]" = true := by decide +kernel

end Adoc.Props
