import Verif.Props.RichBoxes
import Verif.Props.RichCode
import Verif.Props.Blame
/-!
# C99: blocks that are attached to list items

The lists with attached blocks of documents of the class of `Spec/RichDoc`.
-/
namespace Adoc.Props
open Spec Rich

/-- C99 for documents of the class: a block between delimiters that is attached to a list item by a line with a plus sign is
in this item and in no other: the list has exactly the items that were written, in this order, each with its own text, its
inline markup and its marker, and in each item are exactly the blocks that were attached to it, in this order, each with its
kind, its delimiter and the blocks in it; the blocks after the list are outside.

Missing: documents outside the class; for some of them the claim is false (below). -/
theorem C99_attached_partial (w : World) (k : Nat) (d : RichDoc) (ho : d.Ok) (hl : Legible [] d.signs [])
    (hu : ∃ cs, written d.signs = enc cs) (hw : ∀ x ∈ d.targets, There w [] x) :
    ∃ g, parseText w (k + 2) (written d.signs) = .ok g ∧ (listedL [] g.blocks).length = d.blocks.length
      ∧ ∀ (i : Nat) (tags : List Tag) (v : ListVariant) (points : List Point) (m : Gap),
        d.blocks[i]? = some ⟨tags, .attached v points, m⟩ →
        ∃ path items, (listedL [] g.blocks)[i]? = some (path, .list v items (tagsMeta tags) [])
          ∧ items.length = points.length
          ∧ ∀ (j : Nat) (es : List Elem) (boxes : List Annex), points[j]? = some ⟨es, boxes⟩ →
            ∃ inner, items[j]? = some (.listItem (bullet v) (shownL d.ids es) inner none [])
              ∧ inner.length = boxes.length
              ∧ ∀ (n : Nat) (b : Box) (delim : Str) (lead : Nat) (held : List Held), boxes[n]? = some ⟨b, delim, lead, held⟩ →
                inner[n]? = some (.parent b.name none delim (held.map (Held.block d.ids)) [] none []) := by
  obtain ⟨g, h1, h2, h3⟩ := C69_sections_partial w k d ho hl hu hw
  refine ⟨g, h1, h2, fun i tags v points m hi => ⟨_, _, h3 i _ hi, by simp, fun j es boxes hj =>
    ⟨boxes.map (Annex.block d.ids), ?_, by simp, fun n b delim lead held hn => ?_⟩⟩⟩
  · rw [List.getElem?_map, hj]; rfl
  · rw [List.getElem?_map, hn]; rfl

/-! ### A document of the class -/

/-- The document, block by block. -/
def attachDoc : RichDoc where
  blocks := [
    ⟨[], .para [.text [b!"Steps"]], 2⟩,
    ⟨[.list none [.named b!"role" b!"r"]], .attached .unordered [
      ⟨[.text [b!"one "], .xref b!"l"], []⟩,
      ⟨[.text [b!"two "], .span .strong [.text [b!"b"]]], [
        ⟨.example, b!"====", 1, [
          ⟨[], .para [.text [b!"para"]], 2⟩,
          ⟨[.anchor b!"l"], .list .ordered [[.text [b!"x"]], [.text [b!"y"]]], 2⟩,
          ⟨[], .verb .listing b!"----" [Spec.newline, .mark .unorderedListItem b!"* ", .mark .charRef b!"->", Spec.newline], 1⟩]⟩,
        ⟨.open, b!"--", 2, [⟨[], .para [.text [b!"last"]], 1⟩]⟩]⟩,
      ⟨[.text [b!"three", b!"four"]], []⟩], 2⟩,
    ⟨[], .head 1 [.text [b!"S"]], 2⟩,
    ⟨[], .attached .ordered [⟨[.text [b!"a"]], []⟩, ⟨[.text [b!"b"]], [⟨.quote, b!"____", 1, [⟨[], .para [.text [b!"c"]], 1⟩]⟩]⟩], 1⟩]

/-- How it is written. -/
def attachText : Str := b!"Steps

[role=r]
* one <<l>>
* two *b*
+
====
para

[[l]]
. x
. y

----
* ->
----
====
+
--

last
--
* three
four

== S

. a
. b
+
____
c
____
"

theorem attachSample_written : written attachDoc.signs = attachText := by decide +kernel

theorem attachSample_ascii : ∀ b ∈ written attachDoc.signs, b.toNat < 128 := by decide +kernel

theorem attachSample_legible : Legible [] attachDoc.signs [] :=
  Scanner.legible_of_legibleB (ascii_enc _ attachSample_ascii) (by decide +kernel)

theorem annexOk_iff (a : Annex) : a.Ok ↔ 1 ≤ a.lead ∧ (∀ h ∈ a.held, h.Ok) ∧ HeldGaps a.held ∧ ∀ h ∈ a.held, h.piece.folded = false :=
  ⟨fun x => ⟨x.1, x.2, x.3, x.4⟩, fun x => ⟨x.1, x.2.1, x.2.2.1, x.2.2.2⟩⟩

theorem attachSample_ok : attachDoc.Ok where
  head := by intro h hh; cases hh
  blocks := by
    intro e he
    simp only [attachDoc, List.mem_cons, List.not_mem_nil, or_false] at he
    rcases he with rfl | rfl | rfl | rfl
    all_goals refine ⟨?_, ?_, ?_⟩
    all_goals simp [TagsOk, ArgsOk, FirstOk, Unseparated, Blk.Ok, Piece.Ok, heldOk_iff, annexOk_iff, Held.place, HeldGaps,
      Piece.closing, Piece.folded, ProseOk, ElemsOk, PartsOk, TextLines, EndsLine, Spec.OneLine, inVerb, joinB, Elem.signs,
      textSigns, lineSigns, Spec.newline, TagsFor]
    all_goals decide
  gaps := by simp [attachDoc, GapsOk, Blk.ending]
  flow := by decide
  ids := by decide
  icons := Scanner.no_callouts (by decide)
  signs := signsOk_of _ (by decide +kernel)

/-- The graph of the document: the two boxes are in the second item of the list. -/
example : ∃ g, parseText emptyWorld 2 attachText = .ok g
    ∧ (listedL [] g.blocks).map (·.2) =
      [.leaf .paragraph .paragraph none [literal b!"Steps"] none [],
       .list .unordered [
          .listItem b!"*" [literal b!"one ", .ref .xref b!"l" [] none []] [] none [],
          .listItem b!"*" [literal b!"two ", .span .strong .constrained [literal b!"b"] none [] false]
            [.parent .example_ none b!"====" [
                .leaf .paragraph .paragraph none [literal b!"para"] none [],
                .list .ordered [.listItem b!"." [literal b!"x"] [] none [], .listItem b!"." [literal b!"y"] [] none []]
                  (some { attributes := [(b!"id", b!"l")] }) [],
                .leaf .listing .delimited (some b!"----") [literal b!"\n* ->\n"] none []] [] none [],
              .parent .open_ none b!"--" [.leaf .paragraph .paragraph none [literal b!"last"] none []] [] none []] none [],
          .listItem b!"*" [literal b!"three\nfour"] [] none []] (some { roles := [b!"r"] }) [],
       .section [literal b!"S"] none 1 [] [],
       .list .ordered [
          .listItem b!"." [literal b!"a"] [] none [],
          .listItem b!"." [literal b!"b"]
            [.parent .quote none b!"____" [.leaf .paragraph .paragraph none [literal b!"c"] none []] [] none []] none []] none []] := by
  obtain ⟨g, h1, h2, _⟩ := C23_rich_partial emptyWorld 0 attachDoc attachSample_ok attachSample_legible
    (ascii_enc _ attachSample_ascii) (fun _ h => by cases h)
  exact ⟨g, by rw [← attachSample_written]; exact h1, by rw [h2]; rfl⟩

/-! ### Where the claim is false -/

/-- A paragraph that is attached is a part of the text of the item, and the item after it comes to nothing: its text is a
paragraph before the list. -/
theorem C99_paragraph :
    returns ((parseText emptyWorld 5 b!"* a\n+\nb\n* d\n").map fun g => sketchBs g.blocks) b!"(d) list[item(a|b)[] item()[]]" = true := by
  decide +kernel

/-- A paragraph that is attached and a blank line after it: the conversion fails. -/
theorem C99_paragraph_end : errs (parseText emptyWorld 5 b!"x\n\n* a\n* z\n+\nb c\n\nx\n") .blockContinuation = true := by
  decide +kernel

/-- Newlines between the lines of a paragraph in a block that is attached are lost. -/
theorem C99_lines :
    returns ((parseText emptyWorld 5 b!"* a\n* z\n+\n====\nb\nc\n====\n* d\n").map fun g => sketchBs g.blocks)
      b!"list[item(a)[] item(z)[example[(bc)]] item(d)[]]" = true := by
  decide +kernel

/-- A block that is attached to the first item of a list after a paragraph: the conversion fails. -/
theorem C99_first_item : errs (parseText emptyWorld 5 b!"x\n\n* a\n+\n====\nb\n====\n* d\n") (.block .notImplemented) = true := by
  decide +kernel

/-- A listing that is attached makes the program panic: this is not implemented. -/
theorem C99_listing : panics (parseText emptyWorld 5 b!"* a\n* b\n+\n----\nc\n----\n") .todo = true := by
  decide +kernel

/-- After a thematic break that is attached, the text of the next item is a paragraph before the list. -/
theorem C99_break :
    returns ((parseText emptyWorld 5 b!"* a\n* b\n+\n'''\n* c\n").map fun g => sketchBs g.blocks)
      b!"(c) list[item(a)[] item(b)[break] item()[]]" = true := by
  decide +kernel

/-- A box in a box that is attached is outside of the list, and so is what comes after it. -/
theorem C99_inner_box :
    returns ((parseText emptyWorld 5 b!"* a\n* b\n+\n====\nc\n\n--\nd\n--\n====\n* e\n").map fun g => sketchBs g.blocks)
      b!"open[(d) example[list[item()[(e)]]]] list[item(a)[] item(b)[example[(c)]]]" = true := by
  decide +kernel

/-- With a blank line before the plus sign the conversion fails. -/
theorem C99_blank_line : errs (parseText emptyWorld 5 b!"* a\n* b\n\n+\n====\nc\n====\n") .blockContinuation = true := by
  decide +kernel

/-- In a description list the same: a paragraph that is attached becomes a part of the next term. -/
theorem C99_description_list :
    returns ((parseText emptyWorld 5 b!"a:: b\n+\nc\nd:: e\n").map fun g => sketchBs g.blocks)
      b!"(e) terms[term(a)(b)[] term(cd)()[]]" = true := by
  decide +kernel

end Adoc.Props
