import Verif.Props.RichTables
/-!
# C81: description lists

The description lists of documents of the class of `Spec/RichDoc`.
-/
namespace Adoc.Props
open Spec Rich

/-- C81 for documents of the class: entries on lines that follow each other become one description list with exactly these
entries, in this order, each with its own term and its own description with all their text and inline markup; the
description may be on the line of the term or on the line below it. The list has the metadata lines written before it, and
the blocks after it are outside.

Missing: documents outside the class; for some of them the claim is false (below). Cross references in terms have no titles
of blocks in them. -/
theorem C81_dlists_partial (w : World) (k : Nat) (d : RichDoc) (ho : d.Ok) (hl : Legible [] d.signs [])
    (hu : ∃ cs, written d.signs = enc cs) (hw : ∀ x ∈ d.targets, There w [] x) :
    ∃ g, parseText w (k + 2) (written d.signs) = .ok g ∧ (listedL [] g.blocks).length = d.blocks.length
      ∧ ∀ (i : Nat) (tags : List Tag) (entries : List Described) (m : Gap),
        d.blocks[i]? = some ⟨tags, .dlist entries, m⟩ →
        ∃ path items, (listedL [] g.blocks)[i]? = some (path, .dlist items (tagsMeta tags) [])
          ∧ items.length = entries.length
          ∧ ∀ (j : Nat) (e : Described), entries[j]? = some e →
            items[j]? = some (.dlistItem (e.term.map Elem.inline) (shownL d.ids e.text) [] none []) := by
  obtain ⟨g, h1, h2, h3⟩ := C69_sections_partial w k d ho hl hu hw
  refine ⟨g, h1, h2, fun i tags entries m hi => ⟨_, _, h3 i _ hi, by simp, fun j e hj => ?_⟩⟩
  rw [List.getElem?_map, hj, ← shownL_nil]; rfl

/-! ### A document of the class -/

/-- The document, block by block. -/
def dlistDoc : RichDoc where
  blocks := [
    ⟨[], .para [.text [b!"one", b!"two"]], 2⟩,
    ⟨[.anchor b!"s"], .head 1 [.text [b!"S"]], 2⟩,
    ⟨[], .dlist [⟨[.text [b!"i"]], false, [.text [b!"j"]]⟩], 2⟩,
    ⟨[], .para [.text [b!"end"]], 2⟩,
    ⟨[.anchor b!"l", .list none [.named b!"role" b!"r"]], .dlist [
      ⟨[.text [b!"a "], .xref b!"s"], false, [.text [b!"b "], .span .strong [.text [b!"c"]]]⟩,
      ⟨[.symbol b!"->", .text [b!" d "], .span .emphasis [.text [b!"e"]]], true, [.text [b!"f "], .xref b!"s"]⟩,
      ⟨[.text [b!"g"]], false, [.link b!"https://x" [.text [b!"h"]]]⟩], 1⟩]

/-- How it is written. -/
def dlistText : Str := b!"one
two

[[s]]
== S

i:: j

end

[[l]]
[role=r]
a <<s>>:: b *c*
-> d _e_::
f <<s>>
g:: https://x[h]
"

theorem dlistSample_written : written dlistDoc.signs = dlistText := by decide +kernel

set_option maxRecDepth 20000 in
theorem dlistSample_utf8 : ∃ cs, written dlistDoc.signs = enc cs := by
  refine ⟨(String.fromUTF8? ⟨dlistText.toArray⟩).get!.toList, ?_⟩
  rw [dlistSample_written]
  decide +kernel

theorem dlistSample_legible : Legible [] dlistDoc.signs [] :=
  Scanner.legible_of_legibleB dlistSample_utf8 (by decide +kernel)

theorem dlistSample_ok : dlistDoc.Ok where
  head := by intro h hh; cases hh
  blocks := by
    intro e he
    simp only [dlistDoc, List.mem_cons, List.not_mem_nil, or_false] at he
    rcases he with rfl | rfl | rfl | rfl | rfl
    · refine ⟨?_, ?_, ?_⟩ <;>
        simp [TagsOk, Blk.Ok, Piece.Ok, ProseOk, ElemsOk, TextLines, EndsLine, TagsFor] <;> decide
    · refine ⟨?_, ?_, ?_⟩ <;>
        simp [TagsOk, Blk.Ok, ProseOk, ElemsOk, TextLines, EndsLine, TagsFor, OneLine, Elem.signs, textSigns, lineSigns,
          Spec.newline] <;> decide
    · refine ⟨?_, ⟨by simp, ⟨?_, ?_⟩⟩, ?_⟩
      all_goals simp [TagsOk, ProseOk, ElemsOk, TextLines, EndsLine, TagsFor]
      all_goals decide
    · refine ⟨?_, ?_, ?_⟩ <;>
        simp [TagsOk, Blk.Ok, Piece.Ok, ProseOk, ElemsOk, TextLines, EndsLine, TagsFor] <;> decide
    · refine ⟨?_, ⟨by simp, ⟨?_, ?_⟩, ?_, ?_, ⟨?_, ?_⟩, ?_, ?_, ⟨?_, ?_⟩⟩, ?_⟩
      · simp [TagsOk, ArgsOk, Unseparated, FirstOk]
        decide
      all_goals simp [ProseOk, ElemsOk, PartsOk, TextLines, EndsLine, TagsFor, PlainStart, Elem.hasSpan, Elem.isNote]
      all_goals decide
  gaps := by simp [dlistDoc, GapsOk, Blk.ending]
  flow := by decide
  ids := by decide
  icons := Scanner.no_callouts (by decide)
  signs := by
    have : ∀ s ∈ dlistDoc.signs, (match s with
      | .text _ => true
      | .mark ty l => ty ≠ .text && l.all (fun b => b.toNat < 128)) = true := by decide +kernel
    intro s hs
    have := this s hs
    cases s with
    | text => trivial
    | mark ty l =>
      simp only [Bool.and_eq_true, decide_eq_true_eq, List.all_eq_true] at this
      exact ⟨this.1, fun _ b hb => this.2 b hb⟩

/-- The two lists: the cross reference in the description shows the title of the section, the one in the term does not. -/
example : ∃ g, parseText emptyWorld 2 dlistText = .ok g
    ∧ (listedL [] g.blocks).map (·.2) =
      [.leaf .paragraph .paragraph none [literal b!"one\ntwo"] none [],
       .section [literal b!"S"] (some { attributes := [(b!"id", b!"s")] }) 1 [] [],
       .dlist [.dlistItem [literal b!"i"] [literal b!"j"] [] none []] none [],
       .leaf .paragraph .paragraph none [literal b!"end"] none [],
       .dlist [
          .dlistItem [literal b!"a ", .ref .xref b!"s" [] none []]
            [literal b!"b ", .span .strong .constrained [literal b!"c"] none [] false] [] none [],
          .dlistItem [.lit .charref b!"&#8594;" [], literal b!" d ", .span .emphasis .constrained [literal b!"e"] none [] false]
            [literal b!"f ", .ref .xref b!"s" [literal b!"S"] none []] [] none [],
          .dlistItem [literal b!"g"] [.ref .link b!"https://x" [literal b!"h"] none []] [] none []]
         (some { attributes := [(b!"id", b!"l")], roles := [b!"r"] }) []] := by
  obtain ⟨g, h1, h2, _⟩ := C23_rich_partial emptyWorld 0 dlistDoc dlistSample_ok dlistSample_legible dlistSample_utf8
    (fun _ h => by cases h)
  exact ⟨g, by rw [← dlistSample_written]; exact h1, by rw [h2]; rfl⟩

/-! ### Where the claim is false -/

/-- A term that ends with `tag` or `end` makes the program panic: it is taken for a tag. -/
theorem C81_panic : panics (parseText emptyWorld 5 b!"legend:: a\nc:: d\n") .slice = true := by decide +kernel

/-- The word `include` or `image` as a term makes the program run forever: it is taken for a macro. -/
theorem C81_hang : [b!"include:: a\n", b!"image:: a\n"].all (fun s => match parseText emptyWorld 5 s with
    | .error .hang => true
    | _ => false) = true := by
  decide +kernel

/-- If the term of the second entry begins with markup, the description before it becomes part of the term. -/
theorem C81_markup :
    returns ((parseText emptyWorld 5 b!"a:: b\n*c*:: d\n").map fun g => sketchBs g.blocks)
      b!"terms[term(a)()[] term(b\n|strong(c))(d)[]]" = true := by
  decide +kernel

/-- If the list has a title line, all descriptions are lost. -/
theorem C81_title :
    returns ((parseText emptyWorld 5 b!".Title\na:: b\nc:: d\n").map fun g => sketchBs g.blocks)
      b!"terms[term(\na)()[] term(c)()[]]" = true := by
  decide +kernel

/-- The second line of a description becomes part of the next term. -/
theorem C81_second_line :
    returns ((parseText emptyWorld 5 b!"a:: b\nx\nc:: d\n").map fun g => sketchBs g.blocks)
      b!"terms[term(a)(b)[] term(x|\n|c)(d)[]]" = true := by
  decide +kernel

/-- A description before a list in it becomes part of the first item of the list, and the next entry is in its last item. -/
theorem C81_list :
    returns ((parseText emptyWorld 5 b!"a:: b\n* c\n* d\ne:: f\n").map fun g => sketchBs g.blocks)
      b!"terms[term(a)()[list[item(bc)[] item(d)[terms[term(e)(f)[]]]]]]" = true := by
  decide +kernel

/-- A blank line between entries makes two lists of them. -/
theorem C81_blank_line :
    returns ((parseText emptyWorld 5 b!"a:: b\n\nc:: d\n").map fun g => sketchBs g.blocks)
      b!"terms[term(a)(b)[]] terms[term(c)(d)[]]" = true := by
  decide +kernel

/-- A newline becomes part of a term directly after an anchor. -/
theorem C81_anchor :
    returns ((parseText emptyWorld 5 b!"[[x]]\na:: b\n").map fun g => sketchBs g.blocks)
      b!"terms[term(\na)(b)[]]" = true := by
  decide +kernel

/-- After a description list, the lines of a paragraph are texts of their own. -/
theorem C81_paragraph_after :
    returns ((parseText emptyWorld 5 b!"a:: b\n\nc\nd\n").map fun g => sketchBs g.blocks)
      b!"terms[term(a)(b)[]] (c|\n|d)" = true := by
  decide +kernel

end Adoc.Props
