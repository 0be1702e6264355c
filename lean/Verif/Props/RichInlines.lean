import Verif.Props.RichBoxes
/-!
# A document with footnotes, images and hard line breaks

A third document of the class of `Spec/RichDoc`, and texts with footnotes for which C70 is false.
-/
namespace Adoc.Props
open Spec Rich

/-- The document, block by block. -/
def noteDoc : RichDoc where
  blocks := [
    ⟨[], .para [.text [b!"A "], .note [.text [b!"see "], .span .strong [b!"this"], .text [[], b!"then"]],
      .text [b!" word "], .image b!"x.png" [.pos b!"Alt", .named b!"width" b!"40"], .text [b!" here "], .hard,
      .text [[], b!"and "], .link b!"https://a.b" [.text [b!"go"]], .text [b!" "], .note [], .text [b!" end"]], 2⟩,
    ⟨[.list none [.named b!"role" b!"r"]], .para [.image b!"y.png" [], .text [b!" and "], .note [.text [b!"z"]]], 1⟩]

/-- How it is written. -/
def noteText : Str := b!"A footnote:[see *this*
then] word image:x.png[Alt,width=40] here +
and https://a.b[go] footnote:[] end

[role=r]
image:y.png[] and footnote:[z]
"

theorem noteSample_written : written noteDoc.signs = noteText := by decide +kernel

set_option maxRecDepth 20000 in
theorem noteSample_utf8 : ∃ cs, written noteDoc.signs = enc cs := by
  refine ⟨(String.fromUTF8? ⟨noteText.toArray⟩).get!.toList, ?_⟩
  rw [noteSample_written]
  decide +kernel

theorem noteSample_legible : Legible [] noteDoc.signs [] :=
  Scanner.legible_of_legibleB noteSample_utf8 (by decide +kernel)

theorem noteSample_ok : noteDoc.Ok where
  head := by intro h hh; cases hh
  blocks := by
    intro e he
    simp only [noteDoc, List.mem_cons, List.not_mem_nil, or_false] at he
    rcases he with rfl | rfl
    all_goals refine ⟨?_, ?_, ?_⟩
    all_goals simp [TagsOk, ArgsOk, FirstOk, Unseparated, Blk.Ok, Piece.Ok, ProseOk, ElemsOk, PartsOk, ImageOk, TextLines, EndsLine,
      joinB, TagsFor, Elem.hasSpan]
    all_goals decide
  gaps := by simp [noteDoc, GapsOk, Blk.ending]
  flow := by decide
  ids := by decide
  icons := Scanner.no_callouts (by decide)
  signs := by
    have : ∀ s ∈ noteDoc.signs, (match s with
      | .text _ => true
      | .mark ty l => ty ≠ .text && l.all (fun b => b.toNat < 128)) = true := by decide +kernel
    intro s hs
    have := this s hs
    cases s with
    | text => trivial
    | mark ty l =>
      simp only [Bool.and_eq_true, decide_eq_true_eq, List.all_eq_true] at this
      exact ⟨this.1, fun _ b hb => this.2 b hb⟩

/-- The footnotes, images and the break are where they were written. -/
example : ∃ g, parseText emptyWorld 2 noteText = .ok g
    ∧ (listedL [] g.blocks).flatMap (fun x => texts x.2) =
      [[literal b!"A ",
        .span .footnote .constrained [literal b!"see ", .span .strong .constrained [literal b!"this"] none [] false, literal b!"\nthen"]
          none [] true,
        literal b!" word ",
        .ref .image b!"x.png" [] (some { inlineMeta := true, attributes := [(b!"positional_1", b!"Alt"), (b!"width", b!"40")] }) [],
        literal b!" here ", .brk [], literal b!"\nand ", .ref .link b!"https://a.b" [literal b!"go"] none [], literal b!" ",
        .span .footnote .constrained [] none [] true, literal b!" end"],
       [.ref .image b!"y.png" [] none [], literal b!" and ", .span .footnote .constrained [literal b!"z"] none [] true]] := by
  obtain ⟨g, h1, h2⟩ := C70_inlines_partial emptyWorld 0 noteDoc noteSample_ok noteSample_legible noteSample_utf8 (fun _ h => by cases h)
  exact ⟨g, by rw [← noteSample_written]; exact h1, h2⟩

/-! ## C70: where the claim is false -/

/-- A span after a footnote in the same text, or around one, stops the program. -/
theorem C70_span_after_footnote :
    panics (parseText emptyWorld 5 b!"a footnote:[x] *b* c\n") .todo = true
      ∧ panics (parseText emptyWorld 5 b!"*a footnote:[x] b* c\n") .todo = true := by
  decide +kernel

/-- A newline directly before a footnote is in the footnote. -/
theorem C70_newline_footnote :
    returns ((parseText emptyWorld 5 b!"a\nfootnote:[x] b\n").map fun g => sketchBs g.blocks)
      b!"(a|footnote!(\nx)| b)" = true := by
  decide +kernel

/-- A footnote ends where a link in it begins, and the rest of the footnote is in the link. -/
theorem C70_link_in_footnote :
    returns ((parseText emptyWorld 5 b!"a footnote:[x https://x.y[u] e] b\n").map fun g => sketchBs g.blocks)
      b!"(a |footnote!(x )|link https://x.y(u| e)| b)" = true := by
  decide +kernel

/-- A newline directly before an image is after it. -/
theorem C70_newline_image :
    returns ((parseText emptyWorld 5 b!"a\nimage:x.png[] b\n").map fun g => sketchBs g.blocks)
      b!"(a|link x.png()|\n b)" = true := by
  decide +kernel

/-- Styled text in the last item of a text, with text after it, makes a paragraph of the item's text; in other items it does not. -/
theorem C70_styled_item :
    returns ((parseText emptyWorld 5 b!"* a [.x]#b# c\n").map fun g => sketchBs g.blocks)
      b!"list[item()[(a |mark(b)| c)]]" = true
      ∧ returns ((parseText emptyWorld 5 b!"* a [.x]#b#\n* d\n").map fun g => sketchBs g.blocks)
      b!"list[item(a |mark(b))[] item(d)[]]" = true := by
  decide +kernel

/-! ## Other disagreements of the code with the claims about blocks -/

/-- The roles of the entries of the description lists of a document. -/
def entryRoles (bs : List Block) : List (List Str) :=
  bs.flatMap fun
    | .dlist es _ _ => es.map fun
      | .dlistItem _ _ _ m _ => (m.map (·.roles)).getD []
      | _ => []
    | _ => []

/-- C81: with a line of metadata between two entries, the text of the first is part of the term of the second, which has the
metadata. -/
theorem C81_metadata :
    returns ((parseText emptyWorld 5 b!"a:: b\n[role=x]\nc:: d\n").map fun g => sketchBs g.blocks)
      b!"terms[term(a)()[] term(bc)(d)[]]" = true
      ∧ returns ((parseText emptyWorld 5 b!"a:: b\n[role=x]\nc:: d\n").map fun g => entryRoles g.blocks) [[], [b!"x"]] = true := by
  decide +kernel

/-- C71: of two delimited admonitions, one in the other, the outer one comes after what follows it. -/
theorem C71_admonitions :
    returns ((parseText emptyWorld 5 b!"[NOTE]\n====\na\n\n[TIP]\n====\nb\n====\nc\n====\n\nd\n").map fun g => sketchBs g.blocks)
      b!"admonition[example[(b) (c)]] (d) admonition[example[(a)]]" = true := by
  decide +kernel

/-- C44: items of another kind after an item go into it, with all the items after them and without their texts in their places. -/
theorem C44_nested :
    returns ((parseText emptyWorld 5 b!"* a\n. b\n. c\n* d\n").map fun g => sketchBs g.blocks)
      b!"list[item()[list[item(ab)[] item()[list[item(cd)[]]]]]]" = true := by
  decide +kernel

end Adoc.Props
