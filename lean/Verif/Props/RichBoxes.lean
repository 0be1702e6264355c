import Verif.Props.Rich
/-!
# A document with boxes

A second document of the class of `Spec/RichDoc`, with titles, metadata and blocks in boxes.
-/
namespace Adoc.Props
open Spec Rich

/-- The document, block by block. -/
def boxDoc : RichDoc where
  blocks := [
    ⟨[], .head 1 [.text [b!"H"]], 2⟩,
    ⟨[.list (some .quote) [.pos b!"Me", .pos b!"A book"], .anchor b!"box"],
      .box .quote b!"____" (some [.text [b!"The box"]]) 2 [⟨[], .para [.text [b!"so ", b!"it "], .span .strong [.text [b!"is"]]], 1⟩], 2⟩,
    ⟨[], .brk .thematic, 2⟩,
    ⟨[], .box .sidebar b!"****" (some [.text [b!"A "], .span .emphasis [.text [b!"t"]]]) 1 [
      ⟨[], .para [.text [b!"see "], .xref b!"box"], 2⟩,
      ⟨[.anchor b!"l"], .list .ordered [[.text [b!"p"]], [.xref b!"l"]], 3⟩,
      ⟨[.list none [.named b!"role" b!"r"]], .verb .literal b!"...." [Spec.newline, .text b!"v", Spec.newline], 1⟩], 1⟩]

/-- How it is written. -/
def boxText : Str := b!"== H

[quote,Me,A book]
[[box]]
.The box
____

so 
it *is*
____

'''

.A _t_
****
see <<box>>

[[l]]
. p
. <<l>>


[role=r]
....
v
....
****
"

theorem boxSample_written : written boxDoc.signs = boxText := by decide +kernel

set_option maxRecDepth 20000 in
theorem boxSample_utf8 : ∃ cs, written boxDoc.signs = enc cs := by
  refine ⟨(String.fromUTF8? ⟨boxText.toArray⟩).get!.toList, ?_⟩
  rw [boxSample_written]
  decide +kernel

theorem boxSample_legible : Legible [] boxDoc.signs [] :=
  Scanner.legible_of_legibleB boxSample_utf8 (by decide +kernel)

theorem heldOk_iff (h : Held) : h.Ok ↔ TagsOk none h.tags ∧ h.piece.Ok ∧ h.place := ⟨fun x => ⟨x.1, x.2, x.3⟩, fun x => ⟨x.1, x.2.1, x.2.2⟩⟩

theorem boxSample_ok : boxDoc.Ok where
  head := by intro h hh; cases hh
  blocks := by
    intro e he
    simp only [boxDoc, List.mem_cons, List.not_mem_nil, or_false] at he
    rcases he with rfl | rfl | rfl | rfl
    all_goals refine ⟨?_, ?_, ?_⟩
    all_goals simp [TagsOk, ArgsOk, FirstOk, Unseparated, Blk.Ok, Piece.Ok, heldOk_iff, Held.place, HeldGaps, Piece.closing,
      ProseOk, ElemsOk, PartsOk, TextLines, EndsLine, OneLine, inVerb, joinB, Elem.signs, Part.signs, textSigns, lineSigns,
      Spec.newline, TagsFor, Lexical.Alnum]
    all_goals decide
  gaps := by simp [boxDoc, GapsOk, Blk.ending]
  flow := by decide
  ids := by decide
  icons := Scanner.no_callouts (by decide)
  signs := by
    have : ∀ s ∈ boxDoc.signs, (match s with
      | .text _ => true
      | .mark ty l => ty ≠ .text && l.all (fun b => b.toNat < 128)) = true := by decide +kernel
    intro s hs
    have := this s hs
    cases s with
    | text => trivial
    | mark ty l =>
      simp only [Bool.and_eq_true, decide_eq_true_eq, List.all_eq_true] at this
      exact ⟨this.1, fun _ b hb => this.2 b hb⟩

/-- The sidebar has its title, in which nothing is lost, and three blocks; the cross reference shows the title of the
quotation. -/
example : ∃ g path bs, parseText emptyWorld 2 boxText = .ok g
    ∧ (listedL [] g.blocks)[3]? = some (path, .parent .sidebar none b!"****" bs
        [literal b!"A ", Elem.inline (.span .emphasis [.text [b!"t"]])] none [])
    ∧ bs.length = 3
    ∧ bs[0]? = some (.leaf .paragraph .paragraph none
        [literal b!"see ", .ref .xref b!"box" [literal b!"The box"] none []] none []) := by
  obtain ⟨g, h1, _, h2⟩ := C71_boxes_partial emptyWorld 0 boxDoc boxSample_ok boxSample_legible boxSample_utf8 (fun _ h => by cases h)
  obtain ⟨path, bs, h3, h4, h5⟩ := h2 3 _ _ _ _ _ _ _ rfl
  exact ⟨g, path, bs, by rw [← boxSample_written]; exact h1, h3, h4, h5 0 _ rfl⟩

/-- The ids of the document, and the titles that cross references to them show. -/
example : boxDoc.ids = [(b!"box", [literal b!"The box"]), (b!"l", [])] := rfl

/-- What the metadata lines of the quotation say. -/
example : boxDoc.blocks.map (fun c => tagsMeta c.tags) = [none,
    some { attributes := [(b!"attribution", b!"Me"), (b!"citation", b!"A book"), (b!"id", b!"box")], declared := some .quote },
    none, none] := by decide +kernel

end Adoc.Props
