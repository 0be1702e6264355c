import Verif.Proof.RichExtend
import Verif.Props.RichComments
/-!
# C101: what follows a document does not change what it says
-/
namespace Adoc.Props
open Spec Rich

/-- **C101, partial**: after a document whose last block ends with a blank line and is not an admonition, a delimited block or a
table, any text may follow. If the whole is converted, the result begins with the blocks of the document below their
headings: with all of them if there is no heading, and otherwise with those before a heading, whichever it is. The texts of cross
references are those of the ids in the whole document (`g.idHash`).

Missing: the blocks of the section that is open where the document ends (`C101_title`, `C101_unclosed`) and boxes at its end
(`C69_section_in_sidebar`), for which the claim is false; documents outside the class of `Spec/RichDoc`. -/
theorem C101_before_partial (w : World) (k : Nat) (d : RichDoc) (rest : Str) (ho : d.Ok) (hl : Legible [] d.signs rest)
    (hu : ∃ cs, written d.signs ++ rest = enc cs) (hw : ∀ x ∈ d.targets, There w [] x) (hg : ∀ c ∈ d.blocks, c.gap.Ok 2 false)
    (hb : ∀ c, d.blocks.getLast? = some c → c.blk.isBox = false) (pre post : List Tagged) (hd : d.blocks = pre ++ post)
    (hp : (post = [] ∧ ∀ c ∈ pre, c.blk.isHead = false) ∨ ∃ c, post.head? = some c ∧ c.blk.isHead = true)
    (g : Asg) (hr : parseText w (k + 2) (written d.signs ++ rest) = .ok g) :
    ∃ more, listedL [] g.blocks = contents (g.idHash.map fun x => (x.1, bareL x.2)) [] pre ++ more :=
  parse_before w k d rest ho hl hu hw hg hb pre post hd hp g hr

/-- **C101**, without a condition on what follows: if the texts of the document are plain where they stand and the document ends with a
newline, then whatever follows is read on its own. -/
theorem C101_any_partial (w : World) (k : Nat) (d : RichDoc) (cs : List Char) (ho : d.Ok) (hl : Legible [] d.signs [])
    (hs : Sure [] d.signs) (hn : d.signs.getLast? = some Spec.newline)
    (hu : ∃ cs, written d.signs = enc cs) (hw : ∀ x ∈ d.targets, There w [] x) (hg : ∀ c ∈ d.blocks, c.gap.Ok 2 false)
    (hb : ∀ c, d.blocks.getLast? = some c → c.blk.isBox = false) (pre post : List Tagged) (hd : d.blocks = pre ++ post)
    (hp : (post = [] ∧ ∀ c ∈ pre, c.blk.isHead = false) ∨ ∃ c, post.head? = some c ∧ c.blk.isHead = true)
    (g : Asg) (hr : parseText w (k + 2) (written d.signs ++ enc cs) = .ok g) :
    ∃ more, listedL [] g.blocks = contents (g.idHash.map fun x => (x.1, bareL x.2)) [] pre ++ more := by
  refine C101_before_partial w k d (enc cs) ho (legible_line _ _ _ hl hs hn) ?_ hw hg hb pre post hd hp g hr
  obtain ⟨ds, e⟩ := hu
  exact ⟨ds ++ cs, by rw [e, enc_append]⟩

/-! ## A case -/

/-- A document with a list before a heading. -/
def beginDoc : RichDoc where
  blocks := [
    ⟨[], .para [.text [b!"a "], .span .strong [.text [b!"b"]]], 2⟩,
    ⟨[], .list .ordered [[.text [b!"i"]], [.text [b!"j"]]], 3⟩,
    ⟨[], .head 1 [.text [b!"One"]], 2⟩,
    ⟨[], .para [.text [b!"last"]], 2⟩]

/-- How it is written. -/
def beginText : Str := b!"a *b*

. i
. j


== One

last

"

theorem begin_written : written beginDoc.signs = beginText := by decide +kernel

theorem begin_ok : beginDoc.Ok where
  head := nofun
  blocks := by
    intro e he
    simp only [beginDoc, List.mem_cons, List.not_mem_nil, or_false] at he
    rcases he with rfl | rfl | rfl | rfl
    all_goals refine ⟨?_, ?_, ?_⟩
    all_goals simp [TagsOk, Blk.Ok, Piece.Ok, ProseOk, ElemsOk, PartsOk, TextLines, EndsLine, TagsFor, Spec.OneLine, Elem.signs, textSigns,
      lineSigns, Spec.newline]
    all_goals decide
  gaps := by simp [beginDoc, GapsOk, Blk.ending]
  flow := by decide +kernel
  ids := by decide +kernel
  icons := Scanner.no_callouts (by decide)
  signs := signsOk_of _ (by decide +kernel)

theorem begin_sure : Sure [] beginDoc.signs := by
  have e : beginDoc.signs = [.text b!"a ", .mark .strong b!"*", .text b!"b", .mark .strong b!"*", Spec.newline, Spec.newline,
    .mark .orderedListItem b!". ", .text b!"i", Spec.newline, .mark .orderedListItem b!". ", .text b!"j", Spec.newline, Spec.newline,
    Spec.newline, .mark .heading2 b!"== ", .text b!"One", Spec.newline, Spec.newline, .text b!"last", Spec.newline, Spec.newline] := by
    decide +kernel
  rw [e]
  refine ⟨?_, ?_, ?_, ?_, ?_, ?_, trivial⟩ <;> exact Scanner.run_of_runB (by decide +kernel)

/-- Whatever follows, the paragraph and the list are read as they are written. -/
example (cs : List Char) (g : Asg) (h : parseText emptyWorld 2 (beginText ++ enc cs) = .ok g) :
    sketchBs (((listedL [] g.blocks).take 2).map (·.2)) = b!"(a |strong(b)) list[item(i)[] item(j)[]]"
      ∧ ((listedL [] g.blocks).take 2).map (·.1) = [[], []] := by
  have ha : ∀ b ∈ written beginDoc.signs, b.toNat < 128 := by rw [begin_written]; decide +kernel
  rw [← begin_written] at h
  obtain ⟨more, h1⟩ := C101_any_partial emptyWorld 0 beginDoc cs begin_ok (Scanner.legible_of_legibleB (ascii_enc _ ha) (by decide +kernel))
    begin_sure (by decide +kernel) (ascii_enc _ ha) (fun _ h => by cases h) (by decide +kernel) (by decide +kernel)
    (beginDoc.blocks.take 2) (beginDoc.blocks.drop 2) (by decide +kernel) (.inr ⟨_, rfl, rfl⟩) g h
  rw [h1]
  exact ⟨by rfl, by rfl⟩

/-- For example if a block follows that is not closed, with headings in it. -/
example : returns ((parseText emptyWorld 5 (beginText ++ b!"====\nx\n\n<<y>>\n\n* z\n== Two\n")).map fun g => sketchBs g.blocks)
    b!"(a |strong(b)) list[item(i)[] item(j)[]] list[item()[section(zTwo)[]]] (xref y()) section(One)[(last) example[(x)]]"
      = true := by decide +kernel

/-! ## Where the claim is false -/

/-- **C101** is false for the title of an open section: text after a continuation is added to it. -/
theorem C101_title : returns ((parseText emptyWorld 5 b!"== T\n\na\n").map fun g => sketchBs g.blocks) b!"section(T)[(a)]" = true
    ∧ returns ((parseText emptyWorld 5 b!"== T\n\na\n\n+\n|c\nd\n").map fun g => sketchBs g.blocks)
      b!"section(T|c|\nd)[(a) cell()]" = true := by decide +kernel

/-- **C101** is false for an open section: what comes after a block that is not closed is before the section. -/
theorem C101_unclosed : returns ((parseText emptyWorld 5 b!"== T\n\na\n\n====\nb\n\n<<x>>\n").map fun g => sketchBs g.blocks)
      b!"(xref x()) section(T)[(a) example[(b)]]" = true := by decide +kernel

end Adoc.Props
