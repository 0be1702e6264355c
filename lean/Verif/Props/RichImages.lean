import Verif.Props.RichBoxes
/-!
# C79: images

The block images of documents of the class of `Spec/RichDoc`.
-/
namespace Adoc.Props
open Spec Rich

/-- C79 for documents of the class: an image line becomes an image with the file that is written, with the title line
before it (all its inline markup included), and with exactly the attributes in the brackets or those of the metadata
lines before it.

Missing: documents outside the class; for some of them the claim is false (below). -/
theorem C79_images_partial (w : World) (k : Nat) (d : RichDoc) (ho : d.Ok) (hl : Legible [] d.signs [])
    (hu : ∃ cs, written d.signs = enc cs) (hw : ∀ x ∈ d.targets, There w [] x) :
    ∃ g, parseText w (k + 2) (written d.signs) = .ok g ∧ (listedL [] g.blocks).length = d.blocks.length
      ∧ ∀ (i : Nat) (tags : List Tag) (target : Str) (args : List Arg) (title : Option (List Elem)) (m : Gap),
        d.blocks[i]? = some ⟨tags, .image target args title, m⟩ →
        ∃ path, (listedL [] g.blocks)[i]? =
          some (path, .image target ((title.getD []).map Elem.inline) ((imageMeta args).or (tagsMeta tags)) []) := by
  obtain ⟨g, h1, h2, h3⟩ := C69_sections_partial w k d ho hl hu hw
  exact ⟨g, h1, h2, fun i tags target args title m hi => ⟨_, h3 i _ hi⟩⟩

/-- C79 for documents of the class: if the file of an image does not exist, there is no graph but an error that names the
first such file and the line of the image.

Missing: documents outside the class; the line is that of the image if nothing before it runs over a line end, as in
`C04_line`. -/
theorem C79_missing_partial (w : World) (k : Nat) (d : RichDoc) (ho : d.Ok) (hl : Legible [] d.signs [])
    (hu : ∃ cs, written d.signs = enc cs) (pre post : List Tagged) (c : Tagged) (target : Str) (args : List Arg)
    (title : Option (List Elem)) (hd : d.blocks = pre ++ c :: post) (hc : c.blk = .image target args title)
    (hw : ∀ e ∈ pre, ∀ x ∈ e.blk.targets, There w [] x) (hmi : w.resolve [] target = none) :
    ∃ line, parseText w (k + 2) (written d.signs) = .error (.err (.targetResolution line target))
      ∧ ((∀ s ∈ d.signs, s = Spec.newline ∨ 10 ∉ s.str) → line = 1 + (written (d.before pre c.tags title)).count 10) :=
  parse_missing w k d ho hl hu pre post c target args title hd hc hw hmi

/-! ### A document of the class -/

/-- A world with two images. -/
def imageWorld : World := ⟨fun _ t => if t = b!"a.png" ∨ t = b!"b.png" then some t else none, fun _ => none⟩

/-- The document, block by block. -/
def imageDoc : RichDoc where
  blocks := [
    ⟨[], .para [.text [b!"Some "], .xref b!"pic"], 2⟩,
    ⟨[], .image b!"a.png" [.pos b!"Alt text", .named b!"width" b!"10"]
      (some [.text [b!"The "], .span .emphasis [.text [b!"first"]], .text [b!" one"]]), 2⟩,
    ⟨[.anchor b!"pic", .list none [.named b!"role" b!"r"]], .image b!"b.png" [] (some [.text [b!"Second"]]), 2⟩,
    ⟨[], .head 1 [.text [b!"Head"]], 2⟩,
    ⟨[], .image b!"a.png" [] none, 2⟩,
    ⟨[], .para [.text [b!"end"]], 1⟩]

/-- How it is written. -/
def imageText : Str := b!"Some <<pic>>

.The _first_ one
image::a.png[Alt text,width=10]

[[pic]]
[role=r]
.Second
image::b.png[]

== Head

image::a.png[]

end
"

theorem imageSample_written : written imageDoc.signs = imageText := by decide +kernel

set_option maxRecDepth 20000 in
theorem imageSample_utf8 : ∃ cs, written imageDoc.signs = enc cs := by
  refine ⟨(String.fromUTF8? ⟨imageText.toArray⟩).get!.toList, ?_⟩
  rw [imageSample_written]
  decide +kernel

theorem imageSample_legible : Legible [] imageDoc.signs [] :=
  Scanner.legible_of_legibleB imageSample_utf8 (by decide +kernel)

theorem imageSample_ok : imageDoc.Ok where
  head := by intro h hh; cases hh
  blocks := by
    intro e he
    simp only [imageDoc, List.mem_cons, List.not_mem_nil, or_false] at he
    rcases he with rfl | rfl | rfl | rfl | rfl | rfl
    all_goals refine ⟨?_, ?_, ?_⟩
    all_goals simp [TagsOk, ArgsOk, FirstOk, Unseparated, Blk.Ok, Piece.Ok, ProseOk, ElemsOk, PartsOk, ImageOk, TextLines, EndsLine,
      OneLine, joinB, TagsFor, Elem.hasSpan, Elem.signs, Part.signs, textSigns, lineSigns, Spec.newline]
    all_goals decide
  gaps := by simp [imageDoc, GapsOk, Blk.ending]
  flow := by decide
  ids := by decide
  icons := Scanner.no_callouts (by decide)
  signs := by
    have : ∀ s ∈ imageDoc.signs, (match s with
      | .text _ => true
      | .mark ty l => ty ≠ .text && l.all (fun b => b.toNat < 128)) = true := by decide +kernel
    intro s hs
    have := this s hs
    cases s with
    | text => trivial
    | mark ty l =>
      simp only [Bool.and_eq_true, decide_eq_true_eq, List.all_eq_true] at this
      exact ⟨this.1, fun _ b hb => this.2 b hb⟩

/-- The three images, and the cross reference to the second one, which shows its title. -/
example : ∃ g, parseText imageWorld 2 imageText = .ok g
    ∧ (listedL [] g.blocks).map (·.2) =
      [.leaf .paragraph .paragraph none [literal b!"Some ", .ref .xref b!"pic" [literal b!"Second"] none []] none [],
       .image b!"a.png" [literal b!"The ", .span .emphasis .constrained [literal b!"first"] none [] false, literal b!" one"]
         (some { inlineMeta := true, attributes := [(b!"positional_1", b!"Alt text"), (b!"width", b!"10")] }) [],
       .image b!"b.png" [literal b!"Second"] (some { attributes := [(b!"id", b!"pic")], roles := [b!"r"] }) [],
       .section [literal b!"Head"] none 1 [] [],
       .image b!"a.png" [] none [],
       .leaf .paragraph .paragraph none [literal b!"end"] none []] := by
  obtain ⟨g, h1, h2, _⟩ := C23_rich_partial imageWorld 0 imageDoc imageSample_ok imageSample_legible imageSample_utf8
    (by decide)
  exact ⟨g, by rw [← imageSample_written]; exact h1, by rw [h2]; rfl⟩

/-- Without `b.png`, the error is on the ninth line. -/
example : parseText ⟨fun _ t => if t = b!"a.png" then some t else none, fun _ => none⟩ 2 imageText =
    .error (.err (.targetResolution 9 b!"b.png")) := by
  obtain ⟨line, h1, h2⟩ := C79_missing_partial ⟨fun _ t => if t = b!"a.png" then some t else none, fun _ => none⟩ 0 imageDoc
    imageSample_ok imageSample_legible imageSample_utf8 (imageDoc.blocks.take 2) (imageDoc.blocks.drop 3) _ _ _ _ rfl rfl
    (by decide) (by decide)
  have : line = 9 := by rw [h2 (by decide +kernel)]; decide +kernel
  rw [← imageSample_written, h1, this]

/-! ### Where the claim is false -/

/-- The attributes and roles of the images in a graph. -/
def imagesOf (bs : List Block) : List (List (Str × Str) × List Str) :=
  bs.flatMap fun b => match b with
    | .image _ _ m _ => m.toList.map fun m => (m.attributes, m.roles)
    | _ => []

/-- A role before an image with attributes is lost. -/
theorem C79_role_lost :
    returns ((parseText imageWorld 5 b!"[role=x]\nimage::a.png[Alt]\n").map fun g => imagesOf g.blocks)
      ([([(b!"positional_1", b!"Alt")], [])] : List (List (Str × Str) × List Str)) = true := by
  decide +kernel

/-- An image in a sidebar is put before the sidebar, and one on the line after a paragraph before the paragraph. -/
theorem C79_order :
    returns ((parseText imageWorld 5 b!"****\na\n\nimage::a.png[]\n\nb\n****\n\nc\n").map fun g => sketchBs g.blocks)
      b!"image a.png sidebar[(a) (b)] (c)" = true
      ∧ returns ((parseText imageWorld 5 b!"a\nimage::a.png[]\n\nb\n").map fun g => sketchBs g.blocks)
        b!"image a.png (a) (b)" = true := by
  decide +kernel

/-- A cross reference in the title of an image does not show the title of its block. -/
theorem C79_reference_in_title :
    returns ((parseText imageWorld 5 b!".T <<h>>\nimage::a.png[]\n\n[[h]]\n== H\n\nb <<h>>\n").map fun g => g.blocks.map fun b =>
      (b.title.map sketchL, sketchB b)) ([(some b!"T |xref h()", b!"image a.png"), (some b!"H", b!"section(H)[(b |xref h(H))]")] :
        List (Option Str × Str)) = true := by
  decide +kernel

/-- Inline images need not exist. -/
theorem C79_inline :
    returns ((parseText emptyWorld 5 b!"a image:b.png[] c\n").map fun g => sketchBs g.blocks) b!"(a |link b.png()| c)" = true := by
  decide +kernel

end Adoc.Props
