import Verif.Proof.Shape
import Verif.Props.Run
import Verif.Props.Kinds
/-!
# C96: the form and the delimiter of a block are those of its name

The claim for all documents: a paragraph has some text, the form of a paragraph and no delimiter; listings, literal blocks,
passthrough blocks, verses, boxes and tables have the delimiter of their name; admonitions, and they alone, have a kind; and the
file of an image exists. It is false of the code in two places, which `Shape.leafDelimiters` and `Shape.BoxDelimiter` allow: a
comment that is never closed is left as a listing (`C96_comment_not`), and a quotation that is written as a paragraph has an
empty delimiter (`C96_quotation_not`).
-/
namespace Adoc.Props
open Origin Shape Parser Spec

theorem shape_all {found : Str → Prop} {l : List Block} (h : ∀ b ∈ l, Shape.Deep found b) : ∀ x ∈ innerL l, Shaped found x := by
  have one : ∀ {b : Block}, Shape.Deep found b → ∀ x ∈ inner b, Shaped found x := by
    intro b hb
    induction hb with
    | @mk b h1 h2 ih =>
      intro x hx
      rcases mem_inner hx with rfl | ⟨c, hc, hx⟩
      · exact h1
      · exact ih c hc x hx
  intro x hx
  obtain ⟨b, hb, hx⟩ := mem_innerL hx
  exact one (h b hb) x hx

/-- For every document: all blocks, at every depth, have the form and the delimiter of their name, and the files of all images
exist. Missing for the full claim: listings that are unclosed comments, and quotations that are written as paragraphs. -/
theorem C96_shapes_partial {w : World} {fuel : Nat} {src : Str} {g : Asg} (h : parseText w fuel src = .ok g) :
    ∀ x ∈ allBlocks g, Shaped (fun t => ∃ files path, w.resolve files t = some path) x := by
  unfold Adoc.parseText at h
  cases hp : Parser.parse w fuel (scan src) Parser.new with
  | error e => rw [hp] at h; cases h
  | ok q =>
    rw [hp] at h
    cases h
    refine shape_all (Shape.parse_deep (fun fs t ht => ?_) (.inl rfl) hp)
    cases hr : w.resolve fs t with
    | none => exact absurd hr ht
    | some path => exact ⟨fs, path, hr⟩

/-- The same without the check of targets, except for the files of images. -/
theorem C96_unchecked_partial {w : World} {fuel : Nat} {src : Str} {g : Asg} (h : parseUnchecked w fuel src = .ok g) :
    ∀ x ∈ allBlocks g, Shaped (fun _ => True) x := by
  unfold parseUnchecked at h
  cases hp : Parser.parse w fuel (scan src) Parser.newNoTargets with
  | error e => rw [hp] at h; cases h
  | ok q =>
    rw [hp] at h
    cases h
    exact shape_all (Shape.parse_deep (fun _ _ _ => trivial) (.inr ⟨rfl, fun _ => trivial⟩) hp)

/-- For every document: no paragraph is without text. -/
theorem C96_paragraphs {w : World} {fuel : Nat} {src : Str} {g : Asg} (h : parseText w fuel src = .ok g) {f : LeafForm} {d : Option Str}
    {is : List Inline} {m : Option Meta} {l : List Location} (hx : .leaf .paragraph f d is m l ∈ allBlocks g) :
    f = .paragraph ∧ d = none ∧ is ≠ [] := C96_shapes_partial h _ hx

/-- For every document: the file of an image exists. -/
theorem C96_images {w : World} {fuel : Nat} {src : Str} {g : Asg} (h : parseText w fuel src = .ok g) {t : Str}
    {c : List Inline} {m : Option Meta} {l : List Location} (hx : .image t c m l ∈ allBlocks g) :
    ∃ files path, w.resolve files t = some path := C96_shapes_partial h _ hx

/-! ## Examples -/

/-- The names and delimiters of the leaves and boxes of a graph. -/
def shapesOf (g : Asg) : List Str := (allBlocks g).filterMap fun
  | .leaf _ .delimited (some d) _ _ _ => some d
  | .leaf _ .paragraph none (_ :: _) _ _ => some b!"text"
  | .parent _ _ d _ _ _ _ => some d
  | .image t _ _ _ => some t
  | _ => none

/-- A world with one picture. -/
def picture : World := ⟨fun _ t => if t = b!"a.png" then some t else none, fun _ => none⟩

/-- A document with a paragraph, a listing, an example, an admonition, a table and an image. -/
theorem C96_sample : returns ((parseText picture 5 b!"a\n\n----\nb\n----\n\n====\nc\n====\n\nNOTE: d\n\n|===\n|g |h\n|===\n\nimage::a.png[]\n").map shapesOf)
    [b!"text", b!"----", b!"====", b!"text", b!"NOTE: ", b!"text", b!"|===", b!"a.png"] = true := by decide +kernel

/-- A comment that is never closed is a listing in the graph, and its text is shown. -/
theorem C96_comment_not : returns ((parseText emptyWorld 5 b!"a\n\n////\nb\n").map fun g => (sketchBs g.blocks, shapesOf g))
    (b!"(a) leaf(\nb\n)", [b!"text", b!"////"]) = true := by decide +kernel

/-- A quotation that is written as a paragraph has an empty delimiter. -/
theorem C96_quotation_not : returns ((parseText emptyWorld 5 b!"[quote]\na b\n").map fun g => (sketchBs g.blocks, shapesOf g))
    (b!"quote[(a b)]", [[], b!"text"]) = true := by decide +kernel

/-- Every line in brackets that begins with the first letter of an admonition makes the next block an admonition. -/
theorem C96_bracket : returns ((parseText emptyWorld 5 b!"[Name]\n====\na\n====\n").map fun g => sketchBs g.blocks)
    b!"admonition[example[(a)]]" = true := by decide +kernel

/-- With the check of targets a missing image is an error; without it the image is in the graph. -/
theorem C96_images_not : returns ((parseUnchecked emptyWorld 5 b!"image::b.png[]\n").map shapesOf) [b!"b.png"] = true := by decide +kernel

end Adoc.Props
