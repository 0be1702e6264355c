import Verif.Proof.HtmlPlace
import Verif.Proof.HtmlTotal
import Verif.Props.Docx
import Verif.Props.Returns
/-!
# C60–C66: HTML pages
-/
namespace Adoc.Props
open Markup

/-- The HTML page for a source text, with no other files. -/
def page (src : Str) : M Str := do
  let g ← parseText emptyWorld 5 src
  Html.render true g

/-- Does a page satisfy a test? -/
def pageIs (src : Str) (test : Str → Bool) : Bool :=
  match page src with
  | .ok s => test s
  | .error _ => false

/-- Does a text contain another one? -/
def within (needle : Str) : Str → Bool
  | [] => needle.isEmpty
  | b :: s => needle.isPrefixOf (b :: s) || within needle s

/-- Attributes, roles and options as metadata. -/
def givenMeta (attrs : List (Str × Str)) (roles options : List Str) : Option Meta :=
  some { attributes := attrs, roles := roles, options := options }

/-- A table of one row of header cells and one of others, in a section, with a list, an image and a quote. -/
def htmlGraph : Asg :=
  { Asg.new with
    header := some ⟨[word b!"Title"], []⟩
    blocks := [
      .section [word b!"Head"] (givenMeta [(b!"id", b!"here")] [b!"big"] []) 1 [
        .list .unordered [plainItem b!"one", plainItem b!"two"] none [],
        .dlist [.dlistItem [word b!"term"] [word b!"what it is"] [] none []] none [],
        .parent .table none b!"|===" [.tableCell [word b!"a"] none [], .tableCell [word b!"b"] none [],
          .tableCell [word b!"c"] none [], .tableCell [word b!"d"] none []] []
          (givenMeta [(b!"cols", b!"2")] [] [b!"header"]) []] [],
      .image b!"x.png" [word b!"Fig"] (givenMeta [(b!"id", b!"fig"), (b!"positional_1", b!"alt")] [] []) [],
      .parent .quote none b!"____" [plainPara b!"said <b>so</b>"] [] (givenMeta [(b!"attribution", b!"me")] [] []) []] }

/-- The page of a graph satisfies a test. -/
def rendersTo (g : Asg) (test : Str → Bool) : Bool :=
  match Html.render true g with
  | .ok s => test s
  | .error _ => false

/-! ## C60: nesting -/

/-- If the texts in a graph are themselves well nested and attribute values have no double quotes, every tag of the page
ends, and elements are closed in the order in which they were opened. -/
theorem C60_nested_partial (sees : Bool) (g : Asg) (h : tidyDoc balanced g = true) (s : Str) (hs : Html.render sees g = .ok s) :
    balanced s = true := by
  simp only [tidyDoc, Bool.and_eq_true] at h
  exact (Html.render_good sees g s h.1 h.2 hs).balanced

/-- The property as stated is false: text is not escaped. -/
theorem C60_text : pageIs b!"a <b> c\n" (fun s => !balanced s) = true := by decide +kernel

/-- The property as stated is false: attribute values are not escaped. -/
theorem C60_attribute : pageIs b!"[.a\"b]#x#\n" (fun s => !balanced s) = true := by decide +kernel

example : tidyDoc balanced htmlGraph = true ∧ rendersTo htmlGraph balanced = true := ⟨by decide +kernel, by decide +kernel⟩

/-! ## C61: escaping -/

/-- What the page starts with if the document has no title. -/
def pageStart : Str :=
  b!"\n\n<!DOCTYPE html>\n<html lang=\"en\">\n\n<head>\n    <meta charset=\"UTF-8\">\n    <meta name=\"viewport\" content=\"width=device-width, initial-scale=1\">\n    <title>"
    ++ b!"</title>\n</head>\n\n<body>"

/-- The property as stated is false: the text of a paragraph is copied to the page as it is. -/
theorem C61_verbatim : ∃ pre post, ∀ sees, ∀ v : Str, Html.render sees (graphOf [plainPara v]) = .ok (pre ++ v ++ post) := by
  refine ⟨pageStart ++ b!"\n    \n    <p>", b!"</p>\n</body>\n\n</html>\n", fun sees v => ?_⟩
  show Except.ok _ = Except.ok _
  congr 1
  rw [show Html.docTitle (graphOf [plainPara v]).header = [] from rfl]
  unfold pageStart
  simp only [Html.inlines, Html.leaf, Html.leafTag, List.append_assoc, List.append_nil]
  rfl

/-- From source to page: a script in the source is a script in the page. -/
theorem C61_script :
    pageIs b!"<script>alert(1)</script>\n" (fun s => within b!"<p><script>alert(1)</script></p>" s) = true := by
  decide +kernel

/-- From source to page: a comparison in a listing. -/
theorem C61_listing : pageIs b!"----\nif a<b\n----\n" (fun s => within b!"<pre>\nif a<b\n</pre>" s) = true := by
  decide +kernel

/-! ## C62: text -/

/-- If the texts in a graph are themselves well nested and attribute values have no double quotes, tables have no title
and nothing but cells, and inline images have no text, a reader of the page sees exactly the title of the document and
then the titles, terms, texts, captions and attributions of the blocks in order, up to white space. -/
theorem C62_text_partial (sees : Bool) (g : Asg) (h : tidyDoc balanced g = true) (hw : writtenDoc g = true) (s : Str)
    (hs : Html.render sees g = .ok s) : squash (seen s) = squash (readDoc g) := by
  simp only [tidyDoc, Bool.and_eq_true] at h
  exact (Html.render_good sees g s h.1 h.2 hs).seen hw

/-- The property as stated is false: the title of a table is lost. -/
theorem C62_table_title_lost :
    pageIs b!".Numbers\n|===\n|a |b\n|c |d\n|===\n" (fun s => !within b!"Numbers" s) = true := by decide +kernel

/-- The page does not depend on the title of a table. -/
theorem C62_table_title (sees : Bool) (v : Option ParentVariant) (d : Str) (cells : List Block) (t t' : List Inline) (m : Option Meta)
    (l : List Location) :
    Html.render sees (graphOf [.parent .table v d cells t m l]) = Html.render sees (graphOf [.parent .table v d cells t' m l]) := rfl

/-- The property as stated is false: the text for an inline image is lost. -/
theorem C62_inline_image_text_lost : pageIs b!"see image:x.png[sunset] there\n" (fun s => !within b!"sunset" s) = true := by
  decide +kernel

example : tidyDoc balanced htmlGraph = true ∧ writtenDoc htmlGraph = true ∧
    readDoc htmlGraph = b!"TitleHeadonetwotermwhat it isabcdFigsaid some" := by
  refine ⟨by decide +kernel, by decide +kernel, by decide +kernel⟩

/-! ## C63: headings -/

/-- The page tells the level of a section only by the value of `data-type`: the rest, with the element of the heading,
does not depend on the level. -/
theorem C63_level_partial (sees : Bool) (t : List Inline) (m : Option Meta) (bs : List Block) (l : List Location) :
    ∃ before after, ∀ level s, Html.render sees (graphOf [.section t m level bs l]) = .ok s →
      s = before ++ b!"<section data-type=\"sect" ++ natToStr level ++ b!"\"" ++ after := by
  cases hb : Html.blocks false false bs with
  | error e =>
    refine ⟨[], [], fun level s hs => ?_⟩
    simp [Html.render, graphOf, show Asg.new.header = none from rfl, Html.body, Html.block, hb, bind, Except.bind] at hs
  | ok c =>
    refine ⟨pageStart ++ b!"\n    ",
      Html.classAttr m ++ Html.attr b!"id" (Html.attrOf m b!"id") ++ b!">"
      ++ Html.heading b!"1" t ++ Html.attribution m ++ b!"\n    " ++ c ++ b!"</section>" ++ b!"\n</body>\n\n</html>\n",
      fun level s hs => ?_⟩
    simp only [Html.render, graphOf, show Asg.new.header = none from rfl, Option.isSome_none, Bool.and_false, Html.body, Html.block, hb, bind, Except.bind, pure, Except.pure, Except.ok.injEq] at hs
    rw [← hs, show Html.docTitle none = [] from rfl]
    unfold pageStart
    simp only [List.append_assoc, List.nil_append, List.append_nil]

/-- The property as stated is false: all headings have rank 1. -/
theorem C63_same_rank :
    pageIs b!"== A\n\n=== B\n\n==== C\n" (fun s => within b!"<h1>A</h1>" s && within b!"<h1>B</h1>" s && within b!"<h1>C</h1>" s)
      = true := by
  decide +kernel

example : pageIs b!"== A\n\n=== B\n\nc\n" (fun s => within b!"<section data-type=\"sect1\">" s && within b!"<section data-type=\"sect2\">" s)
    = true := by
  decide +kernel

/-! ## C64: anchors -/

/-- If the texts in a graph are themselves well nested and attribute values have no double quotes, the given `id` of
every section, and of every image that is not directly in an admonition, is the `id` of an element of the page. -/
theorem C64_anchors_partial (sees : Bool) (g : Asg) (h : tidyDoc balanced g = true) (s : Str) (hs : Html.render sees g = .ok s) :
    ∀ x ∈ anchorsL false g.blocks, x ∈ ids s := by
  simp only [tidyDoc, Bool.and_eq_true] at h
  exact (Html.render_good sees g s h.1 h.2 hs).ids

/-- The property as stated is false: the `id` of a paragraph is lost, and a reference to it leads nowhere. -/
theorem C64_paragraph : pageIs b!"[[x]]\na\n\nsee <<x>>\n" (fun s => within b!"href=\"#x\"" s && (ids s).isEmpty) = true := by
  decide +kernel

/-- The `id`s of paragraphs, lists and boxes never reach the page: it does not depend on them. -/
theorem C64_box (sees : Bool) (n : ParentName) (hn : n ≠ .table) (v : Option ParentVariant) (d x : Str) (bs : List Block) (t : List Inline)
    (l : List Location) :
    Html.render sees (graphOf [.parent n v d bs t (givenMeta [(b!"id", x)] [] []) l]) = Html.render sees (graphOf [.parent n v d bs t none l]) := by
  have hb : ∀ titled, Html.block titled false (.parent n v d bs t (givenMeta [(b!"id", x)] [] []) l) =
      Html.block titled false (.parent n v d bs t none l) := by
    intro titled
    cases n <;> first | exact absurd rfl hn | rfl
  simp only [Html.render, graphOf, Html.body, hb]

/-- The property as stated is false: the `id` of an image directly in an admonition. -/
theorem C64_image_in_admonition :
    rendersTo (graphOf [.parent .admonition (some .note) b!"" [.image b!"x.png" [] (givenMeta [(b!"id", b!"fig")] [] []) []] [] none []])
      (fun s => (ids s).isEmpty) = true := by
  decide +kernel

example : tidyDoc balanced htmlGraph = true ∧ anchorsL false htmlGraph.blocks = [b!"here", b!"fig"] ∧
    pageIs b!"[[x]]\n== Head\n" (fun s => ids s = [b!"x"]) = true :=
  ⟨by decide +kernel, by decide +kernel, by decide +kernel⟩

/-! ## C65: returning -/

/-- A page is written exactly if every table has a number of columns, which is positive if there are two or more cells, and if
every table with a header has at least one row of cells. -/
theorem C65_returns_partial (sees : Bool) (g : Asg) : (∃ s, Html.render sees g = .ok s) ↔ griddedL g.blocks = true :=
  (Html.bind_pure_ok _ _).trans (Html.body_ok _ g.blocks)

/-- The property as stated is false: a table with one cell. -/
theorem C65_one_cell : panics (page b!"|===\n| a\n|===\n") .unwrap = true := by decide +kernel

/-- The property as stated is false: a table without cells. -/
theorem C65_no_cells : panics (page b!"|===\n|===\n") .unwrap = true := by decide +kernel

/-- The property as stated is false: a specification of columns that is no number. -/
theorem C65_columns : panics (page b!"[cols=\"x\"]\n|===\n| a | b\n|===\n") .unwrap = true := by decide +kernel

/-- The property as stated is false: no columns. -/
theorem C65_zero : panics (page b!"[cols=\"0\"]\n|===\n| a | b\n|===\n") .unwrap = true := by decide +kernel

/-- The property as stated is false: a header with more columns than there are cells. -/
theorem C65_short_header : panics (page b!"[cols=3]\n|===\n| a | b\n|===\n") .unwrap = true := by decide +kernel

example : griddedL htmlGraph.blocks = true := by decide +kernel

/-! ## C66: placement -/

/-- If texts have no tags and attribute values no double quotes, items are in lists, and lists are not directly in
admonitions, then on the page list items stand in lists, terms and descriptions in description lists, cells in rows or,
for header cells, in the head of a table, and rows in tables. -/
theorem C66_placed_partial (sees : Bool) (g : Asg) (h : tidyDoc noTag g = true) (ha : atHomeL true false .other g.blocks = true) (s : Str)
    (hs : Html.render sees g = .ok s) : wellPlaced true s = true :=
  Html.render_placed sees g s h ha hs

/-- The same without tables that have a header: all cells stand in rows. -/
theorem C66_cells_partial (sees : Bool) (g : Asg) (h : tidyDoc noTag g = true) (ha : atHomeL false false .other g.blocks = true) (s : Str)
    (hs : Html.render sees g = .ok s) : wellPlaced false s = true :=
  Html.render_placed sees g s h ha hs

/-- The property as stated is false: the items of a list in an admonition have no list. -/
theorem C66_admonition_list :
    pageIs b!"[NOTE]\n* a\n" (fun s => !wellPlaced true s && within b!"<div data-type=\"note\"><li>" s) = true := by
  decide +kernel

/-- The property as stated is false: header cells are in no row. -/
theorem C66_header_cells :
    pageIs b!"|===\n|a |b\n\n|c |d\n|===\n" (fun s => wellPlaced true s && !wellPlaced false s) = true := by
  decide +kernel

/-- A graph with a table without a header, a list and a description list. -/
def homeGraph : Asg := graphOf [
  .list .ordered [plainItem b!"one", .listItem b!"." [word b!"two"] [.list .unordered [plainItem b!"x"] none []] none []] none [],
  .parent .admonition (some .tip) b!"====" [.parent .example_ none b!"====" [
    .dlist [.dlistItem [word b!"term"] [word b!"what it is"] [] none []] none []] [] none []] [] none [],
  .parent .table none b!"|===" [.tableCell [word b!"a"] none [], .tableCell [word b!"b"] none []] []
    (givenMeta [(b!"cols", b!"1")] [] []) []]

example : tidyDoc noTag homeGraph = true ∧ atHomeL false false .other homeGraph.blocks = true ∧
    rendersTo homeGraph (wellPlaced false) = true := ⟨by decide +kernel, by decide +kernel, by decide +kernel⟩

/-- The test of placement tells apart items in and out of lists. -/
example : wellPlaced true b!"<ul><li>a</li></ul>" = true ∧ wellPlaced true b!"<div><li>a</li></div>" = false ∧
    wellPlaced true b!"<table><td>a</td></table>" = false := by decide

end Adoc.Props
