import Verif.Spec.Word
/-!
# What the paragraphs of a Word document look like

A word processor finds the look of a paragraph from the definitions of the document: what the style of the paragraph does
not set is taken from the style it is based on. The expected look is told from the name of the style alone.
-/
namespace Adoc.Word

open Docx

/-- What `own` sets, and for the rest what `base` sets. -/
def over (own base : Look) : Look where
  font := own.font.or base.font
  size := own.size.or base.size
  bold := own.bold || base.bold
  italic := own.italic || base.italic
  line := own.line.or base.line
  left := own.left.or base.left
  right := own.right.or base.right
  first := own.first.or base.first
  centred := own.centred || base.centred

/-- The look of the style `id`, found along at most `n` definitions. Nothing if a style on the way is not defined. -/
def seen (d : Doc) : Nat → Str → Option Look
  | 0, _ => none
  | n + 1, id =>
    match d.styles.find? (fun e => e.id == id) with
    | none => none
    | some e =>
      match e.basedOn with
      | none => some e.look
      | some b => (seen d n b).map (over e.look)

/-- Styles for the titles of boxes. -/
def boxTitles : List Str := [b!"Admonition Title", b!"Example Title", b!"Sidebar Title"]

/-- Styles for the text in boxes. -/
def boxTexts : List Str := [b!"Admonition Text", b!"Example Text", b!"Sidebar Text"]

/-- How a paragraph of the style `id` is expected to look: 12 points in Times New Roman, code in Courier New; headings,
titles and terms bold; quotations and verses italic; double spaced except for code, lists, quotations and verses; half an inch
more on the left for boxes, quotations, definitions and further paragraphs of list items, for boxes and quotations on the right
too; half an inch for the first line of plain paragraphs, a quarter in boxes, and hanging lines for verses. -/
def expected (id : Str) : Look where
  font := some (if id = b!"Monospace" then b!"Courier New" else b!"Times New Roman")
  size := some 24
  bold := id = b!"Title" || id = b!"Definition Term" || boxTitles.contains id || (b!"Heading ").isPrefixOf id
  italic := id = b!"Quote" || id = b!"Verse"
  line := if [b!"Monospace", b!"No Spacing", b!"Quote", b!"Verse", b!"ListParagraph", b!"ListParagraphContinue"].contains id
    then none else some 480
  left := if id = b!"Verse" then some 0
    else if boxTexts.contains id || [b!"Quote", b!"Definition", b!"ListParagraphContinue"].contains id then some 720 else none
  right := if id = b!"Verse" then some 0 else if boxTexts.contains id || id = b!"Quote" then some 720 else none
  first := some (if id = b!"Normal" || id = b!"No Spacing" then 720
    else if boxTexts.contains id then 360 else if id = b!"Verse" then -720 else 0)
  centred := false

/-- The look of what a paragraph is. Nothing for thematic breaks. -/
def Role.look : Role → Option Look
  | .body => some { font := some b!"Times New Roman", size := some 24, line := some 480, first := some 720 }
  | .heading _ | .boxTitle _ | .term =>
    some { font := some b!"Times New Roman", size := some 24, line := some 480, first := some 0, bold := true }
  | .boxText _ => some
    { font := some b!"Times New Roman", size := some 24, line := some 480, left := some 720, right := some 720, first := some 360 }
  | .quotation => some
    { font := some b!"Times New Roman", size := some 24, left := some 720, right := some 720, first := some 0, italic := true }
  | .verse => some
    { font := some b!"Times New Roman", size := some 24, left := some 0, right := some 0, first := some (-720), italic := true }
  | .code => some { font := some b!"Courier New", size := some 24, first := some 0 }
  | .bullet => some { font := some b!"Times New Roman", size := some 24, first := some 0 }
  | .numbered => some { font := some b!"Times New Roman", size := some 24, line := some 480, first := some 0 }
  | .continuation => some { font := some b!"Times New Roman", size := some 24, left := some 720, first := some 0 }
  | .definition => some { font := some b!"Times New Roman", size := some 24, line := some 480, left := some 720, first := some 0 }
  | .rule => none

end Adoc.Word
