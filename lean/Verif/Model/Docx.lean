import Verif.Model.Asg
import Verif.Model.Render
/-!
# The Word writer (`src/backends/docx/`)

Line references without a file are to `src/backends/docx/document.rs`.

The writer builds a `docx_rs::Docx` value. The model of that value keeps what the writer decides: the style
definitions with the styles they refer to, the numbering definitions, and the body with the style, page break, list
number and runs of each paragraph. Left out: fonts, sizes, indents, spacing and alignment, the page header and page
size, and everything after `docx.build()` (zip output, `File::create(..).unwrap()`).

Simplifications:
* reading an image file is a parameter: `some ()` if the file can be read, `none` for the `io::Error`; a picture that
  `Pic::new` cannot decode is not modelled;
* the counters `abstract_numbering` and `numbering` do not overflow (`usize`);
* the diagnostic that is printed for footnotes is left out.
-/
namespace Adoc.Docx

open Render (Run)

/-- `substitutions.rs:5-51`, `CHARREF_MAP`. -/
def charrefMap : SMap Str := [
  (b!"&nbsp;", b!" "), (b!"&#160;", b!" "), (b!"&mdash;", b!"—"), (b!"&#8212;", b!"—"), (b!"&ndash;", b!"—"),
  (b!"&dollar;", b!"$"), (b!"&amp;", b!"&"), (b!"&#38;", b!"&"), (b!"&gt;", b!">"), (b!"&#62;", b!">"),
  (b!"&lt;", b!"<"), (b!"&#60;", b!"<"), (b!"&equals;", b!"="), (b!"&plus;", b!"+"), (b!"&#169;", b!"©"),
  (b!"&copy;", b!"©"), (b!"&#174;", b!"®"), (b!"&reg;", b!"®"), (b!"&#8482;", b!"™"), (b!"&trade;", b!"™"),
  (b!"&#8230;", b!"…"), (b!"&#8594;", b!"→"), (b!"&#8658;", b!"⇒"), (b!"&#8592;", b!"←"), (b!"&#8656;", b!"⇐"),
  (b!"&#sect;", b!"§"), (b!"&#167;", b!"§"), (b!"&euro;", b!"€"), (b!"&#8364;", b!"€"), (b!"&yen;", b!"¥"),
  (b!"&#165;", b!"¥"), (b!"&quot;", b!"\""), (b!"&#34;", b!"\""), (b!"&#39;", b!"'"), (b!"&apos;", b!"'"),
  (b!"&lsquo;", b!"‘"), (b!"&#8216;", b!"‘"), (b!"&rsquo;", b!"’"), (b!"&#8217;", b!"’"), (b!"&ldquo;", b!"“"),
  (b!"&#8220;", b!"“"), (b!"&rdquo;", b!"”"), (b!"&#8221;", b!"”")]

/-- `inlines.rs:714-726`, `value_or_refd_char`. -/
def refdChar (name : LitName) (value : Str) : Str :=
  match name with
  | .charref => (charrefMap.get? value).getD value
  | .text => value

/-- `RE_WHITESPACE_NEWLINE.replace_all(s, " ")` for `\s*\n` (L23, L399): a run of white space that contains a newline
is replaced by one space up to its last newline. `pend` is what the current run of white space becomes so far; `fuel`
bounds the number of characters. -/
def joinF : Nat → Str → Str → Str
  | 0, pend, s => pend ++ s
  | _ + 1, pend, [] => pend
  | n + 1, pend, b :: bs =>
    if wsLen (b :: bs) = 0 then pend ++ b :: joinF n [] bs
    else if b = c!"\n" then joinF n b!" " bs
    else joinF n (pend ++ (b :: bs).take (wsLen (b :: bs))) ((b :: bs).drop (wsLen (b :: bs)))

/-- `RE_WHITESPACE_NEWLINE.replace_all(s, " ")`. -/
def joinLines (s : Str) : Str := joinF s.length [] s

/-- `s.replace("\n", " ")` (L430). -/
def flatLines (s : Str) : Str := s.map fun b => if b = c!"\n" then c!" " else b

mutual
/-- L422-483, `runs_from_inline_with_variant`, with `line_break_before` and the variants, which are only ever
pushed. The properties that a run gets from its variants are `Render.Run.props`. -/
def runsWith : Inline → Bool → List SpanVariant → List Run × Bool × List SpanVariant
  | .lit n v _, lb, vs =>
    let t := flatLines (refdChar n v)
    ([.text (if lb then trimStart t else t) vs], false, vs)
  | .span v _ is _ _ _, lb, vs => runsWithL is lb (vs ++ [v])
  | .brk _, _, vs => ([.brk], true, vs)
  | .ref _ _ is _ _, lb, vs => runsWithL is lb vs
/-- The loops over child inlines. -/
def runsWithL : List Inline → Bool → List SpanVariant → List Run × Bool × List SpanVariant
  | [], lb, vs => ([], lb, vs)
  | i :: is, lb, vs =>
    let r := runsWith i lb vs
    let r' := runsWithL is r.2.1 r.2.2
    (r.1 ++ r'.1, r'.2)
end

/-- L386-419, `runs_from_inline`. -/
def runsFrom (i : Inline) (lb : Bool) : List Run × Bool :=
  match i with
  | .lit n v _ =>
    let t := refdChar n v
    ([.text (joinLines (if lb then trimStart t else t)) []], false)
  | .span v _ is _ _ _ => let r := runsWithL is lb [v]; (r.1, r.2.1)
  | .brk _ => ([.brk], true)
  | .ref _ _ is _ _ => let r := runsWithL is lb []; (r.1, r.2.1)

/-- L376-383, `add_inlines_to_para`. -/
def runs : List Inline → Bool → List Run × Bool
  | [], lb => ([], lb)
  | i :: is, lb =>
    let r := runsFrom i lb
    let r' := runs is r.2
    (r.1 ++ r'.1, r'.2)

/-- `styles.rs:6-24`, `DocumentStyles`. -/
inductive Sty where
  | normal | noSpacing | monospace | title
  | heading (level : Nat)
  | sectionTitle (name : Str)
  | sectionText (name : Str)
  | quote | verse | listParagraph | listParagraphContinue
  | orderedList (id : Nat)
  | definitionTerm | definition | thematicBreak | table
deriving DecidableEq, Repr

/-- `styles.rs:27-46`, `style_id`. -/
def Sty.id : Sty → Str
  | .normal => b!"Normal"
  | .noSpacing => b!"No Spacing"
  | .monospace => b!"Monospace"
  | .title => b!"Title"
  | .heading level => b!"Heading " ++ natToStr level
  | .sectionTitle name => name ++ b!" Title"
  | .sectionText name => name ++ b!" Text"
  | .quote => b!"Quote"
  | .verse => b!"Verse"
  | .listParagraph => b!"ListParagraph"
  | .listParagraphContinue => b!"ListParagraphContinue"
  | .orderedList n => b!"NumberedListParagraph_" ++ natToStr n
  | .definitionTerm => b!"Definition Term"
  | .definition => b!"Definition"
  | .thematicBreak => b!"ThematicBreak"
  | .table => b!"Table"

/-- The look that a style definition sets: font, size in half points, bold, italic, distance of lines and indents in twentieths of a point
(the first line less than zero if it hangs), and whether lines are centred. What is not set is taken from the style it is based on. -/
structure Look where
  font : Option Str := none
  size : Option Nat := none
  bold : Bool := false
  italic : Bool := false
  line : Option Nat := none
  left : Option Int := none
  right : Option Int := none
  first : Option Int := none
  centred : Bool := false
deriving DecidableEq, Repr

/-- A style definition: its id, the style it is based on, the style of the next paragraph and its look. -/
structure StyleDef where
  id : Str
  basedOn : Option Str := none
  next : Option Str := none
  look : Look := {}
deriving DecidableEq, Repr

/-- `styles.rs:48-195`, `generate`. -/
def Sty.generate : Sty → StyleDef
  | .normal =>
    { id := b!"Normal",
      look := { font := some b!"Times New Roman", size := some 24, line := some 480, first := some 720 } }
  | .noSpacing =>
    { id := b!"No Spacing",
      look := { font := some b!"Times New Roman", size := some 24, first := some 720 } }
  | .monospace =>
    { id := b!"Monospace",
      look := { font := some b!"Courier New", size := some 24, first := some 0 } }
  | .title =>
    { id := b!"Title", basedOn := some b!"Normal",
      look := { first := some 0, bold := true } }
  | .heading level =>
    { id := b!"Heading " ++ natToStr level, basedOn := some b!"Normal",
      look := { first := some 0, bold := true } }
  | .sectionTitle name =>
    { id := name ++ b!" Title", basedOn := some b!"Title",
      look := { first := some 0, bold := true } }
  | .sectionText name =>
    { id := name ++ b!" Text", basedOn := some b!"Normal",
      look := { left := some 720, first := some 360, right := some 720 } }
  | .quote =>
    { id := b!"Quote", basedOn := some b!"No Spacing", next := some b!"Normal",
      look := { italic := true, left := some 720, first := some 0, right := some 720 } }
  | .verse =>
    { id := b!"Verse", basedOn := some b!"No Spacing", next := some b!"Normal",
      look := { italic := true, left := some 0, first := some (-720), right := some 0 } }
  | .listParagraph =>
    { id := b!"ListParagraph", basedOn := some b!"No Spacing",
      look := { first := some 0 } }
  | .listParagraphContinue =>
    { id := b!"ListParagraphContinue", basedOn := some b!"No Spacing",
      look := { left := some 720, first := some 0 } }
  | .orderedList n =>
    { id := b!"NumberedListParagraph_" ++ natToStr n, basedOn := some b!"Normal",
      look := { first := some 0 } }
  | .definitionTerm =>
    { id := b!"Definition Term", basedOn := some b!"Normal",
      look := { first := some 0, bold := true } }
  | .definition =>
    { id := b!"Definition", basedOn := some b!"Normal",
      look := { left := some 720, first := some 0 } }
  | .thematicBreak =>
    { id := b!"Thematic Break", basedOn := some b!"Normal",
      look := { centred := true, bold := true } }
  | .table =>
    { id := b!"Table", basedOn := some b!"Normal",
      look := { first := some 0 } }

/-- A paragraph. -/
structure Para where
  style : Str
  pageBreak : Bool := false
  num : Option Nat := none
  runs : List Run := []
deriving DecidableEq, Repr

/-- A child of the document body. A picture is a paragraph with an image and no style. -/
inductive Item where
  | para (p : Para)
  | table (rows : List (List Para))
  | picture (target : Str)
deriving DecidableEq, Repr

/-- The parts of `docx_rs::Docx` that the writer sets. A numbering is an id and the id of its abstract numbering. -/
structure Doc where
  styles : List StyleDef
  abstractNums : List Nat := []
  nums : List (Nat × Nat) := []
  body : List Item := []
deriving DecidableEq, Repr

/-- L25-49, `asciidocr_default_docx`. -/
def defaultDoc : Doc := { styles := [Sty.normal.generate, Sty.noSpacing.generate, Sty.title.generate] }

/-- L62-68, `DocxWriter`, together with the document that the functions pass along. -/
structure St where
  pageBreak : Bool := false
  lineBreak : Bool := false
  abstractNum : Nat := 0
  num : Nat := 0
  style : Sty := .normal
  doc : Doc := defaultDoc
deriving DecidableEq, Repr

/-- The ways in which writing fails: L51-59, `DocxRenderError`, and the panic of `% 0`. -/
inductive DocxFail where
  | file
  | column
  | panic (site : Site)
deriving DecidableEq, Repr

abbrev R (α : Type) := Except DocxFail α

namespace St

/-- `Docx::add_paragraph`, `Docx::add_table`. -/
def push (st : St) (i : Item) : St := { st with doc := { st.doc with body := st.doc.body ++ [i] } }

/-- L87-97, `add_paragraph`: the style given to the paragraph before the call is replaced. -/
def addPara (st : St) (num : Option Nat) (runs : List Run) : St :=
  { st.push (.para { style := st.style.id, pageBreak := st.pageBreak, num, runs }) with pageBreak := false }

/-- `add_inlines_to_para` followed by `add_paragraph`. -/
def addInlines (st : St) (num : Option Nat) (is : List Inline) : St :=
  let r := runs is st.lineBreak
  { st with lineBreak := r.2 }.addPara num r.1

/-- L359-364, `add_style`. -/
def addStyle (st : St) (d : StyleDef) : St :=
  if st.doc.styles.any (fun e => e.id = d.id) then st
  else { st with doc := { st.doc with styles := st.doc.styles ++ [d] } }

/-- L366-369, `set_style`. -/
def setStyle (st : St) (s : Sty) : St := { st with style := s }.addStyle s.generate

/-- L371-373, `reset_style`. -/
def reset (st : St) : St := { st with style := .normal }

/-- L167-185: `add_list` before the loop over the items. -/
def listHead (st : St) (v : ListVariant) : St :=
  let st := { st with num := st.num + 1 }
  match v with
  | .ordered => st.setStyle (.orderedList st.num)
  | .unordered =>
    let st := st.setStyle .listParagraph
    if st.abstractNum = 0 then
      { st with
        abstractNum := st.abstractNum + 1
        doc := { st.doc with
          abstractNums := st.doc.abstractNums ++ [st.abstractNum + 1]
          nums := st.doc.nums ++ [(st.num, st.abstractNum + 1)] } }
    else st

/-- L213-222, `add_block_to_list_item`, for each of the blocks. -/
def attached (st : St) : List Block → St
  | [] => st
  | b :: bs => (st.addInlines none b.inlines).attached bs

/-- L192-210, `add_list_item`. -/
def listItem (st : St) (principal : List Inline) (blocks : List Block) : St :=
  let st := st.addInlines (some st.num) principal
  if blocks.isEmpty then st else ((st.setStyle .listParagraphContinue).attached blocks).reset

/-- L224-239: `add_dlist_item` before its children. -/
def dlistHead (st : St) (terms principal : List Inline) : St :=
  (((st.setStyle .definitionTerm).addInlines none terms).setStyle .definition).addInlines none principal

/-- L250-258: the title in `add_section`. -/
def sectionHead (st : St) (title : List Inline) (level : Nat) : St :=
  if title.isEmpty then st else ((st.setStyle (.heading level)).addInlines none title).reset

end St

/-- `blocks.rs:1141-1151`, `Display`. -/
def variantText : ParentVariant → Str
  | .caution => b!"Caution"
  | .important => b!"Important"
  | .note => b!"Note"
  | .tip => b!"Tip"
  | .warning => b!"Warning"

namespace St

/-- L266-287: `add_parent_block` before its children. -/
def parentHead (st : St) (name : Str) (variant : Option ParentVariant) (title : List Inline) : St :=
  let st := match variant with
    | some v => (st.setStyle (.sectionTitle name)).addPara none [.text (variantText v) []]
    | none => st
  let st := if title.isEmpty then st else (st.setStyle (.sectionTitle name)).addInlines none title
  st.setStyle (.sectionText name)

/-- The `attribution` of a quote. -/
def attribution (data : Option Meta) : Option Str :=
  match data with
  | some m => m.attributes.get? b!"attribution"
  | none => none

/-- L300-309: `add_quote` after its children. -/
def quoteTail (st : St) (data : Option Meta) : St :=
  (match attribution data with
    | some a => st.addPara none [.text (b!"— " ++ a ++ b!"\n") []]
    | none => st).reset

/-- L328-332: the paragraphs of the cells of a table. -/
def cells (st : St) : List Block → St × List Para
  | [] => (st, [])
  | b :: bs =>
    let r := runs b.inlines st.lineBreak
    let rest := { st with lineBreak := r.2 }.cells bs
    (rest.1, { style := Sty.table.id, runs := r.1 } :: rest.2)

/-- L316-324: the number of columns. -/
def columns (data : Option Meta) : R Nat :=
  match data with
  | some m => match m.attributes.get? b!"cols" with
    | some c => match parseUnsigned (2 ^ 64 - 1) c with
      | some n => .ok n
      | none => .error .column
    | none => .ok 0
  | none => .ok 0

/-- L313-340, `add_table`; the rows are those of `Render.docxRows`. -/
def table (st : St) (blocks : List Block) (data : Option Meta) : R St := do
  let st := st.setStyle .table
  let cols ← columns data
  let (st, ps) := st.cells blocks
  match Render.docxRows cols ps with
  | .ok rows => .ok (st.push (.table rows))
  | .error _ => .error (.panic .divZero)

/-- L124-137: the leaf blocks in `add_block_to_doc`. -/
def leaf (st : St) (name : LeafName) (is : List Inline) : St :=
  (match name with
    | .verse => st.setStyle .verse
    | .listing | .literal => st.setStyle .monospace
    | .paragraph | .pass => st).addInlines none is

/-- L342-357, `add_block_macro` for images. -/
def image (io : Str → Option Unit) (st : St) (target : Str) : R St :=
  match io target with
  | some () => .ok (st.push (.picture target))
  | none => .error .file

end St

mutual
/-- L99-165, `add_block_to_doc`, with the functions that call it back (`add_list`, `add_dlist_item`, `add_section`,
`add_parent_block`, `add_quote`). -/
def addBlock (io : Str → Option Unit) : Block → St → R St
  | .section t _ level bs _, st => addBlocks io bs (st.sectionHead t level)
  | .list v items _ _, st => addBlocks io items (st.listHead v)
  | .listItem _ p bs _ _, st => .ok (st.listItem p bs)
  | .dlist items _ _, st => addBlocks io items st
  | .dlistItem t p bs _ _, st => addBlocks io bs (st.dlistHead t p)
  | .brk .page _, st => .ok { st with pageBreak := true }
  | .brk .thematic _, st => .ok ((st.setStyle .thematicBreak).addPara none [.text b!"#" []])
  | .leaf n _ _ is _ _, st => .ok (st.leaf n is)
  | .parent .admonition v _ bs t _ _, st => do
    let st ← addBlocks io bs (st.parentHead b!"Admonition" v t)
    return st.reset
  | .parent .example_ v _ bs t _ _, st => do
    let st ← addBlocks io bs (st.parentHead b!"Example" v t)
    return st.reset
  | .parent .sidebar v _ bs t _ _, st => do
    let st ← addBlocks io bs (st.parentHead b!"Sidebar" v t)
    return st.reset
  | .parent .open_ _ _ bs _ _ _, st => addBlocks io bs st
  | .parent .quote _ _ bs _ m _, st => do
    let st ← addBlocks io bs (st.setStyle .quote)
    return st.quoteTail m
  | .parent .table _ _ bs _ m _, st => st.table bs m
  | .parent .footnoteContainer .., st => .ok st
  | .image target _ _ _, st => st.image io target
  | .tableCell .., st => .ok st
/-- `add_block_to_doc` for each block. -/
def addBlocks (io : Str → Option Unit) : List Block → St → R St
  | [], st => .ok st
  | b :: bs, st => do
    let st ← addBlock io b st
    addBlocks io bs st
end

/-- `mod.rs:22-29`: the title of the document. -/
def start (header : Option Header) : St :=
  match header with
  | some h =>
    if h.title.isEmpty then {}
    else
      let r := runs h.title false
      { ({} : St) with lineBreak := r.2 }.push (.para { style := b!"Title", runs := r.1 })
  | none => {}

/-- `mod.rs:17-39`, `render_docx`: the document that is packed. -/
def render (io : Str → Option Unit) (g : Asg) : R Doc := do
  let st ← addBlocks io g.blocks (start g.header)
  return st.doc

end Adoc.Docx
