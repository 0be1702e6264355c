import Verif.Spec.RichDoc
import Verif.Spec.Markup
/-!
# What there is to read in a document of the class

The text that a reader of the finished page should find, block by block in the order of the source, defined on how the
document is written and independently of the graph and of the writer.
-/
namespace Adoc.Spec
open Markup

/-- The text of a part. -/
def Part.words : Part → Str
  | .text ls => joinB 10 ls
  | .span _ ls => joinB 10 ls

/-- The text of parts. -/
def partsWords (ps : List Part) : Str := ps.flatMap Part.words

/-- The text of an element; `title` has the text to show for a cross reference. A link without text shows its target, and
symbols are shown as character references. -/
def Elem.words (title : Str → Str) : Elem → Str
  | .text ls => joinB 10 ls
  | .span _ ps => partsWords ps
  | .link url ps => if ps.isEmpty then url else partsWords ps
  | .xref id => title id
  | .symbol l => (symbols.lookup l).getD l
  | .note ps => partsWords ps
  | .image _ _ => []
  | .hard => []

/-- What a cross reference shows if nothing is known about its target. -/
def hashed (id : Str) : Str := c!"#" :: id

/-- The text of elements. -/
def wordsL (title : Str → Str) (es : List Elem) : Str := es.flatMap (Elem.words title)

/-- Ids with the elements of the titles of their blocks. -/
abbrev Titles := List (Str × List Elem)

/-- What a cross reference shows: the title of the block with that id, if there is one. -/
def Titles.title (ts : Titles) (id : Str) : Str :=
  match ts.lookup id with
  | some (e :: es) => wordsL hashed (e :: es)
  | _ => hashed id

/-- The title of a block, as it is written. -/
def Blk.titleElems : Blk → List Elem
  | .head _ es => es
  | .box _ _ title _ _ => title.getD []
  | .image _ _ title => title.getD []
  | .table title _ _ => title.getD []
  | _ => []

/-- The id in metadata. -/
def idOf (m : Option Meta) : Option Str := m.bind fun m => m.attributes.get? b!"id"

/-- The id of a block, if it has one, with its title, and those of the blocks in it. -/
def Tagged.titles (e : Tagged) : Titles :=
  (idOf (e.blk.own (tagsMeta e.tags))).toList.map (fun i => (i, e.blk.titleElems))
    ++ match e.blk with
      | .box _ _ _ _ held => held.flatMap fun h => (idOf (tagsMeta h.tags)).toList.map fun i => (i, [])
      | .attached _ points => points.flatMap fun p => p.boxes.flatMap fun a => a.held.flatMap fun h =>
          (idOf (tagsMeta h.tags)).toList.map fun i => (i, [])
      | _ => []

/-- The ids in a document with their titles. -/
def RichDoc.titles (d : RichDoc) : Titles := d.blocks.flatMap Tagged.titles

/-- Who said it and where, according to metadata. -/
def signature (m : Option Meta) : Str :=
  if value m b!"attribution" = [] then []
  else value m b!"attribution" ++ if value m b!"citation" = [] then [] else b!"," ++ value m b!"citation"

/-- The text of a part of a listing. -/
def CodePart.words : CodePart → Str
  | .text ss => written ss
  | .callout n => b!"(" ++ n ++ b!")"
  | .file _ source => written source

/-- The text of a paragraph, list or verbatim block with metadata `m`. -/
def Piece.words (ts : Titles) (m : Option Meta) : Piece → Str
  | .para es => wordsL ts.title es
  | .list _ items => items.flatMap (wordsL ts.title) ++ signature m
  | .verb _ _ body => written body

/-- The text of a block with metadata `m`. In the captions of images and in terms, cross references show ids. -/
def Blk.words (ts : Titles) (m : Option Meta) : Blk → Str
  | .piece p => p.words ts m
  | .head _ es => wordsL ts.title es ++ signature m
  | .brk _ => []
  | .note _ es => wordsL ts.title es
  | .box _ _ title _ held => wordsL ts.title (title.getD []) ++ (held.flatMap fun h => h.piece.words ts (tagsMeta h.tags))
      ++ signature m
  | .image _ args title => wordsL hashed (title.getD []) ++ signature ((imageMeta args).or m)
  | .table title _ rows => wordsL ts.title (title.getD []) ++ rows.flatMap fun r => r.cells.flatMap (wordsL ts.title)
  | .dlist entries => (entries.flatMap fun e => wordsL hashed e.term ++ wordsL ts.title e.text) ++ signature m
  | .colist items => (items.flatMap fun x => wordsL ts.title x.2) ++ signature (colistMeta m)
  | .code _ parts => parts.flatMap CodePart.words
  | .attached _ points => (points.flatMap fun p => wordsL ts.title p.text
      ++ p.boxes.flatMap fun a => a.held.flatMap fun h => h.piece.words ts (tagsMeta h.tags)) ++ signature m

/-- The text of a block with the metadata lines before it. -/
def Tagged.words (ts : Titles) (e : Tagged) : Str := e.blk.words ts (tagsMeta e.tags)

/-- The text of the header. -/
def headWords : Option Head → Str
  | some h => wordsL hashed h.title
  | none => []

/-- The text of a document: the title, then block by block. -/
def RichDoc.words (d : RichDoc) : Str := headWords d.head ++ d.blocks.flatMap (Tagged.words d.titles)

/-- A table without a title. -/
def Blk.plainTable : Blk → Bool
  | .table title _ _ => title.isNone
  | _ => true

/-- Nothing in the way of a page: there is no `<` in texts, and there are no quotation marks in ids, roles and targets; tables
have no titles, and their number of columns is a positive number. -/
structure RichDoc.Printable (d : RichDoc) : Prop where
  title : ∀ h, d.head = some h → tidyIs noTag (shownL [] h.title) = true
  clean : ∀ e ∈ d.blocks, tidy noTag (e.block d.ids) = true
  tables : ∀ e ∈ d.blocks, e.blk.plainTable = true
  columns : ∀ e ∈ d.blocks, gridded (e.block d.ids) = true

end Adoc.Spec
