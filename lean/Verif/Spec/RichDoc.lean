import Verif.Spec.Rich
import Verif.Spec.Outline
import Verif.Model.Parser
/-!
# Documents of blocks with inline markup: how they are written and what they mean

A document is described by its blocks. `Blk.signs` is how a block is written. What the graph should be is described by
listing its blocks in reading order, each with the headings of the sections around it. Nothing here refers to how the
code builds the graph.
-/
namespace Adoc.Spec

/-- Blocks whose contents are taken as they are. -/
inductive Verb where
  | listing | literal | pass
deriving DecidableEq, Repr

/-- The name of the delimiter in the lexical grammar. -/
def Verb.type : Verb → TokenType
  | .listing => .sourceBlock
  | .literal => .literalBlock
  | .pass => .passthroughBlock

/-- The name of the block in the graph. -/
def Verb.name : Verb → LeafName
  | .listing => .listing
  | .literal => .literal
  | .pass => .pass

/-- How an admonition is written. -/
def admonitionStr : ParentVariant → Str
  | .note => b!"NOTE: "
  | .tip => b!"TIP: "
  | .important => b!"IMPORTANT: "
  | .caution => b!"CAUTION: "
  | .warning => b!"WARNING: "

/-- The name of an admonition in the lexical grammar. -/
def admonitionType : ParentVariant → TokenType
  | .note => .notePara
  | .tip => .tipPara
  | .important => .importantPara
  | .caution => .cautionPara
  | .warning => .warningPara

/-- A break in the lexical grammar and how it is written. -/
def breakMark : BreakVariant → TokenType × Str
  | .thematic => (.thematicBreak, b!"'''")
  | .page => (.pageBreak, b!"<<<")

/-- A heading: level and title, as inlines without locations. -/
abbrev Title := Nat × List Inline

/-! ## Metadata lines -/

/-- The words that say what a block is. -/
inductive Style where
  | source | quote | verse
deriving DecidableEq, Repr

/-- How a style is written. -/
def Style.str : Style → Str
  | .source => b!"source"
  | .quote => b!"quote"
  | .verse => b!"verse"

/-- How a style is recorded. -/
def Style.type : Style → AttrType
  | .source => .source
  | .quote => .quote
  | .verse => .verse

/-- A line before a block that says something about it. -/
inductive Tag where
  /-- `[[id]]` -/
  | anchor (id : Str)
  /-- `[source,ruby,role=x]` or `[left,width=40]` -/
  | list (style : Option Style) (args : List Arg)
  /-- `[alt="a, b"]` -/
  | quoted (k v : Str)
deriving DecidableEq, Repr

/-- How a metadata line is written, in the lexical grammar. -/
def Tag.sign : Tag → Sign
  | .anchor id => .mark .blockAnchor (b!"[[" ++ id ++ b!"]]")
  | .list st args => .mark .elementAttributes
      (b!"[" ++ joinB c!"," ((st.map Style.str).toList ++ args.map Arg.str) ++ b!"]")
  | .quoted k v => .mark .elementAttributes (b!"[" ++ (k ++ b!"=\"" ++ v ++ b!"\"") ++ b!"]")

/-- What a metadata line says. An id does not replace another one. -/
def Tag.apply (m : Meta) : Tag → Meta
  | .anchor id => if (m.attributes.get? b!"id").isSome then m else assign m b!"id" id
  | .list none args => applyArgs m 0 args
  | .list (some st) args => applyArgs { m with declared := some st.type } 1 args
  | .quoted k v => assign m k v

/-- Metadata lines that can be read, when `st` is the style given before. -/
def TagsOk (st : Option AttrType) : List Tag → Prop
  | [] => True
  | .anchor _ :: rest => TagsOk st rest
  | .list none args :: rest => args ≠ [] ∧ ArgsOk st 0 args ∧ FirstOk args ∧ TagsOk st rest
  | .list (some s) args :: rest => ArgsOk (some s.type) 1 args ∧ TagsOk (some s.type) rest
  | .quoted k v :: rest => (∀ b ∈ k, Lexical.Alnum b) ∧ c!"\"" ∉ v ∧ c!"\n" ∉ v ∧ (∀ b, v.head? = some b → isCont b = false)
      ∧ TagsOk st rest

/-- A metadata line is an anchor. -/
def Tag.isAnchor : Tag → Bool
  | .anchor _ => true
  | _ => false

/-- What the metadata lines of a block say, if they say anything that is kept. -/
def tagsMeta (tags : List Tag) : Option Meta :=
  let m := tags.foldl Tag.apply {}
  if m.attributes.isEmpty && m.roles.isEmpty then none else some m

/-! ## Blocks -/

/-- Blocks that can be in a box. -/
inductive Piece where
  /-- a paragraph -/
  | para (es : List Elem)
  /-- a list with the text of its items -/
  | list (v : ListVariant) (items : List (List Elem))
  /-- a verbatim block with its delimiter and everything between the delimiters -/
  | verb (n : Verb) (delim : Str) (body : List Sign)
deriving DecidableEq, Repr

/-- A block in a box, with its metadata lines before it and the newlines after it. -/
structure Held where
  tags : List Tag := []
  piece : Piece
  gap : Nat
deriving DecidableEq, Repr

/-- Blocks that contain blocks. -/
inductive Box where
  | sidebar | example | open | quote
deriving DecidableEq, Repr

/-- The name of the delimiter in the lexical grammar. -/
def Box.type : Box → TokenType
  | .sidebar => .sidebarBlock
  | .example => .exampleBlock
  | .open => .openBlock
  | .quote => .quoteVerseBlock

/-- The name of the block in the graph. -/
def Box.name : Box → ParentName
  | .sidebar => .sidebar
  | .example => .example_
  | .open => .open_
  | .quote => .quote

/-- The cells on a line of a table, each with its text, and the newlines after them. -/
structure TableRow where
  cells : List (List Elem)
  gap : Nat
deriving DecidableEq, Repr

/-- An entry of a description list: the term, whether the description is on the next line, and the description. -/
structure Described where
  term : List Elem
  below : Bool := false
  text : List Elem
deriving DecidableEq, Repr

/-- A part of a listing: text, the number of a callout at the end of a line, or a file that is included, with what is in
it. -/
inductive CodePart where
  | text (ss : List Sign)
  | callout (n : Str)
  | file (target : Str) (source : List Sign)
deriving DecidableEq, Repr

/-- A block that contains blocks and is attached to a list item by a line with a plus sign: with its delimiter, the newlines
after the first delimiter and the blocks in it. -/
structure Annex where
  box : Box
  delim : Str
  lead : Nat
  held : List Held
deriving DecidableEq, Repr

/-- A list item with the blocks that are attached to it. -/
structure Point where
  text : List Elem
  boxes : List Annex
deriving DecidableEq, Repr

/-- What a document consists of. -/
inductive Blk where
  /-- a paragraph, a list or a verbatim block -/
  | piece (p : Piece)
  /-- a section heading of level 1 to 4 -/
  | head (level : Nat) (es : List Elem)
  /-- a thematic or page break -/
  | brk (v : BreakVariant)
  /-- an admonition paragraph -/
  | note (v : ParentVariant) (es : List Elem)
  /-- a block that contains blocks: with its delimiter, the title line before it, the newlines after the first delimiter
  and the blocks -/
  | box (n : Box) (delim : Str) (title : Option (List Elem)) (lead : Nat) (held : List Held)
  /-- an image on a line of its own, with the title line before it -/
  | image (target : Str) (args : List Arg) (title : Option (List Elem))
  /-- a table, with the title line before it, the newlines after the first delimiter and the lines of cells -/
  | table (title : Option (List Elem)) (lead : Nat) (rows : List TableRow)
  /-- a description list -/
  | dlist (entries : List Described)
  /-- a list that explains callouts: the number and the text of each -/
  | colist (items : List (Str × List Elem))
  /-- a listing with its delimiter, with callouts and included files -/
  | code (delim : Str) (parts : List CodePart)
  /-- a list with blocks attached to its items -/
  | attached (v : ListVariant) (points : List Point)
deriving DecidableEq, Repr

@[match_pattern] abbrev Blk.para (es : List Elem) : Blk := .piece (.para es)
@[match_pattern] abbrev Blk.list (v : ListVariant) (items : List (List Elem)) : Blk := .piece (.list v items)
@[match_pattern] abbrev Blk.verb (n : Verb) (delim : Str) (body : List Sign) : Blk := .piece (.verb n delim body)

/-- The name of a section heading in the lexical grammar. -/
def headType : Nat → TokenType
  | 1 => .heading2
  | 2 => .heading3
  | 3 => .heading4
  | _ => .heading5

/-- The name of a list marker in the lexical grammar. -/
def itemType : ListVariant → TokenType
  | .unordered => .unorderedListItem
  | .ordered => .orderedListItem

/-- How a list item is written. -/
def itemSigns (v : ListVariant) (es : List Elem) : List Sign :=
  .mark (itemType v) (bullet v ++ b!" ") :: es.flatMap Elem.signs

/-- How list items are written: one after the other on lines of their own. -/
def itemsSigns (v : ListVariant) : List (List Elem) → List Sign
  | [] => []
  | [es] => itemSigns v es
  | es :: rest => itemSigns v es ++ newline :: itemsSigns v rest

/-- How a block is written. -/
def Piece.signs : Piece → List Sign
  | .para es => es.flatMap Elem.signs
  | .list v items => itemsSigns v items
  | .verb n d body => .mark n.type d :: (body ++ [.mark n.type d])

/-- How metadata lines are written. -/
def tagsSigns (tags : List Tag) : List Sign := tags.flatMap fun t => [t.sign, newline]

/-- How a block in a box is written. -/
def Held.signs (h : Held) : List Sign := tagsSigns h.tags ++ (h.piece.signs ++ List.replicate h.gap newline)

/-- How a title line is written. -/
def titleSigns : Option (List Elem) → List Sign
  | some es => .mark .blockLabel b!"." :: (es.flatMap Elem.signs ++ [newline])
  | none => []

/-- How a cell is written. -/
def cellSign (es : List Elem) : Sign := .mark .tableCell (c!"|" :: written (es.flatMap Elem.signs))

/-- How a line of a table is written. -/
def TableRow.signs (r : TableRow) : List Sign := r.cells.map cellSign ++ List.replicate r.gap newline

/-- How the end of a term is written. -/
def Described.mark (e : Described) : Str := if e.below then b!"::\n" else b!":: "

/-- How an entry of a description list is written. -/
def Described.signs (e : Described) : List Sign :=
  e.term.flatMap Elem.signs ++ .mark .descriptionListMarker e.mark :: e.text.flatMap Elem.signs

/-- How the entries of a description list are written: one after the other on lines of their own. -/
def entriesSigns : List Described → List Sign
  | [] => []
  | [e] => e.signs
  | e :: rest => e.signs ++ newline :: entriesSigns rest

/-- How the explanation of a callout is written. -/
def calloutSigns (x : Str × List Elem) : List Sign :=
  .mark .codeCalloutListItem (b!"<" ++ x.1 ++ b!"> ") :: x.2.flatMap Elem.signs

/-- How the explanations of callouts are written: one after the other on lines of their own. -/
def calloutsSigns : List (Str × List Elem) → List Sign
  | [] => []
  | [x] => calloutSigns x
  | x :: rest => calloutSigns x ++ newline :: calloutsSigns rest

/-- The directive that includes a file. -/
def includeLine (target : Str) : Str := b!"include::" ++ target ++ b!"[]"

/-- How a part of a listing is written. -/
def CodePart.signs : CodePart → List Sign
  | .text ss => ss
  | .callout n => [.mark .codeCallout (b!"<" ++ n ++ b!">")]
  | .file target _ => [.mark .include (includeLine target)]

/-- How an attached block is written: after a line with a plus sign. -/
def Annex.signs (a : Annex) : List Sign :=
  newline :: .mark .blockContinuation b!"+" :: newline :: .mark a.box.type a.delim ::
    (List.replicate a.lead newline ++ (a.held.flatMap Held.signs ++ [.mark a.box.type a.delim]))

/-- How an item with attached blocks is written. -/
def Point.signs (v : ListVariant) (p : Point) : List Sign := itemSigns v p.text ++ p.boxes.flatMap Annex.signs

/-- How items with attached blocks are written: one after the other on lines of their own. -/
def pointsSigns (v : ListVariant) : List Point → List Sign
  | [] => []
  | [p] => p.signs v
  | p :: rest => p.signs v ++ newline :: pointsSigns v rest

/-- How a block is written. -/
def Blk.signs : Blk → List Sign
  | .piece p => p.signs
  | .head n es => .mark (headType n) (List.replicate (n + 1) c!"=" ++ b!" ") :: es.flatMap Elem.signs
  | .brk v => [.mark (breakMark v).1 (breakMark v).2]
  | .note v es => .mark (admonitionType v) (admonitionStr v) :: es.flatMap Elem.signs
  | .box n d title lead held => titleSigns title ++ .mark n.type d ::
      (List.replicate lead newline ++ (held.flatMap Held.signs ++ [.mark n.type d]))
  | .image target args title => titleSigns title
      ++ [.mark .blockImageMacro (b!"image::" ++ (target ++ (b!"[" ++ (joinB c!"," (args.map Arg.str) ++ b!"]"))))]
  | .table title lead rows => titleSigns title ++ .mark .table b!"|===" ::
      (List.replicate lead newline ++ (rows.flatMap TableRow.signs ++ [.mark .table b!"|==="]))
  | .dlist entries => entriesSigns entries
  | .colist items => calloutsSigns items
  | .code d parts => .mark .sourceBlock d :: (parts.flatMap CodePart.signs ++ [.mark .sourceBlock d])
  | .attached v points => pointsSigns v points

/-- A sign that a verbatim block takes as it is. -/
def inVerb (n : Verb) : Sign → Bool
  | .text _ => true
  | .mark ty _ => ty ≠ n.type && (n ≠ .listing || ty ≠ .codeCallout && ty ≠ .include)

/-- A title is on one line. -/
def OneLine (es : List Elem) : Prop := newline ∉ es.flatMap Elem.signs

/-- A text that is there and whose elements can be told apart. -/
def ProseOk (es : List Elem) : Prop := es ≠ [] ∧ ElemsOk none es

/-- The block is well formed. -/
def Piece.Ok : Piece → Prop
  | .para es => ProseOk es
  | .list _ items => items ≠ [] ∧ ∀ es ∈ items, ProseOk es
  | .verb n _ body => body ≠ [] ∧ ∀ s ∈ body, inVerb n s = true

/-- Where metadata lines may stand in a box: not before paragraphs, and directly before a verbatim block there is no
anchor. -/
def Held.place (h : Held) : Prop :=
  match h.piece with
  | .para _ => h.tags = []
  | .verb .. => ∀ id, h.tags.getLast? ≠ some (.anchor id)
  | .list _ _ => True

/-- A block in a box is well formed. -/
structure Held.Ok (h : Held) : Prop where
  tags : TagsOk none h.tags
  piece : h.piece.Ok
  place : h.place

/-- How many newlines there have to be after a block at the end of a box: one, but two after a list. -/
def Piece.closing : Piece → Nat
  | .list _ _ => 2
  | _ => 1

/-- There are blank lines between the blocks in a box and enough newlines at the end. -/
def HeldGaps : List Held → Prop
  | [] => True
  | [h] => h.piece.closing ≤ h.gap
  | h :: hs => 2 ≤ h.gap ∧ HeldGaps hs

/-- Plain text is not written as a mark, and cross references and anchors are ASCII. -/
def SignOk : Sign → Prop
  | .text _ => True
  | .mark ty l => ty ≠ .text ∧ (ty = .blockAnchor ∨ ty = .crossReference → ∀ b ∈ l, b.toNat < 128)

/-- The text of a cell: elements that can be told apart, on one line, in ASCII, and legible on its own. -/
structure CellOk (es : List Elem) : Prop where
  elems : ElemsOk none es
  line : OneLine es
  signs : ∀ s ∈ es.flatMap Elem.signs, SignOk s
  ascii : ∀ b ∈ written (es.flatMap Elem.signs), b.toNat < 128
  legible : Legible [] (es.flatMap Elem.signs) []

/-- A line of a table has cells and ends. -/
structure TableRow.Ok (r : TableRow) : Prop where
  cells : r.cells ≠ [] ∧ ∀ es ∈ r.cells, CellOk es
  gap : 1 ≤ r.gap

/-- The text begins with plain text or a symbol. -/
def PlainStart (es : List Elem) : Prop :=
  match es.head? with
  | some (.text _) => True
  | some (.symbol _) => True
  | _ => False

/-- An entry of a description list: the term and the description are there and on one line each. -/
structure Described.Ok (e : Described) : Prop where
  term : ProseOk e.term ∧ c!"\n" ∉ written (e.term.flatMap Elem.signs)
  text : ProseOk e.text ∧ c!"\n" ∉ written (e.text.flatMap Elem.signs)

/-- The entries are well formed. The terms after the first one begin with plain text or a symbol, and there are no spans in
a term after a description with a footnote. -/
def DlistOk : List Described → Prop
  | [] => True
  | [e] => e.Ok
  | e :: e' :: rest => e.Ok ∧ PlainStart e'.term ∧ (e.text.any Elem.isNote = true → ∀ x ∈ e'.term, x.hasSpan = false)
      ∧ DlistOk (e' :: rest)

/-- The name of a file that is not read as AsciiDoc. -/
def CodeName (target : Str) : Prop :=
  c!"[" ∉ target ∧ (∀ b, target.head? = some b → isCont b = false)
    ∧ ∀ e ∈ [b!"adoc", b!"asciidoc", b!"txt"], target ≠ e ∧ ¬b!"." ++ e <:+ target

/-- A sign that is taken as it is from an included file: not a quotation mark and not a symbol. -/
def asWritten : Sign → Bool
  | .text _ => true
  | .mark ty _ => ty ≠ .charRef && ty ≠ .openDoubleQuote && ty ≠ .closeDoubleQuote && ty ≠ .openSingleQuote
      && ty ≠ .closeSingleQuote

/-- A part of a listing is well formed. A file can be read on its own, and there are no quotation marks and symbols in it. -/
def CodePart.Ok : CodePart → Prop
  | .text ss => ss ≠ [] ∧ ∀ s ∈ ss, inVerb .listing s = true
  | .callout n => Lexical.Digits n
  | .file target source => CodeName target ∧ Legible [] source []
      ∧ (∃ cs : List Char, written source = cs.flatMap String.utf8EncodeChar) ∧ ∀ s ∈ source, SignOk s ∧ asWritten s = true

/-- There is a newline in the text of a block. -/
def Piece.folded : Piece → Bool
  | .para es => decide (newline ∈ es.flatMap Elem.signs)
  | .list _ items => items.any fun es => decide (newline ∈ es.flatMap Elem.signs)
  | .verb .. => false

/-- An attached block is well formed. There are no newlines in the texts in it: they would be lost. -/
structure Annex.Ok (a : Annex) : Prop where
  lead : 1 ≤ a.lead
  held : ∀ h ∈ a.held, h.Ok
  gaps : HeldGaps a.held
  lines : ∀ h ∈ a.held, h.piece.folded = false

/-- The block is well formed. -/
def Blk.Ok : Blk → Prop
  | .piece p => p.Ok
  | .head n es => 1 ≤ n ∧ n ≤ 4 ∧ ProseOk es ∧ OneLine es
  | .brk _ => True
  | .note _ es => ProseOk es
  | .box _ _ title lead held => (∀ es, title = some es → ProseOk es ∧ OneLine es) ∧ 1 ≤ lead ∧ (∀ h ∈ held, h.Ok)
      ∧ HeldGaps held
  | .image target args title => (∀ es, title = some es → ProseOk es ∧ OneLine es) ∧ ImageOk target args
  | .table title lead rows => (∀ es, title = some es → ProseOk es ∧ OneLine es) ∧ 1 ≤ lead ∧ ∀ r ∈ rows, r.Ok
  | .dlist entries => entries ≠ [] ∧ DlistOk entries
  | .colist items => items ≠ [] ∧ ∀ x ∈ items, Lexical.Digits x.1 ∧ ProseOk x.2
  | .code _ parts => parts ≠ [] ∧ ∀ x ∈ parts, x.Ok
  | .attached _ points => (∃ es rest, points = ⟨es, []⟩ :: rest) ∧ ∀ p ∈ points, ProseOk p.text ∧ ∀ a ∈ p.boxes, a.Ok

/-- The number of cells on the first line of a table. -/
def firstCells (rows : List TableRow) : Nat := (rows.head?.map fun r => r.cells.length).getD 0

/-- The number of columns that a column list stands for: both `1,3` and `2*` are two columns. -/
def columns (v : Str) : Str :=
  if c!"," ∈ v then natToStr (v.count c!"," + 1)
  else match v with
    | [n, 42] => [n]
    | v => v

/-- The metadata of a table, when the metadata lines before it say `m`: if there is more than one cell on the first
line, their number is the number of columns unless the metadata say another, and if they are on the line after the
delimiter, they are the header. -/
def tableMeta (lead : Nat) (rows : List TableRow) (m : Option Meta) : Option Meta :=
  if (rows.flatMap TableRow.cells).length < 2 then m
  else
    let m := if 2 ≤ firstCells rows then
        let m := m.getD {}
        let m := if lead = 1 then { m with options := m.options ++ [b!"header"] } else m
        some (if (m.attributes.get? b!"cols").isSome then m
          else { m with attributes := m.attributes.insert b!"cols" (natToStr (firstCells rows)) })
      else m
    m.map fun m => match m.attributes.get? b!"cols" with
      | some v => { m with attributes := m.attributes.insert b!"cols" (columns v) }
      | none => m

/-- Where metadata lines may stand: not before breaks and admonitions; not before a paragraph with spans, and there the
style is not `quote`; not before the title line of a box or image if there are spans in it; before a quotation the style is
not `verse`; not before an image with attributes; and directly before a paragraph or a verbatim block there is no anchor.
A table with one cell on its first line needs metadata, and a column list is not one character of two bytes. Directly before
a description list there is no anchor, and no spans are in its first term if there are metadata lines. -/
def TagsFor (tags : List Tag) : Blk → Prop
  | .para es => tags = [] ∨ (∀ e ∈ es, e.hasSpan = false) ∧ (tags.foldl Tag.apply {}).declared ≠ some .quote
      ∧ ∀ id, tags.getLast? ≠ some (.anchor id)
  | .verb .. => ∀ id, tags.getLast? ≠ some (.anchor id)
  | .brk _ => tags = []
  | .note _ _ => tags = []
  | .head _ _ => True
  | .list _ _ => True
  | .box n _ title _ _ => (tags = [] ∨ ∀ es, title = some es → ∀ e ∈ es, e.hasSpan = false)
      ∧ (n = .quote → (tags.foldl Tag.apply {}).declared ≠ some .verse)
  | .image _ args title => tags = [] ∨ args = [] ∧ (tagsMeta tags).isSome ∧ ∀ es, title = some es → ∀ e ∈ es, e.hasSpan = false
  | .table title _ rows => (tags = [] ∨ ∀ es, title = some es → ∀ e ∈ es, e.hasSpan = false)
      ∧ (firstCells rows < 2 → 2 ≤ (rows.flatMap TableRow.cells).length → (tagsMeta tags).isSome)
      ∧ ∀ m, tagsMeta tags = some m → ∀ x y, m.attributes.get? b!"cols" = some [x, y] → isCont y = false
  | .dlist entries => tags = [] ∨ (∀ e, entries.head? = some e → ∀ x ∈ e.term, x.hasSpan = false)
      ∧ ∀ id, tags.getLast? ≠ some (.anchor id)
  | .colist _ => True
  | .code .. => ∀ id, tags.getLast? ≠ some (.anchor id)
  | .attached .. => True

/-- A comment between blocks, with the newlines after it. -/
inductive Remark where
  /-- a line -/
  | line (text : Str) (gap : Nat)
  /-- a comment block with its delimiter and everything between the delimiters -/
  | block (delim : Str) (body : List Sign) (gap : Nat)
deriving DecidableEq, Repr

/-- The newlines after a comment. -/
def Remark.gap : Remark → Nat
  | .line _ n => n
  | .block _ _ n => n

/-- How a comment is written, without the newlines after it. -/
def Remark.own : Remark → List Sign
  | .line text _ => [.mark .comment text]
  | .block delim body _ => .mark .commentBlock delim :: (body ++ [.mark .commentBlock delim])

/-- How a comment is written. -/
def Remark.signs (r : Remark) : List Sign := r.own ++ List.replicate r.gap newline

/-- The delimiter of a comment block. -/
def endsComment : Sign → Bool
  | .text _ => false
  | .mark ty _ => ty = .commentBlock

/-- In a comment block there is no delimiter of comment blocks. -/
def Remark.Ok : Remark → Prop
  | .line .. => True
  | .block _ body _ => ∀ s ∈ body, endsComment s = false

/-- What is between two blocks: newlines, and then comments. -/
structure Gap where
  newlines : Nat
  remarks : List Remark := []
deriving DecidableEq, Repr

instance (n : Nat) : OfNat Gap n := ⟨⟨n, []⟩⟩

@[simp] theorem Gap.newlines_ofNat (n : Nat) : Gap.newlines (no_index (OfNat.ofNat n)) = n := rfl
@[simp] theorem Gap.remarks_ofNat (n : Nat) : Gap.remarks (no_index (OfNat.ofNat n)) = [] := rfl

/-- How it is written. -/
def Gap.signs (g : Gap) : List Sign := List.replicate g.newlines newline ++ g.remarks.flatMap Remark.signs

/-- There is a blank line after every comment, but not necessarily after the last one at the end of a file. -/
def RemarksOk (last : Bool) : List Remark → Prop
  | [] => True
  | [r] => r.Ok ∧ (last = true ∨ 2 ≤ r.gap)
  | r :: rs => r.Ok ∧ 2 ≤ r.gap ∧ RemarksOk last rs

/-- There are at least `n` newlines after a block, and two before a comment. -/
def Gap.Ok (n : Nat) (last : Bool) (g : Gap) : Prop :=
  (if g.remarks.isEmpty then n else 2) ≤ g.newlines ∧ RemarksOk last g.remarks

attribute [simp] Gap.Ok RemarksOk

instance (r : Remark) : Decidable r.Ok := by cases r <;> (unfold Remark.Ok; infer_instance)

instance decRemarksOk (last : Bool) : ∀ rs : List Remark, Decidable (RemarksOk last rs)
  | [] => .isTrue trivial
  | [r] => inferInstanceAs (Decidable (r.Ok ∧ (last = true ∨ 2 ≤ r.gap)))
  | r :: r' :: rs =>
    have := decRemarksOk last (r' :: rs)
    inferInstanceAs (Decidable (r.Ok ∧ 2 ≤ r.gap ∧ RemarksOk last (r' :: rs)))

instance (n : Nat) (last : Bool) (g : Gap) : Decidable (g.Ok n last) := by unfold Gap.Ok; infer_instance

/-- A block with its metadata lines before it and what is between it and the next block. -/
structure Tagged where
  tags : List Tag := []
  blk : Blk
  gap : Gap
deriving DecidableEq, Repr

/-- How it is written. -/
def Tagged.signs (e : Tagged) : List Sign := tagsSigns e.tags ++ (e.blk.signs ++ e.gap.signs)

/-- It is well formed. -/
structure Tagged.Ok (e : Tagged) : Prop where
  tags : TagsOk none e.tags
  blk : e.blk.Ok
  place : TagsFor e.tags e.blk

/-! ## What a document means -/

/-- Ids and the titles of their blocks. -/
abbrev Ids := List (Str × List Inline)

/-- The title of a block; only sections, boxes, tables and images have one. -/
def Blk.title : Blk → List Inline
  | .head _ es => es.map Elem.inline
  | .box _ _ title _ _ => (title.getD []).map Elem.inline
  | .image _ _ title => (title.getD []).map Elem.inline
  | .table title _ _ => (title.getD []).map Elem.inline
  | _ => []

/-- The metadata of a list that explains callouts, with metadata `m` written before it: what is written there is used in
place of the role that says what the list is. -/
def colistMeta (m : Option Meta) : Option Meta := m.or (some { roles := [b!"colist"] })

/-- The metadata of a block, with metadata `m` written before it. -/
def Blk.own (m : Option Meta) : Blk → Option Meta
  | .colist _ => colistMeta m
  | .image _ args _ => (imageMeta args).or m
  | .table _ lead rows => tableMeta lead rows m
  | _ => m

/-- The id in metadata, with a title. -/
def idWith (m : Option Meta) (title : List Inline) : Ids :=
  match m.bind fun m => m.attributes.get? b!"id" with
  | some i => [(i, title)]
  | none => []

/-- The ids of the blocks in a block. -/
def Blk.inner : Blk → Ids
  | .box _ _ _ _ held => held.flatMap fun h => idWith (tagsMeta h.tags) []
  | .attached _ points => points.flatMap fun p => p.boxes.flatMap fun a => a.held.flatMap fun h => idWith (tagsMeta h.tags) []
  | _ => []

/-- The id of a block, if it has one, with its title, and those of the blocks in it. -/
def Tagged.ids (e : Tagged) : Ids := idWith (e.blk.own (tagsMeta e.tags)) e.blk.title ++ e.blk.inner

/-- What an element should be in the graph (without locations), when the blocks of the document have the given ids: a
cross reference to one of them shows the title. -/
def Elem.shown (ids : Ids) : Elem → Inline
  | .xref id => .ref .xref id ((ids.lookup id).getD []) none []
  | e => e.inline

/-- What a text should be in the graph. -/
def shownL (ids : Ids) (es : List Elem) : List Inline := es.map (Elem.shown ids)

/-- What a block should be in the graph (without locations and without the contents of sections), when it has metadata
`m`. The text of a verbatim block includes the newlines next to the delimiters. -/
def Piece.block (ids : Ids) (m : Option Meta) : Piece → Block
  | .para es => .leaf .paragraph .paragraph none (shownL ids es) m []
  | .list v items => .list v (items.map fun es => .listItem (bullet v) (shownL ids es) [] none []) m []
  | .verb n d body => .leaf n.name .delimited (some d) [literal (written body)] m []

/-- What a block in a box should be in the graph. -/
def Held.block (ids : Ids) (h : Held) : Block := h.piece.block ids (tagsMeta h.tags)

/-- What an attached block should be in the graph. -/
def Annex.block (ids : Ids) (a : Annex) : Block := .parent a.box.name none a.delim (a.held.map (Held.block ids)) [] none []

/-- What an item with attached blocks should be in the graph. -/
def Point.block (ids : Ids) (v : ListVariant) (p : Point) : Block :=
  .listItem (bullet v) (shownL ids p.text) (p.boxes.map (Annex.block ids)) none []

/-- The number of a callout in the graph. -/
def conum (n : Str) : Inline :=
  .span .strong .constrained [literal (b!"(" ++ n ++ b!")")] (some { roles := [b!"conum"] }) [] true

/-- The inlines of a listing, when the text `cur` is before the parts: text goes together with text before it, and what is in
a file goes together with the text before it but not with what follows. -/
def codeInlines : Option Str → List CodePart → List Inline
  | cur, [] => cur.toList.map literal
  | cur, .text ss :: ps => codeInlines (some (cur.getD [] ++ written ss)) ps
  | cur, .callout n :: ps => cur.toList.map literal ++ conum n :: codeInlines none ps
  | cur, .file _ source :: ps => literal (cur.getD [] ++ written source) :: codeInlines none ps

/-- What a block with metadata `m` should be in the graph. Cross references in the title of an image and
in a term stay as they are. -/
def Blk.block (ids : Ids) (m : Option Meta) : Blk → Block
  | .piece p => p.block ids m
  | .head n es => .section (shownL ids es) m n [] []
  | .brk v => .brk v []
  | .box n d title _ held => .parent n.name none d (held.map (Held.block ids)) (shownL ids (title.getD [])) m []
  | .image target args title => .image target ((title.getD []).map Elem.inline) ((imageMeta args).or m) []
  | .table title lead rows => .parent .table none b!"|==="
      ((rows.flatMap TableRow.cells).map fun es => .tableCell (shownL ids es) none []) (shownL ids (title.getD []))
      (tableMeta lead rows m) []
  | .dlist entries => .dlist (entries.map fun e => .dlistItem (shownL [] e.term) (shownL ids e.text) [] none []) m []
  | .note v es => .parent .admonition (some v) (admonitionStr v)
      [.leaf .paragraph .paragraph none (shownL ids es) none []] [] none []
  | .colist items => .list .ordered (items.map fun x => .listItem (b!"<" ++ x.1 ++ b!">") (shownL ids x.2) [] none [])
      (colistMeta m) []
  | .code d parts => .leaf .listing .delimited (some d) (codeInlines none parts) m []
  | .attached v points => .list v (points.map (Point.block ids v)) m []

/-- What a block with its metadata lines should be in the graph. -/
def Tagged.block (ids : Ids) (e : Tagged) : Block := e.blk.block ids (tagsMeta e.tags)

/-- The level that counts for finding the headings around a block. -/
def Blk.level : Blk → Nat
  | .head n _ => n
  | _ => 5

/-- The headings so far, after a block. -/
def Blk.after (ids : Ids) (hs : List Title) : Blk → List Title
  | .head n es => (n, shownL ids es) :: hs
  | _ => hs

/-- The contents of a document: for each block the headings around it, outermost first, and the block; a section is
listed without its contents. -/
def contents (ids : Ids) (hs : List Title) : List Tagged → List (List Title × Block)
  | [] => []
  | e :: es => (parents hs e.blk.level, e.block ids) :: contents ids (e.blk.after ids hs) es

/-! ## How blocks may follow each other -/

/-- There is a link or a cross reference in the text of a block. -/
def Piece.refers : Piece → Bool
  | .para es => es.any Elem.refers
  | .list _ items => items.any fun es => es.any Elem.refers
  | .verb .. => false

/-- There is a link or a cross reference in an item or in the blocks attached to it. -/
def Point.refers (p : Point) : Bool := p.text.any Elem.refers || p.boxes.any fun a => a.held.any fun h => h.piece.refers

/-- There is a link or a cross reference in the title or text of a block. -/
def Blk.refers : Blk → Bool
  | .piece p => p.refers
  | .head _ es => es.any Elem.refers
  | .box _ _ title _ held => (title.getD []).any Elem.refers || held.any fun h => h.piece.refers
  | .image _ _ title => (title.getD []).any Elem.refers
  | .table title _ rows => (title.getD []).any Elem.refers || (rows.flatMap TableRow.cells).any fun es => es.any Elem.refers
  | .dlist entries => entries.any fun e => e.term.any Elem.refers || e.text.any Elem.refers
  | .colist items => items.any fun x => x.2.any Elem.refers
  | .attached _ points => points.any Point.refers
  | _ => false

/-- There is a newline in the text of a block. -/
def Blk.folded : Blk → Bool
  | .piece p => p.folded
  | .note _ es => decide (newline ∈ es.flatMap Elem.signs)
  | .box _ _ _ _ held => held.any fun h => h.piece.folded
  | .colist items => items.any fun x => decide (newline ∈ x.2.flatMap Elem.signs)
  | .attached _ points => points.any fun p => decide (newline ∈ p.text.flatMap Elem.signs)
  | _ => false

/-- What matters for the block that follows. -/
structure Flow where
  /-- there is a heading before -/
  sec : Bool := false
  /-- there is a link or cross reference before that has not ended a section yet -/
  ref : Bool := false
  /-- a link or cross reference has ended the section, so a heading has to follow -/
  shut : Bool := false
  /-- the last block is an admonition, a box or a table, so a heading must not follow -/
  box : Bool := false
  /-- there is a description list before, so paragraphs are on one line -/
  kept : Bool := false
deriving DecidableEq, Repr

/-- A block follows, wherever its lines end. A heading may not follow an admonition, a box or a table; in a section, a block with a link or cross reference in it
ends the section, so only a heading may follow it; and so does the first block of a section if there is a link or cross
reference in the title, or before the first heading. -/
def Flow.step (f : Flow) : Blk → Option Flow
  | .head n es => if f.box then none else some { f with sec := true, ref := f.ref || (Blk.head n es).refers, shut := false, box := false }
  | .brk _ => if f.shut then none else some { f with box := false }
  | .image target args title => if f.shut then none
    else some { f with ref := f.ref || (Blk.image target args title).refers, box := false }
  | .note _ _ => if f.shut then none else some { f with ref := false, box := true }
  | .box n d title lead held => if f.shut then none
    else if f.sec && (f.ref || (Blk.box n d title lead held).refers) then some { f with ref := false, shut := true, box := true }
    else some { f with ref := f.ref || (Blk.box n d title lead held).refers, box := true }
  | .table title lead rows => if f.shut then none
    else if f.sec && (f.ref || (Blk.table title lead rows).refers) then some { f with ref := false, shut := true, box := true }
    else some { f with ref := f.ref || (Blk.table title lead rows).refers, box := true }
  | .dlist entries => if f.shut then none
    else if f.sec && (f.ref || (Blk.dlist entries).refers) then some { f with ref := false, shut := true, box := false, kept := true }
    else some { f with ref := f.ref || (Blk.dlist entries).refers, box := false, kept := true }
  | c => if f.shut then none
    else if f.sec && (f.ref || c.refers) then some { f with ref := false, shut := true, box := false }
    else some { f with ref := f.ref || c.refers, box := false }

/-- A block follows. After a description list, newlines in a paragraph are pieces of text of their own, so there are none
in the texts that follow. -/
def Flow.next (f : Flow) (c : Blk) : Option Flow := if f.kept && c.folded then none else f.step c

/-- A block is the last of a file that is included, without a blank line after it: no section ends with it. -/
def Flow.stop (f : Flow) : Blk → Flow
  | .head n es => { f with sec := true, ref := f.ref || (Blk.head n es).refers, shut := false, box := false }
  | .brk _ => { f with box := false }
  | .note _ _ => { f with ref := true, box := true }
  | .box n d title lead held => { f with ref := f.ref || (Blk.box n d title lead held).refers, box := true }
  | .table title lead rows => { f with ref := f.ref || (Blk.table title lead rows).refers, box := true }
  | .dlist entries => { f with ref := f.ref || (Blk.dlist entries).refers, box := false, kept := true }
  | c => { f with ref := f.ref || c.refers, box := false }

/-- The end of a file that is included. A section that begins in the file ends with it, unless a section was `«open»` where
the file is included. -/
def Flow.leave (f : Flow) («open» : Bool) : Flow := if f.sec && !f.shut && !«open» then { f with shut := true } else f

/-- The blocks can follow each other. -/
def flows (f : Flow) : List Blk → Bool
  | [] => true
  | c :: cs => match f.next c with
    | some f' => flows f' cs
    | none => false

/-- The files that a block refers to, each with what has to be in it if that matters. -/
def Blk.targets : Blk → List (Str × Option Str)
  | .image target _ _ => [(target, none)]
  | .code _ parts => parts.flatMap fun x => match x with
    | .file target source => [(target, some (written source))]
    | _ => []
  | _ => []

/-- There are callouts in a block. -/
def Blk.hasCallout : Blk → Bool
  | .code _ parts => parts.any fun x => match x with
    | .callout _ => true
    | _ => false
  | _ => false

/-- A file is there when the files `files` are being read. -/
def There (w : World) (files : List Str) (x : Str × Option Str) : Prop :=
  ∃ path, w.resolve files x.1 = some path ∧ ∀ s, x.2 = some s → w.read path = some s

/-- How many newlines there have to be after a block at the end of the document: none, but one after a heading and two
after a list with one item. -/
def Blk.ending : Blk → Nat
  | .head _ _ => 1
  | .list _ [_] => 2
  | .colist [_] => 2
  | .attached _ [_] => 2
  | _ => 0

/-! ## Documents -/

/-- The header of a document: a title and lines that define attributes. -/
structure Head where
  title : List Elem
  attrs : List (Str × Str)
  gap : Nat
deriving DecidableEq, Repr

/-- A line that defines an attribute. -/
def attributeLine (kv : Str × Str) : Str := b!":" ++ kv.1 ++ b!":" ++ (if kv.2 = [] then [] else b!" " ++ kv.2)

/-- How a header is written. -/
def Head.signs (h : Head) : List Sign :=
  .mark .heading1 b!"= " :: (h.title.flatMap Elem.signs
    ++ ((h.attrs.flatMap fun kv => [newline, .mark .attribute (attributeLine kv)]) ++ List.replicate h.gap newline))

/-- How a header is written, if there is one. -/
def headSigns : Option Head → List Sign
  | some h => h.signs
  | none => []

/-- A part that may be in a document title. -/
def Part.plain : Part → Bool
  | .text _ => true
  | .span m _ => m ≠ .superscript && m ≠ .subscript

/-- An element that may be in a document title: no links and references, and neither superscript nor subscript. -/
def Elem.plain : Elem → Bool
  | .text _ => true
  | .span m ps => m ≠ .superscript && m ≠ .subscript && ps.all Part.plain
  | .symbol _ => true
  | _ => false

/-- An attribute whose definition can be read: no colon, no blanks around the value, and the value is not the name. -/
structure AttrOk (kv : Str × Str) : Prop where
  key : c!":" ∉ kv.1 ∧ trim kv.1 = kv.1 ∧ kv.1 ≠ b!"leveloffset"
  value : c!":" ∉ kv.2 ∧ trim kv.2 = kv.2 ∧ kv.2 ≠ kv.1

/-- The header is well formed. -/
structure Head.Ok (h : Head) : Prop where
  title : ProseOk h.title ∧ OneLine h.title ∧ h.title.all Elem.plain = true
  attrs : ∀ kv ∈ h.attrs, AttrOk kv
  gap : 2 ≤ h.gap

/-- A document: a header, newlines and comments at the beginning, and blocks, each followed by newlines and comments. -/
structure RichDoc where
  head : Option Head := none
  lead : Gap := 0
  blocks : List Tagged

/-- How a document is written. -/
def RichDoc.signs (d : RichDoc) : List Sign :=
  headSigns d.head ++ (d.lead.signs ++ d.blocks.flatMap Tagged.signs)

/-- What is written before the first block. -/
def RichDoc.front (d : RichDoc) : List Sign :=
  headSigns d.head ++ d.lead.signs

/-- What is written before a block that comes after `pre`, with metadata lines and a title line before the block. -/
def RichDoc.before (d : RichDoc) (pre : List Tagged) (tags : List Tag) (title : Option (List Elem)) : List Sign :=
  d.front ++ (pre.flatMap Tagged.signs ++ (tagsSigns tags ++ titleSigns title))

/-- The ids in a document. -/
def RichDoc.ids (d : RichDoc) : Ids := d.blocks.flatMap Tagged.ids

/-- The files that a document refers to. -/
def RichDoc.targets (d : RichDoc) : List (Str × Option Str) := d.blocks.flatMap fun e => e.blk.targets

/-- There are blank lines between the blocks and comments, and enough newlines at the end. -/
def GapsOk : List Tagged → Prop
  | [] => True
  | [e] => e.gap.Ok e.blk.ending true
  | e :: es => e.gap.Ok 2 false ∧ GapsOk es

/-- The attributes defined in a header: the last definition of a name counts. -/
def Head.defs (h : Head) : SMap Str := h.attrs.foldl (fun m kv => m.insert kv.1 kv.2) []

/-- The header does not ask for icons in place of the numbers of callouts. -/
def NoIcons (head : Option Head) : Prop := ∀ h, head = some h → h.defs.get? b!"icons" ≠ some b!"true"

/-- The document is well formed. -/
structure RichDoc.Ok (d : RichDoc) : Prop where
  head : ∀ h, d.head = some h → h.Ok
  lead : RemarksOk false d.lead.remarks := by trivial
  blocks : ∀ e ∈ d.blocks, e.Ok
  gaps : GapsOk d.blocks
  flow : flows {} (d.blocks.map (·.blk)) = true
  ids : (d.ids.map (·.1)).Nodup
  signs : ∀ s ∈ d.signs, SignOk s
  icons : (∃ e ∈ d.blocks, e.blk.hasCallout = true) → NoIcons d.head

/-! ## Reading a graph -/

/-- Metadata without locations. -/
def bareM (m : Meta) : Meta := { m with loc := [] }

mutual
/-- A block without locations. -/
def bareB : Block → Block
  | .section t m v bs _ => .section (bareL t) (m.map bareM) v (bareBs bs) []
  | .list v bs m _ => .list v (bareBs bs) (m.map bareM) []
  | .listItem k p bs m _ => .listItem k (bareL p) (bareBs bs) (m.map bareM) []
  | .dlist bs m _ => .dlist (bareBs bs) (m.map bareM) []
  | .dlistItem t p bs m _ => .dlistItem (bareL t) (bareL p) (bareBs bs) (m.map bareM) []
  | .brk v _ => .brk v []
  | .image t c m _ => .image t (bareL c) (m.map bareM) []
  | .leaf n f d is m _ => .leaf n f d (bareL is) (m.map bareM) []
  | .parent n v d bs t m _ => .parent n v d (bareBs bs) (bareL t) (m.map bareM) []
  | .tableCell is m _ => .tableCell (bareL is) (m.map bareM) []
/-- Blocks without locations. -/
def bareBs : List Block → List Block
  | [] => []
  | b :: bs => bareB b :: bareBs bs
end

mutual
/-- The blocks in a block in reading order, each with the headings of the sections around it, when `path` are those
around the block itself. Sections are listed without their contents. -/
def listed (path : List Title) : Block → List (List Title × Block)
  | .section t m v bs _ => (path, .section (bareL t) (m.map bareM) v [] []) :: listedL (path ++ [(v, bareL t)]) bs
  | b => [(path, bareB b)]
/-- The blocks in some blocks. -/
def listedL (path : List Title) : List Block → List (List Title × Block)
  | [] => []
  | b :: bs => listed path b ++ listedL path bs
end

end Adoc.Spec
