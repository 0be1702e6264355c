import Verif.Model.Docx
/-!
# What a Word document should contain

The specification side of the properties of the Word writer: the sequence of paragraphs, page breaks, tables and
pictures that a document graph asks for, in reading order, without styles, numbering or writer state; and equality of
texts up to white space.
-/
namespace Adoc.Word

open Docx

/-- The white-space characters of Unicode, as UTF-8 bytes. -/
def spaces : List Str := [[9], [10], [11], [12], [13], [32], [0xC2, 0x85], [0xC2, 0xA0], [0xE1, 0x9A, 0x80],
  [0xE2, 0x80, 0x80], [0xE2, 0x80, 0x81], [0xE2, 0x80, 0x82], [0xE2, 0x80, 0x83], [0xE2, 0x80, 0x84],
  [0xE2, 0x80, 0x85], [0xE2, 0x80, 0x86], [0xE2, 0x80, 0x87], [0xE2, 0x80, 0x88], [0xE2, 0x80, 0x89],
  [0xE2, 0x80, 0x8A], [0xE2, 0x80, 0xA8], [0xE2, 0x80, 0xA9], [0xE2, 0x80, 0xAF], [0xE2, 0x81, 0x9F],
  [0xE3, 0x80, 0x80]]

/-- Two texts that differ only by white-space characters. -/
inductive SameWords : Str → Str → Prop where
  | nil : SameWords [] []
  | byte (b : UInt8) {s t : Str} : SameWords s t → SameWords (b :: s) (b :: t)
  | left {w s t : Str} : w ∈ spaces → SameWords s t → SameWords (w ++ s) t
  | right {w s t : Str} : w ∈ spaces → SameWords s t → SameWords s (w ++ t)

mutual
/-- The text that an inline shows: character references are replaced. -/
def shown : Inline → Str
  | .lit n v _ => refdChar n v
  | .span _ _ is _ _ _ => shownL is
  | .ref _ _ is _ _ => shownL is
  | .brk _ => []
/-- The text that inlines show. -/
def shownL : List Inline → Str
  | [] => []
  | i :: is => shown i ++ shownL is
end

/-- What a reader meets: a paragraph with its text, a page break, a table, a picture. -/
inductive Ev where
  | par (text : Str)
  | page
  | table
  | picture
deriving DecidableEq, Repr

/-- A heading, if it has a text. -/
def title (is : List Inline) : List Ev := if is.isEmpty then [] else [.par (shownL is)]

/-- What an admonition is called. -/
def labelText : ParentVariant → Str
  | .note => b!"Note"
  | .tip => b!"Tip"
  | .important => b!"Important"
  | .caution => b!"Caution"
  | .warning => b!"Warning"

/-- The label of an admonition. -/
def label : Option ParentVariant → List Ev
  | some v => [.par (labelText v)]
  | none => []

/-- The attribution of a quotation; texts are compared up to white space, so the newline at the end does not matter. -/
def source (m : Option Meta) : List Ev :=
  match m.bind (·.attributes.get? b!"attribution") with
  | some a => [.par (b!"— " ++ a ++ b!"\n")]
  | none => []

mutual
/-- The sequence of paragraphs and breaks that a block asks for. A block attached to a list item is one paragraph. -/
def flow : Block → List Ev
  | .section t _ _ bs _ => title t ++ flowL bs
  | .list _ items _ _ => flowL items
  | .listItem _ p bs _ _ => .par (shownL p) :: bs.map fun b => .par (shownL b.inlines)
  | .dlist items _ _ => flowL items
  | .dlistItem t p bs _ _ => .par (shownL t) :: .par (shownL p) :: flowL bs
  | .brk .page _ => [.page]
  | .brk .thematic _ => [.par b!"#"]
  | .image .. => [.picture]
  | .leaf _ _ _ is _ _ => [.par (shownL is)]
  | .parent .table .. => [.table]
  | .parent .footnoteContainer .. => []
  | .parent .open_ _ _ bs _ _ _ => flowL bs
  | .parent .quote _ _ bs _ m _ => flowL bs ++ source m
  | .parent .admonition v _ bs t _ _ => label v ++ title t ++ flowL bs
  | .parent .example_ v _ bs t _ _ => label v ++ title t ++ flowL bs
  | .parent .sidebar v _ bs t _ _ => label v ++ title t ++ flowL bs
  | .tableCell .. => []
/-- The sequence for each block. -/
def flowL : List Block → List Ev
  | [] => []
  | b :: bs => flow b ++ flowL bs
end

/-- The sequence for a document. -/
def flowDoc (g : Asg) : List Ev :=
  (match g.header with
    | some h => title h.title
    | none => []) ++ flowL g.blocks

/-- The text of a run. -/
def runText : Render.Run → Str
  | .text v _ => v
  | .brk => []

/-- The text of a paragraph. -/
def paraText (p : Para) : Str := p.runs.flatMap runText

/-- All paragraphs of a document: those of the body and those of table cells. -/
def paragraphs (d : Doc) : List Para :=
  d.body.flatMap fun
    | .para p => [p]
    | .table rows => rows.flatten
    | .picture _ => []

/-- The paragraphs that stand directly in the body. -/
def bodyParas (d : Doc) : List Para :=
  d.body.filterMap fun
    | .para p => some p
    | _ => none

/-- The body follows a sequence: each paragraph has the text that is asked for, up to white space, and starts on a new
page exactly if a page break is pending; tables and pictures stand in their places. The first and the last argument
tell whether a page break is pending before and after. -/
inductive Follows : Bool → List Ev → List Item → Bool → Prop where
  | nil (p : Bool) : Follows p [] [] p
  | page {p q : Bool} {es : List Ev} {is : List Item} : Follows true es is q → Follows p (.page :: es) is q
  | par {q : Bool} {es : List Ev} {is : List Item} {t : Str} (x : Para) : SameWords t (paraText x) →
      Follows false es is q → Follows x.pageBreak (.par t :: es) (.para x :: is) q
  | table {p q : Bool} {es : List Ev} {is : List Item} (rows : List (List Para)) :
      Follows p es is q → Follows p (.table :: es) (.table rows :: is) q
  | picture {p q : Bool} {es : List Ev} {is : List Item} (target : Str) :
      Follows p es is q → Follows p (.picture :: es) (.picture target :: is) q

/-- The ids of the styles that a document defines. -/
def styleIds (d : Doc) : List Str := d.styles.map (·.id)

mutual
/-- Whether a block is a thematic break or has one in it. Blocks attached to list items do not count: they are one
paragraph each. -/
def thematic : Block → Bool
  | .section _ _ _ bs _ => thematicL bs
  | .list _ items _ _ => thematicL items
  | .dlist items _ _ => thematicL items
  | .dlistItem _ _ bs _ _ => thematicL bs
  | .brk v _ => v = .thematic
  | .parent .table .. => false
  | .parent .footnoteContainer .. => false
  | .parent _ _ _ bs _ _ _ => thematicL bs
  | _ => false
/-- Whether one of the blocks is a thematic break or has one in it. -/
def thematicL : List Block → Bool
  | [] => false
  | b :: bs => thematic b || thematicL bs
end

/-! ## All text -/

/-- The texts of the paragraphs of a sequence. -/
def parTexts (es : List Ev) : List Str :=
  es.filterMap fun
    | .par t => some t
    | _ => none

mutual
/-- Everything that there is to read in a block, in reading order. -/
def content : Block → Str
  | .section t _ _ bs _ => shownL t ++ contentL bs
  | .list _ items _ _ => contentL items
  | .listItem _ p bs _ _ => shownL p ++ contentL bs
  | .dlist items _ _ => contentL items
  | .dlistItem t p bs _ _ => shownL t ++ shownL p ++ contentL bs
  | .brk v _ => match v with
    | .page => []
    | .thematic => b!"#"
  | .image _ c _ _ => shownL c
  | .leaf _ _ _ is _ _ => shownL is
  | .parent _ v _ bs t m _ => (parTexts (label v)).flatten ++ shownL t ++ contentL bs ++ (parTexts (source m)).flatten
  | .tableCell is _ _ => shownL is
/-- Everything that there is to read in blocks. -/
def contentL : List Block → Str
  | [] => []
  | b :: bs => content b ++ contentL bs
end

/-- Everything that there is to read in a document. -/
def contentDoc (g : Asg) : Str :=
  (match g.header with
    | some h => shownL h.title
    | none => []) ++ contentL g.blocks

mutual
/-- Blocks that lose nothing when they are attached to a list item: no thematic breaks, captions, terms, labels or
attributions. -/
def fitsItem : Block → Bool
  | .section _ _ _ bs _ => fitsItemL bs
  | .list _ items _ _ => fitsItemL items
  | .listItem _ _ bs _ _ => fitsItemL bs
  | .dlist items _ _ => fitsItemL items
  | .dlistItem t _ bs _ _ => t.isEmpty && fitsItemL bs
  | .brk v _ => v = .page
  | .image _ c _ _ => c.isEmpty
  | .leaf .. => true
  | .parent _ v _ bs _ m _ => v.isNone && (source m).isEmpty && fitsItemL bs
  | .tableCell .. => true
/-- The same for each block. -/
def fitsItemL : List Block → Bool
  | [] => true
  | b :: bs => fitsItem b && fitsItemL bs
end

mutual
/-- Blocks that lose nothing: no tables, captions, footnote containers, titles of quotations or open blocks. -/
def kept : Block → Bool
  | .section _ _ _ bs _ => keptL bs
  | .list _ items _ _ => keptL items
  | .listItem _ _ bs _ _ => fitsItemL bs
  | .dlist items _ _ => keptL items
  | .dlistItem _ _ bs _ _ => keptL bs
  | .brk .. => true
  | .image _ c _ _ => c.isEmpty
  | .leaf .. => true
  | .parent .table .. => false
  | .parent .footnoteContainer .. => false
  | .parent .quote v _ bs t _ _ => v.isNone && t.isEmpty && keptL bs
  | .parent .open_ v _ bs t m _ => v.isNone && t.isEmpty && (source m).isEmpty && keptL bs
  | .parent _ _ _ bs _ m _ => (source m).isEmpty && keptL bs
  | .tableCell .. => false
/-- The same for each block. -/
def keptL : List Block → Bool
  | [] => true
  | b :: bs => kept b && keptL bs
end

/-! ## When writing returns -/

/-- A table whose number of columns is given and not zero, or that has at most one cell. -/
def tableFine (cells : List Block) (m : Option Meta) : Prop :=
  ∃ n, (match m.bind (·.attributes.get? b!"cols") with
    | some c => parseUnsigned (2 ^ 64 - 1) c = some n
    | none => n = 0) ∧ (n ≠ 0 ∨ cells.length ≤ 1)

mutual
/-- Images can be read and tables are fine. -/
def fine (io : Str → Option Unit) : Block → Prop
  | .section _ _ _ bs _ => fineL io bs
  | .list _ items _ _ => fineL io items
  | .dlist items _ _ => fineL io items
  | .dlistItem _ _ bs _ _ => fineL io bs
  | .image target _ _ _ => io target = some ()
  | .parent .table _ _ bs _ m _ => tableFine bs m
  | .parent .footnoteContainer .. => True
  | .parent _ _ _ bs _ _ _ => fineL io bs
  | _ => True
/-- The same for each block. -/
def fineL (io : Str → Option Unit) : List Block → Prop
  | [] => True
  | b :: bs => fine io b ∧ fineL io bs
end

/-! ## Lists and their numbering -/

mutual
/-- The lists of a block in order: kind and number of items. Lists attached to list items do not count. -/
def lists : Block → List (ListVariant × Nat)
  | .section _ _ _ bs _ => listsL bs
  | .list v items _ _ => [(v, items.length)]
  | .dlist items _ _ => listsL items
  | .dlistItem _ _ bs _ _ => listsL bs
  | .parent .table .. => []
  | .parent .footnoteContainer .. => []
  | .parent _ _ _ bs _ _ _ => listsL bs
  | _ => []
/-- The lists of each block. -/
def listsL : List Block → List (ListVariant × Nat)
  | [] => []
  | b :: bs => lists b ++ listsL bs
end

/-- Whether a block is a list item. -/
def isItem : Block → Bool
  | .listItem .. => true
  | _ => false

mutual
/-- List items stand in lists only, and lists have nothing but list items. -/
def itemsInLists : Block → Bool
  | .section _ _ _ bs _ => itemsInListsL bs
  | .list _ items _ _ => items.all isItem
  | .listItem .. => false
  | .dlist items _ _ => itemsInListsL items
  | .dlistItem _ _ bs _ _ => itemsInListsL bs
  | .parent .table .. => true
  | .parent .footnoteContainer .. => true
  | .parent _ _ _ bs _ _ _ => itemsInListsL bs
  | _ => true
/-- The same for each block. -/
def itemsInListsL : List Block → Bool
  | [] => true
  | b :: bs => itemsInLists b && itemsInListsL bs
end

/-- The numbers of the items of lists with the given numbers of items: `n + 1` for the first list, and so on. -/
def itemNumbers : Nat → List (ListVariant × Nat) → List Nat
  | _, [] => []
  | n, (_, k) :: rest => List.replicate k (n + 1) ++ itemNumbers (n + 1) rest

/-! ## Roles of paragraphs -/

/-- What a paragraph is. -/
inductive Role where
  | body
  | heading (level : Nat)
  | boxTitle (name : Str)
  | boxText (name : Str)
  | quotation | verse | code | bullet | numbered | continuation | term | definition | rule
deriving DecidableEq, Repr

/-- The style that shows a role. Each numbered list has a style of its own. -/
def Role.style : Role → Str → Prop
  | .body, s => s = b!"Normal"
  | .heading n, s => s = b!"Heading " ++ natToStr n
  | .boxTitle name, s => s = name ++ b!" Title"
  | .boxText name, s => s = name ++ b!" Text"
  | .quotation, s => s = b!"Quote"
  | .verse, s => s = b!"Verse"
  | .code, s => s = b!"Monospace"
  | .bullet, s => s = b!"ListParagraph"
  | .numbered, s => ∃ n, s = b!"NumberedListParagraph_" ++ natToStr n
  | .continuation, s => s = b!"ListParagraphContinue"
  | .term, s => s = b!"Definition Term"
  | .definition, s => s = b!"Definition"
  | .rule, s => s = b!"ThematicBreak"

/-- Paragraphs show roles, one by one. -/
def showRoles : List Role → List Para → Prop
  | [], [] => True
  | r :: rs, p :: ps => r.style p.style ∧ showRoles rs ps
  | _, _ => False

/-- The name of a box. -/
def boxName : ParentName → Option Str
  | .admonition => some b!"Admonition"
  | .example_ => some b!"Example"
  | .sidebar => some b!"Sidebar"
  | _ => none

mutual
/-- The roles of the paragraphs of a block; `amb` is the role of plain paragraphs where the block stands. -/
def roles (amb : Role) : Block → List Role
  | .section t _ level bs _ => (if t.isEmpty then [] else [.heading level]) ++ rolesL .body bs
  | .list v items _ _ =>
    items.flatMap fun
      | .listItem _ _ bs _ _ =>
        (match v with | .ordered => .numbered | .unordered => .bullet) :: bs.map fun _ => .continuation
      | _ => []
  | .listItem .. => []
  | .dlist items _ _ => rolesL amb items
  | .dlistItem _ _ bs _ _ => .term :: .definition :: rolesL .definition bs
  | .brk .page _ => []
  | .brk .thematic _ => [.rule]
  | .image .. => []
  | .leaf n _ _ _ _ _ => [match n with
    | .paragraph | .pass => amb
    | .verse => .verse
    | .listing | .literal => .code]
  | .parent .quote _ _ bs _ m _ => rolesL .quotation bs ++ (source m).map fun _ => .quotation
  | .parent .open_ _ _ bs _ _ _ => rolesL amb bs
  | .parent n v _ bs t _ _ =>
    match boxName n with
    | some name =>
      (label v).map (fun _ => .boxTitle name) ++ (title t).map (fun _ => .boxTitle name) ++ rolesL (.boxText name) bs
    | none => []
  | .tableCell .. => []
/-- The roles of the paragraphs of each block. -/
def rolesL (amb : Role) : List Block → List Role
  | [] => []
  | b :: bs => roles amb b ++ rolesL amb bs
end

/-- Plain paragraphs, page breaks and images. -/
def plain : Block → Bool
  | .leaf .paragraph .. => true
  | .leaf .pass .. => true
  | .brk .page _ => true
  | .image .. => true
  | _ => false

/-- Blocks are attached only to the last item. The result tells whether there are none. -/
def itemsCalm : List Block → Option Bool
  | [] => some true
  | [.listItem _ _ bs _ _] => some bs.isEmpty
  | .listItem _ _ [] _ _ :: b :: rest => itemsCalm (b :: rest)
  | _ => none

mutual
/-- Graphs in which no plain paragraph comes directly after a block that has a style of its own (verse, code, list,
description list, table, thematic break), the boxes and quotations have nothing but plain paragraphs in them,
description list items have no attached blocks, and in a list only the last item has. `dirty` and the result tell
whether the block before and this block are of that kind. -/
def calm (dirty : Bool) : Block → Option Bool
  | .section t _ _ bs _ => calmL (if t.isEmpty then dirty else false) bs
  | .list _ items _ _ => itemsCalm items
  | .listItem .. => none
  | .dlist items _ _ =>
    if items.all (fun | .dlistItem _ _ [] _ _ => true | _ => false) then some true else none
  | .dlistItem .. => none
  | .brk .page _ => some dirty
  | .brk .thematic _ => some true
  | .image .. => some dirty
  | .leaf n _ _ _ _ _ => match n with
    | .paragraph | .pass => if dirty then none else some false
    | _ => some true
  | .parent .table .. => some true
  | .parent .footnoteContainer .. => some dirty
  | .parent .open_ _ _ bs _ _ _ => calmL dirty bs
  | .parent _ _ _ bs _ _ _ => if bs.all plain then some false else none
  | .tableCell .. => some dirty
/-- The same for each block. -/
def calmL (dirty : Bool) : List Block → Option Bool
  | [] => some dirty
  | b :: bs => match calm dirty b with
    | some d => calmL d bs
    | none => none
end

end Adoc.Word
