import Verif.Model.Docx
/-!
# Documents without their texts, and the layout of Word documents
-/
namespace Adoc.Form

/-- Some text, or none. -/
def hide (is : List Inline) : List Inline := if is.isEmpty then [] else [.lit .text [] []]

mutual
/-- A block with all its texts hidden, and without locations. Which blocks there are, their kinds, levels, metadata and targets are
kept. -/
def form : Block → Block
  | .section t m v bs _ => .section (hide t) m v (formL bs) []
  | .list v bs m _ => .list v (formL bs) m []
  | .listItem k p bs m _ => .listItem k (hide p) (formL bs) m []
  | .dlist bs m _ => .dlist (formL bs) m []
  | .dlistItem t p bs m _ => .dlistItem (hide t) (hide p) (formL bs) m []
  | .brk v _ => .brk v []
  | .image t c m _ => .image t (hide c) m []
  | .leaf n f d is m _ => .leaf n f d (hide is) m []
  | .parent n v d bs t m _ => .parent n v d (formL bs) (hide t) m []
  | .tableCell is m _ => .tableCell (hide is) m []
/-- Blocks with all their texts hidden. -/
def formL : List Block → List Block
  | [] => []
  | b :: bs => form b :: formL bs
end

/-- A child of the body of a Word document without its text. -/
inductive Place where
  | para (style : Str) (pageBreak : Bool) (num : Option Nat)
  | table
  | picture
deriving DecidableEq, Repr

/-- The place of a child of the body. -/
def place : Docx.Item → Place
  | .para p => .para p.style p.pageBreak p.num
  | .table _ => .table
  | .picture _ => .picture

/-- A Word document without texts: the paragraphs with their styles, page breaks and numbering, the styles and the numberings. -/
def layout (d : Docx.Doc) : List Place × List Docx.StyleDef × List Nat × List (Nat × Nat) :=
  (d.body.map place, d.styles, d.abstractNums, d.nums)

end Adoc.Form
