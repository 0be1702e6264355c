import Verif.Spec.Origin
/-!
# What may stand in what (used in C92)

The kinds of blocks, and which kind of block holds which. Nothing here refers to the scanner or the parser.
-/
namespace Adoc.Kinds

/-- The kind of a block. -/
inductive Kind where
  | list (v : ListVariant)
  | item (mark : Str)
  | dlist
  | entry
  | box (n : ParentName)
  | cell
  | words
  | other
deriving DecidableEq

/-- The kind of a block. -/
def kind : Block → Kind
  | .list v _ _ _ => .list v
  | .listItem k _ _ _ _ => .item k
  | .dlist .. => .dlist
  | .dlistItem .. => .entry
  | .parent n .. => .box n
  | .tableCell .. => .cell
  | .leaf .. => .words
  | _ => .other

/-- The markers of the items of a list. -/
def marks : ListVariant → Str → Prop
  | .unordered, k => k = b!"*"
  | .ordered, k => k = b!"." ∨ ∃ n, k = b!"<" ++ n ++ b!">"

/-- Lists hold items with their markers, description lists hold entries and tables hold cells. -/
def MayHold : Kind → Kind → Prop
  | .list v, c => ∃ k, c = .item k ∧ marks v k
  | .dlist, c => c = .entry
  | .box .table, c => c = .cell
  | _, _ => True

/-- The byte `+` alone on a line, as it attaches a block to an item. -/
def plusLine (s : Str) : Prop := ∃ before after, s = before ++ b!"+\n" ++ after ∧ (before = [] ∨ ∃ b, before = b ++ b!"\n")

end Adoc.Kinds
