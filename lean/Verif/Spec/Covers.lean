import Verif.Model.Asg
import Verif.Props.Location
/-!
# Locations that cover what they contain
-/
namespace Adoc.Spec
open Props (before)

/-- `l` begins not after and ends not before every position of `o`. -/
def Covers (l o : List Location) : Prop :=
  ∀ z ∈ o, (∃ x ∈ l.head?, before x z) ∧ ∃ y ∈ l.getLast?, before z y

/-- Location of the last inline, if any. -/
def lastInline (is : List Inline) : List Location := (is.getLast?.map Inline.locations).getD []
/-- Location of the last block, if any. -/
def lastBlock (bs : List Block) : List Location := (bs.getLast?.map Block.locations).getD []

mutual
/-- The location of the block covers the last block in it, or the last inline if there are no blocks in it; for a section,
both. The same holds of the items of a list. -/
def CoversLast : Block → Prop
  | .section t _ _ bs l => Covers l (lastInline t) ∧ Covers l (lastBlock bs)
  | .leaf _ _ _ is _ l => Covers l (lastInline is)
  | .tableCell is _ l => Covers l (lastInline is)
  | .list _ bs _ l => Covers l (lastBlock bs) ∧ AllCoverLast bs
  | .dlist bs _ l => Covers l (lastBlock bs) ∧ AllCoverLast bs
  | .listItem _ is bs _ l => Covers l (if bs.isEmpty then lastInline is else lastBlock bs)
  | .dlistItem _ is bs _ l => Covers l (if bs.isEmpty then lastInline is else lastBlock bs)
  | .parent _ _ _ bs _ _ l => Covers l (lastBlock bs)
  | .brk .. => True
  | .image .. => True
def AllCoverLast : List Block → Prop
  | [] => True
  | b :: bs => CoversLast b ∧ AllCoverLast bs
end

end Adoc.Spec
