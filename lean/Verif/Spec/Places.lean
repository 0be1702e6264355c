import Verif.Model.Parser
import Verif.Props.Location
/-!
# Where the nodes of a graph are

`Places` says at which lines and columns something may begin and end. `Places.Graph` says that every node of a graph, at
any depth, has a location, that it begins where something may begin, that it ends where something may begin or end, and
that it does not end before it begins.
-/
namespace Adoc.Spec
open Props (before)

/-- Lines and columns where something may begin, and where it may end. -/
structure Places where
  start : Nat → Nat → Prop
  stop : Nat → Nat → Prop

/-- A location: one position, or two in source order. -/
def Places.Range (P : Places) (l : List Location) : Prop :=
  ∃ a, P.start a.line a.col ∧
    (l = [a] ∨ ∃ b, l = [a, b] ∧ (P.start b.line b.col ∨ P.stop b.line b.col) ∧ before a b)

mutual
/-- All locations in an inline. -/
def Places.Inl (P : Places) : Inline → Prop
  | .span _ _ is _ l _ => P.Range l ∧ P.Inls is
  | .ref _ _ is _ l => P.Range l ∧ P.Inls is
  | .lit _ _ l => P.Range l
  | .brk l => P.Range l
/-- All locations in some inlines. -/
def Places.Inls (P : Places) : List Inline → Prop
  | [] => True
  | i :: is => P.Inl i ∧ P.Inls is
end

mutual
/-- All locations in a block. -/
def Places.Blk (P : Places) : Block → Prop
  | .section t _ _ bs l => P.Range l ∧ P.Inls t ∧ P.Blks bs
  | .list _ bs _ l => P.Range l ∧ P.Blks bs
  | .listItem _ is bs _ l => P.Range l ∧ P.Inls is ∧ P.Blks bs
  | .dlist bs _ l => P.Range l ∧ P.Blks bs
  | .dlistItem t is bs _ l => P.Range l ∧ P.Inls t ∧ P.Inls is ∧ P.Blks bs
  | .brk _ l => P.Range l
  | .image _ c _ l => P.Range l ∧ P.Inls c
  | .leaf _ _ _ is _ l => P.Range l ∧ P.Inls is
  | .parent _ _ _ bs t _ l => P.Range l ∧ P.Inls t ∧ P.Blks bs
  | .tableCell is _ l => P.Range l ∧ P.Inls is
/-- All locations in some blocks. -/
def Places.Blks (P : Places) : List Block → Prop
  | [] => True
  | b :: bs => P.Blk b ∧ P.Blks bs
end

/-- All locations in a graph. -/
structure Places.Graph (P : Places) (g : Asg) : Prop where
  header : ∀ h ∈ g.header, P.Range h.loc ∧ P.Inls h.title
  titles : ∀ kv ∈ g.idHash, P.Inls kv.2
  blocks : P.Blks g.blocks
  loc : P.Range g.loc

/-! ## Positions in a source -/

/-- Line of the byte after `pre`: 1 plus the number of newlines before it. -/
def lineAfter (pre : Str) : Nat := 1 + pre.count 10

/-- Column of the byte after `pre`: 1 plus the number of bytes since the last newline. -/
def colAfter (pre : Str) : Nat := 1 + (pre.reverse.takeWhile (· != 10)).length

/-- Line and column of a byte of the source. -/
def IsPosition (src : Str) (line col : Nat) : Prop :=
  ∃ pre b rest, src = pre ++ b :: rest ∧ line = lineAfter pre ∧ col = colAfter pre

/-- The places of a source: its bytes, and the end of the input, which has column 0 on the last line. -/
def sourcePlaces (src : Str) : Places where
  start l c := IsPosition src l c ∨ (l = lineAfter src ∧ c = 0)
  stop l c := IsPosition src l c ∨ (l = lineAfter src ∧ c = 0)

end Adoc.Spec
