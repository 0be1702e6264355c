import Verif.Model.Html
import Verif.Spec.Form
/-!
# Pages that are the same up to the texts
-/
namespace Adoc.Form

/-- The text of a cell. -/
def cellText : Block → List Inline
  | .tableCell is _ _ => is
  | .leaf _ _ _ is _ _ => is
  | _ => []

mutual
/-- The texts of a block in reading order. The title of a table is not among them. -/
def texts : Block → List (List Inline)
  | .section t _ _ bs _ => t :: textsL bs
  | .list _ bs _ _ => textsL bs
  | .listItem _ p bs _ _ => p :: textsL bs
  | .dlist bs _ _ => textsL bs
  | .dlistItem t p bs _ _ => t :: p :: textsL bs
  | .brk .. => []
  | .image _ c _ _ => [c]
  | .leaf _ _ _ is _ _ => [is]
  | .tableCell is _ _ => [is]
  | .parent .table _ _ cells _ _ _ => cells.map cellText
  | .parent _ _ _ bs t _ _ => t :: textsL bs
/-- The texts of blocks. -/
def textsL : List Block → List (List Inline)
  | [] => []
  | b :: bs => texts b ++ textsL bs
end

/-- Two strings are put together in the same way from the same fixed strings and the texts in two lists, each of which is used once
and in order. -/
inductive Weave : List (List Inline) → List (List Inline) → Str → Str → Prop
  | fixed (s : Str) : Weave [] [] s s
  | text (is js : List Inline) : Weave [is] [js] (Html.inlines is) (Html.inlines js)
  | app {a a' b b' s s' t t'} : Weave a a' s s' → Weave b b' t t' → Weave (a ++ b) (a' ++ b') (s ++ t) (s' ++ t')

end Adoc.Form
