import Verif.Spec.Word
import Verif.Spec.Markup
/-!
# Texts that the HTML page and the Word document show alike
-/
namespace Adoc.Alike
open Markup

mutual
/-- Text without `<`, in spans and links with a text; inline images without one. -/
def sameI : Inline → Bool
  | .lit n v _ => n = .text && noTag v
  | .brk _ => true
  | .span _ _ is _ _ _ => sameIs is
  | .ref v _ is _ _ => (v = .image || !is.isEmpty) && sameIs is
/-- The same for each inline. -/
def sameIs : List Inline → Bool
  | [] => true
  | i :: is => sameI i && sameIs is
end

/-- There is no attribution. -/
def uncredited (m : Option Meta) : Bool := (m.bind (·.attributes.get? b!"attribution")).isNone

mutual
/-- No thematic breaks, labels of admonitions and attributions, and inlines as above. -/
def same : Block → Bool
  | .section t m _ bs _ => sameIs t && uncredited m && sameL bs
  | .list _ bs m _ => sameL bs && uncredited m
  | .listItem _ p bs m _ => sameIs p && sameL bs && uncredited m
  | .dlist bs m _ => sameL bs && uncredited m
  | .dlistItem t p bs m _ => sameIs t && sameIs p && sameL bs && uncredited m
  | .brk v _ => v = .page
  | .image _ c m _ => sameIs c && uncredited m
  | .leaf _ _ _ is _ _ => sameIs is
  | .parent _ v _ bs t m _ => v.isNone && sameIs t && sameL bs && uncredited m
  | .tableCell is m _ => sameIs is && uncredited m
/-- The same for each block. -/
def sameL : List Block → Bool
  | [] => true
  | b :: bs => same b && sameL bs
end

/-- The title and all blocks of a graph. -/
def sameDoc (g : Asg) : Bool :=
  (match g.header with
    | some h => sameIs h.title
    | none => true) && sameL g.blocks

/-- Two texts have the same characters in the same order, except for white space. -/
def Alike (a b : Str) : Prop := ∃ t, squash a = squash t ∧ Word.SameWords t b

end Adoc.Alike
