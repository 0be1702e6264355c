import Verif.Model.Html
/-!
# One block of a document is exchanged for another one
-/
namespace Adoc.Edit

/-- Blocks that hold other blocks, as a function of these: sections, lists and their items, and boxes; not tables. -/
inductive Holder : (List Block → Block) → Prop
  | «section» (t m v l) : Holder fun bs => .section t m v bs l
  | list (v m l) : Holder fun bs => .list v bs m l
  | listItem (k p m l) : Holder fun bs => .listItem k p bs m l
  | dlist (m l) : Holder fun bs => .dlist bs m l
  | dlistItem (t p m l) : Holder fun bs => .dlistItem t p bs m l
  | box (n v d t m l) (h : n ≠ .table) : Holder fun bs => .parent n v d bs t m l

/-- Two lists of blocks are the same, except that somewhere, at any depth, one has `x` where the other one has `y`. -/
inductive Swapped (x y : Block) : List Block → List Block → Prop
  | here (a b : List Block) : Swapped x y (a ++ x :: b) (a ++ y :: b)
  | within (a b : List Block) {f : List Block → Block} (hf : Holder f) {bs cs : List Block} (h : Swapped x y bs cs) :
      Swapped x y (a ++ f bs :: b) (a ++ f cs :: b)

/-- Two lists of blocks are the same, except that somewhere, at any depth, `x` is only in the first one. -/
inductive Dropped (x : Block) : List Block → List Block → Prop
  | here (a b : List Block) : Dropped x (a ++ x :: b) (a ++ b)
  | within (a b : List Block) {f : List Block → Block} (hf : Holder f) {bs cs : List Block} (h : Dropped x bs cs) :
      Dropped x (a ++ f bs :: b) (a ++ f cs :: b)

/-- Inlines at whose end there is a text, which may be formatted or in a link. -/
inductive TextLast : List Inline → Prop
  | lit (a : List Inline) (n v l) : TextLast (a ++ [.lit n v l])
  | span (a : List Inline) (v f m l o) {is : List Inline} (h : TextLast is) : TextLast (a ++ [.span v f is m l o])
  | ref (a : List Inline) (v t m l) {is : List Inline} (h : TextLast is) : TextLast (a ++ [.ref v t is m l])

end Adoc.Edit
