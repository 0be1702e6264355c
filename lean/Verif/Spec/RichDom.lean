import Verif.Spec.RichPage
import Verif.Spec.Dom
/-!
# The page of a document of the class

What a reader should meet on the page, block by block in the order of the source. A heading ends the sections of the same
level and of deeper levels, and begins a section.
-/
namespace Adoc.Spec
open Dom

/-- The end of a section, some number of times. -/
def ends (n : Nat) : List Ev := List.replicate n (.closes b!"section")

/-- What a reader should meet on the page of blocks, when the levels of the open sections are `levels`, the innermost first; `titled` says whether tables
see a title of the document. -/
def unrolled (titled : Bool) (ids : Ids) : List Nat → List Tagged → List Ev
  | levels, [] => ends levels.length
  | levels, e :: es =>
    match e.blk with
    | .head n title =>
      let m := tagsMeta e.tags
      let around := levels.dropWhile fun l => n ≤ l
      ends (levels.length - around.length)
        ++ .opens b!"section" ((b!"data-type", b!"sect" ++ natToStr n) :: (classes m ++ unlessEmpty b!"id" (Markup.value m b!"id")))
        :: flatL (unlessNone b!"h1" (shownL ids title) ++ ofCredit m)
        ++ unrolled titled ids (n :: around) es
    | _ => flatL (ofBlock titled false (e.block ids)) ++ unrolled titled ids levels es

/-- The title of a document. -/
def RichDoc.titleTree (d : RichDoc) : List Node :=
  match d.head with
  | some h => ofInlines (shownL [] h.title)
  | none => []

/-- What a reader should meet on the page of a document. -/
def RichDoc.unrolled (sees : Bool) (d : RichDoc) : List Ev :=
  [.alone b!"!DOCTYPE" [], .opens b!"html" [(b!"lang", b!"en")], .opens b!"head" [],
    .alone b!"meta" [(b!"charset", b!"UTF-8")],
    .alone b!"meta" [(b!"name", b!"viewport"), (b!"content", b!"width=device-width, initial-scale=1")],
    .opens b!"title" []]
  ++ flatL d.titleTree
  ++ [.closes b!"title", .closes b!"head", .opens b!"body" []]
  ++ Spec.unrolled (sees && d.head.isSome) d.ids [] d.blocks
  ++ [.closes b!"body", .closes b!"html"]

end Adoc.Spec
