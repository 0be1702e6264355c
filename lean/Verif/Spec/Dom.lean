import Verif.Spec.Markup
import Verif.Model.Render
/-!
# The tree of an HTML text

What a reader of an HTML text builds from it: elements with their attributes, one in the other, and text between
them. And the tree that a graph stands for. White space outside tags is left out on both sides.
-/
namespace Adoc.Dom
open Markup

/-- Attributes: names with values. -/
abbrev Pairs := List (Str × Str)

/-! ## Reading -/

/-- Where reading the attributes of a tag is: between attributes, in a name, before a value, in a value. -/
inductive At where
  | gap
  | key (k : Str)
  | eq (k : Str)
  | val (k v : Str)

/-- The attributes `name="value"` in the rest of a tag. -/
def pairs : At → Str → Pairs
  | _, [] => []
  | .gap, b :: s => if b = c!" " then pairs .gap s else pairs (.key [b]) s
  | .key k, b :: s => if b = c!"=" then pairs (.eq k) s else if b = c!" " then pairs .gap s else pairs (.key (k ++ [b])) s
  | .eq k, b :: s => if b = c!"\"" then pairs (.val k []) s else pairs .gap s
  | .val k v, b :: s => if b = c!"\"" then (k, v) :: pairs .gap s else pairs (.val k (v ++ [b])) s

/-- The name of a tag. -/
def tagName (c : Str) : Str := c.takeWhile fun b => b ≠ c!" " && b ≠ c!"/"

/-- The attributes of a tag. -/
def tagPairs (c : Str) : Pairs := pairs .gap (c.dropWhile fun b => b ≠ c!" ")

/-- What a reader meets: the beginning and the end of an element, an element without content, or a byte of text. -/
inductive Ev where
  | opens (name : Str) (attrs : Pairs)
  | closes (name : Str)
  | alone (name : Str) (attrs : Pairs)
  | char (b : UInt8)
  | broken
deriving DecidableEq, Repr

/-- What a reader meets in the pieces of an HTML text, without spaces and newlines. -/
def events : List Tok → List Ev
  | [] => []
  | .char b :: ts => if b = c!" " || b = c!"\n" then events ts else .char b :: events ts
  | .broken :: ts => .broken :: events ts
  | .tag c :: ts =>
    match kind c with
    | .opens n => .opens n (tagPairs c) :: events ts
    | .closes n => .closes n :: events ts
    | .empty => .alone (tagName c) (tagPairs c) :: events ts

/-- What a reader meets in an HTML text. -/
def met (s : Str) : List Ev := events (lex .text s)

/-! ## Trees -/

/-- Text, which may itself be HTML, or an element. -/
inductive Node where
  | text (s : Str)
  | elem (name : Str) (attrs : Pairs) (inner : List Node)

mutual
/-- A tree, written out. -/
def Node.flat : Node → List Ev
  | .text s => met s
  | .elem n as inner => if n ∈ voids then [.alone n as] else .opens n as :: (flatL inner ++ [.closes n])
/-- Trees, one after the other. -/
def flatL : List Node → List Ev
  | [] => []
  | n :: ns => n.flat ++ flatL ns
end

/-! ## The tree of a graph -/

/-- An attribute that is left out if its value is empty. -/
def unlessEmpty (key v : Str) : Pairs := if v = [] then [] else [(key, v)]

/-- Words with spaces between them. -/
def spaced : List Str → Str
  | [] => []
  | [s] => s
  | s :: ss => s ++ c!" " :: spaced ss

/-- The roles are the classes of an element. -/
def classes : Option Meta → Pairs
  | some m => if m.roles = [] then [] else [(b!"class", spaced m.roles)]
  | none => []

/-- Strong text is in `strong`, emphasis in `em` and so on; marked text and footnotes are in `span`. -/
def spanName : SpanVariant → Str
  | .strong => b!"strong"
  | .emphasis => b!"em"
  | .code => b!"code"
  | .mark => b!"span"
  | .superscript => b!"sup"
  | .subscript => b!"sub"
  | .footnote => b!"span"

/-- Footnotes are told from marked text by their type. -/
def spanType : SpanVariant → Pairs
  | .footnote => [(b!"data-type", b!"footnote")]
  | _ => []

mutual
/-- The tree of an inline: links and cross references are in `a` with the target, without text they show it. -/
def ofInline : Inline → List Node
  | .lit _ v _ => [.text v]
  | .brk _ => [.elem b!"br" [] []]
  | .span v _ is m _ _ => [.elem (spanName v) (classes m ++ spanType v) (ofInlines is)]
  | .ref .image t _ m _ => [.elem b!"img" (classes m ++ [(b!"src", t)]) []]
  | .ref v t is m _ =>
    [.elem b!"a" (classes m ++ [(b!"href", shownTarget v t)])
      (if is.isEmpty then [.text (shownTarget v t)] else ofInlines is)]
/-- The trees of inlines. -/
def ofInlines : List Inline → List Node
  | [] => []
  | i :: is => ofInline i ++ ofInlines is
end

/-- An element unless there is nothing in it. -/
def unlessNone (name : Str) (is : List Inline) : List Node :=
  if is.isEmpty then [] else [.elem name [] (ofInlines is)]

/-- The attribution of a block with its citation. -/
def ofCredit (m : Option Meta) : List Node :=
  if value m b!"attribution" = [] then []
  else [.elem b!"p" [(b!"data-type", b!"attribution")] (.text (value m b!"attribution")
    :: if value m b!"citation" = [] then [] else [.text b!",", .text (value m b!"citation")])]

/-- Paragraphs are in `p`, verbatim blocks in `pre`; listings have their language. Passthrough text stands for itself. -/
def ofLeaf (n : LeafName) (is : List Inline) (m : Option Meta) : List Node :=
  match n with
  | .paragraph => [.elem b!"p" (classes m) (ofInlines is)]
  | .listing => [.elem b!"pre" (classes m ++ unlessEmpty b!"data-code-language" (value m b!"language")) (ofInlines is)]
  | .literal => [.elem b!"pre" (classes m) (ofInlines is)]
  | .verse => [.elem b!"pre" (classes m ++ [(b!"data-type", b!"verse")]) (ofInlines is)]
  | .pass => ofInlines is

/-- The inlines of a cell. -/
def cellText : Block → List Inline
  | .tableCell is _ _ => is
  | .leaf _ _ _ is _ _ => is
  | _ => []

/-- A cell of the body. -/
def ofCell (b : Block) : Node := .elem b!"td" [] (ofInlines (cellText b))

/-- A cell of the header; nothing if there are fewer cells than columns. -/
def ofHead : Option Block → Node
  | some b => .elem b!"th" [] (ofInlines (cellText b))
  | none => .elem b!"th" [] []

/-- The number of columns; 0 if it is no number. -/
def columns (m : Option Meta) : Nat := (parseDigits (value m b!"cols")).getD 0

/-- A table has a header if it has the option. -/
def headed : Option Meta → Bool
  | some m => m.options.contains b!"header"
  | none => false

/-- A table with rows of cells (`Render.htmlTable`, see C39); with a header it has a head and a body, and also without one if
the document is `titled`. -/
def ofTable (titled : Bool) (cells : List Block) (m : Option Meta) : Node :=
  let t := Render.htmlTable (columns m) (headed m) cells
  let rows := t.2.map fun r => Node.elem b!"tr" [] (r.map ofCell)
  .elem b!"table" [] (if headed m || titled then [.elem b!"thead" [] (t.1.map ofHead), .elem b!"tbody" [] rows] else rows)

/-- An element, or only what is in it (`bare`). -/
def wrap (bare : Bool) (name : Str) (attrs : Pairs) (inner : List Node) : List Node :=
  if bare then inner else [.elem name attrs inner]

/-- Ordered lists are in `ol`, unordered lists in `ul`. -/
def listName : ListVariant → Str
  | .ordered => b!"ol"
  | .unordered => b!"ul"

/-- Quotes are in `blockquote`, sidebars in `aside`, other blocks in `div`; footnote containers are not handled. -/
def boxName : ParentName → Str
  | .quote => b!"blockquote"
  | .sidebar => b!"aside"
  | .footnoteContainer => b!"UNHANDLED"
  | _ => b!"div"

/-- Admonitions have their kind, sidebars are called sidebars. -/
def boxType : ParentName → Option ParentVariant → Pairs
  | .admonition, some v => [(b!"data-type", match v with
    | .note => b!"note"
    | .tip => b!"tip"
    | .important => b!"important"
    | .caution => b!"caution"
    | .warning => b!"warning")]
  | .sidebar, _ => [(b!"data-type", b!"sidebar")]
  | _, _ => []

/-- The heading of a block with a title. -/
def boxHeading : ParentName → Str
  | .example_ => b!"h5"
  | .sidebar => b!"h5"
  | _ => b!"h1"

mutual
/-- The tree of a block. Directly in an admonition (`bare`) only leaf blocks, tables and sections have elements of
their own. -/
def ofBlock (titled bare : Bool) : Block → List Node
  | .section t m level bs _ =>
    [.elem b!"section" ((b!"data-type", b!"sect" ++ natToStr level) :: (classes m ++ unlessEmpty b!"id" (value m b!"id")))
      (unlessNone b!"h1" t ++ ofCredit m ++ ofBlocks titled false bs)]
  | .list v items m _ => wrap bare (listName v) (classes m) (ofBlocks titled false items ++ ofCredit m)
  | .dlist items m _ => wrap bare b!"dl" (classes m) (ofBlocks titled false items ++ ofCredit m)
  | .listItem _ p bs m _ => wrap bare b!"li" (classes m) (unlessNone b!"p" p ++ ofBlocks titled false bs ++ ofCredit m)
  | .dlistItem ts p bs m _ =>
    unlessNone b!"dt" ts ++ wrap bare b!"dd" (classes m) (unlessNone b!"p" p ++ ofBlocks titled false bs ++ ofCredit m)
  | .brk .thematic _ => [.elem b!"hr" [] []]
  | .brk .page _ => [.elem b!"div" [(b!"style", b!"page-break-after: always;")] []]
  | .image t c m _ =>
    wrap bare b!"figure" (classes m ++ unlessEmpty b!"id" (value m b!"id"))
      (.elem b!"img" ((b!"src", t) :: unlessEmpty b!"alt" (value m b!"positional_1")) [] ::
        (unlessNone b!"figcaption" c ++ ofCredit m))
  | .leaf n _ _ is m _ => ofLeaf n is m
  | .parent .table _ _ cells _ m _ => [ofTable titled cells m]
  | .parent n v _ bs t m _ =>
    wrap bare (boxName n) (classes m ++ boxType n v)
      (unlessNone (boxHeading n) t ++ ofBlocks titled (n = .admonition) bs ++ ofCredit m)
  | .tableCell is m _ => wrap bare b!"UNHANDLED" (classes m) (ofInlines is ++ ofCredit m)
/-- The trees of blocks. -/
def ofBlocks (titled bare : Bool) : List Block → List Node
  | [] => []
  | b :: bs => ofBlock titled bare b ++ ofBlocks titled bare bs
end

/-- The tree of the title of the document. -/
def ofTitle : Option Header → List Node
  | some h => ofInlines h.title
  | none => []

/-- The tree of a page: the title is only in the head. `sees` says whether macros see the title (see `Html`). -/
def page (sees : Bool) (g : Asg) : List Node :=
  [.elem b!"html" [(b!"lang", b!"en")]
    [.elem b!"head" []
      [.elem b!"meta" [(b!"charset", b!"UTF-8")] [],
       .elem b!"meta" [(b!"name", b!"viewport"), (b!"content", b!"width=device-width, initial-scale=1")] [],
       .elem b!"title" [] (ofTitle g.header)],
     .elem b!"body" [] (ofBlocks (sees && g.header.isSome) false g.blocks)]]

end Adoc.Dom
