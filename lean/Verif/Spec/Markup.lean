import Verif.Model.Asg
/-!
# Reading HTML

What a reader of an HTML text sees, defined on the bytes of the text and independently of the writer: tags, text
outside tags, nesting of elements, `id` attributes. And what there is to read in a graph.
-/
namespace Adoc.Markup

/-- A piece of an HTML text: a byte outside tags, a tag without its angle brackets, or a tag that does not end. -/
inductive Tok where
  | char (b : UInt8)
  | tag (content : Str)
  | broken
deriving DecidableEq, Repr

/-- Where reading is: outside tags, in a tag, or in a quoted value in a tag, with the content of the tag so far. -/
inductive Mode where
  | text
  | tag (content : Str)
  | quoted (content : Str)

/-- Reading: a tag goes from `<` to the next `>` outside double quotes. -/
def lex : Mode → Str → List Tok
  | .text, [] => []
  | .tag _, [] => [.broken]
  | .quoted _, [] => [.broken]
  | .text, b :: s => if b = c!"<" then lex (.tag []) s else .char b :: lex .text s
  | .tag c, b :: s =>
    if b = c!">" then .tag c :: lex .text s
    else if b = c!"\"" then lex (.quoted (c ++ [b])) s
    else lex (.tag (c ++ [b])) s
  | .quoted c, b :: s => if b = c!"\"" then lex (.tag (c ++ [b])) s else lex (.quoted (c ++ [b])) s

/-- What a tag does. -/
inductive Kind where
  | opens (name : Str)
  | closes (name : Str)
  | empty
deriving DecidableEq, Repr

/-- Elements without content and without a closing tag. -/
def voids : List Str := [b!"meta", b!"br", b!"hr", b!"img"]

/-- `!…` is a declaration, `/name` closes, `…/` and the names above have no content, the rest opens. -/
def kind (c : Str) : Kind :=
  match c with
  | [] => .empty
  | b :: rest =>
    if b = c!"!" then .empty
    else if b = c!"/" then .closes rest
    else if c.getLast? = some c!"/" then .empty
    else
      let name := c.takeWhile (· ≠ c!" ")
      if name ∈ voids then .empty else .opens name

/-- Every element is closed, by a tag of the same name and in the right order; the list has the open elements. -/
def nest : List Str → List Tok → Bool
  | st, [] => st.isEmpty
  | st, .char _ :: ts => nest st ts
  | _, .broken :: _ => false
  | st, .tag c :: ts =>
    match kind c, st with
    | .empty, st => nest st ts
    | .opens n, st => nest (n :: st) ts
    | .closes n, top :: st => n = top && nest st ts
    | .closes _, [] => false

/-- A text with well-nested elements. -/
def balanced (s : Str) : Bool := nest [] (lex .text s)

/-- The bytes outside tags. -/
def chars : List Tok → Str
  | [] => []
  | .char b :: ts => b :: chars ts
  | _ :: ts => chars ts

/-- The value of the `id` attribute of a tag; the flag tells whether reading is in a quoted value. -/
def idAt : Bool → Str → Option Str
  | _, [] => none
  | true, b :: s => idAt (b ≠ c!"\"") s
  | false, b :: s =>
    if b = c!" " ∧ s.take 4 = b!"id=\"" then some ((s.drop 4).takeWhile (· ≠ c!"\"")) else idAt (b = c!"\"") s

/-- The `id`s of all tags. -/
def idsOf : List Tok → List Str
  | [] => []
  | .tag c :: ts => (idAt false c).toList ++ idsOf ts
  | _ :: ts => idsOf ts

/-- The text that a reader of the HTML text sees. -/
def seen (s : Str) : Str := chars (lex .text s)

/-- The `id`s in an HTML text, in order. -/
def ids (s : Str) : List Str := idsOf (lex .text s)

/-- Without spaces and newlines. -/
def squash (s : Str) : Str := s.filter fun b => b ≠ c!" " && b ≠ c!"\n"

/-! ## The graph -/

/-- A value that can stand between double quotes. -/
def unquoted (s : Str) : Bool := s.all (· ≠ c!"\"")

/-- The attribute `key`, empty if it is missing. -/
def value (m : Option Meta) (key : Str) : Str :=
  match m with
  | some m => (m.attributes.get? key).getD []
  | none => []

/-- Roles and the attributes that are written can stand between double quotes; attributions are texts as `ok` asks. -/
def tidyMeta (ok : Str → Bool) (m : Option Meta) : Bool :=
  (match m with
    | some m => m.roles.all unquoted
    | none => true) && unquoted (value m b!"id") && unquoted (value m b!"positional_1") && unquoted (value m b!"language")
    && ok (value m b!"attribution") && ok (value m b!"citation")

mutual
/-- Texts are as `ok` asks and targets can stand between double quotes. -/
def tidyI (ok : Str → Bool) : Inline → Bool
  | .lit _ v _ => ok v
  | .brk _ => true
  | .span _ _ is m _ _ => tidyMeta ok m && tidyIs ok is
  | .ref _ t is m _ => tidyMeta ok m && unquoted t && ok t && tidyIs ok is
/-- The same for a list. -/
def tidyIs (ok : Str → Bool) : List Inline → Bool
  | [] => true
  | i :: is => tidyI ok i && tidyIs ok is
end

mutual
/-- The same for a block and all that is in it. -/
def tidy (ok : Str → Bool) : Block → Bool
  | .section t m _ bs _ => tidyIs ok t && tidyMeta ok m && tidyL ok bs
  | .list _ bs m _ => tidyMeta ok m && tidyL ok bs
  | .dlist bs m _ => tidyMeta ok m && tidyL ok bs
  | .listItem _ p bs m _ => tidyIs ok p && tidyMeta ok m && tidyL ok bs
  | .dlistItem t p bs m _ => tidyIs ok t && tidyIs ok p && tidyMeta ok m && tidyL ok bs
  | .brk _ _ => true
  | .image t c m _ => unquoted t && tidyIs ok c && tidyMeta ok m
  | .leaf _ _ _ is m _ => tidyIs ok is && tidyMeta ok m
  | .parent _ _ _ bs t m _ => tidyIs ok t && tidyMeta ok m && tidyL ok bs
  | .tableCell is m _ => tidyIs ok is && tidyMeta ok m
/-- The same for a list of blocks. -/
def tidyL (ok : Str → Bool) : List Block → Bool
  | [] => true
  | b :: bs => tidy ok b && tidyL ok bs
end

/-- The same for the title of the document. -/
def tidyHeader (ok : Str → Bool) : Option Header → Bool
  | some h => tidyIs ok h.title
  | none => true

/-- The title and all blocks of a graph. -/
def tidyDoc (ok : Str → Bool) (g : Asg) : Bool := tidyHeader ok g.header && tidyL ok g.blocks

/-- The text of a reference without text. -/
def shownTarget : RefVariant → Str → Str
  | .xref, t => c!"#" :: t
  | _, t => t

mutual
/-- The text of an inline; text may itself be HTML. -/
def readI : Inline → Str
  | .lit _ v _ => seen v
  | .brk _ => []
  | .span _ _ is _ _ _ => readIs is
  | .ref .image _ is _ _ => readIs is
  | .ref v t is _ _ => if is.isEmpty then seen (shownTarget v t) else readIs is
/-- The text of inlines. -/
def readIs : List Inline → Str
  | [] => []
  | i :: is => readI i ++ readIs is
end

/-- The text of an attribution with its citation. -/
def credit (m : Option Meta) : Str :=
  if value m b!"attribution" = [] then []
  else seen (value m b!"attribution")
    ++ if value m b!"citation" = [] then [] else b!"," ++ seen (value m b!"citation")

mutual
/-- All there is to read in a block: titles, terms, texts, captions and attributions. -/
def read : Block → Str
  | .section t m _ bs _ => readIs t ++ credit m ++ readL bs
  | .list _ bs m _ => readL bs ++ credit m
  | .dlist bs m _ => readL bs ++ credit m
  | .listItem _ p bs m _ => readIs p ++ readL bs ++ credit m
  | .dlistItem t p bs m _ => readIs t ++ readIs p ++ readL bs ++ credit m
  | .brk _ _ => []
  | .image _ c m _ => readIs c ++ credit m
  | .leaf _ _ _ is _ _ => readIs is
  | .parent .table _ _ bs t _ _ => readIs t ++ readL bs
  | .parent _ _ _ bs t m _ => readIs t ++ readL bs ++ credit m
  | .tableCell is m _ => readIs is ++ credit m
/-- All there is to read in blocks. -/
def readL : List Block → Str
  | [] => []
  | b :: bs => read b ++ readL bs
end

/-- The title of the document. -/
def readHeader : Option Header → Str
  | some h => readIs h.title
  | none => []

/-- All there is to read in a graph. -/
def readDoc (g : Asg) : Str := readHeader g.header ++ readL g.blocks

mutual
/-- No inline image with a text. -/
def plainI : Inline → Bool
  | .lit .. => true
  | .brk _ => true
  | .span _ _ is _ _ _ => plainIs is
  | .ref .image _ is _ _ => is.isEmpty
  | .ref _ _ is _ _ => plainIs is
/-- The same for a list. -/
def plainIs : List Inline → Bool
  | [] => true
  | i :: is => plainI i && plainIs is
end

/-- A table cell of text, without metadata. -/
def isCell : Block → Bool
  | .tableCell _ none _ => true
  | _ => false

mutual
/-- No inline image with a text, no table with a title, and nothing but cells in tables. -/
def written : Block → Bool
  | .section t _ _ bs _ => plainIs t && writtenL bs
  | .list _ bs _ _ => writtenL bs
  | .dlist bs _ _ => writtenL bs
  | .listItem _ p bs _ _ => plainIs p && writtenL bs
  | .dlistItem t p bs _ _ => plainIs t && plainIs p && writtenL bs
  | .brk _ _ => true
  | .image _ c _ _ => plainIs c
  | .leaf _ _ _ is _ _ => plainIs is
  | .parent .table _ _ bs t _ _ => t.isEmpty && bs.all isCell && writtenL bs
  | .parent _ _ _ bs t _ _ => plainIs t && writtenL bs
  | .tableCell is _ _ => plainIs is
/-- The same for a list of blocks. -/
def writtenL : List Block → Bool
  | [] => true
  | b :: bs => written b && writtenL bs
end

/-- The title of the document has no inline image with a text. -/
def plainHeader : Option Header → Bool
  | some h => plainIs h.title
  | none => true

/-- The same for the title and all blocks of a graph. -/
def writtenDoc (g : Asg) : Bool := plainHeader g.header && writtenL g.blocks

/-- A given `id`, if there is one. -/
def given (m : Option Meta) : List Str := if value m b!"id" = [] then [] else [value m b!"id"]

mutual
/-- The `id`s of sections and images, except for images directly in an admonition (`bare`). -/
def anchors (bare : Bool) : Block → List Str
  | .section _ m _ bs _ => given m ++ anchorsL false bs
  | .list _ bs _ _ => anchorsL false bs
  | .dlist bs _ _ => anchorsL false bs
  | .listItem _ _ bs _ _ => anchorsL false bs
  | .dlistItem _ _ bs _ _ => anchorsL false bs
  | .image _ _ m _ => if bare then [] else given m
  | .parent .table _ _ _ _ _ _ => []
  | .parent n _ _ bs _ _ _ => anchorsL (n = .admonition) bs
  | _ => []
/-- The same for a list of blocks. -/
def anchorsL (bare : Bool) : List Block → List Str
  | [] => []
  | b :: bs => anchors bare b ++ anchorsL bare bs
end

/-! ## Placement -/

/-- List items stand in lists, terms and descriptions in description lists, cells in rows and rows in tables. If `lax`,
header cells may also stand directly in the head of a table. -/
def allowed (lax : Bool) (parent name : Str) : Bool :=
  if name = b!"li" then parent = b!"ul" || parent = b!"ol"
  else if name = b!"dt" || name = b!"dd" then parent = b!"dl"
  else if name = b!"td" then parent = b!"tr"
  else if name = b!"th" then parent = b!"tr" || (lax && parent = b!"thead")
  else if name = b!"tr" then parent = b!"table" || parent = b!"thead" || parent = b!"tbody"
  else true

/-- Every element stands in an element that allows it; the list has the open elements. -/
def placed (lax : Bool) : List Str → List Tok → Bool
  | _, [] => true
  | st, .tag c :: ts =>
    match kind c with
    | .empty => placed lax st ts
    | .opens n => allowed lax (st.headD []) n && placed lax (n :: st) ts
    | .closes _ => placed lax st.tail ts
  | st, _ :: ts => placed lax st ts

/-- An HTML text in which every element stands where it may. -/
def wellPlaced (lax : Bool) (s : Str) : Bool := placed lax [] (lex .text s)

/-- A text without tags. -/
def noTag (s : Str) : Bool := s.all (· ≠ c!"<")

/-- What a block stands in. -/
inductive Home where
  | list | dlist | other
deriving DecidableEq, Repr

mutual
/-- Items stand in lists, lists do not stand directly in admonitions (`bare`), and, unless `lax`, tables have no
header. -/
def atHome (lax bare : Bool) (home : Home) : Block → Bool
  | .section _ _ _ bs _ => atHomeL lax false .other bs
  | .list _ bs _ _ => !bare && atHomeL lax false .list bs
  | .dlist bs _ _ => !bare && atHomeL lax false .dlist bs
  | .listItem _ _ bs _ _ => !bare && home = .list && atHomeL lax false .other bs
  | .dlistItem _ _ bs _ _ => !bare && home = .dlist && atHomeL lax false .other bs
  | .parent .table _ _ _ _ m _ => lax || (match m with
    | some m => !m.options.contains b!"header"
    | none => true)
  | .parent n _ _ bs _ _ _ => atHomeL lax (n = .admonition) .other bs
  | _ => true
/-- The same for a list of blocks. -/
def atHomeL (lax bare : Bool) (home : Home) : List Block → Bool
  | [] => true
  | b :: bs => atHome lax bare home b && atHomeL lax bare home bs
end

/-! ## Tables that can be written -/

/-- Decimal digits that are not all zero. -/
def positive (c : Str) : Bool := c.all (fun b => c!"0" ≤ b && b ≤ c!"9") && c.any (· ≠ c!"0")

/-- The value of decimal digits. -/
def decimal (c : Str) : Nat := c.foldl (fun n b => n * 10 + (b.toNat - 48)) 0

mutual
/-- Every table has a number of columns, which is positive if there are two or more cells; a table with a header has at least
one row of cells. -/
def gridded : Block → Bool
  | .section _ _ _ bs _ => griddedL bs
  | .list _ bs _ _ => griddedL bs
  | .dlist bs _ _ => griddedL bs
  | .listItem _ _ bs _ _ => griddedL bs
  | .dlistItem _ _ bs _ _ => griddedL bs
  | .parent .table _ _ cells _ m _ =>
    match m with
    | some m =>
      match m.attributes.get? b!"cols" with
      | some c =>
        if positive c then !m.options.contains b!"header" || decimal c ≤ cells.length else cells.length ≤ 1
      | none => false
    | none => false
  | .parent _ _ _ bs _ _ _ => griddedL bs
  | _ => true
/-- The same for a list of blocks. -/
def griddedL : List Block → Bool
  | [] => true
  | b :: bs => gridded b && griddedL bs
end

end Adoc.Markup
