import Verif.Model.Asg
import Verif.Model.Render
/-!
# The HTML writer (`src/backends/htmls.rs` and `templates/htmlbook/*.tera`)

The templates are interpreted by Tera over the JSON form of the graph (`Context::from_serialize`). The model is a
translation of the templates, one definition per macro, to functions on the graph that return the bytes of the output.
`Props/Tera.lean` proves that the translation agrees with running the texts of the templates with the engine of
`Model/Tera.lean`. References without a directory are to `templates/htmlbook/`.

Tera is not part of the repository. The translation relies on its documented behaviour:
* values are not escaped: escaping is on only for template names that end in `.html`, `.htm` or `.xml`, and the names
  in `htmls.rs:31-37` end in `.tera`;
* `-%}`, `-}}` and `-#}` drop the white space after a tag, `{%-`, `{{-` and `{#-` the white space before it;
* in a condition, a missing variable, an empty string, an empty list and `false` are false;
* `set` outside a loop holds for the rest of the macro, and each macro call has variables of its own;
* `nth` beyond the end gives an empty value; `int` of a text that is no number gives 0;
* a macro sees its arguments and what it sets; the parameter `sees` says whether it also sees the values that are given to
  the engine, which matters for `header` in `tables.html.tera` if the document has a title (`titled`);
* a missing variable outside a condition, `range` with a start beyond the end and `%` by zero are errors, which
  `htmls.rs:27` turns into a panic.

Simplification: `cols | int` accepts only decimal digits here; Tera also accepts signs and decimal fractions.

The JSON form leaves out empty titles of parent blocks, empty captions, empty lists of attached blocks and missing
metadata (the `serde` attributes in `src/graph`); all of these are false in conditions either way.
-/
namespace Adoc.Html

/-- An attribute of an element. -/
def attrOf (m : Option Meta) (key : Str) : Str :=
  match m with
  | some m => (m.attributes.get? key).getD []
  | none => []

/-- The roles of an element. -/
def roles : Option Meta → List Str
  | some m => m.roles
  | none => []

/-- `join(sep=" ")`. -/
def joinSp : List Str → Str
  | [] => []
  | [s] => s
  | s :: ss => s ++ b!" " ++ joinSp ss

/-- ` name="value"`, or nothing if the value is false in a condition. -/
def attr (name value : Str) : Str :=
  if value = [] then [] else b!" " ++ name ++ b!"=\"" ++ value ++ b!"\""

/-- ` class="…"`, or nothing without roles. -/
def classAttr (m : Option Meta) : Str :=
  if roles m = [] then [] else b!" class=\"" ++ joinSp (roles m) ++ b!"\""

/-- `inline.html.tera:6-19`: the tag of a span. -/
def spanTag : SpanVariant → Str
  | .emphasis => b!"em"
  | .mark => b!"span"
  | .superscript => b!"sup"
  | .subscript => b!"sub"
  | .footnote => b!"span"
  | .strong => b!"strong"
  | .code => b!"code"

/-- `inline.html.tera:23-34`: the value of `ref`. -/
def refHref : RefVariant → Str → Str
  | .link, t => t
  | .xref, t => b!"#" ++ t
  | .image, t => t

mutual
/-- `inline.html.tera`, `process_inline`. -/
def inline : Inline → Str
  | .brk _ => b!"<br />"
  | .lit _ v _ => v
  | .span v _ is m _ _ =>
    b!"<" ++ spanTag v ++ classAttr m ++ (if v = .footnote then b!" data-type=\"footnote\"" else []) ++ b!">"
      ++ inlines is ++ b!"</" ++ spanTag v ++ b!">"
  | .ref .image t _ m _ => b!"<img" ++ classAttr m ++ b!" src=\"" ++ t ++ b!"\" />"
  | .ref v t is m _ =>
    b!"<a" ++ classAttr m ++ b!" href=\"" ++ refHref v t ++ b!"\">"
      ++ (match is with
        | [] => refHref v t
        | i :: is => inline i ++ inlines is)
      ++ b!"</a>"
/-- The loops over inlines. -/
def inlines : List Inline → Str
  | [] => []
  | i :: is => inline i ++ inlines is
end

/-- `leafblocks.html.tera:12-25`: the tag of a leaf block; none for a passthrough block. -/
def leafTag : LeafName → Option Str
  | .paragraph => some b!"p"
  | .listing => some b!"pre"
  | .verse => some b!"pre"
  | .literal => some b!"pre"
  | .pass => none

/-- `leafblocks.html.tera`, `process_leaf_block`. -/
def leaf (n : LeafName) (is : List Inline) (m : Option Meta) : Str :=
  match leafTag n with
  | some tag =>
    b!"<" ++ tag ++ classAttr m
      ++ (if n = .listing then attr b!"data-code-language" (attrOf m b!"language") else [])
      ++ (if n = .verse then b!" data-type=\"verse\"" else []) ++ b!">"
      ++ inlines is ++ b!"</" ++ tag ++ b!">"
  | none => inlines is

/-- `block.inlines` of a value in `block.blocks`. -/
def cellInlines : Block → List Inline
  | .tableCell is _ _ => is
  | .leaf _ _ _ is _ _ => is
  | _ => []

/-- `tables.html.tera:34-42`, `process_table_cell`; nothing for an empty value. -/
def cell (tag : Str) (c : Option Block) : Str :=
  b!"<" ++ tag ++ b!">" ++ (match c with
    | some b => inlines (cellInlines b)
    | none => []) ++ b!"</" ++ tag ++ b!">"

/-- `tables.html.tera:22-28`: the loop over the body cells, from index `idx` of `total`. -/
def cellLoop (cols total : Nat) : List Block → Nat → M Str
  | [], _ => .ok []
  | c :: cs, idx =>
    if 0 < idx then
      if cols = 0 then .error (.panic .unwrap)
      else do
        let rest ← cellLoop cols total cs (idx + 1)
        return cell b!"td" (some c)
          ++ (if (idx + 1) % cols = 0 ∧ idx + 1 ≠ total then b!"\n        </tr>\n        <tr>" else [])
          ++ b!"\n        " ++ rest
    else do
      let rest ← cellLoop cols total cs (idx + 1)
      return cell b!"td" (some c) ++ b!"\n        " ++ rest

/-- `cols | int`. -/
def colsInt (s : Str) : Nat := (parseDigits s).getD 0

/-- `tables.html.tera:12-15`: the header cells. -/
def headCells (cells : List Block) : List Nat → Str
  | [] => []
  | i :: is => cell b!"th" cells[i]? ++ b!"\n    " ++ headCells cells is

/-- `tables.html.tera`, `process_table`. The metadata and the attribute are used outside a condition. If the document is
`titled`, the variable `header` that is tested in lines 10 and 29 is the title of the document unless it is set. -/
def table (titled : Bool) (cells : List Block) (m : Option Meta) : M Str :=
  match m with
  | none => .error (.panic .unwrap)
  | some m =>
    match m.attributes.get? b!"cols" with
    | none => .error (.panic .unwrap)
    | some c =>
      let header := m.options.contains b!"header"
      let start := if header then colsInt c else 0
      if cells.length < start then .error (.panic .unwrap)
      else do
        let body ← cellLoop (colsInt c) cells.length (cells.drop start) start
        return b!"<table>"
          ++ (if header || titled then b!"\n    <thead>\n        " ++ headCells cells (List.range start)
              ++ b!"</thead>\n    <tbody>\n        <tr>" else b!"<tr>")
          ++ b!"\n        " ++ body ++ b!"</tr>" ++ (if header || titled then b!"\n    </tbody>" else [])
          ++ b!"\n    </table>"

/-- `block.html.tera:75-79`: the opening tag. -/
def openTag (tag : Str) (skip : Bool) (m : Option Meta) (id dataType : Str) : Str :=
  if skip then [] else b!"<" ++ tag ++ classAttr m ++ attr b!"id" id ++ attr b!"data-type" dataType ++ b!">"

/-- `block.html.tera:123`: the closing tag. -/
def closeTag (tag : Str) (skip : Bool) : Str := if skip then [] else b!"</" ++ tag ++ b!">"

/-- `block.html.tera:80-88`: the title. -/
def heading (level : Str) (title : List Inline) : Str :=
  if title.isEmpty then [] else b!"\n        <h" ++ level ++ b!">" ++ inlines title ++ b!"</h" ++ level ++ b!">\n        "

/-- `block.html.tera:117-122`: attribution and citation. -/
def attribution (m : Option Meta) : Str :=
  if attrOf m b!"attribution" = [] then []
  else b!"<p data-type=\"attribution\">" ++ attrOf m b!"attribution"
    ++ (if attrOf m b!"citation" = [] then [] else b!", " ++ attrOf m b!"citation") ++ b!"</p>"

/-- `block.html.tera:101-104`: the principal text of an item. -/
def principal (is : List Inline) : Str := if is.isEmpty then [] else b!"<p>" ++ inlines is ++ b!"</p>"

/-- `block.html.tera:35-40`: the tag of a list. -/
def listTag : ListVariant → Str
  | .ordered => b!"ol"
  | .unordered => b!"ul"

/-- `block.html.tera:41-74`: the tag of a parent block other than a table. -/
def parentTag : ParentName → Str
  | .admonition => b!"div"
  | .example_ => b!"div"
  | .sidebar => b!"aside"
  | .open_ => b!"div"
  | .quote => b!"blockquote"
  | .table => b!"UNHANDLED"
  | .footnoteContainer => b!"UNHANDLED"

/-- `block.html.tera:55,71`: `data_type`; the variant's name (`blocks.rs:1132`). -/
def parentType : ParentName → Option ParentVariant → Str
  | .admonition, some .caution => b!"caution"
  | .admonition, some .important => b!"important"
  | .admonition, some .note => b!"note"
  | .admonition, some .tip => b!"tip"
  | .admonition, some .warning => b!"warning"
  | .sidebar, _ => b!"sidebar"
  | _, _ => []

/-- `block.html.tera:81-85`: `title_heading_level`. -/
def parentLevel : ParentName → Str
  | .example_ => b!"5"
  | .sidebar => b!"5"
  | _ => b!"1"

mutual
/-- `block.html.tera`, `process_block`. -/
def block (titled skip : Bool) : Block → M Str
  | .leaf n _ _ is m _ => .ok (b!"\n    " ++ leaf n is m)
  | .parent .table _ _ cells _ m _ => table titled cells m
  | .brk .page _ => .ok b!"\n    <div style=\"page-break-after: always;\"></div>\n    "
  | .brk .thematic _ => .ok b!"\n    <hr />"
  | .section t m level bs _ => do
    let children ← blocks titled false bs
    return b!"<section data-type=\"sect" ++ natToStr level ++ b!"\"" ++ classAttr m ++ attr b!"id" (attrOf m b!"id") ++ b!">"
      ++ heading b!"1" t ++ attribution m ++ b!"\n    " ++ children ++ b!"</section>"
  | .list v items m _ => do
    let children ← blocks titled false items
    return openTag (listTag v) skip m [] [] ++ children ++ attribution m ++ closeTag (listTag v) skip
  | .dlist items m _ => do
    let children ← blocks titled false items
    return openTag b!"dl" skip m [] [] ++ children ++ attribution m ++ closeTag b!"dl" skip
  | .listItem _ p bs m _ => do
    let children ← blocks titled false bs
    return openTag b!"li" skip m [] [] ++ principal p ++ children ++ attribution m ++ closeTag b!"li" skip
  | .dlistItem ts p bs m _ => do
    let children ← blocks titled false bs
    return (if ts.isEmpty then [] else b!"\n        <dt>" ++ inlines ts ++ b!"</dt>\n        ")
      ++ openTag b!"dd" skip m [] [] ++ principal p ++ children ++ attribution m ++ closeTag b!"dd" skip
  | .image target caption m _ =>
    .ok (openTag b!"figure" skip m (attrOf m b!"id") []
      ++ b!"\n        <img src=\"" ++ target ++ b!"\"" ++ attr b!"alt" (attrOf m b!"positional_1") ++ b!"/>"
      ++ (if caption.isEmpty then [] else b!"\n        <figcaption>" ++ inlines caption ++ b!"</figcaption>")
      ++ b!"\n    " ++ attribution m ++ closeTag b!"figure" skip)
  | .parent n v _ bs t m _ => do
    let children ← blocks titled (n = .admonition) bs
    return openTag (parentTag n) skip m [] (parentType n v) ++ heading (parentLevel n) t ++ children ++ attribution m
      ++ closeTag (parentTag n) skip
  | .tableCell is m _ =>
    .ok (openTag b!"UNHANDLED" skip m [] [] ++ inlines is ++ attribution m ++ closeTag b!"UNHANDLED" skip)
/-- The loops over blocks. -/
def blocks (titled skip : Bool) : List Block → M Str
  | [] => .ok []
  | b :: bs => do
    let x ← block titled skip b
    let xs ← blocks titled skip bs
    return x ++ xs
end

/-- `htmlbook.html.tera:16-18`: the loop over the blocks of the document. -/
def body (titled : Bool) : List Block → M Str
  | [] => .ok []
  | b :: bs => do
    let x ← block titled false b
    let xs ← body titled bs
    return b!"\n    " ++ x ++ xs

/-- `htmlbook.html.tera:9-13`: the title. -/
def docTitle : Option Header → Str
  | some h => inlines h.title
  | none => []

/-- `htmls.rs:14-28`, `render_htmlbook`, and `htmlbook.html.tera`. -/
def render (sees : Bool) (g : Asg) : M Str := do
  let x ← body (sees && g.header.isSome) g.blocks
  return b!"\n\n<!DOCTYPE html>\n<html lang=\"en\">\n\n<head>\n    <meta charset=\"UTF-8\">\n    <meta name=\"viewport\" content=\"width=device-width, initial-scale=1\">\n    <title>"
    ++ docTitle g.header ++ b!"</title>\n</head>\n\n<body>" ++ x ++ b!"\n</body>\n\n</html>\n"

end Adoc.Html
