import Verif.Model.Asg
/-!
# The JSON output (`#[derive(Serialize)]` in `src/graph`, `src/bin/asciidocr/main.rs:51-54`)

The derived `Serialize` implementations write the fields in the order of the structs; `skip` fields are left out, fields
with `skip_serializing_if` are left out if the condition holds, `rename_all = "lowercase"` gives the names of variants, and
`untagged` enums are written as their contents. A `HashMap` is written in the order in which it is iterated, which is
different in every run of the program: the order is the parameter `ord`.

`serde_json::to_string_pretty` is modelled by `Json.pretty` after its documentation: two blanks per level, one member or
element per line, `[]` and `{}` if there are none, and the escapes of strings.

Simplification: the number that `deconstruct_footnote` puts into a reference (`inlines.rs:456-468`) is written with type
`inline`, in the model every literal has type `string`. The program writes JSON before it extracts footnotes, so its output
has no such literal.
-/
namespace Adoc

/-- A JSON value, of the kinds that occur in the output. -/
inductive Json where
  | num (n : Nat)
  | str (s : Str)
  | arr (elems : List Json)
  | obj (members : List (Str × Json))
deriving Repr

namespace Json

/-- The members of a struct: those that are not skipped. -/
def fields (fs : List (Str × Option Json)) : Json :=
  .obj (fs.filterMap fun f => f.2.map fun v => (f.1, v))

/-- `skip_serializing_if = "Vec::is_empty"`. -/
def unlessEmpty (l : List Json) : Option Json := if l.isEmpty then none else some (.arr l)

/-- A list of strings. -/
def strs (l : List Str) : Json := .arr (l.map .str)

/-- `nodes.rs:78-84`, `Location`. -/
def ofLocation (l : Location) : Json := fields [
  (b!"line", some (.num l.line)),
  (b!"col", some (.num l.col)),
  (b!"file", unlessEmpty (l.file.map .str))]

/-- A list of locations. -/
def ofLocations (l : List Location) : Json := .arr (l.map ofLocation)

/-- A `HashMap<String, String>`, in the order of its iteration. -/
def ofMap (ord : SMap Str → SMap Str) (m : SMap Str) : Json := .obj ((ord m).map fun kv => (kv.1, .str kv.2))

/-- `metadata.rs:36-47`, `ElementMetadata`. -/
def ofMeta (ord : SMap Str → SMap Str) (m : Meta) : Json := fields [
  (b!"attributes", some (ofMap ord m.attributes)),
  (b!"options", some (strs m.options)),
  (b!"roles", some (strs m.roles)),
  (b!"location", some (ofLocations m.loc))]

/-- `inlines.rs:493-503`. -/
def spanVariant : SpanVariant → Str
  | .strong => b!"strong"
  | .emphasis => b!"emphasis"
  | .code => b!"code"
  | .mark => b!"mark"
  | .superscript => b!"superscript"
  | .subscript => b!"subscript"
  | .footnote => b!"footnote"

/-- `inlines.rs:505-510`. -/
def spanForm : SpanForm → Str
  | .constrained => b!"constrained"
  | .unconstrained => b!"unconstrained"

/-- `inlines.rs:626-632`. -/
def refVariant : RefVariant → Str
  | .link => b!"link"
  | .xref => b!"xref"
  | .image => b!"image"

/-- `inlines.rs:729-735`. -/
def litName : LitName → Str
  | .text => b!"text"
  | .charref => b!"charref"

mutual
/-- `inlines.rs:17-25` (untagged), `260-274` spans, `512-523` references, `634-642` literals, `737-743` breaks. -/
def ofInline (ord : SMap Str → SMap Str) : Inline → Json
  | .span v f is m l _ => fields [
      (b!"name", some (.str b!"span")),
      (b!"type", some (.str b!"inline")),
      (b!"variant", some (.str (spanVariant v))),
      (b!"form", some (.str (spanForm f))),
      (b!"inlines", some (.arr (ofInlines ord is))),
      (b!"metadata", m.map (ofMeta ord)),
      (b!"location", some (ofLocations l))]
  | .ref v t is m l => fields [
      (b!"name", some (.str b!"ref")),
      (b!"type", some (.str b!"inline")),
      (b!"variant", some (.str (refVariant v))),
      (b!"target", some (.str t)),
      (b!"inlines", some (.arr (ofInlines ord is))),
      (b!"metadata", m.map (ofMeta ord)),
      (b!"location", some (ofLocations l))]
  | .lit n v l => fields [
      (b!"name", some (.str (litName n))),
      (b!"type", some (.str b!"string")),
      (b!"value", some (.str v)),
      (b!"location", some (ofLocations l))]
  | .brk l => fields [
      (b!"name", some (.str b!"linebreak")),
      (b!"type", some (.str b!"inline")),
      (b!"location", some (ofLocations l))]
/-- Inlines one after the other. -/
def ofInlines (ord : SMap Str → SMap Str) : List Inline → List Json
  | [] => []
  | x :: xs => ofInline ord x :: ofInlines ord xs
end

/-- `lists.rs:56-62`. -/
def listVariant : ListVariant → Str
  | .ordered => b!"ordered"
  | .unordered => b!"unordered"

/-- `lists.rs:33-38`, the marker of a list. -/
def listMarker : ListVariant → Str
  | .ordered => b!"."
  | .unordered => b!"*"

/-- `blocks.rs:881-886`. -/
def breakVariant : BreakVariant → Str
  | .page => b!"page"
  | .thematic => b!"thematic"

/-- `blocks.rs:978-988`. -/
def leafName : LeafName → Str
  | .listing => b!"listing"
  | .literal => b!"literal"
  | .paragraph => b!"paragraph"
  | .pass => b!"pass"
  | .verse => b!"verse"

/-- `blocks.rs:989-1001`: skipped for paragraphs. -/
def leafForm : LeafForm → Option Json
  | .delimited => some (.str b!"delimited")
  | .paragraph => none

/-- `blocks.rs:1117-1129`. -/
def parentName : ParentName → Str
  | .admonition => b!"admonition"
  | .example_ => b!"example"
  | .sidebar => b!"sidebar"
  | .open_ => b!"open"
  | .quote => b!"quote"
  | .table => b!"table"
  | .footnoteContainer => b!"footnotecontainer"

/-- `blocks.rs:1131-1139`. -/
def parentVariant : ParentVariant → Str
  | .caution => b!"caution"
  | .important => b!"important"
  | .note => b!"note"
  | .tip => b!"tip"
  | .warning => b!"warning"

mutual
/-- `blocks.rs:15-39` (untagged): `802-818` sections, `866-873` breaks, `899-912` macros, `962-976` leaf blocks,
`1086-1102` parent blocks, `1269-1277` table cells (whose `node_type` is not renamed); `lists.rs:12-23` lists, `64-77`
items, `148-159` description lists, `183-198` their items. -/
def ofBlock (ord : SMap Str → SMap Str) : Block → Json
  | .section t m v bs l => fields [
      (b!"name", some (.str b!"section")),
      (b!"type", some (.str b!"block")),
      (b!"title", some (.arr (ofInlines ord t))),
      (b!"metadata", m.map (ofMeta ord)),
      (b!"level", some (.num v)),
      (b!"blocks", some (.arr (ofBlocks ord bs))),
      (b!"location", some (ofLocations l))]
  | .list v bs m l => fields [
      (b!"name", some (.str b!"list")),
      (b!"type", some (.str b!"block")),
      (b!"marker", some (.str (listMarker v))),
      (b!"variant", some (.str (listVariant v))),
      (b!"items", some (.arr (ofBlocks ord bs))),
      (b!"metadata", m.map (ofMeta ord)),
      (b!"location", some (ofLocations l))]
  | .listItem k p bs m l => fields [
      (b!"name", some (.str b!"listItem")),
      (b!"type", some (.str b!"block")),
      (b!"marker", some (.str k)),
      (b!"principal", some (.arr (ofInlines ord p))),
      (b!"blocks", unlessEmpty (ofBlocks ord bs)),
      (b!"metadata", m.map (ofMeta ord)),
      (b!"location", some (ofLocations l))]
  | .dlist bs m l => fields [
      (b!"name", some (.str b!"dlist")),
      (b!"type", some (.str b!"block")),
      (b!"marker", some (.str b!"::")),
      (b!"items", some (.arr (ofBlocks ord bs))),
      (b!"metadata", m.map (ofMeta ord)),
      (b!"location", some (ofLocations l))]
  | .dlistItem t p bs m l => fields [
      (b!"name", some (.str b!"dlistItem")),
      (b!"type", some (.str b!"block")),
      (b!"marker", some (.str b!"::")),
      (b!"terms", some (.arr (ofInlines ord t))),
      (b!"principal", unlessEmpty (ofInlines ord p)),
      (b!"blocks", unlessEmpty (ofBlocks ord bs)),
      (b!"metadata", m.map (ofMeta ord)),
      (b!"location", some (ofLocations l))]
  | .brk v l => fields [
      (b!"name", some (.str b!"break")),
      (b!"type", some (.str b!"block")),
      (b!"variant", some (.str (breakVariant v))),
      (b!"location", some (ofLocations l))]
  | .image t c m l => fields [
      (b!"name", some (.str b!"image")),
      (b!"type", some (.str b!"block")),
      (b!"form", some (.str b!"macro")),
      (b!"target", some (.str t)),
      (b!"caption", unlessEmpty (ofInlines ord c)),
      (b!"metadata", m.map (ofMeta ord)),
      (b!"location", some (ofLocations l))]
  | .leaf n f d is m l => fields [
      (b!"name", some (.str (leafName n))),
      (b!"type", some (.str b!"block")),
      (b!"form", leafForm f),
      (b!"delimiter", d.map .str),
      (b!"inlines", some (.arr (ofInlines ord is))),
      (b!"metadata", m.map (ofMeta ord)),
      (b!"location", some (ofLocations l))]
  | .parent n v d bs t m l => fields [
      (b!"name", some (.str (parentName n))),
      (b!"variant", v.map fun v => .str (parentVariant v)),
      (b!"type", some (.str b!"block")),
      (b!"form", some (.str b!"delimited")),
      (b!"delimiter", if d.isEmpty then none else some (.str d)),
      (b!"blocks", some (.arr (ofBlocks ord bs))),
      (b!"title", unlessEmpty (ofInlines ord t)),
      (b!"metadata", m.map (ofMeta ord)),
      (b!"location", some (ofLocations l))]
  | .tableCell is m l => fields [
      (b!"name", some (.str b!"tableCell")),
      (b!"node_type", some (.str b!"block")),
      (b!"inlines", some (.arr (ofInlines ord is))),
      (b!"metadata", m.map (ofMeta ord)),
      (b!"location", some (ofLocations l))]
/-- Blocks one after the other. -/
def ofBlocks (ord : SMap Str → SMap Str) : List Block → List Json
  | [] => []
  | b :: bs => ofBlock ord b :: ofBlocks ord bs
end

/-- `nodes.rs:14-21`, `Header`; `authors` is never set. -/
def ofHeader (ord : SMap Str → SMap Str) (h : Header) : Json := fields [
  (b!"title", some (.arr (ofInlines ord h.title))),
  (b!"location", some (ofLocations h.loc))]

/-- `asg.rs:17-40`, `Asg`. -/
def ofAsg (ord : SMap Str → SMap Str) (g : Asg) : Json := fields [
  (b!"name", some (.str b!"document")),
  (b!"type", some (.str b!"block")),
  (b!"attributes", g.attributes.map (ofMap ord)),
  (b!"header", g.header.map (ofHeader ord)),
  (b!"blocks", some (.arr (ofBlocks ord g.blocks))),
  (b!"location", some (ofLocations g.loc))]

/-! ## Text (`serde_json`) -/

/-- A hexadecimal digit. -/
def hexDigit (n : UInt8) : UInt8 := if n < 10 then 48 + n else 87 + n

/-- The escape of a byte in a string. -/
def escape (b : UInt8) : Str :=
  if b = 0x22 then b!"\\\""
  else if b = 0x5C then b!"\\\\"
  else if b = 0x08 then b!"\\b"
  else if b = 0x0C then b!"\\f"
  else if b = 0x0A then b!"\\n"
  else if b = 0x0D then b!"\\r"
  else if b = 0x09 then b!"\\t"
  else if b < 0x20 then b!"\\u00" ++ [hexDigit (b / 16), hexDigit (b % 16)]
  else [b]

/-- A string in quotes. -/
def quoted (s : Str) : Str := b!"\"" ++ s.flatMap escape ++ b!"\""

/-- A new line with `n` levels of indentation. -/
def line (n : Nat) : Str := c!"\n" :: List.replicate (2 * n) c!" "

mutual
/-- A value at level `n`. -/
def pretty (n : Nat) : Json → Str
  | .num k => natToStr k
  | .str s => quoted s
  | .arr [] => b!"[]"
  | .arr (x :: xs) => b!"[" ++ line (n + 1) ++ pretty (n + 1) x ++ prettyElems (n + 1) xs ++ line n ++ b!"]"
  | .obj [] => b!"{}"
  | .obj ((k, x) :: xs) => b!"{" ++ line (n + 1) ++ quoted k ++ b!": " ++ pretty (n + 1) x
      ++ prettyMembers (n + 1) xs ++ line n ++ b!"}"
/-- More elements at level `n`. -/
def prettyElems (n : Nat) : List Json → Str
  | [] => []
  | x :: xs => b!"," ++ line n ++ pretty n x ++ prettyElems n xs
/-- More members at level `n`. -/
def prettyMembers (n : Nat) : List (Str × Json) → Str
  | [] => []
  | (k, x) :: xs => b!"," ++ line n ++ quoted k ++ b!": " ++ pretty n x ++ prettyMembers n xs
end

end Json

/-- `serde_json::to_string_pretty(&graph)` (`main.rs:52`). -/
def jsonText (ord : SMap Str → SMap Str) (g : Asg) : Str := Json.pretty 0 (Json.ofAsg ord g)

end Adoc
