import Verif.Spec.Json
/-!
# Reading a document from JSON

A reader that knows the names of members and kinds as the schema of the graph gives them, and looks members up by name, in
whatever order they come. It knows nothing of how the values are made.
-/
namespace Adoc.Spec.JsonRead
open Adoc

/-- The members of an object. -/
def members : Json → Option (List (Str × Json))
  | .obj ms => some ms
  | _ => none

/-- A text. -/
def asText : Json → Option Str
  | .str s => some s
  | _ => none

/-- A number. -/
def asNumber : Json → Option Nat
  | .num n => some n
  | _ => none

/-- The elements of a list. -/
def asList : Json → Option (List Json)
  | .arr xs => some xs
  | _ => none

/-- All elements of a list, read one by one. -/
def each {α : Type} (f : Json → Option α) : List Json → Option (List α)
  | [] => some []
  | x :: xs => do
    let y ← f x
    let ys ← each f xs
    return y :: ys

/-- A member that has to be there. -/
def need {α : Type} (f : Json → Option α) (k : Str) (ms : List (Str × Json)) : Option α :=
  match member k ms with
  | some j => f j
  | none => none

/-- A member that may be missing. -/
def maybe {α : Type} (f : Json → Option α) (k : Str) (ms : List (Str × Json)) : Option (Option α) :=
  match member k ms with
  | some j => (f j).map some
  | none => some none

/-- A list. -/
def listOf {α : Type} (f : Json → Option α) (j : Json) : Option (List α) := (asList j).bind (each f)

/-- A list that is empty if it is missing. -/
def maybeList {α : Type} (f : Json → Option α) (k : Str) (ms : List (Str × Json)) : Option (List α) :=
  (maybe (listOf f) k ms).map fun l => l.getD []

/-- One of some names. -/
def named {α : Type} (names : List (Str × α)) (j : Json) : Option α := (asText j).bind fun s => names.lookup s

/-- A position. -/
def readLocation (j : Json) : Option Location := do
  let ms ← members j
  let line ← need asNumber b!"line" ms
  let col ← need asNumber b!"col" ms
  let file ← maybeList asText b!"file" ms
  return ⟨line, col, file⟩

/-- Texts with names. -/
def readEntries : List (Str × Json) → Option (SMap Str)
  | [] => some []
  | (k, j) :: ms => do
    let v ← asText j
    let rest ← readEntries ms
    return (k, v) :: rest

/-- Texts with names. -/
def readMap (j : Json) : Option (SMap Str) := (members j).bind readEntries

/-- Metadata. -/
def readMeta (j : Json) : Option Meta := do
  let ms ← members j
  let attributes ← need readMap b!"attributes" ms
  let options ← need (listOf asText) b!"options" ms
  let roles ← need (listOf asText) b!"roles" ms
  let loc ← need (listOf readLocation) b!"location" ms
  return { attributes, options, roles, loc }

/-- The kinds of spans. -/
def spanVariants : List (Str × SpanVariant) :=
  [(b!"strong", .strong), (b!"emphasis", .emphasis), (b!"code", .code), (b!"mark", .mark), (b!"superscript", .superscript),
   (b!"subscript", .subscript), (b!"footnote", .footnote)]

/-- The forms of spans. -/
def spanForms : List (Str × SpanForm) := [(b!"constrained", .constrained), (b!"unconstrained", .unconstrained)]

/-- The kinds of references. -/
def refVariants : List (Str × RefVariant) := [(b!"link", .link), (b!"xref", .xref), (b!"image", .image)]

/-- An inline with at most `fuel` levels. -/
def readInline : Nat → Json → Option Inline
  | 0, _ => none
  | n + 1, j => do
    let ms ← members j
    let name ← need asText b!"name" ms
    let type ← need asText b!"type" ms
    let loc ← need (listOf readLocation) b!"location" ms
    if name = b!"text" ∧ type = b!"string" then return .lit .text (← need asText b!"value" ms) loc
    else if name = b!"charref" ∧ type = b!"string" then return .lit .charref (← need asText b!"value" ms) loc
    else if name = b!"linebreak" ∧ type = b!"inline" then return .brk loc
    else if name = b!"span" ∧ type = b!"inline" then
      let v ← need (named spanVariants) b!"variant" ms
      let f ← need (named spanForms) b!"form" ms
      let is ← need (listOf (readInline n)) b!"inlines" ms
      let m ← maybe readMeta b!"metadata" ms
      return .span v f is m loc false
    else if name = b!"ref" ∧ type = b!"inline" then
      let v ← need (named refVariants) b!"variant" ms
      let t ← need asText b!"target" ms
      let is ← need (listOf (readInline n)) b!"inlines" ms
      let m ← maybe readMeta b!"metadata" ms
      return .ref v t is m loc
    else none

/-- The kinds of lists. -/
def listVariants : List (Str × ListVariant) := [(b!"ordered", .ordered), (b!"unordered", .unordered)]

/-- The marker of a list. -/
def listMark : ListVariant → Str
  | .ordered => b!"."
  | .unordered => b!"*"

/-- The kinds of breaks. -/
def breakVariants : List (Str × BreakVariant) := [(b!"page", .page), (b!"thematic", .thematic)]

/-- The names of blocks with text. -/
def leafNames : List (Str × LeafName) :=
  [(b!"listing", .listing), (b!"literal", .literal), (b!"paragraph", .paragraph), (b!"pass", .pass), (b!"verse", .verse)]

/-- The names of blocks that contain blocks. -/
def parentNames : List (Str × ParentName) :=
  [(b!"admonition", .admonition), (b!"example", .example_), (b!"sidebar", .sidebar), (b!"open", .open_), (b!"quote", .quote),
   (b!"table", .table), (b!"footnotecontainer", .footnoteContainer)]

/-- The kinds of admonitions. -/
def admonitions : List (Str × ParentVariant) :=
  [(b!"caution", .caution), (b!"important", .important), (b!"note", .note), (b!"tip", .tip), (b!"warning", .warning)]

/-- The form of a block with text. -/
def readForm : Option Str → Option LeafForm
  | none => some .paragraph
  | some s => if s = b!"delimited" then some .delimited else none

/-- What is read of a block: its members, when the metadata and locations have been read. -/
abbrev Reader := List (Str × Json) → Option Meta → List Location → Option Block

section
variable (ri : Json → Option Inline) (rb : Json → Option Block)

/-- A section. -/
def readSection : Reader := fun ms m loc => do
  let t ← need (listOf ri) b!"title" ms
  let v ← need asNumber b!"level" ms
  let bs ← need (listOf rb) b!"blocks" ms
  return .section t m v bs loc

/-- A list. -/
def readList : Reader := fun ms m loc => do
  let v ← need (named listVariants) b!"variant" ms
  let k ← need asText b!"marker" ms
  let bs ← need (listOf rb) b!"items" ms
  if k = listMark v then return .list v bs m loc else none

/-- An item of a list. -/
def readItem : Reader := fun ms m loc => do
  let k ← need asText b!"marker" ms
  let p ← need (listOf ri) b!"principal" ms
  let bs ← maybeList rb b!"blocks" ms
  return .listItem k p bs m loc

/-- A description list. -/
def readDlist : Reader := fun ms m loc => do
  let k ← need asText b!"marker" ms
  let bs ← need (listOf rb) b!"items" ms
  if k = b!"::" then return .dlist bs m loc else none

/-- An entry of a description list. -/
def readEntry : Reader := fun ms m loc => do
  let k ← need asText b!"marker" ms
  let t ← need (listOf ri) b!"terms" ms
  let p ← maybeList ri b!"principal" ms
  let bs ← maybeList rb b!"blocks" ms
  if k = b!"::" then return .dlistItem t p bs m loc else none

/-- A break. -/
def readBreak : Reader := fun ms _ loc => do
  return .brk (← need (named breakVariants) b!"variant" ms) loc

/-- An image. -/
def readImage : Reader := fun ms m loc => do
  let f ← need asText b!"form" ms
  let t ← need asText b!"target" ms
  let c ← maybeList ri b!"caption" ms
  if f = b!"macro" then return .image t c m loc else none

/-- A cell of a table. -/
def readCell : Reader := fun ms m loc => do
  return .tableCell (← need (listOf ri) b!"inlines" ms) m loc

/-- A block with text. -/
def readLeaf (x : LeafName) : Reader := fun ms m loc => do
  let f ← (maybe asText b!"form" ms).bind readForm
  let d ← maybe asText b!"delimiter" ms
  let is ← need (listOf ri) b!"inlines" ms
  return .leaf x f d is m loc

/-- A block that contains blocks. -/
def readParent (x : ParentName) : Reader := fun ms m loc => do
  let v ← maybe (named admonitions) b!"variant" ms
  let f ← need asText b!"form" ms
  let d ← maybe asText b!"delimiter" ms
  let bs ← need (listOf rb) b!"blocks" ms
  let t ← maybeList ri b!"title" ms
  if f = b!"delimited" then return .parent x v (d.getD []) bs t m loc else none

/-- Blocks by their names. -/
def readers : List (Str × Reader) :=
  [(b!"section", readSection ri rb), (b!"list", readList rb), (b!"listItem", readItem ri rb), (b!"dlist", readDlist rb),
   (b!"dlistItem", readEntry ri rb), (b!"break", readBreak), (b!"image", readImage ri), (b!"tableCell", readCell ri)]
  ++ leafNames.map (fun x => (x.1, readLeaf ri x.2)) ++ parentNames.map (fun x => (x.1, readParent ri rb x.2))

end

/-- A block with at most `fuel` levels. Table cells have no type, but a `node_type`. -/
def readBlock : Nat → Json → Option Block
  | 0, _ => none
  | n + 1, j => do
    let ms ← members j
    let name ← need asText b!"name" ms
    let type ← need asText (if name = b!"tableCell" then b!"node_type" else b!"type") ms
    let loc ← need (listOf readLocation) b!"location" ms
    let m ← maybe readMeta b!"metadata" ms
    let read ← (readers (readInline n) (readBlock n)).lookup name
    if type = b!"block" then read ms m loc else none

mutual
/-- The number of levels of a value. -/
def depth : Json → Nat
  | .num _ => 0
  | .str _ => 0
  | .arr xs => depthL xs + 1
  | .obj ms => depthM ms + 1
/-- The number of levels of some values. -/
def depthL : List Json → Nat
  | [] => 0
  | x :: xs => max (depth x) (depthL xs)
/-- The number of levels of some members. -/
def depthM : List (Str × Json) → Nat
  | [] => 0
  | (_, x) :: ms => max (depth x) (depthM ms)
end

/-- The title of a document. -/
def readHeader (n : Nat) (j : Json) : Option Header := do
  let ms ← members j
  let title ← need (listOf (readInline n)) b!"title" ms
  let loc ← need (listOf readLocation) b!"location" ms
  return { title, loc }

/-- A document. -/
def readDocument (j : Json) : Option Asg := do
  let ms ← members j
  let name ← need asText b!"name" ms
  let type ← need asText b!"type" ms
  let attributes ← maybe readMap b!"attributes" ms
  let header ← maybe (readHeader (depth j)) b!"header" ms
  let blocks ← need (listOf (readBlock (depth j))) b!"blocks" ms
  let loc ← need (listOf readLocation) b!"location" ms
  if name = b!"document" ∧ type = b!"block" then
    return { attributes, header, documentId := [], idHash := [], blocks, loc }
  else none

/-- The document in a JSON text. -/
def document (text : Str) : Option Asg := (JsonText.readText text).bind readDocument

end Adoc.Spec.JsonRead

namespace Adoc.Spec
open Adoc

/-- A block with the headings around it, as the output shows it. -/
def shownEntry (ord : SMap Str → SMap Str) (e : List (Nat × List Inline) × Block) : List (Nat × List Inline) × Block :=
  (e.1.map fun t => (t.1, shownInlines ord t.2), shownBlock ord e.2)

end Adoc.Spec
