import Verif.Spec.Origin
/-!
# How blocks are delimited (used in C96)

The form and the delimiter that go with the name of a block. Nothing here refers to the scanner or the parser.
-/
namespace Adoc.Shape

/-- The delimiters of verbatim blocks and verses. A comment that is never closed is left as a listing. -/
def leafDelimiters : LeafName → List Str
  | .paragraph => []
  | .listing => [b!"----", b!"////"]
  | .literal => [b!"...."]
  | .pass => [b!"++++"]
  | .verse => [b!"____"]

/-- The word of an admonition and the letter with which its line in brackets begins. -/
def admonitionLabel : ParentVariant → Str × UInt8
  | .note => (b!"NOTE: ", c!"N")
  | .tip => (b!"TIP: ", c!"T")
  | .important => (b!"IMPORTANT: ", c!"I")
  | .caution => (b!"CAUTION: ", c!"C")
  | .warning => (b!"WARNING: ", c!"W")

/-- The delimiters of blocks that contain blocks. Admonitions have a kind, and they alone have one; a quotation that is
written as a paragraph has no delimiter. -/
def BoxDelimiter : ParentName → Option ParentVariant → Str → Prop
  | .admonition, some v, d => d = (admonitionLabel v).1 ∨ ∃ r, d = c!"[" :: (admonitionLabel v).2 :: r
  | .example_, none, d => d = b!"===="
  | .sidebar, none, d => d = b!"****"
  | .open_, none, d => d = b!"--"
  | .quote, none, d => d = b!"____" ∨ d = []
  | .table, none, d => d = b!"|==="
  | _, _, _ => False

/-- A paragraph has some text and no delimiter, other leaves and boxes have the delimiters of their names, and the file of
an image is found. -/
def Shaped (found : Str → Prop) : Block → Prop
  | .leaf .paragraph f d is _ _ => f = .paragraph ∧ d = none ∧ is ≠ []
  | .leaf n f d _ _ _ => f = .delimited ∧ ∃ x ∈ leafDelimiters n, d = some x
  | .parent n v d _ _ _ _ => BoxDelimiter n v d
  | .image t _ _ _ => found t
  | _ => True

end Adoc.Shape
