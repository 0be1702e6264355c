import Verif.Model.Block
/-!
# A short notation for graphs, used in statements about single documents
-/
namespace Adoc.Spec

/-- The name of a span. -/
def spanWord : SpanVariant → Str
  | .strong => b!"strong"
  | .emphasis => b!"emphasis"
  | .code => b!"code"
  | .mark => b!"mark"
  | .superscript => b!"superscript"
  | .subscript => b!"subscript"
  | .footnote => b!"footnote"

mutual
/-- An inline: text as it is, a span or reference as its kind with the contents in parentheses. -/
def sketch : Inline → Str
  | .lit _ v _ => v
  | .span v _ is _ _ o => spanWord v ++ (if o then b!"!" else []) ++ b!"(" ++ sketchL is ++ b!")"
  | .ref .xref t is _ _ => b!"xref " ++ t ++ b!"(" ++ sketchL is ++ b!")"
  | .ref _ t is _ _ => b!"link " ++ t ++ b!"(" ++ sketchL is ++ b!")"
  | .brk _ => b!"break"
/-- Inlines, separated by vertical bars. -/
def sketchL : List Inline → Str
  | [] => []
  | [x] => sketch x
  | x :: xs => sketch x ++ b!"|" ++ sketchL xs
end

/-- The name of a block with blocks inside. -/
def parentWord : ParentName → Str
  | .admonition => b!"admonition"
  | .example_ => b!"example"
  | .sidebar => b!"sidebar"
  | .open_ => b!"open"
  | .quote => b!"quote"
  | .table => b!"table"
  | .footnoteContainer => b!"footnotes"

mutual
/-- A block: its kind, the inlines in parentheses and the blocks in brackets. -/
def sketchB : Block → Str
  | .section t _ _ bs _ => b!"section(" ++ sketchL t ++ b!")[" ++ sketchBs bs ++ b!"]"
  | .list _ bs _ _ => b!"list[" ++ sketchBs bs ++ b!"]"
  | .listItem _ p bs _ _ => b!"item(" ++ sketchL p ++ b!")[" ++ sketchBs bs ++ b!"]"
  | .dlist bs _ _ => b!"terms[" ++ sketchBs bs ++ b!"]"
  | .dlistItem t p bs _ _ => b!"term(" ++ sketchL t ++ b!")(" ++ sketchL p ++ b!")[" ++ sketchBs bs ++ b!"]"
  | .brk _ _ => b!"break"
  | .image t _ _ _ => b!"image " ++ t
  | .leaf .paragraph _ _ is _ _ => b!"(" ++ sketchL is ++ b!")"
  | .leaf _ _ _ is _ _ => b!"leaf(" ++ sketchL is ++ b!")"
  | .parent n _ _ bs _ _ _ => parentWord n ++ b!"[" ++ sketchBs bs ++ b!"]"
  | .tableCell is _ _ => b!"cell(" ++ sketchL is ++ b!")"
/-- Blocks, separated by blanks. -/
def sketchBs : List Block → Str
  | [] => []
  | [x] => sketchB x
  | x :: xs => sketchB x ++ b!" " ++ sketchBs xs
end

end Adoc.Spec
