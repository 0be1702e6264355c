import Verif.Spec.RichDoc
/-!
# References to attributes, and typographic quotes

A reference to an attribute is written where its value is meant, and typographic quotes are written with ASCII characters.
A text written like this says the same as the text with the values and the quotes in their places. Nothing here refers to
how the code reads them.
-/
namespace Adoc.Spec

/-- How typographic quotes are written, and what they are. -/
def quoteSigns : List (TokenType × Str × Str) :=
  [(.openDoubleQuote, b!"\"`", b!"“"), (.closeDoubleQuote, b!"`\"", b!"”"),
   (.openSingleQuote, b!"'`", b!"‘"), (.closeSingleQuote, b!"`'", b!"’")]

/-- A sign is read as a text, where the attributes are `env`: a reference to an attribute with a value is read as the
value, and one to an attribute that is not defined as it is written. -/
inductive ReadAs (env : SMap Str) : Sign → Str → Prop where
  | text (l : Str) (h : l ≠ []) : ReadAs env (.text l) l
  | value (name v : Str) (h : env.get? name = some v) (hv : v ≠ []) :
      ReadAs env (.mark .attributeReference (b!"{" ++ name ++ b!"}")) v
  | unknown (name : Str) (h : env.get? name = none) :
      ReadAs env (.mark .attributeReference (b!"{" ++ name ++ b!"}")) (b!"{" ++ name ++ b!"}")
  | quote (ty : TokenType) (l v : Str) (h : (ty, l, v) ∈ quoteSigns) : ReadAs env (.mark ty l) v

/-- Signs are read as a text, one after the other. -/
inductive ReadsAs (env : SMap Str) : List Sign → Str → Prop where
  | nil : ReadsAs env [] []
  | cons (s : Sign) (ss : List Sign) (v vs : Str) (h : ReadAs env s v) (hs : ReadsAs env ss vs) : ReadsAs env (s :: ss) (v ++ vs)

/-- Where a sign stands: in text, in the text of a link, or between the marks of verbatim text. -/
inductive Place where
  | text
  | link
  | verbatim (ty : TokenType)
deriving DecidableEq, Repr

/-- The marks around verbatim text. -/
def verbatimMarks : List TokenType := [.sourceBlock, .literalBlock, .passthroughBlock, .commentBlock, .passthroughInlineMacro]

/-- The place after a mark. -/
def Place.next : Place → TokenType → Place
  | .text, ty => if ty ∈ verbatimMarks then .verbatim ty else if ty = .linkMacro ∨ ty = .hyperlink then .link else .text
  | .link, ty => if ty = .inlineMacroClose then .text else .link
  | .verbatim d, ty => if ty = d ∧ d ≠ .passthroughInlineMacro ∨ ty = .inlineMacroClose ∧ d = .passthroughInlineMacro then .text
      else .verbatim d

/-- Marks that may stand at a place: no definitions of attributes, document titles, table cells, inclusions or verses. -/
def Place.allows : Place → TokenType → Str → Prop
  | .verbatim _, ty, _ => ty ≠ .include
  | pl, ty, l => ty ∉ [.attribute, .heading1, .tableCell, .include, .eof] ∧ (ty = .elementAttributes → ¬b!"verse" <+: l.drop 1)
      ∧ (pl = .link → ty ∉ verbatimMarks)

/-- The first signs say what the second signs say, with references and quotes in the places of texts. -/
inductive Filled (env : SMap Str) : Place → List Sign → List Sign → Prop where
  | nil (pl : Place) : Filled env pl [] []
  | mark (pl : Place) (ty : TokenType) (l : Str) (a b : List Sign) (h : pl.allows ty l) (hs : Filled env (pl.next ty) a b) :
      Filled env pl (.mark ty l :: a) (.mark ty l :: b)
  | text (pl : Place) (l : Str) (a b : List Sign) (hs : Filled env pl a b) : Filled env pl (.text l :: a) (.text l :: b)
  | fill (cs : List Sign) (v : Str) (a b : List Sign) (h : ReadsAs env cs v) (hv : v ≠ []) (hs : Filled env .text a b) :
      Filled env .text (cs ++ a) (.text v :: b)

end Adoc.Spec
