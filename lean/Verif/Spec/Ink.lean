import Verif.Spec.Word
/-!
# What the text of a Word document should look like

The specification side of the formatting of a Word document: the characters of each paragraph, each with the spans around
it, and the line breaks; what a list of spans asks a text to look like; and the sequence of paragraphs, tables and pictures
that a graph asks for, each with its inlines.
-/
namespace Adoc.Ink

open Docx Word
open Render (Run RunProps)

/-- A byte of text with something that is said about it, or a line break. -/
inductive Mark (α : Type) where
  | char (b : UInt8) (x : α)
  | brk
deriving DecidableEq, Repr

/-- A text of which the same is said everywhere. -/
def chars {α : Type} (s : Str) (x : α) : List (Mark α) := s.map (.char · x)

mutual
/-- The text of an inline with the spans around each byte (outermost first). -/
def marks (around : List SpanVariant) : Inline → List (Mark (List SpanVariant))
  | .lit n v _ => chars (refdChar n v) around
  | .span v _ is _ _ _ => marksL (around ++ [v]) is
  | .ref _ _ is _ _ => marksL around is
  | .brk _ => [.brk]
/-- The text of inlines with the spans around each byte. -/
def marksL (around : List SpanVariant) : List Inline → List (Mark (List SpanVariant))
  | [] => []
  | i :: is => marks around i ++ marksL around is
end

/-- The text of a run with the variants that are applied to it. -/
def runMarks : Run → List (Mark (List SpanVariant))
  | .text s vs => chars s vs
  | .brk => [.brk]

/-- The text of a run with its formatting. -/
def runLook : Run → List (Mark RunProps)
  | .text s vs => chars s (Run.props (.text s vs))
  | .brk => [.brk]

/-- The same text with the same line breaks, up to white-space characters, such that what is said about each byte on the
left is related to what is said on the right. -/
inductive Alike {α β : Type} (rel : α → β → Prop) : List (Mark α) → List (Mark β) → Prop where
  | nil : Alike rel [] []
  | char (b : UInt8) {x : α} {y : β} {s : List (Mark α)} {t : List (Mark β)} :
      rel x y → Alike rel s t → Alike rel (.char b x :: s) (.char b y :: t)
  | brk {s : List (Mark α)} {t : List (Mark β)} : Alike rel s t → Alike rel (.brk :: s) (.brk :: t)
  | left {w : Str} (x : α) {s : List (Mark α)} {t : List (Mark β)} :
      w ∈ spaces → Alike rel s t → Alike rel (chars w x ++ s) t
  | right {w : Str} (y : β) {s : List (Mark α)} {t : List (Mark β)} :
      w ∈ spaces → Alike rel s t → Alike rel s (chars w y ++ t)

/-- The colour of a highlighting span. -/
def colour : SpanVariant → Option Str
  | .mark => some b!"yellow"
  | .footnote => some b!"blue"
  | _ => none

/-- Whether a span sets its text above or below the line. -/
def script : SpanVariant → Bool
  | .subscript => true
  | .superscript => true
  | _ => false

/-- What the spans around a text ask for: bold, italic and typewriter text in any combination; of several colours the
innermost, and of several scripts the innermost. -/
def Looks (vs : List SpanVariant) (r : RunProps) : Prop :=
  (r.bold = true ↔ .strong ∈ vs) ∧ (r.italic = true ↔ .emphasis ∈ vs) ∧ (r.courier = true ↔ .code ∈ vs) ∧
  r.highlight = (vs.filterMap colour).getLast? ∧ r.vert = (vs.filter script).getLast?

/-! ## The sequence of paragraphs -/

/-- What is to come next in the body: a paragraph, a table with its cells, a picture. -/
inductive Want (α : Type) where
  | par (x : α)
  | table (cells : List α)
  | picture (target : Str)
deriving DecidableEq, Repr

/-- Everything that is to have text. -/
def Want.all {α : Type} (p : α → Prop) : Want α → Prop
  | .par x => p x
  | .table cells => ∀ x ∈ cells, p x
  | .picture _ => True

/-- The same of another kind. -/
def Want.map {α β : Type} (f : α → β) : Want α → Want β
  | .par x => .par (f x)
  | .table cells => .table (cells.map f)
  | .picture t => .picture t

/-- A text without formatting. -/
def bareText (s : Str) : List Inline := [.lit .text s []]

/-- A heading, if it has a text. -/
def heading (is : List Inline) : List (Want (List Inline)) := if is.isEmpty then [] else [.par is]

/-- The label of an admonition. -/
def label : Option ParentVariant → List (Want (List Inline))
  | some v => [.par (bareText (labelText v))]
  | none => []

/-- The attribution of a quotation. -/
def source (m : Option Meta) : List (Want (List Inline)) :=
  match m.bind (·.attributes.get? b!"attribution") with
  | some a => [.par (bareText (b!"— " ++ a))]
  | none => []

mutual
/-- What a block asks for. A block attached to a list item is one paragraph. -/
def wants : Block → List (Want (List Inline))
  | .section t _ _ bs _ => heading t ++ wantsL bs
  | .list _ items _ _ => wantsL items
  | .listItem _ p bs _ _ => .par p :: bs.map fun b => .par b.inlines
  | .dlist items _ _ => wantsL items
  | .dlistItem t p bs _ _ => .par t :: .par p :: wantsL bs
  | .brk v _ => match v with
    | .page => []
    | .thematic => [.par (bareText b!"#")]
  | .image t _ _ _ => [.picture t]
  | .leaf _ _ _ is _ _ => [.par is]
  | .parent n v _ bs t m _ => match n with
    | .table => [.table (bs.map Block.inlines)]
    | .footnoteContainer => []
    | .open_ => wantsL bs
    | .quote => wantsL bs ++ source m
    | .admonition | .example_ | .sidebar => label v ++ heading t ++ wantsL bs
  | .tableCell .. => []
/-- What blocks ask for. -/
def wantsL : List Block → List (Want (List Inline))
  | [] => []
  | b :: bs => wants b ++ wantsL bs
end

/-- What a document asks for. -/
def wantsDoc (g : Asg) : List (Want (List Inline)) :=
  (match g.header with
    | some h => heading h.title
    | none => []) ++ wantsL g.blocks

/-- Two lists of the same length with related members. -/
inductive Pairs {α β : Type} (rel : α → β → Prop) : List α → List β → Prop where
  | nil : Pairs rel [] []
  | cons {a : α} {b : β} {as : List α} {bs : List β} : rel a b → Pairs rel as bs → Pairs rel (a :: as) (b :: bs)

/-- The body has what is asked for, one by one: paragraphs that are related to what is asked for, tables whose rows have the
first cells that are asked for (C38 is about how many), and pictures of the files. -/
inductive Has {α : Type} (rel : α → Para → Prop) : List (Want α) → List Item → Prop where
  | nil : Has rel [] []
  | par {x : α} {p : Para} {ws : List (Want α)} {is : List Item} :
      rel x p → Has rel ws is → Has rel (.par x :: ws) (.para p :: is)
  | table {cells : List α} {rows : List (List Para)} (rest : List α) {ws : List (Want α)} {is : List Item} :
      Pairs rel cells rows.flatten → Has rel ws is → Has rel (.table (cells ++ rest) :: ws) (.table rows :: is)
  | picture (target : Str) {ws : List (Want α)} {is : List Item} :
      Has rel ws is → Has rel (.picture target :: ws) (.picture target :: is)

/-- The text of a paragraph is formatted as the spans around it ask. -/
def Inked (is : List (Mark (List SpanVariant))) (p : Para) : Prop := Alike Looks is (p.runs.flatMap runLook)

/-- At least the variants of the spans around it are applied to each text of a paragraph. -/
def Dyed (is : List (Mark (List SpanVariant))) (p : Para) : Prop :=
  Alike (fun vs us => ∀ v ∈ vs, v ∈ us) is (p.runs.flatMap runMarks)

mutual
/-- Whether a span occurs in an inline. -/
def spanned : Inline → Bool
  | .lit .. => false
  | .span .. => true
  | .brk _ => false
  | .ref _ _ is _ _ => spannedL is
/-- Whether a span occurs in inlines. -/
def spannedL : List Inline → Bool
  | [] => false
  | i :: is => spanned i || spannedL is
end

mutual
/-- Inside of an inline, no span is followed by anything, and no script stands in another span (`deep`). -/
def clear (deep : Bool) : Inline → Bool
  | .lit .. => true
  | .span v _ is _ _ _ => !(deep && script v) && clearL true is
  | .brk _ => true
  | .ref _ _ is _ _ => clearL deep is
/-- The same for inlines one after the other. -/
def clearL (deep : Bool) : List Inline → Bool
  | [] => true
  | i :: is => clear deep i && (!spanned i || is.isEmpty) && clearL deep is
end

/-- A paragraph whose inlines are clear one by one. -/
def Clear (is : List Inline) : Prop := ∀ i ∈ is, clear false i = true

end Adoc.Ink
