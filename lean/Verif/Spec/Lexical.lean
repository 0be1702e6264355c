import Verif.Model.Token
/-!
# The lexical grammar: which text gives which token (used in C49 to C51)

Nothing here refers to the scanner. `Lexeme ty before l after` says that between `before` and `after` the text `l` is
written as a token of type `ty`. The conditions are on the three texts only.
-/
namespace Adoc.Lexical

/-- A text after which a new line begins. -/
def LineStart (before : Str) : Prop := before = [] ∨ before.getLast? = some 10

/-- The end of a line is next (a newline or the end of the text). -/
def LineEnd (after : Str) : Prop := after = [] ∨ after.head? = some 10

/-- After such a text a single marker may open a span: the text ends with one of the characters listed, with NUL or with
a character outside ASCII, or it is empty. -/
def Opener (before : Str) : Prop :=
  before = [] ∨ ∃ b, before.getLast? = some b ∧ (b = 0 ∨ 128 ≤ b.toNat ∧ b.toNat < 192 ∨ b ∈ b!" \n](\"[*_`+^~#")

/-- Before such a text a single marker may close a span. -/
def Closer (after : Str) : Prop :=
  after = [] ∨ ∃ b, after.head? = some b ∧ (b = 0 ∨ b ∈ b!" .,;:\n)\"!?']*_`+^~#")

/-- A quotation mark may open here. -/
def QuoteStart (before : Str) : Prop :=
  before = [] ∨ ∃ b, before.getLast? = some b ∧ (b = 0 ∨ 128 ≤ b.toNat ∧ b.toNat < 192 ∨ b ∈ b!" \n")

/-- A quotation mark or a possessive may end here: the text ends, or a blank, a newline or a character outside ASCII
follows. -/
def QuoteEnd (after : Str) : Prop :=
  after = [] ∨ ∃ b, after.head? = some b ∧ (192 ≤ b.toNat ∨ b ∈ b!" \n")

/-- ASCII letters and digits. -/
def Alnum (b : UInt8) : Prop :=
  48 ≤ b.toNat ∧ b.toNat ≤ 57 ∨ 65 ≤ b.toNat ∧ b.toNat ≤ 90 ∨ 97 ≤ b.toNat ∧ b.toNat ≤ 122

/-- Digits. -/
def Digits (ds : Str) : Prop := ∀ b ∈ ds, 48 ≤ b.toNat ∧ b.toNat ≤ 57

/-- Two hyphens are a dash before such a text. -/
def DashEnd (after : Str) : Prop :=
  after = [] ∨ ∃ b, after.head? = some b ∧ (b = 0 ∨ b = c!" " ∨ 128 ≤ b.toNat ∨ Alnum b)

/-- A block delimiter line begins here. -/
def DelimiterLine (before rest : Str) : Prop :=
  LineStart before ∧ ∃ c ∈ b!"+*-_/=.", [c, c, c, c, 10] <+: rest

/-- A block delimiter made of `c`. -/
def Delimiter (c : UInt8) (before l after : Str) : Prop :=
  LineStart before ∧ l = [c, c, c, c] ∧ after.head? = some 10

/-- A single marker: the next character differs, it opens or closes, and it does not stand between two blanks. -/
def Single (c : UInt8) (before l after : Str) : Prop :=
  l = [c] ∧ after.head? ≠ some c ∧ (Opener before ∨ Closer after)
    ∧ ¬(before.getLast? = some c!" " ∧ after.head? = some c!" ")

/-- A doubled marker. -/
def Double (c : UInt8) (before l after : Str) : Prop := l = [c, c] ∧ ¬DelimiterLine before (l ++ after)

/-- A heading marker of `n` equals signs and the character after it. -/
def Heading (n : Nat) (before l after : Str) : Prop :=
  LineStart before ∧ (∃ x : UInt8, l = List.replicate n c!"=" ++ [x] ∧ x ≠ c!"=" ∧ x.toNat < 128 ∧ ¬(n = 1 ∧ x = c!">"))
    ∧ ¬DelimiterLine before (l ++ after)

/-- A word and then everything through the next closing bracket. -/
def Bracketed (word l : Str) : Prop := ∃ body, l = word ++ body ++ [c!"]"] ∧ c!"]" ∉ body

/-- A whole line in brackets that does not begin with two of them. -/
def BracketLine (before l after : Str) : Prop :=
  LineStart before ∧ (∃ body, l = c!"[" :: body ++ [c!"]"]) ∧ 10 ∉ l ∧ LineEnd after ∧ ¬b!"[[" <+: l

/-- An admonition: its label anywhere, or a line in brackets that begins with its letter. -/
def Admonition (label : Str) (letter : UInt8) (before l after : Str) : Prop :=
  l = label ∨ BracketLine before l after ∧ l[1]? = some letter

/-- Contains a blank or a newline. -/
def Blank (l : Str) : Prop := c!" " ∈ l ∨ 10 ∈ l

/-- An anchor line. -/
def Anchor (before l after : Str) : Prop :=
  LineStart before ∧ after.head? = some 10 ∧ ∃ body, l = b!"[[" ++ body ++ b!"]]" ∧ ¬b!"]]\n" <:+: body ++ b!"]]"

/-- A cross reference: through the first `>>`. -/
def Reference (before l after : Str) : Prop :=
  (∃ body, l = b!"<<" ++ body ++ b!">>" ∧ ¬b!">>" <:+: body ++ b!">") ∧ ¬b!"<<<\n" <+: l ++ after

/-- Punctuation that may occur inside a URL. -/
def urlPunct : Str := b!".#:/?=&"

/-- ASCII punctuation. -/
def Punct (b : UInt8) : Prop :=
  33 ≤ b.toNat ∧ b.toNat ≤ 47 ∨ 58 ≤ b.toNat ∧ b.toNat ≤ 64 ∨ 91 ≤ b.toNat ∧ b.toNat ≤ 96 ∨ 123 ≤ b.toNat ∧ b.toNat ≤ 126

/-- The characters of a URL (newlines among them). -/
def UrlText (u : Str) : Prop :=
  ∀ b ∈ u, b ≠ 0 ∧ b ≠ c!" " ∧ b.toNat < 128 ∧ (Punct b → b ∈ urlPunct)

/-- URL punctuation does not belong to the URL when the text ends, or a blank, NUL or a character outside ASCII follows. -/
def UrlStop (after : Str) : Prop :=
  after = [] ∨ ∃ b, after.head? = some b ∧ (b = 0 ∨ b = c!" " ∨ 128 ≤ b.toNat)

/-- The URL `l` ends before `after`. -/
def UrlEnd (l after : Str) : Prop :=
  (after = [] ∨ after.head? = some 0 ∨ after.head? = some c!" ") ∧ (∀ b, l.getLast? = some b → b ∉ urlPunct)
  ∨ (∃ b r, after = b :: r ∧ b ∈ urlPunct ∧ UrlStop r)
  ∨ (∃ b r, after = b :: r ∧ Punct b ∧ b ∉ urlPunct ∧ b ≠ c!"[")

/-- A table cell: from a pipe to the end of the line or to a pipe after a blank. -/
def Cell (before l after : Str) : Prop :=
  (LineStart before ∨ before.getLast? = some c!" " )
  ∧ (∃ body, l = c!"|" :: body ∧ ∀ b ∈ body, b ≠ 10 ∧ b ≠ 0 ∧ b.toNat < 128)
  ∧ (∀ p q, l = p ++ c!"|" :: q → p ≠ [] → p.getLast? ≠ some c!" ")
  ∧ (after = [] ∨ after.head? = some 10 ∨ after.head? = some 0
      ∨ after.head? = some c!"|" ∧ l.getLast? = some c!" ")
  ∧ ¬(LineStart before ∧ b!"|===" <+: l)

/-- Characters at which a text token ends because some markup may begin with them. -/
def stops : Str := b!"\n*_`^~fph][:#NTICW&{+i<'\"-te"

/-- A piece of plain text: one character of any sort, then everything before the next character that may begin markup. -/
def Piece (l after : Str) : Prop :=
  l ≠ [] ∧ (∀ b ∈ l.tail, b ∉ stops) ∧ (after = [] ∨ ∃ b ∈ stops, after.head? = some b)

/-- The text `l` between `before` and `after` is a token of type `ty`. -/
def Lexeme (ty : TokenType) (before l after : Str) : Prop :=
  match ty with
  | .newLineChar => l = b!"\n"
  | .lineContinuation => l = b!"+" ∧ before.getLast? = some c!" " ∧ after.head? = some 10
  | .thematicBreak => l = b!"'''" ∧ after.head? = some 10
  | .pageBreak => l = b!"<<<" ∧ after.head? = some 10
  | .comment => LineStart before ∧ b!"//" <+: l ∧ ¬DelimiterLine before (l ++ after)
      ∧ (l = b!"// " ∧ (b!"tag::" <+: after ∨ b!"end::" <+: after)
        ∨ 10 ∉ l ∧ LineEnd after ∧ ¬b!"// tag::" <+: l ∧ ¬b!"// end::" <+: l)
  | .passthroughBlock => Delimiter c!"+" before l after
  | .sidebarBlock => Delimiter c!"*" before l after
  | .sourceBlock => Delimiter c!"-" before l after
  | .quoteVerseBlock => Delimiter c!"_" before l after
  | .commentBlock => Delimiter c!"/" before l after
  | .literalBlock => Delimiter c!"." before l after
  | .exampleBlock => Delimiter c!"=" before l after
  | .openBlock => LineStart before ∧ l = b!"--" ∧ after.head? = some 10
  | .orderedListItem => LineStart before ∧ l = b!". "
  | .unorderedListItem => LineStart before ∧ l = b!"* "
  | .descriptionListMarker => ¬LineStart before ∧ before.getLast? ≠ some c!" " ∧ (l = b!":: " ∨ l = b!"::\n")
  | .codeCallout => after.head? = some 10
      ∧ (¬LineStart before ∧ (∃ ds, Digits ds ∧ l = b!"<" ++ ds ++ b!">")
        ∨ LineStart before ∧ ∃ ds es, Digits ds ∧ Digits es ∧ l = b!"<" ++ ds ++ b!">" ++ es ++ b!">")
  | .codeCalloutListItem => LineStart before ∧ ∃ ds, Digits ds ∧ l = b!"<" ++ ds ++ b!"> "
  | .blockLabel => LineStart before ∧ l = b!"." ∧ after.head? ≠ some c!" " ∧ ¬b!".." <+: after
  | .heading1 => Heading 1 before l after
  | .heading2 => Heading 2 before l after
  | .heading3 => Heading 3 before l after
  | .heading4 => Heading 4 before l after
  | .heading5 => Heading 5 before l after
  | .notePara => Admonition b!"NOTE: " c!"N" before l after
  | .tipPara => Admonition b!"TIP: " c!"T" before l after
  | .importantPara => Admonition b!"IMPORTANT: " c!"I" before l after
  | .cautionPara => Admonition b!"CAUTION: " c!"C" before l after
  | .warningPara => Admonition b!"WARNING: " c!"W" before l after
  | .blockContinuation => LineStart before ∧ l = b!"+" ∧ after.head? = some 10
  | .table => LineStart before ∧ l = b!"|===" ∧ (LineEnd after ∨ after.head? = some 0)
  | .tableCell => Cell before l after
  | .strong => Single c!"*" before l after ∧ ¬(LineStart before ∧ after.head? = some c!" ")
  | .emphasis => Single c!"_" before l after
  | .monospace => Single c!"`" before l after
      ∧ ¬(∃ r, (after = c!"'" :: r ∨ after = c!"\"" :: r) ∧ QuoteEnd r)
  | .literal => Single c!"+" before l after
      ∧ ¬((LineStart before ∨ before.getLast? = some c!" ") ∧ after.head? = some 10)
  | .mark => Single c!"#" before l after
  | .superscript => l = b!"^"
  | .subscript => l = b!"~"
  | .unconstrainedStrong => Double c!"*" before l after
  | .unconstrainedEmphasis => Double c!"_" before l after
  | .unconstrainedMonospace => Double c!"`" before l after
  | .unconstrainedLiteral => Double c!"+" before l after
  | .unconstrainedMark => Double c!"#" before l after
  | .blockImageMacro => LineStart before ∧ Bracketed b!"image::" l
  | .inlineImageMacro => Bracketed b!"image:" l ∧ ¬b!"image: " <+: l ∧ ¬b!"image::" <+: l
  | .linkMacro => ∃ u, l = u ++ b!"[" ∧ b!"http" <+: u ∧ UrlText u
  | .footnoteMacro => l = b!"footnote:["
  | .passthroughInlineMacro => l = b!"pass:["
  | .inlineMacroClose => l = b!"]"
  | .hyperlink => b!"http" <+: l ∧ UrlText l ∧ UrlEnd l after
  | .text => Piece l after ∨ Blank l ∧ (Anchor before l after ∨ Reference before l after)
  | .charRef => l ∈ [b!"(C)", b!"(R)", b!"(TM)", b!"->", b!"=>", b!"<-", b!"<="]
      ∨ l = b!"..." ∧ ¬DelimiterLine before (l ++ after)
      ∨ l = b!"--" ∧ DashEnd after
      ∨ l = b!"'" ∧ (∃ r, after = c!"s" :: r ∧ QuoteEnd r)
      ∨ (∃ w, l = b!"&" ++ w ++ b!";" ∧ ∀ b ∈ w, Alnum b)
  | .openDoubleQuote => l = b!"\"`" ∧ QuoteStart before
  | .closeDoubleQuote => l = b!"`\"" ∧ QuoteEnd after
  | .openSingleQuote => l = b!"'`" ∧ QuoteStart before
  | .closeSingleQuote => l = b!"`'" ∧ QuoteEnd after
  | .inlineStyle => Bracketed b!"[." l
      ∧ ¬(LineStart before ∧ ∃ line rest, l ++ after = line ++ rest ∧ 10 ∉ line ∧ LineEnd rest ∧ line.getLast? = some c!"]")
  | .include => LineStart before ∧ Bracketed b!"include::" l
  | .blockAnchor => Anchor before l after ∧ ¬Blank l
  | .elementAttributes => BracketLine before l after ∧ ∀ b, l[1]? = some b → b ∉ b!"NTICW"
  | .crossReference => Reference before l after ∧ ¬Blank l
  | .attribute => LineStart before ∧ after.head? = some 10
      ∧ ∃ name value, l = b!":" ++ name ++ b!":" ++ value ∧ (∀ b ∈ name, b ∉ b!" \n:") ∧ 10 ∉ value
  | .attributeReference => ∃ w, l = b!"{" ++ w ++ b!"}" ∧ ∀ b ∈ w, Alnum b ∨ b = c!"-"
  | .eof | .email | .startTag | .endTag => False

end Adoc.Lexical
