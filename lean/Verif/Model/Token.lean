import Verif.Model.Location
/-! # Tokens (`src/scanner/tokens.rs`) -/
namespace Adoc

/-- `tokens.rs:197-312`, `TokenType`. -/
inductive TokenType where
  | newLineChar | lineContinuation | thematicBreak | pageBreak | comment
  | passthroughBlock | sidebarBlock | sourceBlock | quoteVerseBlock | commentBlock | literalBlock | exampleBlock
  | openBlock | orderedListItem | unorderedListItem | descriptionListMarker | codeCallout | codeCalloutListItem
  | blockLabel | heading1 | heading2 | heading3 | heading4 | heading5
  | notePara | tipPara | importantPara | cautionPara | warningPara
  | blockContinuation | table | tableCell
  | strong | emphasis | monospace | literal | mark | superscript | subscript
  | unconstrainedStrong | unconstrainedEmphasis | unconstrainedMonospace | unconstrainedLiteral | unconstrainedMark
  | blockImageMacro | inlineImageMacro | linkMacro | footnoteMacro | passthroughInlineMacro | inlineMacroClose
  | hyperlink | email | text | charRef
  | openDoubleQuote | closeDoubleQuote | openSingleQuote | closeSingleQuote
  | eof | inlineStyle | include | startTag | endTag
  | blockAnchor | elementAttributes | crossReference | attribute | attributeReference
deriving DecidableEq, Repr

/-- `tokens.rs:8-18`, `Token`. -/
structure Token where
  ty : TokenType
  lexeme : Str
  lit : Option Str
  line : Nat
  startcol : Nat
  endcol : Nat
  fileStack : List Str
deriving DecidableEq, Repr

namespace Token

/-- `tokens.rs:77-87`, `final_token`. -/
def final (line : Nat) (fs : List Str) : Token := ⟨.eof, [], none, line, 0, 0, fs⟩

/-- `tokens.rs:97-111`, `text`. -/
def text (t : Token) : Str :=
  match t.ty with
  | .openDoubleQuote => b!"“"
  | .closeDoubleQuote => b!"”"
  | .openSingleQuote => b!"‘"
  | .closeSingleQuote => b!"’"
  | _ => match t.lit with
    | some s => s
    | none => t.lexeme

/-- `tokens.rs:113-115`. -/
def firstLocation (t : Token) : Location := ⟨t.line, t.startcol, t.fileStack⟩
/-- `tokens.rs:116-118`. -/
def lastLocation (t : Token) : Location := ⟨t.line, t.endcol, t.fileStack⟩
/-- `tokens.rs:120-122`. -/
def locations (t : Token) : List Location := [t.firstLocation, t.lastLocation]

/-- `tokens.rs:124-128`, `update_token_loc_offsets_by`; `lines - 1` underflows for 0. -/
def offsetBy (t : Token) (lines cols : Nat) : M Token :=
  if lines = 0 then .error (.panic .overflow)
  else .ok { t with line := t.line + (lines - 1), startcol := t.startcol + cols, endcol := t.endcol + cols }

/-- `tokens.rs:130-144`, `is_inline`. -/
def isInline (t : Token) : Bool :=
  match t.ty with
  | .comment | .text | .emphasis | .strong | .monospace | .mark | .newLineChar
  | .unconstrainedEmphasis | .unconstrainedStrong | .unconstrainedMonospace | .unconstrainedMark
  | .charRef | .inlineStyle | .inlineMacroClose => true
  | _ => false

/-- `tokens.rs:146-151`, `can_be_in_document_header`. -/
def canBeInHeader (t : Token) : Bool :=
  match t.ty with
  | .heading1 | .attribute => true
  | _ => t.isInline

/-- `tokens.rs:155-160`, `tag`; the slice panics on short lexemes. -/
def tag (t : Token) : M (Option Str) :=
  match t.ty with
  | .startTag | .endTag => do
    let s ← sliceM t.lexeme 5 (t.lexeme.length - 2)
    return some s
  | _ => .ok none

/-- The literal replacements of `tokens.rs:174-185`. -/
def charRefLiteral (lexeme : Str) : Option Str :=
  if lexeme = b!"(C)" then some b!"&#169;"
  else if lexeme = b!"(R)" then some b!"&#174;"
  else if lexeme = b!"(TM)" then some b!"&#8482;"
  else if lexeme = b!"..." then some b!"&#8230;"
  else if lexeme = b!"->" then some b!"&#8594;"
  else if lexeme = b!"=>" then some b!"&#8658;"
  else if lexeme = b!"<-" then some b!"&#8592;"
  else if lexeme = b!"<=" then some b!"&#8656;"
  else if lexeme = b!"--" then some b!"&#8212;"
  else if lexeme = b!"'" then some b!"&#8217;"
  else none

/-- `tokens.rs:165-190`, `validate`. -/
def validate (t : Token) : Token :=
  match t.ty with
  | .blockAnchor | .crossReference =>
    if t.lexeme.contains c!" " || t.lexeme.contains c!"\n" then { t with ty := .text } else t
  | .charRef =>
    match charRefLiteral t.lexeme with
    | some l => { t with lit := some l }
    | none => t
  | _ => t

end Token

/-- `tokens.rs:315-326`, `block_from_char`. -/
def TokenType.blockFromChar (c : UInt8) : Option TokenType :=
  if c = c!"+" then some .passthroughBlock
  else if c = c!"*" then some .sidebarBlock
  else if c = c!"-" then some .sourceBlock
  else if c = c!"_" then some .quoteVerseBlock
  else if c = c!"/" then some .commentBlock
  else if c = c!"=" then some .exampleBlock
  else if c = c!"." then some .literalBlock
  else none

/-- `tokens.rs:328-337`, `clears_newline_after`. -/
def TokenType.clearsNewlineAfter : TokenType → Bool
  | .elementAttributes | .sidebarBlock | .openBlock | .quoteVerseBlock | .exampleBlock => true
  | _ => false

end Adoc
