import Verif.Model.Token
/-!
# The scanner (`src/scanner/mod.rs`)

Line references are to `src/scanner/mod.rs`. A function that changes `self` returns the new scanner.
A Rust loop `while cond(self.peek()) { self.current += 1 }` without an end-of-input guard whose condition
holds for the `'\0'` that `peek` returns at the end never ends; such loops give `Item.hang`.

Simplification: `peeks_ahead` slices from `current`; where the model uses the total function `peeksAhead`,
`current` directly follows an ASCII byte, which is a character boundary in every valid UTF-8 source
(`Verif/Proof/Utf8.lean` proves this). The two loops that call it from arbitrary positions
(`addCrossReference`, `addBlockAnchor`) keep the panic.
-/
namespace Adoc

/-- L11-20, `Scanner`. -/
structure Scanner where
  src : Str
  start : Nat
  startcol : Nat
  current : Nat
  line : Nat
  scanning : Bool
  expectingTagEnd : Bool
  fileStack : List Str
deriving DecidableEq, Repr

/-- What one call of `next` yields when it yields something (L22-24), or how it fails to return. -/
inductive Item where
  | tok (t : Token)
  | err (e : ScanError)
  | panic (site : Site)
  | hang
deriving DecidableEq, Repr

namespace Scanner

/-- L53-64, `new_with_stack`. -/
def newWithStack (src : Str) (fs : List Str) : Scanner := ⟨src, 0, 1, 0, 1, true, false, fs⟩
/-- L40-51, `new`. -/
def new (src : Str) : Scanner := newWithStack src []

/-- L803-805, `is_at_end`. -/
def isAtEnd (s : Scanner) : Bool := s.src.length ≤ s.current

/-- L807-812, `peek`, at an arbitrary position; `0` stands for `'\0'`. -/
def peekAt (src : Str) (i : Nat) : UInt8 :=
  if isBoundary src i then src.getD i 0 else 0

/-- L807-812, `peek`. -/
def peek (s : Scanner) : UInt8 := peekAt s.src s.current

/-- L814-819, `peek_back`. -/
def peekBack (s : Scanner) : UInt8 :=
  if s.start = 0 then 0 else peekAt s.src (s.start - 1)

/-- L821-829, `peeks_ahead`, at an arbitrary position; `[0]` stands for `"\0"`. -/
def peeksAheadAt (src : Str) (i count : Nat) : Str :=
  if src.length ≤ i ∨ src.length < i + count ∨ isBoundary src (i + count) = false then [0]
  else (src.drop i).take count

/-- L821-829, `peeks_ahead`. -/
def peeksAhead (s : Scanner) (count : Nat) : Str := peeksAheadAt s.src s.current count

/-- `while p(peek) && !is_at_end { current += 1 }` from position `i`, at most `fuel` steps. -/
def advF (src : Str) (p : UInt8 → Bool) : Nat → Nat → Nat
  | 0, i => i
  | n + 1, i => if i < src.length ∧ p (peekAt src i) = true then advF src p n (i + 1) else i

/-- `while p(peek) && !is_at_end { current += 1 }` from position `i`. -/
def adv (src : Str) (p : UInt8 → Bool) (i : Nat) : Nat := advF src p (src.length - i) i

/-- L442-484, `add_token`. -/
def addToken (s : Scanner) (ty : TokenType) (includeLit : Bool) (advance : Nat) : Item × Scanner :=
  match slice s.src s.start s.current with
  | none => (.panic .slice, s)
  | some text =>
    let lit := if includeLit then some text else none
    let tok : Token := ⟨ty, text, lit, s.line, s.startcol, s.startcol + text.length - 1, s.fileStack⟩
    if advance ≠ 0 then
      (.tok tok.validate, { s with line := s.line + advance, startcol := 1 })
    else
      (.tok tok.validate, { s with startcol := s.startcol + text.length })

/-- The stop characters of L610-613. -/
def isStop (b : UInt8) : Bool := (b!"\n*_`^~fph][:#NTICW&{+i<'\"-te").contains b

/-- L606-620, `add_text_until_next_markup`. -/
def addText (s : Scanner) : Item × Scanner :=
  addToken { s with current := adv s.src (fun b => !isStop b) s.current } .text true 0

/-- L486-499, `add_heading`. -/
def addHeading (s : Scanner) : Item × Scanner :=
  let cur := adv s.src (· = c!"=") s.current + 1
  let s := { s with current := cur }
  match cur - 1 - s.start with
  | 1 => addToken s .heading1 false 0
  | 2 => addToken s .heading2 false 0
  | 3 => addToken s .heading3 false 0
  | 4 => addToken s .heading4 false 0
  | 5 => addToken s .heading5 false 0
  | _ => (.err (.headingLevel s.line), s)

/-- L503-506, `add_list_item`. -/
def addListItem (s : Scanner) (ty : TokenType) : Item × Scanner :=
  addToken { s with current := s.current + 1 } ty false 0

/-- L509-533 and L580-586: `while peek != ']'` without an end guard, then the `']'`. Shared by
`add_block_image`, `add_inline_image`, `add_include` and `add_inline_style`. -/
def addThroughBracket (s : Scanner) (ty : TokenType) : Item × Scanner :=
  let cur := adv s.src (· ≠ c!"]") s.current
  if s.src.length ≤ cur then (.hang, s)
  else addToken { s with current := cur + 1 } ty true 0

/-- L536-546, the recursion of `add_table_cell`: the end position. -/
def tableCellEnd (src : Str) : Nat → Nat → Nat
  | 0, i => i
  | n + 1, i =>
    let j := adv src (fun b => b ≠ c!"\n" && b ≠ 0 && b ≠ c!"|") i
    if peekAt src j = c!"|" ∧ src.getD (j - 1) 0 ≠ c!" " then tableCellEnd src n (j + 1) else j

/-- L536-546, `add_table_cell`. -/
def addTableCell (s : Scanner) : Item × Scanner :=
  addToken { s with current := tableCellEnd s.src (s.src.length + 1 - s.current) s.current } .tableCell true 0

/-- L550, `hyperlink_allowed_punctuation`. -/
def isUrlPunct (b : UInt8) : Bool := (b!".#:/?=&").contains b

/-- L549-578, the recursion of `add_link`: token type and end position. -/
def linkEnd (src : Str) : Nat → Nat → TokenType × Nat
  | 0, i => (.hyperlink, i)
  | n + 1, i =>
    let j := adv src (fun b => b ≠ 0 && b ≠ c!" " && !isAsciiPunct b) i
    let c := peekAt src j
    if c = c!"[" then (.linkMacro, j + 1)
    else if c = 0 ∨ c = c!" " then (.hyperlink, j)
    else if isUrlPunct c then
      let second := (peeksAheadAt src j 2).getLastD 0
      if second = 0 ∨ second = c!" " then (.hyperlink, j) else linkEnd src n (j + 1)
    else (.hyperlink, j)

/-- L549-578, `add_link`. -/
def addLink (s : Scanner) : Item × Scanner :=
  let r := linkEnd s.src (s.src.length + 1 - s.current) s.current
  addToken { s with current := r.2 } r.1 true 0

/-- L589-595 and L598-604: `while peeks_ahead(n) != pat && !is_at_end`, keeping the slice panic of
`peeks_ahead` (start off a boundary while the end is on one). `none` is the panic. -/
def findPat (src : Str) (pat : Str) : Nat → Nat → Option Nat
  | 0, i => some i
  | n + 1, i =>
    if src.length ≤ i then some i
    else if i + pat.length ≤ src.length ∧ isBoundary src (i + pat.length) = true
        ∧ isBoundary src i = false then none
    else if peeksAheadAt src i pat.length = pat then some i
    else findPat src pat n (i + 1)

/-- L589-595, `add_cross_reference`. -/
def addCrossReference (s : Scanner) : Item × Scanner :=
  match findPat s.src b!">>" (s.src.length + 1 - s.current) s.current with
  | none => (.panic .slice, s)
  | some i => addToken { s with current := i + 2 } .crossReference true 0

/-- L598-604, `add_block_anchor`. -/
def addBlockAnchor (s : Scanner) : Item × Scanner :=
  match findPat s.src b!"]]\n" (s.src.length + 1 - s.current) s.current with
  | none => (.panic .slice, s)
  | some i => addToken { s with current := i + 2 } .blockAnchor true 0

/-- L623-629: the skip to the next `e` when a closing tag is expected; `none` is the endless loop. -/
def tagStart (s : Scanner) : Option Scanner :=
  if s.expectingTagEnd then
    let cur := adv s.src (· ≠ c!"e") s.current
    if s.src.length ≤ cur then none
    else some { s with current := cur, start := cur, startcol := cur }
  else some s

/-- L648-654: move past the end of the line. -/
def skipLine (s : Scanner) : Scanner :=
  let cur := adv s.src (· ≠ c!"\n") s.current
  { s with current := if peekAt s.src cur = c!"\n" then cur + 1 else cur }

/-- L622-656, `add_tag`. -/
def addTag (s : Scanner) : Item × Scanner :=
  match s.tagStart with
  | none => (.hang, s)
  | some s =>
    let s := { s with current := adv s.src (· ≠ c!"]") s.current + 1 }
    match slice s.src s.start s.current with
    | none => (.panic .slice, s)
    | some text =>
      if containsStr b!"tag" text then
        let r := addToken { s with expectingTagEnd := true } .startTag true 1
        (r.1, skipLine r.2)
      else if containsStr b!"end" text then
        let r := addToken { s with expectingTagEnd := false } .endTag true 1
        (r.1, skipLine r.2)
      else (.err (.tagError text), s)

/-- L658-660, `starts_new_line`. -/
def startsNewLine (s : Scanner) : Bool := s.start = 0 || s.src.getD (s.start - 1) 0 = c!"\n"

/-- L662-668, `starts_repeated_char_line`. -/
def startsRepeated (s : Scanner) (c : UInt8) (n : Nat) : Bool :=
  s.current + n ≤ s.src.length && s.peeksAhead n = List.replicate (n - 1) c ++ [c!"\n"]

/-- L671-679, `starts_attr`; `none` is the out-of-range index. -/
def startsAttr (s : Scanner) : Option Bool :=
  let j := adv s.src (fun b => b ≠ c!" " && b ≠ c!"\n" && b ≠ c!":") s.current
  (s.src[j]?).map (· = c!":")

/-- L831-837, `peek_line`: the rest of the line up to a newline, a NUL or a multi-byte character. -/
def peekLineEnd (src : Str) (i : Nat) : Nat → Nat → Nat
  | 0, count => count
  | n + 1, count =>
    let last := (peeksAheadAt src i count).getLastD 0
    if last = c!"\n" ∨ last = 0 then count else peekLineEnd src i n (count + 1)

/-- L831-837, `peek_line`. -/
def peekLine (s : Scanner) : Str :=
  s.peeksAhead (peekLineEnd s.src s.current (s.src.length + 1 - s.current) 1 - 1)

/-- L681-683, `starts_end_tag_line`. -/
def startsEndTagLine (s : Scanner) : Bool := s.expectingTagEnd && containsStr b!"end::" s.peekLine

/-- Loop condition of L692 and of the consuming loop L397. -/
def isAttrRefChar (b : UInt8) : Bool := isAlnum b || b = c!"-"

/-- L690-698, `starts_attribute_reference`; `none` is the out-of-range index. -/
def startsAttributeReference (s : Scanner) : Option Bool :=
  (s.src[adv s.src isAttrRefChar s.current]?).map (· = c!"}")

/-- L701-709, `starts_charref`; `none` is the out-of-range index. -/
def startsCharref (s : Scanner) : Option Bool :=
  (s.src[adv s.src isAlnum s.current]?).map (· = c!";")

/-- L718-724, the characters that may follow a closing marker; the typographic ones of the Rust list are
never equal to a byte read as a character. -/
def endsInline (b : UInt8) : Bool := b = 0 || (b!" .,;:\n)\"!?']*_`+^~#").contains b

/-- L723-725, the characters that may precede an opening marker. -/
def beginsInline (b : UInt8) : Bool := b = 0 || (b!" \n](\"[*_`+^~#").contains b

/-- L712-744, `handle_inline_formatting`. -/
def inlineFormatting (s : Scanner) (c : UInt8) (constrained unconstrained : TokenType) : Item × Scanner :=
  if s.peek = c!" " ∧ s.peekBack = c!" " then s.addText
  else if s.peek = c then addToken { s with current := s.current + 1 } unconstrained false 0
  else if endsInline s.peek ∨ (beginsInline s.peekBack ∧ s.peek ≠ c) then addToken s constrained false 0
  else s.addText

/-- L755-768, `starts_attribution_line`: on success the cursor stays at the end of the line. -/
def attributionEnd (s : Scanner) : Option Nat :=
  let j := adv s.src (· ≠ c!"\n") s.current
  if s.startsNewLine ∧ s.src.getD (j - 1) 0 = c!"]" then some j else none

/-- L770-780 and L782-792: the digit loop shared by the two callout tests. The Boolean tells whether a
`'>'` was reached (and consumed); the cursor is not restored on failure. -/
def calloutScan (s : Scanner) : Bool × Scanner :=
  let j := adv s.src isDigit s.current
  if peekAt s.src j = c!">" then (true, { s with current := j + 1 }) else (false, { s with current := j })

/-- L770-780, `starts_code_callout_list_item`. -/
def startsCalloutListItem (s : Scanner) : Bool × Scanner :=
  let r := s.calloutScan
  (r.1 && r.2.peek = c!" ", r.2)

/-- L782-792, `starts_code_callout`. -/
def startsCallout (s : Scanner) : Bool × Scanner :=
  let r := s.calloutScan
  (r.1 && r.2.peek = c!"\n", r.2)

/-- L794-796, `starts_text_symbol_replace_parens`. -/
def startsParens (s : Scanner) : Bool :=
  s.peeksAhead 2 = b!"C)" || s.peeksAhead 2 = b!"R)" || s.peeksAhead 3 = b!"TM)"

/-- L798-801, `starts_text_symbol_replace_emdash`. When `peek` is `'-'` the second character is ASCII or
NUL, so reading it as a byte is exact. -/
def startsEmdash (s : Scanner) : Bool :=
  let after := (s.peeksAhead 2).getLastD 0
  s.peek = c!"-" && (isAlnum after || after = c!" " || after = 0)

/-- L746-752, `handle_text_symbol_replacement_parens` (only called when a `')'` follows). -/
def addParens (s : Scanner) : Item × Scanner :=
  let cur := adv s.src (· ≠ c!")") s.current
  if s.src.length ≤ cur then (.hang, s)
  else addToken { s with current := cur + 1 } .charRef true 0

/-- L72-89, the `'\''` arm of `scan_token`. -/
def scanQuote (s : Scanner) : Item × Scanner :=
  if s.startsEndTagLine then s.addTag
  else if s.startsRepeated c!"'" 3 then addToken { s with current := s.current + 2 } .thematicBreak false 0
  else if (s.peekBack = 0 ∨ s.peekBack = c!" " ∨ s.peekBack = c!"\n") ∧ s.peek = c!"`" then
    addToken { s with current := s.current + 1 } .openSingleQuote true 0
  else if s.peeksAhead 2 = b!"s " ∨ s.peeksAhead 2 = b!"s\n"
      ∨ (s.peeksAhead 2 = [0] ∧ s.peek = c!"s") then
    addToken s .charRef false 0
  else s.addText

/-- L101-109, the tail of the `'<'` arm: the two callout tests, which move the cursor. -/
def scanCallouts (s : Scanner) : Item × Scanner :=
  if s.startsNewLine then
    let r := s.startsCalloutListItem
    if r.1 then addToken { r.2 with current := r.2.current + 1 } .codeCalloutListItem true 0
    else
      let r' := r.2.startsCallout
      if r'.1 then addToken r'.2 .codeCallout true 0 else r'.2.addText
  else
    let r' := s.startsCallout
    if r'.1 then addToken r'.2 .codeCallout true 0 else r'.2.addText

/-- L90-110, the `'<'` arm. -/
def scanLess (s : Scanner) : Item × Scanner :=
  if s.startsEndTagLine then s.addTag
  else if s.startsRepeated c!"<" 3 then addToken { s with current := s.current + 2 } .pageBreak false 0
  else if s.peek = c!"-" ∨ s.peek = c!"=" then addToken { s with current := s.current + 1 } .charRef false 0
  else if s.peek = c!"<" then s.addCrossReference
  else s.scanCallouts

/-- L120-131, `'='` after the delimiter test. -/
def scanEquals (s : Scanner) : Item × Scanner :=
  if s.peek = c!">" then addToken { s with current := s.current + 1 } .charRef false 0
  else if s.startsNewLine then s.addHeading
  else s.addText

/-- L132-148, `'-'` after the delimiter test. -/
def scanMinus (s : Scanner) : Item × Scanner :=
  if s.peek = c!">" then addToken { s with current := s.current + 1 } .charRef false 0
  else if s.startsEmdash then addToken { s with current := s.current + 1 } .charRef false 0
  else if s.startsNewLine && s.startsRepeated c!"-" 2 then
    addToken { s with current := s.current + 1 } .openBlock false 0
  else s.addText

/-- L149-160, `'*'` after the delimiter test. -/
def scanStar (s : Scanner) : Item × Scanner :=
  if s.startsNewLine && s.peek = c!" " then s.addListItem .unorderedListItem
  else s.inlineFormatting c!"*" .strong .unconstrainedStrong

/-- L161-177, `'/'` after the delimiter test. -/
def scanSlash (s : Scanner) : Item × Scanner :=
  if s.startsEndTagLine then s.addTag
  else if s.startsNewLine && s.peek = c!"/" then
    if s.peeksAhead 7 = b!"/ tag::" ∨ s.peeksAhead 7 = b!"/ end::" then
      addToken { s with current := s.current + 2 } .comment true 0
    else
      addToken { s with current := adv s.src (· ≠ c!"\n") s.current } .comment true 0
  else s.addText

/-- L178-190, `'+'` after the delimiter test. -/
def scanPlus (s : Scanner) : Item × Scanner :=
  if s.startsNewLine && s.peek = c!"\n" then addToken s .blockContinuation false 0
  else if s.peekBack = c!" " ∧ s.peek = c!"\n" then addToken s .lineContinuation false 0
  else s.inlineFormatting c!"+" .literal .unconstrainedLiteral

/-- L197-210, `'.'` after the delimiter test. -/
def scanDot (s : Scanner) : Item × Scanner :=
  if s.peeksAhead 2 = b!".." then addToken { s with current := s.current + 2 } .charRef false 0
  else if s.startsNewLine then
    if s.peek = c!" " then s.addListItem .orderedListItem else addToken s .blockLabel false 0
  else s.addText

/-- L112-215, the arm of the possible block delimiters `+ * - _ / = .`. -/
def scanDelimChar (s : Scanner) (c : UInt8) : Item × Scanner :=
  if s.startsEndTagLine then s.addTag
  else if s.startsNewLine && s.startsRepeated c 4 then
    match TokenType.blockFromChar c with
    | some ty => addToken { s with current := s.current + 3 } ty false 0
    | none => (.err .characterMatch, { s with current := s.current + 3 })
  else if c = c!"=" then s.scanEquals
  else if c = c!"-" then s.scanMinus
  else if c = c!"*" then s.scanStar
  else if c = c!"/" then s.scanSlash
  else if c = c!"+" then s.scanPlus
  else if c = c!"_" then s.inlineFormatting c!"_" .emphasis .unconstrainedEmphasis
  else if c = c!"." then s.scanDot
  else s.addText

/-- L222-229, the token type of an attribution line by its second byte. -/
def attributionType (b : UInt8) : TokenType :=
  if b = c!"N" then .notePara
  else if b = c!"T" then .tipPara
  else if b = c!"I" then .importantPara
  else if b = c!"C" then .cautionPara
  else if b = c!"W" then .warningPara
  else .elementAttributes

/-- L217-235, the `'['` arm. -/
def scanBracket (s : Scanner) : Item × Scanner :=
  if s.startsNewLine && s.peek = c!"[" then s.addBlockAnchor
  else match s.attributionEnd with
    | some j => addToken { s with current := j } (attributionType (s.src.getD (s.start + 1) 0)) true 0
    | none =>
      if s.peek = c!"." then s.addThroughBracket .inlineStyle else s.addText

/-- L237-255, the `` '`' `` arm. -/
def scanBacktick (s : Scanner) : Item × Scanner :=
  if s.peeksAhead 2 = b!"' " ∨ s.peeksAhead 2 = b!"'\n" ∨ (s.peeksAhead 2 = [0] ∧ s.peek = c!"'") then
    addToken { s with current := s.current + 1 } .closeSingleQuote true 0
  else if s.peeksAhead 2 = b!"\" " ∨ s.peeksAhead 2 = b!"\"\n" ∨ (s.peeksAhead 2 = [0] ∧ s.peek = c!"\"") then
    addToken { s with current := s.current + 1 } .closeDoubleQuote true 0
  else s.inlineFormatting c!"`" .monospace .unconstrainedMonospace

/-- L258-264, the `'#'` arm. -/
def scanHash (s : Scanner) : Item × Scanner :=
  if s.startsEndTagLine then s.addTag
  else s.inlineFormatting c!"#" .mark .unconstrainedMark

/-- L272-277, the tail of the `':'` arm. -/
def scanColonRest (s : Scanner) : Item × Scanner :=
  if s.peekBack ≠ c!" " ∧ (s.peeksAhead 2 = b!": " ∨ s.peeksAhead 2 = b!":\n") then
    addToken { s with current := s.current + 2 } .descriptionListMarker false 0
  else s.addText

/-- L265-278, the `':'` arm. -/
def scanColon (s : Scanner) : Item × Scanner :=
  if s.startsNewLine then
    match s.startsAttr with
    | none => (.panic .index, s)
    | some true =>
      let cur := adv s.src (· ≠ c!"\n") s.current
      if s.src.length ≤ cur then (.hang, s)
      else addToken { s with current := cur } .attribute false 0
    | some false => s.scanColonRest
  else s.scanColonRest

/-- L286-302 and L339-378, the arms of `f`, `p`, `N`, `T`, `I`, `C`, `W`: a fixed word. -/
def scanWord (s : Scanner) (rest : Str) (ty : TokenType) (lit : Bool) : Item × Scanner :=
  if s.peeksAhead rest.length = rest then addToken { s with current := s.current + rest.length } ty lit 0
  else s.addText

/-- L310-324, the `'i'` arm. -/
def scanI (s : Scanner) : Item × Scanner :=
  if s.startsNewLine && s.peeksAhead 8 = b!"nclude::" then s.addThroughBracket .include
  else if s.startsNewLine && s.peeksAhead 6 = b!"mage::" then s.addThroughBracket .blockImageMacro
  else if s.peeksAhead 5 = b!"mage:" ∧ s.peeksAhead 6 ≠ b!"mage::" ∧ s.peeksAhead 6 ≠ b!"mage: " then
    s.addThroughBracket .inlineImageMacro
  else s.addText

/-- L384-394, the `'&'` arm. -/
def scanAmp (s : Scanner) : Item × Scanner :=
  match s.startsCharref with
  | none => (.panic .index, s)
  | some true => addToken { s with current := adv s.src isAlnum s.current + 1 } .charRef true 0
  | some false => s.addText

/-- L395-406, the `'{'` arm. -/
def scanBrace (s : Scanner) : Item × Scanner :=
  match s.startsAttributeReference with
  | none => (.panic .index, s)
  | some true => addToken { s with current := adv s.src isAttrRefChar s.current + 1 } .attributeReference false 0
  | some false => s.addText

/-- L407-422, the `'|'` arm. -/
def scanPipe (s : Scanner) : Item × Scanner :=
  if s.startsNewLine && s.peeksAhead 3 = b!"===" then
    let s := { s with current := s.current + 3 }
    if s.peek = c!"\n" ∨ s.peek = 0 then addToken s .table false 0 else s.addText
  else if s.startsNewLine || s.peekBack = c!" " then s.addTableCell
  else s.addText

/-- L423-430, the `'"'` arm. -/
def scanDouble (s : Scanner) : Item × Scanner :=
  if (s.peekBack = 0 ∨ s.peekBack = c!" " ∨ s.peekBack = c!"\n") ∧ s.peek = c!"`" then
    addToken { s with current := s.current + 1 } .openDoubleQuote true 0
  else s.addText

/-- L431-437, the arm of `' '` and `'%'`. -/
def scanSpace (s : Scanner) : Item × Scanner :=
  if s.startsEndTagLine then s.addTag else s.addText

/-- L70-439, the `match` of `scan_token`: dispatch on the byte `c` just consumed. -/
def dispatch (s : Scanner) (c : UInt8) : Item × Scanner :=
  if c = c!"\n" then addToken s .newLineChar false 1
  else if c = c!"'" then s.scanQuote
  else if c = c!"<" then s.scanLess
  else if c = c!"+" ∨ c = c!"*" ∨ c = c!"-" ∨ c = c!"_" ∨ c = c!"/" ∨ c = c!"=" ∨ c = c!"." then
    s.scanDelimChar c
  else if c = c!"[" then s.scanBracket
  else if c = c!"`" then s.scanBacktick
  else if c = c!"^" then addToken s .superscript false 0
  else if c = c!"~" then addToken s .subscript false 0
  else if c = c!"#" then s.scanHash
  else if c = c!":" then s.scanColon
  else if c = c!"(" then (if s.startsParens then s.addParens else s.addText)
  else if c = c!"f" then s.scanWord b!"ootnote:[" .footnoteMacro false
  else if c = c!"p" then s.scanWord b!"ass:[" .passthroughInlineMacro false
  else if c = c!"h" then (if s.peeksAhead 3 = b!"ttp" then s.addLink else s.addText)
  else if c = c!"i" then s.scanI
  else if c = c!"t" then (if s.peeksAhead 4 = b!"ag::" then s.addTag else s.addText)
  else if c = c!"e" then (if s.peeksAhead 4 = b!"nd::" then s.addTag else s.addText)
  else if c = c!"N" then s.scanWord b!"OTE: " .notePara true
  else if c = c!"T" then s.scanWord b!"IP: " .tipPara true
  else if c = c!"I" then s.scanWord b!"MPORTANT: " .importantPara true
  else if c = c!"C" then s.scanWord b!"AUTION: " .cautionPara true
  else if c = c!"W" then s.scanWord b!"ARNING: " .warningPara true
  else if c = c!"]" then addToken s .inlineMacroClose true 0
  else if c = c!"&" then s.scanAmp
  else if c = c!"{" then s.scanBrace
  else if c = c!"|" then s.scanPipe
  else if c = c!"\"" then s.scanDouble
  else if c = c!" " ∨ c = c!"%" then s.scanSpace
  else s.addText

/-- L66-440, `scan_token`: consume a byte and dispatch on it. -/
def scanToken (s : Scanner) : Item × Scanner :=
  dispatch { s with current := s.current + 1 } (s.src.getD s.current 0)

/-- L25-36, `Iterator::next`. -/
def next (s : Scanner) : Option (Item × Scanner) :=
  if s.isAtEnd then
    if s.scanning then
      some (.tok (Token.final s.line s.fileStack), { s with scanning := false })
    else none
  else some (scanToken { s with start := s.current })

/-- Iterating `next` (a `for` loop over the scanner) for at most `fuel` calls. After a panic or an endless
loop nothing more is produced. -/
def runF : Nat → Scanner → List Item
  | 0, _ => []
  | n + 1, s =>
    match s.next with
    | none => []
    | some (.panic p, _) => [.panic p]
    | some (.hang, _) => [.hang]
    | some (it, s') => it :: runF n s'

/-- All items of a scanner. `Verif/Props/Scanner.lean` shows that the bound is never reached. -/
def run (s : Scanner) : List Item := runF (s.src.length + 2) s

end Scanner

/-- All items of `Scanner::new(src)`. -/
def scan (src : Str) : List Item := (Scanner.new src).run

end Adoc
