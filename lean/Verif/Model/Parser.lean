import Verif.Model.Scanner
import Verif.Model.Asg
/-!
# The parser (`src/parser.rs`)

Line references are to `src/parser.rs`. Conventions:

* the `Asg` that Rust threads through as `&mut Asg` is a field of the parser state;
* `blocks`, `inlines` and `openLines` are stored with the *top* (Rust's `last`/`back`) first;
* the file system is a `World`: `resolve` is `resolve_target` (origin directory, parents of the including files,
  `canonicalize`), `read` is `fs::read_to_string`;
* `token_into` calls itself for the tokens of an included file and of a table cell. The model does this through
  fuel (`tokenInto`); running out of fuel is `Fail.hang`;
* `token.line as i32` in `parse_include` is taken as exact (fewer than 2^31 lines);
* logging is left out.
-/
namespace Adoc

/-- The file system as seen by the parser. -/
structure World where
  /-- `resolve_target` (L1517-1536): file stack and target to a canonical path, `none` if there is no such file -/
  resolve : List Str → Str → Option Str
  /-- `fs::read_to_string` in `open_file` (L1539-1550) -/
  read : Str → Option Str

/-- L33-81, `Parser`. -/
structure Parser where
  lastTy : TokenType := .eof
  header : Option Header := none
  attrs : SMap Str := []
  blocks : List Block := []
  inlines : List Inline := []
  files : List Str := []
  title : Option (List Inline) := none
  data : Option Meta := none
  openLines : List Nat := []
  openText : Option TokenType := none
  offset : Int := 0
  inBlockLine : Bool := false
  inSpan : Bool := false
  inCont : Bool := false
  forceNew : Bool := false
  preserveNl : Bool := false
  closeParent : Bool := false
  dangling : Option Token := none
  resolveTargets : Bool := true
  asg : Asg := Asg.new
deriving Repr

/-- First element with a property, with what comes before and after. -/
def splitFirst {α : Type} (f : α → Bool) : List α → Option (List α × α × List α)
  | [] => none
  | x :: xs =>
    if f x then some ([], x, xs)
    else match splitFirst f xs with
      | some (a, y, b) => some (x :: a, y, b)
      | none => none

/-- `str::split_terminator(c)`: like `split`, without a trailing empty piece. -/
def splitTerminatorB (c : UInt8) (s : Str) : List Str :=
  let l := splitOnB c s
  if l.getLast? = some [] then l.dropLast else l

namespace Parser

open Block (liftB)

/-- `asg.push_block(block)?` inside the parser. -/
def graphPush (p : Parser) (b : Block) : M Parser :=
  match p.asg.pushBlock b with
  | .ok g => .ok { p with asg := g }
  | .error e => .error (.err (.asg e))

/-- L1216-1284, `add_text_to_last_inline` (`pass = false`) and `pass_text_to_last_inline` (`pass = true`). -/
def addText (p : Parser) (t : Token) (pass : Bool) : M Parser :=
  let add := if pass then t.lexeme else t.text
  let lit : Inline := .lit .text add t.locations
  match p.inlines with
  | [] => .ok { p with inlines := [lit] }
  | .span v f is m l o :: rest =>
    if p.inSpan then .ok { p with inlines := Inline.addInline (.span v f is m l o) lit :: rest }
    else .ok { p with inlines := lit :: .span v f is m l o :: rest }
  | .lit n v l :: rest =>
    if n = .charref then .ok { p with inlines := lit :: .lit n v l :: rest }
    else .ok { p with inlines := Inline.litAdd n v l add t :: rest }
  | .ref v g is m l :: rest =>
    if p.closeParent then .ok { p with inlines := lit :: .ref v g is m l :: rest }
    else do
      let is' ← Inline.refAddText is t pass
      return { p with inlines := .ref v g is' m l :: rest }
  | .brk l :: rest => .ok { p with inlines := lit :: .brk l :: rest }

/-- One step of the loop that joins adjacent literals (L1313-1326), on a stack with the top first. -/
def mergeStep (acc : List Inline) (x : Inline) : List Inline :=
  match acc, x with
  | .lit n v l :: rest, .lit _ v' l' => .lit n (v ++ v') (reconcile l l') :: rest
  | acc, x => x :: acc

/-- L1286-1346, `handle_dangling_spans`. -/
def danglingSpans (p : Parser) : M Parser :=
  match splitFirst Inline.isOpen p.inlines with
  | none => .ok p
  | some (above, span, below) => do
    let pre ← span.markupLiteral
    let kids ← span.childInlines
    match kids with
    | [] =>
      let (line, startcol, endcol) := destructureLocs span.locations
      addText { p with inlines := above ++ below }
        ⟨.text, pre, some pre, line, startcol, endcol, p.files⟩ false
    | _ :: _ =>
      let kids' ← Inline.prependFirst pre (some span.locations) kids
      return { p with inlines := (below.reverse ++ kids' ++ above.reverse).foldl mergeStep [] }

/-- L1197-1214, `push_block_to_stack`. -/
def pushToStack (p : Parser) (b : Block) : M Parser :=
  if p.inCont && p.openLines.isEmpty then
    match p.blocks with
    | [] => .error (.err .blockContinuation)
    | last :: rest => do
      let last' ← liftB (last.pushBlock b)
      return { p with blocks := last' :: rest, inCont := false }
  else match p.data with
    | some m => do
      let b' ← b.addMeta m
      return { p with blocks := b' :: p.blocks, data := none }
    | none => .ok { p with blocks := b :: p.blocks }

/-- Add inlines to a block one by one (L1368-1371). -/
def pushInlines (b : Block) : List Inline → M Block
  | [] => .ok b
  | i :: is => do
    let b' ← liftB (b.pushInline i)
    pushInlines b' is

/-- L1375-1420: the new paragraph made of the inline stack. -/
def newParagraph (p : Parser) : M Parser := do
  let is := p.inlines.reverse
  let loc := match is with
    | i :: _ => i.locations
    | [] => []
  let para : Block := .leaf .paragraph .paragraph none is none loc
  let p := { p with inlines := [] }
  if p.inCont && p.openLines.isEmpty then
    match p.blocks with
    | [] => .error (.err .blockContinuation)
    | last :: rest =>
      let last' ← liftB (last.pushBlock para)
      return { p with blocks := last' :: rest }
  else match p.data with
    | some m =>
      match loc with
      | [] => .error (.panic .unwrap)
      | l0 :: _ =>
        if p.openLines.head? = some (l0.line + 1) ∨ (p.openLines.isEmpty ∧ m.declared = some .quote) then
          let q ← liftB (Block.pushBlock (.parent .quote none [] [] [] none []) para)
          p.pushToStack q
        else p.pushToStack para
    | none => p.pushToStack para

/-- L1348-1421, `add_inlines_to_block_stack`. -/
def addInlines (p : Parser) : M Parser :=
  if p.inlines.isEmpty then .ok p
  else do
    let p ← (if p.inSpan then p.danglingSpans else .ok p)
    match p.header with
    | some h => return { p with header := some { h with title := h.title ++ p.inlines.reverse }, inlines := [] }
    | none =>
      match p.blocks with
      | last :: rest =>
        if last.takesInlines && !p.inBlockLine && !p.forceNew then
          let last' ← pushInlines last p.inlines.reverse
          return { p with blocks := last' :: rest, inlines := [] }
        else p.newParagraph
      | [] => p.newParagraph

/-- L1433-1451, `add_last_list_item_to_list`. -/
def addLastItem (p : Parser) : M Parser := do
  let p ← addInlines { p with forceNew := false }
  match p.blocks with
  | [] => .error (.panic .unwrap)
  | item :: rest =>
    if item.isAnyItem then
      match rest with
      | [] => return { p with blocks := [] }
      | list :: rest' =>
        let list' ← liftB (list.pushBlock item)
        return { p with blocks := list' :: rest' }
    else pushToStack { p with blocks := rest } item

/-- L1453-1470, `add_to_block_stack_or_graph`. -/
def addToStackOrGraph (p : Parser) (b : Block) : M Parser :=
  let toGraph : M Parser := match p.data with
    | some m => do
      let b' ← b.addMeta m
      graphPush { p with data := none } b'
    | none => p.graphPush b
  match p.blocks with
  | last :: rest =>
    if last.takesBlock b then do
      let last' ← liftB (last.pushBlock b)
      return { p with blocks := last' :: rest }
    else toGraph
  | [] => toGraph

/-- L1472-1485, `add_last_to_block_stack_or_graph`. -/
def addLastToStackOrGraph (p : Parser) : M Parser :=
  match p.blocks with
  | [] => .error (.err .blockStack)
  | [b] => graphPush { p with blocks := [] } b
  | b :: prior :: rest =>
    if prior.takesBlock b then do
      let prior' ← liftB (prior.pushBlock b)
      return { p with blocks := prior' :: rest }
    else graphPush { p with blocks := prior :: rest } b

/-- L1487-1504, `add_last_block_to_graph`. -/
def addLastToGraph (p : Parser) : M Parser :=
  match p.blocks with
  | [] => .ok p
  | b :: rest => do
    let b ← (match p.data with
      | some m => b.addMeta m
      | none => .ok b)
    let p := { p with data := none, blocks := rest }
    match rest with
    | next :: rest' =>
      if next.takesBlock b then
        let next' ← liftB (next.pushBlock b)
        return { p with blocks := next' :: rest' }
      else p.graphPush b
    | [] => p.graphPush b

/-- `while self.block_stack.len() > n { self.add_last_block_to_graph(asg)? }` (L159-161, L630-632); each round
shortens the stack by one, so `fuel` is the length of the stack. -/
def drain (n : Nat) : Nat → Parser → M Parser
  | 0, p => .ok p
  | fuel + 1, p => if n < p.blocks.length then do
      let p ← p.addLastToGraph
      drain n fuel p
    else .ok p

/-- L430-441, `check_and_move_header`. -/
def moveHeader (p : Parser) : M Parser := do
  let p ← p.addInlines
  match p.header with
  | some h =>
    if h.title.isEmpty then return { p with header := none }
    else
      let h' := h.consolidate
      return { p with header := none, asg := p.asg.addHeader h' p.attrs }
  | none => return p

/-- L392-409, `parse_level_offset`: an unsigned number replaces the offset (wrapping to `i8`), anything else that
parses as `i8` is added to it. -/
def levelOffset (p : Parser) (value : Str) : M Parser :=
  match parseUnsigned 18446744073709551615 value with
  | some n =>
    let w := n % 256
    .ok { p with offset := if w < 128 then (w : Int) else (w : Int) - 256 }
  | none =>
    match parseSigned 127 value with
    | some d =>
      let o := p.offset + d
      if -128 ≤ o ∧ o ≤ 127 then .ok { p with offset := o } else .error (.panic .overflow)
    | none => .error (.err .internal)

/-- L368-390, `parse_attribute`. -/
def parseAttribute (p : Parser) (t : Token) : M Parser :=
  match splitTerminatorB c!":" t.text with
  | [] => .error (.panic .index)
  | [_] => .ok p
  | _ :: key :: more =>
    let last := (key :: more).getLast (by simp)
    let v := trim last
    let value := if key = v then [] else v
    if key = b!"leveloffset" then p.levelOffset value
    else .ok { p with attrs := p.attrs.insert key value }

/-- L411-422 and L1424-1431: block anchors and attribute lists. -/
def parseBlockMeta (p : Parser) (t : Token) : M Parser := do
  let m ← (match p.data with
    | some m => m.addFromToken t
    | none => Meta.blockFromToken t)
  return { p with data := some m, forceNew := true }

/-- L423-427, `parse_inline_element_attributes`. -/
def parseInlineMeta (p : Parser) (t : Token) : M Parser := do
  let m ← Meta.inlineFromToken t
  return { p with data := some m, forceNew := true }

/-- L457-486: the second of two newlines (or a newline at the start) ends the current block. -/
def blankLine (p : Parser) : M Parser := do
  let p := { p with dangling := none }
  match p.header with
  | some _ => p.moveHeader
  | none =>
    let p ← (match p.blocks with
      | b :: _ => if b.isAnyItem then p.addLastItem else .ok p
      | [] => .ok p)
    let p ← addInlines { p with inSpan := false }
    let p := { p with forceNew := true }
    match p.blocks with
    | [] => return p
    | b :: rest =>
      let p := { p with blocks := rest }
      if !b.isSection && p.openLines.isEmpty then
        let p ← p.addToStackOrGraph b
        if p.closeParent && !p.blocks.isEmpty then
          let p ← p.addLastToStackOrGraph
          return { p with closeParent := false }
        else return p
      else p.pushToStack b

/-- L445-494, `parse_new_line_char`. -/
def parseNewLine (p : Parser) (t : Token) : M Parser :=
  let p := { p with inBlockLine := false }
  let p := match p.title with
    | some ti => { p with title := some (ti ++ p.inlines.reverse), inlines := [] }
    | none => p
  if p.lastTy = .newLineChar ∨ p.lastTy = .eof then p.blankLine
  else if p.inCont || p.lastTy.clearsNewlineAfter then .ok { p with dangling := none }
  else .ok { p with dangling := some t }

/-- L640-679, `parse_description_list_term`. -/
def parseDlistTerm (p : Parser) (t : Token) : M Parser := do
  let p := { p with forceNew := false }
  let p ← (match splitFirst Inline.isNewline p.inlines.reverse with
    | some (before, _, after) => do
      let p ← addInlines { p with inlines := before.reverse }
      .ok { p with inlines := after.reverse ++ p.inlines }
    | none => .ok p)
  let terms := p.inlines.reverse
  let loc := terms.foldl (fun l i => reconcile l i.locations) t.locations
  let item : Block := .dlistItem terms [] [] none loc
  let p := { p with inlines := [] }
  let p ← (match p.blocks with
    | b :: _ => if b.isDlistItem then p.addLastItem else p.pushToStack (.dlist [] none loc)
    | [] => p.pushToStack (.dlist [] none loc))
  let p ← p.pushToStack item
  return { p with preserveNl := true }

/-- L681-709, `parse_ordered_list_item`. -/
def parseOrdered (p : Parser) (t : Token) : M Parser := do
  let p := { p with dangling := none }
  let newList (p : Parser) : M Parser := do
    if t.ty = .codeCalloutListItem then
      let p ← (match p.blocks with
        | b :: _ => if b.isSourceBlock then p.addLastToStackOrGraph else .ok p
        | [] => .ok p)
      p.pushToStack (.list .ordered [] (some (Meta.withRole b!"colist")) t.locations)
    else p.pushToStack (.list .ordered [] none t.locations)
  let p ← (match p.blocks with
    | b :: _ => if b.isOrderedItem then p.addLastItem else newList p
    | [] => newList p)
  p.pushToStack (Block.newListItem t)

/-- L711-730, `parse_unordered_list_item`. -/
def parseUnordered (p : Parser) (t : Token) : M Parser := do
  let p := { p with dangling := none }
  let newList : M Parser := p.pushToStack (.list .unordered [] none t.locations)
  let p ← (match p.blocks with
    | b :: _ => if b.isUnorderedItem then p.addLastItem else newList
    | [] => newList)
  p.pushToStack (Block.newListItem t)

/-- Level of a heading token before the offset (L782-788). -/
def baseLevel : TokenType → Option Int
  | .heading1 => some 0
  | .heading2 => some 1
  | .heading3 => some 2
  | .heading4 => some 3
  | .heading5 => some 4
  | _ => none

/-- L781-811, `get_heading_level`. -/
def headingLevel (p : Parser) (t : Token) : M Nat :=
  match baseLevel t.ty with
  | none => .error (.err .internal)
  | some b =>
    let level := b + p.offset
    if level > 127 then .error (.panic .overflow)
    else if 1 ≤ level ∧ level ≤ 4 then .ok level.toNat
    else .error (.err (.headingOffset t.line p.offset))

/-- L752-778, `parse_section_headings`. -/
def parseSection (p : Parser) (t : Token) : M Parser := do
  let level ← p.headingLevel t
  let p ← (match p.blocks with
    | b :: _ => if b.isSection then p.addLastToStackOrGraph else .ok p
    | [] => .ok p)
  let p ← p.pushToStack (.section [] none level [] [t.firstLocation])
  return { p with inBlockLine := true, dangling := none, forceNew := false }

/-- L734-750, `parse_title`. -/
def parseTitle (p : Parser) (t : Token) : M Parser :=
  if p.offset ≠ 0 then p.parseSection t
  else if t.firstLocation = Location.default then
    .ok { p with inBlockLine := true, header := some ⟨[], t.locations⟩ }
  else .error (.err (.topLevelHeading t.line))

/-- L813-818, `parse_admonition_para_syntax`. -/
def parseAdmonition (p : Parser) (t : Token) : M Parser := do
  let b ← liftB (Block.parentFromToken t)
  return { p with blocks := b :: p.blocks, closeParent := true }

/-- L820-825, `parse_block_continuation`. -/
def parseContinuation (p : Parser) : M Parser := do
  let p ← p.addInlines
  return { p with inCont := true, forceNew := true }

/-- The last inline of a span is closed by an equal marker, otherwise the marker is added (L836-845). -/
def closeOrAdd (inline : Inline) : List Inline → Option (M (List Inline))
  | [] => none
  | [y] => if inline.sameKind y then some (do
        let y' ← (y.reconcileLocations inline.locations).close
        return [y'])
      else none
  | y :: ys => (closeOrAdd inline ys).map fun r => do
      let r ← r
      return y :: r

/-- L849-864: open a new span at the end of the inline stack. -/
def openSpan (p : Parser) (inline : Inline) : M Parser := do
  let p ← (match p.dangling with
    | some t => do
      let p ← p.addText t false
      .ok { p with dangling := none }
    | none => .ok p)
  let p ← p.danglingSpans
  match p.data with
  | some m =>
    let i ← inline.addMeta m
    return { p with data := none, inlines := i :: p.inlines, inSpan := true }
  | none => return { p with inlines := inline :: p.inlines, inSpan := true }

/-- L828-865, `parse_inline_span`. -/
def parseSpan (p : Parser) (inline : Inline) : M Parser :=
  match p.inlines with
  | last :: rest =>
    if inline.sameKind last then do
      let last' ← (last.reconcileLocations inline.locations).close
      return { p with inlines := last' :: rest, inSpan := false }
    else match last with
      | .span v f is m l o =>
        match closeOrAdd inline is with
        | some r => do
          let is' ← r
          return { p with inlines := .span v f is' m l o :: rest }
        | none => .ok { p with inlines := Inline.addInline (.span v f is m l o) inline :: rest }
      | _ => p.openSpan inline
  | [] => p.openSpan inline

/-- L1506-1515, `check_target`. -/
def checkTarget (w : World) (p : Parser) (line : Nat) (target : Str) : M Unit :=
  if p.resolveTargets then
    match w.resolve p.files target with
    | some _ => .ok ()
    | none => .error (.err (.targetResolution line target))
  else .ok ()

/-- L881-895, `parse_block_image` (with `BlockMacro::add_metadata`, `blocks.rs:954-960`). -/
def parseBlockImage (w : World) (p : Parser) (t : Token) : M Parser := do
  let (target, m) ← targetAndAttrs t
  checkTarget w p t.line target
  let m' := match p.data with
    | some incoming => match m with
      | some own => some (own.addFromOther incoming)
      | none => some incoming
    | none => m
  let caption := p.title.getD []
  addToStackOrGraph { p with data := none, title := none } (.image target caption m' t.locations)

/-- L897-908, `parse_inline_image_macro`; the outcome of the target check is ignored. -/
def parseInlineImage (p : Parser) (t : Token) : M Parser := do
  let (target, m) ← targetAndAttrs t
  return { p with inlines := Inline.imageRef target m t.locations :: p.inlines, closeParent := true }

/-- L910-917, `parse_footnote_macro`. -/
def parseFootnote (p : Parser) (t : Token) : M Parser := do
  let s ← Inline.spanFromToken t
  return { p with inlines := s :: p.inlines, inSpan := true }

/-- Push inlines into a macro one by one (L934-937). -/
def absorb (x : Inline) : List Inline → M Inline
  | [] => .ok x
  | i :: is => do
    let x' ← x.pushInline i
    absorb x' is

/-- L924-950, `parse_inline_macro_close`. -/
def parseMacroClose (p : Parser) (t : Token) : M Parser :=
  if p.openText = some .passthroughInlineMacro then .ok { p with openText := none }
  else match splitFirst Inline.isMacro p.inlines with
    | some (above, x, below) => do
      let x ← absorb x above.reverse
      let x ← x.consolidateFromToken t
      return { p with inlines := x :: below, closeParent := true, inSpan := false }
    | none => p.addText t false

/-- L996-1017 `parse_text` (`pass = false`), L1019-1040 `pass_text_through` (`pass = true`). -/
def parseText (p : Parser) (t : Token) (pass : Bool) : M Parser :=
  match p.dangling with
  | some nl =>
    if p.preserveNl then
      .ok { p with
        inlines := (if pass then Inline.passFromToken t else Inline.textFromToken t)
          :: Inline.textFromToken nl :: p.inlines
        dangling := none }
    else do
      let p ← p.addText nl false
      addText { p with dangling := none } t pass
  | none => p.addText t pass

/-- L954-971, `parse_attribute_reference`. -/
def parseAttrRef (p : Parser) (t : Token) : M Parser := do
  let target ← sliceM t.text 1 (t.text.length - 1)
  match p.attrs.get? target with
  | some v =>
    if t.startcol + v.length = 0 then .error (.panic .overflow)
    else p.parseText { t with lit := some v, endcol := t.startcol + v.length - 1 } false
  | none => p.parseText t false

/-- L973-978, `parse_cross_reference`. -/
def parseXref (p : Parser) (t : Token) : M Parser := do
  let x ← Inline.xrefFromToken t
  return { p with inlines := x :: p.inlines, closeParent := true }

/-- L980-994, `parse_code_callout`. -/
def parseCallout (p : Parser) (t : Token) : M Parser :=
  if p.attrs.get? b!"icons" = some b!"true" ∧ p.inlines ≠ [] then .error (.panic .todo)
  else do
    let s ← Inline.spanFromToken t
    return { p with inlines := s :: p.inlines }

/-- L1060-1083: place a character reference. -/
def addCharref (p : Parser) (x : Inline) : M Parser :=
  match p.inlines with
  | .span v f is m l o :: rest =>
    if p.inSpan then .ok { p with inlines := Inline.addInline (.span v f is m l o) x :: rest }
    else .ok { p with inlines := x :: .span v f is m l o :: rest }
  | .ref v g is m l :: rest =>
    if p.closeParent then .ok { p with inlines := x :: .ref v g is m l :: rest }
    else .ok { p with inlines := .ref v g (is ++ [x]) m l :: rest }
  | rest => .ok { p with inlines := x :: rest }

/-- L1042-1085, `parse_charref`. -/
def parseCharref (p : Parser) (t : Token) : M Parser :=
  let x := Inline.charrefFromToken t
  match p.dangling with
  | some nl =>
    if p.preserveNl then
      .ok { p with inlines := x :: Inline.textFromToken nl :: p.inlines, dangling := none }
    else do
      let p ← p.addText nl false
      addCharref { p with dangling := none } x
  | none => p.addCharref x

/-- L1087-1108, `parse_delimited_leaf_block`. -/
def parseLeaf (p : Parser) (t : Token) : M Parser :=
  match p.openText with
  | some _ => do
    let p ← p.addInlines
    match p.blocks with
    | [] => .error (.err (.openParse t.line))
    | b :: rest =>
      let b' ← b.addLocations t.locations
      let p ← pushToStack { p with blocks := rest } b'
      return { p with openText := none }
  | none => do
    let b ← liftB (Block.leafFromToken t)
    let p ← pushToStack { p with openText := some t.ty } b
    return { p with forceNew := false }

/-- Push blocks into a block one by one (L1148-1150). -/
def pushBlocks (b : Block) : List Block → M Block
  | [] => .ok b
  | x :: xs => do
    let b' ← liftB (b.pushBlock x)
    pushBlocks b' xs

/-- L1163-1165: open a delimited parent block. -/
def openParent (p : Parser) (line : Nat) (b : Block) : M Parser :=
  pushToStack { p with openLines := line :: p.openLines } b

/-- L1132-1157: close the parent block `matched`; `above` and `below` are the blocks of the stack above and below
it. The last argument is the location of the closing delimiter. -/
def closeParentBlock (p : Parser) (above below : List Block) (n : ParentName) (v : Option ParentVariant)
    (d : Str) (bs : List Block) (ti : List Inline) (m : Option Meta) (l loc : List Location) : M Parser := do
  let p ← addInlines { p with blocks := above ++ below }
  match p.openLines with
  | [] => .error (.err .delimitedBlock)
  | _ :: lines =>
    if l.isEmpty then .error (.err (.block .location))
    else
      let inner := (p.blocks.take (p.blocks.length - below.length)).reverse
      let b ← pushBlocks (.parent n v d bs ti m (reconcile l loc)) inner
      let b ← (if b.isTable then b.tableInfo else .ok b)
      let p ← pushToStack { p with openLines := lines, blocks := p.blocks.drop (p.blocks.length - below.length) } b
      return { p with inCont := false }

/-- L1110-1166, `parse_delimited_parent_block`. -/
def parseParent (p : Parser) (t : Token) : M Parser :=
  match Block.parentKind t.ty with
  | none => .error (.err (.block .invalidToken))
  | some (n', v') =>
    let block : Block := .parent n' v' t.text [] (p.title.getD []) none t.locations
    let p := { p with dangling := none, title := none }
    match splitFirst Block.isParent p.blocks with
    | some (above, .parent n v d bs ti m l, below) =>
      if Block.parentEq n v n' v' then p.closeParentBlock above below n v d bs ti m l t.locations
      else p.openParent t.line block
    | _ => p.openParent t.line block

/-- `TokenType::CommentBlock` (L342-356). -/
def parseCommentBlock (p : Parser) (t : Token) : M Parser :=
  match p.openText with
  | some ty =>
    if ty = .commentBlock then
      .ok { p with inlines := [], blocks := p.blocks.tail, forceNew := true, openText := none }
    else .ok p
  | none => p.parseLeaf t

/-- `TokenType::QuoteVerseBlock` (L297-311). -/
def parseQuoteVerse (p : Parser) (t : Token) : M Parser :=
  match p.data with
  | some m => if m.declared = some .verse then p.parseLeaf t else p.parseParent t
  | none => match p.openText with
    | some _ => p.parseLeaf t
    | none => p.parseParent t

/-- Feed items to `f` one by one; `setLast` says whether `last_token_type` is updated (it is in `parse` and for
included AsciiDoc, not in table cells). -/
def feed (f : Token → Parser → M Parser) (setLast : Bool) : List Item → Parser → M Parser
  | [], p => .ok p
  | .tok t :: rest, p => do
    let p ← f t p
    feed f setLast rest (if setLast then { p with lastTy := t.ty } else p)
  | .err e :: _, _ => .error (.err (.scanner e))
  | .panic s :: _, _ => .error (.panic s)
  | .hang :: _, _ => .error .hang

/-- L1168-1195, `parse_table_cell`; `f` is `token_into`. -/
def parseTableCell (f : Token → Parser → M Parser) (p : Parser) (t : Token) : M Parser := do
  let contents ← sliceM t.text 1 t.text.length
  let p ← p.pushToStack (.tableCell [] none t.locations)
  let shifted (u : Token) (p : Parser) : M Parser := do
    let u' ← u.offsetBy t.line t.startcol
    f u' p
  let p ← feed shifted false (scan contents) { p with dangling := none }
  addInlines { p with inBlockLine := false, forceNew := false }

/-- What an include directive selects (L524-554). -/
structure Selection where
  lines : List Int := []
  toEnd : Bool := false
  tags : List Str := []
deriving DecidableEq, Repr

/-- The `lines` attribute (L539-547). -/
def selectLines (value : Str) : M (List Int × Bool) := do
  let l ← pageRanges value
  if l.getLast? = some (-1) then return (l.dropLast, true) else return (l, false)

/-- L532-554: level offset, lines and tags of an include. -/
def selection (p : Parser) (m : Option Meta) : M (Parser × Selection) :=
  match m with
  | none => .ok (p, {})
  | some m => do
    let p ← (match m.attributes.get? b!"leveloffset" with
      | some v => p.levelOffset v
      | none => .ok p)
    let (lines, toEnd) ← (match m.attributes.get? b!"lines" with
      | some v => selectLines v
      | none => .ok ([], false))
    let tag := match m.attributes.get? b!"tag" with
      | some v => [v]
      | none => []
    let tags := match m.attributes.get? b!"tags" with
      | some v => splitOnB c!";" v
      | none => []
    return (p, { lines, toEnd, tags := tag ++ tags })

/-- Outcome of the line filter (L577-585) for a token: skip it, or keep it with the remaining line set. -/
def lineFilter (lines : List Int) (toEnd : Bool) (line : Nat) : Option (List Int) :=
  if lines.isEmpty then some lines
  else if !lines.contains (line : Int) then none
  else if toEnd && (match lines.getLast? with
      | some l => decide (l ≤ (line : Int))
      | none => false) then some []
  else some lines

/-- Outcome of the tag filter (L587-607) for a token: the current tag afterwards, and whether the token is kept. -/
def tagFilter (tags : List Str) (cur : Option Str) (t : Token) : M (Option Str × Bool) :=
  if tags.isEmpty then .ok (cur, true)
  else if t.ty = .startTag then do
    match ← t.tag with
    | some g => return if tags.contains g then (some g, false) else (cur, cur.isSome)
    | none => return (cur, cur.isSome)
  else if t.ty = .endTag then do
    match ← t.tag with
    | some g => return if cur = some g then (none, false) else (cur, cur.isSome)
    | none => return (cur, cur.isSome)
  else .ok (cur, cur.isSome)

/-- One kept token of an included file (L608-620). -/
def includeToken (f : Token → Parser → M Parser) (asciidoc : Bool) (t : Token) (p : Parser) : M Parser :=
  if asciidoc then do
    let p ← f t p
    return { p with lastTy := t.ty }
  else parseText { p with lastTy := if t.ty = .eof then .eof else .text } t false

/-- L572-624: the loop over the tokens of an included file. -/
def includeLoop (f : Token → Parser → M Parser) (asciidoc toEnd : Bool) (tags : List Str) :
    List Item → List Int → Option Str → Parser → M Parser
  | [], _, _, p => .ok p
  | .tok t :: rest, lines, cur, p =>
    match lineFilter lines toEnd t.line with
    | none => includeLoop f asciidoc toEnd tags rest lines cur p
    | some lines' => do
      let (cur', keep) ← tagFilter tags cur t
      let p ← (if keep then includeToken f asciidoc t p else .ok p)
      includeLoop f asciidoc toEnd tags rest lines' cur' p
  | .err e :: _, _, _, _ => .error (.err (.scanner e))
  | .panic s :: _, _, _, _ => .error (.panic s)
  | .hang :: _, _, _, _ => .error .hang

/-- L564-569: is the target parsed as AsciiDoc? -/
def isAsciidoc (target : Str) : Bool :=
  match (splitOnB c!"." target).getLast? with
  | some e => e = b!"adoc" || e = b!"asciidoc" || e = b!"txt"
  | none => false

/-- L522-636, `parse_include`; `f` is `token_into`. -/
def parseInclude (w : World) (f : Token → Parser → M Parser) (p : Parser) (t : Token) : M Parser := do
  let (target, m) ← targetAndAttrs t
  let (p, sel) ← p.selection m
  match w.resolve p.files target with
  | none => .error (.err (.targetResolution t.line target))
  | some path =>
    let p := { p with files := p.files ++ [target] }
    let len := p.blocks.length
    match w.read path with
    | none => .error .exit
    | some src =>
      let items := (Scanner.newWithStack src p.files).run
      let p ← includeLoop f (isAsciidoc target) sel.toEnd sel.tags items sel.lines none p
      let p ← p.addInlines
      let p ← drain len p.blocks.length p
      return { p with files := p.files.dropLast }

/-- L215-365: the `match` on the token type. -/
def dispatchToken (w : World) (f : Token → Parser → M Parser) (p : Parser) (t : Token) : M Parser :=
  match t.ty with
  | .heading1 => p.parseTitle t
  | .heading2 | .heading3 | .heading4 | .heading5 => p.parseSection t
  | .attribute => p.parseAttribute t
  | .blockLabel => .ok { p with title := some [], inBlockLine := true, dangling := none }
  | .blockAnchor | .elementAttributes => p.parseBlockMeta t
  | .inlineStyle => p.parseInlineMeta t
  | .newLineChar => p.parseNewLine t
  | .text => p.parseText t false
  | .charRef => p.parseCharref t
  | .strong | .mark | .monospace | .literal | .emphasis | .superscript | .subscript
  | .unconstrainedStrong | .unconstrainedMark | .unconstrainedMonospace | .unconstrainedLiteral
  | .unconstrainedEmphasis => do
    let s ← Inline.spanFromToken t
    p.parseSpan s
  | .openDoubleQuote | .closeDoubleQuote | .openSingleQuote | .closeSingleQuote => p.parseText t false
  | .attributeReference => p.parseAttrRef t
  | .crossReference => p.parseXref t
  | .include => p.parseInclude w f t
  | .startTag | .endTag => .ok p
  | .footnoteMacro => p.parseFootnote t
  | .linkMacro => .ok { p with inlines := Inline.linkFromMacroToken t :: p.inlines }
  | .hyperlink => .ok { p with inlines := Inline.linkFromToken t :: p.inlines }
  | .inlineImageMacro => p.parseInlineImage t
  | .passthroughInlineMacro => .ok { p with openText := some t.ty }
  | .inlineMacroClose => p.parseMacroClose t
  | .pageBreak => p.addToStackOrGraph (.brk .page t.locations)
  | .thematicBreak => p.addToStackOrGraph (.brk .thematic t.locations)
  | .lineContinuation => .ok { p with inlines := .brk t.locations :: p.inlines }
  | .sidebarBlock | .openBlock | .exampleBlock | .table => p.parseParent t
  | .tableCell => p.parseTableCell f t
  | .quoteVerseBlock => p.parseQuoteVerse t
  | .passthroughBlock | .literalBlock | .sourceBlock => p.parseLeaf t
  | .codeCallout => p.parseCallout t
  | .blockImageMacro => parseBlockImage w p t
  | .unorderedListItem => p.parseUnordered t
  | .codeCalloutListItem | .orderedListItem => p.parseOrdered t
  | .descriptionListMarker => p.parseDlistTerm t
  | .notePara | .tipPara | .importantPara | .cautionPara | .warningPara => p.parseAdmonition t
  | .blockContinuation => p.parseContinuation
  | .comment => .ok p
  | .commentBlock => p.parseCommentBlock t
  | .eof => if p.header.isSome then p.moveHeader else .ok p
  | .email => .error (.panic .todo)

/-- L173-213: what an open verbatim context does with a token: `none` lets it through to `dispatchToken`, `some b`
takes it as text (`b` says whether the lexeme is passed through). -/
def verbatim (p : Parser) (t : Token) : Option Bool :=
  match p.openText with
  | none => none
  | some .quoteVerseBlock => if t.ty = .quoteVerseBlock ∨ t.isInline then none else some false
  | some .passthroughInlineMacro =>
    if t.ty = .passthroughInlineMacro ∨ t.ty = .inlineMacroClose then none else some true
  | some .passthroughBlock => if t.ty = .passthroughBlock then none else some true
  | some .literalBlock => if t.ty = .literalBlock then none else some true
  | some .commentBlock => if t.ty = .commentBlock then none else some true
  | some .sourceBlock =>
    if t.ty = .sourceBlock ∨ t.ty = .codeCallout ∨ t.ty = .include then none else some true
  | some _ => none

/-- L167-366, `token_into`, with `f` for the recursive calls. -/
def step (w : World) (f : Token → Parser → M Parser) (t : Token) (p : Parser) : M Parser := do
  let p ← (if p.header.isSome && !t.canBeInHeader then p.moveHeader else .ok p)
  match p.verbatim t with
  | some pass => p.parseText t pass
  | none => p.dispatchToken w f t

/-- L167-366, `token_into`, with at most `fuel` nested calls. -/
def tokenInto (w : World) : Nat → Token → Parser → M Parser
  | 0 => fun _ _ => .error .hang
  | fuel + 1 => step w (tokenInto w fuel)

/-- L156-163: what `parse` does after the last token. -/
def finish (p : Parser) : M Parser := do
  let p ← p.addInlines
  let p ← drain 0 p.blocks.length p
  return { p with asg := p.asg.consolidate }

/-- L139-165, `parse`; the result contains the graph as `asg`. -/
def parse (w : World) (fuel : Nat) (items : List Item) (p : Parser) : M Parser := do
  let p ← feed (tokenInto w fuel) true items p
  p.finish

/-- L100-127, `Parser::new`. -/
def new : Parser := {}
/-- L132-136, `new_no_target_resolution`. -/
def newNoTargets : Parser := { resolveTargets := false }

end Parser

/-- `Parser::new(origin).parse(Scanner::new(src))` (`main.rs:36-42`). -/
def parseText (w : World) (fuel : Nat) (src : Str) : M Asg := do
  let p ← Parser.parse w fuel (scan src) Parser.new
  return p.asg

end Adoc
