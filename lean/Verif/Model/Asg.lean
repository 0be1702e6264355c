import Verif.Model.Block
/-!
# The document graph (`src/graph/asg.rs`, `Header` in `src/graph/nodes.rs`)
-/
namespace Adoc

/-- `nodes.rs:15-21`, `Header`; `authors` is never set. -/
structure Header where
  title : List Inline
  loc : List Location
deriving Repr

/-- `nodes.rs:42-46`, `Header::consolidate`. -/
def Header.consolidate (h : Header) : Header := { h with loc := Block.recInlines h.loc h.title }

/-- One byte of `Header::document_id`: ASCII letters become lower case, other ASCII bytes that are not letters or
digits become `_`. Bytes `≥ 0x80` are kept (simplification: Rust works on characters, so a non-ASCII character that
is not a letter or digit becomes one `_`, and other letters are lower-cased too). -/
def idByte (b : UInt8) : UInt8 :=
  if 0x80 ≤ b then b
  else if 0x41 ≤ b && b ≤ 0x5A then b + 32
  else if isDigit b || (0x61 ≤ b && b ≤ 0x7A) then b
  else c!"_"

/-- `nodes.rs:53-64`, `Header::document_id`. -/
def Header.documentId (h : Header) : Str := (Inline.textL h.title).map idByte

/-- `asg.rs:17-40`, `Asg`. -/
structure Asg where
  attributes : Option (SMap Str)
  header : Option Header
  documentId : Str
  idHash : SMap (List Inline)
  blocks : List Block
  loc : List Location
deriving Repr

namespace Asg

/-- `asg.rs:56-67`, `Asg::new`. -/
def new : Asg := ⟨none, none, [], [], [], [Location.default]⟩

/-- `asg.rs:77-83`, `add_header`. -/
def addHeader (g : Asg) (h : Header) (attrs : SMap Str) : Asg :=
  { g with documentId := h.documentId, header := some h, attributes := some attrs }

/-- `asg.rs:86-103`, `push_block`. -/
def pushBlock (g : Asg) (b : Block) : Except BlockError Asg := do
  let b' := b.consolidate
  let hash := SMap.extend g.idHash b'.idHashes
  if b'.isSection then
    let bs ← Block.pushSectionL g.blocks b'
    return { g with idHash := hash, blocks := bs }
  else return { g with idHash := hash, blocks := g.blocks ++ [b'] }

/-- `asg.rs:106-115`, `consolidate_locations`. -/
def consolidateLocations (g : Asg) : Asg :=
  match g.blocks.getLast? with
  | some b => { g with loc := reconcile g.loc b.locations }
  | none => match g.header with
    | some h => { g with loc := reconcile g.loc h.loc }
    | none => g

/-- `asg.rs:120-127`, `consolidate_xrefs`. -/
def consolidateXrefs (g : Asg) : Asg :=
  { g with blocks := Block.mapInlinesL (Inline.resolveXref g.idHash) g.blocks }

/-- `asg.rs:72-75`, `consolidate`. -/
def consolidate (g : Asg) : Asg := g.consolidateLocations.consolidateXrefs

/-- `asg.rs:131-143`, `standardize_footnotes`; not called by the binary. -/
def standardizeFootnotes (g : Asg) : M Asg := do
  let r ← Block.footnotesL g.documentId 0 g.blocks
  match pushBlock { g with blocks := r.1 } (.parent .footnoteContainer none [] r.2 [] none []) with
  | .ok g' => return g'
  | .error e => .error (.err (.asg e))

/-- `asg.rs:147-153`, `all_text`. -/
def allText (g : Asg) : Str := Block.textL g.blocks

end Asg

/-- Number of maximal runs of non-white-space characters; `inWord` says that the previous character belongs to a
run, `fuel` bounds the number of characters. -/
def wordsF : Nat → Bool → Str → Nat
  | 0, _, _ => 0
  | _ + 1, _, [] => 0
  | n + 1, inWord, b :: bs =>
    if wsLen (b :: bs) = 0 then (if inWord then 0 else 1) + wordsF n true bs
    else wordsF n false ((b :: bs).drop (wsLen (b :: bs)))

/-- `str::split_whitespace().count()`. -/
def countWords (s : Str) : Nat := wordsF (s.length + 1) false s

/-- `asg.rs:155-157`, `word_count`. -/
def Asg.wordCount (g : Asg) : Nat := countWords g.allText

end Adoc
