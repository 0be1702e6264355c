import Verif.Model.Inline
/-!
# Blocks (`src/graph/blocks.rs`, `src/graph/lists.rs`)

Line references without a file are to `src/graph/blocks.rs`. Left out: constant fields (`name`, `node_type`,
`form` of macros and parents, `reftext`, `Section::id`, which is never set to anything but the empty string by the
parser), and the variants that are never constructed (`SectionBody`, `NonSectionBlockBody`, `DiscreteHeading`,
`BlockMetadata`, `ListVariant::Callout`, the macro names other than `Image`, `Stem`, `Comment`, `Indented`).
-/
namespace Adoc

/-- L881-886. -/
inductive BreakVariant where
  | page | thematic
deriving DecidableEq, Repr

/-- `lists.rs:55-61`. -/
inductive ListVariant where
  | ordered | unordered
deriving DecidableEq, Repr

/-- L978-988. -/
inductive LeafName where
  | listing | literal | paragraph | pass | verse
deriving DecidableEq, Repr

/-- L989-995. -/
inductive LeafForm where
  | delimited | paragraph
deriving DecidableEq, Repr

/-- L1118-1129. -/
inductive ParentName where
  | admonition | example_ | sidebar | open_ | quote | table | footnoteContainer
deriving DecidableEq, Repr

/-- L1131-1139. -/
inductive ParentVariant where
  | caution | important | note | tip | warning
deriving DecidableEq, Repr

/-- L15-39, `Block`. -/
inductive Block where
  | section (title : List Inline) (data : Option Meta) (level : Nat) (blocks : List Block) (loc : List Location)
  | list (variant : ListVariant) (items : List Block) (data : Option Meta) (loc : List Location)
  | listItem (marker : Str) (principal : List Inline) (blocks : List Block) (data : Option Meta)
      (loc : List Location)
  | dlist (items : List Block) (data : Option Meta) (loc : List Location)
  | dlistItem (terms principal : List Inline) (blocks : List Block) (data : Option Meta) (loc : List Location)
  | brk (variant : BreakVariant) (loc : List Location)
  | image (target : Str) (caption : List Inline) (data : Option Meta) (loc : List Location)
  | leaf (name : LeafName) (form : LeafForm) (delimiter : Option Str) (inlines : List Inline)
      (data : Option Meta) (loc : List Location)
  | parent (name : ParentName) (variant : Option ParentVariant) (delimiter : Str) (blocks : List Block)
      (title : List Inline) (data : Option Meta) (loc : List Location)
  | tableCell (inlines : List Inline) (data : Option Meta) (loc : List Location)
deriving Repr

namespace Block

/-- L594-611, `locations`. -/
def locations : Block → List Location
  | .section _ _ _ _ l => l
  | .list _ _ _ l => l
  | .listItem _ _ _ _ l => l
  | .dlist _ _ l => l
  | .dlistItem _ _ _ _ l => l
  | .brk _ l => l
  | .image _ _ _ l => l
  | .leaf _ _ _ _ _ l => l
  | .parent _ _ _ _ _ _ l => l
  | .tableCell _ _ l => l

/-- Locations reconciled with those of the last block of a list, if there is one. -/
def recBlocks (l : List Location) (bs : List Block) : List Location :=
  match bs.getLast? with
  | some b => reconcile l b.locations
  | none => l

/-- Locations reconciled with those of the last inline of a list, if there is one. -/
def recInlines (l : List Location) (is : List Inline) : List Location :=
  match is.getLast? with
  | some i => reconcile l i.locations
  | none => l

mutual
/-- L623-695, `consolidate_locations`: descends only into lists and description lists. -/
def consolidate : Block → Block
  | .section t m v bs l => .section t m v bs (recBlocks (recInlines l t) bs)
  | .leaf n f d is m l => .leaf n f d is m (recInlines l is)
  | .list v items m l => let items' := consolidateL items; .list v items' m (recBlocks l items')
  | .dlist items m l => let items' := consolidateL items; .dlist items' m (recBlocks l items')
  | .listItem k p bs m l => .listItem k p bs m (if bs.isEmpty then recInlines l p else recBlocks l bs)
  | .dlistItem t p bs m l => .dlistItem t p bs m (if bs.isEmpty then recInlines l p else recBlocks l bs)
  | .parent n v d bs t m l => .parent n v d bs t m (recBlocks l bs)
  | .tableCell is m l => .tableCell is m (recInlines l is)
  | .brk v l => .brk v l
  | .image t c m l => .image t c m l
/-- `consolidate_locations` of each block. -/
def consolidateL : List Block → List Block
  | [] => []
  | b :: bs => consolidate b :: consolidateL bs
end

/-- L157-159. -/
def isSection : Block → Bool
  | .section .. => true
  | _ => false

/-- L182-184. -/
def isListItem : Block → Bool
  | .listItem .. => true
  | _ => false

/-- L200-202. -/
def isDlistItem : Block → Bool
  | .dlistItem .. => true
  | _ => false

/-- `matches!(b, Block::ListItem(_) | Block::DListItem(_))`. -/
def isAnyItem : Block → Bool
  | .listItem .. | .dlistItem .. => true
  | _ => false

/-- `matches!(b, Block::List(_))`. -/
def isList : Block → Bool
  | .list .. => true
  | _ => false

/-- `matches!(b, Block::TableCell(_))`. -/
def isTableCell : Block → Bool
  | .tableCell .. => true
  | _ => false

/-- `matches!(b, Block::ParentBlock(_))`. -/
def isParent : Block → Bool
  | .parent .. => true
  | _ => false

/-- L161-166, `is_source_block`. -/
def isSourceBlock : Block → Bool
  | .leaf n _ _ _ _ _ => n = .listing
  | _ => false

/-- L168-173, `level_check`. -/
def levelCheck : Block → Option Nat
  | .section _ _ v _ _ => some v
  | _ => none

/-- L186-191, `is_ordered_list_item`. -/
def isOrderedItem : Block → Bool
  | .listItem k _ _ _ _ => k = b!"." || k.contains c!"<"
  | _ => false

/-- L193-198, `is_unordered_list_item`. -/
def isUnorderedItem : Block → Bool
  | .listItem k _ _ _ _ => k = b!"*"
  | _ => false

/-- L204-210, `is_table`. -/
def isTable : Block → Bool
  | .parent n _ _ _ _ _ _ => n = .table
  | _ => false

/-- L117-126, `takes_inlines`. -/
def takesInlines : Block → Bool
  | .section .. | .leaf .. | .listItem .. | .dlistItem .. | .tableCell .. => true
  | _ => false

/-- L140-155, `takes_block_of_type`. -/
def takesBlock (self block : Block) : Bool :=
  match self with
  | .section _ _ v _ _ =>
    match block.levelCheck with
    | some v' => v < v'
    | none => true
  | .list .. => block.isListItem
  | .dlist .. => block.isDlistItem
  | .parent .. | .listItem .. | .dlistItem .. => true
  | _ => false

/-- L128-138, `push_inline`. -/
def pushInline (self : Block) (i : Inline) : Except BlockError Block :=
  match self with
  | .section t m v bs l => .ok (.section (t ++ [i]) m v bs l)
  | .leaf n f d is m l => .ok (.leaf n f d (is ++ [i]) m l)
  | .listItem k p bs m l => .ok (.listItem k (p ++ [i]) bs m l)
  | .dlistItem t p bs m l => .ok (.dlistItem t (p ++ [i]) bs m l)
  | .tableCell is m l => .ok (.tableCell (is ++ [i]) m l)
  | _ => .error .notImplemented

/-- L91-110: a list item given to a parent block goes into the list that must be its last block. -/
def pushIntoLastList (item : Block) : List Block → Except BlockError (List Block)
  | [] => .error .danglingList
  | [.list v items m l] => .ok [consolidate (consolidate (.list v (items ++ [item]) m l))]
  | [_] => .error .danglingList
  | b :: bs => do
    let r ← pushIntoLastList item bs
    return b :: r

mutual
/-- L70-115, `push_block`. -/
def pushBlock : Block → Block → Except BlockError Block
  | .section t m v bs l, block =>
    if block.isSection then do
      let bs' ← pushSectionL bs block
      return consolidate (.section t m v bs' l)
    else .ok (consolidate (.section t m v (bs ++ [block]) l))
  | .list v items m l, block => .ok (consolidate (.list v (items ++ [block]) m l))
  | .dlist items m l, block => .ok (consolidate (.dlist (items ++ [block]) m l))
  | .listItem k p bs m l, block => .ok (consolidate (.listItem k p (bs ++ [block]) m l))
  | .dlistItem t p bs m l, block => .ok (consolidate (.dlistItem t p (bs ++ [block]) m l))
  | .parent n v d bs t m l, block =>
    if block.isListItem then do
      let bs' ← pushIntoLastList block bs
      return consolidate (.parent n v d bs' t m l)
    else if n = .table ∧ block.isTableCell = false then .error .tableCell
    else .ok (consolidate (.parent n v d (bs ++ [block]) t m l))
  | _, _ => .error .notImplemented
/-- L73-82 and `asg.rs:87-97`: a section goes into the last block if that takes it, else after it. -/
def pushSectionL : List Block → Block → Except BlockError (List Block)
  | [], block => .ok [block]
  | [last], block =>
    if last.takesBlock block then do
      let last' ← pushBlock last block
      return [last']
    else .ok [last, block]
  | b :: b' :: bs, block => do
    let r ← pushSectionL (b' :: bs) block
    return b :: r
end

/-- L697-703, `line`. -/
def line (b : Block) : Except BlockError Nat :=
  match b.locations with
  | x :: _ => .ok x.line
  | [] => .error .location

/-- A `BlockError` inside the parser (`errors.rs:39-40`). -/
def liftB {α : Type} : Except BlockError α → M α
  | .ok a => .ok a
  | .error e => .error (.err (.block e))

/-- Number of cells on a given line (L233-239). -/
def cellsOnLine (n : Nat) (bs : List Block) : Nat :=
  (bs.filter fun b => match b.line with
    | .ok k => k = n
    | .error _ => false).length

/-- L212-262, `consolidate_table_info`. -/
def tableInfo : Block → M Block
  | .parent n v d bs t m l =>
    match bs with
    | b0 :: b1 :: rest => do
      let first ← liftB b0.line
      let second ← liftB b1.line
      let m' ← if first = second then
          match l with
          | [] => .error (.panic .index)
          | l0 :: _ =>
            let m1 : Option Meta := if first = l0.line + 1 then
                some { (m.getD {}) with options := (m.getD {}).options ++ [b!"header"] }
              else m
            let cols := natToStr (cellsOnLine first (b0 :: b1 :: rest))
            .ok (match m1 with
              | some mm => match mm.attributes.get? b!"cols" with
                | some _ => some mm
                | none => some (mm.setAttr b!"cols" cols)
              | none => some (({} : Meta).setAttr b!"cols" cols))
        else .ok m
      match m' with
      | none => .error .exit
      | some mm =>
        let mm' ← mm.simplifyCols
        return .parent n v d (b0 :: b1 :: rest) t (some mm') l
    | _ => .ok (.parent n v d bs t m l)
  | _ => .error (.err (.block .incorrectCall))

/-- L283-290, `title`. -/
def title : Block → Option (List Inline)
  | .section t _ _ _ _ => some t
  | .parent _ _ _ _ t _ _ => some t
  | .image _ c _ _ => some c
  | _ => none

/-- The metadata of a block. -/
def data : Block → Option Meta
  | .section _ m _ _ _ => m
  | .list _ _ m _ => m
  | .listItem _ _ _ m _ => m
  | .dlist _ m _ => m
  | .dlistItem _ _ _ m _ => m
  | .brk _ _ => none
  | .image _ _ m _ => m
  | .leaf _ _ _ _ m _ => m
  | .parent _ _ _ _ _ m _ => m
  | .tableCell _ m _ => m

/-- The direct children of a block. -/
def children : Block → List Block
  | .section _ _ _ bs _ => bs
  | .list _ bs _ _ => bs
  | .listItem _ _ bs _ _ => bs
  | .dlist bs _ _ => bs
  | .dlistItem _ _ bs _ _ => bs
  | .parent _ _ _ bs _ _ _ => bs
  | _ => []

/-- L525-592, `id`. -/
def id? (b : Block) : Option Str := b.data.bind Meta.elementId

/-- Entry of the id map for the block itself (L482-488). -/
def ownId (b : Block) : SMap (List Inline) :=
  match b.id? with
  | some i => [(i, b.title.getD [])]
  | none => []

mutual
/-- L480-523, `id_hashes`. -/
def idHashes : Block → SMap (List Inline)
  | .section t m v bs l => SMap.extend (ownId (.section t m v bs l)) (idHashesL bs)
  | .parent n v d bs t m l => SMap.extend (ownId (.parent n v d bs t m l)) (idHashesL bs)
  | .list v bs m l => SMap.extend (ownId (.list v bs m l)) (idHashesL bs)
  | .dlist bs m l => SMap.extend (ownId (.dlist bs m l)) (idHashesL bs)
  | .listItem k p bs m l => SMap.extend (ownId (.listItem k p bs m l)) (idHashesL bs)
  | .dlistItem t p bs m l => SMap.extend (ownId (.dlistItem t p bs m l)) (idHashesL bs)
  | b => ownId b
/-- The id maps of some blocks, merged from left to right. -/
def idHashesL : List Block → SMap (List Inline)
  | [] => []
  | b :: bs => SMap.extend (idHashes b) (idHashesL bs)
end

mutual
/-- Apply a function to every inline that `inlines_mut` yields (L337-381): titles of sections and parents,
principal text of items, contents of leaves and cells; not captions, not terms. -/
def mapInlines (f : Inline → Inline) : Block → Block
  | .section t m v bs l => .section (t.map f) m v (mapInlinesL f bs) l
  | .parent n v d bs t m l => .parent n v d (mapInlinesL f bs) (t.map f) m l
  | .list v bs m l => .list v (mapInlinesL f bs) m l
  | .dlist bs m l => .dlist (mapInlinesL f bs) m l
  | .listItem k p bs m l => .listItem k (p.map f) (mapInlinesL f bs) m l
  | .dlistItem t p bs m l => .dlistItem t (p.map f) (mapInlinesL f bs) m l
  | .leaf n g d is m l => .leaf n g d (is.map f) m l
  | .tableCell is m l => .tableCell (is.map f) m l
  | .brk v l => .brk v l
  | .image t c m l => .image t c m l
/-- `mapInlines` on each block. -/
def mapInlinesL (f : Inline → Inline) : List Block → List Block
  | [] => []
  | b :: bs => mapInlines f b :: mapInlinesL f bs
end

mutual
/-- L292-336, `inlines`. -/
def inlines : Block → List Inline
  | .section t _ _ bs _ => t ++ inlinesL bs
  | .parent _ _ _ bs t _ _ => t ++ inlinesL bs
  | .list _ bs _ _ => inlinesL bs
  | .dlist bs _ _ => inlinesL bs
  | .listItem _ p bs _ _ => p ++ inlinesL bs
  | .dlistItem _ p bs _ _ => p ++ inlinesL bs
  | .leaf _ _ _ is _ _ => is
  | .tableCell is _ _ => is
  | .brk .. => []
  | .image .. => []
/-- `inlines` of each block. -/
def inlinesL : List Block → List Inline
  | [] => []
  | b :: bs => inlines b ++ inlinesL bs
end

mutual
/-- L735-800, `block_text`. -/
def text : Block → Str
  | .section t _ _ bs _ => Inline.textL t ++ textL bs
  | .list _ bs _ _ => textL bs
  | .listItem _ p bs _ _ => Inline.textL p ++ textL bs
  | .dlist bs _ _ => textL bs
  | .dlistItem _ p bs _ _ => Inline.textL p ++ textL bs
  | .brk .. => []
  | .image _ c _ _ => Inline.textL c
  | .leaf _ _ _ is _ _ => Inline.textL is
  | .parent _ _ _ bs _ _ _ => textL bs
  | .tableCell is _ _ => Inline.textL is
/-- `block_text` of each block. -/
def textL : List Block → Str
  | [] => []
  | b :: bs => text b ++ textL bs
end

/-- L705-732, `add_metadata`; empty metadata changes nothing. -/
def addMeta (b : Block) (m : Meta) : M Block :=
  if m.isEmpty then .ok b
  else match b with
    | .section t _ v bs l => .ok (.section t (some m) v bs l)
    | .list v bs _ l => .ok (.list v bs (some m) l)
    | .listItem k p bs _ l => .ok (.listItem k p bs (some m) l)
    | .dlist bs _ l => .ok (.dlist bs (some m) l)
    | .dlistItem t p bs _ l => .ok (.dlistItem t p bs (some m) l)
    | .image t c _ l => .ok (.image t c (some m) l)
    | .leaf n f d is _ l => .ok (.leaf n f d is (some m) l)
    | .parent n v d bs t _ l => .ok (.parent n v d bs t (some m) l)
    | .tableCell is _ l => .ok (.tableCell is (some m) l)
    | .brk .. => .error (.err .internal)

/-- L614-621, `add_locations`. -/
def addLocations (b : Block) (locs : List Location) : M Block :=
  match b with
  | .leaf n f d is m l => .ok (.leaf n f d is m (reconcile l locs))
  | _ => .error (.panic .todo)

/-- Name of the leaf block that a delimiter opens (L1042-1055). -/
def leafName : TokenType → Option LeafName
  | .passthroughBlock => some .pass
  | .literalBlock => some .literal
  | .sourceBlock => some .listing
  | .commentBlock => some .listing
  | .quoteVerseBlock => some .verse
  | _ => none

/-- L1042-1055, `LeafBlock::new_from_token`. -/
def leafFromToken (t : Token) : Except BlockError Block :=
  match leafName t.ty with
  | some n => .ok (.leaf n .delimited (some t.text) [] none t.locations)
  | none => .error .invalidToken

/-- Name and variant of the parent block that a token opens (L1174-1249). -/
def parentKind : TokenType → Option (ParentName × Option ParentVariant)
  | .sidebarBlock => some (.sidebar, none)
  | .exampleBlock => some (.example_, none)
  | .quoteVerseBlock => some (.quote, none)
  | .openBlock => some (.open_, none)
  | .notePara => some (.admonition, some .note)
  | .tipPara => some (.admonition, some .tip)
  | .importantPara => some (.admonition, some .important)
  | .cautionPara => some (.admonition, some .caution)
  | .warningPara => some (.admonition, some .warning)
  | .table => some (.table, none)
  | _ => none

/-- L1174-1249, `ParentBlock::new_from_token`. -/
def parentFromToken (t : Token) : Except BlockError Block :=
  match parentKind t.ty with
  | some (n, v) => .ok (.parent n v t.text [] [] none t.locations)
  | none => .error .invalidToken

/-- L1104-1116, `PartialEq for ParentBlock`, on name and variant. -/
def parentEq (n : ParentName) (v : Option ParentVariant) (n' : ParentName) (v' : Option ParentVariant) : Bool :=
  match v with
  | some x => match v' with
    | some y => x = y && n = n'
    | none => false
  | none => n = n'

/-- `lists.rs:85-96`, `ListItem::new`. -/
def newListItem (t : Token) : Block := .listItem (trim t.lexeme) [] [] none t.locations

/-- L1067-1083, `new_footnote_def_from_id_and_inlines`. -/
def footnoteDef (id : Str) (is : List Inline) : Block :=
  .leaf .paragraph .paragraph none is (some (Meta.withIdAndRoles id [b!"footnote"])) []

/-- The loop over inlines in `extract_footnote_definitions` (L438-458) and in `lists.rs:118-139`: replace each
top-level footnote and collect its definition. -/
def footnotesIn (docId : Str) (count : Nat) : List Inline → List Inline × List Block
  | [] => ([], [])
  | .span .footnote _ is _ l _ :: rest =>
    let d := Inline.deconstructFootnote is l (count + 1) docId
    let r := footnotesIn docId (count + 1) rest
    (d.2.1 :: r.1, footnoteDef d.1 d.2.2 :: r.2)
  | x :: rest =>
    let r := footnotesIn docId count rest
    (x :: r.1, r.2)

mutual
/-- L385-465, `extract_footnote_definitions`. Sections, parents and lists restart the count: their children get
`extracted.len()`, not the count that was passed in. -/
def footnotes (docId : Str) (count : Nat) : Block → M (Block × List Block)
  | .section t m v bs l => do
    let r ← footnotesL docId 0 bs
    return (.section t m v r.1 l, r.2)
  | .parent n v d bs t m l => do
    let r ← footnotesL docId 0 bs
    return (.parent n v d r.1 t m l, r.2)
  | .list v bs m l => do
    let r ← footnotesL docId 0 bs
    return (.list v r.1 m l, r.2)
  | .dlist bs m l => do
    let r ← footnotesL docId 0 bs
    return (.dlist r.1 m l, r.2)
  | .listItem k p bs m l => do
    let own := footnotesIn docId 0 p
    let r ← footnotesL docId own.2.length bs
    return (.listItem k own.1 r.1 m l, own.2 ++ r.2)
  | .dlistItem t p bs m l => do
    let own := footnotesIn docId 0 p
    let r ← footnotesL docId own.2.length bs
    return (.dlistItem t own.1 r.1 m l, own.2 ++ r.2)
  | .leaf n f d is m l =>
    let own := footnotesIn docId count is
    .ok (.leaf n f d own.1 m l, own.2)
  | _ => .error (.panic .todo)
/-- The loop over the children: each gets the number of definitions extracted so far. -/
def footnotesL (docId : Str) (count : Nat) : List Block → M (List Block × List Block)
  | [] => .ok ([], [])
  | b :: bs => do
    let r ← footnotes docId count b
    let r' ← footnotesL docId (count + r.2.length) bs
    return (r.1 :: r'.1, r.2 ++ r'.2)
end

end Block
end Adoc
