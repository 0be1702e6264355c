import Verif.Model.Asg
/-!
# Where the contents of a graph come from (used in C67 to C69)

`av` says which bytes are available, that is, occur in the source or in a file that may be included. A graph has its
origin in `av` if every text is made of available bytes and of the few that the parser adds by itself, and every node
is of a kind whose markup is available. Nothing here refers to the scanner or the parser.
-/
namespace Adoc.Origin

/-- Bytes that the parser adds by itself: typographic quotation marks, numeric character references, parentheses around
callout numbers, column counts, and the marker of a span that is never closed. -/
def added : Str := b!"“”‘’&#;0123456789()*`"

section
variable (av : UInt8 → Prop)

/-- All bytes of a text are available. -/
def AvS (s : Str) : Prop := ∀ b ∈ s, av b

/-- All bytes of a text are available or added. -/
def OkS (s : Str) : Prop := ∀ b ∈ s, av b ∨ b ∈ added

/-- All bytes of one of some texts are available. -/
def Alt (l : List Str) : Prop := ∃ a ∈ l, AvS av a

/-! ## Markup -/

/-- What must be written for a span. -/
def spanMarks : SpanVariant → List Str
  | .strong => [b!"*", b!"<>\n"]
  | .emphasis => [b!"_"]
  | .code => [b!"`", b!"+"]
  | .mark => [b!"#"]
  | .superscript => [b!"^"]
  | .subscript => [b!"~"]
  | .footnote => [b!"footnote:["]

/-- What must be written for a reference. -/
def refMarks : RefVariant → List Str
  | .link => [b!"http"]
  | .xref => [b!"<"]
  | .image => [b!"image:]"]

/-- What must be written for a literal. -/
def litMarks : LitName → List Str
  | .text => [[]]
  | .charref => [b!"()", b!"->", b!"=>", b!"<-", b!"<=", b!"--", b!".", b!"'s", b!"&;"]

/-- What must be written for metadata. -/
def metaMarks : List Str := [b!"[]", b!"<>", b!"|="]

/-- What must be written for a list item. -/
def itemMarks : List Str := [b!". ", b!"* ", b!"<> "]

/-- What must be written for a list. -/
def listMarks : ListVariant → List Str
  | .ordered => [b!". ", b!"<> "]
  | .unordered => [b!"* "]

/-- What must be written for a break. -/
def breakMarks : BreakVariant → List Str
  | .page => [b!"<\n"]
  | .thematic => [b!"'\n"]

/-- What must be written for a leaf. -/
def leafMarks : LeafName → List Str
  | .paragraph => [[]]
  | .listing => [b!"-\n", b!"/\n"]
  | .literal => [b!".\n"]
  | .pass => [b!"+\n"]
  | .verse => [b!"_\n"]

/-- What must be written for an admonition. -/
def admonitionMarks : ParentVariant → List Str
  | .note => [b!"NOTE: ", b!"[N]"]
  | .tip => [b!"TIP: ", b!"[T]"]
  | .important => [b!"IMPORTANT: ", b!"[I]"]
  | .caution => [b!"CAUTION: ", b!"[C]"]
  | .warning => [b!"WARNING: ", b!"[W]"]

/-- What must be written for a block that contains blocks. A quotation also comes from a paragraph on the line before a
delimiter if metadata follows. -/
def parentMarks : ParentName → Option ParentVariant → List Str
  | .admonition, some v => admonitionMarks v
  | .admonition, none => []
  | .example_, _ => [b!"=\n"]
  | .sidebar, _ => [b!"*\n"]
  | .open_, _ => [b!"-\n"]
  | .quote, _ => [b!"_\n", b!"[quote]", b!"*\n[]", b!"-\n[]", b!"=\n[]", b!"|=[]"]
  | .table, _ => [b!"|="]
  | .footnoteContainer, _ => []

/-! ## Nodes -/

/-- Values are made of available or added bytes; so are roles, except for those of callouts; the only option is that of a
table header; some markup for metadata is available, and that for quotations if it declares one. No attribute is there twice. -/
structure MetaOk (m : Meta) : Prop where
  values : ∀ kv ∈ m.attributes, OkS av kv.2
  roles : ∀ r ∈ m.roles, OkS av r ∨ r = b!"colist" ∨ r = b!"conum"
  options : ∀ o ∈ m.options, o = b!"header"
  quote : m.declared = some .quote → AvS av b!"[quote]"
  marks : Alt av metaMarks
  once : (m.attributes.map (·.1)).Nodup

/-- The same for optional metadata. -/
def MetaOk? : Option Meta → Prop
  | some m => MetaOk av m
  | none => True

/-- An inline without what is in it. -/
def NodeI : Inline → Prop
  | .span v _ _ m _ _ => Alt av (spanMarks v) ∧ MetaOk? av m
  | .ref v t _ m _ => Alt av (refMarks v) ∧ OkS av t ∧ MetaOk? av m
  | .lit n v _ => Alt av (litMarks n) ∧ OkS av v
  | .brk _ => AvS av b!"+\n"

mutual
/-- An inline and all that is in it. -/
def EveryI : Inline → Prop
  | .span v f is m l o => NodeI av (.span v f is m l o) ∧ EveryIs is
  | .ref v t is m l => NodeI av (.ref v t is m l) ∧ EveryIs is
  | .lit n v l => NodeI av (.lit n v l)
  | .brk l => NodeI av (.brk l)
/-- The same for a list. -/
def EveryIs : List Inline → Prop
  | [] => True
  | i :: is => EveryI i ∧ EveryIs is
end

/-- A block with its titles and texts, without the blocks in it. -/
def NodeB : Block → Prop
  | .section t m _ _ _ => AvS av b!"=" ∧ EveryIs av t ∧ MetaOk? av m
  | .list v _ m _ => Alt av (listMarks v) ∧ MetaOk? av m
  | .listItem k p _ m _ => Alt av itemMarks ∧ AvS av k ∧ EveryIs av p ∧ MetaOk? av m
  | .dlist _ m _ => AvS av b!":" ∧ MetaOk? av m
  | .dlistItem t p _ m _ => AvS av b!":" ∧ EveryIs av t ∧ EveryIs av p ∧ MetaOk? av m
  | .brk v _ => Alt av (breakMarks v)
  | .image t c m _ => AvS av b!"image:]" ∧ OkS av t ∧ EveryIs av c ∧ MetaOk? av m
  | .leaf n _ _ is m _ => Alt av (leafMarks n) ∧ EveryIs av is ∧ MetaOk? av m
  | .parent n v _ _ t m _ => Alt av (parentMarks n v) ∧ EveryIs av t ∧ MetaOk? av m
  | .tableCell is m _ => AvS av b!"|" ∧ EveryIs av is ∧ MetaOk? av m

mutual
/-- A block and all that is in it. -/
def EveryB : Block → Prop
  | .section t m v bs l => NodeB av (.section t m v bs l) ∧ EveryBs bs
  | .list v bs m l => NodeB av (.list v bs m l) ∧ EveryBs bs
  | .listItem k p bs m l => NodeB av (.listItem k p bs m l) ∧ EveryBs bs
  | .dlist bs m l => NodeB av (.dlist bs m l) ∧ EveryBs bs
  | .dlistItem t p bs m l => NodeB av (.dlistItem t p bs m l) ∧ EveryBs bs
  | .parent n v d bs t m l => NodeB av (.parent n v d bs t m l) ∧ EveryBs bs
  | .brk v l => NodeB av (.brk v l)
  | .image t c m l => NodeB av (.image t c m l)
  | .leaf n f d is m l => NodeB av (.leaf n f d is m l)
  | .tableCell is m l => NodeB av (.tableCell is m l)
/-- The same for a list. -/
def EveryBs : List Block → Prop
  | [] => True
  | b :: bs => EveryB b ∧ EveryBs bs
end

/-- The title of a document, its attributes, the titles known for references and all blocks. -/
structure EveryG (g : Asg) : Prop where
  header : ∀ h ∈ g.header, AvS av b!"=" ∧ EveryIs av h.title
  attributes : ∀ l ∈ g.attributes, ∀ kv ∈ l, AvS av b!":" ∧ AvS av kv.1 ∧ AvS av kv.2
  ids : ∀ kv ∈ g.idHash, EveryIs av kv.2
  blocks : EveryBs av g.blocks
  once : ∀ l ∈ g.attributes, (l.map (·.1)).Nodup

end

/-! ## Lists of nodes -/

mutual
/-- An inline and all that are in it. -/
def innerI : Inline → List Inline
  | .span v f is m l o => .span v f is m l o :: innerIs is
  | .ref v t is m l => .ref v t is m l :: innerIs is
  | .lit n v l => [.lit n v l]
  | .brk l => [.brk l]
/-- The same for a list. -/
def innerIs : List Inline → List Inline
  | [] => []
  | i :: is => innerI i ++ innerIs is
end

mutual
/-- A block and all that are in it. -/
def inner : Block → List Block
  | .section t m v bs l => .section t m v bs l :: innerL bs
  | .list v bs m l => .list v bs m l :: innerL bs
  | .listItem k p bs m l => .listItem k p bs m l :: innerL bs
  | .dlist bs m l => .dlist bs m l :: innerL bs
  | .dlistItem t p bs m l => .dlistItem t p bs m l :: innerL bs
  | .parent n v d bs t m l => .parent n v d bs t m l :: innerL bs
  | .brk v l => [.brk v l]
  | .image t c m l => [.image t c m l]
  | .leaf n f d is m l => [.leaf n f d is m l]
  | .tableCell is m l => [.tableCell is m l]
/-- The same for a list. -/
def innerL : List Block → List Block
  | [] => []
  | b :: bs => inner b ++ innerL bs
end

/-- Titles, terms, texts and captions of a block, without those of the blocks in it. -/
def ownInlines : Block → List Inline
  | .section t .. => t
  | .listItem _ p .. => p
  | .dlistItem t p .. => t ++ p
  | .image _ c .. => c
  | .leaf _ _ _ is .. => is
  | .parent _ _ _ _ t .. => t
  | .tableCell is .. => is
  | _ => []

/-- All blocks of a graph. -/
def allBlocks (g : Asg) : List Block := innerL g.blocks

/-- All inlines of a graph. -/
def allInlines (g : Asg) : List Inline :=
  innerIs ((g.header.map (·.title)).getD []) ++ (allBlocks g).flatMap fun b => innerIs (ownInlines b)

/-- The metadata of a block. -/
def metaOf : Block → Option Meta
  | .section _ m .. => m
  | .list _ _ m _ => m
  | .listItem _ _ _ m _ => m
  | .dlist _ m _ => m
  | .dlistItem _ _ _ m _ => m
  | .brk .. => none
  | .image _ _ m _ => m
  | .leaf _ _ _ _ m _ => m
  | .parent _ _ _ _ _ m _ => m
  | .tableCell _ m _ => m

/-- The metadata of an inline. -/
def metaOfI : Inline → Option Meta
  | .span _ _ _ m _ _ => m
  | .ref _ _ _ m _ => m
  | _ => none

/-- All metadata of a graph. -/
def allMeta (g : Asg) : List Meta := (allBlocks g).filterMap metaOf ++ (allInlines g).filterMap metaOfI

/-- The text or target of an inline. -/
def textsI : Inline → List Str
  | .lit _ v _ => [v]
  | .ref _ t _ _ _ => [t]
  | _ => []

/-- The target of a block or the marker of a list item. -/
def textsB : Block → List Str
  | .image t .. => [t]
  | .listItem k .. => [k]
  | _ => []

/-- All texts, targets and list markers of a graph. -/
def allTexts (g : Asg) : List Str := (allInlines g).flatMap textsI ++ (allBlocks g).flatMap textsB

/-- What must be written for a block. -/
def marks : Block → List Str
  | .section .. => [b!"="]
  | .list v .. => listMarks v
  | .listItem .. => itemMarks
  | .dlist .. => [b!":"]
  | .dlistItem .. => [b!":"]
  | .brk v _ => breakMarks v
  | .image .. => [b!"image:]"]
  | .leaf n .. => leafMarks n
  | .parent n v .. => parentMarks n v
  | .tableCell .. => [b!"|"]

/-- What must be written for an inline. -/
def marksI : Inline → List Str
  | .span v .. => spanMarks v
  | .ref v .. => refMarks v
  | .lit n .. => litMarks n
  | .brk _ => [b!"+\n"]

end Adoc.Origin
