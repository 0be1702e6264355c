import Verif.Spec.Plain
import Verif.Model.Asg
/-!
# Documents of headings, paragraphs and flat lists, and their outlines

The documents are described by their chunks: what is between blank lines. What a graph should look like is described
by listing its blocks in reading order, each with the headings of the sections around it. Nothing here refers to how
the code builds the graph.
-/
namespace Adoc.Spec

/-- A heading: level and title. -/
abbrev Heading := Nat × Str

/-- What is between blank lines. -/
inductive Chunk where
  /-- lines of text -/
  | para (ls : List Str)
  /-- a section heading of level 1 to 4 -/
  | head (level : Nat) (title : Str)
  /-- list items, one line each -/
  | list (v : ListVariant) (items : List Str)

/-- The marker of a list item. -/
def bullet : ListVariant → Str
  | .unordered => b!"*"
  | .ordered => b!"."

/-- The lines of a chunk. -/
def Chunk.lines : Chunk → List Str
  | .para ls => ls
  | .head n t => [List.replicate (n + 1) c!"=" ++ b!" " ++ t]
  | .list v items => items.map fun i => bullet v ++ b!" " ++ i

/-- All text is plain. -/
def Chunk.Ok : Chunk → Prop
  | .para ls => ls ≠ [] ∧ ∀ l ∈ ls, PlainLine l
  | .head n t => 1 ≤ n ∧ n ≤ 4 ∧ PlainLine t
  | .list _ items => items ≠ [] ∧ ∀ i ∈ items, PlainLine i

/-- What a reader sees of a block: a paragraph with its text, a heading with its level and title, or a list with
its items. -/
inductive Entry where
  | para (text : Str)
  | head (level : Nat) (title : Str)
  | list (v : ListVariant) (items : List Str)
  | other
deriving DecidableEq, Repr

/-- What a reader should see of a chunk. -/
def Chunk.entry : Chunk → Entry
  | .para ls => .para (joinB c!"\n" ls)
  | .head n t => .head n t
  | .list v items => .list v items

/-- The headings around something of level `n`, outermost first, when the headings before it are `hs`, the latest
first: the latest one with a smaller level, and those around that one. -/
def parents {α : Type} : List (Nat × α) → Nat → List (Nat × α)
  | [], _ => []
  | h :: hs, n => if h.1 < n then parents hs h.1 ++ [h] else parents hs n

/-- The level that counts for finding the headings around a chunk: anything that is not a heading is below all
headings. -/
def Chunk.level : Chunk → Nat
  | .head n _ => n
  | _ => 5

/-- The headings so far, after a chunk. -/
def Chunk.after (hs : List Heading) : Chunk → List Heading
  | .head n t => (n, t) :: hs
  | _ => hs

/-- The outline of a document: for each chunk the headings around it, and what a reader should see. -/
def outline (hs : List Heading) : List Chunk → List (List Heading × Entry)
  | [] => []
  | c :: cs => (parents hs c.level, c.entry) :: outline (c.after hs) cs

example : outline [] [.para [b!"a"], .head 1 b!"A", .head 2 b!"B", .para [b!"b", b!"c"], .head 1 b!"C"] =
    [([], .para b!"a"), ([], .head 1 b!"A"), ([(1, b!"A")], .head 2 b!"B"),
     ([(1, b!"A"), (2, b!"B")], .para b!"b\nc"), ([], .head 1 b!"C")] := by decide

/-- How a document made of these chunks has to end: a heading needs a newline after it, and a list of one item needs a
blank line after it unless it is the first and only thing in the document. -/
def EndsWell (lines : List Str) (cs : List Chunk) : Prop :=
  match cs.getLast? with
  | some (.head _ _) => [[]] <:+ lines
  | some (.list _ [_]) => [[], []] <:+ lines ∨ cs.length = 1 ∧ lines.head? ≠ some []
  | _ => True

/-- A document made of these chunks: they are the runs of non-empty lines. -/
structure MadeOf (src : Str) (cs : List Chunk) : Prop where
  runs : (groups 1 (splitOnB c!"\n" src)).map (·.2) = cs.map Chunk.lines
  ok : ∀ c ∈ cs, c.Ok
  ending : EndsWell (splitOnB c!"\n" src) cs

/-! ## Reading a graph -/

/-- The text of inlines that are a single text. -/
def soleText : List Inline → Option Str
  | [.lit .text v _] => some v
  | _ => none

/-- The text of a list item with the right marker that is nothing but text. -/
def itemText (v : ListVariant) : Block → Option Str
  | .listItem k p [] none _ => if k = bullet v then soleText p else none
  | _ => none

/-- A list of results, if all are there. -/
def allSome {α : Type} : List (Option α) → Option (List α)
  | [] => some []
  | x :: xs => x.bind fun a => (allSome xs).map (a :: ·)

/-- What a reader sees of a block that is not a section. -/
def view : Block → Entry
  | .leaf .paragraph .paragraph none is none _ => match soleText is with
    | some t => .para t
    | none => .other
  | .list v items none _ => match allSome (items.map (itemText v)) with
    | some ts => .list v ts
    | none => .other
  | _ => .other

/-- What a reader sees of a section title. -/
def viewHead (level : Nat) (title : List Inline) (data : Option Meta) : Entry :=
  match soleText title, data with
  | some t, none => .head level t
  | _, _ => .other

mutual
/-- The blocks in a block in reading order, each with the headings of the sections around it, when `path` are those
around the block itself. -/
def reading (path : List Heading) : Block → List (List Heading × Entry)
  | .section t m v bs _ => (path, viewHead v t m) :: readingL (path ++ [(v, (soleText t).getD [])]) bs
  | b => [(path, view b)]
/-- The blocks in some blocks. -/
def readingL (path : List Heading) : List Block → List (List Heading × Entry)
  | [] => []
  | b :: bs => reading path b ++ readingL path bs
end

end Adoc.Spec
