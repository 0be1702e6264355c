import Verif.Proof.RichDoc
import Verif.Proof.RichCheck
import Verif.Spec.Sketch
import Verif.Props.Parser
import Verif.Props.Returns
/-!
# C69, C70, C71 and C76: documents with inline markup

`Spec/Rich` and `Spec/RichDoc` describe documents with a header (title and attributes) and blocks: paragraphs, section
headings, lists, verbatim blocks, breaks, admonitions and boxes (sidebars, examples, open blocks and quotations, with
titles, and with paragraphs, lists and verbatim blocks in them), with metadata lines before them, and whose text has
spans (also nested ones), links, cross references, symbols, footnotes, images and hard line breaks. For all of them the
graph is what they mean.
-/
namespace Adoc.Props
open Spec Rich

/-! ## What is proved: all documents of the class -/

/-- The headings among some blocks, the latest first. -/
def headingsOf (ids : Ids) : List Tagged → List Title
  | [] => []
  | c :: cs => headingsOf ids cs ++ (match c.blk with
    | .head n es => [(n, shownL ids es)]
    | _ => [])

theorem contents_after (ids : Ids) (hs : List Title) (cs : List Tagged) (i : Nat) :
    (contents ids hs cs)[i]? =
      cs[i]?.map fun c => (parents (headingsOf ids (cs.take i) ++ hs) c.blk.level, c.block ids) := by
  induction cs generalizing hs i with
  | nil => simp [contents]
  | cons c cs ih =>
    cases i with
    | zero => simp [contents, headingsOf]
    | succ i =>
      simp only [contents, List.getElem?_cons_succ, ih, List.take_succ_cons, headingsOf]
      cases c.blk <;> simp [Blk.after]

/-- The documents of the class are parsed, and the graph is what they mean: in reading order, the blocks of the graph
are the blocks of the document with the metadata written before them, and around each of them are the sections it is
in; cross references to blocks show their titles; and the title and attributes of the document are those written. There
is no bound on the number of blocks, their length or the nesting of sections. -/
theorem C23_rich_partial (w : World) (k : Nat) (d : RichDoc) (ho : d.Ok) (hl : Legible [] d.signs [])
    (hu : ∃ cs, written d.signs = enc cs)
    (hw : ∀ x ∈ d.targets, There w [] x) :
    ∃ g, parseText w (k + 2) (written d.signs) = .ok g ∧ listedL [] g.blocks = contents d.ids [] d.blocks
      ∧ g.header.map (fun h => bareL h.title) = d.head.map (fun h => shownL [] h.title)
      ∧ g.attributes = d.head.map Head.defs :=
  parse_rich w k d ho hl hu hw

/-- C69 for documents of the class: what stands around block `i` of the document in the graph are exactly the headings
around it, outermost first: the latest heading before it with a smaller level (any heading, if the block is not a
heading), the latest heading before that one with a smaller level, and so on. Nothing else is in the graph.

Missing: documents outside the class; for some of them the claim is false (below). -/
theorem C69_sections_partial (w : World) (k : Nat) (d : RichDoc) (ho : d.Ok) (hl : Legible [] d.signs [])
    (hu : ∃ cs, written d.signs = enc cs)
    (hw : ∀ x ∈ d.targets, There w [] x) :
    ∃ g, parseText w (k + 2) (written d.signs) = .ok g ∧ (listedL [] g.blocks).length = d.blocks.length
      ∧ ∀ (i : Nat) (c : Tagged), d.blocks[i]? = some c → (listedL [] g.blocks)[i]? =
        some (parents (headingsOf d.ids (d.blocks.take i)) c.blk.level, c.block d.ids) := by
  obtain ⟨g, h1, h2, _⟩ := parse_rich w k d ho hl hu hw
  have hc : ∀ hs cs, (contents d.ids hs cs).length = cs.length := by
    intro hs cs
    induction cs generalizing hs with
    | nil => rfl
    | cons c cs ih => simp [contents, ih]
  refine ⟨g, h1, by rw [h2, hc], fun i c hi => ?_⟩
  rw [h2, contents_after]
  simp [hi]

/-- The texts of a block without blocks in it: of a paragraph, a cell of a table or the items of a list. -/
def pieceTexts : Block → List (List Inline)
  | .leaf .paragraph _ _ is _ _ => [is]
  | .tableCell is _ _ => [is]
  | .list _ bs _ _ => bs.flatMap fun b => match b with
    | .listItem _ p _ _ _ => [p]
    | _ => []
  | _ => []

/-- The texts of the blocks in a block that is attached to a list item. -/
def attachedTexts : Block → List (List Inline)
  | .parent _ _ _ bs _ _ _ => bs.flatMap pieceTexts
  | _ => []

/-- The texts of a block of the graph: of a paragraph, the title of a section, the items of a list with those of the blocks attached
to them, the descriptions of a description list, the paragraph of an admonition, or the title of another block with blocks in it (empty if it has none) and the texts of these blocks. -/
def texts : Block → List (List Inline)
  | .section t _ _ _ _ => [t]
  | .dlist bs _ _ => bs.flatMap fun b => match b with
    | .dlistItem _ p _ _ _ => [p]
    | _ => []
  | .list _ bs _ _ => bs.flatMap fun b => match b with
    | .listItem _ p as _ _ => p :: as.flatMap attachedTexts
    | _ => []
  | .parent .admonition _ _ bs _ _ _ => bs.flatMap pieceTexts
  | .parent _ _ _ bs t _ _ => t :: bs.flatMap pieceTexts
  | b => pieceTexts b

/-- The texts of a paragraph, list or verbatim block of the document. -/
def pieceProse : Piece → List (List Elem)
  | .para es => [es]
  | .list _ items => items
  | .verb _ _ _ => []

/-- The texts of a block of the document. The terms of description lists are not among them: cross references in them
do not show titles (`Props.C81_dlists_partial`). -/
def prose : Blk → List (List Elem)
  | .piece p => pieceProse p
  | .head _ es => [es]
  | .note _ es => [es]
  | .brk _ => []
  | .image _ _ _ => []
  | .dlist entries => entries.map (·.text)
  | .colist items => items.map (·.2)
  | .code _ _ => []
  | .attached _ points => points.flatMap fun p => p.text :: p.boxes.flatMap fun a => a.held.flatMap fun h => pieceProse h.piece
  | .box _ _ title _ held => title.getD [] :: held.flatMap fun h => pieceProse h.piece
  | .table title _ rows => title.getD [] :: rows.flatMap TableRow.cells

theorem texts_piece (ids : Ids) (m : Option Meta) (c : Piece) :
    texts (c.block ids m) = (pieceProse c).map (shownL ids) ∧ pieceTexts (c.block ids m) = (pieceProse c).map (shownL ids) := by
  cases c with
  | list v items =>
    simp only [Piece.block, texts, pieceTexts, pieceProse]
    constructor <;>
    · induction items with
      | nil => rfl
      | cons x xs ih => rw [List.map_cons, List.flatMap_cons, ih]; rfl
  | verb n => cases n <;> simp [Piece.block, texts, pieceTexts, pieceProse, Verb.name]
  | para => exact ⟨rfl, rfl⟩

theorem texts_held (ids : Ids) (held : List Held) :
    (held.map (Held.block ids)).flatMap pieceTexts = (held.flatMap fun h => pieceProse h.piece).map (shownL ids) := by
  induction held with
  | nil => rfl
  | cons x xs ih =>
    simp only [List.map_cons, List.flatMap_cons, List.map_append]
    rw [ih]
    congr 1
    exact (texts_piece ids _ x.piece).2

theorem texts_annexes (ids : Ids) (as : List Annex) : (as.map (Annex.block ids)).flatMap attachedTexts
    = (as.flatMap fun a => a.held.flatMap fun h => pieceProse h.piece).map (shownL ids) := by
  induction as with
  | nil => rfl
  | cons a as ih =>
    simp only [List.map_cons, List.flatMap_cons, List.map_append]
    rw [ih]
    congr 1
    exact texts_held ids a.held

theorem texts_block (ids : Ids) (m : Option Meta) (c : Blk) : texts (c.block ids m) = (prose c).map (shownL ids) := by
  cases c with
  | piece p => exact (texts_piece ids m p).1
  | box n d ti lead held =>
    have h : texts (Blk.block ids m (.box n d ti lead held))
        = shownL ids (ti.getD []) :: (held.map (Held.block ids)).flatMap pieceTexts := by cases n <;> rfl
    rw [h, prose, List.map_cons]
    congr 1
    induction held with
    | nil => rfl
    | cons x xs ih =>
      simp only [List.map_cons, List.flatMap_cons, List.map_append]
      rw [ih (by cases n <;> rfl)]
      congr 1
      exact (texts_piece ids _ x.piece).2
  | table ti lead rows =>
    simp only [Blk.block, texts, prose, List.map_cons]
    congr 1
    generalize rows.flatMap TableRow.cells = ess
    induction ess with
    | nil => rfl
    | cons x xs ih => rw [List.map_cons, List.flatMap_cons, ih]; rfl
  | note v es => simp [Blk.block, texts, pieceTexts, prose]
  | attached v points =>
    simp only [Blk.block, texts, prose]
    induction points with
    | nil => rfl
    | cons x xs ih =>
      rw [List.map_cons, List.flatMap_cons, ih, List.flatMap_cons, List.map_append]
      simp only [Point.block, texts_annexes, List.map_cons]
  | dlist entries =>
    simp only [Blk.block, texts, prose]
    induction entries with
    | nil => rfl
    | cons x xs ih => rw [List.map_cons, List.flatMap_cons, ih]; rfl
  | colist items =>
    simp only [Blk.block, texts, prose]
    induction items with
    | nil => rfl
    | cons x xs ih => rw [List.map_cons, List.flatMap_cons, ih]; rfl
  | _ => simp [Blk.block, texts, pieceTexts, prose]

/-- C70 for documents of the class: the inlines of every text are exactly the texts, spans, links, cross references,
symbols, footnotes, images and hard line breaks that were written, in this order and nested as written, with all their text; a cross reference to a block of
the document has the title of the block in it.

Missing: documents outside the class; for some of them the claim is false (below). -/
theorem C70_inlines_partial (w : World) (k : Nat) (d : RichDoc) (ho : d.Ok) (hl : Legible [] d.signs [])
    (hu : ∃ cs, written d.signs = enc cs)
    (hw : ∀ x ∈ d.targets, There w [] x) :
    ∃ g, parseText w (k + 2) (written d.signs) = .ok g
      ∧ (listedL [] g.blocks).flatMap (fun x => texts x.2)
        = (d.blocks.flatMap fun c => prose c.blk).map (shownL d.ids) := by
  obtain ⟨g, h1, h2, _⟩ := parse_rich w k d ho hl hu hw
  refine ⟨g, h1, ?_⟩
  rw [h2]
  generalize ([] : List Title) = hs
  induction d.blocks generalizing hs with
  | nil => rfl
  | cons c cs ih => simp only [contents, List.flatMap_cons, Tagged.block, texts_block, ih, List.map_append]

/-- C71 for the verbatim blocks of documents of the class: the block has the delimiter as it was written, and its text
is exactly what is between the delimiters, newlines included; the blocks after it are outside.

Missing: verbatim blocks in blocks of other kinds than below; for some of them the claim is false (below). -/
theorem C71_verbatim_partial (w : World) (k : Nat) (d : RichDoc) (ho : d.Ok) (hl : Legible [] d.signs [])
    (hu : ∃ cs, written d.signs = enc cs)
    (hw : ∀ x ∈ d.targets, There w [] x) :
    ∃ g, parseText w (k + 2) (written d.signs) = .ok g ∧ (listedL [] g.blocks).length = d.blocks.length
      ∧ ∀ (i : Nat) (tags : List Tag) (n : Verb) (delim : Str) (body : List Sign) (m : Gap),
        d.blocks[i]? = some ⟨tags, .verb n delim body, m⟩ →
        ∃ path, (listedL [] g.blocks)[i]? =
          some (path, .leaf n.name .delimited (some delim) [literal (written body)] (tagsMeta tags) []) := by
  obtain ⟨g, h1, h2, h3⟩ := C69_sections_partial w k d ho hl hu hw
  exact ⟨g, h1, h2, fun i tags n delim body m hi => ⟨_, h3 i _ hi⟩⟩

/-- C71 for the boxes of documents of the class (sidebars, examples, open blocks and quotations): the box has the
delimiter and the title as they were written, and contains exactly the blocks between the delimiters, in the same order,
each of them with its metadata, its text and the verbatim text as they were written; the blocks after it are outside.

Missing: boxes and admonitions in boxes, breaks in boxes, a list directly before the last delimiter; for these the claim
is false (below). -/
theorem C71_boxes_partial (w : World) (k : Nat) (d : RichDoc) (ho : d.Ok) (hl : Legible [] d.signs [])
    (hu : ∃ cs, written d.signs = enc cs)
    (hw : ∀ x ∈ d.targets, There w [] x) :
    ∃ g, parseText w (k + 2) (written d.signs) = .ok g ∧ (listedL [] g.blocks).length = d.blocks.length
      ∧ ∀ (i : Nat) (tags : List Tag) (n : Box) (delim : Str) (title : Option (List Elem)) (lead : Nat) (held : List Held) (m : Gap),
        d.blocks[i]? = some ⟨tags, .box n delim title lead held, m⟩ →
        ∃ path bs, (listedL [] g.blocks)[i]? =
            some (path, .parent n.name none delim bs (shownL d.ids (title.getD [])) (tagsMeta tags) [])
          ∧ bs.length = held.length
          ∧ ∀ (j : Nat) (h : Held), held[j]? = some h → bs[j]? = some (match h.piece with
            | .para es => .leaf .paragraph .paragraph none (shownL d.ids es) (tagsMeta h.tags) []
            | .list v items =>
              .list v (items.map fun es => .listItem (bullet v) (shownL d.ids es) [] none []) (tagsMeta h.tags) []
            | .verb k delim' body => .leaf k.name .delimited (some delim') [literal (written body)] (tagsMeta h.tags) []) := by
  obtain ⟨g, h1, h2, h3⟩ := C69_sections_partial w k d ho hl hu hw
  refine ⟨g, h1, h2, fun i tags n delim ti lead held m hi => ⟨_, held.map (Held.block d.ids), h3 i _ hi, by simp, ?_⟩⟩
  intro j h hj
  rw [List.getElem?_map, hj]
  obtain ⟨_, piece, _⟩ := h
  cases piece <;> rfl

/-- C76 for documents of the class: the metadata lines before block `i` give the block of the graph exactly the
attributes and roles they say (`tagsMeta`, nothing if they say nothing), and so do metadata lines in boxes for the block
after them; and nothing else about the graph depends on them, except that cross references to its id show its title. Breaks and admonitions have no metadata lines here, and
images have either metadata lines or attributes of their own; the metadata of a table say its columns and header too (`Blk.own`).

Missing: documents outside the class; for some of them the claim is false (below). -/
theorem C76_metadata_partial (w : World) (k : Nat) (d : RichDoc) (ho : d.Ok) (hl : Legible [] d.signs [])
    (hu : ∃ cs, written d.signs = enc cs)
    (hw : ∀ x ∈ d.targets, There w [] x) :
    ∃ g, parseText w (k + 2) (written d.signs) = .ok g
      ∧ (listedL [] g.blocks).map (fun x => x.2.data) = d.blocks.map (fun c => c.blk.own (tagsMeta c.tags))
      ∧ ∀ (i : Nat) (c : Tagged), d.blocks[i]? = some c →
        ∃ path, (listedL [] g.blocks)[i]? = some (path, c.blk.block d.ids (tagsMeta c.tags)) := by
  obtain ⟨g, h1, h2, h3⟩ := C69_sections_partial w k d ho hl hu hw
  refine ⟨g, h1, ?_, fun i c hi => ⟨_, h3 i c hi⟩⟩
  apply List.ext_getElem?
  intro i
  rw [List.getElem?_map, List.getElem?_map]
  cases hi : d.blocks[i]? with
  | none =>
    rw [List.getElem?_eq_none (by rw [h2]; exact List.getElem?_eq_none_iff.1 hi)]
    rfl
  | some c =>
    rw [h3 i c hi]
    have hp := (ho.blocks c (List.mem_of_getElem? hi)).place
    simp only [Option.map_some, Tagged.block]
    congr 1
    obtain ⟨tags, blk, gap⟩ := c
    cases blk with
    | brk v => rw [show tags = [] from hp]; rfl
    | note v es => rw [show tags = [] from hp]; rfl
    | piece p => cases p <;> rfl
    | _ => rfl

/-- C48 for documents of the class: a title line and attribute lines at the beginning become the title, with all its
inline markup, and the attributes of the document; and without them there is no header. -/
theorem C48_header_partial (w : World) (k : Nat) (d : RichDoc) (ho : d.Ok) (hl : Legible [] d.signs [])
    (hu : ∃ cs, written d.signs = enc cs)
    (hw : ∀ x ∈ d.targets, There w [] x) :
    ∃ g, parseText w (k + 2) (written d.signs) = .ok g
      ∧ (∀ h, d.head = some h → ∃ x, g.header = some x ∧ bareL x.title = h.title.map Elem.inline)
      ∧ (d.head = none → g.header = none ∧ g.attributes = none) := by
  obtain ⟨g, h1, _, h2, h3⟩ := parse_rich w k d ho hl hu hw
  refine ⟨g, h1, fun h hh => ?_, fun hh => ?_⟩
  · rw [hh] at h2
    cases hg : g.header with
    | none => rw [hg] at h2; cases h2
    | some x =>
      rw [hg] at h2
      exact ⟨x, rfl, by rw [← shownL_nil]; exact Option.some.inj h2⟩
  · rw [hh] at h2 h3
    refine ⟨?_, h3⟩
    cases hg : g.header with
    | none => rfl
    | some x => rw [hg] at h2; cases h2

theorem get_insert {V : Type} (m : SMap V) (k n : Str) (v : V) :
    (m.insert k v).get? n = if k = n then some v else m.get? n := by
  induction m with
  | nil => rfl
  | cons x xs ih =>
    obtain ⟨j, u⟩ := x
    rw [SMap.insert]
    by_cases h : j = k
    · subst h
      rw [if_pos rfl, SMap.get?, SMap.get?]
      split <;> rfl
    · rw [if_neg h, SMap.get?, SMap.get?, ih]
      by_cases h1 : j = n
      · rw [if_pos h1, if_pos h1, if_neg (fun e => h (h1.trans e.symm))]
      · rw [if_neg h1, if_neg h1]

/-- C19 for the headers of documents of the class: every attribute of the document has the value of its last definition
in the header, and there are no other attributes. -/
theorem C19_header_partial (w : World) (k : Nat) (d : RichDoc) (h : Head) (hd : d.head = some h) (ho : d.Ok)
    (hl : Legible [] d.signs []) (hu : ∃ cs, written d.signs = enc cs)
    (hw : ∀ x ∈ d.targets, There w [] x) :
    ∃ g a, parseText w (k + 2) (written d.signs) = .ok g ∧ g.attributes = some a
      ∧ ∀ name, a.get? name = h.attrs.reverse.lookup name := by
  obtain ⟨g, h1, _, _, h3⟩ := parse_rich w k d ho hl hu hw
  rw [hd] at h3
  refine ⟨g, h.defs, h1, h3, fun name => ?_⟩
  unfold Head.defs
  have key : ∀ (l : List (Str × Str)) (m : SMap Str),
      (l.foldl (fun m kv => m.insert kv.1 kv.2) m).get? name = (l.reverse.lookup name).or (m.get? name) := by
    intro l
    induction l with
    | nil => intro m; rfl
    | cons x xs ih =>
      intro m
      obtain ⟨j, u⟩ := x
      rw [List.foldl_cons, ih, List.reverse_cons, List.lookup_append, get_insert, Option.or_assoc]
      congr 1
      rw [List.lookup_cons, List.lookup_nil]
      by_cases e : j = name
      · subst e; simp
      · have : (name == j) = false := by simpa using fun h => e h.symm
        rw [if_neg e, this]; rfl
  rw [key]
  cases h.attrs.reverse.lookup name <;> rfl

theorem mem_get {V : Type} (m : SMap V) (k : Str) (v : V) (h : m.get? k = some v) : (k, v) ∈ m := by
  induction m with
  | nil => cases h
  | cons x xs ih =>
    obtain ⟨j, u⟩ := x
    rw [SMap.get?] at h
    split at h
    · rename_i e
      subst e
      cases h
      exact List.mem_cons_self
    · exact List.mem_cons_of_mem _ (ih h)

/-- The id of a block. -/
def idOf (e : Tagged) : Option Str := (e.blk.own (tagsMeta e.tags)).bind fun m => m.attributes.get? b!"id"

/-- C31 for documents of the class: a cross reference in a text of block `i` to the id of block `j` is in the graph with
the title of block `j` (before or after it); one to an id that no block has, or to a block in a box (which has no
title), is as written.

Missing: documents outside the class. -/
theorem C31_titles_partial (w : World) (k : Nat) (d : RichDoc) (ho : d.Ok) (hl : Legible [] d.signs [])
    (hu : ∃ cs, written d.signs = enc cs)
    (hw : ∀ x ∈ d.targets, There w [] x) :
    ∃ g, parseText w (k + 2) (written d.signs) = .ok g
      ∧ ∀ (i n m : Nat) (c : Tagged) (es : List Elem) (id : Str), d.blocks[i]? = some c → (prose c.blk)[n]? = some es →
        es[m]? = some (.xref id) →
        ∃ x t s, (listedL [] g.blocks)[i]? = some x ∧ (texts x.2)[n]? = some t ∧ t[m]? = some (.ref .xref id s none [])
          ∧ (∀ e ∈ d.blocks, idOf e = some id → s = e.blk.title)
          ∧ ((∀ e ∈ d.blocks, idOf e ≠ some id) → s = []) := by
  obtain ⟨g, h1, h2, h3⟩ := C69_sections_partial w k d ho hl hu hw
  refine ⟨g, h1, fun i n m c es id hi hn hm => ?_⟩
  refine ⟨_, shownL d.ids es, (d.ids.lookup id).getD [], h3 i c hi, ?_, ?_, fun e he hid => ?_, fun hid => ?_⟩
  · simp only [Tagged.block]
    rw [texts_block, List.getElem?_map, hn]; rfl
  · unfold shownL
    rw [List.getElem?_map, hm]; rfl
  · have hmem : (id, e.blk.title) ∈ d.ids := by
      unfold RichDoc.ids
      refine List.mem_flatMap.2 ⟨e, he, ?_⟩
      unfold Tagged.ids idWith
      unfold idOf at hid
      rw [hid]; simp
    rw [← get_lookup, get_mem d.ids ho.ids id _ hmem]; rfl
  · have hno : ∀ v, (id, v) ∈ d.ids → v = [] := by
      intro v hv
      unfold RichDoc.ids at hv
      obtain ⟨e, he, hv⟩ := List.mem_flatMap.1 hv
      have own : ∀ m t, (id, v) ∈ idWith m t → (m.bind fun m => m.attributes.get? b!"id") = some id ∧ v = t := by
        intro m t hv
        unfold idWith at hv
        split at hv
        · rename_i j hj
          simp only [List.mem_singleton, Prod.mk.injEq] at hv
          exact ⟨by rw [hv.1]; exact hj, hv.2⟩
        · cases hv
      unfold Tagged.ids at hv
      rcases List.mem_append.1 hv with hv | hv
      · exact absurd (own _ _ hv).1 (hid e he)
      · cases hb : e.blk with
        | box n dl ti lead held =>
          rw [hb] at hv
          obtain ⟨h, _, hv⟩ := List.mem_flatMap.1 hv
          exact (own _ _ hv).2
        | attached v points =>
          rw [hb] at hv
          obtain ⟨p, _, hv⟩ := List.mem_flatMap.1 hv
          obtain ⟨a, _, hv⟩ := List.mem_flatMap.1 hv
          obtain ⟨h, _, hv⟩ := List.mem_flatMap.1 hv
          exact (own _ _ hv).2
        | _ => rw [hb] at hv; cases hv
    rw [← get_lookup]
    cases hg : SMap.get? d.ids id with
    | none => rfl
    | some v => exact hno v (mem_get d.ids id v hg)

/-! ### A document of the class -/

/-- The document, block by block. -/
def sampleDoc : RichDoc where
  head := some ⟨[.text [b!"My "], .span .emphasis [.text [b!"doc"]]], [(b!"x", b!"y z"), (b!"u", []), (b!"x", b!"v")], 2⟩
  blocks := [
    ⟨[], .para [.text [b!"Some "], .span .strong [.text [b!"bold "], .span .emphasis [b!"text"]], .text [b!" and", b!"AT&T: { 5 * 6 < 7 } [x_y"]], 2⟩,
    ⟨[.anchor b!"one"], .head 1 [.text [b!"One "], .span .code [.text [b!"x"]]], 2⟩,
    ⟨[.list none [.named b!"role" b!"a b", .pos b!"left"]],
      .list .unordered [[.text [b!"first"]], [.text [b!"a "], .span .mark2 [.text [b!"b"]]]], 2⟩,
    ⟨[], .head 2 [.text [b!"Two"]], 3⟩,
    ⟨[.list (some .source) [.pos b!"ruby", .named b!"n" b!"1"], .quoted b!"alt" b!"p, q"],
      .verb .listing b!"----" [Spec.newline, .text b!"let x ", .mark .charRef b!"->", .text b!" y", Spec.newline], 2⟩,
    ⟨[], .para [.link b!"https://a.b" [.text [b!"go "], .span .strong [b!"on"]], .text [b!" and "], .xref b!"one"], 2⟩,
    ⟨[], .head 1 [.text [b!"Three"]], 2⟩,
    ⟨[], .note .tip [.text [b!"do "], .symbol b!"->"], 2⟩,
    ⟨[], .brk .thematic, 1⟩]

/-- How it is written. -/
def sampleText : Str := b!"= My _doc_
:x: y z
:u:
:x: v

Some *bold _text_* and
AT&T: { 5 * 6 < 7 } [x_y

[[one]]
== One `x`

[role=a b,left]
* first
* a ##b##

=== Two


[source,ruby,n=1]
[alt=\"p, q\"]
----
let x -> y
----

https://a.b[go *on*] and <<one>>

== Three

TIP: do ->

'''
"

theorem richSample_written : written sampleDoc.signs = sampleText := by decide +kernel

set_option maxRecDepth 20000 in
theorem richSample_utf8 : ∃ cs, written sampleDoc.signs = enc cs := by
  refine ⟨(String.fromUTF8? ⟨sampleText.toArray⟩).get!.toList, ?_⟩
  rw [richSample_written]
  decide +kernel

theorem richSample_legible : Legible [] sampleDoc.signs [] :=
  Scanner.legible_of_legibleB richSample_utf8 (by decide +kernel)

theorem richSample_ok : sampleDoc.Ok where
  head := by
    intro h hh
    cases hh
    refine ⟨⟨?_, ?_, by decide⟩, ?_, by decide⟩
    · simp [ProseOk, ElemsOk, PartsOk, TextLines, EndsLine]
      all_goals decide
    · unfold OneLine; decide
    · intro kv hkv
      simp only [List.mem_cons, List.not_mem_nil, or_false] at hkv
      rcases hkv with rfl | rfl | rfl <;> exact ⟨by decide, by decide⟩
  blocks := by
    intro e he
    simp only [sampleDoc, List.mem_cons, List.not_mem_nil, or_false] at he
    rcases he with rfl | rfl | rfl | rfl | rfl | rfl | rfl | rfl | rfl
    all_goals refine ⟨?_, ?_, ?_⟩
    all_goals simp [TagsOk, ArgsOk, FirstOk, Unseparated, Blk.Ok, Piece.Ok, ProseOk, ElemsOk, PartsOk, TextLines, EndsLine, OneLine,
      inVerb, joinB, Elem.signs, Part.signs, textSigns, lineSigns, Spec.newline, TagsFor, Lexical.Alnum]
    all_goals decide
  gaps := by simp [sampleDoc, GapsOk, Blk.ending]
  flow := by decide
  ids := by decide
  icons := Scanner.no_callouts (by decide)
  signs := by
    have : ∀ s ∈ sampleDoc.signs, (match s with
      | .text _ => true
      | .mark ty l => ty ≠ .text && l.all (fun b => b.toNat < 128)) = true := by decide +kernel
    intro s hs
    have := this s hs
    cases s with
    | text => trivial
    | mark ty l =>
      simp only [Bool.and_eq_true, decide_eq_true_eq, List.all_eq_true] at this
      exact ⟨this.1, fun _ b hb => this.2 b hb⟩

example : ∃ g, parseText emptyWorld 2 sampleText = .ok g
    ∧ listedL [] g.blocks = contents sampleDoc.ids [] sampleDoc.blocks := by
  obtain ⟨g, h1, h2, _⟩ := C23_rich_partial emptyWorld 0 sampleDoc richSample_ok richSample_legible richSample_utf8
    (fun _ h => by cases h)
  exact ⟨g, by rw [← richSample_written]; exact h1, h2⟩

/-- The only id of the document, and the title that cross references to it show. -/
example : sampleDoc.ids = [(b!"one", [literal b!"One ", Elem.inline (.span .code [.text [b!"x"]])])] := rfl

/-- What the metadata lines of the list and of the listing say. -/
example : sampleDoc.blocks.map (fun c => tagsMeta c.tags) =
    [none, some { attributes := [(b!"id", b!"one")] },
      some { attributes := [(b!"positional_2", b!"left")], roles := [b!"a", b!"b"] }, none,
      some { attributes := [(b!"language", b!"ruby"), (b!"n", b!"1"), (b!"alt", b!"p, q")], declared := some .source },
      none, none, none, none] := by decide +kernel

example : sampleDoc.head.map Head.defs = some [(b!"x", b!"v"), (b!"u", [])] := by decide +kernel

/-! ## C69: where the claim is false -/

/-- A link in a section ends the section: the next paragraph is outside. -/
theorem C69_link_ends_section :
    returns ((parseText emptyWorld 5 b!"== Head\n\nhttps://a.b[link]\n\nlast\n").map fun g => sketchBs g.blocks)
      b!"section(Head)[(link https://a.b(link))] (last)" = true := by
  decide +kernel

/-- A link before the first heading ends the section after its first paragraph. -/
theorem C69_link_before_heading :
    returns ((parseText emptyWorld 5 b!"https://a.b[link]\n\n== H\n\nx\n\ny\n").map fun g => sketchBs g.blocks)
      b!"(link https://a.b(link)) section(H)[(x)] (y)" = true := by
  decide +kernel

/-- A heading after a sidebar is put into the sidebar. -/
theorem C69_section_in_sidebar :
    returns ((parseText emptyWorld 5 b!"****\na\n****\n\n== H\n\nx\n").map fun g => sketchBs g.blocks)
      b!"sidebar[(a) section(H)[(x)]]" = true := by
  decide +kernel

/-- A heading after an admonition is put into the admonition. -/
theorem C69_section_in_admonition :
    returns ((parseText emptyWorld 5 b!"NOTE: a\n\n== H\n\nx\n").map fun g => sketchBs g.blocks)
      b!"admonition[(a) section(H)[(x)]]" = true := by
  decide +kernel

/-! ## C70: where the claim is false -/

/-- The second of two spans on lines of their own is not a span. -/
theorem C70_second_line :
    returns ((parseText emptyWorld 5 b!"*a*\n*b*").map fun g => sketchBs g.blocks)
      b!"(strong(a)|\nb*)" = true := by
  decide +kernel

/-- The second of two adjacent spans is left open inside the first, and its text is outside. -/
theorem C70_adjacent :
    returns ((parseText emptyWorld 5 b!"*a*_b_").map fun g => sketchBs g.blocks)
      b!"(strong(a|emphasis!())|b_)" = true := by
  decide +kernel

/-- A URL without brackets takes the rest of the text. -/
theorem C70_bare_url :
    returns ((parseText emptyWorld 5 b!"see https://a.b for x").map fun g => sketchBs g.blocks)
      b!"(see |link https://a.b( for x))" = true := by
  decide +kernel

/-- A span in a span in a span is left open (and made twice). -/
theorem C70_three_levels :
    returns ((parseText emptyWorld 5 b!"*a _b `c` d_ e*").map fun g => sketchBs g.blocks)
      b!"(strong(a |emphasis(b |code!(c|code!( d)))| e))" = true := by
  decide +kernel

/-- A cross reference at the beginning of a line comes before the newline. -/
theorem C70_newline_reference :
    returns ((parseText emptyWorld 5 b!"x\n<<y>> z").map fun g => sketchBs g.blocks)
      b!"(x|xref y()|\n z)" = true := by
  decide +kernel

/-- A span with a link in it is no span. -/
theorem C70_link_in_span :
    returns ((parseText emptyWorld 5 b!"*see https://a.b[x] y*").map fun g => sketchBs g.blocks)
      b!"(*see |link https://a.b(x)| y*)" = true := by
  decide +kernel

/-- The first mark of a span at the beginning of the title line of a sidebar is text, and the second one begins a span. -/
theorem C70_title_line :
    returns ((parseText emptyWorld 5 b!"._T_\n****\na\n****\n").map fun g => g.blocks.map fun b =>
      (b.title.map sketchL, sketchB b)) ([(some b!"_T|emphasis!()", b!"sidebar[(a)]")] : List (Option Str × Str)) = true := by
  decide +kernel

/-! ## C71: where the claim is false -/

/-- A sidebar in an example: the end of the example is taken for the beginning of another one. -/
theorem C71_nested :
    returns ((parseText emptyWorld 5 b!"====\n****\na\n****\n====\n").map fun g => sketchBs g.blocks)
      b!"example[sidebar[(a) example[]]]" = true := by
  decide +kernel

/-- A paragraph after the blocks comes first, and the blocks are turned inside out. -/
theorem C71_order :
    returns ((parseText emptyWorld 5 b!"====\na\n\n****\nb\n****\n\nc\n====\n\nd").map fun g => sketchBs g.blocks)
      b!"(d) sidebar[(b) example[(c)]] example[(a)]" = true := by
  decide +kernel

/-- A thematic break in a sidebar is put before the sidebar. -/
theorem C71_break :
    returns ((parseText emptyWorld 5 b!"****\na\n\n'''\n\nb\n****\n\nc\n").map fun g => sketchBs g.blocks)
      b!"break sidebar[(a) (b)] (c)" = true := by
  decide +kernel

/-- In a list directly before the end of a sidebar, the item is empty and its text is after the list. -/
theorem C71_list_at_end :
    returns ((parseText emptyWorld 5 b!"****\nx\n\n* a\n****\n\nc\n").map fun g => sketchBs g.blocks)
      b!"sidebar[(x) list[item()[]] (a)] (c)" = true := by
  decide +kernel

/-! ## C76: where the claim is false -/

/-- A paragraph after an anchor begins with a newline that was not written in it. -/
theorem C76_anchor_paragraph :
    returns ((parseText emptyWorld 5 b!"[[a]]\npara\n").map fun g => sketchBs g.blocks) b!"(\npara)" = true := by
  decide +kernel

/-- The roles of a span. -/
def spanRoles : Inline → Option (List Str)
  | .span _ _ _ m _ _ => m.map (·.roles)
  | _ => none

/-- A role before a paragraph goes to the first span in it. -/
theorem C76_role_to_span :
    returns ((parseText emptyWorld 5 b!"[role=\"x\"]\npara *b* y\n").map fun g => g.blocks.map fun b =>
      (b.data.map (·.roles), b.inlines.map spanRoles)) ([(none, [none, some [b!"x"], none])] :
        List (Option (List Str) × List (Option (List Str)))) = true := by
  decide +kernel

/-- A role before an admonition goes to the paragraph in it. -/
theorem C76_role_to_paragraph :
    returns ((parseText emptyWorld 5 b!"[role=\"x\"]\nNOTE: y\n").map fun g => g.blocks.map fun b =>
      (b.data.map (·.roles), b.children.map fun c => c.data.map (·.roles)))
      ([(none, [some [b!"x"]])] : List (Option (List Str) × List (Option (List Str)))) = true := by
  decide +kernel

/-- A role before a break goes to the section. -/
theorem C76_role_to_section :
    returns ((parseText emptyWorld 5 b!"== A\n\n[role=\"x\"]\n'''\n\nb\n").map fun g => g.blocks.map fun b =>
      (sketchB b, b.data.map (·.roles))) [(b!"section(A)[break (b)]", some [b!"x"])] = true := by
  decide +kernel

/-- Two styles before a block stop the program, and so do four entries of a quotation. -/
theorem C76_two_styles :
    panics (parseText emptyWorld 5 b!"[quote]\n[foo]\nx\n") .todo = true
      ∧ panics (parseText emptyWorld 5 b!"[quote,a,b,c]\nx\n") .todo = true := by
  decide +kernel

end Adoc.Props
