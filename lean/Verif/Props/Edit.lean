import Verif.Proof.Edit
import Verif.Proof.EditWord
import Verif.Proof.RichBefore
import Verif.Props.Spacing
import Verif.Spec.Word
/-!
# C108: editing one block changes only its own part of the page
-/
namespace Adoc.Props
open Spec Rich Parser Edit

/-- Two pages are the same, except that where one has what is written for `x`, the other one has what is written for `y`; and
if `y` can be written, so can the page. (`skip` says that a block is directly in an admonition.) -/
def OnePart (sees : Bool) (x y : Block) (g h : Asg) : Prop :=
  ∀ page, Html.render sees g = .ok page → ∃ skip pre X post, Html.block (sees && g.header.isSome) skip x = .ok X
    ∧ page = pre ++ X ++ post
    ∧ ∀ Y, Html.block (sees && g.header.isSome) skip y = .ok Y → Html.render sees h = .ok (pre ++ Y ++ post)

theorem page_frame : ∃ U V W : Str, ∀ (sees : Bool) (g : Asg),
    Html.render sees g = (Html.body (sees && g.header.isSome) g.blocks).map fun x => U ++ Html.docTitle g.header ++ V ++ x ++ W := by
  refine ⟨b!"\n\n<!DOCTYPE html>\n<html lang=\"en\">\n\n<head>\n    <meta charset=\"UTF-8\">\n    <meta name=\"viewport\" content=\"width=device-width, initial-scale=1\">\n    <title>",
    b!"</title>\n</head>\n\n<body>", b!"\n</body>\n\n</html>\n", fun sees g => ?_⟩
  unfold Html.render
  cases Html.body (sees && g.header.isSome) g.blocks <;> rfl

theorem onePart_of {sees : Bool} {x y : Block} {g h : Asg} {bs cs : List Block} (hs : Swapped x y bs cs)
    (hg : ∀ t, Html.body t g.blocks = Html.body t bs) (hh : ∀ t, Html.body t h.blocks = Html.body t cs)
    (h1 : g.header.isSome = h.header.isSome) (h2 : Html.docTitle g.header = Html.docTitle h.header) : OnePart sees x y g h := by
  obtain ⟨U, V, W, hr⟩ := page_frame
  intro page hp
  rw [hr, hg] at hp
  rw [hr, hh, ← h1, ← h2]
  cases hb : Html.body (sees && g.header.isSome) bs with
  | error e => rw [hb] at hp; cases hp
  | ok s =>
    rw [hb] at hp
    obtain ⟨sk, A, X, B, e1, e2, e3⟩ := swapped_body hs _ s hb
    have hp := Except.ok.inj hp
    refine ⟨sk, U ++ Html.docTitle g.header ++ V ++ A, X, B ++ W, e1, hp.symm.trans ?_, fun Y hY => ?_⟩
    · rw [e2]; simp only [List.append_assoc]
    · rw [e3 Y hY]
      simp only [Except.map, List.append_assoc]

/-- **C108** (every graph): if one block of a document, at any depth in sections, lists, items and boxes, is exchanged for any
other one, only what is written for this block changes on the page; all bytes before and after it stay the same. -/
theorem C108_page (sees : Bool) {x y : Block} {g h : Asg} (hs : Swapped x y g.blocks h.blocks) (hh : g.header = h.header) :
    OnePart sees x y g h :=
  onePart_of hs (fun _ => rfl) (fun _ => rfl) (by rw [hh]) (by rw [hh])

/-- A paragraph in a section is exchanged for a thematic break. -/
example : Swapped (.leaf .paragraph .paragraph none [literal b!"a"] none []) (.brk .thematic [])
    [.brk .page [], .section [literal b!"S"] none 1 [.leaf .paragraph .paragraph none [literal b!"a"] none []] []]
    [.brk .page [], .section [literal b!"S"] none 1 [.brk .thematic []] []] :=
  .within [.brk .page []] [] (.section [literal b!"S"] none 1 []) (.here [] [])

/-- **C108** (every graph, the title): if the title of a document is exchanged for another one, only the title changes on the page. -/
theorem C108_title (sees : Bool) {g h : Asg} {t u : Header} (hg : g.header = some t) (hh : h.header = some u) (hb : g.blocks = h.blocks)
    (page : Str) (hp : Html.render sees g = .ok page) :
    ∃ pre post, page = pre ++ Html.inlines t.title ++ post ∧ Html.render sees h = .ok (pre ++ Html.inlines u.title ++ post) := by
  obtain ⟨U, V, W, hr⟩ := page_frame
  rw [hr, hg, hb] at hp
  rw [hr, hh]
  cases hx : Html.body (sees && true) h.blocks with
  | error e => rw [Option.isSome_some, hx] at hp; cases hp
  | ok x =>
    rw [Option.isSome_some, hx] at hp
    rw [Option.isSome_some, hx]
    exact ⟨U, V ++ x ++ W, by rw [← Except.ok.inj hp]; simp only [Html.docTitle, List.append_assoc],
      by simp only [Except.map, Html.docTitle, List.append_assoc]⟩

/-- There is a page with a title. -/
example : (Html.render true ⟨none, some { title := [literal b!"T"], loc := [] }, [], [], [.brk .page []], []⟩).toOption.isSome = true := by
  decide +kernel

/-- A page has, besides what is on another page, only what is written for `x`, and maybe white space before it. -/
def OneLess (sees : Bool) (x : Block) (g h : Asg) : Prop :=
  ∀ page, Html.render sees g = .ok page → ∃ skip pre space X post, Html.block (sees && g.header.isSome) skip x = .ok X
    ∧ (space = [] ∨ space = b!"\n    ") ∧ page = pre ++ (space ++ X) ++ post ∧ Html.render sees h = .ok (pre ++ post)

theorem oneLess_of {sees : Bool} {x : Block} {g h : Asg} {bs cs : List Block} (hs : Dropped x bs cs)
    (hg : ∀ t, Html.body t g.blocks = Html.body t bs) (hh : ∀ t, Html.body t h.blocks = Html.body t cs)
    (h1 : g.header.isSome = h.header.isSome) (h2 : Html.docTitle g.header = Html.docTitle h.header) : OneLess sees x g h := by
  obtain ⟨U, V, W, hr⟩ := page_frame
  intro page hp
  rw [hr, hg] at hp
  rw [hr, hh, ← h1, ← h2]
  cases hb : Html.body (sees && g.header.isSome) bs with
  | error e => rw [hb] at hp; cases hp
  | ok s =>
    rw [hb] at hp
    obtain ⟨sk, A, S, X, B, e1, e2, e3, e4⟩ := dropped_body hs _ s hb
    have hp := Except.ok.inj hp
    refine ⟨sk, U ++ Html.docTitle g.header ++ V ++ A, S, X, B ++ W, e1, e2, hp.symm.trans ?_, ?_⟩
    · rw [e3]; simp only [List.append_assoc]
    · rw [e4]
      simp only [Except.map, List.append_assoc]

/-- **C108** (every graph, deleting and inserting): if a block, at any depth in sections, lists, items and boxes, is left out, only what
is written for this block, and the white space before it, is no longer on the page; all other bytes stay the same. -/
theorem C108_delete (sees : Bool) {x : Block} {g h : Asg} (hs : Dropped x g.blocks h.blocks) (hh : g.header = h.header) :
    OneLess sees x g h :=
  oneLess_of hs (fun _ => rfl) (fun _ => rfl) (by rw [hh]) (by rw [hh])

/-- A paragraph in a section is left out. -/
example : Dropped (.leaf .paragraph .paragraph none [literal b!"a"] none [])
    [.brk .page [], .section [literal b!"S"] none 1 [.brk .thematic [], .leaf .paragraph .paragraph none [literal b!"a"] none []] []]
    [.brk .page [], .section [literal b!"S"] none 1 [.brk .thematic []] []] :=
  .within [.brk .page []] [] (.section [literal b!"S"] none 1 []) (.here [.brk .thematic []] [])

/-- **C108** (every graph, cells of tables): if the text of one cell of a table, in the header or not, is exchanged for any other
one, only this text changes on the page. -/
theorem C108_cell (sees : Bool) {v d t m l} {a b : List Block} {is is' : List Inline} {n k : Option Meta} {p q : List Location} {g h : Asg}
    (hs : Swapped (.parent .table v d (a ++ .tableCell is n p :: b) t m l) (.parent .table v d (a ++ .tableCell is' k q :: b) t m l)
      g.blocks h.blocks)
    (hh : g.header = h.header) (page : Str) (hp : Html.render sees g = .ok page) :
    ∃ pre post, page = pre ++ Html.inlines is ++ post ∧ Html.render sees h = .ok (pre ++ Html.inlines is' ++ post) := by
  obtain ⟨skip, pre, X, post, h1, h2, h3⟩ := C108_page sees hs hh page hp
  simp only [Html.block] at h1 h3
  obtain ⟨A, B, hm⟩ := table_mid h1
  have hx : X = A ++ Html.inlines is ++ B := Except.ok.inj (h1.symm.trans (hm _))
  refine ⟨pre ++ A, B ++ post, ?_, ?_⟩
  · rw [h2, hx]; simp only [List.append_assoc]
  · rw [h3 _ (hm _)]; simp only [List.append_assoc, Html.cellInlines]

/-- The text of the second cell of a table is exchanged; there is a page. -/
example : Swapped
      (.parent .table none [] ([.tableCell [literal b!"a"] none []] ++ .tableCell [literal b!"b"] none [] :: [])
        [] (some { attributes := [(b!"cols", b!"2")] }) [])
      (.parent .table none [] ([.tableCell [literal b!"a"] none []] ++ .tableCell [literal b!"z"] none [] :: [])
        [] (some { attributes := [(b!"cols", b!"2")] }) [])
      [.brk .page [], .parent .table none [] [.tableCell [literal b!"a"] none [], .tableCell [literal b!"b"] none []]
        [] (some { attributes := [(b!"cols", b!"2")] }) []]
      [.brk .page [], .parent .table none [] [.tableCell [literal b!"a"] none [], .tableCell [literal b!"z"] none []]
        [] (some { attributes := [(b!"cols", b!"2")] }) []] :=
  .here [.brk .page []] []

example : (Html.render true ⟨none, none, [], [], [.brk .page [], .parent .table none []
      [.tableCell [literal b!"a"] none [], .tableCell [literal b!"b"] none []] [] (some { attributes := [(b!"cols", b!"2")] }) []],
    []⟩).toOption.isSome = true := by
  decide +kernel

theorem bare_headers {g h : Asg} (hh : g.header.map (fun x => bareL x.title) = h.header.map fun x => bareL x.title) :
    g.header.isSome = h.header.isSome ∧ Html.docTitle g.header = Html.docTitle h.header := by
  cases hg : g.header with
  | none => cases hx : h.header with
    | none => exact ⟨rfl, rfl⟩
    | some y => rw [hg, hx] at hh; simp at hh
  | some x => cases hx : h.header with
    | none => rw [hg, hx] at hh; simp at hh
    | some y =>
      rw [hg, hx] at hh
      have hh : bareL x.title = bareL y.title := Option.some.inj hh
      refine ⟨rfl, ?_⟩
      simp only [Html.docTitle]
      rw [← htmlInlines_bare x.title, hh, htmlInlines_bare]

theorem contents_swap (ids : Ids) (c c' : Tagged) (hc : c.blk.isHead = false) (hc' : c'.blk.isHead = false) (a b : List Tagged)
    (hs : List Title) : ∃ P p Q, contents ids hs (a ++ c :: b) = P ++ (p, c.block ids) :: Q
      ∧ contents ids hs (a ++ c' :: b) = P ++ (p, c'.block ids) :: Q := by
  induction a generalizing hs with
  | nil =>
    have h1 : ∀ c : Tagged, c.blk.isHead = false → c.blk.level = 5 ∧ c.blk.after ids hs = hs := by
      intro c hc
      cases hb : c.blk <;> rw [hb] at hc <;> first | exact ⟨rfl, rfl⟩ | cases hc
    refine ⟨[], parents hs 5, contents ids hs b, ?_, ?_⟩
    · simp only [List.nil_append, contents, (h1 c hc).1, (h1 c hc).2]
    · simp only [List.nil_append, contents, (h1 c' hc').1, (h1 c' hc').2]
  | cons e a ih =>
    obtain ⟨P, p, Q, h1, h2⟩ := ih (e.blk.after ids hs)
    exact ⟨(parents hs e.blk.level, e.block ids) :: P, p, Q, by simp only [List.cons_append, contents, h1], by simp only [List.cons_append, contents, h2]⟩

theorem block_plain (ids : Ids) (c : Tagged) (hc : c.blk.isHead = false) : isSection (c.block ids) = false := by
  unfold Tagged.block
  cases hb : c.blk with
  | head => rw [hb] at hc; cases hc
  | piece p => cases p <;> rfl
  | _ => rfl

/-- What two documents have in common when one block is edited: the title, the other blocks and their metadata, and the ids of
the edited block with their titles; it is not a heading. Blank lines and comments may differ. -/
structure Edited (head head' : Option Head) (cs cs' : List Tagged) (c c' : Tagged) : Prop where
  title : head.map Head.title = head'.map Head.title
  blocks : ∃ a b, cs.map (fun e => (e.tags, e.blk)) = (a ++ c :: b).map (fun e => (e.tags, e.blk))
    ∧ cs'.map (fun e => (e.tags, e.blk)) = (a ++ c' :: b).map fun e => (e.tags, e.blk)
  plain : c.blk.isHead = false ∧ c'.blk.isHead = false
  ids : c.ids = c'.ids

theorem edited_swapped {g g' : Asg} {head head' : Option Head} {cs cs' : List Tagged} {c c' : Tagged} (he : Edited head head' cs cs' c c')
    (h1 : listedL [] g.blocks = contents (cs.flatMap Tagged.ids) [] cs)
    (h2 : listedL [] g'.blocks = contents (cs'.flatMap Tagged.ids) [] cs')
    (h3 : g.header.map (fun h => bareL h.title) = head.map (fun h => shownL [] h.title))
    (h4 : g'.header.map (fun h => bareL h.title) = head'.map (fun h => shownL [] h.title)) :
    Swapped (c.block (cs.flatMap Tagged.ids)) (c'.block (cs.flatMap Tagged.ids)) (bareBs g.blocks) (bareBs g'.blocks)
      ∧ g.header.map (fun x => bareL x.title) = g'.header.map fun x => bareL x.title := by
  obtain ⟨a, b, e1, e2⟩ := he.blocks
  have hids : cs.flatMap Tagged.ids = cs'.flatMap Tagged.ids := by
    rw [(contents_gaps [] [] _ _ e1).2, (contents_gaps [] [] _ _ e2).2]
    simp only [List.flatMap_append, List.flatMap_cons, he.ids]
  rw [← hids] at h2
  rw [(contents_gaps _ _ _ _ e1).1] at h1
  rw [(contents_gaps _ _ _ _ e2).1] at h2
  obtain ⟨P, p, Q, f1, f2⟩ := contents_swap (cs.flatMap Tagged.ids) c c' he.plain.1 he.plain.2 a b []
  have hs := listedL_edit g.blocks g'.blocks [] P Q p _ _ (block_plain _ c he.plain.1) (block_plain _ c' he.plain.2)
    (h1.trans f1) (h2.trans f2)
  have hh : g.header.map (fun x => bareL x.title) = g'.header.map fun x => bareL x.title := by
    rw [h3, h4]
    have := congrArg (Option.map (shownL [])) he.title
    simpa only [Option.map_map, Function.comp_def] using this
  exact ⟨hs, hh⟩

theorem edited_page {g g' : Asg} {head head' : Option Head} {cs cs' : List Tagged} {c c' : Tagged} (he : Edited head head' cs cs' c c')
    (h1 : listedL [] g.blocks = contents (cs.flatMap Tagged.ids) [] cs)
    (h2 : listedL [] g'.blocks = contents (cs'.flatMap Tagged.ids) [] cs')
    (h3 : g.header.map (fun h => bareL h.title) = head.map (fun h => shownL [] h.title))
    (h4 : g'.header.map (fun h => bareL h.title) = head'.map (fun h => shownL [] h.title)) (sees : Bool) :
    OnePart sees (c.block (cs.flatMap Tagged.ids)) (c'.block (cs.flatMap Tagged.ids)) g g' := by
  obtain ⟨hs, hh⟩ := edited_swapped he h1 h2 h3 h4
  exact onePart_of hs (fun t => (htmlBody_bare t _).symm) (fun t => (htmlBody_bare t _).symm) (bare_headers hh).1 (bare_headers hh).2

/-- Two paragraphs, listings, verses and so on, of the same kind, that end with a text, not with a line break. -/
def SameKind : Block → Block → Prop
  | .leaf n _ _ is _ _, .leaf k _ _ js _ _ => n = k ∧ TextLast is ∧ TextLast js
  | _, _ => False

theorem kind_ops {x y : Block} (h : SameKind x y) :
    (∃ R, Docx.ops x = R ++ [.para x.inlines] ∧ Docx.ops y = R ++ [.para y.inlines])
      ∧ ∀ lb, (Docx.runs x.inlines lb).2 = (Docx.runs y.inlines lb).2 := by
  unfold SameKind at h
  split at h
  · obtain ⟨rfl, h1, h2⟩ := h
    exact ⟨⟨_, by simp only [Docx.ops, Block.inlines]; rfl, by simp only [Docx.ops, Block.inlines]⟩,
      fun lb => by simp only [Block.inlines, textLast_runs h1, textLast_runs h2]⟩
  · exact h.elim

theorem near_docs (io : Str → Option Unit) {x y : Block} (hk : SameKind x y) {bs cs : List Block} (hs : Swapped x y bs cs)
    (st : Docx.St) {a : Docx.St} (ha : Docx.addBlocks io bs st = .ok a) :
    ∃ b, Docx.addBlocks io cs st = .ok b ∧ NearDocs a.doc b.doc := by
  rw [Docx.addBlocks_ops] at ha
  rw [Docx.addBlocks_ops]
  obtain ⟨⟨R, hx, hy⟩, hb⟩ := kind_ops hk
  exact near_run io hb (swapped_ops hx hy hs) st a ha

/-- **C108** (every graph, Word): if a paragraph, listing or verse of a document, at any depth, is exchanged for another one of the same
kind, and both end with a text, then the Word documents are the same up to the text of one paragraph: all other paragraphs, tables and pictures, all styles (also
that of the paragraph) and numberings stay the same. -/
theorem C108_word_text (io : Str → Option Unit) {x y : Block} {g h : Asg} (hs : Swapped x y g.blocks h.blocks) (hh : g.header = h.header)
    (hk : SameKind x y) (d : Docx.Doc) (hd : Docx.render io g = .ok d) :
    ∃ e, Docx.render io h = .ok e ∧ NearDocs d e := by
  unfold Docx.render at hd ⊢
  rw [← hh]
  cases ha : Docx.addBlocks io g.blocks (Docx.start g.header) with
  | error e => rw [ha] at hd; cases hd
  | ok a =>
    rw [ha] at hd
    cases hd
    obtain ⟨b, h1, h2⟩ := near_docs io hk hs _ ha
    exact ⟨b.doc, by rw [h1]; rfl, h2⟩

theorem start_headers {g h : Asg} (hh : g.header.map (fun x => bareL x.title) = h.header.map fun x => bareL x.title) :
    Docx.start g.header = Docx.start h.header := by
  cases hg : g.header with
  | none => cases hx : h.header with
    | none => rfl
    | some y => rw [hg, hx] at hh; simp at hh
  | some x => cases hx : h.header with
    | none => rw [hg, hx] at hh; simp at hh
    | some y =>
      rw [hg, hx] at hh
      have hh : bareL x.title = bareL y.title := Option.some.inj hh
      simp only [Docx.start]
      rw [← bareL_isEmpty x.title, ← runs_bare x.title, hh, bareL_isEmpty, runs_bare]

theorem edited_word (io : Str → Option Unit) {g g' : Asg} {head head' : Option Head} {cs cs' : List Tagged} {c c' : Tagged}
    (he : Edited head head' cs cs' c c')
    (h1 : listedL [] g.blocks = contents (cs.flatMap Tagged.ids) [] cs)
    (h2 : listedL [] g'.blocks = contents (cs'.flatMap Tagged.ids) [] cs')
    (h3 : g.header.map (fun h => bareL h.title) = head.map (fun h => shownL [] h.title))
    (h4 : g'.header.map (fun h => bareL h.title) = head'.map (fun h => shownL [] h.title))
    (hk : SameKind (c.block (cs.flatMap Tagged.ids)) (c'.block (cs.flatMap Tagged.ids)))
    (d : Docx.Doc) (hd : Docx.render io g = .ok d) : ∃ e, Docx.render io g' = .ok e ∧ NearDocs d e := by
  obtain ⟨hs, hh⟩ := edited_swapped he h1 h2 h3 h4
  unfold Docx.render at hd ⊢
  rw [← start_headers hh]
  rw [← addBlocks_bare] at hd ⊢
  cases ha : Docx.addBlocks io (bareBs g.blocks) (Docx.start g.header) with
  | error e => rw [ha] at hd; cases hd
  | ok a =>
    rw [ha] at hd
    cases hd
    obtain ⟨b, e1, e2⟩ := near_docs io hk hs _ ha
    exact ⟨b.doc, by rw [e1]; rfl, e2⟩

/-- **C108, partial** (source texts): two documents of the class of `Spec/RichDoc` that differ in one block, which is not a
heading, are both parsed, and their pages are the same up to what is written for this block.

Missing: documents outside the class, for some of which the claim is false (below). -/
theorem C108_source_partial (w w' : World) (k k' : Nat) (d d' : RichDoc) (c c' : Tagged)
    (he : Edited d.head d'.head d.blocks d'.blocks c c')
    (ho : d.Ok) (hl : Legible [] d.signs []) (hu : ∃ cs, written d.signs = enc cs) (hw : ∀ x ∈ d.targets, There w [] x)
    (ho' : d'.Ok) (hl' : Legible [] d'.signs []) (hu' : ∃ cs, written d'.signs = enc cs)
    (hw' : ∀ x ∈ d'.targets, There w' [] x) :
    ∃ g g', parseText w (k + 2) (written d.signs) = .ok g ∧ parseText w' (k' + 2) (written d'.signs) = .ok g'
      ∧ ∀ sees, OnePart sees (c.block d.ids) (c'.block d.ids) g g' := by
  obtain ⟨g, h1, h2, h3, _⟩ := parse_rich w k d ho hl hu hw
  obtain ⟨g', h5, h6, h7, _⟩ := parse_rich w' k' d' ho' hl' hu' hw'
  exact ⟨g, g', h1, h5, edited_page he h2 h6 h3 h7⟩

/-- **C108, partial** (documents of several files): the same if the block is in any of the files. -/
theorem C108_book_partial (w w' : World) (k k' : Nat) (d d' : Book) (c c' : Tagged)
    (he : Edited d.head d'.head (blocksL d.parts) (blocksL d'.parts) c c')
    (ho : d.Ok) (hl : Legible [] d.signs []) (hu : ∃ cs, written d.signs = enc cs) (hw : foundL w d.parts [])
    (ho' : d'.Ok) (hl' : Legible [] d'.signs []) (hu' : ∃ cs, written d'.signs = enc cs) (hw' : foundL w' d'.parts []) :
    ∃ g g', parseText w (k + depthL d.parts + 2) (written d.signs) = .ok g
      ∧ parseText w' (k' + depthL d'.parts + 2) (written d'.signs) = .ok g'
      ∧ ∀ sees, OnePart sees (c.block d.whole.ids) (c'.block d.whole.ids) g g' := by
  obtain ⟨g, h1, h2, h3, _⟩ := parse_book w k d ho hl hu hw
  obtain ⟨g', h5, h6, h7, _⟩ := parse_book w' k' d' ho' hl' hu' hw'
  exact ⟨g, g', h1, h5, edited_page he h2 h6 h3 h7⟩

theorem contents_drop (ids : Ids) (c : Tagged) (hc : c.blk.isHead = false) (a b : List Tagged) (hs : List Title) :
    ∃ P p Q, contents ids hs (a ++ c :: b) = P ++ (p, c.block ids) :: Q ∧ contents ids hs (a ++ b) = P ++ Q := by
  induction a generalizing hs with
  | nil =>
    have h1 : c.blk.level = 5 ∧ c.blk.after ids hs = hs := by
      cases hb : c.blk <;> rw [hb] at hc <;> first | exact ⟨rfl, rfl⟩ | cases hc
    exact ⟨[], parents hs 5, contents ids hs b, by simp only [List.nil_append, contents, h1.1, h1.2], rfl⟩
  | cons e a ih =>
    obtain ⟨P, p, Q, h1, h2⟩ := ih (e.blk.after ids hs)
    exact ⟨(parents hs e.blk.level, e.block ids) :: P, p, Q, by simp only [List.cons_append, contents, h1], by simp only [List.cons_append, contents, h2]⟩

/-- What two documents have in common when one block is left out: the title and the other blocks with their metadata; the block is
not a heading and has no id. Blank lines and comments may differ. -/
structure Deleted (head head' : Option Head) (cs cs' : List Tagged) (c : Tagged) : Prop where
  title : head.map Head.title = head'.map Head.title
  blocks : ∃ a b, cs.map (fun e => (e.tags, e.blk)) = (a ++ c :: b).map (fun e => (e.tags, e.blk))
    ∧ cs'.map (fun e => (e.tags, e.blk)) = (a ++ b).map fun e => (e.tags, e.blk)
  plain : c.blk.isHead = false
  ids : c.ids = []

/-- **C108, partial** (deleting and inserting, documents of several files): if a block of a document is left out in one of its files,
or all of a file that has only this block, the page changes only there.

Missing: documents outside the class. -/
theorem C108_delete_partial (w w' : World) (k k' : Nat) (d d' : Book) (c : Tagged)
    (he : Deleted d.head d'.head (blocksL d.parts) (blocksL d'.parts) c)
    (ho : d.Ok) (hl : Legible [] d.signs []) (hu : ∃ cs, written d.signs = enc cs) (hw : foundL w d.parts [])
    (ho' : d'.Ok) (hl' : Legible [] d'.signs []) (hu' : ∃ cs, written d'.signs = enc cs) (hw' : foundL w' d'.parts []) :
    ∃ g g', parseText w (k + depthL d.parts + 2) (written d.signs) = .ok g
      ∧ parseText w' (k' + depthL d'.parts + 2) (written d'.signs) = .ok g'
      ∧ ∀ sees, OneLess sees (c.block d.whole.ids) g g' := by
  obtain ⟨g, h1, h2, h3, _⟩ := parse_book w k d ho hl hu hw
  obtain ⟨g', h5, h6, h7, _⟩ := parse_book w' k' d' ho' hl' hu' hw'
  refine ⟨g, g', h1, h5, fun sees => ?_⟩
  obtain ⟨a, b, e1, e2⟩ := he.blocks
  have hids : d.whole.ids = d'.whole.ids := by
    show (blocksL d.parts).flatMap Tagged.ids = (blocksL d'.parts).flatMap Tagged.ids
    rw [(contents_gaps [] [] _ _ e1).2, (contents_gaps [] [] _ _ e2).2]
    simp only [List.flatMap_append, List.flatMap_cons, he.ids, List.nil_append]
  rw [← hids] at h6
  rw [(contents_gaps _ _ _ _ e1).1] at h2
  rw [(contents_gaps _ _ _ _ e2).1] at h6
  obtain ⟨P, p, Q, f1, f2⟩ := contents_drop d.whole.ids c he.plain a b []
  have hs := listedL_drop g.blocks g'.blocks [] P Q p _ (block_plain _ c he.plain) (h2.trans f1) (h6.trans f2)
  have hh : g.header.map (fun x => bareL x.title) = g'.header.map fun x => bareL x.title := by
    rw [h3, h7]
    have := congrArg (Option.map (shownL [])) he.title
    simpa only [Option.map_map, Function.comp_def] using this
  exact oneLess_of hs (fun t => (htmlBody_bare t _).symm) (fun t => (htmlBody_bare t _).symm) (bare_headers hh).1 (bare_headers hh).2

/-- **C108, partial** (Word, documents of several files): if a paragraph or a listing is edited, the Word documents are the same up
to the text of this paragraph.

Missing: other blocks, for some of which the claim is false (below), and documents outside the class. -/
theorem C108_word_partial (w w' : World) (k k' : Nat) (d d' : Book) (c c' : Tagged)
    (he : Edited d.head d'.head (blocksL d.parts) (blocksL d'.parts) c c')
    (hk : SameKind (c.block d.whole.ids) (c'.block d.whole.ids))
    (ho : d.Ok) (hl : Legible [] d.signs []) (hu : ∃ cs, written d.signs = enc cs) (hw : foundL w d.parts [])
    (ho' : d'.Ok) (hl' : Legible [] d'.signs []) (hu' : ∃ cs, written d'.signs = enc cs) (hw' : foundL w' d'.parts []) :
    ∃ g g', parseText w (k + depthL d.parts + 2) (written d.signs) = .ok g
      ∧ parseText w' (k' + depthL d'.parts + 2) (written d'.signs) = .ok g'
      ∧ ∀ io x, Docx.render io g = .ok x → ∃ y, Docx.render io g' = .ok y ∧ NearDocs x y := by
  obtain ⟨g, h1, h2, h3, _⟩ := parse_book w k d ho hl hu hw
  obtain ⟨g', h5, h6, h7, _⟩ := parse_book w' k' d' ho' hl' hu' hw'
  exact ⟨g, g', h1, h5, fun io x hx => edited_word io he h2 h6 h3 h7 hk x hx⟩

/-! ## Documents of the classes -/

/-- The document of `Props/RichBooks` in one file, with another text for one paragraph and other blank lines. -/
def editedDoc : RichDoc := { bookWhole with blocks := [
    ⟨[], .para [.text [b!"Hello "], .span .strong [.text [b!"x"]]], 2⟩,
    ⟨[.anchor b!"a"], .head 1 [.text [b!"One"]], 2⟩,
    ⟨[], .list .ordered [[.text [b!"u"]], [.text [b!"v"]], [.text [b!"w"]]], 3⟩,
    ⟨[], .list .unordered [[.text [b!"i"]], [.text [b!"j"]]], 2⟩,
    ⟨[], .head 1 [.text [b!"Two"]], 2⟩,
    ⟨[], .para [.text [b!"q"]], 2⟩,
    ⟨[], .para [.text [b!"end "], .xref b!"a"], 1⟩] }

theorem editedDoc_ok : editedDoc.Ok where
  head := bookWhole_ok.head
  blocks := by
    intro e he
    simp only [editedDoc, List.mem_cons, List.not_mem_nil, or_false] at he
    rcases he with rfl | rfl | rfl | rfl | rfl | rfl | rfl
    all_goals refine ⟨?_, ?_, ?_⟩
    all_goals simp [TagsOk, Blk.Ok, Piece.Ok, ProseOk, ElemsOk, PartsOk, TextLines, EndsLine, TagsFor, Spec.OneLine, Elem.signs, textSigns,
      lineSigns, Spec.newline]
    all_goals decide
  gaps := by simp [editedDoc, GapsOk, Blk.ending]
  flow := by decide +kernel
  ids := by decide +kernel
  icons := Scanner.no_callouts (by decide)
  signs := signsOk_of _ (by decide +kernel)

theorem editedDoc_ascii : ∀ b ∈ written editedDoc.signs, b.toNat < 128 := by decide +kernel

/-- A paragraph in a section is exchanged for a list. -/
example : ∃ g g', parseText emptyWorld 2 bookWholeText = .ok g ∧ parseText emptyWorld 2 (written editedDoc.signs) = .ok g'
    ∧ ∀ sees, OnePart sees (Tagged.block bookWhole.ids ⟨[], .para [.text [b!"p"]], 2⟩)
      (Tagged.block bookWhole.ids ⟨[], .list .ordered [[.text [b!"u"]], [.text [b!"v"]], [.text [b!"w"]]], 3⟩) g g' := by
  obtain ⟨g, g', h1, h2, h3⟩ := C108_source_partial emptyWorld emptyWorld 0 0 bookWhole editedDoc
    ⟨[], .para [.text [b!"p"]], 2⟩ ⟨[], .list .ordered [[.text [b!"u"]], [.text [b!"v"]], [.text [b!"w"]]], 3⟩
    ⟨rfl, ⟨bookWhole.blocks.take 2, bookWhole.blocks.drop 3, rfl, rfl⟩, ⟨rfl, rfl⟩, rfl⟩
    bookWhole_ok (Scanner.legible_of_legibleB (ascii_enc _ bookWhole_ascii) (by decide +kernel)) (ascii_enc _ bookWhole_ascii)
    (fun _ h => by cases h) editedDoc_ok
    (Scanner.legible_of_legibleB (ascii_enc _ editedDoc_ascii) (by decide +kernel)) (ascii_enc _ editedDoc_ascii)
    (fun _ h => by cases h)
  exact ⟨g, g', by rw [← bookWhole_written]; exact h1, h2, h3⟩

/-- The document of several files of `Props/RichBooks`, with another text for the last paragraph. -/
def editedBook : Book where
  head := some ⟨[.text [b!"T"]], [], 2⟩
  parts := [
    .file b!"i.adoc" ⟨1, [.line b!"// first" 2]⟩ introParts ⟨2, [.line b!"// second" 3]⟩,
    .file b!"c/one.adoc" 0 oneParts 2,
    .block ⟨[], .head 1 [.text [b!"Two"]], 2⟩,
    .file b!"more.txt" 0 moreParts 2,
    .block ⟨[], .para [.text [b!"no "], .span .strong [.text [b!"more"]]], 1⟩]

theorem editedBook_ascii : ∀ b ∈ written editedBook.signs, b.toNat < 128 := by decide +kernel

theorem editedBook_found : foundL bookWorld editedBook.parts [] := by
  simp only [editedBook, introParts, oneParts, deepParts, moreParts, foundL, Passage.Found]
  refine ⟨⟨⟨b!"i.adoc", by decide +kernel, by decide +kernel⟩, (fun x hx => by cases hx), trivial⟩,
    ⟨⟨b!"c/one.adoc", by decide +kernel, by decide +kernel⟩, (fun x hx => by cases hx), (fun x hx => by cases hx),
      ⟨⟨b!"d.asciidoc", by decide +kernel, by decide +kernel⟩, (fun x hx => by cases hx), trivial⟩, trivial⟩,
    (fun x hx => by cases hx),
    ⟨⟨b!"more.txt", by decide +kernel, by decide +kernel⟩, (fun x hx => by cases hx), trivial⟩,
    (fun x hx => by cases hx), trivial⟩

theorem editedBook_ok : editedBook.Ok where
  lead := ⟨by decide, signsOk_of _ (by decide)⟩
  head := by
    intro h hh
    cases hh
    refine ⟨⟨?_, by simp, by decide⟩, signsOk_of _ (by decide)⟩
    simp [ProseOk, ElemsOk, TextLines, EndsLine, Spec.OneLine, Elem.signs, textSigns, lineSigns, Elem.plain]
    decide
  parts := by
    have name : ∀ t : Str, c!"[" ∉ t ∧ t.head?.map isCont ≠ some true ∧ (b!".adoc" <:+ t ∨ b!".asciidoc" <:+ t ∨ b!".txt" <:+ t) → FileName t := by
      intro t ⟨h1, h2, h3⟩
      refine ⟨h1, fun b hb => ?_, h3⟩
      rw [hb] at h2; simpa using h2
    refine ⟨fileOk_of (name _ (by decide)) ⟨⟨?_, signsOk_of _ (by decide), by decide⟩, trivial⟩ (by decide) (by decide +kernel) (by decide) (by decide),
      fileOk_of (name _ (by decide))
        ⟨⟨?_, signsOk_of _ (by decide), by decide⟩, ⟨?_, signsOk_of _ (by decide), by decide⟩,
          fileOk_of (name _ (by decide)) ⟨⟨?_, signsOk_of _ (by decide), by decide⟩, trivial⟩ (by decide) (by decide +kernel) (by decide) (by decide),
          trivial⟩ (by decide) (by decide +kernel) (by decide) (by decide),
      ⟨?_, signsOk_of _ (by decide), by decide⟩,
      fileOk_of (name _ (by decide)) ⟨⟨?_, signsOk_of _ (by decide), by decide⟩, trivial⟩ (by decide) (by decide +kernel) (by decide) (by decide),
      ⟨?_, signsOk_of _ (by decide), by decide⟩, trivial⟩
    all_goals refine ⟨?_, ?_, ?_⟩
    all_goals simp [TagsOk, Blk.Ok, Piece.Ok, ProseOk, ElemsOk, PartsOk, TextLines, EndsLine, TagsFor, Spec.OneLine, Elem.signs, textSigns,
      lineSigns, Spec.newline]
    all_goals decide
  flow := by decide +kernel
  ids := by decide +kernel
  icons := Scanner.no_callouts (by decide)

/-- A paragraph with a reference is exchanged for one with bold text, and the Word documents are the same up to its text. -/
example : ∃ g g', parseText bookWorld 4 (written bookDoc.signs) = .ok g ∧ parseText bookWorld 4 (written editedBook.signs) = .ok g'
    ∧ ∀ io x, Docx.render io g = .ok x → ∃ y, Docx.render io g' = .ok y ∧ NearDocs x y :=
  C108_word_partial bookWorld bookWorld 0 0 bookDoc editedBook
    ⟨[], .para [.text [b!"end "], .xref b!"a"], 1⟩ ⟨[], .para [.text [b!"no "], .span .strong [.text [b!"more"]]], 1⟩
    ⟨rfl, ⟨(blocksL bookDoc.parts).take 6, [], rfl, rfl⟩, ⟨rfl, rfl⟩, rfl⟩
    ⟨rfl, .ref [literal b!"end "] _ _ _ _ (.lit [] _ _ _), .span [literal b!"no "] _ _ _ _ _ (.lit [] _ _ _)⟩
    bookSample_ok bookSample_legible (ascii_enc _ bookSample_ascii) bookSample_found
    editedBook_ok (Scanner.legible_of_legibleB (ascii_enc _ editedBook_ascii) (by decide +kernel)) (ascii_enc _ editedBook_ascii)
    editedBook_found

/-- The document of several files of `Props/RichBooks`, without one of the files. -/
def shorterBook : Book where
  head := some ⟨[.text [b!"T"]], [], 2⟩
  parts := [
    .file b!"i.adoc" ⟨1, [.line b!"// first" 2]⟩ introParts ⟨2, [.line b!"// second" 3]⟩,
    .file b!"c/one.adoc" 0 oneParts 2,
    .block ⟨[], .head 1 [.text [b!"Two"]], 2⟩,
    .block ⟨[], .para [.text [b!"end "], .xref b!"a"], 1⟩]

theorem shorterBook_ascii : ∀ b ∈ written shorterBook.signs, b.toNat < 128 := by decide +kernel

theorem shorterBook_found : foundL bookWorld shorterBook.parts [] := by
  simp only [shorterBook, introParts, oneParts, deepParts, moreParts, foundL, Passage.Found]
  refine ⟨⟨⟨b!"i.adoc", by decide +kernel, by decide +kernel⟩, (fun x hx => by cases hx), trivial⟩,
    ⟨⟨b!"c/one.adoc", by decide +kernel, by decide +kernel⟩, (fun x hx => by cases hx), (fun x hx => by cases hx),
      ⟨⟨b!"d.asciidoc", by decide +kernel, by decide +kernel⟩, (fun x hx => by cases hx), trivial⟩, trivial⟩,
    (fun x hx => by cases hx),
    (fun x hx => by cases hx), trivial⟩

theorem shorterBook_ok : shorterBook.Ok where
  lead := ⟨by decide, signsOk_of _ (by decide)⟩
  head := by
    intro h hh
    cases hh
    refine ⟨⟨?_, by simp, by decide⟩, signsOk_of _ (by decide)⟩
    simp [ProseOk, ElemsOk, TextLines, EndsLine, Spec.OneLine, Elem.signs, textSigns, lineSigns, Elem.plain]
    decide
  parts := by
    have name : ∀ t : Str, c!"[" ∉ t ∧ t.head?.map isCont ≠ some true ∧ (b!".adoc" <:+ t ∨ b!".asciidoc" <:+ t ∨ b!".txt" <:+ t) → FileName t := by
      intro t ⟨h1, h2, h3⟩
      refine ⟨h1, fun b hb => ?_, h3⟩
      rw [hb] at h2; simpa using h2
    refine ⟨fileOk_of (name _ (by decide)) ⟨⟨?_, signsOk_of _ (by decide), by decide⟩, trivial⟩ (by decide) (by decide +kernel) (by decide) (by decide),
      fileOk_of (name _ (by decide))
        ⟨⟨?_, signsOk_of _ (by decide), by decide⟩, ⟨?_, signsOk_of _ (by decide), by decide⟩,
          fileOk_of (name _ (by decide)) ⟨⟨?_, signsOk_of _ (by decide), by decide⟩, trivial⟩ (by decide) (by decide +kernel) (by decide) (by decide),
          trivial⟩ (by decide) (by decide +kernel) (by decide) (by decide),
      ⟨?_, signsOk_of _ (by decide), by decide⟩,
      ⟨?_, signsOk_of _ (by decide), by decide⟩, trivial⟩
    all_goals refine ⟨?_, ?_, ?_⟩
    all_goals simp [TagsOk, Blk.Ok, Piece.Ok, ProseOk, ElemsOk, PartsOk, TextLines, EndsLine, TagsFor, Spec.OneLine, Elem.signs, textSigns,
      lineSigns, Spec.newline]
    all_goals decide
  flow := by decide +kernel
  ids := by decide +kernel
  icons := Scanner.no_callouts (by decide)

/-- A file with one paragraph is left out. -/
example : ∃ g g', parseText bookWorld 4 (written bookDoc.signs) = .ok g ∧ parseText bookWorld 4 (written shorterBook.signs) = .ok g'
    ∧ ∀ sees, OneLess sees (Tagged.block bookDoc.whole.ids ⟨[], .para [.text [b!"q"]], 1⟩) g g' :=
  C108_delete_partial bookWorld bookWorld 0 0 bookDoc shorterBook ⟨[], .para [.text [b!"q"]], 1⟩
    ⟨rfl, ⟨(blocksL bookDoc.parts).take 5, (blocksL bookDoc.parts).drop 6, rfl, rfl⟩, rfl, rfl⟩
    bookSample_ok bookSample_legible (ascii_enc _ bookSample_ascii) bookSample_found
    shorterBook_ok (Scanner.legible_of_legibleB (ascii_enc _ shorterBook_ascii) (by decide +kernel)) (ascii_enc _ shorterBook_ascii)
    shorterBook_found

/-! ## Where the claim is false -/

/-- **C108** is false: if a paragraph is exchanged for a link, the paragraphs after it are no longer in the section. -/
theorem C108_link :
    returns ((parseText emptyWorld 5 b!"== Head\n\ntext\n\nlast\n").map fun g => sketchBs g.blocks)
        b!"section(Head)[(text) (last)]" = true
      ∧ returns ((parseText emptyWorld 5 b!"== Head\n\nhttps://a.b[link]\n\nlast\n").map fun g => sketchBs g.blocks)
        b!"section(Head)[(link https://a.b(link))] (last)" = true := by
  decide +kernel

/-- The styles of the paragraphs of the Word document of a text. -/
def wordStyleNames (text : Str) : List Str :=
  match parseText emptyWorld 5 text with
  | .ok g =>
    match Docx.render (fun _ => some ()) g with
    | .ok d => (Word.bodyParas d).map (·.style)
    | .error _ => []
  | .error _ => []

/-- **C108** is false in Word: if the first of two paragraphs is exchanged for a listing, the second one gets its style. -/
theorem C108_word : wordStyleNames b!"a\n\nb\n" = [b!"Normal", b!"Normal"]
    ∧ wordStyleNames b!"----\na\n----\n\nb\n" = [b!"Monospace", b!"Monospace"] := by
  decide +kernel

end Adoc.Props
