import Verif.Props.RichPages
import Verif.Proof.RichDom
/-!
# C87: the page is the tree of the document

Reading the bytes of a page gives elements with names and attributes, one in the other, and text between them. They are
those of the graph, and for documents of the class of `Spec/RichDoc` those of the source.
-/
namespace Adoc.Props
open Spec Rich Markup Dom

/-- C87 for graphs in which quoted values have no quotation marks and texts are balanced: what a reader of the page meets is
a declaration and then the tree of the graph, element by element with all attributes, and all text in its place.

Missing: texts with `<` outside balanced elements and values with quotation marks, for which it is false (below). -/
theorem C87_tree_partial (sees : Bool) (g : Asg) (h : tidyDoc balanced g = true) (text : Str) (hr : Html.render sees g = .ok text) :
    met text = .alone b!"!DOCTYPE" [] :: flatL (Dom.page sees g) := met_page sees g text h hr

/-- A paragraph with `<` in it takes the closing tag with it. -/
theorem C87_angle_bracket : ∀ sees, ∃ g text, Html.render sees g = .ok text
    ∧ met text ≠ .alone b!"!DOCTYPE" [] :: flatL (Dom.page sees g) :=
  fun sees => ⟨{ Asg.new with blocks := [.leaf .paragraph .paragraph none [.lit .text b!"a <b" []] none []] }, _, rfl, by
    cases sees <;> decide +kernel⟩

/-- A role with a quotation mark ends the attribute. -/
theorem C87_quotation_mark : ∀ sees, ∃ g text, Html.render sees g = .ok text
    ∧ met text ≠ .alone b!"!DOCTYPE" [] :: flatL (Dom.page sees g) :=
  fun sees => ⟨{ Asg.new with
    blocks := [.leaf .paragraph .paragraph none [.lit .text b!"a" []] (some { roles := [b!"b\" c=\"d"] }) []] },
    _, rfl, by cases sees <;> decide +kernel⟩

/-- The headings of documents of the class have levels up to 4. -/
theorem level_of_ok {d : RichDoc} (ho : d.Ok) : ∀ e ∈ d.blocks, ∀ n t, e.blk = .head n t → n < 5 := by
  intro e he n t hb
  have := (ho.blocks e he).blk
  rw [hb] at this
  have h4 : n ≤ 4 := this.2.1
  omega

/-- The tree of a page of a graph with the contents of a document. -/
theorem tree_of_contents (sees : Bool) {d : RichDoc} (hp : d.Printable) (hl : ∀ e ∈ d.blocks, ∀ n t, e.blk = .head n t → n < 5) {g : Asg}
    (h2 : listedL [] g.blocks = contents d.ids [] d.blocks)
    (h3 : g.header.map (fun h => bareL h.title) = d.head.map (fun h => shownL [] h.title)) :
    ∃ text, Html.render sees g = .ok text ∧ met text = d.unrolled sees := by
  obtain ⟨text, hpage, -⟩ := page_of_contents sees hp h2 h3
  refine ⟨text, hpage, ?_⟩
  have htidy : tidyL noTag g.blocks = true := by
    rw [← tidyL_listed noTag g.blocks []]
    exact all_blocks h2 hp.clean
  have hhead : tidyHeader noTag g.header = true ∧ ofTitle g.header = d.titleTree := by
    cases hg : g.header with
    | none =>
      cases hd : d.head with
      | none => exact ⟨rfl, by simp [RichDoc.titleTree, ofTitle, hd]⟩
      | some e => rw [hg, hd] at h3; simp at h3
    | some x =>
      cases hd : d.head with
      | none => rw [hg, hd] at h3; simp at h3
      | some e =>
        rw [hg, hd] at h3
        have h3 : bareL x.title = shownL [] e.title := Option.some.inj h3
        have ht := hp.title e hd
        simp only [tidyHeader, ofTitle, RichDoc.titleTree, hd]
        rw [← tidyIs_bare, ← ofInlines_bare, h3]
        exact ⟨ht, rfl⟩
  have hdoc : tidyDoc noTag g = true := by
    simp only [tidyDoc, Bool.and_eq_true]
    exact ⟨hhead.1, htidy⟩
  have hbal : tidyDoc balanced g = true := Origin.tidyDoc_mono (fun _ => Html.noTag_balanced) hdoc
  have v1 : b!"html" ∉ voids := by decide
  have v2 : b!"head" ∉ voids := by decide
  have v3 : b!"meta" ∈ voids := by decide
  have v4 : b!"title" ∉ voids := by decide
  have v5 : b!"body" ∉ voids := by decide
  have hsome : g.header.isSome = d.head.isSome := by
    have := congrArg Option.isSome h3
    simpa using this
  rw [met_page sees g text hbal hpage]
  simp only [Dom.page, flatL, Node.flat, if_neg v1, if_neg v2, if_pos v3, if_neg v4, if_neg v5, hhead.2,
    hsome, flat_contents _ h2 hl, RichDoc.unrolled, List.append_assoc, List.cons_append, List.nil_append, List.append_nil]

/-- C87 for documents of the class: parsing and writing the page succeed, and what a reader of the page meets is described by
the source block by block: a heading ends the open sections of its level and of deeper levels and begins a section, and every
block is written as elements with the roles, ids, targets, languages and kinds that are given in the source.

Missing: documents outside the class and what `Printable` leaves out. -/
theorem C87_source_partial (sees : Bool) (w : World) (k : Nat) (d : RichDoc) (ho : d.Ok) (hl : Legible [] d.signs [])
    (hu : ∃ cs, Spec.written d.signs = enc cs) (hw : ∀ x ∈ d.targets, There w [] x) (hp : d.Printable) :
    ∃ g text, parseText w (k + 2) (Spec.written d.signs) = .ok g ∧ Html.render sees g = .ok text ∧ met text = d.unrolled sees := by
  obtain ⟨g, h1, h2, h3, _⟩ := C23_rich_partial w k d ho hl hu hw
  obtain ⟨text, h⟩ := tree_of_contents sees hp (level_of_ok ho) h2 h3
  exact ⟨g, text, h1, h⟩

mutual
theorem level_of_passage : ∀ (x : Passage) (l : Bool), x.Ok l → ∀ e ∈ x.blocks, ∀ n t, e.blk = .head n t → n < 5
  | .block e, l, h => by
    intro c hc n t hb
    rw [Passage.blocks, List.mem_singleton] at hc
    subst hc
    have := h.1.blk
    rw [hb] at this
    have h4 : n ≤ 4 := this.2.1
    omega
  | .file target lead held gap, l, h => level_of_passages held h.2.2.1
theorem level_of_passages : ∀ (ps : List Passage), okL ps → ∀ e ∈ blocksL ps, ∀ n t, e.blk = .head n t → n < 5
  | [], _ => nofun
  | x :: xs, h => by
    intro c hc
    rcases List.mem_append.1 hc with hc | hc
    · exact level_of_passage x _ h.1 c hc
    · exact level_of_passages xs h.2 c hc
end

/-- The same for documents that include other files: their blocks are met in place of the directives, and sections go on
across the ends of files. -/
theorem C87_book_partial (sees : Bool) (w : World) (k : Nat) (d : Book) (ho : d.Ok) (hl : Legible [] d.signs [])
    (hu : ∃ cs, Spec.written d.signs = enc cs) (hw : foundL w d.parts []) (hp : d.whole.Printable) :
    ∃ g text, parseText w (k + depthL d.parts + 2) (Spec.written d.signs) = .ok g ∧ Html.render sees g = .ok text
      ∧ met text = d.whole.unrolled sees := by
  obtain ⟨g, h1, h2, h3, _⟩ := parse_book w k d ho hl hu hw
  obtain ⟨text, h⟩ := tree_of_contents sees (d := d.whole) hp (level_of_passages d.parts ho.parts) h2 h3
  exact ⟨g, text, h1, h⟩

/-- A graph with most kinds of blocks. -/
def treeGraph : Asg := { Asg.new with
  header := some { title := [.lit .text b!"T" []], loc := [] }
  blocks := [
    .section [.lit .text b!"One" []] (some { attributes := [(b!"id", b!"one")], roles := [b!"r", b!"s"] }) 1 [
      .list .ordered [.listItem b!"." [.span .strong .constrained [.lit .text b!"a" []] none [] false] [] none []] none [],
      .parent .admonition (some .tip) b!"TIP: " [.leaf .paragraph .paragraph none
        [.ref .link b!"u" [.span .emphasis .constrained [.lit .text b!"v" []] none [] false] none []] none []] [] none [],
      .parent .table none b!"|===" [.tableCell [.lit .text b!"p" []] none [], .tableCell [.lit .text b!"q" []] none [],
        .tableCell [.lit .text b!"r" []] none [], .tableCell [.ref .image b!"i.png" [] none []] none []] []
        (some { attributes := [(b!"cols", b!"2")], options := [b!"header"] }) []] [],
    .leaf .listing .delimited (some b!"----") [.lit .text b!"let" []] (some { attributes := [(b!"language", b!"rust")] }) []] }

example : tidyDoc balanced treeGraph = true := by decide +kernel

/-- What a reader meets on its page. -/
example (sees : Bool) : ∃ text, Html.render sees treeGraph = .ok text ∧ met text =
    [.alone b!"!DOCTYPE" [], .opens b!"html" [(b!"lang", b!"en")], .opens b!"head" [],
     .alone b!"meta" [(b!"charset", b!"UTF-8")],
     .alone b!"meta" [(b!"name", b!"viewport"), (b!"content", b!"width=device-width, initial-scale=1")],
     .opens b!"title" [], .char c!"T", .closes b!"title", .closes b!"head", .opens b!"body" [],
     .opens b!"section" [(b!"data-type", b!"sect1"), (b!"class", b!"r s"), (b!"id", b!"one")],
     .opens b!"h1" [], .char c!"O", .char c!"n", .char c!"e", .closes b!"h1",
     .opens b!"ol" [], .opens b!"li" [], .opens b!"p" [], .opens b!"strong" [], .char c!"a", .closes b!"strong",
     .closes b!"p", .closes b!"li", .closes b!"ol",
     .opens b!"div" [(b!"data-type", b!"tip")], .opens b!"p" [], .opens b!"a" [(b!"href", b!"u")], .opens b!"em" [], .char c!"v",
     .closes b!"em", .closes b!"a", .closes b!"p", .closes b!"div",
     .opens b!"table" [], .opens b!"thead" [], .opens b!"th" [], .char c!"p", .closes b!"th", .opens b!"th" [], .char c!"q",
     .closes b!"th", .closes b!"thead", .opens b!"tbody" [], .opens b!"tr" [], .opens b!"td" [], .char c!"r", .closes b!"td",
     .opens b!"td" [], .alone b!"img" [(b!"src", b!"i.png")], .closes b!"td", .closes b!"tr", .closes b!"tbody", .closes b!"table",
     .closes b!"section",
     .opens b!"pre" [(b!"data-code-language", b!"rust")], .char c!"l", .char c!"e", .char c!"t", .closes b!"pre",
     .closes b!"body", .closes b!"html"] :=
  ⟨_, rfl, by cases sees <;> decide +kernel⟩

/-- The sample document of C85 meets the hypotheses. -/
example (sees : Bool) : ∃ g text, parseText emptyWorld 2 pageText = .ok g ∧ Html.render sees g = .ok text ∧ met text = pageDoc.unrolled sees := by
  have h := C87_source_partial sees emptyWorld 0 pageDoc pageSample_ok pageSample_legible pageSample_utf8 (by decide)
    pageSample_printable
  rw [pageSample_written] at h
  exact h

/-- The sample document of several files meets the hypotheses. -/
example (sees : Bool) : ∃ g text, parseText bookWorld (depthL bookDoc.parts + 2) bookText = .ok g ∧ Html.render sees g = .ok text
    ∧ met text = bookDoc.whole.unrolled sees := by
  obtain ⟨g, text, h1, h2⟩ := C87_book_partial sees bookWorld 0 bookDoc bookSample_ok bookSample_legible
    (ascii_enc _ bookSample_ascii) bookSample_found bookSample_printable
  rw [bookSample_written, Nat.zero_add] at h1
  exact ⟨g, text, h1, h2⟩

/-- A part of what a reader meets on it: the first section with the end of its list. -/
example : ((pageDoc.unrolled true).drop 46).take 11 =
    [.opens b!"section" [(b!"data-type", b!"sect1"), (b!"id", b!"one")], .opens b!"h1" [], .char c!"O", .char c!"n", .char c!"e",
     .opens b!"code" [], .char c!"x", .closes b!"code", .closes b!"h1", .opens b!"ul" [], .opens b!"li" []] := by
  decide +kernel

end Adoc.Props
