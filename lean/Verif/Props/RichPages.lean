import Verif.Props.RichVerbatim
import Verif.Props.Origin
import Verif.Props.Docx
import Verif.Proof.RichPage
/-!
# C85 and C86: from the source to the page and to the Word document

Documents of the class of `Spec/RichDoc` are parsed and written, and all there is to read in the source can be read in
the result, in the order of the source.
-/
namespace Adoc.Props
open Spec Rich Markup

/-! ## C85: the page -/

/-- The page of a graph with the contents of a document. -/
theorem page_of_contents (sees : Bool) {d : RichDoc} (hp : d.Printable) {g : Asg} (h2 : listedL [] g.blocks = contents d.ids [] d.blocks)
    (h3 : g.header.map (fun h => bareL h.title) = d.head.map (fun h => shownL [] h.title)) :
    ∃ page, Html.render sees g = .ok page ∧ squash (seen page) = squash d.words
      ∧ balanced page = true ∧ wellPlaced true page = true
      ∧ ∀ e ∈ d.blocks, ∀ x ∈ anchors false (e.block d.ids), x ∈ Markup.ids page := by
  have hgrid : griddedL g.blocks = true := by
    rw [← griddedL_listed g.blocks []]
    exact all_blocks h2 hp.columns
  obtain ⟨page, hpage⟩ := (C65_returns_partial sees g).2 hgrid
  have htidy : tidyL noTag g.blocks = true := by
    rw [← tidyL_listed noTag g.blocks []]
    exact all_blocks h2 hp.clean
  have hhead : tidyHeader noTag g.header = true ∧ plainHeader g.header = true ∧ readHeader g.header = headWords d.head := by
    cases hg : g.header with
    | none =>
      cases hd : d.head with
      | none => exact ⟨rfl, rfl, rfl⟩
      | some e => rw [hg, hd] at h3; simp at h3
    | some x =>
      cases hd : d.head with
      | none => rw [hg, hd] at h3; simp at h3
      | some e =>
        rw [hg, hd] at h3
        have h3 : bareL x.title = shownL [] e.title := Option.some.inj h3
        have ht := hp.title e hd
        simp only [tidyHeader, plainHeader, readHeader, headWords]
        rw [← tidyIs_bare, ← plainIs_bare, ← readIs_bare, h3]
        exact ⟨ht, plain_shownL [] _, read_shownL_nil ht⟩
  have hdoc : tidyDoc noTag g = true := by
    simp only [tidyDoc, Bool.and_eq_true]
    exact ⟨hhead.1, htidy⟩
  have hbal : tidyDoc balanced g = true := Origin.tidyDoc_mono (fun _ => Html.noTag_balanced) hdoc
  have hwr : writtenDoc g = true := by
    simp only [writtenDoc, Bool.and_eq_true]
    refine ⟨hhead.2.1, ?_⟩
    rw [← writtenL_listed g.blocks []]
    refine all_blocks h2 fun e he => ?_
    rw [doc_ids]
    exact written_blk _ _ _ (hp.tables e he)
  have hread : readDoc g = d.words := by
    rw [readDoc, RichDoc.words, hhead.2.2, ← readL_listed g.blocks [], flatMap_blocks h2]
    congr 1
    have key : ∀ es : List Tagged, (∀ e ∈ es, e ∈ d.blocks) →
        (es.flatMap fun e => Markup.read (e.block d.ids)) = es.flatMap (Tagged.words d.titles) := by
      intro es
      induction es with
      | nil => exact fun _ => rfl
      | cons e es ih =>
        intro hes
        rw [List.flatMap_cons, List.flatMap_cons, ih fun x hx => hes x (List.mem_cons_of_mem _ hx)]
        congr 1
        have := hp.clean e (hes e List.mem_cons_self)
        rw [doc_ids] at this ⊢
        exact read_blk this
    exact key _ fun _ h => h
  refine ⟨page, hpage, ?_, C60_nested_partial sees g hbal page hpage, ?_, ?_⟩
  · rw [C62_text_partial sees g hbal hwr page hpage, hread]
  · refine C66_placed_partial sees g hdoc ?_ page hpage
    rw [← atHomeL_listed true g.blocks []]
    exact all_blocks h2 fun e _ => home_blk _ _ _
  · intro e he x hx
    refine C64_anchors_partial sees g hbal page hpage x ?_
    rw [← anchorsL_listed g.blocks []]
    have := congrArg (List.map (·.2)) h2
    rw [contents_blocks] at this
    have hm : e.block d.ids ∈ (listedL [] g.blocks).map (·.2) := this ▸ List.mem_map_of_mem he
    obtain ⟨y, hy, hye⟩ := List.mem_map.1 hm
    exact List.mem_flatMap.2 ⟨y, hy, hye ▸ hx⟩

/-- C85 for documents of the class: parsing and writing the page succeed; what can be read on the page is the title and
then the text of each block of the source, in the order of the source, with nothing lost, added or repeated (up to spaces
and newlines); cross references show the title of the block they refer to; elements are nested and stand where they may; and
the ids of headings and images are ids on the page.

Missing: documents outside the class, titles of tables, and texts with `<`; for these the claim is false (below and C62). -/
theorem C85_page_partial (sees : Bool) (w : World) (k : Nat) (d : RichDoc) (ho : d.Ok) (hl : Legible [] d.signs [])
    (hu : ∃ cs, written d.signs = enc cs) (hw : ∀ x ∈ d.targets, There w [] x) (hp : d.Printable) :
    ∃ g page, parseText w (k + 2) (written d.signs) = .ok g ∧ Html.render sees g = .ok page
      ∧ squash (seen page) = squash d.words
      ∧ balanced page = true ∧ wellPlaced true page = true
      ∧ ∀ e ∈ d.blocks, ∀ x ∈ anchors false (e.block d.ids), x ∈ Markup.ids page := by
  obtain ⟨g, h1, h2, h3, _⟩ := C23_rich_partial w k d ho hl hu hw
  obtain ⟨page, h⟩ := page_of_contents sees hp h2 h3
  exact ⟨g, page, h1, h⟩

/-- The same for documents that include other files: the text of these is read in place of the directives. -/
theorem C85_book_partial (sees : Bool) (w : World) (k : Nat) (d : Book) (ho : d.Ok) (hl : Legible [] d.signs [])
    (hu : ∃ cs, written d.signs = enc cs) (hw : foundL w d.parts []) (hp : d.whole.Printable) :
    ∃ g page, parseText w (k + depthL d.parts + 2) (written d.signs) = .ok g ∧ Html.render sees g = .ok page
      ∧ squash (seen page) = squash (headWords d.head ++ (blocksL d.parts).flatMap (Tagged.words d.whole.titles))
      ∧ balanced page = true ∧ wellPlaced true page = true
      ∧ ∀ e ∈ blocksL d.parts, ∀ x ∈ anchors false (e.block d.whole.ids), x ∈ Markup.ids page := by
  obtain ⟨g, h1, h2, h3, _⟩ := parse_book w k d ho hl hu hw
  obtain ⟨page, h⟩ := page_of_contents sees hp h2 h3
  exact ⟨g, page, h1, h⟩

/-- A document with a title, sections, a list, a table, a quotation, a listing, a link, cross references, an admonition and a
description list. -/
def pageDoc : RichDoc where
  head := some ⟨[.text [b!"My "], .span .emphasis [.text [b!"doc"]]], [(b!"x", b!"y z")], 2⟩
  blocks := [
    ⟨[], .para [.text [b!"Some "], .span .strong [.text [b!"bold "], .span .emphasis [b!"text"]], .text [b!" here", b!"and there"]], 2⟩,
    ⟨[.anchor b!"one"], .head 1 [.text [b!"One "], .span .code [.text [b!"x"]]], 2⟩,
    ⟨[], .list .unordered [[.text [b!"first"]], [.text [b!"a "], .span .mark2 [.text [b!"b"]]]], 2⟩,
    ⟨[], .table none 1 [⟨[[.text [b!"p "]], [.text [b!"q"]]], 1⟩, ⟨[[.text [b!"r "]], [.text [b!"s"]]], 1⟩], 2⟩,
    ⟨[.list (some .quote) [.pos b!"Somebody", .pos b!"Somewhere"]], .box .quote b!"____" none 1
      [⟨[], .para [.text [b!"said"]], 2⟩, ⟨[], .list .ordered [[.text [b!"x"]], [.text [b!"y"]]], 2⟩], 2⟩,
    ⟨[], .verb .listing b!"----" [Spec.newline, .text b!"let x ", .mark .charRef b!"->", .text b!" y", Spec.newline], 2⟩,
    ⟨[], .para [.link b!"https://a.b" [.text [b!"go "], .span .strong [b!"on"]], .text [b!" and "], .xref b!"one"], 2⟩,
    ⟨[], .head 1 [.text [b!"Three"]], 2⟩,
    ⟨[], .note .tip [.text [b!"do "], .symbol b!"->", .text [b!" this"]], 2⟩,
    ⟨[], .dlist [⟨[.text [b!"t"]], false, [.text [b!"u "], .xref b!"two"]⟩], 1⟩]

/-- How it is written. -/
def pageText : Str := b!"= My _doc_\n:x: y z\n\nSome *bold _text_* here\nand there\n\n[[one]]\n== One `x`\n\n* first\n* a ##b##\n\n|===\n|p |q\n|r |s\n|===\n\n[quote,Somebody,Somewhere]\n____\nsaid\n\n. x\n. y\n\n____\n\n----\nlet x -> y\n----\n\nhttps://a.b[go *on*] and <<one>>\n\n== Three\n\nTIP: do -> this\n\nt:: u <<two>>\n"

theorem pageSample_written : written pageDoc.signs = pageText := by decide +kernel

set_option maxRecDepth 20000 in
theorem pageSample_utf8 : ∃ cs, written pageDoc.signs = enc cs := by
  refine ⟨(String.fromUTF8? ⟨pageText.toArray⟩).get!.toList, ?_⟩
  rw [pageSample_written]
  decide +kernel

theorem pageSample_legible : Legible [] pageDoc.signs [] :=
  Scanner.legible_of_legibleB pageSample_utf8 (by decide +kernel)

theorem pageSample_ok : pageDoc.Ok where
  head := by
    intro h hh
    cases hh
    refine ⟨⟨?_, ?_, by decide⟩, ?_, by decide⟩
    · simp [ProseOk, ElemsOk, PartsOk, TextLines, EndsLine]
      all_goals decide
    · unfold OneLine; decide
    · intro kv hkv
      simp only [List.mem_cons, List.not_mem_nil, or_false] at hkv
      rcases hkv with rfl
      exact ⟨by decide, by decide⟩
  blocks := by
    have hs : ∀ ss : List Sign, ss.all (fun s => match s with
        | .text _ => true
        | .mark ty l => ty ≠ .text && l.all (fun b => b.toNat < 128)) = true → ∀ s ∈ ss, SignOk s := by
      intro ss h s hs
      have := List.all_eq_true.1 h s hs
      cases s with
      | text => trivial
      | mark ty l =>
        simp only [Bool.and_eq_true, decide_eq_true_eq, List.all_eq_true] at this
        exact ⟨this.1, fun _ b hb => this.2 b hb⟩
    intro e he
    simp only [pageDoc, List.mem_cons, List.not_mem_nil, or_false] at he
    rcases he with rfl | rfl | rfl | rfl | rfl | rfl | rfl | rfl | rfl | rfl
    case inr.inr.inr.inl =>
      refine ⟨?_, ⟨?_, by decide, ?_⟩, ?_⟩
      · simp [TagsOk]
      · simp
      · intro r hr
        simp only [List.mem_cons, List.not_mem_nil, or_false] at hr
        rcases hr with rfl | rfl
        all_goals refine ⟨⟨by simp, List.forall_mem_cons.2 ⟨cellOk_of ?_ ?_ (hs _ (by decide)) (by decide) (by decide +kernel),
          List.forall_mem_cons.2 ⟨cellOk_of ?_ ?_ (hs _ (by decide)) (by decide) (by decide +kernel), ?_⟩⟩⟩, by decide⟩
        all_goals simp [ElemsOk, PartsOk, TextLines, EndsLine, OneLine, Elem.signs, Part.signs, textSigns, lineSigns, joinB, Spec.newline]
      · refine ⟨.inl rfl, ?_, ?_⟩
        · intro h; exact absurd h (by decide)
        · intro m hm; cases hm
    case inr.inr.inr.inr.inl =>
      refine ⟨?_, ⟨?_, by decide, ?_, ?_⟩, ?_⟩
      · simp [TagsOk, ArgsOk, Unseparated]; decide
      · simp
      · intro h hh
        simp only [List.mem_cons, List.not_mem_nil, or_false] at hh
        rcases hh with rfl | rfl
        all_goals refine ⟨?_, ?_, ?_⟩
        all_goals simp [TagsOk, Piece.Ok, ProseOk, ElemsOk, PartsOk, TextLines, EndsLine, joinB, Held.place]
      · simp [HeldGaps, Piece.closing]
      · simp [TagsFor]; decide
    all_goals refine ⟨?_, ?_, ?_⟩
    all_goals simp [TagsOk, ArgsOk, FirstOk, Unseparated, Blk.Ok, Piece.Ok, ProseOk, ElemsOk, PartsOk, TextLines, EndsLine, OneLine,
      inVerb, joinB, Elem.signs, Part.signs, textSigns, lineSigns, Spec.newline, TagsFor, Lexical.Alnum, DlistOk]
    all_goals try decide
    refine ⟨?_, ?_⟩
    all_goals simp [ProseOk, ElemsOk, PartsOk, TextLines, EndsLine, joinB, Elem.signs, textSigns, lineSigns, Spec.written, Sign.str]
    all_goals decide
  gaps := by simp [pageDoc, GapsOk, Blk.ending]
  flow := by decide
  ids := by decide
  icons := Scanner.no_callouts (by decide)
  signs := by
    have : ∀ s ∈ pageDoc.signs, (match s with
      | .text _ => true
      | .mark ty l => ty ≠ .text && l.all (fun b => b.toNat < 128)) = true := by decide +kernel
    intro s hs
    have := this s hs
    cases s with
    | text => trivial
    | mark ty l =>
      simp only [Bool.and_eq_true, decide_eq_true_eq, List.all_eq_true] at this
      exact ⟨this.1, fun _ b hb => this.2 b hb⟩

theorem pageSample_printable : pageDoc.Printable where
  title := by intro h hh; cases hh; decide +kernel
  clean := by decide +kernel
  tables := by decide +kernel
  columns := by decide +kernel

/-- What there is to read in it. -/
theorem pageSample_words : pageDoc.words =
    b!"My docSome bold text here\nand thereOne xfirsta bp qr ssaidxySomebody,Somewhere\nlet x -> y\ngo on and One xThreedo &#8594; thistu #two" := by
  decide +kernel

/-- Its page. -/
example (sees : Bool) : ∃ g page, parseText emptyWorld 2 pageText = .ok g ∧ Html.render sees g = .ok page
    ∧ squash (seen page) = squash pageDoc.words ∧ b!"one" ∈ Markup.ids page := by
  obtain ⟨g, page, h1, h2, h3, _, _, h6⟩ := C85_page_partial sees emptyWorld 0 pageDoc pageSample_ok pageSample_legible pageSample_utf8
    (fun _ h => by cases h) pageSample_printable
  rw [pageSample_written] at h1
  exact ⟨g, page, h1, h2, h3, h6 ⟨[.anchor b!"one"], .head 1 [.text [b!"One "], .span .code [.text [b!"x"]]], 2⟩
    (by simp [pageDoc]) b!"one" (by decide)⟩

theorem bookSample_printable : bookDoc.whole.Printable where
  title := by intro h hh; cases hh; decide +kernel
  clean := by decide +kernel
  tables := by decide +kernel
  columns := by decide +kernel

/-- The page of a document of several files. -/
example (sees : Bool) : ∃ g page, parseText bookWorld (depthL bookDoc.parts + 2) bookText = .ok g ∧ Html.render sees g = .ok page
    ∧ squash (seen page) = squash bookDoc.whole.words ∧ b!"a" ∈ Markup.ids page := by
  obtain ⟨g, page, h1, h2, h3, _, _, h6⟩ := C85_book_partial sees bookWorld 0 bookDoc bookSample_ok bookSample_legible
    (ascii_enc _ bookSample_ascii) bookSample_found bookSample_printable
  rw [bookSample_written, Nat.zero_add] at h1
  exact ⟨g, page, h1, h2, h3, h6 ⟨[.anchor b!"a"], .head 1 [.text [b!"One"]], 2⟩ (by decide) b!"a" (by decide)⟩

/-- Where the claim is false: text between angle brackets cannot be read on the page. -/
theorem C85_angle_brackets : pageIs b!"a <b> c\n" (fun s => within b!"a " (seen s) && within b!" c" (seen s) && !within b!"b" (seen s)) = true := by
  decide +kernel

/-- Where the claim is false: the title of a table cannot be read on the page. -/
theorem C85_table_title : pageIs b!".Numbers\n|===\n|a |b\n|c |d\n|===\n" (fun s => within b!"c" (seen s) && !within b!"Numbers" (seen s)) = true := by
  decide +kernel

/-! ## C86: the Word document -/

/-- The title of a document, for Word. -/
def headShown : Option Head → Str
  | some h => Word.shownL (shownL [] h.title)
  | none => []

/-- C86 for documents of the class: if the pictures can be read, parsing and writing the Word document succeed, and the
paragraphs of its body have the title and then the text of each block of the source, in the order of the source, with
nothing lost, added or repeated (up to white space).

Missing: documents outside the class, tables, and captions of pictures; for these the claim is false (C54). -/
theorem C86_word_partial (w : World) (k : Nat) (d : RichDoc) (ho : d.Ok) (hl : Legible [] d.signs [])
    (hu : ∃ cs, written d.signs = enc cs) (hw : ∀ x ∈ d.targets, There w [] x) (io : Str → Option Unit)
    (hk : ∀ e ∈ d.blocks, Word.kept (e.block d.ids) = true) (hf : ∀ e ∈ d.blocks, Word.fine io (e.block d.ids)) :
    ∃ g doc, parseText w (k + 2) (written d.signs) = .ok g ∧ Docx.render io g = .ok doc
      ∧ Word.SameWords (headShown d.head ++ d.blocks.flatMap fun e => Word.content (e.block d.ids))
        ((Word.bodyParas doc).map Word.paraText).flatten := by
  obtain ⟨g, h1, h2, h3, _⟩ := C23_rich_partial w k d ho hl hu hw
  obtain ⟨doc, hdoc⟩ := C58_returns io g ((fineL_listed io g.blocks []).1 (forall_blocks h2 hf))
  refine ⟨g, doc, h1, hdoc, ?_⟩
  have := C54_content_partial io g doc hdoc (by
    rw [← keptL_listed g.blocks []]
    exact all_blocks h2 hk)
  have e : Word.contentDoc g = headShown d.head ++ d.blocks.flatMap fun e => Word.content (e.block d.ids) := by
    rw [Word.contentDoc, ← contentL_listed g.blocks [], flatMap_blocks h2]
    congr 1
    cases hg : g.header with
    | none =>
      cases hd : d.head with
      | none => rfl
      | some e => rw [hg, hd] at h3; simp at h3
    | some x =>
      cases hd : d.head with
      | none => rw [hg, hd] at h3; simp at h3
      | some e =>
        rw [hg, hd] at h3
        have h3 : bareL x.title = shownL [] e.title := Option.some.inj h3
        simp only [headShown]
        rw [← Rich.shownL_bare, h3]
  rwa [e] at this

/-- The document of `Props/Rich` as a Word document. -/
example : ∃ g doc, parseText emptyWorld 2 sampleText = .ok g ∧ Docx.render (fun _ => some ()) g = .ok doc
    ∧ Word.SameWords (headShown sampleDoc.head ++ sampleDoc.blocks.flatMap fun e => Word.content (e.block sampleDoc.ids))
        ((Word.bodyParas doc).map Word.paraText).flatten := by
  obtain ⟨g, doc, h1, h2⟩ := C86_word_partial emptyWorld 0 sampleDoc richSample_ok richSample_legible richSample_utf8
    (fun _ h => by cases h) (fun _ => some ()) (by decide +kernel) (by
      intro e he
      simp only [sampleDoc, List.mem_cons, List.not_mem_nil, or_false] at he
      rcases he with rfl | rfl | rfl | rfl | rfl | rfl | rfl | rfl | rfl
      all_goals simp [Tagged.block, Blk.block, Piece.block, Word.fine, Word.fineL])
  exact ⟨g, doc, by rw [← richSample_written]; exact h1, h2⟩

/-- What there is to read in it. -/
example : (headShown sampleDoc.head ++ sampleDoc.blocks.flatMap fun e => Word.content (e.block sampleDoc.ids)) =
    b!"My docSome bold text and\nAT&T: { 5 * 6 < 7 } [x_yOne xfirsta bTwo\nlet x -> y\ngo on and One xThreeTipdo \u2192#" := by
  decide +kernel

end Adoc.Props
