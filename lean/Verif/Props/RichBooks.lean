import Verif.Proof.RichInclude
import Verif.Props.RichDlists
/-!
# C82: documents of several files

Documents of the class of `Spec/Book`.
-/
namespace Adoc.Props
open Spec Rich

/-- C82 for documents of the class: a document that includes files, which may include further files, is parsed to a graph
that contains the blocks of the document and of the files, each exactly once, in reading order, and each below the headings
that come before it, wherever these are written. Cross references from one file to another show the titles.

The fuel is enough for files included in files; the program has no bound.

Missing: documents outside the class; for some of them the claim is false (below). Directives with attributes are in C25 and
C27; files that are not AsciiDoc are not covered here. -/
theorem C82_books_partial (w : World) (k : Nat) (d : Book) (ho : d.Ok) (hl : Legible [] d.signs [])
    (hu : ∃ cs, written d.signs = enc cs) (hw : foundL w d.parts []) :
    ∃ g, parseText w (k + depthL d.parts + 2) (written d.signs) = .ok g
      ∧ listedL [] g.blocks = contents d.whole.ids [] (blocksL d.parts)
      ∧ g.header.map (fun h => bareL h.title) = d.head.map (fun h => h.title.map Elem.inline)
      ∧ g.attributes = d.head.map Head.defs := by
  obtain ⟨g, h1, h2, h3, h4⟩ := parse_book w k d ho hl hu hw
  exact ⟨g, h1, h2, by rw [h3]; congr 1; funext h; exact shownL_nil _, h4⟩

/-- What blocks mean does not depend on the number of newlines after them. -/
theorem contents_gaps (ids : Ids) (hs : List Title) (cs cs' : List Tagged)
    (h : cs.map (fun e => (e.tags, e.blk)) = cs'.map fun e => (e.tags, e.blk)) :
    contents ids hs cs = contents ids hs cs' ∧ cs.flatMap Tagged.ids = cs'.flatMap Tagged.ids := by
  induction cs generalizing cs' hs with
  | nil =>
    cases cs' with
    | nil => simp
    | cons => cases h
  | cons c cs ih =>
    cases cs' with
    | nil => cases h
    | cons c' cs' =>
      simp only [List.map_cons, List.cons.injEq, Prod.mk.injEq] at h
      obtain ⟨⟨h1, h2⟩, h3⟩ := h
      simp only [contents, List.flatMap_cons, Tagged.block, Tagged.ids, h1, h2, (ih _ _ h3).1]
      exact ⟨trivial, by rw [(ih [] _ h3).2]⟩

/-- C82: including a file is like writing its blocks in its place. If a document of one file has the same blocks in the same
order, the graphs are the same up to locations. -/
theorem C82_whole_partial (w w' : World) (k : Nat) (d : Book) (ho : d.Ok) (hl : Legible [] d.signs [])
    (hu : ∃ cs, written d.signs = enc cs) (hw : foundL w d.parts [])
    (d' : RichDoc) (hh : d'.head = d.head) (hb : d'.blocks.map (fun e => (e.tags, e.blk)) = (blocksL d.parts).map fun e => (e.tags, e.blk))
    (ho' : d'.Ok) (hl' : Legible [] d'.signs []) (hu' : ∃ cs, written d'.signs = enc cs)
    (hw' : ∀ x ∈ d'.targets, There w' [] x) :
    ∃ g g', parseText w (k + depthL d.parts + 2) (written d.signs) = .ok g
      ∧ parseText w' (k + 2) (written d'.signs) = .ok g'
      ∧ listedL [] g.blocks = listedL [] g'.blocks
      ∧ g.header.map (fun h => bareL h.title) = g'.header.map (fun h => bareL h.title)
      ∧ g.attributes = g'.attributes := by
  obtain ⟨g, h1, h2, h3, h4⟩ := parse_book w k d ho hl hu hw
  obtain ⟨g', h5, h6, h7, h8⟩ := parse_rich w' k d' ho' hl' hu' hw'
  refine ⟨g, g', h1, h5, ?_, by rw [h3, h7, hh], by rw [h4, h8, hh]⟩
  rw [h2, h6, show d'.ids = d'.blocks.flatMap Tagged.ids from rfl, (contents_gaps [] [] _ _ hb).2, (contents_gaps _ _ _ _ hb).1]
  rfl

/-! ### A document of the class -/

/-- The file that is included in a chapter. -/
def deepParts : List Passage := [.block ⟨[], .list .unordered [[.text [b!"i"]], [.text [b!"j"]]], 1⟩]

/-- A chapter with a heading. -/
def oneParts : List Passage :=
  [.block ⟨[.anchor b!"a"], .head 1 [.text [b!"One"]], 2⟩,
   .block ⟨[], .para [.text [b!"p"]], 2⟩,
   .file b!"d.asciidoc" 0 deepParts 1]

/-- A file with text. -/
def introParts : List Passage := [.block ⟨[], .para [.text [b!"Hello "], .span .strong [.text [b!"x"]]], 1⟩]

/-- A file with text that does not end with a newline. -/
def moreParts : List Passage := [.block ⟨[], .para [.text [b!"q"]], 0⟩]

/-- The document, part by part. -/
def bookDoc : Book where
  head := some ⟨[.text [b!"T"]], [], 2⟩
  parts := [
    .file b!"i.adoc" ⟨1, [.line b!"// first" 2]⟩ introParts ⟨2, [.line b!"// second" 3]⟩,
    .file b!"c/one.adoc" 0 oneParts 2,
    .block ⟨[], .head 1 [.text [b!"Two"]], 2⟩,
    .file b!"more.txt" 0 moreParts 2,
    .block ⟨[], .para [.text [b!"end "], .xref b!"a"], 1⟩]

/-- How it is written. -/
def bookText : Str := b!"= T

include::i.adoc[]

// second


include::c/one.adoc[]

== Two

include::more.txt[]

end <<a>>
"

/-- The files. -/
def bookFiles : SMap Str :=
  [(b!"i.adoc", b!"\n// first\n\nHello *x*\n"),
   (b!"c/one.adoc", b!"[[a]]\n== One\n\np\n\ninclude::d.asciidoc[]\n"),
   (b!"d.asciidoc", b!"* i\n* j\n"),
   (b!"more.txt", b!"q")]

/-- A world with these files. -/
def bookWorld : World := ⟨fun _ t => if (bookFiles.get? t).isSome then some t else none, bookFiles.get?⟩

theorem bookSample_written : written bookDoc.signs = bookText := by decide +kernel


/-- Signs in ASCII. -/
theorem signsOk_of (ss : List Sign) (h : ss.all (fun s => match s with
    | .text _ => true
    | .mark ty l => ty ≠ .text && l.all (fun b => b.toNat < 128)) = true) : ∀ s ∈ ss, SignOk s := by
  intro s hs
  have := List.all_eq_true.1 h s hs
  cases s with
  | text => trivial
  | mark ty l =>
    simp only [Bool.and_eq_true, decide_eq_true_eq, List.all_eq_true] at this
    exact ⟨this.1, fun _ b hb => this.2 b hb⟩

/-- A file in ASCII that can be read on its own. -/
theorem fileOk_of {target : Str} {lead gap : Gap} {held : List Passage} {last : Bool} (h1 : FileName target) (h2 : okL held)
    (h3 : ∀ b ∈ written (fileSigns lead held), b.toNat < 128) (h4 : Scanner.legibleB (fileSigns lead held) = true)
    (h5 : gap.Ok (if last then 0 else 2) last ∧ RemarksOk false lead.remarks)
    (h6 : (lead.signs ++ gap.signs).all (fun s => match s with
      | .text _ => true
      | .mark ty l => ty ≠ .text && l.all (fun b => b.toNat < 128)) = true) : (Passage.file target lead held gap).Ok last :=
  ⟨h1, ⟨h5.2, fun s hs => signsOk_of _ h6 s (by simp [hs])⟩, h2, Scanner.legible_of_legibleB (ascii_enc _ h3) h4, ascii_enc _ h3, h5.1,
    fun s hs => signsOk_of _ h6 s (by simp [hs])⟩

theorem bookSample_ascii : ∀ b ∈ written bookDoc.signs, b.toNat < 128 := by
  rw [bookSample_written]; decide +kernel

theorem bookSample_legible : Legible [] bookDoc.signs [] :=
  Scanner.legible_of_legibleB (ascii_enc _ bookSample_ascii) (by decide +kernel)

theorem bookSample_found : foundL bookWorld bookDoc.parts [] := by
  simp only [bookDoc, introParts, oneParts, deepParts, moreParts, foundL, Passage.Found]
  refine ⟨⟨⟨b!"i.adoc", by decide +kernel, by decide +kernel⟩, (fun x hx => by cases hx), trivial⟩,
    ⟨⟨b!"c/one.adoc", by decide +kernel, by decide +kernel⟩, (fun x hx => by cases hx), (fun x hx => by cases hx),
      ⟨⟨b!"d.asciidoc", by decide +kernel, by decide +kernel⟩, (fun x hx => by cases hx), trivial⟩, trivial⟩,
    (fun x hx => by cases hx),
    ⟨⟨b!"more.txt", by decide +kernel, by decide +kernel⟩, (fun x hx => by cases hx), trivial⟩,
    (fun x hx => by cases hx), trivial⟩

theorem bookSample_ok : bookDoc.Ok where
  lead := ⟨by decide, signsOk_of _ (by decide)⟩
  head := by
    intro h hh
    cases hh
    refine ⟨⟨?_, by simp, by decide⟩, signsOk_of _ (by decide)⟩
    simp [ProseOk, ElemsOk, TextLines, EndsLine, OneLine, Elem.signs, textSigns, lineSigns, Elem.plain]
    decide
  parts := by
    have name : ∀ t : Str, c!"[" ∉ t ∧ t.head?.map isCont ≠ some true ∧ (b!".adoc" <:+ t ∨ b!".asciidoc" <:+ t ∨ b!".txt" <:+ t) → FileName t := by
      intro t ⟨h1, h2, h3⟩
      refine ⟨h1, fun b hb => ?_, h3⟩
      rw [hb] at h2; simpa using h2
    refine ⟨fileOk_of (name _ (by decide)) ⟨⟨?_, signsOk_of _ (by decide), by decide⟩, trivial⟩ (by decide) (by decide +kernel) (by decide) (by decide),
      fileOk_of (name _ (by decide))
        ⟨⟨?_, signsOk_of _ (by decide), by decide⟩, ⟨?_, signsOk_of _ (by decide), by decide⟩,
          fileOk_of (name _ (by decide)) ⟨⟨?_, signsOk_of _ (by decide), by decide⟩, trivial⟩ (by decide) (by decide +kernel) (by decide) (by decide),
          trivial⟩ (by decide) (by decide +kernel) (by decide) (by decide),
      ⟨?_, signsOk_of _ (by decide), by decide⟩,
      fileOk_of (name _ (by decide)) ⟨⟨?_, signsOk_of _ (by decide), by decide⟩, trivial⟩ (by decide) (by decide +kernel) (by decide) (by decide),
      ⟨?_, signsOk_of _ (by decide), by decide⟩, trivial⟩
    all_goals refine ⟨?_, ?_, ?_⟩
    all_goals simp [TagsOk, Blk.Ok, Piece.Ok, ProseOk, ElemsOk, PartsOk, TextLines, EndsLine, TagsFor, OneLine, Elem.signs, textSigns,
      lineSigns, Spec.newline]
    all_goals decide
  flow := by decide +kernel
  ids := by decide +kernel
  icons := Scanner.no_callouts (by decide)

/-- The graph of the book: the blocks of all files, with the headings around them. -/
example : ∃ g, parseText bookWorld 4 bookText = .ok g
    ∧ listedL [] g.blocks =
      [([], .leaf .paragraph .paragraph none [literal b!"Hello ", .span .strong .constrained [literal b!"x"] none [] false] none []),
       ([], .section [literal b!"One"] (some { attributes := [(b!"id", b!"a")] }) 1 [] []),
       ([(1, [literal b!"One"])], .leaf .paragraph .paragraph none [literal b!"p"] none []),
       ([(1, [literal b!"One"])], .list .unordered [.listItem b!"*" [literal b!"i"] [] none [], .listItem b!"*" [literal b!"j"] [] none []]
          none []),
       ([], .section [literal b!"Two"] none 1 [] []),
       ([(1, [literal b!"Two"])], .leaf .paragraph .paragraph none [literal b!"q"] none []),
       ([(1, [literal b!"Two"])], .leaf .paragraph .paragraph none [literal b!"end ", .ref .xref b!"a" [literal b!"One"] none []]
          none [])] := by
  obtain ⟨g, h1, h2, _⟩ := C82_books_partial bookWorld 0 bookDoc bookSample_ok bookSample_legible (ascii_enc _ bookSample_ascii)
    bookSample_found
  exact ⟨g, by rw [← bookSample_written]; exact h1, by rw [h2]; rfl⟩

/-- The document with the blocks of the files in their places. -/
def bookWhole : RichDoc where
  head := some ⟨[.text [b!"T"]], [], 2⟩
  blocks := [
    ⟨[], .para [.text [b!"Hello "], .span .strong [.text [b!"x"]]], 2⟩,
    ⟨[.anchor b!"a"], .head 1 [.text [b!"One"]], 2⟩,
    ⟨[], .para [.text [b!"p"]], 2⟩,
    ⟨[], .list .unordered [[.text [b!"i"]], [.text [b!"j"]]], 2⟩,
    ⟨[], .head 1 [.text [b!"Two"]], 2⟩,
    ⟨[], .para [.text [b!"q"]], 2⟩,
    ⟨[], .para [.text [b!"end "], .xref b!"a"], 1⟩]

/-- How it is written. -/
def bookWholeText : Str := b!"= T

Hello *x*

[[a]]
== One

p

* i
* j

== Two

q

end <<a>>
"

theorem bookWhole_written : written bookWhole.signs = bookWholeText := by decide +kernel

theorem bookWhole_ok : bookWhole.Ok where
  head := by
    intro h hh
    cases hh
    refine ⟨?_, by simp, by decide⟩
    simp [ProseOk, ElemsOk, TextLines, EndsLine, OneLine, Elem.signs, textSigns, lineSigns, Elem.plain]
    decide
  blocks := by
    intro e he
    simp only [bookWhole, List.mem_cons, List.not_mem_nil, or_false] at he
    rcases he with rfl | rfl | rfl | rfl | rfl | rfl | rfl
    all_goals refine ⟨?_, ?_, ?_⟩
    all_goals simp [TagsOk, Blk.Ok, Piece.Ok, ProseOk, ElemsOk, PartsOk, TextLines, EndsLine, TagsFor, OneLine, Elem.signs, textSigns,
      lineSigns, Spec.newline]
    all_goals decide
  gaps := by simp [bookWhole, GapsOk, Blk.ending]
  flow := by decide +kernel
  ids := by decide +kernel
  icons := Scanner.no_callouts (by decide)
  signs := signsOk_of _ (by decide +kernel)

/-- Both documents have the same graph up to locations. -/
example : ∃ g g', parseText bookWorld 4 bookText = .ok g ∧ parseText emptyWorld 2 bookWholeText = .ok g'
    ∧ listedL [] g.blocks = listedL [] g'.blocks := by
  have ha : ∀ b ∈ written bookWhole.signs, b.toNat < 128 := by rw [bookWhole_written]; decide +kernel
  obtain ⟨g, g', h1, h2, h3, _⟩ := C82_whole_partial bookWorld emptyWorld 0 bookDoc bookSample_ok bookSample_legible
    (ascii_enc _ bookSample_ascii) bookSample_found bookWhole rfl (by decide +kernel) bookWhole_ok
    (Scanner.legible_of_legibleB (ascii_enc _ ha) (by decide +kernel)) (ascii_enc _ ha) (fun _ h => by cases h)
  exact ⟨g, g', by rw [← bookSample_written]; exact h1, by rw [← bookWhole_written]; exact h2, h3⟩

/-! ### Where the claim is false -/

/-- A world with one file. -/
def everyFile (content : Str) : World := ⟨fun _ t => some t, fun _ => some content⟩

/-- Text on the line after the directive has a newline before it. -/
theorem C82_next_line :
    returns ((parseText (everyFile b!"x\n") 5 b!"a\n\ninclude::b.adoc[]\nc\n").map fun g => sketchBs g.blocks) b!"(a) (x) (\nc)" = true := by
  decide +kernel

/-- After a file with a heading, a paragraph is in the section only if a section was open before the directive. -/
theorem C82_heading :
    returns ((parseText (everyFile b!"== H\n\ny\n") 5 b!"a\n\ninclude::b.adoc[]\n\nc\n").map fun g => sketchBs g.blocks)
        b!"(a) section(H)[(y)] (c)" = true
      ∧ returns ((parseText (everyFile b!"== H\n\ny\n") 5 b!"== A\n\ninclude::b.adoc[]\n\nc\n").map fun g => sketchBs g.blocks)
        b!"section(A)[] section(H)[(y) (c)]" = true := by
  constructor <;> decide +kernel

/-- The text of a list with one item at the end of a file is put below the item. -/
theorem C82_item :
    returns ((parseText (everyFile b!"* x\n") 5 b!"a\n\ninclude::b.adoc[]\n\nb\n").map fun g => sketchBs g.blocks)
      b!"(a) list[item()[(x)]] (b)" = true := by
  decide +kernel

/-- Cells that are included in a table are put before it or come before the cells of the table. -/
theorem C82_cells :
    returns ((parseText (everyFile b!"|x |y\n") 5 b!"|===\n|a |b\ninclude::b.adoc[]\n|===\n").map fun g => sketchBs g.blocks)
      b!"cell(y) cell(x ) table[cell(a ) cell(b)]" = true := by
  decide +kernel

/-- A listing that is not closed in the file takes all the text that follows the directive, but as another paragraph. -/
theorem C82_unclosed :
    returns ((parseText (everyFile b!"----\nx\n") 5 b!"a\n\ninclude::b.adoc[]\n\nc\n\nd\n").map fun g => sketchBs g.blocks)
      b!"(a) leaf(\nx\n) (\n\nc\n\nd\n)" = true := by
  decide +kernel

/-- A file with a document title cannot be included, not even at the beginning. -/
theorem C82_title :
    returns (match parseText (everyFile b!"= H\n\ny\n") 5 b!"include::b.adoc[]\n\nc\n" with
      | .error (.err (.topLevelHeading n)) => .ok n
      | _ => .error .hang) 1 = true := by
  decide +kernel

/-- How a file is written that includes itself. -/
def itselfSigns : List Sign := [.mark .include (includeLine b!"b.adoc"), Spec.newline]

theorem itself_step (n : Nat) (p : Parser) (t : Token) (ht : Scanner.IsMark .include (includeLine b!"b.adoc") t) (hh : p.header = none)
    (ho : p.openText = none) : Parser.tokenInto (everyFile (written itselfSigns)) n t p = .error .hang := by
  induction n generalizing p t with
  | zero => rfl
  | succ n ih =>
    have ha : ∀ b ∈ written itselfSigns, b.toNat < 128 := by decide +kernel
    obtain ⟨ts, m, h1, h2, -⟩ := Scanner.run_signs itselfSigns (p.files ++ [b!"b.adoc"]) (ascii_enc _ ha)
      (signs_plain (signsOk_of _ (by decide))) (Scanner.legible_of_legibleB (ascii_enc _ ha) (by decide +kernel))
    unfold itselfSigns at h1
    cases h1 with
    | mark _ _ _ u us hu hm =>
    have hta : targetAndAttrs t = .ok (b!"b.adoc", none) :=
      image_read t b!"include::" b!"b.adoc" [] (by rw [ht.ty]; rfl) (by rw [ht.text]; rfl)
        ⟨by decide, fun b hb => by cases hb; rfl, trivial, trivial⟩
    rw [Parser.tokenInto_plain _ n t p hh ho]
    unfold Parser.dispatchToken
    rw [ht.ty]
    simp only [Parser.parseInclude, hta, bind, Except.bind, Parser.selection, everyFile, h2]
    rw [List.map_cons, List.cons_append, Parser.includeLoop]
    simp only [Parser.lineFilter, List.isEmpty_nil, if_true, Parser.tagFilter, bind, Except.bind, Parser.includeToken,
      show Parser.isAsciidoc b!"b.adoc" = true by decide]
    have := ih { p with files := p.files ++ [b!"b.adoc"] } u hu hh ho
    unfold everyFile at this
    rw [this]

/-- A file that includes itself is read without end, whatever the fuel: there is no bound in the program. -/
theorem C82_itself (n : Nat) :
    parseText (everyFile b!"include::b.adoc[]\n") n b!"include::b.adoc[]\n" = .error .hang := by
  have ha : ∀ b ∈ written itselfSigns, b.toNat < 128 := by decide +kernel
  have e : written itselfSigns = b!"include::b.adoc[]\n" := by decide +kernel
  obtain ⟨ts, m, h1, h2, -⟩ := Scanner.scan_signs itselfSigns (ascii_enc _ ha)
    (signs_plain (signsOk_of _ (by decide))) (Scanner.legible_of_legibleB (ascii_enc _ ha) (by decide +kernel))
  unfold itselfSigns at h1
  cases h1 with
  | mark _ _ _ u us hu hm =>
  rw [← e, parseText, h2, Parser.parse, List.map_cons, List.cons_append, Parser.feed, itself_step n Parser.new u hu rfl rfl]
  rfl

end Adoc.Props
