import Verif.Proof.RichInk
import Verif.Props.RichPages
/-!
# C88: the text of a Word document looks as the source asks
-/
namespace Adoc.Props
open Spec Rich Parser Ink

/-- C88 for every graph, the half that always holds: the body has a paragraph for each title, paragraph, list item, term,
description, attached block, label, attribution and thematic break, a table for each table and a picture of the file for each
image, in order; the paragraphs and cells have the text and the line breaks that are asked for, and the writer applies to each
text at least the variants of the spans around it. -/
theorem C88_covers (io : Str → Option Unit) (g : Asg) (d : Docx.Doc) (h : Docx.render io g = .ok d) :
    Has Dyed ((wantsDoc g).map (Want.map (marksL []))) d.body :=
  (render_wants h).imp (p := fun _ => True) _ (fun w _ => by cases w <;> simp [Want.all]) fun _ _ _ hm => hm.dyed

/-- C88, partial: each text is bold, italic, in typewriter type, coloured or a script exactly as the spans around it ask.

Missing: paragraphs with a span inside a span (or link) that is followed by something, or with a script inside a span; for
these the claim is false (`C88_leak`, `C88_script`). -/
theorem C88_looks_partial (io : Str → Option Unit) (g : Asg) (d : Docx.Doc) (h : Docx.render io g = .ok d)
    (hc : ∀ w ∈ wantsDoc g, w.all Clear) : Has Inked ((wantsDoc g).map (Want.map (marksL []))) d.body :=
  (render_wants h).imp _ hc fun _ hp _ hm => hm.inked hp

/-- The runs of the paragraphs of a source text, with their formatting. -/
def looksOf (s : Str) (want : List (List (Mark Render.RunProps))) : Bool :=
  returns ((parseText emptyWorld 5 s).map fun g =>
    (Docx.render (fun _ => some ()) g).toOption.map fun d => (Word.bodyParas d).map fun p => p.runs.flatMap runLook) (some want)

/-- Where the claim is false: text after a span inside a span has the formatting of both. -/
theorem C88_leak : looksOf b!"*_a_ b*\n" [chars b!"a" { bold := true, italic := true } ++
    chars b!" b" { bold := true, italic := true }] = true := by decide +kernel

/-- Where the claim is false: a script inside a span is not bold. -/
theorem C88_script : looksOf b!"*a^2^*\n" [chars b!"a" { bold := true } ++
    chars b!"2" { vert := some .superscript }] = true := by decide +kernel

/-- Where it is true: spans next to each other, a span at the end of another, a line break. -/
example : looksOf b!"*a* _b_ +\n`c` #d# *e _f_*\n" [chars b!"a" { bold := true } ++ chars b!" " ({} : Render.RunProps) ++ chars b!"b" { italic := true } ++
    chars b!" " ({} : Render.RunProps) ++ [.brk] ++ chars b!"c" { courier := true } ++ chars b!" " ({} : Render.RunProps) ++ chars b!"d" { highlight := some b!"yellow" } ++ chars b!" " ({} : Render.RunProps) ++
    chars b!"e " { bold := true } ++ chars b!"f" { bold := true, italic := true }] = true := by decide +kernel

/-! ## From the source -/

/-- The title of a document. -/
def headWants : Option Head → List (Want (List Inline))
  | some h => heading (Spec.shownL [] h.title)
  | none => []

/-- What the blocks of a document ask for. -/
def _root_.Adoc.Spec.RichDoc.wants (d : RichDoc) : List (Want (List Inline)) :=
  headWants d.head ++ d.blocks.flatMap fun e => Ink.wants (e.block d.ids)

theorem wants_of_contents {g : Asg} {d : RichDoc} (h2 : listedL [] g.blocks = contents d.ids [] d.blocks)
    (h3 : g.header.map (fun h => bareL h.title) = d.head.map fun h => shownL [] h.title) :
    (wantsDoc g).map (Want.map bareL) = d.wants := by
  rw [wantsDoc, List.map_append, ← wants_listed g.blocks [], gather_blocks h2, RichDoc.wants]
  congr 1
  cases hg : g.header with
  | none =>
    cases hd : d.head with
    | none => rfl
    | some e => rw [hg, hd] at h3; simp at h3
  | some x =>
    cases hd : d.head with
    | none => rw [hg, hd] at h3; simp at h3
    | some e =>
      rw [hg, hd] at h3
      have h3 : bareL x.title = shownL [] e.title := Option.some.inj h3
      simp only [headWants, ← h3, heading_bare]

theorem want_all_bare (w : Want (List Inline)) : (w.map bareL).all Clear ↔ w.all Clear := by
  cases w with
  | par x => exact Clear_bare x
  | table cells =>
    simp only [Want.map, Want.all, List.mem_map, forall_exists_index, and_imp, forall_apply_eq_imp_iff₂, Clear_bare]
  | picture t => exact Iff.rfl

theorem marks_of_bare (ws : List (Want (List Inline))) :
    (ws.map (Want.map bareL)).map (Want.map (marksL [])) = ws.map (Want.map (marksL [])) := by
  rw [List.map_map]
  refine List.map_congr_left fun w _ => ?_
  cases w with
  | par x => simp only [Function.comp, Want.map, marks_bare]
  | table cells => simp only [Function.comp, Want.map, List.map_map, Function.comp_def, marks_bare]
  | picture t => rfl

theorem ink_of_contents {g : Asg} {d : RichDoc} (h2 : listedL [] g.blocks = contents d.ids [] d.blocks)
    (h3 : g.header.map (fun h => bareL h.title) = d.head.map fun h => shownL [] h.title) (io : Str → Option Unit)
    (hf : ∀ e ∈ d.blocks, Word.fine io (e.block d.ids)) (hc : ∀ x ∈ d.wants, x.all Clear) :
    ∃ doc, Docx.render io g = .ok doc ∧ Has Inked (d.wants.map (Want.map (marksL []))) doc.body := by
  obtain ⟨doc, hdoc⟩ := C58_returns io g ((fineL_listed io g.blocks []).1 (forall_blocks h2 hf))
  refine ⟨doc, hdoc, ?_⟩
  have e := wants_of_contents h2 h3
  have := C88_looks_partial io g doc hdoc (by
    intro x hx
    exact (want_all_bare x).1 (hc _ (e ▸ List.mem_map_of_mem hx)))
  rwa [← marks_of_bare, e] at this

/-- C88 for documents of the class: if the pictures can be read and the tables have columns, parsing and writing the Word
document succeed; its body has the title and then what each block of the source asks for, in the order of the source; and each
text is formatted as the spans around it in the source ask.

Missing: documents outside the class, and those of `C88_looks_partial`. -/
theorem C88_source_partial (w : World) (k : Nat) (d : RichDoc) (ho : d.Ok) (hl : Legible [] d.signs [])
    (hu : ∃ cs, written d.signs = enc cs) (hw : ∀ x ∈ d.targets, There w [] x) (io : Str → Option Unit)
    (hf : ∀ e ∈ d.blocks, Word.fine io (e.block d.ids)) (hc : ∀ x ∈ d.wants, x.all Clear) :
    ∃ g doc, parseText w (k + 2) (written d.signs) = .ok g ∧ Docx.render io g = .ok doc
      ∧ Has Inked (d.wants.map (Want.map (marksL []))) doc.body := by
  obtain ⟨g, h1, h2, h3, _⟩ := C23_rich_partial w k d ho hl hu hw
  obtain ⟨doc, h⟩ := ink_of_contents h2 h3 io hf hc
  exact ⟨g, doc, h1, h⟩

/-- The same for documents that include other files. -/
theorem C88_book_partial (w : World) (k : Nat) (d : Book) (ho : d.Ok) (hl : Legible [] d.signs [])
    (hu : ∃ cs, written d.signs = enc cs) (hw : foundL w d.parts []) (io : Str → Option Unit)
    (hf : ∀ e ∈ d.whole.blocks, Word.fine io (e.block d.whole.ids)) (hc : ∀ x ∈ d.whole.wants, x.all Clear) :
    ∃ g doc, parseText w (k + depthL d.parts + 2) (written d.signs) = .ok g ∧ Docx.render io g = .ok doc
      ∧ Has Inked (d.whole.wants.map (Want.map (marksL []))) doc.body := by
  obtain ⟨g, h1, h2, h3, _⟩ := parse_book w k d ho hl hu hw
  obtain ⟨doc, h⟩ := ink_of_contents (d := d.whole) h2 h3 io hf hc
  exact ⟨g, doc, h1, h⟩

theorem all_clear {ws : List (Want (List Inline))} (h : ws.all (fun
    | .par x => x.all (clear false)
    | .table cells => cells.all fun x => x.all (clear false)
    | .picture _ => true) = true) : ∀ x ∈ ws, x.all Clear := by
  intro x hx
  have := List.all_eq_true.1 h x hx
  cases x with
  | par x => exact List.all_eq_true.1 this
  | table cells => exact fun y hy => List.all_eq_true.1 (List.all_eq_true.1 this y hy)
  | picture t => trivial

/-- The document of `Props/RichPages`, with a table, a box, lists and spans. -/
theorem pageSample_fine : ∀ e ∈ pageDoc.blocks, Word.fine (fun _ => some ()) (e.block pageDoc.ids) := by
  intro e he
  simp only [pageDoc, List.mem_cons, List.not_mem_nil, or_false] at he
  rcases he with rfl | rfl | rfl | rfl | rfl | rfl | rfl | rfl | rfl | rfl
  case inr.inr.inr.inl => exact ⟨2, show parseUnsigned (2 ^ 64 - 1) b!"2" = some 2 by decide +kernel, .inl (by decide)⟩
  all_goals simp [Tagged.block, Blk.block, Piece.block, Word.fine, Word.fineL, Held.block, Box.name]

example : ∃ g doc, parseText emptyWorld 2 pageText = .ok g ∧ Docx.render (fun _ => some ()) g = .ok doc
    ∧ Has Inked (pageDoc.wants.map (Want.map (marksL []))) doc.body := by
  obtain ⟨g, doc, h1, h2⟩ := C88_source_partial emptyWorld 0 pageDoc pageSample_ok pageSample_legible pageSample_utf8
    (fun _ h => by cases h) (fun _ => some ()) pageSample_fine (all_clear (by decide +kernel))
  exact ⟨g, doc, by rw [← pageSample_written]; exact h1, h2⟩

/-- What its first two paragraphs and its table look like. -/
example : ((pageDoc.wants.map (Want.map (marksL []))).take 2 = [
    .par (chars b!"My " [] ++ chars b!"doc" [.emphasis]),
    .par (chars b!"Some " [] ++ chars b!"bold " [.strong] ++ chars b!"text" [.strong, .emphasis] ++ chars b!" here\nand there" [])])
    ∧ (pageDoc.wants.map (Want.map (marksL [])))[5]? =
      some (.table [chars b!"p " [], chars b!"q" [], chars b!"r " [], chars b!"s" []]) := by decide +kernel

/-! ## C86, paragraph by paragraph -/

/-- The title of a document. -/
def headFlow : Option Head → List Word.Ev
  | some h => Word.title (shownL [] h.title)
  | none => []

/-- The paragraphs of a document after its title. -/
def afterTitle : Option Head → List Docx.Para → List Docx.Para
  | some _, ps => ps.tail
  | none, ps => ps

/-- The body of a Word document goes through a source: the texts and page breaks are in their places; if list items stand in
lists only, each has the number of its list (C56); and in a calm document each paragraph has the style that shows what it is,
and the title has that of a title (C55). -/
def Goes (d : RichDoc) (doc : Docx.Doc) : Prop :=
  (∃ q, Word.Follows false (headFlow d.head ++ d.blocks.flatMap fun e => Word.flow (e.block d.ids)) doc.body q)
  ∧ ((∀ e ∈ d.blocks, Word.itemsInLists (e.block d.ids) = true) → (Word.bodyParas doc).filterMap (·.num) =
      Word.itemNumbers 0 (d.blocks.flatMap fun e => Word.lists (e.block d.ids)))
  ∧ ((∃ x, Word.calmL false (d.blocks.map fun e => e.block d.ids) = some x) → (∀ h ∈ d.head, shownL [] h.title ≠ []) →
      Word.showRoles (d.blocks.flatMap fun e => Word.roles .body (e.block d.ids)) (afterTitle d.head (Word.bodyParas doc))
      ∧ (d.head.isSome → ∃ p ∈ (Word.bodyParas doc).head?, p.style = b!"Title"))

theorem goes_of_contents {g : Asg} {d : RichDoc} (h2 : listedL [] g.blocks = contents d.ids [] d.blocks)
    (h3 : g.header.map (fun h => bareL h.title) = d.head.map fun h => shownL [] h.title) (io : Str → Option Unit)
    (hf : ∀ e ∈ d.blocks, Word.fine io (e.block d.ids)) : ∃ doc, Docx.render io g = .ok doc ∧ Goes d doc := by
  obtain ⟨doc, hdoc⟩ := C58_returns io g ((fineL_listed io g.blocks []).1 (forall_blocks h2 hf))
  refine ⟨doc, hdoc, ?_, ?_, ?_⟩
  · obtain ⟨q, hq⟩ := Docx.render_follows hdoc
    refine ⟨q, ?_⟩
    have e : Word.flowDoc g = headFlow d.head ++ d.blocks.flatMap fun e => Word.flow (e.block d.ids) := by
      rw [Word.flowDoc, ← flow_listed g.blocks [], gather_blocks h2]
      congr 1
      cases hg : g.header with
      | none =>
        cases hd : d.head with
        | none => rfl
        | some e => rw [hg, hd] at h3; simp at h3
      | some x =>
        cases hd : d.head with
        | none => rw [hg, hd] at h3; simp at h3
        | some e =>
          rw [hg, hd] at h3
          have h3 : bareL x.title = shownL [] e.title := Option.some.inj h3
          simp only [headFlow, ← h3, title_bare]
    rwa [e] at hq
  · intro hi
    rw [C56_numbers io g doc hdoc (by rw [← itemsInLists_listed g.blocks []]; exact all_blocks h2 hi),
      ← lists_listed g.blocks [], gather_blocks h2]
  · rintro ⟨x, hx⟩ ht
    have e := congrArg (List.map (·.2)) h2
    rw [contents_blocks] at e
    have hcalm : Word.calmL false g.blocks = some x := by
      rw [← calm_listed g.blocks [] false, e]
      exact hx
    rw [← gather_blocks h2, roles_listed]
    cases hd : d.head with
    | none =>
      have hg : g.header = none := by
        cases hg : g.header with
        | none => rfl
        | some y => rw [hg, hd] at h3; simp at h3
      exact ⟨C55_roles_partial io g doc hdoc x hcalm hg, fun hs => by cases hs⟩
    | some y =>
      cases hg : g.header with
      | none => rw [hg, hd] at h3; simp at h3
      | some z =>
        rw [hg, hd] at h3
        have h3 : bareL z.title = shownL [] y.title := Option.some.inj h3
        have hz : z.title ≠ [] := by
          intro hc
          refine ht y hd ?_
          rw [← h3, hc]
          rfl
        obtain ⟨p, ps, e1, e2, e3⟩ := C55_roles_title_partial io g doc hdoc x hcalm z hg hz
        rw [e1]
        exact ⟨e3, fun _ => ⟨p, rfl, e2⟩⟩

/-- C86, paragraph by paragraph, for documents of the class: if the pictures can be read and the tables have columns, parsing
and writing the Word document succeed, and its body goes through the source.

Missing: documents outside the class, and styles in documents that are not calm, for which the claim is false (C55). -/
theorem C86_paragraphs_partial (w : World) (k : Nat) (d : RichDoc) (ho : d.Ok) (hl : Legible [] d.signs [])
    (hu : ∃ cs, written d.signs = enc cs) (hw : ∀ x ∈ d.targets, There w [] x) (io : Str → Option Unit)
    (hf : ∀ e ∈ d.blocks, Word.fine io (e.block d.ids)) :
    ∃ g doc, parseText w (k + 2) (written d.signs) = .ok g ∧ Docx.render io g = .ok doc ∧ Goes d doc := by
  obtain ⟨g, h1, h2, h3, _⟩ := C23_rich_partial w k d ho hl hu hw
  obtain ⟨doc, h⟩ := goes_of_contents h2 h3 io hf
  exact ⟨g, doc, h1, h⟩

/-- The same for documents that include other files. -/
theorem C86_book_partial (w : World) (k : Nat) (d : Book) (ho : d.Ok) (hl : Legible [] d.signs [])
    (hu : ∃ cs, written d.signs = enc cs) (hw : foundL w d.parts []) (io : Str → Option Unit)
    (hf : ∀ e ∈ d.whole.blocks, Word.fine io (e.block d.whole.ids)) :
    ∃ g doc, parseText w (k + depthL d.parts + 2) (written d.signs) = .ok g ∧ Docx.render io g = .ok doc ∧ Goes d.whole doc := by
  obtain ⟨g, h1, h2, h3, _⟩ := parse_book w k d ho hl hu hw
  obtain ⟨doc, h⟩ := goes_of_contents (d := d.whole) h2 h3 io hf
  exact ⟨g, doc, h1, h⟩

/-- The document of several files of `Props/RichBooks`: its list items have number 1, its title the style of titles, and the
rest the styles of its blocks. -/
example : ∃ g doc, parseText bookWorld (depthL bookDoc.parts + 2) bookText = .ok g ∧ Docx.render (fun _ => some ()) g = .ok doc
    ∧ (Word.bodyParas doc).filterMap (·.num) = [1, 1]
    ∧ Word.showRoles [.body, .heading 1, .body, .bullet, .bullet, .heading 1, .body, .body] (Word.bodyParas doc).tail := by
  obtain ⟨g, doc, h1, h2, _, h3, h4⟩ := C86_book_partial bookWorld 0 bookDoc bookSample_ok bookSample_legible
    (ascii_enc _ bookSample_ascii) bookSample_found (fun _ => some ()) (by
      intro e he
      simp only [Book.whole, bookDoc, blocksL, Passage.blocks, introParts, oneParts, moreParts, deepParts, List.cons_append, List.nil_append, List.mem_cons, List.not_mem_nil, or_false] at he
      rcases he with rfl | rfl | rfl | rfl | rfl | rfl | rfl
      all_goals simp [Tagged.block, Blk.block, Piece.block, Word.fine, Word.fineL])
  rw [bookSample_written, Nat.zero_add] at h1
  refine ⟨g, doc, h1, h2, ?_, ?_⟩
  · rw [h3 (by decide +kernel)]
    decide +kernel
  · have := (h4 ⟨false, by decide +kernel⟩ (by decide +kernel)).1
    exact this

end Adoc.Props
