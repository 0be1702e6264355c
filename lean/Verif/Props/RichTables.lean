import Verif.Props.RichImages
import Verif.Props.Returns
/-!
# C80: tables

The tables of documents of the class of `Spec/RichDoc`.
-/
namespace Adoc.Props
open Spec Rich

/-- C80 for documents of the class: a table becomes a block with exactly the cells written, in this order and whatever
the lines they are on, each with all its text and inline markup; it has the title line and the metadata lines written
before it, and the blocks after it are outside. Its metadata have the number of columns: that of the column list if there
is one, otherwise the number of cells on the first line; and the option `header` if there is more than one cell on the line
after the delimiter (`tableMeta`).

Missing: documents outside the class; for some of them the claim is false (below). -/
theorem C80_tables_partial (w : World) (k : Nat) (d : RichDoc) (ho : d.Ok) (hl : Legible [] d.signs [])
    (hu : ∃ cs, written d.signs = enc cs) (hw : ∀ x ∈ d.targets, There w [] x) :
    ∃ g, parseText w (k + 2) (written d.signs) = .ok g ∧ (listedL [] g.blocks).length = d.blocks.length
      ∧ ∀ (i : Nat) (tags : List Tag) (title : Option (List Elem)) (lead : Nat) (rows : List TableRow) (m : Gap),
        d.blocks[i]? = some ⟨tags, .table title lead rows, m⟩ →
        ∃ path cells, (listedL [] g.blocks)[i]? =
            some (path, .parent .table none b!"|===" cells (shownL d.ids (title.getD [])) (tableMeta lead rows (tagsMeta tags)) [])
          ∧ cells.length = (rows.flatMap TableRow.cells).length
          ∧ ∀ (j : Nat) (es : List Elem), (rows.flatMap TableRow.cells)[j]? = some es →
            cells[j]? = some (.tableCell (shownL d.ids es) none []) := by
  obtain ⟨g, h1, h2, h3⟩ := C69_sections_partial w k d ho hl hu hw
  refine ⟨g, h1, h2, fun i tags title lead rows m hi => ⟨_, _, h3 i _ hi, by simp, fun j es hj => ?_⟩⟩
  rw [List.getElem?_map, hj]; rfl

/-- The number of columns and the header, spelled out: without a column list, the columns are the cells on the first
line, and the first line is a header if it comes directly after the delimiter. -/
theorem C80_header (lead : Nat) (rows : List TableRow) (m : Option Meta) (h : 2 ≤ firstCells rows)
    (hc : (m.bind fun m => m.attributes.get? b!"cols") = none) :
    ∃ m', tableMeta lead rows m = some m' ∧ m'.attributes.get? b!"cols" = some (natToStr (firstCells rows))
      ∧ m'.options = (m.getD {}).options ++ (if lead = 1 then [b!"header"] else [])
      ∧ ∀ k, k ≠ b!"cols" → m'.attributes.get? k = (m.getD {}).attributes.get? k := by
  have hlen : 2 ≤ (rows.flatMap TableRow.cells).length := by
    cases rows with
    | nil => simp [firstCells] at h
    | cons r rs => simp [firstCells] at h ⊢; omega
  have hn : (natToStr (firstCells rows)).all isDigit = true := by
    rw [List.all_eq_true]; exact fun b hb => natToStr_digits _ b hb
  have hcol : columns (natToStr (firstCells rows)) = natToStr (firstCells rows) := by
    unfold columns
    rw [if_neg (fun hm => by have := List.all_eq_true.1 hn _ hm; exact absurd this (by decide))]
    split
    · rename_i x heq
      rw [heq] at hn
      exact absurd (List.all_eq_true.1 hn 42 (by simp)) (by decide)
    · rfl
  rw [tableMeta_eq _ _ _ hlen]
  unfold rowMeta
  rw [if_pos h]
  have hg : (m.getD {}).attributes.get? b!"cols" = none := by
    cases m with
    | none => rfl
    | some m => exact hc
  have ha : (if lead = 1 then { (m.getD {}) with options := (m.getD {}).options ++ [b!"header"] } else m.getD {}).attributes
      = (m.getD {}).attributes := by split <;> rfl
  simp only [ha, hg, Option.isSome_none, Bool.false_eq_true, if_false, Option.map_some]
  refine ⟨_, rfl, ?_, ?_, ?_⟩
  · simp [withColumns, SMap.get?_insert, hcol]
  · simp only [withColumns, SMap.get?_insert, if_true]
    split <;> simp
  · intro k hk
    simp only [withColumns, SMap.get?_insert, if_true, if_neg (fun e => hk (Eq.symm e))]

/-! ### A document of the class -/

/-- The document, block by block. -/
def tableDoc : RichDoc where
  blocks := [
    ⟨[], .para [.text [b!"See "], .xref b!"t"], 2⟩,
    ⟨[.anchor b!"t"], .table (some [.text [b!"The table "], .symbol b!"->"]) 1
      [⟨[[.text [b!"a "]], [.text [b!"b"]]], 2⟩,
       ⟨[[.span .strong [.text [b!"c"]], .text [b!" "]], []], 1⟩,
       ⟨[[.text [b!"d "], .xref b!"t"]], 1⟩], 2⟩,
    ⟨[.quoted b!"cols" b!"1,2,1"], .table none 2 [⟨[[.text [b!"one"]]], 1⟩, ⟨[[.text [b!"two"]]], 1⟩], 2⟩,
    ⟨[], .para [.text [b!"end"]], 1⟩]

/-- How it is written. -/
def tableText : Str := b!"See <<t>>

[[t]]
.The table ->
|===
|a |b

|*c* |
|d <<t>>
|===

[cols=\"1,2,1\"]
|===

|one
|two
|===

end
"

theorem tableSample_written : written tableDoc.signs = tableText := by decide +kernel

set_option maxRecDepth 20000 in
theorem tableSample_utf8 : ∃ cs, written tableDoc.signs = enc cs := by
  refine ⟨(String.fromUTF8? ⟨tableText.toArray⟩).get!.toList, ?_⟩
  rw [tableSample_written]
  decide +kernel

theorem tableSample_legible : Legible [] tableDoc.signs [] :=
  Scanner.legible_of_legibleB tableSample_utf8 (by decide +kernel)

/-- A cell of the document, checked. -/
theorem cellOk_of {es : List Elem} (h1 : ElemsOk none es) (h2 : OneLine es) (h3 : ∀ s ∈ es.flatMap Elem.signs, SignOk s)
    (h4 : ∀ b ∈ written (es.flatMap Elem.signs), b.toNat < 128) (h5 : Scanner.legibleB (es.flatMap Elem.signs) = true) : CellOk es :=
  ⟨h1, h2, h3, h4, Scanner.legible_of_legibleB (ascii_enc _ h4) h5⟩

theorem tableSample_ok : tableDoc.Ok where
  head := by intro h hh; cases hh
  blocks := by
    have hs : ∀ ss : List Sign, ss.all (fun s => match s with
        | .text _ => true
        | .mark ty l => ty ≠ .text && l.all (fun b => b.toNat < 128)) = true → ∀ s ∈ ss, SignOk s := by
      intro ss h s hs
      have := List.all_eq_true.1 h s hs
      cases s with
      | text => trivial
      | mark ty l =>
        simp only [Bool.and_eq_true, decide_eq_true_eq, List.all_eq_true] at this
        exact ⟨this.1, fun _ b hb => this.2 b hb⟩
    intro e he
    simp only [tableDoc, List.mem_cons, List.not_mem_nil, or_false] at he
    rcases he with rfl | rfl | rfl | rfl
    · refine ⟨?_, ?_, ?_⟩ <;>
        simp [TagsOk, Blk.Ok, Piece.Ok, ProseOk, ElemsOk, TextLines, EndsLine, TagsFor] <;> decide
    · refine ⟨?_, ⟨?_, by decide, ?_⟩, ?_⟩
      · simp [TagsOk]
      · simp [ProseOk, ElemsOk, TextLines, EndsLine, OneLine, Elem.signs, textSigns, lineSigns, Spec.newline]
        decide
      · intro r hr
        simp only [List.mem_cons, List.not_mem_nil, or_false] at hr
        rcases hr with rfl | rfl | rfl
        all_goals refine ⟨⟨by simp, List.forall_mem_cons.2 ⟨cellOk_of ?_ ?_ (hs _ (by decide)) (by decide) (by decide +kernel), ?_⟩⟩,
          by decide⟩
        any_goals refine List.forall_mem_cons.2 ⟨cellOk_of ?_ ?_ (hs _ (by decide)) (by decide) (by decide +kernel), ?_⟩
        all_goals simp [ElemsOk, PartsOk, TextLines, EndsLine, OneLine, Elem.signs, Part.signs, textSigns, lineSigns]
        all_goals decide
      · refine ⟨.inr (by decide), by decide, fun m hm x y h => ?_⟩
        cases hm
        cases h
    · refine ⟨?_, ⟨?_, by decide, ?_⟩, ?_⟩
      · simp [TagsOk, Lexical.Alnum]
        decide
      · simp
      · intro r hr
        simp only [List.mem_cons, List.not_mem_nil, or_false] at hr
        rcases hr with rfl | rfl
        all_goals refine ⟨⟨by simp, List.forall_mem_cons.2 ⟨cellOk_of ?_ ?_ (hs _ (by decide)) (by decide) (by decide +kernel), ?_⟩⟩,
          by decide⟩
        all_goals simp [ElemsOk, TextLines, EndsLine, OneLine, Elem.signs, textSigns, lineSigns]
        all_goals decide
      · refine ⟨.inr (by decide), by decide, fun m hm x y h => ?_⟩
        cases hm
        cases h
    · refine ⟨?_, ?_, ?_⟩ <;>
        simp [TagsOk, Blk.Ok, Piece.Ok, ProseOk, ElemsOk, TextLines, EndsLine, TagsFor] <;> decide
  gaps := by simp [tableDoc, GapsOk, Blk.ending]
  flow := by decide
  ids := by decide
  icons := Scanner.no_callouts (by decide)
  signs := by
    have : ∀ s ∈ tableDoc.signs, (match s with
      | .text _ => true
      | .mark ty l => ty ≠ .text && l.all (fun b => b.toNat < 128)) = true := by decide +kernel
    intro s hs
    have := this s hs
    cases s with
    | text => trivial
    | mark ty l =>
      simp only [Bool.and_eq_true, decide_eq_true_eq, List.all_eq_true] at this
      exact ⟨this.1, fun _ b hb => this.2 b hb⟩

/-- The two tables: the first has two columns and a header, the second the three columns of its column list. -/
example : ∃ g, parseText emptyWorld 2 tableText = .ok g
    ∧ (listedL [] g.blocks).map (·.2) =
      [.leaf .paragraph .paragraph none [literal b!"See ", .ref .xref b!"t" [literal b!"The table ", .lit .charref b!"&#8594;" []] none []] none [],
       .parent .table none b!"|===" [
          .tableCell [literal b!"a "] none [], .tableCell [literal b!"b"] none [],
          .tableCell [.span .strong .constrained [literal b!"c"] none [] false, literal b!" "] none [], .tableCell [] none [],
          .tableCell [literal b!"d ", .ref .xref b!"t" [literal b!"The table ", .lit .charref b!"&#8594;" []] none []] none []]
         [literal b!"The table ", .lit .charref b!"&#8594;" []]
         (some { attributes := [(b!"id", b!"t"), (b!"cols", b!"2")], options := [b!"header"] }) [],
       .parent .table none b!"|===" [.tableCell [literal b!"one"] none [], .tableCell [literal b!"two"] none []] []
         (some { attributes := [(b!"cols", b!"3")] }) [],
       .leaf .paragraph .paragraph none [literal b!"end"] none []] := by
  obtain ⟨g, h1, h2, _⟩ := C23_rich_partial emptyWorld 0 tableDoc tableSample_ok tableSample_legible tableSample_utf8
    (fun _ h => by cases h)
  exact ⟨g, by rw [← tableSample_written]; exact h1, by rw [h2]; rfl⟩

example : ∃ m', tableMeta 1 [⟨[[.text [b!"a "]], [.text [b!"b"]]], 2⟩] (some { attributes := [(b!"id", b!"t")] }) = some m'
    ∧ m'.attributes.get? b!"cols" = some b!"2" ∧ m'.options = [b!"header"] := by
  obtain ⟨m', h1, h2, h3, _⟩ := C80_header 1 [⟨[[.text [b!"a "]], [.text [b!"b"]]], 2⟩] (some { attributes := [(b!"id", b!"t")] })
    (by decide) rfl
  exact ⟨m', h1, h2, h3⟩

/-! ### Where the claim is false -/

/-- A cell with a character that is not ASCII makes the program panic. -/
theorem C80_panic : panics (parseText emptyWorld 5 b!"|===\n|a |é\n|===\n") .slice = true := by decide +kernel

/-- If the first two cells are on lines of their own and no metadata are written, the program exits. -/
theorem C80_exit : (match parseText emptyWorld 5 b!"|===\n|a\n|b\n|===\n" with | .error .exit => true | _ => false) = true := by
  decide +kernel

/-- Text on the line after a cell is joined to it with the rest of the line, even if there is a cell in it. -/
theorem C80_next_line :
    returns ((parseText emptyWorld 5 b!"|===\n|a\nb |c\n|===\n").map fun g => sketchBs g.blocks) b!"table[cell(a|\nb |c)]" = true := by
  decide +kernel

/-- So is a bar inside a span. -/
theorem C80_bar_in_span :
    returns ((parseText emptyWorld 5 b!"|===\n|a *b|c* d\n|===\n").map fun g => sketchBs g.blocks)
      b!"table[cell(a |strong(b|c)| d)]" = true := by
  decide +kernel

/-- The text of a paragraph directly before a table goes into its first cell. -/
theorem C80_text_before :
    returns ((parseText emptyWorld 5 b!"a\n|===\n|b |c\n|===\n\nd\n").map fun g => sketchBs g.blocks)
      b!"table[cell(ab ) cell(c)] (d)" = true := by
  decide +kernel

/-- Text directly after a table, a heading after it, a list in a cell, a number of columns before a cell and a table in a
sidebar are errors. -/
theorem C80_errors :
    [b!"|===\n|a |b\n|===\nz\n", b!"|===\n|a |b\n|===\n\n== H\n", b!"|===\n|a |* b\n|===\n", b!"|===\n2+|a |b\n|===\n",
      b!"****\n|===\n|a |b\n|===\n****\n"].all (fun s => match parseText emptyWorld 5 s with
        | .error (.err (.block .tableCell)) => true
        | .error (.err (.asg .tableCell)) => true
        | _ => false) = true := by
  decide +kernel

end Adoc.Props
