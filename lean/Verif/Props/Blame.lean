import Verif.Proof.BlamePlace
import Verif.Props.Returns
/-!
# C98: errors name what is wrong, and where
-/
namespace Adoc.Props

open Spec Blame

/-- **C98**: every error that the parser returns, for any document with any included files and tables, is explained by an item of
a text that is read: an error of the scanner, a document title that is not at the beginning of the input, a heading whose level
with the offset is not that of a section, a target that does not exist, or a delimiter, and then it has the line of that item; or
it is one of the errors without a place. -/
theorem C98_fault (w : World) (fuel : Nat) (src : Str) (p : Parser) (e : ParserError) (hp : p = Parser.new ∨ p = Parser.newNoTargets)
    (h : Parser.parse w fuel (scan src) p = .error (.err e)) : Fault w src e :=
  parse_er (by rcases hp with rfl | rfl <;> rfl) (by rcases hp with rfl | rfl <;> rfl) e h

/-- **C98** (partial: for texts where no token runs over a line end and there are no tags): on the line that an error names, in
the input or in an included file, stands what the error says. Headings that are too deep inside cells are the exception: the error
says line 1 (`Cause.cell`). -/
theorem C98_line_partial (w : World) (fuel : Nat) (src : Str) (p : Parser) (e : ParserError) (hp : p = Parser.new ∨ p = Parser.newNoTargets)
    (hn : Calm w src) (h : Parser.parse w fuel (scan src) p = .error (.err e)) : Cause w src e :=
  cause_of hn (C98_fault w fuel src p e hp h)

/-- A condition for `Calm` that can be computed: nothing is included and there are no cells. -/
theorem calm_simple {w : World} {src : Str} (h1 : ∀ t ∈ tokens src, OneLine t) (h2 : ∀ t ∈ tokens src, t.ty ≠ .include ∧ t.ty ≠ .tableCell) :
    Calm w src := by
  have hmem : ∀ {t : Token}, Spec.Reached (scan src) (.tok t) → t ∈ tokens src := by
    rintro t ⟨a, b, h⟩
    rw [mem_tokens, h]; simp
  have hread : ∀ {fs items}, Read w src fs items → items = scan src := by
    intro fs items h
    induction h with
    | input => rfl
    | included _ ht hty _ _ _ ih => exact absurd hty (h2 _ (hmem (ih ▸ ht))).1
    | cell _ ht hty ih => exact absurd hty (h2 _ (hmem (ih ▸ ht))).2
  intro fs items t hr ht
  rw [hread hr] at ht
  exact h1 t (hmem ht)

/-- A condition for `Calm` that can be computed: one file without include directives can be included, and there are no cells. -/
theorem calm_included {w : World} {src text name : Str} (hw : ∀ path x, w.read path = some x → x = text)
    (hname : ∀ fs target path, w.resolve fs target = some path → target = name)
    (h1 : ∀ t ∈ tokens src, OneLine t ∧ t.ty ≠ .tableCell)
    (h2 : ∀ t ∈ (Scanner.newWithStack text [name]).run.filterMap Item.tok?, OneLine t ∧ t.ty ≠ .tableCell ∧ t.ty ≠ .include) : Calm w src := by
  have hmem : ∀ {t : Token} {items : List Item}, Spec.Reached items (.tok t) → .tok t ∈ items := by
    rintro t items ⟨a, b, rfl⟩
    simp
  have h2 : ∀ t : Token, .tok t ∈ (Scanner.newWithStack text [name]).run → OneLine t ∧ t.ty ≠ .tableCell ∧ t.ty ≠ .include :=
    fun t ht => h2 t (List.mem_filterMap.2 ⟨_, ht, rfl⟩)
  have hread : ∀ {fs items}, Read w src fs items → fs = [] ∧ items = scan src ∨ fs = [name] ∧ items = (Scanner.newWithStack text [name]).run := by
    intro fs items h
    induction h with
    | input => exact .inl ⟨rfl, rfl⟩
    | included _ ht hty _ hr hx ih =>
      rcases ih with ⟨rfl, rfl⟩ | ⟨rfl, rfl⟩
      · rw [hw _ _ hx, hname _ _ _ hr]; exact .inr ⟨rfl, rfl⟩
      · exact absurd hty (h2 _ (hmem ht)).2.2
    | cell _ ht hty ih =>
      rcases ih with ⟨rfl, rfl⟩ | ⟨rfl, rfl⟩
      · exact absurd hty (h1 _ (mem_tokens.2 (hmem ht))).2
      · exact absurd hty (h2 _ (hmem ht)).2.1
  intro fs items t hr ht
  rcases hread hr with ⟨rfl, rfl⟩ | ⟨rfl, rfl⟩
  · exact (h1 t (mem_tokens.2 (hmem ht))).1
  · exact (h2 _ (hmem ht)).1

/-- The error of a computation. -/
def errs {α : Type} (x : M α) (e : ParserError) : Bool :=
  match x with
  | .error (.err e') => e' = e
  | _ => false

theorem errs_eq {α : Type} {x : M α} {e : ParserError} (h : errs x e = true) : x = .error (.err e) := by
  unfold errs at h
  split at h
  · rw [of_decide_eq_true h]
  · cases h

-- a document title in the middle of a document
example : Parser.parse emptyWorld 5 (scan b!"x\n\n= y\n") Parser.new = .error (.err (.topLevelHeading 3)) ∧ Calm emptyWorld b!"x\n\n= y\n" :=
  ⟨errs_eq (by decide +kernel), calm_simple (by decide +kernel) (by decide +kernel)⟩

-- too many equals signs, a missing image, a missing file, and an offset
example : errs (Parser.parse emptyWorld 5 (scan b!"x\n\n====== y\n") Parser.new) (.scanner (.headingLevel 3)) = true := by decide +kernel
example : errs (Parser.parse emptyWorld 5 (scan b!"x\n\nimage::p.png[]\n") Parser.new) (.targetResolution 3 b!"p.png") = true := by decide +kernel
example : errs (Parser.parse emptyWorld 5 (scan b!"x\n\ny\n\ninclude::p.adoc[]\n") Parser.new) (.targetResolution 5 b!"p.adoc") = true := by decide +kernel
example : errs (Parser.parse emptyWorld 5 (scan b!":leveloffset: 4\n\nx\n\n=== y\n") Parser.new) (.headingOffset 5 4) = true := by decide +kernel

/-- **C98**: the line number of an error in a cell is the one that it has in the table. -/
theorem C98_cell : errs (Parser.parse emptyWorld 5 (scan b!"x\n\n|===\n|a |= x\n|===\n") Parser.new) (.topLevelHeading 4) = true := by
  decide +kernel

/-- **C98** fails for headings that are too deep in a cell: the error on line 4 is reported for line 1. -/
theorem C98_cell_line : errs (Parser.parse emptyWorld 5 (scan b!"x\n\n|===\n|a |====== x\n|===\n") Parser.new) (.scanner (.headingLevel 1)) = true := by
  decide +kernel

/-- **C98** fails: some errors do not say where they occur. A name in brackets before a thematic break, an attribute that is not
a number, and a cell that begins with something else than a bar. -/
theorem C98_nowhere : errs (Parser.parse emptyWorld 5 (scan b!"x\n\n[a]\n'''\n") Parser.new) .internal = true
    ∧ errs (Parser.parse emptyWorld 5 (scan b!"x\n\n:leveloffset: q\n") Parser.new) .internal = true
    ∧ errs (Parser.parse emptyWorld 5 (scan b!"x\n\n|===\na|====== x\n|===\n") Parser.new) (.block .tableCell) = true := by
  decide +kernel

/-- **C98**: a verse block that contains an empty line only is an error. -/
theorem C98_empty_verse : errs (Parser.parse emptyWorld 5 (scan b!"[verse]\n____\n\n____\n") Parser.new) (.openParse 4) = true := by
  decide +kernel

/-- A world with one file, which has a document title on its second line. -/
def titleFile : World := ⟨fun _ t => if t = b!"a.adoc" then some b!"/a.adoc" else none, fun p => if p = b!"/a.adoc" then some b!"x\n= y\n" else none⟩

example : Calm titleFile b!"z\n\nz\n\ninclude::a.adoc[]\n" := by
  refine calm_included (text := b!"x\n= y\n") (name := b!"a.adoc") ?_ ?_ (by decide +kernel) (by decide +kernel)
  · intro path x h
    unfold titleFile at h
    dsimp only at h
    split at h <;> cases h
    rfl
  · intro fs target path h
    unfold titleFile at h
    dsimp only at h
    split at h <;> cases h
    assumption

/-- **C98** fails for included files: the error has the line in the included file and does not name the file. -/
theorem C98_included : errs (Parser.parse titleFile 5 (scan b!"z\n\nz\n\ninclude::a.adoc[]\n") Parser.new) (.topLevelHeading 2) = true := by
  decide +kernel

end Adoc.Props
