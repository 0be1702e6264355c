import Verif.Model.Inline
/-!
# Parts of the renderers

* rows of a table in `src/backends/docx/document.rs` (`add_table`) and in `templates/htmlbook/tables.html.tera`;
* formatting of text runs in `src/backends/docx/document.rs`.

Run texts are the values of the literals: character references, line joining and the trimming after a line break are
left out here. The rest of the docx writer is in `Model/Docx`, the templates are in `Model/Html`; the zip output is not modelled.
-/
namespace Adoc.Render

variable {α : Type}

/-- `document.rs:328-338`: the loop over the cells, with the index of the next cell, the number of cells, the current
row and the finished rows. `%` by zero panics; it is not evaluated for the first cell. -/
def docxLoop (cols total : Nat) : List α → Nat → List α → List (List α) → M (List (List α) × List α)
  | [], _, cur, rows => .ok (rows, cur)
  | c :: cs, idx, cur, rows =>
    let cur := cur ++ [c]
    if 0 < idx then
      if cols = 0 then .error (.panic .divZero)
      else if (idx + 1) % cols = 0 ∧ idx + 1 ≠ total then docxLoop cols total cs (idx + 1) [] (rows ++ [cur])
      else docxLoop cols total cs (idx + 1) cur rows
    else docxLoop cols total cs (idx + 1) cur rows

/-- `document.rs:325-339`: the rows given to `Table::new`; the row in progress is not among them. -/
def docxRows (cols : Nat) (cells : List α) : M (List (List α)) := do
  let (rows, _) ← docxLoop cols cells.length cells 0 [] []
  return rows

/-- `tables.html.tera:22-28`: the loop over the body cells; `<tr>` is open before it and closed after it. -/
def htmlLoop (cols total : Nat) : List α → Nat → List α → List (List α) → List (List α)
  | [], _, cur, rows => rows ++ [cur]
  | c :: cs, idx, cur, rows =>
    let cur := cur ++ [c]
    if 0 < idx ∧ (idx + 1) % cols = 0 ∧ idx + 1 ≠ total then htmlLoop cols total cs (idx + 1) [] (rows ++ [cur])
    else htmlLoop cols total cs (idx + 1) cur rows

/-- `tables.html.tera:2-32`: the cells of `<thead>` (`nth` out of range gives an empty value, so such a cell is `none`)
and the rows of the body. -/
def htmlTable (cols : Nat) (header : Bool) (cells : List α) : List (Option α) × List (List α) :=
  let start := if header then cols else 0
  ((List.range start).map fun i => cells[i]?,
   htmlLoop cols cells.length (cells.drop start) start [] [])

/-- The run properties that the code sets. -/
structure RunProps where
  bold : Bool := false
  italic : Bool := false
  courier : Bool := false
  highlight : Option Str := none
  vert : Option SpanVariant := none
deriving DecidableEq, Repr

/-- `document.rs:437-459`: the effect of one span variant; sub- and superscript replace all properties. -/
def RunProps.apply (r : RunProps) : SpanVariant → RunProps
  | .strong => { r with bold := true }
  | .emphasis => { r with italic := true }
  | .code => { r with courier := true }
  | .mark => { r with highlight := some b!"yellow" }
  | .subscript => { vert := some .subscript }
  | .superscript => { vert := some .superscript }
  | .footnote => { r with highlight := some b!"blue" }

/-- A run: text with the variants applied to it, or a line break. -/
inductive Run where
  | text (value : Str) (variants : List SpanVariant)
  | brk
deriving DecidableEq, Repr

/-- The properties of a run. -/
def Run.props : Run → RunProps
  | .text _ vs => vs.foldl RunProps.apply {}
  | .brk => {}

mutual
/-- `document.rs:422-483`, `runs_from_inline_with_variant`: the variants are only ever pushed. -/
def runsWith : Inline → List SpanVariant → List Run × List SpanVariant
  | .lit _ v _, vs => ([.text v vs], vs)
  | .span v _ is _ _ _, vs => runsWithL is (vs ++ [v])
  | .brk _, vs => ([.brk], vs)
  | .ref _ _ is _ _, vs => runsWithL is vs
/-- The loops over child inlines. -/
def runsWithL : List Inline → List SpanVariant → List Run × List SpanVariant
  | [], vs => ([], vs)
  | i :: is, vs =>
    let r := runsWith i vs
    let r' := runsWithL is r.2
    (r.1 ++ r'.1, r'.2)
end

/-- `document.rs:386-419`, `runs_from_inline`. -/
def runsFrom : Inline → List Run
  | .lit _ v _ => [.text v []]
  | .span v _ is _ _ _ => (runsWithL is [v]).1
  | .brk _ => [.brk]
  | .ref _ _ is _ _ => (runsWithL is []).1

/-- `document.rs:376-383`, `add_inlines_to_para`. -/
def runs (is : List Inline) : List Run := is.flatMap runsFrom

end Adoc.Render
