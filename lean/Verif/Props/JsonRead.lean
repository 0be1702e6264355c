import Verif.Props.Json
import Verif.Props.RichPages
import Verif.Props.RichBooks
import Verif.Proof.JsonRead
/-!
# C89, C90: the JSON output, read by the names of its schema, gives back the document and what the source says

The reader of `Spec/JsonRead` parses the text and looks the members up by name.
-/
namespace Adoc.Props
open Spec Rich

/-- C89 for every graph and every order of the maps: the reader finds the whole graph in the text: every block, inline, title,
level, marker, delimiter, text, target, role, option, attribute and location, and nothing else. Flags of the parser, the
document id and the table of ids are not part of the output. -/
theorem C89_graph (ord : SMap Str → SMap Str) (g : Asg) : JsonRead.document (jsonText ord g) = some (shown ord g) := by
  unfold JsonRead.document
  rw [C72_read]
  exact Json.readDocument_of g

/-- From a graph with known contents to the document that is read. -/
theorem read_of_contents (ord : SMap Str → SMap Str) {g : Asg} {cs : List (List Title × Block)} {title : Option (List Inline)}
    {defs : Option (SMap Str)} (h2 : listedL [] g.blocks = cs) (h3 : g.header.map (fun h => bareL h.title) = title)
    (h4 : g.attributes = defs) :
    ∃ g', JsonRead.document (jsonText ord g) = some g' ∧ listedL [] g'.blocks = cs.map (shownEntry ord)
      ∧ g'.header.map (fun h => bareL h.title) = title.map (shownInlines ord) ∧ g'.attributes = defs.map ord := by
  refine ⟨_, C89_graph ord g, ?_, ?_, ?_⟩
  · rw [← h2]
    exact Json.listedL_shown g.blocks []
  · rw [← h3]
    show (g.header.map (shownHeader ord)).map (fun h => bareL h.title) = _
    cases g.header with
    | none => rfl
    | some h => simp only [Option.map_some, shownHeader, Json.bareL_shown]
  · rw [← h4]
    rfl

/-- C90 for documents of the class of `Spec/RichDoc`: what is read from the output are the blocks of the source in order, each
with the headings around it, the title and the attributes.

Missing: documents outside the class. -/
theorem C90_source_partial (ord : SMap Str → SMap Str) (w : World) (k : Nat) (d : RichDoc) (ho : d.Ok)
    (hl : Legible [] d.signs []) (hu : ∃ cs, Spec.written d.signs = enc cs) (hw : ∀ x ∈ d.targets, There w [] x) :
    ∃ g g', parseText w (k + 2) (Spec.written d.signs) = .ok g ∧ JsonRead.document (jsonText ord g) = some g'
      ∧ listedL [] g'.blocks = (contents d.ids [] d.blocks).map (shownEntry ord)
      ∧ g'.header.map (fun h => bareL h.title) = d.head.map (fun h => shownInlines ord (shownL [] h.title))
      ∧ g'.attributes = d.head.map fun h => ord h.defs := by
  obtain ⟨g, h1, h2, h3, h4⟩ := C23_rich_partial w k d ho hl hu hw
  obtain ⟨g', r1, r2, r3, r4⟩ := read_of_contents ord h2 h3 h4
  exact ⟨g, g', h1, r1, r2, by rw [r3, Option.map_map]; rfl, by rw [r4, Option.map_map]; rfl⟩

/-- The same for documents that include other files. -/
theorem C90_book_partial (ord : SMap Str → SMap Str) (w : World) (k : Nat) (d : Book) (ho : d.Ok)
    (hl : Legible [] d.signs []) (hu : ∃ cs, Spec.written d.signs = enc cs) (hw : foundL w d.parts []) :
    ∃ g g', parseText w (k + depthL d.parts + 2) (Spec.written d.signs) = .ok g
      ∧ JsonRead.document (jsonText ord g) = some g'
      ∧ listedL [] g'.blocks = (contents d.whole.ids [] (blocksL d.parts)).map (shownEntry ord)
      ∧ g'.header.map (fun h => bareL h.title) = d.head.map (fun h => shownInlines ord (shownL [] h.title))
      ∧ g'.attributes = d.head.map fun h => ord h.defs := by
  obtain ⟨g, h1, h2, h3, h4⟩ := parse_book w k d ho hl hu hw
  obtain ⟨g', r1, r2, r3, r4⟩ := read_of_contents ord h2 h3 h4
  exact ⟨g, g', h1, r1, r2, by rw [r3, Option.map_map]; rfl, by rw [r4, Option.map_map]; rfl⟩

/-- The sample document of C85 meets the hypotheses. -/
example : ∃ g g', parseText emptyWorld 2 pageText = .ok g ∧ JsonRead.document (jsonText id g) = some g'
    ∧ listedL [] g'.blocks = (contents pageDoc.ids [] pageDoc.blocks).map (shownEntry id) := by
  obtain ⟨g, g', h1, h2, h3, -⟩ := C90_source_partial id emptyWorld 0 pageDoc pageSample_ok pageSample_legible pageSample_utf8
    (by decide)
  rw [pageSample_written] at h1
  exact ⟨g, g', h1, h2, h3⟩

/-- The sample document of several files meets the hypotheses. -/
example : ∃ g g', parseText bookWorld (depthL bookDoc.parts + 2) bookText = .ok g ∧ JsonRead.document (jsonText id g) = some g'
    ∧ listedL [] g'.blocks = (contents bookDoc.whole.ids [] (blocksL bookDoc.parts)).map (shownEntry id) := by
  obtain ⟨g, g', h1, h2, h3, -⟩ := C90_book_partial id bookWorld 0 bookDoc bookSample_ok bookSample_legible
    (ascii_enc _ bookSample_ascii) bookSample_found
  rw [bookSample_written, Nat.zero_add] at h1
  exact ⟨g, g', h1, h2, h3⟩

/-- The reader looks at names: members in another order are found, members with other names are not. -/
example :
    (JsonRead.document b!"{\"location\": [], \"blocks\": [{\"variant\": \"page\", \"location\": [], \"type\": \"block\",
      \"name\": \"break\"}], \"type\": \"block\", \"name\": \"document\"}").isSome = true ∧
    (JsonRead.document b!"{\"location\": [], \"blocks\": [{\"kind\": \"page\", \"location\": [], \"type\": \"block\",
      \"name\": \"break\"}], \"type\": \"block\", \"name\": \"document\"}").isSome = false := by decide +kernel

/-- From the source to what is read: the blocks and the attributes of the document. -/
example :
    returns ((parseText emptyWorld 5 b!"= T\n:k: v\n\n== S\n\n* a _b_\n").map fun g =>
      (JsonRead.document (jsonText id g)).map fun g' => (sketchBs g'.blocks == sketchBs g.blocks, g'.attributes.isSome))
      (some (true, true)) = true := by decide +kernel

end Adoc.Props
