import Verif.Proof.OriginUse
import Verif.Props.Html
/-!
# C67 and C68: where the contents of a graph come from, and what follows for output
-/
namespace Adoc.Props
open Origin Markup

/-- A byte of the source or of a file that can be read. -/
def Avail (w : World) (src : Str) (b : UInt8) : Prop := b ∈ src ∨ ∃ path s, w.read path = some s ∧ b ∈ s

/-- Whether a byte is available, if there are no files. -/
theorem avail_empty {src : Str} {b : UInt8} : Avail emptyWorld src b ↔ b ∈ src := by
  simp [Avail, emptyWorld]

/-! ## C67: nothing in a graph is made up -/

/-- All of a graph, at once. -/
theorem C67_graph {w : World} {fuel : Nat} {src : Str} {g : Asg} (h : parseText w fuel src = .ok g) :
    EveryG (Avail w src) g := by
  unfold Adoc.parseText at h
  cases hp : Parser.parse w fuel (scan src) Parser.new with
  | error e => rw [hp] at h; cases h
  | ok q =>
    rw [hp] at h
    cases h
    exact parse_origin (fun b hb => .inl hb) (fun path s hr b hb => .inr ⟨path, s, hr, hb⟩) (.inl rfl) hp

/-- Every byte of every text, target and list marker occurs in the source or in a file, or is one of the few that the
parser adds. -/
theorem C67_texts {w : World} {fuel : Nat} {src : Str} {g : Asg} (h : parseText w fuel src = .ok g) :
    ∀ s ∈ allTexts g, ∀ b ∈ s, Avail w src b ∨ b ∈ added :=
  fun s hs => all_texts (C67_graph h) s hs

/-- The same for the text that is counted in words. -/
theorem C67_all_text {w : World} {fuel : Nat} {src : Str} {g : Asg} (h : parseText w fuel src = .ok g) :
    ∀ b ∈ g.allText, Avail w src b ∨ b ∈ added :=
  textL_ok _ (C67_graph h).blocks

/-- The same for values and roles in metadata. -/
theorem C67_metadata {w : World} {fuel : Nat} {src : Str} {g : Asg} (h : parseText w fuel src = .ok g) :
    ∀ m ∈ allMeta g,
      (∀ kv ∈ m.attributes, ∀ b ∈ kv.2, Avail w src b ∨ b ∈ added) ∧
      (∀ r ∈ m.roles, (∀ b ∈ r, Avail w src b ∨ b ∈ added) ∨ r = b!"colist" ∨ r = b!"conum") ∧
      (∀ o ∈ m.options, o = b!"header") := by
  intro m hm
  have := all_meta (C67_graph h) m hm
  exact ⟨this.values, this.roles, this.options⟩

/-- Names and values of document attributes have only bytes of the source and of files. -/
theorem C67_attributes {w : World} {fuel : Nat} {src : Str} {g : Asg} (h : parseText w fuel src = .ok g) :
    ∀ l ∈ g.attributes, ∀ kv ∈ l, (∀ b ∈ kv.1, Avail w src b) ∧ (∀ b ∈ kv.2, Avail w src b) := by
  intro l hl kv hkv
  exact ((C67_graph h).attributes l hl kv hkv).2

/-- A document with a section, a span, a link, a list and a role. -/
def mixedSource : Str :=
  b!"== Head\n\nSome *text* with a https://a.b[link] (C)\n\n* one\n* two\n\n[.role]\nlast\n"

example : returns ((parseText emptyWorld 5 mixedSource).map fun g =>
    ((allBlocks g).length, (allInlines g).length, (allMeta g).length, (allTexts g).length))
    (6, 11, 1, 12) = true := by decide +kernel

/-- The added bytes do occur: `&` and `;` in the text for `(C)`, typographic quotation marks. -/
theorem C67_added_needed :
    returns ((parseText emptyWorld 5 b!"(C)\n").map Asg.allText) b!"&#169;" = true ∧
    returns ((parseText emptyWorld 5 b!"\"`x`\"\n").map Asg.allText) b!"“x”" = true := by
  constructor <;> decide +kernel

/-! ## C68: no construct without its markup -/

/-- For every block of a graph some markup of its kind is available. -/
theorem C68_blocks {w : World} {fuel : Nat} {src : Str} {g : Asg} (h : parseText w fuel src = .ok g) :
    ∀ x ∈ allBlocks g, ∃ m ∈ marks x, ∀ b ∈ m, Avail w src b :=
  fun x hx => marks_of (all_block (C67_graph h) x hx)

/-- For every inline of a graph some markup of its kind is available. -/
theorem C68_inlines {w : World} {fuel : Nat} {src : Str} {g : Asg} (h : parseText w fuel src = .ok g) :
    ∀ i ∈ allInlines g, ∃ m ∈ marksI i, ∀ b ∈ m, Avail w src b :=
  fun i hi => marksI_of (all_inline (C67_graph h) i hi)

/-- If there is metadata, some of its markup is available. -/
theorem C68_metadata {w : World} {fuel : Nat} {src : Str} {g : Asg} (h : parseText w fuel src = .ok g) :
    ∀ x ∈ allMeta g, ∃ m ∈ metaMarks, ∀ b ∈ m, Avail w src b :=
  fun x hx => (all_meta (C67_graph h) x hx).marks

/-- If there is a document title, there is an equals sign. -/
theorem C68_title {w : World} {fuel : Nat} {src : Str} {g : Asg} (h : parseText w fuel src = .ok g)
    (hs : g.header.isSome = true) : Avail w src c!"=" := by
  cases hh : g.header with
  | none => rw [hh] at hs; cases hs
  | some x => exact ((C67_graph h).header x hh).1 _ (by decide)

/-- A block that is a paragraph without metadata. -/
def barePara : Block → Bool
  | .leaf .paragraph _ _ _ none _ => true
  | _ => false

/-- An inline that is a text or a link. -/
def textOrLink : Inline → Bool
  | .lit .. => true
  | .ref .link .. => true
  | _ => false

/-- Characters with which markup begins. -/
def markup : Str := b!"*_`+#^~:[<=|'-/."

/-- Looks up the markup of a block. -/
local macro "blockMarks" : tactic => `(tactic|
  (dsimp only [marks, leafMarks, listMarks, itemMarks, breakMarks, parentMarks, admonitionMarks]; decide))

theorem bare_of_marks {av : UInt8 → Prop} (hn : ∀ b ∈ markup, ¬ av b) {x : Block} (h : NodeB av x) :
    barePara x = true := by
  have hm : MetaOk? av (metaOf x) := meta_of h
  have hnone : metaOf x = none := by
    cases hx : metaOf x with
    | none => rfl
    | some m =>
      rw [hx] at hm
      obtain ⟨a, ha, hb⟩ := hm.marks
      simp only [metaMarks, List.mem_cons, List.not_mem_nil, or_false] at ha
      rcases ha with rfl | rfl | rfl
      · exact absurd (hb c!"[" (by decide)) (hn _ (by decide))
      · exact absurd (hb c!"<" (by decide)) (hn _ (by decide))
      · exact absurd (hb c!"=" (by decide)) (hn _ (by decide))
  have hk : ∀ l, Alt av l → (∀ a ∈ l, ∃ b ∈ a, b ∈ markup) → False := by
    rintro l ⟨a, ha, hb⟩ hl
    obtain ⟨b, hba, hbm⟩ := hl a ha
    exact hn b hbm (hb b hba)
  have ha := marks_of h
  cases x with
  | leaf n f d is m l =>
    cases n
    case paragraph =>
      simp only [metaOf] at hnone
      subst hnone; rfl
    all_goals exact (hk _ ha (by blockMarks)).elim
  | list v => cases v <;> exact (hk _ ha (by blockMarks)).elim
  | brk v => cases v <;> exact (hk _ ha (by blockMarks)).elim
  | parent n v =>
    cases n
    case admonition =>
      rcases v with _ | v
      · exact (hk _ ha (by blockMarks)).elim
      · cases v <;> exact (hk _ ha (by blockMarks)).elim
    all_goals exact (hk _ ha (by blockMarks)).elim
  | «section» => exact (hk _ ha (by blockMarks)).elim
  | listItem => exact (hk _ ha (by blockMarks)).elim
  | dlist => exact (hk _ ha (by blockMarks)).elim
  | dlistItem => exact (hk _ ha (by blockMarks)).elim
  | image => exact (hk _ ha (by blockMarks)).elim
  | tableCell => exact (hk _ ha (by blockMarks)).elim

theorem inline_of_marks {av : UInt8 → Prop} (hn : ∀ b ∈ markup, ¬ av b) {i : Inline} (h : NodeI av i) :
    textOrLink i = true := by
  have hk : ∀ l, Alt av l → (∀ a ∈ l, ∃ b ∈ a, b ∈ markup) → False := by
    rintro l ⟨a, ha, hb⟩ hl
    obtain ⟨b, hba, hbm⟩ := hl a ha
    exact hn b hbm (hb b hba)
  have ha := marksI_of h
  cases i with
  | lit => rfl
  | span v => cases v <;> exact (hk _ ha (by dsimp only [marksI, spanMarks, refMarks]; decide)).elim
  | ref v =>
    cases v
    case link => rfl
    all_goals exact (hk _ ha (by dsimp only [marksI, spanMarks, refMarks]; decide)).elim
  | brk => exact (hk _ ha (by dsimp only [marksI, spanMarks, refMarks]; decide)).elim

/-- A source without markup characters, and with none in files, gives nothing but paragraphs of text and links. -/
theorem C68_plain {w : World} {fuel : Nat} {src : Str} {g : Asg} (h : parseText w fuel src = .ok g)
    (hn : ∀ b ∈ markup, ¬ Avail w src b) :
    g.header.isSome = false ∧ (∀ l ∈ g.attributes, l = []) ∧ (∀ x ∈ allBlocks g, barePara x = true) ∧
      ∀ i ∈ allInlines g, textOrLink i = true := by
  refine ⟨?_, ?_, fun x hx => bare_of_marks hn (all_block (C67_graph h) x hx),
    fun i hi => inline_of_marks hn (all_inline (C67_graph h) i hi)⟩
  · cases hs : g.header.isSome with
    | false => rfl
    | true => exact absurd (C68_title h hs) (hn _ (by decide))
  · intro l hl
    rcases l with _ | ⟨kv, l⟩
    · rfl
    · exact absurd (((C67_graph h).attributes _ hl kv (by simp)).1 c!":" (by decide)) (hn _ (by decide))

/-- Sentences, with an empty line. -/
def sentences : Str := b!"One (short) sentence, and more;\nNOTE that!\n\n \"Quoted\" text & so on?\n"

example : (∀ b ∈ markup, ¬ Avail emptyWorld sentences b) ∧
    returns ((parseText emptyWorld 5 sentences).map fun g => ((allBlocks g).length, (allInlines g).length)) (2, 2)
      = true := by
  simp only [avail_empty]
  constructor <;> decide +kernel

/-- Without a vertical bar there are no tables. -/
theorem C68_tables {w : World} {fuel : Nat} {src : Str} {g : Asg} (h : parseText w fuel src = .ok g)
    (hn : ¬ Avail w src c!"|") :
    ∀ x ∈ allBlocks g, (∀ v d bs t m l, x ≠ .parent .table v d bs t m l) ∧ (∀ is m l, x ≠ .tableCell is m l) := by
  intro x hx
  obtain ⟨a, ha, hb⟩ := C68_blocks h x hx
  constructor
  · rintro v d bs t m l rfl
    simp only [marks, parentMarks, List.mem_singleton] at ha
    subst ha
    exact hn (hb _ (by decide))
  · rintro is m l rfl
    simp only [marks, List.mem_singleton] at ha
    subst ha
    exact hn (hb _ (by decide))

/-- Is a block a quotation? -/
def isQuotation : Block → Bool
  | .parent .quote .. => true
  | _ => false

/-- The property as stated is false for quotations: a paragraph directly before the delimiter of an open block or of an
example becomes a quotation if metadata follows, although nothing says that it is one. -/
theorem C68_quotation :
    returns ((parseText emptyWorld 5 b!"a\n--\n[x]\n\n").map fun g => (allBlocks g).any isQuotation) true = true ∧
    returns ((parseText emptyWorld 5 b!"a\n====\n[x]\n\nb\n====\n").map fun g => (allBlocks g).any isQuotation) true
      = true := by
  constructor <;> decide +kernel

/-- Is an inline a link? -/
def isLink : Inline → Bool
  | .ref .link .. => true
  | _ => false

/-- The property as stated is false for links: every word that begins with `http` is one, and what follows up to the end
of the paragraph becomes its text. -/
theorem C68_http :
    returns ((parseText emptyWorld 5 b!"httpd is a server\n").map fun g => (allInlines g).any isLink) true = true ∧
    pageIs b!"httpd is a server\n" (within b!"<p><a href=\"httpd\"> is a server</a></p>") = true := by
  constructor <;> decide +kernel

/-! ## Output from source text -/

/-- Without vertical bars and images in source and files, the Word document is written. -/
theorem C58_source_partial {w : World} {fuel : Nat} {src : Str} {g : Asg} (io : Str → Option Unit)
    (h : parseText w fuel src = .ok g) (hp : ¬ Avail w src c!"|") (hi : ∃ b ∈ b!"image:]", ¬ Avail w src b) :
    ∃ d, Docx.render io g = .ok d := by
  obtain ⟨b, hb, hn⟩ := hi
  exact C58_returns io g (fineL_of hp (fun h => hn (h b hb)) _ (C67_graph h).blocks)

/-- Without vertical bars in source and files, the page is written. -/
theorem C65_source_partial (sees : Bool) {w : World} {fuel : Nat} {src : Str} {g : Asg}
    (h : parseText w fuel src = .ok g) (hp : ¬ Avail w src c!"|") : ∃ s, Html.render sees g = .ok s :=
  (C65_returns_partial sees g).2 (griddedL_of hp _ (C67_graph h).blocks)

/-- Without angle brackets and double quotes in source and files, the tags of a page are nested. -/
theorem C60_source_partial (sees : Bool) {w : World} {fuel : Nat} {src : Str} {g : Asg} (h : parseText w fuel src = .ok g)
    (ht : ¬ Avail w src c!"<") (hq : ¬ Avail w src c!"\"") {s : Str} (hs : Html.render sees g = .ok s) :
    balanced s = true :=
  C60_nested_partial sees g (tidyDoc_mono (fun _ => Html.noTag_balanced) (tidyDoc_of ht hq (C67_graph h))) s hs

/-- Without angle brackets, double quotes, vertical bars and images in source and files, what can be read in a page is
what there is to read in the graph, in order, up to white space. -/
theorem C62_source_partial (sees : Bool) {w : World} {fuel : Nat} {src : Str} {g : Asg} (h : parseText w fuel src = .ok g)
    (ht : ¬ Avail w src c!"<") (hq : ¬ Avail w src c!"\"") (hp : ¬ Avail w src c!"|")
    (hi : ∃ b ∈ b!"image:]", ¬ Avail w src b) {s : Str} (hs : Html.render sees g = .ok s) :
    squash (seen s) = squash (readDoc g) := by
  obtain ⟨b, hb, hn⟩ := hi
  exact C62_text_partial sees g (tidyDoc_mono (fun _ => Html.noTag_balanced) (tidyDoc_of ht hq (C67_graph h)))
    (writtenDoc_of hp (fun h => hn (h b hb)) (C67_graph h)) s hs

/-- Without angle brackets and double quotes in source and files, the given names of sections and images are in the
page. -/
theorem C64_source_partial (sees : Bool) {w : World} {fuel : Nat} {src : Str} {g : Asg} (h : parseText w fuel src = .ok g)
    (ht : ¬ Avail w src c!"<") (hq : ¬ Avail w src c!"\"") {s : Str} (hs : Html.render sees g = .ok s) :
    ∀ x ∈ anchorsL false g.blocks, x ∈ ids s :=
  C64_anchors_partial sees g (tidyDoc_mono (fun _ => Html.noTag_balanced) (tidyDoc_of ht hq (C67_graph h))) s hs

/-- Without angle brackets and double quotes in source and files, elements of a page stand where they may if items
stand in lists in the graph. -/
theorem C66_source_partial (sees : Bool) {w : World} {fuel : Nat} {src : Str} {g : Asg} (h : parseText w fuel src = .ok g)
    (ht : ¬ Avail w src c!"<") (hq : ¬ Avail w src c!"\"") (ha : atHomeL true false .other g.blocks = true) {s : Str}
    (hs : Html.render sees g = .ok s) : wellPlaced true s = true :=
  C66_placed_partial sees g (tidyDoc_of ht hq (C67_graph h)) ha s hs

/-- A source with a section, a list, a description list, an admonition, spans, a link and an attribute meets all these
hypotheses. -/
def richSource : Str :=
  b!"= Title\n\n[id=here]\n== Head\n\nSome *text* with a https://a.b[link]\n\n* one\n* two\n\nterm:: what\n\nNOTE: take care\n"

example : (¬ Avail emptyWorld richSource c!"|" ∧ ¬ Avail emptyWorld richSource c!"<" ∧
    ¬ Avail emptyWorld richSource c!"\"" ∧ ∃ b ∈ b!"image:]", ¬ Avail emptyWorld richSource b) ∧
    pageIs richSource (fun s => ids s = [b!"here"]) = true := by
  simp only [avail_empty]
  refine ⟨⟨?_, ?_, ?_, ?_⟩, ?_⟩ <;> decide +kernel

end Adoc.Props
