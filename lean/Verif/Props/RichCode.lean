import Verif.Props.RichBooks
import Verif.Proof.RichClosed
/-!
# C83 and C84: listings with callouts and included files, and callout lists

The listings and callout lists of documents of the class of `Spec/RichDoc`.
-/
namespace Adoc.Props
open Spec Rich

/-- What is to be read in a part of a listing: text as it is written, a number in parentheses for a callout, and for an
include directive what is in the file. -/
def codeShown : CodePart → Str
  | .text ss => written ss
  | .callout n => b!"(" ++ n ++ b!")"
  | .file _ source => written source

/-- The numbers of the callouts in a listing. -/
def calloutNumbers (parts : List CodePart) : List Str :=
  parts.filterMap fun x => match x with
    | .callout n => some n
    | _ => none

theorem leafTextL_append (a b : List Inline) : leafTextL (a ++ b) = leafTextL a ++ leafTextL b := by
  induction a with
  | nil => rfl
  | cons x xs ih => simp [leafTextL, ih]

theorem code_shown (cur : Option Str) (parts : List CodePart) :
    leafTextL (codeInlines cur parts) = cur.getD [] ++ parts.flatMap codeShown := by
  induction parts generalizing cur with
  | nil => cases cur <;> simp [codeInlines, leafTextL, literal, leafText]
  | cons x rest ih =>
    cases x with
    | text ss => simp [codeInlines, ih, codeShown]
    | callout n =>
      rw [codeInlines, leafTextL_append, leafTextL, ih]
      cases cur <;> simp [leafTextL, literal, leafText, conum, codeShown]
    | file t source => rw [codeInlines, leafTextL, ih]; simp [literal, leafText, codeShown]

/-- The markup in a listing. -/
def marked (is : List Inline) : List Inline :=
  is.filter fun x => match x with
    | .lit _ _ _ => false
    | _ => true

theorem code_marked (cur : Option Str) (parts : List CodePart) : marked (codeInlines cur parts) = (calloutNumbers parts).map conum := by
  have hl : ∀ c : Option Str, marked (c.toList.map literal) = [] := by intro c; cases c <;> rfl
  induction parts generalizing cur with
  | nil => exact hl cur
  | cons x rest ih =>
    cases x with
    | text ss => exact ih _
    | callout n =>
      rw [codeInlines, marked, List.filter_append, ← marked, hl]
      have := ih none
      unfold marked at this
      rw [List.filter_cons, this]
      rfl
    | file t source =>
      have := ih none
      unfold marked at this ⊢
      rw [codeInlines, List.filter_cons, this]
      rfl

/-- C83 for documents of the class: a listing is one block with its delimiter and metadata, and what is to be read in it is
the text as it is written between the delimiters, whatever markup it looks like, with what is in the files in place of the
include directives. A callout at the end of a line is the only markup in it.

Missing: documents outside the class; for some of them the claim is false (below). -/
theorem C83_listings_partial (w : World) (k : Nat) (d : RichDoc) (ho : d.Ok) (hl : Legible [] d.signs [])
    (hu : ∃ cs, written d.signs = enc cs) (hw : ∀ x ∈ d.targets, There w [] x) :
    ∃ g, parseText w (k + 2) (written d.signs) = .ok g ∧ (listedL [] g.blocks).length = d.blocks.length
      ∧ ∀ (i : Nat) (tags : List Tag) (delim : Str) (parts : List CodePart) (m : Gap),
        d.blocks[i]? = some ⟨tags, .code delim parts, m⟩ →
        ∃ path is, (listedL [] g.blocks)[i]? = some (path, .leaf .listing .delimited (some delim) is (tagsMeta tags) [])
          ∧ leafTextL is = parts.flatMap codeShown
          ∧ marked is = (calloutNumbers parts).map fun n => .span .strong .constrained [.lit .text (b!"(" ++ n ++ b!")") []]
            (some { roles := [b!"conum"] }) [] true := by
  obtain ⟨g, h1, h2, h3⟩ := C69_sections_partial w k d ho hl hu hw
  exact ⟨g, h1, h2, fun i tags delim parts m hi => ⟨_, _, h3 i _ hi, code_shown none parts, code_marked none parts⟩⟩

/-- C84 for documents of the class: the numbers in a callout list become one ordered list that has exactly these items, in
this order, each with its own text, its inline markup and its number as marker; the list has the role `colist` if it has no
metadata lines before it, and the blocks after it are outside.

Missing: documents outside the class; for some of them the claim is false (below). -/
theorem C84_colists_partial (w : World) (k : Nat) (d : RichDoc) (ho : d.Ok) (hl : Legible [] d.signs [])
    (hu : ∃ cs, written d.signs = enc cs) (hw : ∀ x ∈ d.targets, There w [] x) :
    ∃ g, parseText w (k + 2) (written d.signs) = .ok g ∧ (listedL [] g.blocks).length = d.blocks.length
      ∧ ∀ (i : Nat) (tags : List Tag) (items : List (Str × List Elem)) (m : Gap),
        d.blocks[i]? = some ⟨tags, .colist items, m⟩ →
        ∃ path bs meta', (listedL [] g.blocks)[i]? = some (path, .list .ordered bs meta' [])
          ∧ (tagsMeta tags = none → meta' = some { roles := [b!"colist"] })
          ∧ (∀ x, tagsMeta tags = some x → meta' = some x)
          ∧ bs.length = items.length
          ∧ ∀ (j : Nat) (n : Str) (es : List Elem), items[j]? = some (n, es) →
            bs[j]? = some (.listItem (b!"<" ++ n ++ b!">") (shownL d.ids es) [] none []) := by
  obtain ⟨g, h1, h2, h3⟩ := C69_sections_partial w k d ho hl hu hw
  refine ⟨g, h1, h2, fun i tags items m hi => ⟨_, _, colistMeta (tagsMeta tags), h3 i _ hi, ?_, ?_, by simp, fun j n es hj => ?_⟩⟩
  · intro h; rw [h]; rfl
  · intro x h; rw [h]; rfl
  · rw [List.getElem?_map, hj]; rfl

/-! ### Files that are included in listings, byte by byte -/

/-- Nothing in the text is a symbol that is replaced or a quotation mark. -/
def Unreplaced (content : Str) : Prop :=
  (∀ x ∈ [b!"(C)", b!"(R)", b!"(TM)", b!"->", b!"=>", b!"<-", b!"<=", b!"...", b!"--", b!"'s", b!"\"`", b!"`\"", b!"'`", b!"`'"],
    ¬x <:+: content)
  ∧ ∀ word, (∀ b ∈ word, Lexical.Alnum b) → ¬b!"&" ++ word ++ b!";" <:+: content

/-- Every UTF-8 text in which the constructs are closed, in which there are no six equals signs in a row and nothing is
replaced can be included in a listing. -/
theorem code_file {target content : Str} (ht : CodeName target) (hu : ∃ cs, content = enc cs) (hc : WellClosed content)
    (hlev : ¬b!"======" <:+: content) (hr : Unreplaced content) :
    ∃ source, written source = content ∧ (CodePart.file target source).Ok := by
  obtain ⟨ss, h1, h2, h3⟩ := Scanner.closed_signs [] content [] (by simpa using hu) (by simp [isBoundary])
    (by simpa using hc) (by simpa using hlev) (fun _ => hc.1) (fun h => absurd rfl h)
  refine ⟨ss, h1, ht, h2, by rw [h1]; exact hu, fun s hs => ⟨h3 s hs, ?_⟩⟩
  have key : ∀ (ss : List Sign) (pre : Str), Legible pre ss [] → written ss <:+ content → ∀ s ∈ ss, asWritten s = true := by
    intro ss
    induction ss with
    | nil => intro _ _ _ s hs; cases hs
    | cons x ss ih =>
      intro pre hl hw s hs
      have hx : ∀ y, y <+: written (x :: ss) → y <:+: content := fun y hy => hy.isInfix.trans hw.isInfix
      have hw' : written ss <:+ content := (List.suffix_append x.str (written ss)).trans hw
      rcases List.mem_cons.1 hs with rfl | hs
      · cases s with
        | text l => rfl
        | mark ty l =>
          have hl : Lexical.Lexeme ty pre l (written ss ++ []) := hl.1
          rw [List.append_nil] at hl
          have hpre : l <+: written (.mark ty l :: ss) := ⟨written ss, rfl⟩
          have no : ∀ y ∈ [b!"(C)", b!"(R)", b!"(TM)", b!"->", b!"=>", b!"<-", b!"<=", b!"...", b!"--", b!"'s", b!"\"`", b!"`\"", b!"'`", b!"`'"],
              ¬y <+: l ++ written ss := fun y hy h => hr.1 y hy (hx y h)
          cases ty <;> try rfl
          · exfalso
            rcases hl with hl | ⟨rfl, _⟩ | ⟨rfl, _⟩ | ⟨rfl, r, hr', _⟩ | ⟨v, rfl, hv⟩
            · refine no l ?_ (List.prefix_append ..)
              simp only [List.mem_cons, List.not_mem_nil, or_false] at hl ⊢
              rcases hl with h | h | h | h | h | h | h <;> simp [h]
            · exact no _ (by simp) (List.prefix_append ..)
            · exact no _ (by simp) (List.prefix_append ..)
            · exact no b!"'s" (by simp) ⟨r, by rw [hr']; rfl⟩
            · exact hr.2 v hv (hx _ hpre)
          all_goals
            obtain ⟨rfl, _⟩ := hl
            exact absurd (List.prefix_append ..) (no _ (by simp))
      · exact ih _ hl.2 hw' s hs
  exact key ss [] h2 (by rw [h1]; exact List.suffix_refl _) s hs

/-- The document that consists of a listing with an include directive for a file. -/
def fileDoc (target : Str) (source : List Sign) : RichDoc where
  blocks := [⟨[], .code b!"----" [.text [Spec.newline], .file target source, .text [Spec.newline]], 1⟩]

/-- C83 for a listing that includes a file: what is to be read in the listing is what is in the file, byte for byte, whatever
it looks like, if its constructs are closed and nothing in it is replaced. -/
theorem C83_file_partial (w : World) (k : Nat) (target path content : Str) (ht : CodeName target) (hb : c!"]" ∉ target)
    (hut : ∃ cs, target = enc cs) (hw : w.resolve [] target = some path) (hf : w.read path = some content)
    (hu : ∃ cs, content = enc cs) (hc : WellClosed content) (hlev : ¬b!"======" <:+: content) (hr : Unreplaced content) :
    ∃ g is, parseText w (k + 2) (b!"----\ninclude::" ++ target ++ b!"[]\n----\n") = .ok g
      ∧ listedL [] g.blocks = [([], .leaf .listing .delimited (some b!"----") is none [])]
      ∧ leafTextL is = b!"\n" ++ content ++ b!"\n" ∧ marked is = [] := by
  obtain ⟨source, rfl, hok⟩ := code_file ht hu hc hlev hr
  have hsg : (fileDoc target source).signs = [.mark .sourceBlock b!"----", .mark .newLineChar [10],
      .mark .include (includeLine target), .mark .newLineChar [10], .mark .sourceBlock b!"----", .mark .newLineChar [10]] := rfl
  have hwr : written (fileDoc target source).signs = b!"----\ninclude::" ++ target ++ b!"[]\n----\n" := by
    rw [hsg]
    simp [written, Sign.str, includeLine]
  have ho : (fileDoc target source).Ok := {
    head := by intro h hh; cases hh
    blocks := by
      intro e he
      simp only [fileDoc, List.mem_cons, List.not_mem_nil, or_false] at he
      subst he
      refine ⟨by simp [TagsOk], ⟨by simp, ?_⟩, by simp [TagsFor]⟩
      intro x hx
      simp only [List.mem_cons, List.not_mem_nil, or_false] at hx
      rcases hx with rfl | rfl | rfl
      · exact ⟨by simp, by decide⟩
      · exact hok
      · exact ⟨by simp, by decide⟩
    gaps := by simp [fileDoc, GapsOk, Blk.ending]
    flow := rfl
    ids := List.nodup_nil
    icons := by rintro ⟨e, he, h⟩; simp [fileDoc] at he; subst he; cases h
    signs := by
      intro s hs
      rw [hsg] at hs
      simp only [List.mem_cons, List.not_mem_nil, or_false] at hs
      rcases hs with rfl | rfl | rfl | rfl | rfl | rfl
      all_goals exact ⟨by simp, by simp⟩ }
  have hutf : ∃ cs, written (fileDoc target source).signs = enc cs := by
    rw [hwr]
    obtain ⟨cs, rfl⟩ := hut
    obtain ⟨a, ha⟩ := ascii_enc b!"----\ninclude::" (by decide)
    obtain ⟨b, hb⟩ := ascii_enc b!"[]\n----\n" (by decide)
    exact ⟨a ++ cs ++ b, by rw [enc_append, enc_append, ← ha, ← hb]⟩
  have hleg : Legible [] (fileDoc target source).signs [] := by
    rw [hsg]
    refine ⟨⟨.inl rfl, rfl, rfl⟩, rfl, ⟨.inr rfl, target ++ b!"[", by simp [includeLine], by simp [hb]⟩, rfl, ⟨.inr ?_, rfl, rfl⟩, rfl, trivial⟩
    show (10 :: (includeLine target ++ [10])).getLast? = some 10
    rw [← List.cons_append, List.getLast?_append]
    rfl
  obtain ⟨g, h1, h2, h3⟩ := C23_rich_partial w k (fileDoc target source) ho hleg hutf (by
    intro x hx
    have : x = (target, some (written source)) := by simpa [fileDoc, RichDoc.targets, Blk.targets] using hx
    subst this
    exact ⟨path, hw, fun s hs => by cases hs; exact hf⟩)
  rw [hwr] at h1
  refine ⟨g, codeInlines none [.text [Spec.newline], .file target source, .text [Spec.newline]], h1, h2, ?_, ?_⟩
  · rw [code_shown]
    simp [codeShown, Spec.newline, written, Sign.str]
  · rw [code_marked]
    rfl

/-- A file with all sorts of markup in it. -/
def trickyFile : Str := b!"if a < b && c {\n  x[\"*\"] // NOTE: http://y/z\n}\n== {d}\n____\n* e::\n"

example : ∃ g is, parseText (everyFile trickyFile) 2 b!"----\ninclude::f.rs[]\n----\n" = .ok g
    ∧ listedL [] g.blocks = [([], .leaf .listing .delimited (some b!"----") is none [])]
    ∧ leafTextL is = b!"\n" ++ trickyFile ++ b!"\n" ∧ marked is = [] := by
  refine C83_file_partial (everyFile trickyFile) 0 b!"f.rs" b!"f.rs" trickyFile ?_ (by decide) (ascii_enc _ (by decide)) rfl rfl
    (ascii_enc _ (by decide)) (Scanner.closed_of_safeB (by decide +kernel) (by decide)) (by decide) ⟨by decide, ?_⟩
  · refine ⟨by decide, fun b hb => by cases hb; decide, ?_⟩
    intro e he
    simp only [List.mem_cons, List.not_mem_nil, or_false] at he
    rcases he with rfl | rfl | rfl <;> decide
  · intro word _ h
    have : c!";" ∈ trickyFile := h.subset (by simp)
    revert this
    decide

/-! ### A document of the class -/

/-- A file that is included. -/
def codeFile : List Sign :=
  [.text b!"fn f(a: &b::C<d>) ", .mark .codeCallout b!"<3>", Spec.newline, .text b!"{ \"x\" && ", .mark .strong b!"*", .text b!"c",
   .mark .strong b!"*", .text b!" }", Spec.newline]

/-- The document, block by block. -/
def codeDoc : RichDoc where
  head := some ⟨[.text [b!"T"]], [(b!"icons", b!"font")], 2⟩
  blocks := [
    ⟨[.anchor b!"s"], .head 1 [.text [b!"S"]], 2⟩,
    ⟨[.list (some .source) [.pos b!"rust"]], .code b!"----" [
      .text [Spec.newline, .text b!"let x = ", .mark .strong b!"*", .text b!"y", .mark .strong b!"*", .text b!"; "], .callout b!"1",
      .text [Spec.newline, .mark .codeCalloutListItem b!"<2> ", .mark .charRef b!"->", .text b!" z "], .callout b!"12",
      .text [Spec.newline], .file b!"f.rs" codeFile,
      .text [Spec.newline, .text b!"end", Spec.newline]], 2⟩,
    ⟨[], .colist [(b!"1", [.text [b!"a "], .span .strong [.text [b!"b"]]]), (b!"12", [.text [b!"see "], .xref b!"s"])], 2⟩,
    ⟨[], .head 1 [.text [b!"U"]], 2⟩,
    ⟨[.list none [.named b!"role" b!"r"]], .colist [(b!"7", [.text [b!"c"]])], 2⟩]

/-- How it is written. -/
def codeText : Str := b!"= T
:icons: font

[[s]]
== S

[source,rust]
----
let x = *y*; <1>
<2> -> z <12>
include::f.rs[]
end
----

<1> a *b*
<12> see <<s>>

== U

[role=r]
<7> c

"

/-- A world with the file. -/
def codeWorld : World := ⟨fun _ t => some t, fun p => if p = b!"f.rs" then some (written codeFile) else none⟩

theorem codeSample_written : written codeDoc.signs = codeText := by decide +kernel

theorem codeSample_ascii : ∀ b ∈ written codeDoc.signs, b.toNat < 128 := by
  rw [codeSample_written]; decide +kernel

theorem codeSample_legible : Legible [] codeDoc.signs [] :=
  Scanner.legible_of_legibleB (ascii_enc _ codeSample_ascii) (by decide +kernel)

theorem codeFile_ok : (CodePart.file b!"f.rs" codeFile).Ok := by
  have ha : ∀ b ∈ written codeFile, b.toNat < 128 := by decide
  refine ⟨⟨by decide, fun b hb => by cases hb; decide, ?_⟩, Scanner.legible_of_legibleB (ascii_enc _ ha) (by decide +kernel), ascii_enc _ ha, ?_⟩
  · intro e he
    simp only [List.mem_cons, List.not_mem_nil, or_false] at he
    rcases he with rfl | rfl | rfl <;> decide
  · intro s hs
    exact ⟨signsOk_of codeFile (by decide) s hs, (show ∀ s ∈ codeFile, asWritten s = true by decide) s hs⟩

theorem codeSample_ok : codeDoc.Ok where
  head := by
    intro h hh
    cases hh
    refine ⟨⟨?_, ?_, by decide⟩, ?_, by decide⟩
    · simp [ProseOk, ElemsOk, TextLines, EndsLine]
      decide
    · unfold OneLine; decide
    · intro kv hkv
      simp only [List.mem_cons, List.not_mem_nil, or_false] at hkv
      subst hkv
      exact ⟨by decide, by decide⟩
  blocks := by
    intro e he
    simp only [codeDoc, List.mem_cons, List.not_mem_nil, or_false] at he
    rcases he with rfl | rfl | rfl | rfl | rfl
    · refine ⟨?_, ?_, ?_⟩ <;>
        simp [TagsOk, Blk.Ok, ProseOk, ElemsOk, TextLines, EndsLine, TagsFor, OneLine, Elem.signs, textSigns, lineSigns,
          Spec.newline] <;> decide
    · refine ⟨?_, ⟨by simp, ?_⟩, ?_⟩
      · simp [TagsOk, ArgsOk, Unseparated, FirstOk]
        decide
      · intro x hx
        simp only [List.mem_cons, List.not_mem_nil, or_false] at hx
        rcases hx with rfl | rfl | rfl | rfl | rfl | rfl | rfl
        · exact ⟨by simp, by decide⟩
        · show Lexical.Digits _; unfold Lexical.Digits; decide
        · exact ⟨by simp, by decide⟩
        · show Lexical.Digits _; unfold Lexical.Digits; decide
        · exact ⟨by simp, by decide⟩
        · exact codeFile_ok
        · exact ⟨by simp, by decide⟩
      · simp [TagsFor]
    · refine ⟨?_, ⟨by simp, ?_⟩, ?_⟩
      · simp [TagsOk]
      · intro x hx
        simp only [List.mem_cons, List.not_mem_nil, or_false] at hx
        rcases hx with rfl | rfl
        all_goals refine ⟨by unfold Lexical.Digits; decide, ?_⟩
        all_goals simp [ProseOk, ElemsOk, PartsOk, TextLines, EndsLine]
        all_goals decide
      · trivial
    · refine ⟨?_, ?_, ?_⟩ <;>
        simp [TagsOk, Blk.Ok, ProseOk, ElemsOk, TextLines, EndsLine, TagsFor, OneLine, Elem.signs, textSigns, lineSigns,
          Spec.newline] <;> decide
    · refine ⟨?_, ⟨by simp, ?_⟩, ?_⟩
      · simp [TagsOk, ArgsOk, Unseparated, FirstOk]
        decide
      · intro x hx
        simp only [List.mem_cons, List.not_mem_nil, or_false] at hx
        subst hx
        refine ⟨by unfold Lexical.Digits; decide, ?_⟩
        simp [ProseOk, ElemsOk, TextLines, EndsLine]
        decide
      · trivial
  gaps := by simp [codeDoc, GapsOk, Blk.ending]
  flow := by decide
  ids := by decide
  icons := by
    intro _ h hh
    cases hh
    decide
  signs := signsOk_of _ (by decide +kernel)

theorem codeSample_there : ∀ x ∈ codeDoc.targets, There codeWorld [] x := by
  intro x hx
  have : x = (b!"f.rs", some (written codeFile)) := by simpa [codeDoc, RichDoc.targets, Blk.targets] using hx
  subst this
  exact ⟨b!"f.rs", rfl, fun s hs => by cases hs; rfl⟩

/-- The graph of the document: the callouts are numbers, the text of the file is as it is in the file. -/
example : ∃ g, parseText codeWorld 2 codeText = .ok g
    ∧ (listedL [] g.blocks).map (·.2) =
      [.section [literal b!"S"] (some { attributes := [(b!"id", b!"s")] }) 1 [] [],
       .leaf .listing .delimited (some b!"----")
         [literal b!"\nlet x = *y*; ", conum b!"1", literal b!"\n<2> -> z ", conum b!"12",
          literal b!"\nfn f(a: &b::C<d>) <3>\n{ \"x\" && *c* }\n", literal b!"\nend\n"]
         (some { declared := some .source, attributes := [(b!"language", b!"rust")], options := [] }) [],
       .list .ordered [
          .listItem b!"<1>" [literal b!"a ", .span .strong .constrained [literal b!"b"] none [] false] [] none [],
          .listItem b!"<12>" [literal b!"see ", .ref .xref b!"s" [literal b!"S"] none []] [] none []]
         (some { roles := [b!"colist"] }) [],
       .section [literal b!"U"] none 1 [] [],
       .list .ordered [.listItem b!"<7>" [literal b!"c"] [] none []] (some { roles := [b!"r"] }) []] := by
  obtain ⟨g, h1, h2, _⟩ := C23_rich_partial codeWorld 0 codeDoc codeSample_ok codeSample_legible (ascii_enc _ codeSample_ascii)
    codeSample_there
  exact ⟨g, by rw [← codeSample_written]; exact h1, by rw [h2]; rfl⟩

/-! ### Where the claims are false -/

/-- In a file that is included in a listing, an arrow becomes a character reference, which is then shown as such. -/
theorem C83_arrow :
    returns ((parseText (everyFile b!"x -> y\n") 5 b!"----\ninclude::b.rs[]\n----\n").map fun g => sketchBs g.blocks)
      b!"leaf(\nx &#8594; y\n|\n)" = true := by
  decide +kernel

/-- Tag lines in a file that is included are shown, partly and without their newlines. -/
theorem C83_tag_lines :
    returns ((parseText (everyFile b!"// tag::x[]\na\n// end::x[]\nb") 5 b!"----\ninclude::b.rs[]\n----\n").map
      fun g => sketchBs g.blocks) b!"leaf(\n// tag::x[]a\nend::x[]b|\n)" = true := by
  decide +kernel

/-- With icons, a callout makes the program panic: this is not implemented. -/
theorem C83_icons : panics (parseText emptyWorld 5 b!"= T\n:icons: true\n\n----\na <1>\n----\n") .todo = true := by
  decide +kernel

/-- Of two callouts on a line only the last is a callout. -/
theorem C83_two_callouts :
    returns ((parseText emptyWorld 5 b!"----\na <1> <2>\n----\n").map fun g => sketchBs g.blocks)
      b!"leaf(\na <1> |strong!((2))|\n)" = true := by
  decide +kernel

/-- In a literal block there are no callouts and no included files. -/
theorem C83_literal :
    returns ((parseText (everyFile b!"x\n") 5 b!"....\na <1>\ninclude::b.rs[]\n....\n").map fun g => sketchBs g.blocks)
      b!"leaf(\na <1>\ninclude::b.rs[]\n)" = true := by
  decide +kernel

/-- A callout in a paragraph is also a number. -/
theorem C83_paragraph :
    returns ((parseText emptyWorld 5 b!"a <1>\n").map fun g => sketchBs g.blocks) b!"(a |strong!((1)))" = true := by
  decide +kernel

/-- A callout list after an ordered list, without a blank line, goes on with it. -/
theorem C84_after_list :
    returns ((parseText emptyWorld 5 b!". b\n<1> a\n").map fun g => sketchBs g.blocks) b!"list[item(b)[] item(a)[]]" = true := by
  decide +kernel

/-- The line of a paragraph before a callout list becomes part of its first item. -/
theorem C84_after_line :
    returns ((parseText emptyWorld 5 b!"x\n<1> b\n").map fun g => sketchBs g.blocks) b!"list[item(xb)[]]" = true := by
  decide +kernel

/-- A blank line between the items makes two lists of them, and the text of the second is put below its item. -/
theorem C84_blank_line :
    returns ((parseText emptyWorld 5 b!"<1> x\n\n<2> y\n").map fun g => sketchBs g.blocks)
      b!"list[item(x)[]] list[item()[(y)]]" = true := by
  decide +kernel

/-- A list in an item takes the text of the item. -/
theorem C84_list :
    returns ((parseText emptyWorld 5 b!"<1> b\n* a\n").map fun g => sketchBs g.blocks) b!"list[item()[list[item(ba)[]]]]" = true := by
  decide +kernel

end Adoc.Props
