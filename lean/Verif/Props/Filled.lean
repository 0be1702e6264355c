import Verif.Proof.Filled
import Verif.Props.Rich
/-!
# C93: references and typographic quotes say what they stand for

A text with references to attributes and with typographic quotes says the same as the text with the values and the quotes
in their places. The claim for all documents (the graph of the text with references is that of the text without them, up to
locations) is false of the code: in the texts of links and in verses references stay as they are written
(`C93_link_not`, `C93_verse_not`), and in the title of the document they end the header (`C93_title_not`).
-/
namespace Adoc.Props
open Spec Rich Scanner Filled

/-- C93 for documents of the class of C23: if the body is written with references to the attributes of the header and with
typographic quotes in places of texts, the graph is that of the document in which the values and the quotes stand.

Missing: documents outside the class, with tables or verses, and with references in the texts of links and in the title of the
document, where the claim is false (below). -/
theorem C93_filled_partial (w : World) (k : Nat) (d : RichDoc) (ho : d.Ok) (body : List Sign)
    (hf : Spec.Filled ((d.head.map Head.defs).getD []) .text body (d.blocks.flatMap Tagged.signs)) (hs : ∀ s ∈ body, SignOk s)
    (hl : Legible [] (d.front ++ body) []) (hu : ∃ cs, written (d.front ++ body) = enc cs)
    (hw : ∀ x ∈ d.targets, There w [] x) :
    ∃ g, parseText w (k + 2) (written (d.front ++ body)) = .ok g
      ∧ listedL [] g.blocks = contents d.ids [] d.blocks
      ∧ g.header.map (fun h => bareL h.title) = d.head.map (fun h => shownL [] h.title)
      ∧ g.attributes = d.head.map Head.defs :=
  parse_filled w k d ho body hf hs hl hu hw

/-! ### A document of the class -/

/-- What a sign is read as, to be evaluated. -/
def readAs (env : SMap Str) : Sign → Option Str
  | .text l => if l = [] then none else some l
  | .mark ty l =>
    match quoteSigns.find? (fun q => q.1 == ty && q.2.1 == l) with
    | some q => some q.2.2
    | none =>
      if ty = .attributeReference ∧ l = b!"{" ++ (l.drop 1).dropLast ++ b!"}" then
        match env.get? (l.drop 1).dropLast with
        | some v => if v = [] then none else some v
        | none => some l
      else none

theorem readAs_spec {env : SMap Str} {s : Sign} {v : Str} (h : readAs env s = some v) : ReadAs env s v := by
  cases s with
  | text l =>
    simp only [readAs] at h
    split at h
    · cases h
    · rename_i hl; cases h; exact .text _ hl
  | mark ty l =>
    simp only [readAs] at h
    split at h
    · rename_i q hq
      cases h
      have h1 := List.find?_some hq
      simp only [Bool.and_eq_true, beq_iff_eq] at h1
      have h2 := List.mem_of_find?_eq_some hq
      obtain ⟨a, b, c⟩ := q
      simp only at h1
      obtain ⟨rfl, rfl⟩ := h1
      exact .quote _ _ _ h2
    · split at h
      · rename_i hc
        obtain ⟨rfl, hl⟩ := hc
        split at h
        · rename_i v' hv
          split at h
          · cases h
          · rename_i hne; cases h
            rw [hl]; exact .value _ _ hv hne
        · rename_i hv; cases h
          have := ReadAs.unknown (env := env) _ hv
          rw [← hl] at this
          exact this
      · cases h

/-- Take the signs that are read as the text. -/
def takeRead (env : SMap Str) : List Sign → Str → Option (List Sign)
  | a, [] => some a
  | [], _ :: _ => none
  | s :: a, v => match readAs env s with
    | some u => if u.isPrefixOf v then takeRead env a (v.drop u.length) else none
    | none => none

theorem takeRead_spec {env : SMap Str} : ∀ {a : List Sign} {v : Str} {r : List Sign}, takeRead env a v = some r →
    ∃ cs, a = cs ++ r ∧ ReadsAs env cs v
  | a, [], r, h => by
    cases a <;> (simp only [takeRead, Option.some.injEq] at h; subst h; exact ⟨[], rfl, .nil⟩)
  | [], _ :: _, r, h => by simp [takeRead] at h
  | s :: a, c :: v, r, h => by
    simp only [takeRead] at h
    split at h
    · rename_i u hu
      split at h
      · rename_i hp
        obtain ⟨cs, rfl, h2⟩ := takeRead_spec h
        refine ⟨s :: cs, rfl, ?_⟩
        have := ReadsAs.cons s cs u _ (readAs_spec hu) h2
        obtain ⟨t, ht⟩ := List.isPrefixOf_iff_prefix.1 hp
        rw [← ht, List.drop_left] at this
        rw [← ht]; exact this
      · cases h
    · cases h

instance : ∀ (pl : Place) (ty : TokenType) (l : Str), Decidable (pl.allows ty l)
  | .verbatim _, ty, _ => inferInstanceAs (Decidable (ty ≠ .include))
  | .text, ty, l => by
    unfold Place.allows
    exact @instDecidableAnd _ _ _ (@instDecidableAnd _ _ (inferInstanceAs (Decidable (_ → ¬_))) (inferInstanceAs (Decidable (_ → _))))
  | .link, ty, l => by
    unfold Place.allows
    exact @instDecidableAnd _ _ _ (@instDecidableAnd _ _ (inferInstanceAs (Decidable (_ → ¬_))) (inferInstanceAs (Decidable (_ → _))))

/-- `Filled`, to be evaluated. -/
def filledB (env : SMap Str) : Place → List Sign → List Sign → Bool
  | _, a, [] => a.isEmpty
  | pl, .mark ty l :: a, .mark ty' l' :: b => ty == ty' && l == l' && decide (pl.allows ty l) && filledB env (pl.next ty) a b
  | .text, a, .text v :: b => v ≠ [] && match takeRead env a v with
    | some r => filledB env .text r b
    | none => false
  | pl, .text l :: a, .text l' :: b => l == l' && filledB env pl a b
  | _, _, _ => false

theorem filled_of {env : SMap Str} : ∀ {b : List Sign} {pl : Place} {a : List Sign}, filledB env pl a b = true → Spec.Filled env pl a b
  | [], pl, a, h => by
    have : a = [] := by cases pl <;> simpa [filledB] using h
    subst this; exact .nil _
  | .mark ty' l' :: b, pl, [], h => by cases pl <;> simp [filledB] at h
  | .mark ty' l' :: b, pl, .text _ :: a, h => by cases pl <;> simp [filledB] at h
  | .mark ty' l' :: b, pl, .mark ty l :: a, h => by
    have h : (ty == ty' && l == l' && decide (pl.allows ty l) && filledB env (pl.next ty) a b) = true := by
      cases pl <;> simpa only [filledB] using h
    simp only [Bool.and_eq_true, beq_iff_eq, decide_eq_true_eq] at h
    obtain ⟨⟨⟨rfl, rfl⟩, h1⟩, h2⟩ := h
    exact .mark _ _ _ _ _ h1 (filled_of h2)
  | .text v :: b, .text, a, h => by
    simp only [filledB, Bool.and_eq_true, decide_eq_true_eq] at h
    obtain ⟨hv, h⟩ := h
    split at h
    · rename_i r hr
      obtain ⟨cs, rfl, h2⟩ := takeRead_spec hr
      exact .fill _ _ _ _ h2 hv (filled_of h)
    · cases h
  | .text v :: b, .link, a, h => by
    cases a with
    | nil => simp [filledB] at h
    | cons s a =>
      cases s with
      | mark => simp [filledB] at h
      | text l =>
        simp only [filledB, Bool.and_eq_true, beq_iff_eq] at h
        obtain ⟨rfl, h⟩ := h
        exact .text _ _ _ _ (filled_of h)
  | .text v :: b, .verbatim d, a, h => by
    cases a with
    | nil => simp [filledB] at h
    | cons s a =>
      cases s with
      | mark => simp [filledB] at h
      | text l =>
        simp only [filledB, Bool.and_eq_true, beq_iff_eq] at h
        obtain ⟨rfl, h⟩ := h
        exact .text _ _ _ _ (filled_of h)

/-- The document with the values and the quotes in their places. -/
def filledDoc : RichDoc where
  head := some ⟨[.text [b!"Doc"]], [(b!"name", b!"Ada"), (b!"city", b!"Old Town")], 2⟩
  blocks := [
    ⟨[], .para [.text [b!"“Ada” lives in "], .span .strong [.text [b!"Old Town"]], .text [b!",", b!"not in {where}."]], 2⟩,
    ⟨[], .head 1 [.text [b!"About Ada"]], 2⟩,
    ⟨[], .list .unordered [[.text [b!"Ada here"]], [.text [b!"of Ada "], .span .emphasis [.text [b!"and "], .span .strong [b!"Ada"]]]], 2⟩,
    ⟨[.list (some .source) []],
      .verb .listing b!"----" [Spec.newline, .mark .attributeReference b!"{name}", .text b!" in a listing", Spec.newline], 2⟩,
    ⟨[], .note .note [.text [b!"‘Old Town’ it is"]], 1⟩]

/-- The body as it is written. -/
def filledBody : List Sign := [
  .mark .openDoubleQuote b!"\"`", .mark .attributeReference b!"{name}", .mark .closeDoubleQuote b!"`\"", .text b!" lives in ",
  .mark .strong b!"*", .mark .attributeReference b!"{city}", .mark .strong b!"*", .text b!",", Spec.newline,
  .text b!"not in ", .mark .attributeReference b!"{where}", .text b!".", Spec.newline, Spec.newline,
  .mark .heading2 b!"== ", .text b!"About ", .mark .attributeReference b!"{name}", Spec.newline, Spec.newline,
  .mark .unorderedListItem b!"* ", .mark .attributeReference b!"{name}", .text b!" here", Spec.newline,
  .mark .unorderedListItem b!"* ", .text b!"of ", .mark .attributeReference b!"{name}", .text b!" ",
  .mark .emphasis b!"_", .text b!"and ", .mark .strong b!"*", .mark .attributeReference b!"{name}", .mark .strong b!"*", .mark .emphasis b!"_", Spec.newline, Spec.newline,
  .mark .elementAttributes b!"[source]", Spec.newline,
  .mark .sourceBlock b!"----", Spec.newline, .mark .attributeReference b!"{name}", .text b!" in a listing", Spec.newline, .mark .sourceBlock b!"----",
  Spec.newline, Spec.newline,
  .mark .notePara b!"NOTE: ", .mark .openSingleQuote b!"'`", .mark .attributeReference b!"{city}", .mark .closeSingleQuote b!"`'", .text b!" it is", Spec.newline]

/-- How it is written. -/
def filledText : Str := b!"= Doc
:name: Ada
:city: Old Town

\"`{name}`\" lives in *{city}*,
not in {where}.

== About {name}

* {name} here
* of {name} _and *{name}*_

[source]
----
{name} in a listing
----

NOTE: '`{city}`' it is
"

theorem filledSample_written : written (filledDoc.front ++ filledBody) = filledText := by decide +kernel

set_option maxRecDepth 20000 in
theorem filledSample_utf8 : ∃ cs, written (filledDoc.front ++ filledBody) = enc cs := by
  refine ⟨(String.fromUTF8? ⟨filledText.toArray⟩).get!.toList, ?_⟩
  rw [filledSample_written]
  decide +kernel

theorem fillSigns_of {ss : List Sign} (h : ∀ s ∈ ss, (match s with
      | .text _ => true
      | .mark ty l => ty ≠ .text && l.all (fun b => b.toNat < 128)) = true) : ∀ s ∈ ss, SignOk s := by
  intro s hs
  have := h s hs
  cases s with
  | text => trivial
  | mark ty l =>
    simp only [Bool.and_eq_true, decide_eq_true_eq, List.all_eq_true] at this
    exact ⟨this.1, fun _ b hb => this.2 b hb⟩

theorem filledSample_ok : filledDoc.Ok where
  head := by
    intro h hh
    cases hh
    refine ⟨⟨?_, ?_, by decide⟩, ?_, by decide⟩
    · simp [ProseOk, ElemsOk, TextLines, EndsLine]
      all_goals decide
    · unfold OneLine; decide
    · intro kv hkv
      simp only [List.mem_cons, List.not_mem_nil, or_false] at hkv
      rcases hkv with rfl | rfl <;> exact ⟨by decide, by decide⟩
  blocks := by
    intro e he
    simp only [filledDoc, List.mem_cons, List.not_mem_nil, or_false] at he
    rcases he with rfl | rfl | rfl | rfl | rfl
    all_goals refine ⟨?_, ?_, ?_⟩
    all_goals simp [TagsOk, ArgsOk, Blk.Ok, Piece.Ok, ProseOk, ElemsOk, PartsOk, TextLines, EndsLine, OneLine,
      inVerb, joinB, Elem.signs, textSigns, lineSigns, Spec.newline, TagsFor]
    all_goals decide
  gaps := by simp [filledDoc, GapsOk, Blk.ending]
  flow := by decide
  ids := by decide
  icons := Scanner.no_callouts (by decide)
  signs := fillSigns_of (by decide +kernel)

/-- The hypotheses of `C93_filled_partial` are met: references and quotes in a paragraph, a title, items, spans and an admonition. -/
theorem C93_sample : ∃ g, parseText emptyWorld 2 filledText = .ok g
    ∧ listedL [] g.blocks = contents filledDoc.ids [] filledDoc.blocks := by
  obtain ⟨g, h1, h2, _⟩ := C93_filled_partial emptyWorld 0 filledDoc filledSample_ok filledBody (filled_of (by decide +kernel))
    (fillSigns_of (by decide +kernel)) (Scanner.legible_of_legibleB filledSample_utf8 (by decide +kernel)) filledSample_utf8
    (fun _ h => by cases h)
  exact ⟨g, by rw [← filledSample_written]; exact h1, h2⟩

/-- What the first block of the graph says: the values and the quotes. -/
example : ((contents filledDoc.ids [] filledDoc.blocks).map fun x => sketchB x.2).head? =
    some (b!"(“Ada” lives in |strong(Old Town)|,\nnot in {where}.)") := by decide +kernel

/-! ### Where the claim is false -/

/-- In the text of a link a reference stays as it is written. -/
theorem C93_link_not : returns ((parseText emptyWorld 5 b!":x: value\n\nhttps://a.b[{x}]\n").map fun g => sketchBs g.blocks)
    b!"(link https://a.b({x}))" = true := by decide +kernel

/-- In a verse too. -/
theorem C93_verse_not : returns ((parseText emptyWorld 5 b!":x: value\n\n[verse]\n____\na {x} b\n____\n").map fun g => sketchBs g.blocks)
    b!"leaf(a {x} b)" = true := by decide +kernel

/-- In the title of a document a reference ends the title, and is the first paragraph. -/
theorem C93_title_not : returns ((parseText emptyWorld 5 b!"= a {x}\n:x: value\n\nb\n").map fun g => (g.header.map (fun h => h.title.length), sketchBs g.blocks))
    (some 1, b!"({x}) (b)") = true := by decide +kernel

/-- Where a value is empty, there is a text without characters in the graph. -/
theorem C93_empty_value : returns ((parseText emptyWorld 5 b!":x:\n\n{x}\n").map fun g => (g.blocks.map fun b => b.inlines.length, g.allText))
    ([1], []) = true := by decide +kernel

/-! ### Quotes in verses -/

/-- **C93** in verses: what is not inline markup is added to the text as it reads, so quotation marks are typographic
there. -/
theorem C93_verse (w : World) (k : Nat) (p : Parser) (t : Token) (ho : p.openText = some .quoteVerseBlock) (hh : p.header = none)
    (ht : t.isInline = false) (hq : t.ty ≠ .quoteVerseBlock) (hd : p.dangling = none) (v : Str) (l : List Location) (rest : List Inline)
    (hi : p.inlines = .lit .text v l :: rest) :
    ∃ l', Parser.tokenInto w (k + 1) t p = .ok { p with inlines := .lit .text (v ++ t.text) l' :: rest } := by
  have hv : p.verbatim t = some false := by
    unfold Parser.verbatim
    rw [ho]
    simp [hq, ht]
  refine ⟨reconcile l t.locations, ?_⟩
  simp only [Parser.tokenInto, Parser.step, hh, Option.isSome_none, Bool.false_and, Bool.false_eq_true, if_false, bind,
    Except.bind]
  show (match p.verbatim t with
    | some pass => p.parseText t pass
    | none => _) = _
  rw [hv]
  simp [Parser.parseText, hd, Parser.addText, hi, hh, Inline.litAdd]

/-- A verse with quotation marks and a line that looks like an item of a list. -/
example : returns ((parseText emptyWorld 5 b!"[verse]\n____\na \"`b`\"\n* c\n____\n").map fun g => sketchBs g.blocks)
    b!"leaf(a “b”\n* c)" = true := by decide +kernel

/-- A verse ends with its first part: what comes after a blank line is a paragraph. -/
theorem C71_verse_blank : returns ((parseText emptyWorld 5 b!"[verse]\n____\na\n\nb\n____\n").map fun g => sketchBs g.blocks)
    b!"leaf(a) (b)" = true := by decide +kernel

end Adoc.Props
