import Verif.Props.RichCode
import Verif.Props.Before
import Verif.Proof.RichAbsent
/-!
# C82, C83: files that do not exist
-/
namespace Adoc.Props
open Spec Rich

/-- **C83**, documents of the class: if a file that is included in a listing does not exist, there is no graph but an error that names the
first such file and the line of the directive. -/
theorem C83_missing_partial (w : World) (k : Nat) (d : RichDoc) (ho : d.Ok) (hl : Legible [] d.signs [])
    (hu : ∃ cs, written d.signs = enc cs) (pre post : List Tagged) (c : Tagged) (delim target : Str) (ps qs : List CodePart)
    (src : List Sign) (hd : d.blocks = pre ++ c :: post) (hc : c.blk = .code delim (ps ++ .file target src :: qs))
    (hw : ∀ e ∈ pre, ∀ x ∈ e.blk.targets, There w [] x) (hwp : ∀ x ∈ (Blk.code delim ps).targets, There w [] x)
    (hmi : w.resolve [] target = none) :
    ∃ line, parseText w (k + 2) (written d.signs) = .error (.err (.targetResolution line target))
      ∧ ((∀ s ∈ d.signs, s = Spec.newline ∨ 10 ∉ s.str) → line = 1 + (written (d.beforeFile pre c.tags delim ps)).count 10) :=
  parse_absent w k d ho hl hu pre post c delim target ps qs src hd hc hw hwp hmi

/-- The document of `codeText` in a world without files: the directive is on line 11. -/
theorem C83_missing_sample : parseText emptyWorld 2 codeText = .error (.err (.targetResolution 11 b!"f.rs")) := by
  obtain ⟨line, h1, h2⟩ := C83_missing_partial emptyWorld 0 codeDoc codeSample_ok codeSample_legible (ascii_enc _ codeSample_ascii)
    (codeDoc.blocks.take 1) (codeDoc.blocks.drop 2) _ b!"----" b!"f.rs" [.text [Spec.newline, .text b!"let x = ", .mark .strong b!"*", .text b!"y", .mark .strong b!"*", .text b!"; "], .callout b!"1",
      .text [Spec.newline, .mark .codeCalloutListItem b!"<2> ", .mark .charRef b!"->", .text b!" z "], .callout b!"12",
      .text [Spec.newline]] [.text [Spec.newline, .text b!"end", Spec.newline]] codeFile rfl rfl
    (by
      intro e he x hx
      simp only [codeDoc, List.take_succ_cons, List.take_zero, List.mem_cons, List.not_mem_nil, or_false] at he
      subst he
      simp [Blk.targets] at hx)
    (by simp [Blk.targets]) rfl
  rw [← codeSample_written, h1, h2 (by decide +kernel)]
  have : (written (codeDoc.beforeFile (codeDoc.blocks.take 1) [.list (some .source) [.pos b!"rust"]] b!"----"
    [.text [Spec.newline, .text b!"let x = ", .mark .strong b!"*", .text b!"y", .mark .strong b!"*", .text b!"; "], .callout b!"1",
      .text [Spec.newline, .mark .codeCalloutListItem b!"<2> ", .mark .charRef b!"->", .text b!" z "], .callout b!"12",
      .text [Spec.newline]])).count 10 = 10 := by decide +kernel
  rw [this]

/-- **C82**, documents of the class that are plain where they stand and end with a blank line, followed by an include directive and any text: if
the file does not exist, there is no graph but an error that names the file and the line of the directive. -/
theorem C82_missing_partial (w : World) (k : Nat) (d : RichDoc) (target : Str) (cs : List Char) (ho : d.Ok) (hl : Legible [] d.signs [])
    (hs : Sure [] d.signs) (hn : d.signs.getLast? = some Spec.newline) (hu : ∃ cs, written d.signs = enc cs)
    (hw : ∀ x ∈ d.targets, There w [] x) (hg : ∀ c ∈ d.blocks, c.gap.Ok 2 false) (htu : ∃ cs, target = enc cs)
    (ht1 : c!"[" ∉ target) (ht2 : c!"]" ∉ target) (hmi : w.resolve [] target = none) :
    ∃ line, parseText w (k + 2) (written d.signs ++ (b!"include::" ++ target ++ b!"[]" ++ enc cs))
        = .error (.err (.targetResolution line target))
      ∧ ((∀ s ∈ d.signs, s = Spec.newline ∨ 10 ∉ s.str) → line = 1 + (written d.signs).count 10) := by
  have hw' : written (d.signs ++ [.mark .include (includeLine target)]) ++ enc cs
      = written d.signs ++ (b!"include::" ++ target ++ b!"[]" ++ enc cs) := by
    rw [written_append]
    simp [written, Sign.str, includeLine]
  have hst : ∀ b, target.head? = some b → isCont b = false := by
    obtain ⟨ds, rfl⟩ := htu
    intro b hb
    exact Scanner.starts_enc ds b hb
  rw [← hw']
  refine parse_gone w k d target (enc cs) ho ?_ ?_ hw hg ht1 hst hmi
  · refine legible_append _ _ _ _ (legible_line _ _ _ hl hs hn) ⟨⟨?_, target ++ b!"[", by simp [includeLine], by simp [ht2]⟩, trivial⟩
    refine .inr ?_
    obtain ⟨init, e⟩ := List.getLast?_eq_some_iff.1 hn
    rw [e, written_append]
    simp [written, Sign.str, Spec.newline]
  · obtain ⟨as, e1⟩ := hu
    obtain ⟨bs, e2⟩ := htu
    refine ⟨as ++ ("include::".toList ++ bs ++ "[]".toList ++ cs), ?_⟩
    rw [hw', e1, e2]
    simp only [enc_append, List.append_assoc]
    rfl

/-- A document that meets the hypotheses: that of `beginText`. -/
theorem C82_missing_sample (cs : List Char) :
    parseText emptyWorld 2 (beginText ++ (b!"include::é.adoc[]" ++ enc cs)) = .error (.err (.targetResolution 11 b!"é.adoc")) := by
  have ha : ∀ b ∈ written beginDoc.signs, b.toNat < 128 := by rw [begin_written]; decide +kernel
  obtain ⟨line, h1, h2⟩ := C82_missing_partial emptyWorld 0 beginDoc b!"é.adoc" cs begin_ok
    (Scanner.legible_of_legibleB (ascii_enc _ ha) (by decide +kernel)) begin_sure (by decide +kernel) (ascii_enc _ ha)
    (fun _ h => by cases h) (by decide +kernel) ⟨"é.adoc".toList, by decide⟩ (by decide) (by decide) rfl
  have h3 := h2 (by decide +kernel)
  rw [begin_written] at h1 h3
  rw [show line = 11 by rw [h3]; decide +kernel] at h1
  simpa using h1

end Adoc.Props
