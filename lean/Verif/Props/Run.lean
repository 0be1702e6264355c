import Verif.Proof.Wider
import Verif.Model.Run
import Verif.Props.Cli
import Verif.Props.Returns
import Verif.Spec.Sketch
/-!
# C94: what converts, converts the same with more files and without checks; C95: what a run leaves behind
-/
namespace Adoc.Props
open Parser Cli

/-! ## C94 -/

theorem parse_flag (b : Bool) {x y : M Parser} (h : Same b x y) : (do let p ← y; return p.asg : M Asg) = (do let p ← x; return p.asg) := by
  unfold Same at h; subst h
  cases x <;> rfl

/-- The graph without the check of targets (`asciidocr -x`). -/
def parseUnchecked (w : World) (fuel : Nat) (src : Str) : M Asg := do
  let p ← Parser.parse w fuel (scan src) Parser.newNoTargets
  return p.asg

/-- For every document: without the check of targets the outcome (a graph, an error or a panic) is the same, unless the check
fails. -/
theorem C94_unchecked (w : World) (k : Nat) (src : Str) :
    parseUnchecked w k src = parseText w k src ∨ ∃ line target, parseText w k src = .error (.err (.targetResolution line target)) := by
  have hw : Wider (fun e => ∃ l t, e = .err (.targetResolution l t)) false w w :=
    ⟨fun _ _ => .inl rfl, fun _ => .inl rfl, .inr fun l t => ⟨l, t, rfl⟩⟩
  rcases rt_parse hw (Nat.le_refl k) (.inl rfl) (scan src) Parser.new with h | ⟨e, h, l, t, rfl⟩
  · exact .inl (parse_flag false h)
  · right
    refine ⟨l, t, ?_⟩
    unfold Adoc.parseText
    rw [h]; rfl

/-- For every document: with more files, and with more room for nested inclusions, the outcome is the same, unless a file or the
room was missing. -/
theorem C94_files {w w' : World} (hr : ∀ fs t x, w.resolve fs t = some x → w'.resolve fs t = some x)
    (hd : ∀ path s, w.read path = some s → w'.read path = some s) {k k' : Nat} (hk : k ≤ k') (src : Str) :
    parseText w' k' src = parseText w k src ∨ ∃ e, parseText w k src = .error e
      ∧ (e = .exit ∨ e = .hang ∨ ∃ line target, e = .err (.targetResolution line target)) := by
  have hw : Wider (fun e => e = .exit ∨ e = .hang ∨ ∃ l t, e = .err (.targetResolution l t)) true w w' := by
    refine ⟨fun fs t => ?_, fun path => ?_, .inl rfl⟩
    · cases h : w.resolve fs t with
      | some x => exact .inl (hr _ _ _ h)
      | none => exact .inr ⟨rfl, fun l => .inr (.inr ⟨l, t, rfl⟩)⟩
    · cases h : w.read path with
      | some x => exact .inl (hd _ _ h)
      | none => exact .inr ⟨rfl, .inl rfl⟩
  rcases rt_parse hw hk (.inr (.inr (.inl rfl))) (scan src) Parser.new with h | ⟨e, h, he⟩
  · exact .inl (parse_flag true h)
  · right
    refine ⟨e, ?_, he⟩
    unfold Adoc.parseText
    rw [h]; rfl

/-- What converts, converts to the same with more files. -/
theorem C94_keeps {w w' : World} (hr : ∀ fs t x, w.resolve fs t = some x → w'.resolve fs t = some x)
    (hd : ∀ path s, w.read path = some s → w'.read path = some s) {k k' : Nat} (hk : k ≤ k') {src : Str} {g : Asg}
    (h : parseText w k src = .ok g) : parseText w' k' src = .ok g ∧ parseUnchecked w' k' src = .ok g := by
  have h1 : parseText w' k' src = .ok g := by
    rcases C94_files hr hd hk src with h' | ⟨e, h', _⟩
    · rw [h', h]
    · rw [h] at h'; cases h'
  refine ⟨h1, ?_⟩
  rcases C94_unchecked w' k' src with h' | ⟨l, t, h'⟩
  · rw [h', h1]
  · rw [h1] at h'; cases h'

/-- The room for nested inclusions does not matter, if there is enough: a document has one graph. -/
theorem C94_one_graph {w : World} {k k' : Nat} {src : Str} {g g' : Asg} (h : parseText w k src = .ok g) (h' : parseText w k' src = .ok g') :
    g = g' := by
  have := (C94_keeps (w' := w) (fun _ _ _ h => h) (fun _ _ h => h) (Nat.le_max_left k k') h).1
  rw [(C94_keeps (w' := w) (fun _ _ _ h => h) (fun _ _ h => h) (Nat.le_max_right k k') h').1] at this
  exact (Except.ok.inj this).symm

/-- A missing image: an error with the check, a graph with the image without it. -/
theorem C94_sample :
    (parseText emptyWorld 5 b!"a\n\nimage::b.png[]\n\nc\n").toOption.isNone = true
    ∧ returns ((parseUnchecked emptyWorld 5 b!"a\n\nimage::b.png[]\n\nc\n").map fun g => Spec.sketchBs g.blocks) b!"(a) image b.png (c)" = true := by
  constructor <;> decide +kernel

/-- A world with one file. -/
def bFile : World := ⟨fun _ t => if t = b!"b.adoc" then some t else none, fun p => if p = b!"b.adoc" then some b!"in\n\n" else none⟩

/-- The file does not matter for a document that does not name it, and there is no graph without it for one that does. -/
theorem C94_files_sample :
    parseText bFile 5 b!"a *b* c\n" = parseText emptyWorld 5 b!"a *b* c\n"
    ∧ (parseText emptyWorld 5 b!"a\n\ninclude::b.adoc[]\n\nc\n").toOption.isNone = true
    ∧ returns ((parseText bFile 5 b!"a\n\ninclude::b.adoc[]\n\nc\n").map fun g => Spec.sketchBs g.blocks) b!"(a) (in) (c)" = true := by
  refine ⟨?_, by decide +kernel, by decide +kernel⟩
  have hs : returns ((parseText emptyWorld 5 b!"a *b* c\n").map fun _ => true) true = true := by decide +kernel
  cases hx : parseText emptyWorld 5 b!"a *b* c\n" with
  | error e => rw [hx] at hs; cases hs
  | ok g => exact (C94_keeps (w' := bFile) (fun _ _ _ h => by cases h) (fun _ _ h => by cases h) (Nat.le_refl 5) hx).1

/-! ## C95 -/

/-- What the output is for a graph. -/
def Made (s : System) : Backend → Asg → Content → Prop
  | .htmlbook, g, x => ∃ page, Html.render s.sees g = .ok page ∧ x = .text page
  | .json, g, x => x = .text (jsonText s.ord g)
  | .docx, g, x => ∃ d, Docx.render s.pictures g = .ok d ∧ x = .word d

/-- The source of a run: standard input for `-`, and the named file otherwise. -/
def SourceOf (s : System) (c : Call) (src : Str) : Prop :=
  if c.file = b!"-" then s.stdin = some src else s.input c.file = some src

theorem source_iff (s : System) (c : Call) (src : Str) : readInput s c = .ok src ↔ SourceOf s c src := by
  unfold readInput SourceOf
  split
  · cases s.stdin <;> simp
  · cases s.input c.file <;> simp

/-- A run that succeeds has read and parsed the source, and has put the whole output where it belongs and nothing anywhere else. The
only other thing on standard output is the line with the number of words, which comes first. -/
theorem C95_success (s : System) (c : Call) (h : (run s c).status = .success) :
    ∃ src g x, SourceOf s c src ∧ graphOf s c src = .ok g ∧ Made s c.backend g x
      ∧ ((∃ path, destination c.toArgs = .file path ∧ (run s c).files = [(path, x)] ∧ (run s c).stdout = countLine c g)
        ∨ (∃ text, destination c.toArgs = .stdout ∧ (run s c).files = [] ∧ x = .text text
          ∧ (run s c).stdout = countLine c g ++ text ++ b!"\n")) := by
  unfold run at h ⊢
  cases hr : readInput s c with
  | error e =>
    rw [hr] at h
    unfold readInput at hr
    exfalso
    dsimp only at h
    subst h
    split at hr <;> split at hr <;> cases hr
  | ok src =>
    rw [hr] at h
    dsimp only at h ⊢
    cases hg : graphOf s c src with
    | error e => rw [hg] at h; cases e <;> cases h
    | ok g =>
      rw [hg] at h
      dsimp only at h ⊢
      have text : ∀ t, (renderString s c (countLine c g) t).status = .success → c.backend ≠ .docx → Made s c.backend g (.text t) →
          output s c (countLine c g) g = renderString s c (countLine c g) t →
          ∃ src' g' x, SourceOf s c src' ∧ graphOf s c src' = .ok g' ∧ Made s c.backend g' x
            ∧ ((∃ path, destination c.toArgs = .file path ∧ (output s c (countLine c g) g).files = [(path, x)] ∧ (output s c (countLine c g) g).stdout = countLine c g')
              ∨ (∃ text, destination c.toArgs = .stdout ∧ (output s c (countLine c g) g).files = [] ∧ x = .text text
                ∧ (output s c (countLine c g) g).stdout = countLine c g' ++ text ++ b!"\n")) := by
        intro t ht hb hm ho
        refine ⟨src, g, .text t, (source_iff s c src).1 hr, hg, hm, ?_⟩
        rw [ho]
        unfold renderString at ht ⊢
        have hd : destination c.toArgs = match readOutput c.toArgs with | some p => .file p | none => .stdout := by
          unfold destination
          cases hc : c.backend with
          | docx => exact absurd hc hb
          | htmlbook => rfl
          | json => rfl
        cases hp : readOutput c.toArgs with
        | none => right; rw [hp] at hd; exact ⟨t, hd, rfl, rfl, rfl⟩
        | some path =>
          rw [hp] at hd ht
          dsimp only at ht ⊢
          left
          by_cases hw : s.writable path
          · rw [if_pos hw]; exact ⟨path, hd, rfl, rfl⟩
          · rw [if_neg hw] at ht; cases ht
      unfold output at h
      cases hb : c.backend with
      | htmlbook =>
        rw [hb] at h
        dsimp only at h
        cases hh : Html.render s.sees g with
        | error e => rw [hh] at h; cases h
        | ok page =>
          rw [hh] at h
          rw [hb] at text
          exact text page h (by simp) ⟨page, hh, rfl⟩ (by unfold output; rw [hb]; dsimp only; rw [hh])
      | json =>
        rw [hb] at h text
        exact text _ h (by simp) rfl (by unfold output; rw [hb])
      | docx =>
        rw [hb] at h
        dsimp only at h
        by_cases hx : c.noResolve
        · rw [if_pos hx] at h; cases h
        · rw [if_neg hx] at h
          cases hp : readOutput c.toArgs with
          | none => rw [hp] at h; cases h
          | some path =>
            rw [hp] at h
            dsimp only at h
            by_cases hw : s.writable path
            · rw [if_pos hw] at h
              cases hd : Docx.render s.pictures g with
              | error e => rw [hd] at h; cases h
              | ok d =>
                refine ⟨src, g, .word d, (source_iff s c src).1 hr, hg, ⟨d, hd, rfl⟩, .inl ⟨path, ?_, ?_, ?_⟩⟩
                · unfold destination; rw [hb]; simp [hx, hp]
                all_goals (unfold output; rw [hb]; simp [hx, hp, hw, hd])
            · rw [if_neg hw] at h; cases h

/-- A run that does not succeed writes no file, and prints nothing but the number of words; for Word this holds if the
source cannot be read or parsed, or the file cannot be created.

Missing for Word: where the document cannot be made, an empty file is left (`C95_word_not`). -/
theorem C95_failure_partial (s : System) (c : Call) (h : (run s c).status ≠ .success) (hb : c.backend ≠ .docx) :
    (run s c).files = [] ∧ ((run s c).stdout = [] ∨ ∃ src g, SourceOf s c src ∧ graphOf s c src = .ok g ∧ (run s c).stdout = countLine c g) := by
  unfold run at h ⊢
  cases hr : readInput s c with
  | error e => exact ⟨rfl, .inl rfl⟩
  | ok src =>
    rw [hr] at h
    dsimp only at h ⊢
    cases hg : graphOf s c src with
    | error e => exact ⟨rfl, .inl rfl⟩
    | ok g =>
      rw [hg] at h
      dsimp only at h ⊢
      have hm : (output s c (countLine c g) g).files = [] ∧ (output s c (countLine c g) g).stdout = countLine c g := by
        have text : ∀ t, (renderString s c (countLine c g) t).status ≠ .success →
            (renderString s c (countLine c g) t).files = [] ∧ (renderString s c (countLine c g) t).stdout = countLine c g := by
          intro t ht
          unfold renderString at ht ⊢
          cases hp : readOutput c.toArgs with
          | none => rw [hp] at ht; exact absurd rfl ht
          | some path =>
            rw [hp] at ht
            dsimp only at ht ⊢
            by_cases hw : s.writable path
            · rw [if_pos hw] at ht; exact absurd rfl ht
            · rw [if_neg hw]; exact ⟨rfl, rfl⟩
        unfold output at h ⊢
        cases hc : c.backend with
        | docx => exact absurd hc hb
        | json => rw [hc] at h; exact text _ h
        | htmlbook =>
          rw [hc] at h
          dsimp only at h ⊢
          cases hh : Html.render s.sees g with
          | error e => exact ⟨rfl, rfl⟩
          | ok page => rw [hh] at h; exact text _ h
      exact ⟨hm.1, .inr ⟨src, g, (source_iff s c src).1 hr, hg, hm.2⟩⟩

/-- Only the file that the arguments name is ever written to, also for Word. -/
theorem C95_only_destination (s : System) (c : Call) : ∀ x ∈ (run s c).files, destination c.toArgs = .file x.1 := by
  intro x hx
  unfold run at hx
  split at hx
  · cases hx
  · split at hx
    · cases hx
    · rename_i g hg
      have text : ∀ out t, x ∈ (renderString s c out t).files → readOutput c.toArgs = some x.1 := by
        intro out t h
        unfold renderString at h
        split at h
        · rename_i path hp
          split at h
          · simp only [List.mem_singleton] at h; rw [h]; exact hp
          · cases h
        · cases h
      unfold output at hx
      cases hb : c.backend with
      | htmlbook =>
        rw [hb] at hx
        dsimp only at hx
        split at hx
        · have := text _ _ hx; unfold destination; rw [hb]; simp [this]
        · cases hx
      | json =>
        rw [hb] at hx
        have := text _ _ hx; unfold destination; rw [hb]; simp [this]
      | docx =>
        rw [hb] at hx
        dsimp only at hx
        split at hx
        · cases hx
        · rename_i hn
          split at hx
          · cases hx
          · rename_i path hp
            have : x.1 = path := by
              split at hx
              · split at hx <;> (simp only [List.mem_singleton] at hx; rw [hx])
              · cases hx
            unfold destination; rw [hb]; simp [hn, hp, this]

/-- Counting the words changes nothing but the first line of standard output. -/
theorem C95_count (s : System) (a : Args) :
    (run s ⟨a, true⟩).files = (run s ⟨a, false⟩).files ∧ (run s ⟨a, true⟩).status = (run s ⟨a, false⟩).status
    ∧ ∃ line, (run s ⟨a, true⟩).stdout = line ++ (run s ⟨a, false⟩).stdout
      ∧ (line = [] ∨ ∃ src g, SourceOf s ⟨a, false⟩ src ∧ graphOf s ⟨a, false⟩ src = .ok g
        ∧ line = natToStr g.wordCount ++ b!" words in " ++ a.file ++ b!"\n") := by
  have hi : readInput s ⟨a, true⟩ = readInput s ⟨a, false⟩ := rfl
  have hgr : ∀ src, graphOf s ⟨a, true⟩ src = graphOf s ⟨a, false⟩ src := fun _ => rfl
  unfold run
  rw [hi]
  cases hr : readInput s ⟨a, false⟩ with
  | error e => exact ⟨rfl, rfl, [], rfl, .inl rfl⟩
  | ok src =>
    dsimp only
    rw [hgr]
    cases hg : graphOf s ⟨a, false⟩ src with
    | error e => exact ⟨rfl, rfl, [], rfl, .inl rfl⟩
    | ok g =>
      dsimp only
      have hl : countLine ⟨a, false⟩ g = [] := rfl
      have hl' : countLine ⟨a, true⟩ g = natToStr g.wordCount ++ b!" words in " ++ a.file ++ b!"\n" := rfl
      rw [hl]
      have key : ∀ line, (output s ⟨a, true⟩ line g).files = (output s ⟨a, false⟩ [] g).files
          ∧ (output s ⟨a, true⟩ line g).status = (output s ⟨a, false⟩ [] g).status
          ∧ (output s ⟨a, true⟩ line g).stdout = line ++ (output s ⟨a, false⟩ [] g).stdout := by
        intro line
        have text : ∀ t, (renderString s ⟨a, true⟩ line t).files = (renderString s ⟨a, false⟩ [] t).files
            ∧ (renderString s ⟨a, true⟩ line t).status = (renderString s ⟨a, false⟩ [] t).status
            ∧ (renderString s ⟨a, true⟩ line t).stdout = line ++ (renderString s ⟨a, false⟩ [] t).stdout := by
          intro t
          unfold renderString
          dsimp only
          cases readOutput a with
          | none => simp
          | some p => dsimp only; split <;> simp
        unfold output
        dsimp only
        cases a.backend with
        | htmlbook =>
          dsimp only
          cases Html.render s.sees g with
          | error e => simp
          | ok page => exact text page
        | json => exact text _
        | docx =>
          dsimp only
          split
          · simp
          · cases readOutput a with
            | none => simp
            | some p =>
              dsimp only
              split
              · cases Docx.render s.pictures g <;> simp
              · simp
      obtain ⟨h1, h2, h3⟩ := key (countLine ⟨a, true⟩ g)
      exact ⟨h1, h2, _, h3, .inr ⟨src, g, (source_iff s _ src).1 hr, hg, hl'⟩⟩

/-- A system with one file, `a.adoc`, that can write everywhere. -/
def desk (src : Str) : System where
  world := ⟨fun _ t => some t, fun _ => none⟩
  fuel := 5
  input := fun p => if p = b!"a.adoc" ∨ p = b!"a.html" then some src else none
  stdin := some b!"in\n"
  writable := fun _ => true
  pictures := fun _ => none
  sees := true
  ord := id

/-- What a run leaves behind, without the contents of files. -/
def leaves (e : Effects) : Str × List (Str × Bool) × Status := (e.stdout, e.files.map fun x => (x.1, x.2 = .nothing), e.status)

/-- A run that meets the hypotheses of `C95_success`. -/
theorem C95_sample : leaves (run (desk b!"one *two*\n") ⟨⟨b!"a.adoc", none, .htmlbook, false⟩, true⟩)
    = (b!"2 words in a.adoc\n", [(b!"a.html", false)], .success) := by decide +kernel

/-- A run that meets the hypotheses of `C95_failure_partial`. -/
theorem C95_failure_sample : leaves (run (desk b!"include::x.adoc[]\n") ⟨⟨b!"a.adoc", none, .json, false⟩, true⟩)
    = ([], [], .failure) := by decide +kernel

/-- With Word, an output that was there before is lost when the document cannot be made: the file is empty. -/
theorem C95_word_not : leaves (run (desk b!"image::b.png[]\n") ⟨⟨b!"a.adoc", none, .docx, false⟩, false⟩)
    = ([], [(b!"a.docx", true)], .panic) := by decide +kernel

/-- With the number of words, what is on standard output is not JSON. -/
theorem C95_count_json : ((run (desk []) ⟨⟨b!"-", none, .json, false⟩, true⟩).stdout.take 14 = b!"1 words in -\n{") := by decide +kernel

/-- The input is written over. -/
theorem C95_input_lost : leaves (run (desk b!"one\n") ⟨⟨b!"a.html", none, .htmlbook, false⟩, false⟩)
    = ([], [(b!"a.html", false)], .success) := by decide +kernel

end Adoc.Props
