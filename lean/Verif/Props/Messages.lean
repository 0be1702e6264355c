import Verif.Model.Message
import Verif.Proof.Strings
import Verif.Props.Blame
import Verif.Props.Run
import Verif.Spec.JsonRead
/-!
# C100: what a failed run says
-/
namespace Adoc.Props
open Spec Blame Cli

/-! ## Messages can be told apart -/

theorem digits_apart {a b : Str} {x y : UInt8} {r r' : Str} (ha : ∀ d ∈ a, isDigit d = true) (hb : ∀ d ∈ b, isDigit d = true)
    (hx : isDigit x = false) (hy : isDigit y = false) (h : a ++ x :: r = b ++ y :: r') : a = b ∧ x :: r = y :: r' := by
  induction a generalizing b with
  | nil =>
    cases b with
    | nil => exact ⟨rfl, h⟩
    | cons d b =>
      simp only [List.nil_append, List.cons_append, List.cons.injEq] at h
      have := hb d (by simp)
      rw [← h.1, hx] at this
      cases this
  | cons d a ih =>
    cases b with
    | nil =>
      simp only [List.nil_append, List.cons_append, List.cons.injEq] at h
      have := ha d (by simp)
      rw [h.1, hy] at this
      cases this
    | cons d' b =>
      simp only [List.cons_append, List.cons.injEq] at h
      obtain ⟨h1, h2⟩ := ih (fun d hd => ha d (by simp [hd])) (fun d hd => hb d (by simp [hd])) h.2
      exact ⟨by rw [h.1, h1], h2⟩

theorem number_apart {n m : Nat} {r r' : Str} (h : natToStr n ++ c!":" :: r = natToStr m ++ c!":" :: r') : n = m ∧ r = r' := by
  obtain ⟨h1, h2⟩ := digits_apart (natToStr_digits n) (natToStr_digits m) (by decide) (by decide) h
  exact ⟨natToStr_inj h1, (List.cons.inj h2).2⟩

/-- The bytes that are escaped. -/
def escaped : List UInt8 := (List.range 32).map UInt8.ofNat ++ [34, 92, 127]

theorem debugByte_cases : ∀ a : UInt8, a ∈ escaped ∧ (debugByte a).head? = some 92 ∨ debugByte a = [a] ∧ a ≠ 92 := by
  have h : ∀ a : Fin 256, UInt8.ofNat a.1 ∈ escaped ∧ (debugByte (UInt8.ofNat a.1)).head? = some 92
      ∨ debugByte (UInt8.ofNat a.1) = [UInt8.ofNat a.1] ∧ UInt8.ofNat a.1 ≠ 92 := by
    decide +kernel
  intro a
  simpa using h ⟨a.toNat, a.toNat_lt⟩

theorem debugByte_prefix (a b : UInt8) (hp : debugByte a <+: debugByte b) : a = b := by
  have h : ∀ a ∈ escaped, ∀ b ∈ escaped, (debugByte a).isPrefixOf (debugByte b) = true → a = b := by
    decide +kernel
  rcases debugByte_cases a with ⟨ha, ha'⟩ | ⟨ha, ha'⟩ <;> rcases debugByte_cases b with ⟨hb, hb'⟩ | ⟨hb, hb'⟩
  · exact h a ha b hb (List.isPrefixOf_iff_prefix.2 hp)
  · obtain ⟨r, hr⟩ := hp
    cases hd : debugByte a with
    | nil => rw [hd] at ha'; cases ha'
    | cons x y =>
      rw [hd] at ha' hr
      rw [hb] at hr
      cases ha'
      exact absurd (List.cons.inj hr).1.symm hb'
  · obtain ⟨r, hr⟩ := hp
    rw [ha] at hr
    rw [← hr] at hb'
    exact absurd (Option.some.inj hb') ha'
  · obtain ⟨r, hr⟩ := hp
    rw [ha, hb] at hr
    exact (List.cons.inj hr).1

theorem debugByte_end : ∀ a : UInt8, ∃ x r, debugByte a = x :: r ∧ x ≠ 34 := by
  have h : ∀ a : Fin 256, (match debugByte (UInt8.ofNat a.1) with
    | x :: _ => decide (x ≠ 34)
    | [] => false) = true := by decide +kernel
  intro a
  have := h ⟨a.toNat, a.toNat_lt⟩
  simp only [UInt8.ofNat_toNat] at this
  split at this
  · next x r e => exact ⟨x, r, e, of_decide_eq_true this⟩
  · cases this

/-- A text in quotation marks, with its escapes, is that of one text only, whatever comes after it. -/
theorem debugStr_inj {s t r r' : Str} (h : debugStr s ++ r = debugStr t ++ r') : s = t ∧ r = r' := by
  unfold debugStr at h
  simp only [List.append_assoc, List.cons_append, List.nil_append, List.cons.injEq, true_and] at h
  induction s generalizing t with
  | nil =>
    cases t with
    | nil => simpa using h
    | cons b t =>
      obtain ⟨x, q, hx, hne⟩ := debugByte_end b
      simp only [List.flatMap_nil, List.nil_append, List.flatMap_cons, hx, List.cons_append, List.cons.injEq] at h
      exact absurd h.1.symm hne
  | cons a s ih =>
    cases t with
    | nil =>
      obtain ⟨x, q, hx, hne⟩ := debugByte_end a
      simp only [List.flatMap_nil, List.nil_append, List.flatMap_cons, hx, List.cons_append, List.cons.injEq] at h
      exact absurd h.1 hne
    | cons b t =>
      simp only [List.flatMap_cons, List.append_assoc] at h
      have hab : a = b := by
        rcases List.append_eq_append_iff.1 h with ⟨q, h1, -⟩ | ⟨q, h1, -⟩
        · exact debugByte_prefix a b ⟨q, h1.symm⟩
        · exact (debugByte_prefix b a ⟨q, h1.symm⟩).symm
      subst hab
      obtain ⟨h1, h2⟩ := ih (List.append_cancel_left h)
      exact ⟨by rw [h1], h2⟩

theorem intToStr_inj {a b : Int} (h : intToStr a = intToStr b) : a = b := by
  have hne : ∀ n m : Nat, natToStr n ≠ 45 :: natToStr m := by
    intro n m h
    have := natToStr_digits n 45 (by rw [h]; simp)
    cases this
  cases a with
  | ofNat n =>
    cases b with
    | ofNat m => rw [natToStr_inj h]
    | negSucc m => exact absurd h (hne _ _)
  | negSucc n =>
    cases b with
    | ofNat m => exact absurd h.symm (hne _ _)
    | negSucc m =>
      have := natToStr_inj (List.cons.inj h).2
      congr 1
      omega

/-- The line that an error names. -/
def lineOf : ParserError → Option Nat
  | .topLevelHeading n | .openParse n | .parentBlock n | .headingOffset n _ | .targetResolution n _ | .scanner (.headingLevel n) => some n
  | _ => none

/-- What comes after the line in a message. -/
def afterLine : ParserError → Option Str
  | .topLevelHeading _ => some b!" Level 0 headings are only allowed at the top of a document"
  | .openParse _ => some b!" Invalid open_parse_after_as_text_type occurance"
  | .parentBlock _ => some b!" Unexpected block in Block::ParentBlock"
  | .headingOffset _ o => some (b!" Invalid heading level; parser level offest at the time of error was: " ++ intToStr o)
  | .targetResolution _ t => some (b!" Unable to resolve target: " ++ debugStr t)
  | _ => none

theorem message_line (x : Str) {e : ParserError} {n : Nat} {r : Str} (hl : lineOf e = some n) (hr : afterLine e = some r) :
    e.message x = b!"Parse error line " ++ (natToStr n ++ c!":" :: r) := by
  cases e <;> simp only [lineOf, afterLine, reduceCtorEq, Option.some.injEq] at hl hr <;> subst hl <;> subst hr <;>
    simp only [ParserError.message, List.append_assoc, List.cons_append, List.nil_append]

theorem afterLine_inj {e e' : ParserError} {r : Str} (h : afterLine e = some r) (h' : afterLine e' = some r) (hl : lineOf e = lineOf e') :
    e = e' := by
  have hs : ∀ s t : Str, debugStr s = debugStr t → s = t := fun s t h => (debugStr_inj (r := []) (r' := []) (by simpa using h)).1
  cases e <;> simp only [afterLine, reduceCtorEq, Option.some.injEq] at h <;> subst h <;>
    cases e' <;> simp [afterLine, lineOf] at h' hl
  all_goals simp_all
  · exact (intToStr_inj h').symm
  · exact (hs _ _ h').symm

/-- The other messages do not begin like that. -/
theorem message_other (x : Str) (e : ParserError) (h : afterLine e = none) (r : Str) : e.message x ≠ b!"Parse error line " ++ r := by
  cases e with
  | scanner e => cases e <;> simp [ParserError.message, ScanError.message]
  | block e => cases e <;> simp [ParserError.message, BlockError.message]
  | asg e => cases e <;> simp [ParserError.message, BlockError.message]
  | topLevelHeading => cases h
  | openParse => cases h
  | parentBlock => cases h
  | headingOffset => cases h
  | targetResolution => cases h
  | delimitedBlock => simp [ParserError.message]
  | blockStack => simp [ParserError.message]
  | blockContinuation => simp [ParserError.message]
  | internal => simp [ParserError.message]
  | «attribute» => simp [ParserError.message]

/-- The message of a heading with too many equals signs. -/
theorem message_deep (x : Str) (e : ParserError) (n : Nat) (h : e.message x = b!"Invalid headling level at line " ++ natToStr n) :
    e = .scanner (.headingLevel n) := by
  cases e with
  | scanner e =>
    cases e with
    | headingLevel m =>
      have : natToStr m = natToStr n := List.append_cancel_left h
      rw [natToStr_inj this]
    | characterMatch => simp [ParserError.message, ScanError.message] at h
    | tagError => simp [ParserError.message, ScanError.message] at h
  | block e => cases e <;> simp [ParserError.message, BlockError.message] at h
  | asg e => cases e <;> simp [ParserError.message, BlockError.message] at h
  | topLevelHeading => simp [ParserError.message] at h
  | openParse => simp [ParserError.message] at h
  | parentBlock => simp [ParserError.message] at h
  | headingOffset => simp [ParserError.message] at h
  | targetResolution => simp [ParserError.message] at h
  | delimitedBlock => simp [ParserError.message] at h
  | blockStack => simp [ParserError.message] at h
  | blockContinuation => simp [ParserError.message] at h
  | internal => simp [ParserError.message] at h
  | «attribute» => simp [ParserError.message] at h

theorem line_cases {e : ParserError} (h : (lineOf e).isSome = true) :
    (∃ n, e = .scanner (.headingLevel n)) ∨ ∃ n r, lineOf e = some n ∧ afterLine e = some r := by
  cases e with
  | scanner e => cases e <;> simp [lineOf] at h ⊢
  | _ => simp [lineOf, afterLine] at h ⊢

/-- **C100**: an error that names a line has a message of its own: every other error, with another kind, line, offset or
target, has another message. -/
theorem C100_told_apart (x y : Str) (e e' : ParserError) (hl : (lineOf e).isSome = true) (h : e.message x = e'.message y) : e = e' := by
  rcases line_cases hl with ⟨n, rfl⟩ | ⟨n, r, h1, h2⟩
  · exact (message_deep y e' n h.symm).symm
  · rw [message_line x h1 h2] at h
    cases h3 : afterLine e' with
    | none => exact absurd h.symm (message_other y e' h3 _)
    | some r' =>
      cases h4 : lineOf e' with
      | none => cases e' <;> simp [afterLine, lineOf] at h3 h4
      | some n' =>
        rw [message_line y h4 h3] at h
        obtain ⟨hn, hr⟩ := number_apart (List.append_cancel_left h)
        subst hr
        exact afterLine_inj h2 h3 (by rw [h1, h4, hn])

-- different targets, lines and offsets
example : ParserError.message [] (.targetResolution 12 b!"a\"b.png") = b!"Parse error line 12: Unable to resolve target: \"a\\\"b.png\"" := by
  decide +kernel
example : ParserError.message [] (.headingOffset 3 (-2))
    = b!"Parse error line 3: Invalid heading level; parser level offest at the time of error was: -2" := by decide +kernel

/-- **C100** fails for errors without a line: some have the same message. -/
theorem C100_same_message : ParserError.message [] (.block .danglingList) = ParserError.message [] (.asg .danglingList) := rfl

/-! ## What a run says -/

/-- **C100** (partial: the line and what is on it for texts where no token runs over a line end and there are no tags): a run
that ends with status 1 and is not refused for its arguments or for files that cannot be read says `Error converting document:`
and the message of an error, and there is a cause for this error in the input or in an included file: on the line that the
message names stands what the message says. -/
theorem C100_cause_partial (s : System) (c : Call) (detail : Str) (h : (run s c).status = .failure) :
    complaint s c detail = [] ∧ (readInput s c = .error .failure ∨ ∃ src, SourceOf s c src ∧ graphOf s c src = .error .exit)
    ∨ c.backend = .docx ∧ (complaint s c detail = b!"Error: the docx backend does not support parsing without target resolution.\n" ∧ c.noResolve = true
        ∨ complaint s c detail = b!"Error: can't send docx backend to stdout\n" ∧ readOutput c.toArgs = none)
    ∨ ∃ src e, SourceOf s c src ∧ complaint s c detail = b!"Error converting document: " ++ e.message detail ++ b!"\n"
        ∧ Fault s.world src e ∧ (Calm s.world src → Cause s.world src e) := by
  unfold run at h
  unfold complaint
  cases hr : readInput s c with
  | error e =>
    rw [hr] at h
    simp only at h
    subst h
    exact .inl ⟨rfl, .inl rfl⟩
  | ok src =>
    rw [hr] at h
    have hso := (source_iff s c src).1 hr
    simp only at h ⊢
    cases hg : graphOf s c src with
    | error f =>
      rw [hg] at h
      cases f with
      | err e =>
        right; right
        have hp : ∃ p, (p = Parser.new ∨ p = Parser.newNoTargets) ∧ Parser.parse s.world s.fuel (scan src) p = .error (.err e) := by
          unfold graphOf at hg
          refine ⟨if c.noResolve then Parser.newNoTargets else Parser.new, ?_, ?_⟩
          · split <;> simp
          · cases hp : Parser.parse s.world s.fuel (scan src) (if c.noResolve then Parser.newNoTargets else Parser.new) with
            | ok p => rw [hp] at hg; cases hg
            | error f => rw [hp] at hg; cases hg; rfl
        obtain ⟨p, hp1, hp2⟩ := hp
        exact ⟨src, e, hso, rfl, C98_fault _ _ _ p e hp1 hp2, fun hc => C98_line_partial _ _ _ p e hp1 hc hp2⟩
      | exit => exact .inl ⟨rfl, .inr ⟨src, hso, hg⟩⟩
      | panic => cases h
      | hang => cases h
    | ok g =>
      rw [hg] at h
      simp only at h ⊢
      have hrs : ∀ out t, (renderString s c out t).status ≠ .failure := by
        intro out t
        unfold renderString
        split
        · split <;> nofun
        · nofun
      unfold output at h
      cases hb : c.backend with
      | htmlbook =>
        rw [hb] at h
        simp only at h
        split at h
        · exact absurd h (hrs _ _)
        · cases h
      | json =>
        rw [hb] at h
        exact absurd h (hrs _ _)
      | docx =>
        rw [hb] at h
        right; left
        refine ⟨rfl, ?_⟩
        simp only at h ⊢
        by_cases hn : c.noResolve = true
        · left
          exact ⟨by rw [if_pos hn], hn⟩
        · right
          rw [if_neg hn] at h ⊢
          cases ho : readOutput c.toArgs with
          | none => exact ⟨by simp, rfl⟩
          | some path =>
            rw [ho] at h
            simp only at h
            split at h
            · split at h <;> cases h
            · cases h

/-- **C100**: the message tells the line. If two runs that fail with an error of the document that names a line say the same,
the error is the same. -/
theorem C100_runs (s s' : System) (c c' : Call) (x y : Str) (src src' : Str) (e e' : ParserError)
    (h1 : readInput s c = .ok src) (h2 : graphOf s c src = .error (.err e)) (h3 : readInput s' c' = .ok src')
    (h4 : graphOf s' c' src' = .error (.err e')) (hl : (lineOf e).isSome = true) (h : complaint s c x = complaint s' c' y) : e = e' := by
  unfold complaint at h
  rw [h1, h3] at h
  simp only [h2, h4] at h
  exact C100_told_apart x y e e' hl (List.append_cancel_left (List.append_cancel_right h))

/-- A run that meets the hypotheses: a document title on line 3. -/
theorem C100_sample : (run (desk b!"a\n\n= b\n") ⟨⟨b!"a.adoc", none, .htmlbook, false⟩, false⟩).status = .failure
    ∧ complaint (desk b!"a\n\n= b\n") ⟨⟨b!"a.adoc", none, .htmlbook, false⟩, false⟩ []
      = b!"Error converting document: Parse error line 3: Level 0 headings are only allowed at the top of a document\n" := by
  decide +kernel

/-- **C100** fails: the message does not name the file. A title in the input and one in an included file give the same message. -/
theorem C100_file : complaint { desk b!"x\n= y\n" with world := titleFile } ⟨⟨b!"a.adoc", none, .htmlbook, false⟩, false⟩ []
      = b!"Error converting document: Parse error line 2: Level 0 headings are only allowed at the top of a document\n"
    ∧ complaint { desk b!"include::a.adoc[]\n" with world := titleFile } ⟨⟨b!"a.adoc", none, .htmlbook, false⟩, false⟩ []
      = b!"Error converting document: Parse error line 2: Level 0 headings are only allowed at the top of a document\n" := by
  decide +kernel

/-! ## Warnings -/

/-- **C95** fails when the log is on standard output as well: with a warning (whose line begins with its level, `WARN` or `ERROR`,
or with the escape character of its colour) before it, the output to standard output is not JSON. -/
theorem C95_warning (e : Effects) (b : UInt8) (hb : b = c!"W" ∨ b = c!"E" ∨ b = 27) (line : Str) :
    JsonRead.document (printed (b :: line) e) = none := by
  have h : ∀ r : Str, JsonText.readText (b :: r) = none := by
    intro r
    unfold JsonText.readText
    cases hl : (b :: r).length with
    | zero => cases hl
    | succ n =>
      rcases hb with rfl | rfl | rfl <;> simp [JsonText.readValue, JsonText.skip, JsonText.isWs]
  unfold JsonRead.document printed
  rw [List.cons_append, h]
  rfl

end Adoc.Props
