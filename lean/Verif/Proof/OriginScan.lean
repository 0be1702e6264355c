import Verif.Spec.Origin
import Verif.Proof.ScanTrace
/-!
# The markup of tokens

A token of a type occurs only if the bytes of its markup occur in the text that is scanned, and its lexeme is a part of
that text.
-/
namespace Adoc.Origin

open Scanner

/-- What must be written for a token. -/
def tokMarks : TokenType → List Str
  | .thematicBreak => [b!"'\n"]
  | .pageBreak => [b!"<\n"]
  | .lineContinuation => [b!"+\n"]
  | .passthroughBlock => [b!"+\n"]
  | .sidebarBlock => [b!"*\n"]
  | .sourceBlock => [b!"-\n"]
  | .quoteVerseBlock => [b!"_\n"]
  | .commentBlock => [b!"/\n"]
  | .literalBlock => [b!".\n"]
  | .exampleBlock => [b!"=\n"]
  | .openBlock => [b!"-\n"]
  | .orderedListItem => [b!". "]
  | .unorderedListItem => [b!"* "]
  | .descriptionListMarker => [b!":"]
  | .codeCallout => [b!"<>\n"]
  | .codeCalloutListItem => [b!"<> "]
  | .heading1 | .heading2 | .heading3 | .heading4 | .heading5 => [b!"="]
  | .notePara => admonitionMarks .note
  | .tipPara => admonitionMarks .tip
  | .importantPara => admonitionMarks .important
  | .cautionPara => admonitionMarks .caution
  | .warningPara => admonitionMarks .warning
  | .table => [b!"|="]
  | .tableCell => [b!"|"]
  | .strong | .unconstrainedStrong => [b!"*"]
  | .emphasis | .unconstrainedEmphasis => [b!"_"]
  | .monospace | .unconstrainedMonospace => [b!"`"]
  | .literal | .unconstrainedLiteral => [b!"+"]
  | .mark | .unconstrainedMark => [b!"#"]
  | .superscript => [b!"^"]
  | .subscript => [b!"~"]
  | .blockImageMacro | .inlineImageMacro => [b!"image:]"]
  | .linkMacro | .hyperlink => [b!"http"]
  | .footnoteMacro => [b!"footnote:["]
  | .charRef => litMarks .charref
  | .inlineStyle | .blockAnchor | .elementAttributes => [b!"[]"]
  | .crossReference => [b!"<"]
  | .attribute => [b!":"]
  | _ => [[]]

/-- If the outcome is a token, its markup occurs in `src`. -/
def Marked (src : Str) (r : Item × Scanner) : Prop := ∀ t, r.1 = .tok t → Alt (· ∈ src) (tokMarks t.ty)

theorem alt_one {av : UInt8 → Prop} {a : Str} (h : AvS av a) : Alt av [a] := ⟨a, by simp, h⟩

theorem alt_text (av : UInt8 → Prop) : Alt av (tokMarks .text) := ⟨[], by simp [tokMarks], by simp [AvS]⟩

theorem addToken_ty {s s' : Scanner} {ty : TokenType} {lit : Bool} {a : Nat} {t : Token}
    (h : addToken s ty lit a = (.tok t, s')) : t.ty = ty ∨ t.ty = .text := by
  rcases addToken_panic_or s ty lit a with ⟨p, s1, h1⟩ | ⟨text, hs, h1, h2⟩
  · rw [h1] at h; cases h
  rw [h] at h1
  simp only [Item.tok.injEq] at h1
  rcases validate_ty ⟨ty, text, if lit then some text else none, s.line,
        s.startcol, s.startcol + text.length - 1, s.fileStack⟩ with h | h
  · rw [h1, h]; exact .inl rfl
  · rw [h1, h.1]; exact .inr rfl

namespace Marked
variable {src : Str}

theorem tok {s : Scanner} {ty : TokenType} {lit : Bool} {a : Nat} (h : Alt (· ∈ src) (tokMarks ty)) :
    Marked src (addToken s ty lit a) := by
  intro t ht
  rcases addToken_ty (s' := (addToken s ty lit a).2) (t := t) (by rw [← ht]) with h' | h'
  · rw [h']; exact h
  · rw [h']; exact alt_text _

theorem text {s : Scanner} : Marked src s.addText := tok (alt_text _)

theorem ite {p : Prop} [Decidable p] {a b : Item × Scanner} (h1 : p → Marked src a) (h2 : ¬p → Marked src b) :
    Marked src (if p then a else b) := by
  by_cases h : p
  · rw [if_pos h]; exact h1 h
  · rw [if_neg h]; exact h2 h

theorem err {e : ScanError} {s : Scanner} : Marked src (.err e, s) := by intro t ht; cases ht
theorem panic {e : Site} {s : Scanner} : Marked src (.panic e, s) := by intro t ht; cases ht
theorem hang {s : Scanner} : Marked src (.hang, s) := by intro t ht; cases ht

end Marked

theorem getD_mem {src : Str} {i : Nat} {c : UInt8} (h : src.getD i 0 = c) (hc : c ≠ 0) : c ∈ src := by
  rw [List.getD_eq_getElem?_getD] at h
  cases hi : src[i]? with
  | none => rw [hi] at h; exact absurd h.symm hc
  | some x => rw [hi] at h; rw [← h]; exact List.mem_of_getElem? hi

theorem peekAt_mem {src : Str} {i : Nat} {c : UInt8} (h : peekAt src i = c) (hc : c ≠ 0) : c ∈ src := by
  unfold peekAt at h
  split at h
  · exact getD_mem h hc
  · exact absurd h.symm hc

theorem peeks_mem {src : Str} {i n : Nat} {pat : Str} (h : peeksAheadAt src i n = pat) (hp : pat ≠ [0]) : AvS (· ∈ src) pat := by
  unfold peeksAheadAt at h
  split at h
  · exact absurd h.symm hp
  · intro b hb
    rw [← h] at hb
    exact List.mem_of_mem_drop (List.mem_of_mem_take hb)

theorem repeated_mem {s : Scanner} {c : UInt8} {n : Nat} (h : s.startsRepeated c (n + 1) = true) (hn : n ≠ 0) :
    AvS (· ∈ s.src) [c, 10] := by
  unfold startsRepeated at h
  simp only [Bool.and_eq_true, decide_eq_true_eq] at h
  have := peeks_mem h.2 (fun he => by
    have := congrArg List.length he
    simp only [Nat.add_sub_cancel, List.length_append, List.length_replicate, List.length_cons, List.length_nil] at this
    omega)
  intro b hb
  apply this b
  simp only [List.mem_cons, List.not_mem_nil, or_false] at hb
  rcases hb with rfl | rfl
  · simp [hn]
  · simp

theorem avS_cons {av : UInt8 → Prop} {c : UInt8} {s : Str} (hc : av c) (hs : AvS av s) : AvS av (c :: s) := by
  intro b hb
  rcases List.mem_cons.1 hb with rfl | hb
  · exact hc
  · exact hs b hb

theorem avS_nil {av : UInt8 → Prop} : AvS av [] := by intro b hb; cases hb

theorem avS_append {av : UInt8 → Prop} {a b : Str} (ha : AvS av a) (hb : AvS av b) : AvS av (a ++ b) := by
  intro x hx
  rcases List.mem_append.1 hx with h | h
  · exact ha x h
  · exact hb x h

section
variable {s : Scanner}

/-- The `]` that ends a bracket. -/
theorem bracket_mem {src : Str} {i : Nat} (h : ¬src.length ≤ adv src (· ≠ c!"]") i) : c!"]" ∈ src := by
  have h1 := adv_stop src (· ≠ c!"]") i (by omega)
  simp only [ne_eq, decide_eq_false_iff_not, Decidable.not_not] at h1
  exact peekAt_mem h1 (by decide)

theorem bracket_marked {ty : TokenType} (h : c!"]" ∈ s.src → Alt (· ∈ s.src) (tokMarks ty)) :
    Marked s.src (s.addThroughBracket ty) := by
  unfold addThroughBracket
  exact .ite (fun _ => .hang) (fun hc => .tok (h (bracket_mem hc)))

theorem formatting_marked (c : UInt8) (t u : TokenType) (ht : Alt (· ∈ s.src) (tokMarks t)) (hu : Alt (· ∈ s.src) (tokMarks u)) :
    Marked s.src (s.inlineFormatting c t u) := by
  unfold inlineFormatting
  exact .ite (fun _ => .text) fun _ => .ite (fun _ => .tok hu) fun _ => .ite (fun _ => .tok ht) fun _ => .text

theorem heading_marked (hc : c!"=" ∈ s.src) : Marked s.src s.addHeading := by
  unfold addHeading
  have h : Alt (· ∈ s.src) [b!"="] := alt_one (avS_cons hc avS_nil)
  dsimp only
  split
  all_goals first | exact .err | exact .tok h

theorem find_mem {src pat : Str} (hp : pat ≠ [0]) : ∀ (n i j : Nat), findPat src pat n i = some j → src.length - i ≤ n →
    src.length ≤ j ∨ AvS (· ∈ src) pat
  | 0, i, j, h, hn => by cases h; exact .inl (by omega)
  | n + 1, i, j, h, hn => by
    unfold findPat at h
    split at h
    · cases h; exact .inl ‹_›
    · split at h
      · cases h
      · split at h
        · exact .inr (peeks_mem ‹_› hp)
        · exact find_mem hp n (i + 1) j h (by omega)

theorem anchor_marked (hc : c!"[" ∈ s.src) : Marked s.src s.addBlockAnchor := by
  unfold addBlockAnchor
  split
  · exact .panic
  · rename_i i hi
    rcases find_mem (by decide) _ _ _ hi (by omega) with h | h
    · intro t ht
      rcases addToken_panic_or { s with current := i + 2 } .blockAnchor true 0 with ⟨p, s1, h1⟩ | ⟨text, hs, _⟩
      · rw [h1] at ht; cases ht
      · have := (slice_some hs).2.1
        dsimp only at this
        omega
    · exact .tok (alt_one (avS_cons hc (avS_cons (h _ (by decide)) avS_nil)))

theorem xref_marked (hc : c!"<" ∈ s.src) : Marked s.src s.addCrossReference := by
  unfold addCrossReference
  split
  · exact .panic
  · exact .tok (alt_one (avS_cons hc avS_nil))

theorem callout_src {s : Scanner} : s.calloutScan.2.src = s.src := by
  unfold calloutScan; dsimp only; split <;> rfl

theorem callout_mem (h : s.calloutScan.1 = true) : c!">" ∈ s.src := by
  unfold calloutScan at h
  dsimp only at h
  split at h
  · exact peekAt_mem ‹_› (by decide)
  · cases h

theorem callouts_marked (hc : c!"<" ∈ s.src) : Marked s.src s.scanCallouts := by
  have fin : ∀ s1 : Scanner, s1.src = s.src → Marked s.src
      (if s1.startsCallout.1 = true then addToken s1.startsCallout.2 .codeCallout true 0 else s1.startsCallout.2.addText) := by
    intro s1 h1
    refine .ite (fun h => .tok ?_) fun _ => .text
    unfold startsCallout at h
    simp only [Bool.and_eq_true, decide_eq_true_eq] at h
    have h2 := callout_mem h.1
    have h3 : c!"\n" ∈ s1.calloutScan.2.src := peekAt_mem h.2 (by decide)
    rw [callout_src, h1] at h3
    rw [h1] at h2
    exact alt_one (avS_cons hc (avS_cons h2 (avS_cons h3 avS_nil)))
  unfold scanCallouts
  refine .ite (fun _ => ?_) fun _ => fin s rfl
  refine .ite (fun h => .tok ?_) fun _ => fin _ ?_
  · unfold startsCalloutListItem at h
    simp only [Bool.and_eq_true, decide_eq_true_eq] at h
    have h2 := callout_mem h.1
    have h3 : c!" " ∈ s.calloutScan.2.src := peekAt_mem h.2 (by decide)
    rw [callout_src] at h3
    exact alt_one (avS_cons hc (avS_cons h2 (avS_cons h3 avS_nil)))
  · unfold startsCalloutListItem; exact callout_src

theorem tag_marked : Marked s.src s.addTag := by
  have key : ∀ (s1 : Scanner) (ty : TokenType), ty = .startTag ∨ ty = .endTag → ∀ t, (addToken s1 ty true 1).1 = .tok t →
      Alt (· ∈ s.src) (tokMarks t.ty) := by
    intro s1 ty hty t ht
    exact (Marked.tok (src := s.src) (ty := ty) (by rcases hty with h | h <;> rw [h] <;> exact alt_text _)) t ht
  unfold addTag
  split
  · exact .hang
  · dsimp only
    split
    · exact .panic
    · refine .ite (fun _ t ht => key _ _ (.inl rfl) t ht) fun _ => .ite (fun _ t ht => key _ _ (.inr rfl) t ht) fun _ => .err

theorem word_marked {rest : Str} {ty : TokenType} {lit : Bool} (h : AvS (· ∈ s.src) rest → Alt (· ∈ s.src) (tokMarks ty))
    (hr : rest ≠ [0]) : Marked s.src (s.scanWord rest ty lit) := by
  unfold scanWord
  exact .ite (fun hp => .tok (h (peeks_mem hp hr))) fun _ => .text

theorem attribution_marked (b : UInt8) (hb : b = s.src.getD (s.start + 1) 0) (h1 : c!"[" ∈ s.src) (h2 : c!"]" ∈ s.src) :
    Alt (· ∈ s.src) (tokMarks (attributionType b)) := by
  have key : ∀ c : UInt8, c ≠ 0 → b = c → AvS (· ∈ s.src) [c!"[", c, c!"]"] := by
    intro c hc he
    exact avS_cons h1 (avS_cons (getD_mem (by rw [← hb, he]) hc) (avS_cons h2 avS_nil))
  unfold attributionType
  repeat' split
  · exact ⟨b!"[N]", by simp [tokMarks, admonitionMarks], key _ (by decide) ‹_›⟩
  · exact ⟨b!"[T]", by simp [tokMarks, admonitionMarks], key _ (by decide) ‹_›⟩
  · exact ⟨b!"[I]", by simp [tokMarks, admonitionMarks], key _ (by decide) ‹_›⟩
  · exact ⟨b!"[C]", by simp [tokMarks, admonitionMarks], key _ (by decide) ‹_›⟩
  · exact ⟨b!"[W]", by simp [tokMarks, admonitionMarks], key _ (by decide) ‹_›⟩
  · exact alt_one (avS_cons h1 (avS_cons h2 avS_nil))

theorem marked_dispatch (s : Scanner) (c : UInt8) (hc : c ∈ s.src) : Marked s.src (dispatch s c) := by
  have one : ∀ (c' : UInt8), c = c' → AvS (· ∈ s.src) [c'] := fun c' h => avS_cons (h ▸ hc) avS_nil
  unfold dispatch
  refine .ite (fun _ => .tok (alt_text _)) fun _ => .ite (fun h => ?_) fun _ => .ite (fun h => ?_) fun _ =>
    .ite (fun h => ?_) fun _ => .ite (fun h => ?_) fun _ => .ite (fun h => ?_) fun _ => .ite (fun h => ?_) fun _ =>
    .ite (fun h => ?_) fun _ => .ite (fun h => ?_) fun _ => .ite (fun h => ?_) fun _ => .ite (fun h => ?_) fun _ =>
    .ite (fun h => ?_) fun _ => .ite (fun h => ?_) fun _ => .ite (fun h => ?_) fun _ => .ite (fun h => ?_) fun _ =>
    .ite (fun h => ?_) fun _ => .ite (fun h => ?_) fun _ => .ite (fun h => ?_) fun _ => .ite (fun h => ?_) fun _ =>
    .ite (fun h => ?_) fun _ => .ite (fun h => ?_) fun _ => .ite (fun h => ?_) fun _ => .ite (fun h => ?_) fun _ =>
    .ite (fun h => ?_) fun _ => .ite (fun h => ?_) fun _ => .ite (fun h => ?_) fun _ => .ite (fun h => ?_) fun _ =>
    .ite (fun h => ?_) fun _ => .text
  · unfold scanQuote
    refine .ite (fun _ => tag_marked) fun _ => .ite (fun h2 => .tok (alt_one (repeated_mem h2 (by decide)))) fun _ =>
      .ite (fun _ => .tok (alt_text _)) fun _ => .ite (fun h2 => .tok ⟨b!"'s", by simp [tokMarks, litMarks], ?_⟩) fun _ => .text
    refine avS_cons (h ▸ hc) (avS_cons ?_ avS_nil)
    rcases h2 with h2 | h2 | h2
    · exact peeks_mem h2 (by decide) _ (by decide)
    · exact peeks_mem h2 (by decide) _ (by decide)
    · exact peekAt_mem h2.2 (by decide)
  · unfold scanLess
    have hl : c!"<" ∈ s.src := h ▸ hc
    refine .ite (fun _ => tag_marked) fun _ => .ite (fun h2 => .tok (alt_one (repeated_mem h2 (by decide)))) fun _ =>
      .ite (fun h2 => .tok ?_) fun _ => .ite (fun _ => xref_marked hl) fun _ => callouts_marked hl
    rcases h2 with h2 | h2
    · exact ⟨b!"<-", by simp [tokMarks, litMarks], avS_cons hl (avS_cons (peekAt_mem h2 (by decide)) avS_nil)⟩
    · exact ⟨b!"<=", by simp [tokMarks, litMarks], avS_cons hl (avS_cons (peekAt_mem h2 (by decide)) avS_nil)⟩
  · unfold scanDelimChar
    refine .ite (fun _ => tag_marked) fun _ => .ite (fun h2 => ?_) fun _ => .ite (fun h2 => ?_) fun _ => .ite (fun h2 => ?_)
      fun _ => .ite (fun h2 => ?_) fun _ => .ite (fun h2 => ?_) fun _ => .ite (fun h2 => ?_) fun _ => .ite (fun h2 => ?_)
      fun _ => .ite (fun h2 => ?_) fun _ => .text
    · split
      · rename_i ty hty
        simp only [Bool.and_eq_true] at h2
        have h3 := repeated_mem h2.2 (by decide)
        refine .tok ?_
        unfold TokenType.blockFromChar at hty
        repeat' split at hty
        all_goals first | cases hty; done | (cases hty; subst_vars; exact alt_one h3)
      · exact .err
    · unfold scanEquals
      refine .ite (fun h3 => .tok ⟨b!"=>", by simp [tokMarks, litMarks], ?_⟩) fun _ => .ite (fun _ => heading_marked (h2 ▸ hc)) fun _ => .text
      exact avS_cons (h2 ▸ hc) (avS_cons (peekAt_mem h3 (by decide)) avS_nil)
    · unfold scanMinus
      refine .ite (fun h3 => .tok ⟨b!"->", by simp [tokMarks, litMarks], ?_⟩) fun _ =>
        .ite (fun h3 => .tok ⟨b!"--", by simp [tokMarks, litMarks], ?_⟩) fun _ => .ite (fun h3 => .tok (alt_one ?_)) fun _ => .text
      · exact avS_cons (h2 ▸ hc) (avS_cons (peekAt_mem h3 (by decide)) avS_nil)
      · exact avS_cons (h2 ▸ hc) (avS_cons (h2 ▸ hc) avS_nil)
      · simp only [Bool.and_eq_true] at h3
        exact repeated_mem h3.2 (by decide)
    · unfold scanStar
      refine .ite (fun h3 => .tok (alt_one ?_)) fun _ => formatting_marked _ _ _ (alt_one (one _ h2)) (alt_one (one _ h2))
      simp only [Bool.and_eq_true, decide_eq_true_eq] at h3
      exact avS_cons (h2 ▸ hc) (avS_cons (peekAt_mem h3.2 (by decide)) avS_nil)
    · unfold scanSlash
      exact .ite (fun _ => tag_marked) fun _ => .ite (fun _ => .ite (fun _ => .tok (alt_text _)) fun _ => .tok (alt_text _)) fun _ => .text
    · unfold scanPlus
      refine .ite (fun _ => .tok (alt_text _)) fun _ => .ite (fun h3 => .tok (alt_one ?_)) fun _ =>
        formatting_marked _ _ _ (alt_one (one _ h2)) (alt_one (one _ h2))
      exact avS_cons (h2 ▸ hc) (avS_cons (peekAt_mem h3.2 (by decide)) avS_nil)
    · exact formatting_marked _ _ _ (alt_one (one _ h2)) (alt_one (one _ h2))
    · unfold scanDot
      refine .ite (fun _ => .tok ⟨b!".", by simp [tokMarks, litMarks], one _ h2⟩) fun _ => .ite (fun _ => .ite (fun h3 => .tok (alt_one ?_))
        fun _ => .tok (alt_text _)) fun _ => .text
      exact avS_cons (h2 ▸ hc) (avS_cons (peekAt_mem h3 (by decide)) avS_nil)
  · unfold scanBracket
    refine .ite (fun _ => anchor_marked (h ▸ hc)) fun _ => ?_
    split
    · rename_i j hj
      refine .tok (attribution_marked _ rfl (h ▸ hc) ?_)
      unfold attributionEnd at hj
      dsimp only at hj
      split at hj
      · rename_i h3; exact getD_mem h3.2 (by decide)
      · cases hj
    · refine .ite (fun _ => bracket_marked fun h3 => alt_one ?_) fun _ => .text
      exact avS_cons (h ▸ hc) (avS_cons h3 avS_nil)
  · unfold scanBacktick
    exact .ite (fun _ => .tok (alt_text _)) fun _ => .ite (fun _ => .tok (alt_text _)) fun _ =>
      formatting_marked _ _ _ (alt_one (one _ h)) (alt_one (one _ h))
  · exact .tok (alt_one (one _ h))
  · exact .tok (alt_one (one _ h))
  · unfold scanHash
    exact .ite (fun _ => tag_marked) fun _ => formatting_marked _ _ _ (alt_one (one _ h)) (alt_one (one _ h))
  · have hr : Marked s.src s.scanColonRest := by
      unfold scanColonRest
      exact .ite (fun _ => .tok (alt_one (one _ h))) fun _ => .text
    unfold scanColon
    refine .ite (fun _ => ?_) fun _ => hr
    split
    · exact .panic
    · exact .ite (fun _ => .hang) fun _ => .tok (alt_one (one _ h))
    · exact hr
  · refine .ite (fun h2 => ?_) fun _ => .text
    unfold addParens
    refine .ite (fun _ => .hang) fun h3 => .tok ⟨b!"()", by simp [tokMarks, litMarks], ?_⟩
    have h4 := adv_stop s.src (· ≠ c!")") s.current (by omega)
    simp only [ne_eq, decide_eq_false_iff_not, Decidable.not_not] at h4
    exact avS_cons (h ▸ hc) (avS_cons (peekAt_mem h4 (by decide)) avS_nil)
  · exact word_marked (fun h2 => alt_one (avS_cons (h ▸ hc) h2)) (by decide)
  · exact word_marked (fun _ => alt_text _) (by decide)
  · refine .ite (fun h2 => ?_) fun _ => .text
    unfold addLink
    have h3 : Alt (· ∈ s.src) [b!"http"] := alt_one (avS_cons (h ▸ hc) (peeks_mem h2 (by decide)))
    rcases linkEnd_ty s.src (s.src.length + 1 - s.current) s.current with h4 | h4
    all_goals exact .tok (by rw [h4]; exact h3)
  · unfold scanI
    have key : ∀ pat : Str, AvS (· ∈ s.src) pat → (∀ b ∈ b!"mage:", b ∈ pat) → c!"]" ∈ s.src → Alt (· ∈ s.src) [b!"image:]"] := by
      intro pat hp hsub hb
      exact alt_one (avS_cons (h ▸ hc) (avS_append (a := b!"mage:") (b := b!"]") (fun b hb => hp b (hsub b hb)) (avS_cons hb avS_nil)))
    refine .ite (fun _ => bracket_marked fun _ => alt_text _) fun _ => .ite (fun h2 => bracket_marked fun h3 => ?_) fun _ =>
      .ite (fun h2 => bracket_marked fun h3 => ?_) fun _ => .text
    · simp only [Bool.and_eq_true, decide_eq_true_eq] at h2
      exact key _ (peeks_mem h2.2 (by decide)) (by decide) h3
    · exact key _ (peeks_mem h2.1 (by decide)) (by decide) h3
  · exact .ite (fun _ => tag_marked) fun _ => .text
  · exact .ite (fun _ => tag_marked) fun _ => .text
  · exact word_marked (fun h2 => ⟨b!"NOTE: ", by simp [tokMarks, admonitionMarks], avS_cons (h ▸ hc) h2⟩) (by decide)
  · exact word_marked (fun h2 => ⟨b!"TIP: ", by simp [tokMarks, admonitionMarks], avS_cons (h ▸ hc) h2⟩) (by decide)
  · exact word_marked (fun h2 => ⟨b!"IMPORTANT: ", by simp [tokMarks, admonitionMarks], avS_cons (h ▸ hc) h2⟩) (by decide)
  · exact word_marked (fun h2 => ⟨b!"CAUTION: ", by simp [tokMarks, admonitionMarks], avS_cons (h ▸ hc) h2⟩) (by decide)
  · exact word_marked (fun h2 => ⟨b!"WARNING: ", by simp [tokMarks, admonitionMarks], avS_cons (h ▸ hc) h2⟩) (by decide)
  · exact .tok (alt_text _)
  · unfold scanAmp
    split
    · exact .panic
    · rename_i h2
      refine .tok ⟨b!"&;", by simp [tokMarks, litMarks], ?_⟩
      unfold startsCharref at h2
      cases hi : s.src[adv s.src isAlnum s.current]? with
      | none => rw [hi] at h2; cases h2
      | some x =>
        rw [hi] at h2
        simp only [Option.map_some, Option.some.injEq, decide_eq_true_eq] at h2
        exact avS_cons (h ▸ hc) (avS_cons (h2 ▸ List.mem_of_getElem? hi) avS_nil)
    · exact .text
  · unfold scanBrace
    split
    · exact .panic
    · exact .tok (alt_text _)
    · exact .text
  · unfold scanPipe
    refine .ite (fun h2 => .ite (fun _ => .tok (alt_one ?_)) fun _ => .text) fun _ => .ite (fun _ => ?_) fun _ => .text
    · simp only [Bool.and_eq_true, decide_eq_true_eq] at h2
      exact avS_cons (h ▸ hc) (avS_cons (peeks_mem h2.2 (by decide) _ (by decide)) avS_nil)
    · exact .tok (alt_one (one _ h))
  · unfold scanDouble
    exact .ite (fun _ => .tok (alt_text _)) fun _ => .text
  · unfold scanSpace
    exact .ite (fun _ => tag_marked) fun _ => .text

end

/-- What is known about a token. -/
structure TokOk (av : UInt8 → Prop) (t : Token) : Prop where
  lexeme : AvS av t.lexeme
  lit : ∀ v, t.lit = some v → AvS av v ∨ t.ty = .charRef ∧ OkS av v
  marks : Alt av (tokMarks t.ty)

theorem okS_of_av {av : UInt8 → Prop} {s : Str} (h : AvS av s) : OkS av s := fun b hb => .inl (h b hb)

theorem okS_const {av : UInt8 → Prop} {s : Str} (h : ∀ b ∈ s, b ∈ added) : OkS av s := fun b hb => .inr (h b hb)

theorem alt_mono {av av' : UInt8 → Prop} {l : List Str} (h : Alt av l) (hm : ∀ b, av b → av' b) : Alt av' l := by
  obtain ⟨a, ha, hb⟩ := h
  exact ⟨a, ha, fun b hx => hm b (hb b hx)⟩

theorem charRefLiteral_ok {av : UInt8 → Prop} {l v : Str} (h : Token.charRefLiteral l = some v) : OkS av v := by
  unfold Token.charRefLiteral at h
  repeat' split at h
  all_goals first | cases h; done | (cases h; exact okS_const (by decide))

/-- One call of `next`. -/
theorem next_origin {s s' : Scanner} {t : Token} (h : s.next = some (.tok t, s')) : TokOk (· ∈ s.src) t := by
  have hm : Alt (· ∈ s.src) (tokMarks t.ty) := by
    unfold next at h
    split at h
    · split at h
      · cases h; exact alt_text _
      · cases h
    · rename_i he
      have hlt : s.current < s.src.length := by simpa [isAtEnd] using he
      simp only [Option.some.injEq] at h
      refine marked_dispatch { s with start := s.current, current := s.current + 1 } (s.src.getD s.current 0) ?_ t ?_
      · show _ ∈ s.src
        rw [List.getD_eq_getElem?_getD, List.getElem?_eq_getElem hlt]
        exact List.getElem_mem hlt
      · exact congrArg Prod.fst h
  have sub : ∀ i j, AvS (· ∈ s.src) ((s.src.drop i).take j) := fun i j b hb => List.mem_of_mem_drop (List.mem_of_mem_take hb)
  have key : AvS (· ∈ s.src) t.lexeme ∧ (t.lit = none ∨ t.lit = some t.lexeme ∨ (t.ty = .charRef ∧ t.lit = Token.charRefLiteral t.lexeme)) := by
    cases next_spec h with
    | eof => exact ⟨avS_nil, .inl rfl⟩
    | plain _ _ _ hp => exact ⟨by rw [hp.lex]; exact sub _ _, hp.lit⟩
    | tag _ _ _ ht =>
      obtain ⟨i, j, _, _, _, _, _, hl⟩ := ht.lex
      exact ⟨by rw [hl]; exact sub _ _, .inr (.inl ht.lit)⟩
  refine ⟨key.1, fun v hv => ?_, hm⟩
  rcases key.2 with h1 | h1 | h1
  · rw [h1] at hv; cases hv
  · rw [h1] at hv; cases hv; exact .inl key.1
  · rw [h1.2] at hv; exact .inr ⟨h1.1, charRefLiteral_ok hv⟩

theorem TokOk.mono {av av' : UInt8 → Prop} {t : Token} (h : TokOk av t) (hm : ∀ b, av b → av' b) : TokOk av' t where
  lexeme := fun b hb => hm b (h.lexeme b hb)
  lit := fun v hv => (h.lit v hv).imp (fun h b hb => hm b (h b hb)) fun h => ⟨h.1, fun b hb => (h.2 b hb).imp_left (hm b)⟩
  marks := alt_mono h.marks hm

theorem runF_origin {src : Str} {t : Token} : ∀ (n : Nat) (s : Scanner), s.src = src → .tok t ∈ runF n s → TokOk (· ∈ src) t
  | 0, _, _, h => by cases h
  | n + 1, s, hs, h => by
    rw [runF_succ] at h
    split at h
    · cases h
    · rename_i it s' hn
      rcases List.mem_cons.1 h with h1 | h1
      · subst h1; rw [← hs]; exact next_origin hn
      · split at h1
        · exact runF_origin n s' ((next_src hn ‹_›).1.trans hs) h1
        · cases h1

theorem run_origin {src : Str} {fs : List Str} {t : Token} (h : .tok t ∈ (newWithStack src fs).run) : TokOk (· ∈ src) t :=
  runF_origin _ _ rfl h

end Adoc.Origin
