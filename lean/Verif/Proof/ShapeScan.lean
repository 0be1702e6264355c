import Verif.Spec.Shape
import Verif.Proof.KindsScan
/-!
# How blocks are delimited: tokens
-/
namespace Adoc.Shape

open Scanner Origin
open Kinds (peek_get drop_get)

/-- The text of the delimiters of blocks. -/
def delimiter : TokenType → Option Str
  | .passthroughBlock => some b!"++++"
  | .sidebarBlock => some b!"****"
  | .sourceBlock => some b!"----"
  | .quoteVerseBlock => some b!"____"
  | .commentBlock => some b!"////"
  | .literalBlock => some b!"...."
  | .exampleBlock => some b!"===="
  | .openBlock => some b!"--"
  | .table => some b!"|==="
  | _ => none

/-- The kind of an admonition. -/
def admonition : TokenType → Option ParentVariant
  | .notePara => some .note
  | .tipPara => some .tip
  | .importantPara => some .important
  | .cautionPara => some .caution
  | .warningPara => some .warning
  | _ => none

/-- The text of a token of a type. -/
def Says (ty : TokenType) (text : Str) : Prop :=
  (∀ d, delimiter ty = some d → text = d)
  ∧ ∀ v, admonition ty = some v → text = (admonitionLabel v).1 ∨ ∃ r, text = c!"[" :: (admonitionLabel v).2 :: r

/-- Types of which nothing is to be known. -/
def usual (ty : TokenType) : Bool := (delimiter ty).isNone && (admonition ty).isNone

theorem says_usual {ty : TokenType} {text : Str} (h : usual ty = true) : Says ty text := by
  simp only [usual, Bool.and_eq_true, Option.isNone_iff_eq_none] at h
  refine ⟨fun d hd => ?_, fun v hv => ?_⟩
  · rw [h.1] at hd; cases hd
  · rw [h.2] at hv; cases hv

/-- What is known about a token. -/
def TokFact (t : Token) : Prop := Says t.ty t.text

theorem TokFact.usual {t : Token} (h : usual t.ty = true) : TokFact t := says_usual h

def Fact (r : Item × Scanner) : Prop := ∀ t, r.1 = .tok t → TokFact t

namespace Fact

theorem tok {s : Scanner} {ty : TokenType} {lit : Bool} {a : Nat} (h : usual ty = true) : Fact (addToken s ty lit a) := by
  intro t ht
  refine .usual ?_
  rcases addToken_ty (s' := (addToken s ty lit a).2) (t := t) (by rw [← ht]) with h' | h'
  · rw [h']; exact h
  · rw [h']; rfl

theorem exact_tok {s : Scanner} {ty : TokenType} {lit : Bool}
    (h : ∀ text, slice s.src s.start s.current = some text → Says ty text) : Fact (addToken s ty lit 0) := by
  intro t ht
  rcases addToken_panic_or s ty lit 0 with ⟨p, s1, h1⟩ | ⟨text, hs, h1, -⟩
  · rw [h1] at ht; cases ht
  · rw [ht] at h1
    have := h text hs
    simp only [Item.tok.injEq] at h1
    rw [h1]
    cases ty <;> first
      | exact says_usual rfl
      | (unfold TokFact Token.text Token.validate
         cases lit <;> exact this)
      | (rcases validate_ty ⟨_, text, if lit then some text else none, s.line, s.startcol, s.startcol + text.length - 1, s.fileStack⟩ with h | ⟨h, -⟩ <;>
          exact .usual (by rw [h]; rfl))

theorem text {s : Scanner} : Fact s.addText := tok rfl

theorem ite {p : Prop} [Decidable p] {a b : Item × Scanner} (h1 : p → Fact a) (h2 : ¬p → Fact b) : Fact (if p then a else b) := by
  by_cases h : p
  · rw [if_pos h]; exact h1 h
  · rw [if_neg h]; exact h2 h

theorem err {e : ScanError} {s : Scanner} : Fact (.err e, s) := by intro t ht; cases ht
theorem panic {e : Site} {s : Scanner} : Fact (.panic e, s) := by intro t ht; cases ht
theorem hang {s : Scanner} : Fact (.hang, s) := by intro t ht; cases ht

end Fact

section
variable {s : Scanner} {c : UInt8}

/-- A text that is looked at ahead. -/
theorem ahead {src : Str} {i : Nat} {pat : Str} (h : peeksAheadAt src i pat.length = pat) (hp : pat ≠ [0]) : pat <+: src.drop i := by
  unfold peeksAheadAt at h
  split at h
  · exact absurd h.symm hp
  · exact ⟨(src.drop i).drop pat.length, by conv => lhs; lhs; rw [← h]
                                            exact List.take_append_drop _ _⟩

/-- The text of a token that is made of a character and a text after it. -/
theorem lexeme_is {src : Str} {i j : Nat} {pat q text : Str} (hc : src[i]? = some c) (hp : pat ++ q <+: src.drop (i + 1)) (hj : j = i + 1 + pat.length)
    (h : slice src i j = some text) : text = c :: pat := by
  have hl := (slice_some h).2.2.2.2
  obtain ⟨r, hr⟩ := hp
  rw [hl, drop_get hc, ← hr, hj, show i + 1 + pat.length - i = pat.length + 1 from by omega, List.take_succ_cons, List.append_assoc, List.take_left]

theorem repeated {n : Nat} (h : s.startsRepeated c (n + 1) = true) (hn : n ≠ 0) : List.replicate n c ++ [c!"\n"] <+: s.src.drop s.current := by
  unfold startsRepeated at h
  simp only [Bool.and_eq_true, decide_eq_true_eq] at h
  refine ahead ?_ ?_
  · simpa [peeksAhead] using h.2
  · intro he
    have := congrArg List.length he
    simp at this
    omega

theorem tag_fact : Fact s.addTag := by
  unfold addTag
  split
  · exact .hang
  · dsimp only
    split
    · exact .panic
    · refine .ite (fun _ => ?_) fun _ => .ite (fun _ => ?_) fun _ => .err
      · exact Fact.tok (ty := .startTag) rfl
      · exact Fact.tok (ty := .endTag) rfl

theorem formatting_fact (c : UInt8) {t u : TokenType} (ht : usual t = true) (hu : usual u = true) : Fact (s.inlineFormatting c t u) := by
  unfold inlineFormatting
  exact .ite (fun _ => .text) fun _ => .ite (fun _ => .tok hu) fun _ => .ite (fun _ => .tok ht) fun _ => .text

theorem bracket_fact {ty : TokenType} (h : usual ty = true) : Fact (s.addThroughBracket ty) := by
  unfold addThroughBracket
  exact .ite (fun _ => .hang) fun _ => .tok h

theorem heading_fact : Fact s.addHeading := by
  unfold addHeading
  dsimp only
  split
  all_goals first | exact .tok rfl | exact .err

theorem word_fact {rest : Str} {ty : TokenType} {lit : Bool} (hs : s.current = s.start + 1) (hc : s.src[s.start]? = some c) (h0 : rest ≠ [0])
    (h : Says ty (c :: rest)) : Fact (s.scanWord rest ty lit) := by
  unfold scanWord
  refine .ite (fun hp => .exact_tok fun text ht => ?_) fun _ => .text
  have := ahead (pat := rest) hp h0
  rw [lexeme_is (q := []) (pat := rest) hc (by rw [← hs]; simpa using this) (by rw [hs]) ht]
  exact h

theorem callouts_fact : Fact s.scanCallouts := by
  have fin : ∀ s1 : Scanner, Fact (if s1.startsCallout.1 = true then addToken s1.startsCallout.2 .codeCallout true 0 else s1.startsCallout.2.addText) :=
    fun s1 => .ite (fun _ => .tok rfl) fun _ => .text
  unfold scanCallouts
  refine .ite (fun _ => ?_) fun _ => fin s
  exact .ite (fun h => .tok rfl) fun _ => fin _

theorem cell_fact : Fact s.addTableCell := by
  unfold addTableCell
  exact .tok rfl

/-- A line in brackets has at least two characters. -/
theorem attribution_text {j : Nat} {text : Str} (hj : s.attributionEnd = some j) (hs : s.current = s.start + 1) (hc : s.src[s.start]? = some c!"[")
    (ht : slice s.src s.start j = some text) : ∃ r, text = c!"[" :: s.src.getD (s.start + 1) 0 :: r := by
  obtain ⟨-, h2, -, -, hl⟩ := slice_some ht
  have hge : s.start + 2 ≤ j := by
    unfold attributionEnd at hj
    dsimp only at hj
    split at hj
    · rename_i h
      cases hj
      have hj := adv_ge s.src (· ≠ c!"\n") s.current
      have hne : adv s.src (· ≠ c!"\n") s.current ≠ s.start + 1 := by
        intro he
        have h := h.2
        rw [he, Nat.add_sub_cancel, List.getD_eq_getElem?_getD, hc] at h
        cases h
      omega
    · cases hj
  have h3 : s.src[s.start + 1]? = some (s.src.getD (s.start + 1) 0) := by
    rw [List.getD_eq_getElem?_getD, List.getElem?_eq_getElem (by omega)]; rfl
  obtain ⟨k, hk⟩ : ∃ k, j - s.start = k + 1 + 1 := ⟨j - s.start - 2, by omega⟩
  refine ⟨(s.src.drop (s.start + 1 + 1)).take k, ?_⟩
  rw [hl, drop_get hc, drop_get h3, hk, List.take_succ_cons, List.take_succ_cons]

theorem fact_dispatch (hs : s.current = s.start + 1) (hc : s.src[s.start]? = some c) : Fact (dispatch s c) := by
  unfold dispatch
  refine .ite (fun _ => .tok rfl) fun _ => .ite (fun h => ?_) fun _ => .ite (fun h => ?_) fun _ =>
    .ite (fun h => ?_) fun _ => .ite (fun h => ?_) fun _ => .ite (fun h => ?_) fun _ => .ite (fun h => ?_) fun _ =>
    .ite (fun h => ?_) fun _ => .ite (fun h => ?_) fun _ => .ite (fun h => ?_) fun _ => .ite (fun h => ?_) fun _ =>
    .ite (fun h => ?_) fun _ => .ite (fun h => ?_) fun _ => .ite (fun h => ?_) fun _ => .ite (fun h => ?_) fun _ =>
    .ite (fun h => ?_) fun _ => .ite (fun h => ?_) fun _ => .ite (fun h => ?_) fun _ => .ite (fun h => ?_) fun _ =>
    .ite (fun h => ?_) fun _ => .ite (fun h => ?_) fun _ => .ite (fun h => ?_) fun _ => .ite (fun h => ?_) fun _ =>
    .ite (fun h => ?_) fun _ => .ite (fun h => ?_) fun _ => .ite (fun h => ?_) fun _ => .ite (fun h => ?_) fun _ =>
    .ite (fun h => ?_) fun _ => .text
  · unfold scanQuote
    exact .ite (fun _ => tag_fact) fun _ => .ite (fun _ => .tok rfl) fun _ => .ite (fun _ => .tok rfl) fun _ => .ite (fun _ => .tok rfl) fun _ => .text
  · unfold scanLess
    refine .ite (fun _ => tag_fact) fun _ => .ite (fun _ => .tok rfl) fun _ => .ite (fun _ => .tok rfl) fun _ => .ite (fun _ => ?_)
      fun _ => callouts_fact
    unfold addCrossReference
    split
    · exact .panic
    · exact .tok rfl
  · unfold scanDelimChar
    refine .ite (fun _ => tag_fact) fun _ => .ite (fun h2 => ?_) fun _ => .ite (fun h2 => ?_) fun _ => .ite (fun h2 => ?_)
      fun _ => .ite (fun h2 => ?_) fun _ => .ite (fun h2 => ?_) fun _ => .ite (fun h2 => ?_) fun _ => .ite (fun h2 => ?_)
      fun _ => .ite (fun h2 => ?_) fun _ => .text
    · split
      · rename_i ty hty
        refine .exact_tok fun text ht => ?_
        simp only [Bool.and_eq_true] at h2
        have h4 := repeated (n := 3) h2.2 (by decide)
        rw [hs] at h4
        rw [lexeme_is hc h4 (by rw [hs]; rfl) ht]
        unfold TokenType.blockFromChar at hty
        repeat' split at hty
        all_goals first
          | cases hty; done
          | (cases hty
             rename_i hcc
             subst hcc
             exact ⟨fun d hd => (by cases hd; rfl), fun v hv => (by cases hv)⟩)
      · exact .err
    · unfold scanEquals
      exact .ite (fun _ => .tok rfl) fun _ => .ite (fun _ => heading_fact) fun _ => .text
    · unfold scanMinus
      refine .ite (fun _ => .tok rfl) fun _ => .ite (fun _ => .tok rfl) fun _ => .ite (fun h3 => .exact_tok fun text ht => ?_) fun _ => .text
      simp only [Bool.and_eq_true] at h3
      have h4 := repeated (n := 1) h3.2 (by decide)
      rw [hs] at h4
      rw [lexeme_is (h2 ▸ hc) h4 (by rw [hs]; rfl) ht]
      exact ⟨fun d hd => (by cases hd; rfl), fun v hv => (by cases hv)⟩
    · unfold scanStar
      exact .ite (fun _ => .tok rfl) fun _ => formatting_fact _ rfl rfl
    · unfold scanSlash
      exact .ite (fun _ => tag_fact) fun _ => .ite (fun _ => .ite (fun _ => .tok rfl) fun _ => .tok rfl) fun _ => .text
    · unfold scanPlus
      exact .ite (fun _ => .tok rfl) fun _ => .ite (fun _ => .tok rfl) fun _ => formatting_fact _ rfl rfl
    · exact formatting_fact _ rfl rfl
    · unfold scanDot
      exact .ite (fun _ => .tok rfl) fun _ => .ite (fun _ => .ite (fun _ => .tok rfl) fun _ => .tok rfl) fun _ => .text
  · unfold scanBracket
    refine .ite (fun _ => ?_) fun _ => ?_
    · unfold addBlockAnchor
      split
      · exact .panic
      · exact .tok rfl
    · split
      · rename_i j hj
        refine .exact_tok fun text ht => ?_
        obtain ⟨r, hr⟩ := attribution_text hj hs (h ▸ hc) ht
        have hb : ∀ x : UInt8, s.src.getD (s.start + 1) 0 = x → text = c!"[" :: x :: r := fun x hx => by rw [hr, hx]
        unfold attributionType
        split
        · rename_i hx
          exact ⟨fun d hd => (by cases hd), fun v hv => (by cases hv; exact .inr ⟨r, hb _ hx⟩)⟩
        split
        · rename_i hx
          exact ⟨fun d hd => (by cases hd), fun v hv => (by cases hv; exact .inr ⟨r, hb _ hx⟩)⟩
        split
        · rename_i hx
          exact ⟨fun d hd => (by cases hd), fun v hv => (by cases hv; exact .inr ⟨r, hb _ hx⟩)⟩
        split
        · rename_i hx
          exact ⟨fun d hd => (by cases hd), fun v hv => (by cases hv; exact .inr ⟨r, hb _ hx⟩)⟩
        split
        · rename_i hx
          exact ⟨fun d hd => (by cases hd), fun v hv => (by cases hv; exact .inr ⟨r, hb _ hx⟩)⟩
        · exact says_usual rfl
      · exact .ite (fun _ => bracket_fact rfl) fun _ => .text
  · unfold scanBacktick
    exact .ite (fun _ => .tok rfl) fun _ => .ite (fun _ => .tok rfl) fun _ => formatting_fact _ rfl rfl
  · exact .tok rfl
  · exact .tok rfl
  · unfold scanHash
    exact .ite (fun _ => tag_fact) fun _ => formatting_fact _ rfl rfl
  · have hr : Fact s.scanColonRest := by
      unfold scanColonRest
      exact .ite (fun _ => .tok rfl) fun _ => .text
    unfold scanColon
    refine .ite (fun _ => ?_) fun _ => hr
    split
    · exact .panic
    · exact .ite (fun _ => .hang) fun _ => .tok rfl
    · exact hr
  · refine .ite (fun _ => ?_) fun _ => .text
    unfold addParens
    exact .ite (fun _ => .hang) fun _ => .tok rfl
  · exact word_fact hs (h ▸ hc) (by decide) (by first | exact says_usual rfl | exact ⟨fun d hd => (by cases hd), fun v hv => (by cases hv; exact .inl rfl)⟩)
  · exact word_fact hs (h ▸ hc) (by decide) (by first | exact says_usual rfl | exact ⟨fun d hd => (by cases hd), fun v hv => (by cases hv; exact .inl rfl)⟩)
  · refine .ite (fun _ => ?_) fun _ => .text
    unfold addLink
    rcases linkEnd_ty s.src (s.src.length + 1 - s.current) s.current with h4 | h4
    all_goals exact .tok (by rw [h4]; rfl)
  · unfold scanI
    exact .ite (fun _ => bracket_fact rfl) fun _ => .ite (fun _ => bracket_fact rfl) fun _ => .ite (fun _ => bracket_fact rfl) fun _ => .text
  · exact .ite (fun _ => tag_fact) fun _ => .text
  · exact .ite (fun _ => tag_fact) fun _ => .text
  · exact word_fact hs (h ▸ hc) (by decide) (by first | exact says_usual rfl | exact ⟨fun d hd => (by cases hd), fun v hv => (by cases hv; exact .inl rfl)⟩)
  · exact word_fact hs (h ▸ hc) (by decide) (by first | exact says_usual rfl | exact ⟨fun d hd => (by cases hd), fun v hv => (by cases hv; exact .inl rfl)⟩)
  · exact word_fact hs (h ▸ hc) (by decide) (by first | exact says_usual rfl | exact ⟨fun d hd => (by cases hd), fun v hv => (by cases hv; exact .inl rfl)⟩)
  · exact word_fact hs (h ▸ hc) (by decide) (by first | exact says_usual rfl | exact ⟨fun d hd => (by cases hd), fun v hv => (by cases hv; exact .inl rfl)⟩)
  · exact word_fact hs (h ▸ hc) (by decide) (by first | exact says_usual rfl | exact ⟨fun d hd => (by cases hd), fun v hv => (by cases hv; exact .inl rfl)⟩)
  · exact .tok rfl
  · unfold scanAmp
    split
    · exact .panic
    · exact .tok rfl
    · exact .text
  · unfold scanBrace
    split
    · exact .panic
    · exact .tok rfl
    · exact .text
  · unfold scanPipe
    refine .ite (fun h2 => .ite (fun _ => .exact_tok fun text ht => ?_) fun _ => .text) fun _ => .ite (fun _ => cell_fact) fun _ => .text
    simp only [Bool.and_eq_true, decide_eq_true_eq] at h2
    have h4 := ahead (pat := b!"===") h2.2 (by decide)
    rw [hs] at h4
    rw [lexeme_is (q := []) (h ▸ hc) (by simpa using h4) (by show s.current + 3 = _; rw [hs]; rfl) ht]
    exact ⟨fun d hd => (by cases hd; rfl), fun v hv => (by cases hv)⟩
  · unfold scanDouble
    exact .ite (fun _ => .tok rfl) fun _ => .text
  · unfold scanSpace
    exact .ite (fun _ => tag_fact) fun _ => .text

end

theorem next_fact {s s' : Scanner} {t : Token} (h : s.next = some (.tok t, s')) : TokFact t := by
  unfold next at h
  split at h
  · split at h
    · cases h; exact .usual rfl
    · cases h
  · rename_i he
    have hlt : s.current < s.src.length := by simpa [isAtEnd] using he
    simp only [Option.some.injEq] at h
    refine fact_dispatch (s := { s with start := s.current, current := s.current + 1 }) (c := s.src.getD s.current 0) rfl ?_ t (congrArg Prod.fst h)
    show s.src[s.current]? = _
    rw [List.getD_eq_getElem?_getD, List.getElem?_eq_getElem hlt]
    rfl

theorem runF_fact {src : Str} {t : Token} : ∀ (n : Nat) (s : Scanner), s.src = src → .tok t ∈ runF n s → TokFact t
  | 0, _, _, h => by cases h
  | n + 1, s, hs, h => by
    rw [runF_succ] at h
    split at h
    · cases h
    · rename_i it s' hn
      rcases List.mem_cons.1 h with h1 | h1
      · subst h1; exact next_fact hn
      · split at h1
        · exact runF_fact n s' ((next_src hn ‹_›).1.trans hs) h1
        · cases h1

theorem run_fact {src : Str} {fs : List Str} {t : Token} (h : .tok t ∈ (newWithStack src fs).run) : TokFact t :=
  runF_fact _ _ rfl h

end Adoc.Shape
