import Verif.Proof.ShapeScan
import Verif.Props.Places
import Verif.Spec.Lexical
/-!
# Where errors come from: tokens and errors of the scanner
-/
namespace Adoc.Blame

open Scanner Origin Shape
open Kinds (peek_get drop_get)
open Props (OneLine)

/-- `n` equals signs and no more. -/
def Equals (n : Nat) (s : Scanner) : Prop :=
  s.startsNewLine = true ∧ ∃ x tail, s.src.drop s.start = List.replicate n c!"=" ++ x :: tail ∧ x ≠ c!"="

/-- A macro at the beginning of a line. -/
def Macro (name : Str) (s : Scanner) (text : Str) : Prop :=
  s.startsNewLine = true ∧ name <+: text ∧ text <+: s.src.drop s.start

/-- What is known about a token that begins at `s.start`. -/
def TokFact (s : Scanner) (t : Token) : Prop :=
  match t.ty with
  | .heading1 => Equals 1 s
  | .heading2 => Equals 2 s
  | .heading3 => Equals 3 s
  | .heading4 => Equals 4 s
  | .heading5 => Equals 5 s
  | .include => Macro b!"include::" s t.text
  | .blockImageMacro => Macro b!"image::" s t.text
  | .passthroughBlock | .literalBlock | .sourceBlock | .commentBlock | .quoteVerseBlock =>
    s.startsNewLine = true ∧ ∃ c, TokenType.blockFromChar c = some t.ty ∧ [c, c, c, c, 10] <+: s.src.drop s.start
  | .tableCell => t.text = t.lexeme ∧ ∃ r, t.text = c!"|" :: r
  | _ => True

/-- What is known about an error. -/
def ErrFact (s : Scanner) : ScanError → Prop
  | .headingLevel l => l = s.line ∧ s.startsNewLine = true ∧ List.replicate 6 c!"=" <+: s.src.drop s.start
  | .tagError text => text <:+: s.src ∧ containsStr b!"tag" text = false ∧ containsStr b!"end" text = false
  | .characterMatch => False

/-- Types of which nothing is to be known. -/
def usual : TokenType → Bool
  | .heading1 | .heading2 | .heading3 | .heading4 | .heading5 | .include | .blockImageMacro | .tableCell
  | .passthroughBlock | .literalBlock | .sourceBlock | .commentBlock | .quoteVerseBlock => false
  | _ => true

theorem TokFact.usual {s : Scanner} {t : Token} (h : usual t.ty = true) : TokFact s t := by
  obtain ⟨ty, lexeme, lit, line, c1, c2, fs⟩ := t
  cases ty <;> first | trivial | cases h

def Fact (s : Scanner) (r : Item × Scanner) : Prop := (∀ t, r.1 = .tok t → TokFact s t) ∧ ∀ e, r.1 = .err e → ErrFact s e

namespace Fact

variable {s : Scanner}

theorem exact_tok {s' : Scanner} {ty : TokenType} {lit : Bool} {a : Nat}
    (h : ∀ text, slice s'.src s'.start s'.current = some text →
      TokFact s (Token.validate ⟨ty, text, if lit then some text else none, s'.line, s'.startcol, s'.startcol + text.length - 1, s'.fileStack⟩)) :
    Fact s (addToken s' ty lit a) := by
  rcases addToken_panic_or s' ty lit a with ⟨p, s1, h1⟩ | ⟨text, hs, h1, -⟩
  · rw [h1]; exact ⟨fun t ht => (by cases ht), fun t ht => (by cases ht)⟩
  · refine ⟨fun t ht => ?_, fun e he => (by rw [h1] at he; cases he)⟩
    rw [ht] at h1
    simp only [Item.tok.injEq] at h1
    rw [h1]
    exact h text hs

theorem tok {s' : Scanner} {ty : TokenType} {lit : Bool} {a : Nat} (h : usual ty = true) : Fact s (addToken s' ty lit a) := by
  refine exact_tok fun text _ => .usual ?_
  rcases validate_ty ⟨ty, text, if lit then some text else none, s'.line, s'.startcol, s'.startcol + text.length - 1, s'.fileStack⟩ with h' | ⟨h', -⟩
  · rw [h']; exact h
  · rw [h']; rfl

theorem text {s' : Scanner} : Fact s s'.addText := tok rfl

theorem ite {p : Prop} [Decidable p] {a b : Item × Scanner} (h1 : p → Fact s a) (h2 : ¬p → Fact s b) : Fact s (if p then a else b) := by
  split
  · exact h1 ‹_›
  · exact h2 ‹_›

theorem panic {e : Site} {s' : Scanner} : Fact s (.panic e, s') := ⟨fun t ht => (by cases ht), fun t ht => (by cases ht)⟩
theorem hang {s' : Scanner} : Fact s (.hang, s') := ⟨fun t ht => (by cases ht), fun t ht => (by cases ht)⟩

end Fact

section
variable {s : Scanner} {c : UInt8}

theorem slice_infix {src r : Str} {i j : Nat} (h : slice src i j = some r) : r <+: src.drop i := by
  unfold slice at h
  split at h
  · cases h; exact List.take_prefix _ _
  · cases h

theorem tagStart_src {s' : Scanner} (h : s.tagStart = some s') : s'.src = s.src := by
  unfold tagStart at h
  split at h
  · dsimp only at h
    split at h
    · cases h
    · cases h; rfl
  · cases h; rfl

theorem tag_fact : Fact s s.addTag := by
  unfold addTag
  split
  · exact .hang
  · rename_i s' hs'
    dsimp only
    split
    · exact .panic
    · rename_i text ht
      refine .ite (fun _ => ?_) fun h1 => .ite (fun _ => ?_) fun h2 => ⟨fun t ht => (by cases ht), fun e he => ?_⟩
      · exact Fact.tok (ty := .startTag) rfl
      · exact Fact.tok (ty := .endTag) rfl
      · cases he
        have := (slice_infix ht).isInfix.trans (List.drop_suffix _ _).isInfix
        rw [tagStart_src hs'] at this
        exact ⟨this, by simpa using h1, by simpa using h2⟩

theorem formatting_fact (c : UInt8) {t u : TokenType} (ht : usual t = true) (hu : usual u = true) : Fact s (s.inlineFormatting c t u) := by
  unfold inlineFormatting
  exact .ite (fun _ => .text) fun _ => .ite (fun _ => .tok hu) fun _ => .ite (fun _ => .tok ht) fun _ => .text

theorem bracket_fact {ty : TokenType} (h : usual ty = true) : Fact s (s.addThroughBracket ty) := by
  unfold addThroughBracket
  exact .ite (fun _ => .hang) fun _ => .tok h

theorem peek_ascii {src : Str} {k : Nat} {c : UInt8} (h : src[k]? = some c) (hc : isCont c = false) : peekAt src k = c := by
  unfold peekAt isBoundary
  rw [h, List.getD_eq_getElem?_getD, h]
  simp [hc]

theorem macro_fact {m : Str} {ty : TokenType} {c : UInt8} (hs : s.current = s.start + 1) (hc : s.src[s.start]? = some c) (hm : m ≠ [0])
    (hm' : c!"]" ∉ m) (h : (s.startsNewLine && decide (s.peeksAhead m.length = m)) = true) (hv : ∀ t : Token, t.ty = ty → t.validate = t)
    (htx : ∀ t : Token, t.ty = ty → ∀ x, t.lit = some x → t.text = x)
    (hty : ∀ {t : Token}, t.ty = ty → Macro (c :: m) s t.text → TokFact s t) : Fact s (s.addThroughBracket ty) := by
  simp only [Bool.and_eq_true, decide_eq_true_eq] at h
  have ha := ahead (pat := m) h.2 hm
  unfold addThroughBracket
  refine .ite (fun _ => .hang) fun hlt => .exact_tok fun text ht => ?_
  rw [hv _ rfl]
  refine hty rfl ?_
  rw [show Token.text _ = text from htx _ rfl text rfl]
  refine ⟨h.1, ?_, ?_⟩
  · have hlen : s.current + m.length ≤ adv s.src (· ≠ c!"]") s.current := by
      apply Decidable.byContradiction
      intro hh
      have hge := adv_ge s.src (· ≠ c!"]") s.current
      have hl : adv s.src (· ≠ c!"]") s.current < s.src.length := by omega
      have hst := adv_stop s.src (· ≠ c!"]") s.current hl
      obtain ⟨q, hq⟩ := ha
      have hk : s.src[adv s.src (· ≠ c!"]") s.current] ∈ m := by
        have : (s.src.drop s.current)[adv s.src (· ≠ c!"]") s.current - s.current]? = some s.src[adv s.src (· ≠ c!"]") s.current] := by
          rw [List.getElem?_drop, show s.current + (adv s.src (· ≠ c!"]") s.current - s.current) = adv s.src (· ≠ c!"]") s.current by omega,
            List.getElem?_eq_getElem hl]
        rw [← hq, List.getElem?_append_left (by omega)] at this
        exact List.mem_of_getElem? this
      have hst : s.src[adv s.src (· ≠ c!"]") s.current]? = some c!"]" :=
        peek_get (c := c!"]") (Decidable.not_not.1 (of_decide_eq_false hst)) (by decide)
      rw [List.getElem?_eq_getElem hl] at hst
      exact hm' (by rw [← Option.some.inj hst]; exact hk)
    unfold slice at ht
    split at ht
    · cases ht
      show c :: m <+: List.take (adv s.src (· ≠ c!"]") s.current + 1 - s.start) (List.drop s.start s.src)
      rw [List.prefix_take_iff]
      refine ⟨?_, by rw [List.length_cons]; omega⟩
      rw [drop_get hc, ← hs]
      exact List.cons_prefix_cons.2 ⟨rfl, ha⟩
    · cases ht
  · exact slice_infix ht

theorem heading_fact (hs : s.current = s.start + 1) (hc : s.src[s.start]? = some c!"=") (hn : s.startsNewLine = true) : Fact s s.addHeading := by
  have hge := adv_ge s.src (· = c!"=") s.current
  have hlt := (List.getElem?_eq_some_iff.1 hc).1
  have hle := adv_le s.src (· = c!"=") s.current (by omega)
  have hall : ∀ k, adv s.src (· = c!"=") s.current - s.start = k → s.src.drop s.start = List.replicate k c!"=" ++ s.src.drop (s.start + k) := by
    intro k hk
    apply List.ext_getElem?
    intro i
    rw [List.getElem?_drop]
    by_cases hi : i < k
    · rw [List.getElem?_append_left (by simpa using hi), List.getElem?_replicate, if_pos hi]
      by_cases h0 : i = 0
      · subst h0; exact hc
      · obtain ⟨h1, h2⟩ := adv_all s.src (· = c!"=") s.current (s.start + i) (by omega) (by omega)
        exact peek_get (by simpa using h2) (by decide)
    · rw [List.getElem?_append_right (by simp; omega), List.getElem?_drop]
      congr 1
      simp; omega
  have heq : ∀ k, adv s.src (· = c!"=") s.current + 1 - 1 - s.start = k → ∀ text, slice s.src s.start (adv s.src (· = c!"=") s.current + 1) = some text →
      Equals k s := by
    intro k hk text ht
    have hlen : adv s.src (· = c!"=") s.current < s.src.length := by
      unfold slice at ht
      split at ht
      · rename_i h; omega
      · cases ht
    refine ⟨hn, s.src[adv s.src (· = c!"=") s.current], s.src.drop (adv s.src (· = c!"=") s.current + 1), ?_, ?_⟩
    · rw [hall k (by omega), show s.start + k = adv s.src (· = c!"=") s.current by omega, List.drop_eq_getElem_cons hlen]
    · intro hx
      have h1 := adv_stop _ _ _ hlen
      rw [peek_ascii (c := c!"=") (by rw [List.getElem?_eq_getElem hlen, hx]) (by decide)] at h1
      exact absurd h1 (by decide)
  unfold addHeading
  dsimp only
  split
  · rename_i h; exact .exact_tok fun text ht => heq _ h text ht
  · rename_i h; exact .exact_tok fun text ht => heq _ h text ht
  · rename_i h; exact .exact_tok fun text ht => heq _ h text ht
  · rename_i h; exact .exact_tok fun text ht => heq _ h text ht
  · rename_i h; exact .exact_tok fun text ht => heq _ h text ht
  · rename_i h1 h2 h3 h4 h5
    refine ⟨fun t ht => (by cases ht), fun e he => ?_⟩
    cases he
    refine ⟨rfl, hn, ?_⟩
    obtain ⟨k, hk⟩ : ∃ k, adv s.src (· = c!"=") s.current - s.start = 6 + k := ⟨adv s.src (· = c!"=") s.current - s.start - 6, by
      have h1' : adv s.src (· = c!"=") s.current + 1 - 1 - s.start ≠ 1 := h1
      have h2' : adv s.src (· = c!"=") s.current + 1 - 1 - s.start ≠ 2 := h2
      have h3' : adv s.src (· = c!"=") s.current + 1 - 1 - s.start ≠ 3 := h3
      have h4' : adv s.src (· = c!"=") s.current + 1 - 1 - s.start ≠ 4 := h4
      have h5' : adv s.src (· = c!"=") s.current + 1 - 1 - s.start ≠ 5 := h5
      omega⟩
    rw [hall _ hk, ← List.replicate_append_replicate, List.append_assoc]
    exact List.prefix_append _ _

theorem word_fact {rest : Str} {ty : TokenType} {lit : Bool} (h : usual ty = true) : Fact s (s.scanWord rest ty lit) := by
  unfold scanWord
  exact .ite (fun _ => .tok h) fun _ => .text

theorem callouts_fact : Fact s s.scanCallouts := by
  have fin : ∀ s1 : Scanner, Fact s (if s1.startsCallout.1 = true then addToken s1.startsCallout.2 .codeCallout true 0 else s1.startsCallout.2.addText) :=
    fun s1 => .ite (fun _ => .tok rfl) fun _ => .text
  unfold scanCallouts
  refine .ite (fun _ => ?_) fun _ => fin s
  exact .ite (fun h => .tok rfl) fun _ => fin _

theorem cell_fact (hs : s.current = s.start + 1) (hc : s.src[s.start]? = some c!"|") : Fact s s.addTableCell := by
  unfold addTableCell
  refine .exact_tok fun text ht => ⟨rfl, ?_⟩
  have hge := tableCellEnd_ge s.src (s.src.length + 1 - s.current) s.current
  unfold slice at ht
  split at ht
  · cases ht
    obtain ⟨k, hk⟩ : ∃ k, tableCellEnd s.src (s.src.length + 1 - s.current) s.current - s.start = k + 1 :=
      ⟨tableCellEnd s.src (s.src.length + 1 - s.current) s.current - s.start - 1, by omega⟩
    refine ⟨(s.src.drop (s.start + 1)).take k, ?_⟩
    show List.take (tableCellEnd s.src (s.src.length + 1 - s.current) s.current - s.start) (List.drop s.start s.src) = _
    rw [hk, drop_get hc]
    rfl
  · cases ht

theorem delim_some (h : c = c!"+" ∨ c = c!"*" ∨ c = c!"-" ∨ c = c!"_" ∨ c = c!"/" ∨ c = c!"=" ∨ c = c!".") :
    TokenType.blockFromChar c ≠ none := by
  rcases h with h | h | h | h | h | h | h <;> subst h <;> decide

theorem fact_dispatch (hs : s.current = s.start + 1) (hc : s.src[s.start]? = some c) : Fact s (dispatch s c) := by
  unfold dispatch
  refine .ite (fun _ => .tok rfl) fun _ => .ite (fun h => ?_) fun _ => .ite (fun h => ?_) fun _ =>
    .ite (fun h => ?_) fun _ => .ite (fun h => ?_) fun _ => .ite (fun h => ?_) fun _ => .ite (fun h => ?_) fun _ =>
    .ite (fun h => ?_) fun _ => .ite (fun h => ?_) fun _ => .ite (fun h => ?_) fun _ => .ite (fun h => ?_) fun _ =>
    .ite (fun h => ?_) fun _ => .ite (fun h => ?_) fun _ => .ite (fun h => ?_) fun _ => .ite (fun h => ?_) fun _ =>
    .ite (fun h => ?_) fun _ => .ite (fun h => ?_) fun _ => .ite (fun h => ?_) fun _ => .ite (fun h => ?_) fun _ =>
    .ite (fun h => ?_) fun _ => .ite (fun h => ?_) fun _ => .ite (fun h => ?_) fun _ => .ite (fun h => ?_) fun _ =>
    .ite (fun h => ?_) fun _ => .ite (fun h => ?_) fun _ => .ite (fun h => ?_) fun _ => .ite (fun h => ?_) fun _ =>
    .ite (fun h => ?_) fun _ => .text
  · unfold scanQuote
    exact .ite (fun _ => tag_fact) fun _ => .ite (fun _ => .tok rfl) fun _ => .ite (fun _ => .tok rfl) fun _ => .ite (fun _ => .tok rfl) fun _ => .text
  · unfold scanLess
    refine .ite (fun _ => tag_fact) fun _ => .ite (fun _ => .tok rfl) fun _ => .ite (fun _ => .tok rfl) fun _ => .ite (fun _ => ?_)
      fun _ => callouts_fact
    unfold addCrossReference
    split
    · exact .panic
    · exact .tok rfl
  · unfold scanDelimChar
    refine .ite (fun _ => tag_fact) fun _ => .ite (fun h2 => ?_) fun _ => .ite (fun h2 => ?_) fun _ => .ite (fun h2 => ?_)
      fun _ => .ite (fun h2 => ?_) fun _ => .ite (fun h2 => ?_) fun _ => .ite (fun h2 => ?_) fun _ => .ite (fun h2 => ?_)
      fun _ => .ite (fun h2 => ?_) fun _ => .text
    · split
      · rename_i ty hty
        simp only [Bool.and_eq_true] at h2
        have h4 := repeated (n := 3) h2.2 (by decide)
        rw [hs] at h4
        have h5 : s.startsNewLine = true ∧ ∃ c, TokenType.blockFromChar c = some ty ∧ [c, c, c, c, 10] <+: s.src.drop s.start :=
          ⟨h2.1, c, hty, by rw [drop_get hc]; exact List.cons_prefix_cons.2 ⟨rfl, h4⟩⟩
        unfold TokenType.blockFromChar at hty
        repeat' split at hty
        all_goals first
          | cases hty; done
          | (cases hty
             first
             | exact .tok rfl
             | exact .exact_tok fun _ _ => h5)
      · rename_i hty
        exact absurd hty (delim_some h)
    · unfold scanEquals
      exact .ite (fun _ => .tok rfl) fun _ => .ite (fun h3 => heading_fact hs (h2 ▸ hc) h3) fun _ => .text
    · unfold scanMinus
      exact .ite (fun _ => .tok rfl) fun _ => .ite (fun _ => .tok rfl) fun _ => .ite (fun _ => .tok rfl) fun _ => .text
    · unfold scanStar
      exact .ite (fun _ => .tok rfl) fun _ => formatting_fact _ rfl rfl
    · unfold scanSlash
      exact .ite (fun _ => tag_fact) fun _ => .ite (fun _ => .ite (fun _ => .tok rfl) fun _ => .tok rfl) fun _ => .text
    · unfold scanPlus
      exact .ite (fun _ => .tok rfl) fun _ => .ite (fun _ => .tok rfl) fun _ => formatting_fact _ rfl rfl
    · exact formatting_fact _ rfl rfl
    · unfold scanDot
      exact .ite (fun _ => .tok rfl) fun _ => .ite (fun _ => .ite (fun _ => .tok rfl) fun _ => .tok rfl) fun _ => .text
  · unfold scanBracket
    refine .ite (fun _ => ?_) fun _ => ?_
    · unfold addBlockAnchor
      split
      · exact .panic
      · exact .tok rfl
    · split
      · refine .tok ?_
        unfold attributionType
        repeat' split
        all_goals rfl
      · exact .ite (fun _ => bracket_fact rfl) fun _ => .text
  · unfold scanBacktick
    exact .ite (fun _ => .tok rfl) fun _ => .ite (fun _ => .tok rfl) fun _ => formatting_fact _ rfl rfl
  · exact .tok rfl
  · exact .tok rfl
  · unfold scanHash
    exact .ite (fun _ => tag_fact) fun _ => formatting_fact _ rfl rfl
  · have hr : Fact s s.scanColonRest := by
      unfold scanColonRest
      exact .ite (fun _ => .tok rfl) fun _ => .text
    unfold scanColon
    refine .ite (fun _ => ?_) fun _ => hr
    split
    · exact .panic
    · exact .ite (fun _ => .hang) fun _ => .tok rfl
    · exact hr
  · refine .ite (fun _ => ?_) fun _ => .text
    unfold addParens
    exact .ite (fun _ => .hang) fun _ => .tok rfl
  · exact word_fact rfl
  · exact word_fact rfl
  · refine .ite (fun _ => ?_) fun _ => .text
    unfold addLink
    rcases linkEnd_ty s.src (s.src.length + 1 - s.current) s.current with h4 | h4
    all_goals exact .tok (by rw [h4]; rfl)
  · unfold scanI
    exact .ite (fun h3 => macro_fact (m := b!"nclude::") hs (h ▸ hc) (by decide) (by decide) h3 (fun t ht => (by unfold Token.validate; rw [ht])) (fun t ht x hx => (by unfold Token.text; rw [ht, hx])) fun ht h => (by unfold TokFact; rw [ht]; exact h)) fun _ =>
      .ite (fun h3 => macro_fact (m := b!"mage::") hs (h ▸ hc) (by decide) (by decide) h3 (fun t ht => (by unfold Token.validate; rw [ht])) (fun t ht x hx => (by unfold Token.text; rw [ht, hx])) fun ht h => (by unfold TokFact; rw [ht]; exact h)) fun _ => .ite (fun _ => bracket_fact rfl) fun _ => .text
  · exact .ite (fun _ => tag_fact) fun _ => .text
  · exact .ite (fun _ => tag_fact) fun _ => .text
  · exact word_fact rfl
  · exact word_fact rfl
  · exact word_fact rfl
  · exact word_fact rfl
  · exact word_fact rfl
  · exact .tok rfl
  · unfold scanAmp
    split
    · exact .panic
    · exact .tok rfl
    · exact .text
  · unfold scanBrace
    split
    · exact .panic
    · exact .tok rfl
    · exact .text
  · unfold scanPipe
    exact .ite (fun _ => .ite (fun _ => .tok rfl) fun _ => .text) fun _ => .ite (fun _ => cell_fact hs (h ▸ hc)) fun _ => .text
  · unfold scanDouble
    exact .ite (fun _ => .tok rfl) fun _ => .text
  · unfold scanSpace
    exact .ite (fun _ => tag_fact) fun _ => .text

end

theorem next_fact {s s' : Scanner} {it : Item} (h : s.next = some (it, s')) (hlt : s.current < s.src.length) :
    (∀ t, it = .tok t → TokFact { s with start := s.current } t) ∧ ∀ e, it = .err e → ErrFact { s with start := s.current } e := by
  unfold next at h
  split at h
  · rename_i he
    have : s.src.length ≤ s.current := by simpa [isAtEnd] using he
    omega
  · simp only [Option.some.injEq] at h
    have := fact_dispatch (s := { s with start := s.current, current := s.current + 1 }) (c := s.src.getD s.current 0) rfl (by
      show s.src[s.current]? = _
      rw [List.getD_eq_getElem?_getD, List.getElem?_eq_getElem hlt]
      rfl)
    have hf := congrArg Prod.fst h
    exact ⟨fun t ht => this.1 t (hf.trans ht), fun e he => this.2 e (hf.trans he)⟩

/-- The text before an item, the scanner there, and what is known about the item. -/
theorem run_at {src : Str} {fs : List Str} {toks : List Token} {it : Item} {rest : List Item}
    (h : (newWithStack src fs).run = toks.map .tok ++ it :: rest) (hn : ∀ t ∈ toks, OneLine t) :
    ∃ s s' : Scanner, s.src = src ∧ s.current ≤ src.length ∧ s.line = Spec.lineAfter (src.take s.current) ∧ s.next = some (it, s') := by
  obtain ⟨s, h1, h2⟩ := trace_of_runF (n := src.length + 2) (s := newWithStack src fs) (pre := toks.map .tok) h
    (by intro it hi; obtain ⟨t, _, rfl⟩ := List.mem_map.1 hi; rfl)
  obtain ⟨p1, p2, p3, -⟩ := Props.trace_pos (src := src) h1 hn rfl (by simp [newWithStack]) rfl rfl
  obtain ⟨s2, h4⟩ := Props.runF_head h2
  exact ⟨s, s2, p1, p2, p3, h4⟩

theorem newLine_iff {s : Scanner} (h : s.startsNewLine = true) (hle : s.start ≤ s.src.length) :
    Lexical.LineStart (s.src.take s.start) := by
  unfold startsNewLine at h
  simp only [Bool.or_eq_true, decide_eq_true_eq] at h
  rcases h with h | h
  · left; rw [h]; rfl
  · by_cases h0 : s.start = 0
    · left; rw [h0]; rfl
    · right
      rw [List.getLast?_take, if_neg h0]
      rw [List.getD_eq_getElem?_getD, List.getElem?_eq_getElem (by omega)] at h
      rw [List.getElem?_eq_getElem (by omega)]
      simpa using h

end Adoc.Blame
