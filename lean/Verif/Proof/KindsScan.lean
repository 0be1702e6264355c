import Verif.Spec.Kinds
import Verif.Proof.OriginScan
/-!
# Kinds of blocks: tokens

What the parser needs to know about the tokens of list items, cells and continuations.
-/
namespace Adoc.Kinds

open Scanner Origin

/-- What is known about a token of the text `src`. -/
structure TokFact (src : Str) (t : Token) : Prop where
  star : t.ty = .unorderedListItem → t.lexeme = b!"* "
  dot : t.ty = .orderedListItem → t.lexeme = b!". "
  callout : t.ty = .codeCalloutListItem → ∃ n, t.lexeme = b!"<" ++ n ++ b!"> "
  cell : t.ty = .tableCell → t.lit = some t.lexeme ∧ c!"\n" ∉ t.lexeme
  cont : t.ty = .blockContinuation → plusLine src

/-- Types of which nothing is to be known. -/
def usual : TokenType → Bool
  | .unorderedListItem | .orderedListItem | .codeCalloutListItem | .tableCell | .blockContinuation => false
  | _ => true

theorem TokFact.usual {src : Str} {t : Token} (h : usual t.ty = true) : TokFact src t := by
  constructor <;> intro h' <;> rw [h'] at h <;> cases h

def Fact (src : Str) (r : Item × Scanner) : Prop := ∀ t, r.1 = .tok t → TokFact src t

namespace Fact
variable {src : Str}

theorem tok {s : Scanner} {ty : TokenType} {lit : Bool} {a : Nat} (h : usual ty = true) : Fact src (addToken s ty lit a) := by
  intro t ht
  refine .usual ?_
  rcases addToken_ty (s' := (addToken s ty lit a).2) (t := t) (by rw [← ht]) with h' | h'
  · rw [h']; exact h
  · rw [h']; rfl

theorem exact_tok {s : Scanner} {ty : TokenType} {lit : Bool} (hv : Kinds.usual ty = false)
    (h : ∀ text, slice s.src s.start s.current = some text →
      TokFact src ⟨ty, text, if lit then some text else none, s.line, s.startcol, s.startcol + text.length - 1, s.fileStack⟩) :
    Fact src (addToken s ty lit 0) := by
  intro t ht
  rcases addToken_panic_or s ty lit 0 with ⟨p, s1, h1⟩ | ⟨text, hs, h1, -⟩
  · rw [h1] at ht; cases ht
  · rw [ht] at h1
    have := h text hs
    simp only [Item.tok.injEq] at h1
    rw [h1]
    cases ty <;> first | cases hv; done | exact this

theorem text {s : Scanner} : Fact src s.addText := tok rfl

theorem ite {p : Prop} [Decidable p] {a b : Item × Scanner} (h1 : p → Fact src a) (h2 : ¬p → Fact src b) :
    Fact src (if p then a else b) := by
  by_cases h : p
  · rw [if_pos h]; exact h1 h
  · rw [if_neg h]; exact h2 h

theorem err {e : ScanError} {s : Scanner} : Fact src (.err e, s) := by intro t ht; cases ht
theorem panic {e : Site} {s : Scanner} : Fact src (.panic e, s) := by intro t ht; cases ht
theorem hang {s : Scanner} : Fact src (.hang, s) := by intro t ht; cases ht

end Fact

theorem peek_get {src : Str} {i : Nat} {c : UInt8} (h : peekAt src i = c) (hc : c ≠ 0) : src[i]? = some c := by
  unfold peekAt at h
  split at h
  · rw [List.getD_eq_getElem?_getD] at h
    cases hi : src[i]? with
    | none => rw [hi] at h; exact absurd h.symm hc
    | some x => rw [hi] at h; rw [← h]; rfl
  · exact absurd h.symm hc

theorem drop_get {src : Str} {i : Nat} {a : UInt8} (h : src[i]? = some a) : src.drop i = a :: src.drop (i + 1) := by
  obtain ⟨hlt, h2⟩ := List.getElem?_eq_some_iff.1 h
  rw [List.drop_eq_getElem_cons hlt, h2]

theorem two {src : Str} {i : Nat} {a b : UInt8} (h : src[i]? = some a) (h' : src[i + 1]? = some b) : (src.drop i).take 2 = [a, b] := by
  rw [drop_get h, drop_get h']; rfl

section
variable {src : Str} {s : Scanner} {c : UInt8}

theorem tag_fact : Fact src s.addTag := by
  unfold addTag
  split
  · exact .hang
  · dsimp only
    split
    · exact .panic
    · refine .ite (fun _ => ?_) fun _ => .ite (fun _ => ?_) fun _ => .err
      · exact Fact.tok (ty := .startTag) rfl
      · exact Fact.tok (ty := .endTag) rfl

theorem formatting_fact (c : UInt8) {t u : TokenType} (ht : usual t = true) (hu : usual u = true) : Fact src (s.inlineFormatting c t u) := by
  unfold inlineFormatting
  exact .ite (fun _ => .text) fun _ => .ite (fun _ => .tok hu) fun _ => .ite (fun _ => .tok ht) fun _ => .text

theorem bracket_fact {ty : TokenType} (h : usual ty = true) : Fact src (s.addThroughBracket ty) := by
  unfold addThroughBracket
  exact .ite (fun _ => .hang) fun _ => .tok h

theorem heading_fact : Fact src s.addHeading := by
  unfold addHeading
  dsimp only
  split
  all_goals first | exact .tok rfl | exact .err

theorem word_fact {rest : Str} {ty : TokenType} {lit : Bool} (h : usual ty = true) : Fact src (s.scanWord rest ty lit) := by
  unfold scanWord
  exact .ite (fun _ => .tok h) fun _ => .text

theorem callouts_fact (hs : s.current = s.start + 1) (hc : s.src[s.start]? = some c!"<") : Fact src s.scanCallouts := by
  have fin : ∀ s1 : Scanner, Fact src (if s1.startsCallout.1 = true then addToken s1.startsCallout.2 .codeCallout true 0 else s1.startsCallout.2.addText) :=
    fun s1 => .ite (fun _ => .tok rfl) fun _ => .text
  unfold scanCallouts
  refine .ite (fun _ => ?_) fun _ => fin s
  refine .ite (fun h => .exact_tok rfl fun text ht => ?_) fun _ => fin _
  refine ⟨fun h => (by cases h), fun h => (by cases h), fun _ => ?_, fun h => (by cases h), fun h => (by cases h)⟩
  unfold startsCalloutListItem at h ht
  dsimp only at h ht
  simp only [Bool.and_eq_true, decide_eq_true_eq] at h
  obtain ⟨h1, h2⟩ := h
  unfold calloutScan at h1 h2 ht
  dsimp only at h1 h2 ht
  have hj := adv_ge s.src isDigit s.current
  split at h1
  · rename_i hgt
    rw [if_pos hgt] at h2 ht
    dsimp only at ht
    have g1 := peek_get hgt (by decide)
    have g2 := peek_get h2 (by decide)
    generalize hjj : adv s.src isDigit s.current = j at *
    have hl := (slice_some ht).2.2.2.2
    have e1 : s.src.drop s.start = c!"<" :: s.src.drop (s.start + 1) := drop_get hc
    have e3 : s.src.drop j = c!">" :: c!" " :: s.src.drop (j + 1 + 1) := by rw [drop_get g1, drop_get g2]
    obtain ⟨d, hlen, e2⟩ : ∃ d : Str, d.length = j - (s.start + 1) ∧ s.src.drop (s.start + 1) = d ++ s.src.drop j := by
      refine ⟨(s.src.drop (s.start + 1)).take (j - (s.start + 1)), ?_, ?_⟩
      · rw [List.length_take, List.length_drop]
        have := (List.getElem?_eq_some_iff.1 g1).1
        omega
      · conv => lhs; rw [← List.take_append_drop (j - (s.start + 1)) (s.src.drop (s.start + 1)), List.drop_drop]
        rw [show s.start + 1 + (j - (s.start + 1)) = j from by omega]
    refine ⟨d, ?_⟩
    rw [hl, e1, e2, e3, show j + 1 + 1 - s.start = d.length + 2 + 1 from by omega, List.take_succ_cons, List.take_append]
    simp
    exact List.take_of_length_le (by omega)
  · cases h1

theorem cellEnd_line (src : Str) : ∀ (n i k : Nat), i ≤ k → k < tableCellEnd src n i → src[k]? ≠ some c!"\n"
  | 0, i, k, h1, h2 => by unfold tableCellEnd at h2; omega
  | n + 1, i, k, h1, h2 => by
    unfold tableCellEnd at h2
    dsimp only at h2
    have base : k < adv src (fun b => b ≠ c!"\n" && b ≠ 0 && b ≠ c!"|") i → src[k]? ≠ some c!"\n" := by
      intro h hk
      have := adv_all src _ i k h1 h
      unfold peekAt at this
      split at this
      · rw [List.getD_eq_getElem?_getD, hk] at this
        simp at this
      · simp at this
    split at h2
    · rename_i hb
      by_cases hlt : k < adv src (fun b => b ≠ c!"\n" && b ≠ 0 && b ≠ c!"|") i
      · exact base hlt
      by_cases heq : k = adv src (fun b => b ≠ c!"\n" && b ≠ 0 && b ≠ c!"|") i
      · rw [heq, peek_get hb.1 (by decide)]; decide
      · exact cellEnd_line src n _ k (by omega) h2
    · exact base h2

theorem cell_fact (hs : s.current = s.start + 1) (hc : s.src[s.start]? = some c!"|") : Fact src s.addTableCell := by
  unfold addTableCell
  refine .exact_tok rfl fun text ht => ?_
  refine ⟨fun h => (by cases h), fun h => (by cases h), fun h => (by cases h), fun _ => ⟨rfl, fun hm => ?_⟩, fun h => (by cases h)⟩
  have hl := (slice_some ht).2.2.2.2
  obtain ⟨k, hk⟩ := List.mem_iff_getElem?.1 hm
  dsimp only at hl hk
  rw [hl, List.getElem?_take] at hk
  split at hk
  · rename_i hlt
    rw [List.getElem?_drop] at hk
    by_cases h0 : k = 0
    · subst h0; rw [Nat.add_zero, hc] at hk; cases hk
    · exact cellEnd_line s.src (s.src.length + 1 - s.current) s.current (s.start + k) (by omega) (by omega) hk
  · cases hk

theorem fact_dispatch (hs : s.current = s.start + 1) (hc : s.src[s.start]? = some c) : Fact s.src (dispatch s c) := by
  unfold dispatch
  refine .ite (fun _ => .tok rfl) fun _ => .ite (fun h => ?_) fun _ => .ite (fun h => ?_) fun _ =>
    .ite (fun h => ?_) fun _ => .ite (fun h => ?_) fun _ => .ite (fun h => ?_) fun _ => .ite (fun h => ?_) fun _ =>
    .ite (fun h => ?_) fun _ => .ite (fun h => ?_) fun _ => .ite (fun h => ?_) fun _ => .ite (fun h => ?_) fun _ =>
    .ite (fun h => ?_) fun _ => .ite (fun h => ?_) fun _ => .ite (fun h => ?_) fun _ => .ite (fun h => ?_) fun _ =>
    .ite (fun h => ?_) fun _ => .ite (fun h => ?_) fun _ => .ite (fun h => ?_) fun _ => .ite (fun h => ?_) fun _ =>
    .ite (fun h => ?_) fun _ => .ite (fun h => ?_) fun _ => .ite (fun h => ?_) fun _ => .ite (fun h => ?_) fun _ =>
    .ite (fun h => ?_) fun _ => .ite (fun h => ?_) fun _ => .ite (fun h => ?_) fun _ => .ite (fun h => ?_) fun _ =>
    .ite (fun h => ?_) fun _ => .text
  · unfold scanQuote
    exact .ite (fun _ => tag_fact) fun _ => .ite (fun _ => .tok rfl) fun _ => .ite (fun _ => .tok rfl) fun _ => .ite (fun _ => .tok rfl) fun _ => .text
  · unfold scanLess
    refine .ite (fun _ => tag_fact) fun _ => .ite (fun _ => .tok rfl) fun _ => .ite (fun _ => .tok rfl) fun _ => .ite (fun _ => ?_)
      fun _ => callouts_fact hs (h ▸ hc)
    unfold addCrossReference
    split
    · exact .panic
    · exact .tok rfl
  · unfold scanDelimChar
    refine .ite (fun _ => tag_fact) fun _ => .ite (fun h2 => ?_) fun _ => .ite (fun h2 => ?_) fun _ => .ite (fun h2 => ?_)
      fun _ => .ite (fun h2 => ?_) fun _ => .ite (fun h2 => ?_) fun _ => .ite (fun h2 => ?_) fun _ => .ite (fun h2 => ?_)
      fun _ => .ite (fun h2 => ?_) fun _ => .text
    · split
      · rename_i ty hty
        refine .tok ?_
        unfold TokenType.blockFromChar at hty
        repeat' split at hty
        all_goals first | cases hty; done | (cases hty; rfl)
      · exact .err
    · unfold scanEquals
      exact .ite (fun _ => .tok rfl) fun _ => .ite (fun _ => heading_fact) fun _ => .text
    · unfold scanMinus
      exact .ite (fun _ => .tok rfl) fun _ => .ite (fun _ => .tok rfl) fun _ => .ite (fun _ => .tok rfl) fun _ => .text
    · unfold scanStar
      refine .ite (fun h3 => ?_) fun _ => formatting_fact _ rfl rfl
      simp only [Bool.and_eq_true, decide_eq_true_eq] at h3
      unfold addListItem
      refine .exact_tok rfl fun text ht => ?_
      refine ⟨fun _ => ?_, fun h => (by cases h), fun h => (by cases h), fun h => (by cases h), fun h => (by cases h)⟩
      have hl := (slice_some ht).2.2.2.2
      dsimp only at hl ⊢
      have h4 : s.src[s.current]? = some c!" " := peek_get h3.2 (by decide)
      rw [hs] at h4
      rw [hl, show s.current + 1 - s.start = 2 from by omega, two (h2 ▸ hc) h4]
    · unfold scanSlash
      exact .ite (fun _ => tag_fact) fun _ => .ite (fun _ => .ite (fun _ => .tok rfl) fun _ => .tok rfl) fun _ => .text
    · unfold scanPlus
      refine .ite (fun h3 => ?_) fun _ => .ite (fun h3 => .tok rfl) fun _ => formatting_fact _ rfl rfl
      simp only [Bool.and_eq_true, decide_eq_true_eq] at h3
      refine .exact_tok rfl fun text ht => ?_
      refine ⟨fun h => (by cases h), fun h => (by cases h), fun h => (by cases h), fun h => (by cases h), fun _ => ?_⟩
      have h4 : s.src[s.current]? = some c!"\n" := peek_get h3.2 (by decide)
      rw [hs] at h4
      refine ⟨s.src.take s.start, s.src.drop (s.start + 1 + 1), ?_, ?_⟩
      · conv => lhs; rw [← List.take_append_drop s.start s.src, drop_get (h2 ▸ hc), drop_get h4]
        simp
      · have h5 := h3.1
        unfold startsNewLine at h5
        simp only [Bool.or_eq_true, decide_eq_true_eq] at h5
        rcases h5 with h5 | h5
        · left; rw [h5]; rfl
        · right
          have hlt : s.start < s.src.length := (List.getElem?_eq_some_iff.1 hc).1
          by_cases h0 : s.start = 0
          · rw [h0] at h5 hc
            have : s.src.getD 0 0 = c := by rw [List.getD_eq_getElem?_getD, hc]; rfl
            rw [show 0 - 1 = 0 from rfl, this, h2] at h5
            cases h5
          · refine ⟨s.src.take (s.start - 1), ?_⟩
            have h6 : s.src[s.start - 1]? = some c!"\n" := by
              rw [List.getD_eq_getElem?_getD, List.getElem?_eq_getElem (by omega)] at h5
              rw [List.getElem?_eq_getElem (by omega), ← h5]; rfl
            have := List.take_add_one (l := s.src) (i := s.start - 1)
            rw [show s.start - 1 + 1 = s.start from by omega, h6] at this
            exact this
    · exact formatting_fact _ rfl rfl
    · unfold scanDot
      refine .ite (fun _ => .tok rfl) fun _ => .ite (fun _ => .ite (fun h3 => ?_) fun _ => .tok rfl) fun _ => .text
      unfold addListItem
      refine .exact_tok rfl fun text ht => ?_
      refine ⟨fun h => (by cases h), fun _ => ?_, fun h => (by cases h), fun h => (by cases h), fun h => (by cases h)⟩
      have hl := (slice_some ht).2.2.2.2
      dsimp only at hl ⊢
      have h4 : s.src[s.current]? = some c!" " := peek_get h3 (by decide)
      rw [hs] at h4
      rw [hl, show s.current + 1 - s.start = 2 from by omega, two (h2 ▸ hc) h4]
  · unfold scanBracket
    refine .ite (fun _ => ?_) fun _ => ?_
    · unfold addBlockAnchor
      split
      · exact .panic
      · exact .tok rfl
    · split
      · refine .tok ?_
        unfold attributionType
        repeat' split
        all_goals rfl
      · exact .ite (fun _ => bracket_fact rfl) fun _ => .text
  · unfold scanBacktick
    exact .ite (fun _ => .tok rfl) fun _ => .ite (fun _ => .tok rfl) fun _ => formatting_fact _ rfl rfl
  · exact .tok rfl
  · exact .tok rfl
  · unfold scanHash
    exact .ite (fun _ => tag_fact) fun _ => formatting_fact _ rfl rfl
  · have hr : Fact s.src s.scanColonRest := by
      unfold scanColonRest
      exact .ite (fun _ => .tok rfl) fun _ => .text
    unfold scanColon
    refine .ite (fun _ => ?_) fun _ => hr
    split
    · exact .panic
    · exact .ite (fun _ => .hang) fun _ => .tok rfl
    · exact hr
  · refine .ite (fun _ => ?_) fun _ => .text
    unfold addParens
    exact .ite (fun _ => .hang) fun _ => .tok rfl
  · exact word_fact rfl
  · exact word_fact rfl
  · refine .ite (fun _ => ?_) fun _ => .text
    unfold addLink
    rcases linkEnd_ty s.src (s.src.length + 1 - s.current) s.current with h4 | h4
    all_goals exact .tok (by rw [h4]; rfl)
  · unfold scanI
    exact .ite (fun _ => bracket_fact rfl) fun _ => .ite (fun _ => bracket_fact rfl) fun _ => .ite (fun _ => bracket_fact rfl) fun _ => .text
  · exact .ite (fun _ => tag_fact) fun _ => .text
  · exact .ite (fun _ => tag_fact) fun _ => .text
  · exact word_fact rfl
  · exact word_fact rfl
  · exact word_fact rfl
  · exact word_fact rfl
  · exact word_fact rfl
  · exact .tok rfl
  · unfold scanAmp
    split
    · exact .panic
    · exact .tok rfl
    · exact .text
  · unfold scanBrace
    split
    · exact .panic
    · exact .tok rfl
    · exact .text
  · unfold scanPipe
    exact .ite (fun _ => .ite (fun _ => .tok rfl) fun _ => .text) fun _ => .ite (fun _ => cell_fact hs (h ▸ hc)) fun _ => .text
  · unfold scanDouble
    exact .ite (fun _ => .tok rfl) fun _ => .text
  · unfold scanSpace
    exact .ite (fun _ => tag_fact) fun _ => .text

end

theorem next_fact {s s' : Scanner} {t : Token} (h : s.next = some (.tok t, s')) : TokFact s.src t := by
  unfold next at h
  split at h
  · split at h
    · cases h; exact .usual rfl
    · cases h
  · rename_i he
    have hlt : s.current < s.src.length := by simpa [isAtEnd] using he
    simp only [Option.some.injEq] at h
    refine fact_dispatch (s := { s with start := s.current, current := s.current + 1 }) (c := s.src.getD s.current 0) rfl ?_ t (congrArg Prod.fst h)
    show s.src[s.current]? = _
    rw [List.getD_eq_getElem?_getD, List.getElem?_eq_getElem hlt]
    rfl

theorem runF_fact {src : Str} {t : Token} : ∀ (n : Nat) (s : Scanner), s.src = src → .tok t ∈ runF n s → TokFact src t
  | 0, _, _, h => by cases h
  | n + 1, s, hs, h => by
    rw [runF_succ] at h
    split at h
    · cases h
    · rename_i it s' hn
      rcases List.mem_cons.1 h with h1 | h1
      · subst h1; rw [← hs]; exact next_fact hn
      · split at h1
        · exact runF_fact n s' ((next_src hn ‹_›).1.trans hs) h1
        · cases h1

theorem run_fact {src : Str} {fs : List Str} {t : Token} (h : .tok t ∈ (newWithStack src fs).run) : TokFact src t :=
  runF_fact _ _ rfl h

end Adoc.Kinds
