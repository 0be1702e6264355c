import Verif.Proof.NoPanic
import Verif.Props.Parser
/-!
# C42: does parsing return?
-/
namespace Adoc.Spec

/-- A result or an error value: no panic, no endless loop, no exit. -/
def Returns {α : Type} (x : M α) : Prop := (∃ a, x = .ok a) ∨ ∃ e, x = .error (.err e)

/-- `s` is `l`, something, `r`, where the something begins with the first byte of a character or is empty. -/
def Wrapped (l r s : Str) : Prop := ∃ x, s = l ++ x ++ r ∧ ∀ b ∈ x.head?, isCont b = false

/-- Tokens without inline markup (spans, macros), tables, attribute lists, includes and level offsets. Either block
continuations or verbatim blocks are left out, too. -/
def Tame (cont : Bool) (t : Token) : Prop :=
  match t.ty with
  | .text | .charRef | .newLineChar | .openDoubleQuote | .closeDoubleQuote | .openSingleQuote | .closeSingleQuote
  | .heading1 | .heading2 | .heading3 | .heading4 | .heading5
  | .unorderedListItem | .orderedListItem | .codeCalloutListItem | .descriptionListMarker
  | .thematicBreak | .pageBreak | .lineContinuation | .blockLabel | .comment | .startTag | .endTag | .hyperlink | .eof
  | .sidebarBlock | .openBlock | .exampleBlock | .quoteVerseBlock
  | .notePara | .tipPara | .importantPara | .cautionPara | .warningPara => True
  | .passthroughBlock | .literalBlock | .sourceBlock | .commentBlock => cont = false
  | .blockContinuation => cont = true
  | .attribute => t.text ≠ [] ∧ (splitOnB c!":" t.text)[1]? ≠ some b!"leveloffset"
  | .attributeReference => Wrapped b!"{" b!"}" t.text ∧ t.startcol ≠ 0
  | .crossReference => Wrapped b!"<<" b!">>" t.text
  | .blockAnchor => Wrapped b!"[[" b!"]]" t.lexeme
  | _ => False

end Adoc.Spec

namespace Adoc
open Spec Parser

theorem Wrapped.slice {l r s : Str} (h : Wrapped l r s) (hr : ∀ b ∈ r.head?, isCont b = false) (hr0 : r ≠ []) :
    (slice s l.length (s.length - r.length)).isSome := by
  obtain ⟨x, rfl, hx⟩ := h
  obtain ⟨b, bs, rfl⟩ : ∃ b bs, r = b :: bs := by
    cases r with
    | nil => exact absurd rfl hr0
    | cons b bs => exact ⟨b, bs, rfl⟩
  have hb := hr b (by simp)
  have e : (l ++ x ++ b :: bs).length - (b :: bs).length = l.length + x.length := by
    simp only [List.length_append, List.length_cons]; omega
  rw [e]
  unfold Adoc.slice
  rw [if_pos]
  · rfl
  · refine ⟨by omega, by simp, ?_, ?_⟩
    · unfold isBoundary
      split
      · rfl
      · cases x with
        | nil => simp [hb]
        | cons c cs =>
          have := hx c (by simp)
          simp [this]
    · unfold isBoundary
      split
      · rfl
      · rw [List.append_assoc, ← List.append_assoc, List.getElem?_append_right (by simp)]
        simp [hb]

theorem Ret.both {α : Type} {x : M α} {P R : α → Prop} (h : Ret x P) (h' : Ret x R) : Ret x fun a => P a ∧ R a := by
  cases x with
  | ok a => exact ⟨h, h'⟩
  | error e => cases e <;> first | exact trivial | exact h.elim

/-- Between two tokens. -/
def Between (c : Bool) (p : Parser) : Prop := (Base c p ∧ p.openText = none) ∨ (c = false ∧ Shut p)

theorem Between.of {c : Bool} {p q : Parser} (ho : p.openText = none) (h : Nx c p q) : Between c q := .inl ⟨h.1, h.2.trans ho⟩

theorem quoteVerse_ret {c : Bool} {p : Parser} (t : Token) (h : Base c p) (ho : p.openText = none)
    (hty : t.ty = .quoteVerseBlock) : Ret (p.parseQuoteVerse t) (Nx c p) := by
  have hp := parseParent_ret t h (by simp [hty])
  unfold parseQuoteVerse
  split
  · rename_i m hm
    have := h.data m hm
    rw [if_neg (by simp [this])]
    exact hp
  · rw [ho]
    exact hp

theorem dispatch_ret {c : Bool} (w : World) (f : Token → Parser → M Parser) {p : Parser} {t : Token} (h : Base c p)
    (ho : p.openText = none) (ht : Tame c t) : Ret (p.dispatchToken w f t) (Between c) := by
  have k : ∀ {x : M Parser}, Ret x (Nx c p) → Ret x (Between c) := fun hx => hx.mono fun _ hq => .of ho hq
  unfold Tame at ht
  unfold dispatchToken
  split <;> rename_i hty <;> simp only [hty] at ht
  all_goals first
    | exact ht.elim
    | exact k (parseTitle_ret t h)
    | exact k (parseSection_ret t h)
    | exact k (parseAttribute_ret h ht.1 ht.2)
    | exact k ⟨h, rfl⟩
    | exact k (parseBlockMeta_ret h hty (Wrapped.slice ht (by simp [isCont]) (by simp)))
    | exact k (parseNewLine_ret t h)
    | exact k (parseTextNx t false h)
    | exact k (parseCharref_ret t h)
    | exact k (parseAttrRef_ret t h (Wrapped.slice ht.1 (by simp [isCont]) (by simp)) ht.2)
    | exact k (parseXref_ret t h (Wrapped.slice ht (by simp [isCont]) (by simp)))
    | exact k ⟨BaseOf.setInlines h (mem_cons' (by simp [simpleInline, Inline.linkFromToken, tokLoc_ne]) h.inlines), rfl⟩
    | exact k (addToStackOrGraph_ret _ h)
    | exact k (parseParent_ret t h (by simp [hty]))
    | exact k (parseUnordered_ret t h)
    | exact k (parseOrdered_ret t h)
    | exact k (parseDlistTerm_ret t h)
    | exact k (parseAdmonition_ret t h (by simp [hty]))
    | exact .ite (fun _ => k (moveHeader_ret h)) (fun _ => k ⟨h, rfl⟩)
    | (subst ht; exact k (parseContinuation_ret h))
    | (subst ht; exact (leaf_open t h ho (by simp [hty, isVerb])).mono fun _ hq => .inr ⟨rfl, hq⟩)
    | (subst ht; unfold parseCommentBlock; rw [ho]
       exact (leaf_open t h ho (by simp [hty, isVerb])).mono fun _ hq => .inr ⟨rfl, hq⟩)
    | exact k (quoteVerse_ret t h ho hty)

/-- Inside a verbatim block every token but the closing delimiter is text. -/
theorem shut_verbatim {p : Parser} {t : Token} {ty : TokenType} (ho : p.openText = some ty) (hv : isVerb ty = true)
    (ht : Tame false t) : (∃ b, p.verbatim t = some b) ∨ t.ty = ty := by
  unfold verbatim
  rw [ho]
  unfold Tame at ht
  revert hv
  cases ty <;> intro hv <;> first | cases hv | skip
  all_goals
    simp only
    split
    · rename_i h
      first
        | exact .inr h
        | (rcases h with h | h | h
           · exact .inr h
           · simp [h] at ht
           · simp [h] at ht)
    · exact .inl ⟨_, rfl⟩

theorem moveHeader_shut {p : Parser} (h : Shut p) : Ret p.moveHeader Shut := by
  obtain ⟨h1, hd, htop, ty, ho, hv⟩ := h
  unfold moveHeader
  refine .bind ((addInlines_leaf h1 hd htop).both (addInlines_ret h1)) fun q hq => ?_
  obtain ⟨⟨hq1, hqd, hqt⟩, ⟨_, hqo⟩, _⟩ := hq
  have hs : Shut q := ⟨hq1, hqd, hqt, ty, hqo.trans ho, hv⟩
  split
  · exact .ite (fun _ => hs) (fun _ => hs)
  · exact hs

theorem dispatch_shut (w : World) (f : Token → Parser → M Parser) {p : Parser} {t : Token} (h : Shut p)
    (ht : p.openText = some t.ty) : Ret (p.dispatchToken w f t) (Between false) := by
  have hc := leaf_close t h
  obtain ⟨h1, hd, htop, ty, ho, hv⟩ := h
  have e : ty = t.ty := by rw [ho] at ht; exact Option.some.inj ht
  subst e
  have hl : t.ty ≠ .commentBlock → p.dispatchToken w f t = p.parseLeaf t := by
    intro hne
    unfold dispatchToken
    revert hv hne
    cases t.ty <;> intro hv hne <;> first | exact absurd rfl hne | (cases hv; done) | rfl
  by_cases hcb : t.ty = .commentBlock
  · unfold dispatchToken
    simp only [hcb]
    unfold parseCommentBlock
    rw [ho, hcb]
    refine .inl ⟨BaseOf.setBlocks (BaseOf.noInlines h1) ?_, rfl⟩
    intro b hb
    exact h1.tables b (List.mem_of_mem_tail hb)
  · rw [hl hcb]
    exact hc.mono fun _ hq => .inl hq

theorem step_ret {c : Bool} (w : World) (f : Token → Parser → M Parser) {p : Parser} {t : Token} (h : Between c p)
    (ht : Tame c t) : Ret (step w f t p) (Between c) := by
  unfold step
  rcases h with ⟨h, ho⟩ | ⟨rfl, h⟩
  · refine .bind (P := fun q => Base c q ∧ q.openText = none) ?_ fun q hq => ?_
    · exact .ite (fun _ => (moveHeader_ret h).mono fun _ hq => ⟨hq.1, hq.2.trans ho⟩) (fun _ => ⟨h, ho⟩)
    · have hv : q.verbatim t = none := by unfold verbatim; rw [hq.2]
      rw [hv]
      exact dispatch_ret w f hq.1 hq.2 ht
  · refine .bind (P := Shut) ?_ fun q hq => ?_
    · exact .ite (fun _ => moveHeader_shut h) (fun _ => h)
    · have hq' := hq
      obtain ⟨h1, hd, htop, ty, ho, hv⟩ := hq
      have hx : ∀ b, Ret (q.parseText t b) (Between false) := fun b =>
        (parseText_ret t b h1).mono fun r hr => by
          obtain ⟨⟨hr1, hro⟩, hrb, hrd⟩ := hr
          obtain ⟨n, g, d, is, m, l, rest, hb⟩ := htop
          exact .inr ⟨rfl, hr1, hrd.trans hd, ⟨n, g, d, is, m, l, rest, hrb.trans hb⟩, ty, hro.trans ho, hv⟩
      split
      · exact hx _
      · rename_i hn
        rcases shut_verbatim ho hv ht with ⟨b, hb⟩ | e
        · rw [hn] at hb; cases hb
        · exact dispatch_shut w f hq' (by rw [e]; exact ho)

theorem Between.base {c : Bool} {p : Parser} (h : Between c p) : Base c p := by
  rcases h with ⟨h, _⟩ | ⟨rfl, h⟩
  · exact h
  · exact h.1

theorem feed_ret {c : Bool} (w : World) (fuel : Nat) (items : List Item)
    (hi : ∀ i ∈ items, (∃ t, i = .tok t ∧ Tame c t) ∨ ∃ e, i = .err e) {p : Parser} (h : Between c p) :
    Ret (feed (tokenInto w (fuel + 1)) true items p) (Between c) := by
  induction items generalizing p with
  | nil => exact h
  | cons i rest ih =>
    rcases hi i (by simp) with ⟨t, rfl, ht⟩ | ⟨e, rfl⟩
    · unfold feed
      refine .bind (step_ret w _ h ht) fun q hq => ?_
      exact ih (fun i hi' => hi i (by simp [hi'])) (p := { q with lastTy := t.ty }) hq
    · trivial

theorem finish_ret {c : Bool} {p : Parser} (h : Base c p) : Ret p.finish fun _ => True := by
  unfold finish
  refine .bind (addInlines_ret h) fun q hq => ?_
  refine .bind (drain_ret 0 _ hq.1.1) fun r _ => trivial

theorem Ret.returns {α : Type} {x : M α} {P : α → Prop} (h : Ret x P) : Returns x := by
  cases x with
  | ok a => exact .inl ⟨a, rfl⟩
  | error e => cases e <;> first | exact .inr ⟨_, rfl⟩ | exact h.elim

end Adoc

namespace Adoc.Props
open Spec Parser

/-- C42 for tame tokens: whatever their order and number, and wherever the scanner reports an error, `parse` returns.
Missing: spans, macros, tables, attribute lists, includes, level offsets, code callouts, and documents with both block
continuations and verbatim blocks. The theorems below show that the property is false for most of these. -/
theorem C42_tame_partial (cont resolve : Bool) (w : World) (fuel : Nat) (items : List Item)
    (h : ∀ i ∈ items, (∃ t, i = .tok t ∧ Tame cont t) ∨ ∃ e, i = .err e) :
    Returns (Parser.parse w (fuel + 1) items { Parser.new with resolveTargets := resolve }) := by
  have h0 : Between cont { Parser.new with resolveTargets := resolve } := .inl
    ⟨⟨by simp [Parser.new], rfl, fun _ => rfl, by simp [Parser.new], by simp [Parser.new], rfl⟩, rfl⟩
  refine Ret.returns (P := fun _ => True) ?_
  unfold Parser.parse
  exact .bind (feed_ret w fuel items h h0) fun q hq => finish_ret hq.base

/-- Does it panic at such a place? -/
def panics {α : Type} (x : M α) (s : Site) : Bool :=
  match x with
  | .error (.panic s') => decide (s' = s)
  | _ => false

theorem not_returns {α : Type} {x : M α} {s : Site} (h : panics x s = true) : ¬ Returns x := by
  rintro (⟨a, rfl⟩ | ⟨e, rfl⟩) <;> cases h

/-- The property as stated is false: two span markers with nothing between them. -/
theorem C42_span_panics : ¬ Returns (Adoc.parseText emptyWorld 3 b!"a *b _") := not_returns (s := .todo) (by decide +kernel)
/-- An unclosed footnote. -/
theorem C42_footnote_panics : ¬ Returns (Adoc.parseText emptyWorld 3 b!"footnote:[x") :=
  not_returns (s := .todo) (by decide +kernel)
/-- A listing attached to a list item. -/
theorem C42_attached_listing_panics : ¬ Returns (Adoc.parseText emptyWorld 3 b!"* a\n+\n----\nx\n----\n") :=
  not_returns (s := .todo) (by decide +kernel)
/-- A block anchor without its second closing bracket. -/
theorem C42_anchor_panics : ¬ Returns (Adoc.parseText emptyWorld 3 b!"[[]\na") :=
  not_returns (s := .slice) (by decide +kernel)
/-- A level offset that does not fit. -/
theorem C42_offset_panics : ¬ Returns (Adoc.parseText emptyWorld 3 b!":leveloffset: 127\n\n== a\n") :=
  not_returns (s := .overflow) (by decide +kernel)
/-- A named attribute whose value is one quotation mark. -/
theorem C42_attribute_panics : ¬ Returns (Adoc.parseText emptyWorld 3 b!"[a=\"]\nb\n") :=
  not_returns (s := .slice) (by decide +kernel)
/-- A code callout where `icons` is set. -/
theorem C42_callout_panics : ¬ Returns (Adoc.parseText emptyWorld 3 b!":icons: true\n\n----\na <1>\n----\n") :=
  not_returns (s := .todo) (by decide +kernel)

/-- A table row that is not full ends the program. -/
theorem C42_table_exits : ¬ Returns (Adoc.parseText emptyWorld 3 b!"|===\n|a\n|b\n|===\n") := by
  have h : (match Adoc.parseText emptyWorld 3 b!"|===\n|a\n|b\n|===\n" with
    | .error .exit => true
    | _ => false) = true := by decide +kernel
  rintro (⟨a, ha⟩ | ⟨e, he⟩)
  · rw [ha] at h; cases h
  · rw [he] at h; cases h

/-- A document of the class: the theorem applies to what the scanner makes of it. -/
example : Returns (Adoc.parseText emptyWorld 3
    b!"= T\n\n== a\n\n* b\n* c\n\n----\nx\n----\n\nNOTE: d\n\n====\n. e\n====\n\nf \"g\" http://h.i j\n") := by
  have hall : ((scan b!"= T\n\n== a\n\n* b\n* c\n\n----\nx\n----\n\nNOTE: d\n\n====\n. e\n====\n\nf \"g\" http://h.i j\n").all
    fun | .tok t => [TokenType.text, .newLineChar, .heading1, .heading2, .unorderedListItem, .orderedListItem, .sourceBlock,
            .exampleBlock, .notePara, .hyperlink, .openDoubleQuote, .closeDoubleQuote, .eof].elem t.ty
        | _ => false) = true := by decide +kernel
  have h := C42_tame_partial false true emptyWorld 2 _ (fun i hi => by
    have := List.all_eq_true.1 hall i hi
    split at this
    · rename_i t
      refine .inl ⟨t, rfl, ?_⟩
      simp only [List.elem_eq_mem, List.mem_cons, List.not_mem_nil, or_false, decide_eq_true_eq] at this
      unfold Tame
      rcases this with h | h | h | h | h | h | h | h | h | h | h | h | h <;> simp [h]
    · cases this)
  unfold Adoc.parseText
  rcases h with ⟨q, hq⟩ | ⟨e, he⟩
  · exact .inl ⟨q.asg, by rw [show Parser.new = { Parser.new with resolveTargets := true } from rfl, hq]; rfl⟩
  · exact .inr ⟨e, by rw [show Parser.new = { Parser.new with resolveTargets := true } from rfl, he]; rfl⟩

end Adoc.Props
