import Verif.Proof.OutlineFeed
import Verif.Props.Paragraphs
/-!
# C43: span markers that are never closed
-/
namespace Adoc.Spec

/-- The characters of each span marker. -/
def markerText : TokenType → Option Str
  | .strong => some b!"*"
  | .emphasis => some b!"_"
  | .mark => some b!"#"
  | .monospace => some b!"`"
  | .superscript => some b!"^"
  | .subscript => some b!"~"
  | .unconstrainedStrong => some b!"**"
  | .unconstrainedEmphasis => some b!"__"
  | .unconstrainedMark => some b!"##"
  | .unconstrainedMonospace => some b!"``"
  | _ => none

/-- Text tokens and newlines, without two newlines in a row; `nl` says that a newline comes just before. -/
def SameBlock (nl : Bool) : List Token → Prop
  | [] => True
  | t :: ts => t.ty = .text ∧ SameBlock false ts
    ∨ t.ty = .newLineChar ∧ t.text = b!"\n" ∧ nl = false ∧ SameBlock true ts

/-- The text of some tokens, without a newline at the end. -/
def blockText : List Token → Str
  | [] => []
  | [t] => if t.ty = .newLineChar then [] else t.text
  | t :: ts => t.text ++ blockText ts

end Adoc.Spec

namespace Adoc.Props
open Parser Scanner Spec

/-- The text of the newline that is held back. -/
def held : Option Token → Str
  | some t => t.text
  | none => []

/-- At most one piece of text. -/
inductive Piece : List Inline → Str → Prop where
  | none : Piece [] []
  | some (v : Str) (l : List Location) : Piece [.lit .text v l] v

/-- The pending inlines: some text, or some text, an open span, and its text. -/
inductive Mid (mk : SpanVariant × SpanForm) : Bool → List Inline → Str → Str → Prop where
  | before (is : List Inline) (v : Str) (h : Piece is v) : Mid mk false is v []
  | inside (is js : List Inline) (v u : Str) (l : List Location) (h : Piece is v) (hj : Piece js u) :
      Mid mk true (.span mk.1 mk.2 js none l true :: is) v u

/-- The parser within a paragraph: `v` is the text before the marker, `u` the text after it. -/
structure Within (mk : SpanVariant × SpanForm) (p : Parser) (v u : Str) : Prop where
  calm : Calm p
  blocks : p.blocks = []
  asg : p.asg = Asg.new
  mid : Mid mk p.inSpan p.inlines v u
  held : p.dangling = none ∨ ∃ t, p.dangling = some t ∧ t.text = b!"\n"

theorem Piece.add {js : List Inline} {u : Str} (h : Piece js u) (x : Str) (l : List Location) :
    Piece (Inline.addLast js (.lit .text x l)) (u ++ x) := by
  cases h with
  | none => exact .some _ _
  | some v l' => exact .some _ _

theorem addText_piece (p : Parser) (t : Token) (v : Str) (h : Piece p.inlines v) :
    ∃ is, p.addText t false = .ok { p with inlines := is } ∧ Piece is (v ++ t.text) := by
  unfold Parser.addText
  generalize p.inlines = is at h
  cases h with
  | none => exact ⟨_, rfl, .some _ _⟩
  | some v l => exact ⟨_, rfl, .some _ _⟩

/-- Text goes to the end of what is pending. -/
theorem addText_mid (mk : SpanVariant × SpanForm) (p : Parser) (t : Token) (v u : Str) (h : Mid mk p.inSpan p.inlines v u) :
    ∃ is, p.addText t false = .ok { p with inlines := is }
      ∧ if p.inSpan then Mid mk true is v (u ++ t.text) else Mid mk false is (v ++ t.text) [] := by
  obtain ⟨s, hs⟩ : ∃ s, p.inSpan = s := ⟨_, rfl⟩
  obtain ⟨is, hi⟩ : ∃ is, p.inlines = is := ⟨_, rfl⟩
  rw [hs, hi] at h
  cases h with
  | before is v h =>
    obtain ⟨is', h1, h2⟩ := addText_piece p t v (hi ▸ h)
    refine ⟨is', h1, ?_⟩
    rw [hs]
    exact .before _ _ h2
  | inside is js v u l h hj =>
    have : Mid mk true _ v (u ++ t.text) := .inside is _ v _ (reconcile l t.locations) h (hj.add t.text t.locations)
    refine ⟨_, ?_, by rw [hs]; exact this⟩
    unfold Parser.addText
    rw [hi]
    simp only [hs, if_true, Inline.addInline, Bool.false_eq_true, if_false]
    rfl

/-- Text after the text so far. -/
def after (s : Bool) (v u x : Str) : Str × Str := if s then (v, u ++ x) else (v ++ x, u)

theorem Mid.after_empty {mk : SpanVariant × SpanForm} {is : List Inline} {v u : Str} (h : Mid mk false is v u) : u = [] := by
  cases h; rfl

theorem addText_within (mk : SpanVariant × SpanForm) (p : Parser) (t : Token) (v u : Str)
    (h : Mid mk p.inSpan p.inlines v u) :
    ∃ is, p.addText t false = .ok { p with inlines := is }
      ∧ Mid mk p.inSpan is (after p.inSpan v u t.text).1 (after p.inSpan v u t.text).2 := by
  obtain ⟨is, h1, h2⟩ := addText_mid mk p t v u h
  refine ⟨is, h1, ?_⟩
  cases hs : p.inSpan with
  | true => rw [hs] at h2; exact h2
  | false =>
    rw [hs] at h2 h
    have := h.after_empty
    subst this
    exact h2

theorem after_after (s : Bool) (v u x y : Str) :
    after s (after s v u x).1 (after s v u x).2 y = after s v u (x ++ y) := by
  cases s <;> simp [after]

/-- A text token within a paragraph. -/
theorem within_text (w : World) (k : Nat) (mk : SpanVariant × SpanForm) (p : Parser) (t : Token) (v u : Str)
    (h : Within mk p v u) (ht : t.ty = .text) :
    ∃ q, tokenInto w (k + 1) t p = .ok q ∧ q.dangling = none ∧ q.inSpan = p.inSpan
      ∧ Within mk q (after p.inSpan v u (held p.dangling ++ t.text)).1 (after p.inSpan v u (held p.dangling ++ t.text)).2 := by
  have h0 : tokenInto w (k + 1) t p = p.parseText t false := by
    rw [tokenInto_plain w k t p h.calm.header h.calm.openText]
    unfold dispatchToken; rw [ht]
  rw [h0]
  unfold Parser.parseText
  rcases h.held with hd | ⟨nl, hd, hn⟩
  · obtain ⟨is, h1, h2⟩ := addText_within mk p t v u h.mid
    rw [hd]
    exact ⟨_, h1, hd, rfl, h.calm, h.blocks, h.asg, h2, .inl hd⟩
  · obtain ⟨is, h1, h2⟩ := addText_within mk p nl v u h.mid
    obtain ⟨is', h3, h4⟩ := addText_within mk { p with inlines := is, dangling := none } t _ _ h2
    rw [hd]
    have hp : p.preserveNl = false := h.calm.preserveNl
    rw [hp]
    simp only [Bool.false_eq_true, if_false, h1, bind, Except.bind]
    refine ⟨_, h3, rfl, rfl, h.calm, h.blocks, h.asg, ?_, .inl rfl⟩
    rw [after_after] at h4
    exact h4

/-- A newline that does not follow another one. -/
theorem within_newline (w : World) (k : Nat) (mk : SpanVariant × SpanForm) (p : Parser) (t : Token) (v u : Str)
    (h : Within mk p v u) (ht : t.ty = .newLineChar) (hx : t.text = b!"\n") (hl : p.lastTy ≠ .newLineChar)
    (hl' : p.lastTy ≠ .eof) (hc : p.lastTy.clearsNewlineAfter = false) :
    ∃ q, tokenInto w (k + 1) t p = .ok q ∧ q.dangling = some t ∧ q.inSpan = p.inSpan ∧ Within mk q v u :=
  ⟨_, newLine_first w k p t ht h.calm.header h.calm.openText h.calm.title hl hl' h.calm.inCont hc, rfl, rfl,
    h.calm, h.blocks, h.asg, h.mid, .inr ⟨t, rfl, hx⟩⟩

/-- Text tokens and newlines within a paragraph. `nl` says that a newline is held back. -/
theorem within_feed (w : World) (k : Nat) (mk : SpanVariant × SpanForm) (ts : List Token) (nl : Bool) (p : Parser)
    (v u : Str) (h : Within mk p v u) (hts : SameBlock nl ts)
    (hl : nl = false → p.lastTy ≠ .newLineChar ∧ p.lastTy ≠ .eof ∧ p.lastTy.clearsNewlineAfter = false)
    (hd : nl = false → p.dangling = none) :
    ∃ q v' u', feed (tokenInto w (k + 1)) true (ts.map .tok) p = .ok q ∧ q.inSpan = p.inSpan ∧ Within mk q v' u'
      ∧ after p.inSpan v u (held p.dangling ++ ts.flatMap Token.text) = after p.inSpan v' u' (held q.dangling)
      ∧ (ts ≠ [] → (held q.dangling = if (ts.getLast?.map Token.ty) = some .newLineChar then b!"\n" else []))
      ∧ (ts = [] → q = p) := by
  induction ts generalizing nl p v u with
  | nil => exact ⟨p, v, u, rfl, rfl, h, by simp, by simp, by simp⟩
  | cons t ts ih =>
    have hlast : ∀ (a : Token), ts ≠ [] → ((a :: ts).getLast?.map Token.ty) = (ts.getLast?.map Token.ty) := by
      intro a ha
      cases ts with
      | nil => exact absurd rfl ha
      | cons b bs => simp
    rcases hts with ⟨ht, hts⟩ | ⟨ht, hx, hnl, hts⟩
    · obtain ⟨q, h1, h2, h3, h4⟩ := within_text w k mk p t v u h ht
      obtain ⟨q', v', u', h5, h6, h7, h8, h9, h10⟩ := ih false { q with lastTy := t.ty } _ _
        ⟨h4.calm, h4.blocks, h4.asg, h4.mid, h4.held⟩ hts (by intro _; simp [ht, TokenType.clearsNewlineAfter])
        (fun _ => h2)
      refine ⟨q', v', u', ?_, h6.trans h3, h7, ?_, ?_, by simp⟩
      · rw [List.map_cons]; exact (feed_cons _ _ _ _ _ h1).trans h5
      · have e : q.inSpan = p.inSpan := h3
        have e' : held q.dangling = [] := by rw [h2]; rfl
        simp only [e, e', List.nil_append] at h8
        rw [after_after] at h8
        simpa using h8
      · intro _
        by_cases he : ts = []
        · subst he
          rw [h10 rfl]
          simp [h2, held, ht]
        · rw [hlast t he]; exact h9 he
    · obtain ⟨q, h1, h2, h3, h4⟩ := within_newline w k mk p t v u h ht hx (hl hnl).1 (hl hnl).2.1 (hl hnl).2.2
      obtain ⟨q', v', u', h5, h6, h7, h8, h9, h10⟩ := ih true { q with lastTy := t.ty } v u
        ⟨h4.calm, h4.blocks, h4.asg, h4.mid, h4.held⟩ hts (by simp) (by simp)
      refine ⟨q', v', u', ?_, h6.trans h3, h7, ?_, ?_, by simp⟩
      · rw [List.map_cons]; exact (feed_cons _ _ _ _ _ h1).trans h5
      · have e : q.inSpan = p.inSpan := h3
        simp only [e, h2, held] at h8
        rw [hd hnl]
        simpa [held] using h8
      · intro _
        by_cases he : ts = []
        · subst he
          rw [h10 rfl]
          simp [h2, held, ht, hx]
        · rw [hlast t he]; exact h9 he

/-- The span that a marker opens, and the markup that stands for it. -/
theorem marker_kind (t : Token) (x : Str) (h : markerText t.ty = some x) :
    ∃ mk c, Inline.spanKind t.ty = some mk ∧ Inline.variantChar mk.1 = some c
      ∧ x = (if mk.2 = .unconstrained then [c, c] else [c]) ∧ t.ty.clearsNewlineAfter = false
      ∧ t.ty ≠ .newLineChar ∧ t.ty ≠ .eof
      ∧ ∀ w f p, dispatchToken w f p t = (do
        let s ← Inline.spanFromToken t
        p.parseSpan s) := by
  unfold dispatchToken
  revert h
  generalize t.ty = ty
  cases ty <;> intro h <;> first
    | (cases h; exact ⟨_, _, rfl, rfl, rfl, rfl, by simp, by simp, fun _ _ _ => rfl⟩)
    | cases h

theorem Piece.closed {is : List Inline} {v : Str} (h : Piece is v) : ∀ i ∈ is, i.isOpen = false := by
  cases h <;> simp [Inline.isOpen]

/-- A marker after some text. -/
theorem within_marker (w : World) (k : Nat) (mk : SpanVariant × SpanForm) (p : Parser) (t : Token) (x v : Str)
    (h : Within mk p v []) (hs : p.inSpan = false) (ht : markerText t.ty = some x) (hk : Inline.spanKind t.ty = some mk) :
    ∃ q, tokenInto w (k + 1) t p = .ok q ∧ q.dangling = none ∧ q.inSpan = true
      ∧ Within mk q (v ++ held p.dangling) [] := by
  obtain ⟨_, _, _, _, _, _, _, _, hdis⟩ := marker_kind t x ht
  rw [tokenInto_plain w k t p h.calm.header h.calm.openText, hdis]
  have h1 : Inline.spanFromToken t = .ok (.span mk.1 mk.2 [] none t.locations true) := by
    unfold Inline.spanFromToken; rw [hk]
  rw [h1]
  simp only [bind, Except.bind]
  have hp : Piece p.inlines v := by
    have := h.mid
    rw [hs] at this
    cases this; assumption
  have h2 : p.parseSpan (.span mk.1 mk.2 [] none t.locations true)
      = p.openSpan (.span mk.1 mk.2 [] none t.locations true) := by
    unfold parseSpan
    generalize p.inlines = is at hp
    cases hp <;> rfl
  rw [h2]
  have hdata : p.data = none := h.calm.data
  unfold openSpan
  rcases h.held with hd | ⟨nl, hd, hn⟩
  · rw [hd]
    simp only [bind, Except.bind]
    rw [danglingSpans_closed p hp.closed]
    simp only [hdata, pure, Except.pure]
    refine ⟨_, rfl, hd, rfl, by simpa [Calm, hdata] using h.calm, h.blocks, h.asg, ?_, .inl hd⟩
    simpa [held] using Mid.inside _ _ _ _ _ hp .none
  · obtain ⟨is, h3, h4⟩ := addText_piece p nl v hp
    rw [hd]
    simp only [bind, Except.bind, h3]
    rw [danglingSpans_closed _ (by exact h4.closed)]
    simp only [hdata, pure, Except.pure]
    exact ⟨_, rfl, rfl, rfl, by simpa [Calm, hdata] using h.calm, h.blocks, h.asg, Mid.inside _ _ _ _ _ h4 .none, .inl rfl⟩

/-- At the end of the document the marker is put back as text. -/
theorem within_dangling (mk : SpanVariant × SpanForm) (p : Parser) (v u : Str) (c : UInt8) (h : Within mk p v u)
    (hs : p.inSpan = true) (hc : Inline.variantChar mk.1 = some c) :
    ∃ l, p.danglingSpans = .ok { p with
      inlines := [.lit .text (v ++ (if mk.2 = .unconstrained then [c, c] else [c]) ++ u) l] } := by
  have hm := h.mid
  rw [hs] at hm
  obtain ⟨is, hi⟩ : ∃ is, p.inlines = is := ⟨_, rfl⟩
  rw [hi] at hm
  cases hm with
  | inside is js v u l hv hu =>
    unfold danglingSpans
    rw [hi]
    simp only [splitFirst, Inline.isOpen, if_true, Inline.markupLiteral, hc, bind, Except.bind, Inline.childInlines]
    cases hu with
    | none =>
      simp only [Inline.spanInlines, List.nil_append, Parser.addText]
      cases hv with
      | none => exact ⟨_, by simp [Token.text]; rfl⟩
      | some v l' => exact ⟨_, by simp [Token.text, Inline.litAdd]; rfl⟩
    | some u l' =>
      simp only [Inline.spanInlines, Inline.flatten, bind, Except.bind, pure, Except.pure, Inline.prependFirst, Inline.prependToValue,
        List.reverse_nil, List.append_nil]
      cases hv with
      | none => exact ⟨_, by simp [mergeStep]; rfl⟩
      | some v l' => exact ⟨_, by simp [mergeStep]; rfl⟩

/-- The last paragraph of the document. -/
theorem finish_one (p : Parser) (x : Str) (l : List Location) (hc : Calm p) (hb : p.blocks = []) (ha : p.asg = Asg.new)
    (hi : p.inlines ≠ [])
    (hd : (if p.inSpan then p.danglingSpans else .ok p) = .ok { p with inlines := [.lit .text x l] }) :
    ∃ q m l', p.finish = .ok q ∧ q.asg.front = Asg.new.front
      ∧ q.asg.blocks = [.leaf .paragraph .paragraph none [.lit .text x l] m l'] := by
  have hdata : p.data = none := hc.data
  have h1 : p.addInlines = .ok { p with
      inlines := [], blocks := [.leaf .paragraph .paragraph none [.lit .text x l] none l] } := by
    unfold addInlines
    have : p.inlines.isEmpty = false := by simpa using hi
    simp only [this, Bool.false_eq_true, if_false, hd, bind, Except.bind, hc.header, hb, newParagraph,
      List.reverse_singleton, hc.inCont, Bool.false_and, hdata, pushToStack, Inline.locations]
  have h2 : p.finish = finish { p with
      inlines := [], blocks := [], asg := addLastBlock p.asg (.leaf .paragraph .paragraph none [.lit .text x l] none l) } := by
    unfold finish
    rw [h1, addInlines_nil _ rfl]
    simp only [bind, Except.bind, List.length_cons, List.length_nil, drain, addLastToGraph, hdata, pure, Except.pure]
    simp only [Nat.zero_add, Nat.lt_add_one, if_true]
    rw [graphPush_leaf _ _ rfl]
  have h3 : finish { p with
      inlines := [], blocks := [], asg := addLastBlock p.asg (.leaf .paragraph .paragraph none [.lit .text x l] none l) }
      = .ok { p with
      inlines := [], blocks := []
      asg := (addLastBlock p.asg (.leaf .paragraph .paragraph none [.lit .text x l] none l)).consolidate } := by
    unfold finish
    rw [addInlines_nil _ rfl]
    simp only [bind, Except.bind, List.length_nil, drain, pure, Except.pure]
  refine ⟨_, none, ?loc, h2.trans h3, ?front, ?blocks⟩
  case front =>
    rw [ha]
    simp only [Asg.consolidate, Asg.consolidateXrefs, Asg.consolidateLocations, Asg.front]
    split
    · rfl
    · split <;> rfl
  case blocks =>
    rw [ha]
    have : ∀ g : Asg, g.consolidate.blocks = Block.mapInlinesL (Inline.resolveXref g.idHash) g.blocks := by
      intro g
      unfold Asg.consolidate Asg.consolidateXrefs Asg.consolidateLocations
      split
      · rfl
      · split <;> rfl
    rw [this]
    rfl

theorem blockText_held (ts : List Token) :
    SameBlock nl ts → ts ≠ [] → blockText ts ++ (if (ts.getLast?.map Token.ty) = some .newLineChar then b!"\n" else [])
      = ts.flatMap Token.text := by
  induction ts generalizing nl with
  | nil => simp
  | cons t ts ih =>
    intro h _
    cases ts with
    | nil =>
      rcases h with ⟨ht, _⟩ | ⟨ht, hx, _⟩
      · simp [blockText, ht]
      · simp [blockText, ht, hx]
    | cons u us =>
      have h' : ∃ nl, SameBlock nl (u :: us) := by
        rcases h with ⟨_, h⟩ | ⟨_, _, _, h⟩ <;> exact ⟨_, h⟩
      obtain ⟨nl', h'⟩ := h'
      have := ih h' (by simp)
      simp only [blockText, List.flatMap_cons] at this ⊢
      rw [← this]
      simp

/-- **C43** (part): a paragraph of text in which a span marker is opened and nothing closes it, at the end of the
document, is one paragraph with one text, which is the text before the marker, the marker itself, and the text after it.
Missing: `+` and `++` (`C43_plus`) and paragraphs that are followed by a blank line (`C43_blank_line`), for which the
property is false; other blocks; more than one marker. -/
theorem C43_unclosed_partial (w : World) (k n : Nat) (us vs : List Token) (m : Token) (x : Str)
    (hu : SameBlock true us) (hm : markerText m.ty = some x) (hv : SameBlock false vs) :
    ∃ q d l l', Parser.parse w (k + 1) ((us ++ m :: vs ++ [Token.final n []]).map .tok) Parser.new = .ok q
      ∧ q.asg.header = none ∧ q.asg.attributes = none
      ∧ q.asg.blocks = [.leaf .paragraph .paragraph none
          [.lit .text (us.flatMap Token.text ++ x ++ blockText vs) l] d l'] := by
  obtain ⟨mk, c, hk, hc, hx, hcl, hn1, hn2, _⟩ := marker_kind m x hm
  have h0 : Within mk Parser.new [] [] := ⟨rfl, rfl, rfl, .before _ _ .none, .inl rfl⟩
  obtain ⟨p1, v1, u1, a1, a2, a3, a4, a5, a6⟩ := within_feed w k mk us true Parser.new [] [] h0 hu (by simp) (by simp)
  have s1 : p1.inSpan = false := a2
  have e1 : u1 = [] := (show Mid mk false p1.inlines v1 u1 from s1 ▸ a3.mid).after_empty
  subst e1
  obtain ⟨p2, b1, b2, b3, b4⟩ := within_marker w k mk p1 m x v1 a3 s1 hm hk
  have e2 : v1 ++ held p1.dangling = us.flatMap Token.text := by
    have : after false [] [] (held none ++ us.flatMap Token.text) = after false v1 [] (held p1.dangling) := a4
    simpa [after, held] using this.symm
  rw [e2] at b4
  obtain ⟨p3, v3, u3, c1, c2, c3, c4, c5, c6⟩ := within_feed w k mk vs false { p2 with lastTy := m.ty } _ _
    ⟨b4.calm, b4.blocks, b4.asg, b4.mid, b4.held⟩ hv (fun _ => ⟨hn1, hn2, hcl⟩) (fun _ => b2)
  have s3 : p3.inSpan = true := c2.trans b3
  have c4' : after true (us.flatMap Token.text) [] (held none ++ vs.flatMap Token.text) = after true v3 u3 (held p3.dangling) := by
    have := c4
    simp only [b2, b3] at this
    exact this
  simp only [after, if_true, held, List.nil_append, Prod.mk.injEq] at c4'
  have e4 : u3 = blockText vs := by
    by_cases hv0 : vs = []
    · subst hv0
      rw [c6 rfl] at c4'
      have := c4'.2
      simp only [b2, List.flatMap_nil, List.append_nil] at this
      simpa [blockText] using this.symm
    · have h1 := c5 hv0
      have h2 := blockText_held vs hv hv0
      rw [← h1, c4'.2] at h2
      exact (List.append_cancel_right h2).symm
  obtain ⟨l, hd⟩ := within_dangling mk { p3 with lastTy := .eof } v3 u3 c ⟨c3.calm, c3.blocks, c3.asg, c3.mid, c3.held⟩ s3 hc
  have hne : p3.inlines ≠ [] := by
    intro h
    have := c3.mid
    rw [s3, h] at this
    cases this
  obtain ⟨q, d, l', f1, f2, f3⟩ := finish_one { p3 with lastTy := .eof } _ l c3.calm c3.blocks c3.asg hne
    ((if_pos s3).trans hd)
  refine ⟨q, d, l, l', ?_, congrArg (·.1) f2, congrArg (·.2.1) f2, ?_⟩
  · unfold Parser.parse
    rw [List.append_assoc, List.map_append, feed_append _ _ _ _ _ _ a1, List.cons_append, List.map_cons,
      feed_cons _ _ _ _ _ b1, List.map_append, feed_append _ _ _ _ _ _ c1, List.map_cons,
      feed_cons _ _ _ _ _ (eof_step w k n p3 c3.calm.header c3.calm.openText)]
    exact f1
  · rw [f3, ← c4'.1, e4, hx]

-- the tokens of a paragraph of two lines with an unmatched marker
example : scan b!"a *b\nc" = ([textTok b!"a " 1 1 [], ⟨.strong, b!"*", none, 1, 3, 3, []⟩, textTok b!"b" 1 4 [],
    newline 1 5 [], textTok b!"c" 2 1 [], Token.final 2 []] : List Token).map .tok := by decide +kernel

/-- **C43** fails for a paragraph that is followed by a blank line: the marker is gone and the rest of the paragraph is
a span. -/
theorem C43_blank_line :
    returns ((Adoc.parseText emptyWorld 1 b!"a *b\n\nc\n").map fun g => g.blocks.map Block.text) [b!"a b", b!"c"] = true := by
  decide +kernel

/-- **C43** fails for `+`: the marker turns into a backtick. -/
theorem C43_plus : returns ((Adoc.parseText emptyWorld 1 b!"a +b").map fun g => g.blocks.map Block.text) [b!"a `b"] = true := by
  decide +kernel

end Adoc.Props
