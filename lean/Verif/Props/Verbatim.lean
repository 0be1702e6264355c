import Verif.Props.Attributes
import Verif.Proof.Steps
/-!
# Verbatim blocks and comments: C20, C21
-/
namespace Adoc.Props
open Adoc Parser


/-! ## C20 -/

/-- The delimiters of verbatim blocks and the name of the block. -/
def verbatimName : TokenType → Option LeafName
  | .passthroughBlock => some .pass
  | .literalBlock => some .literal
  | .sourceBlock => some .listing
  | _ => none

/-- A token that a verbatim block with delimiter `d` takes as text: not the delimiter, and in a listing neither a
callout nor an include. -/
def Enclosed (d : TokenType) (t : Token) : Prop :=
  t.ty ≠ d ∧ (d = .sourceBlock → t.ty ≠ .codeCallout ∧ t.ty ≠ .include)

/-- No text is pending, and no block continuation. -/
structure AtBlockStart (p : Parser) : Prop where
  header : p.header = none
  openText : p.openText = none
  inlines : p.inlines = []
  dangling : p.dangling = none
  cont : p.inCont = false
  line : p.inBlockLine = false

/-- The attributes that a block gets from pending metadata. -/
def metaOf : Option Meta → Option Meta
  | some m => if m.isEmpty then none else some m
  | none => none

private theorem verbatim_some {p : Parser} {d : TokenType} {n : LeafName} (hn : verbatimName d = some n)
    (ho : p.openText = some d) {t : Token} (ht : Enclosed d t) : p.verbatim t = some true := by
  unfold verbatim
  rw [ho]
  unfold verbatimName at hn
  obtain ⟨h1, h2⟩ := ht
  split at hn
  · simp [h1]
  · simp [h1]
  · simp [h1, (h2 rfl).1, (h2 rfl).2]
  · cases hn

private theorem verbatim_end {p : Parser} {d : TokenType} {n : LeafName} (hn : verbatimName d = some n)
    (ho : p.openText = some d) {t : Token} (ht : t.ty = d) : p.verbatim t = none := by
  unfold verbatim
  rw [ho]
  unfold verbatimName at hn
  split at hn
  · simp [ht]
  · simp [ht]
  · simp [ht]
  · cases hn

/-- Feeding text tokens to an open verbatim block that has some text already. -/
private theorem feed_text (w : World) (k : Nat) (d : TokenType) (n : LeafName) (hn : verbatimName d = some n)
    (ts : List Token) (ht : ∀ t ∈ ts, Enclosed d t) (p : Parser) (hh : p.header = none) (ho : p.openText = some d)
    (hd : p.dangling = none) (v : Str) (l : List Location) (hi : p.inlines = [.lit .text v l]) :
    ∃ ty l', feed (tokenInto w (k + 1)) true (ts.map .tok) p
      = .ok { p with lastTy := ty, inlines := [.lit .text (v ++ ts.flatMap Token.lexeme) l'] } := by
  induction ts generalizing p v l with
  | nil => exact ⟨p.lastTy, l, by simp [feed, ← hi]⟩
  | cons t ts ih =>
    have h1 : tokenInto w (k + 1) t p
        = .ok { p with inlines := [.lit .text (v ++ t.lexeme) (reconcile l t.locations)] } := by
      rw [tokenInto_noHeader w k t p hh, verbatim_some hn ho (ht t (by simp))]
      simp only [Parser.parseText, hd, Parser.addText, hi, reduceCtorEq, if_false, Inline.litAdd, if_true]
    rw [List.map_cons, feed_cons _ _ _ _ _ h1]
    obtain ⟨ty, l', h2⟩ := ih (fun t h => ht t (by simp [h]))
      { p with inlines := [.lit .text (v ++ t.lexeme) (reconcile l t.locations)], lastTy := t.ty } hh ho hd _ _ rfl
    refine ⟨ty, l', ?_⟩
    rw [h2]
    simp [List.flatMap_cons]

/-- **C20, partial.** A verbatim block that begins where a block can begin: after its closing delimiter the block on
top of the stack is a single leaf with one text that is the concatenation of the enclosed lexemes; the blocks below,
the graph and the attributes are as before.

Missing from the full statement: a block that directly follows a line of text or a block continuation
(`C20_text_before`), and text that directly follows the closing delimiter (`C20_text_after`); in these cases the claim
is false. -/
theorem C20_verbatim_partial (w : World) (k : Nat) (p : Parser) (hp : AtBlockStart p) (d e : Token) (n : LeafName)
    (hn : verbatimName d.ty = some n) (he : e.ty = d.ty) (ts : List Token) (hne : ts ≠ [])
    (ht : ∀ t ∈ ts, Enclosed d.ty t) :
    ∃ q l l', feed (tokenInto w (k + 1)) true ((d :: ts ++ [e]).map .tok) p = .ok q
      ∧ q.blocks = .leaf n .delimited (some d.text) [.lit .text (ts.flatMap Token.lexeme) l] (metaOf p.data) l' :: p.blocks
      ∧ q.asg = p.asg ∧ q.attrs = p.attrs ∧ q.inlines = [] ∧ q.openText = none ∧ q.header = none ∧ q.dangling = none
      ∧ q.data = none ∧ q.inCont = false ∧ q.openLines = p.openLines ∧ q.title = p.title ∧ q.lastTy = d.ty
      ∧ q.inBlockLine = false ∧ q.closeParent = p.closeParent ∧ q.inSpan = p.inSpan ∧ q.preserveNl = p.preserveNl
      ∧ q.offset = p.offset ∧ q.forceNew = false := by
  obtain ⟨hh, ho, hi, hd, hc, hb⟩ := hp
  have hleaf : Block.leafName d.ty = some n := by
    unfold verbatimName at hn
    split at hn <;> simp_all [Block.leafName]
  have hdisp : ∀ (x : Token) (r : Parser), x.ty = d.ty →
      r.dispatchToken w (tokenInto w k) x = r.parseLeaf x := by
    intro x r hx
    unfold dispatchToken
    rw [hx]
    unfold verbatimName at hn
    split at hn <;> simp_all
  -- the opening delimiter
  have h1 : tokenInto w (k + 1) d p = .ok { p with
      openText := some d.ty, forceNew := false, data := none,
      blocks := .leaf n .delimited (some d.text) [] (metaOf p.data) d.locations :: p.blocks } := by
    rw [tokenInto_plain w k d p hh ho, hdisp d p rfl]
    unfold parseLeaf
    rw [ho]
    simp only [Block.leafFromToken, hleaf, Block.liftB, bind, Except.bind, pushToStack, hc, Bool.false_and,
      Bool.false_eq_true, if_false]
    cases hm : p.data with
    | none => simp [pure, Except.pure, metaOf]
    | some m =>
      by_cases he : m.isEmpty = true <;> simp [Block.addMeta, metaOf, he, pure, Except.pure]
  -- the text
  obtain ⟨t0, ts, rfl⟩ := List.exists_cons_of_ne_nil hne
  let p1 : Parser := { p with
      openText := some d.ty, forceNew := false, data := none, lastTy := d.ty,
      blocks := .leaf n .delimited (some d.text) [] (metaOf p.data) d.locations :: p.blocks }
  have h2 : tokenInto w (k + 1) t0 p1 = .ok { p1 with inlines := [.lit .text t0.lexeme t0.locations] } := by
    rw [tokenInto_noHeader w k t0 p1 hh, verbatim_some hn rfl (ht t0 (by simp))]
    simp only [Parser.parseText, hd, Parser.addText, hi, if_true, p1]
  obtain ⟨ty, l, h3⟩ := feed_text w k d.ty n hn ts (fun t h => ht t (by simp [h]))
    { p1 with inlines := [.lit .text t0.lexeme t0.locations], lastTy := t0.ty } hh rfl hd _ _ rfl
  -- the closing delimiter
  let p2 : Parser := { p1 with
    inlines := [.lit .text (t0.lexeme ++ ts.flatMap Token.lexeme) l], lastTy := ty }
  have h4 : tokenInto w (k + 1) e p2 = .ok { p2 with
      inlines := [], openText := none,
      blocks := .leaf n .delimited (some d.text) [.lit .text (t0.lexeme ++ ts.flatMap Token.lexeme) l] (metaOf p.data)
        (reconcile d.locations e.locations) :: p.blocks } := by
    rw [tokenInto_noHeader w k e p2 hh, verbatim_end hn rfl he]
    show p2.dispatchToken w (tokenInto w k) e = _
    rw [hdisp e p2 he]
    have ha : p2.addInlines = .ok { p2 with
        inlines := []
        blocks := .leaf n .delimited (some d.text) [.lit .text (t0.lexeme ++ ts.flatMap Token.lexeme) l]
          (metaOf p.data) d.locations :: p.blocks } := by
      unfold addInlines
      have hds : p2.danglingSpans = .ok p2 := danglingSpans_closed p2 (by simp [p2, Inline.isOpen])
      rw [hds]
      simp only [p2, p1, List.isEmpty_cons, Bool.false_eq_true, if_false, ite_self, bind, Except.bind, hh, hb,
        Block.takesInlines, Bool.not_false, Bool.and_self, if_true, List.reverse_cons, List.reverse_nil, List.nil_append,
        pushInlines_leaf, pure, Except.pure]
    unfold parseLeaf
    simp only [ha, bind, Except.bind]
    simp only [p2, p1, Block.addLocations, pushToStack, hc, Bool.false_and, Bool.false_eq_true, if_false, pure,
      Except.pure]
  refine ⟨{ p2 with
      inlines := [], openText := none, lastTy := e.ty,
      blocks := .leaf n .delimited (some d.text) [.lit .text (t0.lexeme ++ ts.flatMap Token.lexeme) l] (metaOf p.data)
        (reconcile d.locations e.locations) :: p.blocks }, l, reconcile d.locations e.locations, ?_, ?_⟩
  · rw [List.cons_append, List.map_cons, feed_cons _ _ _ _ _ h1, List.cons_append, List.map_cons, feed_cons _ _ _ _ _ h2,
      List.map_append, feed_append _ _ _ _ _ _ h3]
    rw [List.map_cons, List.map_nil, feed_cons _ _ _ _ _ h4]
    rfl
  · simp [p2, p1, hh, hd, hc, hb, he]

/-- **C20, partial**, with the blank line after the block: at the top level of the document the graph gets exactly this
one block. -/
theorem C20_graph_partial (w : World) (k : Nat) (p : Parser) (hp : AtBlockStart p) (hb : p.blocks = [])
    (hl : p.openLines = []) (hti : p.title = none) (d e : Token) (n : LeafName)
    (hn : verbatimName d.ty = some n) (he : e.ty = d.ty) (ts : List Token) (hne : ts ≠ [])
    (ht : ∀ t ∈ ts, Enclosed d.ty t) (nl nl' : Token) (hnl : nl.ty = .newLineChar) (hnl' : nl'.ty = .newLineChar) :
    ∃ q l l', feed (tokenInto w (k + 1)) true ((d :: ts ++ [e] ++ [nl, nl']).map .tok) p = .ok q
      ∧ q.asg.blocks = p.asg.blocks
          ++ [.leaf n .delimited (some d.text) [.lit .text (ts.flatMap Token.lexeme) l] (metaOf p.data) l']
      ∧ q.blocks = [] ∧ q.inlines = [] ∧ q.attrs = p.attrs := by
  obtain ⟨q, l, l', hq, h1, h2, h3, h4, h5, h6, h7, h8, h9, h10, h11, h12, h13⟩ :=
    C20_verbatim_partial w k p hp d e n hn he ts hne ht
  have hty : d.ty ≠ .newLineChar ∧ d.ty ≠ .eof ∧ d.ty.clearsNewlineAfter = false := by
    unfold verbatimName at hn
    split at hn <;> simp_all [TokenType.clearsNewlineAfter]
  have n1 := newLine_first w k q nl hnl h6 h5 (by rw [h11, hti]) (by rw [h12]; exact hty.1) (by rw [h12]; exact hty.2.1)
    h9 (by rw [h12]; exact hty.2.2)
  have n2 := (newLine_second w k { q with inBlockLine := false, dangling := some nl, lastTy := nl.ty } nl' hnl' h6 h5
    (by show q.title = none; rw [h11, hti]) (.inl hnl)).trans
    (blankLine_top _ (.leaf n .delimited (some d.text) [.lit .text (ts.flatMap Token.lexeme) l] (metaOf p.data) l')
      h6 h4 (by show q.blocks = _; rw [h1, hb]) h8 (by show q.openLines = _; rw [h10, hl]) rfl rfl)
  have hf := ((feed_append _ true _ ([nl, nl'].map .tok) _ _ hq).trans (feed_cons _ _ _ _ _ n1)).trans
    (feed_cons _ _ _ _ _ n2)
  rw [← List.map_append] at hf
  refine ⟨_, l, Block.recInlines l' [.lit .text (ts.flatMap Token.lexeme) l], hf, ?_, rfl, h4, h3⟩
  simp [addLastBlock, Block.consolidate, h2]

/-- A listing with markup and an empty line in it. -/
example : returns ((parseText emptyWorld 5 b!"----\n*a* [b\n\n== c\n----\n\n").map fun g => g.blocks.map Block.text)
    [b!"\n*a* [b\n\n== c\n"] = true := by decide +kernel

/-- **C20** is false for a block directly after a line of text: the text becomes part of the listing. -/
theorem C20_text_before : returns ((parseText emptyWorld 5 b!"a\n----\nb\n----\n").map fun g => g.blocks.map Block.text)
    [b!"a\n\nb\n"] = true := by decide +kernel

/-- **C20** is false when text directly follows the block: it becomes part of the listing. -/
theorem C20_text_after : returns ((parseText emptyWorld 5 b!"----\nb\n----\nc\n").map fun g => g.blocks.map Block.text)
    [b!"\nb\n\nc"] = true := by decide +kernel

/-! ## C21 -/

/-- **C21, partial** (line comments): outside verbatim blocks, a comment token leaves the whole parser state as it is,
in the header, in a paragraph, in a span or anywhere else.

Missing from the full statement: the newline after a comment is a token of its own; at the start of a paragraph it
becomes part of the paragraph (`C21_newline`). -/
theorem C21_line_partial (w : World) (k : Nat) (p : Parser) (t : Token) (ht : t.ty = .comment)
    (ho : p.openText = none ∨ p.openText = some .quoteVerseBlock) : tokenInto w (k + 1) t p = .ok p := by
  have hc : t.canBeInHeader = true := by unfold Token.canBeInHeader Token.isInline; rw [ht]
  have hv : p.verbatim t = none := by
    unfold verbatim
    rcases ho with ho | ho <;> rw [ho]
    simp [Token.isInline, ht]
  simp only [tokenInto, step, hc, Bool.not_true, Bool.and_false, Bool.false_eq_true, if_false]
  show (match p.verbatim t with
    | some pass => p.parseText t pass
    | none => p.dispatchToken w (tokenInto w k) t) = _
  rw [hv]
  show p.dispatchToken w (tokenInto w k) t = _
  unfold dispatchToken
  rw [ht]

example : returns ((parseText emptyWorld 5 b!"a *b\n// c\nd* e\n").map fun g => g.blocks.map Block.text)
    [b!"a b\nd e"] = true := by decide +kernel

/-- **C21, partial** (comment blocks): where a block can begin and without pending metadata, a comment block of any
tokens leaves the blocks, the graph, the attributes and the pending text as they are.

Missing from the full statement: a comment block directly after a line of text, which is lost (`C21_text_before`), or
after block metadata, which is taken off the next block (`C21_metadata`). -/
theorem C21_block_partial (w : World) (k : Nat) (p : Parser) (hp : AtBlockStart p) (hd : p.data = none) (d e : Token)
    (hdt : d.ty = .commentBlock) (het : e.ty = .commentBlock) (ts : List Token) (ht : ∀ t ∈ ts, t.ty ≠ .commentBlock) :
    feed (tokenInto w (k + 1)) true ((d :: ts ++ [e]).map .tok) p
      = .ok { p with lastTy := .commentBlock, forceNew := true } := by
  obtain ⟨hh, ho, hi, hdn, hc, hb⟩ := hp
  have h1 : tokenInto w (k + 1) d p = .ok { p with
      openText := some .commentBlock, forceNew := false,
      blocks := .leaf .listing .delimited (some d.text) [] none d.locations :: p.blocks } := by
    rw [tokenInto_plain w k d p hh ho]
    unfold dispatchToken
    rw [hdt]
    simp only [parseCommentBlock, ho, parseLeaf, Block.leafFromToken, Block.leafName, hdt, Block.liftB, bind, Except.bind,
      pushToStack, hc, Bool.false_and, Bool.false_eq_true, if_false, hd, pure, Except.pure]
  -- the text inside only changes the inline stack
  have h2 : ∀ (ts : List Token) (q : Parser), (∀ t ∈ ts, t.ty ≠ .commentBlock) → q.header = none →
      q.openText = some .commentBlock → q.dangling = none →
      (q.inlines = [] ∨ ∃ v l, q.inlines = [.lit .text v l]) →
      ∃ ty is, feed (tokenInto w (k + 1)) true (ts.map .tok) q = .ok { q with lastTy := ty, inlines := is } := by
    intro ts
    induction ts with
    | nil => intro q _ _ _ _ _; exact ⟨q.lastTy, q.inlines, rfl⟩
    | cons t ts ih =>
      intro q ht hh ho hdn hi
      have hv : q.verbatim t = some true := by
        unfold verbatim
        rw [ho]
        simp [ht t (by simp)]
      have h3 : ∃ v l, tokenInto w (k + 1) t q = .ok { q with inlines := [.lit .text v l] } := by
        rw [tokenInto_noHeader w k t q hh, hv]
        rcases hi with hi | ⟨v, l, hi⟩
        · exact ⟨t.lexeme, t.locations, by simp only [Parser.parseText, hdn, Parser.addText, hi, if_true]⟩
        · exact ⟨v ++ t.lexeme, reconcile l t.locations,
            by simp only [Parser.parseText, hdn, Parser.addText, hi, reduceCtorEq, if_false, if_true, Inline.litAdd]⟩
      obtain ⟨v, l, h3⟩ := h3
      obtain ⟨ty, is, h4⟩ := ih { q with inlines := [.lit .text v l], lastTy := t.ty } (fun t h => ht t (by simp [h]))
        hh ho hdn (.inr ⟨v, l, rfl⟩)
      exact ⟨ty, is, by rw [List.map_cons, feed_cons _ _ _ _ _ h3, h4]⟩
  obtain ⟨ty, is, h3⟩ := h2 ts { p with
      openText := some .commentBlock, forceNew := false, lastTy := .commentBlock,
      blocks := .leaf .listing .delimited (some d.text) [] none d.locations :: p.blocks } ht hh rfl hdn (.inl hi)
  rw [List.cons_append, List.map_cons, feed_cons _ _ _ _ _ h1, List.map_append, hdt, feed_append _ _ _ _ _ _ h3,
    List.map_cons, List.map_nil, feed, tokenInto_noHeader w k e _ (by exact hh)]
  simp only [verbatim, het, if_true, dispatchToken, parseCommentBlock, bind, Except.bind, feed, List.tail_cons]
  simp [ho, hi]

example : returns ((parseText emptyWorld 5 b!"a\n\n////\n== b\n\n*\n////\n\nc\n").map fun g => g.blocks.map Block.text)
    [b!"a", b!"c"] = true := by decide +kernel

/-- **C21** is false for the line break after a comment that begins a paragraph: it becomes part of the text. -/
theorem C21_newline : returns ((parseText emptyWorld 5 b!"// c\nb\n").map fun g => g.blocks.map Block.text) [b!"\nb"] = true
    ∧ returns ((parseText emptyWorld 5 b!"b\n").map fun g => g.blocks.map Block.text) [b!"b"] = true := by
  decide +kernel

/-- **C21** is false for a comment block directly after text: the text is lost. -/
theorem C21_text_before : returns ((parseText emptyWorld 5 b!"a\n////\nc\n////\n\nb\n").map fun g => g.blocks.map Block.text)
    [b!"b"] = true := by decide +kernel

/-- **C21** is false for a comment block after block attributes: they do not reach the next block. -/
theorem C21_metadata : returns ((parseText emptyWorld 5 b!"[[x]]\n////\nc\n////\n\nb\n").map
      fun g => g.blocks.map fun b => (b.text, b.id?)) [(b!"b", none)] = true
    ∧ returns ((parseText emptyWorld 5 b!"[[x]]\nb\n").map
      fun g => g.blocks.map fun b => (b.text, b.id?)) [(b!"\nb", some b!"x")] = true := by
  decide +kernel

end Adoc.Props
