import Verif.Proof.ParserInv
/-!
# Single steps of the parser in common situations
-/
namespace Adoc.Parser
open Block (liftB)

/-- What the graph has besides blocks, the index of ids and the location. -/
def _root_.Adoc.Asg.front (g : Asg) : Option Header × Option (SMap Str) × Str := (g.header, g.attributes, g.documentId)

/-- A token outside a header. -/
theorem tokenInto_noHeader (w : World) (k : Nat) (t : Token) (p : Parser) (hh : p.header = none) :
    tokenInto w (k + 1) t p = match p.verbatim t with
      | some pass => p.parseText t pass
      | none => p.dispatchToken w (tokenInto w k) t := by
  simp only [tokenInto, step, hh, Option.isSome_none, Bool.false_and, Bool.false_eq_true, if_false]
  rfl

/-- A token outside a header and outside verbatim text. -/
theorem tokenInto_plain (w : World) (k : Nat) (t : Token) (p : Parser) (hh : p.header = none)
    (ho : p.openText = none) : tokenInto w (k + 1) t p = p.dispatchToken w (tokenInto w k) t := by
  rw [tokenInto_noHeader w k t p hh]
  have : p.verbatim t = none := by unfold verbatim; rw [ho]
  rw [this]

theorem feed_cons (f : Token → Parser → M Parser) (t : Token) (rest : List Item) (p q : Parser) (h : f t p = .ok q) :
    feed f true (.tok t :: rest) p = feed f true rest { q with lastTy := t.ty } := by
  simp only [feed, h, bind, Except.bind, if_true]

theorem feed_append (f : Token → Parser → M Parser) (b : Bool) (xs ys : List Item) (p q : Parser)
    (h : feed f b xs p = .ok q) : feed f b (xs ++ ys) p = feed f b ys q := by
  induction xs generalizing p with
  | nil => cases h; rfl
  | cons i xs ih =>
    cases i with
    | tok t =>
      simp only [List.cons_append, feed, bind, Except.bind] at h ⊢
      split at h
      · cases h
      · exact ih _ h
    | err => cases h
    | panic => cases h
    | hang => cases h

/-- Nothing pending: no change. -/
theorem addInlines_nil (p : Parser) (h : p.inlines = []) : p.addInlines = .ok p := by
  unfold addInlines
  rw [h]; rfl

/-- A stack of closed inlines is not touched by the handling of dangling spans. -/
theorem danglingSpans_closed (p : Parser) (h : ∀ i ∈ p.inlines, i.isOpen = false) : p.danglingSpans = .ok p := by
  unfold danglingSpans
  have : splitFirst Inline.isOpen p.inlines = none := by
    have : ∀ l : List Inline, (∀ i ∈ l, i.isOpen = false) → splitFirst Inline.isOpen l = none := by
      intro l
      induction l with
      | nil => intro _; rfl
      | cons x xs ih =>
        intro h
        simp only [splitFirst, h x (by simp), Bool.false_eq_true, if_false, ih (fun i hi => h i (by simp [hi]))]
    exact this _ h
  rw [this]

theorem pushInlines_leaf (n : LeafName) (fo : LeafForm) (d : Option Str) (is js : List Inline) (m : Option Meta)
    (l : List Location) : pushInlines (.leaf n fo d is m l) js = .ok (.leaf n fo d (is ++ js) m l) := by
  induction js generalizing is with
  | nil => simp [pushInlines]
  | cons j js ih =>
    simp only [pushInlines, Block.pushInline, liftB, bind, Except.bind]
    rw [ih]; simp

theorem pushInlines_item (k : Str) (is js : List Inline) (bs : List Block) (m : Option Meta) (l : List Location) :
    pushInlines (.listItem k is bs m l) js = .ok (.listItem k (is ++ js) bs m l) := by
  induction js generalizing is with
  | nil => simp [pushInlines]
  | cons j js ih =>
    simp only [pushInlines, Block.pushInline, liftB, bind, Except.bind]
    rw [ih]; simp

theorem pushInlines_section (t js : List Inline) (m : Option Meta) (v : Nat) (bs : List Block) (l : List Location) :
    pushInlines (.section t m v bs l) js = .ok (.section (t ++ js) m v bs l) := by
  induction js generalizing t with
  | nil => simp [pushInlines]
  | cons j js ih =>
    simp only [pushInlines, Block.pushInline, liftB, bind, Except.bind]
    rw [ih]; simp

/-- Add a block that is not a section at the end of the graph. -/
def addLastBlock (g : Asg) (b : Block) : Asg :=
  { g with idHash := SMap.extend g.idHash b.consolidate.idHashes, blocks := g.blocks ++ [b.consolidate] }

theorem consolidate_isSection (b : Block) : b.consolidate.isSection = b.isSection := by
  cases b <;> simp [Block.consolidate, Block.isSection]

theorem graphPush_leaf (p : Parser) (b : Block) (h : b.isSection = false) :
    p.graphPush b = .ok { p with asg := addLastBlock p.asg b } := by
  unfold graphPush Asg.pushBlock
  simp only [consolidate_isSection, h, Bool.false_eq_true, if_false, pure, Except.pure, bind, Except.bind]
  rfl

/-- A blank line after a single finished block that is not a section or list item. -/
theorem blankLine_top (p : Parser) (b : Block) (hh : p.header = none) (hi : p.inlines = []) (hb : p.blocks = [b])
    (hd : p.data = none) (ho : p.openLines = []) (hs : b.isSection = false) (ha : b.isAnyItem = false) :
    p.blankLine = .ok { p with
      dangling := none, inSpan := false, forceNew := true, blocks := [], asg := addLastBlock p.asg b } := by
  unfold blankLine
  simp only [hh, hb, ha, Bool.false_eq_true, if_false, bind, Except.bind]
  rw [addInlines_nil _ (by exact hi)]
  simp only [hs, ho, List.isEmpty_nil, Bool.not_false, Bool.and_self, if_true, addToStackOrGraph, hd,
    graphPush_leaf _ _ hs, Bool.not_true, Bool.and_false, Bool.false_eq_true, if_false, pure, Except.pure]

/-- A newline that does not follow another one, with nothing special going on. -/
theorem newLine_first (w : World) (k : Nat) (p : Parser) (t : Token) (ht : t.ty = .newLineChar) (hh : p.header = none)
    (ho : p.openText = none) (hti : p.title = none) (hl : p.lastTy ≠ .newLineChar) (hl' : p.lastTy ≠ .eof)
    (hc : p.inCont = false) (hcl : p.lastTy.clearsNewlineAfter = false) :
    tokenInto w (k + 1) t p = .ok { p with inBlockLine := false, dangling := some t } := by
  rw [tokenInto_plain w k t p hh ho]
  unfold dispatchToken
  rw [ht]
  simp only [parseNewLine, hti, hl, hl', or_self, if_false, hc, hcl, Bool.or_self, Bool.false_eq_true]

/-- A newline at the start of the text or after another one. -/
theorem newLine_second (w : World) (k : Nat) (p : Parser) (t : Token) (ht : t.ty = .newLineChar) (hh : p.header = none)
    (ho : p.openText = none) (hti : p.title = none) (hl : p.lastTy = .newLineChar ∨ p.lastTy = .eof) :
    tokenInto w (k + 1) t p = blankLine { p with inBlockLine := false } := by
  rw [tokenInto_plain w k t p hh ho]
  unfold dispatchToken
  rw [ht]
  simp only [parseNewLine, hti, hl, if_true]

end Adoc.Parser

namespace Adoc

theorem reconcile_ne (a b : List Location) (h : a ≠ []) : reconcile a b ≠ [] := by
  unfold reconcile
  split
  · exact h
  · have : (sortLocs (a ++ b)).length = (a ++ b).length := by
      have hins : ∀ (x : Location) (l : List Location), (insertLoc x l).length = l.length + 1 := by
        intro x l
        induction l with
        | nil => rfl
        | cons y ys ih =>
          unfold insertLoc
          split <;> simp [ih]
      have : ∀ (l acc : List Location), (l.foldl (fun acc x => insertLoc x acc) acc).length = l.length + acc.length := by
        intro l
        induction l with
        | nil => simp
        | cons x xs ih => intro acc; simp [ih, hins]; omega
      simpa [sortLocs] using this (a ++ b) []
    dsimp only
    split
    · rename_i he
      rw [he] at this
      have := List.length_pos_iff.2 h
      simp at *; omega
    · simp
    · simp

theorem tokLoc_ne (t : Token) : t.locations ≠ [] := by simp [Token.locations]

end Adoc
