import Verif.Proof.ParserInv
import Verif.Props.Graph
/-!
# C15, C16, C22, C28, C31/C32 for parse results, C45

`Parser.parse w fuel items p` is the result of parsing the items with the file system `w`, allowing `fuel` nested
includes and cells. The theorems hold for every `fuel`.
-/
namespace Adoc.Props
open Block

/-- A parser that has not seen a token: nothing on the stack and an empty graph. All settings (attributes, level
offset, target resolution, file names) are free. -/
def Fresh (p : Parser) : Prop := p.blocks = [] ∧ p.asg = Asg.new

example : Fresh Parser.new ∧ Fresh Parser.newNoTargets := ⟨⟨rfl, rfl⟩, ⟨rfl, rfl⟩⟩

/-- Parser states reached from a fresh parser by processing tokens. -/
inductive Reached (w : World) : Parser → Prop
  | start {p : Parser} : Fresh p → Reached w p
  | token {p q : Parser} {fuel : Nat} {t : Token} : Reached w p → Parser.tokenInto w fuel t p = .ok q → Reached w q
  | last {p : Parser} {ty : TokenType} : Reached w p → Reached w { p with lastTy := ty }

/-! ## C15 and C16 -/

mutual
/-- Levels are between 1 and 4, and sections directly in a section are deeper. -/
private def okT : Block → Prop
  | .section _ _ v bs _ => (1 ≤ v ∧ v ≤ 4) ∧ (∀ c ∈ bs, ∀ v', c.levelCheck = some v' → v < v') ∧ okTL bs
  | .list _ bs _ _ => okTL bs
  | .dlist bs _ _ => okTL bs
  | .listItem _ _ bs _ _ => okTL bs
  | .dlistItem _ _ bs _ _ => okTL bs
  | .parent _ _ _ bs _ _ _ => okTL bs
  | .brk _ _ => True
  | .image _ _ _ _ => True
  | .leaf _ _ _ _ _ _ => True
  | .tableCell _ _ _ => True
private def okTL : List Block → Prop
  | [] => True
  | b :: bs => okT b ∧ okTL bs
end

private theorem okTL_iff (bs : List Block) : okTL bs ↔ ∀ b ∈ bs, okT b := by
  induction bs with
  | nil => simp [okTL]
  | cons b bs ih => simp [okTL, ih]

private theorem okT_iff (b : Block) : okT b ↔
    (∀ v, b.levelCheck = some v → (1 ≤ v ∧ v ≤ 4) ∧ ∀ c ∈ b.children, ∀ v', c.levelCheck = some v' → v < v')
      ∧ okTL b.children := by
  cases b <;> simp [okT, levelCheck, children, okTL, and_assoc]

mutual
private theorem okT_consolidate : ∀ b : Block, okT b.consolidate ↔ okT b
  | .section .. => by simp [consolidate, okT]
  | .list v bs m l => by simp [consolidate, okT, okTL_consolidate bs]
  | .dlist bs m l => by simp [consolidate, okT, okTL_consolidate bs]
  | .listItem .. => by simp [consolidate, okT]
  | .dlistItem .. => by simp [consolidate, okT]
  | .parent .. => by simp [consolidate, okT]
  | .brk .. => by simp [consolidate, okT]
  | .image .. => by simp [consolidate, okT]
  | .leaf .. => by simp [consolidate, okT]
  | .tableCell .. => by simp [consolidate, okT]
private theorem okTL_consolidate : ∀ bs : List Block, okTL (consolidateL bs) ↔ okTL bs
  | [] => by simp [consolidateL]
  | b :: bs => by simp [consolidateL, okTL, okT_consolidate b, okTL_consolidate bs]
end

private theorem okTL_pushIntoLastList (item : Block) (bs r : List Block) (h : pushIntoLastList item bs = .ok r)
    (hb : okTL bs) (hi : okT item) : okTL r := by
  induction bs generalizing r with
  | nil => cases h
  | cons b bs ih =>
    cases bs with
    | nil =>
      cases b <;> simp [pushIntoLastList] at h
      case list v items m l =>
        subst h
        simp only [okTL, okT] at hb ⊢
        rw [okT_consolidate, okT_consolidate]
        simp only [okT, okTL_iff] at hb ⊢
        refine ⟨?_, trivial⟩
        intro x hx
        rcases List.mem_append.1 hx with hx | hx
        · exact hb.1 x hx
        · simp at hx; exact hx ▸ hi
    | cons b' bs' =>
      have e : pushIntoLastList item (b :: b' :: bs') = (do
          let r ← pushIntoLastList item (b' :: bs')
          return b :: r) := by rw [pushIntoLastList] <;> simp
      rw [e] at h
      simp only [bind, Except.bind] at h
      split at h
      · cases h
      · rename_i r' hr'
        cases h
        exact ⟨hb.1, ih _ hr' hb.2⟩

private theorem okTL_append (bs : List Block) (b : Block) (h : okTL bs) (hb : okT b) : okTL (bs ++ [b]) := by
  rw [okTL_iff] at h ⊢
  intro x hx
  rcases List.mem_append.1 hx with hx | hx
  · exact h x hx
  · simp at hx; exact hx ▸ hb

mutual
private theorem okT_pushBlock : ∀ (a b c : Block), a.pushBlock b = .ok c → okT a → okT b →
    (a.isSection = true → b.isSection = true → a.takesBlock b = true) → okT c
  | .section t m v bs l, b, c, h, ha, hb, hg => by
    unfold pushBlock at h
    split at h
    · rename_i hs
      simp only [bind, Except.bind] at h
      split at h
      · cases h
      · rename_i bs' hbs
        cases h
        rw [okT_consolidate]
        simp only [okT] at ha ⊢
        have := okTL_pushSectionL bs b bs' hbs ha.2.2 hb
        refine ⟨ha.1, this.2 v ha.2.1 ?_, this.1⟩
        intro v' hv'
        have hg := hg rfl hs
        simp [takesBlock, hv'] at hg
        exact hg
    · rename_i hs
      cases h
      rw [okT_consolidate]
      simp only [okT] at ha ⊢
      refine ⟨ha.1, ?_, okTL_append bs b ha.2.2 hb⟩
      intro x hx v' hv'
      rcases List.mem_append.1 hx with hx | hx
      · exact ha.2.1 x hx v' hv'
      · simp at hx; subst hx
        exact absurd (by rw [isSection_iff, hv']; rfl) hs
  | .list v bs m l, b, c, h, ha, hb, _ => by
    unfold pushBlock at h; cases h
    rw [okT_consolidate]; exact okTL_append bs b ha hb
  | .dlist bs m l, b, c, h, ha, hb, _ => by
    unfold pushBlock at h; cases h
    rw [okT_consolidate]; exact okTL_append bs b ha hb
  | .listItem k p bs m l, b, c, h, ha, hb, _ => by
    unfold pushBlock at h; cases h
    rw [okT_consolidate]; exact okTL_append bs b ha hb
  | .dlistItem t p bs m l, b, c, h, ha, hb, _ => by
    unfold pushBlock at h; cases h
    rw [okT_consolidate]; exact okTL_append bs b ha hb
  | .parent n v d bs t m l, b, c, h, ha, hb, _ => by
    unfold pushBlock at h
    split at h
    · simp only [bind, Except.bind] at h
      split at h
      · cases h
      · rename_i hbs
        cases h
        rw [okT_consolidate]; exact okTL_pushIntoLastList b bs _ hbs ha hb
    · split at h
      · cases h
      · cases h
        rw [okT_consolidate]; exact okTL_append bs b ha hb
  | .brk .., b, c, h, _, _, _ => by cases h
  | .image .., b, c, h, _, _, _ => by cases h
  | .leaf .., b, c, h, _, _, _ => by cases h
  | .tableCell .., b, c, h, _, _, _ => by cases h
private theorem okTL_pushSectionL : ∀ (bs : List Block) (b : Block) (r : List Block), pushSectionL bs b = .ok r →
    okTL bs → okT b → okTL r ∧ ∀ lo, (∀ c ∈ bs, ∀ v', c.levelCheck = some v' → lo < v') →
      (∀ v', b.levelCheck = some v' → lo < v') → ∀ c ∈ r, ∀ v', c.levelCheck = some v' → lo < v'
  | [], b, r, h, _, hb => by
    cases h
    exact ⟨⟨hb, trivial⟩, fun lo _ h c hc => by simp at hc; exact hc ▸ h⟩
  | [x], b, r, h, hx, hb => by
    unfold pushSectionL at h
    split at h
    · rename_i ht
      simp only [bind, Except.bind] at h
      split at h
      · cases h
      · rename_i x' hx'
        cases h
        refine ⟨⟨okT_pushBlock x b x' hx' hx.1 hb (fun _ _ => ht), trivial⟩, fun lo h1 _ c hc => ?_⟩
        simp at hc; subst hc
        rw [pushBlock_level hx']
        exact h1 x (by simp)
    · cases h
      refine ⟨⟨hx.1, hb, trivial⟩, fun lo h1 h2 c hc => ?_⟩
      simp at hc
      rcases hc with rfl | rfl
      · exact h1 c (by simp)
      · exact h2
  | x :: y :: bs, b, r, h, hx, hb => by
    unfold pushSectionL at h
    simp only [bind, Except.bind] at h
    split at h
    · cases h
    · rename_i r' hr'
      cases h
      have := okTL_pushSectionL (y :: bs) b r' hr' hx.2 hb
      refine ⟨⟨hx.1, this.1⟩, fun lo h1 h2 c hc => ?_⟩
      rcases List.mem_cons.1 hc with rfl | hc
      · exact h1 c (by simp)
      · exact this.2 lo (fun c hc => h1 c (by simp [hc])) h2 c hc
end

private theorem good_okT : Good okT where
  nonsec b hs hc := by
    rw [okT_iff, hc]
    refine ⟨fun v hv => ?_, trivial⟩
    rw [isSection_iff, hv] at hs; cases hs
  sec v l h1 h4 := by simp [okT, okTL, h1, h4]
  same b c h h1 h2 := by rw [okT_iff] at h ⊢; rw [h1, h2]; exact h
  push a b c ha hb hg h := okT_pushBlock a b c h ha hb hg

private theorem okT_graph {g g' : Asg} (h : Steps okT g g') (hg : okTL g.blocks) : okTL g'.blocks := by
  induction h with
  | refl => exact hg
  | header _ ih => exact ih
  | push _ hq hp ih =>
    unfold Asg.pushBlock at hp
    dsimp only at hp
    rw [← okT_consolidate] at hq
    split at hp
    · simp only [bind, Except.bind] at hp
      split at hp
      · cases hp
      · rename_i hbs
        cases hp
        exact (okTL_pushSectionL _ _ _ hbs ih hq).1
    · cases hp
      exact okTL_append _ _ ih hq

mutual
private theorem mapInlines_level (f : Inline → Inline) : ∀ b : Block, okT b → okT (mapInlines f b)
  | .section t m v bs l, h => by
    simp only [mapInlines, okT] at h ⊢
    exact ⟨h.1, mapInlinesL_levels f bs v h.2.1, mapInlinesL_level f bs h.2.2⟩
  | .list v bs m l, h => mapInlinesL_level f bs h
  | .dlist bs m l, h => mapInlinesL_level f bs h
  | .listItem k p bs m l, h => mapInlinesL_level f bs h
  | .dlistItem t p bs m l, h => mapInlinesL_level f bs h
  | .parent n v d bs t m l, h => mapInlinesL_level f bs h
  | .brk .., _ => trivial
  | .image .., _ => trivial
  | .leaf .., _ => trivial
  | .tableCell .., _ => trivial
private theorem mapInlinesL_level (f : Inline → Inline) : ∀ bs : List Block, okTL bs → okTL (mapInlinesL f bs)
  | [], _ => trivial
  | b :: bs, h => ⟨mapInlines_level f b h.1, mapInlinesL_level f bs h.2⟩
private theorem mapInlinesL_levels (f : Inline → Inline) : ∀ (bs : List Block) (lo : Nat),
    (∀ c ∈ bs, ∀ v', c.levelCheck = some v' → lo < v') → ∀ c ∈ mapInlinesL f bs, ∀ v', c.levelCheck = some v' → lo < v'
  | [], _, _ => by intro c hc; cases hc
  | b :: bs, lo, h => by
    intro c hc
    simp only [mapInlinesL, List.mem_cons] at hc
    rcases hc with rfl | hc
    · have e : (mapInlines f b).levelCheck = b.levelCheck := by cases b <;> rfl
      rw [e]; exact h b (by simp)
    · exact mapInlinesL_levels f bs lo (fun c hc => h c (by simp [hc])) c hc
end

private theorem stack_fresh {Q : Block → Prop} {p : Parser} (h : Fresh p) : StackOk Q p.blocks := by
  rw [h.1]; exact .nil

private theorem parse_levels (w : World) (fuel : Nat) (items : List Item) (p r : Parser) (hp : Fresh p)
    (h : Parser.parse w fuel items p = .ok r) : okTL r.asg.blocks := by
  obtain ⟨q, hq, rfl⟩ := parse_rel good_okT w fuel items p r h
  have hs := (hq (stack_fresh hp)).2.1
  have hb := okT_graph hs (by rw [hp.2]; trivial)
  show okTL (q.asg.consolidateLocations.consolidateXrefs).blocks
  have e : q.asg.consolidateLocations.blocks = q.asg.blocks := by
    unfold Asg.consolidateLocations
    split
    · rfl
    · split <;> rfl
  exact mapInlinesL_level _ _ (by rw [e]; exact hb)

private theorem below_okT {b : Block} {bs : List Block} (h : Below b bs) (hb : okTL bs) : okT b := by
  induction h with
  | here hm => exact (okTL_iff _).1 hb _ hm
  | child hm _ ih => exact ih ((okT_iff _).1 ((okTL_iff _).1 hb _ hm)).2

/-- **C15.** Every section anywhere in the graph of a successful parse has a level between 1 and 4. -/
theorem C15_levels (w : World) (fuel : Nat) (items : List Item) (p r : Parser) (hp : Fresh p)
    (h : Parser.parse w fuel items p = .ok r) (t : List Inline) (m : Option Meta) (v : Nat) (bs : List Block)
    (l : List Location) (hb : Below (.section t m v bs l) r.asg.blocks) : 1 ≤ v ∧ v ≤ 4 :=
  (below_okT hb (parse_levels w fuel items p r hp h)).1

/-- **C16.** In the graph of a successful parse a section directly in a section has a greater level. -/
theorem C16_deeper (w : World) (fuel : Nat) (items : List Item) (p r : Parser) (hp : Fresh p)
    (h : Parser.parse w fuel items p = .ok r) (t : List Inline) (m : Option Meta) (v : Nat) (bs : List Block)
    (l : List Location) (hb : Below (.section t m v bs l) r.asg.blocks)
    (t' : List Inline) (m' : Option Meta) (v' : Nat) (bs' : List Block) (l' : List Location)
    (hc : .section t' m' v' bs' l' ∈ bs) : v < v' :=
  (below_okT hb (parse_levels w fuel items p r hp h)).2.1 _ hc v' rfl

/-- The sections of a graph, as level and nesting depth. -/
def outlineOf : Nat → List Block → List (Nat × Nat)
  | 0, _ => []
  | n + 1, bs => bs.flatMap fun b => match b with
    | .section _ _ v kids _ => (v, n) :: outlineOf n kids
    | _ => []

/-- Does a run return a certain value? -/
def returns {α : Type} [DecidableEq α] (x : M α) (v : α) : Bool :=
  match x with
  | .ok a => decide (a = v)
  | .error _ => false

/-- No files. -/
def emptyWorld : World := ⟨fun _ _ => none, fun _ => none⟩

/-- A document with a section of level 2 in one of level 1, and another one of level 1. -/
example : returns ((parseText emptyWorld 5 b!"== A\n\n=== B\n\ntext\n\n== C\n\n").map (fun g => outlineOf 9 g.blocks))
    [(1, 8), (2, 7), (1, 8)] = true := by decide +kernel

/-! ## C22 -/

/-- A block without its children and locations. -/
def own : Block → Block
  | .section t m v _ _ => .section t m v [] []
  | .list v _ m _ => .list v [] m []
  | .dlist _ m _ => .dlist [] m []
  | .listItem k p _ m _ => .listItem k p [] m []
  | .dlistItem t p _ m _ => .dlistItem t p [] m []
  | .parent n v d _ t m _ => .parent n v d [] t m []
  | .brk v _ => .brk v []
  | .image t c m _ => .image t c m []
  | .leaf n f d is m _ => .leaf n f d is m []
  | .tableCell is m _ => .tableCell is m []

/-- Blocks are added at the end, or inside the last block at its end; nothing else changes except the locations of
the blocks that were added to. -/
inductive Grows : List Block → List Block → Prop
  | nil {more : List Block} : Grows [] more
  | same {x : Block} {more : List Block} : Grows [x] (x :: more)
  | last {x y : Block} {more : List Block} : own x = own y → Grows x.children y.children → Grows [x] (y :: more)
  | cons {a b : Block} {bs cs : List Block} : Grows (b :: bs) cs → Grows (a :: b :: bs) (a :: cs)

private theorem Grows.refl : ∀ bs : List Block, Grows bs bs
  | [] => .nil
  | [_] => .same
  | _ :: b :: bs => .cons (Grows.refl (b :: bs))

private theorem Grows.append : ∀ bs more : List Block, Grows bs (bs ++ more)
  | [], _ => .nil
  | [_], _ => .same
  | _ :: b :: bs, more => .cons (Grows.append (b :: bs) more)

private theorem Grows.trans {a b c : List Block} (h : Grows a b) (h' : Grows b c) : Grows a c := by
  induction h generalizing c with
  | nil => exact .nil
  | @same x more =>
    cases more with
    | nil => exact h'
    | cons m ms => cases h'; exact .same
  | @last x y more ho hg ih =>
    cases more with
    | nil =>
      cases h' with
      | same => exact .last ho hg
      | last ho' hg' => exact .last (ho.trans ho') (ih hg')
    | cons m ms => cases h'; exact .last ho hg
  | @cons a b bs cs hg ih =>
    cases cs with
    | nil => cases hg
    | cons d ds => cases h' with
      | cons h'' => exact .cons (ih h'')

mutual
private theorem grows_pushBlock : ∀ (a b c : Block), a.pushBlock b = .ok c → b.isSection = true → a.takesBlock b = true →
    own a = own c ∧ Grows a.children c.children
  | .section t m v bs l, b, c, h, hs, _ => by
    unfold pushBlock at h
    rw [if_pos hs] at h
    simp only [bind, Except.bind] at h
    split at h
    · cases h
    · rename_i hbs
      cases h
      exact ⟨rfl, grows_pushSectionL bs b _ hbs hs⟩
  | .list v bs m l, b, c, h, hs, ht => by
    cases b <;> simp [takesBlock, isListItem, Block.isSection] at hs ht
  | .dlist bs m l, b, c, h, hs, ht => by
    cases b <;> simp [takesBlock, isDlistItem, Block.isSection] at hs ht
  | .listItem k p bs m l, b, c, h, _, _ => by
    unfold pushBlock at h; cases h
    exact ⟨rfl, Grows.append bs [b]⟩
  | .dlistItem t p bs m l, b, c, h, _, _ => by
    unfold pushBlock at h; cases h
    exact ⟨rfl, Grows.append bs [b]⟩
  | .parent n v d bs t m l, b, c, h, hs, _ => by
    unfold pushBlock at h
    have hi : b.isListItem = false := by cases b <;> simp_all [Block.isSection, isListItem]
    rw [hi] at h
    simp only [Bool.false_eq_true, if_false] at h
    split at h
    · cases h
    · cases h; exact ⟨rfl, Grows.append bs [b]⟩
  | .brk .., b, c, h, _, _ => by cases h
  | .image .., b, c, h, _, _ => by cases h
  | .leaf .., b, c, h, _, _ => by cases h
  | .tableCell .., b, c, h, _, _ => by cases h
private theorem grows_pushSectionL : ∀ (bs : List Block) (b : Block) (r : List Block), pushSectionL bs b = .ok r →
    b.isSection = true → Grows bs r
  | [], b, r, _, _ => .nil
  | [x], b, r, h, hs => by
    unfold pushSectionL at h
    split at h
    · rename_i ht
      simp only [bind, Except.bind] at h
      split at h
      · cases h
      · rename_i x' hx'
        cases h
        have := grows_pushBlock x b x' hx' hs ht
        exact .last this.1 this.2
    · cases h; exact .same
  | x :: y :: bs, b, r, h, hs => by
    unfold pushSectionL at h
    simp only [bind, Except.bind] at h
    split at h
    · cases h
    · rename_i r' hr'
      cases h
      exact .cons (grows_pushSectionL (y :: bs) b r' hr' hs)
end

private theorem grows_steps {Q : Block → Prop} {g g' : Asg} (h : Steps Q g g') : Grows g.blocks g'.blocks := by
  induction h with
  | refl => exact Grows.refl _
  | header _ ih => exact ih
  | push _ _ hp ih =>
    refine ih.trans ?_
    unfold Asg.pushBlock at hp
    dsimp only at hp
    split at hp
    · rename_i hs
      simp only [bind, Except.bind] at hp
      split at hp
      · cases hp
      · rename_i hbs
        cases hp
        exact grows_pushSectionL _ _ _ hbs hs
    · cases hp
      exact Grows.append _ _

private theorem good_true : Good (fun _ => True) where
  nonsec _ _ _ := trivial
  sec _ _ _ _ := trivial
  same _ _ _ _ _ := trivial
  push _ _ _ _ _ _ _ := trivial

private theorem reached_stack {w : World} {p : Parser} (h : Reached w p) : StackOk (fun _ => True) p.blocks := by
  induction h with
  | start h => exact stack_fresh h
  | @token p q fuel t _ hq ih => exact (tokenInto_rel good_true w fuel t p q hq ih).1
  | last _ ih => exact ih

/-- **C22**, one token: from any state reached, processing a token (with everything it includes) only adds to the
graph's end. -/
theorem C22_token (w : World) (fuel : Nat) (t : Token) (p q : Parser) (hp : Reached w p)
    (h : Parser.tokenInto w fuel t p = .ok q) : Grows p.asg.blocks q.asg.blocks :=
  grows_steps (tokenInto_rel good_true w fuel t p q h (reached_stack hp)).2.1

private theorem feed_reached {w : World} {fuel : Nat} (items : List Item) (p q : Parser) (hp : Reached w p)
    (h : Parser.feed (Parser.tokenInto w fuel) true items p = .ok q) : Reached w q := by
  induction items generalizing p with
  | nil => cases h; exact hp
  | cons i items ih =>
    cases i with
    | tok t =>
      unfold Parser.feed at h
      simp only [bind, Except.bind] at h
      split at h
      · cases h
      · rename_i p' hp'
        exact ih _ (.last (.token hp hp')) h
    | _ => cases h

/-- **C22**, any prefix of a token stream: the graph after the prefix is extended by the rest. -/
theorem C22_prefix (w : World) (fuel : Nat) (xs ys : List Item) (p q r : Parser) (hp : Fresh p)
    (hq : Parser.feed (Parser.tokenInto w fuel) true xs p = .ok q)
    (hr : Parser.feed (Parser.tokenInto w fuel) true ys q = .ok r) : Grows q.asg.blocks r.asg.blocks :=
  grows_steps (feedAll_rel good_true w fuel ys q r hr (reached_stack (feed_reached xs p q (.start hp) hq))).2.1

/-- **C22**, the end of the document: the final graph is an extension of the graph after any prefix, in which cross
references are then resolved. -/
theorem C22_finish (w : World) (fuel : Nat) (xs ys : List Item) (p q r : Parser) (hp : Fresh p)
    (hq : Parser.feed (Parser.tokenInto w fuel) true xs p = .ok q)
    (hr : Parser.parse w fuel ys q = .ok r) :
    ∃ bs, Grows q.asg.blocks bs ∧ r.asg.blocks = mapInlinesL (Inline.resolveXref r.asg.idHash) bs := by
  obtain ⟨s, hs, rfl⟩ := parse_rel good_true w fuel ys q r hr
  refine ⟨s.asg.blocks, grows_steps (hs (reached_stack (feed_reached xs p q (.start hp) hq))).2.1, ?_⟩
  show (s.asg.consolidateLocations.consolidateXrefs).blocks = _
  have e : s.asg.consolidateLocations.blocks = s.asg.blocks
      ∧ s.asg.consolidateLocations.idHash = s.asg.idHash := by
    unfold Asg.consolidateLocations
    split
    · exact ⟨rfl, rfl⟩
    · split <;> exact ⟨rfl, rfl⟩
  show mapInlinesL (Inline.resolveXref s.asg.consolidateLocations.idHash) s.asg.consolidateLocations.blocks
    = mapInlinesL (Inline.resolveXref s.asg.consolidateLocations.idHash) s.asg.blocks
  rw [e.1]

/-! ## C28 -/

/-- **C28.** Processing any token, with everything it includes, leaves the stack of open files as it was. -/
theorem C28_files (w : World) (fuel : Nat) (t : Token) (p q : Parser) (hp : Reached w p)
    (h : Parser.tokenInto w fuel t p = .ok q) : q.files = p.files :=
  congrArg (·.1) (tokenInto_rel good_true w fuel t p q h (reached_stack hp)).2.2

/-- **C28** for a whole document. -/
theorem C28_parse (w : World) (fuel : Nat) (items : List Item) (p r : Parser) (hp : Fresh p)
    (h : Parser.parse w fuel items p = .ok r) : r.files = p.files := by
  obtain ⟨q, hq, rfl⟩ := parse_rel good_true w fuel items p r h
  exact congrArg (·.1) (hq (stack_fresh hp)).2.2

/-- A file system with one file. -/
def oneFile : World := ⟨fun _ t => if t = b!"a.adoc" then some t else none, fun _ => some b!"two\n\n"⟩

/-- An include that is read: its text is in the graph, and the file is closed again. -/
example : returns ((Parser.parse oneFile 5 (scan b!"one\n\ninclude::a.adoc[]\n") Parser.new).map
    fun p => (p.asg.allText, p.files)) (b!"onetwo", []) = true := by decide +kernel

/-! ## C31 and C32 for parse results -/

private theorem built_steps {Q : Block → Prop} {g g' : Asg} (h : Steps Q g g') (hg : Built g) : Built g' := by
  induction h with
  | refl => exact hg
  | push _ _ hp ih => exact .push ih hp
  | header _ ih => exact .header ih

/-- The graph of a successful parse is a built graph, consolidated; so C31 and C32 apply to it. -/
theorem C32_parse (w : World) (fuel : Nat) (items : List Item) (p r : Parser) (hp : Fresh p)
    (h : Parser.parse w fuel items p = .ok r) : ∃ g, Built g ∧ r.asg = g.consolidate := by
  obtain ⟨q, hq, rfl⟩ := parse_rel good_true w fuel items p r h
  have hs := (hq (stack_fresh hp)).2.1
  rw [hp.2] at hs
  exact ⟨q.asg, built_steps hs .new, rfl⟩

/-! ## C45 -/

/-- **C45.** A scanner error after tokens that were processed is what `parse` reports, whatever follows. -/
theorem C45_first_error (w : World) (fuel : Nat) (toks : List Token) (e : ScanError) (rest : List Item) (p q : Parser)
    (h : Parser.feed (Parser.tokenInto w fuel) true (toks.map .tok) p = .ok q) :
    Parser.parse w fuel (toks.map .tok ++ .err e :: rest) p = .error (.err (.scanner e)) := by
  have key : ∀ (toks : List Token) (p : Parser),
      Parser.feed (Parser.tokenInto w fuel) true (toks.map .tok) p = .ok q →
      Parser.feed (Parser.tokenInto w fuel) true (toks.map .tok ++ .err e :: rest) p = .error (.err (.scanner e)) := by
    intro toks
    induction toks with
    | nil => intro p _; rfl
    | cons t toks ih =>
      intro p h
      simp only [List.map_cons, List.cons_append, Parser.feed, bind, Except.bind] at h ⊢
      split at h
      · cases h
      · rename_i p' hp'
        exact ih _ h
  simp only [Parser.parse, key toks p h, bind, Except.bind]

/-- **C45**: if a token fails before, that failure is reported, whatever follows. -/
theorem C45_earlier_failure (w : World) (fuel : Nat) (toks : List Token) (f : Fail) (rest : List Item) (p : Parser)
    (h : Parser.feed (Parser.tokenInto w fuel) true (toks.map .tok) p = .error f) :
    Parser.parse w fuel (toks.map .tok ++ rest) p = .error f := by
  have key : ∀ (toks : List Token) (p : Parser),
      Parser.feed (Parser.tokenInto w fuel) true (toks.map .tok) p = .error f →
      Parser.feed (Parser.tokenInto w fuel) true (toks.map .tok ++ rest) p = .error f := by
    intro toks
    induction toks with
    | nil => intro p h; cases h
    | cons t toks ih =>
      intro p h
      simp only [List.map_cons, List.cons_append, Parser.feed, bind, Except.bind] at h ⊢
      split at h
      · exact h
      · exact ih _ h
  simp only [Parser.parse, key toks p h, bind, Except.bind]

/-- A heading that is too deep, after a paragraph: the error is reported. -/
example : (match Parser.parse emptyWorld 5 (scan b!"a\n\n====== b\n") Parser.new with
    | .error (.err (.scanner _)) => true
    | _ => false) = true := by decide +kernel

end Adoc.Props
