import Verif.Proof.ShapeScan
import Verif.Proof.Kinds
/-!
# How blocks are delimited: the parser

One pass over all handlers.
-/
namespace Adoc.Shape

open Block Parser
open Kinds (children_consolidate mem_mapInlinesL children_mapInlines mem_cons_all pushIntoLast)

/-- Everything in a block has the shape of its name. -/
inductive Deep (found : Str → Prop) : Block → Prop
  | mk {b : Block} : Shaped found b → (∀ c ∈ b.children, Deep found c) → Deep found b

/-- A block of at least the same shape, with the same blocks in it. -/
def Same (a b : Block) : Prop := (∀ found, Shaped found b → Shaped found a) ∧ a.children = b.children

section
variable {found : Str → Prop}

theorem Deep.own {b : Block} : Deep found b → Shaped found b | .mk h _ => h
theorem Deep.sub {b : Block} : Deep found b → ∀ c ∈ b.children, Deep found c | .mk _ h => h

theorem Deep.same {a b : Block} (h : Deep found b) (hs : Same a b) : Deep found a :=
  .mk (hs.1 _ h.own) (by rw [hs.2]; exact h.sub)

theorem Deep.empty {b : Block} (hb : Shaped found b) (h : b.children = []) : Deep found b := .mk hb (by simp [h])

theorem Same.refl (b : Block) : Same b b := ⟨fun _ h => h, rfl⟩
theorem Same.trans {a b c : Block} (h : Same a b) (h' : Same b c) : Same a c := ⟨fun f x => h.1 f (h'.1 f x), h.2.trans h'.2⟩

theorem shaped_consolidate (b : Block) (h : Shaped found b) : Shaped found b.consolidate := by
  cases b with
  | leaf n => cases n <;> exact h
  | _ => exact h

theorem Deep.consolidate {b : Block} (h : Deep found b) : Deep found b.consolidate := by
  induction h with
  | mk h1 h2 ih =>
    refine .mk (shaped_consolidate _ h1) ?_
    intro c hc
    obtain ⟨d, hd, he⟩ := children_consolidate hc
    rcases he with rfl | rfl
    · exact h2 _ hd
    · exact ih _ hd

theorem pushInline_same {b c : Block} {i : Inline} (h : b.pushInline i = .ok c) : Same c b := by
  cases b with
  | leaf n =>
    cases n <;> simp only [Block.pushInline, Except.ok.injEq] at h <;> subst h <;> refine ⟨fun f hf => ?_, rfl⟩ <;>
      simp only [Shaped] at hf ⊢ <;> first | exact hf | exact ⟨hf.1, hf.2.1, by simp⟩
  | _ => simp only [Block.pushInline, reduceCtorEq, Except.ok.injEq] at h <;> subst h <;> exact ⟨fun f hf => hf, rfl⟩

theorem pushInlines_same {b : Block} {is : List Inline} : Ok (Parser.pushInlines b is) fun c => Same c b := by
  induction is generalizing b with
  | nil => exact .pure (.refl b)
  | cons i is ih => exact .bind' fun c hc => ih.mono fun d hd => hd.trans (pushInline_same (liftB_ok hc))

theorem addMeta_same {b : Block} {m : Meta} : Ok (b.addMeta m) fun c => Same c b := by
  unfold Block.addMeta
  refine .ite (fun _ => .pure (.refl b)) fun _ => ?_
  cases b with
  | leaf n => cases n <;> exact .pure ⟨fun f hf => hf, rfl⟩
  | _ => simp only <;> first | exact .error | exact .pure ⟨fun f hf => hf, rfl⟩

theorem addLocations_same {b : Block} {l : List Location} : Ok (b.addLocations l) fun c => Same c b := by
  unfold Block.addLocations
  split
  · rename_i n _ _ _ _ _
    cases n <;> exact .pure ⟨fun f hf => hf, rfl⟩
  · exact .error

theorem tableInfo_same {b : Block} : Ok b.tableInfo fun c => Same c b := by
  unfold Block.tableInfo
  split
  · rename_i n v d bs t m l
    split
    · rename_i b0 b1 rest
      refine .bind' fun first _ => .bind' fun second _ => ?_
      have fin' : ∀ mm : Option Meta, Ok (match mm with
          | none => (.error .exit : M Block)
          | some mm => do
            let mm' ← mm.simplifyCols
            return .parent n v d (b0 :: b1 :: rest) t (some mm') l) fun c => Same c (.parent n v d (b0 :: b1 :: rest) t m l) := by
        intro mm
        split
        · exact .error
        · exact .bind' fun _ _ => .pure ⟨fun f hf => hf, rfl⟩
      refine .ite (fun _ => ?_) fun _ => fin' m
      split
      · exact .error
      · exact fin' _
    · exact .pure ⟨fun f hf => hf, rfl⟩
  · exact .error

theorem shaped_mapInlines (f : Inline → Inline) (b : Block) (h : Shaped found b) : Shaped found (b.mapInlines f) := by
  cases b with
  | leaf n => cases n <;> simp only [mapInlines, Shaped] at h ⊢ <;> first | exact h | exact ⟨h.1, h.2.1, by simpa using h.2.2⟩
  | _ => exact h

theorem Deep.mapInlines {f : Inline → Inline} {b : Block} (h : Deep found b) : Deep found (b.mapInlines f) := by
  induction h with
  | mk h1 h2 ih =>
    refine .mk (shaped_mapInlines f _ h1) fun c hc => ?_
    rw [children_mapInlines] at hc
    obtain ⟨d, hd, rfl⟩ := mem_mapInlinesL hc
    exact ih d hd

/-! ## Adding blocks -/

theorem deep_add {a b x : Block} (h : Deep found a) (hx : Deep found x) (hk : Shaped found a → Shaped found b) (hc : b.children = a.children ++ [x]) : Deep found b := by
  refine .mk (hk h.own) ?_
  intro c hm
  rw [hc] at hm
  rcases List.mem_append.1 hm with hm | hm
  · exact h.sub c hm
  · rw [List.mem_singleton] at hm; subst hm; exact hx

mutual
theorem pushBlock_deep {x c : Block} (hx : Deep found x) : ∀ {a : Block}, Deep found a → a.pushBlock x = .ok c → Deep found c
  | .section t m v bs l, ha, h => by
    unfold Block.pushBlock at h
    split at h
    · simp only [bind, Except.bind] at h
      split at h
      · cases h
      · rename_i hs _ r hr
        cases h
        exact Deep.consolidate (.mk trivial (pushSectionL_deep hx ha.sub hr))
    · cases h
      exact Deep.consolidate (deep_add ha hx id rfl)
  | .list v items m l, ha, h => by
    simp only [Block.pushBlock, Except.ok.injEq] at h
    subst h
    exact Deep.consolidate (deep_add ha hx id rfl)
  | .dlist items m l, ha, h => by
    simp only [Block.pushBlock, Except.ok.injEq] at h
    subst h
    exact Deep.consolidate (deep_add ha hx id rfl)
  | .listItem .., ha, h => by
    simp only [Block.pushBlock, Except.ok.injEq] at h
    subst h
    exact Deep.consolidate (deep_add ha hx id rfl)
  | .dlistItem .., ha, h => by
    simp only [Block.pushBlock, Except.ok.injEq] at h
    subst h
    exact Deep.consolidate (deep_add ha hx id rfl)
  | .parent n v d bs t m l, ha, h => by
    unfold Block.pushBlock at h
    split at h
    · simp only [bind, Except.bind] at h
      split at h
      · cases h
      · rename_i r hr
        cases h
        obtain ⟨i, w, items, m', l', h1, h2⟩ := pushIntoLast hr
        have hl : Deep found (.list w items m' l') := ha.sub _ (by simp [children, h1])
        have hl2 : Deep found (.list w (items ++ [x]) m' l') := deep_add hl hx id rfl
        refine Deep.consolidate (.mk ha.own ?_)
        intro c hc
        simp only [children, h2, List.mem_append, List.mem_singleton] at hc
        rcases hc with hc | hc
        · exact ha.sub c (by simp [children, h1, hc])
        · subst hc
          exact hl2.consolidate.consolidate
    · split at h
      · cases h
      · cases h
        exact Deep.consolidate (deep_add ha hx id rfl)
  | .brk .., _, h => by simp [Block.pushBlock] at h
  | .image .., _, h => by simp [Block.pushBlock] at h
  | .leaf .., _, h => by simp [Block.pushBlock] at h
  | .tableCell .., _, h => by simp [Block.pushBlock] at h
theorem pushSectionL_deep {x : Block} (hx : Deep found x) : ∀ {bs r : List Block}, (∀ b ∈ bs, Deep found b) → pushSectionL bs x = .ok r → ∀ b ∈ r, Deep found b
  | [], r, _, h => by
    simp only [pushSectionL, Except.ok.injEq] at h
    subst h
    simpa using hx
  | [b], r, hb, h => by
    have hb := hb b (by simp)
    unfold pushSectionL at h
    split at h
    · simp only [bind, Except.bind] at h
      split at h
      · cases h
      · rename_i r hr
        cases h
        simpa using pushBlock_deep hx hb hr
    · cases h
      intro c hc
      simp only [List.mem_cons, List.not_mem_nil, or_false] at hc
      rcases hc with rfl | rfl
      · exact hb
      · exact hx
  | b :: b' :: bs, r, hb, h => by
    unfold pushSectionL at h
    simp only [bind, Except.bind] at h
    split at h
    · cases h
    · rename_i r' hr
      cases h
      intro c hc
      rcases List.mem_cons.1 hc with rfl | hc
      · exact hb c (by simp)
      · exact pushSectionL_deep hx (fun d hd => hb d (List.mem_cons_of_mem _ hd)) hr c hc
end

theorem graphPush_deep {g g' : Asg} {b : Block} (hg : ∀ x ∈ g.blocks, Deep found x) (hb : Deep found b) (h : g.pushBlock b = .ok g') :
    ∀ x ∈ g'.blocks, Deep found x := by
  have hc := hb.consolidate
  unfold Asg.pushBlock at h
  simp only at h
  split at h
  · rename_i hs
    simp only [bind, Except.bind] at h
    split at h
    · cases h
    · rename_i bs hbs
      cases h
      exact pushSectionL_deep hc hg hbs
  · cases h
    intro x hx
    rcases List.mem_append.1 hx with hx | hx
    · exact hg x hx
    · rw [List.mem_singleton] at hx; subst hx; exact hc

theorem graphConsolidate_deep {g : Asg} (hg : ∀ x ∈ g.blocks, Deep found x) : ∀ x ∈ g.consolidate.blocks, Deep found x := by
  have h1 : ∀ x ∈ g.consolidateLocations.blocks, Deep found x := by
    unfold Asg.consolidateLocations
    split
    · exact hg
    · split <;> exact hg
  intro x hx
  obtain ⟨d, hd, he⟩ := mem_mapInlinesL hx
  rw [he]
  exact (h1 d hd).mapInlines

/-! ## The parser -/

/-- The invariant. -/
structure Inv (found : Str → Prop) (p : Parser) : Prop where
  deep : ∀ b ∈ p.blocks, Deep found b
  check : p.resolveTargets = true ∨ ∀ t, found t
  asg : ∀ b ∈ p.asg.blocks, Deep found b

/-- The same blocks, graph and check. -/
def Quiet (p q : Parser) : Prop := q.blocks = p.blocks ∧ q.asg = p.asg ∧ q.resolveTargets = p.resolveTargets

theorem Inv.of {p q : Parser} (h : Inv found p) (h1 : q.blocks = p.blocks) (h2 : q.asg = p.asg) (h3 : q.resolveTargets = p.resolveTargets) : Inv found q :=
  ⟨by rw [h1]; exact h.deep, by rw [h3]; exact h.check, by rw [h2]; exact h.asg⟩

theorem Quiet.trans {p q r : Parser} (h : Quiet p q) (h' : Quiet q r) : Quiet p r := ⟨h'.1.trans h.1, h'.2.1.trans h.2.1, h'.2.2.trans h.2.2⟩
theorem Inv.quiet {p q : Parser} (h : Inv found p) (hq : Quiet p q) : Inv found q := h.of hq.1 hq.2.1 hq.2.2
theorem Inv.keep {p : Parser} (h : Inv found p) {x : M Parser} (hx : Ok x (Quiet p)) : Ok x (Inv found) := hx.mono fun _ hq => h.quiet hq

theorem addText_quiet (p : Parser) (t : Token) (pass : Bool) : Ok (p.addText t pass) (Quiet p) := by
  unfold Parser.addText
  dsimp only
  split
  · exact .pure ⟨rfl, rfl, rfl⟩
  · exact .ite (fun _ => .pure ⟨rfl, rfl, rfl⟩) fun _ => .pure ⟨rfl, rfl, rfl⟩
  · exact .ite (fun _ => .pure ⟨rfl, rfl, rfl⟩) fun _ => .pure ⟨rfl, rfl, rfl⟩
  · exact .ite (fun _ => .pure ⟨rfl, rfl, rfl⟩) fun _ => .bind' fun _ _ => .pure ⟨rfl, rfl, rfl⟩
  · exact .pure ⟨rfl, rfl, rfl⟩

theorem danglingSpans_quiet (p : Parser) : Ok p.danglingSpans (Quiet p) := by
  unfold Parser.danglingSpans
  split
  · exact .pure ⟨rfl, rfl, rfl⟩
  · refine .bind' fun _ _ => .bind' fun _ _ => ?_
    split
    · exact (addText_quiet _ _ _).mono fun _ h => h
    · exact .bind' fun _ _ => .pure ⟨rfl, rfl, rfl⟩

theorem mergeStep_some {acc : List Inline} {x : Inline} : mergeStep acc x ≠ [] := by
  unfold mergeStep
  split <;> simp

theorem merge_some {l acc : List Inline} (h : acc ≠ [] ∨ l ≠ []) : l.foldl mergeStep acc ≠ [] := by
  induction l generalizing acc with
  | nil => exact h.resolve_right (fun h => h rfl)
  | cons x l ih => exact ih (.inl mergeStep_some)

theorem addText_some (p : Parser) (t : Token) (pass : Bool) : Ok (p.addText t pass) fun q => q.inlines ≠ [] := by
  unfold Parser.addText
  dsimp only
  split
  · exact .pure (by simp)
  · exact .ite (fun _ => .pure (by simp)) fun _ => .pure (by simp)
  · exact .ite (fun _ => .pure (by simp)) fun _ => .pure (by simp)
  · exact .ite (fun _ => .pure (by simp)) fun _ => .bind' fun _ _ => .pure (by simp)
  · exact .pure (by simp)

theorem prependFirst_some (pre : Str) (l : Option (List Location)) (kids : List Inline) (h : kids ≠ []) : Ok (Inline.prependFirst pre l kids) fun r => r ≠ [] := by
  unfold Inline.prependFirst
  cases kids with
  | nil => exact absurd rfl h
  | cons k ks => cases k <;> first | exact .error | exact .pure (by simp) | exact .bind' fun _ _ => .pure (by simp)

theorem danglingSpans_some (p : Parser) (h : p.inlines ≠ []) : Ok p.danglingSpans fun q => q.inlines ≠ [] := by
  unfold Parser.danglingSpans
  split
  · exact .pure h
  · refine .bind' fun _ _ => .bind' fun kids _ => ?_
    split
    · exact addText_some _ _ _
    · rename_i hk
      refine .bind (prependFirst_some _ _ _ (by simp)) fun r hr => .pure (merge_some (.inr ?_))
      simp [hr]

theorem Inv.graphPush {p : Parser} (h : Inv found p) {b : Block} (hb : Deep found b) : Ok (p.graphPush b) (Inv found) := by
  unfold Parser.graphPush
  split
  · exact .pure ⟨h.deep, h.check, graphPush_deep h.asg hb ‹_›⟩
  · exact .error

/-- Adding to the block at the top. -/
theorem Inv.top {p q : Parser} (h : Inv found p) {last last' b : Block} {rest : List Block} (heq : p.blocks = last :: rest) (hb : Deep found b)
    (hl : last.pushBlock b = .ok last') (h1 : q.blocks = last' :: rest) (h2 : q.asg = p.asg) (h3 : q.resolveTargets = p.resolveTargets) : Inv found q := by
  have hd := h.deep
  rw [heq] at hd
  refine ⟨?_, by rw [h3]; exact h.check, by rw [h2]; exact h.asg⟩
  rw [h1]
  exact mem_cons_all (pushBlock_deep hb (hd last (by simp)) hl) fun x hx => hd x (List.mem_cons_of_mem _ hx)

theorem Inv.pushToStack {p : Parser} (h : Inv found p) {b : Block} (hb : Deep found b) : Ok (p.pushToStack b) (Inv found) := by
  unfold Parser.pushToStack
  refine .ite (fun hc => ?_) fun _ => ?_
  · split
    · exact .error
    · rename_i last rest heq
      exact .bind' fun last' hl => .pure (h.top heq hb (liftB_ok hl) rfl rfl rfl)
  · split
    · exact .bind addMeta_same fun b' hb' => .pure ⟨mem_cons_all (hb.same hb') h.deep, h.check, h.asg⟩
    · exact .pure ⟨mem_cons_all hb h.deep, h.check, h.asg⟩

theorem Inv.newParagraph {p : Parser} (h : Inv found p) (hi : p.inlines ≠ []) : Ok p.newParagraph (Inv found) := by
  unfold Parser.newParagraph
  have hpara : ∀ l, Deep found (.leaf .paragraph .paragraph none p.inlines.reverse none l) := fun l => .empty ⟨rfl, rfl, by simpa using hi⟩ rfl
  have h0 : Inv found { p with inlines := [] } := ⟨h.deep, h.check, h.asg⟩
  dsimp only
  refine .ite (fun hc => ?_) (fun _ => ?_)
  · split
    · exact .error
    · rename_i last rest heq
      exact .bind' fun last' hl => .pure (h0.top heq (hpara _) (liftB_ok hl) rfl rfl rfl)
  · split
    · split
      · exact .error
      · refine .ite (fun hc => ?_) (fun _ => h0.pushToStack (hpara _))
        refine .bind' fun q hq => h0.pushToStack ?_
        exact pushBlock_deep (hpara _) (Deep.empty (b := .parent .quote none [] [] [] none []) (show BoxDelimiter .quote none [] from .inr rfl) rfl) (liftB_ok hq)
    · exact h0.pushToStack (hpara _)

theorem Inv.addInlines {p : Parser} (h : Inv found p) : Ok p.addInlines (Inv found) := by
  unfold Parser.addInlines
  refine .ite (fun _ => .pure h) (fun hne => ?_)
  have hne : p.inlines ≠ [] := by simpa using hne
  have h1 : Ok (if p.inSpan = true then p.danglingSpans else .ok p) fun q => Quiet p q ∧ q.inlines ≠ [] :=
    .ite (fun _ => fun q hq => ⟨danglingSpans_quiet p q hq, danglingSpans_some p hne q hq⟩) (fun _ => .pure ⟨⟨rfl, rfl, rfl⟩, hne⟩)
  refine .bind h1 fun p1 hq => ?_
  have hw := h.quiet hq.1
  split
  · exact .pure ⟨hw.deep, hw.check, hw.asg⟩
  · split
    · rename_i last rest heq
      have hd := hw.deep
      rw [heq] at hd
      refine .ite (fun _ => ?_) (fun _ => hw.newParagraph hq.2)
      exact .bind pushInlines_same fun b hb => .pure ⟨mem_cons_all ((hd last (by simp)).same hb) fun x hx => hd x (List.mem_cons_of_mem _ hx), hw.check, hw.asg⟩
    · exact hw.newParagraph hq.2

theorem Inv.pop {p q : Parser} (h : Inv found p) {b : Block} {rest : List Block} (heq : p.blocks = b :: rest)
    (h1 : q.blocks = rest) (h2 : q.asg = p.asg) (h3 : q.resolveTargets = p.resolveTargets) : Inv found q ∧ Deep found b := by
  have hd := h.deep
  rw [heq] at hd
  exact ⟨⟨by rw [h1]; exact fun x hx => hd x (List.mem_cons_of_mem _ hx), by rw [h3]; exact h.check, by rw [h2]; exact h.asg⟩, hd b (by simp)⟩

theorem Inv.addLastItem {p : Parser} (h : Inv found p) : Ok p.addLastItem (Inv found) := by
  unfold Parser.addLastItem
  refine .bind (Inv.addInlines (p := { p with forceNew := false }) (h.of rfl rfl rfl)) fun p1 h1 => ?_
  split
  · exact .error
  · rename_i item rest heq
    obtain ⟨hi0, hd⟩ := h1.pop (q := { p1 with blocks := rest }) heq rfl rfl rfl
    refine .ite (fun hi => ?_) (fun hi => hi0.pushToStack hd)
    split
    · exact .pure (hi0.of rfl rfl rfl)
    · exact .bind' fun list' hl => .pure (hi0.top rfl hd (liftB_ok hl) rfl rfl rfl)

theorem Inv.addToStackOrGraph {p : Parser} (h : Inv found p) {b : Block} (hb : Deep found b) :
    Ok (p.addToStackOrGraph b) (Inv found) := by
  unfold Parser.addToStackOrGraph
  have hg : Ok (match p.data with
    | some m => do
      let b' ← b.addMeta m
      Parser.graphPush { p with data := none } b'
    | none => p.graphPush b) (Inv found) := by
    split
    · exact .bind addMeta_same fun b' hb' => (Inv.graphPush (p := { p with data := none }) (h.of rfl rfl rfl) (hb.same hb'))
    · exact (h.graphPush hb)
  dsimp only
  split
  · rename_i last rest heq
    refine .ite (fun ht => ?_) (fun _ => hg)
    exact .bind' fun last' hl => .pure (h.top heq hb (liftB_ok hl) rfl rfl rfl)
  · exact hg

theorem Inv.addLastToStackOrGraph {p : Parser} (h : Inv found p) : Ok p.addLastToStackOrGraph (Inv found) := by
  unfold Parser.addLastToStackOrGraph
  split
  · exact .error
  · rename_i b heq
    obtain ⟨h0, hd⟩ := h.pop (q := { p with blocks := [] }) heq rfl rfl rfl
    exact (h0.graphPush hd)
  · rename_i b prior rest heq
    obtain ⟨h0, hd⟩ := h.pop (q := { p with blocks := prior :: rest }) heq rfl rfl rfl
    refine .ite (fun ht => ?_) (fun _ => (h0.graphPush hd))
    exact .bind' fun prior' hl => .pure (h0.top rfl hd (liftB_ok hl) rfl rfl rfl)

theorem Inv.addLastToGraph {p : Parser} (h : Inv found p) : Ok p.addLastToGraph (Inv found) := by
  unfold Parser.addLastToGraph
  split
  · exact .pure h
  · rename_i b rest heq
    obtain ⟨h0, hd⟩ := h.pop (q := { p with data := none, blocks := rest }) heq rfl rfl rfl
    have h1 : Ok (match p.data with
      | some m => b.addMeta m
      | none => .ok b) fun c => Same c b := by
      split
      · exact addMeta_same
      · exact .pure (.refl b)
    refine .bind h1 fun c hc => ?_
    dsimp only
    split
    · rename_i next rest'
      refine .ite (fun ht => ?_) (fun _ => (h0.graphPush (hd.same hc)))
      exact .bind' fun prior' hl => .pure (h0.top rfl (hd.same hc) (liftB_ok hl) rfl rfl rfl)
    · exact (h0.graphPush (hd.same hc))

theorem Inv.drain {p : Parser} (h : Inv found p) (n fuel : Nat) : Ok (drain n fuel p) (Inv found) := by
  induction fuel generalizing p with
  | zero => exact .pure h
  | succ k ih =>
    unfold Parser.drain
    exact .ite (fun _ => .bind h.addLastToGraph fun q hq => ih hq) (fun _ => .pure h)

theorem Inv.moveHeader {p : Parser} (h : Inv found p) : Ok p.moveHeader (Inv found) := by
  unfold Parser.moveHeader
  refine .bind h.addInlines fun p1 h1 => ?_
  split
  · exact .ite (fun _ => .pure (h1.of rfl rfl rfl)) (fun _ => .pure ⟨h1.deep, h1.check, h1.asg⟩)
  · exact .pure h1

theorem levelOffset_quiet (p : Parser) (v : Str) : Ok (p.levelOffset v) (Quiet p) := by
  unfold Parser.levelOffset
  split
  · exact .pure ⟨rfl, rfl, rfl⟩
  · split
    · exact .ite (fun _ => .pure ⟨rfl, rfl, rfl⟩) (fun _ => .error)
    · exact .error

theorem parseAttribute_quiet (p : Parser) (t : Token) : Ok (p.parseAttribute t) (Quiet p) := by
  unfold Parser.parseAttribute
  split
  · exact .error
  · exact .pure ⟨rfl, rfl, rfl⟩
  · exact .ite (fun _ => levelOffset_quiet p _) (fun _ => .pure ⟨rfl, rfl, rfl⟩)

theorem Inv.blankLine {p : Parser} (h : Inv found p) : Ok p.blankLine (Inv found) := by
  unfold Parser.blankLine
  dsimp only
  have h0 : Inv found { p with dangling := none } := h.of rfl rfl rfl
  split
  · exact h0.moveHeader
  · have h1 : Ok (match p.blocks with
      | b :: _ => if b.isAnyItem then Parser.addLastItem { p with dangling := none } else .ok { p with dangling := none }
      | [] => .ok { p with dangling := none }) (Inv found) := by
      split
      · exact .ite (fun _ => h0.addLastItem) (fun _ => .pure h0)
      · exact .pure h0
    refine .bind h1 fun p1 h1 => .bind (Inv.addInlines (p := { p1 with inSpan := false }) (h1.of rfl rfl rfl)) fun p2 h2 => ?_
    split
    · exact .pure (h2.of rfl rfl rfl)
    · rename_i b rest heq
      obtain ⟨h3, hd⟩ := h2.pop (q := { p2 with forceNew := true, blocks := rest }) heq rfl rfl rfl
      refine .ite (fun _ => ?_) (fun _ => h3.pushToStack hd)
      refine .bind (h3.addToStackOrGraph hd) fun p4 h4 => .ite (fun _ => ?_) (fun _ => .pure h4)
      exact .bind h4.addLastToStackOrGraph fun p5 h5 => .pure (h5.of rfl rfl rfl)

theorem Inv.parseNewLine {p : Parser} (h : Inv found p) (t : Token) : Ok (p.parseNewLine t) (Inv found) := by
  unfold Parser.parseNewLine
  extract_lets p0 p1
  have h1 : Inv found p1 := by
    simp only [p1, p0]
    split <;> exact h.of rfl rfl rfl
  exact .ite (fun _ => h1.blankLine) (fun _ => .ite (fun _ => .pure (h1.of rfl rfl rfl)) (fun _ => .pure (h1.of rfl rfl rfl)))

theorem Inv.parseDlistTerm {p : Parser} (h : Inv found p) (t : Token) : Ok (p.parseDlistTerm t) (Inv found) := by
  unfold Parser.parseDlistTerm
  dsimp only
  have h1 : Ok (match splitFirst Inline.isNewline p.inlines.reverse with
    | some (before, _, after) => do
      let p ← Parser.addInlines { p with forceNew := false, inlines := before.reverse }
      .ok { p with inlines := after.reverse ++ p.inlines }
    | none => .ok { p with forceNew := false }) (Inv found) := by
    split
    · exact .bind (Inv.addInlines (p := { p with forceNew := false, inlines := _ }) (h.of rfl rfl rfl)) fun q hq => .pure (hq.of rfl rfl rfl)
    · exact .pure (h.of rfl rfl rfl)
  refine .bind h1 fun p1 h1 => ?_
  have h2 : Inv found { p1 with inlines := [] } := h1.of rfl rfl rfl
  have hnew : ∀ loc, Ok (Parser.pushToStack { p1 with inlines := [] } (.dlist [] none loc)) (Inv found) := fun loc => h2.pushToStack (.empty trivial rfl)
  have h3 : ∀ loc, Ok (match p1.blocks with
    | b :: _ => if b.isDlistItem then Parser.addLastItem { p1 with inlines := [] }
        else Parser.pushToStack { p1 with inlines := [] } (.dlist [] none loc)
    | [] => Parser.pushToStack { p1 with inlines := [] } (.dlist [] none loc)) (Inv found) := by
    intro loc
    split
    · exact .ite (fun hi => h2.addLastItem) (fun _ => hnew loc)
    · exact hnew loc
  exact .bind (h3 _) fun p2 h3 => .bind (h3.pushToStack (.empty trivial rfl)) fun p3 h4 => .pure (h4.of rfl rfl rfl)

theorem Inv.parseOrdered {p : Parser} (h : Inv found p) (t : Token) : Ok (p.parseOrdered t) (Inv found) := by
  unfold Parser.parseOrdered
  extract_lets p0 newList
  have hn : ∀ p1, Inv found p1 → Ok (newList p1) (Inv found) := by
    intro p1 h1
    refine .ite (fun hc => ?_) (fun _ => h1.pushToStack (.empty trivial rfl))
    refine .bind (P := Inv found) ?_ fun q hq => hq.pushToStack (.empty trivial rfl)
    split
    · exact .ite (fun _ => h1.addLastToStackOrGraph) (fun _ => .pure h1)
    · exact .pure h1
  clear_value newList
  have h0 : Inv found p0 := h.of rfl rfl rfl
  refine .bind (P := Inv found) ?_ fun q hq => hq.pushToStack (.empty trivial rfl)
  split
  · exact .ite (fun hi => h0.addLastItem) (fun _ => hn _ h0)
  · exact hn _ h0

theorem Inv.parseUnordered {p : Parser} (h : Inv found p) (t : Token) : Ok (p.parseUnordered t) (Inv found) := by
  have h0 : Inv found { p with dangling := none } := h.of rfl rfl rfl
  have h1 : Ok (Parser.pushToStack { p with dangling := none } (.list .unordered [] none t.locations)) (Inv found) := h0.pushToStack (.empty trivial rfl)
  unfold Parser.parseUnordered
  dsimp only
  refine .bind (P := Inv found) ?_ fun q hq => hq.pushToStack (.empty trivial rfl)
  split
  · exact .ite (fun hi => h0.addLastItem) (fun _ => h1)
  · exact h1

/-- A block that contains blocks has the delimiter of its token. -/
theorem box_shaped {t : Token} (ht : TokFact t) {n : ParentName} {v : Option ParentVariant} (hk : parentKind t.ty = some (n, v)) :
    BoxDelimiter n v t.text := by
  unfold TokFact at ht
  generalize t.text = d at *
  generalize t.ty = ty at *
  cases ty <;> simp only [parentKind, reduceCtorEq, Option.some.injEq, Prod.mk.injEq] at hk <;> obtain ⟨rfl, rfl⟩ := hk <;>
    first
      | exact ht.1 _ rfl
      | exact .inl (ht.1 _ rfl)
      | exact ht.2 _ rfl

/-- A leaf has the delimiter of its token. -/
theorem leaf_shaped {t : Token} (ht : TokFact t) {n : LeafName} (hk : leafName t.ty = some n) (l : List Location) :
    Shaped found (.leaf n .delimited (some t.text) [] none l) := by
  unfold TokFact at ht
  generalize t.text = d at *
  generalize t.ty = ty at *
  cases ty <;> simp only [leafName, reduceCtorEq, Option.some.injEq] at hk <;> subst hk <;>
    exact ⟨rfl, d, by rw [ht.1 _ rfl]; decide, rfl⟩

theorem Inv.parseSection {p : Parser} (h : Inv found p) (t : Token) : Ok (p.parseSection t) (Inv found) := by
  unfold Parser.parseSection
  refine .bind' fun v _ => ?_
  have h1 : Ok (match p.blocks with
    | b :: _ => if b.isSection then p.addLastToStackOrGraph else .ok p
    | [] => .ok p) (Inv found) := by
    split
    · exact .ite (fun _ => h.addLastToStackOrGraph) (fun _ => .pure h)
    · exact .pure h
  refine .bind h1 fun p1 h1 => .bind (h1.pushToStack (.empty trivial rfl)) fun p2 h2 => ?_
  exact .pure (h2.of rfl rfl rfl)

theorem Inv.parseTitle {p : Parser} (h : Inv found p) (t : Token) : Ok (p.parseTitle t) (Inv found) := by
  unfold Parser.parseTitle
  exact .ite (fun _ => h.parseSection t) (fun _ => .ite (fun _ => .pure (h.of rfl rfl rfl)) (fun _ => .error))

theorem Inv.parseAdmonition {p : Parser} (h : Inv found p) {t : Token} (ht : TokFact t) : Ok (p.parseAdmonition t) (Inv found) := by
  unfold Parser.parseAdmonition
  refine .bind (P := Deep found) (Ok.liftB fun b hb => ?_) fun b hb => .pure ⟨mem_cons_all hb h.deep, h.check, h.asg⟩
  unfold Block.parentFromToken at hb
  split at hb <;> cases hb
  exact .empty (box_shaped ht ‹_›) rfl

theorem openSpan_quiet (p : Parser) (i : Inline) : Ok (p.openSpan i) (Quiet p) := by
  unfold Parser.openSpan
  refine .bind (P := Quiet p) ?_ fun p1 h1 => .bind (danglingSpans_quiet p1) fun p2 h2 => ?_
  · split
    · exact .bind (addText_quiet p _ _) fun q hq => .pure hq
    · exact .pure ⟨rfl, rfl, rfl⟩
  · have h3 := h1.trans h2
    split
    · exact .bind' fun _ _ => .pure h3
    · exact .pure h3

theorem parseSpan_quiet (p : Parser) (i : Inline) : Ok (p.parseSpan i) (Quiet p) := by
  unfold Parser.parseSpan
  split
  · refine .ite (fun _ => .bind' fun _ _ => .pure ⟨rfl, rfl, rfl⟩) (fun _ => ?_)
    split
    · split
      · exact .bind' fun _ _ => .pure ⟨rfl, rfl, rfl⟩
      · exact .pure ⟨rfl, rfl, rfl⟩
    · exact openSpan_quiet p i
  · exact openSpan_quiet p i

theorem Inv.parseBlockImage {w : World} (hw : ∀ fs t, w.resolve fs t ≠ none → found t) {p : Parser} (h : Inv found p) (t : Token) :
    Ok (p.parseBlockImage w t) (Inv found) := by
  unfold Parser.parseBlockImage
  refine .bind' fun tm _ => ?_
  obtain ⟨target, m⟩ := tm
  dsimp only
  refine .bind' fun _ hc => ?_
  have hf : found target := by
    rcases h.check with hr | hr
    · unfold checkTarget at hc
      rw [if_pos hr] at hc
      split at hc
      · rename_i heq
        exact hw p.files target (by rw [heq]; simp)
      · cases hc
    · exact hr target
  exact Inv.addToStackOrGraph (p := { p with data := none, title := none }) (h.of rfl rfl rfl) (.empty hf rfl)

theorem parseInlineImage_quiet (p : Parser) (t : Token) : Ok (p.parseInlineImage t) (Quiet p) := by
  unfold Parser.parseInlineImage
  exact .bind' fun _ _ => .pure ⟨rfl, rfl, rfl⟩

theorem parseFootnote_quiet (p : Parser) (t : Token) : Ok (p.parseFootnote t) (Quiet p) := by
  unfold Parser.parseFootnote
  exact .bind' fun _ _ => .pure ⟨rfl, rfl, rfl⟩

theorem parseMacroClose_quiet (p : Parser) (t : Token) : Ok (p.parseMacroClose t) (Quiet p) := by
  unfold Parser.parseMacroClose
  refine .ite (fun _ => .pure ⟨rfl, rfl, rfl⟩) (fun _ => ?_)
  split
  · exact .bind' fun _ _ => .bind' fun _ _ => .pure ⟨rfl, rfl, rfl⟩
  · exact addText_quiet p t _

theorem parseText_quiet (p : Parser) (t : Token) (pass : Bool) : Ok (p.parseText t pass) (Quiet p) := by
  unfold Parser.parseText
  split
  · refine .ite (fun _ => .pure ⟨rfl, rfl, rfl⟩) (fun _ => ?_)
    exact .bind (addText_quiet p _ _) fun q hq => (addText_quiet _ _ _).mono fun _ hr => hq.trans hr
  · exact addText_quiet p t _

theorem parseAttrRef_quiet (p : Parser) (t : Token) : Ok (p.parseAttrRef t) (Quiet p) := by
  unfold Parser.parseAttrRef
  refine .bind' fun _ _ => ?_
  split
  · exact .ite (fun _ => .error) (fun _ => parseText_quiet p _ _)
  · exact parseText_quiet p _ _

theorem parseXref_quiet (p : Parser) (t : Token) : Ok (p.parseXref t) (Quiet p) := by
  unfold Parser.parseXref
  exact .bind' fun _ _ => .pure ⟨rfl, rfl, rfl⟩

theorem parseCallout_quiet (p : Parser) (t : Token) : Ok (p.parseCallout t) (Quiet p) := by
  unfold Parser.parseCallout
  exact .ite (fun _ => .error) (fun _ => .bind' fun _ _ => .pure ⟨rfl, rfl, rfl⟩)

theorem addCharref_quiet (p : Parser) (x : Inline) : Ok (p.addCharref x) (Quiet p) := by
  unfold Parser.addCharref
  split
  · exact .ite (fun _ => .pure ⟨rfl, rfl, rfl⟩) (fun _ => .pure ⟨rfl, rfl, rfl⟩)
  · exact .ite (fun _ => .pure ⟨rfl, rfl, rfl⟩) (fun _ => .pure ⟨rfl, rfl, rfl⟩)
  · exact .pure ⟨rfl, rfl, rfl⟩

theorem parseCharref_quiet (p : Parser) (t : Token) : Ok (p.parseCharref t) (Quiet p) := by
  unfold Parser.parseCharref
  dsimp only
  split
  · refine .ite (fun _ => .pure ⟨rfl, rfl, rfl⟩) (fun _ => ?_)
    exact .bind (addText_quiet p _ _) fun q hq => (addCharref_quiet _ _).mono fun _ hr => hq.trans hr
  · exact addCharref_quiet p _

theorem Inv.parseLeaf {p : Parser} (h : Inv found p) {t : Token} (ht : TokFact t) : Ok (p.parseLeaf t) (Inv found) := by
  unfold Parser.parseLeaf
  split
  · refine .bind h.addInlines fun p1 h1 => ?_
    split
    · exact .error
    · rename_i b rest heq
      obtain ⟨h0, hd⟩ := h1.pop (q := { p1 with blocks := rest }) heq rfl rfl rfl
      exact .bind addLocations_same fun b' hb => .bind (h0.pushToStack (hd.same hb)) fun q hq => .pure (hq.of rfl rfl rfl)
  · refine .bind (P := Deep found) (Ok.liftB fun b hb => ?_) fun b hb => ?_
    · unfold Block.leafFromToken at hb
      split at hb <;> cases hb
      exact .empty (leaf_shaped ht ‹_› _) rfl
    · exact .bind (Inv.pushToStack (p := { p with openText := some t.ty }) (h.of rfl rfl rfl) hb) fun q hq => .pure (hq.of rfl rfl rfl)

/-- The blocks of the stack above a box go into it. -/
theorem pushBlocks_deep : ∀ {l : List Block} {P : Block}, Deep found P → (∀ x ∈ l, Deep found x) → Ok (pushBlocks P l) (Deep found)
  | [], P, hP, _ => .pure hP
  | x :: xs, P, hP, hl => by
    unfold pushBlocks
    exact .bind' fun P' hP' => pushBlocks_deep (pushBlock_deep (hl x (by simp)) hP (liftB_ok hP')) fun y hy => hl y (List.mem_cons_of_mem _ hy)

theorem Inv.closeParentBlock {p : Parser} (h : Inv found p) {above below : List Block} {n : ParentName} {v : Option ParentVariant}
    {d : Str} {bs : List Block} {ti : List Inline} {m : Option Meta} {l : List Location} (loc : List Location)
    (heq : p.blocks = above ++ .parent n v d bs ti m l :: below) :
    Ok (p.closeParentBlock above below n v d bs ti m l loc) (Inv found) := by
  have hd := h.deep
  rw [heq] at hd
  have hP : Deep found (.parent n v d bs ti m l) := hd _ (by simp)
  unfold Parser.closeParentBlock
  have h0 : Inv found { p with blocks := above ++ below } := by
    refine ⟨fun b hb => hd b ?_, h.check, h.asg⟩
    have hb : b ∈ above ++ below := hb
    simp only [List.mem_append, List.mem_cons] at hb ⊢
    exact hb.imp_right .inr
  refine .bind h0.addInlines fun p1 h1 => ?_
  split
  · exact .error
  · rename_i x lines hlines
    refine .ite (fun _ => .error) (fun _ => ?_)
    have hP' : Deep found (.parent n v d bs ti m (reconcile l loc)) := hP.same ⟨fun f hf => hf, rfl⟩
    refine .bind (pushBlocks_deep hP' ?_) fun b hb => ?_
    · intro x hx
      exact h1.deep x (List.mem_of_mem_take (List.mem_reverse.1 hx))
    · have hc : Ok (if b.isTable = true then b.tableInfo else .ok b) fun c => Same c b :=
        .ite (fun _ => tableInfo_same) (fun _ => .pure (.refl b))
      refine .bind hc fun c hc => ?_
      have h2 : Inv found { p1 with openLines := lines, blocks := p1.blocks.drop (p1.blocks.length - below.length) } :=
        ⟨fun x hx => h1.deep x (List.mem_of_mem_drop hx), h1.check, h1.asg⟩
      exact .bind (h2.pushToStack (hb.same hc)) fun q hq => .pure (hq.of rfl rfl rfl)

theorem Inv.parseParent {p : Parser} (h : Inv found p) {t : Token} (ht : TokFact t) : Ok (p.parseParent t) (Inv found) := by
  unfold Parser.parseParent
  split
  · exact .error
  · rename_i n v hk
    dsimp only
    have h0 : Inv found { p with dangling := none, title := none } := h.of rfl rfl rfl
    have hopen : Ok (openParent { p with dangling := none, title := none } t.line (.parent n v t.text [] (p.title.getD []) none t.locations)) (Inv found) := by
      unfold Parser.openParent
      exact Inv.pushToStack (p := { p with dangling := none, title := none, openLines := t.line :: p.openLines }) (h.of rfl rfl rfl) (.empty (box_shaped ht hk) rfl)
    split
    · rename_i heq
      exact .ite (fun _ => h0.closeParentBlock _ (splitFirst_eq heq)) (fun _ => hopen)
    · exact hopen

theorem Inv.parseCommentBlock {p : Parser} (h : Inv found p) {t : Token} (ht : TokFact t) : Ok (p.parseCommentBlock t) (Inv found) := by
  unfold Parser.parseCommentBlock
  split
  · exact .ite (fun _ => .pure ⟨fun b hb => h.deep b (List.mem_of_mem_tail hb), h.check, h.asg⟩) (fun _ => .pure h)
  · exact h.parseLeaf ht

theorem Inv.parseQuoteVerse {p : Parser} (h : Inv found p) {t : Token} (ht : TokFact t) : Ok (p.parseQuoteVerse t) (Inv found) := by
  unfold Parser.parseQuoteVerse
  split
  · exact .ite (fun _ => h.parseLeaf ht) (fun _ => h.parseParent ht)
  · split
    · exact h.parseLeaf ht
    · exact h.parseParent ht

/-- The recursive calls keep the invariant. -/
def CallOk (found : Str → Prop) (f : Token → Parser → M Parser) : Prop := ∀ t p, TokFact t → Inv found p → Ok (f t p) (Inv found)

theorem feed_ok {f : Token → Parser → M Parser} (hf : CallOk found f) (b : Bool) {items : List Item} {p : Parser}
    (hi : ∀ t, .tok t ∈ items → TokFact t) (h : Inv found p) : Ok (feed f b items p) (Inv found) := by
  induction items generalizing p with
  | nil => exact .pure h
  | cons i items ih =>
    cases i with
    | tok t =>
      unfold feed
      refine .bind (hf t p (hi t (by simp)) h) fun q hq => ih (fun u hu => hi u (by simp [hu])) ?_
      cases b with
      | true => exact hq.of rfl rfl rfl
      | false => exact hq
    | _ => exact .error

theorem scan_ok {src : Str} {fs : List Str} : ∀ t, .tok t ∈ (Scanner.newWithStack src fs).run → TokFact t := fun _ ht => run_fact ht

theorem offsetBy_ok {t : Token} (ht : TokFact t) (l c : Nat) : Ok (t.offsetBy l c) TokFact := by
  unfold Token.offsetBy
  exact .ite (fun _ => .error) (fun _ => .pure ht)

theorem Inv.parseTableCell {f : Token → Parser → M Parser} (hf : CallOk found f) {p : Parser} (h : Inv found p) (t : Token) : Ok (p.parseTableCell f t) (Inv found) := by
  unfold Parser.parseTableCell
  refine .bind' fun c hc => .bind (h.pushToStack (.empty trivial rfl)) fun p1 h1 => ?_
  have hs : CallOk found (fun (u : Token) (p : Parser) => (do
      let u' ← u.offsetBy t.line t.startcol
      f u' p : M Parser)) := fun u p hu hp => .bind (offsetBy_ok hu _ _) fun v hv => hf _ _ hv hp
  refine .bind (feed_ok hs false (p := { p1 with dangling := none }) (scan_ok (fs := [])) (h1.of rfl rfl rfl)) fun p2 h2 => ?_
  exact Inv.addInlines (p := { p2 with inBlockLine := false, forceNew := false }) (h2.of rfl rfl rfl)

theorem selection_quiet (p : Parser) (m : Option Meta) : Ok (p.selection m) fun r => Quiet p r.1 := by
  unfold Parser.selection
  split
  · exact .pure ⟨rfl, rfl, rfl⟩
  · refine .bind (P := Quiet p) ?_ fun q hq => ?_
    · split
      · exact levelOffset_quiet p _
      · exact .pure ⟨rfl, rfl, rfl⟩
    · refine .bind' fun lt _ => ?_
      obtain ⟨lines, toEnd⟩ := lt
      exact .pure hq

theorem includeToken_ok {f : Token → Parser → M Parser} (hf : CallOk found f) (a : Bool) {t : Token} {p : Parser} (ht : TokFact t) (h : Inv found p) :
    Ok (includeToken f a t p) (Inv found) := by
  unfold Parser.includeToken
  refine .ite (fun _ => ?_) (fun _ => ?_)
  · exact .bind (hf t p ht h) fun q hq => .pure (hq.of rfl rfl rfl)
  · exact Inv.keep (p := { p with lastTy := if t.ty = .eof then .eof else .text }) (h.of rfl rfl rfl) (parseText_quiet _ t false)

theorem includeLoop_ok {f : Token → Parser → M Parser} (hf : CallOk found f) (a e : Bool) (tags : List Str)
    {items : List Item} (hi : ∀ t, .tok t ∈ items → TokFact t) (lines : List Int) (cur : Option Str) {p : Parser} (h : Inv found p) :
    Ok (includeLoop f a e tags items lines cur p) (Inv found) := by
  induction items generalizing lines cur p with
  | nil => exact .pure h
  | cons i items ih =>
    have hi' := fun u (hu : Item.tok u ∈ items) => hi u (by simp [hu])
    cases i with
    | tok t =>
      unfold includeLoop
      split
      · exact ih hi' _ _ h
      · refine .bind' fun ck _ => ?_
        obtain ⟨cur', keep⟩ := ck
        dsimp only
        refine .bind (P := Inv found) ?_ fun q hq => ih hi' _ _ hq
        exact .ite (fun _ => includeToken_ok hf _ (hi t (by simp)) h) (fun _ => .pure h)
    | _ => exact .error

theorem Inv.parseInclude {f : Token → Parser → M Parser} (hf : CallOk found f) {w : World} {p : Parser} (h : Inv found p) (t : Token) : Ok (p.parseInclude w f t) (Inv found) := by
  unfold Parser.parseInclude
  refine .bind' fun tm _ => ?_
  obtain ⟨target, m⟩ := tm
  dsimp only
  refine .bind (selection_quiet p m) fun ps hps => ?_
  obtain ⟨p1, sel⟩ := ps
  dsimp only at hps ⊢
  have h1 := h.quiet hps
  split
  · exact .error
  · split
    · exact .error
    · rename_i src hsrc
      refine .bind (includeLoop_ok hf _ _ _ (scan_ok) _ _ (h1.of rfl rfl rfl)) fun p2 h2 => ?_
      exact .bind h2.addInlines fun p3 h3 => .bind (h3.drain _ _) fun p4 h4 => .pure (h4.of rfl rfl rfl)

theorem Inv.parseContinuation {p : Parser} (h : Inv found p) : Ok p.parseContinuation (Inv found) := by
  unfold Parser.parseContinuation
  exact .bind h.addInlines fun q hq => .pure (hq.of rfl rfl rfl)

theorem Inv.dispatchToken {f : Token → Parser → M Parser} (hf : CallOk found f) {w : World} (hw : ∀ fs t, w.resolve fs t ≠ none → found t) {p : Parser} (h : Inv found p) {t : Token} (ht : TokFact t) :
    Ok (p.dispatchToken w f t) (Inv found) := by
  unfold Parser.dispatchToken
  have hspan : Ok (do
      let s ← Inline.spanFromToken t
      p.parseSpan s : M Parser) (Inv found) := .bind' fun s _ => h.keep (parseSpan_quiet p s)
  have hmeta : Ok (p.parseBlockMeta t) (Inv found) := by
    unfold Parser.parseBlockMeta
    exact .bind' fun _ _ => .pure (h.of rfl rfl rfl)
  have himeta : Ok (p.parseInlineMeta t) (Inv found) := by
    unfold Parser.parseInlineMeta
    exact .bind' fun _ _ => .pure (h.of rfl rfl rfl)
  split
  all_goals first
    | exact .error
    | exact h.parseTitle t
    | exact h.parseSection t
    | exact h.keep (parseAttribute_quiet p t)
    | exact hmeta
    | exact himeta
    | exact h.parseNewLine t
    | exact h.keep (parseText_quiet p t false)
    | exact h.keep (parseCharref_quiet p t)
    | exact hspan
    | exact h.keep (parseAttrRef_quiet p t)
    | exact h.keep (parseXref_quiet p t)
    | exact h.parseInclude hf t
    | exact h.keep (parseFootnote_quiet p t)
    | exact h.keep (parseInlineImage_quiet p t)
    | exact h.keep (parseMacroClose_quiet p t)
    | exact h.addToStackOrGraph (.empty trivial rfl)
    | exact h.parseParent ht
    | exact h.parseTableCell hf t
    | exact h.parseQuoteVerse ht
    | exact h.parseLeaf ht
    | exact h.keep (parseCallout_quiet p t)
    | exact h.parseBlockImage hw t
    | exact h.parseUnordered t
    | exact h.parseOrdered t
    | exact h.parseDlistTerm t
    | exact h.parseAdmonition ht
    | exact h.parseContinuation
    | exact h.parseCommentBlock ht
    | exact .ite (fun _ => h.moveHeader) (fun _ => .pure h)
    | exact .pure (h.of rfl rfl rfl)

theorem Inv.step {f : Token → Parser → M Parser} (hf : CallOk found f) {w : World} (hw : ∀ fs t, w.resolve fs t ≠ none → found t) {p : Parser} (h : Inv found p) {t : Token} (ht : TokFact t) :
    Ok (step w f t p) (Inv found) := by
  unfold Parser.step
  refine .bind (P := Inv found) (.ite (fun _ => h.moveHeader) (fun _ => .pure h)) fun q hq => ?_
  split
  · exact hq.keep (parseText_quiet q t _)
  · exact hq.dispatchToken hf hw ht

theorem tokenInto_ok {w : World} (hw : ∀ fs t, w.resolve fs t ≠ none → found t) (fuel : Nat) : CallOk found (tokenInto w fuel) := by
  induction fuel with
  | zero => exact fun _ _ _ _ => .error
  | succ n ih => exact fun t p ht hp => hp.step ih hw ht

theorem Inv.finish {p : Parser} (h : Inv found p) : Ok p.finish (Inv found) := by
  unfold Parser.finish
  exact .bind h.addInlines fun p1 h1 => .bind (h1.drain _ _) fun p2 h2 => .pure ⟨h2.deep, h2.check, graphConsolidate_deep h2.asg⟩

/-- Everything in a graph has the shape of its name. -/
theorem parse_deep {w : World} {fuel : Nat} {src : Str} (hw : ∀ fs t, w.resolve fs t ≠ none → found t)
    {p q : Parser} (hp : p = Parser.new ∨ p = Parser.newNoTargets ∧ ∀ t, found t) (h : Parser.parse w fuel (scan src) p = .ok q) :
    ∀ b ∈ q.asg.blocks, Deep found b := by
  have h0 : Inv found p := by
    rcases hp with rfl | ⟨rfl, hp⟩
    · exact ⟨(fun b hb => by cases hb), .inl rfl, fun b hb => by cases hb⟩
    · exact ⟨(fun b hb => by cases hb), .inr hp, fun b hb => by cases hb⟩
  have : Ok (Parser.parse w fuel (scan src) p) (Inv found) := by
    unfold Parser.parse
    exact .bind (feed_ok (tokenInto_ok hw fuel) true (scan_ok (fs := [])) h0) fun p1 h1 => h1.finish
  exact (this q h).asg

end
end Adoc.Shape
