import Verif.Proof.KindsBlock
import Verif.Proof.RichCode
/-!
# Kinds of blocks: the parser

One pass over all handlers. With `fl` the text has no continuation lines.
-/
namespace Adoc.Kinds

open Block Parser

/-- What the parser needs to know about a token. -/
structure TK (fl : Bool) (t : Token) : Prop where
  star : t.ty = .unorderedListItem → t.lexeme = b!"* "
  dot : t.ty = .orderedListItem → t.lexeme = b!". "
  callout : t.ty = .codeCalloutListItem → ∃ n, t.lexeme = b!"<" ++ n ++ b!"> "
  cell : t.ty = .tableCell → t.lit = some t.lexeme ∧ c!"\n" ∉ t.lexeme
  cont : fl = true → t.ty ≠ .blockContinuation

/-- The invariant without the stack. -/
structure W (fl : Bool) (p : Parser) : Prop where
  deep : ∀ b ∈ p.blocks, Deep fl b
  cont : fl = true → p.inCont = false
  asg : ∀ b ∈ p.asg.blocks, Deep fl b

/-- The invariant. -/
structure Inv (fl : Bool) (p : Parser) : Prop where
  w : W fl p
  stands : fl = true → Stands p.blocks

/-- States with the same blocks. -/
theorem Inv.of {fl : Bool} {p q : Parser} (h : Inv fl p) (h1 : q.blocks = p.blocks) (h2 : q.asg = p.asg) (h3 : q.inCont = p.inCont) : Inv fl q :=
  ⟨⟨by rw [h1]; exact h.w.deep, by rw [h3]; exact h.w.cont, by rw [h2]; exact h.w.asg⟩, by rw [h1]; exact h.stands⟩

section
variable {fl : Bool}

/-- The same blocks, graph and mode. -/
def Quiet (p q : Parser) : Prop := q.blocks = p.blocks ∧ q.asg = p.asg ∧ q.inCont = p.inCont

theorem Quiet.trans {p q r : Parser} (h : Quiet p q) (h' : Quiet q r) : Quiet p r := ⟨h'.1.trans h.1, h'.2.1.trans h.2.1, h'.2.2.trans h.2.2⟩
theorem Inv.quiet {p q : Parser} (h : Inv fl p) (hq : Quiet p q) : Inv fl q := h.of hq.1 hq.2.1 hq.2.2
theorem W.quiet {p q : Parser} (h : W fl p) (hq : Quiet p q) : W fl q :=
  ⟨by rw [hq.1]; exact h.deep, by rw [hq.2.2]; exact h.cont, by rw [hq.2.1]; exact h.asg⟩

theorem Inv.keep {p : Parser} (h : Inv fl p) {x : M Parser} (hx : Ok x (Quiet p)) : Ok x (Inv fl) := hx.mono fun _ hq => h.quiet hq

theorem addText_quiet (p : Parser) (t : Token) (pass : Bool) : Ok (p.addText t pass) (Quiet p) := by
  unfold Parser.addText
  dsimp only
  split
  · exact .pure ⟨rfl, rfl, rfl⟩
  · exact .ite (fun _ => .pure ⟨rfl, rfl, rfl⟩) fun _ => .pure ⟨rfl, rfl, rfl⟩
  · exact .ite (fun _ => .pure ⟨rfl, rfl, rfl⟩) fun _ => .pure ⟨rfl, rfl, rfl⟩
  · exact .ite (fun _ => .pure ⟨rfl, rfl, rfl⟩) fun _ => .bind' fun _ _ => .pure ⟨rfl, rfl, rfl⟩
  · exact .pure ⟨rfl, rfl, rfl⟩

theorem danglingSpans_quiet (p : Parser) : Ok p.danglingSpans (Quiet p) := by
  unfold Parser.danglingSpans
  split
  · exact .pure ⟨rfl, rfl, rfl⟩
  · refine .bind' fun _ _ => .bind' fun _ _ => ?_
    split
    · exact (addText_quiet _ _ _).mono fun _ h => h
    · exact .bind' fun _ _ => .pure ⟨rfl, rfl, rfl⟩

theorem mem_cons_all {P : Block → Prop} {b : Block} {l : List Block} (hb : P b) (hl : ∀ x ∈ l, P x) : ∀ x ∈ b :: l, P x := by
  intro x hx
  rcases List.mem_cons.1 hx with rfl | hx
  · exact hb
  · exact hl x hx

/-- The block below the top. -/
def On (fl : Bool) (b : Block) (l : List Block) : Prop := fl = true → ∀ c, l.head? = some c → Below b c

theorem On.free {b : Block} {l : List Block} (h : Kinds.free b) : On fl b l := fun _ c _ => h.below c

theorem Inv.graphPush {p : Parser} (h : Inv fl p) {b : Block} (hb : Deep fl b) : Ok (p.graphPush b) fun q => Inv fl q ∧ q.blocks = p.blocks := by
  unfold Parser.graphPush
  split
  · exact .pure ⟨⟨⟨h.w.deep, h.w.cont, graphPush_deep h.w.asg hb ‹_›⟩, h.stands⟩, rfl⟩
  · exact .error

/-- Adding to the block at the top. -/
theorem Inv.top {p q : Parser} (h : Inv fl p) {last last' b : Block} {rest : List Block} (heq : p.blocks = last :: rest) (hb : Deep fl b)
    (hf : Fits fl last b) (hl : last.pushBlock b = .ok last') (h1 : q.blocks = last' :: rest) (h2 : q.asg = p.asg) (h3 : fl = true → q.inCont = false) : Inv fl q := by
  have hd := h.w.deep
  have hs := h.stands
  rw [heq] at hd hs
  obtain ⟨d, k⟩ := pushBlock_deep hb (hd last (by simp)) hf hl
  refine ⟨⟨?_, h3, by rw [h2]; exact h.w.asg⟩, fun hfl => by rw [h1]; exact (hs hfl).swap k⟩
  rw [h1]
  exact mem_cons_all d fun x hx => hd x (List.mem_cons_of_mem _ hx)

theorem W.pushToStack {p : Parser} (h : W fl p) {b : Block} (hb : Deep fl b) :
    Ok (p.pushToStack b) fun q => W fl q ∧ (fl = true → ∃ b', Same b' b ∧ q.blocks = b' :: p.blocks) := by
  unfold Parser.pushToStack
  refine .ite (fun hc => ?_) fun _ => ?_
  · have hn : fl = false := by
      cases fl with
      | false => rfl
      | true => rw [h.cont rfl] at hc; cases hc
    subst hn
    split
    · exact .error
    · rename_i last rest heq
      have hd := h.deep
      rw [heq] at hd
      refine .bind' fun last' hl => .pure ⟨⟨?_, (fun h => by cases h), h.asg⟩, fun h => (by cases h)⟩
      exact mem_cons_all (pushBlock_deep hb (hd last (by simp)) (fun h => by cases h) (liftB_ok hl)).1 fun x hx => hd x (List.mem_cons_of_mem _ hx)
  · split
    · exact .bind addMeta_same fun b' hb' => .pure ⟨⟨mem_cons_all (hb.same hb') h.deep, h.cont, h.asg⟩, fun _ => ⟨b', hb', rfl⟩⟩
    · exact .pure ⟨⟨mem_cons_all hb h.deep, h.cont, h.asg⟩, fun _ => ⟨b, .refl b, rfl⟩⟩

theorem Inv.pushToStack' {p : Parser} (h : Inv fl p) {b : Block} (hb : Deep fl b) (ho : On fl b p.blocks) :
    Ok (p.pushToStack b) fun q => Inv fl q ∧ (fl = true → ∃ b', Same b' b ∧ q.blocks = b' :: p.blocks) := by
  refine (h.w.pushToStack hb).mono fun q hq => ⟨⟨hq.1, fun hfl => ?_⟩, hq.2⟩
  obtain ⟨b', hs, he⟩ := hq.2 hfl
  rw [he]
  exact ⟨fun c hc => (ho hfl c hc).left hs.1, h.stands hfl⟩

theorem Inv.pushToStack {p : Parser} (h : Inv fl p) {b : Block} (hb : Deep fl b) (ho : On fl b p.blocks) : Ok (p.pushToStack b) (Inv fl) :=
  (h.pushToStack' hb ho).mono fun _ hq => hq.1

theorem W.newParagraph {p : Parser} (h : W fl p) : Ok p.newParagraph fun q => W fl q ∧ (fl = true → ∃ x, plain x ∧ q.blocks = x :: p.blocks) := by
  unfold Parser.newParagraph
  have hpara : ∀ l, Deep fl (.leaf .paragraph .paragraph none p.inlines.reverse none l) := fun l => .empty rfl
  have h0 : W fl { p with inlines := [] } := ⟨h.deep, h.cont, h.asg⟩
  have push : ∀ {b : Block}, Deep fl b → plain b → Ok (Parser.pushToStack { p with inlines := [] } b)
      fun q => W fl q ∧ (fl = true → ∃ x, plain x ∧ q.blocks = x :: p.blocks) := fun hb hp =>
    (h0.pushToStack hb).mono fun q hq => ⟨hq.1, fun hfl => by
      obtain ⟨b', hs, he⟩ := hq.2 hfl
      exact ⟨b', hp.same hs, he⟩⟩
  dsimp only
  refine .ite (fun hc => ?_) (fun _ => ?_)
  · have hn : fl = false := by
      cases fl with
      | false => rfl
      | true => rw [h.cont rfl] at hc; cases hc
    subst hn
    split
    · exact .error
    · rename_i last rest heq
      have hd := h.deep
      rw [show p.blocks = last :: rest from heq] at hd
      refine .bind' fun last' hl => .pure ⟨⟨?_, (fun h => by cases h), h.asg⟩, fun h => (by cases h)⟩
      exact mem_cons_all (pushBlock_deep (hpara _) (hd last (by simp)) (fun h => by cases h) (liftB_ok hl)).1 fun x hx => hd x (List.mem_cons_of_mem _ hx)
  · split
    · split
      · exact .error
      · refine .ite (fun hc => ?_) (fun _ => push (hpara _) (.inl rfl))
        refine .bind' fun q hq => ?_
        have he : Deep fl (.parent .quote none [] [] [] none []) := .empty rfl
        have hf : ∀ l, Fits fl (.parent .quote none [] [] [] none []) (.leaf .paragraph .paragraph none p.inlines.reverse none l) := by
          intro l _ k hk
          cases hk
        obtain ⟨d, k⟩ := pushBlock_deep (hpara _) he (hf _) (liftB_ok hq)
        refine push d (.inr ⟨⟨.quote, k⟩, ?_⟩)
        rw [pushBlock_last (n := .quote) rfl (fun k hk => by cases hk) (liftB_ok hq)]
        intro x hx v hv
        simp only [children, List.nil_append, List.getLast?_singleton, Option.some.injEq] at hx
        subst hx
        cases hv
    · exact push (hpara _) (.inl rfl)

theorem W.addInlines {p : Parser} (h : W fl p) : Ok p.addInlines fun q => W fl q ∧ (fl = true → Top p.blocks q.blocks) := by
  unfold Parser.addInlines
  refine .ite (fun _ => .pure ⟨h, fun _ => .inl rfl⟩) (fun _ => ?_)
  have h1 : Ok (if p.inSpan = true then p.danglingSpans else .ok p) (Quiet p) :=
    .ite (fun _ => danglingSpans_quiet p) (fun _ => .pure ⟨rfl, rfl, rfl⟩)
  refine .bind h1 fun p1 hq => ?_
  have hw := h.quiet hq
  have hnew : Ok p1.newParagraph fun q => W fl q ∧ (fl = true → Top p.blocks q.blocks) := hw.newParagraph.mono fun q hq' => ⟨hq'.1, fun hfl => by
    obtain ⟨x, hx, he⟩ := hq'.2 hfl
    exact .inr (.inl ⟨x, hx, by rw [he, hq.1]⟩)⟩
  split
  · exact .pure ⟨⟨hw.deep, hw.cont, hw.asg⟩, fun _ => .inl hq.1⟩
  · split
    · rename_i last rest heq
      have hd := hw.deep
      rw [heq] at hd
      refine .ite (fun _ => ?_) (fun _ => hnew)
      refine .bind pushInlines_same fun b hb => .pure ⟨⟨mem_cons_all ((hd last (by simp)).same hb) fun x hx => hd x (List.mem_cons_of_mem _ hx), hw.cont, hw.asg⟩,
        fun _ => .inr (.inr ⟨last, b, rest, by rw [← hq.1, heq], rfl, hb⟩)⟩
    · exact hnew

theorem Inv.addInlines' {p : Parser} (h : Inv fl p) : Ok p.addInlines fun q => Inv fl q ∧ (fl = true → Top p.blocks q.blocks) :=
  h.w.addInlines.mono fun _ hq => ⟨⟨hq.1, fun hfl => (hq.2 hfl).stands (h.stands hfl)⟩, hq.2⟩

theorem Inv.addInlines {p : Parser} (h : Inv fl p) : Ok p.addInlines (Inv fl) := h.addInlines'.mono fun _ hq => hq.1

theorem Inv.pop {p q : Parser} (h : Inv fl p) {b : Block} {rest : List Block} (heq : p.blocks = b :: rest)
    (h1 : q.blocks = rest) (h2 : q.asg = p.asg) (h3 : q.inCont = p.inCont) : Inv fl q ∧ Deep fl b ∧ On fl b rest := by
  have hd := h.w.deep
  have hs := h.stands
  rw [heq] at hd hs
  refine ⟨⟨⟨by rw [h1]; exact fun x hx => hd x (List.mem_cons_of_mem _ hx), by rw [h3]; exact h.w.cont, by rw [h2]; exact h.w.asg⟩,
    fun hfl => by rw [h1]; exact (hs hfl).2⟩, hd b (by simp), fun hfl => (hs hfl).1⟩

/-- After the last item is added to its list, another item with a marker of the list may follow. -/
theorem Inv.addLastItem {p : Parser} (h : Inv fl p) : Ok p.addLastItem fun q => Inv fl q ∧
    ∀ b new, p.blocks.head? = some b → ((∃ k k', kind b = .item k ∧ kind new = .item k' ∧ ∀ v, marks v k → marks v k') ∨ kind b = .entry ∧ kind new = .entry) →
      On fl new q.blocks := by
  unfold Parser.addLastItem
  refine .bind (Inv.addInlines' (p := { p with forceNew := false }) (h.of rfl rfl rfl)) fun p1 h1 => ?_
  obtain ⟨h1, ht⟩ := h1
  split
  · exact .error
  · rename_i item rest heq
    obtain ⟨hi0, hd, ho⟩ := h1.pop (q := { p1 with blocks := rest }) heq rfl rfl rfl
    have hk : fl = true → plain item ∨ ∃ a, p.blocks.head? = some a ∧ Same item a := by
      intro hfl
      have := ht hfl
      simp only [heq] at this
      rcases this with h | ⟨x, hx, h⟩ | ⟨a, a', r, e1, e2, hs⟩
      · right; exact ⟨item, by rw [← h]; rfl, .refl _⟩
      · left; rw [(List.cons.inj h).1]; exact hx
      · right; exact ⟨a, by rw [e1]; rfl, (List.cons.inj e2).1 ▸ hs⟩
    refine .ite (fun hi => ?_) (fun hi => ?_)
    · split
      · refine .pure ⟨hi0.of rfl rfl rfl, fun _ _ _ _ _ c hc => (by cases hc)⟩
      · rename_i list rest'
        refine .bind' fun list' hl => ?_
        have hb : fl = true → Below item list := fun hfl => ho hfl list rfl
        have hf := fits_of_item hi hb
        refine .pure ⟨hi0.top rfl hd hf (liftB_ok hl) rfl rfl h1.w.cont, fun b new hh hn hfl c hc => ?_⟩
        have hkind := (pushBlock_deep hd (hi0.w.deep list (by simp)) hf (liftB_ok hl)).2
        simp only [List.head?_cons, Option.some.injEq] at hc
        subst hc
        rcases hk hfl with hp | ⟨a, ha, hs⟩
        · have := hp.free
          unfold Kinds.free at this
          rcases isAnyItem_kind.1 hi with ⟨k, e⟩ | e <;> rw [e] at this <;> exact this.elim
        · rw [hh] at ha
          cases ha
          have hbl := (hb hfl).left hs.1.symm
          rcases hn with ⟨k, k', e, e', hm⟩ | ⟨e, e'⟩
          · unfold Below at hbl ⊢
            rw [e] at hbl
            rw [e', hkind]
            rcases hbl with ⟨v, hv, hvm⟩ | hv | ⟨⟨n, hv⟩, hlast⟩
            · exact .inl ⟨v, hv, hm v hvm⟩
            · exact .inr (.inl hv)
            · exfalso
              have hl := liftB_ok hl
              cases list <;> simp [kind] at hv
              unfold Block.pushBlock at hl
              rw [isListItem_kind.2 ⟨k, by rw [hs.1, e]⟩] at hl
              simp only [if_true, bind, Except.bind] at hl
              split at hl
              · cases hl
              · rename_i r hr
                obtain ⟨i, v, items, m, l, h1, -⟩ := pushIntoLast hr
                exact hlast (.list v items m l) (by simp [children, h1]) v rfl
          · unfold Below at hbl ⊢
            rw [e] at hbl
            rw [e', hkind]
            exact hbl
    · refine (hi0.pushToStack' hd ho).mono fun q hq => ⟨hq.1, fun b new hh hn hfl c hc => ?_⟩
      obtain ⟨b', hs, he⟩ := hq.2 hfl
      rw [he] at hc
      simp only [List.head?_cons, Option.some.injEq] at hc
      subst hc
      rcases hk hfl with hp | ⟨a, ha, hs'⟩
      · exact (hp.same hs).under
      · exfalso
        rw [hh] at ha
        cases ha
        refine hi (isAnyItem_kind.2 ?_)
        rcases hn with ⟨k, k', e, -⟩ | ⟨e, -⟩
        · exact .inl ⟨k, by rw [hs'.1, e]⟩
        · exact .inr (by rw [hs'.1, e])

theorem Inv.addToStackOrGraph {p : Parser} (h : Inv fl p) {b : Block} (hb : Deep fl b) (ho : On fl b p.blocks) :
    Ok (p.addToStackOrGraph b) (Inv fl) := by
  unfold Parser.addToStackOrGraph
  have hg : Ok (match p.data with
    | some m => do
      let b' ← b.addMeta m
      Parser.graphPush { p with data := none } b'
    | none => p.graphPush b) (Inv fl) := by
    split
    · exact .bind addMeta_same fun b' hb' => (Inv.graphPush (p := { p with data := none }) (h.of rfl rfl rfl) (hb.same hb')).mono fun _ hq => hq.1
    · exact (h.graphPush hb).mono fun _ hq => hq.1
  dsimp only
  split
  · rename_i last rest heq
    refine .ite (fun ht => ?_) (fun _ => hg)
    exact .bind' fun last' hl => .pure (h.top heq hb (fits_of_takes ht fun hfl => ho hfl last (by rw [heq]; rfl)) (liftB_ok hl) rfl rfl h.w.cont)
  · exact hg

theorem Inv.addLastToStackOrGraph {p : Parser} (h : Inv fl p) : Ok p.addLastToStackOrGraph (Inv fl) := by
  unfold Parser.addLastToStackOrGraph
  split
  · exact .error
  · rename_i b heq
    obtain ⟨h0, hd, ho⟩ := h.pop (q := { p with blocks := [] }) heq rfl rfl rfl
    exact (h0.graphPush hd).mono fun _ hq => hq.1
  · rename_i b prior rest heq
    obtain ⟨h0, hd, ho⟩ := h.pop (q := { p with blocks := prior :: rest }) heq rfl rfl rfl
    refine .ite (fun ht => ?_) (fun _ => (h0.graphPush hd).mono fun _ hq => hq.1)
    exact .bind' fun prior' hl => .pure (h0.top rfl hd (fits_of_takes ht fun hfl => ho hfl prior rfl) (liftB_ok hl) rfl rfl h.w.cont)

theorem Inv.addLastToGraph {p : Parser} (h : Inv fl p) : Ok p.addLastToGraph (Inv fl) := by
  unfold Parser.addLastToGraph
  split
  · exact .pure h
  · rename_i b rest heq
    obtain ⟨h0, hd, ho⟩ := h.pop (q := { p with data := none, blocks := rest }) heq rfl rfl rfl
    have h1 : Ok (match p.data with
      | some m => b.addMeta m
      | none => .ok b) fun c => Same c b := by
      split
      · exact addMeta_same
      · exact .pure (.refl b)
    refine .bind h1 fun c hc => ?_
    dsimp only
    split
    · rename_i next rest'
      refine .ite (fun ht => ?_) (fun _ => (h0.graphPush (hd.same hc)).mono fun _ hq => hq.1)
      exact .bind' fun prior' hl => .pure (h0.top rfl (hd.same hc) (fits_of_takes ht fun hfl => (ho hfl next rfl).left hc.1) (liftB_ok hl) rfl rfl h.w.cont)
    · exact (h0.graphPush (hd.same hc)).mono fun _ hq => hq.1

theorem Inv.drain {p : Parser} (h : Inv fl p) (n fuel : Nat) : Ok (drain n fuel p) (Inv fl) := by
  induction fuel generalizing p with
  | zero => exact .pure h
  | succ k ih =>
    unfold Parser.drain
    exact .ite (fun _ => .bind h.addLastToGraph fun q hq => ih hq) (fun _ => .pure h)

theorem Inv.moveHeader {p : Parser} (h : Inv fl p) : Ok p.moveHeader (Inv fl) := by
  unfold Parser.moveHeader
  refine .bind h.addInlines fun p1 h1 => ?_
  split
  · exact .ite (fun _ => .pure (h1.of rfl rfl rfl)) (fun _ => .pure ⟨⟨h1.w.deep, h1.w.cont, h1.w.asg⟩, h1.stands⟩)
  · exact .pure h1

theorem levelOffset_quiet (p : Parser) (v : Str) : Ok (p.levelOffset v) (Quiet p) := by
  unfold Parser.levelOffset
  split
  · exact .pure ⟨rfl, rfl, rfl⟩
  · split
    · exact .ite (fun _ => .pure ⟨rfl, rfl, rfl⟩) (fun _ => .error)
    · exact .error

theorem parseAttribute_quiet (p : Parser) (t : Token) : Ok (p.parseAttribute t) (Quiet p) := by
  unfold Parser.parseAttribute
  split
  · exact .error
  · exact .pure ⟨rfl, rfl, rfl⟩
  · exact .ite (fun _ => levelOffset_quiet p _) (fun _ => .pure ⟨rfl, rfl, rfl⟩)

theorem Inv.blankLine {p : Parser} (h : Inv fl p) : Ok p.blankLine (Inv fl) := by
  unfold Parser.blankLine
  dsimp only
  have h0 : Inv fl { p with dangling := none } := h.of rfl rfl rfl
  split
  · exact h0.moveHeader
  · have h1 : Ok (match p.blocks with
      | b :: _ => if b.isAnyItem then Parser.addLastItem { p with dangling := none } else .ok { p with dangling := none }
      | [] => .ok { p with dangling := none }) (Inv fl) := by
      split
      · exact .ite (fun _ => h0.addLastItem.mono fun _ h => h.1) (fun _ => .pure h0)
      · exact .pure h0
    refine .bind h1 fun p1 h1 => .bind (Inv.addInlines (p := { p1 with inSpan := false }) (h1.of rfl rfl rfl)) fun p2 h2 => ?_
    split
    · exact .pure (h2.of rfl rfl rfl)
    · rename_i b rest heq
      obtain ⟨h3, hd, ho⟩ := h2.pop (q := { p2 with forceNew := true, blocks := rest }) heq rfl rfl rfl
      refine .ite (fun _ => ?_) (fun _ => h3.pushToStack hd ho)
      refine .bind (h3.addToStackOrGraph hd ho) fun p4 h4 => .ite (fun _ => ?_) (fun _ => .pure h4)
      exact .bind h4.addLastToStackOrGraph fun p5 h5 => .pure (h5.of rfl rfl rfl)

theorem Inv.parseNewLine {p : Parser} (h : Inv fl p) (t : Token) : Ok (p.parseNewLine t) (Inv fl) := by
  unfold Parser.parseNewLine
  extract_lets p0 p1
  have h1 : Inv fl p1 := by
    simp only [p1, p0]
    split <;> exact h.of rfl rfl rfl
  exact .ite (fun _ => h1.blankLine) (fun _ => .ite (fun _ => .pure (h1.of rfl rfl rfl)) (fun _ => .pure (h1.of rfl rfl rfl)))

theorem Inv.parseDlistTerm {p : Parser} (h : Inv fl p) (t : Token) : Ok (p.parseDlistTerm t) (Inv fl) := by
  unfold Parser.parseDlistTerm
  dsimp only
  have h1 : Ok (match splitFirst Inline.isNewline p.inlines.reverse with
    | some (before, _, after) => do
      let p ← Parser.addInlines { p with forceNew := false, inlines := before.reverse }
      .ok { p with inlines := after.reverse ++ p.inlines }
    | none => .ok { p with forceNew := false }) (Inv fl) := by
    split
    · exact .bind (Inv.addInlines (p := { p with forceNew := false, inlines := _ }) (h.of rfl rfl rfl)) fun q hq => .pure (hq.of rfl rfl rfl)
    · exact .pure (h.of rfl rfl rfl)
  refine .bind h1 fun p1 h1 => ?_
  have h2 : Inv fl { p1 with inlines := [] } := h1.of rfl rfl rfl
  have hnew : ∀ loc, Ok (Parser.pushToStack { p1 with inlines := [] } (.dlist [] none loc))
      fun q => Inv fl q ∧ ∀ new, kind new = .entry → On fl new q.blocks := fun loc =>
    (h2.pushToStack' (b := .dlist [] none loc) (.empty rfl) (.free trivial)).mono fun q hq => ⟨hq.1, fun new hn hfl c hc => by
      obtain ⟨b', hs, he⟩ := hq.2 hfl
      rw [he] at hc
      simp only [List.head?_cons, Option.some.injEq] at hc
      subst hc
      unfold Below
      rw [hn, hs.1]
      intro v hv
      cases hv⟩
  have h3 : ∀ loc, Ok (match p1.blocks with
    | b :: _ => if b.isDlistItem then Parser.addLastItem { p1 with inlines := [] }
        else Parser.pushToStack { p1 with inlines := [] } (.dlist [] none loc)
    | [] => Parser.pushToStack { p1 with inlines := [] } (.dlist [] none loc))
      fun q => Inv fl q ∧ ∀ new, kind new = .entry → On fl new q.blocks := by
    intro loc
    split
    · rename_i b rest heq
      refine .ite (fun hi => ?_) (fun _ => hnew loc)
      exact h2.addLastItem.mono fun q hq => ⟨hq.1, fun new hn => hq.2 b new (by show p1.blocks.head? = _; rw [heq]; rfl) (.inr ⟨isDlistItem_kind.1 hi, hn⟩)⟩
    · exact hnew loc
  refine .bind (h3 _) fun p2 h3 => .bind (h3.1.pushToStack (.empty rfl) (h3.2 _ rfl)) fun p3 h4 => .pure (h4.of rfl rfl rfl)

/-- An item goes on a new list of its kind. -/
theorem Inv.newList {p : Parser} (h : Inv fl p) (v : ListVariant) (m : Option Meta) (l : List Location) :
    Ok (p.pushToStack (.list v [] m l)) fun q => Inv fl q ∧ ∀ new k, kind new = .item k → marks v k → On fl new q.blocks :=
  (h.pushToStack' (b := .list v [] m l) (.empty rfl) (.free trivial)).mono fun q hq => ⟨hq.1, fun new k hn hm hfl c hc => by
    obtain ⟨b', hs, he⟩ := hq.2 hfl
    rw [he] at hc
    simp only [List.head?_cons, Option.some.injEq] at hc
    subst hc
    unfold Below
    rw [hn]
    exact .inl ⟨v, hs.1, hm⟩⟩

theorem trim_callout (n : Str) : trim (b!"<" ++ n ++ b!"> ") = b!"<" ++ n ++ b!">" := by
  have := (Rich.bulCallout_marks (n, [])).trim
  simp only [Rich.bulCallout, List.append_assoc] at this ⊢
  exact this

theorem Inv.parseOrdered {p : Parser} (h : Inv fl p) {t : Token} (ht : TK fl t)
    (hty : t.ty = .orderedListItem ∨ t.ty = .codeCalloutListItem) : Ok (p.parseOrdered t) (Inv fl) := by
  have hm : marks .ordered (trim t.lexeme) := by
    rcases hty with hty | hty
    · rw [ht.dot hty]; exact .inl (by decide)
    · obtain ⟨n, hn⟩ := ht.callout hty
      rw [hn, trim_callout]
      exact .inr ⟨n, rfl⟩
  unfold Parser.parseOrdered
  extract_lets p0 newList
  have hn : ∀ p1, Inv fl p1 → Ok (newList p1) fun q => Inv fl q ∧ On fl (Block.newListItem t) q.blocks := by
    intro p1 h1
    refine .ite (fun hc => ?_) (fun _ => (h1.newList _ _ _).mono fun q hq => ⟨hq.1, hq.2 _ _ rfl hm⟩)
    refine .bind (P := Inv fl) ?_ fun q hq => (hq.newList _ _ _).mono fun q hq => ⟨hq.1, hq.2 _ _ rfl hm⟩
    split
    · exact .ite (fun _ => h1.addLastToStackOrGraph) (fun _ => .pure h1)
    · exact .pure h1
  clear_value newList
  have h0 : Inv fl p0 := h.of rfl rfl rfl
  refine .bind (P := fun q => Inv fl q ∧ On fl (Block.newListItem t) q.blocks) ?_ fun q hq => hq.1.pushToStack (.empty rfl) hq.2
  split
  · rename_i b rest heq
    refine .ite (fun hi => ?_) (fun _ => hn _ h0)
    refine h0.addLastItem.mono fun q hq => ⟨hq.1, hq.2 b _ (by rw [heq]; rfl) (.inl ?_)⟩
    cases b <;> simp only [isOrderedItem, Bool.false_eq_true] at hi
    rename_i k _ _ _ _
    refine ⟨k, trim t.lexeme, rfl, rfl, fun v hv => ?_⟩
    cases v with
    | ordered => exact hm
    | unordered =>
      have : k = b!"*" := hv
      subst this
      exact absurd hi (by decide)
  · exact hn _ h0

theorem Inv.parseUnordered {p : Parser} (h : Inv fl p) {t : Token} (ht : TK fl t)
    (hty : t.ty = .unorderedListItem) : Ok (p.parseUnordered t) (Inv fl) := by
  have hm : trim t.lexeme = b!"*" := by rw [ht.star hty]; decide
  have h0 : Inv fl { p with dangling := none } := h.of rfl rfl rfl
  have h1 : Ok (Parser.pushToStack { p with dangling := none } (.list .unordered [] none t.locations))
      fun q => Inv fl q ∧ On fl (Block.newListItem t) q.blocks := (h0.newList _ _ _).mono fun q hq => ⟨hq.1, hq.2 _ _ rfl hm⟩
  unfold Parser.parseUnordered
  dsimp only
  refine .bind (P := fun q => Inv fl q ∧ On fl (Block.newListItem t) q.blocks) ?_ fun q hq => hq.1.pushToStack (.empty rfl) hq.2
  split
  · rename_i b rest heq
    refine .ite (fun hi => ?_) (fun _ => h1)
    refine h0.addLastItem.mono fun q hq => ⟨hq.1, hq.2 b _ (by show p.blocks.head? = _; rw [heq]; rfl) (.inl ?_)⟩
    cases b <;> simp only [isUnorderedItem, Bool.false_eq_true, decide_eq_true_eq] at hi
    rename_i k _ _ _ _
    refine ⟨k, trim t.lexeme, rfl, rfl, fun v hv => ?_⟩
    rw [hm, ← hi]
    exact hv
  · exact h1

theorem Inv.parseSection {p : Parser} (h : Inv fl p) (t : Token) : Ok (p.parseSection t) (Inv fl) := by
  unfold Parser.parseSection
  refine .bind' fun v _ => ?_
  have h1 : Ok (match p.blocks with
    | b :: _ => if b.isSection then p.addLastToStackOrGraph else .ok p
    | [] => .ok p) (Inv fl) := by
    split
    · exact .ite (fun _ => h.addLastToStackOrGraph) (fun _ => .pure h)
    · exact .pure h
  refine .bind h1 fun p1 h1 => .bind (h1.pushToStack (.empty rfl) (.free trivial)) fun p2 h2 => ?_
  exact .pure (h2.of rfl rfl rfl)

theorem Inv.parseTitle {p : Parser} (h : Inv fl p) (t : Token) : Ok (p.parseTitle t) (Inv fl) := by
  unfold Parser.parseTitle
  exact .ite (fun _ => h.parseSection t) (fun _ => .ite (fun _ => .pure (h.of rfl rfl rfl)) (fun _ => .error))

theorem Inv.parseAdmonition {p : Parser} (h : Inv fl p) (t : Token) : Ok (p.parseAdmonition t) (Inv fl) := by
  unfold Parser.parseAdmonition
  refine .bind (P := fun b => Deep fl b ∧ free b) (Ok.liftB fun b hb => ?_) fun b hb =>
    .pure ⟨⟨mem_cons_all hb.1 h.w.deep, h.w.cont, h.w.asg⟩, fun hfl => (h.stands hfl).free hb.2⟩
  unfold Block.parentFromToken at hb
  split at hb <;> cases hb
  exact ⟨.empty rfl, trivial⟩

theorem openSpan_quiet (p : Parser) (i : Inline) : Ok (p.openSpan i) (Quiet p) := by
  unfold Parser.openSpan
  refine .bind (P := Quiet p) ?_ fun p1 h1 => .bind (danglingSpans_quiet p1) fun p2 h2 => ?_
  · split
    · exact .bind (addText_quiet p _ _) fun q hq => .pure hq
    · exact .pure ⟨rfl, rfl, rfl⟩
  · have h3 := h1.trans h2
    split
    · exact .bind' fun _ _ => .pure h3
    · exact .pure h3

theorem parseSpan_quiet (p : Parser) (i : Inline) : Ok (p.parseSpan i) (Quiet p) := by
  unfold Parser.parseSpan
  split
  · refine .ite (fun _ => .bind' fun _ _ => .pure ⟨rfl, rfl, rfl⟩) (fun _ => ?_)
    split
    · split
      · exact .bind' fun _ _ => .pure ⟨rfl, rfl, rfl⟩
      · exact .pure ⟨rfl, rfl, rfl⟩
    · exact openSpan_quiet p i
  · exact openSpan_quiet p i

theorem Inv.parseBlockImage {p : Parser} (h : Inv fl p) (t : Token) (w : World) : Ok (p.parseBlockImage w t) (Inv fl) := by
  unfold Parser.parseBlockImage
  refine .bind' fun tm _ => ?_
  obtain ⟨target, m⟩ := tm
  dsimp only
  refine .bind' fun _ _ => ?_
  exact Inv.addToStackOrGraph (p := { p with data := none, title := none }) (h.of rfl rfl rfl) (.empty rfl) (.free trivial)

theorem parseInlineImage_quiet (p : Parser) (t : Token) : Ok (p.parseInlineImage t) (Quiet p) := by
  unfold Parser.parseInlineImage
  exact .bind' fun _ _ => .pure ⟨rfl, rfl, rfl⟩

theorem parseFootnote_quiet (p : Parser) (t : Token) : Ok (p.parseFootnote t) (Quiet p) := by
  unfold Parser.parseFootnote
  exact .bind' fun _ _ => .pure ⟨rfl, rfl, rfl⟩

theorem parseMacroClose_quiet (p : Parser) (t : Token) : Ok (p.parseMacroClose t) (Quiet p) := by
  unfold Parser.parseMacroClose
  refine .ite (fun _ => .pure ⟨rfl, rfl, rfl⟩) (fun _ => ?_)
  split
  · exact .bind' fun _ _ => .bind' fun _ _ => .pure ⟨rfl, rfl, rfl⟩
  · exact addText_quiet p t _

theorem parseText_quiet (p : Parser) (t : Token) (pass : Bool) : Ok (p.parseText t pass) (Quiet p) := by
  unfold Parser.parseText
  split
  · refine .ite (fun _ => .pure ⟨rfl, rfl, rfl⟩) (fun _ => ?_)
    exact .bind (addText_quiet p _ _) fun q hq => (addText_quiet _ _ _).mono fun _ hr => hq.trans hr
  · exact addText_quiet p t _

theorem parseAttrRef_quiet (p : Parser) (t : Token) : Ok (p.parseAttrRef t) (Quiet p) := by
  unfold Parser.parseAttrRef
  refine .bind' fun _ _ => ?_
  split
  · exact .ite (fun _ => .error) (fun _ => parseText_quiet p _ _)
  · exact parseText_quiet p _ _

theorem parseXref_quiet (p : Parser) (t : Token) : Ok (p.parseXref t) (Quiet p) := by
  unfold Parser.parseXref
  exact .bind' fun _ _ => .pure ⟨rfl, rfl, rfl⟩

theorem parseCallout_quiet (p : Parser) (t : Token) : Ok (p.parseCallout t) (Quiet p) := by
  unfold Parser.parseCallout
  exact .ite (fun _ => .error) (fun _ => .bind' fun _ _ => .pure ⟨rfl, rfl, rfl⟩)

theorem addCharref_quiet (p : Parser) (x : Inline) : Ok (p.addCharref x) (Quiet p) := by
  unfold Parser.addCharref
  split
  · exact .ite (fun _ => .pure ⟨rfl, rfl, rfl⟩) (fun _ => .pure ⟨rfl, rfl, rfl⟩)
  · exact .ite (fun _ => .pure ⟨rfl, rfl, rfl⟩) (fun _ => .pure ⟨rfl, rfl, rfl⟩)
  · exact .pure ⟨rfl, rfl, rfl⟩

theorem parseCharref_quiet (p : Parser) (t : Token) : Ok (p.parseCharref t) (Quiet p) := by
  unfold Parser.parseCharref
  dsimp only
  split
  · refine .ite (fun _ => .pure ⟨rfl, rfl, rfl⟩) (fun _ => ?_)
    exact .bind (addText_quiet p _ _) fun q hq => (addCharref_quiet _ _).mono fun _ hr => hq.trans hr
  · exact addCharref_quiet p _

theorem Inv.parseLeaf {p : Parser} (h : Inv fl p) (t : Token) : Ok (p.parseLeaf t) (Inv fl) := by
  unfold Parser.parseLeaf
  split
  · refine .bind h.addInlines fun p1 h1 => ?_
    split
    · exact .error
    · rename_i b rest heq
      obtain ⟨h0, hd, ho⟩ := h1.pop (q := { p1 with blocks := rest }) heq rfl rfl rfl
      refine .bind addLocations_same fun b' hb => ?_
      exact .bind (h0.pushToStack (hd.same hb) fun hfl c hc => (ho hfl c hc).left hb.1) fun q hq => .pure (hq.of rfl rfl rfl)
  · refine .bind (P := fun b => Deep fl b ∧ free b) (Ok.liftB fun b hb => ?_) fun b hb => ?_
    · unfold Block.leafFromToken at hb
      split at hb <;> cases hb
      exact ⟨.empty rfl, trivial⟩
    · exact .bind (Inv.pushToStack (p := { p with openText := some t.ty }) (h.of rfl rfl rfl) hb.1 (.free hb.2)) fun q hq => .pure (hq.of rfl rfl rfl)

/-- The blocks of the stack above a box go into it. -/
theorem pushBlocks_deep {n : ParentName} : ∀ {l : List Block} {P prev : Block}, Deep fl P → kind P = .box n → (∀ x ∈ l, Deep fl x) →
    (fl = true → Stands (l.reverse ++ [prev])) → (∀ b, (fl = true → Below b prev) → Fits fl P b) →
    Ok (pushBlocks P l) fun c => Deep fl c ∧ kind c = .box n
  | [], P, prev, hP, hk, _, _, _ => .pure ⟨hP, hk⟩
  | x :: xs, P, prev, hP, hk, hl, hs, hf => by
    unfold pushBlocks
    refine .bind' fun P' hP' => ?_
    have hb : fl = true → Below x prev := fun hfl => by
      have := hs hfl
      rw [List.reverse_cons, List.append_assoc] at this
      exact this.split.1 prev rfl
    have hx := hl x (by simp)
    obtain ⟨d, k⟩ := pushBlock_deep hx hP (hf x hb) (liftB_ok hP')
    refine pushBlocks_deep (prev := x) d (k.trans hk) (fun y hy => hl y (List.mem_cons_of_mem _ hy)) (fun hfl => ?_) fun b hbx => ?_
    · have := hs hfl
      rw [List.reverse_cons] at this
      exact this.init
    · intro hfl
      have hbx := hbx hfl
      rw [k, hk]
      show ∀ k, kind b = .item k → _
      intro k' hk' y hy v hv
      unfold Below at hbx
      rw [hk'] at hbx
      have hni : ∀ k, kind x ≠ .item k := by
        intro k e
        rw [e] at hbx
        simp at hbx
      rw [pushBlock_last hk hni (liftB_ok hP')] at hy
      simp only [List.getLast?_append, List.getLast?_singleton, Option.some_or, Option.some.injEq] at hy
      subst hy
      rw [hv] at hbx
      simp at hbx
      exact hbx

theorem Inv.closeParentBlock {p : Parser} (h : Inv fl p) {above below : List Block} {n : ParentName} {v : Option ParentVariant}
    {d : Str} {bs : List Block} {ti : List Inline} {m : Option Meta} {l : List Location} (loc : List Location)
    (heq : p.blocks = above ++ .parent n v d bs ti m l :: below) :
    Ok (p.closeParentBlock above below n v d bs ti m l loc) (Inv fl) := by
  have hd := h.w.deep
  rw [heq] at hd
  have hP : Deep fl (.parent n v d bs ti m l) := hd _ (by simp)
  unfold Parser.closeParentBlock
  have h0 : W fl { p with blocks := above ++ below } := by
    refine ⟨fun b hb => hd b ?_, h.w.cont, h.w.asg⟩
    have hb : b ∈ above ++ below := hb
    simp only [List.mem_append, List.mem_cons] at hb ⊢
    exact hb.imp_right .inr
  refine .bind h0.addInlines fun p1 h1 => ?_
  obtain ⟨h1, ht⟩ := h1
  have key : fl = true → Stands (p1.blocks.take (p1.blocks.length - below.length) ++ [.parent n v d bs ti m l])
      ∧ Stands (p1.blocks.drop (p1.blocks.length - below.length)) := by
    intro hfl
    have hs := h.stands hfl
    rw [heq] at hs
    have hsb : Stands below := hs.split.2
    have hsa : Stands (above ++ [.parent n v d bs ti m l]) := by
      have : above ++ .parent n v d bs ti m l :: below = (above ++ [.parent n v d bs ti m l]) ++ below := by simp
      rw [this] at hs
      exact hs.init
    have cut : ∀ a' b' : List Block, p1.blocks = a' ++ b' → b'.length = below.length → Stands (a' ++ [.parent n v d bs ti m l]) → Stands b' →
        Stands (p1.blocks.take (p1.blocks.length - below.length) ++ [.parent n v d bs ti m l])
          ∧ Stands (p1.blocks.drop (p1.blocks.length - below.length)) := by
      intro a' b' e hl h2 h3
      have : p1.blocks.length - below.length = a'.length := by rw [e, List.length_append, hl]; omega
      rw [this, e, List.take_left, List.drop_left]
      exact ⟨h2, h3⟩
    rcases ht hfl with e | ⟨x, hx, e⟩ | ⟨a, a', r, e1, e2, hk⟩
    · exact cut above below e rfl hsa hsb
    · exact cut (x :: above) below e rfl (hsa.free hx.free) hsb
    · cases above with
      | nil =>
        have e1 : below = a :: r := e1
        refine cut [] (a' :: r) e2 (by rw [e1]; rfl) hsa ?_
        rw [e1] at hsb
        exact hsb.swap hk.1
      | cons y above =>
        have e1 : y :: (above ++ below) = a :: r := e1
        obtain ⟨rfl, rfl⟩ := List.cons.inj e1
        exact cut (a' :: above) below e2 rfl (hsa.swap hk.1) hsb
  split
  · exact .error
  · rename_i x lines hlines
    refine .ite (fun _ => .error) (fun _ => ?_)
    have hP' : Deep fl (.parent n v d bs ti m (reconcile l loc)) := hP.same ⟨rfl, rfl⟩
    refine .bind (pushBlocks_deep (n := n) (prev := .parent n v d bs ti m l) hP' rfl ?_ ?_ ?_) fun b hb => ?_
    · intro x hx
      exact h1.deep x (List.mem_of_mem_take (List.mem_reverse.1 hx))
    · intro hfl
      rw [List.reverse_reverse]
      exact (key hfl).1
    · intro b hb hfl
      show ∀ k, kind b = .item k → _
      intro k hk y hy w hw
      have := hb hfl
      unfold Below at this
      rw [hk] at this
      simp only [kind, reduceCtorEq, false_and, exists_false, false_or] at this
      exact absurd hw (this.2 y hy w)
    · have hc : Ok (if b.isTable = true then b.tableInfo else .ok b) fun c => Same c b :=
        .ite (fun _ => tableInfo_same) (fun _ => .pure (.refl b))
      refine .bind hc fun c hc => ?_
      have h2 : Inv fl { p1 with openLines := lines, blocks := p1.blocks.drop (p1.blocks.length - below.length) } :=
        ⟨⟨fun x hx => h1.deep x (List.mem_of_mem_drop hx), h1.cont, h1.asg⟩, fun hfl => (key hfl).2⟩
      have hfree : free c := by unfold free; rw [hc.1, hb.2]; trivial
      refine .bind (h2.pushToStack (hb.1.same hc) (.free hfree)) fun q hq => .pure ⟨⟨hq.w.deep, fun _ => rfl, hq.w.asg⟩, hq.stands⟩

theorem Inv.parseParent {p : Parser} (h : Inv fl p) (t : Token) : Ok (p.parseParent t) (Inv fl) := by
  unfold Parser.parseParent
  split
  · exact .error
  · rename_i n v hk
    dsimp only
    have h0 : Inv fl { p with dangling := none, title := none } := h.of rfl rfl rfl
    have hopen : Ok (openParent { p with dangling := none, title := none } t.line (.parent n v t.text [] (p.title.getD []) none t.locations)) (Inv fl) := by
      unfold Parser.openParent
      exact Inv.pushToStack (p := { p with dangling := none, title := none, openLines := t.line :: p.openLines }) (h.of rfl rfl rfl) (.empty rfl) (.free trivial)
    split
    · rename_i heq
      exact .ite (fun _ => h0.closeParentBlock _ (splitFirst_eq heq)) (fun _ => hopen)
    · exact hopen

theorem Inv.parseCommentBlock {p : Parser} (h : Inv fl p) (t : Token) : Ok (p.parseCommentBlock t) (Inv fl) := by
  unfold Parser.parseCommentBlock
  split
  · exact .ite (fun _ => .pure ⟨⟨fun b hb => h.w.deep b (List.mem_of_mem_tail hb), h.w.cont, h.w.asg⟩, fun hfl => (h.stands hfl).tail⟩) (fun _ => .pure h)
  · exact h.parseLeaf t

theorem Inv.parseQuoteVerse {p : Parser} (h : Inv fl p) (t : Token) : Ok (p.parseQuoteVerse t) (Inv fl) := by
  unfold Parser.parseQuoteVerse
  split
  · exact .ite (fun _ => h.parseLeaf t) (fun _ => h.parseParent t)
  · split
    · exact h.parseLeaf t
    · exact h.parseParent t

/-- The recursive calls keep the invariant. -/
def CallOk (fl : Bool) (f : Token → Parser → M Parser) : Prop := ∀ t p, TK fl t → Inv fl p → Ok (f t p) (Inv fl)

theorem feed_ok {f : Token → Parser → M Parser} (hf : CallOk fl f) (b : Bool) {items : List Item} {p : Parser}
    (hi : ∀ t, .tok t ∈ items → TK fl t) (h : Inv fl p) : Ok (feed f b items p) (Inv fl) := by
  induction items generalizing p with
  | nil => exact .pure h
  | cons i items ih =>
    cases i with
    | tok t =>
      unfold feed
      refine .bind (hf t p (hi t (by simp)) h) fun q hq => ih (fun u hu => hi u (by simp [hu])) ?_
      cases b with
      | true => exact hq.of rfl rfl rfl
      | false => exact hq
    | _ => exact .error

theorem scan_ok {src : Str} {fs : List Str} (hs : fl = true → ¬ plusLine src) : ∀ t, .tok t ∈ (Scanner.newWithStack src fs).run → TK fl t := by
  intro t ht
  have := run_fact ht
  exact ⟨this.star, this.dot, this.callout, this.cell, fun hfl hc => hs hfl (this.cont hc)⟩

theorem offsetBy_ok {t : Token} (ht : TK fl t) (l c : Nat) : Ok (t.offsetBy l c) (TK fl) := by
  unfold Token.offsetBy
  exact .ite (fun _ => .error) (fun _ => .pure ⟨ht.star, ht.dot, ht.callout, ht.cell, ht.cont⟩)

theorem Inv.parseTableCell {f : Token → Parser → M Parser} (hf : CallOk fl f) {p : Parser} (h : Inv fl p) {t : Token} (ht : TK fl t)
    (hty : t.ty = .tableCell) : Ok (p.parseTableCell f t) (Inv fl) := by
  have hn : c!"\n" ∉ t.text := by
    obtain ⟨h1, h2⟩ := ht.cell hty
    unfold Token.text
    rw [h1, hty]
    exact h2
  unfold Parser.parseTableCell
  refine .bind' fun c hc => .bind (h.pushToStack (.empty rfl) (.free trivial)) fun p1 h1 => ?_
  have hs : CallOk fl (fun (u : Token) (p : Parser) => (do
      let u' ← u.offsetBy t.line t.startcol
      f u' p : M Parser)) := fun u p hu hp => .bind (offsetBy_ok hu _ _) fun v hv => hf _ _ hv hp
  have hp : ¬ plusLine c := by
    rintro ⟨a, b, e, -⟩
    refine hn (Origin.sliceM_sub hc ?_)
    rw [e]
    simp
  refine .bind (feed_ok hs false (p := { p1 with dangling := none }) (scan_ok (fs := []) fun _ => hp) (h1.of rfl rfl rfl)) fun p2 h2 => ?_
  exact Inv.addInlines (p := { p2 with inBlockLine := false, forceNew := false }) (h2.of rfl rfl rfl)

theorem selection_quiet (p : Parser) (m : Option Meta) : Ok (p.selection m) fun r => Quiet p r.1 := by
  unfold Parser.selection
  split
  · exact .pure ⟨rfl, rfl, rfl⟩
  · refine .bind (P := Quiet p) ?_ fun q hq => ?_
    · split
      · exact levelOffset_quiet p _
      · exact .pure ⟨rfl, rfl, rfl⟩
    · refine .bind' fun lt _ => ?_
      obtain ⟨lines, toEnd⟩ := lt
      exact .pure hq

theorem includeToken_ok {f : Token → Parser → M Parser} (hf : CallOk fl f) (a : Bool) {t : Token} {p : Parser} (ht : TK fl t) (h : Inv fl p) :
    Ok (includeToken f a t p) (Inv fl) := by
  unfold Parser.includeToken
  refine .ite (fun _ => ?_) (fun _ => ?_)
  · exact .bind (hf t p ht h) fun q hq => .pure (hq.of rfl rfl rfl)
  · exact Inv.keep (p := { p with lastTy := if t.ty = .eof then .eof else .text }) (h.of rfl rfl rfl) (parseText_quiet _ t false)

theorem includeLoop_ok {f : Token → Parser → M Parser} (hf : CallOk fl f) (a e : Bool) (tags : List Str)
    {items : List Item} (hi : ∀ t, .tok t ∈ items → TK fl t) (lines : List Int) (cur : Option Str) {p : Parser} (h : Inv fl p) :
    Ok (includeLoop f a e tags items lines cur p) (Inv fl) := by
  induction items generalizing lines cur p with
  | nil => exact .pure h
  | cons i items ih =>
    have hi' := fun u (hu : Item.tok u ∈ items) => hi u (by simp [hu])
    cases i with
    | tok t =>
      unfold includeLoop
      split
      · exact ih hi' _ _ h
      · refine .bind' fun ck _ => ?_
        obtain ⟨cur', keep⟩ := ck
        dsimp only
        refine .bind (P := Inv fl) ?_ fun q hq => ih hi' _ _ hq
        exact .ite (fun _ => includeToken_ok hf _ (hi t (by simp)) h) (fun _ => .pure h)
    | _ => exact .error

theorem Inv.parseInclude {f : Token → Parser → M Parser} (hf : CallOk fl f) {w : World}
    (hw : fl = true → ∀ path s, w.read path = some s → ¬ plusLine s) {p : Parser} (h : Inv fl p) (t : Token) : Ok (p.parseInclude w f t) (Inv fl) := by
  unfold Parser.parseInclude
  refine .bind' fun tm _ => ?_
  obtain ⟨target, m⟩ := tm
  dsimp only
  refine .bind (selection_quiet p m) fun ps hps => ?_
  obtain ⟨p1, sel⟩ := ps
  dsimp only at hps ⊢
  have h1 := h.quiet hps
  split
  · exact .error
  · split
    · exact .error
    · rename_i src hsrc
      refine .bind (includeLoop_ok hf _ _ _ (scan_ok fun hfl => hw hfl _ _ hsrc) _ _ (h1.of rfl rfl rfl)) fun p2 h2 => ?_
      exact .bind h2.addInlines fun p3 h3 => .bind (h3.drain _ _) fun p4 h4 => .pure (h4.of rfl rfl rfl)

theorem Inv.parseContinuation {p : Parser} (h : Inv fl p) {t : Token} (ht : TK fl t) (hty : t.ty = .blockContinuation) :
    Ok p.parseContinuation (Inv fl) := by
  unfold Parser.parseContinuation
  refine .bind h.addInlines fun q hq => .pure ⟨⟨hq.w.deep, fun hfl => absurd hty (ht.cont hfl), hq.w.asg⟩, hq.stands⟩

theorem Inv.dispatchToken {f : Token → Parser → M Parser} (hf : CallOk fl f) {w : World}
    (hw : fl = true → ∀ path s, w.read path = some s → ¬ plusLine s) {p : Parser} (h : Inv fl p) {t : Token} (ht : TK fl t) :
    Ok (p.dispatchToken w f t) (Inv fl) := by
  unfold Parser.dispatchToken
  have hspan : Ok (do
      let s ← Inline.spanFromToken t
      p.parseSpan s : M Parser) (Inv fl) := .bind' fun s _ => h.keep (parseSpan_quiet p s)
  have hmeta : Ok (p.parseBlockMeta t) (Inv fl) := by
    unfold Parser.parseBlockMeta
    exact .bind' fun _ _ => .pure (h.of rfl rfl rfl)
  have himeta : Ok (p.parseInlineMeta t) (Inv fl) := by
    unfold Parser.parseInlineMeta
    exact .bind' fun _ _ => .pure (h.of rfl rfl rfl)
  split
  all_goals rename_i hty
  all_goals first
    | exact .error
    | exact h.parseTitle t
    | exact h.parseSection t
    | exact h.keep (parseAttribute_quiet p t)
    | exact hmeta
    | exact himeta
    | exact h.parseNewLine t
    | exact h.keep (parseText_quiet p t false)
    | exact h.keep (parseCharref_quiet p t)
    | exact hspan
    | exact h.keep (parseAttrRef_quiet p t)
    | exact h.keep (parseXref_quiet p t)
    | exact h.parseInclude hf hw t
    | exact h.keep (parseFootnote_quiet p t)
    | exact h.keep (parseInlineImage_quiet p t)
    | exact h.keep (parseMacroClose_quiet p t)
    | exact h.addToStackOrGraph (.empty rfl) (.free trivial)
    | exact h.parseParent t
    | exact h.parseTableCell hf ht hty
    | exact h.parseQuoteVerse t
    | exact h.parseLeaf t
    | exact h.keep (parseCallout_quiet p t)
    | exact h.parseBlockImage t w
    | exact h.parseUnordered ht hty
    | exact h.parseOrdered ht (.inl hty)
    | exact h.parseOrdered ht (.inr hty)
    | exact h.parseDlistTerm t
    | exact h.parseAdmonition t
    | exact h.parseContinuation ht hty
    | exact h.parseCommentBlock t
    | exact .ite (fun _ => h.moveHeader) (fun _ => .pure h)
    | exact .pure (h.of rfl rfl rfl)

theorem Inv.step {f : Token → Parser → M Parser} (hf : CallOk fl f) {w : World}
    (hw : fl = true → ∀ path s, w.read path = some s → ¬ plusLine s) {p : Parser} (h : Inv fl p) {t : Token} (ht : TK fl t) :
    Ok (step w f t p) (Inv fl) := by
  unfold Parser.step
  refine .bind (P := Inv fl) (.ite (fun _ => h.moveHeader) (fun _ => .pure h)) fun q hq => ?_
  split
  · exact hq.keep (parseText_quiet q t _)
  · exact hq.dispatchToken hf hw ht

theorem tokenInto_ok {w : World} (hw : fl = true → ∀ path s, w.read path = some s → ¬ plusLine s) (fuel : Nat) : CallOk fl (tokenInto w fuel) := by
  induction fuel with
  | zero => exact fun _ _ _ _ => .error
  | succ n ih => exact fun t p ht hp => hp.step ih hw ht

theorem Inv.finish {p : Parser} (h : Inv fl p) : Ok p.finish (Inv fl) := by
  unfold Parser.finish
  exact .bind h.addInlines fun p1 h1 => .bind (h1.drain _ _) fun p2 h2 => .pure ⟨⟨h2.w.deep, h2.w.cont, graphConsolidate_deep h2.w.asg⟩, h2.stands⟩

/-- Everything in a graph is where it belongs. -/
theorem parse_deep {w : World} {fuel : Nat} {src : Str} (hs : fl = true → ¬ plusLine src)
    (hw : fl = true → ∀ path s, w.read path = some s → ¬ plusLine s)
    {p q : Parser} (hp : p = Parser.new ∨ p = Parser.newNoTargets) (h : Parser.parse w fuel (scan src) p = .ok q) : ∀ b ∈ q.asg.blocks, Deep fl b := by
  have h0 : Inv fl p := by
    rcases hp with rfl | rfl <;>
      exact ⟨⟨(fun b hb => by cases hb), fun _ => rfl, fun b hb => by cases hb⟩, fun _ => trivial⟩
  have : Ok (Parser.parse w fuel (scan src) p) (Inv fl) := by
    unfold Parser.parse
    exact .bind (feed_ok (tokenInto_ok hw fuel) true (scan_ok (fs := []) hs) h0) fun p1 h1 => h1.finish
  exact (this q h).w.asg

end
end Adoc.Kinds
