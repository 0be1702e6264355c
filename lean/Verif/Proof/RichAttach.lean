import Verif.Proof.ContFeed
/-!
# Feeding lists with attached blocks to the parser
-/
namespace Adoc.Rich
open Spec Block Parser Scanner Props

theorem Feeds.uncons {w : World} {k : Nat} {t : Token} {ts : List Token} {p q : Parser} (h : Feeds w k (t :: ts) p q) :
    ∃ r, tokenInto w (k + 1) t p = .ok r ∧ Feeds w k ts { r with lastTy := t.ty } q := by
  cases hx : tokenInto w (k + 1) t p with
  | error e =>
    unfold Feeds at h
    simp only [List.map_cons, feed, hx, bind, Except.bind] at h
    cases h
  | ok r =>
    refine ⟨r, rfl, ?_⟩
    have := feed_cons _ t (ts.map .tok) p r hx
    unfold Feeds at h ⊢
    rw [List.map_cons, this] at h
    exact h

theorem _root_.Adoc.Scanner.Matches.join {a b : List Sign} {us vs : List Token} (h : Matches a us) (h' : Matches b vs) :
    Matches (a ++ b) (us ++ vs) := by
  induction h with
  | nil => exact h'
  | text l ss ts us hl ht _ ih => rw [List.append_assoc]; exact .text l _ ts _ hl ht ih
  | mark ty l ss t us ht _ ih => exact .mark ty l _ t _ ht ih

/-- After the lines of the list item `x` so far, when `done` are the items before and `p0` is the parser before the list. -/
structure InPoints (p p0 : Parser) (v : ListVariant) (m : Option Meta) (done : List Point) (x : Point) : Prop extends Base p where
  asg : p.asg = p0.asg
  openLines : p.openLines = p0.openLines
  steady : (p.offset, p.attrs) = (p0.offset, p0.attrs)
  line : p.inBlockLine = false
  span : p.inSpan = false
  last : After p.lastTy
  ref : p.closeParent = (p0.closeParent || (done ++ [x]).any Point.refers)
  force : done ≠ [] → p.inlines = [] ∨ p.forceNew = false
  kept : p.preserveNl = p0.preserveNl
  body : ∃ items is bs l1 l2, p.blocks = .listItem (bullet v) is bs none l1 :: .list v items m l2 :: p0.blocks
    ∧ bareBs items = done.map (Point.block [] v) ∧ bareL (is ++ p.inlines.reverse) = shownL [] x.text
    ∧ bareBs bs = x.boxes.map (Annex.block [])

/-- The text of an item goes into the item. -/
theorem addInlines_item (p : Parser) (hh : p.header = none) (hsp : p.inSpan = false) (hl : p.inBlockLine = false)
    (hf : p.inlines = [] ∨ p.forceNew = false) (s : Str) (is : List Inline) (bs : List Block) (l1 : List Location) (rest : List Block)
    (hbl : p.blocks = .listItem s is bs none l1 :: rest) :
    p.addInlines = .ok { p with inlines := [], blocks := .listItem s (is ++ p.inlines.reverse) bs none l1 :: rest } := by
  by_cases hi : p.inlines = []
  · rw [addInlines_nil _ hi, hi, List.reverse_nil, List.append_nil, ← hbl, ← hi]
  · rcases hf with hf | hf
    · exact absurd hf hi
    · exact addInlines_take p hh hsp hi _ _ _ hbl rfl hl hf (pushInlines_item ..)

/-- The list with one more item. -/
def moreP (v : ListVariant) (m : Option Meta) (items : List Block) (l2 : List Location) (is : List Inline) (bs : List Block) (l1 : List Location) :
    Block := Block.consolidate (.list v (items ++ [.listItem (bullet v) is bs none l1]) m l2)

theorem moreP_bare (v : ListVariant) (m : Option Meta) (items : List Block) (l2 l1 : List Location) (is : List Inline) (bs : List Block)
    (done : List Point) (x : Point) (h1 : bareBs items = done.map (Point.block [] v)) (h2 : bareL is = shownL [] x.text)
    (h3 : bareBs bs = x.boxes.map (Annex.block [])) :
    bareB (moreP v m items l2 is bs l1) = .list v ((done ++ [x]).map (Point.block [] v)) (m.map bareM) [] := by
  rw [moreP, bareB_consolidate]
  simp only [bareB, bareBs_append, bareBs, h1, h2, h3, List.map_append, List.map_cons, List.map_nil, Point.block, Option.map_none]

theorem moreP_list (v : ListVariant) (m : Option Meta) (items : List Block) (l2 l1 : List Location) (is : List Inline) (bs : List Block)
    (done : List Point) (x : Point) (h1 : bareBs items = done.map (Point.block [] v)) (h2 : bareL is = shownL [] x.text)
    (h3 : bareBs bs = x.boxes.map (Annex.block [])) :
    ∃ items' l', moreP v m items l2 is bs l1 = .list v items' m l' ∧ bareBs items' = (done ++ [x]).map (Point.block [] v) := by
  have h := moreP_bare v m items l2 l1 is bs done x h1 h2 h3
  refine ⟨_, _, rfl, ?_⟩
  rw [moreP, Block.consolidate] at h
  simp only [bareB, Block.list.injEq] at h
  exact h.2.1

theorem addLastItem_moreP (p : Parser) (hh : p.header = none) (hsp : p.inSpan = false) (hl : p.inBlockLine = false) (v : ListVariant)
    (m : Option Meta) (items : List Block) (is : List Inline) (bs : List Block) (l1 l2 : List Location) (rest : List Block)
    (hbl : p.blocks = .listItem (bullet v) is bs none l1 :: .list v items m l2 :: rest) :
    p.addLastItem = .ok { p with
      inlines := [], forceNew := false, blocks := moreP v m items l2 (is ++ p.inlines.reverse) bs l1 :: rest } := by
  unfold addLastItem
  rw [addInlines_item { p with forceNew := false } hh hsp hl (.inr rfl) _ _ _ _ _ hbl]
  simp only [bind, Except.bind, Block.isAnyItem, if_true, Block.pushBlock, liftB, pure, Except.pure, moreP]

/-- The marker of another item. -/
theorem marker_point (w : World) (k : Nat) (v : ListVariant) (p : Parser) (hb : Base p) (hsp : p.inSpan = false)
    (m : Option Meta) (items : List Block) (is : List Inline) (bs : List Block) (l1 l2 : List Location) (rest : List Block)
    (hbl : p.blocks = .listItem (bullet v) is bs none l1 :: .list v items m l2 :: rest) (hl : p.inBlockLine = false)
    (t : Token) (ht : IsMark (itemType v) (bullet v ++ b!" ") t) :
    tokenInto w (k + 1) t p = .ok { p with
      dangling := none, inlines := [], forceNew := false
      blocks := .listItem (bullet v) [] [] none t.locations :: moreP v m items l2 (is ++ p.inlines.reverse) bs l1 :: rest } := by
  have hnew : newListItem t = .listItem (bullet v) [] [] none t.locations := by
    have := (bulOf_marks v []).trim
    simp only [bulOf] at this
    rw [newListItem, ht.lexeme, this]
  have hty := ht.ty
  rw [tokenInto_plain w k _ p hb.header hb.openText, ← hnew]
  have h := addLastItem_moreP { p with dangling := none } hb.header hsp hl v m items is bs l1 l2 rest hbl
  cases v with
  | unordered =>
    simp only [dispatchToken, hty, itemType, parseUnordered, hbl, Block.isUnorderedItem, bind, Except.bind]
    rw [if_pos (by decide)]
    simp only [hbl] at h
    rw [h]
    simp [pushToStack, hb.inCont, hb.data]
  | ordered =>
    simp only [dispatchToken, hty, itemType, parseOrdered, hbl, Block.isOrderedItem, bind, Except.bind]
    rw [if_pos (by decide)]
    simp only [hbl] at h
    rw [h]
    simp [pushToStack, hb.inCont, hb.data]

/-- The first item. -/
theorem feed_point_first (w : World) (k : Nat) (p : Parser) (m : Option Meta) (h : Still p m) (v : ListVariant) (es : List Elem)
    (ho : ProseOk es) (hk : p.preserveNl = true → OneLine es) (ts : List Token) (hm : Matches (itemSigns v es) ts) :
    ∃ q, Feeds w k ts p q ∧ InPoints q p v (metaOf m) [] ⟨es, []⟩ := by
  obtain ⟨q, h1, h2⟩ := feed_first w k p m h v (bulOf v es) (bulOf_marks v es) (by cases v <;> exact nofun) ho hk ts hm
  rw [firstMeta_bul, Option.or_none] at h2
  obtain ⟨items, l1, l2, b1, b2⟩ := h2.body
  refine ⟨q, h1, ⟨h2.toBase, h2.asg, h2.openLines, h2.steady, h2.line, h2.span, h2.last, ?_, by simp, h2.kept, items, [], [], l1, l2, b1, b2,
    h2.text, rfl⟩⟩
  rw [h2.ref]
  simp [Point.refers, bulOf]

/-- Another item. -/
theorem feed_point_next (w : World) (k : Nat) (p p0 : Parser) (v : ListVariant) (m : Option Meta) (done : List Point) (y : Point)
    (h : InPoints p p0 v m done y) (es : List Elem) (ho : ProseOk es) (hk : p0.preserveNl = true → OneLine es) (n : Token) (hn : IsNewline n)
    (ts : List Token) (hm : Matches (itemSigns v es) ts) :
    ∃ q, Feeds w k (n :: ts) p q ∧ InPoints q p0 v m (done ++ [y]) ⟨es, []⟩ := by
  simp only [itemSigns] at hm
  cases hm with
  | mark _ _ _ t us ht hu =>
  obtain ⟨items, is, bs, l1, l2, h1, h3, h4, h5⟩ := h.body
  obtain ⟨d, hd⟩ := one_newline w k p (base_data h.toBase) h.last n hn
  obtain ⟨items', l', g1, g2⟩ := moreP_list v m items l2 l1 (is ++ p.inlines.reverse) bs done y h3 h4 h5
  have hstep := marker_point w k v { p with inBlockLine := false, dangling := d, lastTy := .newLineChar } (base_same h.toBase rfl)
    h.span m items is bs l1 l2 p0.blocks h1 rfl t ht
  replace hstep := hstep.trans (by rw [g1])
  obtain ⟨q, hq, hp⟩ := feed_prose w k { p with
      inBlockLine := false, dangling := none, inlines := [], forceNew := false
      blocks := .listItem (bullet v) [] [] none t.locations :: .list v items' m l' :: p0.blocks
      lastTy := t.ty } (base_same h.toBase rfl) rfl rfl h.span es ho (fun x => hk (h.kept.symm.trans x)) us hu
  obtain ⟨e1, e2, e3, e4, e5, e6⟩ := hp.fields
  refine ⟨q, hd.append (Feeds.cons hstep hq), ⟨by rw [hp.eq]; exact base_same h.toBase rfl, e2.trans h.asg,
    by rw [hp.eq]; exact h.openLines, by rw [hp.eq]; exact h.steady, ?_, e3.trans h.span, hp.last, ?_, fun _ => .inr e5,
    by rw [hp.eq]; exact h.kept, items', [], [], _, _, e1, g2, hp.text, rfl⟩⟩
  · cases hl : q.inBlockLine with
    | false => rfl
    | true => exact absurd (hp.line hl) (by simp)
  · rw [e4, h.ref]; simp [Point.refers, Bool.or_assoc]

/-! ## An attached block -/

/-- The first delimiter of a box, wherever it stands. -/
theorem delim_step (w : World) (k : Nat) (p : Parser) (hh : p.header = none) (ho : p.openText = none) (hd : p.data = none)
    (hti : p.title = none) (hol : p.openLines = []) (hbl : ∀ b ∈ p.blocks, b.isParent = false) (n : Box) (d : Str) (t : Token)
    (ht : IsMark n.type d t) :
    tokenInto w (k + 1) t p = .ok { p with
      dangling := none, openLines := [t.line], blocks := .parent n.name none d [] [] none t.locations :: p.blocks } := by
  rw [box_step w k p n t ht.ty hh ho (by rw [hd]; simp)]
  unfold parseParent
  rw [ht.ty, box_kind]
  have htx : t.text = d := by rw [ht.text]; cases n <;> rfl
  simp only [splitFirst_none hbl, openParent, pushToStack, hol, hd, hti, htx, List.isEmpty_cons, Bool.and_false, Bool.false_eq_true,
    if_false, Option.getD_none]

/-- The last delimiter of an attached box. -/
theorem close_annex (w : World) (k : Nat) (p : Parser) (c : Ctx) (done : List Block) (r : Bool) (h : Closable p c done r)
    (hl : c.loc ≠ []) (s : Str) (is : List Inline) (bs : List Block) (l : List Location) (rest : List Block)
    (hb : c.below = .listItem s is bs none l :: rest) (t : Token) (ht : t.ty = c.box.type) :
    ∃ st l' l'', Feeds w k [t] (ic p) { p with
        dangling := none, inlines := [], openLines := [], lastTy := c.box.type
        blocks := .listItem s is (bs ++ [.parent c.box.name none c.delim st c.title c.data l']) none l'' :: rest } ∧ bareBs st = done := by
  obtain ⟨ab, st, h1, h2, h3, h4, h5⟩ := h.body
  have hti := h.title
  have hdt := h.data
  have hic := h.inCont
  have hh : p.header = none := h.header
  obtain ⟨l', hp⟩ := pushBlocks_box c.box c.delim c.title c.data st.reverse (fun b hb => h4 b (by simpa using hb)) []
    (reconcile c.loc t.locations)
  refine ⟨st.reverse, l', recBlocks l (bs ++ [.parent c.box.name none c.delim st.reverse c.title c.data l']), ?_, h5⟩
  have hstep : tokenInto w (k + 1) t (ic p) = .ok { p with
      dangling := none, inlines := [], openLines := []
      blocks := .listItem s is (bs ++ [.parent c.box.name none c.delim st.reverse c.title c.data l']) none
        (recBlocks l (bs ++ [.parent c.box.name none c.delim st.reverse c.title c.data l'])) :: rest } := by
    rw [box_step w k (ic p) c.box t ht hh h.openText (by show c.box = .quote → ∀ m, p.data = some m → _; rw [hdt]; simp)]
    unfold parseParent
    rw [ht, box_kind]
    have hsp : splitFirst Block.isParent p.blocks = some (ab, c.top, c.below) := by rw [h1]; exact splitFirst_at h2 rfl _
    have ha := (ic_addInlines { p with dangling := none, blocks := ab ++ c.below } ⟨⟨c.line, [], h.openLines⟩, hh, hic⟩).1
    rw [h3] at ha
    have e : ({ ic p with dangling := none, title := none, blocks := ab ++ c.below } : Parser)
        = ic { p with dangling := none, blocks := ab ++ c.below } := by
      simp only [ic, hti]
    simp only [ic] at e ha
    simp only [ic, hsp, Ctx.top, parentEq, decide_true, if_true, closeParentBlock]
    rw [e, ha]
    have hle : c.loc.isEmpty = false := by cases hc : c.loc with
      | nil => exact absurd hc hl
      | cons => rfl
    simp only [Except.map, ic, bind, Except.bind, h.openLines, hle, Bool.false_eq_true, if_false, List.length_append, Nat.add_sub_cancel,
      List.take_left', List.drop_left']
    rw [hp]
    have hn : c.box.name ≠ .table := by cases c.box <;> simp [Box.name]
    simp only [Block.isTable, hn, decide_false, Bool.false_eq_true, if_false, pushToStack, Bool.true_and, List.isEmpty_nil, if_true, hb,
      Block.pushBlock, liftB, pure, Except.pure, List.nil_append, bind, Except.bind, Block.consolidate, hic]
    rw [if_neg (by simp)]
  have := Feeds.one hstep
  rw [ht] at this
  exact this

theorem annex_spot (a : Annex) (ho : a.Ok) : ∃ s, (Spot.mk a.box.type none false).after
    ((List.replicate a.lead Spec.newline ++ a.held.flatMap Held.signs).map signType) = some s := by
  obtain ⟨n, hn⟩ : ∃ n, a.lead = n + 1 := ⟨a.lead - 1, by have := ho.lead; omega⟩
  rw [hn, List.replicate_succ, List.cons_append, List.map_cons, List.map_append]
  have e1 : (Spot.mk a.box.type none false).next .newLineChar = some ⟨.newLineChar, none, false⟩ := by
    simp only [Spot.next, if_true, (box_mark a.box).2, Bool.or_true, Bool.not_true]
  obtain ⟨l1, p1, h1, _, h2⟩ := after_newlines n .newLineChar false
  obtain rfl := h2 rfl (.inr rfl)
  obtain ⟨l2, p2, h3⟩ := after_held a.held ho.held ho.gaps ho.lines l1
  exact ⟨_, Spot.after_trans (a := [.newLineChar]) (s' := ⟨.newLineChar, none, false⟩) (by simp only [Spot.after, e1, Option.bind_some])
    (Spot.after_trans h1 h3)⟩

/-- A block is attached to the last item. -/
theorem feed_annex (w : World) (k : Nat) (p p0 : Parser) (v : ListVariant) (m : Option Meta) (done : List Point) (es : List Elem)
    (bx : List Annex) (h : InPoints p p0 v m done ⟨es, bx⟩) (hd : done ≠ []) (hp0 : p0.openLines = []) (hst : Steady p0.offset p0.attrs p0.asg)
    (hbl0 : ∀ b ∈ p0.blocks, b.isParent = false) (a : Annex) (ho : a.Ok) (hso : ∀ s ∈ a.signs, SignOk s)
    (ts : List Token) (hm : Matches a.signs ts) :
    ∃ q, Feeds w k ts p q ∧ InPoints q p0 v m done ⟨es, bx ++ [a]⟩ := by
  simp only [Annex.signs] at hm hso
  cases hm with
  | mark _ _ _ n1 us hn1 hm =>
  cases hm with
  | mark _ _ _ c us hc hm =>
  cases hm with
  | mark _ _ _ n2 us hn2 hm =>
  cases hm with
  | mark _ _ _ t us ht hm =>
  obtain ⟨items, is, bs, l1, l2, b1, b2, b3, b4⟩ := h.body
  have hh : p.header = none := h.header
  have hot : p.openText = none := h.openText
  have hti : p.title = none := h.title
  have hic : p.inCont = false := h.inCont
  have hda : p.data = none := h.data
  have hol : p.openLines = [] := h.openLines.trans hp0
  -- the line with the plus sign
  obtain ⟨d, f1⟩ := one_newline w k p (base_data h.toBase) h.last n1 hn1
  have f2 : tokenInto w (k + 1) c { p with inBlockLine := false, dangling := d, lastTy := .newLineChar } = .ok { p with
      inBlockLine := false, dangling := d, lastTy := .newLineChar, inlines := [], inCont := true, forceNew := true
      blocks := .listItem (bullet v) (is ++ p.inlines.reverse) bs none l1 :: .list v items m l2 :: p0.blocks } := by
    rw [tokenInto_plain w k c _ (by exact hh) (by exact hot)]
    unfold dispatchToken
    rw [hc.ty]
    simp only [parseContinuation]
    rw [addInlines_item _ (by exact hh) (by exact h.span) rfl (by exact h.force hd) _ _ _ _ _ (by exact b1)]
    rfl
  have f3 : tokenInto w (k + 1) n2 { p with
      inBlockLine := false, dangling := d, lastTy := c.ty, inlines := [], inCont := true, forceNew := true
      blocks := .listItem (bullet v) (is ++ p.inlines.reverse) bs none l1 :: .list v items m l2 :: p0.blocks } = .ok { p with
      inBlockLine := false, dangling := none, lastTy := c.ty, inlines := [], inCont := true, forceNew := true
      blocks := .listItem (bullet v) (is ++ p.inlines.reverse) bs none l1 :: .list v items m l2 :: p0.blocks } := by
    rw [tokenInto_plain w k n2 _ (by exact hh) (by exact hot)]
    unfold dispatchToken
    rw [hn2.ty]
    simp [parseNewLine, hti, hc.ty]
  -- the same place without the flag
  have hpar : ∀ b ∈ Block.listItem (bullet v) (is ++ p.inlines.reverse) bs none l1 :: .list v items m l2 :: p0.blocks, b.isParent = false := by
    intro b hb
    simp only [List.mem_cons] at hb
    rcases hb with rfl | rfl | hb
    · rfl
    · rfl
    · exact hbl0 b hb
  obtain ⟨ns, us, rfl, m2, hm⟩ := hm.split
  obtain ⟨xs, us, rfl, m3, hm⟩ := hm.split
  obtain ⟨e, rfl, he⟩ := matches_one hm
  obtain ⟨k1, k2⟩ := matches_newlines m2
  obtain ⟨e1, ns, rfl⟩ : ∃ e1 es, ns = e1 :: es := by
    cases ns with
    | nil => have := ho.lead; simp only [List.length_nil] at k1; omega
    | cons a b => exact ⟨a, b, rfl⟩
  obtain ⟨q1, g1, g2, g3, g4⟩ := open_box w k { p with
      inBlockLine := false, dangling := none, lastTy := n2.ty, inlines := [], forceNew := true
      blocks := .listItem (bullet v) (is ++ p.inlines.reverse) bs none l1 :: .list v items m l2 :: p0.blocks }
    hh hot hic rfl h.span hol (hst.step h.steady h.asg) hpar (.inr rfl) a.box a.delim (by rw [hda]; simp) t e1 ht (k2 e1 (by simp))
  obtain ⟨q2, i1, i2, i3, i4⟩ := g4.newlines g2 g3 w k ns (fun x hx => k2 x (by simp [hx]))
  obtain ⟨q3, j1, j2⟩ := feed_held w k _ a.held q2 [] _ i4 i2 i3 ho.held ho.gaps (fun _ => ho.lines) (fun s hs => hso s (by simp [hs])) xs m3
  have hall : Feeds w k (t :: (e1 :: ns ++ xs)) _ q3 := g1.append (i1.append j1)
  obtain ⟨r, r1, r2⟩ := Feeds.uncons hall
  rw [delim_step w k { p with
      inBlockLine := false, dangling := none, lastTy := n2.ty, inlines := [], forceNew := true
      blocks := .listItem (bullet v) (is ++ p.inlines.reverse) bs none l1 :: .list v items m l2 :: p0.blocks } hh hot hda hti hol hpar
    a.box a.delim t ht] at r1
  cases r1
  dsimp only at r2
  -- with the flag
  obtain ⟨s', hs'⟩ := annex_spot a ho
  have r3 := feeds_at w k (e1 :: ns ++ xs) _ q3 ⟨a.box.type, none, false⟩ s'
    (by exact ⟨⟨⟨_, _, rfl⟩, hh, hic⟩, ht.ty, hot, nofun, fun _ => rfl⟩)
    (by exact after_matches (m2.join m3) _ _ nofun hs') r2
  obtain ⟨st, l', l'', c1, c2⟩ := close_annex w k q3 _ _ _ j2 (locations_ne t) _ _ _ _ _ rfl e he.ty
  have r4 := delim_step w k { p with
      inBlockLine := false, dangling := none, lastTy := n2.ty, inlines := [], inCont := true, forceNew := true
      blocks := .listItem (bullet v) (is ++ p.inlines.reverse) bs none l1 :: .list v items m l2 :: p0.blocks } hh hot hda hti hol hpar
    a.box a.delim t ht
  have hfin := r3.1.append c1
  have hb3 : q3.asg = p.asg := j2.asg
  have key := f1.append (Feeds.cons f2 (Feeds.cons f3 (Feeds.cons r4 hfin)))
  refine ⟨_, by simpa using key, ?_⟩
  refine ⟨base_same j2.toBase rfl, hb3.trans h.asg, hp0.symm, ?_, j2.line, j2.span, (box_mark a.box).1, ?_, fun _ => .inl rfl, ?_, 
    items, is ++ p.inlines.reverse, _, _, l2, rfl, b2, ?_, ?_⟩
  · show (q3.offset, q3.attrs) = _
    rw [j2.steady.1, j2.steady.2, hst.1, hst.2, hb3, h.asg]
  · show q3.closeParent = _
    rw [j2.ref]
    show (p.closeParent || _) = _
    rw [h.ref]
    simp [Point.refers, Bool.or_assoc]
  · exact j2.kept.trans h.kept
  · simpa using b3
  · rw [bareBs_append, b4]
    simp only [bareBs, bareB, c2, List.map_append, List.map_cons, List.map_nil, Annex.block, hti, hda]
    rfl

/-- Blocks are attached to the last item. -/
theorem feed_annexes (w : World) (k : Nat) (p p0 : Parser) (v : ListVariant) (m : Option Meta) (done : List Point) (es : List Elem)
    (bx : List Annex) (h : InPoints p p0 v m done ⟨es, bx⟩) (hd : done ≠ []) (hp0 : p0.openLines = []) (hst : Steady p0.offset p0.attrs p0.asg)
    (hbl0 : ∀ b ∈ p0.blocks, b.isParent = false) (as : List Annex) (ho : ∀ a ∈ as, a.Ok) (hso : ∀ s ∈ as.flatMap Annex.signs, SignOk s)
    (ts : List Token) (hm : Matches (as.flatMap Annex.signs) ts) :
    ∃ q, Feeds w k ts p q ∧ InPoints q p0 v m done ⟨es, bx ++ as⟩ := by
  induction as generalizing p bx ts with
  | nil => cases hm; exact ⟨p, Feeds.nil .., by simpa using h⟩
  | cons a as ih =>
    rw [List.flatMap_cons] at hm hso
    obtain ⟨us, vs, rfl, g1, g2⟩ := hm.split
    obtain ⟨q, h1, h2⟩ := feed_annex w k p p0 v m done es bx h hd hp0 hst hbl0 a (ho a (by simp)) (fun s hs => hso s (by simp [hs])) us g1
    obtain ⟨r, h3, h4⟩ := ih q _ h2 (fun x hx => ho x (by simp [hx])) (fun s hs => hso s (List.mem_append_right _ hs)) vs g2
    exact ⟨r, h1.append h3, by simpa using h4⟩

/-- An item with its attached blocks is well formed. -/
def PointOk (x : Point) : Prop := ProseOk x.text ∧ ∀ a ∈ x.boxes, a.Ok

theorem feed_points_next (w : World) (k : Nat) (p0 : Parser) (v : ListVariant) (m : Option Meta) (hp0 : p0.openLines = [])
    (hst : Steady p0.offset p0.attrs p0.asg) (hbl0 : ∀ b ∈ p0.blocks, b.isParent = false) (rest : List Point)
    (hr : ∀ x ∈ rest, PointOk x) (hk : p0.preserveNl = true → ∀ x ∈ rest, OneLine x.text)
    (hso : ∀ s ∈ pointsSigns v rest, SignOk s) (p : Parser) (done : List Point) (y : Point) (h : InPoints p p0 v m done y)
    (hne : rest ≠ []) (n : Token) (hn : IsNewline n) (ts : List Token) (hm : Matches (pointsSigns v rest) ts) :
    ∃ q init last, Feeds w k (n :: ts) p q ∧ InPoints q p0 v m init last ∧ init ≠ [] ∧ init ++ [last] = done ++ y :: rest := by
  induction rest generalizing p done y n ts with
  | nil => exact absurd rfl hne
  | cons x rest ih =>
    have one : ∀ us, Matches (x.signs v) us → (∀ s ∈ x.signs v, SignOk s) → ∃ q, Feeds w k (n :: us) p q ∧ InPoints q p0 v m (done ++ [y]) x := by
      intro us hu hs
      have hx := hr x (by simp)
      rw [Point.signs] at hu hs
      obtain ⟨us, vs, rfl, g1, g2⟩ := hu.split
      obtain ⟨q, h1, h2⟩ := feed_point_next w k p p0 v m done y h x.text hx.1 (fun e => hk e x (by simp)) n hn us g1
      obtain ⟨r, h3, h4⟩ := feed_annexes w k q p0 v m _ x.text [] h2 (by simp) hp0 hst hbl0 x.boxes hx.2
        (fun s hs' => hs s (List.mem_append_right _ hs')) vs g2
      exact ⟨r, Feeds.append (a := n :: us) h1 h3, h4⟩
    cases rest with
    | nil =>
      obtain ⟨q, h1, h2⟩ := one ts hm hso
      exact ⟨q, _, _, h1, h2, by simp, by simp⟩
    | cons z rest =>
      simp only [pointsSigns] at hm hso
      obtain ⟨us, vs, rfl, g1, g2⟩ := hm.split
      cases g2 with
      | mark _ _ _ nl ws gm g3 =>
      obtain ⟨q, h1, h2⟩ := one us g1 (fun s hs => hso s (by simp [hs]))
      obtain ⟨q', init, last, i1, i2, i3, i4⟩ := ih (fun y hy => hr y (by simp [hy])) (fun hp y hy => hk hp y (by simp [hy]))
        (fun s hs => hso s (List.mem_append_right _ (List.mem_cons_of_mem _ hs))) q (done ++ [y]) x h2 (by simp) nl gm ws g3
      exact ⟨q', init, last, h1.append i1, i2, i3, by simpa using i4⟩

/-- A blank line after a list. -/
theorem points_blank (q p : Parser) (v : ListVariant) (m : Option Meta) (init : List Point) (last : Point)
    (hi : InPoints q p v m init last) (its : List Block) (is : List Inline) (bs : List Block) (l1 l2 : List Location)
    (h1 : q.blocks = .listItem (bullet v) is bs none l1 :: .list v its m l2 :: p.blocks) (d : Option Token) :
    blankLine { q with inBlockLine := false, dangling := d, lastTy := .newLineChar } = settle { q with
      inBlockLine := false, dangling := none, lastTy := .newLineChar, inSpan := false, inlines := [], forceNew := false
      blocks := moreP v m its l2 (is ++ q.inlines.reverse) bs l1 :: p.blocks } := by
  unfold blankLine
  simp only [hi.header, bind, Except.bind, h1, Block.isAnyItem, if_true]
  rw [← hi.header]
  rw [addLastItem_moreP _ (by exact hi.header) (by exact hi.span) rfl v m its is bs l1 l2 p.blocks (by rfl)]
  dsimp only
  rw [addInlines_nil _ (by rfl)]
  rfl

/-- A list with attached blocks is fed to the parser. -/
theorem feed_attached (w : World) (k : Nat) (p : Parser) (m : Option Meta) (f : Front) (hs : List Title) (E : List (List Title × Block))
    (fl fl' : Flow) (h : Waits p m f hs E fl) (v : ListVariant) (points : List Point) (ho : (Blk.attached v points).Ok)
    (hso : ∀ s ∈ (Blk.attached v points).signs, SignOk s)
    (hn : fl.step (.attached v points) = some fl') (hk : fl.kept = true → ∀ x ∈ points, OneLine x.text) (ts : List Token)
    (hm : Matches (Blk.attached v points).signs ts) :
    ∃ q, Feeds w k ts p q ∧ Ready w k q f hs (E ++ [(parents hs 5, (Blk.attached v points).block [] ((metaOf m).map bareM))]) fl'
      (fl.stop (.attached v points)) (Blk.attached v points).ending := by
  obtain ⟨⟨es, rest, rfl⟩, hok⟩ := ho
  obtain ⟨pend, hp, -, h2⟩ := h.quiet.content
  replace hp : p.blocks = pend.toList := hp
  replace h2 : Content p.asg.blocks hs E fl pend := h2
  have hbl0 : ∀ b ∈ p.blocks, b.isParent = false := by
    rw [hp]
    intro b hb'
    cases h2 with
    | flat => cases hb'
    | under => simp only [Option.toList_some, List.mem_singleton] at hb'; rw [hb']; rfl
  simp only [Blk.signs] at hm hso
  have hkept : p.preserveNl = true → ∀ x ∈ (⟨es, []⟩ :: rest : List Point), OneLine x.text := fun e => hk (h.quiet.kept e)
  have hall : ∃ q init last, Feeds w k ts p q ∧ InPoints q p v (metaOf m) init last ∧ init ++ [last] = (⟨es, []⟩ :: rest : List Point) := by
    cases rest with
    | nil =>
      simp only [pointsSigns, Point.signs, List.flatMap_nil, List.append_nil] at hm
      obtain ⟨q, h1, h2⟩ := feed_point_first w k p m h.still v es (hok ⟨es, []⟩ (by simp)).1 (fun e => hkept e ⟨es, []⟩ (by simp)) ts hm
      exact ⟨q, _, _, h1, h2, rfl⟩
    | cons z rest =>
      simp only [pointsSigns, Point.signs, List.flatMap_nil, List.append_nil] at hm hso
      obtain ⟨us, vs, rfl, g1, g2⟩ := hm.split
      cases g2 with
      | mark _ _ _ nl ws gm g3 =>
      obtain ⟨q, h1, h2⟩ := feed_point_first w k p m h.still v es (hok ⟨es, []⟩ (by simp)).1 (fun e => hkept e ⟨es, []⟩ (by simp)) us g1
      obtain ⟨q', init, last, i1, i2, i3, i4⟩ := feed_points_next w k p v (metaOf m) h.quiet.openLines h.quiet.steady hbl0 (z :: rest)
        (fun x hx => hok x (List.mem_cons_of_mem _ hx)) (fun e x hx => hkept e x (List.mem_cons_of_mem _ hx))
        (fun s hs => hso s (List.mem_append_right _ (List.mem_cons_of_mem _ hs))) q [] _ h2 (by simp) nl gm ws g3
      exact ⟨q', init, last, h1.append i1, i2, by simpa using i4⟩
  obtain ⟨q, init, last, hq, hi, hlast⟩ := hall
  have hend : (Blk.attached v (⟨es, []⟩ :: rest)).ending ≤ 1 → init ≠ [] := by
    intro hle hnil
    subst hnil
    simp only [List.nil_append, List.cons.injEq] at hlast
    obtain ⟨_, rfl⟩ := hlast
    simp [Blk.ending] at hle
  generalize hen : (Blk.attached v (⟨es, []⟩ :: rest)).ending = en at *
  rw [← hlast] at hn ⊢
  clear hlast hok hkept hk hso hm
  generalize metaOf m = m0 at hi ⊢
  refine ⟨q, hq, ?_⟩
  obtain ⟨its, is, bs, l1, l2, h1, h3, h4, h5⟩ := hi.body
  rw [← hi.asg] at h2
  have h1' := h1
  rw [hp] at h1
  have hc : Calm q := ⟨hi.toBase, hi.openLines.trans h.quiet.openLines, h.quiet.steady.step hi.steady hi.asg⟩
  have hbu : Built q.asg := by rw [hi.asg]; exact h.quiet.built
  have hfr : q.asg.front = f := by rw [hi.asg]; exact h.quiet.front
  simp only [Flow.step, Blk.refers] at hn
  obtain ⟨hsh, hn⟩ := Flow.open hn
  have hfl := Flow.then hn
  have href : q.closeParent = (fl.ref || (init ++ [last]).any Point.refers) := by
    rw [hi.ref, ← h.quiet.ref]
  rw [← href] at hfl
  have hbare : bareB (moreP v m0 its l2 (is ++ q.inlines.reverse) bs l1) = (Blk.attached v (init ++ [last])).block [] (m0.map bareM) :=
    moreP_bare v m0 its l2 l1 (is ++ q.inlines.reverse) bs init last h3 h4 h5
  have hkq : q.preserveNl = true → fl.kept = true := by rw [hi.kept]; exact h.quiet.kept
  have hfin : init ≠ [] → ∀ d ty, Ended { q with inBlockLine := false, dangling := d, lastTy := ty } f hs
      (E ++ [(parents hs 5, (Blk.attached v (init ++ [last])).block [] (m0.map bareM))]) (fl.stop (.attached v (init ++ [last]))) := by
    intro hin d ty
    have ha := addInlines_item { q with inBlockLine := false, dangling := d, lastTy := ty } hi.header hi.span rfl (hi.force hin) _ _ _ _ _ h1
    have := finish_put _ _ hs E fl pend (moreP v m0 its l2 (is ++ q.inlines.reverse) bs l1) rfl hsh ha (by
      intro n hn
      simp only [List.length_cons]
      rw [drain]
      simp only [List.length_cons, show n < pend.toList.length + 1 + 1 by omega, if_true, addLastToGraph, hi.data, bind, Except.bind,
        Block.takesBlock, Block.isListItem, Block.pushBlock, liftB, pure, Except.pure]
      rfl) (hc.same rfl) h2 hbu rfl false (fun _ => rfl) hkq
    rw [hbare] at this
    rw [← hfr]
    have e : fl.stop (.attached v (init ++ [last])) = { fl with ref := q.closeParent, box := false } := by rw [href]; rfl
    rw [e]
    exact this
  refine ⟨hi.header, hi.openText, ?_, ?_, ?_⟩
  · intro t1 t2 ht1 ht2
    obtain ⟨r, hr, hr2⟩ := settle_block { q with
        inBlockLine := false, dangling := none, lastTy := .newLineChar, inSpan := false, inlines := [], forceNew := false
        blocks := moreP v m0 its l2 (is ++ q.inlines.reverse) bs l1 :: pend.toList }
      (hc.same rfl) f hs E fl pend (moreP v m0 its l2 (is ++ q.inlines.reverse) bs l1) rfl false (fun _ => rfl) rfl h2 hsh rfl rfl rfl rfl hfr hbu
      (by show q.preserveNl = true → _; rw [hi.kept]; exact h.quiet.kept)
    refine ⟨_, two_newlines w k q (base_data hi.toBase) hi.last t1 t2 ht1 ht2 r ?_, ?_⟩
    · intro d
      rw [points_blank q p v m0 init last hi its is bs l1 l2 h1' d, hp]
      exact hr
    · rw [hbare] at hr2
      rw [hfl]; exact hr2
  · intro he ty
    have := hfin (hend (by omega)) q.dangling ty
    have e : { q with lastTy := ty } = { q with inBlockLine := false, lastTy := ty } := by rw [← hi.line]
    rw [e]; exact this
  · intro he t ht'
    obtain ⟨d, hd⟩ := one_newline w k q (base_data hi.toBase) hi.last t ht'
    exact ⟨_, hd, hi.header, hi.openText, fun ty => hfin (hend he) d ty⟩

end Adoc.Rich
