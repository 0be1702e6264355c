import Verif.Proof.RichTable
import Verif.Proof.RichCode
import Verif.Proof.RichAttach
/-!
# Description lists and the parser

A term is only known to be one when its marker is read. By then it is at the end of the text of the description before it,
after a newline that is a text of its own.
-/
namespace Adoc.Rich
open Spec Block Parser Scanner Props

/-! ## Texts without newlines -/

theorem written_cat (a b : List Sign) : written (a ++ b) = written a ++ written b := by
  induction a with
  | nil => rfl
  | cons x xs ih => simp [written, ih]

theorem one_line {es : List Elem} (h : c!"\n" ∉ written (es.flatMap Elem.signs)) : OneLine es := by
  intro hn
  obtain ⟨a, b, e⟩ := List.append_of_mem hn
  apply h
  rw [e, written_cat]
  simp [written, Spec.newline, Sign.str]

theorem written_text (ls : List Str) : written (textSigns ls) = joinB 10 ls := by
  have hline : ∀ l, written (lineSigns l) = l := by
    intro l
    unfold lineSigns
    split
    · rename_i h; rw [h]; rfl
    · simp [written, Sign.str]
  induction ls with
  | nil => rfl
  | cons l ls ih =>
    cases ls with
    | nil => exact hline l
    | cons m ls =>
      rw [textSigns, written_cat, hline, written, ih]
      · simp [joinB, Sign.str]
      · simp

theorem symbol_newline (l : Str) (h : (symbols.lookup l).getD l = b!"\n") : l = b!"\n" := by
  cases hl : symbols.lookup l with
  | none => rw [hl] at h; exact h
  | some v =>
    rw [hl] at h
    simp only [Option.getD_some] at h
    subst h
    exfalso
    simp only [symbols, List.lookup] at hl
    repeat' split at hl
    all_goals first | cases hl | (simp at hl)

theorem inline_newline {es : List Elem} (h : c!"\n" ∉ written (es.flatMap Elem.signs)) (x : Elem) (hx : x ∈ es) :
    x.inline.isNewline = false := by
  have hw : c!"\n" ∉ written x.signs := by
    intro hn
    apply h
    obtain ⟨a, b, rfl⟩ := List.append_of_mem hx
    rw [List.flatMap_append, List.flatMap_cons, written_cat, written_cat]
    simp [hn]
  cases x with
  | text ls =>
    simp only [Elem.inline, literal, Inline.isNewline, decide_eq_false_iff_not]
    intro e
    apply hw
    rw [Elem.signs, written_text, e]
    simp
  | symbol l =>
    simp only [Elem.inline, Inline.isNewline, decide_eq_false_iff_not]
    intro e
    apply hw
    rw [Elem.signs, symbol_newline l e]
    simp [written, Sign.str]
  | _ => rfl

theorem bare_newline (x : Inline) : (bare x).isNewline = x.isNewline := by cases x <;> rfl

theorem not_newline {es : List Elem} (h : c!"\n" ∉ written (es.flatMap Elem.signs)) {is : List Inline}
    (hi : bareL is = shownL [] es) : ∀ x ∈ is, x.isNewline = false := by
  intro x hx
  rw [← bare_newline]
  have : bare x ∈ shownL [] es := by rw [← hi, bareL_map]; exact List.mem_map_of_mem hx
  rw [shownL_nil, List.mem_map] at this
  obtain ⟨e, he, e'⟩ := this
  rw [← e']
  exact inline_newline h e he

theorem bareL_split {is : List Inline} {A B : List Inline} (h : bareL is = A ++ B) :
    ∃ a b, is = a ++ b ∧ bareL a = A ∧ bareL b = B := by
  rw [bareL_map, List.map_eq_append_iff] at h
  obtain ⟨a, b, h1, h2, h3⟩ := h
  exact ⟨a, b, h1, by rw [bareL_map, h2], by rw [bareL_map, h3]⟩

/-! ## Entries -/

/-- An entry that should be in the graph. -/
def entryOf (e : Described) : Block := .dlistItem (shownL [] e.term) (shownL [] e.text) [] none []

/-- After the description of the entry `e`, when `done` are the entries before and `p0` is the parser before the list. -/
structure InEntries (p p0 : Parser) (m : Option Meta) (done : List Described) (e : Described) : Prop extends Base p where
  asg : p.asg = p0.asg
  openLines : p.openLines = p0.openLines
  steady : (p.offset, p.attrs) = (p0.offset, p0.attrs)
  line : p.inBlockLine = false
  span : p.inSpan = false
  dangling : p.dangling = none
  last : After p.lastTy
  clear : p.lastTy.clearsNewlineAfter = false
  ref : p.closeParent = (p0.closeParent || (done ++ [e]).any fun x => x.term.any Elem.refers || x.text.any Elem.refers)
  force : p.forceNew = false
  kept : p.preserveNl = true
  ne : p.inlines ≠ []
  text : bareL p.inlines.reverse = shownL [] e.text
  locs : ∀ i ∈ p.inlines, i.locations ≠ []
  body : ∃ items terms l1 l2, p.blocks = .dlistItem terms [] [] none l1 :: .dlist items m l2 :: p0.blocks
    ∧ bareBs items = done.map entryOf ∧ bareL terms = shownL [] e.term

/-- The list with one more entry. -/
def moreD (m : Option Meta) (items : List Block) (l2 : List Location) (ts is : List Inline) (l1 : List Location) : Block :=
  Block.consolidate (.dlist (items ++ [.dlistItem ts is [] none l1]) m l2)

theorem moreD_bare (m : Option Meta) (items : List Block) (l2 l1 : List Location) (ts is : List Inline) (done : List Described)
    (e : Described) (h1 : bareBs items = done.map entryOf) (h2 : bareL ts = shownL [] e.term) (h3 : bareL is = shownL [] e.text) :
    bareB (moreD m items l2 ts is l1) = .dlist ((done ++ [e]).map entryOf) (m.map bareM) [] := by
  rw [moreD, bareB_consolidate]
  simp only [bareB, bareBs_append, bareBs, h1, h2, h3, List.map_append, List.map_cons, List.map_nil, entryOf, Option.map_none]

theorem moreD_list (m : Option Meta) (items : List Block) (l2 l1 : List Location) (ts is : List Inline) (done : List Described)
    (e : Described) (h1 : bareBs items = done.map entryOf) (h2 : bareL ts = shownL [] e.term) (h3 : bareL is = shownL [] e.text) :
    ∃ items' l', moreD m items l2 ts is l1 = .dlist items' m l' ∧ bareBs items' = (done ++ [e]).map entryOf := by
  have h := moreD_bare m items l2 l1 ts is done e h1 h2 h3
  refine ⟨_, _, rfl, ?_⟩
  rw [moreD, Block.consolidate] at h
  simp only [bareB, Block.dlist.injEq] at h
  exact h.1

theorem pushInlines_entry (t is js : List Inline) (bs : List Block) (m : Option Meta) (l : List Location) :
    pushInlines (.dlistItem t is bs m l) js = .ok (.dlistItem t (is ++ js) bs m l) := by
  induction js generalizing is with
  | nil => simp [pushInlines]
  | cons j js ih =>
    simp only [pushInlines, Block.pushInline, liftB, bind, Except.bind]
    rw [ih]; simp

theorem addLastItem_moreD (p : Parser) (hh : p.header = none) (hsp : p.inSpan = false) (m : Option Meta)
    (items : List Block) (ts : List Inline) (l1 l2 : List Location) (rest : List Block)
    (hbl : p.blocks = .dlistItem ts [] [] none l1 :: .dlist items m l2 :: rest) (hl : p.inBlockLine = false) (hne : p.inlines ≠ []) :
    p.addLastItem = .ok { p with
      inlines := [], forceNew := false, blocks := moreD m items l2 ts p.inlines.reverse l1 :: rest } := by
  unfold addLastItem
  rw [addInlines_take { p with forceNew := false } hh hsp hne _ _ _ hbl rfl hl rfl (pushInlines_entry ..)]
  simp only [bind, Except.bind, Block.isAnyItem, if_true, Block.pushBlock, liftB, pure, Except.pure, moreD, List.nil_append]

theorem push_dlist (p : Parser) (hc : p.inCont = false) (bs : List Block) (l : List Location) :
    p.pushToStack (.dlist bs none l) = .ok { p with
      data := none, blocks := .dlist bs (metaOf p.data) l :: p.blocks } := by
  unfold pushToStack
  simp only [hc, Bool.false_and, Bool.false_eq_true, if_false]
  cases hd : p.data with
  | none => simp only [metaOf]
  | some m =>
    by_cases he : m.isEmpty = true <;> simp [Block.addMeta, metaOf, he, bind, Except.bind, pure, Except.pure]

theorem marker_step (w : World) (k : Nat) (p : Parser) (hh : p.header = none) (ho : p.openText = none) (t : Token)
    (ht : t.ty = .descriptionListMarker) : tokenInto w (k + 1) t p = p.parseDlistTerm t := by
  rw [tokenInto_plain w k t p hh ho]
  unfold dispatchToken
  rw [ht]

/-- The marker after the first term. -/
theorem term_first (w : World) (k : Nat) (p : Parser) (hh : p.header = none) (ho : p.openText = none) (hic : p.inCont = false)
    (htop : ∀ b, p.blocks.head? = some b → b.isAnyItem = false) (hnn : ∀ x ∈ p.inlines, x.isNewline = false) (t : Token)
    (ht : t.ty = .descriptionListMarker) :
    ∃ l, tokenInto w (k + 1) t p = .ok { p with
      forceNew := false, inlines := [], data := none, preserveNl := true
      blocks := .dlistItem p.inlines.reverse [] [] none l :: .dlist [] (metaOf p.data) l :: p.blocks } := by
  rw [marker_step w k p hh ho t ht]
  unfold parseDlistTerm
  have hs : splitFirst Inline.isNewline p.inlines.reverse = none := splitFirst_none (by
    intro x hx; exact hnn x (by simpa using hx))
  simp only [hs, bind, Except.bind]
  generalize (p.inlines.reverse.foldl (fun l i => reconcile l i.locations) t.locations) = l
  refine ⟨l, ?_⟩
  have hpush := push_dlist { p with forceNew := false, inlines := [] } hic [] l
  cases hbl : p.blocks with
  | nil =>
    simp only [hbl] at hpush
    dsimp only
    rw [hpush]
    simp only [pushToStack, hic, Bool.false_and, Bool.false_eq_true, if_false, pure, Except.pure]
  | cons b bs =>
    have hb := htop b (by rw [hbl]; rfl)
    have hd : b.isDlistItem = false := by cases b <;> first | rfl | cases hb
    simp only [hbl] at hpush
    simp only [hd, Bool.false_eq_true, if_false]
    rw [hpush]
    simp only [pushToStack, hic, Bool.false_and, Bool.false_eq_true, if_false, pure, Except.pure]

/-- The marker after another term. -/
theorem term_next (w : World) (k : Nat) (p : Parser) (hb : Base p) (hsp : p.inSpan = false) (hl : p.inBlockLine = false)
    (before after : List Inline) (nl : Inline) (hin : p.inlines.reverse = before ++ nl :: after) (hne : before ≠ [])
    (hnn : ∀ x ∈ before, x.isNewline = false) (hnl : nl.isNewline = true) (m : Option Meta) (items : List Block)
    (terms : List Inline) (l1 l2 : List Location) (rest : List Block)
    (hbl : p.blocks = .dlistItem terms [] [] none l1 :: .dlist items m l2 :: rest) (t : Token)
    (ht : t.ty = .descriptionListMarker) :
    ∃ l, tokenInto w (k + 1) t p = .ok { p with
      forceNew := false, inlines := [], preserveNl := true
      blocks := .dlistItem after [] [] none l :: moreD m items l2 terms before l1 :: rest } := by
  rw [marker_step w k p hb.header hb.openText t ht]
  unfold parseDlistTerm
  have hs : splitFirst Inline.isNewline p.inlines.reverse = some (before, nl, after) := by
    rw [hin]; exact splitFirst_at hnn hnl _
  have hic := hb.inCont
  have hd := hb.data
  have ha := addInlines_take { p with forceNew := false, inlines := before.reverse } hb.header hsp (by simpa using hne) _ _ _ hbl rfl hl rfl
    (pushInlines_entry ..)
  simp only [hs, bind, Except.bind, ha, List.append_nil, List.reverse_reverse, List.nil_append]
  generalize (after.foldl (fun l i => reconcile l i.locations) t.locations) = l
  refine ⟨l, ?_⟩
  simp only [Block.isDlistItem, if_true]
  unfold addLastItem
  rw [addInlines_nil _ (by rfl)]
  simp only [bind, Except.bind, Block.isAnyItem, if_true, Block.pushBlock, liftB, pure, Except.pure, pushToStack, hic, hd,
    Bool.false_and, Bool.false_eq_true, if_false]
  rfl

/-- The first entry. -/
theorem feed_entry (w : World) (k : Nat) (p : Parser) (m : Option Meta) (h : Still p m) (hdg : p.dangling = none) (e : Described)
    (ho : e.Ok) (hsp : m = none ∨ ∀ x ∈ e.term, x.hasSpan = false) (ts : List Token) (hm : Matches e.signs ts) :
    ∃ q, Feeds w k ts p q ∧ InEntries q p (metaOf m) [] e := by
  simp only [Described.signs] at hm
  obtain ⟨us, vs, rfl, m1, hm⟩ := hm.split
  cases hm with
  | mark _ _ _ t vs ht m2 =>
  have hb0 := h.base
  have hp : p = Parser.over none m none { p with data := none } := by
    have e1 := hb0.header
    have e2 := hb0.title
    have e3 := hb0.openText
    have e4 := h.data
    cases p
    simp only at *
    subst e1 e2 e3 e4
    rfl
  obtain ⟨q, hq, hpr⟩ := feed_prose_over w k { p with data := none } hb0 h.inlines hdg h.span e.term ho.term.1
    (fun _ => one_line ho.term.2) us m1 none m hsp (.inl rfl)
  rw [← hp] at hq
  have hqe := hpr.eq
  obtain ⟨l, hstep⟩ := term_first w k (Parser.over none m none q) rfl rfl (by show q.inCont = false; rw [hqe]; exact hb0.inCont)
    (by
      intro b hb
      refine h.top b ?_
      rw [← hb]; show _ = q.blocks.head?; rw [hqe])
    (by
      intro x hx
      exact not_newline ho.term.2 hpr.text x (List.mem_reverse.2 hx)) t ht.ty
  obtain ⟨r, hr, hpr2⟩ := feed_prose w k { Parser.over none m none q with
      forceNew := false, inlines := [], data := none, preserveNl := true
      blocks := .dlistItem q.inlines.reverse [] [] none l :: .dlist [] (metaOf m) l :: q.blocks
      lastTy := t.ty } ⟨rfl, rfl, rfl, by show q.inCont = false; rw [hqe]; exact hb0.inCont, rfl⟩ rfl
      (by show q.dangling = none; rw [hqe]; exact hdg) (by show q.inSpan = false; rw [hqe]; exact h.span) e.text ho.text.1
      (fun _ => one_line ho.text.2) vs m2
  have hre := hpr2.eq
  have hblk : q.blocks = p.blocks := by rw [hqe]
  refine ⟨r, hq.append (Feeds.cons hstep hr), ⟨?_, ?_, ?_, ?_, ?_, ?_, ?_, hpr2.last, hpr2.clear, ?_, ?_, ?_, hpr2.ne, hpr2.text, hpr2.locs, ?_⟩⟩
  · rw [hre]; exact ⟨rfl, rfl, rfl, by show q.inCont = false; rw [hqe]; exact hb0.inCont, rfl⟩
  · rw [hre]; show q.asg = _; rw [hqe]
  · rw [hre]; show q.openLines = _; rw [hqe]
  · rw [hre]; show (q.offset, q.attrs) = _; rw [hqe]
  · cases hl : r.inBlockLine with
    | false => rfl
    | true =>
      have h1 : q.inBlockLine = true := hpr2.line hl
      have h2 : p.inBlockLine = true := hpr.line h1
      rw [h.line] at h2; cases h2
  · rw [hre]; show q.inSpan = _; rw [hqe]; exact h.span
  · rw [hre]; show q.dangling = _; rw [hqe]; exact hdg
  · rw [hre]; show (q.closeParent || _) = _; rw [hqe]; simp [Bool.or_assoc]
  · rw [hre]
  · rw [hre]
  · refine ⟨[], q.inlines.reverse, l, l, ?_, rfl, hpr.text⟩
    rw [hre, ← hblk]

/-- The text before a term, the newline and the beginning of the term. -/
theorem term_begins (w : World) (k : Nat) (p p0 : Parser) (m : Option Meta) (done : List Described) (e : Described)
    (h : InEntries p p0 m done e) (n : Token) (hn : IsNewline n) (x : Elem) (es : List Elem) (hx : PlainStart (x :: es))
    (hw : c!"\n" ∉ written ((x :: es).flatMap Elem.signs)) (ho : ElemsOk none (x :: es)) (us : List Token) (hu : Matches x.signs us) :
    ∃ q, Feeds w k (n :: us) p q
      ∧ St p (((e.text ++ [Elem.text [[], []]]) ++ [x]).map Elem.inline).reverse false p.closeParent false true q
      ∧ ElemsOk (some x) es ∧ pending (some x) = false := by
  have hnl := newLine_first w k p n hn.ty h.header h.openText h.title h.last.1 h.last.2 h.inCont h.clear
  have hV : bareL p.inlines = (e.text.map Elem.inline).reverse := by
    have := h.text
    rw [shownL_nil, bareL_reverse] at this
    rw [← this, List.reverse_reverse]
  have hnt : n.text = b!"\n" := by rw [hn.text]; rfl
  have hone : Spec.newline ∉ x.signs := by
    intro hc
    exact one_line hw (by simp [hc])
  cases x with
  | text ls =>
    obtain ⟨h1, h2, h3, h4⟩ := ho
    match ls, h1, h2, h3, h4, hu, hone with
    | [], h1, _, _, _, _, _ => exact absurd rfl h1.1
    | l :: l' :: ls, _, _, _, _, _, hone =>
      exfalso
      apply hone
      simp [Elem.signs, textSigns, Spec.newline]
    | [l], h1, _, _, h4, hu, _ =>
      have hl : l ≠ [] := h1.1
      rw [Elem.signs, textSigns, lineSigns, if_neg hl] at hu
      cases hu with
      | text _ _ us vs _ hp hv =>
      cases hv
      rw [List.append_nil]
      cases hp with
      | nil => exact absurd rfl hl
      | cons y rest t ts hy ht hr =>
      have htx : t.text = y := ht.text
      have hstep : tokenInto w (k + 1) t { p with inBlockLine := false, dangling := some n, lastTy := n.ty } = .ok { p with
          inBlockLine := false, dangling := none, lastTy := n.ty
          inlines := Inline.textFromToken t :: Inline.textFromToken n :: p.inlines } := by
        rw [tokenInto_plain w k t { p with inBlockLine := false, dangling := some n, lastTy := n.ty } h.header h.openText]
        unfold dispatchToken
        rw [ht.ty]
        simp only [Parser.parseText, h.kept, if_true, Bool.false_eq_true, if_false]
      have hst : St p (literal y :: literal b!"\n" :: (e.text.map Elem.inline).reverse) false p.closeParent false true { p with
          inBlockLine := false, dangling := none, lastTy := t.ty
          inlines := Inline.textFromToken t :: Inline.textFromToken n :: p.inlines } := by
        refine ⟨by rw [← h.span], by simp, ?_, trivial, rfl, by simp, fun _ => quiet_of ht.ty (by decide), ?_, by simp⟩
        · simp [bareL, bare, Inline.textFromToken, htx, hnt, hV, literal]
        · intro i hi
          simp only [List.mem_cons] at hi
          rcases hi with rfl | rfl | hi
          · exact tokLoc_ne t
          · exact tokLoc_ne n
          · exact h.locs i hi
      have hpend : pending (some (Elem.text [y ++ rest])) = false := by simp [pending, endsLine, hy]
      by_cases hrest : rest = []
      · subst hrest
        have : ts = [] := by
          generalize hz : ([] : Str) = z at hr
          cases hr with
          | nil => rfl
          | cons y r _ _ hy => simp at hz; exact absurd hz.1 hy
        subst this
        refine ⟨_, Feeds.cons hnl (Feeds.one hstep), ?_, h4, hpend⟩
        simpa [Elem.inline, joinB, literal] using hst
      · obtain ⟨q, g1, g2⟩ := hst.pieces h.toBase w k rest hrest ts hr
        refine ⟨q, Feeds.cons hnl (Feeds.cons hstep g1), ?_, h4, hpend⟩
        simpa [Elem.inline, joinB, literal, putText, hrest, putTextTop] using g2
  | symbol l =>
    cases hu with
    | mark _ _ _ t us ht hu =>
    cases hu
    have htx : t.text = (symbols.lookup l).getD l := ht.text
    have hstep : tokenInto w (k + 1) t { p with inBlockLine := false, dangling := some n, lastTy := n.ty } = .ok { p with
        inBlockLine := false, dangling := none, lastTy := n.ty
        inlines := Inline.charrefFromToken t :: Inline.textFromToken n :: p.inlines } := by
      rw [tokenInto_plain w k t { p with inBlockLine := false, dangling := some n, lastTy := n.ty } h.header h.openText]
      unfold dispatchToken
      rw [ht.ty]
      simp only [parseCharref, h.kept, if_true]
    refine ⟨_, Feeds.cons hnl (Feeds.one hstep), ?_, ho, rfl⟩
    refine ⟨by rw [← h.span], by simp, ?_, trivial, rfl, by simp, fun _ => quiet_of ht.ty (by decide), ?_, by simp⟩
    · simp [bareL, bare, Inline.textFromToken, Inline.charrefFromToken, htx, hnt, hV, literal, Elem.inline, joinB]
    · intro i hi
      simp only [List.mem_cons] at hi
      rcases hi with rfl | rfl | hi
      · exact tokLoc_ne t
      · exact tokLoc_ne n
      · exact h.locs i hi
  | _ => exact absurd hx (by simp [PlainStart])

/-- Another entry. -/
theorem another_entry (w : World) (k : Nat) (p p0 : Parser) (m : Option Meta) (done : List Described) (e e' : Described)
    (h : InEntries p p0 m done e) (he : e.Ok) (ho : e'.Ok) (hst : PlainStart e'.term)
    (hno : e.text.any Elem.isNote = true → ∀ x ∈ e'.term, x.hasSpan = false) (n : Token) (hn : IsNewline n) (ts : List Token)
    (hm : Matches e'.signs ts) :
    ∃ q, Feeds w k (n :: ts) p q ∧ InEntries q p0 m (done ++ [e]) e' := by
  simp only [Described.signs] at hm
  obtain ⟨us, vs, rfl, m1, hm⟩ := hm.split
  cases hm with
  | mark _ _ _ t vs ht m2 =>
  obtain ⟨x, es, hxe⟩ : ∃ x es, e'.term = x :: es := by
    cases hc : e'.term with
    | nil => exact absurd hc ho.term.1.1
    | cons x es => exact ⟨x, es, rfl⟩
  rw [hxe, List.flatMap_cons] at m1
  obtain ⟨as, bs, rfl, ma, mb⟩ := m1.split
  have hol := one_line ho.term.2
  obtain ⟨q, f1, f2, f3, f4⟩ := term_begins w k p p0 m done e h n hn x es (by rw [← hxe]; exact hst) (by rw [← hxe]; exact ho.term.2)
    (by rw [← hxe]; exact ho.term.1.2) as ma
  obtain ⟨q1, mid, g1, g2, g3⟩ := St.elems es ((e.text ++ [Elem.text [[], []]]) ++ [x]) (by simpa [f4] using f2) h.toBase w k (by simp)
    (by
      intro hc
      have : x.refers = false := by
        rw [hxe] at hst
        cases x <;> first | rfl | exact absurd hst (by simp [PlainStart])
      rw [h.ref]
      simp only [List.any_append, List.any_cons, List.any_nil, this, Bool.or_false, Bool.or_eq_true] at hc
      rcases hc with hc | hc
      · simp [hc]
      · cases hc)
    (by
      intro hc y hy
      have : x.isNote = false := by
        rw [hxe] at hst
        cases x <;> first | rfl | exact absurd hst (by simp [PlainStart])
      simp only [List.any_append, List.any_cons, List.any_nil, this, Bool.or_false, Bool.or_eq_true] at hc
      rcases hc with hc | hc
      · exact hno hc y (by rw [hxe]; simp [hy])
      · cases hc) bs mb (by simpa using f3) (by
      intro _ hc
      apply hol
      rw [hxe]; simp [hc])
  have g3 := g3 (by simp)
  have hqe := g2.eq
  have hdq : q1.dangling = none := by
    have := g2.dang
    cases hq : q1.dangling with
    | none => rfl
    | some t => rw [hq] at this; cases this
  have hlq : q1.inBlockLine = false := by
    cases hl : q1.inBlockLine with
    | false => rfl
    | true => have := g2.line hl; rw [h.line] at this; cases this
  have htx : bareL q1.inlines.reverse = e.text.map Elem.inline ++ ([literal b!"\n"] ++ e'.term.map Elem.inline) := by
    have := g2.top
    simp only [Bool.false_eq_true, if_false] at this
    rw [bareL_reverse, ← this, List.reverse_reverse, hxe]
    simp [Elem.inline, joinB]
  obtain ⟨before, r1, e1, e2, e3⟩ := bareL_split htx
  obtain ⟨nls, after, rfl, e4, e5⟩ := bareL_split e3
  obtain ⟨nl, rfl, e6⟩ : ∃ nl, nls = [nl] ∧ bare nl = literal b!"\n" := by
    match nls, e4 with
    | [], e4 => cases e4
    | [nl], e4 => exact ⟨nl, rfl, by simpa [bareL] using e4⟩
    | _ :: _ :: _, e4 => simp [bareL] at e4
  obtain ⟨items, terms, l1, l2, b1, b2, b3⟩ := h.body
  rw [← shownL_nil] at e2 e5
  have hbef : before ≠ [] := by
    rintro rfl
    rw [shownL_nil] at e2
    exact he.text.1.1 (List.map_eq_nil_iff.1 e2.symm)
  have hbq : Base q1 := by rw [hqe]; exact base_same h.toBase rfl
  obtain ⟨l, hstep⟩ := term_next w k q1 hbq (by rw [hqe]) hlq before after nl (by rw [e1]; simp) hbef (not_newline he.text.2 e2)
    (by rw [← bare_newline, e6]; rfl) m items terms l1 l2 p0.blocks (by rw [hqe]; exact b1) t ht.ty
  obtain ⟨items', l', d1, d2⟩ := moreD_list m items l2 l1 terms before done e b2 b3 e2
  rw [d1] at hstep
  obtain ⟨r, hr, hpr⟩ := feed_prose w k { q1 with
      forceNew := false, inlines := [], preserveNl := true
      blocks := .dlistItem after [] [] none l :: .dlist items' m l' :: p0.blocks
      lastTy := t.ty } (base_same hbq rfl) rfl hdq (by show q1.inSpan = false; rw [hqe]) e'.text ho.text.1
      (fun _ => one_line ho.text.2) vs m2
  have hre := hpr.eq
  refine ⟨r, ?_, ⟨?_, ?_, ?_, ?_, ?_, ?_, ?_, hpr.last, hpr.clear, ?_, ?_, ?_, hpr.ne, hpr.text, hpr.locs, ?_⟩⟩
  · have := f1.append (g1.append (Feeds.cons hstep hr))
    simpa using this
  · rw [hre]; exact base_same hbq rfl
  · rw [hre]; show q1.asg = _; rw [hqe]; exact h.asg
  · rw [hre]; show q1.openLines = _; rw [hqe]; exact h.openLines
  · rw [hre]; show (q1.offset, q1.attrs) = _; rw [hqe]; exact h.steady
  · cases hl : r.inBlockLine with
    | false => rfl
    | true => exact (hlq.symm.trans (hpr.line hl)).symm
  · rw [hre]; show q1.inSpan = _; rw [hqe]
  · rw [hre]; exact hdq
  · have hx : x.refers = false := by
      rw [hxe] at hst
      cases x <;> first | rfl | exact absurd hst (by simp [PlainStart])
    rw [hre]; show (q1.closeParent || _) = _; rw [hqe]; show ((p.closeParent || _) || _) = _
    rw [h.ref]; simp [hxe, Bool.or_assoc, hx]
  · rw [hre]
  · rw [hre]
  · exact ⟨items', after, l, l', by rw [hre], d2, e5⟩

theorem other_entries (w : World) (k : Nat) (p0 : Parser) (m : Option Meta) (rest : List Described) (p : Parser) (done : List Described)
    (e e' : Described) (h : InEntries p p0 m done e) (ho : DlistOk (e :: e' :: rest)) (n : Token) (hn : IsNewline n)
    (ts : List Token) (hm : Matches (entriesSigns (e' :: rest)) ts) :
    ∃ q init last, Feeds w k (n :: ts) p q ∧ InEntries q p0 m init last ∧ init ++ [last] = done ++ e :: e' :: rest := by
  induction rest generalizing p done e e' n ts with
  | nil =>
    obtain ⟨o1, o2, o3, o4⟩ := ho
    obtain ⟨q, h1, h2⟩ := another_entry w k p p0 m done e e' h o1 o4 o2 o3 n hn ts hm
    exact ⟨q, _, _, h1, h2, by simp⟩
  | cons x rest ih =>
    obtain ⟨o1, o2, o3, o4⟩ := ho
    simp only [entriesSigns] at hm
    obtain ⟨us, vs, rfl, g1, g2⟩ := hm.split
    cases g2 with
    | mark _ _ _ nl ws gm g3 =>
    obtain ⟨q, h1, h2⟩ := another_entry w k p p0 m done e e' h o1 o4.1 o2 o3 n hn us g1
    obtain ⟨q', init, last, i1, i2, i3⟩ := ih q (done ++ [e]) e' x h2 o4 nl gm ws g3
    exact ⟨q', init, last, h1.append i1, i2, by simpa using i3⟩

/-- The entries of a description list are fed to the parser. -/
theorem feed_entries (w : World) (k : Nat) (p : Parser) (m : Option Meta) (h : Still p m) (hdg : p.dangling = none)
    (entries : List Described) (hne : entries ≠ []) (ho : DlistOk entries)
    (hsp : m = none ∨ ∀ e, entries.head? = some e → ∀ x ∈ e.term, x.hasSpan = false) (ts : List Token)
    (hm : Matches (entriesSigns entries) ts) :
    ∃ q init last, Feeds w k ts p q ∧ InEntries q p (metaOf m) init last ∧ init ++ [last] = entries := by
  match entries, hne with
  | [e], _ =>
    obtain ⟨q, h1, h2⟩ := feed_entry w k p m h hdg e ho (hsp.imp id fun x => x e rfl) ts hm
    exact ⟨q, _, _, h1, h2, rfl⟩
  | e :: e' :: rest, _ =>
    simp only [entriesSigns] at hm
    obtain ⟨us, vs, rfl, g1, g2⟩ := hm.split
    cases g2 with
    | mark _ _ _ nl ws gm g3 =>
    obtain ⟨q, h1, h2⟩ := feed_entry w k p m h hdg e ho.1 (hsp.imp id fun x => x e rfl) us g1
    obtain ⟨q', init, last, i1, i2, i3⟩ := other_entries w k p (metaOf m) rest q [] e e' h2 ho nl gm ws g3
    exact ⟨q', init, last, h1.append i1, i2, by simpa using i3⟩

/-- A blank line after a description list. -/
theorem entries_blank (q p : Parser) (m : Option Meta) (init : List Described) (last : Described)
    (hi : InEntries q p m init last) (its : List Block) (terms : List Inline) (l1 l2 : List Location)
    (h1 : q.blocks = .dlistItem terms [] [] none l1 :: .dlist its m l2 :: p.blocks) (d : Option Token) :
    blankLine { q with inBlockLine := false, dangling := d, lastTy := .newLineChar } = settle { q with
      inBlockLine := false, dangling := none, lastTy := .newLineChar, inSpan := false, inlines := [], forceNew := false
      blocks := moreD m its l2 terms q.inlines.reverse l1 :: p.blocks } := by
  unfold blankLine
  simp only [hi.header, bind, Except.bind, h1, Block.isAnyItem, if_true]
  rw [← hi.header]
  rw [addLastItem_moreD _ (by exact hi.header) (by exact hi.span) m its terms l1 l2 p.blocks (by rfl) rfl (by exact hi.ne)]
  dsimp only
  rw [addInlines_nil _ (by rfl)]
  rfl

theorem Content.keep {bs : List Block} {hs : List Title} {E : List (List Title × Block)} {fl : Flow} {pend : Option Block}
    (h : Content bs hs E fl pend) : Content bs hs E { fl with kept := true } pend := by
  cases h with
  | flat h1 h2 h3 h4 h5 h6 => exact .flat h1 h2 h3 h4 h5 h6
  | under ti m v cs l h1 h2 h3 h4 h5 h6 h7 h8 => exact .under ti m v cs l h1 h2 h3 h4 h5 h6 h7 h8

theorem feed_dlist (w : World) (k : Nat) (p : Parser) (m : Option Meta) (f : Front) (hs : List Title) (E : List (List Title × Block))
    (fl fl' : Flow) (h : Waits p m f hs E fl) (hdg : p.dangling = none) (entries : List Described) (ho : (Blk.dlist entries).Ok)
    (hsp : m = none ∨ ∀ e, entries.head? = some e → ∀ x ∈ e.term, x.hasSpan = false)
    (hn : fl.step (.dlist entries) = some fl') (ts : List Token) (hm : Matches (Blk.dlist entries).signs ts) :
    ∃ q, Feeds w k ts p q ∧ Ready w k q f hs (E ++ [(parents hs 5, (Blk.dlist entries).block [] ((metaOf m).map bareM))]) fl' (fl.stop (.dlist entries)) 0 := by
  obtain ⟨q, init, last, hq, hi, rfl⟩ := feed_entries w k p m h.still hdg entries ho.1 ho.2 hsp ts hm
  refine ⟨q, hq, ?_⟩
  obtain ⟨its, terms, l1, l2, h1, h3, h4⟩ := hi.body
  obtain ⟨pend, hp, -, h2⟩ := h.quiet.content
  replace hp : p.blocks = pend.toList := hp
  replace h2 : Content p.asg.blocks hs E fl pend := h2
  rw [← hi.asg] at h2
  have h1' := h1
  rw [hp] at h1
  have hc : Calm q := ⟨hi.toBase, hi.openLines.trans h.quiet.openLines, h.quiet.steady.step hi.steady hi.asg⟩
  have hbu : Built q.asg := by rw [hi.asg]; exact h.quiet.built
  have hfr : q.asg.front = f := by rw [hi.asg]; exact h.quiet.front
  simp only [Flow.step] at hn
  obtain ⟨hsh, hn⟩ := Flow.open hn
  have href : q.closeParent = (fl.ref || (Blk.dlist (init ++ [last])).refers) := by
    rw [hi.ref, ← h.quiet.ref]; rfl
  rw [← href] at hn
  have hfl : fl' = if (fl.sec && q.closeParent) = true then { fl with ref := false, shut := true, box := false, kept := true }
      else { fl with ref := q.closeParent, box := false, kept := true } := by
    split at hn <;> rename_i hx <;> simp only [Option.some.injEq] at hn <;> simp only [hx] <;> exact hn.symm
  have hbare : bareB (moreD (metaOf m) its l2 terms q.inlines.reverse l1)
      = (Blk.dlist (init ++ [last])).block [] ((metaOf m).map bareM) :=
    moreD_bare (metaOf m) its l2 l1 terms q.inlines.reverse init last h3 h4 hi.text
  have hfin : ∀ d ty, Ended { q with inBlockLine := false, dangling := d, lastTy := ty } f hs
      (E ++ [(parents hs 5, (Blk.dlist (init ++ [last])).block [] ((metaOf m).map bareM))]) (fl.stop (.dlist (init ++ [last]))) := by
    intro d ty
    have ha := addInlines_take { q with inBlockLine := false, dangling := d, lastTy := ty } hi.header hi.span hi.ne _ _ _ h1 rfl rfl
      hi.force (pushInlines_entry ..)
    have := finish_put _ _ hs E { fl with kept := true } pend (moreD (metaOf m) its l2 terms q.inlines.reverse l1) rfl hsh ha (by
      intro n hn
      simp only [List.length_cons]
      rw [drain]
      simp only [List.length_cons, show n < pend.toList.length + 1 + 1 by omega, if_true, addLastToGraph, hi.data, bind, Except.bind,
        Block.takesBlock, Block.isDlistItem, Block.pushBlock, liftB, pure, Except.pure, List.nil_append]
      rfl) (hc.same rfl) h2.keep hbu rfl false (fun _ => rfl) (fun _ => rfl)
    rw [hbare] at this
    rw [← hfr, show fl.stop (.dlist (init ++ [last])) = { fl with ref := q.closeParent, box := false, kept := true } by rw [href]; rfl]
    exact this
  refine ⟨hi.header, hi.openText, ?_, ?_, ?_⟩
  · intro t1 t2 ht1 ht2
    obtain ⟨r, hr, hr2⟩ := settle_block { q with
        inBlockLine := false, dangling := none, lastTy := .newLineChar, inSpan := false, inlines := [], forceNew := false
        blocks := moreD (metaOf m) its l2 terms q.inlines.reverse l1 :: pend.toList }
      (hc.same rfl) f hs E { fl with kept := true } pend (moreD (metaOf m) its l2 terms q.inlines.reverse l1) rfl false (fun _ => rfl) rfl
      h2.keep hsh rfl rfl rfl rfl hfr hbu (fun _ => rfl)
    refine ⟨_, two_newlines w k q (base_data hi.toBase) hi.last t1 t2 ht1 ht2 r ?_, ?_⟩
    · intro d
      rw [entries_blank q p (metaOf m) init last hi its terms l1 l2 h1' d, hp]
      exact hr
    · rw [hbare] at hr2
      rw [hfl]; exact hr2
  · intro _ ty
    have := hfin q.dangling ty
    have e : { q with lastTy := ty } = { q with inBlockLine := false, lastTy := ty } := by rw [← hi.line]
    rw [e]; exact this
  · intro _ t ht'
    obtain ⟨d, hd⟩ := one_newline w k q (base_data hi.toBase) hi.last t ht'
    exact ⟨_, hd, hi.header, hi.openText, fun ty => hfin d ty⟩

/-! ## Blocks -/

theorem Flow.next_step {f f' : Flow} {c : Blk} (h : f.next c = some f') : f.step c = some f' ∧ (f.kept = true → c.folded = false) := by
  unfold Flow.next at h
  split at h
  · cases h
  · rename_i hx
    exact ⟨h, fun hk => by simpa [hk] using hx⟩

theorem feed_blk (w : World) (k : Nat) (p : Parser) (tags : List Tag) (m : Option Meta) (f : Front) (hs : List Title)
    (E : List (List Title × Block)) (fl fl' : Flow) (h : Waits p m f hs E fl) (hm0 : tags = [] → m = none)
    (hm : (m.getD {}).declared = (tags.foldl Tag.apply {}).declared) (hmeta : (metaOf m).map bareM = tagsMeta tags)
    (hdg : (∀ id, tags.getLast? ≠ some (.anchor id)) → p.dangling = none)
    (c : Blk) (ho : c.Ok) (hpl : TagsFor tags c) (hso : ∀ s ∈ c.signs, SignOk s)
    (hw : ∀ x ∈ c.targets, There w p.files x) (hic : IconsFor f c) (hn : fl.step c = some fl')
    (hk : fl.kept = true → c.folded = false) (i : Nat) (hi : 1 ≤ i) (ts : List Token)
    (hma : Matches c.signs ts) {fs : List Str} (hli : Lined fs i ts) :
    ∃ q, Feeds w (k + 1) ts p q ∧ Ready w (k + 1) q f (c.after [] hs)
      (E ++ [(parents hs c.level, c.block [] ((metaOf m).map bareM))]) fl' (fl.stop c) c.ending := by
  match c, ho, hpl, hso, hw, hic, hn, hk, hma with
  | .para es, ho, hpl, _, _, _, hn, hk, hma =>
    have hk' : fl.kept = true → OneLine es := fun x => by simpa [Blk.folded, Piece.folded, OneLine] using hk x
    rcases hpl with rfl | ⟨h1, h2, h3⟩
    · obtain rfl := hm0 rfl
      exact feed_para w (k + 1) p none f hs E fl fl' h (hdg (by simp)) es ho (.inl rfl) (by simp) hn hk' ts hma
    · refine feed_para w (k + 1) p m f hs E fl fl' h (hdg h3) es ho (.inr h1) ?_ hn hk' ts hma
      rintro x rfl
      rw [← hm] at h2
      exact h2
  | .head n es, ho, _, _, _, _, hn, hk, hma => exact feed_head w (k + 1) p m f hs E fl fl' h n es ho hn ts hma
  | .list v items, ho, _, _, _, _, hn, hk, hma => exact feed_list w (k + 1) p m f hs E fl fl' h v items ho hn (fun x => by simpa [Blk.folded, Piece.folded, OneLine] using hk x) ts hma
  | .verb n d body, ho, hpl, _, _, _, hn, hk, hma => exact feed_verb w (k + 1) p m f hs E fl fl' h (hdg hpl) n d body ho hn ts hma
  | .brk v, _, hpl, _, _, _, hn, hk, hma =>
    obtain rfl := hpl
    obtain rfl := hm0 rfl
    exact feed_brk w (k + 1) p f hs E fl fl' (h.between (hdg (by simp))) v hn ts hma
  | .note v es, ho, hpl, _, _, _, hn, hk, hma =>
    obtain rfl := hpl
    obtain rfl := hm0 rfl
    exact feed_note w (k + 1) p f hs E fl fl' (h.between (hdg (by simp))) v es ho hn (fun x => by simpa [Blk.folded, Piece.folded, OneLine] using hk x) ts hma
  | .box n d ti lead held, ho, hpl, hso, _, _, hn, hk, hma =>
    exact feed_box w (k + 1) p tags m f hs E fl fl' h hm0 hm n d ti lead held ho hpl hso hn (fun x => by simpa [Blk.folded] using hk x) ts hma
  | .image target args ti, ho, hpl, _, hw, _, hn, _, hma =>
    exact feed_image w (k + 1) p tags m f hs E fl fl' h hm0 hmeta target args ti ho hpl (by obtain ⟨x, hx, _⟩ := hw (target, none) (by simp [Blk.targets]); rw [show w.resolve p.files target = some x from hx]; rfl) hn ts hma
  | .table ti lead rows, ho, hpl, _, _, _, hn, hk, hma =>
    exact feed_table w k p tags m f hs E fl fl' h hm0 hmeta ti lead rows ho hpl hn i hi ts hma hli
  | .dlist entries, ho, hpl, _, _, _, hn, _, hma =>
    rcases hpl with rfl | ⟨h1, h2⟩
    · obtain rfl := hm0 rfl
      exact feed_dlist w (k + 1) p none f hs E fl fl' h (hdg (by simp)) entries ho (.inl rfl) hn ts hma
    · exact feed_dlist w (k + 1) p m f hs E fl fl' h (hdg h2) entries ho (.inr h1) hn ts hma
  | .colist items, ho, _, _, _, _, hn, hk, hma =>
    exact feed_colist w (k + 1) p m f hs E fl fl' h items ho hn (fun x => by simpa [Blk.folded, OneLine] using hk x) ts hma
  | .code d parts, ho, hpl, _, hw, hic, hn, _, hma =>
    exact feed_code w (k + 1) p m f hs E fl fl' h (hdg hpl) d parts ho hn hw hic ts hma
  | .attached v points, ho, _, hso, _, _, hn, hk, hma =>
    exact feed_attached w (k + 1) p m f hs E fl fl' h v points ho hso hn (fun x => by simpa [Blk.folded, OneLine] using hk x) ts hma

end Adoc.Rich
