import Verif.Proof.RichTag
/-!
# Feeding blocks that contain blocks to the parser
-/
namespace Adoc.Rich
open Spec Block Parser Scanner Props

/-- A box whose end has not been read: the parts of it, the blocks below it on the stack, the graph and the line of its
first delimiter. -/
structure Ctx where
  box : Box
  delim : Str
  title : List Inline
  data : Option Meta
  loc : List Location
  below : List Block
  asg : Asg
  line : Nat
  kept : Bool

/-- The box on the stack. -/
def Ctx.top (c : Ctx) : Block := .parent c.box.name none c.delim [] c.title c.data c.loc

/-- A block that can be in a box. -/
def isPiece : Block → Bool
  | .leaf .. | .list .. => true
  | _ => false

theorem isPiece_other {b : Block} (h : isPiece b = true) :
    b.isParent = false ∧ b.isAnyItem = false ∧ b.isListItem = false ∧ b.isSection = false := by
  cases b <;> first | exact ⟨rfl, rfl, rfl, rfl⟩ | cases h

/-- Between the blocks in a box, when `done` are the blocks before. -/
structure Inside (p : Parser) (c : Ctx) (done : List Block) (r : Bool) : Prop where
  openLines : p.openLines = [c.line]
  steady : Steady p.offset p.attrs p.asg
  asg : p.asg = c.asg
  ref : p.closeParent = r
  kept : p.preserveNl = c.kept
  body : ∃ st, p.blocks = st ++ c.top :: c.below ∧ ((st = [] ∧ c.below = []) ∨ p.forceNew = true)
    ∧ (∀ b ∈ st, isPiece b = true) ∧ bareBs st.reverse = done

/-- The end of the box can be read. -/
structure Closable (p : Parser) (c : Ctx) (done : List Block) (r : Bool) : Prop extends Base p where
  openLines : p.openLines = [c.line]
  steady : Steady p.offset p.attrs p.asg
  asg : p.asg = c.asg
  ref : p.closeParent = r
  span : p.inSpan = false
  line : p.inBlockLine = false
  kept : p.preserveNl = c.kept
  body : ∃ ab st, p.blocks = ab ++ c.top :: c.below ∧ (∀ b ∈ ab, b.isParent = false)
    ∧ addInlines { p with dangling := none, blocks := ab ++ c.below } = .ok { p with
        dangling := none, inlines := [], blocks := st ++ c.below }
    ∧ (∀ b ∈ st, isPiece b = true) ∧ bareBs st.reverse = done

theorem Still.toBase {p : Parser} (h : Still p none) : Base p := by
  have := h.base
  have e : { p with data := none } = p := by rw [← h.data]
  rw [e] at this
  exact this

theorem Inside.closable {p : Parser} {c : Ctx} {done : List Block} {r : Bool} (h : Inside p c done r) (hs : Still p none) :
    Closable p c done r := by
  obtain ⟨st, h1, h2, h3, h4⟩ := h.body
  refine ⟨hs.toBase, h.openLines, h.steady, h.asg, h.ref, hs.span, hs.line, h.kept, st, st, h1, fun b hb => (isPiece_other (h3 b hb)).1, ?_, h3, h4⟩
  rw [addInlines_nil _ (by exact hs.inlines)]
  rw [← hs.inlines]

/-- After a block in a box: what newlines do, and the end of the box after `n` newlines or more. -/
structure ReadyIn (w : World) (k : Nat) (p : Parser) (c : Ctx) (done : List Block) (r : Bool) (n : Nat) : Prop where
  blank : ∀ t1 t2, IsNewline t1 → IsNewline t2 → ∃ q, Feeds w k [t1, t2] p q ∧ Still q none ∧ q.dangling = none ∧ Inside q c done r
  close : n ≤ 1 → ∀ t, IsNewline t → ∃ q, Feeds w k [t] p q ∧ Closable q c done r

/-- In a box, a blank line leaves the blocks on the stack. -/
theorem settle_in (p : Parser) (b : Block) (rest : List Block) (hbl : p.blocks = b :: rest) (l : Nat) (ho : p.openLines = [l])
    (hic : p.inCont = false) (hd : p.data = none) : settle p = .ok { p with forceNew := true } := by
  unfold settle
  simp only [hbl, ho, List.isEmpty_cons, Bool.and_false, Bool.false_eq_true, if_false, pushToStack, hic, Bool.false_and, hd]

theorem Inside.top {p : Parser} {c : Ctx} {done : List Block} {r : Bool} (h : Inside p c done r) :
    ∀ b, p.blocks.head? = some b → b.isAnyItem = false := by
  obtain ⟨st, h1, h2, h3, h4⟩ := h.body
  intro b hb
  rw [h1] at hb
  cases st with
  | nil => simp only [List.nil_append, List.head?_cons, Option.some.injEq] at hb; rw [← hb]; rfl
  | cons x xs =>
    simp only [List.cons_append, List.head?_cons, Option.some.injEq] at hb
    rw [← hb]; exact (isPiece_other (h3 x (by simp))).2.1

/-- After a complete block. -/
theorem ready_in (w : World) (k : Nat) (q : Parser) (c : Ctx) (done : List Block) (r : Bool) (hb : Base q) (hl : After q.lastTy)
    (ho : q.openLines = [c.line]) (hof : Steady q.offset q.attrs q.asg) (hasg : q.asg = c.asg) (hr : q.closeParent = r) (hsp : q.inSpan = false)
    (hi : q.inlines = []) (hkp : q.preserveNl = c.kept) (b : Block) (st : List Block) (hbl : q.blocks = b :: st ++ c.top :: c.below) (hp : isPiece b = true)
    (h3 : ∀ b ∈ st, isPiece b = true) (h4 : bareBs st.reverse = done) : ReadyIn w k q c (done ++ [bareB b]) r 1 := by
  have hst : ∀ x ∈ b :: st, isPiece x = true := by
    intro x hx
    rcases List.mem_cons.1 hx with rfl | hx
    · exact hp
    · exact h3 x hx
  have hdone : bareBs (b :: st).reverse = done ++ [bareB b] := by
    rw [List.reverse_cons, bareBs_append, h4]; rfl
  constructor
  · intro t1 t2 ht1 ht2
    refine ⟨_, two_newlines w k q (base_data hb) hl t1 t2 ht1 ht2 { q with
      inBlockLine := false, dangling := none, lastTy := .newLineChar, inSpan := false, forceNew := true } ?_, ?_, rfl, ?_⟩
    · intro d
      rw [blank_eq _ (by exact hb.header) (by
        intro b' hb'
        replace hb' : q.blocks.head? = some b' := hb'
        rw [hbl] at hb'
        simp only [List.cons_append, List.head?_cons, Option.some.injEq] at hb'
        rw [← hb']; exact (isPiece_other hp).2.1), addInlines_nil _ (by exact hi)]
      exact settle_in { q with inBlockLine := false, dangling := none, lastTy := .newLineChar, inSpan := false } b _ hbl c.line ho
        hb.inCont hb.data
    · refine ⟨base_same hb (by simp only [hb.data]), hb.data, hi, rfl, rfl, .inl rfl, ?_⟩
      intro b' hb'
      replace hb' : q.blocks.head? = some b' := hb'
      rw [hbl] at hb'
      simp only [List.cons_append, List.head?_cons, Option.some.injEq] at hb'
      rw [← hb']; exact (isPiece_other hp).2.1
    · exact ⟨ho, hof, hasg, hr, hkp, b :: st, hbl, .inr rfl, hst, hdone⟩
  · intro _ t ht
    obtain ⟨d, hd⟩ := one_newline w k q (base_data hb) hl t ht
    refine ⟨_, hd, ⟨base_same hb rfl, ho, hof, hasg, hr, hsp, rfl, hkp, b :: st, b :: st, hbl,
      fun x hx => (isPiece_other (hst x hx)).1, ?_, hst, hdone⟩⟩
    rw [addInlines_nil _ (by exact hi)]
    rw [← hi]

theorem para_in (w : World) (k : Nat) (p : Parser) (c : Ctx) (done : List Block) (r : Bool) (h : Inside p c done r)
    (hs : Still p none) (hdg : p.dangling = none) (es : List Elem) (ho : ProseOk es) (hk : c.kept = true → OneLine es) (ts : List Token)
    (hm : Matches (Piece.para es).signs ts) :
    ∃ q, Feeds w k ts p q ∧ ReadyIn w k q c (done ++ [(Piece.para es).block [] none]) (r || es.any Elem.refers) 1 := by
  obtain ⟨q, hq, hp⟩ := feed_prose w k p hs.toBase hs.inlines hdg hs.span es ho (fun x => hk (h.kept.symm.trans x)) ts hm
  obtain ⟨st, h1, h2, h3, h4⟩ := h.body
  obtain ⟨e1, e2, e3, e4, e5, e6⟩ := hp.fields
  have hb : Base q := by rw [hp.eq]; exact base_same hs.toBase rfl
  have hol : q.openLines = [c.line] := by rw [hp.eq]; exact h.openLines
  have hof : Steady q.offset q.attrs q.asg := by rw [hp.eq]; exact h.steady
  have hasg : q.asg = c.asg := e2.trans h.asg
  have href : q.closeParent = (r || es.any Elem.refers) := by rw [e4, h.ref]
  have hsp : q.inSpan = false := e3.trans hs.span
  have hkp : q.preserveNl = c.kept := by rw [hp.eq]; exact h.kept
  have hln : q.inBlockLine = false := by
    cases hl : q.inBlockLine with
    | false => rfl
    | true => have := hp.line hl; rw [hs.line] at this; cases this
  have hpiece : ∀ l, ∀ x ∈ Block.leaf .paragraph .paragraph none q.inlines.reverse none l :: st, isPiece x = true := by
    intro l x hx
    rcases List.mem_cons.1 hx with rfl | hx
    · rfl
    · exact h3 x hx
  have hdone : ∀ l, bareBs (Block.leaf .paragraph .paragraph none q.inlines.reverse none l :: st).reverse
      = done ++ [(Piece.para es).block [] none] := by
    intro l
    rw [List.reverse_cons, bareBs_append, h4]
    simp only [bareBs, bareB, hp.text, Piece.block, Option.map_none]
  refine ⟨q, hq, ?_, ?_⟩
  · intro t1 t2 ht1 ht2
    obtain ⟨l, ha⟩ := addInlines_plain { q with inBlockLine := false, dangling := none, lastTy := .newLineChar, inSpan := false }
      (base_same hb rfl) rfl hp.ne (by
        intro b rest hbr
        replace hbr : q.blocks = b :: rest := hbr
        show (b.takesInlines && !false && !q.forceNew) = false
        rcases h2 with ⟨h2, h2'⟩ | h2
        · rw [e1, h1, h2] at hbr
          simp only [List.nil_append, List.cons.injEq] at hbr
          rw [← hbr.1]; rfl
        · rw [e5, h2]; simp)
    refine ⟨_, two_newlines w k q (base_data hb) hp.last t1 t2 ht1 ht2 { q with
      inBlockLine := false, dangling := none, lastTy := .newLineChar, inSpan := false, forceNew := true, inlines := []
      blocks := .leaf .paragraph .paragraph none q.inlines.reverse none l :: q.blocks } ?_, ?_, rfl, ?_⟩
    · intro d
      rw [blank_eq _ (by exact hb.header) (by
        intro b' hb'
        replace hb' : q.blocks.head? = some b' := hb'
        rw [e1] at hb'
        exact h.top b' hb'), ha]
      exact settle_in { q with
        inBlockLine := false, dangling := none, lastTy := .newLineChar, inSpan := false, inlines := []
        blocks := .leaf .paragraph .paragraph none q.inlines.reverse none l :: q.blocks } _ _ rfl c.line hol hb.inCont hb.data
    · refine ⟨base_same hb (by simp only [hb.data]), hb.data, rfl, rfl, rfl, .inl rfl, ?_⟩
      intro b' hb'
      simp only [List.head?_cons, Option.some.injEq] at hb'
      rw [← hb']; rfl
    · exact ⟨hol, hof, hasg, href, hkp, _ :: st, by rw [e1, h1]; rfl, .inr rfl, hpiece l, hdone l⟩
  · intro _ t ht
    obtain ⟨d, hd⟩ := one_newline w k q (base_data hb) hp.last t ht
    obtain ⟨l, ha⟩ := addInlines_plain { q with inBlockLine := false, dangling := none, lastTy := .newLineChar, blocks := st ++ c.below }
      (base_same hb rfl) hsp hp.ne (by
        intro b rest hbr
        replace hbr : st ++ c.below = b :: rest := hbr
        show (b.takesInlines && !false && !q.forceNew) = false
        rcases h2 with ⟨h2, h2'⟩ | h2
        · rw [h2, h2'] at hbr; cases hbr
        · rw [e5, h2]; simp)
    exact ⟨_, hd, ⟨base_same hb rfl, hol, hof, hasg, href, hsp, rfl, hkp, st, _ :: st, by rw [e1, h1],
      fun x hx => (isPiece_other (h3 x hx)).1, ha, hpiece l, hdone l⟩⟩

theorem verb_in (w : World) (k : Nat) (p : Parser) (c : Ctx) (done : List Block) (r : Bool) (h : Inside p c done r) (m : Option Meta)
    (hs : Still p m) (hdg : p.dangling = none) (n : Verb) (d : Str) (body : List Sign) (ho : (Piece.verb n d body).Ok) (ts : List Token)
    (hm : Matches (Piece.verb n d body).signs ts) :
    ∃ q, Feeds w k ts p q ∧ ReadyIn w k q c (done ++ [(Piece.verb n d body).block [] ((metaOf m).map bareM)]) r 1 := by
  simp only [Piece.signs] at hm
  cases hm with
  | mark _ _ _ t us ht h' =>
    obtain ⟨us, vs, rfl, g1, g2⟩ := h'.split
    obtain ⟨e, rfl, he⟩ := matches_one g2
    have hvn : verbatimName t.ty = some n.name := by rw [ht.ty]; cases n <;> rfl
    obtain ⟨q, l, l', q1, q2, q3, q4, q5, q6, q7, q8, q9, q10, q11, q12, q13, q14, q15, q16, q17, q18, q19⟩ :=
      C20_verbatim_partial w k p ⟨hs.base.header, hs.base.openText, hs.inlines, hdg, hs.base.inCont, hs.line⟩ t e n.name hvn
        (by rw [he.ty, ht.ty]) us (matches_ne g1 ho.1) (by
          intro u hu
          rcases matches_types g1 u hu with h2 | ⟨l, h2⟩
          · unfold Enclosed
            rw [h2, ht.ty]
            cases n <;> simp [Verb.type]
          · have := ho.2 _ h2
            unfold Enclosed
            rw [ht.ty]
            cases n <;> simp only [inVerb, Verb.type, Bool.and_eq_true, ne_eq] at this ⊢ <;> simp at this ⊢ <;>
              first | exact ⟨of_decide_eq_true this.1, this.2⟩ | exact of_decide_eq_true this)
    obtain ⟨st, h1, h2, h3, h4⟩ := h.body
    refine ⟨q, q1, ?_⟩
    have htx : t.text = d := by rw [ht.text]; cases n <;> rfl
    have := ready_in w k q c done r ⟨q7, q6, q12.trans hs.base.title, q10, q9⟩
      (by rw [After, q13, ht.ty]; cases n <;> simp [Verb.type]) (q11.trans h.openLines) (h.steady.step (by rw [q18, q4]) q3) (q3.trans h.asg)
      (q15.trans h.ref) (q16.trans hs.span) q5 (q17.trans h.kept) (.leaf n.name .delimited (some t.text) [.lit .text (us.flatMap Token.lexeme) l] (metaOf p.data) l')
      st (by rw [q2, h1]; rfl) rfl h3 h4
    simp only [bareB, matches_lexemes g1, htx, hs.data] at this
    exact this

theorem list_in (w : World) (k : Nat) (p : Parser) (c : Ctx) (done : List Block) (r : Bool) (h : Inside p c done r) (m : Option Meta)
    (hs : Still p m) (v : ListVariant) (items : List (List Elem)) (ho : (Piece.list v items).Ok)
    (hk : c.kept = true → ∀ es ∈ items, OneLine es) (ts : List Token) (hm : Matches (Piece.list v items).signs ts) :
    ∃ q, Feeds w k ts p q ∧ ReadyIn w k q c (done ++ [(Piece.list v items).block [] ((metaOf m).map bareM)])
      (r || (Piece.list v items).refers) 2 := by
  obtain ⟨q, init, last, hq, hi, hil⟩ := feed_items w k p m hs v items ho (fun x => hk (h.kept.symm.trans x)) ts hm
  obtain ⟨its, l1, l2, h1, h3⟩ := hi.body
  obtain ⟨st, b1, b2, b3, b4⟩ := h.body
  have hbare : bareB (more v last.mark (metaOf m) its l2 q.inlines.reverse l1) = (Piece.list v items).block [] ((metaOf m).map bareM) := by
    rw [more_bare v (metaOf m) its l2 l1 q.inlines.reverse init last h3 hi.text, hil, List.map_map]; rfl
  refine ⟨q, hq, ?_, fun h => absurd h (by omega)⟩
  intro t1 t2 ht1 ht2
  refine ⟨_, two_newlines w k q (base_data hi.toBase) hi.last t1 t2 ht1 ht2 { q with
    inBlockLine := false, dangling := none, lastTy := .newLineChar, inSpan := false, inlines := [], forceNew := true
    blocks := more v last.mark (metaOf m) its l2 q.inlines.reverse l1 :: p.blocks } ?_, ?_, rfl, ?_⟩
  · intro d
    rw [items_blank q p v (metaOf m) init last hi its l1 l2 h1 d]
    exact settle_in _ _ _ rfl c.line (hi.openLines.trans h.openLines) hi.inCont hi.data
  · refine ⟨base_same hi.toBase (by simp only [hi.data]), hi.data, rfl, rfl, rfl, .inl rfl, ?_⟩
    intro b' hb'
    simp only [List.head?_cons, Option.some.injEq] at hb'
    rw [← hb']; rfl
  · refine ⟨hi.openLines.trans h.openLines, h.steady.step hi.steady hi.asg, hi.asg.trans h.asg, ?_, hi.kept.trans h.kept, _ :: st, by rw [b1]; rfl, .inr rfl,
      ?_, ?_⟩
    · show q.closeParent = _
      rw [hi.ref, h.ref, hil, List.any_map]; rfl
    · intro x hx
      rcases List.mem_cons.1 hx with rfl | hx
      · rfl
      · exact b3 x hx
    · rw [List.reverse_cons, bareBs_append, b4]
      simp only [bareBs, hbare]

/-- A block in a box is fed to the parser. -/
theorem piece_in (w : World) (k : Nat) (p : Parser) (c : Ctx) (done : List Block) (r : Bool) (h : Inside p c done r) (m : Option Meta)
    (hs : Still p m) (e : Held) (hm0 : e.tags = [] → m = none)
    (hdg : (∀ id, e.tags.getLast? ≠ some (.anchor id)) → p.dangling = none) (ho : e.Ok)
    (hk : c.kept = true → e.piece.folded = false) (ts : List Token) (hma : Matches e.piece.signs ts) :
    ∃ q, Feeds w k ts p q ∧ ReadyIn w k q c (done ++ [e.piece.block [] ((metaOf m).map bareM)]) (r || e.piece.refers) e.piece.closing := by
  obtain ⟨tags, piece, gap⟩ := e
  have hpl := ho.place
  have hok := ho.piece
  simp only [Held.place] at *
  cases piece with
  | para es =>
    obtain rfl := hpl
    obtain rfl := hm0 rfl
    exact para_in w k p c done r h hs (hdg (by simp)) es hok (fun x => by simpa [Piece.folded, OneLine] using hk x) ts hma
  | verb n d body =>
    have := verb_in w k p c done r h m hs (hdg hpl) n d body hok ts hma
    simpa [Piece.refers, Piece.closing] using this
  | list v items => exact list_in w k p c done r h m hs v items hok (fun x => by simpa [Piece.folded, OneLine] using hk x) ts hma

/-! ## The blocks in a box -/

theorem Moved.inside {p q : Parser} {c : Ctx} {done : List Block} {r : Bool} (h : Moved p q) (hi : Inside p c done r) :
    Inside q c done r := by
  have e := h.eq
  obtain ⟨st, h1, h2, h3, h4⟩ := hi.body
  refine ⟨by rw [e]; exact hi.openLines, by rw [e]; exact hi.steady, by rw [e]; exact hi.asg, by rw [e]; exact hi.ref, by rw [e]; exact hi.kept, st,
    by rw [e]; exact h1, ?_, h3, h4⟩
  rcases h.force with h | h
  · exact .inr h
  · exact h2.imp id (fun x => h.trans x)

/-- More newlines in a box. -/
theorem Inside.newline {p : Parser} {c : Ctx} {done : List Block} {r : Bool} (h : Inside p c done r) (hs : Still p none)
    (w : World) (k : Nat) (t : Token) (ht : IsNewline t) :
    ∃ q, Feeds w k [t] p q ∧ Still q none ∧ q.dangling = none ∧ Inside q c done r := by
  obtain ⟨st, h1, h2, h3, h4⟩ := h.body
  have hb := hs.toBase
  obtain ⟨x, xs, hx⟩ : ∃ x xs, p.blocks = x :: xs := by
    rw [h1]; cases st <;> exact ⟨_, _, rfl⟩
  have g := newLine_second w k p t ht.ty hb.header hb.openText hb.title hs.last
  rw [blank_eq { p with inBlockLine := false } hb.header h.top, addInlines_nil _ (by exact hs.inlines)] at g
  replace g := g.trans (settle_in { p with inBlockLine := false, dangling := none, inSpan := false } x xs hx c.line h.openLines
    hb.inCont hb.data)
  exact ⟨_, Feeds.one g, ⟨base_same hs.base rfl, hs.data, hs.inlines, rfl, rfl, .inl ht.ty, hs.top⟩, rfl,
    ⟨h.openLines, h.steady, h.asg, h.ref, h.kept, st, h1, .inr rfl, h3, h4⟩⟩

theorem Inside.newlines {p : Parser} {c : Ctx} {done : List Block} {r : Bool} (h : Inside p c done r) (hs : Still p none)
    (hd : p.dangling = none) (w : World) (k : Nat) (ts : List Token) (ht : ∀ t ∈ ts, IsNewline t) :
    ∃ q, Feeds w k ts p q ∧ Still q none ∧ q.dangling = none ∧ Inside q c done r := by
  induction ts generalizing p with
  | nil => exact ⟨p, Feeds.nil .., hs, hd, h⟩
  | cons t ts ih =>
    obtain ⟨q, h1, h2, h3, h4⟩ := h.newline hs w k t (ht t (by simp))
    obtain ⟨r, h5, h6⟩ := ih h4 h2 h3 (fun u hu => ht u (by simp [hu]))
    exact ⟨r, Feeds.append (a := [t]) h1 h5, h6⟩

theorem ReadyIn.newlines {w : World} {k : Nat} {p : Parser} {c : Ctx} {done : List Block} {r : Bool} {n : Nat}
    (h : ReadyIn w k p c done r n) (ts : List Token) (ht : ∀ t ∈ ts, IsNewline t) (hn : 2 ≤ ts.length) :
    ∃ q, Feeds w k ts p q ∧ Still q none ∧ q.dangling = none ∧ Inside q c done r := by
  match ts, hn with
  | t1 :: t2 :: ts, _ =>
    obtain ⟨q, h1, h2, h3, h4⟩ := h.blank t1 t2 (ht t1 (by simp)) (ht t2 (by simp))
    obtain ⟨r, h5, h6⟩ := h4.newlines h2 h3 w k ts (fun u hu => ht u (by simp [hu]))
    exact ⟨r, Feeds.append (a := [t1, t2]) h1 h5, h6⟩

theorem matches_newlines {n : Nat} {ts : List Token} (h : Matches (List.replicate n Spec.newline) ts) :
    ts.length = n ∧ ∀ t ∈ ts, IsNewline t := by
  induction n generalizing ts with
  | zero => cases h; exact ⟨rfl, by simp⟩
  | succ n ih =>
    rw [List.replicate_succ] at h
    cases h with
    | mark _ _ _ t us ht h =>
      obtain ⟨h1, h2⟩ := ih h
      refine ⟨by simp [h1], ?_⟩
      intro u hu
      rcases List.mem_cons.1 hu with rfl | hu
      · exact ht
      · exact h2 u hu

theorem feed_held (w : World) (k : Nat) (c : Ctx) (held : List Held) (p : Parser) (done : List Block) (r : Bool)
    (h : Inside p c done r) (hs : Still p none) (hdg : p.dangling = none) (ho : ∀ e ∈ held, e.Ok) (hg : HeldGaps held)
    (hk : c.kept = true → ∀ e ∈ held, e.piece.folded = false)
    (hso : ∀ s ∈ held.flatMap Held.signs, SignOk s) (ts : List Token) (hm : Matches (held.flatMap Held.signs) ts) :
    ∃ q, Feeds w k ts p q ∧ Closable q c (done ++ held.map (Held.block [])) (r || held.any fun e => e.piece.refers) := by
  induction held generalizing p done r ts with
  | nil =>
    cases hm
    exact ⟨p, Feeds.nil .., by simpa using h.closable hs⟩
  | cons e es ih =>
    simp only [List.flatMap_cons] at hso
    simp only [List.flatMap_cons, Held.signs, List.append_assoc] at hm
    obtain ⟨gs, vs, rfl, m0, m'⟩ := hm.split
    obtain ⟨us, vs, rfl, m1, m''⟩ := m'.split
    obtain ⟨ns, vs, rfl, m2, m3⟩ := m''.split
    obtain ⟨n1, n2⟩ := matches_newlines m2
    have hc := ho e (by simp)
    obtain ⟨p', d, g1, g2, g0, g3, g4⟩ := feed_tags w k e.tags [] p none hs ⟨fun _ => rfl, fun h => absurd rfl h⟩
      (fun _ => hdg) hc.tags (fun t ht => hso _ (by
        simp only [List.mem_append, Held.signs]
        exact .inl (.inl (List.mem_flatMap.2 ⟨t, ht, by simp⟩)))) gs m0
    rw [List.nil_append] at g3 g4
    obtain ⟨q, h1, h2⟩ := piece_in w k p' c done r (g0.inside h) d g2 e g3.none g4 hc (fun x => hk x e (by simp)) us m1
    rw [g3.meta] at h2
    cases es with
    | nil =>
      cases m3
      have hgap : e.piece.closing ≤ ns.length := by rw [n1]; exact hg
      have hfin : ∃ s, Feeds w k ns q s ∧ Closable s c (done ++ [e.piece.block [] (tagsMeta e.tags)]) (r || e.piece.refers) := by
        match ns, hgap, n2 with
        | [], hgap, _ => cases hpc : e.piece <;> rw [hpc] at hgap <;> simp [Piece.closing] at hgap
        | [t], hgap, n2 => exact h2.close hgap t (n2 t (by simp))
        | t1 :: t2 :: ts, _, n2 =>
          obtain ⟨s, i1, i2, i3, i4⟩ := h2.newlines (t1 :: t2 :: ts) n2 (by simp)
          exact ⟨s, i1, i4.closable i2⟩
      obtain ⟨s, i1, i2⟩ := hfin
      refine ⟨s, g1.append (h1.append (by simpa using i1)), ?_⟩
      simpa [Held.block] using i2
    | cons e' es =>
      obtain ⟨s, i1, i2, i3, i4⟩ := h2.newlines ns n2 (by rw [n1]; exact hg.1)
      obtain ⟨x, j1, j2⟩ := ih s _ _ i4 i2 i3 (fun y hy => ho y (by simp [hy])) hg.2 (fun x y hy => hk x y (by simp [hy])) (fun y hy => hso y (List.mem_append_right _ hy)) vs m3
      refine ⟨x, g1.append (h1.append (i1.append j1)), ?_⟩
      simpa [Held.block, Bool.or_assoc] using j2

/-! ## The title line -/

theorem title_tokens (d : Option Meta) (es : List Elem) (hd : d = none ∨ ∀ e ∈ es, e.hasSpan = false) (ho : OneLine es)
    {ts : List Token} (hm : Matches (es.flatMap Elem.signs) ts) (t : Token) (ht : t ∈ ts) :
    InText d (some []) t.ty ∧ InHeader none t := by
  obtain ⟨h1, h2⟩ := text_tokens none d es hd (.inl rfl) hm t ht
  refine ⟨?_, h2⟩
  have hne : t.ty ≠ .newLineChar := by
    intro hty
    rcases matches_types hm t ht with h | ⟨l, h⟩
    · rw [hty] at h; cases h
    · refine ho ?_
      have h' := h
      obtain ⟨e, he, h⟩ := List.mem_flatMap.1 h
      rw [hty] at h h'
      rcases elem_sign h with h3 | ⟨l', h3⟩ | ⟨⟨ty, l', h3, h4⟩, h5⟩
      · rcases h3 with ⟨x, h3⟩ | h3 | ⟨m, l', h3, _⟩
        · cases h3
        · rw [h3] at h'; exact h'
        · simp only [Sign.mark.injEq] at h3
          cases m <;> cases h3.1
      · cases h3
      · simp only [Sign.mark.injEq] at h3
        rw [← h3.1] at h4
        exact absurd h4 (by decide)
  rcases h1 with h | ⟨h, _⟩ | h
  · exact .inl h
  · exact absurd h hne
  · exact .inr (.inr h)

/-- A title line. -/
theorem feed_title (w : World) (k : Nat) (p : Parser) (d : Option Meta) (h : Still p d) (es : List Elem) (ho : ProseOk es)
    (hol : OneLine es) (hsp : d = none ∨ ∀ e ∈ es, e.hasSpan = false) (ts : List Token) (hm : Matches (titleSigns (some es)) ts) :
    ∃ dn is, Feeds w k ts p { p with
        title := some is, closeParent := p.closeParent || es.any Elem.refers, dangling := dn, inBlockLine := false
        lastTy := .newLineChar } ∧ bareL is = shownL [] es := by
  simp only [titleSigns] at hm
  cases hm with
  | mark _ _ _ t us ht hm =>
  obtain ⟨us, vs, rfl, m1, m2⟩ := hm.split
  obtain ⟨n, rfl, hn⟩ := matches_one m2
  have hb := h.base
  have hstep : tokenInto w (k + 1) t p = .ok { p with title := some [], inBlockLine := true, dangling := none } := by
    rw [tokenInto_plain w k t p hb.header hb.openText]
    unfold dispatchToken
    rw [ht.ty]
  obtain ⟨q, h1, hp⟩ := feed_prose w k { p with data := none, inBlockLine := true, dangling := none, lastTy := t.ty }
    (base_same hb rfl) h.inlines rfl h.span es ho (fun _ => hol) us m1
  have h2 := h1.over none d (some []) rfl hb.title hb.openText hb.header (title_tokens d es hsp hol m1) true (fun _ => rfl) (by
    rw [runT_matches m1]
    exact runS_elems es none ho.2)
  have e : ({ p with title := some [], inBlockLine := true, dangling := none, lastTy := t.ty } : Parser)
      = Parser.over none d (some []) { p with data := none, inBlockLine := true, dangling := none, lastTy := t.ty } := by
    have e1 : p.header = none := hb.header
    have e2 : p.openText = none := hb.openText
    have e3 := h.data
    cases p
    simp only at *
    subst e1 e2 e3
    rfl
  rw [← e] at h2
  have hlast := hp.last
  have heq := hp.eq
  have hcont : q.inCont = false := by rw [heq]; exact hb.inCont
  have hnl : ∃ dn, tokenInto w (k + 1) n (Parser.over none d (some []) q) = .ok { p with
      title := some q.inlines.reverse, closeParent := p.closeParent || es.any Elem.refers, dangling := dn, inBlockLine := false
      lastTy := q.lastTy } := by
    rw [tokenInto_plain w k n _ rfl rfl]
    unfold dispatchToken
    rw [hn.ty]
    have e1 : p.header = none := hb.header
    have e2 : p.openText = none := hb.openText
    have e3 := h.data
    have e4 := h.inlines
    have l1 := hlast.1
    have l2 := hlast.2
    rw [heq] at hcont l1 l2 ⊢
    simp only [parseNewLine, Parser.over] at hcont l1 l2 ⊢
    simp only [l1, l2, or_self, if_false, List.nil_append, hcont, Bool.false_or]
    split
    · exact ⟨none, by rw [e1, e2, e3, e4]⟩
    · exact ⟨some n, by rw [e1, e2, e3, e4]⟩
  obtain ⟨dn, hnl⟩ := hnl
  refine ⟨dn, _, Feeds.cons hstep (h2.append ?_), hp.text⟩
  have := Feeds.one hnl
  rw [hn.ty] at this
  exact this

/-! ## The delimiters -/

theorem box_kind (n : Box) : Block.parentKind n.type = some (n.name, none) := by cases n <;> rfl

theorem box_mark (n : Box) : After n.type ∧ n.type.clearsNewlineAfter = true := by
  cases n <;> exact ⟨⟨by simp [Box.type], by simp [Box.type]⟩, rfl⟩

theorem box_step (w : World) (k : Nat) (p : Parser) (n : Box) (t : Token) (ht : t.ty = n.type) (hh : p.header = none)
    (ho : p.openText = none) (hd : n = .quote → ∀ m, p.data = some m → m.declared ≠ some .verse) :
    tokenInto w (k + 1) t p = p.parseParent t := by
  rw [tokenInto_plain w k t p hh ho]
  unfold dispatchToken
  rw [ht]
  cases n with
  | quote =>
    simp only [Box.type, parseQuoteVerse]
    cases hm : p.data with
    | none => simp only [ho]
    | some m => simp only [hd rfl m hm, if_false]
  | _ => rfl

theorem splitFirst_none {α : Type} {f : α → Bool} {l : List α} (h : ∀ x ∈ l, f x = false) : splitFirst f l = none := by
  induction l with
  | nil => rfl
  | cons x xs ih => simp only [splitFirst, h x (by simp), Bool.false_eq_true, if_false, ih (fun y hy => h y (by simp [hy]))]

theorem splitFirst_at {α : Type} {f : α → Bool} {l : List α} (h : ∀ x ∈ l, f x = false) {y : α} (hy : f y = true) (r : List α) :
    splitFirst f (l ++ y :: r) = some (l, y, r) := by
  induction l with
  | nil => simp only [List.nil_append, splitFirst, hy, if_true]
  | cons x xs ih =>
    simp only [List.cons_append, splitFirst, h x (by simp), Bool.false_eq_true, if_false, ih (fun y hy => h y (by simp [hy]))]

theorem locations_ne (t : Token) : t.locations ≠ [] := by simp [Token.locations]

/-- The first delimiter and the newline after it. -/
theorem open_box (w : World) (k : Nat) (p : Parser) (hh : p.header = none) (ho : p.openText = none) (hic : p.inCont = false)
    (hi : p.inlines = []) (hsp : p.inSpan = false) (hol : p.openLines = []) (hof : Steady p.offset p.attrs p.asg)
    (hbl : ∀ b ∈ p.blocks, b.isParent = false) (hf : p.blocks = [] ∨ p.forceNew = true) (n : Box) (d : Str)
    (hv : n = .quote → ∀ m, p.data = some m → m.declared ≠ some .verse) (t e : Token) (ht : IsMark n.type d t) (he : IsNewline e) :
    ∃ q, Feeds w k [t, e] p q ∧ Still q none ∧ q.dangling = none
      ∧ Inside q ⟨n, d, p.title.getD [], metaOf p.data, t.locations, p.blocks, p.asg, t.line, p.preserveNl⟩ [] p.closeParent := by
  have hstep : tokenInto w (k + 1) t p = .ok { p with
      dangling := none, title := none, openLines := [t.line], data := none
      blocks := .parent n.name none d [] (p.title.getD []) (metaOf p.data) t.locations :: p.blocks } := by
    rw [box_step w k p n t ht.ty hh ho hv]
    unfold parseParent
    rw [ht.ty, box_kind]
    simp only [splitFirst_none hbl, openParent, pushToStack, hic, Bool.false_and, Bool.false_eq_true, if_false, hol]
    have htx : t.text = d := by rw [ht.text]; cases n <;> rfl
    rw [htx]
    cases hd : p.data with
    | none => simp only [metaOf]
    | some m =>
      simp only [metaOf, addMeta]
      cases m.isEmpty <;> rfl
  have hnl : ∀ q : Parser, q.header = none → q.openText = none → q.title = none → q.lastTy = n.type → 
      tokenInto w (k + 1) e q = .ok { q with inBlockLine := false, dangling := none } := by
    intro q h1 h2 h3 h4
    rw [tokenInto_plain w k e q h1 h2]
    unfold dispatchToken
    rw [he.ty]
    simp only [parseNewLine, h3, h4, (box_mark n).1.1, (box_mark n).1.2, or_self, if_false, (box_mark n).2, Bool.or_true, if_true]
  refine ⟨_, Feeds.cons hstep (Feeds.one (hnl _ hh ho rfl ht.ty)), ?_, rfl, ?_⟩
  · refine ⟨⟨hh, ho, rfl, hic, rfl⟩, rfl, hi, rfl, hsp, .inl he.ty, ?_⟩
    intro b hb
    simp only [List.head?_cons, Option.some.injEq] at hb
    rw [← hb]; rfl
  · exact ⟨rfl, hof, rfl, rfl, rfl, [], rfl, hf.imp (fun h => ⟨rfl, h⟩) id, by simp, rfl⟩

theorem pushBlocks_box (n : Box) (d : Str) (ti : List Inline) (m : Option Meta) (xs : List Block) (hx : ∀ b ∈ xs, isPiece b = true)
    (bs : List Block) (l : List Location) : ∃ l', pushBlocks (.parent n.name none d bs ti m l) xs
      = .ok (.parent n.name none d (bs ++ xs) ti m l') := by
  induction xs generalizing bs l with
  | nil => exact ⟨l, by simp [pushBlocks]⟩
  | cons x xs ih =>
    have h1 := isPiece_other (hx x (by simp))
    have hn : n.name ≠ .table := by cases n <;> simp [Box.name]
    obtain ⟨l1, hl1⟩ : ∃ l1, Block.consolidate (.parent n.name none d (bs ++ [x]) ti m l)
        = .parent n.name none d (bs ++ [x]) ti m l1 := by
      exact ⟨recBlocks l (bs ++ [x]), by simp only [Block.consolidate]⟩
    obtain ⟨l', h⟩ := ih (fun b hb => hx b (by simp [hb])) (bs ++ [x]) l1
    refine ⟨l', ?_⟩
    simp only [pushBlocks, Block.pushBlock, h1.2.2.1, Bool.false_eq_true, if_false, hn, false_and, liftB, bind, Except.bind, hl1]
    rw [h]
    simp

/-- The last delimiter. -/
theorem close_box (w : World) (k : Nat) (p : Parser) (c : Ctx) (done : List Block) (r : Bool) (h : Closable p c done r)
    (hl : c.loc ≠ []) (t : Token) (ht : t.ty = c.box.type) :
    ∃ st l', Feeds w k [t] p { p with
        dangling := none, inlines := [], openLines := [], lastTy := c.box.type
        blocks := .parent c.box.name none c.delim st c.title c.data l' :: c.below } ∧ bareBs st = done := by
  obtain ⟨ab, st, h1, h2, h3, h4, h5⟩ := h.body
  have hti := h.title
  have hdt := h.data
  have hic := h.inCont
  have e : { p with dangling := none, title := none } = { p with dangling := none } := by rw [hti]
  obtain ⟨l', hp⟩ := pushBlocks_box c.box c.delim c.title c.data st.reverse (fun b hb => h4 b (by simpa using hb)) []
    (reconcile c.loc t.locations)
  refine ⟨st.reverse, l', ?_, h5⟩
  have hstep : tokenInto w (k + 1) t p = .ok { p with
      dangling := none, inlines := [], openLines := []
      blocks := .parent c.box.name none c.delim st.reverse c.title c.data l' :: c.below } := by
    rw [box_step w k p c.box t ht h.header h.openText (by rw [hdt]; simp)]
    unfold parseParent
    rw [ht, box_kind]
    have hsp : splitFirst Block.isParent p.blocks = some (ab, c.top, c.below) := by rw [h1]; exact splitFirst_at h2 rfl _
    simp only [hsp, Ctx.top, parentEq, decide_true, if_true, closeParentBlock]
    rw [← hti]
    rw [h3]
    have hle : c.loc.isEmpty = false := by cases hc : c.loc with
      | nil => exact absurd hc hl
      | cons => rfl
    simp only [bind, Except.bind, h.openLines, hle, Bool.false_eq_true, if_false, List.length_append, Nat.add_sub_cancel,
      List.take_left', List.drop_left']
    rw [hp]
    have hn : c.box.name ≠ .table := by cases c.box <;> simp [Box.name]
    simp only [Block.isTable, hn, decide_false, Bool.false_eq_true, if_false, pushToStack, hic, Bool.false_and, hdt, pure, Except.pure,
      List.nil_append]
  have := Feeds.one hstep
  rw [ht] at this
  exact this

theorem feed_box (w : World) (k : Nat) (p : Parser) (tags : List Tag) (m : Option Meta) (f : Front) (hs : List Title)
    (E : List (List Title × Block)) (fl fl' : Flow) (h : Waits p m f hs E fl) (hm0 : tags = [] → m = none)
    (hm : (m.getD {}).declared = (tags.foldl Tag.apply {}).declared) (n : Box) (d : Str) (title : Option (List Elem)) (lead : Nat)
    (held : List Held) (ho : (Blk.box n d title lead held).Ok) (hpl : TagsFor tags (.box n d title lead held))
    (hso : ∀ s ∈ (Blk.box n d title lead held).signs, SignOk s)
    (hn : fl.step (.box n d title lead held) = some fl')
    (hk : fl.kept = true → ∀ e ∈ held, e.piece.folded = false) (ts : List Token) (hma : Matches (Blk.box n d title lead held).signs ts) :
    ∃ q, Feeds w k ts p q ∧ Ready w k q f hs
      (E ++ [(parents hs 5, (Blk.box n d title lead held).block [] ((metaOf m).map bareM))]) fl' (fl.stop (.box n d title lead held)) 0 := by
  obtain ⟨o1, o2, o3, o4⟩ := ho
  obtain ⟨y1, y2⟩ := hpl
  simp only [Blk.signs] at hma hso
  obtain ⟨as, vs, rfl, m1, hma⟩ := hma.split
  cases hma with
  | mark _ _ _ t us ht hma' =>
  replace hma := hma'
  obtain ⟨ns, us, rfl, m2, hma⟩ := hma.split
  obtain ⟨is, us, rfl, m3, hma⟩ := hma.split
  obtain ⟨e, rfl, he⟩ := matches_one hma
  have hst := h.still
  have hb := hst.base
  have hq := h.quiet
  obtain ⟨pend, c1, c2, c3⟩ := hq.content
  -- the title line
  obtain ⟨p1, ti, t1, t2, t3, t4, t5⟩ : ∃ p1 : Parser, ∃ ti : Option (List Inline), Feeds w k as p p1
      ∧ p1 = { p with
          title := ti, closeParent := p.closeParent || (title.getD []).any Elem.refers, dangling := p1.dangling
          inBlockLine := p1.inBlockLine, lastTy := p1.lastTy }
      ∧ bareL (ti.getD []) = shownL [] (title.getD []) ∧ True ∧ True := by
    cases title with
    | none =>
      cases m1
      refine ⟨p, none, Feeds.nil .., ?_, rfl, trivial, trivial⟩
      have : p.title = none := hb.title
      simp only [Option.getD_none, List.any_nil, Bool.or_false]
      rw [← this]
    | some es =>
      obtain ⟨dn, is, a1, a2⟩ := feed_title w k p m hst es (o1 es rfl).1 (o1 es rfl).2
        (y1.imp hm0 (fun h => h es rfl)) as m1
      exact ⟨_, some is, a1, rfl, a2, trivial, trivial⟩
  -- the first delimiter
  obtain ⟨n1, n2⟩ := matches_newlines m2
  obtain ⟨e1, ns, rfl⟩ : ∃ e1 es, ns = e1 :: es := by
    cases ns with
    | nil => simp only [List.length_nil] at n1; omega
    | cons a b => exact ⟨a, b, rfl⟩
  have hdat : p1.data = m := by rw [t2]; exact h.data
  have hblk : p1.blocks = pend.toList := by rw [t2]; exact c1
  obtain ⟨q, g1, g2, g3, g4⟩ := open_box w k p1 (by rw [t2]; exact hb.header) (by rw [t2]; exact hb.openText)
    (by rw [t2]; exact hb.inCont) (by rw [t2]; exact hst.inlines) (by rw [t2]; exact hst.span)
    (by rw [t2]; exact hq.openLines) (by rw [t2]; exact hq.steady)
    (by
      rw [hblk]
      intro b hb'
      cases c3 with
      | flat => cases hb'
      | under => simp only [Option.toList_some, List.mem_singleton] at hb'; rw [hb']; rfl)
    (by
      rcases c2 with c2 | c2
      · rw [hblk, c2]; exact .inl rfl
      · right; rw [t2]; exact c2)
    n d (by
      intro hn' x hx
      have := y2 hn'
      rw [hdat] at hx
      rw [← hm, hx] at this
      exact this) t e1 ht (n2 e1 (by simp))
  obtain ⟨q1, j1, j2, j3, j4⟩ := g4.newlines g2 g3 w k ns (fun u hu => n2 u (by simp [hu]))
  -- the blocks and the last delimiter
  obtain ⟨q2, i1, i2⟩ := feed_held w k _ held q1 [] _ j4 j2 j3 o3 o4
    (fun x => hk (hq.kept (by rw [← x]; show p.preserveNl = p1.preserveNl; rw [t2]))) (fun s hs => hso s (by simp [hs])) is m3
  obtain ⟨st, l', k1, k2⟩ := close_box w k q2 _ _ _ i2 (locations_ne t) e he.ty
  have hfeeds := t1.append (g1.append (j1.append (i1.append k1)))
  refine ⟨_, by simpa using hfeeds, ?_⟩
  simp only [Flow.step] at hn
  obtain ⟨hsh, hn⟩ := Flow.open hn
  have hasg : q2.asg = p.asg := i2.asg.trans (by show p1.asg = _; rw [t2])
  have hcp : q2.closeParent = (fl.ref || (Blk.box n d title lead held).refers) := by
    rw [i2.ref]
    have e1 : p1.closeParent = (fl.ref || (title.getD []).any Elem.refers) := by
      rw [t2, ← hq.ref]
    rw [e1, Blk.refers, Bool.or_assoc]
  have := ready_block w k { q2 with
      dangling := none, inlines := [], openLines := [], lastTy := n.type
      blocks := .parent n.name none d st (p1.title.getD []) (metaOf p1.data) l' :: p1.blocks } f hs E fl pend
    (.parent n.name none d st (p1.title.getD []) (metaOf p1.data) l') ⟨base_same i2.toBase rfl, rfl, i2.steady⟩ rfl (box_mark n).1 rfl rfl true
    (by simp) (by rw [hblk]) (by show Content q2.asg.blocks _ _ _ _; rw [hasg]; exact c3) hsh
    (by show q2.asg.front = _; rw [hasg]; exact hq.front) (by show Built q2.asg; rw [hasg]; exact hq.built)
    (by show q2.preserveNl = true → _; rw [i2.kept]; show p1.preserveNl = true → _; rw [t2]; exact hq.kept)
  have hti : p1.title = ti := by rw [t2]
  have hfl : fl' = if (fl.sec && (fl.ref || (Blk.box n d title lead held).refers)) = true then { fl with ref := false, shut := true, box := true }
      else { fl with ref := fl.ref || (Blk.box n d title lead held).refers, box := true } := by
    split at hn <;> rename_i hx <;> simp only [Option.some.injEq] at hn <;> simp only [hx] <;> exact hn.symm
  rw [hfl]
  simp only [hti, hdat] at this ⊢
  simp only [bareB, k2, t3, List.nil_append] at this
  simp only [Flow.stop]
  rw [← hcp]
  exact this

/-! ## Images -/

theorem imageMeta_bare (args : List Arg) : (imageMeta args).map bareM = imageMeta args := by
  unfold imageMeta
  split
  · rfl
  · have := arg_loc { inlineMeta := true } 0 args
    generalize applyArgs { inlineMeta := true } 0 args = m at *
    cases m
    simp only at this
    subst this
    rfl

/-- The title line of an image. -/
theorem feed_caption (w : World) (k : Nat) (p : Parser) (m : Option Meta) (hst : Still p m) (title : Option (List Elem))
    (ho : ∀ es, title = some es → ProseOk es ∧ OneLine es)
    (hpl : m = none ∨ ∀ es, title = some es → ∀ e ∈ es, e.hasSpan = false) (as : List Token) (m1 : Matches (titleSigns title) as) :
    ∃ p1 : Parser, ∃ ti : Option (List Inline), Feeds w k as p p1
      ∧ p1 = { p with
          title := ti, closeParent := p.closeParent || (title.getD []).any Elem.refers, dangling := p1.dangling
          inBlockLine := p1.inBlockLine, lastTy := p1.lastTy }
      ∧ bareL (ti.getD []) = shownL [] (title.getD []) := by
  cases title with
  | none =>
    cases m1
    refine ⟨p, none, Feeds.nil .., ?_, rfl⟩
    have : p.title = none := hst.base.title
    simp only [Option.getD_none, List.any_nil, Bool.or_false]
    rw [← this]
  | some es =>
    obtain ⟨dn, is, a1, a2⟩ := feed_title w k p m hst es (ho es rfl).1 (ho es rfl).2 (hpl.imp id (fun h => h es rfl)) as m1
    exact ⟨_, some is, a1, rfl, a2⟩

theorem feed_image (w : World) (k : Nat) (p : Parser) (tags : List Tag) (m : Option Meta) (f : Front) (hs : List Title)
    (E : List (List Title × Block)) (fl fl' : Flow) (h : Waits p m f hs E fl) (hm0 : tags = [] → m = none)
    (hmeta : (metaOf m).map bareM = tagsMeta tags) (target : Str) (args : List Arg) (title : Option (List Elem))
    (ho : (Blk.image target args title).Ok) (hpl : TagsFor tags (.image target args title))
    (hw : (w.resolve p.files target).isSome) (hn : fl.step (.image target args title) = some fl') (ts : List Token)
    (hma : Matches (Blk.image target args title).signs ts) :
    ∃ q, Feeds w k ts p q ∧ Ready w k q f hs
      (E ++ [(parents hs 5, (Blk.image target args title).block [] ((metaOf m).map bareM))]) fl' (fl.stop (.image target args title)) 0 := by
  obtain ⟨o1, o2⟩ := ho
  simp only [Blk.signs] at hma
  obtain ⟨as, vs, rfl, m1, hma⟩ := hma.split
  obtain ⟨t, rfl, ht⟩ := matches_one hma
  have hst := h.still
  have hb := hst.base
  have hq := h.quiet
  obtain ⟨pend, c1, c2, c3⟩ := hq.content
  obtain ⟨p1, ti, t1, t2, t3⟩ := feed_caption w k p m hst title o1 (hpl.imp hm0 (fun h => h.2.2)) as m1
  simp only [Flow.step] at hn
  obtain ⟨hsh, hn⟩ := Flow.open hn
  simp only [Option.some.injEq] at hn
  have hdat : p1.data = m := by rw [t2]; exact h.data
  have hblk : p1.blocks = pend.toList := by rw [t2]; exact c1
  have hti : p1.title = ti := by rw [t2]
  have hasg : p1.asg = p.asg := by rw [t2]
  obtain ⟨m', hm', hbare⟩ : ∃ m' : Option Meta, (match m with
      | some incoming => match imageMeta args with
        | some own => some (own.addFromOther incoming)
        | none => some incoming
      | none => imageMeta args) = m' ∧ m'.map bareM = (imageMeta args).or ((metaOf m).map bareM) := by
    refine ⟨_, rfl, ?_⟩
    cases m with
    | none => simp only [metaOf, Option.map_none, imageMeta_bare, Option.or_none]
    | some x =>
      rcases hpl with hpl | ⟨rfl, hpl, _⟩
      · cases hm0 hpl
      · rw [← hmeta] at hpl
        simp only [imageMeta, if_true, Option.none_or]
        by_cases hx : x.isEmpty = true
        · simp [metaOf, hx] at hpl
        · simp [metaOf, hx]
  let p2 : Parser := { p1 with data := none, title := none }
  have hstep : tokenInto w (k + 1) t p1 = .ok (put p2 (.image target (ti.getD []) m' t.locations) pend) := by
    rw [tokenInto_plain w k t p1 (by rw [t2]; exact hb.header) (by rw [t2]; exact hb.openText),
      ← add_put p2 rfl hs E fl pend (.image target (ti.getD []) m' t.locations) rfl hblk (by show Content p1.asg.blocks _ _ _ _; rw [hasg]; exact c3)]
    unfold dispatchToken
    rw [ht.ty]
    simp only [parseBlockImage]
    rw [image_read t b!"image::" target args (by rw [ht.ty]; rfl) (by rw [ht.text]; rfl) o2]
    have hck : checkTarget w p1 t.line target = .ok () := by
      have hfi : p1.files = p.files := by rw [t2]
      obtain ⟨x, hx⟩ := Option.isSome_iff_exists.1 hw
      unfold checkTarget
      rw [hfi, hx]
      split <;> rfl
    simp only [bind, Except.bind, hck, hdat, hti, p2]
    rw [← hm']
    cases m <;> cases imageMeta args <;> rfl
  refine ⟨_, t1.append (Feeds.one hstep), ?_⟩
  have := ready_put w k p2 f hs E fl pend (.image target (ti.getD []) m' t.locations) t.ty
    ⟨⟨by show p1.header = none; rw [t2]; exact hb.header, by show p1.openText = none; rw [t2]; exact hb.openText, rfl,
      by show p1.inCont = false; rw [t2]; exact hb.inCont, rfl⟩,
      by show p1.openLines = []; rw [t2]; exact hq.openLines, by show Steady p1.offset p1.attrs p1.asg; rw [t2]; exact hq.steady⟩
    (by show p1.inlines = []; rw [t2]; exact hst.inlines) (by rw [ht.ty]; exact ⟨by simp, by simp⟩) rfl rfl hblk
    (by show Content p1.asg.blocks _ _ _ _; rw [hasg]; exact c3) hsh
    (by show p1.asg.front = _; rw [hasg]; exact hq.front) (by show Built p1.asg; rw [hasg]; exact hq.built)
    (by show p1.preserveNl = true → _; rw [t2]; exact hq.kept)
  have hcp : p2.closeParent = (fl.ref || (Blk.image target args title).refers) := by
    show p1.closeParent = _
    rw [t2, ← hq.ref]
    rfl
  rw [hcp, hn] at this
  simp only [bareB, t3, hbare, shownL_nil] at this
  rw [show fl.stop (.image target args title) = fl' from hn]
  exact this

/-- An image that does not exist. -/
theorem feed_missing (w : World) (k : Nat) (p : Parser) (tags : List Tag) (m : Option Meta) (hst : Still p m)
    (hm0 : tags = [] → m = none) (target : Str) (args : List Arg) (title : Option (List Elem))
    (ho : (Blk.image target args title).Ok) (hpl : TagsFor tags (.image target args title)) (hr : p.resolveTargets = true)
    (hw : w.resolve p.files target = none) (as : List Token) (hma : Matches (titleSigns title) as) (t : Token)
    (ht : IsMark .blockImageMacro (b!"image::" ++ (target ++ (b!"[" ++ (joinB c!"," (args.map Arg.str) ++ b!"]")))) t) :
    ∃ q, Feeds w k as p q ∧ tokenInto w (k + 1) t q = .error (.err (.targetResolution t.line target)) := by
  obtain ⟨o1, o2⟩ := ho
  have hb := hst.base
  obtain ⟨p1, ti, t1, t2, t3⟩ := feed_caption w k p m hst title o1 (hpl.imp hm0 (fun h => h.2.2)) as hma
  refine ⟨p1, t1, ?_⟩
  rw [tokenInto_plain w k t p1 (by rw [t2]; exact hb.header) (by rw [t2]; exact hb.openText)]
  unfold dispatchToken
  rw [ht.ty]
  simp only [parseBlockImage]
  rw [image_read t b!"image::" target args (by rw [ht.ty]; rfl) (by rw [ht.text]; rfl) o2]
  have hck : checkTarget w p1 t.line target = .error (.err (.targetResolution t.line target)) := by
    have hfi : p1.files = p.files := by rw [t2]
    have hrt : p1.resolveTargets = true := by rw [t2]; exact hr
    unfold checkTarget
    rw [hfi, hw, if_pos hrt]
  simp only [bind, Except.bind, hck]

end Adoc.Rich
