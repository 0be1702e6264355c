import Verif.Proof.RichGraph
import Verif.Props.Verbatim
import Verif.Props.Graph
/-!
# The parser between blocks with inline markup
-/
namespace Adoc.Rich
open Spec Block Parser Scanner Props

/-- What the graph has besides blocks, ids and location. -/
abbrev Front := Option Header × Option (SMap Str) × Str

/-- Headings have no offset, and the attributes are those in the graph. -/
def Steady (o : Int) (a : SMap Str) (g : Asg) : Prop := o = 0 ∧ a = g.attributes.getD []

/-- Nothing special is going on. -/
structure Calm (p : Parser) : Prop extends Base p where
  openLines : p.openLines = []
  steady : Steady p.offset p.attrs p.asg

theorem base_same {p q : Parser} (h : Base p) (e : (q.header, q.openText, q.title, q.inCont, q.data)
    = (p.header, p.openText, p.title, p.inCont, p.data)) : Base q := by
  simp only [Prod.mk.injEq] at e
  obtain ⟨e1, e2, e3, e4, e6⟩ := e
  exact ⟨e1.trans h.header, e2.trans h.openText, e3.trans h.title, e4.trans h.inCont, e6.trans h.data⟩

theorem Steady.same {o o' : Int} {a a' : SMap Str} {g g' : Asg} (h : Steady o a g) (e : (o', a', g'.attributes) = (o, a, g.attributes)) :
    Steady o' a' g' := by
  simp only [Prod.mk.injEq] at e
  obtain ⟨rfl, rfl, e⟩ := e
  exact ⟨h.1, by rw [e]; exact h.2⟩

theorem Steady.step {p q : Parser} (h : Steady p.offset p.attrs p.asg) (e : (q.offset, q.attrs) = (p.offset, p.attrs)) (a : q.asg = p.asg) :
    Steady q.offset q.attrs q.asg := by
  simp only [Prod.mk.injEq] at e
  rw [a, e.1, e.2]; exact h

theorem Calm.same {p q : Parser} (h : Calm p) (e : (q.header, q.openText, q.title, q.inCont, q.data, q.openLines, q.offset, q.attrs, q.asg.attributes)
    = (p.header, p.openText, p.title, p.inCont, p.data, p.openLines, p.offset, p.attrs, p.asg.attributes)) : Calm q := by
  simp only [Prod.mk.injEq] at e
  obtain ⟨e1, e2, e3, e4, e6, e7, e8, e9, e10⟩ := e
  exact ⟨⟨e1.trans h.header, e2.trans h.openText, e3.trans h.title, e4.trans h.inCont, e6.trans h.data⟩,
    e7.trans h.openLines, h.steady.same (by rw [e8, e9, e10])⟩

theorem Calm.front {p q : Parser} (h : Calm p) (e : (q.header, q.openText, q.title, q.inCont, q.data, q.openLines, q.offset, q.attrs)
    = (p.header, p.openText, p.title, p.inCont, p.data, p.openLines, p.offset, p.attrs)) (f : q.asg.front = p.asg.front) : Calm q := by
  simp only [Prod.mk.injEq] at e
  obtain ⟨e1, e2, e3, e4, e6, e7, e8, e9⟩ := e
  exact h.same (by rw [e1, e2, e3, e4, e6, e7, e8, e9, show q.asg.attributes = p.asg.attributes from congrArg (·.2.1) f])

/-- The blocks of the graph and the section that is still open (the last argument) have the given contents, and the
headings so far are `hs`. -/
inductive Content (bs : List Block) (hs : List Title) (E : List (List Title × Block)) (fl : Flow) : Option Block → Prop where
  | flat (edge : fl.box = false → edgeL bs = true) (spine : parents hs 5 = spineL bs) (levels : ∀ h ∈ hs, h.1 < 5)
      (list : listedL [] bs = E) (sec : fl.sec = !hs.isEmpty) (shut : fl.shut = false → hs = []) : Content bs hs E fl none
  | under (ti : List Inline) (m : Option Meta) (v : Nat) (cs : List Block) (l : List Location) (below : edgeL bs = true)
      (edge : fl.box = false → edgeL cs = true) (flat : ∀ b ∈ cs, b.isSection = false) (levels : ∀ h ∈ hs, h.1 < 5)
      (list : listedL [] bs ++ listed ((spineL bs).takeWhile (·.1 < v)) (.section ti m v cs l) = E)
      (spine : parents hs 5 = (spineL bs).takeWhile (·.1 < v) ++ [(v, bareL ti)])
      (sec : fl.sec = true) (shut : fl.shut = false) : Content bs hs E fl (some (.section ti m v cs l))

/-- Put a block that is not a section at the end. -/
def put (p : Parser) (b : Block) : Option Block → Parser
  | some (.section t m v cs l) => { p with blocks := [Block.consolidate (.section t m v (cs ++ [b]) l)] }
  | _ => { p with blocks := [], asg := addLastBlock p.asg b }

/-- A block that is put at the end is listed last, below the last heading. -/
theorem Content.put {p : Parser} {hs : List Title} {E : List (List Title × Block)} {fl : Flow} {pend : Option Block}
    (h : Content p.asg.blocks hs E fl pend) (hsh : fl.shut = false) (b : Block) (hb : b.isSection = false)
    (r x : Bool) (hx : x = false → edgeB b = true) :
    ∃ pend', (put p b pend).blocks = pend'.toList ∧ pend'.isSome = pend.isSome ∧ pend.isSome = fl.sec
      ∧ Content (put p b pend).asg.blocks hs (E ++ [(parents hs 5, bareB b)]) { fl with ref := r, box := x } pend' := by
  cases h with
  | flat h1 h2 h3 h4 h5 h6 =>
    have hn := h6 hsh
    subst hn
    refine ⟨none, rfl, rfl, by rw [h5]; rfl, ?_⟩
    simp only [Rich.put, addLastBlock]
    refine .flat ?_ ?_ h3 ?_ h5 (fun _ => rfl)
    · intro h; rw [edgeL_snoc, edge_consolidate]; exact hx h
    · rw [spineL_snoc, spine_consolidate, spineB_nil b hb]; rfl
    · rw [listedL_append, h4]
      simp only [listedL, listed_consolidate, listed_leaf _ b hb, parents, List.append_nil]
  | under ti m v cs l h1 h2 h3 h5 h6 h7 h8 h9 =>
    refine ⟨some _, rfl, rfl, h8.symm, ?_⟩
    simp only [Rich.put, Block.consolidate]
    refine .under ti m v (cs ++ [b]) _ h1 ?_ ?_ h5 ?_ h7 h8 h9
    · intro h; rw [edgeL_snoc]; exact hx h
    · intro x hx
      rcases List.mem_append.1 hx with hx | hx
      · exact h3 x hx
      · rw [List.mem_singleton.1 hx]; exact hb
    · rw [← h6, h7]
      simp only [listed, listedL_append, listedL, listed_leaf _ b hb, List.append_nil, List.append_assoc, List.cons_append]

theorem built_last {g : Asg} (hg : Built g) (b : Block) (hb : b.isSection = false) : Built (addLastBlock g b) := by
  refine .push (b := b) hg ?_
  unfold Asg.pushBlock
  simp only [consolidate_isSection, hb, Bool.false_eq_true, if_false, pure, Except.pure, bind, Except.bind]
  rfl

theorem put_fields (p : Parser) (b : Block) (hb : b.isSection = false) (hid : Built p.asg) (pend : Option Block) :
    (put p b pend) = { p with blocks := (put p b pend).blocks, asg := (put p b pend).asg }
      ∧ (put p b pend).asg.front = p.asg.front ∧ Built (put p b pend).asg := by
  unfold put
  split
  · exact ⟨rfl, rfl, hid⟩
  · exact ⟨rfl, rfl, built_last hid b hb⟩

/-- The open section is added to the graph. -/
theorem Content.flush {p : Parser} {hs : List Title} {E : List (List Title × Block)} {fl : Flow} {s : Block}
    (h : Content p.asg.blocks hs E fl (some s)) (hid : Built p.asg) (blocks : List Block) :
    ∃ g, graphPush { p with blocks := blocks } s = .ok { p with blocks := blocks, asg := g }
      ∧ (fl.box = false → edgeL g.blocks = true) ∧ listedL [] g.blocks = E ∧ parents hs 5 = spineL g.blocks
      ∧ (∀ h ∈ hs, h.1 < 5) ∧ g.front = p.asg.front ∧ Built g ∧ hs ≠ [] := by
  cases h with
  | under ti m v cs l h1 h2 h3 h5 h6 h7 h8 h9 =>
    obtain ⟨bs', g1, g2⟩ := pushSection_listed ti m v cs (Block.recBlocks (Block.recInlines l ti) cs) (spineL_nil h3) _ p.asg.blocks
      (Nat.lt_succ_self _) h1
    have hpush : p.asg.pushBlock (.section ti m v cs l) = .ok { p.asg with
        idHash := SMap.extend p.asg.idHash (Block.section ti m v cs (Block.recBlocks (Block.recInlines l ti) cs)).idHashes
        blocks := bs' } := by
      unfold Asg.pushBlock
      simp only [Block.consolidate, Block.isSection, if_true, g1, bind, Except.bind, pure, Except.pure]
    unfold graphPush
    simp only [hpush]
    refine ⟨_, rfl, ?_, ?_, ?_, h5, rfl, .push hid hpush, ?_⟩
    · intro h; rw [g2.edge]; exact h2 h
    · rw [g2.listed, ← h6]
      simp only [List.nil_append, listed]
    · rw [g2.spine]; exact h7
    · rintro rfl; simp [parents] at h7

/-- Between two blocks. -/
structure Between (p : Parser) (f : Front) (hs : List Title) (E : List (List Title × Block)) (fl : Flow) : Prop
    extends Calm p where
  inlines : p.inlines = []
  dangling : p.dangling = none
  line : p.inBlockLine = false
  span : p.inSpan = false
  ref : p.closeParent = fl.ref
  front : p.asg.front = f
  built : Built p.asg
  last : p.lastTy = .newLineChar ∨ p.lastTy = .eof
  kept : p.preserveNl = true → fl.kept = true
  content : ∃ pend, p.blocks = pend.toList ∧ (pend = none ∨ p.forceNew = true) ∧ Content p.asg.blocks hs E fl pend

/-- After a file that was included. -/
structure Left (p : Parser) (f : Front) (hs : List Title) (E : List (List Title × Block)) (fl : Flow) : Prop
    extends Calm p where
  inlines : p.inlines = []
  ref : p.closeParent = fl.ref
  front : p.asg.front = f
  built : Built p.asg
  kept : p.preserveNl = true → fl.kept = true
  content : ∃ pend, p.blocks = pend.toList ∧ Content p.asg.blocks hs E fl pend

/-- What is done at the end of the document, and at the end of a file that is included; `o` says whether a section was open
where the file is included. -/
def Ended (p : Parser) (f : Front) (hs : List Title) (E : List (List Title × Block)) (fl : Flow) : Prop :=
  (∃ q : Parser, finish p = .ok { q with asg := q.asg.consolidate } ∧ listedL [] q.asg.blocks = E ∧ q.asg.front = f ∧ Built q.asg)
    ∧ ∃ p1 : Parser, addInlines p = .ok p1 ∧ ∀ o, (o = true → fl.sec = true) →
      ∃ q, drain (if o then 1 else 0) p1.blocks.length p1 = .ok q ∧ Left q f hs E (fl.leave o)

/-- The document, or a file that is included, may end here. -/
def Finishes (p : Parser) (f : Front) (hs : List Title) (E : List (List Title × Block)) (fl : Flow) : Prop :=
  ∀ ty, Ended { p with lastTy := ty } f hs E fl

/-- A newline token. -/
abbrev IsNewline (t : Token) : Prop := IsMark .newLineChar b!"\n" t

/-- After a block: what newlines do, and the end of the document, or of a file, after `n` newlines or more. -/
structure Ready (w : World) (k : Nat) (p : Parser) (f : Front) (hs : List Title) (E : List (List Title × Block)) (fl fe : Flow)
    (n : Nat) : Prop where
  header : p.header = none
  openText : p.openText = none
  blank : ∀ t1 t2, IsNewline t1 → IsNewline t2 → ∃ q, Feeds w k [t1, t2] p q ∧ Between q f hs E fl
  end0 : n = 0 → Finishes p f hs E fe
  end1 : n ≤ 1 → ∀ t, IsNewline t → ∃ q, Feeds w k [t] p q ∧ q.header = none ∧ q.openText = none ∧ Finishes q f hs E fe

/-! ## Newlines -/

/-- The last token was not a newline. -/
def After (ty : TokenType) : Prop := ty ≠ .newLineChar ∧ ty ≠ .eof

theorem base_data {p : Parser} (h : Base p) : Base { p with data := none } :=
  ⟨h.header, h.openText, h.title, h.inCont, rfl⟩

theorem one_newline (w : World) (k : Nat) (p : Parser) (hb : Base { p with data := none }) (hl : After p.lastTy) (t : Token) (ht : IsNewline t) :
    ∃ d, Feeds w k [t] p { p with inBlockLine := false, dangling := d, lastTy := .newLineChar } := by
  have hti : p.title = none := hb.title
  have hic : p.inCont = false := hb.inCont
  have h : ∃ d, tokenInto w (k + 1) t p = .ok { p with inBlockLine := false, dangling := d } := by
    rw [tokenInto_plain w k t p hb.header hb.openText]
    unfold dispatchToken
    rw [ht.ty]
    simp only [parseNewLine, hti, hl.1, hl.2, or_self, if_false, hic, Bool.false_or]
    split
    · exact ⟨_, rfl⟩
    · exact ⟨_, rfl⟩
  obtain ⟨d, h⟩ := h
  exact ⟨d, by have := Feeds.one h; rw [ht.ty] at this; exact this⟩

theorem two_newlines (w : World) (k : Nat) (p : Parser) (hb : Base { p with data := none }) (hl : After p.lastTy) (t1 t2 : Token)
    (h1 : IsNewline t1) (h2 : IsNewline t2) (q : Parser)
    (hq : ∀ d, blankLine { p with inBlockLine := false, dangling := d, lastTy := .newLineChar } = .ok q) :
    Feeds w k [t1, t2] p { q with lastTy := .newLineChar } := by
  obtain ⟨d, g⟩ := one_newline w k p hb hl t1 h1
  have g2 := newLine_second w k { p with inBlockLine := false, dangling := d, lastTy := .newLineChar } t2 h2.ty hb.header
    hb.openText hb.title (.inl rfl)
  have g3 : Feeds w k [t2] _ _ := Feeds.one (g2.trans (hq d))
  rw [h2.ty] at g3
  exact g.append g3

/-- What `blankLine` does once pending inlines have been added. -/
def settle (p : Parser) : M Parser :=
  let p := { p with forceNew := true }
  match p.blocks with
  | [] => return p
  | b :: rest =>
    let p := { p with blocks := rest }
    if !b.isSection && p.openLines.isEmpty then do
      let p ← p.addToStackOrGraph b
      if p.closeParent && !p.blocks.isEmpty then
        let p ← p.addLastToStackOrGraph
        return { p with closeParent := false }
      else return p
    else p.pushToStack b

/-- A blank line when the last block is not a list item. -/
theorem blank_eq (p : Parser) (hh : p.header = none) (h : ∀ b, p.blocks.head? = some b → b.isAnyItem = false) :
    p.blankLine = (addInlines { p with dangling := none, inSpan := false }).bind settle := by
  unfold blankLine
  simp only [hh, bind, Except.bind]
  cases hb : p.blocks with
  | nil => rfl
  | cons b bs =>
    have := h b (by rw [hb]; rfl)
    simp only [this, Bool.false_eq_true, if_false]
    rfl

/-- Where the block is put and what follows from that. -/
theorem settle_block (p : Parser) (hc : Calm p) (f : Front) (hs : List Title) (E : List (List Title × Block)) (fl : Flow)
    (pend : Option Block) (b : Block) (hb : b.isSection = false) (x : Bool) (he : x = false → edgeB b = true)
    (hbl : p.blocks = b :: pend.toList) (hcon : Content p.asg.blocks hs E fl pend) (hsh : fl.shut = false)
    (hi : p.inlines = []) (hd : p.dangling = none) (hl : p.inBlockLine = false) (hsp : p.inSpan = false)
    (hf : p.asg.front = f) (hids : Built p.asg) (hk : p.preserveNl = true → fl.kept = true) :
    ∃ q, settle p = .ok q ∧ Between { q with lastTy := .newLineChar } f hs (E ++ [(parents hs 5, bareB b)])
      (if fl.sec && p.closeParent then { fl with ref := false, shut := true, box := x } else { fl with ref := p.closeParent, box := x }) := by
  have hlev : b.levelCheck = none := by cases b <;> first | rfl | cases hb
  obtain ⟨pend', c1, c2, c3, c4⟩ := hcon.put (p := { p with forceNew := true }) hsh b hb p.closeParent x he
  obtain ⟨f1, f2, f3⟩ := put_fields { p with forceNew := true } b hb hids pend
  have hadd : addToStackOrGraph { p with forceNew := true, blocks := pend.toList } b = .ok (put { p with forceNew := true } b pend) := by
    cases hcon with
    | flat =>
      simp only [addToStackOrGraph, Option.toList_none, hc.data, graphPush_leaf _ _ hb, put]
    | under =>
      simp only [addToStackOrGraph, Option.toList_some, Block.takesBlock, hlev, if_true, Block.pushBlock, hb,
        Bool.false_eq_true, if_false, liftB, pure, Except.pure, put, bind, Except.bind]
  have hcp : (put { p with forceNew := true } b pend).closeParent = p.closeParent := by rw [f1]
  have hset : settle p = (if (put { p with forceNew := true } b pend).closeParent && !(put { p with forceNew := true } b pend).blocks.isEmpty
      then (addLastToStackOrGraph (put { p with forceNew := true } b pend)).bind fun q => .ok { q with closeParent := false }
      else .ok (put { p with forceNew := true } b pend)) := by
    unfold settle
    simp only [hbl, hb, hc.openLines, List.isEmpty_nil, Bool.not_false, Bool.and_self, if_true, bind, Except.bind]
    rw [← hc.openLines] 
    rw [hadd]
    rfl
  have hbe : (put { p with forceNew := true } b pend).blocks.isEmpty = !fl.sec := by
    rw [c1, ← c3, ← c2]; cases pend' <;> rfl
  rw [hset, hcp, hbe, Bool.not_not, Bool.and_comm]
  generalize hq : put { p with forceNew := true } b pend = q at *
  have hcq : Calm q := by
    rw [f1]; exact hc.front rfl f2
  by_cases hc2 : (fl.sec && p.closeParent) = true
  · rw [if_pos hc2, if_pos hc2]
    have hsec : fl.sec = true := by rw [Bool.and_eq_true] at hc2; exact hc2.1
    obtain ⟨s, rfl⟩ : ∃ s, pend' = some s := by
      rw [← Option.isSome_iff_exists, c2, c3]; exact hsec
    obtain ⟨g, g1, g2, g3, g4, g5, g6, g7, g8⟩ := c4.flush f3 []
    have hal : addLastToStackOrGraph q = .ok { q with blocks := [], asg := g } := by
      unfold addLastToStackOrGraph
      rw [c1]
      exact g1
    rw [hal]
    refine ⟨_, rfl, ⟨hcq.front rfl g6, ?_, ?_, ?_, ?_, rfl, ?_, g7, .inl rfl, ?_,
      none, rfl, .inl rfl, ?_⟩⟩
    · show q.inlines = []; rw [f1]; exact hi
    · show q.dangling = none; rw [f1]; exact hd
    · show q.inBlockLine = false; rw [f1]; exact hl
    · show q.inSpan = false; rw [f1]; exact hsp
    · exact g6.trans (f2.trans hf)
    · show q.preserveNl = true → _; rw [f1]; exact hk
    · refine .flat g2 g4 g5 g3 ?_ (by simp)
      cases hs with
      | nil => exact absurd rfl g8
      | cons => exact hsec
  · rw [if_neg hc2, if_neg hc2]
    refine ⟨_, rfl, ⟨hcq.same rfl, ?_, ?_, ?_, ?_, ?_, f2.trans hf, f3, .inl rfl, ?_,
      pend', c1, .inr ?_, c4⟩⟩
    · show q.inlines = []; rw [f1]; exact hi
    · show q.dangling = none; rw [f1]; exact hd
    · show q.inBlockLine = false; rw [f1]; exact hl
    · show q.inSpan = false; rw [f1]; exact hsp
    · exact hcp
    · show q.preserveNl = true → _; rw [f1]; exact hk
    · show q.forceNew = true; rw [f1]

/-- A blank line when nothing is pending. -/
theorem blank_quiet (p : Parser) (hc : Calm p) (hs : List Title) (E : List (List Title × Block)) (fl : Flow)
    (pend : Option Block) (hi : p.inlines = []) (hbl : p.blocks = pend.toList) (hcon : Content p.asg.blocks hs E fl pend) :
    p.blankLine = .ok { p with dangling := none, inSpan := false, forceNew := true } := by
  rw [blank_eq p hc.header (by
    intro b hb
    rw [hbl] at hb
    cases hcon with
    | flat => simp at hb
    | under => simp at hb; rw [← hb]; rfl), addInlines_nil _ (by exact hi)]
  cases hcon with
  | flat => simp only [Except.bind, settle, hbl, Option.toList_none]; rfl
  | under =>
    simp only [Except.bind, settle, hbl, Option.toList_some, isSection, Bool.not_true, Bool.false_and, Bool.false_eq_true,
      if_false, pushToStack, hc.inCont, hc.data]

/-! ## The end of the document -/

theorem drain_zero (n k : Nat) (p : Parser) (h : p.blocks.length ≤ n) : drain n k p = .ok p := by
  cases k with
  | zero => rfl
  | succ k => rw [drain, if_neg (by omega)]

theorem Content.isSome {bs : List Block} {hs : List Title} {E : List (List Title × Block)} {fl : Flow} {pend : Option Block}
    (h : Content bs hs E fl pend) : pend.isSome = (fl.sec && !fl.shut) := by
  cases h with
  | flat h1 h2 h3 h4 h5 h6 =>
    rw [h5]
    cases hsh : fl.shut with
    | false => rw [h6 hsh]; rfl
    | true => simp
  | under ti m v cs l h1 h2 h3 h5 h6 h7 h8 h9 => rw [h8, h9]; rfl

theorem pend_length {pend : Option Block} {b : Bool} (h : pend.isSome = b) : pend.toList.length = if b then 1 else 0 := by
  subst h
  cases pend <;> rfl

theorem drain_put (p : Parser) (hc : Calm p) (hs : List Title) (E : List (List Title × Block)) (fl : Flow)
    (pend : Option Block) (b : Block) (hb : b.isSection = false) (hbl : p.blocks = b :: pend.toList)
    (hcon : Content p.asg.blocks hs E fl pend) (n k : Nat) (hn : n ≤ pend.toList.length) :
    drain n (k + 1) p = drain n k (put p b pend) := by
  have hlev : b.levelCheck = none := by cases b <;> first | rfl | cases hb
  rw [drain, if_pos (by rw [hbl]; simpa using Nat.lt_succ_of_le hn)]
  unfold addLastToGraph
  cases hcon with
  | flat =>
    simp only [hbl, hc.data, Option.toList_none, bind, Except.bind, graphPush_leaf _ _ hb, put]
  | under =>
    simp only [hbl, hc.data, Option.toList_some, Block.takesBlock, hlev, if_true, Block.pushBlock, hb, Bool.false_eq_true,
      if_false, liftB, pure, Except.pure, put, bind, Except.bind]

theorem drain_pend (p : Parser) (hd : p.data = none) (hs : List Title) (E : List (List Title × Block)) (fl : Flow)
    (pend : Option Block) (hbl : p.blocks = pend.toList) (hid : Built p.asg) (hcon : Content p.asg.blocks hs E fl pend) :
    ∃ g, drain 0 pend.toList.length p = .ok { p with blocks := [], asg := g } ∧ listedL [] g.blocks = E ∧ g.front = p.asg.front
      ∧ Built g ∧ Content g.blocks hs E (fl.leave false) none := by
  have hso := hcon.isSome
  cases hcon with
  | flat h1 h2 h3 h4 h5 h6 =>
    refine ⟨p.asg, ?_, h4, rfl, hid, ?_⟩
    · have : p = { p with blocks := [], asg := p.asg } := by
        rw [← show p.blocks = [] from hbl]
      rw [← this]; rfl
    · have : fl.leave false = fl := by
        unfold Flow.leave
        rw [← hso]; rfl
      rw [this]
      exact .flat h1 h2 h3 h4 h5 h6
  | under ti m v cs l h1 h2 h3 h5 h6 h7 h8 h9 =>
    obtain ⟨g, g1, g2, g3, g4, g5, g6, g7, g8⟩ := Content.flush (p := { p with data := none })
      (Content.under ti m v cs l h1 h2 h3 h5 h6 h7 h8 h9) hid []
    refine ⟨g, ?_, g3, g6, g7, ?_⟩
    · simp only [Option.toList_some, List.length_cons, List.length_nil, drain, hbl, Nat.zero_add, Nat.lt_add_one, if_true,
        addLastToGraph, hd, bind, Except.bind]
      rw [g1]
    · have : fl.leave false = { fl with shut := true } := by
        unfold Flow.leave
        rw [h8, h9]; rfl
      rw [this]
      refine .flat g2 g4 g5 g3 ?_ nofun
      cases hs with
      | nil => exact absurd rfl g8
      | cons => exact h8

theorem finish_of_drain (p p1 q : Parser) (f : Front) (E : List (List Title × Block)) (h1 : p.addInlines = .ok p1)
    (h2 : drain 0 p1.blocks.length p1 = .ok q) (h3 : listedL [] q.asg.blocks = E) (h4 : q.asg.front = f)
    (h5 : Built q.asg) :
    ∃ q : Parser, p.finish = .ok { q with asg := q.asg.consolidate } ∧ listedL [] q.asg.blocks = E ∧ q.asg.front = f ∧ Built q.asg := by
  unfold finish
  simp only [h1, bind, Except.bind, h2, pure, Except.pure]
  exact ⟨q, rfl, h3, h4, h5⟩

/-- The end of the document or of a file, when the parser `r` comes about where nothing is left but an open section. -/
theorem ended_pend (p p1 r : Parser) (hs : List Title) (E : List (List Title × Block)) (fl : Flow) (pend : Option Block)
    (h1 : p.addInlines = .ok p1)
    (h2 : ∀ n, n ≤ pend.toList.length ∨ fl.shut = true → drain n p1.blocks.length p1 = drain n pend.toList.length r)
    (hc : Calm r) (hi : r.inlines = []) (hbl : r.blocks = pend.toList) (hid : Built r.asg) (hcon : Content r.asg.blocks hs E fl pend)
    (hr : r.closeParent = fl.ref) (hk : r.preserveNl = true → fl.kept = true) : Ended p r.asg.front hs E fl := by
  obtain ⟨g, h3, h4, h5, h6, h7⟩ := drain_pend r hc.data hs E fl pend hbl hid hcon
  have e0 := (h2 0 (.inl (Nat.zero_le _))).trans h3
  have hso := hcon.isSome
  refine ⟨finish_of_drain p p1 _ _ E h1 e0 h4 h5 h6, p1, h1, fun o ho => ?_⟩
  cases o with
  | false =>
    refine ⟨_, e0, hc.front rfl h5, hi, ?_, h5, h6, ?_, none, rfl, h7⟩
    · show r.closeParent = (fl.leave false).ref
      rw [hr]; unfold Flow.leave; split <;> rfl
    · show r.preserveNl = true → (fl.leave false).kept = true
      have : (fl.leave false).kept = fl.kept := by unfold Flow.leave; split <;> rfl
      rw [this]; exact hk
  | true =>
    have hl : fl.leave true = fl := by unfold Flow.leave; simp
    have ho := ho rfl
    rw [hl]
    refine ⟨r, (h2 1 ?_).trans (drain_zero _ _ _ ?_), hc, hi, hr, rfl, hid, hk, pend, hbl, hcon⟩
    · rw [pend_length hso, ho]
      cases fl.shut <;> simp
    · rw [hbl, pend_length hso]; split <;> simp

/-- The end of the document or of a file with nothing pending. -/
theorem finish_quiet (p : Parser) (hc : Calm p) (hs : List Title) (E : List (List Title × Block)) (fl : Flow)
    (pend : Option Block) (hi : p.inlines = []) (hbl : p.blocks = pend.toList) (hid : Built p.asg)
    (hcon : Content p.asg.blocks hs E fl pend) (hr : p.closeParent = fl.ref) (hk : p.preserveNl = true → fl.kept = true) :
    Ended p p.asg.front hs E fl :=
  ended_pend p p p hs E fl pend (addInlines_nil p hi) (fun n _ => by rw [hbl]) hc hi hbl hid hcon hr hk

/-- The end of the document or of a file when a block is left to be put. -/
theorem finish_put (p p1 : Parser) (hs : List Title) (E : List (List Title × Block)) (fl : Flow) (pend : Option Block)
    (b : Block) (hb : b.isSection = false) (hsh : fl.shut = false) (h1 : p.addInlines = .ok p1)
    (h2 : ∀ n ≤ pend.toList.length, drain n p1.blocks.length p1 = drain n (pend.toList.length + 1) { p1 with blocks := b :: pend.toList })
    (hc : Calm p1) (hcon : Content p1.asg.blocks hs E fl pend) (hids : Built p1.asg) (hi : p1.inlines = [])
    (x : Bool) (hx : x = false → edgeB b = true) (hk : p1.preserveNl = true → fl.kept = true) :
    Ended p p1.asg.front hs (E ++ [(parents hs 5, bareB b)]) { fl with ref := p1.closeParent, box := x } := by
  have hc' : Calm { p1 with blocks := b :: pend.toList } :=
    hc.same rfl
  have h2' : ∀ n ≤ pend.toList.length, _ := fun n hn =>
    (h2 n hn).trans (drain_put { p1 with blocks := b :: pend.toList } hc' hs E fl pend b hb rfl hcon n _ hn)
  obtain ⟨f1, f2, f3⟩ := put_fields { p1 with blocks := b :: pend.toList } b hb hids pend
  obtain ⟨pend', c1, c2, c3, c4⟩ := hcon.put (p := { p1 with blocks := b :: pend.toList }) hsh b hb p1.closeParent x hx
  have hlen : pend'.toList.length = pend.toList.length := by
    clear h2 h2' c1 c4 f1 f2 f3 hcon
    cases pend <;> cases pend' <;> first | rfl | cases c2
  generalize put { p1 with blocks := b :: pend.toList } b pend = q' at *
  have f2' : q'.asg.front = p1.asg.front := f2
  rw [← f2']
  refine ended_pend p p1 q' hs _ _ pend' h1 (fun n hn => ?_) (by rw [f1]; exact hc.front rfl f2) (by rw [f1]; exact hi) c1 f3 c4
    (by rw [f1]) (by rw [f1]; exact hk)
  rw [hlen] at hn ⊢
  exact h2' n (hn.resolve_right (by simp [hsh]))

/-- More newlines between blocks. -/
theorem Between.newline {p : Parser} {f : Front} {hs : List Title} {E : List (List Title × Block)} {fl : Flow}
    (h : Between p f hs E fl) (w : World) (k : Nat) (t : Token) (ht : IsNewline t) :
    ∃ q, Feeds w k [t] p q ∧ Between q f hs E fl := by
  obtain ⟨pend, h1, h2, h3⟩ := h.content
  have hc := h.toCalm
  have g := newLine_second w k p t ht.ty hc.header hc.openText hc.title h.last
  rw [blank_quiet { p with inBlockLine := false } (hc.same rfl) hs E fl pend
    h.inlines h1 h3] at g
  refine ⟨_, Feeds.one g, ⟨(hc.same rfl),
    h.inlines, rfl, rfl, rfl, h.ref, h.front, h.built, .inl ht.ty, h.kept, pend, h1, .inr rfl, h3⟩⟩

theorem Between.finish {p : Parser} {f : Front} {hs : List Title} {E : List (List Title × Block)} {fl : Flow}
    (h : Between p f hs E fl) : Finishes p f hs E fl := by
  intro ty
  obtain ⟨pend, h1, h2, h3⟩ := h.content
  rw [← h.front]
  exact finish_quiet { p with lastTy := ty } (h.toCalm.same rfl) hs E fl pend h.inlines h1 h.built h3 h.ref h.kept

end Adoc.Rich
