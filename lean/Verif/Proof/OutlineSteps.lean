import Verif.Proof.Outline
import Verif.Proof.DocTokens
import Verif.Proof.TextSteps
/-!
# The parser on chunks of text: headings, paragraphs and flat lists
-/
namespace Adoc.Parser
open Spec Proof Props Scanner
open Block (liftB)

/-! ## Cross references do not change what is read -/

theorem soleText_map (h : SMap (List Inline)) (is : List Inline) :
    soleText (is.map (Inline.resolveXref h)) = soleText is := by
  match is with
  | [] => rfl
  | [i] =>
    cases i with
    | ref v => cases v <;> rfl
    | _ => rfl
  | i :: j :: is => simp [soleText]

theorem itemText_map (v : ListVariant) (h : SMap (List Inline)) (b : Block) :
    itemText v (b.mapInlines (Inline.resolveXref h)) = itemText v b := by
  cases b with
  | listItem k p bs m l =>
    cases bs <;> cases m <;> simp only [Block.mapInlines, Block.mapInlinesL, itemText, soleText_map]
  | _ => simp only [Block.mapInlines, itemText]

theorem view_map (h : SMap (List Inline)) (b : Block) : view (b.mapInlines (Inline.resolveXref h)) = view b := by
  cases b with
  | leaf n f d is m l =>
    cases n <;> cases f <;> cases d <;> cases m <;> simp only [Block.mapInlines, view, soleText_map]
  | list v items m l =>
    have : ∀ bs : List Block, (Block.mapInlinesL (Inline.resolveXref h) bs).map (itemText v) = bs.map (itemText v) := by
      intro bs
      induction bs with
      | nil => rfl
      | cons b bs ih => simp only [Block.mapInlinesL, List.map_cons, ih, itemText_map]
    cases m <;> simp only [Block.mapInlines, view, this]
  | _ => simp only [Block.mapInlines, view]

mutual
theorem reading_map (h : SMap (List Inline)) : ∀ (b : Block) (path : List Heading),
    reading path (b.mapInlines (Inline.resolveXref h)) = reading path b
  | .section t m v bs l, path => by
    simp only [Block.mapInlines, reading, viewHead, soleText_map, readingL_map h bs]
  | .leaf n f d is m l, path => by
    have := view_map h (.leaf n f d is m l)
    simp only [Block.mapInlines] at this
    simp only [Block.mapInlines, reading, this]
  | .list v bs m l, path => by
    have := view_map h (.list v bs m l)
    simp only [Block.mapInlines] at this
    simp only [Block.mapInlines, reading, this]
  | .listItem .., _ | .dlist .., _ | .dlistItem .., _ | .brk .., _ | .image .., _ | .parent .., _ | .tableCell .., _ => by
    simp only [Block.mapInlines, reading, view]
theorem readingL_map (h : SMap (List Inline)) : ∀ (bs : List Block) (path : List Heading),
    readingL path (Block.mapInlinesL (Inline.resolveXref h) bs) = readingL path bs
  | [], _ => rfl
  | b :: bs, path => by simp only [Block.mapInlinesL, readingL, reading_map h b, readingL_map h bs]
end

/-! ## States -/

/-- Nothing special is going on. -/
def Calm (p : Parser) : Prop :=
  (p.header, p.openText, p.data, p.title, p.openLines, p.inCont, p.preserveNl, p.closeParent, p.offset)
    = (none, none, none, none, [], false, false, false, 0)

namespace Calm
variable {p : Parser} (h : Calm p)
include h
theorem header : p.header = none := congrArg (·.1) h
theorem openText : p.openText = none := congrArg (·.2.1) h
theorem data : p.data = none := congrArg (·.2.2.1) h
theorem title : p.title = none := congrArg (·.2.2.2.1) h
theorem openLines : p.openLines = [] := congrArg (·.2.2.2.2.1) h
theorem inCont : p.inCont = false := congrArg (·.2.2.2.2.2.1) h
theorem preserveNl : p.preserveNl = false := congrArg (·.2.2.2.2.2.2.1) h
theorem closeParent : p.closeParent = false := congrArg (·.2.2.2.2.2.2.2.1) h
theorem offset : p.offset = 0 := congrArg (·.2.2.2.2.2.2.2.2) h
end Calm

/-- The blocks of the graph and the section that is still open have the given reading, and the headings so far are
`hs`. -/
inductive Content (bs : List Block) (hs : List Heading) (E : List (List Heading × Entry)) : Option Block → Prop where
  | flat (h1 : plainL bs = true) (h2 : spineL bs = []) (h3 : hs = []) (h4 : readingL [] bs = E) : Content bs hs E none
  | under (ti : List Inline) (v : Nat) (cs : List Block) (l : List Location) (h1 : plainL bs = true)
      (h2 : plainL cs = true) (h3 : spineL cs = []) (h4 : ∀ h ∈ hs, h.1 < 5)
      (h5 : readingL [] bs ++ reading ((spineL bs).takeWhile (·.1 < v)) (.section ti none v cs l) = E)
      (h6 : parents hs 5 = (spineL bs).takeWhile (·.1 < v) ++ [(v, (soleText ti).getD [])]) :
      Content bs hs E (some (.section ti none v cs l))

/-- Put a block that is not a section at the end. -/
def put (p : Parser) (b : Block) : Option Block → Parser
  | some (.section t m v cs l) => { p with blocks := [Block.consolidate (.section t m v (cs ++ [b]) l)] }
  | _ => { p with blocks := [], asg := addLastBlock p.asg b }

theorem spineL_append_leaf (cs : List Block) (b : Block) (hb : b.isSection = false) : spineL (cs ++ [b]) = [] := by
  rw [spineL_snoc, spineL_nil_of_last b hb]

theorem reading_leaf (path : List Heading) (b : Block) (hb : b.isSection = false) : reading path b = [(path, view b)] := by
  cases b <;> first | rfl | cases hb

/-- A block that is put at the end is read last, below the last heading. -/
theorem Content.put {p : Parser} {hs : List Heading} {E : List (List Heading × Entry)} {pend : Option Block}
    (h : Content p.asg.blocks hs E pend) (b : Block) (hb : b.isSection = false) (hp : plainB b = true) :
    ∃ pend', (put p b pend).blocks = pend'.toList
      ∧ Content (put p b pend).asg.blocks hs (E ++ [(parents hs 5, view b)]) pend' := by
  cases h with
  | flat h1 h2 h3 h4 =>
    refine ⟨none, rfl, ?_⟩
    simp only [Parser.put, addLastBlock]
    refine .flat ?_ ?_ h3 ?_
    · rw [plainL_append, h1]; simp [plainL, plain_consolidate, hp]
    · rw [spineL_snoc, spine_consolidate, spineL_nil_of_last b hb]
    · rw [readingL_append, h4]
      simp only [readingL, reading_consolidate, reading_leaf _ b hb, h3, parents, List.append_nil]
  | under ti v cs l h1 h2 h3 h4 h5 h6 =>
    refine ⟨some _, rfl, ?_⟩
    simp only [Parser.put, Block.consolidate]
    refine .under ti v (cs ++ [b]) _ h1 ?_ ?_ h4 ?_ h6
    · rw [plainL_append, h2]; simp [plainL, hp]
    · exact spineL_append_leaf cs b hb
    · rw [← h5, h6]
      simp only [reading, readingL_append, readingL, reading_leaf _ b hb, List.append_nil, List.append_assoc,
        List.cons_append]

/-- The open section is added to the graph. -/
theorem Content.flush {p : Parser} {hs : List Heading} {E : List (List Heading × Entry)} {s : Block}
    (h : Content p.asg.blocks hs E (some s)) (blocks : List Block) :
    ∃ g, graphPush { p with blocks := blocks } s = .ok { p with blocks := blocks, asg := g } ∧ plainL g.blocks = true
      ∧ readingL [] g.blocks = E ∧ parents hs 5 = spineL g.blocks ∧ (∀ h ∈ hs, h.1 < 5) ∧ g.front = p.asg.front := by
  cases h with
  | under ti v cs l h1 h2 h3 h4 h5 h6 =>
    obtain ⟨bs', h7, h8⟩ := pushSection_reading ti none v cs (Block.recBlocks (Block.recInlines l ti) cs) h2 h3 _ p.asg.blocks
      (Nat.lt_succ_self _) h1
    unfold graphPush Asg.pushBlock
    simp only [Block.consolidate, Block.isSection, if_true, h7, bind, Except.bind, pure, Except.pure]
    refine ⟨_, rfl, h8.plain, ?_, ?_, h4, rfl⟩
    · rw [h8.reading, ← h5]
      simp only [List.nil_append, reading]
    · rw [h8.spine]; exact h6

/-- Between two chunks. -/
structure Between (p : Parser) (f : Option Header × Option (SMap Str) × Str) (hs : List Heading)
    (E : List (List Heading × Entry)) : Prop where
  calm : Calm p
  inlines : p.inlines = []
  dangling : p.dangling = none
  line : p.inBlockLine = false
  front : p.asg.front = f
  content : ∃ pend, p.blocks = pend.toList ∧ (pend = none ∨ p.forceNew = true) ∧ Content p.asg.blocks hs E pend

/-- After the text of a chunk: a paragraph, a heading, or the last item of a list. -/
inductive Open (p : Parser) (f : Option Header × Option (SMap Str) × Str) :
    List Heading → List (List Heading × Entry) → Prop where
  | para (hs : List Heading) (E : List (List Heading × Entry)) (pend : Option Block) (t : Str) (l : List Location)
      (calm : Calm p) (front : p.asg.front = f) (blocks : p.blocks = pend.toList)
      (force : pend = none ∨ p.forceNew = true) (content : Content p.asg.blocks hs E pend)
      (inlines : p.inlines = [.lit .text t l]) : Open p f hs (E ++ [(parents hs 5, .para t)])
  | head (hs : List Heading) (E : List (List Heading × Entry)) (v : Nat) (t : Str) (l l' : List Location)
      (calm : Calm p) (front : p.asg.front = f) (blocks : p.blocks = [.section [] none v [] l])
      (force : p.forceNew = false) (inlines : p.inlines = [.lit .text t l'])
      (content : Content p.asg.blocks hs E (some (.section [.lit .text t l'] none v [] l))) : Open p f hs E
  | list (hs : List Heading) (E : List (List Heading × Entry)) (pend : Option Block) (v : ListVariant) (t : Str)
      (items : List Block) (ts : List Str) (l l1 l2 : List Location)
      (calm : Calm p) (front : p.asg.front = f)
      (blocks : p.blocks = .listItem (bullet v) [] [] none l1 :: .list v items none l2 :: pend.toList)
      (content : Content p.asg.blocks hs E pend) (inlines : p.inlines = [.lit .text t l])
      (texts : allSome (items.map (itemText v)) = some ts) :
      Open p f hs (E ++ [(parents hs 5, .list v (ts ++ [t]))])

/-! ## Blank lines -/

/-- What `blankLine` does once pending inlines have been added. -/
def settle (p : Parser) : M Parser :=
  let p := { p with forceNew := true }
  match p.blocks with
  | [] => return p
  | b :: rest =>
    let p := { p with blocks := rest }
    if !b.isSection && p.openLines.isEmpty then do
      let p ← p.addToStackOrGraph b
      if p.closeParent && !p.blocks.isEmpty then
        let p ← p.addLastToStackOrGraph
        return { p with closeParent := false }
      else return p
    else p.pushToStack b

theorem settle_block (p : Parser) (hc : Calm p) (hs : List Heading) (E : List (List Heading × Entry))
    (pend : Option Block) (b : Block) (hb : b.isSection = false) (hbl : p.blocks = b :: pend.toList)
    (hcon : Content p.asg.blocks hs E pend) : settle p = .ok (put { p with forceNew := true } b pend) := by
  unfold settle
  simp only [hbl, hb, hc.openLines, List.isEmpty_nil, Bool.not_false, Bool.and_self, if_true, bind, Except.bind]
  have hlev : b.levelCheck = none := by cases b <;> first | rfl | cases hb
  cases hcon with
  | flat =>
    simp only [addToStackOrGraph, Option.toList_none, hc.data, graphPush_leaf _ _ hb, hc.closeParent, Bool.false_and,
      Bool.false_eq_true, if_false, pure, Except.pure, put]
  | under =>
    simp only [addToStackOrGraph, Option.toList_some, Block.takesBlock, hlev, if_true, Block.pushBlock, hb,
      Bool.false_eq_true, if_false, liftB, hc.closeParent, Bool.false_and, pure, Except.pure, put, bind, Except.bind]

/-- Pending text that becomes a paragraph. -/
theorem addInlines_para (p : Parser) (hc : Calm p) (hs : List Heading) (E : List (List Heading × Entry))
    (pend : Option Block) (t : Str) (l : List Location) (hbl : p.blocks = pend.toList)
    (hf : pend = none ∨ p.forceNew = true) (hcon : Content p.asg.blocks hs E pend)
    (hi : p.inlines = [.lit .text t l]) :
    p.addInlines = .ok { p with
      inlines := [], blocks := .leaf .paragraph .paragraph none [.lit .text t l] none l :: pend.toList } := by
  have hsp : p.danglingSpans = .ok p := danglingSpans_closed p (by rw [hi]; simp [Inline.isOpen])
  unfold addInlines
  simp only [hi, List.isEmpty_cons, Bool.false_eq_true, if_false, hsp, ite_self, bind, Except.bind, hc.header]
  cases hcon with
  | flat =>
    simp only [hbl, Option.toList_none, newParagraph, hi, List.reverse_singleton, hc.inCont, Bool.false_and, hc.data,
      pushToStack, Inline.locations, Bool.false_eq_true, if_false, hc.header]
  | under =>
    have hf : p.forceNew = true := by simpa using hf
    simp only [hbl, Option.toList_some, hf, Bool.not_true, Bool.and_false, newParagraph, hi, List.reverse_singleton, hc.inCont,
      Bool.false_and, hc.data, pushToStack, Inline.locations, Bool.false_eq_true, if_false, hc.header]

/-- Pending text that becomes the title of a section. -/
theorem addInlines_head (p : Parser) (hc : Calm p) (v : Nat) (t : Str) (l l' : List Location)
    (hbl : p.blocks = [.section [] none v [] l]) (hf : p.forceNew = false) (hline : p.inBlockLine = false)
    (hi : p.inlines = [.lit .text t l']) :
    p.addInlines = .ok { p with inlines := [], blocks := [.section [.lit .text t l'] none v [] l] } := by
  have hsp : p.danglingSpans = .ok p := danglingSpans_closed p (by rw [hi]; simp [Inline.isOpen])
  unfold addInlines
  simp only [hi, List.isEmpty_cons, Bool.false_eq_true, if_false, hsp, ite_self, bind, Except.bind, hc.header, hbl,
    Block.takesInlines, hline, hf, Bool.not_false, Bool.and_self, if_true, List.reverse_singleton,
    pushInlines_section, List.nil_append, pure, Except.pure]

/-- Pending text that becomes the principal text of a list item. -/
theorem addInlines_item (p : Parser) (hc : Calm p) (k t : Str) (l l1 : List Location) (rest : List Block)
    (hbl : p.blocks = .listItem k [] [] none l1 :: rest) (hf : p.forceNew = false) (hline : p.inBlockLine = false)
    (hi : p.inlines = [.lit .text t l]) :
    p.addInlines = .ok { p with inlines := [], blocks := .listItem k [.lit .text t l] [] none l1 :: rest } := by
  have hsp : p.danglingSpans = .ok p := danglingSpans_closed p (by rw [hi]; simp [Inline.isOpen])
  unfold addInlines
  simp only [hi, List.isEmpty_cons, Bool.false_eq_true, if_false, hsp, ite_self, bind, Except.bind, hc.header, hbl,
    Block.takesInlines, hline, hf, Bool.not_false, Bool.and_self, if_true, List.reverse_singleton,
    pushInlines_item, List.nil_append, pure, Except.pure]

/-- The pending item of a list, with its text, added to the list. -/
def grown (v : ListVariant) (items : List Block) (l2 : List Location) (t : Str) (l l1 : List Location) : Block :=
  Block.consolidate (.list v (items ++ [.listItem (bullet v) [.lit .text t l] [] none l1]) none l2)

theorem grown_list (v : ListVariant) (items : List Block) (l2 : List Location) (t : Str) (l l1 : List Location)
    (ts : List Str) (h : allSome (items.map (itemText v)) = some ts) :
    ∃ items' l', grown v items l2 t l l1 = .list v items' none l' ∧ allSome (items'.map (itemText v)) = some (ts ++ [t]) := by
  refine ⟨_, _, rfl, ?_⟩
  have h1 : ∀ items : List Block, (Block.consolidateL items).map (itemText v) = items.map (itemText v) := by
    intro items
    induction items with
    | nil => rfl
    | cons x xs ih => simp only [Block.consolidateL, List.map_cons, ih, soleText_item]
  rw [h1]
  clear h1
  induction items generalizing ts with
  | nil =>
    simp only [List.map_nil, allSome, Option.some.injEq] at h
    subst h
    simp [itemText, soleText, allSome]
  | cons x xs ih =>
    simp only [List.map_cons, allSome] at h
    cases hx : itemText v x with
    | none => rw [hx] at h; cases h
    | some a =>
      rw [hx] at h
      simp only [Option.bind_some, Option.map_eq_some_iff] at h
      obtain ⟨us, h1, rfl⟩ := h
      have := ih us h1
      simp only [List.cons_append, List.map_cons, allSome, hx, Option.bind_some, this, Option.map_some]

theorem addLastItem_list (p : Parser) (hc : Calm p) (v : ListVariant) (t : Str) (items : List Block) (l l1 l2 : List Location)
    (rest : List Block) (hbl : p.blocks = .listItem (bullet v) [] [] none l1 :: .list v items none l2 :: rest)
    (hline : p.inBlockLine = false) (hi : p.inlines = [.lit .text t l]) :
    p.addLastItem = .ok { p with inlines := [], forceNew := false, blocks := grown v items l2 t l l1 :: rest } := by
  unfold addLastItem
  rw [addInlines_item { p with forceNew := false } hc (bullet v) t l l1 _ hbl rfl hline hi]
  simp only [bind, Except.bind, Block.isAnyItem, if_true, Block.pushBlock, liftB, pure, Except.pure, grown]

theorem put_fields (p : Parser) (b : Block) (pend : Option Block) :
    (put p b pend).inlines = p.inlines ∧ (put p b pend).dangling = p.dangling
      ∧ (put p b pend).inBlockLine = p.inBlockLine ∧ (put p b pend).forceNew = p.forceNew
      ∧ (put p b pend).asg.front = p.asg.front ∧ (Calm p → Calm (put p b pend)) := by
  unfold put
  split
  · exact ⟨rfl, rfl, rfl, rfl, rfl, fun h => h⟩
  · exact ⟨rfl, rfl, rfl, rfl, rfl, fun h => h⟩

/-- A blank line when the last block is not a list item. -/
theorem blank_eq (p : Parser) (hc : Calm p) (h : ∀ b, p.blocks.head? = some b → b.isAnyItem = false) :
    p.blankLine = (addInlines { p with dangling := none, inSpan := false }).bind settle := by
  unfold blankLine
  simp only [hc.header, bind, Except.bind]
  cases hb : p.blocks with
  | nil => rfl
  | cons b bs =>
    have := h b (by rw [hb]; rfl)
    simp only [this, Bool.false_eq_true, if_false]
    rfl

/-- A block that is not a section is put at the end. -/
theorem settle_between (p : Parser) (hc : Calm p) (hs : List Heading) (E : List (List Heading × Entry))
    (pend : Option Block) (b : Block) (hb : b.isSection = false) (hp : plainB b = true) (hbl : p.blocks = b :: pend.toList)
    (hcon : Content p.asg.blocks hs E pend) (hi : p.inlines = []) (hd : p.dangling = none) (hl : p.inBlockLine = false) :
    ∃ q, settle p = .ok q ∧ Between q p.asg.front hs (E ++ [(parents hs 5, view b)]) := by
  refine ⟨_, settle_block p hc hs E pend b hb hbl hcon, ?_⟩
  obtain ⟨h1, h2, h3, h4, h5, h6⟩ := put_fields { p with forceNew := true } b pend
  obtain ⟨pend', h7, h8⟩ := Content.put (p := { p with forceNew := true }) hcon b hb hp
  exact ⟨h6 hc, h1.trans hi, h2.trans hd, h3.trans hl, h5, pend', h7, .inr h4, h8⟩

theorem Open.calm {p : Parser} {f : Option Header × Option (SMap Str) × Str} {hs : List Heading}
    {E : List (List Heading × Entry)} (h : Open p f hs E) : Calm p := by
  cases h <;> assumption

/-- A blank line after a chunk. -/
theorem open_blank (p : Parser) (f : Option Header × Option (SMap Str) × Str) (hs : List Heading)
    (E : List (List Heading × Entry)) (h : Open p f hs E) (hline : p.inBlockLine = false) :
    ∃ q, p.blankLine = .ok q ∧ Between q f hs E := by
  cases h with
  | para E pend t l calm front blocks force content inlines =>
    have hb : ∀ b, p.blocks.head? = some b → b.isAnyItem = false := by
      intro b hb
      rw [blocks] at hb
      cases content with
      | flat => simp at hb
      | under => simp at hb; rw [← hb]; rfl
    rw [blank_eq p calm hb, addInlines_para _ (by exact calm) hs E pend t l (by exact blocks) (by exact force)
      (by exact content) (by exact inlines)]
    have := settle_between { p with
      inlines := [], blocks := .leaf .paragraph .paragraph none [.lit .text t l] none l :: pend.toList
      dangling := none, inSpan := false } calm hs E pend _ rfl rfl rfl content rfl rfl hline
    rw [← front]
    exact this
  | head _ v t l l' calm front blocks force inlines content =>
    rw [blank_eq p calm (by rw [blocks]; simp [Block.isAnyItem]), addInlines_head _ (by exact calm) v t l l' (by exact blocks)
      (by exact force) (by exact hline) (by exact inlines)]
    simp only [Except.bind, settle, Block.isSection, Bool.not_true, Bool.false_and, Bool.false_eq_true, if_false, pushToStack,
      calm.inCont, calm.data]
    refine ⟨_, rfl, ?_, rfl, rfl, hline, front, some _, rfl, .inr rfl, content⟩
    simp only [Calm, calm.header, calm.openText, calm.title, calm.openLines, calm.preserveNl, calm.closeParent, calm.offset]
  | list E pend v t items ts l l1 l2 calm front blocks content inlines texts =>
    obtain ⟨items', l', h1, h2⟩ := grown_list v items l2 t l l1 ts texts
    have hb : p.blankLine = settle { p with
        inlines := [], forceNew := false, dangling := none, inSpan := false
        blocks := grown v items l2 t l l1 :: pend.toList } := by
      unfold blankLine
      simp only [calm.header, bind, Except.bind, blocks, Block.isAnyItem, if_true]
      rw [← calm.header]
      rw [addLastItem_list _ (by exact calm) v t items l l1 l2 pend.toList (by rfl) (by exact hline) (by exact inlines)]
      dsimp only
      rw [addInlines_nil _ (by rfl)]
      rfl
    rw [hb, h1]
    have := settle_between { p with
      inlines := [], forceNew := false, dangling := none, inSpan := false
      blocks := .list v items' none l' :: pend.toList } calm hs E pend _ rfl rfl rfl content rfl rfl hline
    rw [← front]
    simpa only [view, h2] using this

/-! ## The end of the document -/

theorem drain_put (p : Parser) (hc : Calm p) (hs : List Heading) (E : List (List Heading × Entry)) (pend : Option Block)
    (b : Block) (hb : b.isSection = false) (hbl : p.blocks = b :: pend.toList) (hcon : Content p.asg.blocks hs E pend) (k : Nat) :
    drain 0 (k + 1) p = drain 0 k (put p b pend) := by
  have hlev : b.levelCheck = none := by cases b <;> first | rfl | cases hb
  rw [drain, if_pos (by rw [hbl]; simp)]
  unfold addLastToGraph
  cases hcon with
  | flat =>
    simp only [hbl, hc.data, Option.toList_none, bind, Except.bind, graphPush_leaf _ _ hb, put]
  | under =>
    simp only [hbl, hc.data, Option.toList_some, Block.takesBlock, hlev, if_true, Block.pushBlock, hb, Bool.false_eq_true,
      if_false, liftB, pure, Except.pure, put, bind, Except.bind]

theorem drain_pend (p : Parser) (hc : Calm p) (hs : List Heading) (E : List (List Heading × Entry)) (pend : Option Block)
    (hbl : p.blocks = pend.toList) (hcon : Content p.asg.blocks hs E pend) :
    ∃ q, drain 0 pend.toList.length p = .ok q ∧ readingL [] q.asg.blocks = E ∧ q.asg.front = p.asg.front := by
  cases hcon with
  | flat h1 h2 h3 h4 => exact ⟨p, rfl, h4, rfl⟩
  | under ti v cs l h1 h2 h3 h4 h5 h6 =>
    obtain ⟨g, g1, g2, g3, g4, g5, g6⟩ := Content.flush (p := { p with data := none })
      (Content.under ti v cs l h1 h2 h3 h4 h5 h6) []
    refine ⟨{ p with data := none, blocks := [], asg := g }, ?_, g3, g6⟩
    simp only [Option.toList_some, List.length_cons, List.length_nil, drain, hbl, Nat.zero_add, Nat.lt_add_one, if_true,
      addLastToGraph, hc.data, bind, Except.bind]
    rw [g1]

theorem finish_of_drain (p p1 q : Parser) (f : Option Header × Option (SMap Str) × Str) (E : List (List Heading × Entry))
    (h1 : p.addInlines = .ok p1) (h2 : drain 0 p1.blocks.length p1 = .ok q) (h3 : readingL [] q.asg.blocks = E)
    (h4 : q.asg.front = f) :
    ∃ q, p.finish = .ok q ∧ readingL [] q.asg.blocks = E ∧ q.asg.front = f := by
  unfold finish
  simp only [h1, bind, Except.bind, h2, pure, Except.pure]
  refine ⟨_, rfl, ?_, ?_⟩
  · have : q.asg.consolidate.blocks = Block.mapInlinesL (Inline.resolveXref q.asg.idHash) q.asg.blocks := by
      unfold Asg.consolidate Asg.consolidateXrefs Asg.consolidateLocations
      split
      · rfl
      · split <;> rfl
    rw [this, readingL_map, h3]
  · rw [← h4]
    unfold Asg.consolidate Asg.consolidateXrefs Asg.consolidateLocations Asg.front
    split
    · rfl
    · split <;> rfl

/-- The end of the document between chunks. -/
theorem between_finish (p : Parser) (f : Option Header × Option (SMap Str) × Str) (hs : List Heading)
    (E : List (List Heading × Entry)) (h : Between p f hs E) :
    ∃ q, p.finish = .ok q ∧ readingL [] q.asg.blocks = E ∧ q.asg.front = f := by
  obtain ⟨pend, h1, _, h2⟩ := h.content
  obtain ⟨q, h3, h4, h5⟩ := drain_pend p h.calm hs E pend h1 h2
  exact finish_of_drain p p q f E (addInlines_nil p h.inlines) (by rw [h1]; exact h3) h4 (h5.trans h.front)

/-- The document may end after this state: a title is complete only after a newline, and the text of a list item is
its principal text only if no new block is forced. -/
def CanEnd (p : Parser) : Prop :=
  match p.blocks with
  | .section [] _ _ _ _ :: _ => p.inBlockLine = false
  | .listItem .. :: _ => p.inBlockLine = false ∧ p.forceNew = false
  | _ => True

theorem finish_put (p p1 : Parser) (f : Option Header × Option (SMap Str) × Str) (hs : List Heading)
    (E : List (List Heading × Entry)) (pend : Option Block) (b : Block) (hb : b.isSection = false) (hp : plainB b = true)
    (h1 : p.addInlines = .ok p1)
    (h2 : drain 0 p1.blocks.length p1 = drain 0 (pend.toList.length + 1) { p1 with blocks := b :: pend.toList })
    (hc : Calm p1) (hcon : Content p1.asg.blocks hs E pend) (hf : p1.asg.front = f) :
    ∃ q, p.finish = .ok q ∧ readingL [] q.asg.blocks = E ++ [(parents hs 5, view b)] ∧ q.asg.front = f := by
  rw [drain_put { p1 with blocks := b :: pend.toList } hc hs E pend b hb rfl hcon] at h2
  obtain ⟨g1, g2, g3, g4, g5, g6⟩ := put_fields { p1 with blocks := b :: pend.toList } b pend
  obtain ⟨pend', g7, g8⟩ := Content.put (p := { p1 with blocks := b :: pend.toList }) hcon b hb hp
  obtain ⟨q, h3, h4, h5⟩ := drain_pend _ (g6 hc) hs _ pend' g7 g8
  have hlen : pend'.toList.length = pend.toList.length := by
    rw [← g7]
    cases hcon <;> simp [put]
  rw [hlen] at h3
  exact finish_of_drain p p1 q f _ h1 (h2.trans h3) h4 (h5.trans (g5.trans hf))

/-- The end of the document after a chunk. -/
theorem open_finish (p : Parser) (f : Option Header × Option (SMap Str) × Str) (hs : List Heading)
    (E : List (List Heading × Entry)) (h : Open p f hs E) (he : CanEnd p) :
    ∃ q, p.finish = .ok q ∧ readingL [] q.asg.blocks = E ∧ q.asg.front = f := by
  cases h with
  | para E pend t l calm front blocks force content inlines =>
    have h1 := addInlines_para p calm hs E pend t l blocks force content inlines
    exact finish_put p _ f hs E pend _ rfl rfl h1 rfl calm content front
  | head _ v t l l' calm front blocks force inlines content =>
    have hline : p.inBlockLine = false := by simpa only [CanEnd, blocks] using he
    have h1 := addInlines_head p calm v t l l' blocks force hline inlines
    obtain ⟨q, h3, h4, h5⟩ := drain_pend { p with
      inlines := [], blocks := [.section [.lit .text t l'] none v [] l] } calm hs E (some _) rfl content
    exact finish_of_drain p _ q f E h1 h3 h4 (h5.trans front)
  | list E pend v t items ts l l1 l2 calm front blocks content inlines texts =>
    obtain ⟨hline, hforce⟩ : p.inBlockLine = false ∧ p.forceNew = false := by simpa only [CanEnd, blocks] using he
    obtain ⟨items', l', g1, g2⟩ := grown_list v items l2 t l l1 ts texts
    have h1 := addInlines_item p calm _ t l l1 _ blocks hforce hline inlines
    have := finish_put p _ f hs E pend (.list v items' none l') rfl rfl h1 (by
      simp only [List.length_cons]
      rw [drain, if_pos (by simp)]
      simp only [addLastToGraph, calm.data, Block.takesBlock, Block.isListItem, if_true, Block.pushBlock, liftB, bind,
        Except.bind, pure, Except.pure]
      rw [← g1]; rfl) calm content front
    simpa only [view, g2] using this

end Adoc.Parser
