import Verif.Proof.Frame
import Verif.Proof.RichBefore
import Verif.Proof.FilledSteps
import Verif.Props.ScannerLocal
/-!
# What follows a document, whatever the document says

After a document the parser is in a state that depends on the document only as far as the graph is concerned, and the handlers do
not look at what is in the graph.
-/
namespace Adoc.Spec

/-- A description list. -/
def Blk.isDlist : Blk → Bool
  | .dlist .. => true
  | _ => false

/-- The number of line ends. -/
def lineEnds (ss : List Sign) : Nat := ss.countP fun s => match s with | .mark .newLineChar _ => true | _ => false

end Adoc.Spec

namespace Adoc.Rich
open Spec Block Parser Scanner Props

/-! ## A graph with blocks before those of another one -/

/-- The blocks of the first graph, then those of the second; the header is that of the first unless the second one has one. -/
def beforeAll (a g : Asg) : Asg where
  attributes := if g.header.isSome then g.attributes else a.attributes
  header := if g.header.isSome then g.header else a.header
  documentId := if g.header.isSome then g.documentId else a.documentId
  idHash := g.idHash
  blocks := a.blocks ++ g.blocks
  loc := a.loc

theorem pushSectionL_cons (a : Block) {bs : List Block} (h : bs ≠ []) (s : Block) :
    pushSectionL (a :: bs) s = (pushSectionL bs s).map (a :: ·) := by
  cases bs with
  | nil => exact absurd rfl h
  | cons b bs =>
    show (do let r ← pushSectionL (b :: bs) s; return a :: r) = _
    cases pushSectionL (b :: bs) s <;> rfl

theorem pushSectionL_before (s : Block) (hs : s.isSection = true) (bs : List Block) : ∀ as : List Block,
    (∀ x ∈ as, x.isSection = false) → edgeL as = true → pushSectionL (as ++ bs) s = (pushSectionL bs s).map (as ++ ·)
  | [], _, _ => by cases h : pushSectionL bs s <;> simp [h, Except.map]
  | [a], h, he => by
    cases bs with
    | nil =>
      have h1 := h a (by simp)
      show (if a.takesBlock s then _ else (Except.ok [a, s] : Except BlockError _)) = Except.ok [a, s]
      rw [if_neg]
      cases a <;> cases s <;> simp_all [takesBlock, Block.isSection, edgeL, edgeB, isListItem, isDlistItem]
    | cons b bs => exact pushSectionL_cons a (by simp) s
  | a :: b :: as, h, he => by
    rw [List.cons_append, pushSectionL_cons a (by simp), pushSectionL_before s hs bs (b :: as) (fun x hx => h x (by simp [hx])) he]
    cases pushSectionL bs s <;> rfl

theorem frame_before (a : Asg) (ha : ∀ x ∈ a.blocks, x.isSection = false) (he : edgeL a.blocks = true) : Framing.Frame (beforeAll a) where
  push g b := by
    unfold Asg.pushBlock
    dsimp only [beforeAll]
    split
    · rename_i hs
      rw [pushSectionL_before _ hs _ _ ha he]
      cases pushSectionL g.blocks b.consolidate <;> rfl
    · show Except.ok _ = Except.ok _
      simp [beforeAll]
  header g h x := rfl

/-! ## The state after blank lines -/

theorem Ok.of_R {ty : TokenType} {K : Parser → Prop} {x x' : M Parser} (h : Filled.R ty K x x') : Ok x K := by
  intro q hq
  subst hq
  exact h.2

theorem force_graphPush (p : Parser) (b : Block) : Ok (p.graphPush b) fun q => q.forceNew = p.forceNew := by
  unfold graphPush
  cases p.asg.pushBlock b with
  | error e => intro q h; cases h
  | ok g => intro q h; cases h; rfl

theorem force_pushToStack (p : Parser) (b : Block) : Ok (p.pushToStack b) fun q => q.forceNew = p.forceNew := by
  unfold pushToStack
  split
  · split
    · intro q h; cases h
    · exact .bind (P := fun _ => True) (fun _ _ => trivial) fun x _ q h => by cases h; rfl
  · split
    · exact .bind (P := fun _ => True) (fun _ _ => trivial) fun x _ q h => by cases h; rfl
    · intro q h; cases h; rfl

theorem force_addToStackOrGraph (p : Parser) (b : Block) : Ok (p.addToStackOrGraph b) fun q => q.forceNew = p.forceNew := by
  have hg : Ok (match p.data with
      | some m => (do let b' ← b.addMeta m; graphPush { p with data := none } b' : M Parser)
      | none => p.graphPush b) fun q => q.forceNew = p.forceNew := by
    split
    · exact .bind (P := fun _ => True) (fun _ _ => trivial) fun x _ => force_graphPush _ _
    · exact force_graphPush _ _
  unfold addToStackOrGraph
  dsimp only
  split
  · split
    · exact .bind (P := fun _ => True) (fun _ _ => trivial) fun x _ q h => by cases h; rfl
    · exact hg
  · exact hg

theorem force_addLastToStackOrGraph (p : Parser) : Ok p.addLastToStackOrGraph fun q => q.forceNew = p.forceNew := by
  unfold addLastToStackOrGraph
  split
  · intro q h; cases h
  · exact force_graphPush _ _
  · split
    · exact .bind (P := fun _ => True) (fun _ _ => trivial) fun x _ q h => by cases h; rfl
    · exact force_graphPush _ _

/-- After a blank line, text begins a new block. -/
theorem force_blankLine (p : Parser) (hh : p.header = none) : Ok p.blankLine fun q => q.forceNew = true := by
  unfold blankLine
  dsimp only
  rw [hh]
  dsimp only
  refine .bind (P := fun _ => True) (fun _ _ => trivial) fun p1 _ => .bind (P := fun _ => True) (fun _ _ => trivial) fun p2 _ => ?_
  split
  · intro q h; cases h; rfl
  · split
    · refine .bind (force_addToStackOrGraph _ _) fun q hq => ?_
      split
      · refine .bind (force_addLastToStackOrGraph _) fun r hr s hs => ?_
        cases hs
        exact hr.trans hq
      · intro r h; cases h; exact hq
    · exact force_pushToStack _ _

/-- A newline token. -/
theorem newline_keeps (w : World) (k : Nat) (p q : Parser) (t : Token) (ht : t.ty = .newLineChar) (hh : p.header = none)
    (ho : p.openText = none) (h : tokenInto w (k + 1) t p = .ok q) :
    q.header = none ∧ q.openText = none ∧ (p.lastTy = .newLineChar → q.forceNew = true) := by
  have e : tokenInto w (k + 1) t p = p.parseNewLine t := by
    rw [tokenInto_noHeader w k t p hh]
    simp [Parser.verbatim, ho, dispatchToken, ht]
  rw [e] at h
  have h1 := Ok.of_R (Filled.parseNewLine_R (ty := p.lastTy) p t ⟨.rfl, .rfl, rfl⟩) q h
  refine ⟨h1.header hh, h1.openText.trans ho, fun hl => ?_⟩
  unfold parseNewLine at h
  cases hti : p.title <;> simp only [hti, hl, true_or, if_true] at h <;>
    (refine force_blankLine _ ?_ q h; exact hh)

/-- Blank lines. -/
theorem newlines_keep (w : World) (k : Nat) : ∀ (ts : List Token) (p q : Parser), (∀ t ∈ ts, IsNewline t) → p.header = none →
    p.openText = none → p.lastTy = .newLineChar → ts ≠ [] → Feeds w k ts p q → q.forceNew = true ∧ q.lastTy = .newLineChar
  | [], _, _, _, _, _, _, h, _ => absurd rfl h
  | t :: ts, p, q, ht, hh, ho, hl, _, hf => by
    obtain ⟨r, h1, h2⟩ := Feeds.uncons hf
    have hty := (ht t (by simp)).ty
    obtain ⟨e1, e2, e3⟩ := newline_keeps w k p r t hty hh ho h1
    cases ts with
    | nil => cases h2; exact ⟨e3 hl, hty⟩
    | cons u us => exact newlines_keep w k (u :: us) { r with lastTy := t.ty } q (fun x hx => ht x (by simp [hx])) e1 e2 hty (by simp) h2

theorem newlines_force (w : World) (k : Nat) (ts : List Token) (p q : Parser) (ht : ∀ t ∈ ts, IsNewline t) (hh : p.header = none)
    (ho : p.openText = none) (hn : 2 ≤ ts.length) (hf : Feeds w k ts p q) : q.forceNew = true ∧ q.lastTy = .newLineChar := by
  match ts, hn with
  | t :: u :: ts, _ =>
    obtain ⟨r, h1, h2⟩ := Feeds.uncons hf
    have hty := (ht t (by simp)).ty
    obtain ⟨e1, e2, e3⟩ := newline_keeps w k p r t hty hh ho h1
    exact newlines_keep w k (u :: ts) { r with lastTy := t.ty } q (fun x hx => ht x (by simp [hx])) e1 e2 hty (by simp) h2

/-! ## The flow of a document without links, headings and description lists -/

theorem flow_plain {f f' : Flow} {c : Blk} (h : f.next c = some f') (h1 : c.refers = false) (h2 : c.isHead = false)
    (h3 : c.isDlist = false) (hr : f.ref = false) (hk : f.kept = false) (hs : f.sec = false) :
    f'.ref = false ∧ f'.kept = false ∧ f'.sec = false := by
  have h := (Flow.next_step h).1
  cases c <;> simp only [Flow.step, Blk.isHead, Blk.isDlist, hs, Bool.false_and, Bool.false_eq_true, if_false, h1, hr, Bool.or_false] at h h2 h3 <;>
    (repeat' split at h) <;> cases h <;> first | exact ⟨rfl, hk, rfl⟩ | exact ⟨rfl, hk, hs⟩ | exact ⟨hr, hk, hs⟩ | exact Bool.noConfusion h2 | exact Bool.noConfusion h3

theorem goes_plain : ∀ (cs : List Blk) (f f' : Flow), goes f cs = some f' →
    (∀ c ∈ cs, c.refers = false ∧ c.isHead = false ∧ c.isDlist = false) → f.ref = false → f.kept = false → f.sec = false →
    f'.ref = false ∧ f'.kept = false ∧ f'.sec = false
  | [], f, f', h, _, h1, h2, h3 => by cases h; exact ⟨h1, h2, h3⟩
  | c :: cs, f, f', h, hc, h1, h2, h3 => by
    rw [goes] at h
    cases hn : f.next c with
    | none => rw [hn] at h; cases h
    | some g =>
      rw [hn, Option.bind_some] at h
      obtain ⟨c1, c2, c3⟩ := hc c (by simp)
      obtain ⟨e1, e2, e3⟩ := flow_plain hn c1 c2 c3 h1 h2 h3
      exact goes_plain cs g f' h (fun x hx => hc x (by simp [hx])) e1 e2 e3

theorem flows_goes : ∀ (a b : List Blk) (f f' : Flow), flows f (a ++ b) = true → goes f a = some f' → flows f' b = true
  | [], b, f, f', h, hg => by cases hg; exact h
  | c :: a, b, f, f', h, hg => by
    rw [List.cons_append, flows] at h
    rw [goes] at hg
    cases hn : f.next c with
    | none => rw [hn] at hg; cases hg
    | some g => rw [hn] at h hg; exact flows_goes a b g f' h hg

theorem flows_left : ∀ (a b : List Blk) (f : Flow), flows f (a ++ b) = true → flows f a = true
  | [], _, _, _ => rfl
  | c :: a, b, f, h => by
    rw [List.cons_append, flows] at h
    rw [flows]
    cases hn : f.next c with
    | none => rw [hn] at h; cases h
    | some g => rw [hn] at h; exact flows_left a b g h

/-! ## After the document -/

/-- After a document without links, headings, description lists and ids, with the blocks taken away. -/
def afterwards (attrs : SMap Str) : Parser :=
  { attrs := attrs, lastTy := .newLineChar, forceNew := true, asg := ⟨none, none, [], [], [], []⟩ }

theorem no_sections (path : List Title) : ∀ bs : List Block, (∀ x ∈ listedL path bs, x.2.isSection = false) →
    (∀ b ∈ bs, b.isSection = false) ∧ (listedL path bs).length = bs.length
  | [], _ => ⟨nofun, rfl⟩
  | b :: bs, h => by
    rw [listedL] at h
    obtain ⟨h1, h2⟩ := no_sections path bs (fun x hx => h x (List.mem_append_right _ hx))
    have hb : b.isSection = false := by
      cases b with
      | «section» t m v cs l => exact absurd (h _ (List.mem_append_left _ (List.mem_cons_self ..))) (by simp [Block.isSection])
      | _ => rfl
    refine ⟨fun x hx => ?_, ?_⟩
    · rcases List.mem_cons.1 hx with rfl | hx
      · exact hb
      · exact h1 x hx
    · rw [listedL, listed_leaf _ b hb, List.length_append, h2]
      simp [Nat.add_comm]

theorem contents_length (ids : Ids) : ∀ (hs : List Title) (cs : List Tagged), (contents ids hs cs).length = cs.length
  | _, [] => rfl
  | hs, c :: cs => by simp [contents, contents_length ids _ cs]

theorem contents_plain (ids : Ids) : ∀ (hs : List Title) (cs : List Tagged), (∀ c ∈ cs, c.blk.isHead = false) →
    ∀ x ∈ contents ids hs cs, x.2.isSection = false
  | _, [], _, x, hx => by cases hx
  | hs, c :: cs, h, x, hx => by
    rw [contents] at hx
    rcases List.mem_cons.1 hx with rfl | hx
    · have := h c (by simp)
      unfold Tagged.block
      cases hb : c.blk <;> rw [hb] at this <;> first | cases this | skip
      all_goals first | rfl | (rename_i p; cases p <;> rfl)
    · exact contents_plain ids _ cs (fun y hy => h y (by simp [hy])) x hx

theorem contents_flat (ids : Ids) (hs : List Title) : ∀ (a b : List Tagged), (∀ c ∈ a, c.blk.isHead = false) →
    contents ids hs (a ++ b) = contents ids hs a ++ contents ids hs b
  | [], _, _ => rfl
  | c :: a, b, h => by
    have e : c.blk.after ids hs = hs := by
      have := h c (by simp)
      cases hb : c.blk <;> rw [hb] at this <;> first | rfl | cases this
    simp only [List.cons_append, contents, e, contents_flat ids hs a b (fun x hx => h x (by simp [hx]))]

/-- The state of the parser after the document. -/
theorem doc_state (w : World) (k : Nat) (d : RichDoc) (rest : Str) (ho : d.Ok) (hl : Legible [] d.signs rest)
    (hu : ∃ cs, written d.signs ++ rest = enc cs) (hw : ∀ x ∈ d.targets, There w [] x) (hg : ∀ c ∈ d.blocks, c.gap.Ok 2 false)
    (init : List Tagged) (c : Tagged) (hd : d.blocks = init ++ [c]) (hb : c.blk.isBox = false) (hc : c.gap.remarks = [])
    (hp : ∀ c ∈ d.blocks, c.blk.refers = false ∧ c.blk.isHead = false ∧ c.blk.isDlist = false) (hi : d.ids = []) :
    ∃ (ts : List Token) (more : List Item) (q : Parser), scan (written d.signs ++ rest) = ts.map .tok ++ more
      ∧ Matches d.signs ts ∧ Lined [] 1 ts ∧ Feeds w (k + 1) ts Parser.new q
      ∧ q = Framing.fr (beforeAll q.asg) (afterwards ((d.head.map Head.defs).getD []))
      ∧ edgeL q.asg.blocks = true ∧ (∀ b ∈ q.asg.blocks, b.isSection = false) ∧ q.asg.blocks.length = d.blocks.length
      ∧ listedL [] q.asg.blocks = contents [] [] d.blocks
      ∧ ∃ pre nl, ts = pre ++ [nl] ∧ nl.ty = .newLineChar := by
  obtain ⟨ts, mo, h1, h2, hli⟩ := scan_before d.signs rest hu (fun s hs => by
    have := ho.signs s hs
    cases s with
    | text => trivial
    | mark ty l => exact this) hl
  have h1' := h1
  have hli' := hli
  obtain ⟨p, f, us, vs, rfl, h3, h4, m2, hf1, hf2, i, hi', hli⟩ := feed_front w (k + 1) d.head d.lead _ ho.head ho.lead ts _ _ h1 h2 hli
  have hst : StackOk (fun _ => True) p.blocks := (files_same h3 ⟨by simp [Parser.new], trivial⟩).1
  have hfi : p.files = [] := (files_same h3 ⟨by simp [Parser.new], trivial⟩).2.1
  have hw' : ∀ c ∈ d.blocks, ∀ x ∈ c.blk.targets, There w [] x := fun c hc x hx => hw x (List.mem_flatMap.2 ⟨c, hc, hx⟩)
  have hic := icons_head hf2 ho.icons
  have hso : ∀ s ∈ d.blocks.flatMap Tagged.signs, SignOk s := fun s hs =>
    ho.signs s (by unfold RichDoc.signs; simp only [List.mem_append]; exact .inr (.inr hs))
  have hfl := ho.flow
  have hbl := ho.blocks
  rw [hd] at m2 hw' hic hso hfl hbl hg hp
  rw [List.flatMap_append] at m2 hso
  rw [List.map_append] at hfl
  obtain ⟨as, bs, rfl, m3, m4⟩ := m2.split
  obtain ⟨la, lb⟩ := hli.split
  have hle := lineAfter_le i as
  obtain ⟨q, hs', fl', h5, h6, h7, h8, h9⟩ := feed_upto w k _ init p [] [] {} h4 (fun x hx => hbl x (by simp [hx]))
    (fun x hx => hg x (by simp [hx])) (flows_left _ _ _ hfl) hst (fun x hx y hy => by rw [hfi]; exact hw' x (by simp [hx]) y hy)
    (fun x hx => hic x (by simp [hx])) (fun s hs => hso s (List.mem_append_left _ hs)) i hi' as m3 la
  obtain ⟨e1, e2, e3⟩ := goes_plain _ _ _ h9 (fun x hx => by
    obtain ⟨y, hy, rfl⟩ := List.mem_map.1 hx
    exact hp y (by simp [hy])) rfl rfl rfl
  have hhs := h8 fun x hx => (hp x (by simp [hx])).2.1
  subst hhs
  rw [List.nil_append] at h6
  -- the last block
  have hfc := flows_goes _ _ _ _ hfl h9
  simp only [List.map_cons, List.map_nil, flows] at hfc
  cases hnx : fl'.next c.blk with
  | none => rw [hnx] at hfc; cases hfc
  | some fl'' =>
    obtain ⟨c1, c2, c3⟩ := hp c (by simp)
    obtain ⟨e1, e2, e3⟩ := flow_plain hnx c1 c2 c3 e1 e2 e3
    rw [List.flatMap_cons, List.flatMap_nil] at m4
    obtain ⟨us', ns, vs', n', rfl, m5, m6, m7, l1, l3, _⟩ := Tagged.split m4 lb
    cases m7
    rw [List.append_nil] at *
    obtain ⟨hst', hfi', _⟩ := files_same h5 hst
    obtain ⟨q2, h10, h11⟩ := feed_one w k _ c q [] _ fl' fl'' h6 (hbl c (by simp)) hnx hst'
      (fun y hy => by rw [hfi', hfi]; exact hw' c (by simp) y hy) (hic c (by simp))
      (fun s hs => hso s (List.mem_append_right _ (by simpa using hs))) _ (by omega) us' m5 l1
    have hns : Matches (List.replicate c.gap.newlines Spec.newline) ns := by
      have := m6
      unfold Gap.signs at this
      rw [hc] at this
      simpa using this
    obtain ⟨n1, n2⟩ := matches_newlines hns
    have hn2 : 2 ≤ ns.length := by
      rw [n1]
      have := (hg c (by simp)).1
      simpa [hc] using this
    obtain ⟨q3, h12, h13⟩ := h11.newlines ns n2 hn2
    obtain ⟨hfo, hla⟩ := newlines_force w (k + 1) ns q2 q3 n2 h11.header h11.openText hn2 h12
    have hall : Feeds w (k + 1) (us ++ (as ++ (us' ++ ns))) Parser.new q3 := h3.append (h5.append (h10.append h12))
    have hsame := files_same hall ⟨by simp [Parser.new], trivial⟩
    have hbox : fl''.box = false := by rw [Flow.step_box (Flow.next_step hnx).1, hb]
    obtain ⟨pend, hpb, hpf, hcont⟩ := h13.content
    have haft : c.blk.after [] [] = [] := by
      cases hcb : c.blk <;> rw [hcb] at c2 <;> first | rfl | cases c2
    rw [haft] at hcont
    have hE : contents [] [] init ++ [(parents [] c.blk.level, c.block [])] = contents [] [] d.blocks := by
      rw [hd, contents_flat _ _ _ _ (fun x hx => (hp x (by simp [hx])).2.1)]
      simp [contents]
    rw [hE] at hcont
    cases hcont with
    | under ti m v cs l a1 a2 a3 a4 a5 a6 a7 a8 => rw [e3] at a7; cases a7
    | flat a1 a2 a3 a4 a5 a6 =>
      have hsec := no_sections [] q3.asg.blocks (fun x hx => by
        rw [a4] at hx
        exact contents_plain [] [] d.blocks (fun y hy => (hp y (by rw [← hd]; exact hy)).2.1) x hx)
      refine ⟨_, mo, q3, h2, h1', hli', hall, ?_, a1 hbox, hsec.1, ?_, a4, ?_⟩
      · have hid : q3.asg.idHash = [] := by
          have ht : (titledL q3.asg.blocks).map bareKV = d.ids := by
            rw [titledL_listed [], a4]
            exact ids_contents _ _ (fun x hx => (hbl x (by rw [← hd]; exact hx)).place)
          cases hh : q3.asg.idHash with
          | nil => rfl
          | cons x xs =>
            have := (built_inv _ h13.built).1 x.1
            rw [hh] at this
            have := this x.2 (by simp [SMap.get?])
            have : bareKV x ∈ (titledL q3.asg.blocks).map bareKV := List.mem_map.2 ⟨x, this, rfl⟩
            rw [ht, hi] at this; cases this
        have hat : q3.attrs = (d.head.map Head.defs).getD [] := by
          rw [h13.steady.2, ← hf2]
          exact congrArg (fun x => x.2.1.getD []) h13.front
        have b1 := h13.header; have b2 := h13.openText; have b3 := h13.title; have b4 := h13.inCont; have b5 := h13.data
        have b6 := h13.openLines; have b7 := h13.inlines; have b8 := h13.dangling; have b9 := h13.line; have b10 := h13.span
        have b11 := h13.ref.trans e1
        have b12 : q3.preserveNl = false := by
          cases hx : q3.preserveNl with
          | false => rfl
          | true => rw [h13.kept hx] at e2; cases e2
        have b13 := h13.steady.1
        have b14 : q3.blocks = [] := hpb
        have b15 : q3.files = [] := hsame.2.1
        have b16 : q3.resolveTargets = true := hsame.2.2
        clear h13 h12 h11 h10 hall hsame hpb a1 a2 a4 hsec hpf hi
        obtain ⟨x1, x2, x3, x4, x5, x6, x7, x8, x9, x10, x11, x12, x13, x14, x15, x16, x17, x18, x19, g⟩ := q3
        obtain ⟨g1, g2, g3, g4, g5, g6⟩ := g
        dsimp only at *
        subst b1 b2 b3 b4 b5 b6 b7 b8 b9 b10 b11 b12 b13 b14 b15 b16 hfo hla hid
        rw [hat]
        simp [Framing.fr, beforeAll, afterwards]
      · rw [← hsec.2, a4, contents_length]
      · cases hx : ns.getLast? with
        | none => rw [List.getLast?_eq_none_iff.1 hx] at hn2; simp at hn2
        | some nl =>
          obtain ⟨xs, e⟩ := List.getLast?_eq_some_iff.1 hx
          exact ⟨us ++ (as ++ (us' ++ xs)), nl, by simp [e], (n2 nl (by rw [e]; simp)).ty⟩

theorem lineAfter_text {l : Str} {ts : List Token} (h : Pieces' l ts) (n : Nat) : lineAfter n ts = n := by
  induction h with
  | nil => rfl
  | cons x rest t ts hx ht _ ih =>
    rw [lineAfter, ht.ty, if_neg (by decide)]
    exact ih

/-- Line numbers count the line ends. -/
theorem lineAfter_signs {ss : List Sign} {ts : List Token} (h : Matches ss ts) : ∀ n, lineAfter n ts = n + lineEnds ss := by
  induction h with
  | nil => intro n; rfl
  | text l ss ts us hl ht _ ih =>
    intro n
    rw [lineAfter_append, lineAfter_text ht, ih]
    rfl
  | mark ty l ss t us ht _ ih =>
    intro n
    rw [lineAfter, ih, ht.ty]
    cases ty <;> simp [lineEnds] <;> omega

/-- What follows is read on its own, and its blocks are added after those of the document. -/
theorem parse_after (w : World) (k : Nat) (d : RichDoc) (rest : Str) (ho : d.Ok) (hl : Legible [] d.signs rest)
    (hu : ∃ cs, written d.signs ++ rest = enc cs) (hw : ∀ x ∈ d.targets, There w [] x) (hg : ∀ c ∈ d.blocks, c.gap.Ok 2 false)
    (init : List Tagged) (c : Tagged) (hd : d.blocks = init ++ [c]) (hb : c.blk.isBox = false) (hc : c.gap.remarks = [])
    (hp : ∀ c ∈ d.blocks, c.blk.refers = false ∧ c.blk.isHead = false ∧ c.blk.isDlist = false) (hi : d.ids = [])
    (ht : ∀ t, .tok t ∈ scan rest → t.ty ≠ .startTag) :
    ∃ a : Asg, a.blocks.length = d.blocks.length ∧ listedL [] a.blocks = contents [] [] d.blocks
      ∧ Adoc.parseText w (k + 2) (written d.signs ++ rest)
        = (Framing.upToEnd w (k + 2) ((scan rest).map (shiftItem (lineEnds d.signs))) (afterwards ((d.head.map Head.defs).getD []))).map
          fun q => (beforeAll a q.asg).consolidate := by
  obtain ⟨ts, mo, q, h1, h2, h3, h4, h5, h6, h7, h8, h9, pre, nl, rfl, hnl⟩ := doc_state w k d rest ho hl hu hw hg init c hd hb hc hp hi
  have hty := matches_plain d.signs [] rest hl _ h2
  have hline : nl.line = lineEnds d.signs := by
    obtain ⟨_, l⟩ := h3.split
    have e := lineAfter_signs h2 1
    rw [lineAfter_append] at e
    simp only [lineAfter, hnl, if_true] at e
    have := l.1.1
    omega
  have hmore : mo = (scan rest).map (shiftItem (lineEnds d.signs)) := by
    rw [← hline]
    refine C08_local_partial (written d.signs) rest pre nl mo (by rw [h1]; simp) (fun t ht => ?_) hnl (matches_source h2).symm ht
    rintro (h | h)
    · exact (hty t (by simp [ht])).2.1 h
    · exact (hty t (by simp [ht])).2.2 h
  subst hmore
  refine ⟨q.asg, h8, h9, ?_⟩
  have hfr := frame_before q.asg h7 h6
  have h := Framing.fr_upToEnd (φ := beforeAll q.asg) (w := w) (k + 2) ((scan rest).map (shiftItem (lineEnds d.signs)))
    (afterwards ((d.head.map Head.defs).getD []))
  rw [← h5] at h
  unfold Framing.Same at h
  unfold Adoc.parseText
  rw [h1, parse_append w (k + 2) _ _ _ q h4]
  have e : Parser.parse w (k + 2) ((scan rest).map (shiftItem (lineEnds d.signs))) q
      = (Framing.upToEnd w (k + 2) ((scan rest).map (shiftItem (lineEnds d.signs))) q).map fun p => { p with asg := p.asg.consolidate } := by
    unfold Parser.parse Framing.upToEnd Parser.finish
    cases feed (tokenInto w (k + 2)) true ((scan rest).map (shiftItem (lineEnds d.signs))) q with
    | error e => rfl
    | ok r =>
      simp only [bind, Except.bind]
      cases r.addInlines with
      | error e => rfl
      | ok s => dsimp only; cases drain 0 s.blocks.length s <;> rfl
  rw [e, h]
  cases Framing.upToEnd w (k + 2) ((scan rest).map (shiftItem (lineEnds d.signs))) (afterwards ((d.head.map Head.defs).getD [])) <;> rfl

theorem consolidate_blocks (g : Asg) : g.consolidate.idHash = g.idHash
    ∧ g.consolidate.blocks = mapInlinesL (Inline.resolveXref g.idHash) g.blocks := by
  unfold Asg.consolidate Asg.consolidateLocations Asg.consolidateXrefs
  split
  · exact ⟨rfl, rfl⟩
  · split <;> exact ⟨rfl, rfl⟩

theorem mapInlinesL_append (f : Inline → Inline) : ∀ a b : List Block, mapInlinesL f (a ++ b) = mapInlinesL f a ++ mapInlinesL f b
  | [], _ => rfl
  | x :: a, b => by simp only [List.cons_append, mapInlinesL, mapInlinesL_append f a b]

theorem mapInlinesL_length (f : Inline → Inline) : ∀ a : List Block, (mapInlinesL f a).length = a.length
  | [] => rfl
  | x :: a => by simp only [mapInlinesL, List.length_cons, mapInlinesL_length f a]

end Adoc.Rich
