import Verif.Proof.RichDoc
/-!
# A document and whatever follows it

The blocks of a document are read before anything that follows, and only added to after that.
-/
namespace Adoc.Spec

/-- An admonition, a delimited block or a table. -/
def Blk.isBox : Blk → Bool
  | .note .. | .box .. | .table .. => true
  | _ => false

/-- A heading. -/
def Blk.isHead : Blk → Bool
  | .head .. => true
  | _ => false

end Adoc.Spec

namespace Adoc.Rich
open Spec Block Parser Scanner Props

/-! ## Blocks that are only added to -/

/-- The second list has the first one's blocks, in the same places, and further blocks after them. -/
inductive Kept : List Block → List Block → Prop
  | nil (more : List Block) : Kept [] more
  | same (x : Block) (more : List Block) (he : edgeB x = true) : Kept [x] (x :: more)
  | sec (t : List Inline) (m : Option Meta) (v : Nat) (bs cs : List Block) (l l' : List Location) (more : List Block)
      (h : Kept bs cs) : Kept [.section t m v bs l] (.section t m v cs l' :: more)
  | cons (a b : Block) (bs cs : List Block) (h : Kept (b :: bs) cs) : Kept (a :: b :: bs) (a :: cs)

theorem Kept.refl : ∀ bs : List Block, edgeL bs = true → Kept bs bs
  | [], _ => .nil _
  | [x], h => .same x [] h
  | a :: b :: bs, h => .cons a b bs _ (Kept.refl (b :: bs) h)

theorem Kept.append {bs cs : List Block} (h : Kept bs cs) (more : List Block) : Kept bs (cs ++ more) := by
  induction h with
  | nil => exact .nil _
  | same x m he => exact .same x _ he
  | sec t m v bs cs l l' more h _ => exact .sec t m v bs cs l l' _ h
  | cons a b bs cs _ ih => exact .cons a b bs _ ih

theorem Kept.ne {b : Block} {bs cs : List Block} (h : Kept (b :: bs) cs) : ∃ c ds, cs = c :: ds := by
  cases h <;> exact ⟨_, _, rfl⟩

/-- Adding a section after further blocks. -/
theorem pushSectionL_more : ∀ (x : Block) (y : Block) (more : List Block) (s : Block) (r : List Block),
    pushSectionL (x :: y :: more) s = .ok r → ∃ more', r = x :: more'
  | x, y, more, s, r, h => by
    unfold pushSectionL at h
    simp only [bind, Except.bind] at h
    split at h
    · cases h
    · cases h; exact ⟨_, rfl⟩

theorem Kept.push {bs cs : List Block} (h : Kept bs cs) : ∀ (_ : edgeL bs = true) (s : Block) (_ : s.isSection = true) (r : List Block),
    pushSectionL cs s = .ok r → Kept bs r := by
  induction h with
  | nil => intros; exact .nil _
  | same x more he =>
    intro _ s hs r h
    cases more with
    | cons y more =>
      obtain ⟨more', rfl⟩ := pushSectionL_more x y more s r h
      exact .same x _ he
    | nil =>
      unfold pushSectionL at h
      split at h
      · rename_i ht
        cases x with
        | «section» t m v bs l =>
          simp only [bind, Except.bind, pushBlock, hs, if_true] at h
          cases hr : pushSectionL bs s with
          | error e => rw [hr] at h; cases h
          | ok bs' =>
            rw [hr] at h
            cases h
            simp only [Block.consolidate]
            exact .sec t m v bs _ l _ [] (keeps bs he s hs bs' hr)
        | _ => cases s <;> simp_all [edgeB, takesBlock, Block.isSection, isListItem, isDlistItem]
      · cases h; exact .same x _ he
  | sec t m v bs cs l l' more h ih =>
    intro he s hs r hr
    cases more with
    | cons y more =>
      obtain ⟨more', rfl⟩ := pushSectionL_more _ y more s r hr
      exact .sec t m v bs cs l l' _ h
    | nil =>
      unfold pushSectionL at hr
      split at hr
      · simp only [bind, Except.bind, pushBlock, hs, if_true] at hr
        cases hx : pushSectionL cs s with
        | error e => rw [hx] at hr; cases hr
        | ok cs' =>
          rw [hx] at hr
          cases hr
          simp only [Block.consolidate]
          exact .sec t m v bs _ l _ [] (ih he s hs cs' hx)
      · cases hr; exact .sec t m v bs cs l l' _ h
  | cons a b bs cs h ih =>
    intro he s hs r hr
    obtain ⟨c, ds, rfl⟩ := h.ne
    unfold pushSectionL at hr
    simp only [bind, Except.bind] at hr
    split at hr
    · cases hr
    · rename_i r' hr'
      cases hr
      exact .cons a b bs _ (ih he s hs r' hr')
where
  keeps : ∀ (bs : List Block) (_ : edgeL bs = true) (s : Block) (_ : s.isSection = true) (r : List Block),
      pushSectionL bs s = .ok r → Kept bs r
    | [], _, _, _, _, _ => .nil _
    | [x], he, s, hs, r, h => by
      unfold pushSectionL at h
      split at h
      · cases x with
        | «section» t m v bs l =>
          simp only [bind, Except.bind, pushBlock, hs, if_true] at h
          cases hr : pushSectionL bs s with
          | error e => rw [hr] at h; cases h
          | ok bs' =>
            rw [hr] at h
            cases h
            simp only [Block.consolidate]
            exact .sec t m v bs _ l _ [] (keeps bs he s hs bs' hr)
        | _ => cases s <;> simp_all [edgeL, edgeB, takesBlock, Block.isSection, isListItem, isDlistItem]
      · cases h; exact .same x _ he
    | a :: b :: bs, he, s, hs, r, h => by
      unfold pushSectionL at h
      simp only [bind, Except.bind] at h
      split at h
      · cases h
      · rename_i r' hr'
        cases h
        exact .cons a b bs _ (keeps (b :: bs) he s hs r' hr')

theorem Kept.steps {Q : Block → Prop} {g g' : Asg} (he : edgeL g.blocks = true) (h : Steps Q g g') : Kept g.blocks g'.blocks := by
  induction h with
  | refl => exact .refl _ he
  | header _ ih => exact ih
  | push _ _ hp ih =>
    unfold Asg.pushBlock at hp
    dsimp only at hp
    split at hp
    · rename_i hs
      simp only [bind, Except.bind] at hp
      split at hp
      · cases hp
      · rename_i hbs
        cases hp
        exact ih.push he _ hs _ hbs
    · cases hp
      exact ih.append _

theorem Kept.listed {bs cs : List Block} (h : Kept bs cs) (path : List Title) : ∃ more, listedL path cs = listedL path bs ++ more := by
  induction h generalizing path with
  | nil more => exact ⟨_, rfl⟩
  | same x more => exact ⟨listedL path more, by simp [listedL]⟩
  | sec t m v bs cs l l' more _ ih =>
    obtain ⟨more', e⟩ := ih (path ++ [(v, bareL t)])
    exact ⟨more' ++ listedL path more, by simp [listedL, Spec.listed, e]⟩
  | cons a b bs cs _ ih =>
    obtain ⟨more, e⟩ := ih path
    exact ⟨more, by rw [listedL, e, ← List.append_assoc]; rfl⟩

/-! ## The tokens of a document and what follows -/

theorem run_trace {src : Str} {s' : Scanner} {its : List Item} {fs : List Str} (h : Trace (newWithStack src fs) its s') :
    ∃ more, (newWithStack src fs).run = its ++ more := by
  have h3 := runF_of_trace h (src.length + 2)
  obtain ⟨_, _, _, _, _, _, h5⟩ := run_shape (src.length + 2) (newWithStack src fs) rfl (by simp [newWithStack])
  rw [h5 _ (by omega)] at h3
  exact ⟨_, h3⟩

theorem scan_before (ss : List Sign) (rest : Str) (hu : ∃ cs, written ss ++ rest = enc cs) (hs : ∀ s ∈ ss, Sign.Plain s)
    (h : Legible [] ss rest) : ∃ ts more, Matches ss ts ∧ scan (written ss ++ rest) = ts.map .tok ++ more ∧ Lined [] 1 ts := by
  obtain ⟨ts, st, col, n, h1, h2⟩ := trace_signs ss [] rest 0 1 1 [] (by simpa using hu) hs h
  have h2 : Trace (newWithStack (written ss ++ rest) []) (ts.map .tok) (cut ([] ++ written ss) rest st col n []) := by
    simpa [cut, newWithStack] using h2
  obtain ⟨more, h3⟩ := run_trace h2
  exact ⟨ts, more, h1, h3, trace_lined h2 (matches_plain ss [] rest h ts h1)⟩

/-! ## Reading the document -/

theorem Flow.step_box {fl fl' : Flow} {c : Blk} (h : fl.step c = some fl') : fl'.box = c.isBox := by
  cases c <;> simp only [Flow.step, Blk.isBox] at h ⊢ <;> (repeat' split at h) <;> cases h <;> rfl

/-- What may follow after the blocks. -/
def goes : Flow → List Blk → Option Flow
  | f, [] => some f
  | f, c :: cs => (f.next c).bind fun f' => goes f' cs

/-- Blocks that are followed by blank lines, and what has been read then. -/
theorem feed_upto (w : World) (k : Nat) (f : Front) (cs : List Tagged) (p : Parser) (hs : List Title)
    (E : List (List Title × Block)) (fl : Flow) (h : Between p f hs E fl) (ho : ∀ c ∈ cs, c.Ok) (hg : ∀ c ∈ cs, c.gap.Ok 2 false)
    (hf : flows fl (cs.map (·.blk)) = true) (hst : StackOk (fun _ => True) p.blocks)
    (hw : ∀ c ∈ cs, ∀ x ∈ c.blk.targets, There w p.files x) (hic : ∀ c ∈ cs, IconsFor f c.blk)
    (hso : ∀ s ∈ cs.flatMap Tagged.signs, SignOk s)
    (n : Nat) (hn : 1 ≤ n) (ts : List Token) (hm : Matches (cs.flatMap Tagged.signs) ts) {fs : List Str} (hli : Lined fs n ts) :
    ∃ q hs' fl', Feeds w (k + 1) ts p q ∧ Between q f hs' (E ++ contents [] hs cs) fl'
      ∧ fl'.box = ((cs.getLast?.map fun c => c.blk.isBox).getD fl.box)
      ∧ ((∀ c ∈ cs, c.blk.isHead = false) → hs' = hs) ∧ goes fl (cs.map (·.blk)) = some fl' := by
  induction cs generalizing p hs E fl n ts with
  | nil =>
    cases hm
    exact ⟨p, hs, fl, Feeds.nil .., by simpa [contents] using h, rfl, fun _ => rfl, rfl⟩
  | cons c cs ih =>
    simp only [List.flatMap_cons] at hso hm
    obtain ⟨us, ns, vs, n', rfl, m1, n1, m3, l1, l3, hle⟩ := Tagged.split hm hli
    simp only [List.map_cons, flows] at hf
    cases hnx : fl.next c.blk with
    | none => rw [hnx] at hf; cases hf
    | some fl' =>
      rw [hnx] at hf
      obtain ⟨q, h1, h2⟩ := feed_one w k f c p hs E fl fl' h (ho c (by simp)) hnx hst (hw c (by simp)) (hic c (by simp))
        (fun s hs => hso s (List.mem_append_left _ hs)) n hn us m1 l1
      obtain ⟨r, h3, h4⟩ := h2.gap c.gap (hg c (by simp)) ns n1
      obtain ⟨hst', hfi, _⟩ := files_same (h1.append h3) hst
      obtain ⟨s, hs', fl'', h5, h6, h7, h8, h9⟩ := ih r _ _ fl' h4 (fun x hx => ho x (by simp [hx])) (fun x hx => hg x (by simp [hx])) hf hst'
        (fun x hx y hy => by rw [hfi]; exact hw x (by simp [hx]) y hy) (fun x hx => hic x (by simp [hx]))
        (fun x hx => hso x (List.mem_append_right _ hx)) _ (by omega) vs m3 l3
      refine ⟨s, hs', fl'', h1.append (h3.append h5), by simpa [contents] using h6, ?_, ?_, by simp only [List.map_cons, goes, hnx, Option.bind_some]; exact h9⟩
      · rw [h7]
        cases cs with
        | nil => simp [Flow.step_box (Flow.next_step hnx).1]
        | cons d ds => simp [List.getLast?_cons]
      · intro hh
        rw [h8 (fun x hx => hh x (by simp [hx]))]
        have := hh c (by simp)
        cases hb : c.blk <;> simp_all [Blk.isHead, Blk.after]

theorem contents_parts (ids : Ids) (hs : List Title) (a b : List Tagged) :
    ∃ hs', contents ids hs (a ++ b) = contents ids hs a ++ contents ids hs' b := by
  induction a generalizing hs with
  | nil => exact ⟨hs, rfl⟩
  | cons c a ih =>
    obtain ⟨hs', e⟩ := ih (c.blk.after ids hs)
    exact ⟨hs', by simp only [List.cons_append, contents, e]⟩

theorem listedL_plain (path : List Title) : ∀ bs : List Block, (∀ b ∈ bs, b.isSection = false) →
    ∀ x ∈ listedL path bs, x.2.isSection = false
  | [], _, x, hx => by cases hx
  | b :: bs, h, x, hx => by
    rw [listedL, listed_leaf _ b (h b (by simp))] at hx
    rcases List.mem_append.1 hx with hx | hx
    · have := h b (by simp)
      rw [List.mem_singleton.1 hx]
      cases b <;> first | rfl | cases this
    · exact listedL_plain path bs (fun y hy => h y (by simp [hy])) x hx

/-- What comes before a section is before the last section. -/
theorem before_last {α : Type} (P : α → Bool) : ∀ (A B C D : List α) (x y : α), A ++ x :: B = C ++ y :: D → P y = true →
    (∀ b ∈ B, P b = false) → ∃ more, A = C ++ more
  | A, B, [], D, x, y, _, _, _ => ⟨A, rfl⟩
  | [], B, c :: C, D, x, y, h, hy, hb => by
    simp only [List.nil_append, List.cons_append, List.cons.injEq] at h
    have := hb y (by rw [h.2]; simp)
    rw [hy] at this; cases this
  | a :: A, B, c :: C, D, x, y, h, hy, hb => by
    simp only [List.cons_append, List.cons.injEq] at h
    obtain ⟨more, e⟩ := before_last P A B C D x y h.2 hy hb
    exact ⟨more, by rw [h.1, e]; rfl⟩

theorem block_isSection (c : Tagged) (h : c.blk.isHead = true) (ids : Ids) : (c.block ids).isSection = true := by
  cases hb : c.blk <;> simp_all [Blk.isHead]
  unfold Tagged.block
  rw [hb]
  simp [Blk.block]
  all_goals first | rfl | (split <;> rfl)

/-- What a document says before its last heading, or all it says if it has no headings, is said whatever follows. -/
theorem parse_before (w : World) (k : Nat) (d : RichDoc) (rest : Str) (ho : d.Ok) (hl : Legible [] d.signs rest)
    (hu : ∃ cs, written d.signs ++ rest = enc cs) (hw : ∀ x ∈ d.targets, There w [] x) (hg : ∀ c ∈ d.blocks, c.gap.Ok 2 false)
    (hb : ∀ c, d.blocks.getLast? = some c → c.blk.isBox = false) (pre post : List Tagged) (hd : d.blocks = pre ++ post)
    (hp : (post = [] ∧ ∀ c ∈ pre, c.blk.isHead = false) ∨ ∃ c, post.head? = some c ∧ c.blk.isHead = true)
    (g : Asg) (hr : Adoc.parseText w (k + 2) (written d.signs ++ rest) = .ok g) :
    ∃ more, listedL [] g.blocks = contents (g.idHash.map bareKV) [] pre ++ more := by
  obtain ⟨ts, mo, h1, h2, hli⟩ := scan_before d.signs rest hu (fun s hs => by
    have := ho.signs s hs
    cases s with
    | text => trivial
    | mark ty l => exact this) hl
  obtain ⟨p, f, us, vs, rfl, h3, h4, m2, hf1, hf2, i, hi, hli⟩ := feed_front w (k + 1) d.head d.lead _ ho.head ho.lead ts _ _ h1 h2 hli
  obtain ⟨q, hs', fl', h5, h6, h7, h8, -⟩ := feed_upto w k _ d.blocks p [] [] {} h4 ho.blocks hg ho.flow
    (files_same h3 ⟨by simp [Parser.new], trivial⟩).1 (fun c hc x hx => by
      rw [(files_same h3 ⟨by simp [Parser.new], trivial⟩).2.1]; exact hw x (List.mem_flatMap.2 ⟨c, hc, hx⟩))
    (icons_head hf2 ho.icons)
    (fun s hs => ho.signs s (by unfold RichDoc.signs; simp only [List.mem_append]; exact .inr (.inr hs))) i hi vs m2 hli
  have h9 := h3.append h5
  have hst : StackOk (fun _ => True) q.blocks := (files_same h9 ⟨by simp [Parser.new], trivial⟩).1
  have hbox : fl'.box = false := by
    rw [h7]
    cases hq : d.blocks.getLast? with
    | none => rfl
    | some c => exact hb c hq
  rw [List.nil_append, hd] at h6
  obtain ⟨pend, hpb, hpf, hcont⟩ := h6.content
  -- what is in the graph by then
  have key : edgeL q.asg.blocks = true ∧ ∃ more, listedL [] q.asg.blocks = contents [] [] pre ++ more := by
    cases hcont with
    | flat e1 e2 e3 e4 e5 e6 =>
      obtain ⟨hs2, e⟩ := contents_parts [] [] pre post
      exact ⟨e1 hbox, _, e4.trans e⟩
    | under ti m v cs l e1 e2 e3 e4 e5 e6 e7 e8 =>
      refine ⟨e1, ?_⟩
      rcases hp with ⟨rfl, hp⟩ | ⟨c, hc, hp⟩
      · have := h8 (by rw [hd, List.append_nil]; exact hp)
        subst this
        simp [parents] at e6
      · cases post with
        | nil => cases hc
        | cons c' post =>
          simp only [List.head?_cons, Option.some.injEq] at hc
          subst hc
          obtain ⟨hs2, e⟩ := contents_parts [] [] pre (c' :: post)
          rw [e, contents, Spec.listed] at e5
          exact before_last (fun x => x.2.isSection) _ _ _ _ _ _ e5 (block_isSection c' hp [])
            (listedL_plain _ cs e3)
  obtain ⟨he, more, hmore⟩ := key
  -- what is in it at the end
  unfold Adoc.parseText at hr
  rw [h2, parse_append w (k + 2) _ _ _ q h9] at hr
  simp only [bind, Except.bind, pure, Except.pure] at hr
  split at hr
  · cases hr
  · rename_i r hpr
    cases hr
    obtain ⟨s, hs, rfl⟩ := parse_rel stack_true w (k + 2) mo q r hpr
    obtain ⟨more', hk⟩ := (Kept.steps he (hs hst).2.1).listed []
    have hid : s.asg.consolidate.idHash = s.asg.idHash ∧
        s.asg.consolidate.blocks = mapInlinesL (Inline.resolveXref s.asg.idHash) s.asg.blocks := by
      unfold Asg.consolidate Asg.consolidateLocations Asg.consolidateXrefs
      split
      · exact ⟨rfl, rfl⟩
      · split <;> exact ⟨rfl, rfl⟩
    show ∃ more, listedL [] s.asg.consolidate.blocks = _
    rw [hid.1, hid.2]
    have hres := listedL_resolve s.asg.idHash (s.asg.idHash.map bareKV) (fun i => get_bareKV _ i) [] s.asg.blocks
    have hc := contents_resolve (s.asg.idHash.map bareKV) [] pre
    rw [List.map_nil] at hres hc
    rw [hres, hk, hmore, hc]
    exact ⟨more.map (resE (s.asg.idHash.map bareKV)) ++ more'.map (resE (s.asg.idHash.map bareKV)), by simp only [List.map_append, List.append_assoc]⟩
where
  get_bareKV (m : SMap (List Inline)) (i : Str) : SMap.get? (m.map bareKV) i = (SMap.get? m i).map bareL := by
    induction m with
    | nil => rfl
    | cons x m ih =>
      obtain ⟨a, v⟩ := x
      simp only [SMap.get?, List.map_cons, bareKV]
      split
      · rfl
      · exact ih

end Adoc.Rich
