import Verif.Proof.OutlineSteps
/-!
# Feeding the tokens of a chunk to the parser
-/
namespace Adoc.Parser
open Spec Proof Props Scanner
open Block (liftB)

/-- The token type of a section heading. -/
def headTy : Nat → TokenType
  | 1 => .heading2
  | 2 => .heading3
  | 3 => .heading4
  | _ => .heading5

/-- The token type of a list item. -/
def itemTy : ListVariant → TokenType
  | .unordered => .unorderedListItem
  | .ordered => .orderedListItem

/-- The lines of a chunk, with their markers. -/
def _root_.Adoc.Spec.Chunk.lns : Chunk → List Ln
  | .para ls => ls.map .text
  | .head n t => [.marked (List.replicate (n + 1) c!"=" ++ b!" ") (headTy n) t]
  | .list v items => items.map (.marked (bullet v ++ b!" ") (itemTy v))

theorem lns_str (c : Chunk) : c.lns.map Ln.str = c.lines := by
  cases c with
  | para ls => simp [Chunk.lns, Chunk.lines, Ln.str, Function.comp_def]
  | head n t => simp [Chunk.lns, Chunk.lines, Ln.str]
  | list v items => simp [Chunk.lns, Chunk.lines, Ln.str, Function.comp_def]

theorem lns_ok (c : Chunk) (h : c.Ok) : c.lns ≠ [] ∧ ∀ l ∈ c.lns, l.Ok := by
  cases c with
  | para ls =>
    refine ⟨by simpa [Chunk.lns] using h.1, ?_⟩
    intro l hl
    simp only [Chunk.lns, List.mem_map] at hl
    obtain ⟨x, hx, rfl⟩ := hl
    exact .inr (h.2 x hx)
  | head n t =>
    refine ⟨by simp [Chunk.lns], ?_⟩
    intro l hl
    simp only [Chunk.lns, List.mem_singleton] at hl
    subst hl
    obtain ⟨h1, h2, h3⟩ := h
    refine ⟨?_, h3⟩
    match n, h1, h2 with
    | 1, _, _ => exact .head1
    | 2, _, _ => exact .head2
    | 3, _, _ => exact .head3
    | 4, _, _ => exact .head4
  | list v items =>
    refine ⟨by simpa [Chunk.lns] using h.1, ?_⟩
    intro l hl
    simp only [Chunk.lns, List.mem_map] at hl
    obtain ⟨x, hx, rfl⟩ := hl
    refine ⟨?_, h.2 x hx⟩
    cases v
    · exact .dot
    · exact .star

theorem _root_.Adoc.Spec.PlainLine.ne {l : Str} (h : PlainLine l) : l ≠ [] := by
  obtain ⟨b, bs, rfl, _⟩ := h.first
  simp

theorem docToks_one {n : Nat} {l : Ln} {ts : List Token} (h : DocToks n [l] ts) : l.Toks n ts := by
  obtain ⟨init, last, t1, t2, h1, rfl, h2, h3⟩ := h
  cases init with
  | nil =>
    cases h2
    cases h1
    exact h3
  | cons x xs =>
    have := congrArg List.length h1
    simp at this

theorem docToks_cons {n : Nat} {l l' : Ln} {rest : List Ln} {ts : List Token} (h : DocToks n (l :: l' :: rest) ts) :
    ∃ t1 t2, ts = t1 ++ newline n (1 + l.str.length) [] :: t2 ∧ l.Toks n t1 ∧ DocToks (n + 1) (l' :: rest) t2 := by
  obtain ⟨t1, t2, rfl, h1, h2⟩ := DocToks.append (a := [l]) (by simp) h
  cases h1 with
  | cons _ _ _ t u h3 h4 =>
    cases h4
    exact ⟨t, t2, by simp, h3, h2⟩

/-! ## Lines of a paragraph -/

/-- The parts of the state that text does not change. -/
structure Keep (p q : Parser) : Prop where
  calm : Calm q
  blocks : q.blocks = p.blocks
  asg : q.asg = p.asg
  force : q.forceNew = p.forceNew
  line : q.inBlockLine = false
  last : q.lastTy = .text
  dangling : q.dangling = none

theorem newline_step (w : World) (k : Nat) (p : Parser) (n c : Nat) (hc : Calm p) (hl : p.lastTy = .text) :
    tokenInto w (k + 1) (newline n c []) p
      = .ok { p with inBlockLine := false, dangling := some (newline n c []) } :=
  newLine_first w k p _ rfl hc.header hc.openText hc.title (by rw [hl]; simp) (by rw [hl]; simp) hc.inCont (by rw [hl]; rfl)

theorem feed_lines (w : World) (k : Nat) (rest : List Str) (hr : ∀ l ∈ rest, l ≠ []) (m c : Nat) (ts : List Token) (l : Str)
    (hts : DocToks (m + 1) ((l :: rest).map .text) ts) (hl : l ≠ []) (p : Parser) (v : Str) (a : Location) (hc : Calm p)
    (hlast : p.lastTy = .text) (hi : p.inlines = [.lit .text v [a, ⟨m, c, []⟩]]) (hb : before a ⟨m, c, []⟩) :
    ∃ q loc, feed (tokenInto w (k + 1)) true ((newline m (1 + c) [] :: ts).map .tok) p = .ok q ∧ Keep p q
      ∧ q.inlines = [.lit .text (v ++ b!"\n" ++ joinB 10 (l :: rest)) loc] := by
  have hstep : ∀ t1, Pieces (m + 1) [] 1 l t1 → feed (tokenInto w (k + 1)) true ((newline m (1 + c) [] :: t1).map .tok) p
      = .ok { p with
        inBlockLine := false
        inlines := [.lit .text (v ++ b!"\n" ++ l) [a, ⟨m + 1, 1 + l.length - 1, []⟩]], lastTy := .text, dangling := none } := by
    intro t1 h1
    rw [List.map_cons, feed_cons _ _ _ _ _ (newline_step w k p m (1 + c) hc hlast)]
    rw [feed_next w k (m + 1) [] 1 l t1 hl h1 _ v a ⟨m, c, []⟩ m (1 + c) (by exact hc.openText) rfl (by exact hc.preserveNl)
      (by exact hi) hb (before_line _ _ _ _ _ (by omega)) (before_line _ _ _ _ _ (by omega))]
  induction rest generalizing m c ts l p v with
  | nil =>
    refine ⟨_, _, hstep ts (docToks_one hts), ⟨hc, rfl, rfl, rfl, rfl, rfl, rfl⟩, rfl⟩
  | cons l' rest ih =>
    obtain ⟨t1, t2, rfl, h1, h2⟩ := docToks_cons hts
    have h3 := hstep t1 h1
    have hpos := List.length_pos_iff.2 hl
    have e : 1 + l.length - 1 = l.length := by omega
    rw [e] at h3
    have h5 : before a ⟨m + 1, l.length, []⟩ := before_trans hb (before_line _ _ _ _ _ (by omega))
    obtain ⟨q, loc, h6, h7, h8⟩ := ih (fun x hx => hr x (by simp [hx])) (m + 1) l.length t2 l' h2 (hr l' (by simp)) { p with
      inBlockLine := false
      inlines := [.lit .text (v ++ b!"\n" ++ l) [a, ⟨m + 1, l.length, []⟩]], lastTy := .text, dangling := none }
      (v ++ b!"\n" ++ l) hc rfl rfl h5 (by
        intro t1 g1
        rw [List.map_cons, feed_cons _ _ _ _ _ (newline_step w k _ (m + 1) (1 + l.length) (by exact hc) rfl)]
        rw [feed_next w k (m + 1 + 1) [] 1 l' t1 (hr l' (by simp)) g1 _ (v ++ b!"\n" ++ l) a ⟨m + 1, l.length, []⟩ (m + 1)
          (1 + l.length) (by exact hc.openText) rfl (by exact hc.preserveNl)
          (by rfl) h5 (before_line _ _ _ _ _ (by omega)) (before_line _ _ _ _ _ (by omega))])
    refine ⟨q, loc, ?_, ⟨h7.calm, h7.blocks, h7.asg, h7.force, h7.line, h7.last, h7.dangling⟩, ?_⟩
    · have := feed_append _ _ _ ((newline (m + 1) (1 + l.length) [] :: t2).map .tok) _ _ h3
      rw [h6] at this
      simpa [Ln.str] using this
    · rw [h8]; simp [joinB]

theorem feed_para (w : World) (k n : Nat) (ls : List Str) (hls : ∀ l ∈ ls, l ≠ []) (hne : ls ≠ []) (ts : List Token)
    (hts : DocToks n (ls.map .text) ts) (p : Parser) (hc : Calm p) (hi : p.inlines = []) (hd : p.dangling = none)
    (hline : p.inBlockLine = false) :
    ∃ q loc, feed (tokenInto w (k + 1)) true (ts.map .tok) p = .ok q ∧ Keep p q
      ∧ q.inlines = [.lit .text (joinB 10 ls) loc] := by
  cases ls with
  | nil => exact absurd rfl hne
  | cons l rest =>
    have hl := hls l (by simp)
    have hpos := List.length_pos_iff.2 hl
    cases rest with
    | nil =>
      refine ⟨_, _, feed_text w k n [] 1 l ts hl (docToks_one hts) p hc.openText hd hi, ⟨hc, rfl, rfl, rfl, hline, rfl, hd⟩, rfl⟩
    | cons l' rest =>
      obtain ⟨t1, t2, rfl, h1, h2⟩ := docToks_cons hts
      have h3 := feed_text w k n [] 1 l t1 hl h1 p hc.openText hd hi
      have e : 1 + l.length - 1 = l.length := by omega
      rw [e] at h3
      obtain ⟨q, loc, h6, h7, h8⟩ := feed_lines w k rest (fun x hx => hls x (by simp [hx])) n l.length t2 l' h2
        (hls l' (by simp)) { p with inlines := [.lit .text l [⟨n, 1, []⟩, ⟨n, l.length, []⟩]], lastTy := .text } l ⟨n, 1, []⟩ hc rfl rfl
        (before_line _ _ _ _ _ (by omega))
      refine ⟨q, loc, ?_, ⟨h7.calm, h7.blocks, h7.asg, h7.force, h7.line, h7.last, h7.dangling⟩, ?_⟩
      · have := feed_append _ _ _ ((newline n (1 + l.length) [] :: t2).map .tok) _ _ h3
        rw [h6] at this
        simpa [Ln.str] using this
      · rw [h8]; simp [joinB]

/-! ## List items -/

/-- After the text of a list item. -/
structure InList (p : Parser) (f : Option Header × Option (SMap Str) × Str) (hs : List Heading)
    (E : List (List Heading × Entry)) (v : ListVariant) (ts : List Str) (t : Str) : Prop where
  calm : Calm p
  front : p.asg.front = f
  line : p.inBlockLine = false
  last : p.lastTy = .text
  body : ∃ pend items l l1 l2, p.blocks = .listItem (bullet v) [] [] none l1 :: .list v items none l2 :: pend.toList
    ∧ Content p.asg.blocks hs E pend ∧ p.inlines = [.lit .text t l] ∧ allSome (items.map (itemText v)) = some ts

theorem InList.toOpen {p : Parser} {f : Option Header × Option (SMap Str) × Str} {hs : List Heading}
    {E : List (List Heading × Entry)} {v : ListVariant} {ts : List Str} {t : Str} (h : InList p f hs E v ts t) :
    Open p f hs (E ++ [(parents hs 5, .list v (ts ++ [t]))]) := by
  obtain ⟨pend, items, l, l1, l2, h1, h2, h3, h4⟩ := h.body
  exact .list hs E pend v t items ts l l1 l2 h.calm h.front h1 h2 h3 h4

/-- The token of the marker of a list item. -/
def itemTok (v : ListVariant) (n : Nat) : Token := ⟨itemTy v, bullet v ++ b!" ", none, n, 1, (bullet v ++ b!" ").length, []⟩

theorem itemTok_new (v : ListVariant) (n : Nat) :
    Block.newListItem (itemTok v n) = .listItem (bullet v) [] [] none (itemTok v n).locations := by
  cases v <;> rfl

theorem item_first (w : World) (k n : Nat) (v : ListVariant) (p : Parser) (hc : Calm p) (hs : List Heading)
    (E : List (List Heading × Entry)) (pend : Option Block) (hbl : p.blocks = pend.toList)
    (hcon : Content p.asg.blocks hs E pend) :
    tokenInto w (k + 1) (itemTok v n) p = .ok { p with
      dangling := none
      blocks := .listItem (bullet v) [] [] none (itemTok v n).locations
        :: .list v [] none (itemTok v n).locations :: pend.toList } := by
  rw [tokenInto_plain w k _ p hc.header hc.openText, ← itemTok_new]
  cases hcon <;> cases v <;>
    simp [dispatchToken, itemTok, itemTy, parseOrdered, parseUnordered, hbl, pushToStack, hc.inCont, hc.data, bind,
      Except.bind, Block.isOrderedItem, Block.isUnorderedItem]

theorem item_next (w : World) (k n : Nat) (v : ListVariant) (p : Parser) (hc : Calm p) (t : Str) (items : List Block)
    (l l1 l2 : List Location) (rest : List Block)
    (hbl : p.blocks = .listItem (bullet v) [] [] none l1 :: .list v items none l2 :: rest)
    (hline : p.inBlockLine = false) (hi : p.inlines = [.lit .text t l]) :
    tokenInto w (k + 1) (itemTok v n) p = .ok { p with
      dangling := none, inlines := [], forceNew := false
      blocks := .listItem (bullet v) [] [] none (itemTok v n).locations :: grown v items l2 t l l1 :: rest } := by
  rw [tokenInto_plain w k _ p hc.header hc.openText, ← itemTok_new]
  have h := addLastItem_list { p with dangling := none } hc v t items l l1 l2 rest hbl hline hi
  cases v
  · simp only [dispatchToken, itemTok, itemTy, parseOrdered, hbl, bullet, Block.isOrderedItem, bind, Except.bind]
    rw [if_pos (by decide)]
    simp only [bullet, hbl] at h
    rw [h]
    simp [pushToStack, hc.inCont, hc.data]
  · simp only [dispatchToken, itemTok, itemTy, parseUnordered, hbl, bullet, Block.isUnorderedItem, bind, Except.bind]
    rw [if_pos (by decide)]
    simp only [bullet, hbl] at h
    rw [h]
    simp [pushToStack, hc.inCont, hc.data]

theorem feed_item (w : World) (k m c n : Nat) (p : Parser) (f : Option Header × Option (SMap Str) × Str) (hs : List Heading)
    (E : List (List Heading × Entry)) (v : ListVariant) (ts : List Str) (t t' : Str) (h : InList p f hs E v ts t)
    (us : List Token) (hu : (Ln.marked (bullet v ++ b!" ") (itemTy v) t').Toks n us) (ht : t' ≠ []) :
    ∃ q, feed (tokenInto w (k + 1)) true ((newline m c [] :: us).map .tok) p = .ok q
      ∧ InList q f hs E v (ts ++ [t]) t' ∧ q.forceNew = false := by
  obtain ⟨pend, items, l, l1, l2, h1, h2, h3, h4⟩ := h.body
  obtain ⟨us', htok, hp⟩ := hu
  replace htok : us = itemTok v n :: us' := htok
  subst htok
  obtain ⟨items', l', g1, g2⟩ := grown_list v items l2 t l l1 ts h4
  rw [List.map_cons, feed_cons _ _ _ _ _ (newline_step w k p m c h.calm h.last), List.map_cons]
  rw [feed_cons _ _ _ _ _ (item_next w k n v _ (by exact h.calm) t items l l1 l2 pend.toList (by exact h1) rfl
    (by exact h3))]
  rw [feed_text w k n [] _ t' us' ht hp _ (by exact h.calm.openText) rfl rfl, g1]
  exact ⟨_, rfl, ⟨h.calm, h.front, rfl, rfl, pend, items', _, _, l', rfl, h2, rfl, g2⟩, rfl⟩

theorem feed_items (w : World) (k : Nat) (v : ListVariant) (f : Option Header × Option (SMap Str) × Str) (hs : List Heading)
    (E : List (List Heading × Entry)) (rest : List Str) (hr : ∀ l ∈ rest, l ≠ []) (m c : Nat) (us : List Token) (t' : Str)
    (hu : DocToks (m + 1) ((t' :: rest).map (.marked (bullet v ++ b!" ") (itemTy v))) us) (ht : t' ≠ []) (p : Parser)
    (ts : List Str) (t : Str) (h : InList p f hs E v ts t) :
    ∃ q, feed (tokenInto w (k + 1)) true ((newline m c [] :: us).map .tok) p = .ok q
      ∧ Open q f hs (E ++ [(parents hs 5, .list v (ts ++ t :: t' :: rest))]) ∧ q.inBlockLine = false ∧ q.forceNew = false
      ∧ q.lastTy = .text := by
  induction rest generalizing m c us t' p ts t with
  | nil =>
    obtain ⟨q, h1, h2, h3⟩ := feed_item w k m c (m + 1) p f hs E v ts t t' h us (docToks_one hu) ht
    exact ⟨q, h1, by simpa using h2.toOpen, h2.line, h3, h2.last⟩
  | cons x rest ih =>
    obtain ⟨t1, t2, rfl, g1, g2⟩ := docToks_cons hu
    obtain ⟨q, h1, h2, h3⟩ := feed_item w k m c (m + 1) p f hs E v ts t t' h t1 g1 ht
    obtain ⟨q', g3, g4, g5⟩ := ih (fun l hl => hr l (by simp [hl])) (m + 1) _ t2 x g2 (hr x (by simp)) q (ts ++ [t]) t' h2
    refine ⟨q', ?_, by simpa using g4, g5⟩
    rw [← List.cons_append, List.map_append, feed_append _ _ _ _ _ _ h1]
    exact g3

theorem feed_list (w : World) (k n : Nat) (v : ListVariant) (f : Option Header × Option (SMap Str) × Str) (hs : List Heading)
    (E : List (List Heading × Entry)) (items : List Str) (hne : items ≠ []) (hr : ∀ l ∈ items, l ≠ []) (ts : List Token)
    (hu : DocToks n (items.map (.marked (bullet v ++ b!" ") (itemTy v))) ts) (p : Parser) (h : Between p f hs E) :
    ∃ q, feed (tokenInto w (k + 1)) true (ts.map .tok) p = .ok q
      ∧ Open q f hs (E ++ [(parents hs 5, .list v items)]) ∧ q.inBlockLine = false
      ∧ (2 ≤ items.length ∨ p.forceNew = false → q.forceNew = false) ∧ q.lastTy = .text := by
  obtain ⟨pend, h1, _, h2⟩ := h.content
  have hfirst : ∀ t us, t ≠ [] → (Ln.marked (bullet v ++ b!" ") (itemTy v) t).Toks n us →
      ∃ q, feed (tokenInto w (k + 1)) true (us.map .tok) p = .ok q ∧ InList q f hs E v [] t ∧ q.forceNew = p.forceNew := by
    intro t us ht hu
    obtain ⟨us', htok, hp⟩ := hu
    replace htok : us = itemTok v n :: us' := htok
    subst htok
    rw [List.map_cons, feed_cons _ _ _ _ _ (item_first w k n v p h.calm hs E pend h1 h2)]
    rw [feed_text w k n [] _ t us' ht hp _ (by exact h.calm.openText) rfl (by exact h.inlines)]
    exact ⟨_, rfl, ⟨h.calm, h.front, h.line, rfl, pend, [], _, _, _, rfl, h2, rfl, rfl⟩, rfl⟩
  match items, hne with
  | [t], _ =>
    obtain ⟨q, g1, g2, g3⟩ := hfirst t ts (hr t (by simp)) (docToks_one hu)
    exact ⟨q, g1, g2.toOpen, g2.line, by rw [g3]; simp, g2.last⟩
  | t :: t' :: rest, _ =>
    obtain ⟨t1, t2, rfl, g1, g2⟩ := docToks_cons hu
    obtain ⟨q, h3, h4, h5⟩ := hfirst t t1 (hr t (by simp)) g1
    obtain ⟨q', g3, g4, g5, g6, g7⟩ := feed_items w k v f hs E rest (fun l hl => hr l (by simp [hl])) n _ t2 t' g2
      (hr t' (by simp)) q [] t h4
    refine ⟨q', ?_, by simpa using g4, g5, fun _ => g6, g7⟩
    rw [List.map_append, feed_append _ _ _ _ _ _ h3]
    exact g3

/-! ## Headings -/

theorem headingLevel_of (p : Parser) (hc : Calm p) (n : Nat) (h1 : 1 ≤ n) (h2 : n ≤ 4) (t : Token) (ht : t.ty = headTy n) :
    p.headingLevel t = .ok n := by
  unfold headingLevel
  rw [ht, hc.offset]
  match n, h1, h2 with
  | 1, _, _ => rfl
  | 2, _, _ => rfl
  | 3, _, _ => rfl
  | 4, _, _ => rfl

theorem dispatch_head (w : World) (g : Token → Parser → M Parser) (p : Parser) (n : Nat) (t : Token)
    (ht : t.ty = headTy n) : p.dispatchToken w g t = p.parseSection t := by
  have : headTy n = .heading2 ∨ headTy n = .heading3 ∨ headTy n = .heading4 ∨ headTy n = .heading5 := by
    unfold headTy; split <;> simp
  unfold dispatchToken
  rw [ht]
  rcases this with h | h | h | h <;> rw [h]

theorem feed_head (w : World) (k m n : Nat) (f : Option Header × Option (SMap Str) × Str) (hs : List Heading)
    (E : List (List Heading × Entry)) (t : Str) (h1 : 1 ≤ n) (h2 : n ≤ 4) (ht : t ≠ []) (mrk : Str) (ts : List Token)
    (hu : (Ln.marked mrk (headTy n) t).Toks m ts) (p : Parser) (h : Between p f hs E) :
    ∃ q, feed (tokenInto w (k + 1)) true (ts.map .tok) p = .ok q
      ∧ Open q f ((n, t) :: hs) (E ++ [(parents hs n, .head n t)]) ∧ q.lastTy = .text
      ∧ CanEnd { q with inBlockLine := false } := by
  obtain ⟨us, rfl, hp⟩ := hu
  obtain ⟨pend, g1, _, g2⟩ := h.content
  have hc := h.calm
  -- the open section goes to the graph
  have hflush : ∃ g, (p.parseSection ⟨headTy n, mrk, none, m, 1, mrk.length, []⟩ = .ok { p with
        asg := g, blocks := [.section [] none n [] [⟨m, 1, []⟩]], inBlockLine := true, dangling := none
        forceNew := false }) ∧ plainL g.blocks = true ∧ readingL [] g.blocks = E
        ∧ parents hs 5 = spineL g.blocks ∧ (∀ h ∈ hs, h.1 < 5) ∧ g.front = p.asg.front := by
    unfold parseSection
    rw [headingLevel_of p hc n h1 h2 _ rfl]
    cases hpend : pend with
    | none =>
      subst hpend
      cases g2 with
      | flat b1 b2 b3 b4 =>
        refine ⟨p.asg, ?_, b1, b4, by rw [b3, b2]; rfl, by rw [b3]; simp, rfl⟩
        simp [g1, bind, Except.bind, pushToStack, hc.inCont, hc.data, pure, Except.pure, Token.firstLocation]
    | some s =>
      subst hpend
      obtain ⟨g, a1, a2⟩ := g2.flush []
      refine ⟨g, ?_, a2⟩
      have hsec : s.isSection = true := by cases g2; rfl
      have hadd : p.addLastToStackOrGraph = .ok { p with blocks := [], asg := g } := by
        unfold addLastToStackOrGraph
        rw [g1]
        exact a1
      simp only [g1, Option.toList_some, hsec, if_true, hadd, bind, Except.bind]
      simp [pushToStack, hc.inCont, hc.data, pure, Except.pure, Token.firstLocation]
  obtain ⟨g, f1, f2, f3, f4, f5, f6⟩ := hflush
  have hstep : tokenInto w (k + 1) ⟨headTy n, mrk, none, m, 1, mrk.length, []⟩ p = .ok { p with
      asg := g, blocks := [.section [] none n [] [⟨m, 1, []⟩]], inBlockLine := true, dangling := none
      forceNew := false } := by
    rw [tokenInto_plain w k _ p hc.header hc.openText, dispatch_head w _ p n _ rfl, f1]
  rw [List.map_cons, feed_cons _ _ _ _ _ hstep]
  rw [feed_text w k m [] _ t us ht hp _ (by exact hc.openText) rfl (by exact h.inlines)]
  have hpar : (spineL g.blocks).takeWhile (·.1 < n) = parents hs n := by
    rw [← f4, parents_take hs n 5 (by omega) f5]
  refine ⟨_, rfl, .head _ _ n t _ _ (by exact hc) (by exact f6.trans h.front) rfl rfl rfl ?_, rfl, rfl⟩
  refine .under _ n [] _ f2 rfl rfl ?_ ?_ ?_
  · intro x hx
    rcases List.mem_cons.1 hx with rfl | hx
    · show n < 5; omega
    · exact f5 x hx
  · rw [f3]
    simp only [hpar, reading, readingL, viewHead, soleText]
  · rw [hpar]
    simp only [parents, soleText, Option.getD_some]
    rw [if_pos (by omega)]

/-! ## Chunks -/

/-- The document may end right after the chunk. -/
def _root_.Adoc.Spec.Chunk.endsAtOnce : Chunk → Bool
  | .para _ => true
  | .head _ _ => false
  | .list _ items => 2 ≤ items.length

/-- The document may end after the chunk and a newline. -/
def _root_.Adoc.Spec.Chunk.endsAfterNewline : Chunk → Bool
  | .list _ items => 2 ≤ items.length
  | _ => true

theorem feed_chunk (w : World) (k n : Nat) (f : Option Header × Option (SMap Str) × Str) (hs : List Heading)
    (E : List (List Heading × Entry)) (c : Chunk) (hok : c.Ok) (ts : List Token) (hts : DocToks n c.lns ts) (p : Parser)
    (h : Between p f hs E) :
    ∃ q, feed (tokenInto w (k + 1)) true (ts.map .tok) p = .ok q
      ∧ Open q f (c.after hs) (E ++ [(parents hs c.level, c.entry)]) ∧ q.lastTy = .text
      ∧ (c.endsAtOnce = true ∨ p.forceNew = false ∧ c.endsAfterNewline = false → CanEnd q)
      ∧ (c.endsAfterNewline = true ∨ p.forceNew = false → CanEnd { q with inBlockLine := false }) := by
  cases c with
  | para ls =>
    obtain ⟨hne, hls⟩ := hok
    obtain ⟨pend, g1, g2, g3⟩ := h.content
    obtain ⟨q, l, h1, h2, h3⟩ := feed_para w k n ls (fun l hl => (hls l hl).ne) hne ts hts p h.calm h.inlines h.dangling h.line
    have hb : q.blocks = pend.toList := h2.blocks.trans g1
    have hend : CanEnd q ∧ CanEnd { q with inBlockLine := false } := by
      unfold CanEnd
      rw [hb]
      cases pend with
      | none => exact ⟨trivial, trivial⟩
      | some b =>
        simp only [Option.toList_some, h2.line]
        cases g3 with
        | under ti v cs l' => cases ti <;> exact ⟨by first | trivial | rfl, by first | trivial | rfl⟩
    refine ⟨q, h1, ?_, h2.last, fun _ => hend.1, fun _ => hend.2⟩
    exact .para hs E pend (joinB 10 ls) l h2.calm (by rw [h2.asg]; exact h.front) hb (by rw [h2.force]; exact g2)
      (by rw [h2.asg]; exact g3) h3
  | head m t =>
    obtain ⟨a1, a2, a3⟩ := hok
    obtain ⟨q, h1, h2, h3, h4⟩ := feed_head w k n m f hs E t a1 a2 a3.ne _ ts (docToks_one hts) p h
    refine ⟨q, h1, h2, h3, by simp [Chunk.endsAtOnce, Chunk.endsAfterNewline], fun _ => h4⟩
  | list v items =>
    obtain ⟨hne, hls⟩ := hok
    obtain ⟨q, h1, h2, h3, h4, h5⟩ := feed_list w k n v f hs E items hne (fun l hl => (hls l hl).ne) ts hts p h
    have hcan : q.forceNew = false → CanEnd q ∧ CanEnd { q with inBlockLine := false } := by
      intro hf
      unfold CanEnd
      constructor
      · split <;> simp [h3, hf]
      · dsimp only
        split <;> simp [hf]
    refine ⟨q, h1, h2, h5, fun hc => (hcan (h4 ?_)).1, fun hc => (hcan (h4 ?_)).2⟩
    · rcases hc with hc | hc
      · exact .inl (by simpa [Chunk.endsAtOnce] using hc)
      · exact .inr hc.1
    · rcases hc with hc | hc
      · exact .inl (by simpa [Chunk.endsAfterNewline] using hc)
      · exact .inr hc

end Adoc.Parser
