import Verif.Proof.TextSteps
import Verif.Props.Parser
/-!
# C14: plain text
-/
namespace Adoc.Props
open Parser Scanner Spec

/-! ## Scanning -/

/-- The tokens of some lines, from line `n` on: the text tokens of each line, with newlines between the lines. -/
inductive LineTokens : Nat → List Str → List Token → Prop where
  | last (n : Nat) (l : Str) (ts : List Token) (h : Pieces n [] 1 l ts) : LineTokens n [l] ts
  | cons (n : Nat) (l l' : Str) (rest : List Str) (ts us : List Token) (h : Pieces n [] 1 l ts)
      (hr : LineTokens (n + 1) (l' :: rest) us) :
      LineTokens n (l :: l' :: rest) (ts ++ newline n (1 + l.length) [] :: us)

theorem joinB_starts (ls : List Str) (h : ∀ l ∈ ls, l = [] ∨ PlainLine l) : Starts (joinB 10 ls) := by
  match ls with
  | [] => intro b hb; simp [joinB] at hb
  | [l] =>
    rcases h l (by simp) with rfl | hl
    · intro b hb; simp [joinB] at hb
    · obtain ⟨b, bs, rfl, hb, _⟩ := hl.first
      exact starts_ascii _ _ hb
  | l :: l' :: rest =>
    rcases h l (by simp) with rfl | hl
    · exact starts_ascii _ _ (by decide)
    · obtain ⟨b, bs, rfl, hb, _⟩ := hl.first
      exact starts_ascii _ _ hb

theorem trace_lines (ls : List Str) (hne : ls ≠ []) (h : ∀ l ∈ ls, l = [] ∨ PlainLine l) (pre : Str) (st n : Nat) :
    ∃ ts pre' st' col, LineTokens n ls ts ∧ Trace (cut pre (joinB 10 ls) st 1 n []) (ts.map .tok)
      (cut pre' [] st' col (n + ls.length - 1) []) := by
  have hline : ∀ (l post : Str) (pre : Str) (st n : Nat), (l = [] ∨ PlainLine l) → AfterLine post →
      ∃ ts st', Pieces n [] 1 l ts ∧ Trace (cut pre (l ++ post) st 1 n []) (ts.map .tok)
        (cut (pre ++ l) post st' (1 + l.length) n []) := by
    intro l post pre st n hl hp
    rcases hl with rfl | hl
    · exact ⟨[], st, .nil _, by simpa using Trace.nil _⟩
    · exact trace_text pre l post st 1 n [] (hl.mid pre) hp
  induction ls generalizing pre st n with
  | nil => exact absurd rfl hne
  | cons l rest ih =>
    cases rest with
    | nil =>
      obtain ⟨ts, st', h1, h2⟩ := hline l [] pre st n (h l (by simp)) (.inl rfl)
      exact ⟨ts, pre ++ l, st', _, .last n l ts h1, by simpa [joinB] using h2⟩
    | cons l' rest =>
      obtain ⟨ts, st', h1, h2⟩ := hline l (10 :: joinB 10 (l' :: rest)) pre st n (h l (by simp)) (.inr ⟨_, rfl⟩)
      have hr : ∀ x ∈ l' :: rest, x = [] ∨ PlainLine x := fun x hx => h x (by simp [hx])
      have hnl := next_newline (pre ++ l) (joinB 10 (l' :: rest)) st' (1 + l.length) n [] (joinB_starts _ hr)
      obtain ⟨us, pre', st2, col, h3, h4⟩ := ih (by simp) hr (pre ++ l ++ [10]) (pre ++ l).length (n + 1)
      refine ⟨_, pre', st2, col, .cons n l l' rest ts us h1 h3, ?_⟩
      rw [List.map_append, List.map_cons]
      have e : n + (l :: l' :: rest).length - 1 = n + 1 + (l' :: rest).length - 1 := by simp; omega
      rw [e]
      exact h2.append (.cons hnl rfl h4)

/-- The scan of plain text. -/
theorem scan_plain (src : Str) (h : ∀ l ∈ splitOnB 10 src, l = [] ∨ PlainLine l) :
    ∃ ts m, LineTokens 1 (splitOnB 10 src) ts ∧ scan src = ts.map .tok ++ [.tok (Token.final m [])] := by
  obtain ⟨ts, pre', st', col, h1, h2⟩ := trace_lines (splitOnB 10 src) (splitOnB_ne_nil 10 src) h [] 0 1
  rw [joinB_splitOnB] at h2
  exact ⟨ts, _, h1, scan_of_trace (src := src) (by exact h2)⟩

/-! ## Parsing -/

/-- The paragraph made of some lines of the outermost file, the first of which has number `n`. -/
def paragraph (n : Nat) (ls : List Str) : Block :=
  let loc : List Location := [⟨n, 1, []⟩, ⟨n + ls.length - 1, (ls.getLastD []).length, []⟩]
  .leaf .paragraph .paragraph none [.lit .text (joinB 10 ls) loc] none loc

/-- Nothing is open or pending, apart from text. -/
structure Quiet (p : Parser) : Prop where
  header : p.header = none
  openText : p.openText = none
  blocks : p.blocks = []
  data : p.data = none
  title : p.title = none
  openLines : p.openLines = []
  inCont : p.inCont = false
  preserveNl : p.preserveNl = false

/-- Pending text from some lines. -/
structure Pending (p : Parser) (n : Nat) (ls : List Str) : Prop extends Quiet p where
  ne : ls ≠ []
  lines : ∀ l ∈ ls, l ≠ []
  inlines : p.inlines = [.lit .text (joinB 10 ls) [⟨n, 1, []⟩, ⟨n + ls.length - 1, (ls.getLastD []).length, []⟩]]

theorem lines_before (n : Nat) (ls : List Str) (h1 : ls ≠ []) (h2 : ∀ l ∈ ls, l ≠ []) :
    before ⟨n, 1, []⟩ ⟨n + ls.length - 1, (ls.getLastD []).length, []⟩ := by
  apply before_line
  match ls, h1 with
  | [l], _ =>
    have := List.length_pos_iff.2 (h2 l (by simp))
    right; simp; omega
  | _ :: _ :: _, _ => left; simp

/-- The pending text becomes a paragraph. -/
theorem addInlines_pending (p : Parser) (n : Nat) (ls : List Str) (h : Pending p n ls) :
    p.addInlines = .ok { p with inlines := [], blocks := [paragraph n ls] } := by
  unfold addInlines
  have hsp : p.danglingSpans = .ok p := danglingSpans_closed p (by rw [h.inlines]; simp [Inline.isOpen])
  simp only [h.inlines, List.isEmpty_cons, Bool.false_eq_true, if_false, hsp, ite_self, bind, Except.bind, h.header,
    h.blocks, newParagraph, List.reverse_singleton, h.inCont, Bool.false_and, h.data, pushToStack, Inline.locations]
  rfl

theorem paragraph_consolidate (n : Nat) (ls : List Str) (h1 : ls ≠ []) (h2 : ∀ l ∈ ls, l ≠ []) :
    (paragraph n ls).consolidate = paragraph n ls := by
  simp only [paragraph, Block.consolidate, Block.recInlines, List.getLast?_singleton, Inline.locations]
  rw [reconcile_self _ _ (lines_before n ls h1 h2)]

/-- A blank line after pending text. -/
theorem blank_pending (p : Parser) (n : Nat) (ls : List Str) (h : Pending p n ls) :
    ∃ q, p.blankLine = .ok q ∧ Quiet q ∧ q.inlines = [] ∧ q.dangling = none
      ∧ q.asg.blocks = p.asg.blocks ++ [paragraph n ls] ∧ q.asg.front = p.asg.front := by
  have h1 : p.blankLine = .ok { p with
      inlines := [], blocks := [], dangling := none, inSpan := false, forceNew := true
      asg := addLastBlock p.asg (paragraph n ls) } := by
    unfold blankLine
    simp only [h.header, h.blocks, bind, Except.bind]
    rw [addInlines_pending _ n ls (by exact ⟨⟨rfl, h.openText, rfl, h.data, h.title, h.openLines, h.inCont,
      h.preserveNl⟩, h.ne, h.lines, h.inlines⟩)]
    simp only [h.openLines, paragraph, Block.isSection, Bool.not_false, List.isEmpty_nil, Bool.and_self, if_true,
      addToStackOrGraph, h.data, graphPush_leaf _ _ (show Block.isSection (.leaf ..) = false from rfl), Bool.not_true,
      Bool.and_false, Bool.false_eq_true, if_false, pure, Except.pure]
  refine ⟨_, h1, ⟨h.header, h.openText, rfl, h.data, h.title, h.openLines, h.inCont, h.preserveNl⟩, rfl, rfl, ?_, rfl⟩
  simp only [addLastBlock]
  rw [paragraph_consolidate n ls h.ne h.lines]

/-- A blank line with nothing pending. -/
theorem blank_quiet (p : Parser) (h : Quiet p) (hi : p.inlines = []) :
    p.blankLine = .ok { p with dangling := none, inSpan := false, forceNew := true } := by
  unfold blankLine
  simp only [h.header, h.blocks, bind, Except.bind]
  rw [addInlines_nil _ (by exact hi)]
  rfl

theorem groups_ge (n : Nat) (ls : List Str) : ∀ g ∈ groups n ls, n ≤ g.1 := by
  induction ls generalizing n with
  | nil => simp [groups]
  | cons l rest ih =>
    have ih := ih (n + 1)
    cases l with
    | nil => intro g hg; have := ih g hg; omega
    | cons b bs =>
      intro g hg
      simp only [groups] at hg
      cases hr : groups (n + 1) rest with
      | nil => rw [hr] at hg; simp [attach] at hg; rw [hg]; exact Nat.le_refl _
      | cons x xs =>
        rw [hr] at hg ih
        simp only [attach] at hg
        split at hg
        · simp at hg
          rcases hg with rfl | hg
          · exact Nat.le_refl _
          · have := ih g (by simp [hg]); omega
        · simp at hg
          rcases hg with rfl | rfl | hg
          · exact Nat.le_refl _
          · have := ih _ (List.mem_cons_self ..); omega
          · have := ih g (by simp [hg]); omega

theorem attach_attach (s n : Nat) (ls : List Str) (l : Str) (gs : List (Nat × List Str)) :
    attach s ls n (attach n [l] (n + 1) gs) = attach s (ls ++ [l]) (n + 1) gs := by
  cases gs with
  | nil => simp [attach]
  | cons g gs =>
    by_cases hg : g.1 = n + 1
    · simp [attach, hg]
    · simp [attach, hg]

theorem attach_later (s n : Nat) (ls : List Str) (gs : List (Nat × List Str)) (h : ∀ g ∈ gs, n < g.1) :
    attach s ls n gs = (s, ls) :: gs := by
  cases gs with
  | nil => rfl
  | cons g gs =>
    have := h g (by simp)
    simp only [attach]
    rw [if_neg (by omega)]

theorem joinB_snoc (c : UInt8) (ls : List Str) (hne : ls ≠ []) (l : Str) : joinB c (ls ++ [l]) = joinB c ls ++ [c] ++ l := by
  match ls, hne with
  | [x], _ => simp [joinB]
  | x :: y :: rest, _ =>
    have := joinB_snoc c (y :: rest) (by simp) l
    simp only [List.cons_append] at this
    simp only [List.cons_append, joinB, this, List.append_assoc]

/-- The end of the document. -/
theorem finish_blocks (p : Parser) (h : Quiet p) (hi : p.inlines = []) (ps : List (Nat × List Str))
    (hb : p.asg.blocks = ps.map fun g => paragraph g.1 g.2) :
    ∃ q, p.finish = .ok q ∧ (q.asg.blocks = ps.map fun g => paragraph g.1 g.2) ∧ q.asg.front = p.asg.front := by
  have h1 : p.finish = .ok { p with asg := p.asg.consolidate } := by
    unfold finish
    rw [addInlines_nil p hi]
    simp only [bind, Except.bind, h.blocks, List.length_nil, drain, pure, Except.pure]
  refine ⟨_, h1, ?_, ?_⟩
  case refine_2 =>
    show p.asg.consolidate.front = _
    unfold Asg.consolidate Asg.consolidateXrefs Asg.consolidateLocations Asg.front
    split
    · rfl
    · split <;> rfl
  have : p.asg.consolidate.blocks = Block.mapInlinesL (Inline.resolveXref p.asg.idHash) p.asg.blocks := by
    unfold Asg.consolidate Asg.consolidateXrefs Asg.consolidateLocations
    split
    · rfl
    · split <;> rfl
  show p.asg.consolidate.blocks = _
  rw [this, hb]
  generalize p.asg.idHash = hash
  clear h1 hb this
  induction ps with
  | nil => rfl
  | cons g ps ih =>
    simp only [List.map_cons, Block.mapInlinesL, ih]
    rfl

theorem finish_pending (p : Parser) (n : Nat) (ls : List Str) (h : Pending p n ls) (ps : List (Nat × List Str))
    (hb : p.asg.blocks = ps.map fun g => paragraph g.1 g.2) :
    ∃ q, p.finish = .ok q ∧ (q.asg.blocks = (ps ++ [(n, ls)]).map fun g => paragraph g.1 g.2)
      ∧ q.asg.front = p.asg.front := by
  let p' : Parser := { p with inlines := [], blocks := [], asg := addLastBlock p.asg (paragraph n ls) }
  have h1 : p.finish = p'.finish := by
    unfold finish
    rw [addInlines_pending p n ls h, addInlines_nil p' rfl]
    simp only [bind, Except.bind, List.length_cons, List.length_nil, drain, addLastToGraph, h.data, pure, Except.pure]
    simp only [Nat.zero_add, Nat.lt_add_one, if_true, p']
    rw [graphPush_leaf _ _ rfl]
    simp [h.data, drain]
  rw [h1]
  have := finish_blocks p' ⟨h.header, h.openText, rfl, h.data, h.title, h.openLines, h.inCont, h.preserveNl⟩ rfl
    (ps ++ [(n, ls)]) (by
      simp only [p', addLastBlock, hb]
      rw [paragraph_consolidate n ls h.ne h.lines]
      simp)
  exact this

/-- A newline after a line of text. -/
theorem newline_pending (w : World) (k : Nat) (p : Parser) (n m c : Nat) (ls : List Str) (h : Pending p n ls)
    (hl : p.lastTy = .text) :
    ∃ q, tokenInto w (k + 1) (newline m c []) p = .ok q ∧ Pending q n ls ∧ q.dangling = some (newline m c [])
      ∧ q.asg = p.asg := by
  refine ⟨_, newLine_first w k p _ rfl h.header h.openText h.title (by rw [hl]; simp) (by rw [hl]; simp) h.inCont
    (by rw [hl]; rfl), ⟨⟨h.header, h.openText, h.blocks, h.data, h.title, h.openLines, h.inCont, h.preserveNl⟩, h.ne,
    h.lines, h.inlines⟩, rfl, rfl⟩

/-- The end-of-input token outside a header. -/
theorem eof_step (w : World) (k m : Nat) (p : Parser) (hh : p.header = none) (ho : p.openText = none) :
    tokenInto w (k + 1) (Token.final m []) p = .ok p := by
  rw [tokenInto_plain w k _ p hh ho]
  simp [dispatchToken, Token.final, hh]

theorem Pending.ofText {p : Parser} (h : Quiet p) (n : Nat) (l : Str) (hl : l ≠ []) :
    Pending { p with inlines := [.lit .text l [⟨n, 1, []⟩, ⟨n, 1 + l.length - 1, []⟩]], lastTy := .text } n [l] := by
  refine ⟨⟨h.header, h.openText, h.blocks, h.data, h.title, h.openLines, h.inCont, h.preserveNl⟩, by simp, by simpa, ?_⟩
  simp [joinB, Nat.add_comm]

theorem Pending.add {p : Parser} {s n : Nat} {ls : List Str} (h : Pending p s ls) (hn : n = s + ls.length) (l : Str)
    (hl : l ≠ []) :
    Pending { p with
      inlines := [.lit .text (joinB 10 ls ++ b!"\n" ++ l) [⟨s, 1, []⟩, ⟨n, 1 + l.length - 1, []⟩]]
      lastTy := .text, dangling := none } s (ls ++ [l]) := by
  refine ⟨⟨h.header, h.openText, h.blocks, h.data, h.title, h.openLines, h.inCont, h.preserveNl⟩, by simp, ?_, ?_⟩
  · intro x hx
    rcases List.mem_append.1 hx with hx | hx
    · exact h.lines x hx
    · simp at hx; rw [hx]; exact hl
  · simp only [joinB_snoc _ _ h.ne]
    simp [hn, Nat.add_comm]

/-- The rest of a plain document, with nothing pending (`pend = none`) or with the text of the lines just before it. -/
theorem parse_lines (w : World) (k m : Nat) (n : Nat) (ls : List Str) (ts : List Token) (hts : LineTokens n ls ts)
    (hls : ∀ l ∈ ls, l = [] ∨ PlainLine l) :
    (∀ (p : Parser) (ps : List (Nat × List Str)), Quiet p → p.inlines = [] → p.dangling = none →
        (p.lastTy = .newLineChar ∨ p.lastTy = .eof) → p.asg.blocks = ps.map (fun g => paragraph g.1 g.2) →
        ∃ q, parse w (k + 1) (ts.map .tok ++ [.tok (Token.final m [])]) p = .ok q
          ∧ (q.asg.blocks = (ps ++ groups n ls).map fun g => paragraph g.1 g.2) ∧ q.asg.front = p.asg.front)
    ∧ (∀ (p : Parser) (ps : List (Nat × List Str)) (s c : Nat) (pl : List Str), Pending p s pl → n = s + pl.length →
        c = 1 + (pl.getLastD []).length →
        p.dangling = some (newline (n - 1) c []) → p.lastTy = .newLineChar →
        p.asg.blocks = ps.map (fun g => paragraph g.1 g.2) →
        ∃ q, parse w (k + 1) (ts.map .tok ++ [.tok (Token.final m [])]) p = .ok q
          ∧ (q.asg.blocks = (ps ++ attach s pl n (groups n ls)).map fun g => paragraph g.1 g.2)
          ∧ q.asg.front = p.asg.front) := by
  have hfin : ∀ (p : Parser), p.header = none → p.openText = none →
      parse w (k + 1) [.tok (Token.final m [])] p = finish { p with lastTy := .eof } := by
    intro p hh ho
    unfold parse
    rw [feed_cons _ _ _ _ _ (eof_step w k m p hh ho)]
    rfl
  have hparse : ∀ (a b : List Item) (p q : Parser), feed (tokenInto w (k + 1)) true a p = .ok q →
      parse w (k + 1) (a ++ b) p = parse w (k + 1) b q := by
    intro a b p q h
    unfold parse
    rw [feed_append _ _ _ _ _ _ h]
  -- text with nothing pending, and after pending text
  have htext : ∀ (n : Nat) (l : Str) (ts : List Token), Pieces n [] 1 l ts → l ≠ [] → ∀ p : Parser, Quiet p →
      p.inlines = [] → p.dangling = none →
      ∃ q, feed (tokenInto w (k + 1)) true (ts.map .tok) p = .ok q ∧ Pending q n [l] ∧ q.lastTy = .text
        ∧ q.dangling = none ∧ q.asg = p.asg := by
    intro n l ts hp hl p h hi hd
    exact ⟨_, feed_text w k n [] 1 l ts hl hp p h.openText hd hi, .ofText h n l hl, rfl, hd, rfl⟩
  have hnext : ∀ (n : Nat) (l : Str) (ts : List Token), Pieces n [] 1 l ts → l ≠ [] → ∀ (p : Parser) (s c : Nat)
      (pl : List Str), Pending p s pl → n = s + pl.length → c = 1 + (pl.getLastD []).length →
      p.dangling = some (newline (n - 1) c []) →
      ∃ q, feed (tokenInto w (k + 1)) true (ts.map .tok) p = .ok q ∧ Pending q s (pl ++ [l]) ∧ q.lastTy = .text
        ∧ q.dangling = none ∧ q.asg = p.asg := by
    intro n l ts hp hl p s c pl h hn hc hd
    have hpl : 0 < pl.length := List.length_pos_iff.2 h.ne
    refine ⟨_, feed_next w k n [] 1 l ts hl hp p _ _ _ _ c h.openText hd h.preserveNl h.inlines
      (lines_before s pl h.ne h.lines) (before_line _ _ _ _ _ (by omega)) (before_line _ _ _ _ _ (by omega)),
      .add h hn l hl, rfl, rfl, rfl⟩
  have qLast : ∀ (p : Parser), Quiet p → Quiet { p with lastTy := .eof } := fun p h =>
    ⟨h.header, h.openText, h.blocks, h.data, h.title, h.openLines, h.inCont, h.preserveNl⟩
  have pLast : ∀ (p : Parser) (s : Nat) (pl : List Str), Pending p s pl → Pending { p with lastTy := .eof } s pl :=
    fun p s pl h => ⟨qLast p h.toQuiet, h.ne, h.lines, h.inlines⟩
  induction hts with
  | last n l ts h =>
    constructor
    · intro p ps hq hi hd hl hb
      by_cases hl0 : l = []
      · subst hl0
        rw [h.nil_inv, List.map_nil, List.nil_append, hfin p hq.header hq.openText]
        simpa [groups] using finish_blocks _ (qLast p hq) hi ps hb
      · obtain ⟨q, h1, h2, h3, h4, h5⟩ := htext n l ts h hl0 p hq hi hd
        rw [hparse _ _ _ _ h1, hfin q h2.header h2.openText]
        have := finish_pending _ n [l] (pLast q n [l] h2) ps (by exact h5 ▸ hb)
        rw [← h5]
        cases l with
        | nil => exact absurd rfl hl0
        | cons b bs => simpa [groups, attach] using this
    · intro p ps s c pl hq hn hc hd hl hb
      by_cases hl0 : l = []
      · subst hl0
        rw [h.nil_inv, List.map_nil, List.nil_append, hfin p hq.header hq.openText]
        simpa [groups, attach] using finish_pending _ s pl (pLast p s pl hq) ps hb
      · obtain ⟨q, h1, h2, h3, h4, h5⟩ := hnext n l ts h hl0 p s c pl hq hn hc hd
        rw [hparse _ _ _ _ h1, hfin q h2.header h2.openText]
        have := finish_pending _ s (pl ++ [l]) (pLast q s _ h2) ps (by exact h5 ▸ hb)
        rw [← h5]
        cases l with
        | nil => exact absurd rfl hl0
        | cons b bs => simpa [groups, attach] using this
  | cons n l l' rest ts us h hr ih =>
    obtain ⟨ih1, ih2⟩ := ih (fun x hx => hls x (by simp [hx]))
    -- the newline after a line of text
    have hnl : ∀ (p : Parser) (s : Nat) (pl : List Str) (ps : List (Nat × List Str)), Pending p s pl →
        n + 1 = s + pl.length → l = pl.getLastD [] → p.lastTy = .text →
        p.asg.blocks = ps.map (fun g => paragraph g.1 g.2) →
        ∃ q, parse w (k + 1) ((.tok (newline n (1 + l.length) []) :: us.map .tok) ++ [.tok (Token.final m [])]) p = .ok q
          ∧ (q.asg.blocks = (ps ++ attach s pl (n + 1) (groups (n + 1) (l' :: rest))).map fun g => paragraph g.1 g.2)
          ∧ q.asg.front = p.asg.front := by
      intro p s pl ps hp hn hl hlt hb
      obtain ⟨q, h1, h2, h3, h4⟩ := newline_pending w k p s n (1 + l.length) pl hp hlt
      have h5 : feed (tokenInto w (k + 1)) true [.tok (newline n (1 + l.length) [])] p
          = .ok { q with lastTy := .newLineChar } := by
        rw [feed_cons _ _ _ _ _ h1]; rfl
      have := hparse [.tok (newline n (1 + l.length) [])] (us.map .tok ++ [.tok (Token.final m [])]) _ _ h5
      simp only [List.cons_append, List.nil_append] at this ⊢
      rw [this]
      rw [← h4]
      exact ih2 _ ps s (1 + l.length) pl
        ⟨⟨h2.header, h2.openText, h2.blocks, h2.data, h2.title, h2.openLines, h2.inCont, h2.preserveNl⟩, h2.ne, h2.lines,
          h2.inlines⟩ hn (by rw [hl]) (by simpa using h3) rfl (by exact h4 ▸ hb)
    rw [List.map_append, List.map_cons]
    constructor
    · intro p ps hq hi hd hl hb
      by_cases hl0 : l = []
      · subst hl0
        rw [h.nil_inv, List.map_nil, List.nil_append]
        have h1 := newLine_second w k p (newline n (1 + ([] : Str).length) []) rfl hq.header hq.openText hq.title hl
        rw [blank_quiet { p with inBlockLine := false } ⟨hq.header, hq.openText, hq.blocks, hq.data, hq.title, hq.openLines, hq.inCont, hq.preserveNl⟩
          (by exact hi)] at h1
        have h5 := feed_cons _ _ [] _ _ h1
        have := hparse _ (us.map .tok ++ [.tok (Token.final m [])]) _ _ h5
        simp only [List.cons_append, List.nil_append] at this ⊢
        rw [this]
        exact ih1 _ ps ⟨hq.header, hq.openText, hq.blocks, hq.data, hq.title, hq.openLines, hq.inCont, hq.preserveNl⟩
          hi rfl (.inl rfl) hb
      · obtain ⟨q, h1, h2, h3, h4, h5⟩ := htext n l ts h hl0 p hq hi hd
        rw [List.append_assoc, hparse _ _ _ _ h1]
        have := hnl q n [l] ps h2 rfl rfl h3 (by rw [h5]; exact hb)
        rw [h5] at this
        cases l with
        | nil => exact absurd rfl hl0
        | cons b bs => exact this
    · intro p ps s c pl hq hn hc hd hl hb
      by_cases hl0 : l = []
      · subst hl0
        rw [h.nil_inv, List.map_nil, List.nil_append]
        have h1 := newLine_second w k p (newline n (1 + ([] : Str).length) []) rfl hq.header hq.openText hq.title (.inl hl)
        obtain ⟨q, h2, h3, h4, h5, h6, h9⟩ := blank_pending { p with inBlockLine := false } s pl
          ⟨⟨hq.header, hq.openText, hq.blocks, hq.data, hq.title, hq.openLines, hq.inCont, hq.preserveNl⟩, hq.ne, hq.lines,
            hq.inlines⟩
        rw [h2] at h1
        have h7 := feed_cons _ _ [] _ _ h1
        have := hparse _ (us.map .tok ++ [.tok (Token.final m [])]) _ _ h7
        simp only [List.cons_append, List.nil_append] at this ⊢
        rw [this]
        have h8 : groups n ([] :: l' :: rest) = groups (n + 1) (l' :: rest) := rfl
        rw [h8, attach_later _ _ _ _ (fun g hg => groups_ge _ _ g hg)]
        have := ih1 { q with lastTy := .newLineChar } (ps ++ [(s, pl)])
          ⟨h3.header, h3.openText, h3.blocks, h3.data, h3.title, h3.openLines, h3.inCont, h3.preserveNl⟩ h4 h5 (.inl rfl)
          (by simp only [List.map_append, List.map_cons, List.map_nil]; rw [h6]; simp only [hb])
        obtain ⟨q', a, b, c⟩ := this
        exact ⟨q', a, by simpa using b, c.trans h9⟩
      · obtain ⟨q, h1, h2, h3, h4, h5⟩ := hnext n l ts h hl0 p s c pl hq hn hc hd
        rw [List.append_assoc, hparse _ _ _ _ h1]
        have := hnl q s (pl ++ [l]) ps h2 (by simp; omega) (by simp) h3 (by rw [h5]; exact hb)
        rw [h5] at this
        cases l with
        | nil => exact absurd rfl hl0
        | cons b bs =>
          rw [show groups n ((b :: bs) :: l' :: rest) = attach n [b :: bs] (n + 1) (groups (n + 1) (l' :: rest)) from rfl,
            attach_attach]
          exact this

/-- **C14**: a document all of whose lines are empty or plain text parses to one paragraph for each maximal run of
non-empty lines, in order, with the lines joined by newlines as its only text, from column 1 of the first line to the
last column of the last line. There is nothing else in the graph. -/
theorem C14_paragraphs (w : World) (k : Nat) (src : Str) (h : ∀ l ∈ splitOnB c!"\n" src, l = [] ∨ PlainLine l) :
    ∃ g, Adoc.parseText w (k + 1) src = .ok g ∧ g.header = none ∧ g.attributes = none
      ∧ g.blocks = (groups 1 (splitOnB c!"\n" src)).map fun p => paragraph p.1 p.2 := by
  obtain ⟨ts, m, h1, h2⟩ := scan_plain src h
  obtain ⟨q, h3, h4, h5⟩ := (parse_lines w k m 1 _ ts h1 h).1 Parser.new [] ⟨rfl, rfl, rfl, rfl, rfl, rfl, rfl, rfl⟩ rfl rfl
    (.inr rfl) rfl
  refine ⟨q.asg, ?_, congrArg (·.1) h5, congrArg (·.2.1) h5, by simpa using h4⟩
  unfold Adoc.parseText
  rw [h2]
  simp only [bind, Except.bind, h3, pure, Except.pure]

-- the class of plain lines contains lines with digits, most punctuation, and non-ASCII text
example : ∀ l ∈ splitOnB c!"\n" b!"Ünicode: 2 (two) well-formed lines.\nDon't \"end\"!\n\n\nA = b / c; 100%\n", l = [] ∨ PlainLine l := by
  intro l hl
  exact plain_of_check l (by revert l hl; decide +kernel)

example : returns ((Adoc.parseText emptyWorld 1 b!"The\nend\n\n\n100%\n").map fun g => g.blocks.map Block.text)
    [b!"The\nend", b!"100%"] = true := by decide +kernel

end Adoc.Props
