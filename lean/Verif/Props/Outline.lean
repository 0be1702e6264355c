import Verif.Proof.Layout
import Verif.Props.Parser
/-!
# Documents of headings, paragraphs and flat lists parse to their outline
-/
namespace Adoc.Props
open Spec Proof Scanner Parser

/-- The lines of a document made of chunks. -/
theorem madeOf_layout (src : Str) (cs : List Chunk) (h : MadeOf src cs) :
    ∃ lns, lns.map Ln.str = splitOnB c!"\n" src ∧ lns ≠ [] ∧ Layout true lns cs ∧ ∀ l ∈ lns, l.Ok := by
  obtain ⟨lns, h1, h2, h3, h4⟩ := layout_of_runs _ 1 (splitOnB 10 src) true cs (Nat.le_refl _) (splitOnB_ne_nil 10 src) h.runs (by
    have := h.ending
    unfold EndsWell at this
    split at this
    · next heq => rw [heq]; exact this
    · next heq => rw [heq]; simpa using this
    · next h1 h2 =>
      split
      · next heq => exact absurd heq (h1 _ _)
      · next heq => exact absurd heq (h2 _ _)
      · trivial)
  refine ⟨lns, h1, h2, h3, ?_⟩
  intro l hl
  rcases h4 l hl with rfl | ⟨c, hc, hlc⟩
  · exact .inl rfl
  · exact (lns_ok c (h.ok c hc)).2 l hlc

/-- **C17, C23, C24, C44**: a document whose runs of non-empty lines are paragraphs of plain text, section headings
and flat lists parses to a graph that shows exactly these chunks in this order, each below the headings that a
reader would put it under: the latest earlier heading with a smaller level, and the headings around that one. There
is no header and there are no attributes. -/
theorem C23_outline_partial (w : World) (k : Nat) (src : Str) (cs : List Chunk) (h : MadeOf src cs) :
    ∃ g, Adoc.parseText w (k + 1) src = .ok g ∧ readingL [] g.blocks = outline [] cs ∧ g.header = none ∧ g.attributes = none := by
  obtain ⟨lns, h1, h2, h3, h4⟩ := madeOf_layout src cs h
  obtain ⟨ts, m, h5, h6⟩ := scan_doc lns h2 h4
  rw [h1, joinB_splitOnB] at h6
  obtain ⟨q, g1, g2, g3⟩ := parse_layout w k m true lns cs h3 h.ok 1 ts h5 Parser.new Parser.new.asg.front [] []
    ⟨rfl, rfl, rfl, rfl, rfl, none, rfl, .inl rfl, .flat rfl rfl rfl rfl⟩ (.inr rfl) (fun _ => rfl)
  refine ⟨q.asg, ?_, by simpa using g2, congrArg (·.1) g3, congrArg (·.2.1) g3⟩
  unfold Adoc.parseText
  rw [h6]
  simp only [bind, Except.bind, g1, pure, Except.pure]

/-! ## Every outline has a document -/

/-- The lines of a document with the given chunks: a blank line after each, and nothing after the last newline. -/
def writeLines : List Chunk → List Str
  | [] => [[]]
  | c :: cs => c.lines ++ [] :: writeLines cs

/-- A document with the given chunks. -/
def write (cs : List Chunk) : Str := joinB c!"\n" (writeLines cs)

theorem groups_run (n : Nat) (ls rest : List Str) (h : ls ≠ []) (hne : ∀ l ∈ ls, l ≠ []) :
    groups n (ls ++ [] :: rest) = (n, ls) :: groups (n + ls.length + 1) rest := by
  induction ls generalizing n with
  | nil => exact absurd rfl h
  | cons l ls ih =>
    cases l with
    | nil => exact absurd rfl (hne [] (by simp))
    | cons b bs =>
      have e : groups n (((b :: bs) :: ls) ++ [] :: rest) = attach n [b :: bs] (n + 1) (groups (n + 1) (ls ++ [] :: rest)) := rfl
      rw [e]
      cases ls with
      | nil =>
        show attach n [b :: bs] (n + 1) (groups (n + 1 + 1) rest) = _
        rw [attach_later]
        · rfl
        · intro g hg
          have := groups_ge (n + 1 + 1) rest g hg
          omega
      | cons x xs =>
        rw [ih (n + 1) (by simp) (fun l hl => hne l (by simp [hl]))]
        simp [attach, Nat.add_assoc, Nat.add_comm]

theorem lines_plain (c : Chunk) (h : c.Ok) : c.lines ≠ [] ∧ ∀ l ∈ c.lines, l ≠ [] ∧ c!"\n" ∉ l := by
  have hp : ∀ l : Str, PlainLine l → l ≠ [] ∧ c!"\n" ∉ l := by
    intro l hl
    exact ⟨hl.ne, fun hm => hl.chars _ hm (by decide)⟩
  cases c with
  | para ls => exact ⟨h.1, fun l hl => hp l (h.2 l hl)⟩
  | head n t =>
    refine ⟨by simp [Chunk.lines], ?_⟩
    intro l hl
    simp only [Chunk.lines, List.mem_singleton] at hl
    subst hl
    refine ⟨by simp, ?_⟩
    simp only [List.mem_append, List.mem_replicate, not_or]
    exact ⟨⟨by simp, by decide⟩, (hp t h.2.2).2⟩
  | list v items =>
    refine ⟨by simpa [Chunk.lines] using h.1, ?_⟩
    intro l hl
    simp only [Chunk.lines, List.mem_map] at hl
    obtain ⟨i, hi, rfl⟩ := hl
    refine ⟨by simp, ?_⟩
    simp only [List.mem_append, not_or]
    exact ⟨⟨by cases v <;> decide, by decide⟩, (hp i (h.2 i hi)).2⟩

/-- Every sequence of chunks has a document: the hypotheses of the theorems below can always be met. -/
theorem madeOf_write (cs : List Chunk) (h : ∀ c ∈ cs, c.Ok) : MadeOf (write cs) cs := by
  have hne : ∀ cs, writeLines cs ≠ [] := by intro cs; cases cs <;> simp [writeLines]
  have hnl : ∀ cs : List Chunk, (∀ c ∈ cs, c.Ok) → ∀ l ∈ writeLines cs, c!"\n" ∉ l := by
    intro cs
    induction cs with
    | nil => intro _ l hl; simp [writeLines] at hl; simp [hl]
    | cons c cs ih =>
      intro h l hl
      simp only [writeLines, List.mem_append, List.mem_cons] at hl
      rcases hl with hl | rfl | hl
      · exact ((lines_plain c (h c (by simp))).2 l hl).2
      · simp
      · exact ih (fun c hc => h c (by simp [hc])) l hl
  have hsplit : splitOnB c!"\n" (write cs) = writeLines cs := splitOnB_join _ _ (hne cs) (hnl cs h)
  refine ⟨?_, h, ?_⟩
  · rw [hsplit]
    clear hsplit
    generalize 1 = n
    induction cs generalizing n with
    | nil => rfl
    | cons c cs ih =>
      have hp := lines_plain c (h c (by simp))
      simp only [writeLines]
      rw [groups_run n c.lines _ hp.1 (fun l hl => (hp.2 l hl).1), List.map_cons, ih (fun c hc => h c (by simp [hc]))]
      rfl
  · rw [hsplit]
    have h2 : cs ≠ [] → [[], []] <:+ writeLines cs := by
      clear hsplit h
      intro hcs
      induction cs with
      | nil => exact absurd rfl hcs
      | cons c cs ih =>
        cases cs with
        | nil => exact ⟨c.lines, by simp [writeLines]⟩
        | cons d ds =>
          obtain ⟨u, hu⟩ := ih (by simp)
          exact ⟨c.lines ++ [] :: u, by simp only [writeLines] at hu ⊢; simp [← hu]⟩
    unfold EndsWell
    split
    · next heq =>
      have hcs : cs ≠ [] := by intro hc; rw [hc] at heq; simp at heq
      exact List.IsSuffix.trans ⟨[[]], rfl⟩ (h2 hcs)
    · next heq =>
      have hcs : cs ≠ [] := by intro hc; rw [hc] at heq; simp at heq
      exact .inl (h2 hcs)
    · trivial

/-- A document of the class, with its chunks. -/
def sampleChunks : List Chunk :=
  [.para [b!"intro,", b!"two lines"], .head 1 b!"A", .list .unordered [b!"x", b!"y"], .head 3 b!"B", .head 2 b!"C",
   .para [b!"text"], .head 1 b!"D", .list .ordered [b!"only"]]

theorem sample_ok : ∀ c ∈ sampleChunks, c.Ok := by
  have hp : ∀ l ∈ [b!"intro,", b!"two lines", b!"A", b!"x", b!"y", b!"B", b!"C", b!"text", b!"D", b!"only"], PlainLine l := by
    intro l hl
    refine (plain_of_check l (by revert l hl; decide +kernel)).resolve_left ?_
    revert l hl; decide
  intro c hc
  simp only [sampleChunks, List.mem_cons, List.not_mem_nil, or_false] at hc
  rcases hc with rfl | rfl | rfl | rfl | rfl | rfl | rfl | rfl <;> simp only [Chunk.Ok] <;>
    refine ⟨by simp, ?_⟩ <;> first
      | exact ⟨by simp, hp _ (by simp)⟩
      | (intro l hl; exact hp l (by simp at hl; rcases hl with rfl | rfl <;> simp))
      | (intro l hl; exact hp l (by simp at hl; subst hl; simp))

example : MadeOf (write sampleChunks) sampleChunks := madeOf_write _ sample_ok

example : write sampleChunks =
    b!"intro,\ntwo lines\n\n== A\n\n* x\n* y\n\n==== B\n\n=== C\n\ntext\n\n== D\n\n. only\n\n" := by decide +kernel

example : outline [] sampleChunks =
    [([], .para b!"intro,\ntwo lines"), ([], .head 1 b!"A"), ([(1, b!"A")], .list .unordered [b!"x", b!"y"]),
     ([(1, b!"A")], .head 3 b!"B"), ([(1, b!"A")], .head 2 b!"C"), ([(1, b!"A"), (2, b!"C")], .para b!"text"),
     ([], .head 1 b!"D"), ([(1, b!"D")], .list .ordered [b!"only"])] := by decide +kernel

/-! ## C17: sections -/

/-- The innermost heading around something is the latest earlier one with a smaller level. -/
theorem parents_last (hs : List Heading) (n : Nat) : (parents hs n).getLast? = hs.find? (·.1 < n) := by
  induction hs with
  | nil => rfl
  | cons h hs ih =>
    simp only [parents, List.find?]
    by_cases hh : h.1 < n
    · simp [hh]
    · simp [hh, ih]

theorem outline_heads (hs pre : List Heading) :
    outline pre (hs.map fun h => .head h.1 h.2) =
      (List.range hs.length).map fun i => (parents ((hs.take i).reverse ++ pre) (hs.getD i (0, [])).1,
        Entry.head (hs.getD i (0, [])).1 (hs.getD i (0, [])).2) := by
  induction hs generalizing pre with
  | nil => rfl
  | cons h hs ih =>
    simp only [List.map_cons, outline, Chunk.level, Chunk.entry, Chunk.after, ih, List.length_cons, List.range_succ_eq_map,
      List.map_map]
    simp [Function.comp_def]

/-- **C17** (partial: the headings are separated by blank lines and the last one is followed by a newline; see
`C17_adjacent` and `C17_end` for what happens otherwise). For every sequence of headings of levels 1 to 4 with plain
titles, the sections of the graph in preorder are the headings in order, and the section around each is the closest
earlier heading with a smaller level. -/
theorem C17_outline_partial (w : World) (k : Nat) (src : Str) (hs : List Heading)
    (h : MadeOf src (hs.map fun h => .head h.1 h.2)) :
    ∃ g, Adoc.parseText w (k + 1) src = .ok g ∧ (readingL [] g.blocks).length = hs.length
      ∧ ∀ i, (hi : i < hs.length) → ∃ path, (readingL [] g.blocks)[i]? = some (path, .head hs[i].1 hs[i].2)
        ∧ path.getLast? = (hs.take i).reverse.find? (·.1 < hs[i].1) := by
  obtain ⟨g, h1, h2, _⟩ := C23_outline_partial w k src _ h
  rw [outline_heads] at h2
  refine ⟨g, h1, by simp [h2], fun i hi => ?_⟩
  refine ⟨parents (hs.take i).reverse hs[i].1, ?_, parents_last _ _⟩
  rw [h2]
  simp [hi]

/-- The same with the whole path of headings around each section. -/
theorem C17_paths_partial (w : World) (k : Nat) (hs : List Heading) (h : ∀ x ∈ hs, 1 ≤ x.1 ∧ x.1 ≤ 4 ∧ PlainLine x.2) :
    ∃ g, Adoc.parseText w (k + 1) (write (hs.map fun h => .head h.1 h.2)) = .ok g
      ∧ readingL [] g.blocks = outline [] (hs.map fun h => .head h.1 h.2) := by
  obtain ⟨g, h1, h2, _⟩ := C23_outline_partial w k _ _ (madeOf_write (hs.map fun h => .head h.1 h.2) (by
    intro c hc
    obtain ⟨x, hx, rfl⟩ := List.mem_map.1 hc
    exact h x hx))
  exact ⟨g, h1, h2⟩

/-- **C17 is false without the blank lines**: with two headings on adjacent lines, the first title moves to the second
section. -/
theorem C17_adjacent : returns ((Adoc.parseText emptyWorld 1 b!"== A\n== B\n").map fun g => readingL [] g.blocks)
    [([], .other), ([], .head 1 b!"AB")] = true := by decide +kernel

/-- **C17 is false without the last newline**: the title becomes a paragraph of the section. -/
theorem C17_end : returns ((Adoc.parseText emptyWorld 1 b!"== A").map fun g => readingL [] g.blocks)
    [([], .other), ([(1, [])], .para b!"A")] = true := by decide +kernel

/-! ## C44: lists -/

theorem reading_one (bs : List Block) (v : ListVariant) (ts : List Str) (h : readingL [] bs = [([], .list v ts)]) :
    ∃ its loc, bs = [.list v its none loc] ∧ its.map (itemText v) = ts.map some := by
  have hlen : ∀ (path : List Heading) (b : Block), reading path b ≠ [] := by intro path b; cases b <;> simp [reading]
  match bs, h with
  | [], h => simp [readingL] at h
  | b :: b' :: bs, h =>
    exfalso
    have := congrArg List.length h
    have h1 := List.length_pos_iff.2 (hlen [] b)
    have h2 := List.length_pos_iff.2 (hlen [] b')
    simp [readingL] at this
    omega
  | [b], h =>
    simp only [readingL, List.append_nil] at h
    have hview : b.isSection = false → view b = .list v ts := by
      intro hb
      rw [reading_leaf [] b hb] at h
      simpa using h
    have hall : ∀ (xs : List (Option Str)) (ys : List Str), allSome xs = some ys → xs = ys.map some := by
      intro xs
      induction xs with
      | nil => intro ys h; simp [allSome] at h; simp [← h]
      | cons x xs ih =>
        intro ys h
        cases x with
        | none => simp [allSome] at h
        | some a =>
          simp only [allSome, Option.bind_some, Option.map_eq_some_iff] at h
          obtain ⟨zs, h1, rfl⟩ := h
          simp [← ih zs h1]
    cases b with
    | «section» ti m l bs loc =>
      simp only [reading, List.cons.injEq, Prod.mk.injEq] at h
      have := h.1.2
      unfold viewHead at this
      split at this <;> cases this
    | list v' its m loc =>
      have h1 := hview rfl
      cases m with
      | some m => simp [view] at h1
      | none =>
        simp only [view] at h1
        cases ha : allSome (its.map (itemText v')) with
        | none => rw [ha] at h1; cases h1
        | some us =>
          rw [ha] at h1
          simp only [Entry.list.injEq] at h1
          obtain ⟨rfl, rfl⟩ := h1
          exact ⟨its, loc, rfl, hall _ _ ha⟩
    | leaf n f d is m l =>
      have h1 := hview rfl
      unfold view at h1
      split at h1
      · split at h1 <;> cases h1
      · next heq => cases heq
      · cases h1
    | _ => have h1 := hview rfl; simp [view] at h1

/-- **C44**: a document that is a run of list-item lines with plain text, with or without a newline at the end, parses
to a single list whose items are the lines in order, each with its text as its principal text, its marker, no blocks
of its own and no metadata. -/
theorem C44_flat (w : World) (k : Nat) (v : ListVariant) (items : List Str) (h : items ≠ []) (hp : ∀ i ∈ items, PlainLine i)
    (nl : Bool) :
    ∃ g its loc, Adoc.parseText w (k + 1) (joinB c!"\n" ((Chunk.list v items).lines ++ if nl then [[]] else [])) = .ok g
      ∧ g.blocks = [.list v its none loc] ∧ its.map (itemText v) = items.map some := by
  have hok : (Chunk.list v items).Ok := ⟨h, hp⟩
  have hl := lines_plain _ hok
  have hsplit : splitOnB c!"\n" (joinB c!"\n" ((Chunk.list v items).lines ++ if nl then [[]] else []))
      = (Chunk.list v items).lines ++ if nl then [[]] else [] := by
    apply splitOnB_join c!"\n"
    · simp [hl.1]
    · intro l hm
      rcases List.mem_append.1 hm with hm | hm
      · exact (hl.2 l hm).2
      · cases nl <;> simp at hm; simp [hm]
  have hruns : groups 1 ((Chunk.list v items).lines ++ [[]]) = [(1, (Chunk.list v items).lines)] := by
    rw [groups_run 1 _ _ hl.1 (fun l hm => (hl.2 l hm).1)]
    rfl
  have hruns' : groups 1 (Chunk.list v items).lines = [(1, (Chunk.list v items).lines)] := by
    cases hc : (Chunk.list v items).lines with
    | nil => exact absurd hc hl.1
    | cons l rest =>
      rw [hc] at hl
      obtain ⟨g, gs, h1, h2, h3⟩ := groups_split 1 l rest (hl.2 l (by simp)).1
      rcases h3 with ⟨rfl, rfl⟩ | ⟨ls, m, rfl, rfl⟩
      · exact h1
      · exact absurd rfl (hl.2 [] (by simp)).1
  have hm : MadeOf (joinB c!"\n" ((Chunk.list v items).lines ++ if nl then [[]] else [])) [.list v items] := by
    refine ⟨?_, by simpa using hok, ?_⟩
    · rw [hsplit]
      cases nl
      · simp [hruns']
      · simp [hruns]
    · rw [hsplit]
      unfold EndsWell
      simp only [List.getLast?_singleton]
      split
      · next heq => cases heq
      · refine .inr ⟨rfl, ?_⟩
        cases hc : (Chunk.list v items).lines with
        | nil => exact absurd hc hl.1
        | cons l rest =>
          rw [hc] at hl
          have := (hl.2 l (by simp)).1
          simpa using this
      · trivial
  obtain ⟨g, h1, h2, _⟩ := C23_outline_partial w k _ _ hm
  obtain ⟨its, loc, h3, h4⟩ := reading_one g.blocks v items (by rw [h2]; rfl)
  exact ⟨g, its, loc, h1, h3, h4⟩

example : joinB c!"\n" ((Chunk.list .unordered [b!"x", b!"y"]).lines ++ [[]]) = b!"* x\n* y\n" := by decide

/-- Elsewhere in a document the list keeps its items too, by `C23_outline_partial`, except here: **a list of one item that
follows a blank line and ends the document** loses its principal text, which becomes a paragraph of the item. -/
theorem C44_last_item : returns ((Adoc.parseText emptyWorld 1 b!"x\n\n* a\n").map fun g => g.blocks.getLast?.map fun b =>
      match b with
      | .list _ [.listItem _ p bs _ _] _ _ => (p.length, bs.map Block.text)
      | _ => (9, [])) (some (0, [b!"a"])) = true := by decide +kernel

/-! ## C23 and C24: order and text -/

theorem outline_entries (hs : List Heading) (cs : List Chunk) : (outline hs cs).map (·.2) = cs.map Chunk.entry := by
  induction cs generalizing hs with
  | nil => rfl
  | cons c cs ih => simp [outline, ih]

/-- **C23** (partial: documents of headings, paragraphs and flat lists only). The blocks of the graph are in the order
of the document. -/
theorem C23_order_partial (w : World) (k : Nat) (src : Str) (cs : List Chunk) (h : MadeOf src cs) :
    ∃ g, Adoc.parseText w (k + 1) src = .ok g ∧ (readingL [] g.blocks).map (·.2) = cs.map Chunk.entry := by
  obtain ⟨g, h1, h2, _⟩ := C23_outline_partial w k src cs h
  exact ⟨g, h1, by rw [h2, outline_entries]⟩

/-- **C23 is false in general**: adjacent listing blocks come out in the opposite order. -/
theorem C23_false : returns ((Adoc.parseText emptyWorld 1 b!"----\nb\n----\n----\nc\n----\n").map fun g =>
    g.blocks.map fun b => b.text.contains c!"b") [false, true] = true := by decide +kernel

/-- The lines of text in a chunk, without markers. -/
def Chunk.texts : Chunk → List Str
  | .para ls => ls
  | .head _ t => [t]
  | .list _ items => items

/-- The texts that a reader sees of a block. -/
def Entry.texts : Entry → List Str
  | .para t => [t]
  | .head _ t => [t]
  | .list _ items => items
  | .other => []

theorem infix_joinB (c : UInt8) (ls : List Str) (l : Str) (h : l ∈ ls) : l <:+: joinB c ls := by
  match ls, h with
  | [x], h => simp at h; subst h; exact List.infix_refl _
  | x :: y :: r, h =>
    rcases List.mem_cons.1 h with rfl | h
    · exact ⟨[], c :: joinB c (y :: r), rfl⟩
    · obtain ⟨a, b, hab⟩ := infix_joinB c (y :: r) l h
      exact ⟨x ++ c :: a, b, by simp only [joinB, ← hab]; simp⟩

/-- **C24** (partial: documents of headings, paragraphs and flat lists only). Every line of text is in the graph, in a
block of its kind. -/
theorem C24_text_partial (w : World) (k : Nat) (src : Str) (cs : List Chunk) (h : MadeOf src cs) :
    ∃ g, Adoc.parseText w (k + 1) src = .ok g ∧ ∀ c ∈ cs, ∀ l ∈ Chunk.texts c,
      ∃ e ∈ readingL [] g.blocks, ∃ t ∈ Entry.texts e.2, l <:+: t := by
  obtain ⟨g, h1, h2⟩ := C23_order_partial w k src cs h
  refine ⟨g, h1, fun c hc l hl => ?_⟩
  have : c.entry ∈ (readingL [] g.blocks).map (·.2) := by rw [h2]; exact List.mem_map_of_mem hc
  obtain ⟨e, he, hee⟩ := List.mem_map.1 this
  refine ⟨e, he, ?_⟩
  rw [hee]
  cases c with
  | para ls => exact ⟨_, List.mem_singleton.2 rfl, infix_joinB _ ls l hl⟩
  | head n t => exact ⟨t, List.mem_singleton.2 rfl, by simp [Chunk.texts] at hl; subst hl; exact List.infix_refl _⟩
  | list v items => exact ⟨l, hl, List.infix_refl _⟩

/-- **C24 is false in general**: after a block title, the text of paragraphs is lost, even across blank lines. -/
theorem C24_false : returns ((Adoc.parseText emptyWorld 1 b!".T\nabc\n\ndef\n").map fun g => (g.blocks.length, g.header.isNone)) (0, true)
    = true := by decide +kernel

/-- Text right before a comment block is lost too. -/
theorem C24_comment : returns ((Adoc.parseText emptyWorld 1 b!"abc\n////\nfoo\n////\n\ndef\n").map fun g =>
    g.blocks.map Block.text) [b!"def"] = true := by decide +kernel

/-! ## C48: documents with a title -/

/-- The parser after the title line of a document. -/
def titled (t : Str) : Parser :=
  { (Parser.new) with
    header := some ⟨[], [⟨1, 1, []⟩, ⟨1, 2, []⟩]⟩, inBlockLine := true, lastTy := .text
    inlines := [.lit .text t [⟨1, 3, []⟩, ⟨1, 2 + t.length, []⟩]] }

theorem feed_title (w : World) (k : Nat) (t : Str) (ht : t ≠ []) (ts : List Token)
    (h : (Ln.marked b!"= " .heading1 t).Toks 1 ts) :
    feed (tokenInto w (k + 1)) true (ts.map .tok) Parser.new = .ok (titled t) := by
  obtain ⟨us, rfl, hp⟩ := h
  rw [List.map_cons, feed_cons _ _ _ _ { (Parser.new) with
    inBlockLine := true, header := some ⟨[], [⟨1, 1, []⟩, ⟨1, 2, []⟩]⟩ } (by
      rw [tokenInto_inHeader w k _ _ rfl rfl]; rfl)]
  rw [feed_text w k 1 [] _ t us ht hp _ rfl rfl rfl]
  have : 1 + (b!"= ").length + t.length - 1 = 2 + t.length := by simp only [List.length_cons, List.length_nil]; omega
  rw [this]
  rfl

/-- The header that a title line makes. -/
def titleHeader (t : Str) : Header :=
  Header.consolidate ⟨[.lit .text t [⟨1, 3, []⟩, ⟨1, 2 + t.length, []⟩]], [⟨1, 1, []⟩, ⟨1, 2, []⟩]⟩

theorem moveHeader_titled (t : Str) (p : Parser) (h1 : p.header = (titled t).header) (h2 : p.inlines = (titled t).inlines)
    (h3 : p.inSpan = false) :
    p.moveHeader = .ok { p with inlines := [], header := none, asg := p.asg.addHeader (titleHeader t) p.attrs } := by
  unfold moveHeader addInlines
  simp only [h1, h2, h3, titled, List.isEmpty_cons, Bool.false_eq_true, if_false, bind, Except.bind, List.reverse_singleton,
    List.nil_append, pure, Except.pure]
  rfl

/-- **C48** (whole documents): a plain title at the start of a document becomes the header, with all its text and
nothing else, and what follows after a blank line is parsed as if it were a document of its own: here headings,
paragraphs and flat lists. -/
theorem C48_title (w : World) (k : Nat) (t rest : Str) (cs : List Chunk) (ht : PlainLine t) (h : MadeOf rest cs) :
    ∃ g hd l, Adoc.parseText w (k + 1) (b!"= " ++ t ++ b!"\n\n" ++ rest) = .ok g ∧ g.header = some hd
      ∧ hd.title = [.lit .text t l] ∧ readingL [] g.blocks = outline [] cs := by
  obtain ⟨lns, h1, h2, h3, h4⟩ := madeOf_layout rest cs h
  obtain ⟨ts, m, h5, h6⟩ := scan_doc (.marked b!"= " .heading1 t :: .text [] :: lns) (by simp) (by
    intro l hl
    rcases List.mem_cons.1 hl with rfl | hl
    · exact ⟨.title, ht⟩
    · rcases List.mem_cons.1 hl with rfl | hl
      · exact .inl rfl
      · exact h4 l hl)
  have hsrc : joinB 10 ((Ln.marked b!"= " .heading1 t :: .text [] :: lns).map Ln.str) = b!"= " ++ t ++ b!"\n\n" ++ rest := by
    rw [List.map_cons, List.map_cons, h1]
    have := joinB_splitOnB 10 rest
    cases hs : splitOnB 10 rest with
    | nil => exact absurd hs (splitOnB_ne_nil 10 rest)
    | cons x xs =>
      rw [hs] at this
      simp only [joinB, Ln.str, this, List.nil_append, List.append_assoc, List.cons_append]
  rw [hsrc] at h6
  obtain ⟨t1, t2, rfl, a1, a2⟩ := docToks_cons h5
  cases lns with
  | nil => exact absurd rfl h2
  | cons ln lns =>
    obtain ⟨t3, t4, rfl, b1, b2⟩ := docToks_cons a2
    rw [toks_empty b1] at h6
    let p1 : Parser := { titled t with
      inBlockLine := false, dangling := some (newline 1 (1 + (2 + t.length)) []), lastTy := .newLineChar }
    let p2 : Parser := { titled t with
      inBlockLine := false, dangling := none, inlines := [], header := none
      asg := (titled t).asg.addHeader (titleHeader t) (titled t).attrs, lastTy := .newLineChar }
    have hlen : (Ln.marked b!"= " .heading1 t).str.length = 2 + t.length := by simp [Ln.str]; omega
    have e1 : tokenInto w (k + 1) (newline 1 (1 + (2 + t.length)) []) (titled t) = .ok { titled t with
        inBlockLine := false, dangling := some (newline 1 (1 + (2 + t.length)) []) } := by
      rw [tokenInto_inHeader w k _ _ rfl rfl]; rfl
    have e2 : ∀ c, tokenInto w (k + 1) (newline 2 c []) p1 = .ok { p2 with lastTy := .newLineChar } := by
      intro c
      rw [tokenInto_inHeader w k _ _ rfl rfl]
      show blankLine { p1 with inBlockLine := false } = _
      show moveHeader { p1 with inBlockLine := false, dangling := none } = _
      exact moveHeader_titled t { p1 with inBlockLine := false, dangling := none } rfl rfl rfl
    have hb : Between p2 (some (titleHeader t), some (titled t).attrs, (titleHeader t).documentId) [] [] :=
      ⟨rfl, rfl, rfl, rfl, rfl, none, rfl, .inl rfl, .flat rfl rfl rfl rfl⟩
    obtain ⟨q, g1, g2, g3⟩ := parse_layout w k m true _ cs h3 h.ok _ t4 b2 p2 _ [] [] hb (.inl rfl) (fun _ => rfl)
    refine ⟨q.asg, titleHeader t, _, ?_, congrArg (·.1) g3, rfl, by simpa using g2⟩
    unfold Adoc.parseText
    rw [h6]
    have hp : Parser.parse w (k + 1) ((t1 ++ newline 1 (1 + (Ln.marked b!"= " .heading1 t).str.length) []
        :: ([] ++ newline (1 + 1) (1 + (Ln.text []).str.length) [] :: t4)).map .tok ++ [.tok (Token.final m [])]) Parser.new = .ok q := by
      rw [hlen, List.map_append, List.append_assoc, parse_append _ _ _ _ _ _ (feed_title w k t ht.ne t1 a1)]
      rw [List.map_cons, List.nil_append, List.map_cons, List.cons_append, List.cons_append]
      rw [← List.singleton_append, parse_append _ _ [_] _ _ p1 (feed_cons _ _ [] _ _ e1)]
      rw [← List.singleton_append, parse_append _ _ [_] _ _ p2 (feed_cons _ _ [] _ _ (e2 _))]
      exact g1
    rw [hp]
    rfl

/-- **C48** (a title alone): with or without a newline after it. -/
theorem C48_alone (w : World) (k : Nat) (t : Str) (ht : PlainLine t) (nl : Bool) :
    ∃ g hd l, Adoc.parseText w (k + 1) (b!"= " ++ t ++ if nl then b!"\n" else []) = .ok g ∧ g.header = some hd
      ∧ hd.title = [.lit .text t l] ∧ g.blocks = [] := by
  have hfin : ∀ (m : Nat) (p : Parser), p.header = (titled t).header → p.inlines = (titled t).inlines → p.inSpan = false →
      p.openText = none → p.blocks = [] → p.asg = Parser.new.asg → ∃ q, Parser.parse w (k + 1) [.tok (Token.final m [])] p = .ok q
        ∧ q.asg.header = some (titleHeader t) ∧ q.asg.blocks = [] := by
    intro m p e1 e2 e3 e4 e5 e6
    unfold Parser.parse
    have : tokenInto w (k + 1) (Token.final m []) p = .ok { p with
        inlines := [], header := none, asg := p.asg.addHeader (titleHeader t) p.attrs } := by
      simp only [tokenInto, step, e1, titled, Option.isSome_some, Token.canBeInHeader, Token.final, Token.isInline, Bool.not_false,
        Bool.and_self, if_true, moveHeader_titled t p e1 e2 e3, bind, Except.bind, verbatim, e4, dispatchToken, Option.isSome_none,
        Bool.false_eq_true, if_false]
    rw [feed_cons _ _ _ _ _ this]
    simp only [feed, bind, Except.bind, finish, addInlines, List.isEmpty_nil, if_true, e5, List.length_nil, drain, e6, pure,
      Except.pure]
    exact ⟨_, rfl, rfl, rfl⟩
  cases nl with
  | false =>
    obtain ⟨ts, m, h5, h6⟩ := scan_doc [.marked b!"= " .heading1 t] (by simp) (by simpa using ⟨.title, ht⟩)
    obtain ⟨q, g1, g2, g3⟩ := hfin m (titled t) rfl rfl rfl rfl rfl rfl
    refine ⟨q.asg, titleHeader t, _, ?_, g2, rfl, g3⟩
    unfold Adoc.parseText
    simp only [List.map_cons, List.map_nil, joinB, Ln.str] at h6
    simp only [Bool.false_eq_true, if_false, List.append_nil]
    rw [h6, parse_append _ _ _ _ _ _ (feed_title w k t ht.ne ts (docToks_one h5)), g1]
    rfl
  | true =>
    obtain ⟨ts, m, h5, h6⟩ := scan_doc [.marked b!"= " .heading1 t, .text []] (by simp) (by
      intro l hl
      rcases List.mem_cons.1 hl with rfl | hl
      · exact ⟨.title, ht⟩
      · simp at hl; subst hl; exact .inl rfl)
    obtain ⟨t1, t2, rfl, a1, a2⟩ := docToks_cons h5
    rw [toks_empty (docToks_one a2)] at h6
    simp only [List.map_cons, List.map_nil, joinB, Ln.str] at h6
    have e1 : ∀ c, tokenInto w (k + 1) (newline 1 c []) (titled t) = .ok { titled t with
        inBlockLine := false, dangling := some (newline 1 c []) } := by
      intro c; rw [tokenInto_inHeader w k _ _ rfl rfl]; rfl
    obtain ⟨q, g1, g2, g3⟩ := hfin m { titled t with
      inBlockLine := false, dangling := some (newline 1 (1 + (b!"= " ++ t).length) []), lastTy := .newLineChar } rfl rfl rfl rfl rfl rfl
    refine ⟨q.asg, titleHeader t, _, ?_, g2, rfl, g3⟩
    unfold Adoc.parseText
    simp only [if_true]
    have hp : Parser.parse w (k + 1) ((t1 ++ newline 1 (1 + (b!"= " ++ t).length) [] :: []).map .tok ++ [.tok (Token.final m [])])
        Parser.new = .ok q := by
      rw [List.map_append, List.append_assoc, parse_append _ _ _ _ _ _ (feed_title w k t ht.ne t1 a1), List.map_singleton]
      rw [parse_append _ _ [_] _ _ _ (feed_cons _ _ [] _ _ (e1 _))]
      exact g1
    rw [h6, hp]
    rfl

example : returns ((Adoc.parseText emptyWorld 1 b!"= The title\n\ntext\n\n== A\n").map fun g =>
    (([], Entry.head 0 (g.header.elim [] (Inline.textL ·.title))) :: readingL [] g.blocks))
    [([], .head 0 b!"The title"), ([], .para b!"text"), ([], .head 1 b!"A")] = true := by decide +kernel

end Adoc.Props
