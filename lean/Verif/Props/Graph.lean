import Verif.Proof.Graph
/-!
# C31–C37: cross references, the id index, footnotes, text extraction, table metadata
-/
namespace Adoc.Props
open Block

/-! ## C32: the id index -/

/-- Graphs made by adding blocks and headers to the empty graph. -/
inductive Built : Asg → Prop
  | new : Built Asg.new
  | push {g g' : Asg} {b : Block} : Built g → g.pushBlock b = .ok g' → Built g'
  | header {g : Asg} {h : Header} {attrs : SMap Str} : Built g → Built (g.addHeader h attrs)

/-- A block of the tree below some blocks. -/
inductive Below : Block → List Block → Prop
  | here {b : Block} {bs : List Block} : b ∈ bs → Below b bs
  | child {b c : Block} {bs : List Block} : c ∈ bs → Below b c.children → Below b bs

private theorem titledL_mem (e : Str × List Inline) (bs : List Block) :
    e ∈ titledL bs ↔ ∃ b ∈ bs, e ∈ titled b := by
  induction bs with
  | nil => simp [titledL]
  | cons b bs ih => simp [titledL, ih]

private theorem titled_eq (b : Block) : b.titled = b.ownId ++ titledL b.children := by
  cases b <;> simp [titled, children, titledL]

private theorem ownId_mem (b : Block) (k : Str) (v : List Inline) :
    (k, v) ∈ b.ownId ↔ b.id? = some k ∧ b.title.getD [] = v := by
  unfold ownId
  cases h : b.id? with
  | none => simp
  | some i => simp [eq_comm]

private theorem below_titled (k : Str) (v : List Inline) (b : Block) (bs : List Block) (h : Below b bs)
    (hi : b.id? = some k) (ht : b.title.getD [] = v) : (k, v) ∈ titledL bs := by
  induction h with
  | here hm =>
    rw [titledL_mem]
    exact ⟨_, hm, by rw [titled_eq]; simp [(ownId_mem _ k v).2 ⟨hi, ht⟩]⟩
  | child hc _ ih =>
    rw [titledL_mem]
    exact ⟨_, hc, by rw [titled_eq]; simp [ih]⟩

mutual
private theorem titled_below (k : Str) (v : List Inline) : ∀ b : Block, (k, v) ∈ b.titled →
    (b.id? = some k ∧ b.title.getD [] = v) ∨ ∃ c, Below c b.children ∧ c.id? = some k ∧ c.title.getD [] = v
  | .section t m x bs l, h => by
    rw [titled_eq, List.mem_append] at h
    exact h.imp (ownId_mem _ k v).1 (titledL_below k v bs)
  | .parent n x d bs t m l, h => by
    rw [titled_eq, List.mem_append] at h
    exact h.imp (ownId_mem _ k v).1 (titledL_below k v bs)
  | .list x bs m l, h => by
    rw [titled_eq, List.mem_append] at h
    exact h.imp (ownId_mem _ k v).1 (titledL_below k v bs)
  | .dlist bs m l, h => by
    rw [titled_eq, List.mem_append] at h
    exact h.imp (ownId_mem _ k v).1 (titledL_below k v bs)
  | .listItem kk p bs m l, h => by
    rw [titled_eq, List.mem_append] at h
    exact h.imp (ownId_mem _ k v).1 (titledL_below k v bs)
  | .dlistItem t p bs m l, h => by
    rw [titled_eq, List.mem_append] at h
    exact h.imp (ownId_mem _ k v).1 (titledL_below k v bs)
  | .brk .., h => .inl ((ownId_mem _ k v).1 h)
  | .image .., h => .inl ((ownId_mem _ k v).1 h)
  | .leaf .., h => .inl ((ownId_mem _ k v).1 h)
  | .tableCell .., h => .inl ((ownId_mem _ k v).1 h)
private theorem titledL_below (k : Str) (v : List Inline) : ∀ bs : List Block, (k, v) ∈ titledL bs →
    ∃ c, Below c bs ∧ c.id? = some k ∧ c.title.getD [] = v
  | [], h => by cases h
  | b :: bs, h => by
    simp only [titledL, List.mem_append] at h
    rcases h with h | h
    · rcases titled_below k v b h with h | ⟨c, hc, h⟩
      · exact ⟨b, .here (by simp), h⟩
      · exact ⟨c, .child (by simp) hc, h⟩
    · obtain ⟨c, hc, h⟩ := titledL_below k v bs h
      refine ⟨c, ?_, h⟩
      cases hc with
      | here hm => exact .here (by simp [hm])
      | child hm hb => exact .child (by simp [hm]) hb
end

theorem built_inv (g : Asg) (h : Built g) :
    (∀ k v, g.idHash.get? k = some v → (k, v) ∈ titledL g.blocks)
      ∧ (∀ k, k ∈ (titledL g.blocks).map (·.1) → (g.idHash.get? k).isSome = true) := by
  induction h with
  | new =>
    constructor
    · intro k v h; cases h
    · intro k h; cases h
  | push _ hp ih =>
    obtain ⟨hb, hh⟩ := Asg.titled_pushBlock _ _ _ hp
    constructor
    · intro k v hk
      rw [hh] at hk
      rw [hb, List.mem_append]
      rcases SMap.get?_extend_some _ _ _ _ hk with h | h
      · right
        have := idHashes_sound k v _ h
        rwa [titled_consolidate] at this
      · exact .inl (ih.1 k v h)
    · intro k hk
      rw [hh, SMap.get?_isSome, SMap.keys_extend, idHashes_keys, titled_consolidate]
      rw [hb, List.map_append, List.mem_append] at hk
      rcases hk with h | h
      · exact .inl ((SMap.get?_isSome _ _).1 (ih.2 k h))
      · exact .inr h
  | header _ ih => exact ih

/-- **C32** (completeness): the id of every block anywhere in the graph is in the index. -/
theorem C32_complete (g : Asg) (hg : Built g) (b : Block) (hb : Below b g.blocks) (k : Str) (hk : b.id? = some k) :
    ∃ v, g.idHash.get? k = some v := by
  have h := (built_inv g hg).2 k (List.mem_map.2 ⟨(k, b.title.getD []), below_titled k _ b g.blocks hb hk rfl, rfl⟩)
  exact Option.isSome_iff_exists.1 h

/-- **C32** (soundness): every key of the index is the id of a block of the graph, and its value is that block's
title. -/
theorem C32_sound (g : Asg) (hg : Built g) (k : Str) (v : List Inline) (h : g.idHash.get? k = some v) :
    ∃ b, Below b g.blocks ∧ b.id? = some k ∧ b.title.getD [] = v :=
  titledL_below k v g.blocks ((built_inv g hg).1 k v h)

/-- A section with an id, and a paragraph with an id, as a concrete case. -/
def sampleSection : Block := .section [.lit .text b!"Intro" []] (some (Meta.withId b!"intro")) 1 [] [⟨1, 1, []⟩]
/-- The sample paragraph. -/
def samplePara : Block := .leaf .paragraph .paragraph none [.ref .xref b!"intro" [] none []]
  (some (Meta.withId b!"p1")) [⟨3, 1, []⟩]

example : ∃ g, Built g ∧ ∃ v, g.idHash.get? b!"intro" = some v :=
  ⟨_, .push (b := samplePara) (.push (b := sampleSection) .new rfl) rfl, _, rfl⟩

/-! ## C31: cross references -/

private theorem inlines_map (f : Inline → Inline) : ∀ bs : List Block,
    inlinesL (mapInlinesL f bs) = (inlinesL bs).map f := by
  intro bs
  apply Block.mapInlinesL.induct (motive_1 := fun b => (mapInlines f b).inlines = b.inlines.map f)
    (motive_2 := fun bs => inlinesL (mapInlinesL f bs) = (inlinesL bs).map f) <;>
    intros <;> simp_all [mapInlines, mapInlinesL, inlines, inlinesL]

/-- A cross reference for a graph with index `h`, as C31 wants it: it shows the indexed title if there is one, and is
as written otherwise. -/
def Resolved (h : SMap (List Inline)) (written now : Inline) : Prop :=
  match written with
  | .ref .xref t is m l => match h.get? t with
    | some ti => now = .ref .xref t ti m l
    | none => now = .ref .xref t is m l
  | x => now = x

/-- **C31, partial**: among the inlines directly in titles, principal texts, paragraphs and cells, every cross
reference is resolved and everything else is unchanged, in order. Not covered (and not resolved by the code): cross
references inside spans, captions and description list terms. -/
theorem C31_resolved_partial (g : Asg) :
    (inlinesL g.consolidate.blocks).length = (inlinesL g.blocks).length
      ∧ ∀ (i : Nat) (x : Inline), (inlinesL g.blocks)[i]? = some x →
        ∃ y, (inlinesL g.consolidate.blocks)[i]? = some y ∧ Resolved g.idHash x y := by
  have hb : inlinesL g.consolidate.blocks = (inlinesL g.blocks).map (Inline.resolveXref g.idHash) := by
    have e : g.consolidateLocations.blocks = g.blocks ∧ g.consolidateLocations.idHash = g.idHash := by
      unfold Asg.consolidateLocations
      split
      · exact ⟨rfl, rfl⟩
      · split <;> exact ⟨rfl, rfl⟩
    show inlinesL (mapInlinesL (Inline.resolveXref g.consolidateLocations.idHash) g.consolidateLocations.blocks) = _
    rw [e.1, e.2, inlines_map]
  rw [hb]
  refine ⟨by simp, fun i x hx => ⟨Inline.resolveXref g.idHash x, by simp [hx], ?_⟩⟩
  unfold Resolved
  split
  · simp only [Inline.resolveXref]
    split <;> rename_i h <;> rw [h] <;> rfl
  · unfold Inline.resolveXref
    split
    · rename_i hne
      exact absurd rfl (hne _ _ _ _)
    · rfl

/-- **C31, partial**: for a graph built by adding blocks, a resolved cross reference shows the title of a block with the
target id, and a cross reference is left as written only if no block has that id. -/
theorem C31_title_partial (g : Asg) (hg : Built g) (t : Str) :
    (∃ ti, g.idHash.get? t = some ti ∧ ∃ b, Below b g.blocks ∧ b.id? = some t ∧ b.title.getD [] = ti)
      ∨ (g.idHash.get? t = none ∧ ∀ b, Below b g.blocks → b.id? ≠ some t) := by
  cases h : g.idHash.get? t with
  | some ti => exact .inl ⟨ti, rfl, C32_sound g hg t ti h⟩
  | none =>
    refine .inr ⟨rfl, fun b hb hi => ?_⟩
    obtain ⟨v, hv⟩ := C32_complete g hg b hb t hi
    rw [h] at hv; cases hv

/-- A cross reference inside a span is not resolved, although its target exists. -/
theorem C31_nested : ∃ g : Asg, Built g ∧ g.idHash.get? b!"intro" = some [.lit .text b!"Intro" []]
    ∧ ∃ b ∈ g.consolidate.blocks, ∃ c ∈ b.children, c.inlines =
      [.span .strong .constrained [.ref .xref b!"intro" [] none []] none [] false] :=
  ⟨_, .push (b := .section [.lit .text b!"Intro" []] (some (Meta.withId b!"intro")) 1
      [.leaf .paragraph .paragraph none
        [.span .strong .constrained [.ref .xref b!"intro" [] none []] none [] false] none [⟨3, 1, []⟩]]
      [⟨1, 1, []⟩]) .new rfl, rfl, _, .head _, _, .head _, rfl⟩

/-! ## C33, C34: footnotes -/

/-- Is this inline a footnote? -/
def IsNote : Inline → Prop
  | .span .footnote _ _ _ _ _ => True
  | _ => False

/-- The reference left in the text: a superscript with one link to the definition, showing the number, with an id. -/
def NoteRef (refId defId number : Str) (x : Inline) : Prop :=
  ∃ data l l', x = .span .superscript .constrained
      [.ref .xref defId [.lit .text number l] (some data) l'] (some (Meta.withRole b!"footnote")) l' true
    ∧ data.elementId = some refId

/-- The definition: a paragraph with an id and the role of a footnote that starts with a link back and goes on with the footnote's content. -/
def NoteDef (refId defId number : Str) (content : List Inline) (b : Block) : Prop :=
  ∃ data l l', b = .leaf .paragraph .paragraph none
      (.ref .xref refId [.lit .text number l] none l' :: content) (some data) []
    ∧ data.elementId = some defId ∧ data.roles = [b!"footnote"]

/-- What footnote extraction does to a list of inlines: `Extracted doc n before after defs` numbers from `n`. -/
inductive Extracted (doc : Str) : Nat → List Inline → List Inline → List Block → Prop
  | nil {n : Nat} : Extracted doc n [] [] []
  | keep {n : Nat} {x : Inline} {is is' : List Inline} {ds : List Block} : ¬ IsNote x →
      Extracted doc n is is' ds → Extracted doc n (x :: is) (x :: is') ds
  | note {n : Nat} {f : SpanForm} {content : List Inline} {m : Option Meta} {l : List Location} {o : Bool}
      {x : Inline} {d : Block} {is is' : List Inline} {ds : List Block} :
      NoteRef (doc ++ b!"_footnoteref_" ++ natToStr n) (doc ++ b!"_footnotedef_" ++ natToStr n) (natToStr n) x →
      NoteDef (doc ++ b!"_footnoteref_" ++ natToStr n) (doc ++ b!"_footnotedef_" ++ natToStr n) (natToStr n) content d →
      Extracted doc (n + 1) is is' ds →
      Extracted doc n (.span .footnote f content m l o :: is) (x :: is') (d :: ds)

/-- **C34, partial**: in a list of inlines every footnote is replaced in place by a reference, its content moves
unchanged to the definition with the matching id, and every other inline stays as it was. Not covered: footnotes
inside other inlines and in titles, which the code leaves where they are. -/
theorem C34_extracted_partial (doc : Str) (count : Nat) (is : List Inline) :
    Extracted doc (count + 1) is (footnotesIn doc count is).1 (footnotesIn doc count is).2 := by
  induction is generalizing count with
  | nil => exact .nil
  | cons x is ih =>
    unfold footnotesIn
    split
    · rename_i h; cases h
    · rename_i h
      cases h
      refine .note ?_ ?_ (ih (count + 1))
      · exact ⟨_, _, _, rfl, rfl⟩
      · exact ⟨_, _, _, rfl, rfl, rfl⟩
    · rename_i hne h
      cases h
      refine .keep ?_ (ih count)
      intro hn
      cases x with
      | span v f js m l o =>
        cases v <;> first | exact hn | exact hne _ _ _ _ _ rfl
      | _ => exact hn

/-- Documents without containers: paragraphs and other leaf blocks only. -/
def Flat (bs : List Block) : Prop := ∀ b ∈ bs, ∃ n f d is m l, b = Block.leaf n f d is m l

/-- Definition ids that a flat document must get: numbers 1, 2, 3, … -/
def wantedIds (doc : Str) (start n : Nat) : List (Option Str) :=
  (List.range' start n).map fun i => some (doc ++ b!"_footnotedef_" ++ natToStr i)

private theorem ids_in (doc : Str) (count : Nat) (is : List Inline) :
    (footnotesIn doc count is).2.map Block.id?
      = wantedIds doc (count + 1) (footnotesIn doc count is).2.length := by
  induction is generalizing count with
  | nil => rfl
  | cons x is ih =>
    unfold footnotesIn
    split
    · rename_i h; cases h
    · rename_i h
      cases h
      simp only [List.map_cons, ih, wantedIds, List.length_cons, List.range'_succ]
      rfl
    · rename_i h; cases h; exact ih count

private theorem ids_flat (doc : Str) (count : Nat) (bs : List Block) (h : Flat bs) :
    ∃ r, footnotesL doc count bs = .ok r
      ∧ r.2.map Block.id? = wantedIds doc (count + 1) r.2.length ∧ r.1.length = bs.length := by
  induction bs generalizing count with
  | nil => exact ⟨_, rfl, rfl, rfl⟩
  | cons b bs ih =>
    obtain ⟨n, f, d, is, m, l, rfl⟩ := h b (by simp)
    have hb : footnotes doc count (.leaf n f d is m l)
        = .ok (.leaf n f d (footnotesIn doc count is).1 m l, (footnotesIn doc count is).2) := rfl
    obtain ⟨r, hr, h1, h2⟩ := ih (count + (footnotesIn doc count is).2.length) (fun x hx => h x (by simp [hx]))
    simp only [footnotesL, hb, bind, Except.bind, hr]
    refine ⟨_, rfl, ?_, by simp [h2]⟩
    simp only [List.map_append, ids_in, h1, List.length_append, wantedIds]
    rw [← List.map_append]
    congr 1
    have := @List.range'_append (count + 1) (footnotesIn doc count is).2.length r.2.length 1
    simp only [Nat.one_mul] at this
    rw [← this]
    congr 2; omega

/-- **C33, partial**: in a document without containers, the definitions are numbered 1, 2, 3, … in document order. -/
theorem C33_flat_partial (doc : Str) (bs : List Block) (h : Flat bs) :
    ∃ r, footnotesL doc 0 bs = .ok r ∧ r.2.map Block.id? = wantedIds doc 1 r.2.length := by
  obtain ⟨r, h1, h2, _⟩ := ids_flat doc 0 bs h
  exact ⟨r, h1, h2⟩

/-- The wanted ids are all different. -/
theorem C33_ids_differ (doc : Str) (start n : Nat) : (wantedIds doc start n).Nodup := by
  unfold wantedIds
  rw [List.Nodup, List.pairwise_map]
  refine List.Pairwise.imp ?_ (List.nodup_range' (s := start) (n := n))
  intro a b hab h
  apply hab
  apply natToStr_inj
  simpa using h

/-- A paragraph with one footnote. -/
def notePara : Block := .leaf .paragraph .paragraph none
  [.lit .text b!"a" [], .span .footnote .constrained [.lit .text b!"n" []] none [] false] none [⟨1, 1, []⟩]

example : Flat [notePara, notePara] := by
  intro b hb
  simp only [List.mem_cons, List.not_mem_nil, or_false, or_self] at hb
  exact ⟨_, _, _, _, _, _, hb⟩

/-- Two sections with one footnote each: both definitions get the same id. -/
theorem C33_sections_restart : ∃ r, footnotesL b!"doc" 0
      [.section [] none 1 [notePara] [], .section [] none 1 [notePara] []] = .ok r
    ∧ r.2.map Block.id? = [some b!"doc_footnotedef_1", some b!"doc_footnotedef_1"] :=
  ⟨_, rfl, by decide⟩

/-- A document with a thematic break, an image or a table makes the extraction panic. -/
theorem C33_break_panics : footnotesL b!"doc" 0 [.brk .thematic []] = .error (.panic .todo) := rfl

/-- A footnote inside bold text is not extracted. -/
theorem C34_nested (doc : Str) (count : Nat) (f : SpanForm) (is : List Inline) (m : Option Meta) (l : List Location) :
    footnotesIn doc count [.span .strong f is m l false] = ([.span .strong f is m l false], []) := rfl

mutual
/-- What footnote extraction does to a block: `Taken doc count before after defs`, where `count` footnotes were taken before. The
kinds, titles, markers and metadata of blocks stay, and so does their nesting. The numbers of footnotes in sections, boxes, lists
and items start from one. -/
def Taken (doc : Str) (count : Nat) : Block → Block → List Block → Prop
  | .section t m v bs l, b', ds => ∃ bs', b' = .section t m v bs' l ∧ TakenL doc 0 bs bs' ds
  | .parent n v d bs t m l, b', ds => ∃ bs', b' = .parent n v d bs' t m l ∧ TakenL doc 0 bs bs' ds
  | .list v bs m l, b', ds => ∃ bs', b' = .list v bs' m l ∧ TakenL doc 0 bs bs' ds
  | .dlist bs m l, b', ds => ∃ bs', b' = .dlist bs' m l ∧ TakenL doc 0 bs bs' ds
  | .listItem k p bs m l, b', ds => ∃ p' bs' own rest, b' = .listItem k p' bs' m l ∧ ds = own ++ rest ∧
      Extracted doc 1 p p' own ∧ TakenL doc own.length bs bs' rest
  | .dlistItem t p bs m l, b', ds => ∃ p' bs' own rest, b' = .dlistItem t p' bs' m l ∧ ds = own ++ rest ∧
      Extracted doc 1 p p' own ∧ TakenL doc own.length bs bs' rest
  | .leaf n f d is m l, b', ds => ∃ is', b' = .leaf n f d is' m l ∧ Extracted doc (count + 1) is is' ds
  | _, _, _ => False
/-- The same for a list of blocks: the definitions are in the order of the blocks. -/
def TakenL (doc : Str) (count : Nat) : List Block → List Block → List Block → Prop
  | [], bs', ds => bs' = [] ∧ ds = []
  | b :: bs, bs', ds => ∃ b' rest own others, bs' = b' :: rest ∧ ds = own ++ others ∧ Taken doc count b b' own ∧
      TakenL doc (count + own.length) bs rest others
end

mutual
/-- There are no breaks, images and cells. -/
def extractable : Block → Bool
  | .section _ _ _ bs _ => extractableL bs
  | .parent _ _ _ bs _ _ _ => extractableL bs
  | .list _ bs _ _ => extractableL bs
  | .dlist bs _ _ => extractableL bs
  | .listItem _ _ bs _ _ => extractableL bs
  | .dlistItem _ _ bs _ _ => extractableL bs
  | .leaf .. => true
  | _ => false
/-- The same for a list of blocks. -/
def extractableL : List Block → Bool
  | [] => true
  | b :: bs => extractable b && extractableL bs
end

mutual
private theorem taken (doc : Str) : ∀ (count : Nat) (b : Block),
    (extractable b = true → ∃ r, footnotes doc count b = .ok r ∧ Taken doc count b r.1 r.2) ∧
    (extractable b = false → footnotes doc count b = .error (.panic .todo))
  | count, .section t m v bs l => by
    have h := takenL doc 0 bs
    simp only [extractable, footnotes]
    refine ⟨fun he => ?_, fun he => ?_⟩
    · obtain ⟨r, hr, ht⟩ := h.1 he
      exact ⟨_, by rw [hr]; rfl, ⟨_, rfl, ht⟩⟩
    · rw [h.2 he]; rfl
  | count, .parent n v d bs t m l => by
    have h := takenL doc 0 bs
    simp only [extractable, footnotes]
    refine ⟨fun he => ?_, fun he => ?_⟩
    · obtain ⟨r, hr, ht⟩ := h.1 he
      exact ⟨_, by rw [hr]; rfl, ⟨_, rfl, ht⟩⟩
    · rw [h.2 he]; rfl
  | count, .list v bs m l => by
    have h := takenL doc 0 bs
    simp only [extractable, footnotes]
    refine ⟨fun he => ?_, fun he => ?_⟩
    · obtain ⟨r, hr, ht⟩ := h.1 he
      exact ⟨_, by rw [hr]; rfl, ⟨_, rfl, ht⟩⟩
    · rw [h.2 he]; rfl
  | count, .dlist bs m l => by
    have h := takenL doc 0 bs
    simp only [extractable, footnotes]
    refine ⟨fun he => ?_, fun he => ?_⟩
    · obtain ⟨r, hr, ht⟩ := h.1 he
      exact ⟨_, by rw [hr]; rfl, ⟨_, rfl, ht⟩⟩
    · rw [h.2 he]; rfl
  | count, .listItem k p bs m l => by
    have h := takenL doc (footnotesIn doc 0 p).2.length bs
    simp only [extractable, footnotes]
    refine ⟨fun he => ?_, fun he => ?_⟩
    · obtain ⟨r, hr, ht⟩ := h.1 he
      exact ⟨_, by rw [hr]; rfl, ⟨_, _, _, _, rfl, rfl, C34_extracted_partial doc 0 p, ht⟩⟩
    · rw [h.2 he]; rfl
  | count, .dlistItem t p bs m l => by
    have h := takenL doc (footnotesIn doc 0 p).2.length bs
    simp only [extractable, footnotes]
    refine ⟨fun he => ?_, fun he => ?_⟩
    · obtain ⟨r, hr, ht⟩ := h.1 he
      exact ⟨_, by rw [hr]; rfl, ⟨_, _, _, _, rfl, rfl, C34_extracted_partial doc 0 p, ht⟩⟩
    · rw [h.2 he]; rfl
  | count, .leaf n f d is m l => by
    refine ⟨fun _ => ⟨_, rfl, _, rfl, C34_extracted_partial doc count is⟩, fun he => ?_⟩
    simp [extractable] at he
  | _, .brk .. => by simp [extractable, footnotes]
  | _, .image .. => by simp [extractable, footnotes]
  | _, .tableCell .. => by simp [extractable, footnotes]
private theorem takenL (doc : Str) : ∀ (count : Nat) (bs : List Block),
    (extractableL bs = true → ∃ r, footnotesL doc count bs = .ok r ∧ TakenL doc count bs r.1 r.2) ∧
    (extractableL bs = false → footnotesL doc count bs = .error (.panic .todo))
  | count, [] => by
    refine ⟨fun _ => ⟨_, rfl, rfl, rfl⟩, fun he => ?_⟩
    simp [extractableL] at he
  | count, b :: bs => by
    have h1 := taken doc count b
    simp only [extractableL, footnotesL, Bool.and_eq_true, Bool.and_eq_false_iff]
    refine ⟨fun he => ?_, fun he => ?_⟩
    · obtain ⟨r, hr, ht⟩ := h1.1 he.1
      obtain ⟨r', hr', ht'⟩ := (takenL doc (count + r.2.length) bs).1 he.2
      exact ⟨_, by rw [hr]; simp only [bind, Except.bind]; rw [hr']; rfl, ⟨_, _, _, _, rfl, rfl, ht, ht'⟩⟩
    · cases hb : extractable b
      · rw [h1.2 hb]; rfl
      · obtain ⟨r, hr, -⟩ := h1.1 hb
        rw [hr]
        simp only [bind, Except.bind]
        rw [(takenL doc (count + r.2.length) bs).2 (by simpa [hb] using he)]
end

/-- **C34**, whole documents: if there are no breaks, images and cells at any depth, every footnote directly in the text of a
block or item is replaced by a reference, the definitions follow in one block after all others, in the order of the document, and
the rest of the document stays as it was; otherwise extraction panics. -/
theorem C34_document_partial (g : Asg) :
    (extractableL g.blocks = true → ∃ g' bs ds l, g.standardizeFootnotes = .ok g' ∧ TakenL g.documentId 0 g.blocks bs ds ∧
      g'.blocks = bs ++ [.parent .footnoteContainer none [] ds [] none l] ∧ g'.header = g.header ∧ g'.attributes = g.attributes) ∧
    (extractableL g.blocks = false → g.standardizeFootnotes = .error (.panic .todo)) := by
  have h := takenL g.documentId 0 g.blocks
  refine ⟨fun he => ?_, fun he => ?_⟩
  · obtain ⟨r, hr, ht⟩ := h.1 he
    unfold Asg.standardizeFootnotes
    rw [hr]
    simp only [bind, Except.bind]
    exact ⟨_, r.1, r.2, _, rfl, ht, rfl, rfl, rfl⟩
  · unfold Asg.standardizeFootnotes
    rw [h.2 he]
    rfl

/-- A section with a list whose item has a footnote, and a paragraph with another one. -/
def notedDoc : Asg := { Asg.new with documentId := b!"doc", blocks := [.section [] none 1 [
  .list .unordered [.listItem b!"*" [.span .footnote .constrained [.lit .text b!"m" []] none [] false] [] none []] none [], notePara] []] }

/-- The text of the definitions at the end of a document with two footnotes. -/
def lastNotes : M Asg → Option (Str × Str)
  | .ok { blocks := [_, .parent _ _ _ [.leaf _ _ _ [_, .lit _ a _] _ _, .leaf _ _ _ [_, .lit _ b _] _ _] _ _ _], .. } => some (a, b)
  | _ => none

example : extractableL notedDoc.blocks = true ∧ lastNotes notedDoc.standardizeFootnotes = some (b!"m", b!"n") := by
  constructor <;> decide +kernel

example : extractableL [Block.section [] none 1 [.brk .thematic []] []] = false := rfl

/-- Letters of both cases. -/
def upperLetters : Str := b!"ABCDEFGHIJKLMNOPQRSTUVWXYZ"
def lowerLetters : Str := b!"abcdefghijklmnopqrstuvwxyz"

/-- What the byte `b` of a title is in the id of the document: letters in lower case, digits, and underscores for other ASCII
bytes. -/
def IdByte (b c : UInt8) : Prop :=
  (∃ i : Nat, upperLetters[i]? = some b ∧ lowerLetters[i]? = some c) ∨ ((b ∈ lowerLetters ∨ b ∈ b!"0123456789" ∨ 128 ≤ b) ∧ c = b) ∨
    (b ∉ upperLetters ∧ b ∉ lowerLetters ∧ b ∉ b!"0123456789" ∧ b < 128 ∧ c = c!"_")

private theorem idByte_ok (b : UInt8) : IdByte b (idByte b) := by
  have key : ∀ n : Fin 256, let b := UInt8.ofNat n.1
      (∃ i : Fin 26, upperLetters[i.1]? = some b ∧ lowerLetters[i.1]? = some (idByte b)) ∨
      ((b ∈ lowerLetters ∨ b ∈ b!"0123456789" ∨ 128 ≤ b) ∧ idByte b = b) ∨
      (b ∉ upperLetters ∧ b ∉ lowerLetters ∧ b ∉ b!"0123456789" ∧ b < 128 ∧ idByte b = c!"_") := by decide +kernel
  have h := key ⟨b.toNat, b.toNat_lt⟩
  simp only [UInt8.ofNat_toNat] at h
  rcases h with ⟨i, hi⟩ | h | h
  · exact .inl ⟨i.1, hi⟩
  · exact .inr (.inl h)
  · exact .inr (.inr h)

/-- **C33**: the ids of footnotes begin with the title of the document, byte by byte in lower case and with underscores. -/
theorem C33_document_id (g : Asg) (h : Header) (attrs : SMap Str) :
    (g.addHeader h attrs).documentId.length = (Inline.textL h.title).length ∧
    ∀ (i : Nat) b, (Inline.textL h.title)[i]? = some b → ∃ c, (g.addHeader h attrs).documentId[i]? = some c ∧ IdByte b c := by
  simp only [Asg.addHeader, Header.documentId, List.length_map, List.getElem?_map, true_and]
  intro i b hb
  exact ⟨_, by rw [hb]; rfl, idByte_ok b⟩

example : (Asg.new.addHeader ⟨[.lit .text b!"The 2nd Book!" []], []⟩ []).documentId = b!"the_2nd_book_" := by decide

/-! ## C36: extracted text -/

mutual
/-- The inlines of a block in document order: titles, captions, terms, principal texts, contents. -/
def content : Block → List Inline
  | .section t _ _ bs _ => t ++ contentL bs
  | .list _ bs _ _ => contentL bs
  | .listItem _ p bs _ _ => p ++ contentL bs
  | .dlist bs _ _ => contentL bs
  | .dlistItem t p bs _ _ => t ++ (p ++ contentL bs)
  | .brk .. => []
  | .image _ c _ _ => c
  | .leaf _ _ _ is _ _ => is
  | .parent _ _ _ bs t _ _ => t ++ contentL bs
  | .tableCell is _ _ => is
/-- The inlines of some blocks in document order. -/
def contentL : List Block → List Inline
  | [] => []
  | b :: bs => content b ++ contentL bs
end

mutual
/-- No description list terms and no titles of parent blocks. -/
def NoTerms : Block → Prop
  | .section _ _ _ bs _ => NoTermsL bs
  | .list _ bs _ _ => NoTermsL bs
  | .listItem _ _ bs _ _ => NoTermsL bs
  | .dlist bs _ _ => NoTermsL bs
  | .dlistItem t _ bs _ _ => t = [] ∧ NoTermsL bs
  | .parent _ _ _ bs t _ _ => t = [] ∧ NoTermsL bs
  | _ => True
/-- `NoTerms` for each block. -/
def NoTermsL : List Block → Prop
  | [] => True
  | b :: bs => NoTerms b ∧ NoTermsL bs
end

mutual
/-- The text of an inline, character data of its leaves in order. -/
def leafText : Inline → Str
  | .lit _ v _ => v
  | .span _ _ is _ _ _ => leafTextL is
  | .ref _ _ is _ _ => leafTextL is
  | .brk _ => []
/-- The text of some inlines. -/
def leafTextL : List Inline → Str
  | [] => []
  | x :: xs => leafText x ++ leafTextL xs
end

private theorem leafTextL_eq : ∀ is : List Inline, Inline.textL is = leafTextL is := by
  intro is
  apply Inline.textL.induct (motive_1 := fun i => i.text = leafText i)
    (motive_2 := fun is => Inline.textL is = leafTextL is) <;>
    intros <;> simp_all [Inline.text, Inline.textL, leafText, leafTextL]

private theorem leafTextL_append (a b : List Inline) : leafTextL (a ++ b) = leafTextL a ++ leafTextL b := by
  induction a with
  | nil => rfl
  | cons x a ih => simp [leafTextL, ih]

/-- **C36, partial**: without description list terms and block titles the extracted text is the text of all inlines in
document order. -/
theorem C36_text_partial (g : Asg) (h : NoTermsL g.blocks) : g.allText = leafTextL (contentL g.blocks) := by
  unfold Asg.allText
  revert h
  apply Block.textL.induct (motive_1 := fun b => NoTerms b → b.text = leafTextL (content b))
    (motive_2 := fun bs => NoTermsL bs → textL bs = leafTextL (contentL bs)) <;>
    intros <;>
    simp_all [NoTerms, NoTermsL, Block.text, textL, content, contentL, leafTextL_append, leafTextL_eq, leafTextL]

/-- Terms of description lists and titles of parent blocks are not in the extracted text. -/
theorem C36_terms_missing : ∃ g : Asg, g.allText = b!"def" ∧ leafTextL (contentL g.blocks) = b!"termTitledef" :=
  ⟨{ Asg.new with blocks := [.dlist [.dlistItem [.lit .text b!"term" []] [] [] none []] none [],
      .parent .sidebar none b!"****" [.leaf .paragraph .paragraph none [.lit .text b!"def" []] none []]
        [.lit .text b!"Title" []] none []] }, by decide, by decide⟩

example : NoTermsL [sampleSection, samplePara] := by simp [NoTermsL, NoTerms, sampleSection, samplePara]

/-! ## C35: word count -/

/-- A word: no white space starts anywhere in it. -/
def IsWord (w : Str) : Prop := w ≠ [] ∧ ∀ a b, w = a ++ b → wsLen b = 0

/-- ASCII white space. -/
def IsBlank (b : UInt8) : Prop := b = c!" " ∨ b = c!"\n" ∨ b = c!"\t" ∨ b = c!"\r"

/-- Words, each followed by some white space, and a last word. -/
def wordsText : List (Str × Str) → Str → Str
  | [], last => last
  | (w, gap) :: rest, last => w ++ (gap ++ wordsText rest last)

private theorem wsLen_word (w r : Str) (c : UInt8) (hw : wsLen w = 0) (hne : w ≠ []) (hc : IsBlank c) :
    wsLen (w ++ c :: r) = 0 := by
  have hcases : c = 32 ∨ c = 10 ∨ c = 9 ∨ c = 13 := hc
  match w, hne with
  | [a], _ =>
    simp only [List.cons_append, List.nil_append]
    unfold wsLen at hw ⊢; split at hw <;> split <;> grind
  | [a, b], _ =>
    simp only [List.cons_append, List.nil_append]
    unfold wsLen at hw ⊢; split at hw <;> split <;> grind
  | a :: b :: d :: w, _ =>
    simp only [List.cons_append]
    unfold wsLen at hw ⊢; split at hw <;> split <;> grind

private theorem wsLen_blank (c : UInt8) (r : Str) (hc : IsBlank c) : wsLen (c :: r) = 1 := by
  rcases (hc : c = 32 ∨ c = 10 ∨ c = 9 ∨ c = 13) with rfl | rfl | rfl | rfl <;> simp [wsLen]

private theorem wordsF_word (w s : Str) (hs : s = [] ∨ ∃ c r, s = c :: r ∧ IsBlank c) (hw : ∀ a b, w = a ++ b → wsLen b = 0)
    (n : Nat) : wordsF (w.length + n) true (w ++ s) = wordsF n true s := by
  induction w with
  | nil => simp
  | cons x w ih =>
    have h0 : wsLen (x :: w ++ s) = 0 := by
      rcases hs with rfl | ⟨c, r, rfl, hc⟩
      · rw [List.append_nil]; exact hw [] _ rfl
      · exact wsLen_word _ r c (hw [] _ rfl) (by simp) hc
    rw [show (x :: w).length + n = (w.length + n) + 1 by simp; omega]
    simp only [List.cons_append] at h0 ⊢
    simp only [wordsF, h0, if_true]
    rw [ih (fun a b hab => hw (x :: a) b (by simp [hab]))]
    simp

private theorem wordsF_blank (gap s : Str) (hg : ∀ c ∈ gap, IsBlank c) (n : Nat) (w : Bool) :
    wordsF (gap.length + n) w (gap ++ s) = if gap = [] then wordsF n w s else wordsF n false s := by
  induction gap generalizing w with
  | nil => simp
  | cons c gap ih =>
    rw [show (c :: gap).length + n = (gap.length + n) + 1 by simp; omega]
    have h1 := wsLen_blank c (gap ++ s) (hg c (by simp))
    simp only [List.cons_append, wordsF, h1]
    simp only [Nat.one_ne_zero, if_false, List.drop_succ_cons, List.drop_zero]
    rw [ih (fun x hx => hg x (by simp [hx]))]
    by_cases hgap : gap = [] <;> simp [hgap]

private theorem wordsF_start (w s : Str) (hw : IsWord w) (hs : s = [] ∨ ∃ c r, s = c :: r ∧ IsBlank c) (n : Nat) :
    wordsF (w.length + n) false (w ++ s) = 1 + wordsF n true s := by
  match w, hw with
  | x :: w, hw =>
    have h0 : wsLen (x :: w ++ s) = 0 := by
      rcases hs with rfl | ⟨c, r, rfl, hc⟩
      · rw [List.append_nil]; exact hw.2 [] _ rfl
      · exact wsLen_word _ r c (hw.2 [] _ rfl) (by simp) hc
    rw [show (x :: w).length + n = (w.length + n) + 1 by simp; omega]
    simp only [List.cons_append] at h0 ⊢
    simp only [wordsF, h0, if_true]
    rw [wordsF_word w s hs (fun a b hab => hw.2 (x :: a) b (by simp [hab])) n]
    simp

private theorem words_count (l : List (Str × Str)) (last : Str) (hl : IsWord last)
    (h : ∀ x ∈ l, IsWord x.1 ∧ x.2 ≠ [] ∧ ∀ c ∈ x.2, IsBlank c) (n : Nat) (hn : 0 < n) :
    wordsF ((wordsText l last).length + n) false (wordsText l last) = l.length + 1 := by
  induction l with
  | nil =>
    have := wordsF_start last [] hl (.inl rfl) n
    rw [List.append_nil] at this
    simp only [wordsText]
    rw [this]
    match n, hn with
    | k + 1, _ => simp [wordsF]
  | cons x l ih =>
    obtain ⟨w, gap⟩ := x
    obtain ⟨hw, hg, hb⟩ := h (w, gap) (by simp)
    simp only [wordsText]
    rw [show (w ++ (gap ++ wordsText l last)).length + n = w.length + (gap.length + ((wordsText l last).length + n)) by
      simp; omega]
    rw [wordsF_start w _ hw ?_, wordsF_blank gap _ hb, if_neg hg, ih (fun x hx => h x (by simp [hx]))]
    · simp; omega
    · match gap, hg with
      | c :: g, _ => exact .inr ⟨c, _, rfl, hb c (by simp)⟩

/-- **C35, partial**: if the document's text is a sequence of words with white space between them, the word count is
the number of words. -/
theorem C35_words_partial (g : Asg) (l : List (Str × Str)) (last : Str) (hl : IsWord last)
    (h : ∀ x ∈ l, IsWord x.1 ∧ x.2 ≠ [] ∧ ∀ c ∈ x.2, IsBlank c) (ht : g.allText = wordsText l last) :
    g.wordCount = l.length + 1 := by
  unfold Asg.wordCount countWords
  rw [ht]
  exact words_count l last hl h 1 (by omega)

/-- A string of ASCII letters is a word. -/
theorem isWord_letters (w : Str) (hne : w ≠ []) (h : ∀ b ∈ w, 97 ≤ b ∧ b ≤ 122) : IsWord w := by
  refine ⟨hne, fun a b hab => ?_⟩
  match b with
  | [] => rfl
  | x :: r =>
    have hx := h x (by simp [hab])
    unfold wsLen; split <;> grind

example (g : Asg) (h : g.allText = b!"two words") : g.wordCount = 2 :=
  C35_words_partial g [(b!"two", b!" ")] b!"words" (isWord_letters _ (by simp) (by decide))
    (by intro x hx
        simp only [List.mem_cons, List.not_mem_nil, or_false] at hx
        subst hx
        exact ⟨isWord_letters _ (by simp) (by decide), by simp, by simp [IsBlank]⟩) h

/-- An empty document has no words. -/
theorem C35_empty (g : Asg) (h : g.allText = []) : g.wordCount = 0 := by
  unfold Asg.wordCount countWords; rw [h]; rfl

private theorem wsLen_append (a b : Str) (hne : a ≠ []) (hb : Starts b) : wsLen (a ++ b) = wsLen a := by
  match b, hb with
  | [], _ => rw [List.append_nil]
  | c :: r, hb =>
    have hc : isCont c = false := hb c (by simp)
    have hc' : c ≠ 0x85 ∧ c ≠ 0xA0 ∧ c ≠ 0x9A ∧ c ≠ 0x80 ∧ c ≠ 0x81 ∧ c ≠ 0x9F ∧ c ≠ 0xA8 ∧ c ≠ 0xA9 ∧ c ≠ 0xAF ∧ ¬ (0x80 ≤ c ∧ c ≤ 0x8A) := by
      refine ⟨?_, ?_, ?_, ?_, ?_, ?_, ?_, ?_, ?_, ?_⟩
      all_goals first
        | (rintro rfl; exact absurd hc (by decide))
        | skip
      rintro ⟨h1, h2⟩
      have h3 : c < 0xC0 := UInt8.lt_of_le_of_lt h2 (by decide)
      simp [isCont, h1, h3] at hc
    obtain ⟨n, hn⟩ : ∃ n, wsLen a = n := ⟨_, rfl⟩
    rw [hn]
    match a, hne, hn with
    | [x], _, hn =>
      simp only [List.cons_append, List.nil_append]
      unfold wsLen at hn ⊢; split at hn <;> split <;> grind
    | [x, y], _, hn =>
      simp only [List.cons_append, List.nil_append]
      unfold wsLen at hn ⊢; split at hn <;> split <;> grind
    | x :: y :: z :: w, _, hn =>
      simp only [List.cons_append]
      unfold wsLen at hn ⊢; split at hn <;> split <;> grind

private theorem wsLen_le (s : Str) : wsLen s ≤ s.length := by
  unfold wsLen; split <;> grind

/-- Enough fuel is enough. -/
private theorem wordsF_fuel : ∀ (n m : Nat) (w : Bool) (s : Str), s.length < n → s.length < m → wordsF n w s = wordsF m w s := by
  intro n
  induction n with
  | zero => intro m w s h; omega
  | succ n ih =>
    intro m w s hn hm
    match m, hm with
    | m + 1, hm =>
      match s with
      | [] => rfl
      | b :: bs =>
        simp only [List.length_cons] at hn hm
        simp only [wordsF]
        split
        · rw [ih m true bs (by omega) (by omega)]
        · refine ih m false _ ?_ ?_ <;> simp only [List.length_drop, List.length_cons] <;> omega

/-- The words of a text and those of what follows it, where the first word of the rest may go on with the last of the text. -/
private theorem wordsF_append (n : Nat) : ∀ (w : Bool) (a b : Str), Starts b → a.length < n →
    ∃ w', wordsF (n + b.length) w (a ++ b) = wordsF n w a + wordsF (b.length + 1) w' b := by
  induction n with
  | zero => intro w a b _ h; omega
  | succ n ih =>
    intro w a b hb hn
    match a with
    | [] =>
      refine ⟨w, ?_⟩
      rw [List.nil_append, show wordsF (n + 1) w [] = 0 from rfl, Nat.zero_add]
      exact wordsF_fuel _ _ _ _ (by omega) (by omega)
    | x :: a =>
      have hl := wsLen_append (x :: a) b (by simp) hb
      have hle := wsLen_le (x :: a)
      simp only [List.length_cons] at hn
      rw [show n + 1 + b.length = n + b.length + 1 by omega]
      simp only [List.cons_append] at hl ⊢
      simp only [wordsF, hl]
      split
      · obtain ⟨w', h⟩ := ih true a b hb (by omega)
        exact ⟨w', by rw [h]; omega⟩
      · rename_i h0
        rw [show (x :: (a ++ b)).drop (wsLen (x :: a)) = (x :: a).drop (wsLen (x :: a)) ++ b by
          rw [← List.cons_append, List.drop_append_of_le_length hle]]
        obtain ⟨w', h⟩ := ih false ((x :: a).drop (wsLen (x :: a))) b hb (by
          simp only [List.length_drop, List.length_cons]; omega)
        exact ⟨w', h⟩

private theorem wordsF_bool (n : Nat) : ∀ s : Str, wordsF n true s ≤ wordsF n false s ∧ wordsF n false s ≤ wordsF n true s + 1 := by
  intro s
  match n, s with
  | 0, _ => simp [wordsF]
  | _ + 1, [] => simp [wordsF]
  | n + 1, b :: bs =>
    simp only [wordsF]
    split <;> simp
    omega

/-- Two texts have as many words together as each for itself, or one less. -/
theorem countWords_append (a b : Str) (hb : Starts b) :
    countWords (a ++ b) ≤ countWords a + countWords b ∧ countWords a + countWords b ≤ countWords (a ++ b) + 1 := by
  obtain ⟨w', h⟩ := wordsF_append (a.length + 1) false a b hb (by omega)
  unfold countWords
  rw [show (a ++ b).length + 1 = a.length + 1 + b.length by simp; omega, h]
  have := wordsF_bool (b.length + 1) b
  cases w' <;> omega

private theorem starts_textL (bs : List Block) (h : ∀ b ∈ bs, Starts b.text) : Starts (Block.textL bs) := by
  induction bs with
  | nil => simp [Block.textL, Starts]
  | cons b bs ih =>
    simp only [Block.textL]
    cases ht : b.text with
    | nil => exact ih fun x hx => h x (by simp [hx])
    | cons c r =>
      have := h b (by simp)
      rw [ht] at this
      simpa [Starts] using this

/-- **C35, partial**, for every graph (no text of valid UTF-8 begins in the middle of a character): the count is at most the sum over the
blocks, and each block but the first takes away at most one word, which goes on with the last word before it. -/
theorem C35_sum_partial (g : Asg) (h : ∀ b ∈ g.blocks, Starts b.text) :
    g.wordCount ≤ (g.blocks.map fun b => countWords b.text).sum
      ∧ (g.blocks.map fun b => countWords b.text).sum ≤ g.wordCount + (g.blocks.length - 1) := by
  unfold Asg.wordCount Asg.allText
  revert h
  generalize g.blocks = bs
  intro h
  induction bs with
  | nil => exact ⟨Nat.le_refl _, Nat.le_refl _⟩
  | cons b bs ih =>
    have ih := ih fun x hx => h x (by simp [hx])
    have ha := countWords_append b.text (Block.textL bs) (starts_textL bs fun x hx => h x (by simp [hx]))
    simp only [Block.textL, List.map_cons, List.sum_cons, List.length_cons]
    cases bs with
    | nil =>
      simp only [Block.textL, List.append_nil, List.map_nil, List.sum_nil, List.length_nil] at *
      omega
    | cons c cs =>
      simp only [List.length_cons] at ih ⊢
      omega

/-- A graph with three paragraphs that meets the hypothesis: two words go on with a word before them. -/
example : let g := { Asg.new with blocks := [b!"one two", b!"three", b!"é four"].map fun t => Block.leaf .paragraph .paragraph none [.lit .text t []] none [] }
    (∀ b ∈ g.blocks, Starts b.text) ∧ g.wordCount = 3 ∧ (g.blocks.map fun b => countWords b.text).sum = 5 := by
  refine ⟨?_, by decide, by decide⟩
  intro b hb
  simp only [List.map_cons, List.map_nil, List.mem_cons, List.not_mem_nil, or_false] at hb
  rcases hb with rfl | rfl | rfl <;> simp [Block.text, Inline.textL, Inline.text, Starts] <;> decide

/-- The words of blocks are all counted if the text before each of them ends with a blank. -/
theorem C35_blank_end (a b : Str) (c : UInt8) (hc : IsBlank c) (hb : Starts b) : countWords (a ++ [c] ++ b) = countWords a + countWords b := by
  have key : ∀ (n : Nat) (w : Bool) (a : Str), a.length < n →
      wordsF (n + 1 + b.length) w (a ++ c :: b) = wordsF n w a + wordsF (b.length + 1) false b := by
    intro n
    induction n with
    | zero => intro w a h; omega
    | succ n ih =>
      intro w a hn
      have hs : Starts (c :: b) := by
        intro x hx
        simp only [List.head?_cons, Option.mem_def, Option.some.injEq] at hx
        subst hx
        rcases (hc : c = 32 ∨ c = 10 ∨ c = 9 ∨ c = 13) with rfl | rfl | rfl | rfl <;> decide
      match a with
      | [] =>
        rw [List.nil_append, show wordsF (n + 1) w [] = 0 from rfl, Nat.zero_add, show n + 1 + 1 + b.length = n + 1 + b.length + 1 by omega]
        simp only [wordsF, wsLen_blank c b hc, Nat.one_ne_zero, if_false, List.drop_succ_cons, List.drop_zero]
        exact wordsF_fuel _ _ _ _ (by omega) (by omega)
      | x :: a =>
        have hl := wsLen_append (x :: a) (c :: b) (by simp) hs
        have hle := wsLen_le (x :: a)
        simp only [List.length_cons] at hn
        rw [show n + 1 + 1 + b.length = n + 1 + b.length + 1 by omega]
        simp only [List.cons_append] at hl ⊢
        simp only [wordsF, hl]
        split
        · rw [ih true a (by omega)]; omega
        · rw [show (x :: (a ++ c :: b)).drop (wsLen (x :: a)) = (x :: a).drop (wsLen (x :: a)) ++ c :: b by
            rw [← List.cons_append, List.drop_append_of_le_length hle]]
          exact ih false _ (by simp only [List.length_drop, List.length_cons]; omega)
  unfold countWords
  rw [List.append_assoc, show (a ++ ([c] ++ b)).length + 1 = a.length + 1 + 1 + b.length by simp; omega]
  exact key (a.length + 1) false a (by omega)

/-- The count is not the sum over the blocks: two paragraphs of one word each count as one word. -/
theorem C35_adjacent : ∃ g : Asg, g.wordCount = 1 ∧ (g.blocks.map fun b => countWords b.text) = [1, 1] :=
  ⟨{ Asg.new with blocks := [.leaf .paragraph .paragraph none [.lit .text b!"foo" []] none [],
      .leaf .paragraph .paragraph none [.lit .text b!"bar" []] none []] }, by decide, by decide⟩

/-! ## C37: table metadata -/

/-- The line on which a block begins. -/
def startLine (b : Block) : Option Nat := b.locations.head?.map Location.line

/-- Number of blocks that begin on a line. -/
def onLine (line : Nat) (bs : List Block) : Nat := bs.countP fun b => startLine b = some line

private theorem line_eq (b : Block) (n : Nat) : b.line = .ok n ↔ startLine b = some n := by
  unfold Block.line startLine
  cases b.locations <;> simp

private theorem cellsOnLine_eq (n : Nat) (bs : List Block) : cellsOnLine n bs = onLine n bs := by
  unfold cellsOnLine onLine
  rw [← List.countP_eq_length_filter]
  apply List.countP_congr
  intro b _
  have := line_eq b n
  cases h : b.line with
  | ok k => rw [h] at this; simp only [Except.ok.injEq] at this; simp [this]
  | error e => rw [h] at this; simp at this; simp [this]

/-- The value of `cols` as it was written, if it was. -/
def explicitCols (m : Option Meta) : Option Str := m.bind fun m => m.attributes.get? b!"cols"

private theorem simplify_plain (m : Meta) (v : Str) (h : m.attributes.get? b!"cols" = some v) (hc : c!"," ∉ v)
    (hs : c!"*" ∉ v) (h2 : v.length = 2 → isBoundary v 1 = true) : m.simplifyCols = .ok m := by
  unfold Meta.simplifyCols
  have hcc : v.contains c!"," = false := by rw [← Bool.not_eq_true, List.contains_iff_mem]; exact hc
  simp only [h, hcc, Bool.false_eq_true, if_false]
  by_cases h3 : v.length = 2
  · rw [if_pos h3]
    have hb := h2 h3
    match v, h3 with
    | [x, y], _ =>
      have hy : y ≠ 42 := by intro h; subst h; simp at hs
      simp only [isBoundary] at hb
      simp at hb
      simp [sliceM, slice, isBoundary, hb, hy, bind, Except.bind]
      rfl
  · rw [if_neg h3]

private theorem natToStr_plain (n : Nat) : c!"," ∉ natToStr n ∧ c!"*" ∉ natToStr n
    ∧ ((natToStr n).length = 2 → isBoundary (natToStr n) 1 = true) := by
  refine ⟨fun h => ?_, fun h => ?_, fun h => ?_⟩
  · have := natToStr_digits n _ h; revert this; decide
  · have := natToStr_digits n _ h; revert this; decide
  · match e : natToStr n, h with
    | [x, y], _ =>
      have := natToStr_digits n y (by simp [e])
      simp only [isBoundary, isCont]
      simp only [isDigit, Bool.and_eq_true, decide_eq_true_eq] at this
      simp [UInt8.le_iff_toNat_le, UInt8.lt_iff_toNat_lt] at this ⊢
      omega

/-- **C37, partial**: when the first two cells are on one line, a table without an explicit `cols` gets as many columns
as there are cells on that line; and it is marked as having a header exactly if it was so marked before or its first
row is on the line after the opening delimiter. (The blank line that AsciiDoc asks for is not looked at, see
`C37_header_without_blank`.) -/
theorem C37_derived_partial (n : ParentName) (v : Option ParentVariant) (d : Str) (b0 b1 : Block) (bs : List Block)
    (t : List Inline) (m : Option Meta) (l0 : Location) (l : List Location) (line : Nat)
    (h0 : startLine b0 = some line) (h1 : startLine b1 = some line) (hx : explicitCols m = none) :
    ∃ mm, tableInfo (.parent n v d (b0 :: b1 :: bs) t m (l0 :: l))
        = .ok (.parent n v d (b0 :: b1 :: bs) t (some mm) (l0 :: l))
      ∧ mm.attributes.get? b!"cols" = some (natToStr (onLine line (b0 :: b1 :: bs)))
      ∧ (b!"header" ∈ mm.options ↔ b!"header" ∈ (m.getD {}).options ∨ line = l0.line + 1)
      ∧ mm.roles = (m.getD {}).roles := by
  have e0 := (line_eq b0 line).2 h0
  have e1 := (line_eq b1 line).2 h1
  have hp := natToStr_plain (cellsOnLine line (b0 :: b1 :: bs))
  unfold tableInfo
  simp only [e0, e1, liftB, bind, Except.bind, if_true]
  rw [← cellsOnLine_eq]
  generalize natToStr (cellsOnLine line (b0 :: b1 :: bs)) = cols at hp ⊢
  have hs : ∀ mm : Meta, (mm.setAttr b!"cols" cols).simplifyCols = .ok (mm.setAttr b!"cols" cols) := fun mm =>
    simplify_plain _ cols (by simp [Meta.setAttr, SMap.get?_insert]) hp.1 hp.2.1 hp.2.2
  have hg : ∀ mm : Meta, (mm.setAttr b!"cols" cols).attributes.get? b!"cols" = some cols := fun mm => by
    simp [Meta.setAttr, SMap.get?_insert]
  cases m with
  | none =>
    by_cases hl : line = l0.line + 1
    · have hn : (SMap.get? ([] : SMap Str) b!"cols") = none := rfl
      simp only [hl, if_true, Option.getD_none, hn, hs]
      exact ⟨_, rfl, hg _, by simp [Meta.setAttr], rfl⟩
    · simp only [hl, if_false, hs]
      exact ⟨_, rfl, hg _, by simp [Meta.setAttr], rfl⟩
  | some m0 =>
    have hn : m0.attributes.get? b!"cols" = none := hx
    by_cases hl : line = l0.line + 1
    · simp only [hl, if_true, Option.getD_some, hn, hs]
      exact ⟨_, rfl, hg _, by simp [Meta.setAttr], rfl⟩
    · simp only [hl, if_false, hn, hs]
      exact ⟨_, rfl, hg _, by simp [Meta.setAttr], rfl⟩

/-- **C37, partial**: an explicit column count without comma or star is kept. -/
theorem C37_explicit_partial (n : ParentName) (v : Option ParentVariant) (d : Str) (b0 b1 : Block) (bs : List Block)
    (t : List Inline) (m0 : Meta) (l0 : Location) (l : List Location) (x0 x1 : Nat) (cols : Nat)
    (h0 : startLine b0 = some x0) (h1 : startLine b1 = some x1)
    (hx : explicitCols (some m0) = some (natToStr cols)) :
    ∃ mm, tableInfo (.parent n v d (b0 :: b1 :: bs) t (some m0) (l0 :: l))
        = .ok (.parent n v d (b0 :: b1 :: bs) t (some mm) (l0 :: l))
      ∧ mm.attributes = m0.attributes ∧ mm.roles = m0.roles
      ∧ (b!"header" ∈ mm.options ↔ b!"header" ∈ m0.options ∨ (x0 = x1 ∧ x0 = l0.line + 1)) := by
  have e0 := (line_eq b0 x0).2 h0
  have e1 := (line_eq b1 x1).2 h1
  have hp := natToStr_plain cols
  have hn : m0.attributes.get? b!"cols" = some (natToStr cols) := hx
  have hs : ∀ mm : Meta, mm.attributes = m0.attributes → mm.simplifyCols = .ok mm := fun mm he =>
    simplify_plain _ _ (by rw [he]; exact hn) hp.1 hp.2.1 hp.2.2
  unfold tableInfo
  simp only [e0, e1, liftB, bind, Except.bind]
  by_cases hl : x0 = x1
  · subst hl
    by_cases hl2 : x0 = l0.line + 1
    · simp only [hl2, if_true, Option.getD_some, hn]
      rw [hs { m0 with options := m0.options ++ [b!"header"] } rfl]
      exact ⟨_, rfl, rfl, rfl, by simp⟩
    · simp only [hl2, if_false, if_true, hn]
      rw [hs _ rfl]
      exact ⟨_, rfl, rfl, rfl, by simp⟩
  · simp only [hl, if_false]
    rw [hs _ rfl]
    exact ⟨_, rfl, rfl, rfl, by simp⟩

/-- A cell at a line and column. -/
def cellAt (line col : Nat) : Block := .tableCell [] none [⟨line, col, []⟩, ⟨line, col + 1, []⟩]

example : startLine (cellAt 2 1) = some 2 ∧ explicitCols none = none
    ∧ explicitCols (some { attributes := [(b!"cols", b!"3")] }) = some (natToStr 3) := ⟨rfl, rfl, by decide⟩

/-- Two rows of two cells without a blank line between them: the first row is nevertheless taken as a header. -/
theorem C37_header_without_blank : ∃ mm, tableInfo (.parent .table none b!"|===\n"
      [cellAt 2 1, cellAt 2 3, cellAt 3 1, cellAt 3 3] [] none [⟨1, 1, []⟩, ⟨1, 4, []⟩])
      = .ok (.parent .table none b!"|===\n" [cellAt 2 1, cellAt 2 3, cellAt 3 1, cellAt 3 3] [] (some mm)
        [⟨1, 1, []⟩, ⟨1, 4, []⟩])
    ∧ b!"header" ∈ mm.options ∧ mm.attributes.get? b!"cols" = some b!"2" :=
  ⟨_, rfl, by decide, by decide⟩

/-- A table without attributes whose first two cells are on different lines ends the process. -/
theorem C37_exit : tableInfo (.parent .table none b!"|===\n" [cellAt 2 1, cellAt 3 1] [] none [⟨1, 1, []⟩])
    = .error .exit := rfl

end Adoc.Props
