import Verif.Spec.Covers
import Verif.Proof.ParserInv
import Verif.Props.Parser
/-!
# C78: locations of top-level blocks and of the document
-/
namespace Adoc.Props
open Spec Block

theorem reconcile_ne {l o : List Location} (h : o ≠ []) : reconcile l o ≠ [] := by
  cases l with
  | nil =>
    cases o with
    | nil => exact absurd rfl h
    | cons x o =>
      cases o with
      | nil => simp [reconcile, sortLocs, insertLoc]
      | cons y o =>
        obtain ⟨a, b, h', _⟩ := C12_bounds [] (x :: y :: o) (by simp) (by simp)
        rw [h']; simp
  | cons x l =>
    obtain ⟨a, b, h', _⟩ := C13_covers (x :: l) o (by simp) h
    rw [h']; simp

theorem covers_right (l o : List Location) : Covers (reconcile l o) o := by
  cases o with
  | nil => exact fun _ h => by cases h
  | cons z o =>
    by_cases h2 : 2 ≤ l.length + (z :: o).length
    · obtain ⟨x, y, h, _, _, hz⟩ := C12_bounds l (z :: o) (by simp) h2
      intro z' hz'
      rw [h]
      have := hz z' (by simp only [List.mem_append]; exact .inr hz')
      exact ⟨⟨x, rfl, this.1⟩, y, rfl, this.2⟩
    · simp only [List.length_cons] at h2
      have : l = [] := List.length_eq_zero_iff.1 (by omega)
      have : o = [] := List.length_eq_zero_iff.1 (by omega)
      subst_vars
      intro z' hz'
      simp at hz'; subst hz'
      exact ⟨⟨z', rfl, before_refl _⟩, z', rfl, before_refl _⟩

/-- Reconciling keeps what is covered. -/
theorem Covers_more {l o : List Location} (h : Covers l o) (o' : List Location) : Covers (reconcile l o') o := by
  intro z hz
  obtain ⟨⟨x, hx, hxz⟩, y, hy, hzy⟩ := h z hz
  cases o' with
  | nil => exact ⟨⟨x, hx, hxz⟩, y, hy, hzy⟩
  | cons a o' =>
    have hl : l ≠ [] := by rintro rfl; cases hx
    obtain ⟨x', y', h', hc⟩ := C13_covers l (a :: o') hl (by simp)
    rw [h']
    exact ⟨⟨x', rfl, before_trans (hc x (.inl (List.mem_of_mem_head? hx))).1 hxz⟩, y', rfl,
      before_trans hzy (hc y (.inl (List.mem_of_getLast? hy))).2⟩

theorem covers_nil (l : List Location) : Covers l [] := fun _ h => by cases h

theorem covers_inlines (l : List Location) (is : List Inline) : Covers (recInlines l is) (lastInline is) := by
  unfold recInlines lastInline
  split
  · rename_i h; rw [h]; exact covers_right _ _
  · rename_i h; rw [h]; exact covers_nil _

theorem covers_blocks (l : List Location) (bs : List Block) : Covers (recBlocks l bs) (lastBlock bs) := by
  unfold recBlocks lastBlock
  split
  · rename_i h; rw [h]; exact covers_right _ _
  · rename_i h; rw [h]; exact covers_nil _

theorem Covers_blocks {l o : List Location} (h : Covers l o) (bs : List Block) : Covers (recBlocks l bs) o := by
  unfold recBlocks
  split
  · exact Covers_more h _
  · exact h

mutual
/-- **C78**: after consolidation a block covers the last of its contents. -/
theorem C78_consolidate : ∀ b : Block, CoversLast b.consolidate
  | .section .. => by simp only [consolidate, CoversLast]; exact ⟨Covers_blocks (covers_inlines _ _) _, covers_blocks _ _⟩
  | .leaf .. => by simp only [consolidate, CoversLast]; exact covers_inlines _ _
  | .tableCell .. => by simp only [consolidate, CoversLast]; exact covers_inlines _ _
  | .list v bs m l => by simp only [consolidate, CoversLast]; exact ⟨covers_blocks _ _, C78_consolidateL bs⟩
  | .dlist bs m l => by simp only [consolidate, CoversLast]; exact ⟨covers_blocks _ _, C78_consolidateL bs⟩
  | .listItem .. => by
    simp only [consolidate, CoversLast]
    split
    · exact covers_inlines _ _
    · exact covers_blocks _ _
  | .dlistItem .. => by
    simp only [consolidate, CoversLast]
    split
    · exact covers_inlines _ _
    · exact covers_blocks _ _
  | .parent .. => by simp only [consolidate, CoversLast]; exact covers_blocks _ _
  | .brk .. => trivial
  | .image .. => trivial
theorem C78_consolidateL : ∀ bs : List Block, AllCoverLast (consolidateL bs)
  | [] => trivial
  | b :: bs => ⟨C78_consolidate b, C78_consolidateL bs⟩
end

theorem all_mem {bs : List Block} : AllCoverLast bs ↔ ∀ b ∈ bs, CoversLast b := by
  induction bs with
  | nil => simp [AllCoverLast]
  | cons b bs ih => simp [AllCoverLast, ih]

/-- Adding a block consolidates. -/
theorem pushed_covers {a b c : Block} (h : a.pushBlock b = .ok c) : CoversLast c := by
  cases a <;> unfold Block.pushBlock at h
  case «section» =>
    split at h
    · simp only [bind, Except.bind] at h
      split at h
      · cases h
      · cases h; exact C78_consolidate _
    · cases h; exact C78_consolidate _
  case parent =>
    split at h
    · simp only [bind, Except.bind] at h
      split at h
      · cases h
      · cases h; exact C78_consolidate _
    · split at h
      · cases h
      · cases h; exact C78_consolidate _
  all_goals cases h
  all_goals exact C78_consolidate _

theorem sectionL_push {x : Block} (hx : CoversLast x) : ∀ {bs r : List Block}, AllCoverLast bs → pushSectionL bs x = .ok r → AllCoverLast r
  | [], r, _, h => by
    simp only [pushSectionL, Except.ok.injEq] at h
    subst h
    exact ⟨hx, trivial⟩
  | [b], r, hb, h => by
    unfold pushSectionL at h
    split at h
    · rename_i ht
      simp only [bind, Except.bind] at h
      split at h
      · cases h
      · rename_i r hr
        cases h
        exact ⟨pushed_covers hr, trivial⟩
    · cases h
      exact ⟨hb.1, hx, trivial⟩
  | b :: b' :: bs, r, hb, h => by
    unfold pushSectionL at h
    simp only [bind, Except.bind] at h
    split at h
    · cases h
    · rename_i r' hr
      cases h
      exact ⟨hb.1, sectionL_push hx hb.2 hr⟩

theorem steps_cover {g g' : Asg} (h : Steps (fun _ => True) g g') (hg : AllCoverLast g.blocks) :
    AllCoverLast g'.blocks ∧ g'.loc = g.loc := by
  induction h with
  | refl => exact ⟨hg, rfl⟩
  | header _ ih => exact ih
  | push _ _ hp ih =>
    unfold Asg.pushBlock at hp
    simp only at hp
    split at hp
    · simp only [bind, Except.bind] at hp
      split at hp
      · cases hp
      · rename_i bs hbs
        cases hp
        exact ⟨sectionL_push (C78_consolidate _) ih.1 hbs, ih.2⟩
    · cases hp
      exact ⟨all_mem.2 fun b hb => by
        rcases List.mem_append.1 hb with hb | hb
        · exact all_mem.1 ih.1 b hb
        · simp at hb; subst hb; exact C78_consolidate _, ih.2⟩

theorem resolveXref_locations (h : SMap (List Inline)) (x : Inline) : (x.resolveXref h).locations = x.locations := by
  unfold Inline.resolveXref
  split <;> rfl

theorem lastInline_map {f : Inline → Inline} (hf : ∀ i, (f i).locations = i.locations) (is : List Inline) :
    lastInline (is.map f) = lastInline is := by
  unfold lastInline
  rw [List.getLast?_map]
  cases is.getLast? with
  | none => rfl
  | some i => exact hf i

theorem mapInlines_locations (f : Inline → Inline) (b : Block) : (b.mapInlines f).locations = b.locations := by
  cases b <;> rfl

theorem mapInlinesL_eq (f : Inline → Inline) (bs : List Block) : mapInlinesL f bs = bs.map (mapInlines f) := by
  induction bs with
  | nil => rfl
  | cons b bs ih => simp [mapInlinesL, ih]

theorem lastBlock_map (f : Inline → Inline) (bs : List Block) : lastBlock (mapInlinesL f bs) = lastBlock bs := by
  unfold lastBlock
  rw [mapInlinesL_eq, List.getLast?_map]
  cases bs.getLast? with
  | none => rfl
  | some i => exact mapInlines_locations f i

mutual
theorem mapInlines_covers {f : Inline → Inline} (hf : ∀ i, (f i).locations = i.locations) : ∀ {b : Block}, CoversLast b → CoversLast (b.mapInlines f)
  | .section .., h => by simpa only [mapInlines, CoversLast, lastInline_map hf, lastBlock_map] using h
  | .leaf .., h => by simpa only [mapInlines, CoversLast, lastInline_map hf] using h
  | .tableCell .., h => by simpa only [mapInlines, CoversLast, lastInline_map hf] using h
  | .list .., h => by
    simp only [mapInlines, CoversLast, lastBlock_map] at h ⊢
    exact ⟨h.1, mapInlinesL_covers hf h.2⟩
  | .dlist .., h => by
    simp only [mapInlines, CoversLast, lastBlock_map] at h ⊢
    exact ⟨h.1, mapInlinesL_covers hf h.2⟩
  | .listItem .., h => by
    simp only [mapInlines, CoversLast, lastInline_map hf, mapInlinesL_eq, List.isEmpty_map] at h ⊢
    rw [← mapInlinesL_eq, lastBlock_map]
    exact h
  | .dlistItem .., h => by
    simp only [mapInlines, CoversLast, lastInline_map hf, mapInlinesL_eq, List.isEmpty_map] at h ⊢
    rw [← mapInlinesL_eq, lastBlock_map]
    exact h
  | .parent .., h => by simpa only [mapInlines, CoversLast, lastBlock_map] using h
  | .brk .., _ => trivial
  | .image .., _ => trivial
theorem mapInlinesL_covers {f : Inline → Inline} (hf : ∀ i, (f i).locations = i.locations) : ∀ {bs : List Block}, AllCoverLast bs → AllCoverLast (mapInlinesL f bs)
  | [], _ => trivial
  | _ :: _, h => ⟨mapInlines_covers hf h.1, mapInlinesL_covers hf h.2⟩
end

theorem good_true : Good fun _ => True := ⟨fun _ _ _ => trivial, fun _ _ _ _ => trivial, fun _ _ _ _ _ => trivial, fun _ _ _ _ _ _ _ => trivial⟩

/-- **C78**: in every parsed document, whatever it contains, each top-level block covers the last of its contents. -/
theorem C78_blocks (w : World) (fuel : Nat) (items : List Item) {p q : Parser} (hp : p = Parser.new ∨ p = Parser.newNoTargets)
    (h : Parser.parse w fuel items p = .ok q) : ∀ b ∈ q.asg.blocks, CoversLast b := by
  obtain ⟨r, hr, rfl⟩ := parse_rel good_true w fuel items p q h
  have h0 : p.blocks = [] ∧ p.asg = Asg.new := by rcases hp with rfl | rfl <;> exact ⟨rfl, rfl⟩
  obtain ⟨_, hs, _⟩ := hr (by rw [h0.1]; exact ⟨fun _ _ => trivial, trivial⟩)
  rw [h0.2] at hs
  have := (steps_cover hs trivial).1
  apply all_mem.1
  refine mapInlinesL_covers (resolveXref_locations _) ?_
  show AllCoverLast r.asg.consolidateLocations.blocks
  unfold Asg.consolidateLocations
  split
  · exact this
  · split <;> exact this

/-- **C78**: the location of every parsed document begins not after 1:1, and covers its last block; if it has only a header, that. -/
theorem C78_document (w : World) (fuel : Nat) (items : List Item) {p q : Parser} (hp : p = Parser.new ∨ p = Parser.newNoTargets)
    (h : Parser.parse w fuel items p = .ok q) :
    Covers q.asg.loc [⟨1, 1, []⟩] ∧ Covers q.asg.loc (lastBlock q.asg.blocks) ∧
    (q.asg.blocks = [] → ∀ h ∈ q.asg.header, Covers q.asg.loc h.loc) := by
  obtain ⟨r, hr, rfl⟩ := parse_rel good_true w fuel items p q h
  have h0 : p.blocks = [] ∧ p.asg = Asg.new := by rcases hp with rfl | rfl <;> exact ⟨rfl, rfl⟩
  obtain ⟨_, hs, _⟩ := hr (by rw [h0.1]; exact ⟨fun _ _ => trivial, trivial⟩)
  rw [h0.2] at hs
  have hl := (steps_cover hs trivial).2
  have h1 : Covers r.asg.loc [⟨1, 1, []⟩] := by
    rw [hl]
    intro z hz
    simp at hz; subst hz
    exact ⟨⟨_, rfl, before_refl _⟩, _, rfl, before_refl _⟩
  simp only [Asg.consolidate, Asg.consolidateXrefs]
  rw [lastBlock_map]
  unfold Asg.consolidateLocations
  split
  · rename_i b hb
    refine ⟨Covers_more h1 _, ?_, ?_⟩
    · simp only [lastBlock, hb]
      exact covers_right _ _
    · intro hn
      have : r.asg.blocks = [] := by simpa [mapInlinesL_eq] using hn
      rw [this] at hb; cases hb
  · rename_i hb
    have hb : r.asg.blocks = [] := List.getLast?_eq_none_iff.1 hb
    split
    · rename_i hd hh
      refine ⟨Covers_more h1 _, ?_, ?_⟩
      · simp only [lastBlock, hb]
        exact covers_nil _
      · intro _ h' hh'
        rw [hh] at hh'; cases hh'
        exact covers_right _ _
    · rename_i hh
      refine ⟨h1, ?_, ?_⟩
      · simp only [lastBlock, hb]
        exact covers_nil _
      · intro _ h' hh'
        rw [hh] at hh'; cases hh'

/-- Lines and columns of a location. -/
def lineCols (l : List Location) : List (Nat × Nat) := l.map fun a => (a.line, a.col)

-- the list begins at its first marker and ends with the last block of its last item
example : returns ((parseText emptyWorld 5 b!"= T\n\na *b*\n\n* c\n* d\n+\ne\n").map fun g =>
      (lineCols g.loc, g.blocks.map fun b => lineCols b.locations))
    ([(1, 1), (8, 1)], [[(3, 1), (3, 5)], [(5, 1), (8, 1)]]) = true := by decide +kernel
-- only a header
example : returns ((parseText emptyWorld 5 b!"= T\n").map fun g => (lineCols g.loc, g.blocks.length)) ([(1, 1), (1, 3)], 0) = true := by
  decide +kernel
example : ¬ Covers [⟨1, 1, []⟩] [⟨2, 1, []⟩] := by
  intro h
  obtain ⟨_, y, hy, h⟩ := h _ (List.mem_singleton.2 rfl)
  cases hy
  revert h; decide

/-- **C78** is false of blocks in a section, and of the document then: the paragraph, and with it the section and the document,
ends in column 2, before `*b*`. -/
theorem C78_in_section : returns ((parseText emptyWorld 5 b!"== H\n\na *b*\n").map fun g =>
      lineCols g.loc :: g.blocks.flatMap fun b => lineCols b.locations :: b.children.map fun c => lineCols c.locations)
    [[(1, 1), (3, 2)], [(1, 1), (3, 2)], [(3, 1), (3, 2)]] = true := by decide +kernel

/-- **C78** is false of other blocks than the last: the second item after a block continuation is outside the list and before it, and the
document ends before it. -/
theorem C78_not_last : returns ((parseText emptyWorld 5 b!"* a\n+\nb\n* c\n").map fun g =>
      lineCols g.loc :: g.blocks.flatMap fun b => lineCols b.locations :: b.children.map fun c => lineCols c.locations)
    [[(1, 1), (4, 2)], [(4, 3), (4, 3)], [(1, 1), (4, 2)], [(1, 1), (3, 1)], [(4, 1), (4, 2)]] = true := by decide +kernel

end Adoc.Props
