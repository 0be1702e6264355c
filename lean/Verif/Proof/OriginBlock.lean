import Verif.Proof.Origin
/-!
# Origins: blocks and graphs
-/
namespace Adoc.Origin

open Block

section
variable {av : UInt8 → Prop}

theorem everyBs_mem {bs : List Block} : EveryBs av bs ↔ ∀ b ∈ bs, EveryB av b := by
  induction bs with
  | nil => simp [EveryBs]
  | cons i is ih => simp [EveryBs, ih]

theorem everyBs_nil : EveryBs av [] := by simp [EveryBs]
theorem everyBs_cons {b : Block} {bs : List Block} : EveryBs av (b :: bs) ↔ EveryB av b ∧ EveryBs av bs := by simp [EveryBs]
theorem everyBs_one {b : Block} : EveryBs av [b] ↔ EveryB av b := by simp [EveryBs]
theorem everyBs_append {a b : List Block} : EveryBs av (a ++ b) ↔ EveryBs av a ∧ EveryBs av b := by
  simp only [everyBs_mem, List.mem_append]
  exact ⟨fun h => ⟨fun i hi => h i (.inl hi), fun i hi => h i (.inr hi)⟩, fun h i hi => hi.elim (h.1 i) (h.2 i)⟩
theorem everyBs_reverse {a : List Block} : EveryBs av a.reverse ↔ EveryBs av a := by simp [everyBs_mem]
theorem everyBs_sub {a b : List Block} (h : EveryBs av b) (hs : a ⊆ b) : EveryBs av a :=
  everyBs_mem.2 fun i hi => everyBs_mem.1 h i (hs hi)

theorem everyB_iff (b : Block) : EveryB av b ↔ NodeB av b ∧ EveryBs av b.children := by
  cases b <;> simp [EveryB, children, EveryBs]

mutual
theorem consolidate_ok : ∀ {b : Block}, EveryB av b → EveryB av b.consolidate
  | .section .., h => by simpa only [consolidate, EveryB, NodeB] using h
  | .leaf .., h => by simpa only [consolidate, EveryB, NodeB] using h
  | .list v bs m l, h => by
    simp only [consolidate, EveryB, NodeB] at h ⊢
    exact ⟨h.1, consolidateL_ok h.2⟩
  | .dlist bs m l, h => by
    simp only [consolidate, EveryB, NodeB] at h ⊢
    exact ⟨h.1, consolidateL_ok h.2⟩
  | .listItem .., h => by simpa only [consolidate, EveryB, NodeB] using h
  | .dlistItem .., h => by simpa only [consolidate, EveryB, NodeB] using h
  | .parent .., h => by simpa only [consolidate, EveryB, NodeB] using h
  | .tableCell .., h => by simpa only [consolidate, EveryB, NodeB] using h
  | .brk .., h => by simpa only [consolidate, EveryB, NodeB] using h
  | .image .., h => by simpa only [consolidate, EveryB, NodeB] using h
theorem consolidateL_ok : ∀ {bs : List Block}, EveryBs av bs → EveryBs av (consolidateL bs)
  | [], h => by simpa only [consolidateL] using h
  | b :: bs, h => by
    simp only [consolidateL, EveryBs] at h ⊢
    exact ⟨consolidate_ok h.1, consolidateL_ok h.2⟩
end

theorem pushInline_ok {b c : Block} {i : Inline} (h : EveryB av b) (hi : EveryI av i) (hc : b.pushInline i = .ok c) : EveryB av c := by
  have h1 : EveryIs av [i] := everyIs_cons.2 ⟨hi, everyIs_nil⟩
  cases b <;> simp only [Block.pushInline, reduceCtorEq, Except.ok.injEq] at hc <;> subst hc <;>
    simp only [EveryB, NodeB, everyIs_append] at h ⊢ <;> grind

theorem pushIntoLastList_ok {item : Block} (hi : EveryB av item) : ∀ {bs r : List Block}, EveryBs av bs → pushIntoLastList item bs = .ok r → EveryBs av r
  | [], r, _, h => by simp [pushIntoLastList] at h
  | [b], r, hb, h => by
    cases b <;> simp only [pushIntoLastList, reduceCtorEq, Except.ok.injEq] at h
    subst h
    rw [everyBs_one] at hb ⊢
    simp only [EveryB] at hb
    apply consolidate_ok
    apply consolidate_ok
    exact ⟨hb.1, everyBs_append.2 ⟨hb.2, everyBs_one.2 hi⟩⟩
  | b :: b' :: bs, r, hb, h => by
    unfold pushIntoLastList at h
    simp only [bind, Except.bind] at h
    split at h
    · cases h
    · rename_i r' hr
      cases h
      rw [everyBs_cons] at hb ⊢
      exact ⟨hb.1, pushIntoLastList_ok hi hb.2 hr⟩

mutual
theorem pushBlock_ok {x c : Block} (hx : EveryB av x) : ∀ {b : Block}, EveryB av b → b.pushBlock x = .ok c → EveryB av c
  | .section t m v bs l, hb, h => by
    unfold Block.pushBlock at h
    simp only [EveryB] at hb
    split at h
    · simp only [bind, Except.bind] at h
      split at h
      · cases h
      · rename_i r hr
        cases h
        exact consolidate_ok ⟨hb.1, pushSectionL_ok hx hb.2 hr⟩
    · cases h
      exact consolidate_ok ⟨hb.1, everyBs_append.2 ⟨hb.2, everyBs_one.2 hx⟩⟩
  | .list .., hb, h => by
    simp only [Block.pushBlock, Except.ok.injEq] at h
    subst h
    simp only [EveryB] at hb
    exact consolidate_ok ⟨hb.1, everyBs_append.2 ⟨hb.2, everyBs_one.2 hx⟩⟩
  | .dlist .., hb, h => by
    simp only [Block.pushBlock, Except.ok.injEq] at h
    subst h
    simp only [EveryB] at hb
    exact consolidate_ok ⟨hb.1, everyBs_append.2 ⟨hb.2, everyBs_one.2 hx⟩⟩
  | .listItem .., hb, h => by
    simp only [Block.pushBlock, Except.ok.injEq] at h
    subst h
    simp only [EveryB] at hb
    exact consolidate_ok ⟨hb.1, everyBs_append.2 ⟨hb.2, everyBs_one.2 hx⟩⟩
  | .dlistItem .., hb, h => by
    simp only [Block.pushBlock, Except.ok.injEq] at h
    subst h
    simp only [EveryB] at hb
    exact consolidate_ok ⟨hb.1, everyBs_append.2 ⟨hb.2, everyBs_one.2 hx⟩⟩
  | .parent n v d bs t m l, hb, h => by
    unfold Block.pushBlock at h
    simp only [EveryB] at hb
    split at h
    · simp only [bind, Except.bind] at h
      split at h
      · cases h
      · rename_i r hr
        cases h
        exact consolidate_ok ⟨hb.1, pushIntoLastList_ok hx hb.2 hr⟩
    · split at h
      · cases h
      · cases h
        exact consolidate_ok ⟨hb.1, everyBs_append.2 ⟨hb.2, everyBs_one.2 hx⟩⟩
  | .brk .., _, h => by simp [Block.pushBlock] at h
  | .image .., _, h => by simp [Block.pushBlock] at h
  | .leaf .., _, h => by simp [Block.pushBlock] at h
  | .tableCell .., _, h => by simp [Block.pushBlock] at h
theorem pushSectionL_ok {x : Block} (hx : EveryB av x) : ∀ {bs r : List Block}, EveryBs av bs → pushSectionL bs x = .ok r → EveryBs av r
  | [], r, _, h => by
    simp only [pushSectionL, Except.ok.injEq] at h
    subst h
    exact everyBs_one.2 hx
  | [b], r, hb, h => by
    rw [everyBs_one] at hb
    unfold pushSectionL at h
    split at h
    · simp only [bind, Except.bind] at h
      split at h
      · cases h
      · rename_i r hr
        cases h
        exact everyBs_one.2 (pushBlock_ok hx hb hr)
    · cases h
      exact everyBs_cons.2 ⟨hb, everyBs_one.2 hx⟩
  | b :: b' :: bs, r, hb, h => by
    unfold pushSectionL at h
    simp only [bind, Except.bind] at h
    split at h
    · cases h
    · rename_i r' hr
      cases h
      rw [everyBs_cons] at hb ⊢
      exact ⟨hb.1, pushSectionL_ok hx hb.2 hr⟩
end

theorem MetaOk.empty (h : Alt av metaMarks) : MetaOk av {} := (MetaI.new rfl rfl rfl rfl h).1

theorem tableInfo_ok {b : Block} (h : EveryB av b) (ht : b.isTable = true) : Ok b.tableInfo (EveryB av) := by
  unfold tableInfo
  split
  · rename_i n v d bs t m l
    have hn : n = .table := by simpa [isTable] using ht
    subst hn
    simp only [EveryB, NodeB] at h
    obtain ⟨⟨h1, h2, h3⟩, h4⟩ := h
    have hm : Alt av metaMarks := ⟨b!"|=", by simp [metaMarks], alt_single h1⟩
    have hd : MetaOk av (m.getD {}) := by
      cases m with
      | none => exact .empty hm
      | some m => exact h3
    split
    · rename_i b0 b1 rest
      refine .bind' fun first _ => .bind' fun second _ => ?_
      have fin' : ∀ mm, MetaOk? av mm → Ok (match mm with
          | none => (.error .exit : M Block)
          | some mm => do
            let mm' ← mm.simplifyCols
            return .parent .table v d (b0 :: b1 :: rest) t (some mm') l) (EveryB av) := by
        intro mm hmm
        split
        · exact .error
        · exact .bind hmm.simplifyCols fun r hr => .pure ⟨⟨h1, h2, hr⟩, h4⟩
      refine .ite (fun _ => ?_) fun _ => fin' m h3
      split
      · exact .error
      · rename_i l0 _
        refine fin' _ ?_
        have h5 : MetaOk? av (if first = l0.line + 1 then
            some { (m.getD {}) with options := (m.getD {}).options ++ [b!"header"] } else m) := by
          split
          · refine ⟨hd.values, hd.roles, ?_, hd.quote, hd.marks, hd.once⟩
            intro o ho
            rcases List.mem_append.1 ho with ho | ho
            · exact hd.options o ho
            · simpa using ho
          · exact h3
        split
        · rename_i mm hmm
          rw [hmm] at h5
          split
          · exact h5
          · exact MetaOk.setAttr h5 _ (okS_const (natToStr_added _))
        · exact (MetaOk.empty hm).setAttr _ (okS_const (natToStr_added _))
    · exact .pure ⟨⟨h1, h2, h3⟩, h4⟩
  · exact .error

theorem title_ok {b : Block} (h : EveryB av b) : EveryIs av (b.title.getD []) := by
  cases b <;> simp only [EveryB, NodeB] at h <;> simp [title, everyIs_nil, h]

theorem ownId_ok {b : Block} (h : EveryB av b) : ∀ kv ∈ b.ownId, EveryIs av kv.2 := by
  unfold ownId
  split
  · intro kv hkv
    simp at hkv
    subst hkv
    exact title_ok h
  · intro _ h; cases h

mutual
theorem idHashes_ok : ∀ {b : Block}, EveryB av b → ∀ kv ∈ b.idHashes, EveryIs av kv.2
  | .section .., h => by simp only [idHashes]; exact extend_val (ownId_ok h) (idHashesL_ok ((everyB_iff _).1 h).2)
  | .parent .., h => by simp only [idHashes]; exact extend_val (ownId_ok h) (idHashesL_ok ((everyB_iff _).1 h).2)
  | .list .., h => by simp only [idHashes]; exact extend_val (ownId_ok h) (idHashesL_ok ((everyB_iff _).1 h).2)
  | .dlist .., h => by simp only [idHashes]; exact extend_val (ownId_ok h) (idHashesL_ok ((everyB_iff _).1 h).2)
  | .listItem .., h => by simp only [idHashes]; exact extend_val (ownId_ok h) (idHashesL_ok ((everyB_iff _).1 h).2)
  | .dlistItem .., h => by simp only [idHashes]; exact extend_val (ownId_ok h) (idHashesL_ok ((everyB_iff _).1 h).2)
  | .brk .., h => by simp only [idHashes]; exact ownId_ok h
  | .image .., h => by simp only [idHashes]; exact ownId_ok h
  | .leaf .., h => by simp only [idHashes]; exact ownId_ok h
  | .tableCell .., h => by simp only [idHashes]; exact ownId_ok h
theorem idHashesL_ok : ∀ {bs : List Block}, EveryBs av bs → ∀ kv ∈ idHashesL bs, EveryIs av kv.2
  | [], _ => by simp only [idHashesL]; intro _ h; cases h
  | b :: bs, h => by
    rw [everyBs_cons] at h
    simp only [idHashesL]
    exact extend_val (idHashes_ok h.1) (idHashesL_ok h.2)
end

theorem everyIs_map {f : Inline → Inline} (hf : ∀ i, EveryI av i → EveryI av (f i)) {is : List Inline} (h : EveryIs av is) : EveryIs av (is.map f) := by
  rw [everyIs_mem] at h ⊢
  intro i hi
  obtain ⟨j, hj, rfl⟩ := List.mem_map.1 hi
  exact hf j (h j hj)

mutual
theorem mapInlines_ok {f : Inline → Inline} (hf : ∀ i, EveryI av i → EveryI av (f i)) : ∀ {b : Block}, EveryB av b → EveryB av (b.mapInlines f)
  | .section .., h => by
    simp only [mapInlines, EveryB, NodeB] at h ⊢
    exact ⟨⟨h.1.1, everyIs_map hf h.1.2.1, h.1.2.2⟩, mapInlinesL_ok hf h.2⟩
  | .parent .., h => by
    simp only [mapInlines, EveryB, NodeB] at h ⊢
    exact ⟨⟨h.1.1, everyIs_map hf h.1.2.1, h.1.2.2⟩, mapInlinesL_ok hf h.2⟩
  | .list .., h => by
    simp only [mapInlines, EveryB, NodeB] at h ⊢
    exact ⟨h.1, mapInlinesL_ok hf h.2⟩
  | .dlist .., h => by
    simp only [mapInlines, EveryB, NodeB] at h ⊢
    exact ⟨h.1, mapInlinesL_ok hf h.2⟩
  | .listItem .., h => by
    simp only [mapInlines, EveryB, NodeB] at h ⊢
    exact ⟨⟨h.1.1, h.1.2.1, everyIs_map hf h.1.2.2.1, h.1.2.2.2⟩, mapInlinesL_ok hf h.2⟩
  | .dlistItem .., h => by
    simp only [mapInlines, EveryB, NodeB] at h ⊢
    exact ⟨⟨h.1.1, h.1.2.1, everyIs_map hf h.1.2.2.1, h.1.2.2.2⟩, mapInlinesL_ok hf h.2⟩
  | .leaf .., h => by
    simp only [mapInlines, EveryB, NodeB] at h ⊢
    exact ⟨h.1, everyIs_map hf h.2.1, h.2.2⟩
  | .tableCell .., h => by
    simp only [mapInlines, EveryB, NodeB] at h ⊢
    exact ⟨h.1, everyIs_map hf h.2.1, h.2.2⟩
  | .brk .., h => by simpa only [mapInlines] using h
  | .image .., h => by simpa only [mapInlines] using h
theorem mapInlinesL_ok {f : Inline → Inline} (hf : ∀ i, EveryI av i → EveryI av (f i)) : ∀ {bs : List Block}, EveryBs av bs → EveryBs av (mapInlinesL f bs)
  | [], _ => by simp only [mapInlinesL]; exact everyBs_nil
  | b :: bs, h => by
    rw [everyBs_cons] at h
    simp only [mapInlinesL]
    exact everyBs_cons.2 ⟨mapInlines_ok hf h.1, mapInlinesL_ok hf h.2⟩
end

theorem addMeta_ok {b : Block} {m : Meta} (h : EveryB av b) (hm : MetaOk av m) : Ok (b.addMeta m) (EveryB av) := by
  have hm' : MetaOk? av (some m) := hm
  unfold addMeta
  refine .ite (fun _ => .pure h) fun _ => ?_
  cases b <;> simp only <;> first | exact .error | (refine .pure ?_; simp only [EveryB, NodeB] at h ⊢; grind)

theorem addLocations_ok {b : Block} {l : List Location} (h : EveryB av b) : Ok (b.addLocations l) (EveryB av) := by
  unfold addLocations
  split
  · exact .pure h
  · exact .error

theorem graphPush_ok {g g' : Asg} {b : Block} (hg : EveryG av g) (hb : EveryB av b) (h : g.pushBlock b = .ok g') : EveryG av g' := by
  have hc := consolidate_ok hb
  have hh := extend_val hg.ids (idHashes_ok hc)
  unfold Asg.pushBlock at h
  simp only at h
  split at h
  · simp only [bind, Except.bind] at h
    split at h
    · cases h
    · rename_i bs hbs
      cases h
      exact ⟨hg.header, hg.attributes, hh, pushSectionL_ok hc hg.blocks hbs, hg.once⟩
  · cases h
    exact ⟨hg.header, hg.attributes, hh, everyBs_append.2 ⟨hg.blocks, everyBs_one.2 hc⟩, hg.once⟩

theorem graphConsolidate_ok {g : Asg} (hg : EveryG av g) : EveryG av g.consolidate := by
  have h1 : EveryG av g.consolidateLocations := by
    unfold Asg.consolidateLocations
    split
    · exact ⟨hg.header, hg.attributes, hg.ids, hg.blocks, hg.once⟩
    · split
      · exact ⟨hg.header, hg.attributes, hg.ids, hg.blocks, hg.once⟩
      · exact hg
  exact ⟨h1.header, h1.attributes, h1.ids, mapInlinesL_ok (fun i hi => resolveXref_ok h1.ids hi) h1.blocks, h1.once⟩

end
end Adoc.Origin
