import Verif.Spec.RichDoc
import Verif.Proof.Outline
import Verif.Proof.RichParse
/-!
# The contents of a graph when blocks are added
-/
namespace Adoc.Rich
open Spec Block

/-! ## Locations -/

mutual
theorem bareB_consolidate : ∀ b : Block, bareB b.consolidate = bareB b
  | .list v bs m l => by simp only [consolidate, bareB, bareBs_consolidate bs]
  | .dlist bs m l => by simp only [consolidate, bareB, bareBs_consolidate bs]
  | .section .. | .leaf .. | .listItem .. | .dlistItem .. | .parent .. | .tableCell .. | .brk .. | .image .. => by
    simp only [consolidate, bareB]
theorem bareBs_consolidate : ∀ bs : List Block, bareBs (consolidateL bs) = bareBs bs
  | [] => rfl
  | b :: bs => by simp only [consolidateL, bareBs, bareB_consolidate b, bareBs_consolidate bs]
end

theorem bareBs_append (a b : List Block) : bareBs (a ++ b) = bareBs a ++ bareBs b := by
  induction a with
  | nil => rfl
  | cons x xs ih => simp only [List.cons_append, bareBs, ih]

/-! ## Ids -/

theorem listed_leaf (path : List Title) (b : Block) (hb : b.isSection = false) : listed path b = [(path, bareB b)] := by
  cases b <;> first | rfl | cases hb

/-- An id and a title without locations. -/
def bareKV (x : Str × List Inline) : Str × List Inline := (x.1, bareL x.2)

theorem id_bare (b : Block) : (bareB b).id? = b.id? := by
  have key : ∀ m : Option Meta, (m.map bareM).bind Meta.elementId = m.bind Meta.elementId := by
    intro m; cases m <;> rfl
  cases b <;> first | rfl | exact key _

theorem ownId_bare (b : Block) : ownId (bareB b) = (ownId b).map bareKV := by
  unfold ownId
  rw [id_bare]
  cases b.id? with
  | none => rfl
  | some i => cases b <;> rfl

mutual
theorem titled_bare : ∀ b : Block, titled (bareB b) = (titled b).map bareKV
  | .section t m v bs l => by
    have := ownId_bare (.section t m v bs l)
    simp only [bareB] at this; simp only [bareB, titled, this, titledL_bare bs, List.map_append]
  | .list v bs m l => by
    have := ownId_bare (.list v bs m l)
    simp only [bareB] at this; simp only [bareB, titled, this, titledL_bare bs, List.map_append]
  | .listItem k p bs m l => by
    have := ownId_bare (.listItem k p bs m l)
    simp only [bareB] at this; simp only [bareB, titled, this, titledL_bare bs, List.map_append]
  | .dlist bs m l => by
    have := ownId_bare (.dlist bs m l)
    simp only [bareB] at this; simp only [bareB, titled, this, titledL_bare bs, List.map_append]
  | .dlistItem t p bs m l => by
    have := ownId_bare (.dlistItem t p bs m l)
    simp only [bareB] at this; simp only [bareB, titled, this, titledL_bare bs, List.map_append]
  | .parent n v d bs t m l => by
    have := ownId_bare (.parent n v d bs t m l)
    simp only [bareB] at this; simp only [bareB, titled, this, titledL_bare bs, List.map_append]
  | .brk v l => ownId_bare (.brk v l)
  | .image t c m l => ownId_bare (.image t c m l)
  | .leaf n f d is m l => ownId_bare (.leaf n f d is m l)
  | .tableCell is m l => ownId_bare (.tableCell is m l)
theorem titledL_bare : ∀ bs : List Block, titledL (bareBs bs) = (titledL bs).map bareKV
  | [] => rfl
  | b :: bs => by simp only [bareBs, titledL, titled_bare b, titledL_bare bs, List.map_append]
end

mutual
/-- The ids of the blocks of a graph can be found in the listing. -/
theorem titled_listed (path : List Title) : ∀ b : Block, (titled b).map bareKV = (listed path b).flatMap fun x => titled x.2
  | .section t m v bs l => by
    have := ownId_bare (.section t m v bs l)
    simp only [titled, listed, List.map_append, List.flatMap_cons, ← titledL_listed _ bs, titledL, List.append_nil, ← this]
    congr 1
  | .list v bs m l => by rw [listed_leaf, ← titled_bare] <;> simp [isSection]
  | .listItem k p bs m l => by rw [listed_leaf, ← titled_bare] <;> simp [isSection]
  | .dlist bs m l => by rw [listed_leaf, ← titled_bare] <;> simp [isSection]
  | .dlistItem t p bs m l => by rw [listed_leaf, ← titled_bare] <;> simp [isSection]
  | .parent n v d bs t m l => by rw [listed_leaf, ← titled_bare] <;> simp [isSection]
  | .brk v l => by rw [listed_leaf, ← titled_bare] <;> simp [isSection]
  | .image t c m l => by rw [listed_leaf, ← titled_bare] <;> simp [isSection]
  | .leaf n f d is m l => by rw [listed_leaf, ← titled_bare] <;> simp [isSection]
  | .tableCell is m l => by rw [listed_leaf, ← titled_bare] <;> simp [isSection]
/-- The ids of the blocks of a graph can be found in the listing. -/
theorem titledL_listed (path : List Title) : ∀ bs : List Block,
    (titledL bs).map bareKV = (listedL path bs).flatMap fun x => titled x.2
  | [] => rfl
  | b :: bs => by
    simp only [titledL, listedL, List.map_append, List.flatMap_append, titled_listed path b, titledL_listed path bs]
end

/-! ## Resolved cross references -/

theorem bare_resolve (h hb : SMap (List Inline)) (hh : ∀ k, hb.get? k = (h.get? k).map bareL) (x : Inline) :
    bare (Inline.resolveXref h x) = Inline.resolveXref hb (bare x) := by
  cases x with
  | ref v t is m l =>
    cases v with
    | xref =>
      simp only [Inline.resolveXref, bare, hh]
      cases h.get? t <;> rfl
    | _ => rfl
  | _ => rfl

theorem bareL_map (is : List Inline) : bareL is = is.map bare := by
  induction is with
  | nil => rfl
  | cons x xs ih => simp only [bareL, ih, List.map_cons]

theorem bareL_resolve (h hb : SMap (List Inline)) (hh : ∀ k, hb.get? k = (h.get? k).map bareL) (is : List Inline) :
    bareL (is.map (Inline.resolveXref h)) = (bareL is).map (Inline.resolveXref hb) := by
  simp only [bareL_map, List.map_map]
  apply List.map_congr_left
  intro x _
  exact bare_resolve h hb hh x

mutual
theorem bareB_resolve (h hb : SMap (List Inline)) (hh : ∀ k, hb.get? k = (h.get? k).map bareL) :
    ∀ b : Block, bareB (b.mapInlines (Inline.resolveXref h)) = (bareB b).mapInlines (Inline.resolveXref hb)
  | .section t m v bs l => by simp only [mapInlines, bareB, bareL_resolve h hb hh, bareBs_resolve h hb hh bs]
  | .list v bs m l => by simp only [mapInlines, bareB, bareBs_resolve h hb hh bs]
  | .listItem k p bs m l => by simp only [mapInlines, bareB, bareL_resolve h hb hh, bareBs_resolve h hb hh bs]
  | .dlist bs m l => by simp only [mapInlines, bareB, bareBs_resolve h hb hh bs]
  | .dlistItem t p bs m l => by simp only [mapInlines, bareB, bareL_resolve h hb hh, bareBs_resolve h hb hh bs]
  | .parent n v d bs t m l => by simp only [mapInlines, bareB, bareL_resolve h hb hh, bareBs_resolve h hb hh bs]
  | .leaf n f d is m l => by simp only [mapInlines, bareB, bareL_resolve h hb hh]
  | .tableCell is m l => by simp only [mapInlines, bareB, bareL_resolve h hb hh]
  | .brk .. => rfl
  | .image .. => by simp only [mapInlines, bareB]
theorem bareBs_resolve (h hb : SMap (List Inline)) (hh : ∀ k, hb.get? k = (h.get? k).map bareL) :
    ∀ bs : List Block, bareBs (mapInlinesL (Inline.resolveXref h) bs) = mapInlinesL (Inline.resolveXref hb) (bareBs bs)
  | [] => rfl
  | b :: bs => by simp only [mapInlinesL, bareBs, bareB_resolve h hb hh b, bareBs_resolve h hb hh bs]
end

/-- A heading with cross references resolved. -/
def resT (hb : SMap (List Inline)) (t : Title) : Title := (t.1, t.2.map (Inline.resolveXref hb))

/-- An entry of a listing with cross references resolved. -/
def resE (hb : SMap (List Inline)) (x : List Title × Block) : List Title × Block :=
  (x.1.map (resT hb), x.2.mapInlines (Inline.resolveXref hb))

mutual
theorem listed_resolve (h hb : SMap (List Inline)) (hh : ∀ k, hb.get? k = (h.get? k).map bareL) (path : List Title) :
    ∀ b : Block, listed (path.map (resT hb)) (b.mapInlines (Inline.resolveXref h)) = (listed path b).map (resE hb)
  | .section t m v bs l => by
    have := listedL_resolve h hb hh (path ++ [(v, bareL t)]) bs
    simp only [mapInlines, listed, List.map_cons, resE, mapInlinesL, bareL_resolve h hb hh]
    congr 1
    rw [← this, List.map_append]
    rfl
  | .list v bs m l => by
    rw [listed_leaf path _ rfl, listed_leaf _ _ rfl, bareB_resolve h hb hh]; rfl
  | .listItem k p bs m l => by
    rw [listed_leaf path _ rfl, listed_leaf _ _ rfl, bareB_resolve h hb hh]; rfl
  | .dlist bs m l => by
    rw [listed_leaf path _ rfl, listed_leaf _ _ rfl, bareB_resolve h hb hh]; rfl
  | .dlistItem t p bs m l => by
    rw [listed_leaf path _ rfl, listed_leaf _ _ rfl, bareB_resolve h hb hh]; rfl
  | .parent n v d bs t m l => by
    rw [listed_leaf path _ rfl, listed_leaf _ _ rfl, bareB_resolve h hb hh]; rfl
  | .leaf n f d is m l => by
    rw [listed_leaf path _ rfl, listed_leaf _ _ rfl, bareB_resolve h hb hh]; rfl
  | .tableCell is m l => by
    rw [listed_leaf path _ rfl, listed_leaf _ _ rfl, bareB_resolve h hb hh]; rfl
  | .brk v l => rfl
  | .image t c m l => by
    rw [listed_leaf path _ rfl, listed_leaf _ _ rfl, bareB_resolve h hb hh]; rfl
theorem listedL_resolve (h hb : SMap (List Inline)) (hh : ∀ k, hb.get? k = (h.get? k).map bareL) (path : List Title) :
    ∀ bs : List Block, listedL (path.map (resT hb)) (mapInlinesL (Inline.resolveXref h) bs) = (listedL path bs).map (resE hb)
  | [] => rfl
  | b :: bs => by
    simp only [mapInlinesL, listedL, List.map_append, listed_resolve h hb hh path b, listedL_resolve h hb hh path bs]
end

/-! ## The right edge -/

mutual
/-- The headings at the right edge. -/
def spineB : Block → List Title
  | .section t _ v bs _ => (v, bareL t) :: spineL bs
  | _ => []
/-- The headings at the right edge. -/
def spineL : List Block → List Title
  | [] => []
  | [b] => spineB b
  | _ :: b :: bs => spineL (b :: bs)
end

mutual
/-- The block at the right edge is not one that takes sections, except for sections. -/
def edgeB : Block → Bool
  | .section _ _ _ bs _ => edgeL bs
  | .parent .. | .listItem .. | .dlistItem .. => false
  | _ => true
/-- The block at the right edge is not one that takes sections, except for sections. -/
def edgeL : List Block → Bool
  | [] => true
  | [b] => edgeB b
  | _ :: b :: bs => edgeL (b :: bs)
end

theorem listed_consolidate (path : List Title) (b : Block) : listed path b.consolidate = listed path b := by
  have := bareB_consolidate b
  cases b <;> simp only [consolidate, listed] at this ⊢ <;> first | rfl | rw [this]

theorem edge_consolidate (b : Block) : edgeB b.consolidate = edgeB b := by
  cases b <;> rfl

theorem spine_consolidate (b : Block) : spineB b.consolidate = spineB b := by
  cases b <;> rfl

theorem listedL_append (path : List Title) (a b : List Block) :
    listedL path (a ++ b) = listedL path a ++ listedL path b := by
  induction a with
  | nil => rfl
  | cons x xs ih => simp only [List.cons_append, listedL, ih, List.append_assoc]

theorem spineL_snoc (a : List Block) (b : Block) : spineL (a ++ [b]) = spineB b := by
  match a with
  | [] => rfl
  | [x] => rfl
  | x :: y :: a => exact spineL_snoc (y :: a) b

theorem edgeL_snoc (a : List Block) (b : Block) : edgeL (a ++ [b]) = edgeB b := by
  match a with
  | [] => rfl
  | [x] => rfl
  | x :: y :: a => exact edgeL_snoc (y :: a) b

theorem spineB_nil (b : Block) (h : b.isSection = false) : spineB b = [] := by
  cases b <;> first | rfl | cases h

theorem spineL_nil : ∀ {bs : List Block}, (∀ b ∈ bs, b.isSection = false) → spineL bs = []
  | [], _ => rfl
  | [b], h => spineB_nil b (h b (by simp))
  | _ :: b :: bs, h => spineL_nil (bs := b :: bs) fun x hx => h x (by simp [hx])

/-- The outcome of adding a section `s` with level `v` and title `t`. -/
structure Added (bs bs' : List Block) (s : Block) (v : Nat) (t : List Inline) : Prop where
  ne : bs' ≠ []
  edge : edgeL bs' = edgeB s
  spine : spineL bs' = (spineL bs).takeWhile (·.1 < v) ++ [(v, t)]
  listed : ∀ path, listedL path bs' = listedL path bs ++ listed (path ++ (spineL bs).takeWhile (·.1 < v)) s

/-- A section is added below the last heading with a smaller level, after everything else. -/
theorem pushSection_listed (ti : List Inline) (m : Option Meta) (v : Nat) (cs : List Block) (l : List Location)
    (hspine : spineL cs = []) (fuel : Nat) (bs : List Block) (hf : sizeOf bs < fuel) (hb : edgeL bs = true) :
    ∃ bs', pushSectionL bs (.section ti m v cs l) = .ok bs' ∧ Added bs bs' (.section ti m v cs l) v (bareL ti) := by
  have hsp : spineB (.section ti m v cs l) = [(v, bareL ti)] := by simp only [spineB, hspine]
  have hend : ∀ b : Block, b.takesBlock (.section ti m v cs l) = false → edgeB b = true →
      (spineB b).takeWhile (·.1 < v) = [] → ∃ bs', pushSectionL [b] (.section ti m v cs l) = .ok bs'
        ∧ Added [b] bs' (.section ti m v cs l) v (bareL ti) := by
    intro b h1 h2 h3
    simp only [pushSectionL, h1, Bool.false_eq_true, if_false]
    refine ⟨_, rfl, ⟨by simp, rfl, ?_, fun path => ?_⟩⟩
    · simp only [spineL, hsp, h3, List.nil_append]
    · simp only [listedL, spineL, h3, List.append_nil]
  induction fuel generalizing bs with
  | zero => omega
  | succ fuel ih =>
    match bs, hb with
    | [], _ => exact ⟨_, rfl, ⟨by simp, rfl, by simp [spineL, hsp], fun path => by simp [listedL, spineL]⟩⟩
    | [last], hb =>
      have hlast : edgeB last = true := hb
      match last, hlast with
      | .section ti' m' v' cs' l', hl =>
        by_cases hv : v' < v
        · obtain ⟨r, h1, h2⟩ := ih cs' (by simp at hf; omega) hl
          simp only [pushSectionL, takesBlock, levelCheck]
          simp only [hv, decide_true, if_true, pushBlock, isSection, h1, bind, Except.bind, pure, Except.pure]
          refine ⟨_, rfl, ⟨by simp, ?_, ?_, fun path => ?_⟩⟩
          · simp only [edgeL, edge_consolidate, edgeB, h2.edge]
          · simp only [spineL, spine_consolidate, spineB, h2.spine]
            simp [hv]
          · simp only [listedL, listed_consolidate, Spec.listed, h2.listed, spineL, spineB]
            simp [hv, List.append_assoc]
        · exact hend _ (by simp [takesBlock, levelCheck, hv]) hl (by simp [spineB, hv])
      | .leaf .., hl => exact hend _ rfl hl rfl
      | .list .., hl => exact hend _ rfl hl rfl
      | .dlist .., hl => exact hend _ rfl hl rfl
      | .brk .., hl => exact hend _ rfl hl rfl
      | .image .., hl => exact hend _ rfl hl rfl
      | .tableCell .., hl => exact hend _ rfl hl rfl
    | b :: b' :: bs, hb =>
      obtain ⟨r, h1, h2⟩ := ih (b' :: bs) (by simp at hf ⊢; omega) hb
      simp only [pushSectionL, h1, bind, Except.bind, pure, Except.pure]
      refine ⟨_, rfl, ⟨by simp, ?_, ?_, fun path => ?_⟩⟩
      · match r, h2.ne, h2.edge with
        | [x], _, h => exact h
        | x :: y :: r, _, h => exact h
      · rw [show spineL (b :: b' :: bs) = spineL (b' :: bs) from rfl]
        match r, h2.ne, h2.spine with
        | [x], _, h => exact h
        | x :: y :: r, _, h => exact h
      · rw [show spineL (b :: b' :: bs) = spineL (b' :: bs) from rfl, listedL, h2.listed]
        simp only [listedL, List.append_assoc]

end Adoc.Rich
