import Verif.Proof.Strings
import Verif.Model.Asg
/-! # Lemmas about blocks and the graph -/
namespace Adoc

namespace SMap
variable {V : Type}

theorem get?_extend_some (m o : SMap V) (k : Str) (v : V) (h : (m.extend o).get? k = some v) :
    (k, v) ∈ o ∨ m.get? k = some v := by
  unfold extend at h
  induction o generalizing m with
  | nil => exact .inr h
  | cons e o ih =>
    rcases ih _ h with h' | h'
    · exact .inl (by simp [h'])
    · rw [get?_insert] at h'
      split at h'
      · rename_i hk
        left; cases h'; subst hk; simp
      · exact .inr h'

theorem get?_mem (m : SMap V) (k : Str) (v : V) (h : m.get? k = some v) : (k, v) ∈ m := by
  induction m with
  | nil => cases h
  | cons e m ih =>
    simp only [get?] at h
    split at h
    · rename_i hk; cases h; subst hk; simp
    · simp [ih h]

theorem get?_isSome (m : SMap V) (k : Str) : (m.get? k).isSome = true ↔ k ∈ m.map (·.1) := by
  induction m with
  | nil => simp [get?]
  | cons e m ih =>
    simp only [get?, List.map_cons, List.mem_cons]
    split
    · rename_i h; simp [h]
    · rename_i h; rw [ih]; simp [Ne.symm h]

theorem keys_extend (m o : SMap V) (k : Str) :
    k ∈ (m.extend o).map (·.1) ↔ k ∈ m.map (·.1) ∨ k ∈ o.map (·.1) := by
  unfold extend
  induction o generalizing m with
  | nil => simp
  | cons e o ih =>
    rw [List.foldl_cons, ih, keys_insert]
    split
    · rename_i h
      simp only [List.map_cons, List.mem_cons]
      constructor
      · rintro (h' | h') <;> simp [h']
      · rintro (h' | rfl | h')
        · exact .inl h'
        · exact .inl h
        · exact .inr h'
    · simp only [List.map_cons, List.mem_cons, List.mem_append, List.not_mem_nil, or_false, or_assoc]

end SMap

namespace Block

mutual
/-- Id and title of every block in a block, including itself, for the blocks that have an id. -/
def titled : Block → List (Str × List Inline)
  | .section t m v bs l => ownId (.section t m v bs l) ++ titledL bs
  | .list v bs m l => ownId (.list v bs m l) ++ titledL bs
  | .listItem k p bs m l => ownId (.listItem k p bs m l) ++ titledL bs
  | .dlist bs m l => ownId (.dlist bs m l) ++ titledL bs
  | .dlistItem t p bs m l => ownId (.dlistItem t p bs m l) ++ titledL bs
  | .brk v l => ownId (.brk v l)
  | .image t c m l => ownId (.image t c m l)
  | .leaf n f d is m l => ownId (.leaf n f d is m l)
  | .parent n v d bs t m l => ownId (.parent n v d bs t m l) ++ titledL bs
  | .tableCell is m l => ownId (.tableCell is m l)
/-- `titled` for a list of blocks. -/
def titledL : List Block → List (Str × List Inline)
  | [] => []
  | b :: bs => titled b ++ titledL bs
end

theorem titledL_append (a b : List Block) : titledL (a ++ b) = titledL a ++ titledL b := by
  induction a with
  | nil => rfl
  | cons x a ih => simp [titledL, ih]

mutual
theorem titled_consolidate : ∀ b : Block, b.consolidate.titled = b.titled
  | .section .. => rfl
  | .list v bs m l => by
    simp only [consolidate, titled, ownId, id?, data, title]; rw [titledL_consolidate bs]
  | .listItem .. => rfl
  | .dlist bs m l => by
    simp only [consolidate, titled, ownId, id?, data, title]; rw [titledL_consolidate bs]
  | .dlistItem .. => rfl
  | .brk .. => rfl
  | .image .. => rfl
  | .leaf .. => rfl
  | .parent .. => rfl
  | .tableCell .. => rfl
theorem titledL_consolidate : ∀ bs : List Block, titledL (consolidateL bs) = titledL bs
  | [] => rfl
  | b :: bs => by simp only [consolidateL, titledL]; rw [titled_consolidate b, titledL_consolidate bs]
end

theorem mem_ext {k : Str} {v : List Inline} {a b : SMap (List Inline)} (h : (k, v) ∈ SMap.extend a b) :
    (k, v) ∈ a ∨ (k, v) ∈ b := by
  unfold SMap.extend at h
  induction b generalizing a with
  | nil => exact .inl h
  | cons e b ih =>
    rcases ih h with h' | h'
    · have : ∀ m : SMap (List Inline), (k, v) ∈ m.insert e.1 e.2 → (k, v) ∈ m ∨ (k, v) = e := by
        intro m
        induction m with
        | nil => intro hm; simp [SMap.insert] at hm; exact .inr (Prod.ext hm.1 hm.2)
        | cons x m ihm =>
          simp only [SMap.insert]
          split
          · intro hm; simp only [List.mem_cons] at hm ⊢
            rcases hm with hm | hm
            · exact .inr hm
            · exact .inl (.inr hm)
          · intro hm; simp only [List.mem_cons] at hm ⊢
            rcases hm with hm | hm
            · exact .inl (.inl hm)
            · rcases ihm hm with h | h
              · exact .inl (.inr h)
              · exact .inr h
      rcases this a h' with h | h
      · exact .inl h
      · exact .inr (by simp [h])
    · exact .inr (by simp [h'])

mutual
/-- The entries of the index of a block are ids and titles of blocks in it. -/
theorem idHashes_sound (k : Str) (v : List Inline) : ∀ b : Block, (k, v) ∈ b.idHashes → (k, v) ∈ b.titled
  | .section t m x bs l, h => by
    simp only [idHashes] at h; simp only [titled, List.mem_append]
    exact (mem_ext h).imp_right (idHashesL_sound k v bs)
  | .parent n x d bs t m l, h => by
    simp only [idHashes] at h; simp only [titled, List.mem_append]
    exact (mem_ext h).imp_right (idHashesL_sound k v bs)
  | .list x bs m l, h => by
    simp only [idHashes] at h; simp only [titled, List.mem_append]
    exact (mem_ext h).imp_right (idHashesL_sound k v bs)
  | .dlist bs m l, h => by
    simp only [idHashes] at h; simp only [titled, List.mem_append]
    exact (mem_ext h).imp_right (idHashesL_sound k v bs)
  | .listItem kk p bs m l, h => by
    simp only [idHashes] at h; simp only [titled, List.mem_append]
    exact (mem_ext h).imp_right (idHashesL_sound k v bs)
  | .dlistItem t p bs m l, h => by
    simp only [idHashes] at h; simp only [titled, List.mem_append]
    exact (mem_ext h).imp_right (idHashesL_sound k v bs)
  | .brk .., h => h
  | .image .., h => h
  | .leaf .., h => h
  | .tableCell .., h => h
theorem idHashesL_sound (k : Str) (v : List Inline) : ∀ bs : List Block, (k, v) ∈ idHashesL bs → (k, v) ∈ titledL bs
  | [], h => h
  | b :: bs, h => by
    simp only [idHashesL] at h; simp only [titledL, List.mem_append]
    exact (mem_ext h).imp (idHashes_sound k v b) (idHashesL_sound k v bs)
end

mutual
theorem idHashes_keys (k : Str) : ∀ b : Block, k ∈ b.idHashes.map (·.1) ↔ k ∈ b.titled.map (·.1)
  | .section t m x bs l => by
    simp only [idHashes, titled, SMap.keys_extend, List.map_append, List.mem_append, idHashesL_keys k bs]
  | .parent n x d bs t m l => by
    simp only [idHashes, titled, SMap.keys_extend, List.map_append, List.mem_append, idHashesL_keys k bs]
  | .list x bs m l => by
    simp only [idHashes, titled, SMap.keys_extend, List.map_append, List.mem_append, idHashesL_keys k bs]
  | .dlist bs m l => by
    simp only [idHashes, titled, SMap.keys_extend, List.map_append, List.mem_append, idHashesL_keys k bs]
  | .listItem kk p bs m l => by
    simp only [idHashes, titled, SMap.keys_extend, List.map_append, List.mem_append, idHashesL_keys k bs]
  | .dlistItem t p bs m l => by
    simp only [idHashes, titled, SMap.keys_extend, List.map_append, List.mem_append, idHashesL_keys k bs]
  | .brk .. => Iff.rfl
  | .image .. => Iff.rfl
  | .leaf .. => Iff.rfl
  | .tableCell .. => Iff.rfl
theorem idHashesL_keys (k : Str) : ∀ bs : List Block, k ∈ (idHashesL bs).map (·.1) ↔ k ∈ (titledL bs).map (·.1)
  | [] => Iff.rfl
  | b :: bs => by
    simp only [idHashesL, titledL, SMap.keys_extend, List.map_append, List.mem_append, idHashes_keys k b,
      idHashesL_keys k bs]
end

theorem titled_pushIntoLastList (item : Block) (bs r : List Block) (h : pushIntoLastList item bs = .ok r) :
    titledL r = titledL bs ++ titled item := by
  induction bs generalizing r with
  | nil => cases h
  | cons b bs ih =>
    unfold pushIntoLastList at h
    split at h
    · cases h
    · rename_i heq
      cases h; cases heq
      simp only [titledL, titled_consolidate, List.append_nil]
      simp only [titled, titledL_append, titledL, List.append_nil, List.append_assoc]
      rfl
    · cases h
    · rename_i b' bs' _ _ heq
      cases heq
      simp only [bind, Except.bind] at h
      split at h
      · cases h
      · rename_i r' hr
        cases h
        simp only [titledL]
        rw [ih _ hr]; simp [List.append_assoc]

mutual
/-- Pushing a block adds its ids and titles at the end. -/
theorem titled_pushBlock : ∀ (self b r : Block), self.pushBlock b = .ok r → r.titled = self.titled ++ b.titled
  | .section t m v bs l, b, r, h => by
    unfold pushBlock at h
    split at h
    · simp only [bind, Except.bind] at h
      split at h
      · cases h
      · rename_i bs' hbs
        cases h
        rw [titled_consolidate]
        simp only [titled]
        rw [titled_pushSectionL bs b bs' hbs, List.append_assoc]; rfl
    · cases h
      rw [titled_consolidate]; simp only [titled, titledL_append, titledL, List.append_nil, List.append_assoc]; rfl
  | .list v items m l, b, r, h => by
    unfold pushBlock at h; cases h
    rw [titled_consolidate]; simp only [titled, titledL_append, titledL, List.append_nil, List.append_assoc]; rfl
  | .dlist items m l, b, r, h => by
    unfold pushBlock at h; cases h
    rw [titled_consolidate]; simp only [titled, titledL_append, titledL, List.append_nil, List.append_assoc]; rfl
  | .listItem k p bs m l, b, r, h => by
    unfold pushBlock at h; cases h
    rw [titled_consolidate]; simp only [titled, titledL_append, titledL, List.append_nil, List.append_assoc]; rfl
  | .dlistItem t p bs m l, b, r, h => by
    unfold pushBlock at h; cases h
    rw [titled_consolidate]; simp only [titled, titledL_append, titledL, List.append_nil, List.append_assoc]; rfl
  | .parent n v d bs t m l, b, r, h => by
    unfold pushBlock at h
    split at h
    · simp only [bind, Except.bind] at h
      split at h
      · cases h
      · rename_i bs' hbs
        cases h
        rw [titled_consolidate]
        simp only [titled]
        rw [titled_pushIntoLastList b bs bs' hbs, List.append_assoc]; rfl
    · split at h
      · cases h
      · cases h
        rw [titled_consolidate]; simp only [titled, titledL_append, titledL, List.append_nil, List.append_assoc]; rfl
  | .brk .., b, r, h => by unfold pushBlock at h; cases h
  | .image .., b, r, h => by unfold pushBlock at h; cases h
  | .leaf .., b, r, h => by unfold pushBlock at h; cases h
  | .tableCell .., b, r, h => by unfold pushBlock at h; cases h
theorem titled_pushSectionL : ∀ (bs : List Block) (b : Block) (r : List Block), pushSectionL bs b = .ok r →
    titledL r = titledL bs ++ titled b
  | [], b, r, h => by unfold pushSectionL at h; cases h; simp [titledL]
  | [last], b, r, h => by
    unfold pushSectionL at h
    split at h
    · simp only [bind, Except.bind] at h
      split at h
      · cases h
      · rename_i l' hl
        cases h
        simp only [titledL, List.append_nil]
        exact titled_pushBlock last b l' hl
    · cases h; simp [titledL]
  | x :: y :: bs, b, r, h => by
    unfold pushSectionL at h
    simp only [bind, Except.bind] at h
    split at h
    · cases h
    · rename_i r' hr
      cases h
      have := titled_pushSectionL (y :: bs) b r' hr
      simp only [titledL] at this ⊢
      rw [this]; simp [List.append_assoc]
end

end Block

/-- Ids and titles of the graph after a push. -/
theorem Asg.titled_pushBlock (g g' : Asg) (b : Block) (h : g.pushBlock b = .ok g') :
    Block.titledL g'.blocks = Block.titledL g.blocks ++ b.titled
      ∧ g'.idHash = g.idHash.extend b.consolidate.idHashes := by
  unfold pushBlock at h
  simp only [bind, Except.bind] at h
  split at h
  · split at h
    · cases h
    · rename_i bs hbs
      cases h
      exact ⟨by rw [Block.titled_pushSectionL _ _ _ hbs, Block.titled_consolidate], rfl⟩
  · cases h
    refine ⟨?_, rfl⟩
    simp [Block.titledL_append, Block.titledL, Block.titled_consolidate]

end Adoc
