import Verif.Spec.Outline
import Verif.Proof.Graph
/-!
# The outline of a graph when a section is added
-/
namespace Adoc.Proof
open Spec Block

/-- `n` is above all levels: the headings around something that is not a heading. -/
theorem parents_take {α : Type} (hs : List (Nat × α)) (n m : Nat) (h : n ≤ m) (hm : ∀ x ∈ hs, x.1 < m) :
    parents hs n = (parents hs m).takeWhile (·.1 < n) := by
  induction hs generalizing n m with
  | nil => rfl
  | cons x hs ih =>
    have hx : x.1 < m := hm x (by simp)
    have hm' : ∀ y ∈ hs, y.1 < m := fun y hy => hm y (by simp [hy])
    have hlt : ∀ (l : List (Nat × α)) k, ∀ y ∈ parents l k, y.1 < k := by
      intro l
      induction l with
      | nil => intro k y hy; simp [parents] at hy
      | cons z l ih =>
        intro k y hy
        simp only [parents] at hy
        split at hy
        · rename_i hz
          rcases List.mem_append.1 hy with hy | hy
          · have := ih _ _ hy; omega
          · simp at hy; rw [hy]; exact hz
        · exact ih _ _ hy
    simp only [parents, hx, if_true]
    by_cases hn : x.1 < n
    · simp only [hn, if_true]
      rw [List.takeWhile_append_of_pos]
      · simp [hn]
      · intro y hy; have := hlt _ _ _ hy; simp; omega
    · simp only [hn, if_false]
      rw [ih n m h hm', ih x.1 m (by omega) hm']
      generalize parents hs m = P
      clear ih hm' hlt hm
      induction P with
      | nil => simp [hn]
      | cons y P ih =>
        by_cases hy : y.1 < n
        · have : y.1 < x.1 := by omega
          simp [hy, this, ih]
        · by_cases hy' : y.1 < x.1
          · simp [hy, hy']
          · simp [hy, hy', hn]

mutual
/-- Only sections, leaves and lists. -/
def plainB : Block → Bool
  | .section _ _ _ bs _ => plainL bs
  | .leaf .. => true
  | .list .. => true
  | _ => false
/-- Only sections, leaves and lists. -/
def plainL : List Block → Bool
  | [] => true
  | b :: bs => plainB b && plainL bs
end

mutual
/-- The headings at the right edge. -/
def spineB : Block → List Heading
  | .section t _ v bs _ => (v, (soleText t).getD []) :: spineL bs
  | _ => []
/-- The headings at the right edge. -/
def spineL : List Block → List Heading
  | [] => []
  | [b] => spineB b
  | _ :: b :: bs => spineL (b :: bs)
end

theorem soleText_item (v : ListVariant) (b : Block) : itemText v b.consolidate = itemText v b := by
  cases b <;> simp [Block.consolidate, itemText]
  rename_i k p bs m l
  cases bs <;> cases m <;> rfl

theorem view_consolidate (b : Block) : view b.consolidate = view b := by
  cases b with
  | list v items m l =>
    have : ∀ items : List Block, (Block.consolidateL items).map (itemText v) = items.map (itemText v) := by
      intro items
      induction items with
      | nil => rfl
      | cons x xs ih => simp only [Block.consolidateL, List.map_cons, ih, soleText_item]
    cases m <;> simp only [Block.consolidate, view, this]
  | leaf n f d is m l => simp only [Block.consolidate]; cases n <;> cases f <;> cases d <;> cases m <;> rfl
  | _ => rfl

theorem reading_consolidate (path : List Heading) (b : Block) : reading path b.consolidate = reading path b := by
  cases b with
  | list v items m l =>
    have := view_consolidate (.list v items m l)
    simp only [Block.consolidate] at this
    simp only [Block.consolidate, reading, this]
  | leaf n f d is m l =>
    have := view_consolidate (.leaf n f d is m l)
    simp only [Block.consolidate] at this
    simp only [Block.consolidate, reading, this]
  | _ => rfl

theorem plain_consolidate (b : Block) : plainB b.consolidate = plainB b := by
  cases b <;> rfl

theorem spine_consolidate (b : Block) : spineB b.consolidate = spineB b := by
  cases b <;> rfl

theorem readingL_append (path : List Heading) (a b : List Block) :
    readingL path (a ++ b) = readingL path a ++ readingL path b := by
  induction a with
  | nil => rfl
  | cons x xs ih => simp only [List.cons_append, readingL, ih, List.append_assoc]

theorem plainL_append (a b : List Block) : plainL (a ++ b) = (plainL a && plainL b) := by
  induction a with
  | nil => rfl
  | cons x xs ih => simp only [List.cons_append, plainL, ih, Bool.and_assoc]

theorem spineL_snoc (a : List Block) (b : Block) : spineL (a ++ [b]) = spineB b := by
  match a with
  | [] => rfl
  | [x] => rfl
  | x :: y :: a => exact spineL_snoc (y :: a) b

/-- The outcome of adding a section with level `v` and title `t` that has the reading `r`. -/
structure Added (bs bs' : List Block) (s : Block) (v : Nat) (t : Str) : Prop where
  plain : plainL bs' = true
  spine : spineL bs' = (spineL bs).takeWhile (·.1 < v) ++ [(v, t)]
  reading : ∀ path, readingL path bs' = readingL path bs ++ reading (path ++ (spineL bs).takeWhile (·.1 < v)) s

theorem spineL_nil_of_last (b : Block) (h : b.isSection = false) : spineB b = [] := by
  cases b <;> first | rfl | cases h

/-- A section is added below the last heading with a smaller level, after everything else. -/
theorem pushSection_reading (ti : List Inline) (m : Option Meta) (v : Nat) (cs : List Block) (l : List Location)
    (hcs : plainL cs = true) (hspine : spineL cs = []) (fuel : Nat) (bs : List Block) (hf : sizeOf bs < fuel) (hb : plainL bs = true) :
    ∃ bs', pushSectionL bs (.section ti m v cs l) = .ok bs'
      ∧ Added bs bs' (.section ti m v cs l) v ((soleText ti).getD []) := by
  have hsec : plainB (.section ti m v cs l) = true := hcs
  have hsp : spineB (.section ti m v cs l) = [(v, (soleText ti).getD [])] := by simp only [spineB, hspine]
  induction fuel generalizing bs with
  | zero => omega
  | succ fuel ih =>
    match bs, hb with
    | [], _ =>
      refine ⟨_, rfl, ⟨by simp [plainL, hsec], by simp [spineL, hsp], fun path => by simp [readingL, spineL]⟩⟩
    | [last], hb =>
      simp only [pushSectionL]
      have hlast : plainB last = true := by simpa [plainL] using hb
      match last, hlast with
      | .section ti' m' v' cs' l', hl =>
        simp only [takesBlock, levelCheck]
        by_cases hv : v' < v
        · obtain ⟨r, h1, h2⟩ := ih cs' (by simp at hf; omega) hl
          simp only [hv, decide_true, if_true, pushBlock, isSection, h1, bind, Except.bind, pure, Except.pure]
          refine ⟨_, rfl, ⟨?_, ?_, fun path => ?_⟩⟩
          · simp only [plainL, plain_consolidate, plainB, h2.plain, Bool.and_self]
          · simp only [spineL, spine_consolidate, spineB, h2.spine]
            simp [hv]
          · simp only [readingL, reading_consolidate, reading, h2.reading, spineL, spineB]
            simp [hv, List.append_assoc]
        · simp only [hv, decide_false, Bool.false_eq_true, if_false]
          refine ⟨_, rfl, ⟨by simp [plainL, hsec]; exact hl, ?_, fun path => ?_⟩⟩
          · simp only [spineL, hsp]; simp [spineB, hv]
          · simp only [readingL, spineL, spineB]; simp [hv]
      | .leaf .., hl =>
        simp only [takesBlock, Bool.false_eq_true, if_false]
        exact ⟨_, rfl, ⟨by simp [plainL, hsec]; exact hl, by simp [spineL, hsp]; rfl,
          fun path => by simp [readingL, spineL, spineB]⟩⟩
      | .list .., hl =>
        simp only [takesBlock, isListItem, Bool.false_eq_true, if_false]
        exact ⟨_, rfl, ⟨by simp [plainL, hsec]; exact hl, by simp [spineL, hsp]; rfl,
          fun path => by simp [readingL, spineL, spineB]⟩⟩
    | b :: b' :: bs, hb =>
      have hb2 : plainB b = true ∧ plainL (b' :: bs) = true := by
        simpa only [plainL, Bool.and_eq_true] using hb
      obtain ⟨r, h1, h2⟩ := ih (b' :: bs) (by simp at hf ⊢; omega) hb2.2
      simp only [pushSectionL, h1, bind, Except.bind, pure, Except.pure]
      have hne : r ≠ [] := by
        intro h; have := h2.spine; rw [h] at this; simp [spineL] at this
      refine ⟨_, rfl, ⟨by simp only [plainL, hb2.1, h2.plain, Bool.and_self], ?_, fun path => ?_⟩⟩
      · rw [show spineL (b :: b' :: bs) = spineL (b' :: bs) from rfl]
        match r, hne, h2.spine with
        | [x], _, h => exact h
        | x :: y :: r, _, h => exact h
      · rw [show spineL (b :: b' :: bs) = spineL (b' :: bs) from rfl, readingL, h2.reading]
        simp only [readingL, List.append_assoc]

end Adoc.Proof
