import Verif.Spec.Places
import Verif.Proof.Origin
/-!
# Locations of inlines, blocks and graphs

Every function of the graph keeps `Places.Inl`, `Places.Blk` and `Places.Graph`.
-/
namespace Adoc.Spec.Places
open Props (before before_refl before_trans)

variable {P : Places}

/-! ## Ranges -/

theorem start_congr {a b : Location} (h : P.start a.line a.col) (h1 : before a b) (h2 : before b a) : P.start b.line b.col := by
  unfold before at h1 h2
  rw [show b.line = a.line by omega, show b.col = a.col by omega]
  exact h

theorem Range.ne {l : List Location} (h : P.Range l) : l ≠ [] := by
  obtain ⟨a, _, rfl | ⟨b, rfl, _⟩⟩ := h <;> simp

theorem Range.merge {l o : List Location} (hl : P.Range l) (ho : P.Range o) : P.Range (reconcile l o) := by
  have h1 : 1 ≤ l.length := List.length_pos_iff.2 hl.ne
  have h2 : 1 ≤ o.length := List.length_pos_iff.2 ho.ne
  obtain ⟨x, y, h, hx, hy, hz⟩ := Props.C12_bounds l o ho.ne (by omega)
  rw [h]
  have any : ∀ z ∈ l ++ o, P.start z.line z.col ∨ P.stop z.line z.col := by
    intro z hz
    rcases List.mem_append.1 hz with hz | hz
    · obtain ⟨a, ha, rfl | ⟨b, rfl, hb, _⟩⟩ := hl
      · simp at hz; subst hz; exact .inl ha
      · simp at hz; rcases hz with rfl | rfl
        · exact .inl ha
        · exact hb
    · obtain ⟨a, ha, rfl | ⟨b, rfl, hb, _⟩⟩ := ho
      · simp at hz; subst hz; exact .inl ha
      · simp at hz; rcases hz with rfl | rfl
        · exact .inl ha
        · exact hb
  have key : ∀ {m : List Location}, P.Range m → x ∈ m → (∀ z ∈ m, before x z) → P.start x.line x.col := by
    rintro m ⟨a, ha, rfl | ⟨b, rfl, _, hab⟩⟩ hm hall
    · simp at hm; subst hm; exact ha
    · have h1 := hall a (by simp)
      simp at hm
      rcases hm with rfl | rfl
      · exact ha
      · exact start_congr ha hab h1
  refine ⟨x, ?_, .inr ⟨y, rfl, any y hy, (hz y hy).1⟩⟩
  rcases List.mem_append.1 hx with hm | hm
  · exact key hl hm fun z hz' => (hz z (by simp [hz'])).1
  · exact key ho hm fun z hz' => (hz z (by simp [hz'])).1

/-- A token begins and ends where it may. -/
structure Tok (P : Places) (t : Token) : Prop where
  start : P.start t.line t.startcol
  stop : P.stop t.line t.endcol
  le : t.startcol ≤ t.endcol

theorem Tok.range {t : Token} (h : P.Tok t) : P.Range t.locations :=
  ⟨t.firstLocation, h.start, .inr ⟨t.lastLocation, rfl, .inr h.stop, by
    unfold before
    exact .inr ⟨rfl, .inr ⟨rfl, h.le⟩⟩⟩⟩

theorem Tok.first {t : Token} (h : P.Tok t) : P.Range [t.firstLocation] := ⟨t.firstLocation, h.start, .inl rfl⟩

/-! ## Inlines -/

theorem inls_mem {is : List Inline} : P.Inls is ↔ ∀ i ∈ is, P.Inl i := by
  induction is with
  | nil => simp [Inls]
  | cons i is ih => simp [Inls, ih]

theorem inls_nil : P.Inls [] := by simp [Inls]
theorem inls_cons {i : Inline} {is : List Inline} : P.Inls (i :: is) ↔ P.Inl i ∧ P.Inls is := by simp [Inls]
theorem inls_append {a b : List Inline} : P.Inls (a ++ b) ↔ P.Inls a ∧ P.Inls b := by
  simp only [inls_mem, List.mem_append]
  exact ⟨fun h => ⟨fun i hi => h i (.inl hi), fun i hi => h i (.inr hi)⟩, fun h i hi => hi.elim (h.1 i) (h.2 i)⟩
theorem inls_one {i : Inline} : P.Inls [i] ↔ P.Inl i := by simp [Inls]

theorem Inl.range {x : Inline} (h : P.Inl x) : P.Range x.locations := by
  cases x <;> simp only [Inl] at h
  · exact h.1
  · exact h.1
  · exact h
  · exact h

theorem Inl.push {x c : Inline} (hx : P.Inl x) (hc : P.Inl c) : Ok (x.pushInline c) P.Inl := by
  unfold Inline.pushInline
  split
  · exact .pure ⟨hx.1, inls_append.2 ⟨hx.2, inls_one.2 hc⟩⟩
  · exact .pure ⟨hx.1, inls_append.2 ⟨hx.2, inls_one.2 hc⟩⟩
  · exact .error

theorem Inl.reconcile {x : Inline} (hx : P.Inl x) {l : List Location} (hl : P.Range l) : P.Inl (x.reconcileLocations l) := by
  cases x <;> simp only [Inline.reconcileLocations, Inl] at hx ⊢
  · exact ⟨hx.1.merge hl, hx.2⟩
  · exact ⟨hx.1.merge hl, hx.2⟩
  · exact hx.merge hl
  · exact hx.merge hl

theorem Inl.close {x : Inline} (hx : P.Inl x) : Ok x.close P.Inl := by
  unfold Inline.close
  split
  · exact .pure hx
  · exact .error

theorem Inl.addMeta {x : Inline} (hx : P.Inl x) (m : Meta) : Ok (x.addMeta m) P.Inl := by
  unfold Inline.addMeta
  split
  · exact .pure hx
  · exact .error

theorem Inl.fromToken {x : Inline} (hx : P.Inl x) {t : Token} (ht : P.Tok t) : Ok (x.consolidateFromToken t) P.Inl := by
  unfold Inline.consolidateFromToken
  split
  · exact .pure ⟨hx.1.merge ht.range, hx.2⟩
  · exact .pure ⟨hx.1.merge ht.range, hx.2⟩
  · exact .error

theorem Inls.addLast {is : List Inline} {x : Inline} (h : P.Inls is) (hx : P.Inl x) : P.Inls (Inline.addLast is x) := by
  fun_induction Inline.addLast is x with
  | case1 => exact inls_one.2 hx
  | case2 v f is m l _ ih =>
    rw [inls_one, Inl] at h
    exact inls_one.2 ⟨h.1.merge hx.range, ih h.2 hx⟩
  | case3 => exact inls_cons.2 ⟨inls_one.1 h, inls_one.2 hx⟩
  | case4 n v l n' v' l' =>
    rw [inls_one, Inl] at h
    exact inls_one.2 (show P.Range _ from h.merge hx.range)
  | case5 => exact inls_cons.2 ⟨inls_one.1 h, inls_one.2 hx⟩
  | case6 y ys _ _ _ ih => exact inls_cons.2 ⟨(inls_cons.1 h).1, ih (inls_cons.1 h).2 hx⟩

theorem Inl.addInline {s x : Inline} (h : P.Inl s) (hx : P.Inl x) : P.Inl (Inline.addInline s x) := by
  unfold Inline.addInline
  split
  · rw [Inl] at h
    exact ⟨h.1.merge hx.range, h.2.addLast hx⟩
  · exact h

theorem prepend_ok {pre : Str} {locs : Option (List Location)} {is : List Inline} (hp : ∀ l ∈ locs, P.Range l) (h : P.Inls is) :
    Ok (Inline.prependFirst pre locs is) P.Inls := by
  unfold Inline.prependFirst
  split
  · rename_i n v l rest
    rw [inls_cons, Inl] at h
    refine .pure (inls_cons.2 ⟨show P.Range _ from h.1.merge ?_, h.2⟩)
    cases locs with
    | none => exact h.1
    | some l' => exact hp l' rfl
  · exact .error

/-- The inline is not an open span. -/
def Closed (x : Inline) : Prop := x.isOpen = false

mutual
theorem flatten_ok : ∀ (x : Inline), P.Inl x → Ok x.flatten fun r => P.Inls r ∧ ∀ y ∈ r, Closed y
  | .span v f is m l true, h => by
    unfold Inline.flatten
    refine .bind' fun pre _ => .bind (spanInlines_ok is h.2) fun kids hk => ?_
    intro r hr
    refine ⟨prepend_ok (fun _ h => by cases h) hk.1 r hr, ?_⟩
    unfold Inline.prependFirst at hr
    split at hr
    · cases hr
      intro y hy
      rcases List.mem_cons.1 hy with rfl | hy
      · rfl
      · exact hk.2 y (List.mem_cons_of_mem _ hy)
    · cases hr
  | .span v f is m l false, h => by
    unfold Inline.flatten
    exact .pure ⟨inls_one.2 h, by simp [Closed, Inline.isOpen]⟩
  | .ref .., h => by
    unfold Inline.flatten
    exact .pure ⟨inls_one.2 h, by simp [Closed, Inline.isOpen]⟩
  | .lit .., h => by
    unfold Inline.flatten
    exact .pure ⟨inls_one.2 h, by simp [Closed, Inline.isOpen]⟩
  | .brk .., h => by
    unfold Inline.flatten
    exact .pure ⟨inls_one.2 h, by simp [Closed, Inline.isOpen]⟩
theorem spanInlines_ok : ∀ (is : List Inline), P.Inls is → Ok (Inline.spanInlines is) fun r => P.Inls r ∧ ∀ y ∈ r, Closed y
  | [], _ => by
    unfold Inline.spanInlines
    exact .pure ⟨inls_nil, by simp⟩
  | x :: rest, h => by
    rw [inls_cons] at h
    unfold Inline.spanInlines
    refine .bind (flatten_ok x h.1) fun a ha => .bind (spanInlines_ok rest h.2) fun b hb => .pure ⟨inls_append.2 ⟨ha.1, hb.1⟩, ?_⟩
    intro y hy
    rcases List.mem_append.1 hy with hy | hy
    · exact ha.2 y hy
    · exact hb.2 y hy
end

theorem flatten_ne (x : Inline) : Ok x.flatten fun r => r ≠ [] := by
  unfold Inline.flatten
  split
  · refine .bind' fun pre _ => .bind' fun kids _ => ?_
    unfold Inline.prependFirst
    split
    · exact .pure (by simp)
    · exact .error
  · exact .pure (by simp)

/-- Only an empty span has no inlines in it. -/
theorem spanInlines_nil {is : List Inline} (h : Inline.spanInlines is = .ok []) : is = [] := by
  cases is with
  | nil => rfl
  | cons x rest =>
    unfold Inline.spanInlines at h
    simp only [bind, Except.bind] at h
    split at h
    · cases h
    · rename_i a ha
      split at h
      · cases h
      · simp only [pure, Except.pure, Except.ok.injEq] at h
        have := flatten_ne x a ha
        exact absurd (List.append_eq_nil_iff.1 h).1 this

theorem refText_ok {is : List Inline} {t : Token} {pass : Bool} (h : P.Inls is) (ht : P.Tok t) :
    Ok (Inline.refAddText is t pass) P.Inls := by
  have hx : ∀ s, P.Inl (.lit .text s t.locations) := fun _ => ht.range
  induction is with
  | nil =>
    unfold Inline.refAddText
    exact .pure (inls_one.2 (hx _))
  | cons y ys ih =>
    rw [inls_cons] at h
    unfold Inline.refAddText
    split
    · exact .pure (inls_one.2 (hx _))
    · rename_i he
      cases he
      exact .pure (inls_one.2 (h.1.addInline (hx _)))
    · rename_i he
      cases he
      exact .pure (inls_one.2 (show P.Range _ from h.1.range.merge ht.range))
    · exact .error
    · rename_i he
      cases he
      exact .bind (ih h.2) fun r hr => .pure (inls_cons.2 ⟨h.1, hr⟩)

theorem Inl.xref {h : SMap (List Inline)} (hh : ∀ kv ∈ h, P.Inls kv.2) {x : Inline} (hx : P.Inl x) : P.Inl (x.resolveXref h) := by
  unfold Inline.resolveXref
  split
  · rename_i t is m l
    rw [Inl] at hx ⊢
    refine ⟨hx.1, ?_⟩
    cases hg : h.get? t with
    | none => exact hx.2
    | some v => exact hh _ (SMap.get?_mem _ _ _ hg)
  · exact hx

/-! ## Blocks -/

open Block

theorem blks_mem {bs : List Block} : P.Blks bs ↔ ∀ b ∈ bs, P.Blk b := by
  induction bs with
  | nil => simp [Blks]
  | cons i is ih => simp [Blks, ih]

theorem blks_nil : P.Blks [] := by simp [Blks]
theorem blks_cons {b : Block} {bs : List Block} : P.Blks (b :: bs) ↔ P.Blk b ∧ P.Blks bs := by simp [Blks]
theorem blks_one {b : Block} : P.Blks [b] ↔ P.Blk b := by simp [Blks]
theorem blks_append {a b : List Block} : P.Blks (a ++ b) ↔ P.Blks a ∧ P.Blks b := by
  simp only [blks_mem, List.mem_append]
  exact ⟨fun h => ⟨fun i hi => h i (.inl hi), fun i hi => h i (.inr hi)⟩, fun h i hi => hi.elim (h.1 i) (h.2 i)⟩
theorem blks_reverse {a : List Block} : P.Blks a.reverse ↔ P.Blks a := by simp [blks_mem]
theorem blks_sub {a b : List Block} (h : P.Blks b) (hs : a ⊆ b) : P.Blks a :=
  blks_mem.2 fun i hi => blks_mem.1 h i (hs hi)

theorem Blk.range {b : Block} (h : P.Blk b) : P.Range b.locations := by
  cases b <;> simp only [Blk] at h
  all_goals first | exact h.1 | exact h

theorem Range.blocks {l : List Location} (h : P.Range l) {bs : List Block} (hb : P.Blks bs) : P.Range (recBlocks l bs) := by
  unfold recBlocks
  split
  · rename_i b hl
    exact h.merge (blks_mem.1 hb b (List.mem_of_getLast? hl)).range
  · exact h

theorem Range.inlines {l : List Location} (h : P.Range l) {is : List Inline} (hi : P.Inls is) : P.Range (recInlines l is) := by
  unfold recInlines
  split
  · rename_i b hl
    exact h.merge (inls_mem.1 hi b (List.mem_of_getLast? hl)).range
  · exact h

mutual
theorem consolidate_ok : ∀ {b : Block}, P.Blk b → P.Blk b.consolidate
  | .section .., h => by
    simp only [consolidate, Blk] at h ⊢
    exact ⟨(h.1.inlines h.2.1).blocks h.2.2, h.2⟩
  | .leaf .., h => by
    simp only [consolidate, Blk] at h ⊢
    exact ⟨h.1.inlines h.2, h.2⟩
  | .list v bs m l, h => by
    simp only [consolidate, Blk] at h ⊢
    exact ⟨h.1.blocks (consolidateL_ok h.2), consolidateL_ok h.2⟩
  | .dlist bs m l, h => by
    simp only [consolidate, Blk] at h ⊢
    exact ⟨h.1.blocks (consolidateL_ok h.2), consolidateL_ok h.2⟩
  | .listItem .., h => by
    simp only [consolidate, Blk] at h ⊢
    refine ⟨?_, h.2⟩
    split
    · exact h.1.inlines h.2.1
    · exact h.1.blocks h.2.2
  | .dlistItem .., h => by
    simp only [consolidate, Blk] at h ⊢
    refine ⟨?_, h.2⟩
    split
    · exact h.1.inlines h.2.2.1
    · exact h.1.blocks h.2.2.2
  | .parent .., h => by
    simp only [consolidate, Blk] at h ⊢
    exact ⟨h.1.blocks h.2.2, h.2⟩
  | .tableCell .., h => by
    simp only [consolidate, Blk] at h ⊢
    exact ⟨h.1.inlines h.2, h.2⟩
  | .brk .., h => by simpa only [consolidate] using h
  | .image .., h => by simpa only [consolidate] using h
theorem consolidateL_ok : ∀ {bs : List Block}, P.Blks bs → P.Blks (consolidateL bs)
  | [], h => by simpa only [consolidateL] using h
  | b :: bs, h => by
    simp only [consolidateL, Blks] at h ⊢
    exact ⟨consolidate_ok h.1, consolidateL_ok h.2⟩
end

theorem pushInline_ok {b c : Block} {i : Inline} (h : P.Blk b) (hi : P.Inl i) (hc : b.pushInline i = .ok c) : P.Blk c := by
  have h1 : P.Inls [i] := inls_one.2 hi
  cases b <;> simp only [Block.pushInline, reduceCtorEq, Except.ok.injEq] at hc <;> subst hc <;>
    simp only [Blk, inls_append] at h ⊢ <;> grind

theorem pushIntoLastList_ok {item : Block} (hi : P.Blk item) : ∀ {bs r : List Block}, P.Blks bs → pushIntoLastList item bs = .ok r → P.Blks r
  | [], r, _, h => by simp [pushIntoLastList] at h
  | [b], r, hb, h => by
    cases b <;> simp only [pushIntoLastList, reduceCtorEq, Except.ok.injEq] at h
    subst h
    rw [blks_one] at hb ⊢
    simp only [Blk] at hb
    apply consolidate_ok
    apply consolidate_ok
    exact ⟨hb.1, blks_append.2 ⟨hb.2, blks_one.2 hi⟩⟩
  | b :: b' :: bs, r, hb, h => by
    unfold pushIntoLastList at h
    simp only [bind, Except.bind] at h
    split at h
    · cases h
    · rename_i r' hr
      cases h
      rw [blks_cons] at hb ⊢
      exact ⟨hb.1, pushIntoLastList_ok hi hb.2 hr⟩

mutual
theorem pushBlock_ok {x c : Block} (hx : P.Blk x) : ∀ {b : Block}, P.Blk b → b.pushBlock x = .ok c → P.Blk c
  | .section t m v bs l, hb, h => by
    unfold Block.pushBlock at h
    simp only [Blk] at hb
    split at h
    · simp only [bind, Except.bind] at h
      split at h
      · cases h
      · rename_i r hr
        cases h
        exact consolidate_ok ⟨hb.1, hb.2.1, pushSectionL_ok hx hb.2.2 hr⟩
    · cases h
      exact consolidate_ok ⟨hb.1, hb.2.1, blks_append.2 ⟨hb.2.2, blks_one.2 hx⟩⟩
  | .list .., hb, h => by
    simp only [Block.pushBlock, Except.ok.injEq] at h
    subst h
    simp only [Blk] at hb
    exact consolidate_ok ⟨hb.1, blks_append.2 ⟨hb.2, blks_one.2 hx⟩⟩
  | .dlist .., hb, h => by
    simp only [Block.pushBlock, Except.ok.injEq] at h
    subst h
    simp only [Blk] at hb
    exact consolidate_ok ⟨hb.1, blks_append.2 ⟨hb.2, blks_one.2 hx⟩⟩
  | .listItem .., hb, h => by
    simp only [Block.pushBlock, Except.ok.injEq] at h
    subst h
    simp only [Blk] at hb
    exact consolidate_ok ⟨hb.1, hb.2.1, blks_append.2 ⟨hb.2.2, blks_one.2 hx⟩⟩
  | .dlistItem .., hb, h => by
    simp only [Block.pushBlock, Except.ok.injEq] at h
    subst h
    simp only [Blk] at hb
    exact consolidate_ok ⟨hb.1, hb.2.1, hb.2.2.1, blks_append.2 ⟨hb.2.2.2, blks_one.2 hx⟩⟩
  | .parent n v d bs t m l, hb, h => by
    unfold Block.pushBlock at h
    simp only [Blk] at hb
    split at h
    · simp only [bind, Except.bind] at h
      split at h
      · cases h
      · rename_i r hr
        cases h
        exact consolidate_ok ⟨hb.1, hb.2.1, pushIntoLastList_ok hx hb.2.2 hr⟩
    · split at h
      · cases h
      · cases h
        exact consolidate_ok ⟨hb.1, hb.2.1, blks_append.2 ⟨hb.2.2, blks_one.2 hx⟩⟩
  | .brk .., _, h => by simp [Block.pushBlock] at h
  | .image .., _, h => by simp [Block.pushBlock] at h
  | .leaf .., _, h => by simp [Block.pushBlock] at h
  | .tableCell .., _, h => by simp [Block.pushBlock] at h
theorem pushSectionL_ok {x : Block} (hx : P.Blk x) : ∀ {bs r : List Block}, P.Blks bs → pushSectionL bs x = .ok r → P.Blks r
  | [], r, _, h => by
    simp only [pushSectionL, Except.ok.injEq] at h
    subst h
    exact blks_one.2 hx
  | [b], r, hb, h => by
    rw [blks_one] at hb
    unfold pushSectionL at h
    split at h
    · simp only [bind, Except.bind] at h
      split at h
      · cases h
      · rename_i r hr
        cases h
        exact blks_one.2 (pushBlock_ok hx hb hr)
    · cases h
      exact blks_cons.2 ⟨hb, blks_one.2 hx⟩
  | b :: b' :: bs, r, hb, h => by
    unfold pushSectionL at h
    simp only [bind, Except.bind] at h
    split at h
    · cases h
    · rename_i r' hr
      cases h
      rw [blks_cons] at hb ⊢
      exact ⟨hb.1, pushSectionL_ok hx hb.2 hr⟩
end

theorem tableInfo_ok {b : Block} (h : P.Blk b) : Ok b.tableInfo P.Blk := by
  unfold tableInfo
  split
  · rename_i n v d bs t m l
    split
    · rename_i b0 b1 rest
      refine .bind' fun first _ => .bind' fun second _ => ?_
      have fin' : ∀ mm, Ok (match mm with
          | none => (.error .exit : M Block)
          | some (mm : Meta) => do
            let mm' ← mm.simplifyCols
            return .parent n v d (b0 :: b1 :: rest) t (some mm') l) P.Blk := by
        intro mm
        split
        · exact .error
        · exact .bind' fun r hr => .pure h
      refine .ite (fun _ => ?_) fun _ => fin' m
      split
      · exact .error
      · exact fin' _
    · exact .pure h
  · exact .error

theorem title_ok {b : Block} (h : P.Blk b) : P.Inls (b.title.getD []) := by
  cases b <;> simp only [Blk] at h <;> simp [title, inls_nil, h]

theorem ownId_ok {b : Block} (h : P.Blk b) : ∀ kv ∈ b.ownId, P.Inls kv.2 := by
  unfold ownId
  split
  · intro kv hkv
    simp at hkv
    subst hkv
    exact title_ok h
  · intro _ h; cases h

theorem children_ok {b : Block} (h : P.Blk b) : P.Blks b.children := by
  cases b <;> simp only [Blk] at h <;> simp [children, blks_nil, h]

mutual
theorem idHashes_ok : ∀ {b : Block}, P.Blk b → ∀ kv ∈ b.idHashes, P.Inls kv.2
  | .section .., h => by simp only [idHashes]; exact Origin.extend_val (ownId_ok h) (idHashesL_ok (children_ok h))
  | .parent .., h => by simp only [idHashes]; exact Origin.extend_val (ownId_ok h) (idHashesL_ok (children_ok h))
  | .list .., h => by simp only [idHashes]; exact Origin.extend_val (ownId_ok h) (idHashesL_ok (children_ok h))
  | .dlist .., h => by simp only [idHashes]; exact Origin.extend_val (ownId_ok h) (idHashesL_ok (children_ok h))
  | .listItem .., h => by simp only [idHashes]; exact Origin.extend_val (ownId_ok h) (idHashesL_ok (children_ok h))
  | .dlistItem .., h => by simp only [idHashes]; exact Origin.extend_val (ownId_ok h) (idHashesL_ok (children_ok h))
  | .brk .., h => by simp only [idHashes]; exact ownId_ok h
  | .image .., h => by simp only [idHashes]; exact ownId_ok h
  | .leaf .., h => by simp only [idHashes]; exact ownId_ok h
  | .tableCell .., h => by simp only [idHashes]; exact ownId_ok h
theorem idHashesL_ok : ∀ {bs : List Block}, P.Blks bs → ∀ kv ∈ idHashesL bs, P.Inls kv.2
  | [], _ => by simp only [idHashesL]; intro _ h; cases h
  | b :: bs, h => by
    rw [blks_cons] at h
    simp only [idHashesL]
    exact Origin.extend_val (idHashes_ok h.1) (idHashesL_ok h.2)
end

theorem inls_map {f : Inline → Inline} (hf : ∀ i, P.Inl i → P.Inl (f i)) {is : List Inline} (h : P.Inls is) : P.Inls (is.map f) := by
  rw [inls_mem] at h ⊢
  intro i hi
  obtain ⟨j, hj, rfl⟩ := List.mem_map.1 hi
  exact hf j (h j hj)

mutual
theorem mapInlines_ok {f : Inline → Inline} (hf : ∀ i, P.Inl i → P.Inl (f i)) : ∀ {b : Block}, P.Blk b → P.Blk (b.mapInlines f)
  | .section .., h => by
    simp only [mapInlines, Blk] at h ⊢
    exact ⟨h.1, inls_map hf h.2.1, mapInlinesL_ok hf h.2.2⟩
  | .parent .., h => by
    simp only [mapInlines, Blk] at h ⊢
    exact ⟨h.1, inls_map hf h.2.1, mapInlinesL_ok hf h.2.2⟩
  | .list .., h => by
    simp only [mapInlines, Blk] at h ⊢
    exact ⟨h.1, mapInlinesL_ok hf h.2⟩
  | .dlist .., h => by
    simp only [mapInlines, Blk] at h ⊢
    exact ⟨h.1, mapInlinesL_ok hf h.2⟩
  | .listItem .., h => by
    simp only [mapInlines, Blk] at h ⊢
    exact ⟨h.1, inls_map hf h.2.1, mapInlinesL_ok hf h.2.2⟩
  | .dlistItem .., h => by
    simp only [mapInlines, Blk] at h ⊢
    exact ⟨h.1, h.2.1, inls_map hf h.2.2.1, mapInlinesL_ok hf h.2.2.2⟩
  | .leaf .., h => by
    simp only [mapInlines, Blk] at h ⊢
    exact ⟨h.1, inls_map hf h.2⟩
  | .tableCell .., h => by
    simp only [mapInlines, Blk] at h ⊢
    exact ⟨h.1, inls_map hf h.2⟩
  | .brk .., h => by simpa only [mapInlines] using h
  | .image .., h => by simpa only [mapInlines] using h
theorem mapInlinesL_ok {f : Inline → Inline} (hf : ∀ i, P.Inl i → P.Inl (f i)) : ∀ {bs : List Block}, P.Blks bs → P.Blks (mapInlinesL f bs)
  | [], _ => by simp only [mapInlinesL]; exact blks_nil
  | b :: bs, h => by
    rw [blks_cons] at h
    simp only [mapInlinesL]
    exact blks_cons.2 ⟨mapInlines_ok hf h.1, mapInlinesL_ok hf h.2⟩
end

theorem addMeta_ok {b : Block} {m : Meta} (h : P.Blk b) : Ok (b.addMeta m) P.Blk := by
  unfold addMeta
  refine .ite (fun _ => .pure h) fun _ => ?_
  cases b <;> simp only <;> first | exact .error | (refine .pure ?_; simp only [Blk] at h ⊢; exact h)

theorem addLocations_ok {b : Block} {l : List Location} (h : P.Blk b) (hl : P.Range l) : Ok (b.addLocations l) P.Blk := by
  unfold addLocations
  split
  · exact .pure ⟨h.1.merge hl, h.2⟩
  · exact .error

/-! ## Graphs -/

theorem Graph.push {g g' : Asg} {b : Block} (hg : P.Graph g) (hb : P.Blk b) (h : g.pushBlock b = .ok g') : P.Graph g' := by
  have hc := consolidate_ok hb
  have hh := Origin.extend_val hg.titles (idHashes_ok hc)
  unfold Asg.pushBlock at h
  simp only at h
  split at h
  · simp only [bind, Except.bind] at h
    split at h
    · cases h
    · rename_i bs hbs
      cases h
      exact ⟨hg.header, hh, pushSectionL_ok hc hg.blocks hbs, hg.loc⟩
  · cases h
    exact ⟨hg.header, hh, blks_append.2 ⟨hg.blocks, blks_one.2 hc⟩, hg.loc⟩

theorem Graph.consolidate {g : Asg} (hg : P.Graph g) : P.Graph g.consolidate := by
  have h1 : P.Graph g.consolidateLocations := by
    unfold Asg.consolidateLocations
    split
    · rename_i b hl
      exact ⟨hg.header, hg.titles, hg.blocks, hg.loc.merge (blks_mem.1 hg.blocks b (List.mem_of_getLast? hl)).range⟩
    · split
      · rename_i h hh
        exact ⟨hg.header, hg.titles, hg.blocks, hg.loc.merge (hg.header h hh).1⟩
      · exact hg
  exact ⟨h1.header, h1.titles, mapInlinesL_ok (fun i hi => hi.xref h1.titles) h1.blocks, h1.loc⟩

end Adoc.Spec.Places
