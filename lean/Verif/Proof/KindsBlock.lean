import Verif.Proof.KindsScan
import Verif.Proof.OriginParser
/-!
# Kinds of blocks: blocks

Adding a block to another keeps the kinds where they belong, if the block fits.
-/
namespace Adoc.Kinds

open Block

/-- What is kept: with `fl` all rules, otherwise only the one for tables. -/
def Hold (fl : Bool) (k c : Kind) : Prop := fl = true ∨ k = .box .table → MayHold k c

/-- Everything in a block is where it belongs. -/
inductive Deep (fl : Bool) : Block → Prop
  | mk {b : Block} : (∀ c ∈ b.children, Hold fl (kind b) (kind c)) → (∀ c ∈ b.children, Deep fl c) → Deep fl b

/-- Same kind and same contents. -/
def Same (a b : Block) : Prop := kind a = kind b ∧ a.children = b.children

section
variable {fl : Bool}

theorem Deep.own {b : Block} : Deep fl b → ∀ c ∈ b.children, Hold fl (kind b) (kind c) | .mk h _ => h
theorem Deep.sub {b : Block} : Deep fl b → ∀ c ∈ b.children, Deep fl c | .mk _ h => h

theorem Deep.same {a b : Block} (h : Deep fl b) (hs : Same a b) : Deep fl a :=
  .mk (by rw [hs.1, hs.2]; exact h.own) (by rw [hs.2]; exact h.sub)

theorem Deep.empty {b : Block} (h : b.children = []) : Deep fl b := .mk (by simp [h]) (by simp [h])

theorem kind_consolidate (b : Block) : kind b.consolidate = kind b := by cases b <;> simp [consolidate, kind]

theorem mem_consolidateL {bs : List Block} {c : Block} (h : c ∈ consolidateL bs) : ∃ d ∈ bs, c = d.consolidate := by
  induction bs with
  | nil => simp [consolidateL] at h
  | cons b bs ih =>
    simp only [consolidateL, List.mem_cons] at h
    rcases h with h | h
    · exact ⟨b, by simp, h⟩
    · obtain ⟨d, hd, he⟩ := ih h
      exact ⟨d, by simp [hd], he⟩

theorem children_consolidate {b c : Block} (h : c ∈ b.consolidate.children) : ∃ d ∈ b.children, c = d ∨ c = d.consolidate := by
  cases b with
  | list v bs m l =>
    simp only [consolidate, children] at h
    obtain ⟨d, hd, he⟩ := mem_consolidateL h
    exact ⟨d, hd, .inr he⟩
  | dlist bs m l =>
    simp only [consolidate, children] at h
    obtain ⟨d, hd, he⟩ := mem_consolidateL h
    exact ⟨d, hd, .inr he⟩
  | _ => simp only [consolidate, children] at h ⊢; first | exact ⟨c, h, .inl rfl⟩ | (cases h; done)

theorem Deep.consolidate {b : Block} (h : Deep fl b) : Deep fl b.consolidate := by
  induction h with
  | mk h1 h2 ih =>
    refine .mk ?_ ?_
    · intro c hc
      obtain ⟨d, hd, he⟩ := children_consolidate hc
      have : kind c = kind d := by
        rcases he with rfl | rfl
        · rfl
        · exact kind_consolidate d
      rw [kind_consolidate, this]
      exact h1 d hd
    · intro c hc
      obtain ⟨d, hd, he⟩ := children_consolidate hc
      rcases he with rfl | rfl
      · exact h2 _ hd
      · exact ih _ hd

theorem getLast_consolidate (b : Block) (hl : ∀ v, kind b ≠ .list v) (hd : kind b ≠ .dlist) : b.consolidate.children = b.children := by
  cases b <;> simp [Block.consolidate, children, kind] at *

/-! ## Adding inlines and metadata -/

theorem Same.refl (b : Block) : Same b b := ⟨rfl, rfl⟩
theorem Same.trans {a b c : Block} (h : Same a b) (h' : Same b c) : Same a c := ⟨h.1.trans h'.1, h.2.trans h'.2⟩

theorem pushInline_same {b c : Block} {i : Inline} (h : b.pushInline i = .ok c) : Same c b := by
  cases b <;> simp only [Block.pushInline, reduceCtorEq, Except.ok.injEq] at h <;> subst h <;> exact ⟨rfl, rfl⟩

theorem pushInlines_same {b : Block} {is : List Inline} : Ok (Parser.pushInlines b is) fun c => Same c b := by
  induction is generalizing b with
  | nil => exact .pure (.refl b)
  | cons i is ih => exact .bind' fun c hc => ih.mono fun d hd => hd.trans (pushInline_same (liftB_ok hc))

theorem addMeta_same {b : Block} {m : Meta} : Ok (b.addMeta m) fun c => Same c b := by
  unfold Block.addMeta
  refine .ite (fun _ => .pure (.refl b)) fun _ => ?_
  cases b <;> simp only <;> first | exact .error | exact .pure ⟨rfl, rfl⟩

theorem addLocations_same {b : Block} {l : List Location} : Ok (b.addLocations l) fun c => Same c b := by
  unfold Block.addLocations
  split
  · exact .pure ⟨rfl, rfl⟩
  · exact .error

theorem tableInfo_same {b : Block} : Ok b.tableInfo fun c => Same c b := by
  unfold Block.tableInfo
  split
  · rename_i n v d bs t m l
    split
    · rename_i b0 b1 rest
      refine .bind' fun first _ => .bind' fun second _ => ?_
      have fin' : ∀ mm : Option Meta, Ok (match mm with
          | none => (.error .exit : M Block)
          | some mm => do
            let mm' ← mm.simplifyCols
            return .parent n v d (b0 :: b1 :: rest) t (some mm') l) fun c => Same c (.parent n v d (b0 :: b1 :: rest) t m l) := by
        intro mm
        split
        · exact .error
        · exact .bind' fun _ _ => .pure ⟨rfl, rfl⟩
      refine .ite (fun _ => ?_) fun _ => fin' m
      split
      · exact .error
      · exact fin' _
    · exact .pure ⟨rfl, rfl⟩
  · exact .error

theorem kind_mapInlines (f : Inline → Inline) (b : Block) : kind (b.mapInlines f) = kind b := by cases b <;> simp [mapInlines, kind]

theorem mem_mapInlinesL {f : Inline → Inline} {bs : List Block} {c : Block} (h : c ∈ mapInlinesL f bs) : ∃ d ∈ bs, c = d.mapInlines f := by
  induction bs with
  | nil => simp [mapInlinesL] at h
  | cons b bs ih =>
    simp only [mapInlinesL, List.mem_cons] at h
    rcases h with h | h
    · exact ⟨b, by simp, h⟩
    · obtain ⟨d, hd, he⟩ := ih h
      exact ⟨d, by simp [hd], he⟩

theorem children_mapInlines (f : Inline → Inline) (b : Block) : (b.mapInlines f).children = mapInlinesL f b.children := by
  cases b <;> simp [mapInlines, children, mapInlinesL]

theorem Deep.mapInlines {f : Inline → Inline} {b : Block} (h : Deep fl b) : Deep fl (b.mapInlines f) := by
  induction h with
  | mk h1 h2 ih =>
    refine .mk ?_ ?_ <;> intro c hc <;> rw [children_mapInlines] at hc <;> obtain ⟨d, hd, rfl⟩ := mem_mapInlinesL hc
    · rw [kind_mapInlines, kind_mapInlines]; exact h1 d hd
    · exact ih d hd

/-! ## Adding blocks -/

/-- A block may be added to another. -/
def Fits (fl : Bool) (a x : Block) : Prop := fl = true → match kind a with
  | .list v => ∃ k, kind x = .item k ∧ marks v k
  | .dlist => kind x = .entry
  | .box _ => ∀ k, kind x = .item k → ∀ l, a.children.getLast? = some l → ∀ v, kind l = .list v → marks v k
  | _ => True

theorem pushIntoLast {item : Block} : ∀ {bs r : List Block}, pushIntoLastList item bs = .ok r →
    ∃ i v items m l, bs = i ++ [.list v items m l] ∧ r = i ++ [(Block.list v (items ++ [item]) m l).consolidate.consolidate]
  | [], r, h => by simp [pushIntoLastList] at h
  | [b], r, h => by
    cases b <;> simp only [pushIntoLastList, reduceCtorEq, Except.ok.injEq] at h
    subst h
    exact ⟨[], _, _, _, _, rfl, rfl⟩
  | b :: b' :: bs, r, h => by
    unfold pushIntoLastList at h
    simp only [bind, Except.bind] at h
    split at h
    · cases h
    · rename_i r' hr
      cases h
      obtain ⟨i, v, items, m, l, h1, h2⟩ := pushIntoLast hr
      exact ⟨b :: i, v, items, m, l, by rw [h1]; rfl, by rw [h2]; rfl⟩

theorem deep_add {a b x : Block} (h : Deep fl a) (hx : Deep fl x) (hk : kind b = kind a) (hc : b.children = a.children ++ [x])
    (hh : Hold fl (kind a) (kind x)) : Deep fl b := by
  refine .mk ?_ ?_ <;> intro c hm <;> rw [hc] at hm <;> rcases List.mem_append.1 hm with hm | hm
  · rw [hk]; exact h.own c hm
  · rw [List.mem_singleton] at hm; subst hm; rw [hk]; exact hh
  · exact h.sub c hm
  · rw [List.mem_singleton] at hm; subst hm; exact hx

theorem isListItem_kind {b : Block} : b.isListItem = true ↔ ∃ k, kind b = .item k := by cases b <;> simp [isListItem, kind]
theorem isDlistItem_kind {b : Block} : b.isDlistItem = true ↔ kind b = .entry := by cases b <;> simp [isDlistItem, kind]
theorem isTableCell_kind {b : Block} : b.isTableCell = true ↔ kind b = .cell := by cases b <;> simp [isTableCell, kind]
theorem isAnyItem_kind {b : Block} : b.isAnyItem = true ↔ (∃ k, kind b = .item k) ∨ kind b = .entry := by cases b <;> simp [isAnyItem, kind]
theorem isSection_kind {b : Block} (h : b.isSection = true) : kind b = .other := by cases b <;> simp [isSection] at h; rfl

theorem hold_true {k c : Kind} (h : MayHold k c) : Hold fl k c := fun _ => h

theorem section_fits {a x : Block} (hs : x.isSection = true) (h : a.takesBlock x = true) : Fits fl a x := by
  intro _
  have := isSection_kind hs
  cases a with
  | list => simp [takesBlock] at h; cases x <;> simp [isSection, isListItem] at *
  | dlist => simp [takesBlock] at h; cases x <;> simp [isSection, isDlistItem] at *
  | parent =>
    intro k hk
    rw [show kind x = .other from this] at hk
    cases hk
  | _ => trivial

mutual
theorem pushBlock_deep {x c : Block} (hx : Deep fl x) : ∀ {a : Block}, Deep fl a → Fits fl a x → a.pushBlock x = .ok c → Deep fl c ∧ kind c = kind a
  | .section t m v bs l, ha, hf, h => by
    unfold Block.pushBlock at h
    split at h
    · simp only [bind, Except.bind] at h
      split at h
      · cases h
      · rename_i hs _ r hr
        cases h
        refine ⟨Deep.consolidate (.mk ?_ (pushSectionL_deep hx hs ha.sub hr)), kind_consolidate _⟩
        exact fun c _ => hold_true trivial
    · cases h
      exact ⟨Deep.consolidate (deep_add ha hx rfl rfl (hold_true trivial)), kind_consolidate _⟩
  | .list v items m l, ha, hf, h => by
    simp only [Block.pushBlock, Except.ok.injEq] at h
    subst h
    refine ⟨Deep.consolidate (deep_add ha hx rfl rfl fun h => ?_), kind_consolidate _⟩
    rcases h with h | h
    · exact hf h
    · cases h
  | .dlist items m l, ha, hf, h => by
    simp only [Block.pushBlock, Except.ok.injEq] at h
    subst h
    refine ⟨Deep.consolidate (deep_add ha hx rfl rfl fun h => ?_), kind_consolidate _⟩
    rcases h with h | h
    · exact hf h
    · cases h
  | .listItem .., ha, hf, h => by
    simp only [Block.pushBlock, Except.ok.injEq] at h
    subst h
    exact ⟨Deep.consolidate (deep_add ha hx rfl rfl (hold_true trivial)), kind_consolidate _⟩
  | .dlistItem .., ha, hf, h => by
    simp only [Block.pushBlock, Except.ok.injEq] at h
    subst h
    exact ⟨Deep.consolidate (deep_add ha hx rfl rfl (hold_true trivial)), kind_consolidate _⟩
  | .parent n v d bs t m l, ha, hf, h => by
    unfold Block.pushBlock at h
    split at h
    · rename_i hi
      simp only [bind, Except.bind] at h
      split at h
      · cases h
      · rename_i r hr
        cases h
        obtain ⟨i, w, items, m', l', h1, h2⟩ := pushIntoLast hr
        have hl : Deep fl (.list w items m' l') := ha.sub _ (by simp [children, h1])
        have hl2 : Deep fl (.list w (items ++ [x]) m' l') := by
          refine deep_add hl hx rfl rfl fun h => ?_
          rcases h with h | h
          · obtain ⟨k, hk⟩ := isListItem_kind.1 hi
            have := hf h
            simp only [kind] at this
            exact ⟨k, hk, this k hk (.list w items m' l') (by simp [children, h1]) w rfl⟩
          · cases h
        refine ⟨Deep.consolidate (.mk ?_ ?_), kind_consolidate _⟩
        · intro c hc
          simp only [children, h2, List.mem_append, List.mem_singleton] at hc
          rcases hc with hc | hc
          · exact ha.own c (by simp [children, h1, hc])
          · subst hc
            rw [kind_consolidate, kind_consolidate]
            exact ha.own (.list w items m' l') (by simp [children, h1])
        · intro c hc
          simp only [children, h2, List.mem_append, List.mem_singleton] at hc
          rcases hc with hc | hc
          · exact ha.sub c (by simp [children, h1, hc])
          · subst hc
            exact hl2.consolidate.consolidate
    · split at h
      · cases h
      · rename_i hn
        cases h
        refine ⟨Deep.consolidate (deep_add ha hx rfl rfl fun _ => ?_), kind_consolidate _⟩
        cases n
        case table =>
          have : x.isTableCell = true := by simpa using hn
          exact isTableCell_kind.1 this
        all_goals trivial
  | .brk .., _, _, h => by simp [Block.pushBlock] at h
  | .image .., _, _, h => by simp [Block.pushBlock] at h
  | .leaf .., _, _, h => by simp [Block.pushBlock] at h
  | .tableCell .., _, _, h => by simp [Block.pushBlock] at h
theorem pushSectionL_deep {x : Block} (hx : Deep fl x) (hs : x.isSection = true) : ∀ {bs r : List Block}, (∀ b ∈ bs, Deep fl b) → pushSectionL bs x = .ok r →
    ∀ b ∈ r, Deep fl b
  | [], r, _, h => by
    simp only [pushSectionL, Except.ok.injEq] at h
    subst h
    simpa using hx
  | [b], r, hb, h => by
    have hb := hb b (by simp)
    unfold pushSectionL at h
    split at h
    · rename_i ht
      simp only [bind, Except.bind] at h
      split at h
      · cases h
      · rename_i r hr
        cases h
        simpa using (pushBlock_deep hx hb (section_fits hs ht) hr).1
    · cases h
      intro c hc
      simp only [List.mem_cons, List.not_mem_nil, or_false] at hc
      rcases hc with rfl | rfl
      · exact hb
      · exact hx
  | b :: b' :: bs, r, hb, h => by
    unfold pushSectionL at h
    simp only [bind, Except.bind] at h
    split at h
    · cases h
    · rename_i r' hr
      cases h
      intro c hc
      rcases List.mem_cons.1 hc with rfl | hc
      · exact hb c (by simp)
      · exact pushSectionL_deep hx hs (fun d hd => hb d (List.mem_cons_of_mem _ hd)) hr c hc
end

/-- The children of a box after adding a block that is not an item. -/
theorem pushBlock_last {a x c : Block} {n : ParentName} (hk : kind a = .box n) (hi : ∀ k, kind x ≠ .item k) (h : a.pushBlock x = .ok c) :
    c.children = a.children ++ [x] := by
  cases a <;> simp [kind] at hk
  unfold Block.pushBlock at h
  have : x.isListItem = false := by
    cases hx : x.isListItem with
    | false => rfl
    | true => obtain ⟨k, hk⟩ := isListItem_kind.1 hx; exact absurd hk (hi k)
  rw [this] at h
  simp only [Bool.false_eq_true, if_false] at h
  split at h
  · cases h
  · cases h
    simp [Block.consolidate, children]

theorem graphPush_deep {g g' : Asg} {b : Block} (hg : ∀ x ∈ g.blocks, Deep fl x) (hb : Deep fl b) (h : g.pushBlock b = .ok g') :
    ∀ x ∈ g'.blocks, Deep fl x := by
  have hc := hb.consolidate
  unfold Asg.pushBlock at h
  simp only at h
  split at h
  · rename_i hs
    simp only [bind, Except.bind] at h
    split at h
    · cases h
    · rename_i bs hbs
      cases h
      exact pushSectionL_deep hc hs hg hbs
  · cases h
    intro x hx
    rcases List.mem_append.1 hx with hx | hx
    · exact hg x hx
    · rw [List.mem_singleton] at hx; subst hx; exact hc

theorem graphConsolidate_deep {g : Asg} (hg : ∀ x ∈ g.blocks, Deep fl x) : ∀ x ∈ g.consolidate.blocks, Deep fl x := by
  have h1 : ∀ x ∈ g.consolidateLocations.blocks, Deep fl x := by
    unfold Asg.consolidateLocations
    split
    · exact hg
    · split <;> exact hg
  intro x hx
  obtain ⟨d, hd, rfl⟩ := mem_mapInlinesL hx
  exact (h1 d hd).mapInlines

/-! ## Blocks on the stack -/

/-- What an item or an entry may lie on. -/
def Below (b c : Block) : Prop := match kind b with
  | .item k => (∃ v, kind c = .list v ∧ marks v k) ∨ kind c = .words
      ∨ (∃ n, kind c = .box n) ∧ ∀ x, c.children.getLast? = some x → ∀ v, kind x ≠ .list v
  | .entry => ∀ v, kind c ≠ .list v
  | _ => True

/-- Blocks that are neither items nor entries. -/
def free (b : Block) : Prop := match kind b with
  | .item _ => False
  | .entry => False
  | _ => True

theorem free.below {b : Block} (h : free b) (c : Block) : Below b c := by
  unfold free at h
  unfold Below
  split at h
  · exact h.elim
  · exact h.elim
  · trivial

theorem Below.left {a a' c : Block} (h : Below a c) (hk : kind a' = kind a) : Below a' c := by
  unfold Below at h ⊢; rwa [hk]

theorem Below.right {a c c' : Block} (h : Below a c) (hs : Same c' c) : Below a c' := by
  unfold Below at h ⊢; rwa [hs.1, hs.2]

theorem fits_of_takes {a x : Block} (ht : a.takesBlock x = true) (hb : fl = true → Below x a) : Fits fl a x := by
  intro hfl
  have hb := hb hfl
  cases a with
  | list v items m l =>
    obtain ⟨k, hk⟩ := isListItem_kind.1 (show x.isListItem = true from ht)
    simp only [kind]
    unfold Below at hb
    rw [hk] at hb
    simp only [kind, Kind.list.injEq, reduceCtorEq, exists_false, false_and, or_false] at hb
    obtain ⟨v', hv, hm⟩ := hb
    exact ⟨k, hk, hv ▸ hm⟩
  | dlist => exact isDlistItem_kind.1 (show x.isDlistItem = true from ht)
  | parent n v d bs t m l =>
    intro k hk y hy v hv
    unfold Below at hb
    rw [show kind x = .item k from hk] at hb
    simp only [kind, reduceCtorEq, false_and, exists_false, false_or] at hb
    exact absurd hv (hb.2 y hy v)
  | _ => trivial

theorem fits_of_item {a x : Block} (hi : x.isAnyItem = true) (hb : fl = true → Below x a) : Fits fl a x := by
  intro hfl
  have hb := hb hfl
  rcases isAnyItem_kind.1 hi with ⟨k, hk⟩ | hk
  · unfold Below at hb
    rw [hk] at hb
    cases a with
    | list v items m l =>
      simp only [kind, Kind.list.injEq, reduceCtorEq, exists_false, false_and, or_false] at hb
      obtain ⟨v', hv, hm⟩ := hb
      exact ⟨k, hk, hv ▸ hm⟩
    | dlist => simp [kind] at hb
    | parent n v d bs t m l =>
      simp only [kind]
      intro k' _ y hy v hv
      simp only [kind, reduceCtorEq, false_and, exists_false, false_or] at hb
      exact absurd hv (hb.2 y hy v)
    | _ => trivial
  · unfold Below at hb
    rw [hk] at hb
    cases a with
    | list v => exact absurd rfl (hb v)
    | dlist => exact hk
    | parent =>
      intro k h
      rw [show kind x = .entry from hk] at h
      cases h
    | _ => trivial

/-- A stack in which items and entries lie where they may. -/
def Stands : List Block → Prop
  | [] => True
  | b :: r => (∀ c, r.head? = some c → Below b c) ∧ Stands r

theorem Stands.tail {l : List Block} (h : Stands l) : Stands l.tail := by
  cases l with
  | nil => trivial
  | cons b r => exact h.2

theorem Stands.swap {a a' : Block} {r : List Block} (h : Stands (a :: r)) (hk : kind a' = kind a) : Stands (a' :: r) :=
  ⟨fun c hc => (h.1 c hc).left hk, h.2⟩

theorem Stands.free {x : Block} {r : List Block} (h : Stands r) (hx : free x) : Stands (x :: r) := ⟨fun c _ => hx.below c, h⟩

theorem Stands.split {a b : List Block} (h : Stands (a ++ b)) : Stands b := by
  induction a with
  | nil => exact h
  | cons x a ih => exact ih h.2

theorem Stands.init {a b : List Block} (h : Stands (a ++ b)) : Stands a := by
  induction a with
  | nil => trivial
  | cons x a ih =>
    refine ⟨fun c hc => h.1 c ?_, ih h.2⟩
    cases a with
    | nil => cases hc
    | cons y a => exact hc

/-- Blocks that an item may lie on without going into them. -/
def plain (b : Block) : Prop :=
  kind b = .words ∨ (∃ n, kind b = .box n) ∧ ∀ x, b.children.getLast? = some x → ∀ v, kind x ≠ .list v

theorem plain.free {b : Block} (h : plain b) : Kinds.free b := by
  unfold Kinds.free
  rcases h with h | ⟨⟨n, h⟩, -⟩ <;> rw [h] <;> trivial

theorem plain.same {a b : Block} (h : plain b) (hs : Same a b) : plain a := by unfold plain at h ⊢; rwa [hs.1, hs.2]

/-- Any block may lie on a plain one. -/
theorem plain.under {b c : Block} (h : plain c) : Below b c := by
  unfold Below
  split
  · exact .inr h
  · rcases h with h | ⟨⟨n, h⟩, -⟩ <;> rw [h] <;> intro v hv <;> cases hv
  · trivial

/-- What adding inlines does to a stack: nothing, or a new block at the top, or a change of the text of the block at the top. -/
def Top (l l' : List Block) : Prop :=
  l' = l ∨ (∃ x, plain x ∧ l' = x :: l) ∨ ∃ a a' r, l = a :: r ∧ l' = a' :: r ∧ Same a' a

theorem Top.stands {l l' : List Block} (h : Top l l') (hs : Stands l) : Stands l' := by
  rcases h with rfl | ⟨x, hx, rfl⟩ | ⟨a, a', r, rfl, rfl, hk⟩
  · exact hs
  · exact hs.free hx.free
  · exact hs.swap hk.1

end
end Adoc.Kinds
