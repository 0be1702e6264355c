import Verif.Proof.Json
/-!
# The JSON value of a graph
-/
namespace Adoc.Json
open Spec

/-! ## What is shown determines the value and is determined by it -/

theorem fields_inj {fs fs' : List (Str × Option Json)} (h : fields fs = fields fs')
    (hk : fs.map (·.1) = fs'.map (·.1)) (hn : (fs.map (·.1)).Nodup) : fs = fs' := by
  simp only [fields, Json.obj.injEq] at h
  induction fs generalizing fs' with
  | nil =>
    cases fs' with
    | nil => rfl
    | cons => cases hk
  | cons f fs ih =>
    cases fs' with
    | nil => cases hk
    | cons f' fs' =>
      obtain ⟨k, v⟩ := f
      obtain ⟨k', v'⟩ := f'
      simp only [List.map_cons, List.cons.injEq] at hk
      obtain ⟨rfl, hk⟩ := hk
      simp only [List.map_cons, List.nodup_cons] at hn
      have hnot : ∀ (l : List (Str × Option Json)) x r, k ∉ l.map (·.1) →
          l.filterMap (fun f => f.2.map fun v => (f.1, v)) ≠ (k, x) :: r := by
        intro l x r hl he
        have hm : (k, x) ∈ l.filterMap (fun f => f.2.map fun v => (f.1, v)) := by rw [he]; simp
        obtain ⟨f, hf, hx⟩ := List.mem_filterMap.1 hm
        cases hv : f.2 with
        | none => rw [hv] at hx; cases hx
        | some y =>
          rw [hv] at hx
          simp only [Option.map_some, Option.some.injEq, Prod.mk.injEq] at hx
          exact hl (List.mem_map.2 ⟨f, hf, hx.1⟩)
      cases v with
      | none =>
        cases v' with
        | none =>
          simp only [List.filterMap_cons, Option.map_none] at h
          rw [ih hk hn.2 h]
        | some y =>
          simp only [List.filterMap_cons, Option.map_none, Option.map_some] at h
          exact absurd h (hnot fs y _ hn.1)
      | some x =>
        cases v' with
        | none =>
          simp only [List.filterMap_cons, Option.map_none, Option.map_some] at h
          exact absurd h.symm (hnot fs' x _ (by rw [← hk]; exact hn.1))
        | some y =>
          simp only [List.filterMap_cons, Option.map_some, List.cons.injEq, Prod.mk.injEq, true_and] at h
          rw [h.1, ih hk hn.2 h.2]

theorem fields_name {n n' : Json} {k : Str} {fs fs' : List (Str × Option Json)}
    (h : fields ((k, some n) :: fs) = fields ((k, some n') :: fs')) : n = n' := by
  simp only [fields, List.filterMap_cons, Option.map_some, Json.obj.injEq, List.cons.injEq, Prod.mk.injEq, true_and] at h
  exact h.1

theorem map_inj {α β : Type} {f : α → β} (hf : ∀ a b, f a = f b → a = b) : ∀ {l l' : List α}, l.map f = l'.map f → l = l'
  | [], [], _ => rfl
  | [], _ :: _, h => by cases h
  | _ :: _, [], h => by cases h
  | a :: l, b :: l', h => by
    simp only [List.map_cons, List.cons.injEq] at h
    rw [hf a b h.1, map_inj hf h.2]

theorem str_inj (a b : Str) (h : Json.str a = Json.str b) : a = b := by cases h; rfl

theorem unlessEmpty_inj {l l' : List Json} (h : unlessEmpty l = unlessEmpty l') : l = l' := by
  unfold unlessEmpty at h
  cases l with
  | nil => cases l' with
    | nil => rfl
    | cons => simp at h
  | cons => cases l' with
    | nil => simp at h
    | cons => simpa using h

theorem ofLocation_inj (a b : Location) (h : ofLocation a = ofLocation b) : a = b := by
  have := fields_inj h rfl (by simp only [List.map]; decide)
  simp only [List.cons.injEq, Prod.mk.injEq, true_and, Option.some.injEq, Json.num.injEq, and_true] at this
  obtain ⟨h1, h2, h3⟩ := this
  have h3 := map_inj str_inj (unlessEmpty_inj h3)
  cases a; cases b
  simp only at h1 h2 h3
  rw [h1, h2, h3]

theorem ofLocations_inj {a b : List Location} (h : ofLocations a = ofLocations b) : a = b := by
  simp only [ofLocations, Json.arr.injEq] at h
  exact map_inj ofLocation_inj h

theorem pairs_inj (a b : Str × Str) (h : (a.1, Json.str a.2) = (b.1, Json.str b.2)) : a = b := by
  simp only [Prod.mk.injEq, Json.str.injEq] at h
  exact Prod.ext h.1 h.2

theorem ofMap_inj {ord ord' : SMap Str → SMap Str} {m m' : SMap Str} (h : ofMap ord m = ofMap ord' m') : ord m = ord' m' := by
  simp only [ofMap, Json.obj.injEq] at h
  exact map_inj pairs_inj h

theorem strs_inj {a b : List Str} (h : strs a = strs b) : a = b := by
  simp only [strs, Json.arr.injEq] at h
  exact map_inj str_inj h

variable {ord ord' : SMap Str → SMap Str}

theorem ofMeta_inj {m m' : Meta} (h : ofMeta ord m = ofMeta ord' m') : shownMeta ord m = shownMeta ord' m' := by
  have := fields_inj h rfl (by simp only [List.map]; decide)
  simp only [List.cons.injEq, Prod.mk.injEq, true_and, Option.some.injEq, and_true] at this
  obtain ⟨h1, h2, h3, h4⟩ := this
  have h1 := ofMap_inj h1
  have h2 := strs_inj h2
  have h3 := strs_inj h3
  have h4 := ofLocations_inj h4
  unfold shownMeta
  rw [h1, h2, h3, h4]

theorem optMeta_inj {m m' : Option Meta} (h : m.map (ofMeta ord) = m'.map (ofMeta ord')) :
    m.map (shownMeta ord) = m'.map (shownMeta ord') := by
  cases m with
  | none => cases m' with
    | none => rfl
    | some => cases h
  | some m => cases m' with
    | none => cases h
    | some m' =>
      simp only [Option.map_some, Option.some.injEq] at h ⊢
      exact ofMeta_inj h

theorem spanVariant_inj {a b : SpanVariant} (h : spanVariant a = spanVariant b) : a = b := by
  cases a <;> cases b <;> first | rfl | (exact absurd h (by decide))
theorem spanForm_inj {a b : SpanForm} (h : spanForm a = spanForm b) : a = b := by
  cases a <;> cases b <;> first | rfl | (exact absurd h (by decide))
theorem refVariant_inj {a b : RefVariant} (h : refVariant a = refVariant b) : a = b := by
  cases a <;> cases b <;> first | rfl | (exact absurd h (by decide))
theorem litName_inj {a b : LitName} (h : litName a = litName b) : a = b := by
  cases a <;> cases b <;> first | rfl | (exact absurd h (by decide))
theorem listVariant_inj {a b : ListVariant} (h : listVariant a = listVariant b) : a = b := by
  cases a <;> cases b <;> first | rfl | (exact absurd h (by decide))
theorem breakVariant_inj {a b : BreakVariant} (h : breakVariant a = breakVariant b) : a = b := by
  cases a <;> cases b <;> first | rfl | (exact absurd h (by decide))
theorem leafName_inj {a b : LeafName} (h : leafName a = leafName b) : a = b := by
  cases a <;> cases b <;> first | rfl | (exact absurd h (by decide))
theorem leafForm_inj {a b : LeafForm} (h : leafForm a = leafForm b) : a = b := by
  cases a <;> cases b <;> first | rfl | cases h
theorem parentName_inj {a b : ParentName} (h : parentName a = parentName b) : a = b := by
  cases a <;> cases b <;> first | rfl | (exact absurd h (by decide))
theorem parentVariant_inj {a b : ParentVariant} (h : parentVariant a = parentVariant b) : a = b := by
  cases a <;> cases b <;> first | rfl | (exact absurd h (by decide))

/-- The name of an inline in the output. -/
def nameI : Inline → Str
  | .span .. => b!"span"
  | .ref .. => b!"ref"
  | .lit n _ _ => litName n
  | .brk _ => b!"linebreak"

theorem ofInline_name (x : Inline) : ∃ fs, ofInline ord x = fields ((b!"name", some (.str (nameI x))) :: fs) := by
  cases x <;> exact ⟨_, by rw [ofInline]; rfl⟩

theorem sameName_inline {x y : Inline} (h : ofInline ord x = ofInline ord' y) : nameI x = nameI y := by
  obtain ⟨fs, h1⟩ := ofInline_name (ord := ord) x
  obtain ⟨fs', h2⟩ := ofInline_name (ord := ord') y
  rw [h1, h2] at h
  exact str_inj _ _ (fields_name h)

mutual
theorem ofInline_inj : ∀ x y : Inline, ofInline ord x = ofInline ord' y → shownInline ord x = shownInline ord' y
  | .span v f is m l o, y, h => by
    have hn := sameName_inline h
    cases y with
    | span v' f' is' m' l' o' =>
      simp only [ofInline] at h
      have := fields_inj h rfl (by simp only [List.map]; decide)
      simp only [List.cons.injEq, Prod.mk.injEq, true_and, Option.some.injEq, and_true, Json.str.injEq, Json.arr.injEq] at this
      obtain ⟨h1, h2, h3, h4, h5⟩ := this
      simp only [shownInline, spanVariant_inj h1, spanForm_inj h2, ofInlines_inj is is' h3, optMeta_inj h4, ofLocations_inj h5]
    | ref => exact absurd hn (by first | (simp only [nameI]; decide) | (simp only [nameI, litName]; decide))
    | lit n _ _ => cases n <;> exact absurd hn (by first | (simp only [nameI]; decide) | (simp only [nameI, litName]; decide))
    | brk => exact absurd hn (by first | (simp only [nameI]; decide) | (simp only [nameI, litName]; decide))
  | .ref v t is m l, y, h => by
    have hn := sameName_inline h
    cases y with
    | ref v' t' is' m' l' =>
      simp only [ofInline] at h
      have := fields_inj h rfl (by simp only [List.map]; decide)
      simp only [List.cons.injEq, Prod.mk.injEq, true_and, Option.some.injEq, and_true, Json.str.injEq, Json.arr.injEq] at this
      obtain ⟨h1, h2, h3, h4, h5⟩ := this
      simp only [shownInline, refVariant_inj h1, h2, ofInlines_inj is is' h3, optMeta_inj h4, ofLocations_inj h5]
    | span => exact absurd hn (by first | (simp only [nameI]; decide) | (simp only [nameI, litName]; decide))
    | lit n _ _ => cases n <;> exact absurd hn (by first | (simp only [nameI]; decide) | (simp only [nameI, litName]; decide))
    | brk => exact absurd hn (by first | (simp only [nameI]; decide) | (simp only [nameI, litName]; decide))
  | .lit n v l, y, h => by
    have hn := sameName_inline h
    cases y with
    | lit n' v' l' =>
      simp only [ofInline] at h
      have := fields_inj h rfl (by simp only [List.map]; decide)
      simp only [List.cons.injEq, Prod.mk.injEq, true_and, Option.some.injEq, and_true, Json.str.injEq] at this
      obtain ⟨h1, h2, h3⟩ := this
      simp only [shownInline, litName_inj h1, h2, ofLocations_inj h3]
    | span => cases n <;> exact absurd hn (by first | (simp only [nameI]; decide) | (simp only [nameI, litName]; decide))
    | ref => cases n <;> exact absurd hn (by first | (simp only [nameI]; decide) | (simp only [nameI, litName]; decide))
    | brk => cases n <;> exact absurd hn (by first | (simp only [nameI]; decide) | (simp only [nameI, litName]; decide))
  | .brk l, y, h => by
    have hn := sameName_inline h
    cases y with
    | brk l' =>
      simp only [ofInline] at h
      have := fields_inj h rfl (by simp only [List.map]; decide)
      simp only [List.cons.injEq, Prod.mk.injEq, true_and, Option.some.injEq, and_true] at this
      simp only [shownInline, ofLocations_inj this]
    | span => exact absurd hn (by first | (simp only [nameI]; decide) | (simp only [nameI, litName]; decide))
    | ref => exact absurd hn (by first | (simp only [nameI]; decide) | (simp only [nameI, litName]; decide))
    | lit n _ _ => cases n <;> exact absurd hn (by first | (simp only [nameI]; decide) | (simp only [nameI, litName]; decide))
theorem ofInlines_inj : ∀ xs ys : List Inline, ofInlines ord xs = ofInlines ord' ys → shownInlines ord xs = shownInlines ord' ys
  | [], [], _ => rfl
  | [], _ :: _, h => by simp [ofInlines] at h
  | _ :: _, [], h => by simp [ofInlines] at h
  | x :: xs, y :: ys, h => by
    simp only [ofInlines, List.cons.injEq] at h
    simp only [shownInlines, ofInline_inj x y h.1, ofInlines_inj xs ys h.2]
end

/-- The name of a block in the output. -/
def nameB : Block → Str
  | .section .. => b!"section"
  | .list .. => b!"list"
  | .listItem .. => b!"listItem"
  | .dlist .. => b!"dlist"
  | .dlistItem .. => b!"dlistItem"
  | .brk .. => b!"break"
  | .image .. => b!"image"
  | .leaf n .. => leafName n
  | .parent n .. => parentName n
  | .tableCell .. => b!"tableCell"

/-- The kind of a block. -/
def kindB : Block → Nat
  | .section .. => 0
  | .list .. => 1
  | .listItem .. => 2
  | .dlist .. => 3
  | .dlistItem .. => 4
  | .brk .. => 5
  | .image .. => 6
  | .leaf .. => 7
  | .parent .. => 8
  | .tableCell .. => 9

/-- The kind that a name stands for. -/
def kindOf (s : Str) : Nat :=
  if s = b!"section" then 0 else if s = b!"list" then 1 else if s = b!"listItem" then 2 else if s = b!"dlist" then 3
  else if s = b!"dlistItem" then 4 else if s = b!"break" then 5 else if s = b!"image" then 6
  else if s = b!"tableCell" then 9
  else if s = b!"listing" ∨ s = b!"literal" ∨ s = b!"paragraph" ∨ s = b!"pass" ∨ s = b!"verse" then 7 else 8

theorem kindOf_nameB (x : Block) : kindOf (nameB x) = kindB x := by
  cases x with
  | leaf n => cases n <;> simp only [nameB, kindB, leafName] <;> decide
  | parent n => cases n <;> simp only [nameB, kindB, parentName] <;> decide
  | _ => simp only [nameB, kindB] <;> decide

theorem ofBlock_name (x : Block) : ∃ fs, ofBlock ord x = fields ((b!"name", some (.str (nameB x))) :: fs) := by
  cases x <;> exact ⟨_, by rw [ofBlock]; rfl⟩

theorem sameKind_block {x y : Block} (h : ofBlock ord x = ofBlock ord' y) : kindB x = kindB y := by
  obtain ⟨fs, h1⟩ := ofBlock_name (ord := ord) x
  obtain ⟨fs', h2⟩ := ofBlock_name (ord := ord') y
  rw [h1, h2] at h
  rw [← kindOf_nameB, ← kindOf_nameB, str_inj _ _ (fields_name h)]

theorem optStr_inj {a b : Option Str} (h : a.map Json.str = b.map Json.str) : a = b := by
  cases a <;> cases b <;> simp_all

theorem optVariant_inj {a b : Option ParentVariant}
    (h : (a.map fun v => Json.str (parentVariant v)) = b.map fun v => Json.str (parentVariant v)) : a = b := by
  cases a with
  | none => cases b with
    | none => rfl
    | some => cases h
  | some a => cases b with
    | none => cases h
    | some b =>
      simp only [Option.map_some, Option.some.injEq, Json.str.injEq] at h
      rw [parentVariant_inj h]

theorem delimiter_inj {a b : Str}
    (h : (if a.isEmpty then none else some (Json.str a)) = if b.isEmpty then none else some (Json.str b)) : a = b := by
  cases a <;> cases b <;> simp_all

mutual
theorem ofBlock_inj : ∀ x y : Block, ofBlock ord x = ofBlock ord' y → shownBlock ord x = shownBlock ord' y
  | .section t m v bs l, y, h => by
    have hk := sameKind_block h
    cases y with
    | «section» t' m' v' bs' l' =>
      simp only [ofBlock] at h
      have := fields_inj h rfl (by simp only [List.map]; decide)
      simp only [List.cons.injEq, Prod.mk.injEq, true_and, Option.some.injEq, and_true, Json.str.injEq, Json.arr.injEq,
        Json.num.injEq] at this
      obtain ⟨h0, h1, h2, h3, h4⟩ := this
      simp only [shownBlock, ofInlines_inj t t' h0, optMeta_inj h1, h2, ofBlocks_inj bs bs' h3, ofLocations_inj h4]
    | _ => exact absurd hk (by simp [kindB])
  | .list v bs m l, y, h => by
    have hk := sameKind_block h
    cases y with
    | list v' bs' m' l' =>
      simp only [ofBlock] at h
      have := fields_inj h rfl (by simp only [List.map]; decide)
      simp only [List.cons.injEq, Prod.mk.injEq, true_and, Option.some.injEq, and_true, Json.str.injEq, Json.arr.injEq,
        Json.num.injEq] at this
      obtain ⟨_, h1, h2, h3, h4⟩ := this
      simp only [shownBlock, listVariant_inj h1, ofBlocks_inj bs bs' h2, optMeta_inj h3, ofLocations_inj h4]
    | _ => exact absurd hk (by simp [kindB])
  | .listItem k p bs m l, y, h => by
    have hk := sameKind_block h
    cases y with
    | listItem k' p' bs' m' l' =>
      simp only [ofBlock] at h
      have := fields_inj h rfl (by simp only [List.map]; decide)
      simp only [List.cons.injEq, Prod.mk.injEq, true_and, Option.some.injEq, and_true, Json.str.injEq, Json.arr.injEq,
        Json.num.injEq] at this
      obtain ⟨h0, h1, h2, h3, h4⟩ := this
      simp only [shownBlock, h0, ofInlines_inj p p' h1, ofBlocks_inj bs bs' (unlessEmpty_inj h2), optMeta_inj h3, ofLocations_inj h4]
    | _ => exact absurd hk (by simp [kindB])
  | .dlist bs m l, y, h => by
    have hk := sameKind_block h
    cases y with
    | dlist bs' m' l' =>
      simp only [ofBlock] at h
      have := fields_inj h rfl (by simp only [List.map]; decide)
      simp only [List.cons.injEq, Prod.mk.injEq, true_and, Option.some.injEq, and_true, Json.str.injEq, Json.arr.injEq,
        Json.num.injEq] at this
      obtain ⟨h0, h1, h2⟩ := this
      simp only [shownBlock, ofBlocks_inj bs bs' h0, optMeta_inj h1, ofLocations_inj h2]
    | _ => exact absurd hk (by simp [kindB])
  | .dlistItem t p bs m l, y, h => by
    have hk := sameKind_block h
    cases y with
    | dlistItem t' p' bs' m' l' =>
      simp only [ofBlock] at h
      have := fields_inj h rfl (by simp only [List.map]; decide)
      simp only [List.cons.injEq, Prod.mk.injEq, true_and, Option.some.injEq, and_true, Json.str.injEq, Json.arr.injEq,
        Json.num.injEq] at this
      obtain ⟨h0, h1, h2, h3, h4⟩ := this
      simp only [shownBlock, ofInlines_inj t t' h0, ofInlines_inj p p' (unlessEmpty_inj h1), ofBlocks_inj bs bs' (unlessEmpty_inj h2), optMeta_inj h3, ofLocations_inj h4]
    | _ => exact absurd hk (by simp [kindB])
  | .brk v l, y, h => by
    have hk := sameKind_block h
    cases y with
    | brk v' l' =>
      simp only [ofBlock] at h
      have := fields_inj h rfl (by simp only [List.map]; decide)
      simp only [List.cons.injEq, Prod.mk.injEq, true_and, Option.some.injEq, and_true, Json.str.injEq, Json.arr.injEq,
        Json.num.injEq] at this
      obtain ⟨h0, h1⟩ := this
      simp only [shownBlock, breakVariant_inj h0, ofLocations_inj h1]
    | _ => exact absurd hk (by simp [kindB])
  | .image t c m l, y, h => by
    have hk := sameKind_block h
    cases y with
    | image t' c' m' l' =>
      simp only [ofBlock] at h
      have := fields_inj h rfl (by simp only [List.map]; decide)
      simp only [List.cons.injEq, Prod.mk.injEq, true_and, Option.some.injEq, and_true, Json.str.injEq, Json.arr.injEq,
        Json.num.injEq] at this
      obtain ⟨h0, h1, h2, h3⟩ := this
      simp only [shownBlock, h0, ofInlines_inj c c' (unlessEmpty_inj h1), optMeta_inj h2, ofLocations_inj h3]
    | _ => exact absurd hk (by simp [kindB])
  | .leaf n f d is m l, y, h => by
    have hk := sameKind_block h
    cases y with
    | leaf n' f' d' is' m' l' =>
      simp only [ofBlock] at h
      have := fields_inj h rfl (by simp only [List.map]; decide)
      simp only [List.cons.injEq, Prod.mk.injEq, true_and, Option.some.injEq, and_true, Json.str.injEq, Json.arr.injEq,
        Json.num.injEq] at this
      obtain ⟨h0, h1, h2, h3, h4, h5⟩ := this
      simp only [shownBlock, leafName_inj h0, leafForm_inj h1, optStr_inj h2, ofInlines_inj is is' h3, optMeta_inj h4, ofLocations_inj h5]
    | _ => exact absurd hk (by simp [kindB])
  | .parent n v d bs t m l, y, h => by
    have hk := sameKind_block h
    cases y with
    | parent n' v' d' bs' t' m' l' =>
      simp only [ofBlock] at h
      have := fields_inj h rfl (by simp only [List.map]; decide)
      simp only [List.cons.injEq, Prod.mk.injEq, true_and, Option.some.injEq, and_true, Json.str.injEq, Json.arr.injEq,
        Json.num.injEq] at this
      obtain ⟨h0, h1, h2, h3, h4, h5, h6⟩ := this
      simp only [shownBlock, parentName_inj h0, optVariant_inj h1, delimiter_inj h2, ofBlocks_inj bs bs' h3, ofInlines_inj t t' (unlessEmpty_inj h4), optMeta_inj h5, ofLocations_inj h6]
    | _ => exact absurd hk (by simp [kindB])
  | .tableCell is m l, y, h => by
    have hk := sameKind_block h
    cases y with
    | tableCell is' m' l' =>
      simp only [ofBlock] at h
      have := fields_inj h rfl (by simp only [List.map]; decide)
      simp only [List.cons.injEq, Prod.mk.injEq, true_and, Option.some.injEq, and_true, Json.str.injEq, Json.arr.injEq,
        Json.num.injEq] at this
      obtain ⟨h0, h1, h2⟩ := this
      simp only [shownBlock, ofInlines_inj is is' h0, optMeta_inj h1, ofLocations_inj h2]
    | _ => exact absurd hk (by simp [kindB])
theorem ofBlocks_inj : ∀ xs ys : List Block, ofBlocks ord xs = ofBlocks ord' ys → shownBlocks ord xs = shownBlocks ord' ys
  | [], [], _ => rfl
  | [], _ :: _, h => by simp [ofBlocks] at h
  | _ :: _, [], h => by simp [ofBlocks] at h
  | x :: xs, y :: ys, h => by
    simp only [ofBlocks, List.cons.injEq] at h
    simp only [shownBlocks, ofBlock_inj x y h.1, ofBlocks_inj xs ys h.2]
end

theorem ofHeader_inj {a b : Header} (h : ofHeader ord a = ofHeader ord' b) : shownHeader ord a = shownHeader ord' b := by
  have := fields_inj h rfl (by simp only [List.map]; decide)
  simp only [List.cons.injEq, Prod.mk.injEq, true_and, Option.some.injEq, and_true, Json.arr.injEq] at this
  cases a; cases b
  simp only [shownHeader, Header.mk.injEq]
  exact ⟨ofInlines_inj _ _ this.1, ofLocations_inj this.2⟩

theorem opt_inj {α β γ : Type} {f f' : α → β} {s s' : α → γ} (hf : ∀ a b, f a = f' b → s a = s' b) {a b : Option α}
    (h : a.map f = b.map f') : a.map s = b.map s' := by
  cases a with
  | none => cases b with
    | none => rfl
    | some => cases h
  | some a => cases b with
    | none => cases h
    | some b =>
      simp only [Option.map_some, Option.some.injEq] at h ⊢
      exact hf a b h

theorem ofAsg_inj {g g' : Asg} (h : ofAsg ord g = ofAsg ord' g') : shown ord g = shown ord' g' := by
  have := fields_inj h rfl (by simp only [List.map]; decide)
  simp only [List.cons.injEq, Prod.mk.injEq, true_and, Option.some.injEq, and_true, Json.arr.injEq] at this
  obtain ⟨h1, h2, h3, h4⟩ := this
  simp only [shown, opt_inj (fun _ _ => ofMap_inj) h1, opt_inj (fun _ _ => ofHeader_inj) h2, ofBlocks_inj _ _ h3, ofLocations_inj h4]

/-! ## The value only depends on what is shown -/

theorem ofMeta_shown (m : Meta) : ofMeta id (shownMeta ord m) = ofMeta ord m := rfl

theorem optMeta_shown (m : Option Meta) : (m.map (shownMeta ord)).map (ofMeta id) = m.map (ofMeta ord) := by
  cases m <;> simp [ofMeta_shown]

mutual
theorem ofInline_shown : ∀ x : Inline, ofInline id (shownInline ord x) = ofInline ord x
  | .span _ _ is m _ _ => by simp only [shownInline, ofInline, ofInlines_shown is, optMeta_shown]
  | .ref _ _ is m _ => by simp only [shownInline, ofInline, ofInlines_shown is, optMeta_shown]
  | .lit _ _ _ => by simp only [shownInline, ofInline]
  | .brk _ => by simp only [shownInline, ofInline]
theorem ofInlines_shown : ∀ xs : List Inline, ofInlines id (shownInlines ord xs) = ofInlines ord xs
  | [] => rfl
  | x :: xs => by simp only [shownInlines, ofInlines, ofInline_shown x, ofInlines_shown xs]
end

mutual
theorem ofBlock_shown : ∀ x : Block, ofBlock id (shownBlock ord x) = ofBlock ord x
  | .section t m _ bs _ => by simp only [shownBlock, ofBlock, ofInlines_shown t, ofBlocks_shown bs, optMeta_shown]
  | .list _ bs m _ => by simp only [shownBlock, ofBlock, ofBlocks_shown bs, optMeta_shown]
  | .listItem _ p bs m _ => by simp only [shownBlock, ofBlock, ofInlines_shown p, ofBlocks_shown bs, optMeta_shown]
  | .dlist bs m _ => by simp only [shownBlock, ofBlock, ofBlocks_shown bs, optMeta_shown]
  | .dlistItem t p bs m _ => by
    simp only [shownBlock, ofBlock, ofInlines_shown t, ofInlines_shown p, ofBlocks_shown bs, optMeta_shown]
  | .brk _ _ => by simp only [shownBlock, ofBlock]
  | .image _ c m _ => by simp only [shownBlock, ofBlock, ofInlines_shown c, optMeta_shown]
  | .leaf _ _ _ is m _ => by simp only [shownBlock, ofBlock, ofInlines_shown is, optMeta_shown]
  | .parent _ _ _ bs t m _ => by simp only [shownBlock, ofBlock, ofInlines_shown t, ofBlocks_shown bs, optMeta_shown]
  | .tableCell is m _ => by simp only [shownBlock, ofBlock, ofInlines_shown is, optMeta_shown]
theorem ofBlocks_shown : ∀ xs : List Block, ofBlocks id (shownBlocks ord xs) = ofBlocks ord xs
  | [] => rfl
  | x :: xs => by simp only [shownBlocks, ofBlocks, ofBlock_shown x, ofBlocks_shown xs]
end

theorem ofAsg_shown (g : Asg) : ofAsg id (shown ord g) = ofAsg ord g := by
  have h1 : (g.attributes.map ord).map (ofMap id) = g.attributes.map (ofMap ord) := by
    cases g.attributes <;> rfl
  have h2 : (g.header.map (shownHeader ord)).map (ofHeader id) = g.header.map (ofHeader ord) := by
    cases g.header with
    | none => rfl
    | some h => simp only [Option.map_some, shownHeader, ofHeader, ofInlines_shown]
  simp only [ofAsg, shown, h1, h2, ofBlocks_shown]

/-! ## Orders of iteration -/

mutual
theorem same_refl : ∀ j : Json, Same j j
  | .num n => .num n
  | .str s => .str s
  | .arr xs => .arr (sameL_refl xs)
  | .obj ms => .obj (sameM_refl ms) (.refl _)
theorem sameL_refl : ∀ xs : List Json, SameL xs xs
  | [] => .nil
  | x :: xs => .cons (same_refl x) (sameL_refl xs)
theorem sameM_refl : ∀ ms : List (Str × Json), SameM ms ms
  | [] => .nil
  | (k, x) :: ms => .cons k (same_refl x) (sameM_refl ms)
end

/-- Fields that are the same. -/
inductive SameF : List (Str × Option Json) → List (Str × Option Json) → Prop where
  | nil : SameF [] []
  | none (k : Str) {xs ys : List (Str × Option Json)} (t : SameF xs ys) : SameF ((k, none) :: xs) ((k, none) :: ys)
  | some (k : Str) {x y : Json} {xs ys : List (Str × Option Json)} (h : Same x y) (t : SameF xs ys) :
      SameF ((k, some x) :: xs) ((k, some y) :: ys)

theorem SameF.same {fs fs' : List (Str × Option Json)} (h : SameF fs fs') : Same (fields fs) (fields fs') := by
  refine .obj ?_ (.refl _)
  induction h with
  | nil => exact .nil
  | none k _ ih => exact ih
  | some k h _ ih => exact .cons k h ih

theorem SameF.eq (k : Str) (v : Option Json) {fs fs' : List (Str × Option Json)} (h : SameF fs fs') :
    SameF ((k, v) :: fs) ((k, v) :: fs') := by
  cases v with
  | none => exact .none k h
  | some v => exact .some k (same_refl v) h

theorem SameF.arr (k : Str) {xs ys : List Json} (h : SameL xs ys) {fs fs' : List (Str × Option Json)} (t : SameF fs fs') :
    SameF ((k, Option.some (Json.arr xs)) :: fs) ((k, Option.some (Json.arr ys)) :: fs') := .some k (.arr h) t

theorem SameF.list (k : Str) {xs ys : List Json} (h : SameL xs ys) {fs fs' : List (Str × Option Json)} (t : SameF fs fs') :
    SameF ((k, unlessEmpty xs) :: fs) ((k, unlessEmpty ys) :: fs') := by
  cases h with
  | nil => exact .none k t
  | cons h hs => exact .some k (.arr (.cons h hs)) t

/-- Two orders in which a map may be iterated. -/
def Orders (ord ord' : SMap Str → SMap Str) : Prop := ∀ m, (ord m).Perm m ∧ (ord' m).Perm m

theorem same_map (ho : Orders ord ord') (m : SMap Str) : Same (ofMap ord m) (ofMap ord' m) :=
  .obj (sameM_refl _) (((ho m).1.trans (ho m).2.symm).map _)

theorem same_meta (ho : Orders ord ord') (m : Meta) : Same (ofMeta ord m) (ofMeta ord' m) :=
  SameF.same (.some _ (same_map ho _) (.eq _ _ (.eq _ _ (.eq _ _ .nil))))

theorem SameF.meta (ho : Orders ord ord') (k : Str) (m : Option Meta) {fs fs' : List (Str × Option Json)} (t : SameF fs fs') :
    SameF ((k, m.map (ofMeta ord)) :: fs) ((k, m.map (ofMeta ord')) :: fs') := by
  cases m with
  | none => exact .none k t
  | some m => exact .some k (same_meta ho m) t

mutual
theorem same_inline (ho : Orders ord ord') : ∀ x : Inline, Same (ofInline ord x) (ofInline ord' x)
  | .span _ _ is m _ _ => by
    simp only [ofInline]
    exact SameF.same (.eq _ _ (.eq _ _ (.eq _ _ (.eq _ _ (.arr _ (same_inlines ho is) (.meta ho _ m (.eq _ _ .nil)))))))
  | .ref _ _ is m _ => by
    simp only [ofInline]
    exact SameF.same (.eq _ _ (.eq _ _ (.eq _ _ (.eq _ _ (.arr _ (same_inlines ho is) (.meta ho _ m (.eq _ _ .nil)))))))
  | .lit _ _ _ => by simp only [ofInline]; exact same_refl _
  | .brk _ => by simp only [ofInline]; exact same_refl _
theorem same_inlines (ho : Orders ord ord') : ∀ xs : List Inline, SameL (ofInlines ord xs) (ofInlines ord' xs)
  | [] => .nil
  | x :: xs => .cons (same_inline ho x) (same_inlines ho xs)
end

mutual
theorem same_block (ho : Orders ord ord') : ∀ x : Block, Same (ofBlock ord x) (ofBlock ord' x)
  | .section t m _ bs _ => by
    simp only [ofBlock]
    exact SameF.same (.eq _ _ (.eq _ _ (.arr _ (same_inlines ho t) (.meta ho _ m (.eq _ _ (.arr _ (same_blocks ho bs)
      (.eq _ _ .nil)))))))
  | .list _ bs m _ => by
    simp only [ofBlock]
    exact SameF.same (.eq _ _ (.eq _ _ (.eq _ _ (.eq _ _ (.arr _ (same_blocks ho bs) (.meta ho _ m (.eq _ _ .nil)))))))
  | .listItem _ p bs m _ => by
    simp only [ofBlock]
    exact SameF.same (.eq _ _ (.eq _ _ (.eq _ _ (.arr _ (same_inlines ho p) (.list _ (same_blocks ho bs) (.meta ho _ m
      (.eq _ _ .nil)))))))
  | .dlist bs m _ => by
    simp only [ofBlock]
    exact SameF.same (.eq _ _ (.eq _ _ (.eq _ _ (.arr _ (same_blocks ho bs) (.meta ho _ m (.eq _ _ .nil))))))
  | .dlistItem t p bs m _ => by
    simp only [ofBlock]
    exact SameF.same (.eq _ _ (.eq _ _ (.eq _ _ (.arr _ (same_inlines ho t) (.list _ (same_inlines ho p)
      (.list _ (same_blocks ho bs) (.meta ho _ m (.eq _ _ .nil))))))))
  | .brk _ _ => by simp only [ofBlock]; exact same_refl _
  | .image _ c m _ => by
    simp only [ofBlock]
    exact SameF.same (.eq _ _ (.eq _ _ (.eq _ _ (.eq _ _ (.list _ (same_inlines ho c) (.meta ho _ m (.eq _ _ .nil)))))))
  | .leaf _ _ _ is m _ => by
    simp only [ofBlock]
    exact SameF.same (.eq _ _ (.eq _ _ (.eq _ _ (.eq _ _ (.arr _ (same_inlines ho is) (.meta ho _ m (.eq _ _ .nil)))))))
  | .parent _ _ _ bs t m _ => by
    simp only [ofBlock]
    exact SameF.same (.eq _ _ (.eq _ _ (.eq _ _ (.eq _ _ (.eq _ _ (.arr _ (same_blocks ho bs) (.list _ (same_inlines ho t)
      (.meta ho _ m (.eq _ _ .nil)))))))))
  | .tableCell is m _ => by
    simp only [ofBlock]
    exact SameF.same (.eq _ _ (.eq _ _ (.arr _ (same_inlines ho is) (.meta ho _ m (.eq _ _ .nil)))))
theorem same_blocks (ho : Orders ord ord') : ∀ xs : List Block, SameL (ofBlocks ord xs) (ofBlocks ord' xs)
  | [] => .nil
  | x :: xs => .cons (same_block ho x) (same_blocks ho xs)
end

theorem same_asg (ho : Orders ord ord') (g : Asg) : Same (ofAsg ord g) (ofAsg ord' g) := by
  refine SameF.same (.eq _ _ (.eq _ _ ?_))
  have ht : SameF [(b!"header", g.header.map (ofHeader ord)), (b!"blocks", some (.arr (ofBlocks ord g.blocks))),
      (b!"location", some (ofLocations g.loc))] [(b!"header", g.header.map (ofHeader ord')),
      (b!"blocks", some (.arr (ofBlocks ord' g.blocks))), (b!"location", some (ofLocations g.loc))] := by
    have h := SameF.arr b!"blocks" (same_blocks ho g.blocks) (.eq b!"location" (some (ofLocations g.loc)) .nil)
    cases g.header with
    | none => exact .none _ h
    | some hd => exact .some _ (SameF.same (.arr _ (same_inlines ho hd.title) (.eq _ _ .nil))) h
  cases g.attributes with
  | none => exact .none _ ht
  | some m => exact .some _ (same_map ho m) ht

/-! ## Maps with one order -/

theorem small_map (ho : Orders ord ord') {m : SMap Str} (h : smallMap m = true) : ord m = ord' m := by
  obtain ⟨h1, h2⟩ := ho m
  match m, h with
  | [], _ => rw [h1.eq_nil, h2.eq_nil]
  | [x], _ => rw [List.perm_singleton.1 h1, List.perm_singleton.1 h2]
  | _ :: _ :: _, h => simp [smallMap] at h

theorem small_meta (ho : Orders ord ord') {m : Option Meta} (h : smallMeta m = true) :
    m.map (shownMeta ord) = m.map (shownMeta ord') := by
  cases m with
  | none => rfl
  | some m =>
    have := small_map ho (m := m.attributes) h
    simp only [Option.map_some, shownMeta, this]

mutual
theorem small_inline (ho : Orders ord ord') : ∀ x : Inline, smallInline x = true → shownInline ord x = shownInline ord' x
  | .span _ _ is m _ _, h => by
    simp only [smallInline, Bool.and_eq_true] at h
    simp only [shownInline, small_inlines ho is h.1, small_meta ho h.2]
  | .ref _ _ is m _, h => by
    simp only [smallInline, Bool.and_eq_true] at h
    simp only [shownInline, small_inlines ho is h.1, small_meta ho h.2]
  | .lit _ _ _, _ => by simp only [shownInline]
  | .brk _, _ => by simp only [shownInline]
theorem small_inlines (ho : Orders ord ord') : ∀ xs : List Inline, smallInlines xs = true →
    shownInlines ord xs = shownInlines ord' xs
  | [], _ => rfl
  | x :: xs, h => by
    simp only [smallInlines, Bool.and_eq_true] at h
    simp only [shownInlines, small_inline ho x h.1, small_inlines ho xs h.2]
end

mutual
theorem small_block (ho : Orders ord ord') : ∀ x : Block, smallBlock x = true → shownBlock ord x = shownBlock ord' x
  | .section t m _ bs _, h => by
    simp only [smallBlock, Bool.and_eq_true] at h
    simp only [shownBlock, small_inlines ho t h.1.1, small_meta ho h.1.2, small_blocks ho bs h.2]
  | .list _ bs m _, h => by
    simp only [smallBlock, Bool.and_eq_true] at h
    simp only [shownBlock, small_meta ho h.1, small_blocks ho bs h.2]
  | .listItem _ p bs m _, h => by
    simp only [smallBlock, Bool.and_eq_true] at h
    simp only [shownBlock, small_inlines ho p h.1.1, small_meta ho h.1.2, small_blocks ho bs h.2]
  | .dlist bs m _, h => by
    simp only [smallBlock, Bool.and_eq_true] at h
    simp only [shownBlock, small_meta ho h.1, small_blocks ho bs h.2]
  | .dlistItem t p bs m _, h => by
    simp only [smallBlock, Bool.and_eq_true] at h
    simp only [shownBlock, small_inlines ho t h.1.1.1, small_inlines ho p h.1.1.2, small_meta ho h.1.2, small_blocks ho bs h.2]
  | .brk _ _, _ => by simp only [shownBlock]
  | .image _ c m _, h => by
    simp only [smallBlock, Bool.and_eq_true] at h
    simp only [shownBlock, small_inlines ho c h.1, small_meta ho h.2]
  | .leaf _ _ _ is m _, h => by
    simp only [smallBlock, Bool.and_eq_true] at h
    simp only [shownBlock, small_inlines ho is h.1, small_meta ho h.2]
  | .parent _ _ _ bs t m _, h => by
    simp only [smallBlock, Bool.and_eq_true] at h
    simp only [shownBlock, small_inlines ho t h.1.1, small_meta ho h.1.2, small_blocks ho bs h.2]
  | .tableCell is m _, h => by
    simp only [smallBlock, Bool.and_eq_true] at h
    simp only [shownBlock, small_inlines ho is h.1, small_meta ho h.2]
theorem small_blocks (ho : Orders ord ord') : ∀ xs : List Block, smallBlocks xs = true →
    shownBlocks ord xs = shownBlocks ord' xs
  | [], _ => rfl
  | x :: xs, h => by
    simp only [smallBlocks, Bool.and_eq_true] at h
    simp only [shownBlocks, small_block ho x h.1, small_blocks ho xs h.2]
end

theorem small_asg (ho : Orders ord ord') (g : Asg) (h : small g = true) : shown ord g = shown ord' g := by
  obtain ⟨at_, hd, did, ids, bs, l⟩ := g
  simp only [small, Bool.and_eq_true] at h
  obtain ⟨⟨h1, h2⟩, h3⟩ := h
  have e1 : at_.map ord = at_.map ord' := by
    cases at_ with
    | none => rfl
    | some m => simp only [Option.map_some, small_map ho h1]
  have e2 : hd.map (shownHeader ord) = hd.map (shownHeader ord') := by
    cases hd with
    | none => rfl
    | some hd => simp only [Option.map_some, shownHeader, small_inlines ho _ h2]
  simp only [shown, e1, e2, small_blocks ho _ h3]

/-! ## Nodes -/

theorem isPosition_ofLocation (l : Location) : isPosition (ofLocation l) = true := by
  simp [ofLocation, fields, isPosition, member, List.find?]

theorem all_positions (l : List Location) : (l.map ofLocation).all isPosition = true := by
  simp [isPosition_ofLocation]

mutual
theorem allNodes_inline : ∀ x : Inline, allNodes (ofInline ord x) = true
  | .span v f is m l o => by
    cases m <;> simp [ofInline, fields, allNodes, isNode, member, allNodesM, childKeys, allNodes_inlines is, ofLocations,
      isPosition_ofLocation, ofMeta]
  | .ref v t is m l => by
    cases m <;> simp [ofInline, fields, allNodes, isNode, member, allNodesM, childKeys, allNodes_inlines is, ofLocations,
      isPosition_ofLocation, ofMeta]
  | .lit n v l => by simp [ofInline, fields, allNodes, isNode, member, allNodesM, childKeys, ofLocations, isPosition_ofLocation]
  | .brk l => by simp [ofInline, fields, allNodes, isNode, member, allNodesM, childKeys, ofLocations, isPosition_ofLocation]
theorem allNodes_inlines : ∀ xs : List Inline, allNodesL (ofInlines ord xs) = true
  | [] => rfl
  | x :: xs => by simp [ofInlines, allNodesL, allNodes_inline x, allNodes_inlines xs]
end

/-- If the field is a list of nodes, its elements are nodes. -/
def okField (k : Str) : Option Json → Bool
  | some (.arr xs) => !childKeys.contains k || allNodesL xs
  | some (.obj hs) => k != b!"header" || allNodesM hs
  | _ => true

theorem allNodesM_field (k : Str) (v : Option Json) (fs : List (Str × Option Json)) (h : okField k v = true)
    (ht : allNodesM (fs.filterMap fun f => f.2.map fun v => (f.1, v)) = true) :
    allNodesM (((k, v) :: fs).filterMap fun f => f.2.map fun v => (f.1, v)) = true := by
  cases v with
  | none => simpa using ht
  | some v => cases v <;> simp_all [allNodesM, okField]

theorem okField_arr (k : Str) {l : List Json} (h : allNodesL l = true) : okField k (some (.arr l)) = true := by
  simp [okField, h]

theorem okField_list (k : Str) {l : List Json} (h : allNodesL l = true) : okField k (unlessEmpty l) = true := by
  unfold unlessEmpty
  split
  · rfl
  · exact okField_arr k h

theorem okField_str (k s : Str) : okField k (some (.str s)) = true := rfl

theorem okField_meta (m : Option Meta) : okField b!"metadata" (m.map (ofMeta ord)) = true := by
  cases m <;> rfl

theorem okField_location (l : List Location) : okField b!"location" (some (ofLocations l)) = true := by
  have : childKeys.contains b!"location" = false := by decide
  simp only [ofLocations, okField, this, Bool.not_false, Bool.true_or]

theorem isNode_fields {n t : Str} {l : List Location} {fs : List (Str × Option Json)}
    (ht : t = b!"block" ∨ t = b!"inline" ∨ t = b!"string") (hn : ∀ f ∈ fs, f.1 ≠ b!"location") :
    isNode (((b!"name", some (.str n)) :: (b!"type", some (.str t)) :: (fs ++ [(b!"location", some (ofLocations l))])).filterMap
      fun f => f.2.map fun v => (f.1, v)) = true := by
  have h3 : ∀ fs : List (Str × Option Json), (∀ f ∈ fs, f.1 ≠ b!"location") → ∀ x : Str × Json,
      (fs.filterMap (fun f => f.2.map fun v => (f.1, v)) ++ [(b!"location", x.2)]).find? (fun m => m.1 = b!"location")
        = some (b!"location", x.2) := by
    intro fs hn x
    induction fs with
    | nil => rfl
    | cons f fs ih =>
      obtain ⟨k, v⟩ := f
      have ih := ih fun f hf => hn f (by simp [hf])
      cases v with
      | none => simpa using ih
      | some v =>
        have hk : k ≠ b!"location" := hn (k, some v) (by simp)
        simp only [List.filterMap_cons, Option.map_some, List.cons_append, List.find?_cons, hk, decide_false]
        exact ih
  have h3 := h3 fs hn ([], ofLocations l)
  have e : ((b!"name", some (Json.str n)) :: (b!"type", some (.str t)) :: (fs ++ [(b!"location", some (ofLocations l))])).filterMap
      (fun f => f.2.map fun v => (f.1, v)) = (b!"name", .str n) :: (b!"type", .str t)
        :: (fs.filterMap (fun f => f.2.map fun v => (f.1, v)) ++ [(b!"location", ofLocations l)]) := by
    simp
  rw [e]
  unfold isNode
  have m1 : ∀ r, member b!"name" ((b!"name", Json.str n) :: r) = some (.str n) := fun r => rfl
  have m2 : ∀ r, member b!"type" ((b!"name", Json.str n) :: (b!"type", .str t) :: r) = some (.str t) := fun r => rfl
  have m3 : member b!"location" ((b!"name", Json.str n) :: (b!"type", .str t)
        :: (fs.filterMap (fun f => f.2.map fun v => (f.1, v)) ++ [(b!"location", ofLocations l)])) = some (ofLocations l) := by
    show Option.map _ (List.find? _ _) = _
    rw [List.find?_cons_of_neg (by simp), List.find?_cons_of_neg (by simp), h3]
    rfl
  rw [m1, m2, m3]
  simp only [ofLocations, all_positions, Bool.true_and, Bool.and_true]
  rcases ht with rfl | rfl | rfl <;> decide

/-- The parent blocks have their type after the variant. -/
theorem isNode_parent {n t : Str} {v : Option ParentVariant} {l : List Location} {fs : List (Str × Option Json)}
    (ht : t = b!"block") (hn : ∀ f ∈ fs, f.1 ≠ b!"location") :
    isNode (((b!"name", some (.str n)) :: (b!"variant", v.map fun v => .str (parentVariant v)) :: (b!"type", some (.str t))
      :: (fs ++ [(b!"location", some (ofLocations l))])).filterMap fun f => f.2.map fun v => (f.1, v)) = true := by
  have h := isNode_fields (n := n) (l := l) (fs := fs) (.inl ht) hn
  cases v with
  | none => exact h
  | some v =>
    simp only [isNode, Option.map_some, List.filterMap_cons] at h ⊢
    exact h

mutual
theorem allNodes_block : ∀ x : Block, cellFree x = true → allNodes (ofBlock ord x) = true
  | .section t m v bs l, h => by
    rw [ofBlock, fields, allNodes, Bool.and_eq_true]
    refine ⟨isNode_fields (.inl rfl) (fs := [_, _, _, _]) ?_, ?_⟩
    · simp
    · exact allNodesM_field _ _ _ (okField_str _ _) (allNodesM_field _ _ _ (okField_str _ _) (allNodesM_field _ _ _ (okField_arr _ (allNodes_inlines t)) (allNodesM_field _ _ _ (okField_meta m) (allNodesM_field _ _ _ rfl (allNodesM_field _ _ _ (okField_arr _ (allNodes_blocks bs (by simpa only [cellFree] using h))) (allNodesM_field _ _ _ (okField_location l) rfl))))))
  | .list v bs m l, h => by
    rw [ofBlock, fields, allNodes, Bool.and_eq_true]
    refine ⟨isNode_fields (.inl rfl) (fs := [_, _, _, _]) ?_, ?_⟩
    · simp
    · exact allNodesM_field _ _ _ (okField_str _ _) (allNodesM_field _ _ _ (okField_str _ _) (allNodesM_field _ _ _ (okField_str _ _) (allNodesM_field _ _ _ (okField_str _ _) (allNodesM_field _ _ _ (okField_arr _ (allNodes_blocks bs (by simpa only [cellFree] using h))) (allNodesM_field _ _ _ (okField_meta m) (allNodesM_field _ _ _ (okField_location l) rfl))))))
  | .listItem k p bs m l, h => by
    rw [ofBlock, fields, allNodes, Bool.and_eq_true]
    refine ⟨isNode_fields (.inl rfl) (fs := [_, _, _, _]) ?_, ?_⟩
    · simp
    · exact allNodesM_field _ _ _ (okField_str _ _) (allNodesM_field _ _ _ (okField_str _ _) (allNodesM_field _ _ _ (okField_str _ _) (allNodesM_field _ _ _ (okField_arr _ (allNodes_inlines p)) (allNodesM_field _ _ _ (okField_list _ (allNodes_blocks bs (by simpa only [cellFree] using h))) (allNodesM_field _ _ _ (okField_meta m) (allNodesM_field _ _ _ (okField_location l) rfl))))))
  | .dlist bs m l, h => by
    rw [ofBlock, fields, allNodes, Bool.and_eq_true]
    refine ⟨isNode_fields (.inl rfl) (fs := [_, _, _]) ?_, ?_⟩
    · simp
    · exact allNodesM_field _ _ _ (okField_str _ _) (allNodesM_field _ _ _ (okField_str _ _) (allNodesM_field _ _ _ (okField_str _ _) (allNodesM_field _ _ _ (okField_arr _ (allNodes_blocks bs (by simpa only [cellFree] using h))) (allNodesM_field _ _ _ (okField_meta m) (allNodesM_field _ _ _ (okField_location l) rfl)))))
  | .dlistItem t p bs m l, h => by
    rw [ofBlock, fields, allNodes, Bool.and_eq_true]
    refine ⟨isNode_fields (.inl rfl) (fs := [_, _, _, _, _]) ?_, ?_⟩
    · simp
    · exact allNodesM_field _ _ _ (okField_str _ _) (allNodesM_field _ _ _ (okField_str _ _) (allNodesM_field _ _ _ (okField_str _ _) (allNodesM_field _ _ _ (okField_arr _ (allNodes_inlines t)) (allNodesM_field _ _ _ (okField_list _ (allNodes_inlines p)) (allNodesM_field _ _ _ (okField_list _ (allNodes_blocks bs (by simpa only [cellFree] using h))) (allNodesM_field _ _ _ (okField_meta m) (allNodesM_field _ _ _ (okField_location l) rfl)))))))
  | .brk v l, h => by
    rw [ofBlock, fields, allNodes, Bool.and_eq_true]
    refine ⟨isNode_fields (.inl rfl) (fs := [_]) ?_, ?_⟩
    · simp
    · exact allNodesM_field _ _ _ (okField_str _ _) (allNodesM_field _ _ _ (okField_str _ _) (allNodesM_field _ _ _ (okField_str _ _) (allNodesM_field _ _ _ (okField_location l) rfl)))
  | .image t c m l, h => by
    rw [ofBlock, fields, allNodes, Bool.and_eq_true]
    refine ⟨isNode_fields (.inl rfl) (fs := [_, _, _, _]) ?_, ?_⟩
    · simp
    · exact allNodesM_field _ _ _ (okField_str _ _) (allNodesM_field _ _ _ (okField_str _ _) (allNodesM_field _ _ _ (okField_str _ _) (allNodesM_field _ _ _ (okField_str _ _) (allNodesM_field _ _ _ (okField_list _ (allNodes_inlines c)) (allNodesM_field _ _ _ (okField_meta m) (allNodesM_field _ _ _ (okField_location l) rfl))))))
  | .leaf n f d is m l, h => by
    rw [ofBlock, fields, allNodes, Bool.and_eq_true]
    refine ⟨isNode_fields (.inl rfl) (fs := [_, _, _, _]) ?_, ?_⟩
    · simp
    · exact allNodesM_field _ _ _ (okField_str _ _) (allNodesM_field _ _ _ (okField_str _ _) (allNodesM_field _ _ _ (by cases f <;> rfl) (allNodesM_field _ _ _ (by cases d <;> rfl) (allNodesM_field _ _ _ (okField_arr _ (allNodes_inlines is)) (allNodesM_field _ _ _ (okField_meta m) (allNodesM_field _ _ _ (okField_location l) rfl))))))
  | .parent n v d bs t m l, h => by
    rw [ofBlock, fields, allNodes, Bool.and_eq_true]
    refine ⟨isNode_parent rfl (fs := [_, _, _, _, _]) ?_, ?_⟩
    · simp
    · exact allNodesM_field _ _ _ (okField_str _ _) (allNodesM_field _ _ _ (by cases v <;> rfl) (allNodesM_field _ _ _ (okField_str _ _) (allNodesM_field _ _ _ (okField_str _ _) (allNodesM_field _ _ _ (by split <;> rfl) (allNodesM_field _ _ _ (okField_arr _ (allNodes_blocks bs (by simpa only [cellFree] using h))) (allNodesM_field _ _ _ (okField_list _ (allNodes_inlines t)) (allNodesM_field _ _ _ (okField_meta m) (allNodesM_field _ _ _ (okField_location l) rfl))))))))
  | .tableCell _ _ _, h => by simp [cellFree] at h
theorem allNodes_blocks : ∀ xs : List Block, cellFreeL xs = true → allNodesL (ofBlocks ord xs) = true
  | [], _ => rfl
  | x :: xs, h => by
    simp only [cellFreeL, Bool.and_eq_true] at h
    simp [ofBlocks, allNodesL, allNodes_block x h.1, allNodes_blocks xs h.2]
end

theorem allNodes_asg (g : Asg) (h : cellFreeL g.blocks = true) : allNodes (ofAsg ord g) = true := by
  rw [ofAsg, fields, allNodes, Bool.and_eq_true]
  refine ⟨isNode_fields (.inl rfl) (fs := [_, _, _]) ?_, ?_⟩
  · simp
  · refine allNodesM_field _ _ _ rfl (allNodesM_field _ _ _ rfl (allNodesM_field _ _ _ ?_ (allNodesM_field _ _ _ ?_
      (allNodesM_field _ _ _ (okField_arr _ (allNodes_blocks _ h)) (allNodesM_field _ _ _ (okField_location _) rfl)))))
    · cases g.attributes <;> rfl
    · cases g.header with
      | none => rfl
      | some hd =>
        simp only [Option.map_some, ofHeader, fields, okField]
        rw [Bool.or_eq_true]
        exact .inr (allNodesM_field _ _ _ (okField_arr _ (allNodes_inlines hd.title))
          (allNodesM_field _ _ _ (okField_location _) rfl))

end Adoc.Json
