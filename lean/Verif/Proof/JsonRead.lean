import Verif.Spec.JsonRead
import Verif.Spec.RichDoc
/-!
# Reading the graph back from its JSON form
-/
namespace Adoc.Json
open Adoc Spec JsonRead

variable {ord : SMap Str → SMap Str}

/-- The first member with a name, among the fields of a struct. -/
def look (k : Str) : List (Str × Option Json) → Option Json
  | [] => none
  | (k', o) :: fs => if k' = k then o.or (look k fs) else look k fs

theorem member_fields (k : Str) : ∀ fs : List (Str × Option Json),
    member k (fs.filterMap fun f => f.2.map fun v => (f.1, v)) = look k fs
  | [] => rfl
  | (k', none) :: fs => by
    have ih := member_fields k fs
    simp only [look, Option.none_or, ite_self]
    exact ih
  | (k', some v) :: fs => by
    have ih := member_fields k fs
    simp only [look]
    unfold member at ih ⊢
    simp only [List.filterMap_cons, Option.map_some]
    by_cases h : k' = k
    · simp [h]
    · simp [h]
      simpa using ih

theorem members_fields (fs : List (Str × Option Json)) :
    members (fields fs) = some (fs.filterMap fun f => f.2.map fun v => (f.1, v)) := rfl

theorem need_fields {α : Type} (f : Json → Option α) (k : Str) (fs : List (Str × Option Json)) :
    need f k (fs.filterMap fun f => f.2.map fun v => (f.1, v)) = (look k fs).bind f := by
  unfold need
  rw [member_fields]
  cases look k fs <;> rfl

/-- A member that may be missing. -/
def opt {α : Type} (f : Json → Option α) : Option Json → Option (Option α)
  | some j => (f j).map some
  | none => some none

theorem maybe_fields {α : Type} (f : Json → Option α) (k : Str) (fs : List (Str × Option Json)) :
    maybe f k (fs.filterMap fun f => f.2.map fun v => (f.1, v)) = opt f (look k fs) := by
  unfold maybe
  rw [member_fields]
  cases look k fs <;> rfl

theorem maybeList_fields {α : Type} (f : Json → Option α) (k : Str) (fs : List (Str × Option Json)) :
    maybeList f k (fs.filterMap fun f => f.2.map fun v => (f.1, v)) = (opt (listOf f) (look k fs)).map fun l => l.getD [] := by
  unfold maybeList
  rw [maybe_fields]

/-! ## Depth -/

/-- The depth of the fields of a struct. -/
def depthF : List (Str × Option Json) → Nat
  | [] => 0
  | (_, some x) :: fs => max (depth x) (depthF fs)
  | (_, none) :: fs => depthF fs

theorem depth_fields (fs : List (Str × Option Json)) : depth (fields fs) = depthF fs + 1 := by
  have : ∀ fs : List (Str × Option Json), depthM (fs.filterMap fun f => f.2.map fun v => (f.1, v)) = depthF fs := by
    intro fs
    induction fs with
    | nil => rfl
    | cons x xs ih =>
      obtain ⟨k, o⟩ := x
      cases o with
      | none => simpa [depthF] using ih
      | some v =>
        simp only [List.filterMap_cons, Option.map_some, depthM, depthF, ih]
  unfold fields
  simp only [depth, this]

theorem depth_look {k : Str} {j : Json} : ∀ {fs : List (Str × Option Json)}, look k fs = some j → depth j ≤ depthF fs
  | [], h => by simp [look] at h
  | (k', none) :: fs, h => by
    simp only [look, Option.none_or, ite_self] at h
    exact depth_look (fs := fs) h
  | (k', some v) :: fs, h => by
    simp only [look, Option.some_or] at h
    by_cases hk : k' = k
    · rw [if_pos hk] at h
      injection h with h
      subst h
      exact Nat.le_max_left _ _
    · rw [if_neg hk] at h
      exact Nat.le_trans (depth_look h) (Nat.le_max_right _ _)

/-! ## Lists and small values -/

theorem each_map {α β : Type} {f : Json → Option β} {g : α → Json} {h : α → β} :
    ∀ {l : List α}, (∀ x ∈ l, f (g x) = some (h x)) → each f (l.map g) = some (l.map h)
  | [], _ => rfl
  | x :: xs, hf => by
    have ih := each_map (f := f) (g := g) (h := h) (l := xs) fun y hy => hf y (List.mem_cons_of_mem _ hy)
    simp only [List.map_cons, each, hf x (List.mem_cons_self ..), ih]
    rfl

theorem each_str (l : List Str) : each asText (l.map .str) = some l := by
  have := each_map (f := asText) (g := Json.str) (h := id) (l := l) fun _ _ => rfl
  simpa using this

theorem listOf_arr {α : Type} (f : Json → Option α) (l : List Json) : listOf f (.arr l) = each f l := rfl

theorem listOf_strs (l : List Str) : listOf asText (strs l) = some l := each_str l

/-- A list that is left out if it is empty is read as a list. -/
theorem opt_list {α : Type} {f : Json → Option α} {l : List Json} {r : List α} (h : each f l = some r) :
    ((opt (listOf f) (unlessEmpty l)).map fun l => l.getD []) = some r := by
  unfold unlessEmpty
  cases l with
  | nil =>
    simp only [each, Option.some.injEq] at h
    subst h
    rfl
  | cons x xs =>
    simp only [List.isEmpty_cons, opt, listOf, asList, Option.bind_some, h, Bool.false_eq_true, ↓reduceIte]
    rfl

theorem readLocation_of (l : Location) : readLocation (ofLocation l) = some l := by
  unfold readLocation ofLocation
  rw [members_fields]
  simp only [Option.bind_eq_bind, Option.bind_some, need_fields, maybeList_fields]
  simp (decide := true) only [look, ↓reduceIte, Option.or_none, Option.bind_some, asNumber]
  rw [opt_list (each_str l.file)]
  rfl

theorem listOf_locations (l : List Location) : listOf readLocation (ofLocations l) = some l := by
  have := each_map (f := readLocation) (g := ofLocation) (h := id) (l := l) fun x _ => readLocation_of x
  simpa [listOf, ofLocations, asList] using this

theorem readEntries_map : ∀ m : SMap Str, readEntries (m.map fun kv => (kv.1, Json.str kv.2)) = some m
  | [] => rfl
  | (k, v) :: m => by
    simp only [List.map_cons, readEntries, asText, readEntries_map m]
    rfl

theorem readMap_of (m : SMap Str) : readMap (ofMap ord m) = some (ord m) := readEntries_map (ord m)

theorem readMeta_of (m : Meta) : readMeta (ofMeta ord m) = some (shownMeta ord m) := by
  unfold readMeta ofMeta
  rw [members_fields]
  simp only [Option.bind_eq_bind, Option.bind_some, need_fields]
  simp (decide := true) only [look, ↓reduceIte, Option.or_none, Option.bind_some, readMap_of, listOf_strs,
    listOf_locations]
  rfl

theorem opt_meta (m : Option Meta) : opt readMeta (m.map (ofMeta ord)) = some (m.map (shownMeta ord)) := by
  cases m with
  | none => rfl
  | some m => simp only [Option.map_some, opt, readMeta_of]

theorem named_span (v : SpanVariant) : named spanVariants (.str (spanVariant v)) = some v := by cases v <;> decide
theorem named_form (v : SpanForm) : named spanForms (.str (spanForm v)) = some v := by cases v <;> decide
theorem named_ref (v : RefVariant) : named refVariants (.str (refVariant v)) = some v := by cases v <;> decide
theorem named_list (v : ListVariant) : named listVariants (.str (listVariant v)) = some v := by cases v <;> decide
theorem named_break (v : BreakVariant) : named breakVariants (.str (breakVariant v)) = some v := by cases v <;> decide
theorem named_admonition (v : Option ParentVariant) :
    opt (named admonitions) (v.map fun v => Json.str (parentVariant v)) = some v := by
  cases v with
  | none => rfl
  | some v => cases v <;> decide

theorem opt_text (d : Option Str) : opt asText (d.map .str) = some d := by cases d <;> rfl

/-! ## Inlines -/

mutual
theorem readInline_of : ∀ (x : Inline) (n : Nat), depth (ofInline ord x) ≤ n →
    readInline n (ofInline ord x) = some (shownInline ord x)
  | .span v f is m l o, 0, h => by simp [ofInline, depth_fields] at h
  | .span v f is m l o, n + 1, h => by
    have hd := Nat.le_of_succ_le_succ (depth_fields _ ▸ h)
    have h1 : depthL (ofInlines ord is) + 1 ≤ n := by
      refine Nat.le_trans ?_ hd
      exact depth_look (k := b!"inlines") (j := .arr (ofInlines ord is)) (by simp (decide := true) [look])
    have ih := readInlines_of is n (by omega)
    unfold readInline ofInline
    rw [members_fields]
    simp only [Option.bind_eq_bind, Option.bind_some, need_fields, maybe_fields]
    simp (decide := true) only [look, ↓reduceIte, Option.or_none, Option.bind_some, asText, listOf_locations,
      named_span, named_form, opt_meta, listOf_arr, ih, and_true, and_false]
    rfl
  | .ref v t is m l, 0, h => by simp [ofInline, depth_fields] at h
  | .ref v t is m l, n + 1, h => by
    have hd := Nat.le_of_succ_le_succ (depth_fields _ ▸ h)
    have h1 : depthL (ofInlines ord is) + 1 ≤ n := by
      refine Nat.le_trans ?_ hd
      exact depth_look (k := b!"inlines") (j := .arr (ofInlines ord is)) (by simp (decide := true) [look])
    have ih := readInlines_of is n (by omega)
    unfold readInline ofInline
    rw [members_fields]
    simp only [Option.bind_eq_bind, Option.bind_some, need_fields, maybe_fields]
    simp (decide := true) only [look, ↓reduceIte, Option.or_none, Option.bind_some, asText, listOf_locations,
      named_ref, opt_meta, listOf_arr, ih, and_true, and_false]
    rfl
  | .lit k v l, 0, h => by simp [ofInline, depth_fields] at h
  | .lit k v l, n + 1, h => by
    unfold readInline ofInline
    rw [members_fields]
    simp only [Option.bind_eq_bind, Option.bind_some, need_fields, maybe_fields]
    simp (decide := true) only [look, ↓reduceIte, Option.or_none, Option.bind_some, asText, listOf_locations]
    cases k <;> rfl
  | .brk l, 0, h => by simp [ofInline, depth_fields] at h
  | .brk l, n + 1, h => by
    unfold readInline ofInline
    rw [members_fields]
    simp only [Option.bind_eq_bind, Option.bind_some, need_fields, maybe_fields]
    simp (decide := true) only [look, ↓reduceIte, Option.or_none, Option.bind_some, asText, listOf_locations]
    rfl
theorem readInlines_of : ∀ (xs : List Inline) (n : Nat), depthL (ofInlines ord xs) ≤ n →
    each (readInline n) (ofInlines ord xs) = some (shownInlines ord xs)
  | [], _, _ => rfl
  | x :: xs, n, h => by
    simp only [ofInlines, depthL] at h
    simp only [ofInlines, each, readInline_of x n (by omega), readInlines_of xs n (by omega)]
    rfl
end

/-! ## Blocks -/

theorem form_of (f : LeafForm) : (opt asText (leafForm f)).bind readForm = some f := by cases f <;> decide

/-- The members of a struct. -/
def held (fs : List (Str × Option Json)) : List (Str × Json) := fs.filterMap fun f => f.2.map fun v => (f.1, v)

theorem members_held (fs : List (Str × Option Json)) : members (fields fs) = some (held fs) := rfl

theorem need_held {α : Type} (f : Json → Option α) (k : Str) (fs : List (Str × Option Json)) :
    need f k (held fs) = (look k fs).bind f := need_fields f k fs
theorem maybe_held {α : Type} (f : Json → Option α) (k : Str) (fs : List (Str × Option Json)) :
    maybe f k (held fs) = opt f (look k fs) := maybe_fields f k fs
theorem maybeList_held {α : Type} (f : Json → Option α) (k : Str) (fs : List (Str × Option Json)) :
    maybeList f k (held fs) = (opt (listOf f) (look k fs)).map fun l => l.getD [] := maybeList_fields f k fs

/-- A block is read by the reader for its name. -/
theorem readBlock_fields {n : Nat} {fs : List (Str × Option Json)} {name : Str} {m : Option Meta} {loc : List Location}
    {read : Reader} {b : Block} (h1 : look b!"name" fs = some (.str name))
    (h2 : look (if name = b!"tableCell" then b!"node_type" else b!"type") fs = some (.str b!"block"))
    (h3 : look b!"location" fs = some (ofLocations loc)) (h4 : look b!"metadata" fs = m.map (ofMeta ord))
    (h5 : (readers (readInline n) (readBlock n)).lookup name = some read)
    (h6 : read (held fs) (m.map (shownMeta ord)) loc = some b) : readBlock (n + 1) (fields fs) = some b := by
  unfold readBlock
  rw [members_held]
  simp only [Option.bind_eq_bind, Option.bind_some, need_held, maybe_held, h1, asText, h2, h3, listOf_locations, h4, opt_meta,
    h5, ↓reduceIte]
  exact h6

theorem readLeaf_of {ri : Json → Option Inline} {n : LeafName} {f : LeafForm} {d : Option Str} {is : List Inline}
    {m m' : Option Meta} {l : List Location} {r : List Inline}
    (h : each ri (ofInlines ord is) = some r) :
    readLeaf ri n (held [
      (b!"name", some (.str (leafName n))),
      (b!"type", some (.str b!"block")),
      (b!"form", leafForm f),
      (b!"delimiter", d.map .str),
      (b!"inlines", some (.arr (ofInlines ord is))),
      (b!"metadata", m.map (ofMeta ord)),
      (b!"location", some (ofLocations l))]) m' l = some (.leaf n f d r m' l) := by
  unfold readLeaf
  simp only [Option.bind_eq_bind, need_held, maybe_held]
  simp (decide := true) only [look, ↓reduceIte, Option.or_none, Option.bind_some, listOf_arr, h, opt_text, form_of]
  rfl

theorem lookup_leaf (ri : Json → Option Inline) (rb : Json → Option Block) (n : LeafName) :
    (readers ri rb).lookup (leafName n) = some (readLeaf ri n) := by cases n <;> rfl

theorem lookup_parent (ri : Json → Option Inline) (rb : Json → Option Block) (n : ParentName) :
    (readers ri rb).lookup (parentName n) = some (readParent ri rb n) := by cases n <;> rfl

/-- Children of a struct are less deep. -/
theorem depth_child {fs : List (Str × Option Json)} {k : Str} {xs : List Json} {n : Nat} (h : depth (fields fs) ≤ n + 1)
    (hk : look k fs = some (.arr xs)) : depthL xs ≤ n := by
  have h1 := depth_look hk
  rw [depth_fields] at h
  simp only [depth] at h1
  omega

theorem depth_list {fs : List (Str × Option Json)} {k : Str} {xs : List Json} {n : Nat} (h : depth (fields fs) ≤ n + 1)
    (hk : look k fs = unlessEmpty xs) : depthL xs ≤ n := by
  cases xs with
  | nil => exact Nat.zero_le _
  | cons x xs => exact depth_child h hk

mutual
theorem readBlock_of : ∀ (b : Block) (n : Nat), depth (ofBlock ord b) ≤ n →
    readBlock n (ofBlock ord b) = some (shownBlock ord b)
  | b, 0, h => by cases b <;> simp [ofBlock, depth_fields] at h
  | .section t m v bs l, n + 1, h => by
    have i1 := readInlines_of (ord := ord) t n (depth_child (k := b!"title") h (by simp (decide := true) [look]))
    have i2 := readBlocks_of bs n (depth_child (k := b!"blocks") h (by simp (decide := true) [look]))
    rw [ofBlock, shownBlock]
    refine readBlock_fields (ord := ord) (m := m) (loc := l) (read := readSection _ _) rfl rfl rfl (by simp (decide := true) [look]) rfl ?_
    unfold readSection
    simp only [Option.bind_eq_bind, need_held]
    simp (decide := true) only [look, ↓reduceIte, Option.or_none, Option.bind_some, listOf_arr, i1, i2, asNumber]
    rfl
  | .list v bs m l, n + 1, h => by
    have i2 := readBlocks_of bs n (depth_child (k := b!"items") h (by simp (decide := true) [look]))
    rw [ofBlock, shownBlock]
    refine readBlock_fields (ord := ord) (m := m) (loc := l) (read := readList _) rfl rfl rfl (by simp (decide := true) [look]) rfl ?_
    unfold readList
    simp only [Option.bind_eq_bind, need_held]
    simp (decide := true) only [look, ↓reduceIte, Option.or_none, Option.bind_some, listOf_arr, i2, named_list, asText]
    rw [if_pos (by cases v <;> rfl)]
    rfl
  | .listItem k p bs m l, n + 1, h => by
    have i1 := readInlines_of (ord := ord) p n (depth_child (k := b!"principal") h (by simp (decide := true) [look]))
    have i2 := readBlocks_of bs n (depth_list (k := b!"blocks") h (by simp (decide := true) [look]))
    rw [ofBlock, shownBlock]
    refine readBlock_fields (ord := ord) (m := m) (loc := l) (read := readItem _ _) rfl rfl rfl (by simp (decide := true) [look]) rfl ?_
    unfold readItem
    simp only [Option.bind_eq_bind, need_held, maybeList_held]
    simp (decide := true) only [look, ↓reduceIte, Option.or_none, Option.bind_some, listOf_arr, i1, opt_list i2, asText]
    rfl
  | .dlist bs m l, n + 1, h => by
    have i2 := readBlocks_of bs n (depth_child (k := b!"items") h (by simp (decide := true) [look]))
    rw [ofBlock, shownBlock]
    refine readBlock_fields (ord := ord) (m := m) (loc := l) (read := readDlist _) rfl rfl rfl (by simp (decide := true) [look]) rfl ?_
    unfold readDlist
    simp only [Option.bind_eq_bind, need_held]
    simp (decide := true) only [look, ↓reduceIte, Option.or_none, Option.bind_some, listOf_arr, i2, asText]
    rfl
  | .dlistItem t p bs m l, n + 1, h => by
    have i0 := readInlines_of (ord := ord) t n (depth_child (k := b!"terms") h (by simp (decide := true) [look]))
    have i1 := readInlines_of (ord := ord) p n (depth_list (k := b!"principal") h (by simp (decide := true) [look]))
    have i2 := readBlocks_of bs n (depth_list (k := b!"blocks") h (by simp (decide := true) [look]))
    rw [ofBlock, shownBlock]
    refine readBlock_fields (ord := ord) (m := m) (loc := l) (read := readEntry _ _) rfl rfl rfl (by simp (decide := true) [look]) rfl ?_
    unfold readEntry
    simp only [Option.bind_eq_bind, need_held, maybeList_held]
    simp (decide := true) only [look, ↓reduceIte, Option.or_none, Option.bind_some, listOf_arr, i0, opt_list i1, opt_list i2,
      asText]
    rfl
  | .brk v l, n + 1, h => by
    rw [ofBlock, shownBlock]
    refine readBlock_fields (ord := ord) (m := none) (loc := l) (read := readBreak) rfl rfl rfl rfl rfl ?_
    unfold readBreak
    simp only [Option.bind_eq_bind, need_held]
    simp (decide := true) only [look, ↓reduceIte, Option.or_none, Option.bind_some, named_break]
    rfl
  | .image t c m l, n + 1, h => by
    have i1 := readInlines_of (ord := ord) c n (depth_list (k := b!"caption") h (by simp (decide := true) [look]))
    rw [ofBlock, shownBlock]
    refine readBlock_fields (ord := ord) (m := m) (loc := l) (read := readImage _) rfl rfl rfl (by simp (decide := true) [look]) rfl ?_
    unfold readImage
    simp only [Option.bind_eq_bind, need_held, maybeList_held]
    simp (decide := true) only [look, ↓reduceIte, Option.or_none, Option.bind_some, opt_list i1, asText]
    rfl
  | .leaf x f d is m l, n + 1, h => by
    have i1 := readInlines_of (ord := ord) is n (depth_child (k := b!"inlines") h (by simp (decide := true) [look]))
    rw [ofBlock, shownBlock]
    exact readBlock_fields (ord := ord) (m := m) (loc := l) (read := readLeaf _ x) rfl (by cases x <;> rfl) (by simp (decide := true) [look])
      (by simp (decide := true) [look]) (lookup_leaf _ _ x) (readLeaf_of i1)
  | .parent x v d bs t m l, n + 1, h => by
    have i1 := readInlines_of (ord := ord) t n (depth_list (k := b!"title") h (by simp (decide := true) [look]))
    have i2 := readBlocks_of bs n (depth_child (k := b!"blocks") h (by simp (decide := true) [look]))
    rw [ofBlock, shownBlock]
    refine readBlock_fields (ord := ord) (m := m) (loc := l) (read := readParent _ _ x) (by simp (decide := true) [look])
      (by cases x <;> simp (decide := true) [look]) (by simp (decide := true) [look]) (by simp (decide := true) [look])
      (lookup_parent _ _ x) ?_
    unfold readParent
    simp only [Option.bind_eq_bind, need_held, maybe_held, maybeList_held]
    simp (decide := true) only [look, ↓reduceIte, Option.or_none, Option.bind_some, listOf_arr, opt_list i1, i2, asText,
      named_admonition]
    cases d <;> rfl
  | .tableCell is m l, n + 1, h => by
    have i1 := readInlines_of (ord := ord) is n (depth_child (k := b!"inlines") h (by simp (decide := true) [look]))
    rw [ofBlock, shownBlock]
    refine readBlock_fields (ord := ord) (m := m) (loc := l) (read := readCell _) rfl rfl rfl (by simp (decide := true) [look]) rfl ?_
    unfold readCell
    simp only [Option.bind_eq_bind, need_held]
    simp (decide := true) only [look, ↓reduceIte, Option.or_none, Option.bind_some, listOf_arr, i1]
    rfl
theorem readBlocks_of : ∀ (bs : List Block) (n : Nat), depthL (ofBlocks ord bs) ≤ n →
    each (readBlock n) (ofBlocks ord bs) = some (shownBlocks ord bs)
  | [], _, _ => rfl
  | x :: xs, n, h => by
    simp only [ofBlocks, depthL] at h
    simp only [ofBlocks, each, readBlock_of x n (by omega), readBlocks_of xs n (by omega)]
    rfl
end

theorem readHeader_of (h : Header) {n : Nat} (hn : depth (ofHeader ord h) ≤ n) :
    readHeader n (ofHeader ord h) = some (shownHeader ord h) := by
  have i1 := readInlines_of (ord := ord) h.title n
    (depth_child (k := b!"title") (Nat.le_succ_of_le hn) (by simp (decide := true) [look]))
  unfold readHeader ofHeader
  rw [members_fields]
  simp only [Option.bind_eq_bind, Option.bind_some, need_fields]
  simp (decide := true) only [look, ↓reduceIte, Option.or_none, Option.bind_some, listOf_arr, i1, listOf_locations]
  rfl

/-- The document that is read from the value of a graph. -/
theorem readDocument_of (g : Asg) : readDocument (ofAsg ord g) = some (shown ord g) := by
  have i2 := readBlocks_of (ord := ord) g.blocks (depth (ofAsg ord g))
    (depth_child (k := b!"blocks") (Nat.le_succ _) (by simp (decide := true) [look]))
  have i1 : opt (readHeader (depth (ofAsg ord g))) (g.header.map (ofHeader ord)) = some (g.header.map (shownHeader ord)) := by
    cases hg : g.header with
    | none => rfl
    | some h =>
      have : depth (ofHeader ord h) ≤ depth (ofAsg ord g) := by
        rw [show depth (ofAsg ord g) = _ from depth_fields _]
        refine Nat.le_succ_of_le (depth_look (k := b!"header") ?_)
        simp (decide := true) [look, hg]
      simp only [Option.map_some, opt, readHeader_of h this]
  have i0 : opt readMap (g.attributes.map (ofMap ord)) = some (g.attributes.map ord) := by
    cases g.attributes with
    | none => rfl
    | some m => simp only [Option.map_some, opt, readMap_of]
  unfold readDocument
  rw [show members (ofAsg ord g) = _ from members_fields _]
  simp only [Option.bind_eq_bind, Option.bind_some, need_fields, maybe_fields]
  simp (decide := true) only [look, ↓reduceIte, Option.or_none, Option.bind_some, listOf_arr, asText, i0, i1, i2, listOf_locations]
  rfl

/-! ## What is shown, block by block -/

theorem bareM_shown (m : Meta) : bareM (shownMeta ord m) = shownMeta ord (bareM m) := rfl

theorem bareM_shown_map (m : Option Meta) : (m.map (shownMeta ord)).map bareM = (m.map bareM).map (shownMeta ord) := by
  cases m <;> rfl

mutual
theorem bare_shown : ∀ x : Inline, bare (shownInline ord x) = shownInline ord (bare x)
  | .span .. => by simp only [shownInline, bare, bareL_shown]
  | .ref .. => by simp only [shownInline, bare, bareL_shown]
  | .lit .. => rfl
  | .brk .. => rfl
theorem bareL_shown : ∀ xs : List Inline, bareL (shownInlines ord xs) = shownInlines ord (bareL xs)
  | [] => rfl
  | x :: xs => by simp only [shownInlines, bareL, bare_shown x, bareL_shown xs]
end

mutual
theorem bareB_shown : ∀ b : Block, bareB (shownBlock ord b) = shownBlock ord (bareB b)
  | .section .. => by simp only [shownBlock, bareB, bareL_shown, bareBs_shown, bareM_shown_map]
  | .list .. => by simp only [shownBlock, bareB, bareBs_shown, bareM_shown_map]
  | .listItem .. => by simp only [shownBlock, bareB, bareL_shown, bareBs_shown, bareM_shown_map]
  | .dlist .. => by simp only [shownBlock, bareB, bareBs_shown, bareM_shown_map]
  | .dlistItem .. => by simp only [shownBlock, bareB, bareL_shown, bareBs_shown, bareM_shown_map]
  | .brk .. => rfl
  | .image .. => by simp only [shownBlock, bareB, bareL_shown, bareM_shown_map]
  | .leaf .. => by simp only [shownBlock, bareB, bareL_shown, bareM_shown_map]
  | .parent .. => by simp only [shownBlock, bareB, bareL_shown, bareBs_shown, bareM_shown_map]
  | .tableCell .. => by simp only [shownBlock, bareB, bareL_shown, bareM_shown_map]
theorem bareBs_shown : ∀ bs : List Block, bareBs (shownBlocks ord bs) = shownBlocks ord (bareBs bs)
  | [] => rfl
  | x :: xs => by simp only [shownBlocks, bareBs, bareB_shown x, bareBs_shown xs]
end

/-- Titles as shown. -/
theorem shown_path (path : List Title) (v : Nat) (t : List Inline) :
    ((path ++ [(v, bareL t)]).map fun t => (t.1, shownInlines ord t.2))
      = (path.map fun t => (t.1, shownInlines ord t.2)) ++ [(v, bareL (shownInlines ord t))] := by
  rw [bareL_shown]
  simp

mutual
theorem listed_shown : ∀ (b : Block) (path : List Title),
    listed (path.map fun t => (t.1, shownInlines ord t.2)) (shownBlock ord b) = (listed path b).map (shownEntry ord)
  | .section t m v bs l, path => by
    have ih := listedL_shown bs (path ++ [(v, bareL t)])
    simp only [shownBlock, listed, List.map_cons, ← ih, shown_path, shownEntry, bareL_shown, bareM_shown_map, shownBlocks]
  | .list .., path => by
    simp only [listed, shownBlock, shownEntry, bareB, bareBs_shown, bareM_shown_map, List.map_cons, List.map_nil]
  | .listItem .., path => by
    simp only [listed, shownBlock, shownEntry, bareB, bareBs_shown, bareL_shown, bareM_shown_map, List.map_cons, List.map_nil]
  | .dlist .., path => by
    simp only [listed, shownBlock, shownEntry, bareB, bareBs_shown, bareM_shown_map, List.map_cons, List.map_nil]
  | .dlistItem .., path => by
    simp only [listed, shownBlock, shownEntry, bareB, bareBs_shown, bareL_shown, bareM_shown_map, List.map_cons, List.map_nil]
  | .brk .., path => rfl
  | .image .., path => by
    simp only [listed, shownBlock, shownEntry, bareB, bareL_shown, bareM_shown_map, List.map_cons, List.map_nil]
  | .leaf .., path => by
    simp only [listed, shownBlock, shownEntry, bareB, bareL_shown, bareM_shown_map, List.map_cons, List.map_nil]
  | .parent .., path => by
    simp only [listed, shownBlock, shownEntry, bareB, bareBs_shown, bareL_shown, bareM_shown_map, List.map_cons, List.map_nil]
  | .tableCell .., path => by
    simp only [listed, shownBlock, shownEntry, bareB, bareL_shown, bareM_shown_map, List.map_cons, List.map_nil]
theorem listedL_shown : ∀ (bs : List Block) (path : List Title),
    listedL (path.map fun t => (t.1, shownInlines ord t.2)) (shownBlocks ord bs) = (listedL path bs).map (shownEntry ord)
  | [], _ => rfl
  | x :: xs, path => by
    simp only [shownBlocks, listedL, listed_shown x path, listedL_shown xs path, List.map_append]
end

end Adoc.Json
