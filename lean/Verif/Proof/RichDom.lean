import Verif.Spec.RichDom
import Verif.Proof.Dom
import Verif.Proof.RichPage
/-!
# The tree of a graph with the contents of a document of the class
-/
set_option linter.unusedSimpArgs false
namespace Adoc.Rich
open Spec Dom Markup

/-! ## Locations do not matter -/

theorem classes_bare (m : Option Meta) : classes (m.map bareM) = classes m := by cases m <;> rfl
theorem ofCredit_bare (m : Option Meta) : ofCredit (m.map bareM) = ofCredit m := by simp only [ofCredit, value_bare]

mutual
theorem ofInline_bare (i : Inline) : ofInline (bare i) = ofInline i := by
  match i with
  | .lit n v l => simp only [bare, ofInline]
  | .brk l => simp only [bare, ofInline]
  | .span v f is m l o => simp only [bare, ofInline, ofInlines_bare is, classes_bare]
  | .ref v t is m l => cases v <;> simp only [bare, ofInline, ofInlines_bare is, bareL_isEmpty, classes_bare]
theorem ofInlines_bare (is : List Inline) : ofInlines (bareL is) = ofInlines is := by
  match is with
  | [] => rfl
  | i :: is => simp only [bareL, ofInlines, ofInline_bare i, ofInlines_bare is]
end

theorem unlessNone_bare (n : Str) (is : List Inline) : unlessNone n (bareL is) = unlessNone n is := by
  simp only [unlessNone, bareL_isEmpty, ofInlines_bare]

theorem ofLeaf_bare (n : LeafName) (is : List Inline) (m : Option Meta) :
    ofLeaf n (bareL is) (m.map bareM) = ofLeaf n is m := by
  cases n <;> simp only [ofLeaf, classes_bare, ofInlines_bare, value_bare]

theorem cellText_bare (b : Block) : cellText (bareB b) = bareL (cellText b) := by
  cases b <;> simp only [bareB, cellText, bareL]

theorem ofCell_bare (b : Block) : ofCell (bareB b) = ofCell b := by
  simp only [ofCell, cellText_bare, ofInlines_bare]

theorem ofHead_bare (b : Option Block) : ofHead (b.map bareB) = ofHead b := by
  cases b <;> simp only [ofHead, Option.map, cellText_bare, ofInlines_bare]

theorem bareBs_map (bs : List Block) : bareBs bs = bs.map bareB := by
  induction bs with
  | nil => rfl
  | cons b bs ih => simp only [bareBs, List.map_cons, ih]

theorem htmlLoop_map {α β : Type} (f : α → β) (cols total : Nat) (cs : List α) (idx : Nat) (cur : List α)
    (rows : List (List α)) :
    Render.htmlLoop cols total (cs.map f) idx (cur.map f) (rows.map (·.map f)) =
      (Render.htmlLoop cols total cs idx cur rows).map (·.map f) := by
  induction cs generalizing idx cur rows with
  | nil => simp [Render.htmlLoop]
  | cons c cs ih =>
    simp only [List.map_cons, Render.htmlLoop]
    split
    · have := ih (idx + 1) [] (rows ++ [cur ++ [c]])
      simpa using this
    · have := ih (idx + 1) (cur ++ [c]) rows
      simpa using this

theorem ofTable_bare (titled : Bool) (cells : List Block) (m : Option Meta) :
    ofTable titled (bareBs cells) (m.map bareM) = ofTable titled cells m := by
  have h1 : Dom.columns (m.map bareM) = Dom.columns m := by simp only [Dom.columns, value_bare]
  have h2 : headed (m.map bareM) = headed m := by cases m <;> rfl
  have h3 := htmlLoop_map bareB (Dom.columns m) cells.length (cells.drop (if headed m then Dom.columns m else 0))
    (if headed m then Dom.columns m else 0) [] []
  simp only [List.map_nil] at h3
  simp only [ofTable, h1, h2, Render.htmlTable, bareBs_map, List.length_map, ← List.map_drop, h3, List.map_map,
    List.getElem?_map]
  have e1 : (fun r => Node.elem b!"tr" [] (r.map ofCell)) ∘ (fun r : List Block => r.map bareB) =
      fun r => Node.elem b!"tr" [] (r.map ofCell) := by
    funext r
    simp only [Function.comp, List.map_map]
    congr 2
    funext b
    exact ofCell_bare b
  have e2 : (ofHead ∘ fun i : Nat => Option.map bareB cells[i]?) = ofHead ∘ fun i : Nat => cells[i]? := by
    funext i
    exact ofHead_bare _
  rw [e1, e2]

mutual
theorem ofBlock_bare (titled skip : Bool) (b : Block) : ofBlock titled skip (bareB b) = ofBlock titled skip b := by
  match b with
  | .section t m v bs l => simp only [bareB, ofBlock, unlessNone_bare, classes_bare, value_bare, ofCredit_bare, ofBlocks_bare titled false bs]
  | .list v bs m l => simp only [bareB, ofBlock, classes_bare, ofCredit_bare, ofBlocks_bare titled false bs]
  | .listItem k p bs m l => simp only [bareB, ofBlock, unlessNone_bare, classes_bare, ofCredit_bare, ofBlocks_bare titled false bs]
  | .dlist bs m l => simp only [bareB, ofBlock, classes_bare, ofCredit_bare, ofBlocks_bare titled false bs]
  | .dlistItem t p bs m l => simp only [bareB, ofBlock, unlessNone_bare, classes_bare, ofCredit_bare, ofBlocks_bare titled false bs]
  | .brk v l => cases v <;> simp only [bareB, ofBlock]
  | .image t c m l => simp only [bareB, ofBlock, unlessNone_bare, classes_bare, value_bare, ofCredit_bare]
  | .leaf n f d is m l => simp only [bareB, ofBlock, ofLeaf_bare]
  | .parent n v d bs t m l =>
    cases n <;> simp only [bareB, ofBlock, ofTable_bare, unlessNone_bare, classes_bare, ofCredit_bare, ofBlocks_bare titled _ bs]
  | .tableCell is m l => simp only [bareB, ofBlock, ofInlines_bare, classes_bare, ofCredit_bare]
theorem ofBlocks_bare (titled skip : Bool) (bs : List Block) : ofBlocks titled skip (bareBs bs) = ofBlocks titled skip bs := by
  match bs with
  | [] => rfl
  | b :: bs => simp only [bareBs, ofBlocks, ofBlock_bare titled skip b, ofBlocks_bare titled skip bs]
end

/-! ## From listed blocks to the page -/

/-- The beginning of a section. -/
def front (t : List Inline) (m : Option Meta) (v : Nat) : List Ev :=
  .opens b!"section" ((b!"data-type", b!"sect" ++ natToStr v) :: (classes m ++ unlessEmpty b!"id" (value m b!"id")))
    :: flatL (unlessNone b!"h1" t ++ ofCredit m)

/-- What a reader meets of blocks, each with the number of sections around it, when `d` sections are open. -/
def stepped (titled : Bool) : Nat → List (Nat × Block) → List Ev
  | d, [] => ends d
  | d, (k, .section t m v _ _) :: r => ends (d - k) ++ (front t m v ++ stepped titled (k + 1) r)
  | d, (k, b) :: r => ends (d - k) ++ (flatL (ofBlock titled false b) ++ stepped titled k r)

/-- The number of sections around a listed block. -/
def depths (l : List (List Title × Block)) : List (Nat × Block) := l.map fun x => (x.1.length, x.2)

/-- The list is empty or begins with a block with at most `k` sections around it. -/
def Shallow (k : Nat) (l : List (Nat × Block)) : Prop := ∀ x, l.head? = some x → x.1 ≤ k

theorem ends_add (a b : Nat) : ends (a + b) = ends a ++ ends b := by
  simp only [ends]
  exact (List.replicate_append_replicate).symm

theorem stepped_leave (titled : Bool) {k : Nat} {rest : List (Nat × Block)} (h : Shallow k rest) (d : Nat) (hd : k ≤ d) :
    stepped titled d rest = ends (d - k) ++ stepped titled k rest := by
  cases rest with
  | nil =>
    simp only [stepped]
    rw [← ends_add]
    congr 1
    omega
  | cons x rest =>
    obtain ⟨j, b⟩ := x
    have hj : j ≤ k := h (j, b) rfl
    have e : ends (d - j) = ends (d - k) ++ ends (k - j) := by
      rw [← ends_add]
      congr 1
      omega
    cases b <;> simp only [stepped, e, List.append_assoc]

theorem depths_append (a b : List (List Title × Block)) : depths (a ++ b) = depths a ++ depths b := List.map_append

theorem shallow_listed (path : List Title) (b : Block) (rest : List (Nat × Block)) :
    Shallow path.length (depths (listed path b) ++ rest) := by
  intro x hx
  have : ∃ c r, listed path b = (path, c) :: r := by
    cases b <;> exact ⟨_, _, rfl⟩
  obtain ⟨c, r, e⟩ := this
  rw [e] at hx
  simp only [depths, List.map_cons, List.cons_append, List.head?_cons, Option.some.injEq] at hx
  subst hx
  exact Nat.le_refl _

mutual
theorem stepped_listed (titled : Bool) (path : List Title) (b : Block) (rest : List (Nat × Block)) (h : Shallow path.length rest) :
    stepped titled path.length (depths (listed path b) ++ rest) = flatL (ofBlock titled false b) ++ stepped titled path.length rest := by
  have other : ∀ b, listed path b = [(path, bareB b)] → (∀ r d k, stepped titled d ((k, bareB b) :: r) =
      ends (d - k) ++ (flatL (ofBlock titled false (bareB b)) ++ stepped titled k r)) →
      stepped titled path.length (depths (listed path b) ++ rest) = flatL (ofBlock titled false b) ++ stepped titled path.length rest := by
    intro b h1 h2
    rw [h1]
    simp only [depths, List.map_cons, List.map_nil, List.cons_append, List.nil_append]
    rw [h2, ofBlock_bare, Nat.sub_self]
    rfl
  match b with
  | .section t m v bs l =>
    have e : listed path (.section t m v bs l) =
      (path, .section (bareL t) (m.map bareM) v [] []) :: listedL (path ++ [(v, bareL t)]) bs := rfl
    rw [e]
    simp only [depths, List.map_cons, List.cons_append]
    simp only [stepped, Nat.sub_self]
    have hl : path.length + 1 = (path ++ [(v, bareL t)]).length := by simp
    have hs : Shallow (path ++ [(v, bareL t)]).length rest := by
      intro x hx
      have := h x hx
      simp only [List.length_append, List.length_cons, List.length_nil]
      omega
    have key := steppedL_listed titled (path ++ [(v, bareL t)]) bs rest hs
    rw [stepped_leave titled h _ (by omega)] at key
    rw [hl]
    have key' : stepped titled (path ++ [(v, bareL t)]).length
        ((listedL (path ++ [(v, bareL t)]) bs).map (fun x => (x.1.length, x.2)) ++ rest) = _ := key
    rw [key']
    have e1 : (path ++ [(v, bareL t)]).length - path.length = 1 := by simp
    rw [e1]
    have hv : b!"section" ∉ voids := by decide
    simp only [front, ofBlock, flatL, Node.flat, if_neg hv, flatL_append, unlessNone_bare, classes_bare, value_bare,
      ofCredit_bare, List.append_assoc, List.nil_append, List.append_nil, List.cons_append]
    rfl
  | .list v bs m l => exact other _ rfl fun _ _ _ => rfl
  | .listItem k p bs m l => exact other _ rfl fun _ _ _ => rfl
  | .dlist bs m l => exact other _ rfl fun _ _ _ => rfl
  | .dlistItem t p bs m l => exact other _ rfl fun _ _ _ => rfl
  | .brk v l => exact other _ rfl fun _ _ _ => rfl
  | .image t c m l => exact other _ rfl fun _ _ _ => rfl
  | .leaf n f d is m l => exact other _ rfl fun _ _ _ => rfl
  | .parent n v d bs t m l => exact other _ rfl fun _ _ _ => rfl
  | .tableCell is m l => exact other _ rfl fun _ _ _ => rfl
theorem steppedL_listed (titled : Bool) (path : List Title) (bs : List Block) (rest : List (Nat × Block)) (h : Shallow path.length rest) :
    stepped titled path.length (depths (listedL path bs) ++ rest) = flatL (ofBlocks titled false bs) ++ stepped titled path.length rest := by
  match bs with
  | [] => rfl
  | b :: bs =>
    simp only [listedL, ofBlocks, depths_append, flatL_append, List.append_assoc]
    have hs : Shallow path.length (depths (listedL path bs) ++ rest) := by
      cases bs with
      | nil => exact h
      | cons c cs =>
        simp only [listedL, depths_append, List.append_assoc]
        exact shallow_listed path c _
    rw [stepped_listed titled path b _ hs, steppedL_listed titled path bs rest h]
end

/-- What a reader meets of a graph depends on the listed blocks. -/
theorem flat_stepped (titled : Bool) (bs : List Block) : flatL (ofBlocks titled false bs) = stepped titled 0 (depths (listedL [] bs)) := by
  have := steppedL_listed titled [] bs [] (fun _ hx => nomatch hx)
  simp only [List.append_nil] at this
  rw [List.length_nil] at this
  rw [this]
  simp [stepped, ends]

/-! ## From the contents of a document to the page -/

/-- The levels of headings. -/
def levelsOf (ps : List Title) : List Nat := (ps.map (·.1)).reverse

theorem levels_parents (hs : List Title) (n m : Nat) (h : n ≤ m) :
    levelsOf (parents hs n) = (levelsOf (parents hs m)).dropWhile fun l => n ≤ l := by
  induction hs generalizing n m with
  | nil => rfl
  | cons x hs ih =>
    by_cases h1 : x.1 < n
    · have h2 : x.1 < m := by omega
      simp only [parents, if_pos h1, if_pos h2, levelsOf, List.map_append, List.map_cons, List.map_nil, List.reverse_append,
        List.reverse_cons, List.reverse_nil, List.nil_append, List.cons_append, List.dropWhile_cons]
      rw [if_neg]
      simp only [decide_eq_true_eq]
      omega
    · by_cases h2 : x.1 < m
      · have := ih n x.1 (by omega)
        simp only [parents, if_neg h1, if_pos h2, levelsOf, List.map_append, List.map_cons, List.map_nil, List.reverse_append,
          List.reverse_cons, List.reverse_nil, List.nil_append, List.cons_append, List.dropWhile_cons] at this ⊢
        rw [if_pos (by simp only [decide_eq_true_eq]; omega)]
        exact this
      · simp only [parents, if_neg h1, if_neg h2]
        exact ih n m h

theorem stepped_contents (titled : Bool) (ids : Ids) (es : List Tagged) (h : ∀ e ∈ es, ∀ n t, e.blk = .head n t → n < 5) (hs : List Title) :
    stepped titled (parents hs 5).length (depths (contents ids hs es)) = unrolled titled ids (levelsOf (parents hs 5)) es := by
  induction es generalizing hs with
  | nil =>
    simp [contents, depths, stepped, unrolled, levelsOf]
  | cons e es ih =>
    have ih := ih fun x hx => h x (List.mem_cons_of_mem _ hx)
    obtain ⟨tags, blk, gap⟩ := e
    have other : ∀ blk : Blk, blk.level = 5 → (∀ hs, blk.after ids hs = hs) →
        (∀ r d k, stepped titled d ((k, blk.block ids (tagsMeta tags)) :: r) =
          ends (d - k) ++ (flatL (ofBlock titled false (blk.block ids (tagsMeta tags))) ++ stepped titled k r)) →
        (∀ levels, unrolled titled ids levels (⟨tags, blk, gap⟩ :: es) =
          flatL (ofBlock titled false (blk.block ids (tagsMeta tags))) ++ unrolled titled ids levels es) →
        stepped titled (parents hs 5).length (depths (contents ids hs (⟨tags, blk, gap⟩ :: es))) =
          unrolled titled ids (levelsOf (parents hs 5)) (⟨tags, blk, gap⟩ :: es) := by
      intro blk h1 h2 h3 h4
      simp only [contents, h1, h2, depths, List.map_cons, Tagged.block]
      rw [h3, h4, Nat.sub_self, ← ih hs]
      rfl
    match blk with
    | .head n title =>
      have hn : n < 5 := h _ List.mem_cons_self n title rfl
      have hp : parents ((n, shownL ids title) :: hs) 5 = parents hs n ++ [(n, shownL ids title)] := by
        simp [parents, hn]
      have ih := ih ((n, shownL ids title) :: hs)
      rw [hp] at ih
      have hlev : levelsOf (parents hs n ++ [(n, shownL ids title)]) = n :: levelsOf (parents hs n) := by
        simp [levelsOf]
      rw [hlev, levels_parents hs n 5 (by omega)] at ih
      have hlen : (parents hs n).length = ((levelsOf (parents hs 5)).dropWhile fun l => n ≤ l).length := by
        rw [← levels_parents hs n 5 (by omega)]
        simp [levelsOf]
      have hlen5 : (parents hs 5).length = (levelsOf (parents hs 5)).length := by simp [levelsOf]
      simp only [contents, depths, List.map_cons, Tagged.block, Blk.block, Blk.level, Blk.after, stepped]
      have e2 : (parents hs n ++ [(n, shownL ids title)]).length = (parents hs n).length + 1 := by simp
      rw [e2] at ih
      have ih' : stepped titled ((parents hs n).length + 1)
          ((contents ids ((n, shownL ids title) :: hs) es).map fun x => (x.1.length, x.2)) = _ := ih
      rw [ih']
      simp only [unrolled, front, List.append_assoc, List.cons_append]
      rw [← hlen, ← hlen5]
    | .piece (.para es') => exact other _ rfl (fun _ => rfl) (fun _ _ _ => rfl) (fun _ => rfl)
    | .piece (.list v items) => exact other _ rfl (fun _ => rfl) (fun _ _ _ => rfl) (fun _ => rfl)
    | .piece (.verb n d body) => exact other _ rfl (fun _ => rfl) (fun _ _ _ => rfl) (fun _ => rfl)
    | .brk v => exact other _ rfl (fun _ => rfl) (fun _ _ _ => rfl) (fun _ => rfl)
    | .note v es' => exact other _ rfl (fun _ => rfl) (fun _ _ _ => rfl) (fun _ => rfl)
    | .box n d title lead held => exact other _ rfl (fun _ => rfl) (fun _ _ _ => rfl) (fun _ => rfl)
    | .image t args title => exact other _ rfl (fun _ => rfl) (fun _ _ _ => rfl) (fun _ => rfl)
    | .table title lead rows => exact other _ rfl (fun _ => rfl) (fun _ _ _ => rfl) (fun _ => rfl)
    | .dlist entries => exact other _ rfl (fun _ => rfl) (fun _ _ _ => rfl) (fun _ => rfl)
    | .colist items => exact other _ rfl (fun _ => rfl) (fun _ _ _ => rfl) (fun _ => rfl)
    | .code d parts => exact other _ rfl (fun _ => rfl) (fun _ _ _ => rfl) (fun _ => rfl)
    | .attached v points => exact other _ rfl (fun _ => rfl) (fun _ _ _ => rfl) (fun _ => rfl)

/-- What a reader meets on the page of a graph with the contents of a document. -/
theorem flat_contents (titled : Bool) {ids : Ids} {bs : List Block} {es : List Tagged} (h : listedL [] bs = contents ids [] es)
    (hl : ∀ e ∈ es, ∀ n t, e.blk = .head n t → n < 5) : flatL (ofBlocks titled false bs) = unrolled titled ids [] es := by
  rw [flat_stepped, h]
  exact stepped_contents titled ids es hl []

end Adoc.Rich
