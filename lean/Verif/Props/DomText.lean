import Verif.Spec.DomText
import Verif.Props.Dom
import Verif.Props.Origin
/-!
# C61: text is text
-/
namespace Adoc.Dom
open Markup

mutual
/-- No text has a `<`. -/
def plainN : Node → Bool
  | .text s => noTag s
  | .elem _ _ inner => plainNs inner
/-- The same for a list. -/
def plainNs : List Node → Bool
  | [] => true
  | n :: ns => plainN n && plainNs ns
end

theorem plainNs_append (a b : List Node) : plainNs (a ++ b) = (plainNs a && plainNs b) := by
  induction a with
  | nil => rfl
  | cons n a ih => simp only [List.cons_append, plainNs, ih, Bool.and_assoc]

theorem plainNs_map {α : Type} {f : α → Node} {l : List α} (h : ∀ x ∈ l, plainN (f x) = true) : plainNs (l.map f) = true := by
  induction l with
  | nil => rfl
  | cons x l ih =>
    simp only [List.map_cons, plainNs, Bool.and_eq_true]
    exact ⟨h x (by simp), ih fun y hy => h y (by simp [hy])⟩

theorem met_noTag {s : Str} (h : noTag s = true) : met s = (s.filter fun b => !(b = c!" " || b = c!"\n")).map .char := by
  induction s with
  | nil => rfl
  | cons b s ih =>
    simp only [noTag, List.all_cons, Bool.and_eq_true, decide_eq_true_eq] at h
    have := ih h.2
    simp only [met] at this ⊢
    simp only [lex, h.1, if_false, events, this]
    by_cases hb : b = c!" " ∨ b = c!"\n"
    · rcases hb with rfl | rfl <;> simp
    · simp only [not_or] at hb
      simp [hb.1, hb.2]

mutual
theorem flat_literal : ∀ (n : Node), plainN n = true → n.flat = n.literal
  | .text _, h => met_noTag h
  | .elem n as inner, h => by simp only [Node.flat, Node.literal, flatL_literal inner h]
theorem flatL_literal : ∀ (ns : List Node), plainNs ns = true → flatL ns = literalL ns
  | [], _ => rfl
  | n :: ns, h => by
    simp only [plainNs, Bool.and_eq_true] at h
    simp only [flatL, literalL, flat_literal n h.1, flatL_literal ns h.2]
end

theorem plain_target {v : RefVariant} {t : Str} (h : noTag t = true) : noTag (shownTarget v t) = true := by
  cases v <;> simpa [shownTarget, noTag] using h

mutual
theorem plain_inline : ∀ (i : Inline), tidyI noTag i = true → plainNs (ofInline i) = true
  | .lit _ v _, h => by simpa [ofInline, plainNs, plainN, tidyI] using h
  | .brk _, _ => rfl
  | .span v f is m l o, h => by
    simp only [tidyI, Bool.and_eq_true] at h
    simp [ofInline, plainNs, plainN, plain_inlines is h.2]
  | .ref .image _ _ _ _, _ => rfl
  | .ref .link t is m _, h => by
    simp only [tidyI, Bool.and_eq_true] at h
    simp only [ofInline, plainNs, plainN, Bool.and_true]
    split
    · simp [plainNs, plainN, plain_target h.1.2]
    · exact plain_inlines is h.2
  | .ref .xref t is m _, h => by
    simp only [tidyI, Bool.and_eq_true] at h
    simp only [ofInline, plainNs, plainN, Bool.and_true]
    split
    · simp [plainNs, plainN, plain_target h.1.2]
    · exact plain_inlines is h.2
theorem plain_inlines : ∀ (is : List Inline), tidyIs noTag is = true → plainNs (ofInlines is) = true
  | [], _ => rfl
  | i :: is, h => by
    simp only [tidyIs, Bool.and_eq_true] at h
    simp only [ofInlines, plainNs_append, Bool.and_eq_true]
    exact ⟨plain_inline i h.1, plain_inlines is h.2⟩
end

theorem plain_unlessNone {name : Str} {is : List Inline} (h : tidyIs noTag is = true) : plainNs (unlessNone name is) = true := by
  unfold unlessNone
  split
  · rfl
  · simp [plainNs, plainN, plain_inlines is h]

theorem plain_credit {m : Option Meta} (h : tidyMeta noTag m = true) : plainNs (ofCredit m) = true := by
  simp only [tidyMeta, Bool.and_eq_true] at h
  unfold ofCredit
  split
  · rfl
  · simp only [plainNs, plainN, h.1.2, Bool.and_true, Bool.true_and]
    split
    · rfl
    · simp only [plainNs, plainN, h.2, Bool.and_true]; rfl

theorem plain_wrap {bare : Bool} {name : Str} {as : Pairs} {inner : List Node} (h : plainNs inner = true) :
    plainNs (wrap bare name as inner) = true := by
  unfold wrap
  split
  · exact h
  · simp [plainNs, plainN, h]

theorem plain_cell {b : Block} (h : tidy noTag b = true) : plainNs (ofInlines (cellText b)) = true := by
  unfold cellText
  split
  · simp only [tidy, Bool.and_eq_true] at h
    exact plain_inlines _ h.1
  · simp only [tidy, Bool.and_eq_true] at h
    exact plain_inlines _ h.1
  · rfl

theorem htmlLoop_mem {α : Type} (cols total : Nat) (cs : List α) : ∀ (idx : Nat) (cur : List α) (rows : List (List α)),
    ∀ r ∈ Render.htmlLoop cols total cs idx cur rows, ∀ x ∈ r, x ∈ cs ∨ x ∈ cur ∨ ∃ r ∈ rows, x ∈ r := by
  induction cs with
  | nil =>
    intro idx cur rows r hr x hx
    simp only [Render.htmlLoop, List.mem_append, List.mem_singleton] at hr
    rcases hr with hr | rfl
    · exact .inr (.inr ⟨r, hr, hx⟩)
    · exact .inr (.inl hx)
  | cons c cs ih =>
    intro idx cur rows r hr x hx
    simp only [Render.htmlLoop] at hr
    split at hr
    · rcases ih _ _ _ r hr x hx with h | h | ⟨q, hq, h⟩
      · exact .inl (by simp [h])
      · cases h
      · simp only [List.mem_append, List.mem_singleton] at hq
        rcases hq with hq | rfl
        · exact .inr (.inr ⟨q, hq, h⟩)
        · simp only [List.mem_append, List.mem_singleton] at h
          rcases h with h | rfl
          · exact .inr (.inl h)
          · exact .inl (by simp)
    · rcases ih _ _ _ r hr x hx with h | h | h
      · exact .inl (by simp [h])
      · simp only [List.mem_append, List.mem_singleton] at h
        rcases h with h | rfl
        · exact .inr (.inl h)
        · exact .inl (by simp)
      · exact .inr (.inr h)

theorem plain_table {titled : Bool} {cells : List Block} {m : Option Meta} (h : ∀ b ∈ cells, tidy noTag b = true) :
    plainN (ofTable titled cells m) = true := by
  have hrows : plainNs ((Render.htmlTable (columns m) (headed m) cells).2.map fun r => Node.elem b!"tr" [] (r.map ofCell)) = true := by
    refine plainNs_map fun r hr => plainNs_map fun x hx => ?_
    rcases htmlLoop_mem _ _ _ _ _ _ r hr x hx with hc | hc | ⟨_, hc, _⟩
    · exact plain_cell (h x (List.mem_of_mem_drop hc))
    · cases hc
    · cases hc
  have hhead : plainNs ((Render.htmlTable (columns m) (headed m) cells).1.map ofHead) = true := by
    refine plainNs_map fun x hx => ?_
    simp only [Render.htmlTable, List.mem_map] at hx
    obtain ⟨i, _, rfl⟩ := hx
    cases hc : cells[i]? with
    | none => rfl
    | some b => exact plain_cell (h b (List.mem_of_getElem? hc))
  unfold ofTable
  simp only [plainN]
  split
  · simp only [plainNs, plainN, hrows, hhead, Bool.and_true]
  · exact hrows

theorem tidyL_all {ok : Str → Bool} {bs : List Block} (h : tidyL ok bs = true) : ∀ b ∈ bs, tidy ok b = true := by
  induction bs with
  | nil => exact fun _ hb => nomatch hb
  | cons c bs ih =>
    simp only [tidyL, Bool.and_eq_true] at h
    intro b hb
    rcases List.mem_cons.1 hb with rfl | hb
    · exact h.1
    · exact ih h.2 b hb

mutual
theorem plain_block (titled : Bool) : ∀ (bare : Bool) (b : Block), tidy noTag b = true → plainNs (ofBlock titled bare b) = true
  | bare, .section t m level bs _, h => by
    simp only [tidy, Bool.and_eq_true] at h
    simp [ofBlock, plainNs, plainN, plainNs_append, plain_unlessNone h.1.1, plain_credit h.1.2, plain_blocks titled false bs h.2]
  | bare, .list v items m _, h => by
    simp only [tidy, Bool.and_eq_true] at h
    simp only [ofBlock]
    exact plain_wrap (by simp [plainNs_append, plain_credit h.1, plain_blocks titled false items h.2])
  | bare, .dlist items m _, h => by
    simp only [tidy, Bool.and_eq_true] at h
    simp only [ofBlock]
    exact plain_wrap (by simp [plainNs_append, plain_credit h.1, plain_blocks titled false items h.2])
  | bare, .listItem _ p bs m _, h => by
    simp only [tidy, Bool.and_eq_true] at h
    simp only [ofBlock]
    exact plain_wrap (by simp [plainNs_append, plain_unlessNone h.1.1, plain_credit h.1.2, plain_blocks titled false bs h.2])
  | bare, .dlistItem ts p bs m _, h => by
    simp only [tidy, Bool.and_eq_true] at h
    simp only [ofBlock, plainNs_append, Bool.and_eq_true]
    exact ⟨plain_unlessNone h.1.1.1,
      plain_wrap (by simp [plainNs_append, plain_unlessNone h.1.1.2, plain_credit h.1.2, plain_blocks titled false bs h.2])⟩
  | bare, .brk .thematic _, _ => rfl
  | bare, .brk .page _, _ => rfl
  | bare, .image t c m _, h => by
    simp only [tidy, Bool.and_eq_true] at h
    simp only [ofBlock]
    exact plain_wrap (by simp [plainNs, plainN, plainNs_append, plain_unlessNone h.1.2, plain_credit h.2])
  | bare, .leaf n _ _ is m _, h => by
    simp only [tidy, Bool.and_eq_true] at h
    have := plain_inlines is h.1
    cases n <;> simp [ofBlock, ofLeaf, plainNs, plainN, this]
  | bare, .parent n v d bs t m l, h => by
    simp only [tidy, Bool.and_eq_true] at h
    by_cases hn : n = .table
    · subst hn
      simp [ofBlock, plainNs, plain_table (tidyL_all h.2)]
    · have hb : ofBlock titled bare (.parent n v d bs t m l) = wrap bare (boxName n) (classes m ++ boxType n v)
          (unlessNone (boxHeading n) t ++ ofBlocks titled (n = .admonition) bs ++ ofCredit m) := by
        cases n <;> first | exact absurd rfl hn | rfl
      rw [hb]
      exact plain_wrap (by simp [plainNs_append, plain_unlessNone h.1.1, plain_credit h.1.2, plain_blocks titled _ bs h.2])
  | bare, .tableCell is m _, h => by
    simp only [tidy, Bool.and_eq_true] at h
    simp only [ofBlock]
    exact plain_wrap (by simp [plainNs_append, plain_inlines is h.1, plain_credit h.2])
theorem plain_blocks (titled : Bool) : ∀ (bare : Bool) (bs : List Block), tidyL noTag bs = true → plainNs (ofBlocks titled bare bs) = true
  | _, [], _ => rfl
  | bare, b :: bs, h => by
    simp only [tidyL, Bool.and_eq_true] at h
    simp only [ofBlocks, plainNs_append, Bool.and_eq_true]
    exact ⟨plain_block titled bare b h.1, plain_blocks titled bare bs h.2⟩
end

theorem plain_page (sees : Bool) (g : Asg) (h : tidyDoc noTag g = true) : plainNs (page sees g) = true := by
  simp only [tidyDoc, Bool.and_eq_true] at h
  have ht : plainNs (ofTitle g.header) = true := by
    unfold ofTitle
    have h1 := h.1
    revert h1
    cases g.header with
    | none => exact fun _ => rfl
    | some x => exact plain_inlines _
  simp [page, plainNs, plainN, ht, plain_blocks _ _ _ h.2]

end Adoc.Dom

namespace Adoc.Props
open Spec Markup Origin

/-- **C61** (partial: for texts without `<`, whatever else is in them): the elements of a page are those of the blocks and spans of the document, and
all characters of its texts are read as text. -/
theorem C61_text_partial (sees : Bool) (g : Asg) (h : tidyDoc noTag g = true) (page : Str) (hr : Html.render sees g = .ok page) :
    Dom.met page = .alone b!"!DOCTYPE" [] :: Dom.literalL (Dom.page sees g) := by
  rw [C87_tree_partial sees g (tidyDoc_mono (fun _ => Html.noTag_balanced) h) page hr, Dom.flatL_literal _ (Dom.plain_page sees g h)]

/-- The same for every source and its files, without `<` and double quotes. -/
theorem C61_source_partial (sees : Bool) {w : World} {fuel : Nat} {src : Str} {g : Asg} (h : parseText w fuel src = .ok g)
    (ht : ¬ Avail w src c!"<") (hq : ¬ Avail w src c!"\"") {page : Str} (hr : Html.render sees g = .ok page) :
    Dom.met page = .alone b!"!DOCTYPE" [] :: Dom.literalL (Dom.page sees g) :=
  C61_text_partial sees g (tidyDoc_of ht hq (C67_graph h)) page hr

/-- A graph that meets the hypothesis, with `>`, `&` and quotation marks in its text. -/
theorem C61_sample : tidyDoc noTag (graphOf [plainPara b!"a > \"b\" & 'c'"]) = true
    ∧ rendersTo (graphOf [plainPara b!"a > \"b\" & 'c'"]) (within b!"<p>a > \"b\" & 'c'</p>") = true := ⟨rfl, by decide +kernel⟩

end Adoc.Props
