import Verif.Proof.Ink
import Verif.Proof.RichPage
/-!
# What a Word document is asked for does not depend on locations, and can be told block by block
-/
set_option linter.unusedSimpArgs false
namespace Adoc.Rich
open Spec Ink

mutual
theorem marks_bare1 (i : Inline) (vs : List SpanVariant) : marks vs (bare i) = marks vs i := by
  match i with
  | .lit n v l => rfl
  | .brk l => rfl
  | .span v f is m l o => exact marks_bare is (vs ++ [v])
  | .ref v t is m l => exact marks_bare is vs
theorem marks_bare (is : List Inline) (vs : List SpanVariant) : marksL vs (bareL is) = marksL vs is := by
  match is with
  | [] => rfl
  | i :: is => simp only [bareL, marksL, marks_bare1 i, marks_bare is]
end

mutual
theorem spanned_bare1 (i : Inline) : spanned (bare i) = spanned i := by
  match i with
  | .lit n v l => rfl
  | .brk l => rfl
  | .span v f is m l o => rfl
  | .ref v t is m l => exact spanned_bare is
theorem spanned_bare (is : List Inline) : spannedL (bareL is) = spannedL is := by
  match is with
  | [] => rfl
  | i :: is => simp only [bareL, spannedL, spanned_bare1 i, spanned_bare is]
end

mutual
theorem clear_bare1 (i : Inline) (deep : Bool) : clear deep (bare i) = clear deep i := by
  match i with
  | .lit n v l => rfl
  | .brk l => rfl
  | .span v f is m l o => simp only [bare, clear, clear_bare is]
  | .ref v t is m l => exact clear_bare is deep
theorem clear_bare (is : List Inline) (deep : Bool) : clearL deep (bareL is) = clearL deep is := by
  match is with
  | [] => rfl
  | i :: is => simp only [bareL, clearL, clear_bare1 i, clear_bare is, spanned_bare1, bareL_isEmpty]
end

theorem bareBs_map' (bs : List Block) : bareBs bs = bs.map bareB := by
  induction bs with
  | nil => rfl
  | cons b bs ih => simp only [bareBs, ih, List.map_cons]
theorem bareL_append' (a b : List Inline) : bareL (a ++ b) = bareL a ++ bareL b := by simp only [bareL_map, List.map_append]

theorem Clear_bare (is : List Inline) : Clear (bareL is) ↔ Clear is := by
  simp only [Clear, bareL_map, List.mem_map, forall_exists_index, and_imp, forall_apply_eq_imp_iff₂, clear_bare1]

mutual
theorem inlines_bare1 (b : Block) : (bareB b).inlines = bareL b.inlines := by
  match b with
  | .section t m v bs l => simp only [bareB, Block.inlines, inlines_bare bs, bareL_append']
  | .list v bs m l => simp only [bareB, Block.inlines, inlines_bare bs]
  | .listItem k p bs m l => simp only [bareB, Block.inlines, inlines_bare bs, bareL_append']
  | .dlist bs m l => simp only [bareB, Block.inlines, inlines_bare bs]
  | .dlistItem t p bs m l => simp only [bareB, Block.inlines, inlines_bare bs, bareL_append']
  | .brk v l => rfl
  | .image t c m l => rfl
  | .leaf n f d is m l => rfl
  | .parent n v d bs t m l => simp only [bareB, Block.inlines, inlines_bare bs, bareL_append']
  | .tableCell is m l => rfl
theorem inlines_bare (bs : List Block) : Block.inlinesL (bareBs bs) = bareL (Block.inlinesL bs) := by
  match bs with
  | [] => rfl
  | b :: bs => simp only [bareBs, Block.inlinesL, inlines_bare1 b, inlines_bare bs, bareL_append']
end

theorem inlines_of_bare (bs : List Block) (b : Block) (h : b ∈ bareBs bs) : ∃ c ∈ bs, b = bareB c := by
  rw [bareBs_map'] at h
  obtain ⟨c, h1, h2⟩ := List.mem_map.1 h
  exact ⟨c, h1, h2.symm⟩

theorem heading_bare (is : List Inline) : heading (bareL is) = (heading is).map (Want.map bareL) := by
  cases is <;> rfl
theorem label_bare (v : Option ParentVariant) : (label v).map (Want.map bareL) = label v := by cases v <;> rfl
theorem sourceW_bare (m : Option Meta) : Ink.source (m.map bareM) = (Ink.source m).map (Want.map bareL) := by
  cases m with
  | none => rfl
  | some m =>
    simp only [Option.map, Ink.source, Option.bind_some, show (bareM m).attributes = m.attributes from rfl]
    cases m.attributes.get? b!"attribution" <;> rfl
theorem title_bare (is : List Inline) : Word.title (bareL is) = Word.title is := by
  simp only [Word.title, bareL_isEmpty, shownL_bare]

theorem attached_bare (bs : List Block) :
    (bareBs bs).map (fun b => Want.par b.inlines) = (bs.map fun b => Want.par b.inlines).map (Want.map bareL) := by
  simp only [bareBs_map', List.map_map]
  exact List.map_congr_left fun b _ => congrArg Want.par (inlines_bare1 b)
theorem cellsW_bare (bs : List Block) : (bareBs bs).map Block.inlines = (bs.map Block.inlines).map bareL := by
  simp only [bareBs_map', List.map_map]
  exact List.map_congr_left fun b _ => inlines_bare1 b
theorem attachedE_bare (bs : List Block) :
    (bareBs bs).map (fun b => Word.Ev.par (Word.shownL b.inlines)) = bs.map fun b => Word.Ev.par (Word.shownL b.inlines) := by
  simp only [bareBs_map', List.map_map]
  exact List.map_congr_left fun b _ => by simp only [Function.comp, inlines_bare1, shownL_bare]

mutual
theorem wants_bare1 (b : Block) : wants (bareB b) = (wants b).map (Want.map bareL) := by
  match b with
  | .section t m v bs l => simp only [bareB, wants, heading_bare, wants_bare bs, List.map_append]
  | .list v bs m l => simp only [bareB, wants, wants_bare bs]
  | .listItem k p bs m l => simp only [bareB, wants, List.map_cons, attached_bare]; rfl
  | .dlist bs m l => simp only [bareB, wants, wants_bare bs]
  | .dlistItem t p bs m l => simp only [bareB, wants, List.map_cons, wants_bare bs, Want.map]
  | .brk v l => cases v <;> rfl
  | .image t c m l => rfl
  | .leaf n f d is m l => rfl
  | .parent n v d bs t m l =>
    cases n <;> simp only [bareB, wants, wants_bare bs, List.map_append, heading_bare, label_bare, sourceW_bare, cellsW_bare,
      List.map_cons, List.map_nil, Want.map]
  | .tableCell is m l => rfl
theorem wants_bare (bs : List Block) : wantsL (bareBs bs) = (wantsL bs).map (Want.map bareL) := by
  match bs with
  | [] => rfl
  | b :: bs => simp only [bareBs, wantsL, wants_bare1 b, wants_bare bs, List.map_append]
end

mutual
theorem flow_bare1 (b : Block) : Word.flow (bareB b) = Word.flow b := by
  match b with
  | .section t m v bs l => simp only [bareB, Word.flow, title_bare, flow_bare bs]
  | .list v bs m l => simp only [bareB, Word.flow, flow_bare bs]
  | .listItem k p bs m l => simp only [bareB, Word.flow, shownL_bare, attachedE_bare]
  | .dlist bs m l => simp only [bareB, Word.flow, flow_bare bs]
  | .dlistItem t p bs m l => simp only [bareB, Word.flow, shownL_bare, flow_bare bs]
  | .brk v l => cases v <;> rfl
  | .image t c m l => rfl
  | .leaf n f d is m l => simp only [bareB, Word.flow, shownL_bare]
  | .parent n v d bs t m l => cases n <;> simp only [bareB, Word.flow, title_bare, source_bare, flow_bare bs]
  | .tableCell is m l => rfl
theorem flow_bare (bs : List Block) : Word.flowL (bareBs bs) = Word.flowL bs := by
  match bs with
  | [] => rfl
  | b :: bs => simp only [bareBs, Word.flowL, flow_bare1 b, flow_bare bs]
end

mutual
theorem lists_bare1 (b : Block) : Word.lists (bareB b) = Word.lists b := by
  match b with
  | .section t m v bs l => simp only [bareB, Word.lists, lists_bare bs]
  | .list v bs m l => simp only [bareB, Word.lists, bareBs_length]
  | .listItem k p bs m l => rfl
  | .dlist bs m l => simp only [bareB, Word.lists, lists_bare bs]
  | .dlistItem t p bs m l => simp only [bareB, Word.lists, lists_bare bs]
  | .brk v l => rfl
  | .image t c m l => rfl
  | .leaf n f d is m l => rfl
  | .parent n v d bs t m l => cases n <;> simp only [bareB, Word.lists, lists_bare bs]
  | .tableCell is m l => rfl
theorem lists_bare (bs : List Block) : Word.listsL (bareBs bs) = Word.listsL bs := by
  match bs with
  | [] => rfl
  | b :: bs => simp only [bareBs, Word.listsL, lists_bare1 b, lists_bare bs]
end

theorem isItem_bare (bs : List Block) : (bareBs bs).all Word.isItem = bs.all Word.isItem := by
  rw [bareBs_map', List.all_map]
  congr 1
  funext b
  cases b <;> rfl

mutual
theorem itemsInLists_bare1 (b : Block) : Word.itemsInLists (bareB b) = Word.itemsInLists b := by
  match b with
  | .section t m v bs l => simp only [bareB, Word.itemsInLists, itemsInLists_bare bs]
  | .list v bs m l => simp only [bareB, Word.itemsInLists, isItem_bare]
  | .listItem k p bs m l => rfl
  | .dlist bs m l => simp only [bareB, Word.itemsInLists, itemsInLists_bare bs]
  | .dlistItem t p bs m l => simp only [bareB, Word.itemsInLists, itemsInLists_bare bs]
  | .brk v l => rfl
  | .image t c m l => rfl
  | .leaf n f d is m l => rfl
  | .parent n v d bs t m l => cases n <;> simp only [bareB, Word.itemsInLists, itemsInLists_bare bs]
  | .tableCell is m l => rfl
theorem itemsInLists_bare (bs : List Block) : Word.itemsInListsL (bareBs bs) = Word.itemsInListsL bs := by
  match bs with
  | [] => rfl
  | b :: bs => simp only [bareBs, Word.itemsInListsL, itemsInLists_bare1 b, itemsInLists_bare bs]
end

theorem mapConst_bare {α : Type} (x : α) (bs : List Block) : (bareBs bs).map (fun _ => x) = bs.map fun _ => x := by
  rw [bareBs_map', List.map_map]; rfl

mutual
theorem roles_bare1 (amb : Word.Role) (b : Block) : Word.roles amb (bareB b) = Word.roles amb b := by
  match b with
  | .section t m v bs l => simp only [bareB, Word.roles, bareL_isEmpty, roles_bare _ bs]
  | .list v bs m l =>
    simp only [bareB, Word.roles, bareBs_map', List.flatMap_map]
    congr 1
    funext b
    cases b with
    | listItem k p cs m l => simp only [bareB, mapConst_bare]
    | _ => rfl
  | .listItem k p bs m l => rfl
  | .dlist bs m l => simp only [bareB, Word.roles, roles_bare _ bs]
  | .dlistItem t p bs m l => simp only [bareB, Word.roles, roles_bare _ bs]
  | .brk v l => cases v <;> rfl
  | .image t c m l => rfl
  | .leaf n f d is m l => rfl
  | .parent n v d bs t m l =>
    cases n <;> simp only [bareB, Word.roles, title_bare, source_bare, roles_bare _ bs, Word.boxName]
  | .tableCell is m l => rfl
theorem roles_bare (amb : Word.Role) (bs : List Block) : Word.rolesL amb (bareBs bs) = Word.rolesL amb bs := by
  match bs with
  | [] => rfl
  | b :: bs => simp only [bareBs, Word.rolesL, roles_bare1 amb b, roles_bare amb bs]
end

theorem plainB_bare (bs : List Block) : (bareBs bs).all Word.plain = bs.all Word.plain := by
  rw [bareBs_map', List.all_map]
  congr 1
  funext b
  cases b with
  | leaf n f d is m l => cases n <;> rfl
  | brk v l => cases v <;> rfl
  | _ => rfl
theorem itemsCalm_bare (bs : List Block) : Word.itemsCalm (bareBs bs) = Word.itemsCalm bs := by
  match bs with
  | [] => rfl
  | [.listItem k p [] m l] => rfl
  | [.listItem k p (c :: cs) m l] => rfl
  | .listItem k p [] m l :: b :: rest =>
    have := itemsCalm_bare (b :: rest)
    simp only [bareBs, bareB] at this ⊢
    simp only [Word.itemsCalm]
    exact this
  | .listItem k p (c :: cs) m l :: b :: rest => rfl
  | .section .. :: rest => cases rest <;> rfl
  | .list .. :: rest => cases rest <;> rfl
  | .dlist .. :: rest => cases rest <;> rfl
  | .dlistItem .. :: rest => cases rest <;> rfl
  | .brk .. :: rest => cases rest <;> rfl
  | .image .. :: rest => cases rest <;> rfl
  | .leaf .. :: rest => cases rest <;> rfl
  | .parent .. :: rest => cases rest <;> rfl
  | .tableCell .. :: rest => cases rest <;> rfl

mutual
theorem calm_bare1 (d : Bool) (b : Block) : Word.calm d (bareB b) = Word.calm d b := by
  match b with
  | .section t m v bs l => simp only [bareB, Word.calm, bareL_isEmpty, calm_bare _ bs]
  | .list v bs m l => simp only [bareB, Word.calm, itemsCalm_bare]
  | .listItem k p bs m l => rfl
  | .dlist bs m l =>
    simp only [bareB, Word.calm, bareBs_map', List.all_map]
    congr 3
    funext b
    cases b with
    | dlistItem t p cs m l => cases cs <;> rfl
    | _ => rfl
  | .dlistItem t p bs m l => rfl
  | .brk v l => cases v <;> rfl
  | .image t c m l => rfl
  | .leaf n f d is m l => rfl
  | .parent n v d bs t m l =>
    cases n <;> simp only [bareB, Word.calm, plainB_bare, calm_bare _ bs]
  | .tableCell is m l => rfl
theorem calm_bare (d : Bool) (bs : List Block) : Word.calmL d (bareBs bs) = Word.calmL d bs := by
  match bs with
  | [] => rfl
  | b :: bs =>
    simp only [bareBs, Word.calmL, calm_bare1 d b]
    cases Word.calm d b with
    | none => rfl
    | some e => exact calm_bare e bs
end

/-! ## Block by block -/

mutual
theorem wants_listed1 (b : Block) (path : List Title) : (listed path b).flatMap (fun x => wants x.2) = (wants b).map (Want.map bareL) := by
  match b with
  | .section t m v bs l => simp only [listed, List.flatMap_cons, wants, wantsL, wants_listed bs, heading_bare, List.append_nil, List.append_assoc, List.map_append]
  | .list v bs m l => simp only [listed, List.flatMap_cons, List.flatMap_nil, List.append_nil, wants_bare1]
  | .listItem k p bs m l => simp only [listed, List.flatMap_cons, List.flatMap_nil, List.append_nil, wants_bare1]
  | .dlist bs m l => simp only [listed, List.flatMap_cons, List.flatMap_nil, List.append_nil, wants_bare1]
  | .dlistItem t p bs m l => simp only [listed, List.flatMap_cons, List.flatMap_nil, List.append_nil, wants_bare1]
  | .brk v l => simp only [listed, List.flatMap_cons, List.flatMap_nil, List.append_nil, wants_bare1]
  | .image t c m l => simp only [listed, List.flatMap_cons, List.flatMap_nil, List.append_nil, wants_bare1]
  | .leaf n f d is m l => simp only [listed, List.flatMap_cons, List.flatMap_nil, List.append_nil, wants_bare1]
  | .parent n v d bs t m l => simp only [listed, List.flatMap_cons, List.flatMap_nil, List.append_nil, wants_bare1]
  | .tableCell is m l => simp only [listed, List.flatMap_cons, List.flatMap_nil, List.append_nil, wants_bare1]
theorem wants_listed (bs : List Block) (path : List Title) : (listedL path bs).flatMap (fun x => wants x.2) = (wantsL bs).map (Want.map bareL) := by
  match bs with
  | [] => rfl
  | b :: bs => simp only [listedL, List.flatMap_append, wantsL, wants_listed1 b, wants_listed bs, List.map_append]
end

mutual
theorem flow_listed1 (b : Block) (path : List Title) : (listed path b).flatMap (fun x => Word.flow x.2) = Word.flow b := by
  match b with
  | .section t m v bs l => simp only [listed, List.flatMap_cons, Word.flow, Word.flowL, flow_listed bs, title_bare, List.append_nil, List.append_assoc]
  | .list v bs m l => simp only [listed, List.flatMap_cons, List.flatMap_nil, List.append_nil, flow_bare1]
  | .listItem k p bs m l => simp only [listed, List.flatMap_cons, List.flatMap_nil, List.append_nil, flow_bare1]
  | .dlist bs m l => simp only [listed, List.flatMap_cons, List.flatMap_nil, List.append_nil, flow_bare1]
  | .dlistItem t p bs m l => simp only [listed, List.flatMap_cons, List.flatMap_nil, List.append_nil, flow_bare1]
  | .brk v l => simp only [listed, List.flatMap_cons, List.flatMap_nil, List.append_nil, flow_bare1]
  | .image t c m l => simp only [listed, List.flatMap_cons, List.flatMap_nil, List.append_nil, flow_bare1]
  | .leaf n f d is m l => simp only [listed, List.flatMap_cons, List.flatMap_nil, List.append_nil, flow_bare1]
  | .parent n v d bs t m l => simp only [listed, List.flatMap_cons, List.flatMap_nil, List.append_nil, flow_bare1]
  | .tableCell is m l => simp only [listed, List.flatMap_cons, List.flatMap_nil, List.append_nil, flow_bare1]
theorem flow_listed (bs : List Block) (path : List Title) : (listedL path bs).flatMap (fun x => Word.flow x.2) = Word.flowL bs := by
  match bs with
  | [] => rfl
  | b :: bs => simp only [listedL, List.flatMap_append, Word.flowL, flow_listed1 b, flow_listed bs, List.map_append]
end

mutual
theorem lists_listed1 (b : Block) (path : List Title) : (listed path b).flatMap (fun x => Word.lists x.2) = Word.lists b := by
  match b with
  | .section t m v bs l => simp only [listed, List.flatMap_cons, Word.lists, Word.listsL, lists_listed bs, List.nil_append, List.append_nil]
  | .list v bs m l => simp only [listed, List.flatMap_cons, List.flatMap_nil, List.append_nil, lists_bare1]
  | .listItem k p bs m l => simp only [listed, List.flatMap_cons, List.flatMap_nil, List.append_nil, lists_bare1]
  | .dlist bs m l => simp only [listed, List.flatMap_cons, List.flatMap_nil, List.append_nil, lists_bare1]
  | .dlistItem t p bs m l => simp only [listed, List.flatMap_cons, List.flatMap_nil, List.append_nil, lists_bare1]
  | .brk v l => simp only [listed, List.flatMap_cons, List.flatMap_nil, List.append_nil, lists_bare1]
  | .image t c m l => simp only [listed, List.flatMap_cons, List.flatMap_nil, List.append_nil, lists_bare1]
  | .leaf n f d is m l => simp only [listed, List.flatMap_cons, List.flatMap_nil, List.append_nil, lists_bare1]
  | .parent n v d bs t m l => simp only [listed, List.flatMap_cons, List.flatMap_nil, List.append_nil, lists_bare1]
  | .tableCell is m l => simp only [listed, List.flatMap_cons, List.flatMap_nil, List.append_nil, lists_bare1]
theorem lists_listed (bs : List Block) (path : List Title) : (listedL path bs).flatMap (fun x => Word.lists x.2) = Word.listsL bs := by
  match bs with
  | [] => rfl
  | b :: bs => simp only [listedL, List.flatMap_append, Word.listsL, lists_listed1 b, lists_listed bs, List.map_append]
end

mutual
theorem roles_listed1 (b : Block) (path : List Title) : (listed path b).flatMap (fun x => Word.roles .body x.2) = Word.roles .body b := by
  match b with
  | .section t m v bs l => simp only [listed, List.flatMap_cons, Word.roles, Word.rolesL, roles_listed bs, bareL_isEmpty, List.append_nil, List.append_assoc]
  | .list v bs m l => simp only [listed, List.flatMap_cons, List.flatMap_nil, List.append_nil, roles_bare1]
  | .listItem k p bs m l => simp only [listed, List.flatMap_cons, List.flatMap_nil, List.append_nil, roles_bare1]
  | .dlist bs m l => simp only [listed, List.flatMap_cons, List.flatMap_nil, List.append_nil, roles_bare1]
  | .dlistItem t p bs m l => simp only [listed, List.flatMap_cons, List.flatMap_nil, List.append_nil, roles_bare1]
  | .brk v l => simp only [listed, List.flatMap_cons, List.flatMap_nil, List.append_nil, roles_bare1]
  | .image t c m l => simp only [listed, List.flatMap_cons, List.flatMap_nil, List.append_nil, roles_bare1]
  | .leaf n f d is m l => simp only [listed, List.flatMap_cons, List.flatMap_nil, List.append_nil, roles_bare1]
  | .parent n v d bs t m l => simp only [listed, List.flatMap_cons, List.flatMap_nil, List.append_nil, roles_bare1]
  | .tableCell is m l => simp only [listed, List.flatMap_cons, List.flatMap_nil, List.append_nil, roles_bare1]
theorem roles_listed (bs : List Block) (path : List Title) : (listedL path bs).flatMap (fun x => Word.roles .body x.2) = Word.rolesL .body bs := by
  match bs with
  | [] => rfl
  | b :: bs => simp only [listedL, List.flatMap_append, Word.rolesL, roles_listed1 b, roles_listed bs, List.map_append]
end

mutual
theorem itemsInLists_listed1 (b : Block) (path : List Title) : (listed path b).all (fun x => Word.itemsInLists x.2) = Word.itemsInLists b := by
  match b with
  | .section t m v bs l => simp only [listed, List.all_cons, Word.itemsInLists, Word.itemsInListsL, itemsInLists_listed bs, Bool.true_and, Bool.and_true]
  | .list v bs m l => simp only [listed, List.all_cons, List.all_nil, Bool.and_true, itemsInLists_bare1]
  | .listItem k p bs m l => simp only [listed, List.all_cons, List.all_nil, Bool.and_true, itemsInLists_bare1]
  | .dlist bs m l => simp only [listed, List.all_cons, List.all_nil, Bool.and_true, itemsInLists_bare1]
  | .dlistItem t p bs m l => simp only [listed, List.all_cons, List.all_nil, Bool.and_true, itemsInLists_bare1]
  | .brk v l => simp only [listed, List.all_cons, List.all_nil, Bool.and_true, itemsInLists_bare1]
  | .image t c m l => simp only [listed, List.all_cons, List.all_nil, Bool.and_true, itemsInLists_bare1]
  | .leaf n f d is m l => simp only [listed, List.all_cons, List.all_nil, Bool.and_true, itemsInLists_bare1]
  | .parent n v d bs t m l => simp only [listed, List.all_cons, List.all_nil, Bool.and_true, itemsInLists_bare1]
  | .tableCell is m l => simp only [listed, List.all_cons, List.all_nil, Bool.and_true, itemsInLists_bare1]
theorem itemsInLists_listed (bs : List Block) (path : List Title) : (listedL path bs).all (fun x => Word.itemsInLists x.2) = Word.itemsInListsL bs := by
  match bs with
  | [] => rfl
  | b :: bs => simp only [listedL, List.all_append, Word.itemsInListsL, itemsInLists_listed1 b, itemsInLists_listed bs]
end

theorem calmL_append (d : Bool) (a b : List Block) :
    Word.calmL d (a ++ b) = (Word.calmL d a).bind fun d => Word.calmL d b := by
  induction a generalizing d with
  | nil => rfl
  | cons x a ih =>
    simp only [List.cons_append, Word.calmL]
    cases Word.calm d x with
    | none => rfl
    | some e => exact ih e

mutual
theorem calm_listed1 (b : Block) (path : List Title) (d : Bool) :
    Word.calmL d ((listed path b).map (·.2)) = Word.calm d b := by
  have one : ∀ b : Block, Word.calmL d [bareB b] = Word.calm d b := by
    intro b
    simp only [Word.calmL, calm_bare1]
    cases Word.calm d b <;> rfl
  match b with
  | .section t m v bs l =>
    simp only [listed, List.map_cons, Word.calmL, Word.calm, bareL_isEmpty, calm_listed bs]
  | .list v bs m l => exact one _
  | .listItem k p bs m l => exact one (.listItem k p bs m l)
  | .dlist bs m l => exact one (.dlist bs m l)
  | .dlistItem t p bs m l => exact one (.dlistItem t p bs m l)
  | .brk v l => exact one (.brk v l)
  | .image t c m l => exact one (.image t c m l)
  | .leaf n f dl is m l => exact one (.leaf n f dl is m l)
  | .parent n v dl bs t m l => exact one (.parent n v dl bs t m l)
  | .tableCell is m l => exact one (.tableCell is m l)
theorem calm_listed (bs : List Block) (path : List Title) (d : Bool) :
    Word.calmL d ((listedL path bs).map (·.2)) = Word.calmL d bs := by
  match bs with
  | [] => rfl
  | b :: bs =>
    simp only [listedL, List.map_append, calmL_append, calm_listed1 b, Word.calmL]
    cases Word.calm d b with
    | none => rfl
    | some e => exact calm_listed bs path e
end

theorem gather_blocks {α : Type} {g : List Block} {ids : Ids} {es : List Tagged} (h : listedL [] g = contents ids [] es)
    (f : Block → List α) : (listedL [] g).flatMap (fun x => f x.2) = es.flatMap fun e => f (e.block ids) := by
  have := congrArg (List.map (·.2)) h
  rw [contents_blocks] at this
  rw [show (listedL [] g).flatMap (fun x => f x.2) = ((listedL [] g).map (·.2)).flatMap f from (List.flatMap_map ..).symm, this,
    List.flatMap_map]

end Adoc.Rich
