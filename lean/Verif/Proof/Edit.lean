import Verif.Spec.Edit
import Verif.Proof.Unplaced
/-!
# Exchanging one block, on the page and in the list of blocks
-/
namespace Adoc.Edit
open Html

theorem holder_block {f : List Block → Block} (hf : Holder f) (titled skip : Bool) :
    ∃ sk A B, ∀ bs, Html.block titled skip (f bs) = (Html.blocks titled sk bs).map fun s => A ++ s ++ B := by
  cases hf with
  | «section» t m v l =>
    refine ⟨false, b!"<section data-type=\"sect" ++ natToStr v ++ b!"\"" ++ classAttr m ++ attr b!"id" (attrOf m b!"id") ++ b!">"
      ++ heading b!"1" t ++ attribution m ++ b!"\n    ", b!"</section>", fun bs => ?_⟩
    simp only [Html.block]
    cases Html.blocks titled false bs with
    | error e => rfl
    | ok s => rfl
  | list v m l =>
    refine ⟨false, openTag (listTag v) skip m [] [], attribution m ++ closeTag (listTag v) skip, fun bs => ?_⟩
    simp only [Html.block]
    cases Html.blocks titled false bs with
    | error e => rfl
    | ok s => simp [Except.map, bind, Except.bind, pure, Except.pure]
  | dlist m l =>
    refine ⟨false, openTag b!"dl" skip m [] [], attribution m ++ closeTag b!"dl" skip, fun bs => ?_⟩
    simp only [Html.block]
    cases Html.blocks titled false bs with
    | error e => rfl
    | ok s => simp [Except.map, bind, Except.bind, pure, Except.pure]
  | listItem k p m l =>
    refine ⟨false, openTag b!"li" skip m [] [] ++ principal p, attribution m ++ closeTag b!"li" skip, fun bs => ?_⟩
    simp only [Html.block]
    cases Html.blocks titled false bs with
    | error e => rfl
    | ok s => simp [Except.map, bind, Except.bind, pure, Except.pure]
  | dlistItem t p m l =>
    refine ⟨false, (if t.isEmpty then [] else b!"\n        <dt>" ++ inlines t ++ b!"</dt>\n        ")
      ++ openTag b!"dd" skip m [] [] ++ principal p, attribution m ++ closeTag b!"dd" skip, fun bs => ?_⟩
    simp only [Html.block]
    cases Html.blocks titled false bs with
    | error e => rfl
    | ok s => simp [Except.map, bind, Except.bind, pure, Except.pure]
  | box n v d t m l h =>
    refine ⟨n = .admonition, openTag (parentTag n) skip m [] (parentType n v) ++ heading (parentLevel n) t,
      attribution m ++ closeTag (parentTag n) skip, fun bs => ?_⟩
    have e : Html.block titled skip (.parent n v d bs t m l) = (do
        let children ← Html.blocks titled (n = .admonition) bs
        return openTag (parentTag n) skip m [] (parentType n v) ++ heading (parentLevel n) t ++ children ++ attribution m
          ++ closeTag (parentTag n) skip) := by
      cases n <;> first | rfl | exact absurd rfl h
    rw [e]
    cases Html.blocks titled (n = .admonition) bs with
    | error e => rfl
    | ok s => simp [Except.map, bind, Except.bind, pure, Except.pure]

theorem blocks_mid {titled skip : Bool} : ∀ {a : List Block} {z : Block} {b : List Block} {s : Str},
    Html.blocks titled skip (a ++ z :: b) = .ok s →
    ∃ A Z B, Html.block titled skip z = .ok Z ∧ s = A ++ Z ++ B
      ∧ ∀ z' Z', Html.block titled skip z' = .ok Z' → Html.blocks titled skip (a ++ z' :: b) = .ok (A ++ Z' ++ B)
  | [], z, b, s, h => by
    simp only [List.nil_append, Html.blocks] at h
    cases hz : Html.block titled skip z with
    | error e => rw [hz] at h; cases h
    | ok Z =>
      rw [hz] at h
      cases hb : Html.blocks titled skip b with
      | error e => rw [hb] at h; cases h
      | ok B =>
        rw [hb] at h
        cases h
        refine ⟨[], Z, B, rfl, rfl, fun z' Z' h' => ?_⟩
        simp only [List.nil_append, Html.blocks, h', hb]
        rfl
  | y :: a, z, b, s, h => by
    simp only [List.cons_append, Html.blocks] at h
    cases hy : Html.block titled skip y with
    | error e => rw [hy] at h; cases h
    | ok Y =>
      rw [hy] at h
      cases hr : Html.blocks titled skip (a ++ z :: b) with
      | error e => rw [hr] at h; cases h
      | ok r =>
        rw [hr] at h
        cases h
        obtain ⟨A, Z, B, h1, h2, h3⟩ := blocks_mid hr
        refine ⟨Y ++ A, Z, B, h1, by rw [h2]; simp, fun z' Z' h' => ?_⟩
        simp only [List.cons_append, Html.blocks, hy, h3 z' Z' h']
        simp [bind, Except.bind, pure, Except.pure]

theorem body_mid {titled : Bool} : ∀ {a : List Block} {z : Block} {b : List Block} {s : Str},
    Html.body titled (a ++ z :: b) = .ok s →
    ∃ A Z B, Html.block titled false z = .ok Z ∧ s = A ++ Z ++ B
      ∧ ∀ z' Z', Html.block titled false z' = .ok Z' → Html.body titled (a ++ z' :: b) = .ok (A ++ Z' ++ B)
  | [], z, b, s, h => by
    simp only [List.nil_append, Html.body] at h
    cases hz : Html.block titled false z with
    | error e => rw [hz] at h; cases h
    | ok Z =>
      rw [hz] at h
      cases hb : Html.body titled b with
      | error e => rw [hb] at h; cases h
      | ok B =>
        rw [hb] at h
        cases h
        refine ⟨b!"\n    ", Z, B, rfl, rfl, fun z' Z' h' => ?_⟩
        simp only [List.nil_append, Html.body, h', hb]
        rfl
  | y :: a, z, b, s, h => by
    simp only [List.cons_append, Html.body] at h
    cases hy : Html.block titled false y with
    | error e => rw [hy] at h; cases h
    | ok Y =>
      rw [hy] at h
      cases hr : Html.body titled (a ++ z :: b) with
      | error e => rw [hr] at h; cases h
      | ok r =>
        rw [hr] at h
        cases h
        obtain ⟨A, Z, B, h1, h2, h3⟩ := body_mid hr
        refine ⟨b!"\n    " ++ Y ++ A, Z, B, h1, by rw [h2]; simp, fun z' Z' h' => ?_⟩
        simp only [List.cons_append, Html.body, hy, h3 z' Z' h']
        simp [bind, Except.bind, pure, Except.pure]

theorem cellLoop_mid (cols total : Nat) : ∀ (a : List Block) (z : Block) (b : List Block) (idx : Nat) (s : Str),
    cellLoop cols total (a ++ z :: b) idx = .ok s →
    ∃ A B, ∀ z', cellLoop cols total (a ++ z' :: b) idx = .ok (A ++ inlines (cellInlines z') ++ B)
  | [], z, b, idx, s, h => by
    simp only [List.nil_append, cellLoop] at h ⊢
    cases hr : cellLoop cols total b (idx + 1) with
    | error e =>
      rw [hr] at h
      split at h
      · split at h <;> cases h
      · cases h
    | ok r =>
      split
      · rename_i hi
        rw [if_pos hi] at h
        split at h
        · cases h
        · rename_i hc
          refine ⟨b!"<td>", b!"</td>" ++ (if (idx + 1) % cols = 0 ∧ idx + 1 ≠ total then b!"\n        </tr>\n        <tr>" else [])
            ++ b!"\n        " ++ r, fun z' => ?_⟩
          rw [if_neg hc]
          simp [cell, bind, Except.bind, pure, Except.pure]
      · refine ⟨b!"<td>", b!"</td>\n        " ++ r, fun z' => ?_⟩
        simp [cell, bind, Except.bind, pure, Except.pure]
  | y :: a, z, b, idx, s, h => by
    simp only [List.cons_append, cellLoop] at h ⊢
    cases hr : cellLoop cols total (a ++ z :: b) (idx + 1) with
    | error e =>
      rw [hr] at h
      split at h
      · split at h <;> cases h
      · cases h
    | ok r =>
      obtain ⟨A, B, hm⟩ := cellLoop_mid cols total a z b (idx + 1) r hr
      split
      · rename_i hi
        rw [if_pos hi] at h
        split at h
        · cases h
        · rename_i hc
          refine ⟨cell b!"td" (some y) ++ (if (idx + 1) % cols = 0 ∧ idx + 1 ≠ total then b!"\n        </tr>\n        <tr>" else [])
            ++ b!"\n        " ++ A, B, fun z' => ?_⟩
          rw [if_neg hc, hm]
          simp [bind, Except.bind, pure, Except.pure]
      · refine ⟨cell b!"td" (some y) ++ b!"\n        " ++ A, B, fun z' => ?_⟩
        rw [hm]
        simp [bind, Except.bind, pure, Except.pure]

theorem mid_get (a : List Block) (b : List Block) (z z' : Block) {i : Nat} (h : i ≠ a.length) :
    (a ++ z :: b)[i]? = (a ++ z' :: b)[i]? := by
  rcases Nat.lt_or_gt_of_ne h with h | h
  · rw [List.getElem?_append_left h, List.getElem?_append_left h]
  · rw [List.getElem?_append_right (Nat.le_of_lt h), List.getElem?_append_right (Nat.le_of_lt h)]
    obtain ⟨j, hj⟩ : ∃ j, i - a.length = j + 1 := ⟨i - a.length - 1, by omega⟩
    rw [hj]
    rfl

theorem headCells_out (a b : List Block) (z z' : Block) : ∀ (n k : Nat), (a.length < k ∨ k + n ≤ a.length) →
    headCells (a ++ z :: b) (List.range' k n) = headCells (a ++ z' :: b) (List.range' k n)
  | 0, _, _ => rfl
  | n + 1, k, h => by
    simp only [List.range'_succ, headCells]
    rw [mid_get a b z z' (i := k) (by omega), headCells_out a b z z' n (k + 1) (by omega)]

theorem headCells_in (a b : List Block) (z : Block) : ∀ (n k : Nat), k ≤ a.length → a.length < k + n →
    ∃ A B, ∀ z', headCells (a ++ z' :: b) (List.range' k n) = A ++ inlines (cellInlines z') ++ B
  | 0, k, h1, h2 => by omega
  | n + 1, k, h1, h2 => by
    by_cases hk : k = a.length
    · refine ⟨b!"<th>", b!"</th>\n    " ++ headCells (a ++ z :: b) (List.range' (k + 1) n), fun z' => ?_⟩
      simp only [List.range'_succ, headCells]
      rw [headCells_out a b z' z n (k + 1) (by omega), hk]
      simp [cell]
    · obtain ⟨A, B, h⟩ := headCells_in a b z n (k + 1) (by omega) (by omega)
      refine ⟨cell b!"th" (a ++ z :: b)[k]? ++ b!"\n    " ++ A, B, fun z' => ?_⟩
      simp only [List.range'_succ, headCells]
      rw [h, mid_get a b z' z hk]
      simp

theorem table_mid {titled : Bool} {a b : List Block} {z : Block} {m : Option Meta} {s : Str}
    (h : table titled (a ++ z :: b) m = .ok s) :
    ∃ A B, ∀ z', table titled (a ++ z' :: b) m = .ok (A ++ inlines (cellInlines z') ++ B) := by
  unfold table at h ⊢
  cases m with
  | none => cases h
  | some m =>
    simp only at h ⊢
    cases hc : m.attributes.get? b!"cols" with
    | none => rw [hc] at h; cases h
    | some c =>
      rw [hc] at h
      simp only [List.length_append, List.length_cons] at h ⊢
      have hsh : (m.options.contains b!"header" || titled) = false →
          (if m.options.contains b!"header" then colsInt c else 0) = 0 := by
        intro h
        have : m.options.contains b!"header" = false := (Bool.or_eq_false_iff.mp h).1
        rw [this]; rfl
      generalize (if m.options.contains b!"header" then colsInt c else 0) = start at h hsh ⊢
      generalize (m.options.contains b!"header" || titled) = shown at h hsh ⊢
      split at h
      · cases h
      · rename_i hl
        rw [List.range_eq_range'] at h ⊢
        simp only [if_neg hl]
        by_cases ha : a.length < start
        · have hs : shown = true := by
            cases hv : shown with
            | true => rfl
            | false => rw [hsh hv] at ha; omega
          obtain ⟨A, B, hh⟩ := headCells_in a b z start 0 (by omega) (by omega)
          have hd : ∀ z', (a ++ z' :: b).drop start = b.drop (start - (a.length + 1)) := by
            intro z'
            rw [List.drop_append, List.drop_eq_nil_of_le (by omega), List.nil_append]
            obtain ⟨j, hj⟩ : ∃ j, start - a.length = j + 1 := ⟨start - a.length - 1, by omega⟩
            rw [hj, List.drop_succ_cons]
            congr 1
            omega
          rw [hd] at h
          cases hb : cellLoop (colsInt c) (a.length + (b.length + 1)) (b.drop (start - (a.length + 1))) start with
          | error e => rw [hb] at h; cases h
          | ok r =>
            refine ⟨b!"<table>\n    <thead>\n        " ++ A, B ++ b!"</thead>\n    <tbody>\n        <tr>\n        " ++ r
              ++ b!"</tr>\n    </tbody>\n    </table>", fun z' => ?_⟩
            rw [hd, hb, hh, hs]
            simp [bind, Except.bind, pure, Except.pure]
        · have hd : ∀ z', (a ++ z' :: b).drop start = a.drop start ++ z' :: b := by
            intro z'
            rw [List.drop_append_of_le_length (by omega)]
          rw [hd] at h
          cases hb : cellLoop (colsInt c) (a.length + (b.length + 1)) (a.drop start ++ z :: b) start with
          | error e => rw [hb] at h; cases h
          | ok r =>
            obtain ⟨A, B, hm⟩ := cellLoop_mid _ _ _ _ _ _ _ hb
            refine ⟨b!"<table>" ++ (if shown then b!"\n    <thead>\n        " ++ headCells (a ++ z :: b) (List.range' 0 start)
                ++ b!"</thead>\n    <tbody>\n        <tr>" else b!"<tr>") ++ b!"\n        " ++ A,
              B ++ b!"</tr>" ++ (if shown then b!"\n    </tbody>" else []) ++ b!"\n    </table>", fun z' => ?_⟩
            rw [hd, hm, headCells_out a b z' z start 0 (by omega)]
            simp [bind, Except.bind, pure, Except.pure]

theorem swapped_blocks {x y : Block} {bs cs : List Block} (h : Swapped x y bs cs) (titled skip : Bool) (s : Str)
    (hs : Html.blocks titled skip bs = .ok s) :
    ∃ sk A X B, Html.block titled sk x = .ok X ∧ s = A ++ X ++ B
      ∧ ∀ Y, Html.block titled sk y = .ok Y → Html.blocks titled skip cs = .ok (A ++ Y ++ B) := by
  induction h generalizing skip s with
  | here a b =>
    obtain ⟨A, X, B, h1, h2, h3⟩ := blocks_mid hs
    exact ⟨skip, A, X, B, h1, h2, fun Y hY => h3 y Y hY⟩
  | within a b hf h ih =>
    obtain ⟨A, Z, B, h1, h2, h3⟩ := blocks_mid hs
    obtain ⟨sk, C, D, e⟩ := holder_block hf titled skip
    rename_i f bs cs
    rw [e] at h1
    cases hb : Html.blocks titled sk bs with
    | error e => rw [hb] at h1; cases h1
    | ok r =>
      rw [hb] at h1
      have h1 : C ++ r ++ D = Z := Except.ok.inj h1
      subst h1
      obtain ⟨sk', A', X, B', i1, i2, i3⟩ := ih sk r hb
      refine ⟨sk', A ++ (C ++ A'), X, B' ++ (D ++ B), i1, by rw [h2, i2]; simp, fun Y hY => ?_⟩
      rw [h3 (f cs) (C ++ (A' ++ Y ++ B') ++ D) (by rw [e, i3 Y hY]; rfl)]
      simp

theorem swapped_body {x y : Block} {bs cs : List Block} (h : Swapped x y bs cs) (titled : Bool) (s : Str)
    (hs : Html.body titled bs = .ok s) :
    ∃ sk A X B, Html.block titled sk x = .ok X ∧ s = A ++ X ++ B
      ∧ ∀ Y, Html.block titled sk y = .ok Y → Html.body titled cs = .ok (A ++ Y ++ B) := by
  cases h with
  | here a b =>
    obtain ⟨A, X, B, h1, h2, h3⟩ := body_mid hs
    exact ⟨false, A, X, B, h1, h2, fun Y hY => h3 y Y hY⟩
  | within a b hf h =>
    obtain ⟨A, Z, B, h1, h2, h3⟩ := body_mid hs
    obtain ⟨sk, C, D, e⟩ := holder_block hf titled false
    rename_i f bs cs
    rw [e] at h1
    cases hb : Html.blocks titled sk bs with
    | error e => rw [hb] at h1; cases h1
    | ok r =>
      rw [hb] at h1
      have h1 : C ++ r ++ D = Z := Except.ok.inj h1
      subst h1
      obtain ⟨sk', A', X, B', i1, i2, i3⟩ := swapped_blocks h titled sk r hb
      refine ⟨sk', A ++ (C ++ A'), X, B' ++ (D ++ B), i1, by rw [h2, i2]; simp, fun Y hY => ?_⟩
      rw [h3 (f cs) (C ++ (A' ++ Y ++ B') ++ D) (by rw [e, i3 Y hY]; rfl)]
      simp

theorem blocks_drop {titled skip : Bool} : ∀ {a : List Block} {x : Block} {b : List Block} {s : Str},
    Html.blocks titled skip (a ++ x :: b) = .ok s →
    ∃ A X B, Html.block titled skip x = .ok X ∧ s = A ++ X ++ B ∧ Html.blocks titled skip (a ++ b) = .ok (A ++ B)
  | [], x, b, s, h => by
    simp only [List.nil_append, Html.blocks] at h ⊢
    cases hx : Html.block titled skip x with
    | error e => rw [hx] at h; cases h
    | ok X =>
      rw [hx] at h
      cases hb : Html.blocks titled skip b with
      | error e => rw [hb] at h; cases h
      | ok B => rw [hb] at h; cases h; exact ⟨[], X, B, rfl, rfl, rfl⟩
  | y :: a, x, b, s, h => by
    simp only [List.cons_append, Html.blocks] at h ⊢
    cases hy : Html.block titled skip y with
    | error e => rw [hy] at h; cases h
    | ok Y =>
      rw [hy] at h
      cases hr : Html.blocks titled skip (a ++ x :: b) with
      | error e => rw [hr] at h; cases h
      | ok r =>
        rw [hr] at h
        cases h
        obtain ⟨A, X, B, h1, h2, h3⟩ := blocks_drop hr
        refine ⟨Y ++ A, X, B, h1, by rw [h2]; simp, ?_⟩
        rw [h3]
        simp [bind, Except.bind, pure, Except.pure]

theorem body_drop {titled : Bool} : ∀ {a : List Block} {x : Block} {b : List Block} {s : Str},
    Html.body titled (a ++ x :: b) = .ok s →
    ∃ A X B, Html.block titled false x = .ok X ∧ s = A ++ (b!"\n    " ++ X) ++ B ∧ Html.body titled (a ++ b) = .ok (A ++ B)
  | [], x, b, s, h => by
    simp only [List.nil_append, Html.body] at h ⊢
    cases hx : Html.block titled false x with
    | error e => rw [hx] at h; cases h
    | ok X =>
      rw [hx] at h
      cases hb : Html.body titled b with
      | error e => rw [hb] at h; cases h
      | ok B => rw [hb] at h; cases h; exact ⟨[], X, B, rfl, rfl, rfl⟩
  | y :: a, x, b, s, h => by
    simp only [List.cons_append, Html.body] at h ⊢
    cases hy : Html.block titled false y with
    | error e => rw [hy] at h; cases h
    | ok Y =>
      rw [hy] at h
      cases hr : Html.body titled (a ++ x :: b) with
      | error e => rw [hr] at h; cases h
      | ok r =>
        rw [hr] at h
        cases h
        obtain ⟨A, X, B, h1, h2, h3⟩ := body_drop hr
        refine ⟨b!"\n    " ++ Y ++ A, X, B, h1, by rw [h2]; simp, ?_⟩
        rw [h3]
        simp [bind, Except.bind, pure, Except.pure]

theorem dropped_blocks {x : Block} {bs cs : List Block} (h : Dropped x bs cs) (titled skip : Bool) (s : Str)
    (hs : Html.blocks titled skip bs = .ok s) :
    ∃ sk A X B, Html.block titled sk x = .ok X ∧ s = A ++ X ++ B ∧ Html.blocks titled skip cs = .ok (A ++ B) := by
  induction h generalizing skip s with
  | here a b =>
    obtain ⟨A, X, B, h⟩ := blocks_drop hs
    exact ⟨skip, A, X, B, h⟩
  | within a b hf h ih =>
    obtain ⟨A, Z, B, h1, h2, h3⟩ := blocks_mid hs
    obtain ⟨sk, C, D, e⟩ := holder_block hf titled skip
    rename_i f bs cs
    rw [e] at h1
    cases hb : Html.blocks titled sk bs with
    | error e => rw [hb] at h1; cases h1
    | ok r =>
      rw [hb] at h1
      have h1 : C ++ r ++ D = Z := Except.ok.inj h1
      subst h1
      obtain ⟨sk', A', X, B', i1, i2, i3⟩ := ih sk r hb
      refine ⟨sk', A ++ (C ++ A'), X, B' ++ (D ++ B), i1, by rw [h2, i2]; simp, ?_⟩
      rw [h3 (f cs) (C ++ (A' ++ B') ++ D) (by rw [e, i3]; rfl)]
      simp

theorem dropped_body {x : Block} {bs cs : List Block} (h : Dropped x bs cs) (titled : Bool) (s : Str)
    (hs : Html.body titled bs = .ok s) :
    ∃ sk A W X B, Html.block titled sk x = .ok X ∧ (W = [] ∨ W = b!"\n    ") ∧ s = A ++ (W ++ X) ++ B
      ∧ Html.body titled cs = .ok (A ++ B) := by
  cases h with
  | here a b =>
    obtain ⟨A, X, B, h1, h2, h3⟩ := body_drop hs
    exact ⟨false, A, _, X, B, h1, .inr rfl, h2, h3⟩
  | within a b hf h =>
    obtain ⟨A, Z, B, h1, h2, h3⟩ := body_mid hs
    obtain ⟨sk, C, D, e⟩ := holder_block hf titled false
    rename_i f bs cs
    rw [e] at h1
    cases hb : Html.blocks titled sk bs with
    | error e => rw [hb] at h1; cases h1
    | ok r =>
      rw [hb] at h1
      have h1 : C ++ r ++ D = Z := Except.ok.inj h1
      subst h1
      obtain ⟨sk', A', X, B', i1, i2, i3⟩ := dropped_blocks h titled sk r hb
      refine ⟨sk', A ++ (C ++ A'), [], X, B' ++ (D ++ B), i1, .inl rfl, by rw [h2, i2]; simp, ?_⟩
      rw [h3 (f cs) (C ++ (A' ++ B') ++ D) (by rw [e, i3]; rfl)]
      simp

theorem Swapped.cons {x y : Block} {bs cs : List Block} (b : Block) (h : Swapped x y bs cs) : Swapped x y (b :: bs) (b :: cs) := by
  cases h with
  | here a c => exact .here (b :: a) c
  | within a c hf h => exact .within (b :: a) c hf h

end Adoc.Edit

namespace Adoc.Rich
open Spec Edit

theorem append_split {α : Type} {a b p q : List α} {x : α} (h : a ++ b = p ++ x :: q) :
    (∃ c, p = a ++ c ∧ b = c ++ x :: q) ∨ ∃ c, a = p ++ x :: c ∧ q = c ++ b := by
  rcases List.append_eq_append_iff.1 h with ⟨c, h1, h2⟩ | ⟨c, h1, h2⟩
  · exact .inl ⟨c, h1, h2⟩
  · cases c with
    | nil => exact .inl ⟨[], by simpa using h1.symm, by simpa using h2.symm⟩
    | cons z c =>
      simp only [List.cons_append, List.cons.injEq] at h2
      obtain ⟨rfl, h2⟩ := h2
      exact .inr ⟨c, h1, h2⟩

/-- If the lists of all blocks differ in one block, which is not a section, the blocks differ there. -/
theorem listedL_edit (bs cs : List Block) (path : List Title) (P Q : List (List Title × Block)) (p : List Title) (X Y : Block)
    (hX : isSection X = false) (hY : isSection Y = false)
    (h1 : listedL path bs = P ++ (p, X) :: Q) (h2 : listedL path cs = P ++ (p, Y) :: Q) : Swapped X Y (bareBs bs) (bareBs cs) := by
  match bs with
  | [] => simp [listedL] at h1
  | b :: bs =>
    match cs with
    | [] => simp [listedL] at h2
    | c :: cs =>
      have sec : ∀ (b : Block) (bs : List Block), isSection b = true → ∃ e r, listedL path (b :: bs) = e :: r ∧ isSection e.2 = true := by
        intro b bs hb
        cases b <;> simp only [isSection, Bool.false_eq_true] at hb
        exact ⟨_, _, rfl, rfl⟩
      have pla : ∀ (b : Block) (bs : List Block), isSection b = false → listedL path (b :: bs) = (path, bareB b) :: listedL path bs := by
        intro b bs hb
        simp only [listedL, listed_plain path b hb, List.cons_append, List.nil_append]
      cases P with
      | nil =>
        have one : ∀ (b : Block) (bs : List Block) (X : Block), isSection X = false → listedL path (b :: bs) = [] ++ (p, X) :: Q →
            bareB b = X ∧ listedL path bs = Q := by
          intro b bs X hX h
          cases hb : isSection b with
          | true =>
            obtain ⟨e, r, h3, h4⟩ := sec b bs hb
            rw [h3] at h
            simp only [List.nil_append, List.cons.injEq] at h
            rw [h.1, hX] at h4
            cases h4
          | false =>
            rw [pla b bs hb] at h
            simp only [List.nil_append, List.cons.injEq, Prod.mk.injEq] at h
            exact ⟨h.1.2, h.2⟩
        obtain ⟨e1, e2⟩ := one b bs X hX h1
        obtain ⟨e3, e4⟩ := one c cs Y hY h2
        simp only [bareBs, e1, e3, listedL_bare bs cs path (e2.trans e4.symm)]
        exact .here [] _
      | cons e P =>
        cases hb : isSection b with
        | false =>
          rw [pla b bs hb] at h1
          simp only [List.cons_append, List.cons.injEq] at h1
          cases hc : isSection c with
          | true =>
            obtain ⟨e', r, h3, h4⟩ := sec c cs hc
            rw [h3] at h2
            simp only [List.cons_append, List.cons.injEq] at h2
            rw [h2.1, ← h1.1] at h4
            have : isSection (bareB b) = true := h4
            rw [bareB_section, hb] at this
            cases this
          | false =>
            rw [pla c cs hc] at h2
            simp only [List.cons_append, List.cons.injEq] at h2
            have he : bareB b = bareB c := congrArg Prod.snd (h1.1.trans h2.1.symm)
            have := listedL_edit bs cs path P Q p X Y hX hY h1.2 h2.2
            simp only [bareBs, he]
            exact this.cons _
        | true =>
          cases hc : isSection c with
          | false =>
            rw [pla c cs hc] at h2
            simp only [List.cons_append, List.cons.injEq] at h2
            obtain ⟨e', r, h3, h4⟩ := sec b bs hb
            rw [h3] at h1
            simp only [List.cons_append, List.cons.injEq] at h1
            rw [h1.1, ← h2.1] at h4
            have : isSection (bareB c) = true := h4
            rw [bareB_section, hc] at this
            cases this
          | true =>
            cases b with
            | «section» t m v xs l =>
              cases c with
              | «section» t' m' v' ys l' =>
                simp only [listedL, listed, List.cons_append, List.cons.injEq] at h1 h2
                have he := h1.1.trans h2.1.symm
                simp only [Prod.mk.injEq, true_and, Block.section.injEq, and_true] at he
                obtain ⟨ht, hm, hv⟩ := he
                subst hv
                obtain ⟨_, h1⟩ := h1
                obtain ⟨_, h2⟩ := h2
                rw [← ht] at h2
                have far : ∀ zs : List Block, ∀ x ∈ (listedL (path ++ [(v, bareL t)]) zs).map (·.1), decide (path.length < x.length) = true := by
                  intro zs x hx
                  obtain ⟨z, hz, rfl⟩ := List.mem_map.1 hx
                  have := listedL_longer _ _ z hz
                  simp only [List.length_append, List.length_cons, List.length_nil] at this
                  simp only [decide_eq_true_eq]
                  omega
                have near : ∀ zs : List Block, ∀ x ∈ ((listedL path zs).map (·.1)).head?, decide (path.length < x.length) = false := by
                  intro zs x hx
                  rw [List.head?_map] at hx
                  obtain ⟨z, hz, rfl⟩ := Option.map_eq_some_iff.1 hx
                  rw [listedL_first path zs z hz]
                  simp
                have e1 := congrArg (List.map Prod.fst) h1
                have e2 := congrArg (List.map Prod.fst) h2
                simp only [List.map_append, List.map_cons] at e1 e2
                have hlen := congrArg List.length (split_longer (fun x : List Title => decide (path.length < x.length)) _ _ _ _ (far xs) (far ys)
                  (near bs) (near cs) (e1.trans e2.symm)).1
                simp only [List.length_map] at hlen
                rcases append_split h1 with ⟨r, a1, a2⟩ | ⟨r, a1, a2⟩ <;> rcases append_split h2 with ⟨r', b1, b2⟩ | ⟨r', b1, b2⟩
                · obtain ⟨f1, f2⟩ := List.append_inj (a1.symm.trans b1) hlen
                  subst f2
                  have := listedL_edit bs cs path r Q p X Y hX hY a2 b2
                  simp only [bareBs, bareB, ← ht, ← hm, listedL_bare xs ys _ f1]
                  exact this.cons _
                · exfalso
                  have := congrArg List.length a1
                  have := congrArg List.length b1
                  simp only [List.length_append, List.length_cons] at *
                  omega
                · exfalso
                  have := congrArg List.length a1
                  have := congrArg List.length b1
                  simp only [List.length_append, List.length_cons] at *
                  omega
                · have hr : r.length = r'.length := by
                    have := congrArg List.length a1
                    have := congrArg List.length b1
                    simp only [List.length_append, List.length_cons] at *
                    omega
                  obtain ⟨f1, f2⟩ := List.append_inj (a2.symm.trans b2) hr
                  subst f1
                  have := listedL_edit xs ys _ P r p X Y hX hY a1 b1
                  simp only [bareBs, bareB, ← ht, ← hm, listedL_bare bs cs path f2]
                  exact .within [] _ (.section (bareL t) (m.map bareM) v []) this
              | _ => cases hc
            | _ => cases hb
termination_by sizeOf bs

theorem Dropped.cons {x : Block} {bs cs : List Block} (b : Block) (h : Dropped x bs cs) : Dropped x (b :: bs) (b :: cs) := by
  cases h with
  | here a c => exact .here (b :: a) c
  | within a c hf h => exact .within (b :: a) c hf h

/-- A block that is not a section can be left out. -/
theorem listedL_without (bs : List Block) (path : List Title) (P Q : List (List Title × Block)) (p : List Title) (X : Block)
    (hX : isSection X = false) (h : listedL path bs = P ++ (p, X) :: Q) :
    ∃ cs, listedL path cs = P ++ Q ∧ Dropped X (bareBs bs) (bareBs cs) := by
  match bs with
  | [] => simp [listedL] at h
  | b :: bs =>
    simp only [listedL] at h
    rcases append_split h with ⟨c, h1, h2⟩ | ⟨c, h1, h2⟩
    · obtain ⟨cs, h3, h4⟩ := listedL_without bs path c Q p X hX h2
      exact ⟨b :: cs, by simp only [listedL, h3, h1, List.append_assoc], by simpa only [bareBs] using Dropped.cons _ h4⟩
    · cases hb : isSection b with
      | false =>
        rw [listed_plain path b hb] at h1
        cases P with
        | nil =>
          simp only [List.nil_append, List.cons.injEq, Prod.mk.injEq] at h1
          refine ⟨bs, by rw [h2, ← h1.2]; rfl, ?_⟩
          simp only [bareBs, h1.1.2]
          exact .here [] _
        | cons e P => simp at h1
      | true =>
        cases b with
        | «section» t m v xs l =>
          simp only [listed] at h1
          cases P with
          | nil =>
            simp only [List.nil_append, List.cons.injEq, Prod.mk.injEq] at h1
            rw [← h1.1.2] at hX
            cases hX
          | cons e P =>
            simp only [List.cons_append, List.cons.injEq] at h1
            obtain ⟨ys, h3, h4⟩ := listedL_without xs _ P c p X hX h1.2
            refine ⟨.section t m v ys l :: bs, ?_, ?_⟩
            · simp only [listedL, listed, h3, h1.1, h2, List.cons_append, List.append_assoc]
            · simp only [bareBs, bareB]
              exact .within [] _ (.section (bareL t) (m.map bareM) v []) h4
        | _ => cases hb
termination_by sizeOf bs

/-- If the lists of all blocks are the same up to one block, which is not a section, so are the blocks. -/
theorem listedL_drop (bs cs : List Block) (path : List Title) (P Q : List (List Title × Block)) (p : List Title) (X : Block)
    (hX : isSection X = false) (h1 : listedL path bs = P ++ (p, X) :: Q) (h2 : listedL path cs = P ++ Q) :
    Dropped X (bareBs bs) (bareBs cs) := by
  obtain ⟨ds, h3, h4⟩ := listedL_without bs path P Q p X hX h1
  rw [listedL_bare cs ds path (h2.trans h3.symm)]
  exact h4

end Adoc.Rich
