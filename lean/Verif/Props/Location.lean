import Verif.Model.Location
/-!
# Properties of locations: C12, C13
-/
namespace Adoc.Props
open Adoc

/-- Source order: file depth, then line, then column (lexicographic `≤`). -/
def before (a b : Location) : Prop :=
  a.file.length < b.file.length ∨ (a.file.length = b.file.length ∧
    (a.line < b.line ∨ (a.line = b.line ∧ a.col ≤ b.col)))

instance (a b : Location) : Decidable (before a b) := by unfold before; infer_instance

theorem cmp_lt_iff (a b : Location) : a.cmp b = .lt ↔ ¬before b a := by
  unfold Location.cmp before
  repeat' split
  all_goals simp only [Nat.compare_eq_lt]
  all_goals omega

theorem cmp_gt_iff (a b : Location) : a.cmp b = .gt ↔ ¬before a b := by
  unfold Location.cmp before
  repeat' split
  all_goals simp only [Nat.compare_eq_gt]
  all_goals omega

theorem before_refl (a : Location) : before a a := by unfold before; omega
theorem before_trans {a b c : Location} (h1 : before a b) (h2 : before b c) : before a c := by
  unfold before at *; omega
theorem before_total (a b : Location) : before a b ∨ before b a := by unfold before; omega

/-- **C13**: the comparison is a total preorder: reflexive, transitive, total, and the two directions agree. -/
theorem C13_order (a b c : Location) :
    a.cmp a = .eq ∧ (a.cmp b ≠ .gt → b.cmp c ≠ .gt → a.cmp c ≠ .gt) ∧ (a.cmp b ≠ .gt ∨ b.cmp a ≠ .gt)
      ∧ (a.cmp b = .lt ↔ b.cmp a = .gt) ∧ (a.cmp b = .eq ↔ b.cmp a = .eq) := by
  refine ⟨by simp [Location.cmp], ?_, ?_, ?_, ?_⟩
  · simp only [ne_eq, cmp_gt_iff, Decidable.not_not]; exact before_trans
  · simp only [ne_eq, cmp_gt_iff, Decidable.not_not]; exact before_total a b
  · rw [cmp_lt_iff, cmp_gt_iff]
  · unfold Location.cmp
    repeat' split
    all_goals simp only [Nat.compare_eq_eq]
    all_goals omega

/-- **C13**: two locations compare as equal exactly when include depth, line and column agree. -/
theorem C13_equal_iff (a b : Location) :
    a.cmp b = .eq ↔ a.file.length = b.file.length ∧ a.line = b.line ∧ a.col = b.col := by
  unfold Location.cmp
  repeat' split
  all_goals simp only [Nat.compare_eq_eq]
  all_goals omega

/-- **C13**, limit: the comparison ignores file names, so positions in different files can compare as equal
(`Ord` is not consistent with `Eq`). -/
theorem C13_files_not_distinguished :
    ∃ a b : Location, a.cmp b = .eq ∧ a ≠ b :=
  ⟨⟨1, 1, [b!"a.adoc"]⟩, ⟨1, 1, [b!"b.adoc"]⟩, by decide, by decide⟩

/-! ## The specification of `reconcile` -/

/-- The earliest location of `x :: l` (the first one among equals). -/
def earliest (x : Location) : List Location → Location
  | [] => x
  | y :: ys => earliest (if before x y then x else y) ys

/-- The latest location of `x :: l` (the last one among equals). -/
def latest (x : Location) : List Location → Location
  | [] => x
  | y :: ys => latest (if before x y then y else x) ys

theorem earliest_mem (x : Location) (l : List Location) : earliest x l ∈ x :: l := by
  induction l generalizing x with
  | nil => simp [earliest]
  | cons y ys ih => rw [earliest]; split <;> (have := ih (if before x y then x else y); grind)

theorem latest_mem (x : Location) (l : List Location) : latest x l ∈ x :: l := by
  induction l generalizing x with
  | nil => simp [latest]
  | cons y ys ih => rw [latest]; split <;> (have := ih (if before x y then y else x); grind)

theorem earliest_before (x : Location) (l : List Location) : ∀ z ∈ x :: l, before (earliest x l) z := by
  induction l generalizing x with
  | nil => simp [earliest, before_refl]
  | cons y ys ih =>
    intro z hz
    rw [earliest]
    have h0 := ih (if before x y then x else y) _ (List.mem_cons_self ..)
    rcases List.mem_cons.1 hz with rfl | hz
    · split at h0
      · rw [if_pos (by assumption)]; exact h0
      · rename_i hb
        rw [if_neg hb]
        exact before_trans h0 ((before_total z y).resolve_left hb)
    · rcases List.mem_cons.1 hz with rfl | hz
      · split at h0
        · rename_i hb; rw [if_pos hb]; exact before_trans h0 hb
        · rw [if_neg (by assumption)]; exact h0
      · exact ih _ z (List.mem_cons_of_mem _ hz)

theorem before_latest (x : Location) (l : List Location) : ∀ z ∈ x :: l, before z (latest x l) := by
  induction l generalizing x with
  | nil => simp [latest, before_refl]
  | cons y ys ih =>
    intro z hz
    rw [latest]
    have h0 := ih (if before x y then y else x) _ (List.mem_cons_self ..)
    rcases List.mem_cons.1 hz with rfl | hz
    · split at h0
      · rename_i hb; rw [if_pos hb]; exact before_trans hb h0
      · rw [if_neg (by assumption)]; exact h0
    · rcases List.mem_cons.1 hz with rfl | hz
      · split at h0
        · rw [if_pos (by assumption)]; exact h0
        · rename_i hb
          rw [if_neg hb]
          exact before_trans ((before_total x z).resolve_left hb) h0
      · exact ih _ z (List.mem_cons_of_mem _ hz)

/-! ## The code's sort against the specification -/

def Sorted (l : List Location) : Prop := l.Pairwise before

theorem insertLoc_mem (x z : Location) (l : List Location) : z ∈ insertLoc x l ↔ z = x ∨ z ∈ l := by
  induction l with
  | nil => simp [insertLoc]
  | cons y ys ih => rw [insertLoc]; split <;> simp_all; grind

theorem insertLoc_sorted (x : Location) (l : List Location) (h : Sorted l) : Sorted (insertLoc x l) := by
  induction l with
  | nil => simp [insertLoc, Sorted]
  | cons y ys ih =>
    unfold Sorted at *
    rw [insertLoc]
    rw [List.pairwise_cons] at h
    split
    · rename_i hc
      have hxy : before x y := by rw [cmp_lt_iff] at hc; exact (before_total x y).resolve_right hc
      rw [List.pairwise_cons, List.pairwise_cons]
      refine ⟨?_, h⟩
      intro z hz
      rcases List.mem_cons.1 hz with rfl | hz
      · exact hxy
      · exact before_trans hxy (h.1 z hz)
    · rename_i hc
      have hyx : before y x := by rw [cmp_lt_iff] at hc; exact Decidable.not_not.1 hc
      rw [List.pairwise_cons]
      refine ⟨?_, ih h.2⟩
      intro z hz
      rcases (insertLoc_mem x z ys).1 hz with rfl | hz
      · exact hyx
      · exact h.1 z hz

theorem insertLoc_ne (x : Location) (l : List Location) : insertLoc x l ≠ [] := by
  cases l with
  | nil => simp [insertLoc]
  | cons y ys => rw [insertLoc]; split <;> simp

theorem insertLoc_head (x y : Location) (ys : List Location) :
    (insertLoc x (y :: ys)).head? = some (if before y x then y else x) := by
  rw [insertLoc]
  split
  · rename_i hc; rw [cmp_lt_iff] at hc; simp [hc]
  · rename_i hc; rw [cmp_lt_iff] at hc; simp [Decidable.not_not.1 hc]

theorem insertLoc_last (x y : Location) (ys : List Location) (h : Sorted (y :: ys)) (l : Location)
    (hl : (y :: ys).getLast? = some l) :
    (insertLoc x (y :: ys)).getLast? = some (if before l x then x else l) := by
  induction ys generalizing y with
  | nil =>
    simp only [List.getLast?_singleton, Option.some.injEq] at hl; subst hl
    rw [insertLoc]
    split
    · rename_i hc; rw [cmp_lt_iff] at hc; simp [hc]
    · rename_i hc; rw [cmp_lt_iff] at hc; simp [insertLoc, Decidable.not_not.1 hc]
  | cons z zs ih =>
    unfold Sorted at h
    rw [List.pairwise_cons] at h
    have hl' : (z :: zs).getLast? = some l := by rw [← hl]; simp [List.getLast?_cons_cons]
    rw [insertLoc]
    split
    · rename_i hc; rw [cmp_lt_iff] at hc
      have hmem : l ∈ z :: zs := List.mem_of_getLast? hl'
      have hb : ¬before l x := fun hb => hc (before_trans (h.1 l hmem) hb)
      simp only [if_neg hb]
      rw [List.getLast?_cons_cons, hl]
    · have := ih z h.2 hl'
      have hne := insertLoc_ne x (z :: zs)
      generalize insertLoc x (z :: zs) = w at *
      cases w with
      | nil => exact absurd rfl hne
      | cons a as => rw [List.getLast?_cons_cons]; exact this

theorem foldl_insert (l : List Location) : ∀ (acc : List Location) (f e : Location), Sorted acc →
    acc.head? = some f → acc.getLast? = some e →
    let r := l.foldl (fun acc x => insertLoc x acc) acc
    Sorted r ∧ r.head? = some (earliest f l) ∧ r.getLast? = some (latest e l) ∧ r.length = acc.length + l.length := by
  induction l with
  | nil => intro acc f e h1 h2 h3; exact ⟨h1, h2, h3, rfl⟩
  | cons x xs ih =>
    intro acc f e h1 h2 h3
    cases acc with
    | nil => cases h2
    | cons y ys =>
      simp only [List.head?_cons, Option.some.injEq] at h2; subst h2
      have hlen : (insertLoc x (y :: ys)).length = ys.length + 2 := by
        clear ih h1 h3
        generalize y = y
        induction ys generalizing y with
        | nil => rw [insertLoc]; split <;> simp [insertLoc]
        | cons z zs ih => rw [insertLoc]; split
                          · simp
                          · simp [ih]
      have := ih (insertLoc x (y :: ys)) _ _ (insertLoc_sorted x _ h1) (insertLoc_head x y ys) (insertLoc_last x y ys h1 e h3)
      simp only [List.foldl_cons]
      rw [earliest, latest]
      refine ⟨this.1, this.2.1, this.2.2.1, ?_⟩
      rw [this.2.2.2, hlen]; simp; omega

/-- **C12**: merging a non-empty list `b` into `a` gives the earliest and the latest of all locations (the only one
if there is one); merging an empty list changes nothing. -/
theorem C12_reconcile (a b : List Location) :
    reconcile a b = if b = [] then a else
      match a ++ b with
      | [] => []
      | [x] => [x]
      | x :: y :: l => [earliest x (y :: l), latest x (y :: l)] := by
  unfold reconcile
  by_cases hb : b = []
  · simp [hb]
  have hbe : b.isEmpty = false := by cases b <;> simp_all
  simp only [hbe, hb, if_false, Bool.false_eq_true]
  generalize hl : a ++ b = l
  cases l with
  | nil => rfl
  | cons x l =>
    have h := foldl_insert l [x] x x (by simp [Sorted]) rfl rfl
    have hs : sortLocs (x :: l) = l.foldl (fun acc x => insertLoc x acc) [x] := rfl
    rw [hs]
    generalize l.foldl (fun acc x => insertLoc x acc) [x] = r at *
    dsimp only at h
    obtain ⟨_, h2, h3, h4⟩ := h
    cases r with
    | nil => cases h2
    | cons u us =>
      simp only [List.head?_cons, Option.some.injEq] at h2
      cases l with
      | nil =>
        cases us with
        | nil => simp only [h2, earliest]
        | cons => simp at h4
      | cons y ys =>
        cases us with
        | nil => simp at h4
        | cons v vs =>
          rw [List.getLast?_cons_cons, List.getLast?_eq_some_getLast (by simp)] at h3
          simp only [Option.some.injEq] at h3
          dsimp only
          rw [h2, h3]

/-- **C12** read without the helper functions: the result's first element comes before everything given, its last
comes after everything given, and both are among the given locations. -/
theorem C12_bounds (a b : List Location) (hb : b ≠ []) (hl : 2 ≤ a.length + b.length) :
    ∃ x y, reconcile a b = [x, y] ∧ x ∈ a ++ b ∧ y ∈ a ++ b ∧ ∀ z ∈ a ++ b, before x z ∧ before z y := by
  rw [C12_reconcile, if_neg hb]
  rw [← List.length_append] at hl
  generalize a ++ b = l at *
  match l, hl with
  | x :: y :: l, _ =>
    exact ⟨_, _, rfl, earliest_mem .., latest_mem .., fun z hz => ⟨earliest_before _ _ z hz, before_latest _ _ z hz⟩⟩

example : reconcile [⟨3, 1, []⟩, ⟨3, 9, []⟩] [⟨1, 7, []⟩, ⟨2, 2, []⟩, ⟨1, 1, [b!"f"]⟩]
    = [⟨1, 7, []⟩, ⟨1, 1, [b!"f"]⟩] := by decide

/-! ## C13: algebraic laws -/

theorem earliest_append (x : Location) (l m : List Location) : earliest x (l ++ m) = earliest (earliest x l) m := by
  induction l generalizing x with
  | nil => rfl
  | cons y ys ih => simp only [List.cons_append, earliest, ih]

theorem latest_append (x : Location) (l m : List Location) : latest x (l ++ m) = latest (latest x l) m := by
  induction l generalizing x with
  | nil => rfl
  | cons y ys ih => simp only [List.cons_append, latest, ih]

/-- **C13**: merging in steps is merging at once. -/
theorem C13_assoc (a b c : List Location) (hb : b ≠ []) (hc : c ≠ []) :
    reconcile (reconcile a b) c = reconcile a (b ++ c) := by
  rw [C12_reconcile a b, if_neg hb, C12_reconcile, if_neg hc, C12_reconcile, if_neg (by simp [hb]),
    ← List.append_assoc]
  generalize hl : a ++ b = l
  cases c with
  | nil => exact absurd rfl hc
  | cons z c =>
    match l with
    | [] => simp_all
    | [x] => rfl
    | x :: y :: l =>
      simp only [List.cons_append, List.nil_append]
      rw [← List.cons_append, earliest_append, latest_append]
      have h1 := before_trans (earliest_before x (y :: l) x (List.mem_cons_self ..)) (before_latest x (y :: l) x (List.mem_cons_self ..))
      generalize earliest x (y :: l) = e at *
      generalize latest x (y :: l) = e' at *
      simp only [earliest, latest, h1, if_true]

/-- **C13**: merging the same locations again changes nothing. -/
theorem C13_idempotent (a b : List Location) (hl : 2 ≤ a.length + b.length) (hb : b ≠ []) :
    reconcile (reconcile a b) (reconcile a b) = reconcile a b := by
  obtain ⟨x, y, h, _, _, hz⟩ := C12_bounds a b hb hl
  have hx : x ∈ a ++ b := by assumption
  have hy : y ∈ a ++ b := by assumption
  rw [h, C12_reconcile]
  have h1 : before x y := (hz y hy).1
  have hxx := before_refl x
  have hyy := before_refl y
  by_cases h2 : before y x <;> simp [earliest, latest, h1, hxx, hyy, h2]

/-- **C13**: the order of the arguments does not matter, up to locations that compare as equal. -/
theorem C13_comm (a b : List Location) (ha : a ≠ []) (hb : b ≠ []) :
    ∃ x y x' y', reconcile a b = [x, y] ∧ reconcile b a = [x', y'] ∧ x.cmp x' = .eq ∧ y.cmp y' = .eq := by
  have hla : 1 ≤ a.length := by cases a <;> simp_all
  have hlb : 1 ≤ b.length := by cases b <;> simp_all
  obtain ⟨x, y, h, hx, hy, hz⟩ := C12_bounds a b hb (by omega)
  obtain ⟨x', y', h', hx', hy', hz'⟩ := C12_bounds b a ha (by omega)
  have sw : ∀ z, z ∈ a ++ b ↔ z ∈ b ++ a := by intro z; simp [or_comm]
  refine ⟨x, y, x', y', h, h', ?_, ?_⟩
  · have h1 := (hz x' ((sw _).2 hx')).1; have h2 := (hz' x ((sw _).1 hx)).1
    rw [C13_equal_iff]; unfold before at h1 h2; omega
  · have h1 := (hz y' ((sw _).2 hy')).2; have h2 := (hz' y ((sw _).1 hy)).2
    rw [C13_equal_iff]; unfold before at h1 h2; omega

/-- **C13**: the merged span covers both arguments. -/
theorem C13_covers (a b : List Location) (ha : a ≠ []) (hb : b ≠ []) :
    ∃ x y, reconcile a b = [x, y] ∧ ∀ z, z ∈ a ∨ z ∈ b → before x z ∧ before z y := by
  have hla : 1 ≤ a.length := by cases a <;> simp_all
  have hlb : 1 ≤ b.length := by cases b <;> simp_all
  obtain ⟨x, y, h, _, _, hz⟩ := C12_bounds a b hb (by omega)
  exact ⟨x, y, h, fun z hm => hz z (by simpa using hm)⟩

example : reconcile [⟨1, 1, []⟩, ⟨1, 4, []⟩] [⟨2, 1, []⟩, ⟨2, 3, []⟩] = [⟨1, 1, []⟩, ⟨2, 3, []⟩] := by decide

end Adoc.Props
