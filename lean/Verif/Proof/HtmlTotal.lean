import Verif.Proof.Html
/-!
# When the HTML writer returns
-/
namespace Adoc.Html
open Markup

private theorem foldl_none (s : Str) :
    s.foldl (fun acc b => acc.bind fun n => if isDigit b then some (n * 10 + (b.toNat - 48)) else none) none = none := by
  induction s with
  | nil => rfl
  | cons b s ih => exact ih

private theorem digit_zero {b : UInt8} (h : isDigit b = true) : b.toNat - 48 = 0 ↔ b = c!"0" := by
  simp only [isDigit, Bool.and_eq_true, decide_eq_true_eq, UInt8.le_iff_toNat_le] at h
  have h48 : (48 : UInt8).toNat = 48 := rfl
  rw [h48] at h
  constructor
  · intro e
    apply UInt8.toNat_inj.1
    rw [h48]
    omega
  · rintro rfl; rfl

private theorem foldl_digits (s : Str) (n : Nat) :
    (s.foldl (fun acc b => acc.bind fun n => if isDigit b then some (n * 10 + (b.toNat - 48)) else none) (some n)).getD 0 ≠ 0
      ↔ s.all isDigit = true ∧ (n ≠ 0 ∨ s.any (· ≠ c!"0") = true) := by
  induction s generalizing n with
  | nil => simp
  | cons b s ih =>
    simp only [List.foldl_cons, Option.bind_some, List.all_cons, List.any_cons, Bool.and_eq_true, Bool.or_eq_true]
    cases hb : isDigit b with
    | false => simp [foldl_none]
    | true =>
      rw [if_pos rfl, ih]
      have := digit_zero hb
      constructor
      · rintro ⟨h1, h2⟩
        refine ⟨⟨rfl, h1⟩, ?_⟩
        rcases h2 with h2 | h2
        · by_cases hn : n = 0
          · right; left
            have h3 : b.toNat - 48 ≠ 0 := by subst hn; omega
            simpa using fun e => h3 (this.2 e)
          · exact .inl hn
        · exact .inr (.inr h2)
      · rintro ⟨⟨-, h1⟩, h2⟩
        refine ⟨h1, ?_⟩
        rcases h2 with h2 | h2 | h2
        · left; omega
        · left
          have h3 : b.toNat - 48 ≠ 0 := fun e => (of_decide_eq_true h2) (this.1 e)
          omega
        · exact .inr h2

theorem colsInt_positive (c : Str) : colsInt c ≠ 0 ↔ positive c = true := by
  unfold colsInt positive
  rw [Bool.and_eq_true]
  cases c with
  | nil => simp [parseDigits]
  | cons b s =>
    have := foldl_digits (b :: s) 0
    simp only [ne_eq, not_true_eq_false, false_or] at this
    exact this

private theorem foldl_value (s : Str) (n : Nat) (h : s.all isDigit = true) :
    s.foldl (fun acc b => acc.bind fun n => if isDigit b then some (n * 10 + (b.toNat - 48)) else none) (some n) =
      some (s.foldl (fun n b => n * 10 + (b.toNat - 48)) n) := by
  induction s generalizing n with
  | nil => rfl
  | cons b s ih =>
    simp only [List.all_cons, Bool.and_eq_true] at h
    simp only [List.foldl_cons, Option.bind_some, if_pos h.1]
    exact ih _ h.2

theorem colsInt_decimal (c : Str) (h : positive c = true) : colsInt c = decimal c := by
  unfold colsInt decimal
  simp only [positive, Bool.and_eq_true] at h
  cases c with
  | nil => rfl
  | cons b s =>
    have := foldl_value (b :: s) 0 h.1
    simp only [parseDigits, this, Option.getD_some]

theorem cellLoop_ok (cols total : Nat) (cs : List Block) (idx : Nat) :
    (∃ s, cellLoop cols total cs idx = .ok s) ↔ cols ≠ 0 ∨ cs.length + (if 0 < idx then 1 else 0) ≤ 1 := by
  induction cs generalizing idx with
  | nil => simp only [cellLoop, List.length_nil]; exact ⟨fun _ => .inr (by split <;> omega), fun _ => ⟨_, rfl⟩⟩
  | cons c cs ih =>
    have hi := ih (idx + 1)
    rw [if_pos (by omega)] at hi
    simp only [cellLoop, List.length_cons]
    by_cases h0 : 0 < idx
    · rw [if_pos h0]
      by_cases hc : cols = 0
      · rw [if_pos hc]
        constructor
        · rintro ⟨s, hs⟩; cases hs
        · rintro (h | h)
          · exact absurd hc h
          · rw [if_pos h0] at h; omega
      · rw [if_neg hc]
        obtain ⟨rest, hr⟩ := hi.2 (.inl hc)
        rw [hr]
        exact ⟨fun _ => .inl hc, fun _ => ⟨_, rfl⟩⟩
    · rw [if_neg h0, if_neg h0]
      constructor
      · rintro ⟨s, hs⟩
        obtain ⟨rest, hr, -⟩ := bind_ok hs
        rcases hi.1 ⟨rest, hr⟩ with h | h
        · exact .inl h
        · exact .inr (by omega)
      · intro h
        obtain ⟨rest, hr⟩ := hi.2 (h.imp id fun h => by omega)
        rw [hr]
        exact ⟨_, rfl⟩

theorem bind_pure_ok {α β : Type} (x : M α) (f : α → β) : (∃ s, (do let a ← x; return f a) = (.ok s : M β)) ↔ ∃ a, x = .ok a := by
  cases x with
  | error e => constructor <;> (rintro ⟨s, hs⟩; cases hs)
  | ok a => exact ⟨fun _ => ⟨a, rfl⟩, fun _ => ⟨f a, rfl⟩⟩

theorem guard_ok {α β : Type} (p : Prop) [Decidable p] (x : M α) (f : α → β) :
    (∃ s, (if p then .error (.panic .unwrap) else do let a ← x; return f a) = (.ok s : M β)) ↔ ¬ p ∧ ∃ a, x = .ok a := by
  by_cases hp : p
  · rw [if_pos hp]
    exact ⟨(fun h => by obtain ⟨_, hs⟩ := h; cases hs), fun h => absurd hp h.1⟩
  · rw [if_neg hp, bind_pure_ok]
    exact ⟨fun h => ⟨hp, h⟩, fun h => h.2⟩

theorem table_ok (titled : Bool) (cells : List Block) (v : Option ParentVariant) (d : Str) (t : List Inline)
    (m : Option Meta) (l : List Location) : (∃ s, table titled cells m = .ok s) ↔ gridded (.parent .table v d cells t m l) = true := by
  unfold table gridded
  cases m with
  | none => simp
  | some m =>
    simp only
    cases hc : m.attributes.get? b!"cols" with
    | none => simp
    | some c =>
      refine (guard_ok _ _ _).trans ?_
      have h2 := colsInt_positive c
      generalize hst : (if m.options.contains b!"header" = true then colsInt c else 0) = start
      rw [cellLoop_ok, Nat.not_lt]
      cases hp : positive c with
      | true =>
        have hz := h2.2 hp
        have hd := colsInt_decimal c hp
        cases hh : m.options.contains b!"header" with
        | true =>
          rw [hh] at hst
          rw [if_pos rfl] at hst
          subst hst
          simp [hz, hp, ← hd]
        | false =>
          rw [hh] at hst
          simp at hst
          subst hst
          simp [hz, hp]
      | false =>
        have hz : colsInt c = 0 := by
          by_cases hz : colsInt c = 0
          · exact hz
          · rw [h2.1 hz] at hp; cases hp
        have : start = 0 := by rw [← hst, hz]; split <;> rfl
        subst this
        simp [hz, hp]

mutual
theorem block_ok (titled skip : Bool) (b : Block) : (∃ s, block titled skip b = .ok s) ↔ gridded b = true := by
  cases b with
  | leaf n f d is m l => simp [block, gridded]
  | brk v l => cases v <;> simp [block, gridded]
  | «section» t m level bs l => exact (bind_pure_ok _ _).trans (blocks_ok titled false bs)
  | list v items m l => exact (bind_pure_ok _ _).trans (blocks_ok titled false items)
  | dlist items m l => exact (bind_pure_ok _ _).trans (blocks_ok titled false items)
  | listItem k p bs m l => exact (bind_pure_ok _ _).trans (blocks_ok titled false bs)
  | dlistItem ts p bs m l => exact (bind_pure_ok _ _).trans (blocks_ok titled false bs)
  | image target c m l => simp [block, gridded]
  | parent n v d bs t m l =>
    cases n with
    | table => exact table_ok titled bs v d t m l
    | admonition => exact (bind_pure_ok _ _).trans (blocks_ok titled _ bs)
    | example_ => exact (bind_pure_ok _ _).trans (blocks_ok titled _ bs)
    | sidebar => exact (bind_pure_ok _ _).trans (blocks_ok titled _ bs)
    | open_ => exact (bind_pure_ok _ _).trans (blocks_ok titled _ bs)
    | quote => exact (bind_pure_ok _ _).trans (blocks_ok titled _ bs)
    | footnoteContainer => exact (bind_pure_ok _ _).trans (blocks_ok titled _ bs)
  | tableCell is m l => simp [block, gridded]
theorem blocks_ok (titled skip : Bool) (bs : List Block) : (∃ s, blocks titled skip bs = .ok s) ↔ griddedL bs = true := by
  cases bs with
  | nil => simp [blocks, griddedL]
  | cons b bs =>
    have h1 := block_ok titled skip b
    have h2 := blocks_ok titled skip bs
    simp only [blocks, griddedL, Bool.and_eq_true, ← h1, ← h2]
    constructor
    · rintro ⟨s, hs⟩
      obtain ⟨x, hx, hs⟩ := bind_ok hs
      obtain ⟨xs, hxs, -⟩ := bind_ok hs
      exact ⟨⟨x, hx⟩, xs, hxs⟩
    · rintro ⟨⟨x, hx⟩, xs, hxs⟩
      rw [hx, hxs]
      exact ⟨_, rfl⟩
end

theorem body_ok (titled : Bool) (bs : List Block) : (∃ s, body titled bs = .ok s) ↔ griddedL bs = true := by
  induction bs with
  | nil => simp [body, griddedL]
  | cons b bs ih =>
    have h1 := block_ok titled false b
    simp only [body, griddedL, Bool.and_eq_true, ← h1, ← ih]
    constructor
    · rintro ⟨s, hs⟩
      obtain ⟨x, hx, hs⟩ := bind_ok hs
      obtain ⟨xs, hxs, -⟩ := bind_ok hs
      exact ⟨⟨x, hx⟩, xs, hxs⟩
    · rintro ⟨⟨x, hx⟩, xs, hxs⟩
      rw [hx, hxs]
      exact ⟨_, rfl⟩

end Adoc.Html
