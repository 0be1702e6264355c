import Verif.Spec.Json
import Verif.Proof.Strings
/-!
# The text of a JSON value is read as that value
-/
namespace Adoc.Json
open Spec.JsonText

/-! ## Strings -/

theorem hex_control : ∀ n < 32, hex4 c!"0" c!"0" (hexDigit (UInt8.ofNat n / 16)) (hexDigit (UInt8.ofNat n % 16)) = some n := by
  decide

theorem readStr_plain (b : UInt8) (t : Str) (h1 : ¬b < 0x20) (h2 : b ≠ 0x22) (h3 : b ≠ 0x5C) :
    readStr (b :: t) = (readStr t).map fun x => (b :: x.1, x.2) := by
  rw [readStr.eq_def]
  split
  · contradiction
  · rename_i h; simp only [List.cons.injEq] at h; exact absurd h.1 h2
  · rename_i h; simp only [List.cons.injEq] at h; exact absurd h.1 h3
  · rename_i h; simp only [List.cons.injEq] at h; exact absurd h.1 h3
  · rename_i b' r' _ _ _ h
    simp only [List.cons.injEq] at h
    obtain ⟨rfl, rfl⟩ := h
    have : (decide (b < 32) || decide (b = 92)) = false := by simp [h1, h3]
    simp only [this, Bool.false_eq_true, if_false, bind, Option.bind]
    cases readStr t <;> rfl

theorem readStr_short (e x : UInt8) (t : Str) (h : short e = some x) (hu : e ≠ 0x75) :
    readStr (0x5C :: e :: t) = (readStr t).map fun y => (x :: y.1, y.2) := by
  rw [readStr.eq_def]
  split
  · contradiction
  · rename_i h; simp only [List.cons.injEq] at h; exact absurd h.1 (by decide)
  · rename_i h; simp only [List.cons.injEq] at h; exact absurd h.2.1 hu
  · rename_i e' r' _ h'
    simp only [List.cons.injEq] at h'
    obtain ⟨_, rfl, rfl⟩ := h'
    simp only [h, bind, Option.bind]
    cases readStr t <;> rfl
  · rename_i b r h4 h5 h6 h7
    simp only [List.cons.injEq] at h7
    exact (h6 e t h7.1.symm h7.2.symm).elim

theorem readStr_hex (a b c d : UInt8) (n : Nat) (t u : Str) (h : hex4 a b c d = some n) (hu : utf8 n = some u) :
    readStr (0x5C :: 0x75 :: a :: b :: c :: d :: t) = (readStr t).map fun y => (u ++ y.1, y.2) := by
  rw [readStr]
  simp only [h, hu, bind, Option.bind]
  cases readStr t <;> rfl

theorem readStr_escape (b : UInt8) (t : Str) : readStr (escape b ++ t) = (readStr t).map fun x => (b :: x.1, x.2) := by
  unfold escape
  split
  · rename_i h; rw [h]; exact readStr_short _ _ _ (by decide) (by decide)
  split
  · rename_i h; rw [h]; exact readStr_short _ _ _ (by decide) (by decide)
  split
  · rename_i h; rw [h]; exact readStr_short _ _ _ (by decide) (by decide)
  split
  · rename_i h; rw [h]; exact readStr_short _ _ _ (by decide) (by decide)
  split
  · rename_i h; rw [h]; exact readStr_short _ _ _ (by decide) (by decide)
  split
  · rename_i h; rw [h]; exact readStr_short _ _ _ (by decide) (by decide)
  split
  · rename_i h; rw [h]; exact readStr_short _ _ _ (by decide) (by decide)
  split
  · rename_i h
    have hn : b.toNat < 32 := UInt8.lt_iff_toNat_lt.1 h
    have := hex_control b.toNat hn
    rw [UInt8.ofNat_toNat] at this
    have hu : utf8 b.toNat = some [b] := by
      unfold utf8
      rw [if_pos (by omega), UInt8.ofNat_toNat]
    exact readStr_hex _ _ _ _ _ t _ this hu
  · exact readStr_plain b t (by assumption) (by assumption) (by assumption)

/-- A string is read as it was. -/
theorem readStr_quoted (s rest : Str) : readStr (s.flatMap escape ++ c!"\"" :: rest) = some (s, rest) := by
  induction s with
  | nil => simp [readStr]
  | cons b s ih => rw [List.flatMap_cons, List.append_assoc, readStr_escape, ih]; rfl

/-! ## Numbers -/

/-- No digit follows. -/
def Clean (rest : Str) : Prop := ∀ b r, rest = b :: r → isDigit b = false

theorem readDigits_eq (s rest : Str) (hs : ∀ b ∈ s, isDigit b = true) (hr : Clean rest) (n : Nat) :
    ∃ k, readDigits n (s ++ rest) = (k, rest) ∧ s.foldl (fun acc b => acc.bind fun n =>
      if isDigit b then some (n * 10 + (b.toNat - 48)) else none) (some n) = some k := by
  induction s generalizing n with
  | nil =>
    refine ⟨n, ?_, rfl⟩
    cases rest with
    | nil => rfl
    | cons b r =>
      have := hr b r rfl
      simp only [isDigit] at this
      simp only [List.nil_append, readDigits, this, Bool.false_eq_true, if_false]
  | cons b s ih =>
    have hb := hs b (by simp)
    obtain ⟨k, h1, h2⟩ := ih (fun x hx => hs x (by simp [hx])) (n * 10 + (b.toNat - 48))
    refine ⟨k, ?_, ?_⟩
    · simp only [isDigit] at hb
      simp only [List.cons_append, readDigits, hb, if_true]; exact h1
    · simp only [List.foldl_cons, Option.bind_some, hb, if_true]; exact h2

theorem readDigits_nat (n : Nat) (rest : Str) (hr : Clean rest) : readDigits 0 (natToStr n ++ rest) = (n, rest) := by
  obtain ⟨k, h1, h2⟩ := readDigits_eq (natToStr n) rest (natToStr_digits n) hr 0
  have := parseDigits_natToStr n
  unfold parseDigits at this
  split at this
  · cases this
  · rw [this] at h2; cases h2; exact h1

theorem digit_facts (b : UInt8) (h : (0x31 ≤ b && b ≤ 0x39) = true) : isWs b = false
    ∧ b ≠ c!"\"" ∧ b ≠ c!"[" ∧ b ≠ c!"{" ∧ b ≠ c!"0" ∧ b ≠ c!"]" := by
  refine ⟨?_, ?_, ?_, ?_, ?_, ?_⟩
  · cases hw : isWs b with
    | false => rfl
    | true =>
      simp only [isWs, Bool.or_eq_true, decide_eq_true_eq] at hw
      rcases hw with ((rfl | rfl) | rfl) | rfl <;> exact absurd h (by decide)
  all_goals rintro rfl; exact absurd h (by decide)

/-- A number does not begin with a zero, except zero. -/
theorem natToStr_head (n : Nat) : n = 0 ∨ ∃ b r, natToStr n = b :: r ∧ (0x31 ≤ b && b ≤ 0x39) = true := by
  induction n using Nat.strongRecOn with
  | _ n ih =>
    by_cases h : n < 10
    · have : ∀ n < 10, n = 0 ∨ (natToStr n).length = 1 ∧ (match natToStr n with
        | b :: _ => (0x31 ≤ b && b ≤ 0x39)
        | [] => false) = true := by decide
      rcases this n h with h | ⟨_, h⟩
      · exact .inl h
      · right
        split at h
        · rename_i b r hb; exact ⟨b, r, hb, h⟩
        · cases h
    · right
      have h10 : 10 ≤ n := by omega
      have e : natToStr n = natToStr (n / 10) ++ [UInt8.ofNat (n % 10).digitChar.toNat] := by
        simp only [natToStr, Nat.toDigits_of_base_le (by omega) h10, List.map_append, List.map_cons, List.map_nil]
      rcases ih (n / 10) (by omega) with h0 | ⟨b, r, hb, hd⟩
      · omega
      · exact ⟨b, r ++ [_], by rw [e, hb]; rfl, hd⟩

/-! ## White space -/

theorem skip_blanks (n : Nat) (t : Str) : skip (List.replicate n c!" " ++ t) = skip t := by
  induction n with
  | zero => rfl
  | succ n ih =>
    rw [List.replicate_succ, List.cons_append, skip]
    simp only [isWs, decide_true, Bool.true_or, if_true, ih]

theorem skip_line (n : Nat) (t : Str) : skip (line n ++ t) = skip t := by
  unfold line
  rw [List.cons_append, skip]
  simp only [isWs, decide_true, Bool.true_or, Bool.or_true, if_true, skip_blanks]

theorem skip_none {b : UInt8} {t : Str} (h : isWs b = false) : skip (b :: t) = b :: t := by
  simp [skip, h]

theorem readValue_skip (fuel : Nat) {s t : Str} (h : skip s = skip t) : readValue fuel s = readValue fuel t := by
  cases fuel with
  | zero => simp [readValue]
  | succ => simp only [readValue, h]

/-! ## Values -/

mutual
/-- How many steps the reader needs. -/
def steps : Json → Nat
  | .num _ => 1
  | .str _ => 1
  | .arr xs => 1 + stepsE xs
  | .obj xs => 1 + stepsM xs
/-- The same for elements. -/
def stepsE : List Json → Nat
  | [] => 0
  | x :: xs => 1 + steps x + stepsE xs
/-- The same for members. -/
def stepsM : List (Str × Json) → Nat
  | [] => 0
  | (_, x) :: xs => 1 + steps x + stepsM xs
end

theorem clean_line (n : Nat) (t : Str) : Clean (line n ++ t) := by
  intro b r h
  simp only [line, List.cons_append, List.cons.injEq] at h
  rw [← h.1]; decide

theorem clean_elems (n m : Nat) (xs : List Json) (t : Str) : Clean (prettyElems n xs ++ (line m ++ t)) := by
  cases xs with
  | nil => exact clean_line m t
  | cons x xs =>
    intro b r h
    simp only [prettyElems, List.cons_append, List.nil_append, List.cons.injEq] at h
    rw [← h.1]; decide

theorem clean_members (n m : Nat) (xs : List (Str × Json)) (t : Str) : Clean (prettyMembers n xs ++ (line m ++ t)) := by
  cases xs with
  | nil => exact clean_line m t
  | cons x xs =>
    intro b r h
    simp only [prettyMembers, List.cons_append, List.nil_append, List.cons.injEq] at h
    rw [← h.1]; decide

theorem readKey_quoted (k t : Str) : readKey (quoted k ++ (b!": " ++ t)) = some (k, c!" " :: t) := by
  unfold readKey
  simp only [quoted, List.cons_append, List.nil_append, List.append_assoc]
  rw [skip_none (by decide)]
  simp only [if_true, readStr_quoted]
  rw [skip_none (by decide)]
  simp

/-- The first byte is not white space, and is no closing bracket. -/
theorem pretty_head (n : Nat) (j : Json) : ∃ b r, pretty n j = b :: r ∧ isWs b = false ∧ b ≠ c!"]" := by
  cases j with
  | num k =>
    rcases natToStr_head k with rfl | ⟨b, r, h1, h2⟩
    · exact ⟨c!"0", [], by simp only [pretty]; decide, by decide, by decide⟩
    · exact ⟨b, r, by rw [pretty, h1], (digit_facts b h2).1, (digit_facts b h2).2.2.2.2.2⟩
  | str s => exact ⟨c!"\"", _, by simp only [pretty, quoted, List.cons_append, List.nil_append]; rfl, by decide, by decide⟩
  | arr xs => cases xs <;> exact ⟨c!"[", _, by simp only [pretty, List.cons_append, List.nil_append]; rfl, by decide, by decide⟩
  | obj xs => cases xs <;> exact ⟨c!"{", _, by simp only [pretty, List.cons_append, List.nil_append]; rfl, by decide, by decide⟩

mutual
/-- A value is read as it was. -/
theorem read_value : ∀ (j : Json) (n fuel : Nat) (rest : Str), steps j ≤ fuel → Clean rest →
    readValue fuel (pretty n j ++ rest) = some (j, rest)
  | .num k, n, 0, rest, hf, hr => by simp [steps] at hf
  | .num k, n, f + 1, rest, hf, hr => by
    simp only [pretty]
    rcases natToStr_head k with rfl | ⟨b, r, h1, h2⟩
    · have : natToStr 0 = [c!"0"] := by decide
      rw [this]
      simp only [readValue, List.cons_append, List.nil_append]
      rw [skip_none (by decide)]
      simp
    · have hd := readDigits_nat k rest hr
      rw [h1] at hd ⊢
      obtain ⟨g1, g2, g3, g4, g5, _⟩ := digit_facts b h2
      simp only [readValue, List.cons_append]
      rw [skip_none g1]
      simp only [List.cons_append] at hd
      simp only [g2, g3, g4, g5, if_false, h2, if_true, hd]
  | .str s, n, 0, rest, hf, hr => by simp [steps] at hf
  | .str s, n, f + 1, rest, hf, hr => by
    simp only [pretty, quoted, readValue, List.cons_append, List.nil_append, List.append_assoc]
    rw [skip_none (by decide)]
    simp only [if_true, readStr_quoted, Option.map_some]
  | .arr [], n, 0, rest, hf, hr => by simp [steps] at hf
  | .arr [], n, f + 1, rest, hf, hr => by
    simp only [pretty, readValue, List.cons_append, List.nil_append]
    rw [skip_none (by decide)]
    simp only [show (91 : UInt8) ≠ 34 by decide, if_false, if_true]
    rw [skip_none (by decide)]
    simp
  | .arr (x :: xs), n, 0, rest, hf, hr => by simp [steps] at hf
  | .arr (x :: xs), n, f + 1, rest, hf, hr => by
    simp only [steps] at hf
    have := read_elems x xs (n + 1) n f rest (by omega)
    simp only [pretty, readValue, List.cons_append, List.nil_append, List.append_assoc]
    rw [skip_none (by decide)]
    simp only [show (91 : UInt8) ≠ 34 by decide, if_false, if_true]
    rw [skip_line]
    obtain ⟨b, r, h1, h2, h3⟩ := pretty_head (n + 1) x
    rw [h1] at this ⊢
    simp only [List.cons_append] at this ⊢
    rw [skip_none h2]
    simp only [h3, if_false]
    rw [this]; rfl
  | .obj [], n, 0, rest, hf, hr => by simp [steps] at hf
  | .obj [], n, f + 1, rest, hf, hr => by
    simp only [pretty, readValue, List.cons_append, List.nil_append]
    rw [skip_none (by decide)]
    simp only [show (123 : UInt8) ≠ 34 by decide, show (123 : UInt8) ≠ 91 by decide, if_false, if_true]
    rw [skip_none (by decide)]
    simp
  | .obj ((k, x) :: xs), n, 0, rest, hf, hr => by simp [steps] at hf
  | .obj ((k, x) :: xs), n, f + 1, rest, hf, hr => by
    simp only [steps] at hf
    have := read_members k x xs (n + 1) n f rest (by omega)
    simp only [pretty, readValue, List.cons_append, List.nil_append, List.append_assoc]
    rw [skip_none (by decide)]
    simp only [show (123 : UInt8) ≠ 34 by decide, show (123 : UInt8) ≠ 91 by decide, if_false, if_true]
    rw [skip_line]
    simp only [quoted, List.cons_append, List.nil_append, List.append_assoc] at this ⊢
    rw [skip_none (by decide)]
    simp only [show (34 : UInt8) ≠ 125 by decide, if_false]
    rw [this]; rfl
termination_by structural _ _ fuel => fuel
/-- Elements are read as they were. -/
theorem read_elems : ∀ (x : Json) (xs : List Json) (n m fuel : Nat) (rest : Str), stepsE (x :: xs) ≤ fuel →
    readElems fuel (pretty n x ++ (prettyElems n xs ++ (line m ++ c!"]" :: rest))) = some (x :: xs, rest)
  | x, xs, n, m, 0, rest, hf => by simp [stepsE] at hf
  | x, [], n, m, f + 1, rest, hf => by
    simp only [stepsE] at hf
    have := read_value x n f (prettyElems n [] ++ (line m ++ c!"]" :: rest)) (by omega) (clean_elems n m [] _)
    rw [readElems, this]
    simp only [prettyElems, List.nil_append, skip_line]
    rw [skip_none (by decide)]
    simp
  | x, y :: ys, n, m, f + 1, rest, hf => by
    simp only [stepsE] at hf
    have := read_value x n f (prettyElems n (y :: ys) ++ (line m ++ c!"]" :: rest)) (by omega) (clean_elems n m _ _)
    have h2 := read_elems y ys n m f rest (by simp only [stepsE]; omega)
    rw [readElems, this]
    simp only [prettyElems, List.nil_append, List.cons_append, List.append_assoc]
    rw [skip_none (by decide)]
    simp only [show (44 : UInt8) ≠ 93 by decide, if_false, if_true]
    have h3 : ∀ f s, readElems f (line n ++ s) = readElems f s := by
      intro f s
      cases f with
      | zero => simp [readElems]
      | succ f => simp only [readElems, readValue_skip f (skip_line n s)]
    rw [h3, h2]; rfl
termination_by structural _ _ _ _ fuel => fuel
/-- Members are read as they were. -/
theorem read_members : ∀ (k : Str) (x : Json) (xs : List (Str × Json)) (n m fuel : Nat) (rest : Str),
    stepsM ((k, x) :: xs) ≤ fuel →
    readMembers fuel (quoted k ++ (b!": " ++ (pretty n x ++ (prettyMembers n xs ++ (line m ++ c!"}" :: rest)))))
      = some ((k, x) :: xs, rest)
  | k, x, xs, n, m, 0, rest, hf => by simp [stepsM] at hf
  | k, x, [], n, m, f + 1, rest, hf => by
    simp only [stepsM] at hf
    have := read_value x n f (prettyMembers n [] ++ (line m ++ c!"}" :: rest)) (by omega) (clean_members n m [] _)
    rw [readMembers, readKey_quoted]
    simp only []
    rw [readValue_skip f (t := pretty n x ++ (prettyMembers n [] ++ (line m ++ c!"}" :: rest))) (by simp [skip, isWs]), this]
    simp only [prettyMembers, List.nil_append, skip_line]
    rw [skip_none (by decide)]
    simp
  | k, x, (k', y) :: ys, n, m, f + 1, rest, hf => by
    simp only [stepsM] at hf
    have := read_value x n f (prettyMembers n ((k', y) :: ys) ++ (line m ++ c!"}" :: rest)) (by omega) (clean_members n m _ _)
    have h2 := read_members k' y ys n m f rest (by simp only [stepsM]; omega)
    rw [readMembers, readKey_quoted]
    simp only []
    rw [readValue_skip f (t := pretty n x ++ (prettyMembers n ((k', y) :: ys) ++ (line m ++ c!"}" :: rest)))
      (by simp [skip, isWs]), this]
    simp only [prettyMembers, List.nil_append, List.cons_append, List.append_assoc]
    rw [skip_none (by decide)]
    simp only [show (44 : UInt8) ≠ 125 by decide, if_false, if_true]
    have h3 : ∀ f s, readMembers f (line n ++ s) = readMembers f s := by
      intro f s
      cases f with
      | zero => simp [readMembers]
      | succ f => simp only [readMembers, readKey, skip_line]
    simp only [List.cons_append, List.nil_append] at h2
    rw [h3, h2]; rfl
termination_by structural _ _ _ _ _ fuel => fuel
end

mutual
theorem steps_le : ∀ (j : Json) (n : Nat), steps j ≤ (pretty n j).length
  | .num k, n => by
    have := natToStr_ne_nil k
    cases h : natToStr k with
    | nil => exact absurd h this
    | cons => simp [steps, pretty, h]
  | .str s, n => by simp [steps, pretty, quoted]
  | .arr [], n => by simp [steps, stepsE, pretty]
  | .arr (x :: xs), n => by
    have h1 := steps_le x (n + 1)
    have h2 := stepsE_le xs (n + 1)
    simp only [steps, stepsE, pretty, List.length_append, List.length_cons, List.length_nil]; omega
  | .obj [], n => by simp [steps, stepsM, pretty]
  | .obj ((k, x) :: xs), n => by
    have h1 := steps_le x (n + 1)
    have h2 := stepsM_le xs (n + 1)
    simp only [steps, stepsM, pretty, List.length_append, List.length_cons, List.length_nil]; omega
theorem stepsE_le : ∀ (xs : List Json) (n : Nat), stepsE xs ≤ (prettyElems n xs).length
  | [], n => by simp [stepsE]
  | x :: xs, n => by
    have h1 := steps_le x n
    have h2 := stepsE_le xs n
    simp only [stepsE, prettyElems, List.length_append, List.length_cons, List.length_nil]; omega
theorem stepsM_le : ∀ (xs : List (Str × Json)) (n : Nat), stepsM xs ≤ (prettyMembers n xs).length
  | [], n => by simp [stepsM]
  | (k, x) :: xs, n => by
    have h1 := steps_le x n
    have h2 := stepsM_le xs n
    simp only [stepsM, prettyMembers, List.length_append, List.length_cons, List.length_nil]; omega
end

/-- The text of a value is read as that value. -/
theorem read_pretty (j : Json) (n : Nat) : readText (pretty n j) = some j := by
  have := read_value j n ((pretty n j).length + 1) [] (Nat.le_succ_of_le (steps_le j n)) (by intro b r h; cases h)
  rw [List.append_nil] at this
  unfold readText
  simp only [this, bind, Option.bind, skip, if_true]

theorem pretty_inj {j j' : Json} {n : Nat} (h : pretty n j = pretty n j') : j = j' := by
  have := read_pretty j n
  rw [h, read_pretty] at this
  exact (Option.some.inj this).symm

end Adoc.Json
