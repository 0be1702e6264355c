import Verif.Spec.Plain
import Verif.Model.Metadata
/-! # Lemmas about byte strings: splitting, decimal numbers, maps, slices -/
namespace Adoc

theorem splitOnB_ne_nil (c : UInt8) (s : Str) : splitOnB c s ≠ [] := by
  fun_induction splitOnB c s <;> simp_all

theorem splitOnB_plain (c : UInt8) (p : Str) (h : c ∉ p) : splitOnB c p = [p] := by
  induction p with
  | nil => rfl
  | cons b bs ih =>
    simp only [List.mem_cons, not_or] at h
    simp [splitOnB, Ne.symm h.1, ih h.2]

theorem splitOnB_sep (c : UInt8) (p s : Str) (h : c ∉ p) : splitOnB c (p ++ c :: s) = p :: splitOnB c s := by
  induction p with
  | nil => simp [splitOnB]
  | cons b bs ih =>
    simp only [List.mem_cons, not_or] at h
    simp [splitOnB, Ne.symm h.1, ih h.2]

theorem splitOnB_join (c : UInt8) (ps : List Str) (hne : ps ≠ []) (h : ∀ p ∈ ps, c ∉ p) :
    splitOnB c (joinB c ps) = ps := by
  match ps, hne with
  | [p], _ => exact splitOnB_plain c p (h p (by simp))
  | p :: q :: r, _ =>
    rw [joinB, splitOnB_sep c p _ (h p (by simp)),
      splitOnB_join c (q :: r) (by simp) (fun x hx => h x (by simp_all))]

theorem joinB_splitOnB (c : UInt8) (s : Str) : joinB c (splitOnB c s) = s := by
  induction s with
  | nil => rfl
  | cons b bs ih =>
    simp only [splitOnB]
    have hne := splitOnB_ne_nil c bs
    by_cases hb : b = c
    · rw [if_pos hb]
      match h : splitOnB c bs, hne with
      | p :: ps, _ => rw [joinB, ← h, ih, hb]; rfl
    · rw [if_neg hb]
      match h : splitOnB c bs, hne with
      | p :: ps, _ =>
        rw [h] at ih
        match ps with
        | [] => simp [joinB] at ih ⊢; exact ih
        | q :: r => simp only [joinB, List.cons_append] at ih ⊢; rw [ih]

/-! ## Decimal numbers -/

theorem isDigit_of_char (c : Char) (h : c.isDigit = true) : isDigit (UInt8.ofNat c.toNat) = true ∧
    (UInt8.ofNat c.toNat).toNat = c.toNat := by
  have hh : 48 ≤ c.toNat ∧ c.toNat ≤ 57 := by
    simp [Char.isDigit, UInt32.le_iff_toNat_le] at h
    exact h
  have e : (UInt8.ofNat c.toNat).toNat = c.toNat := by simp [UInt8.toNat_ofNat']; omega
  refine ⟨?_, e⟩
  simp only [isDigit, Bool.and_eq_true, decide_eq_true_eq, UInt8.le_iff_toNat_le, e]
  exact hh

theorem natToStr_digits (n : Nat) : ∀ b ∈ natToStr n, isDigit b = true := by
  intro b hb
  simp only [natToStr, List.mem_map] at hb
  obtain ⟨c, hc, rfl⟩ := hb
  exact (isDigit_of_char c (Nat.isDigit_of_mem_toDigits (by omega) (by omega) hc)).1

theorem natToStr_ne_nil (n : Nat) : natToStr n ≠ [] := by
  simp [natToStr]

theorem foldl_digits (cs : List Char) (h : ∀ c ∈ cs, c.isDigit = true) (a : Nat) :
    (cs.map fun c => UInt8.ofNat c.toNat).foldl (fun acc b => acc.bind fun n =>
      if isDigit b then some (n * 10 + (b.toNat - 48)) else none) (some a)
      = some (Nat.ofDigitChars 10 cs a) := by
  induction cs generalizing a with
  | nil => simp
  | cons c cs ih =>
    have hd := isDigit_of_char c (h c (by simp))
    simp only [List.map_cons, List.foldl_cons, Option.bind_some, hd.1, if_true, hd.2]
    rw [ih (fun x hx => h x (by simp [hx]))]
    simp [Nat.ofDigitChars_cons, Nat.mul_comm]

/-- Reading back a printed number. -/
theorem parseDigits_natToStr (n : Nat) : parseDigits (natToStr n) = some n := by
  have h := foldl_digits (Nat.toDigits 10 n)
    (fun c hc => Nat.isDigit_of_mem_toDigits (by omega) (by omega) hc) 0
  rw [Nat.ofDigitChars_ten_toDigits] at h
  rw [← h]
  have hne := natToStr_ne_nil n
  unfold natToStr at hne ⊢
  unfold parseDigits
  split
  · contradiction
  · rfl

theorem natToStr_inj {a b : Nat} (h : natToStr a = natToStr b) : a = b := by
  have := parseDigits_natToStr a
  rw [h, parseDigits_natToStr] at this
  exact (Option.some.inj this).symm

theorem parseSigned_natToStr (max n : Nat) (h : n ≤ max) : parseSigned max (natToStr n) = some (n : Int) := by
  have hp := parseDigits_natToStr n
  have hd := natToStr_digits n
  match e : natToStr n, natToStr_ne_nil n with
  | b :: rest, _ =>
    rw [e] at hp hd
    have hb := hd b (by simp)
    have h1 : b ≠ 45 := by rintro rfl; revert hb; decide
    have h2 : b ≠ 43 := by rintro rfl; revert hb; decide
    simp [parseSigned, h1, h2, hp, h]

theorem parseUnsigned_natToStr (max n : Nat) (h : n ≤ max) : parseUnsigned max (natToStr n) = some n := by
  have hp := parseDigits_natToStr n
  have hd := natToStr_digits n
  match e : natToStr n, natToStr_ne_nil n with
  | b :: rest, _ =>
    rw [e] at hp hd
    have hb := hd b (by simp)
    have h2 : b ≠ 43 := by rintro rfl; revert hb; decide
    simp [parseUnsigned, h2, hp, h]

/-! ## Maps -/

namespace SMap
variable {V : Type}

theorem get?_insert (m : SMap V) (k k' : Str) (v : V) :
    (m.insert k v).get? k' = if k = k' then some v else m.get? k' := by
  induction m with
  | nil => simp [insert, get?]
  | cons e m ih =>
    obtain ⟨a, b⟩ := e
    simp only [insert]
    by_cases h : a = k
    · simp only [h, if_true, get?]
      by_cases h' : k = k' <;> simp [h']
    · simp only [h, if_false, get?]
      rw [ih]
      by_cases h1 : a = k'
      · have : k ≠ k' := fun e => h (h1.trans e.symm)
        simp [h1, this]
      · simp [h1]

/-- The last entry for a key. -/
def last? (m : SMap V) (k : Str) : Option V :=
  m.foldl (fun acc kv => if kv.1 = k then some kv.2 else acc) none

theorem foldl_last (m : SMap V) (k : Str) (a : Option V) :
    m.foldl (fun acc kv => if kv.1 = k then some kv.2 else acc) a = (last? m k).or a := by
  induction m generalizing a with
  | nil => simp [last?]
  | cons e m ih =>
    simp only [last?, List.foldl_cons]
    rw [ih, ih (if e.1 = k then some e.2 else none)]
    by_cases h : e.1 = k
    · simp only [h, if_true]; cases last? m k <;> rfl
    · simp [h]

theorem get?_extend (m o : SMap V) (k : Str) : (m.extend o).get? k = (o.last? k).or (m.get? k) := by
  unfold extend
  induction o generalizing m with
  | nil => simp [last?]
  | cons e o ih =>
    rw [List.foldl_cons, ih, get?_insert]
    simp only [last?, List.foldl_cons]
    rw [foldl_last o k (if e.1 = k then some e.2 else none)]
    by_cases h : e.1 = k
    · simp only [h, if_true]; unfold last?; cases (List.foldl _ none o) <;> rfl
    · simp [h, last?]

/-- A map has at most one entry per key. -/
def Uniq (m : SMap V) : Prop := (m.map (·.1)).Nodup

theorem last?_none (m : SMap V) (k : Str) (h : k ∉ m.map (·.1)) : m.last? k = none := by
  induction m with
  | nil => rfl
  | cons e m ih =>
    simp only [List.map_cons, List.mem_cons, not_or] at h
    simp only [last?, List.foldl_cons, if_neg (Ne.symm h.1)]
    exact ih h.2

theorem last?_eq_get? (m : SMap V) (h : m.Uniq) (k : Str) : m.last? k = m.get? k := by
  induction m with
  | nil => rfl
  | cons e m ih =>
    have h' : e.1 ∉ m.map (·.1) ∧ Uniq m := by simpa [Uniq] using h
    simp only [last?, List.foldl_cons, get?]
    rw [foldl_last]
    by_cases hk : e.1 = k
    · rw [last?_none m k (hk ▸ h'.1)]; simp [hk]
    · simp [hk]; rw [ih h'.2]

theorem keys_insert (m : SMap V) (k : Str) (v : V) :
    (m.insert k v).map (·.1) = if k ∈ m.map (·.1) then m.map (·.1) else m.map (·.1) ++ [k] := by
  induction m with
  | nil => simp [insert]
  | cons e m ih =>
    simp only [insert]
    by_cases h : e.1 = k
    · simp [h]
    · simp only [h, if_false, List.map_cons, ih, List.mem_cons, Ne.symm h, false_or]
      split <;> simp

theorem Uniq.insert {m : SMap V} (h : m.Uniq) (k : Str) (v : V) : (m.insert k v).Uniq := by
  unfold Uniq
  rw [keys_insert]
  split
  · exact h
  · rename_i hk
    rw [List.nodup_append]
    refine ⟨h, by simp, ?_⟩
    intro a ha b hb
    simp only [List.mem_singleton] at hb
    rintro rfl
    exact hk (hb ▸ ha)

theorem Uniq.extend {m : SMap V} (h : m.Uniq) (o : SMap V) : (m.extend o).Uniq := by
  unfold SMap.extend
  induction o generalizing m with
  | nil => exact h
  | cons e o ih => exact ih (h.insert _ _)

end SMap

/-! ## Slices -/

/-- A string that can start at a character boundary: it does not begin with a continuation byte. Every Rust string
has this property. -/
def Starts (s : Str) : Prop := ∀ b ∈ s.head?, isCont b = false

theorem isBoundary_append (a b : Str) (h : Starts b) : isBoundary (a ++ b) a.length = true := by
  unfold isBoundary
  by_cases ha : a.length = 0
  · simp [ha]
  · rw [if_neg ha]
    match b with
    | [] => simp
    | x :: xs => simp; exact h x (by simp)

/-- Cutting out the middle of three strings. -/
theorem sliceM_mid (a b c : Str) (hb : Starts (b ++ c)) (hc : Starts c) (i j : Nat) (hi : i = a.length)
    (hj : j = a.length + b.length) : sliceM (a ++ (b ++ c)) i j = .ok b := by
  subst hi hj
  have h1 := isBoundary_append a (b ++ c) hb
  have h2 := isBoundary_append (a ++ b) c hc
  rw [List.append_assoc, List.length_append] at h2
  unfold sliceM slice
  rw [if_pos ⟨by omega, by simp, h1, h2⟩]
  simp

theorem starts_append (a b : Str) (ha : Starts a) (hb : Starts b) : Starts (a ++ b) := by
  cases a with
  | nil => exact hb
  | cons x xs => exact ha

theorem starts_ascii (b : UInt8) (s : Str) (h : isCont b = false) : Starts (b :: s) := by
  intro x hx; simp at hx; exact hx ▸ h

end Adoc
