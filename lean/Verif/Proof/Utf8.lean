import Verif.Model.Scanner
/-! # UTF-8: character boundaries of encoded text -/
namespace Adoc

/-- UTF-8 encoding of a list of characters (Lean's `String.utf8EncodeChar`). -/
def enc (cs : List Char) : Str := cs.flatMap String.utf8EncodeChar

theorem isCont_iff (b : UInt8) : isCont b = true ↔ 128 ≤ b.toNat ∧ b.toNat < 192 := by
  simp [isCont, UInt8.le_iff_toNat_le, UInt8.lt_iff_toNat_lt]

theorem isCont_false_iff (b : UInt8) : isCont b = false ↔ b.toNat < 128 ∨ 192 ≤ b.toNat := by
  rw [← Bool.not_eq_true, isCont_iff]; omega

/-- The bytes of one character: a first byte that is not a continuation byte, then continuation bytes; there are
none exactly for ASCII. -/
theorem char_bytes (c : Char) : ∃ b bs, String.utf8EncodeChar c = b :: bs ∧ isCont b = false
    ∧ (∀ x ∈ bs, isCont x = true) ∧ (b.toNat < 128 → bs = []) := by
  unfold String.utf8EncodeChar
  dsimp only
  have hv : c.val.toNat < 1114112 := by
    have : c.val.toNat.isValidChar := c.valid
    unfold Nat.isValidChar at this; omega
  generalize c.val.toNat = v at *
  repeat' split
  · refine ⟨_, _, rfl, ?_, by simp, by simp⟩
    rw [isCont_false_iff]; simp; omega
  · refine ⟨_, _, rfl, ?_, ?_, ?_⟩
    · rw [isCont_false_iff]; simp; omega
    · simp [isCont_iff]; omega
    · simp; omega
  · refine ⟨_, _, rfl, ?_, ?_, ?_⟩
    · rw [isCont_false_iff]; simp; omega
    · simp [isCont_iff]; omega
    · simp; omega
  · refine ⟨_, _, rfl, ?_, ?_, ?_⟩
    · rw [isCont_false_iff]; simp; omega
    · simp [isCont_iff]; omega
    · simp; omega

theorem enc_cons (c : Char) (cs : List Char) : enc (c :: cs) = String.utf8EncodeChar c ++ enc cs := rfl
theorem enc_append (a b : List Char) : enc (a ++ b) = enc a ++ enc b := by simp [enc]

/-- Character boundaries of an encoded text are the lengths of encoded prefixes. -/
theorem boundary_split (cs : List Char) (i : Nat) (h : isBoundary (enc cs) i = true) :
    ∃ a b, cs = a ++ b ∧ (enc a).length = i := by
  induction cs generalizing i with
  | nil =>
    refine ⟨[], [], rfl, ?_⟩
    unfold isBoundary at h
    split at h
    · simp_all [enc]
    · simpa [enc, eq_comm] using h
  | cons c cs ih =>
    obtain ⟨b, bs, hc, hb, hbs, _⟩ := char_bytes c
    rw [enc_cons, hc] at h
    by_cases hi : i = 0
    · exact ⟨[], c :: cs, rfl, by simp [enc, hi]⟩
    by_cases hlt : i < (b :: bs).length
    · exfalso
      unfold isBoundary at h
      rw [if_neg hi, List.getElem?_append_left hlt] at h
      obtain ⟨j, rfl⟩ : ∃ j, i = j + 1 := ⟨i - 1, by omega⟩
      simp only [List.length_cons, Nat.add_lt_add_iff_right] at hlt
      simp only [List.getElem?_cons_succ, List.getElem?_eq_getElem hlt] at h
      rw [hbs _ (List.getElem_mem hlt)] at h
      cases h
    · obtain ⟨j, rfl⟩ : ∃ j, i = (b :: bs).length + j := ⟨i - (b :: bs).length, by omega⟩
      have h' : isBoundary (enc cs) j = true := by
        unfold isBoundary at h ⊢
        rw [if_neg hi, List.getElem?_append_right (by omega), Nat.add_sub_cancel_left] at h
        split
        · rfl
        · cases hg : (enc cs)[j]? with
          | none => rw [hg] at h; simp at h ⊢; omega
          | some x => rw [hg] at h; exact h
      obtain ⟨a, b', rfl, hl⟩ := ih j h'
      exact ⟨c :: a, b', rfl, by rw [enc_cons, hc, List.length_append, hl]⟩

/-- The bytes between two boundaries encode a contiguous run of the characters. -/
theorem slice_chars (cs : List Char) (i j : Nat) (hij : i ≤ j) (hi : isBoundary (enc cs) i = true)
    (hj : isBoundary (enc cs) j = true) :
    ∃ a m b, cs = a ++ m ++ b ∧ (enc a).length = i ∧ ((enc cs).drop i).take (j - i) = enc m := by
  obtain ⟨a, b, rfl, rfl⟩ := boundary_split cs i hi
  have h2 : isBoundary (enc b) (j - (enc a).length) = true := by
    unfold isBoundary at hj ⊢
    rw [enc_append] at hj
    split
    · rfl
    · rw [if_neg (by omega), List.getElem?_append_right hij] at hj
      cases hg : (enc b)[j - (enc a).length]? with
      | none => rw [hg] at hj; simp at hj ⊢; omega
      | some x => rw [hg] at hj; exact hj
  obtain ⟨m, r, rfl, hm⟩ := boundary_split b _ h2
  refine ⟨a, m, r, by simp, rfl, ?_⟩
  rw [enc_append, List.drop_left, enc_append, ← hm, List.take_left]

/-- After an ASCII byte of valid UTF-8 there is a character boundary, and before it too. -/
theorem boundary_ascii (cs : List Char) (i : Nat) (b : UInt8) (h : (enc cs)[i]? = some b) (hb : b.toNat < 128) :
    isBoundary (enc cs) i = true ∧ isBoundary (enc cs) (i + 1) = true := by
  have hi : isBoundary (enc cs) i = true := by
    unfold isBoundary; split
    · rfl
    · rw [h]; simp [isCont_false_iff]; omega
  refine ⟨hi, ?_⟩
  obtain ⟨a, r, rfl, rfl⟩ := boundary_split cs i hi
  rw [enc_append, List.getElem?_append_right (Nat.le_refl _), Nat.sub_self] at h
  cases r with
  | nil => simp [enc] at h
  | cons c r =>
    obtain ⟨b', bs, hc, hb', hbs, hasc⟩ := char_bytes c
    rw [enc_cons, hc] at h
    simp at h; subst h
    have := hasc hb; subst this
    unfold isBoundary
    rw [if_neg (by omega), enc_append, List.getElem?_append_right (by omega), enc_cons, hc]
    simp only [Nat.add_sub_cancel_left]
    simp only [List.cons_append, List.nil_append, List.getElem?_cons_succ]
    cases r with
    | nil => simp [enc]
    | cons d r =>
      obtain ⟨x, xs, hd, hx, _, _⟩ := char_bytes d
      rw [enc_cons, hd]; simp [hx]

end Adoc
