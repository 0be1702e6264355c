import Verif.Proof.Strings
/-!
# C26: line range syntax

The specification is the type `RangeItem` with its printed form `text` and its meaning `denotes`.
-/
namespace Adoc.Props

/-- One entry of a line selection. -/
inductive RangeItem where
  /-- `n` -/
  | one (n : Nat)
  /-- `a..b` -/
  | upto (a b : Nat)
  /-- `a..-1` -/
  | marked (a : Nat)
  /-- `a..` -/
  | openEnd (a : Nat)

namespace RangeItem

/-- How an entry is written. -/
def text : RangeItem → Str
  | one n => natToStr n
  | upto a b => natToStr a ++ b!".." ++ natToStr b
  | marked a => natToStr a ++ b!"..-1"
  | openEnd a => natToStr a ++ b!".."

/-- The numbers an entry stands for; `-1` marks an open end. -/
def denotes : RangeItem → List Int
  | one n => [(n : Int)]
  | upto a b => (List.range' a (b + 1 - a)).map Int.ofNat
  | marked a => [(a : Int), -1]
  | openEnd a => [(a : Int), -1]

/-- The numbers are line numbers that the code can represent. -/
def Fits : RangeItem → Prop
  | one n => n ≤ 2147483647
  | upto a b => a ≤ 2147483647 ∧ b < 2147483647
  | marked a => a ≤ 2147483647
  | openEnd a => a ≤ 2147483647

/-- `a..` -/
def isOpen : RangeItem → Bool
  | openEnd _ => true
  | _ => false

end RangeItem

/-- A selection: entries with separators. -/
def rangeText (first : RangeItem) : List (UInt8 × RangeItem) → Str
  | [] => first.text
  | (sep, next) :: rest => first.text ++ sep :: rangeText next rest

/-- The entries of a selection. -/
def rangeItems (first : RangeItem) (rest : List (UInt8 × RangeItem)) : List RangeItem := first :: rest.map (·.2)

/-- `denotes` of an `a..b` entry is what one expects: exactly the numbers between the bounds. -/
theorem mem_denotes_upto (a b : Nat) (k : Int) :
    k ∈ (RangeItem.upto a b).denotes ↔ (a : Int) ≤ k ∧ k ≤ (b : Int) := by
  simp only [RangeItem.denotes, List.mem_map, List.mem_range'_1]
  constructor
  · rintro ⟨n, hn, rfl⟩; simp only [Int.ofNat_eq_natCast]; omega
  · intro h; exact ⟨k.toNat, by omega, by simp only [Int.ofNat_eq_natCast]; omega⟩

private def Plain (p : Str) : Prop := c!"," ∉ p ∧ c!";" ∉ p

private theorem pieces_plain (p : Str) (h : Plain p) : rangePieces p = [p] := by
  induction p with
  | nil => rfl
  | cons b bs ih =>
    simp only [Plain, List.mem_cons, not_or] at h
    have := ih ⟨h.1.2, h.2.2⟩
    simp [rangePieces, Ne.symm h.1.1, Ne.symm h.2.1, this]

private theorem pieces_sep (p : Str) (c : UInt8) (hc : c = c!"," ∨ c = c!";") (s : Str) (h : Plain p) :
    rangePieces (p ++ c :: s) = p :: rangePieces s := by
  induction p with
  | nil => simp [rangePieces, hc]
  | cons b bs ih =>
    simp only [Plain, List.mem_cons, not_or] at h
    have := ih ⟨h.1.2, h.2.2⟩
    simp [rangePieces, Ne.symm h.1.1, Ne.symm h.2.1, this]

private theorem not_mem_num (n : Nat) (b : UInt8) (h : isDigit b = false) : b ∉ natToStr n := by
  intro hm
  rw [natToStr_digits n b hm] at h
  cases h

private theorem text_plain (i : RangeItem) : Plain i.text := by
  have h1 : ∀ n, (44 : UInt8) ∉ natToStr n := fun n => not_mem_num n _ (by decide)
  have h2 : ∀ n, (59 : UInt8) ∉ natToStr n := fun n => not_mem_num n _ (by decide)
  cases i <;> simp [RangeItem.text, Plain, h1, h2]

private theorem splitDotsF_run (d rest : Str) (h : c!"." ∉ d) (n : Nat) (cur : Str) :
    splitDotsF (d.length + n) cur (d ++ rest) = splitDotsF n (d.reverse ++ cur) rest := by
  induction d generalizing cur with
  | nil => simp
  | cons b bs ih =>
    simp only [List.mem_cons, not_or] at h
    rw [show (b :: bs).length + n = (bs.length + n) + 1 by simp; omega]
    simp only [List.cons_append, splitDotsF, Ne.symm h.1, if_false]
    rw [ih h.2]; simp

private theorem splitDots_one (d : Str) (h : c!"." ∉ d) : splitDots d = [d] := by
  have := splitDotsF_run d [] h 1 []
  simp only [List.append_nil] at this
  rw [splitDots, this]; simp [splitDotsF]

private theorem splitDots_two (d e : Str) (h : c!"." ∉ d) (h' : c!"." ∉ e) : splitDots (d ++ b!".." ++ e) = [d, e] := by
  have e1 : (d ++ b!".." ++ e).length + 1 = d.length + ((e.length + 2) + 1) := by simp; omega
  rw [splitDots, e1, List.append_assoc, splitDotsF_run d _ h]
  simp only [List.append_nil, List.cons_append, List.nil_append, splitDotsF, if_true, List.reverse_reverse]
  congr 1
  have := splitDotsF_run e [] h' 2 []
  simp only [List.append_nil] at this
  rw [this]; simp [splitDotsF]

private theorem intRange_eq (a b : Nat) :
    intRange (a : Int) ((b : Int) + 1) = (List.range' a (b + 1 - a)).map Int.ofNat := by
  unfold intRange
  rw [show ((b : Int) + 1 - (a : Int)).toNat = b + 1 - a by omega, List.range'_eq_map_range, List.map_map]
  apply List.map_congr_left
  intro x _; simp

private theorem piece_text (i : RangeItem) (last : Bool) (hf : i.Fits) (hl : i.isOpen = true → last = true) :
    rangePiece i.text last = .ok i.denotes := by
  have hdot : ∀ n, (46 : UInt8) ∉ natToStr n := fun n => not_mem_num n _ (by decide)
  cases i with
  | one n =>
    unfold RangeItem.text rangePiece
    rw [splitDots_one _ (hdot n)]
    simp only
    rw [parseSigned_natToStr i32Max n hf]; rfl
  | upto a b =>
    unfold RangeItem.text rangePiece
    rw [splitDots_two _ _ (hdot a) (hdot b)]
    have hb : b ≤ i32Max := by have := hf.2; unfold i32Max; omega
    simp only
    rw [parseSigned_natToStr i32Max a hf.1, parseSigned_natToStr i32Max b hb]
    have h1 : ((b : Int) = -1) = False := by simp
    have h2 : ((b : Int) = ((i32Max : Nat) : Int)) = False := by have := hf.2; simp [i32Max]; omega
    simp only [h1, h2, if_false, Option.getD_some, intRange_eq, RangeItem.denotes]
  | marked a =>
    have := splitDots_two (natToStr a) b!"-1" (hdot a) (by decide)
    have e : (RangeItem.marked a).text = natToStr a ++ b!".." ++ b!"-1" := by simp [RangeItem.text]
    unfold rangePiece
    rw [e, this]
    simp only
    rw [parseSigned_natToStr i32Max a hf]
    rfl
  | openEnd a =>
    unfold RangeItem.text rangePiece
    have := splitDots_two (natToStr a) [] (hdot a) (by simp)
    rw [List.append_nil] at this
    rw [this]
    simp only
    rw [parseSigned_natToStr i32Max a hf, hl rfl]
    rfl

/-- **C26, partial.** A selection written with commas or semicolons denotes the numbers of its entries, in order. The form
`a..` is understood as an open end in the last position only. -/
theorem C26_ranges_partial (first : RangeItem) (rest : List (UInt8 × RangeItem))
    (hsep : ∀ x ∈ rest, x.1 = c!"," ∨ x.1 = c!";")
    (hfit : ∀ i ∈ rangeItems first rest, i.Fits)
    (hopen : ∀ i ∈ (rangeItems first rest).dropLast, i.isOpen = false) :
    pageRanges (rangeText first rest) = .ok ((rangeItems first rest).flatMap RangeItem.denotes) := by
  induction rest generalizing first with
  | nil =>
    unfold pageRanges rangeText
    rw [pieces_plain _ (text_plain first)]
    simp only [rangesOf, List.isEmpty_nil, piece_text first true (hfit _ (by simp [rangeItems])) (by simp), rangeItems]
    simp [bind, Except.bind, pure, Except.pure]
  | cons x rest ih =>
    obtain ⟨sep, next⟩ := x
    have ih' := ih next (fun y hy => hsep y (by simp [hy])) (fun i hi => hfit i (by simp [rangeItems] at hi ⊢; right; exact hi))
      (fun i hi => hopen i (by
        simp only [rangeItems, List.map_cons] at hi ⊢
        rw [List.dropLast_cons_of_ne_nil (by simp)]
        exact List.mem_cons_of_mem _ hi))
    have hno : first.isOpen = false := hopen first (by
      simp only [rangeItems, List.map_cons]
      rw [List.dropLast_cons_of_ne_nil (by simp)]; simp)
    unfold pageRanges at ih' ⊢
    unfold rangeText
    rw [pieces_sep _ sep (hsep (sep, next) (by simp)) _ (text_plain first), rangesOf,
      piece_text first _ (hfit _ (by simp [rangeItems])) (by simp [hno]), ih']
    simp [bind, Except.bind, pure, Except.pure, rangeItems]

/-- Non-vacuity: `1..3,7;9..` -/
example : pageRanges b!"1..3,7;9.." = .ok [1, 2, 3, 7, 9, -1] := by
  have h := C26_ranges_partial (.upto 1 3) [(c!",", .one 7), (c!";", .openEnd 9)] (by decide)
    (by simp [rangeItems, RangeItem.Fits]) (by simp [rangeItems, RangeItem.isOpen])
  exact h

/-- An open end that is not the last entry is dropped without a trace. -/
theorem C26_open_not_last (a n : Nat) (hn : n ≤ 2147483647) :
    pageRanges (rangeText (.openEnd a) [(c!",", .one n)]) = .ok [(n : Int)] := by
  unfold pageRanges rangeText
  rw [pieces_sep _ _ (by simp) _ (text_plain _), rangeText, pieces_plain _ (text_plain _)]
  have hdot : ∀ n, (46 : UInt8) ∉ natToStr n := fun n => not_mem_num n _ (by decide)
  have h1 := splitDots_two (natToStr a) [] (hdot a) (by simp)
  rw [List.append_nil] at h1
  simp only [rangesOf, List.isEmpty_nil, piece_text (.one n) true hn (by simp)]
  unfold rangePiece RangeItem.text
  rw [h1]
  simp [parseSigned, bind, Except.bind, pure, Except.pure, RangeItem.denotes]

/-- The largest 32-bit number as upper bound overflows. -/
theorem C26_overflow : pageRanges b!"1..2147483647" = .error (.panic .overflow) := rfl

private theorem splitDotsF_single (d : Str) (n : Nat) (cur : Str) (h : ¬b!".." <:+: d) (hn : d.length < n) :
    splitDotsF n cur d = [cur.reverse ++ d] := by
  induction d generalizing n cur with
  | nil => cases n <;> simp [splitDotsF]
  | cons b bs ih =>
    obtain ⟨n, rfl⟩ : ∃ m, n = m + 1 := ⟨n - 1, by simp at hn; omega⟩
    have h' : ¬b!".." <:+: bs := fun hc => h (hc.trans (List.suffix_cons b bs).isInfix)
    have := ih n (b :: cur) h' (by simp at hn; omega)
    simp only [List.reverse_cons, List.append_assoc, List.singleton_append] at this
    unfold splitDotsF
    by_cases hb : b = c!"."
    · cases bs with
      | nil => simpa [hb] using this
      | cons c cs =>
        by_cases hc : c = c!"."
        · exact absurd ⟨[], cs, by simp [hb, hc]⟩ h
        · simpa [hb, hc] using this
    · simpa [hb] using this

/-- An entry without two dots in a row that is not a number stands for line 0, which no text has. -/
theorem C26_unreadable (p : Str) (hp : c!"," ∉ p ∧ c!";" ∉ p) (hd : ¬b!".." <:+: p) (hn : parseSigned 2147483647 p = none) :
    pageRanges p = .ok [0] := by
  unfold pageRanges
  rw [pieces_plain p hp]
  have : splitDots p = [p] := by
    have := splitDotsF_single p (p.length + 1) [] hd (by omega)
    simpa [splitDots] using this
  have hn' : parseSigned i32Max p = none := hn
  simp [rangesOf, rangePiece, this, hn', bind, Except.bind, pure, Except.pure]

/-- A dot after the number. -/
example : pageRanges b!"3." = .ok [0] := C26_unreadable _ (by decide) (by decide) (by decide +kernel)

end Adoc.Props
