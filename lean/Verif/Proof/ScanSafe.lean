import Verif.Spec.Closed
import Verif.Proof.ScanTrace
import Verif.Proof.Utf8
/-! # Sources on which every scanning step returns -/
namespace Adoc.Scanner
open Spec

/-- A step that returned and left the scanner on a character boundary. -/
structure Good (s : Scanner) (r : Item × Scanner) : Prop where
  ret : r.1.returned = true
  src : r.2.src = s.src
  le : r.2.current ≤ s.src.length
  bnd : isBoundary s.src r.2.current = true
  exp : r.2.expectingTagEnd = s.expectingTagEnd
  err : ∀ e, r.1 = .err e → b!"======" <+: s.src.drop s.start
  tag : ∀ t, r.1 = .tok t → t.ty ≠ .startTag ∧ t.ty ≠ .endTag

theorem Good.ite {s : Scanner} {p : Prop} [Decidable p] {a b : Item × Scanner}
    (h1 : p → Good s a) (h2 : ¬p → Good s b) : Good s (if p then a else b) := by
  by_cases h : p
  · rw [if_pos h]; exact h1 h
  · rw [if_neg h]; exact h2 h

/-- A position that may end a token. -/
def End (s : Scanner) (e : Nat) : Prop := s.start < e ∧ e ≤ s.src.length ∧ isBoundary s.src e = true

theorem Good.add {s : Scanner} {e : Nat} (hb : isBoundary s.src s.start = true) (he : End s e) (ty : TokenType) (lit : Bool)
    (n : Nat) (hty : ty ≠ .startTag ∧ ty ≠ .endTag := by decide) : Good s (addToken (at_ s e) ty lit n) := by
  obtain ⟨h1, h2, h3⟩ := he
  have htag : ∀ t, (addToken (at_ s e) ty lit n).1 = .tok t → t.ty ≠ .startTag ∧ t.ty ≠ .endTag := fun t ht =>
    plain_ty_of_addToken (s' := (addToken (at_ s e) ty lit n).2) hty (Prod.ext ht rfl)
  revert htag
  unfold addToken
  have hs : slice (at_ s e).src (at_ s e).start (at_ s e).current = some ((s.src.drop s.start).take (e - s.start)) := by
    unfold slice
    rw [if_pos ⟨Nat.le_of_lt h1, h2, hb, h3⟩]
  rw [hs]
  dsimp only
  split
  · exact fun htag => ⟨rfl, rfl, h2, h3, rfl, by simp, htag⟩
  · exact fun htag => ⟨rfl, rfl, h2, h3, rfl, by simp, htag⟩

section
variable {s : Scanner}

theorem peekAt_src {src : Str} {i : Nat} {b : UInt8} (h : peekAt src i = b) (hb : b ≠ 0) :
    src[i]? = some b ∧ isBoundary src i = true := by
  unfold peekAt at h
  split at h
  · rename_i hi
    refine ⟨?_, hi⟩
    rw [List.getD_eq_getElem?_getD] at h
    cases hg : src[i]? with
    | none => rw [hg] at h; exact absurd h.symm hb
    | some x => rw [hg] at h; exact congrArg some h
  · exact absurd h.symm hb

/-- An ASCII byte in valid UTF-8 ends at a boundary inside the text. -/
theorem after_ascii {src : Str} (hu : ∃ cs, src = enc cs) {i : Nat} {b : UInt8} (h : src[i]? = some b) (hb : b.toNat < 128) :
    i + 1 ≤ src.length ∧ isBoundary src (i + 1) = true := by
  obtain ⟨cs, rfl⟩ := hu
  exact ⟨(List.getElem?_eq_some_iff.1 h).1, (boundary_ascii cs i b h hb).2⟩

theorem peeks_take {src : Str} {i n : Nat} {pat : Str} (h : peeksAheadAt src i n = pat) (hp : pat ≠ [0]) :
    (src.drop i).take n = pat ∧ i + n ≤ src.length := by
  unfold peeksAheadAt at h
  split at h
  · exact absurd h.symm hp
  · rename_i hc
    rw [not_or, not_or] at hc
    exact ⟨h, by omega⟩

theorem take_get {src : Str} {i n k : Nat} {pat : Str} {b : UInt8} (h : (src.drop i).take n = pat) (hk : pat[k]? = some b) :
    src[i + k]? = some b := by
  have hl : k < n := by
    have := (List.getElem?_eq_some_iff.1 hk).1
    rw [← h] at this; simp at this; omega
  rw [← h, List.getElem?_take_of_lt hl, List.getElem?_drop] at hk
  exact hk

/-- The end of `adv` is a boundary if the loop stops at ASCII bytes or the end only. -/
theorem adv_end {src : Str} {p : UInt8 → Bool} {i : Nat} (hi : i ≤ src.length) (hp : ∀ b, p b = false → b ≠ 0) :
    isBoundary src (adv src p i) = true := by
  have hle := adv_le src p i hi
  by_cases h : adv src p i < src.length
  · have h1 := adv_stop src p i h
    exact (peekAt_src rfl (hp _ h1)).2
  · have : adv src p i = src.length := by omega
    rw [this]; exact isBoundary_length _

/-- The end of `adv` is a boundary if the loop begins at one and passes ASCII bytes only. -/
theorem adv_end_ascii {src : Str} (hu : ∃ cs, src = enc cs) {p : UInt8 → Bool} {i : Nat} (hi : isBoundary src i = true)
    (hp : ∀ b, p b = true → b ≠ 0 ∧ b.toNat < 128) : isBoundary src (adv src p i) = true := by
  have hge := adv_ge src p i
  by_cases h : adv src p i = i
  · rw [h]; exact hi
  · obtain ⟨h1, h2⟩ := adv_all src p i (adv src p i - 1) (by omega) (by omega)
    obtain ⟨h3, h4⟩ := hp _ h2
    have := (after_ascii hu (peekAt_src rfl h3).1 h4).2
    rw [show adv src p i - 1 + 1 = adv src p i by omega] at this
    exact this

theorem adv_le_of {src : Str} {p : UInt8 → Bool} {i m : Nat} (hi : i ≤ m) (hm : p (peekAt src m) = false) :
    adv src p i ≤ m := by
  apply Decidable.byContradiction
  intro h
  have := (adv_all src p i m hi (by omega)).2
  rw [hm] at this; cases this

/-- The conditions used in every branch below. -/
structure Safe (s : Scanner) : Prop where
  utf8 : ∃ cs, s.src = enc cs
  bnd : isBoundary s.src s.start = true
  lt : s.start < s.src.length
  exp : s.expectingTagEnd = false
  safe : SafeAt (s.src.drop s.start)
  amp : s.src[s.start]? = some c!"&" → ∃ m b, s.start < m ∧ s.src[m]? = some b ∧ b.toNat < 128 ∧ isAlnum b = false
  brace : s.src[s.start]? = some c!"{" → ∃ m b, s.start < m ∧ s.src[m]? = some b ∧ b.toNat < 128 ∧ isAttrRefChar b = false
  colon : s.src[s.start]? = some c!":" → s.startsNewLine = true → ∃ m, s.start < m ∧ s.src[m]? = some 10

/-- Every position of a closed text is safe. -/
theorem Safe.of_closed (hu : ∃ cs, s.src = enc cs) (hb : isBoundary s.src s.start = true) (hl : s.start < s.src.length)
    (he : s.expectingTagEnd = false) (hc : WellClosed s.src) : Safe s := by
  have hnl : s.src[s.src.length - 1]? = some 10 := by
    have := hc.1; rwa [List.getLast?_eq_getElem?] at this
  have hlt : ∀ c, s.src[s.start]? = some c → c ≠ 10 → s.start < s.src.length - 1 := by
    intro c h1 h2
    apply Decidable.byContradiction
    intro h3
    rw [show s.src.length - 1 = s.start by omega, h1] at hnl
    exact h2 (Option.some.inj hnl)
  exact ⟨hu, hb, hl, he, hc.2 _ _ (List.take_append_drop s.start s.src).symm,
    fun h => ⟨_, _, hlt _ h (by decide), hnl, by decide, by decide⟩,
    fun h => ⟨_, _, hlt _ h (by decide), hnl, by decide, by decide⟩,
    fun h _ => ⟨_, hlt _ h (by decide), hnl⟩⟩

namespace Safe
variable (h : Safe s)
include h

theorem end_byte {i : Nat} {b : UInt8} (hs : s.start ≤ i) (hi : s.src[i]? = some b) (hb : b.toNat < 128) : End s (i + 1) := by
  obtain ⟨h1, h2⟩ := after_ascii h.utf8 hi hb
  exact ⟨by omega, h1, h2⟩

omit h in
/-- A loop from after the first byte stops at a byte that it does not pass. -/
theorem adv_lt {p : UInt8 → Bool} {m : Nat} {b : UInt8} (hm : s.start < m) (hb : s.src[m]? = some b) (ha : b.toNat < 128)
    (hp : p b = false) : adv s.src p (s.start + 1) < s.src.length := by
  have h0 := (List.getElem?_eq_some_iff.1 hb).1
  have h1 : peekAt s.src m = b := by
    unfold peekAt
    rw [List.getD_eq_getElem?_getD, hb, if_pos]
    · rfl
    · unfold isBoundary; split
      · rfl
      · rw [hb]
        have : isCont b = false := by rw [← Bool.not_eq_true, isCont_iff]; omega
        simp [this]
  have := adv_le_of (src := s.src) (p := p) (i := s.start + 1) (m := m) (by omega) (by rw [h1]; exact hp)
  omega

theorem text {k : Nat} (hk : End s k ∨ (s.start < k ∧ k ≤ s.src.length)) : Good s (addText (at_ s k)) := by
  have hk' : s.start < k ∧ k ≤ s.src.length := by
    rcases hk with hk | hk
    · exact ⟨hk.1, hk.2.1⟩
    · exact hk
  have h1 := adv_ge s.src (fun b => !isStop b) k
  have h2 := adv_le s.src (fun b => !isStop b) k hk'.2
  exact Good.add h.bnd ⟨by omega, h2, adv_end hk'.2 (by
    intro b hb hb0; subst hb0; revert hb; decide)⟩ _ _ _

theorem text1 : Good s (addText (at_ s (s.start + 1))) := h.text (.inr ⟨by omega, h.lt⟩)

theorem add0 {c : UInt8} (hc : s.src[s.start]? = some c) (ha : c.toNat < 128) (ty : TokenType) (lit : Bool) (n : Nat)
    (hty : ty ≠ .startTag ∧ ty ≠ .endTag := by decide) :
    Good s (addToken (at_ s (s.start + 1)) ty lit n) :=
  Good.add h.bnd (h.end_byte (Nat.le_refl _) hc ha) _ _ _ hty

/-- `k` more bytes, the last one ASCII. -/
theorem addk {k : Nat} {c : UInt8} (hc : s.src[s.start + k]? = some c) (ha : c.toNat < 128) (ty : TokenType) (lit : Bool) (n : Nat)
    (hty : ty ≠ .startTag ∧ ty ≠ .endTag := by decide) :
    Good s (addToken (at_ s (s.start + 1 + k)) ty lit n) := by
  rw [show s.start + 1 + k = s.start + k + 1 by omega]
  exact Good.add h.bnd (h.end_byte (Nat.le_add_right _ _) hc ha) _ _ _ hty

/-- One more byte, seen by `peek`. -/
theorem add_peek {c : UInt8} (hc : peek (at_ s (s.start + 1)) = c) (h0 : c ≠ 0) (ha : c.toNat < 128) (ty : TokenType)
    (lit : Bool) (n : Nat) (hty : ty ≠ .startTag ∧ ty ≠ .endTag := by decide) :
    Good s (addToken (at_ s (s.start + 1 + 1)) ty lit n) :=
  h.addk (peekAt_src hc h0).1 ha _ _ _ hty

/-- `k` more bytes, seen by `peeks_ahead`. -/
theorem add_peeks {k n : Nat} {pat : Str} {c : UInt8} (hp : peeksAhead (at_ s (s.start + 1)) n = pat) (h0 : pat ≠ [0])
    (hc : pat[k]? = some c) (ha : c.toNat < 128) (ty : TokenType) (lit : Bool) (m : Nat)
    (hty : ty ≠ .startTag ∧ ty ≠ .endTag := by decide) :
    Good s (addToken (at_ s (s.start + 1 + (k + 1))) ty lit m) := by
  have := take_get (peeks_take hp h0).1 hc
  dsimp only at this
  rw [show s.start + 1 + k = s.start + (k + 1) by omega] at this
  exact h.addk this ha _ _ _ hty

theorem formatting {c : UInt8} (hc : s.src[s.start]? = some c) (ha : c.toNat < 128) (h0 : c ≠ 0) (t u : TokenType)
    (ht : t ≠ .startTag ∧ t ≠ .endTag := by decide) (hu : u ≠ .startTag ∧ u ≠ .endTag := by decide) :
    Good s (inlineFormatting (at_ s (s.start + 1)) c t u) := by
  unfold inlineFormatting
  refine .ite (fun _ => h.text1) (fun _ => ?_)
  refine .ite (fun hp => h.add_peek hp h0 ha _ _ _ hu) (fun _ => ?_)
  exact .ite (fun _ => h.add0 hc ha _ _ _ ht) (fun _ => h.text1)

theorem repeated {c : UInt8} {n : Nat} (hr : startsRepeated (at_ s (s.start + 1)) c n = true) (hn : 2 ≤ n) (ha : c.toNat < 128)
    (ty : TokenType) (lit : Bool) (m : Nat) (hty : ty ≠ .startTag ∧ ty ≠ .endTag := by decide) :
    Good s (addToken (at_ s (s.start + 1 + (n - 1))) ty lit m) := by
  unfold startsRepeated at hr
  simp only [Bool.and_eq_true, decide_eq_true_eq] at hr
  obtain ⟨m', rfl⟩ : ∃ m', n = m' + 2 := ⟨n - 2, by omega⟩
  exact h.add_peeks (k := m') (c := c) hr.2 (by simp [List.replicate]) (by
    rw [List.getElem?_append_left (by simp), List.getElem?_replicate, if_pos (by omega)]) ha _ _ _ hty

/-- The byte after the run of equals signs. -/
theorem heading (hc : s.src[s.start]? = some c!"=") : Good s (addHeading (at_ s (s.start + 1))) := by
  obtain ⟨n, x, q, hr, hx, ha⟩ := h.safe.heading (by
    rw [List.drop_eq_getElem_cons h.lt]
    rw [List.getElem?_eq_getElem h.lt] at hc
    rw [Option.some.inj hc]
    exact ⟨s.src.drop (s.start + 1), rfl⟩)
  have hget : ∀ k, s.src[s.start + k]? = (List.replicate n c!"=" ++ x :: q)[k]? := by
    intro k; rw [← hr, List.getElem?_drop]
  have hxs : s.src[s.start + n]? = some x := by
    rw [hget, List.getElem?_append_right (by simp)]; simp
  have hn : 1 ≤ n := by
    cases n with
    | zero => rw [Nat.add_zero, hc] at hxs; exact absurd (Option.some.inj hxs).symm hx
    | succ n => omega
  have hadv : adv s.src (· = c!"=") (s.start + 1) = s.start + n := by
    have h1 : adv s.src (· = c!"=") (s.start + 1) ≤ s.start + n := by
      apply adv_le_of (by omega)
      simp only [decide_eq_false_iff_not]
      intro he
      have := (peekAt_src he (by decide)).1
      rw [hxs] at this
      exact hx (Option.some.inj this)
    apply Decidable.byContradiction
    intro hne
    have hge := adv_ge s.src (· = c!"=") (s.start + 1)
    have hlt := (List.getElem?_eq_some_iff.1 hxs).1
    have h2 := adv_stop s.src (· = c!"=") (s.start + 1) (by omega)
    generalize hj : adv s.src (· = c!"=") (s.start + 1) = j at *
    obtain ⟨k, rfl⟩ : ∃ k, j = s.start + k := ⟨j - s.start, by omega⟩
    have h3 : s.src[s.start + k]? = some c!"=" := by
      rw [hget, List.getElem?_append_left (by rw [List.length_replicate]; omega), List.getElem?_replicate, if_pos (by omega)]
    have h4 : peekAt s.src (s.start + k) = c!"=" := by
      unfold peekAt
      rw [List.getD_eq_getElem?_getD, h3, if_pos]
      · rfl
      · unfold isBoundary; split
        · rfl
        · rw [h3]; rfl
    rw [h4] at h2
    cases h2
  have hend : End s (s.start + n + 1) := h.end_byte (Nat.le_add_right _ _) hxs ha
  unfold addHeading
  dsimp only
  rw [hadv]
  split
  · exact Good.add h.bnd hend _ _ _
  · exact Good.add h.bnd hend _ _ _
  · exact Good.add h.bnd hend _ _ _
  · exact Good.add h.bnd hend _ _ _
  · exact Good.add h.bnd hend _ _ _
  · rename_i h1 h2 h3 h4 h5
    refine ⟨rfl, rfl, hend.2.1, hend.2.2, rfl, fun _ _ => ?_, by simp⟩
    have e : s.start + n + 1 - 1 - s.start = n := by omega
    have h6 : 6 ≤ n := by
      apply Decidable.byContradiction
      intro h6
      have : n = 1 ∨ n = 2 ∨ n = 3 ∨ n = 4 ∨ n = 5 := by omega
      rcases this with h | h | h | h | h
      · exact h1 (by omega)
      · exact h2 (by omega)
      · exact h3 (by omega)
      · exact h4 (by omega)
      · exact h5 (by omega)
    rw [hr]
    exact (List.prefix_replicate_iff.2 ⟨h6, by decide⟩ : b!"======" <+: List.replicate n c!"=").trans (List.prefix_append ..)

/-- A construct that runs to the next closing bracket. -/
theorem bracket {c : UInt8} (hc : s.src[s.start]? = some c) (hc' : c ≠ c!"]") (hm : c!"]" ∈ s.src.drop s.start) (ty : TokenType)
    (hty : ty ≠ .startTag ∧ ty ≠ .endTag := by decide) :
    Good s (addThroughBracket (at_ s (s.start + 1)) ty) := by
  obtain ⟨k, hk⟩ := List.mem_iff_getElem?.1 hm
  rw [List.getElem?_drop] at hk
  have hk0 : k ≠ 0 := by
    rintro rfl
    rw [Nat.add_zero, hc] at hk
    exact hc' (Option.some.inj hk)
  have hpk : peekAt s.src (s.start + k) = c!"]" := by
    unfold peekAt
    rw [List.getD_eq_getElem?_getD, hk, if_pos]
    · rfl
    · unfold isBoundary; split
      · rfl
      · rw [hk]; rfl
  have h1 := adv_le_of (src := s.src) (p := (· ≠ c!"]")) (i := s.start + 1) (m := s.start + k) (by omega) (by rw [hpk]; rfl)
  have hlt := (List.getElem?_eq_some_iff.1 hk).1
  have h2 := adv_stop s.src (· ≠ c!"]") (s.start + 1) (by omega)
  have h3 := adv_ge s.src (· ≠ c!"]") (s.start + 1)
  unfold addThroughBracket
  dsimp only
  rw [if_neg (by omega)]
  have h4 : peekAt s.src (adv s.src (· ≠ c!"]") (s.start + 1)) = c!"]" := by simpa using h2
  exact Good.add h.bnd (h.end_byte (by omega) (peekAt_src h4 (by decide)).1 (by decide)) _ _ _ hty

/-- Search for a pattern with ASCII text before it. -/
theorem findPat_of {pat : Str} (hpat : ∀ x ∈ pat, x.toNat < 128) (hne : pat ≠ []) (hz : pat ≠ [0]) :
    ∀ (n i : Nat) (p q : Str), s.src.drop i = p ++ pat ++ q → (∀ x ∈ p, x.toNat < 128) →
      isBoundary s.src i = true → p.length < n →
      ∃ j, findPat s.src pat n i = some j ∧ i ≤ j ∧ (s.src.drop j).take pat.length = pat := by
  have hpos : 0 < pat.length := List.length_pos_iff.2 hne
  intro n
  induction n with
  | zero => intro i p q _ _ _ hn; omega
  | succ n ih =>
    intro i p q hd hp hb hn
    have hlen : i + p.length + pat.length + q.length = s.src.length := by
      have := congrArg List.length hd
      simp at this; omega
    rw [findPat, if_neg (by omega), if_neg (by rw [hb]; simp)]
    by_cases hm : peeksAheadAt s.src i pat.length = pat
    · rw [if_pos hm]
      exact ⟨i, rfl, Nat.le_refl _, (peeks_take hm hz).1⟩
    · rw [if_neg hm]
      cases p with
      | nil =>
        exfalso; apply hm
        unfold peeksAheadAt
        have hbe : isBoundary s.src (i + pat.length) = true := by
          have hg : s.src[i + (pat.length - 1)]? = some (pat[pat.length - 1]'(by omega)) := by
            rw [← List.getElem?_drop, hd, List.nil_append, List.getElem?_append_left (by omega), List.getElem?_eq_getElem (by omega)]
          have := (after_ascii h.utf8 hg (hpat _ (List.getElem_mem _))).2
          rw [show i + (pat.length - 1) + 1 = i + pat.length by omega] at this
          exact this
        rw [if_neg, hd, List.nil_append, List.take_left]
        rw [not_or, not_or, hbe]
        simp at hlen
        exact ⟨by omega, by omega, by simp⟩
      | cons x p =>
        have hx : s.src[i]? = some x := by
          have := congrArg (·[0]?) hd
          simpa using this
        obtain ⟨j, h1, h2, h3⟩ := ih (i + 1) p q (by rw [← List.drop_drop, hd]; simp)
          (fun y hy => hp y (List.mem_cons_of_mem _ hy)) (after_ascii h.utf8 hx (hp x (List.mem_cons_self ..))).2
          (by simp at hn; omega)
        exact ⟨j, h1, by omega, h3⟩

theorem drop_cons {c : UInt8} (hc : s.src[s.start]? = some c) : s.src.drop s.start = c :: s.src.drop (s.start + 1) := by
  rw [List.drop_eq_getElem_cons h.lt]
  rw [List.getElem?_eq_getElem h.lt] at hc
  rw [Option.some.inj hc]

theorem closed_find {pat : Str} {c d : UInt8} (hc : s.src[s.start]? = some c) (ha : c.toNat < 128) (hcl : Closed pat (s.src.drop s.start))
    (hpat : ∀ x ∈ pat, x.toNat < 128) (hd : pat.head? = some d) (hdc : c ≠ d) (hl : 2 ≤ pat.length) :
    ∃ j, findPat s.src pat (s.src.length + 1 - (s.start + 1)) (s.start + 1) = some j ∧ s.start + 1 ≤ j
      ∧ (s.src.drop j).take pat.length = pat := by
  obtain ⟨p, q, hpq, hp⟩ := hcl
  rw [h.drop_cons hc] at hpq
  cases p with
  | nil =>
    exfalso
    cases pat with
    | nil => simp at hl
    | cons y pat => simp at hpq hd; exact hdc (hpq.1.trans hd)
  | cons x p =>
    simp only [List.cons_append, List.cons.injEq] at hpq
    have hlen := congrArg List.length hpq.2
    simp at hlen
    refine h.findPat_of hpat (by intro he; rw [he] at hl; simp at hl) (by intro he; rw [he] at hl; simp at hl) _ _ p q hpq.2
      (fun y hy => hp y (List.mem_cons_of_mem _ hy)) (after_ascii h.utf8 hc ha).2 ?_
    have := h.lt
    omega

theorem xref (hc : s.src[s.start]? = some c!"<") (hp : peek (at_ s (s.start + 1)) = c!"<") :
    Good s (addCrossReference (at_ s (s.start + 1))) := by
  have h2 := (peekAt_src hp (by decide)).1
  dsimp only at h2
  have hlt := (List.getElem?_eq_some_iff.1 h2).1
  have hpre : b!"<<" <+: s.src.drop s.start := by
    rw [h.drop_cons hc, List.drop_eq_getElem_cons hlt]
    rw [List.getElem?_eq_getElem hlt] at h2
    rw [Option.some.inj h2]
    exact ⟨s.src.drop (s.start + 1 + 1), rfl⟩
  obtain ⟨j, h3, h4, h5⟩ := h.closed_find (d := c!">") hc (by decide) (h.safe.xref hpre) (by decide) rfl (by decide) (by decide)
  unfold addCrossReference
  dsimp only
  rw [h3]
  have h6 := take_get (k := 1) (b := c!">") h5 rfl
  exact Good.add h.bnd (h.end_byte (by omega) h6 (by decide)) _ _ _

theorem anchor (hc : s.src[s.start]? = some c!"[") (hp : peek (at_ s (s.start + 1)) = c!"[") :
    Good s (addBlockAnchor (at_ s (s.start + 1))) := by
  have h2 := (peekAt_src hp (by decide)).1
  dsimp only at h2
  have hlt := (List.getElem?_eq_some_iff.1 h2).1
  have hpre : b!"[[" <+: s.src.drop s.start := by
    rw [h.drop_cons hc, List.drop_eq_getElem_cons hlt]
    rw [List.getElem?_eq_getElem hlt] at h2
    rw [Option.some.inj h2]
    exact ⟨s.src.drop (s.start + 1 + 1), rfl⟩
  obtain ⟨j, h3, h4, h5⟩ := h.closed_find (d := c!"]") hc (by decide) (h.safe.anchor hpre) (by decide) rfl (by decide) (by decide)
  unfold addBlockAnchor
  dsimp only
  rw [h3]
  have h6 := take_get (k := 1) (b := c!"]") h5 rfl
  exact Good.add h.bnd (h.end_byte (by omega) h6 (by decide)) _ _ _

theorem digits {k : Nat} (hk : End s k) : End s (adv s.src isDigit k) := by
  have := adv_ge s.src isDigit k
  have hle := adv_le s.src isDigit k hk.2.1
  refine ⟨by have := hk.1; omega, hle, adv_end_ascii h.utf8 hk.2.2 ?_⟩
  intro b hb
  simp only [isDigit, Bool.and_eq_true, decide_eq_true_eq, UInt8.le_iff_toNat_le] at hb
  refine ⟨by rintro rfl; simp at hb, ?_⟩
  have := hb.2; simp at this; omega

theorem calloutScan {k : Nat} (hk : End s k) : ∃ b j, End s j ∧ calloutScan (at_ s k) = (b, at_ s j) := by
  unfold Scanner.calloutScan
  dsimp only
  have hd := h.digits hk
  split
  · rename_i hp
    exact ⟨_, adv s.src isDigit k + 1, h.end_byte (by have := hd.1; omega) (peekAt_src hp (by decide)).1 (by decide), rfl⟩
  · exact ⟨_, adv s.src isDigit k, hd, rfl⟩

theorem callouts {k : Nat} (hk : End s k) : Good s (scanCallouts (at_ s k)) := by
  have fin : ∀ j, End s j → Good s
      (if (startsCallout (at_ s j)).1 = true then
        addToken (startsCallout (at_ s j)).2 .codeCallout true 0 else (startsCallout (at_ s j)).2.addText) := by
    intro j hj
    obtain ⟨b, i, hi, e⟩ := h.calloutScan hj
    unfold startsCallout
    rw [e]
    exact .ite (fun _ => Good.add h.bnd hi _ _ _) (fun _ => h.text (.inl hi))
  unfold scanCallouts
  split
  · obtain ⟨b, i, hi, e⟩ := h.calloutScan hk
    unfold startsCalloutListItem
    rw [e]
    refine .ite (fun hp => ?_) (fun _ => fin i hi)
    simp only [Bool.and_eq_true, decide_eq_true_eq] at hp
    exact Good.add h.bnd (h.end_byte (Nat.le_of_lt hi.1) (peekAt_src hp.2 (by decide)).1 (by decide)) _ _ _
  · exact fin k hk

/-- The position reached inside a text that is ASCII up to a stop byte. -/
theorem ascii_until {stop : UInt8} {j : Nat} (hu : AsciiUntil stop (s.src.drop s.start)) (hj : s.start < j) (hl : j ≤ s.src.length)
    (hno : ∀ k, s.start ≤ k → k < j - 1 → s.src[k]? ≠ some stop) : End s j := by
  have hlt : j - 1 < s.src.length := by omega
  have hx : (s.src[j - 1]).toNat < 128 := by
    refine hu ((s.src.drop s.start).take (j - 1 - s.start)) _ (s.src.drop j) ?_ ?_
    · conv => lhs; rw [← List.take_append_drop (j - 1 - s.start) (s.src.drop s.start)]
      rw [List.drop_drop, show s.start + (j - 1 - s.start) = j - 1 by omega, List.drop_eq_getElem_cons hlt,
        show j - 1 + 1 = j by omega]
    · intro hm
      obtain ⟨k, hk⟩ := List.mem_iff_getElem?.1 hm
      have hkl := (List.getElem?_eq_some_iff.1 hk).1
      simp at hkl
      rw [List.getElem?_take_of_lt (by omega), List.getElem?_drop] at hk
      exact hno _ (by omega) (by omega) hk
  have := h.end_byte (i := j - 1) (by omega) (List.getElem?_eq_getElem hlt) hx
  rwa [show j - 1 + 1 = j by omega] at this

theorem cellEnd (hu : AsciiUntil 10 (s.src.drop s.start)) : ∀ (n i : Nat), s.start < i → i ≤ s.src.length →
    (∀ k, s.start ≤ k → k < i → s.src[k]? ≠ some 10) → End s (tableCellEnd s.src n i) := by
  intro n
  induction n with
  | zero => intro i h1 h2 h3; exact h.ascii_until (j := i) hu h1 h2 (fun k hk hk' => h3 k hk (by omega))
  | succ n ih =>
    intro i h1 h2 h3
    rw [tableCellEnd]
    have hge := adv_ge s.src (fun b => b ≠ c!"\n" && b ≠ 0 && b ≠ c!"|") i
    have hle := adv_le s.src (fun b => b ≠ c!"\n" && b ≠ 0 && b ≠ c!"|") i h2
    have hall := adv_all s.src (fun b => b ≠ c!"\n" && b ≠ 0 && b ≠ c!"|") i
    generalize adv s.src (fun b => b ≠ c!"\n" && b ≠ 0 && b ≠ c!"|") i = j at *
    have hno : ∀ k, s.start ≤ k → k < j → s.src[k]? ≠ some 10 := by
      intro k hk hkj he
      by_cases hki : k < i
      · exact h3 k hk hki he
      · obtain ⟨_, h5⟩ := hall k (by omega) hkj
        have : peekAt s.src k = 10 := by
          unfold peekAt
          rw [List.getD_eq_getElem?_getD, he, if_pos]
          · rfl
          · unfold isBoundary; split
            · rfl
            · rw [he]; rfl
        rw [this] at h5
        simp at h5
    split
    · rename_i hp
      have hj := (peekAt_src hp.1 (by decide)).1
      refine ih (j + 1) (by omega) (List.getElem?_eq_some_iff.1 hj).1 ?_
      intro k hk hkj he
      by_cases hkj' : k < j
      · exact hno k hk hkj' he
      · have : k = j := by omega
        subst this
        rw [hj] at he; cases he
    · exact h.ascii_until hu (by omega) hle (fun k hk hk' => hno k hk (by omega))

theorem linkEnd (hu : AsciiUntil 32 (s.src.drop s.start)) : ∀ (n i : Nat), s.start < i → i ≤ s.src.length →
    (∀ k, s.start ≤ k → k < i → s.src[k]? ≠ some 32) → End s (linkEnd s.src n i).2 := by
  intro n
  induction n with
  | zero => intro i h1 h2 h3; exact h.ascii_until (j := i) hu h1 h2 (fun k hk hk' => h3 k hk (by omega))
  | succ n ih =>
    intro i h1 h2 h3
    rw [Scanner.linkEnd]
    have hge := adv_ge s.src (fun b => b ≠ 0 && b ≠ c!" " && !isAsciiPunct b) i
    have hle := adv_le s.src (fun b => b ≠ 0 && b ≠ c!" " && !isAsciiPunct b) i h2
    have hall := adv_all s.src (fun b => b ≠ 0 && b ≠ c!" " && !isAsciiPunct b) i
    dsimp only
    generalize adv s.src (fun b => b ≠ 0 && b ≠ c!" " && !isAsciiPunct b) i = j at *
    have hno : ∀ k, s.start ≤ k → k < j → s.src[k]? ≠ some 32 := by
      intro k hk hkj he
      by_cases hki : k < i
      · exact h3 k hk hki he
      · obtain ⟨_, h5⟩ := hall k (by omega) hkj
        have : peekAt s.src k = 32 := by
          unfold peekAt
          rw [List.getD_eq_getElem?_getD, he, if_pos]
          · rfl
          · unfold isBoundary; split
            · rfl
            · rw [he]; rfl
        rw [this] at h5
        simp at h5
    have hendj : End s j := h.ascii_until hu (by omega) hle (fun k hk hk' => hno k hk (by omega))
    split
    · rename_i hp
      exact h.end_byte (by omega) (peekAt_src hp (by decide)).1 (by decide)
    · split
      · exact hendj
      · rename_i hc0
        split
        · split
          · exact hendj
          · rename_i hurl _
            have hj := (peekAt_src (b := peekAt s.src j) rfl (by intro he; exact hc0 (.inl he))).1
            refine ih (j + 1) (by omega) (List.getElem?_eq_some_iff.1 hj).1 ?_
            intro k hk hkj he
            by_cases hkj' : k < j
            · exact hno k hk hkj' he
            · have : k = j := by omega
              subst this
              rw [hj] at he
              exact hc0 (.inr (Option.some.inj he))
        · exact hendj

/-- One scanning step in a safe source returns. -/
theorem dispatch {c : UInt8} (hc : s.src[s.start]? = some c) : Good s (dispatch (at_ s (s.start + 1)) c) := by
  have hend : startsEndTagLine (at_ s (s.start + 1)) = false := by simp [startsEndTagLine, h.exp]
  have word : ∀ (w : Str) (x : UInt8) (ty : TokenType) (lit : Bool), w.getLast? = some x → x.toNat < 128 → w ≠ [0] →
      ty ≠ .startTag ∧ ty ≠ .endTag → Good s (scanWord (at_ s (s.start + 1)) w ty lit) := by
    intro w x ty lit hw hx h0 hty
    unfold scanWord
    refine .ite (fun hp => ?_) (fun _ => h.text1)
    have hpos : 0 < w.length := by cases w <;> simp_all
    rw [List.getLast?_eq_getElem?] at hw
    have := h.add_peeks (k := w.length - 1) hp h0 hw hx ty lit 0 hty
    rwa [show s.start + 1 + (w.length - 1 + 1) = s.start + 1 + w.length by omega] at this
  have pre : ∀ (n : Nat) (pat : Str), peeksAhead (at_ s (s.start + 1)) n = pat → pat ≠ [0] → (c :: pat) <+: s.src.drop s.start := by
    intro n pat hp h0
    rw [h.drop_cons hc]
    obtain ⟨h1, _⟩ := peeks_take hp h0
    dsimp only at h1
    exact ⟨(s.src.drop (s.start + 1)).drop n, by rw [← h1, List.cons_append, List.take_append_drop]⟩
  unfold Scanner.dispatch
  refine .ite (fun e => ?_) (fun hnl => ?_)
  · subst e; exact h.add0 hc (by decide) _ _ _
  refine .ite (fun e => ?_) (fun _ => ?_)
  · subst e
    unfold scanQuote; rw [hend]
    refine .ite (fun e => by cases e) (fun _ => ?_)
    refine .ite (fun hr => h.repeated (n := 3) hr (by decide) (by decide) _ _ _) (fun _ => ?_)
    refine .ite (fun hp => h.add_peek hp.2 (by decide) (by decide) _ _ _) (fun _ => ?_)
    exact .ite (fun _ => h.add0 hc (by decide) _ _ _) (fun _ => h.text1)
  refine .ite (fun e => ?_) (fun _ => ?_)
  · subst e
    unfold scanLess; rw [hend]
    refine .ite (fun e => by cases e) (fun _ => ?_)
    refine .ite (fun hr => h.repeated (n := 3) hr (by decide) (by decide) _ _ _) (fun _ => ?_)
    refine .ite (fun hp => ?_) (fun _ => ?_)
    · rcases hp with hp | hp
      · exact h.add_peek hp (by decide) (by decide) _ _ _
      · exact h.add_peek hp (by decide) (by decide) _ _ _
    refine .ite (fun hp => h.xref hc hp) (fun _ => ?_)
    exact h.callouts (h.end_byte (Nat.le_refl _) hc (by decide))
  refine .ite (fun e => ?_) (fun _ => ?_)
  · have ha : c.toNat < 128 := by rcases e with rfl | rfl | rfl | rfl | rfl | rfl | rfl <;> decide
    have h0 : c ≠ 0 := by rcases e with rfl | rfl | rfl | rfl | rfl | rfl | rfl <;> decide
    unfold scanDelimChar; rw [hend]
    refine .ite (fun e => by cases e) (fun _ => ?_)
    refine .ite (fun hr => ?_) (fun _ => ?_)
    · simp only [Bool.and_eq_true] at hr
      split
      · rename_i ty hb
        exact h.repeated (n := 4) hr.2 (by decide) ha _ _ _ (by
          rcases e with rfl | rfl | rfl | rfl | rfl | rfl | rfl <;> cases hb <;> decide)
      · rename_i hb
        exfalso
        rcases e with rfl | rfl | rfl | rfl | rfl | rfl | rfl <;> cases hb
    refine .ite (fun e => ?_) (fun _ => ?_)
    · subst e
      unfold scanEquals
      refine .ite (fun hp => h.add_peek hp (by decide) (by decide) _ _ _) (fun _ => ?_)
      exact .ite (fun _ => h.heading hc) (fun _ => h.text1)
    refine .ite (fun e => ?_) (fun _ => ?_)
    · subst e
      unfold scanMinus
      refine .ite (fun hp => h.add_peek hp (by decide) (by decide) _ _ _) (fun _ => ?_)
      refine .ite (fun hp => ?_) (fun _ => ?_)
      · unfold startsEmdash at hp
        simp only [Bool.and_eq_true, decide_eq_true_eq] at hp
        exact h.add_peek hp.1 (by decide) (by decide) _ _ _
      refine .ite (fun hr => ?_) (fun _ => h.text1)
      simp only [Bool.and_eq_true] at hr
      exact h.repeated (n := 2) hr.2 (by decide) (by decide) _ _ _
    refine .ite (fun e => ?_) (fun _ => ?_)
    · subst e
      unfold scanStar
      refine .ite (fun hp => ?_) (fun _ => h.formatting hc (by decide) (by decide) _ _)
      simp only [Bool.and_eq_true, decide_eq_true_eq] at hp
      exact h.add_peek hp.2 (by decide) (by decide) _ _ _
    refine .ite (fun e => ?_) (fun _ => ?_)
    · subst e
      unfold scanSlash; rw [hend]
      refine .ite (fun e => by cases e) (fun _ => ?_)
      refine .ite (fun hp => ?_) (fun _ => h.text1)
      refine .ite (fun hp => ?_) (fun _ => ?_)
      · rcases hp with hp | hp
        · exact h.add_peeks (k := 1) (c := 32) hp (by decide) rfl (by decide) _ _ _
        · exact h.add_peeks (k := 1) (c := 32) hp (by decide) rfl (by decide) _ _ _
      · have h1 := adv_ge s.src (· ≠ c!"\n") (s.start + 1)
        have h2 := adv_le s.src (· ≠ c!"\n") (s.start + 1) h.lt
        exact Good.add h.bnd ⟨by omega, h2, adv_end h.lt (by
          intro b hb hb0; subst hb0; revert hb; decide)⟩ _ _ _
    refine .ite (fun e => ?_) (fun _ => ?_)
    · subst e
      unfold scanPlus
      refine .ite (fun _ => h.add0 hc (by decide) _ _ _) (fun _ => ?_)
      exact .ite (fun _ => h.add0 hc (by decide) _ _ _) (fun _ => h.formatting hc (by decide) (by decide) _ _)
    refine .ite (fun e => ?_) (fun _ => ?_)
    · subst e; exact h.formatting hc (by decide) (by decide) _ _
    refine .ite (fun e => ?_) (fun _ => h.text1)
    · subst e
      unfold scanDot
      refine .ite (fun hp => h.add_peeks (k := 1) (c := c!".") hp (by decide) rfl (by decide) _ _ _) (fun _ => ?_)
      refine .ite (fun _ => ?_) (fun _ => h.text1)
      exact .ite (fun hp => h.add_peek hp (by decide) (by decide) _ _ _) (fun _ => h.add0 hc (by decide) _ _ _)
  refine .ite (fun e => ?_) (fun _ => ?_)
  · subst e
    unfold scanBracket
    refine .ite (fun hp => ?_) (fun _ => ?_)
    · simp only [Bool.and_eq_true, decide_eq_true_eq] at hp
      exact h.anchor hc hp.2
    · split
      · rename_i j hj
        unfold attributionEnd at hj
        dsimp only at hj
        split at hj
        · cases hj
          have h1 := adv_ge s.src (· ≠ c!"\n") (s.start + 1)
          have h2 := adv_le s.src (· ≠ c!"\n") (s.start + 1) h.lt
          exact Good.add h.bnd ⟨by omega, h2, adv_end h.lt (by
            intro b hb hb0; subst hb0; revert hb; decide)⟩ _ _ _ (by
              unfold attributionType; repeat' split
              all_goals decide)
        · cases hj
      · refine .ite (fun hp => ?_) (fun _ => h.text1)
        refine h.bracket hc (by decide) (h.safe.style ?_) _
        have h2 := (peekAt_src hp (by decide)).1
        dsimp only at h2
        have hlt := (List.getElem?_eq_some_iff.1 h2).1
        rw [h.drop_cons hc, List.drop_eq_getElem_cons hlt]
        rw [List.getElem?_eq_getElem hlt] at h2
        rw [Option.some.inj h2]
        exact ⟨s.src.drop (s.start + 1 + 1), rfl⟩
  refine .ite (fun e => ?_) (fun _ => ?_)
  · subst e
    unfold scanBacktick
    have close : ∀ (q : UInt8) (ty : TokenType), q ≠ 0 → q.toNat < 128 → (ty ≠ .startTag ∧ ty ≠ .endTag) →
        (peeksAhead (at_ s (s.start + 1)) 2 = [q, 32] ∨ peeksAhead (at_ s (s.start + 1)) 2 = [q, 10]
          ∨ (peeksAhead (at_ s (s.start + 1)) 2 = [0] ∧ peek (at_ s (s.start + 1)) = q)) →
        Good s (addToken (at_ s (s.start + 1 + 1)) ty true 0) := by
      intro q ty h0 ha hty hp
      rcases hp with hp | hp | hp
      · exact h.add_peeks (k := 0) (c := q) hp (by simp) rfl ha _ _ _ hty
      · exact h.add_peeks (k := 0) (c := q) hp (by simp) rfl ha _ _ _ hty
      · exact h.add_peek hp.2 h0 ha _ _ _ hty
    refine .ite (fun hp => close _ _ (by decide) (by decide) (by decide) hp) (fun _ => ?_)
    refine .ite (fun hp => close _ _ (by decide) (by decide) (by decide) hp) (fun _ => ?_)
    exact h.formatting hc (by decide) (by decide) _ _
  refine .ite (fun e => ?_) (fun _ => ?_)
  · subst e; exact h.add0 hc (by decide) _ _ _
  refine .ite (fun e => ?_) (fun _ => ?_)
  · subst e; exact h.add0 hc (by decide) _ _ _
  refine .ite (fun e => ?_) (fun _ => ?_)
  · subst e
    unfold scanHash; rw [hend]
    exact .ite (fun e => by cases e) (fun _ => h.formatting hc (by decide) (by decide) _ _)
  refine .ite (fun e => ?_) (fun _ => ?_)
  · subst e
    have hr : Good s (scanColonRest (at_ s (s.start + 1))) := by
      unfold scanColonRest
      refine .ite (fun hp => ?_) (fun _ => h.text1)
      rcases hp.2 with hp | hp
      · exact h.add_peeks (k := 1) (c := 32) hp (by decide) rfl (by decide) _ _ _
      · exact h.add_peeks (k := 1) (c := 10) hp (by decide) rfl (by decide) _ _ _
    unfold scanColon
    refine .ite (fun hl => ?_) (fun _ => hr)
    obtain ⟨m, hm, hm'⟩ := h.colon hc hl
    split
    · rename_i ha
      exfalso
      unfold startsAttr at ha
      have := adv_lt (p := fun b => b ≠ c!" " && b ≠ c!"\n" && b ≠ c!":") hm hm' (by decide) (by decide)
      dsimp only at ha
      rw [List.getElem?_eq_getElem this] at ha
      cases ha
    · have h0 := adv_lt (p := (· ≠ c!"\n")) hm hm' (by decide) (by decide)
      have h1 := adv_ge s.src (· ≠ c!"\n") (s.start + 1)
      dsimp only
      rw [if_neg (by omega)]
      have h2 : isBoundary s.src (adv s.src (· ≠ c!"\n") (s.start + 1)) = true := adv_end h.lt (by
        intro b hb hb0; subst hb0; revert hb; decide)
      exact Good.add h.bnd ⟨by omega, by omega, h2⟩ _ _ _
    · exact hr
  refine .ite (fun e => ?_) (fun _ => ?_)
  · subst e
    refine .ite (fun hp => ?_) (fun _ => h.text1)
    have hk : ∃ k, s.src[s.start + 1 + k]? = some c!")" := by
      unfold startsParens at hp
      simp only [Bool.or_eq_true, decide_eq_true_eq] at hp
      rcases hp with (hp | hp) | hp
      · exact ⟨1, take_get (peeks_take hp (by decide)).1 rfl⟩
      · exact ⟨1, take_get (peeks_take hp (by decide)).1 rfl⟩
      · exact ⟨2, take_get (peeks_take hp (by decide)).1 rfl⟩
    obtain ⟨k, hk⟩ := hk
    have hpk : peekAt s.src (s.start + 1 + k) = c!")" := by
      unfold peekAt
      rw [List.getD_eq_getElem?_getD, hk, if_pos]
      · rfl
      · unfold isBoundary; split
        · rfl
        · rw [hk]; rfl
    have h1 := adv_le_of (src := s.src) (p := (· ≠ c!")")) (i := s.start + 1) (m := s.start + 1 + k) (by omega) (by rw [hpk]; rfl)
    have hlt := (List.getElem?_eq_some_iff.1 hk).1
    have h2 := adv_stop s.src (· ≠ c!")") (s.start + 1) (by omega)
    have h3 := adv_ge s.src (· ≠ c!")") (s.start + 1)
    unfold addParens
    dsimp only
    rw [if_neg (by omega)]
    have h4 : peekAt s.src (adv s.src (· ≠ c!")") (s.start + 1)) = c!")" := by simpa using h2
    exact Good.add h.bnd (h.end_byte (by omega) (peekAt_src h4 (by decide)).1 (by decide)) _ _ _
  refine .ite (fun e => word _ c!"[" _ _ rfl (by decide) (by decide) (by decide)) (fun _ => ?_)
  refine .ite (fun e => word _ c!"[" _ _ rfl (by decide) (by decide) (by decide)) (fun _ => ?_)
  refine .ite (fun e => ?_) (fun _ => ?_)
  · subst e
    refine .ite (fun hp => ?_) (fun _ => h.text1)
    have hu := h.safe.link (pre 3 _ hp (by decide))
    have := h.linkEnd hu (s.src.length + 1 - (s.start + 1)) (s.start + 1) (by omega) h.lt (by
      intro k hk hk' he
      have : k = s.start := by omega
      subst this
      rw [hc] at he; cases he)
    unfold addLink
    exact Good.add h.bnd this _ _ _ (by
      rcases linkEnd_ty s.src (s.src.length + 1 - (s.start + 1)) (s.start + 1) with h | h <;> rw [h] <;> decide)
  refine .ite (fun e => ?_) (fun _ => ?_)
  · subst e
    unfold scanI
    refine .ite (fun hp => ?_) (fun _ => ?_)
    · simp only [Bool.and_eq_true, decide_eq_true_eq] at hp
      exact h.bracket hc (by decide) (h.safe.incl (pre 8 _ hp.2 (by decide))) _
    refine .ite (fun hp => ?_) (fun _ => ?_)
    · simp only [Bool.and_eq_true, decide_eq_true_eq] at hp
      have := pre 6 _ hp.2 (by decide)
      exact h.bracket hc (by decide) (h.safe.image (List.IsPrefix.trans ⟨b!":", rfl⟩ this)) _
    refine .ite (fun hp => ?_) (fun _ => h.text1)
    exact h.bracket hc (by decide) (h.safe.image (pre 5 _ hp.1 (by decide))) _
  refine .ite (fun e => ?_) (fun _ => ?_)
  · subst e
    exact .ite (fun hp => absurd (pre 4 _ hp (by decide)) h.safe.tag) (fun _ => h.text1)
  refine .ite (fun e => ?_) (fun _ => ?_)
  · subst e
    exact .ite (fun hp => absurd (pre 4 _ hp (by decide)) h.safe.endTag) (fun _ => h.text1)
  refine .ite (fun e => word _ c!" " _ _ rfl (by decide) (by decide) (by decide)) (fun _ => ?_)
  refine .ite (fun e => word _ c!" " _ _ rfl (by decide) (by decide) (by decide)) (fun _ => ?_)
  refine .ite (fun e => word _ c!" " _ _ rfl (by decide) (by decide) (by decide)) (fun _ => ?_)
  refine .ite (fun e => word _ c!" " _ _ rfl (by decide) (by decide) (by decide)) (fun _ => ?_)
  refine .ite (fun e => word _ c!" " _ _ rfl (by decide) (by decide) (by decide)) (fun _ => ?_)
  refine .ite (fun e => ?_) (fun _ => ?_)
  · subst e; exact h.add0 hc (by decide) _ _ _
  refine .ite (fun e => ?_) (fun _ => ?_)
  · subst e
    obtain ⟨m, b, hm, hb, hb1, hb2⟩ := h.amp hc
    have h0 := adv_lt (p := isAlnum) hm hb hb1 hb2
    have h1 := adv_ge s.src isAlnum (s.start + 1)
    unfold scanAmp startsCharref
    dsimp only
    rw [List.getElem?_eq_getElem h0]
    split
    · rename_i he; cases he
    · rename_i he
      simp only [Option.map_some, Option.some.injEq, decide_eq_true_eq] at he
      exact Good.add h.bnd (h.end_byte (by omega) (List.getElem?_eq_getElem h0) (by rw [he]; decide)) _ _ _
    · exact h.text1
  refine .ite (fun e => ?_) (fun _ => ?_)
  · subst e
    obtain ⟨m, b, hm, hb, hb1, hb2⟩ := h.brace hc
    have h0 := adv_lt (p := isAttrRefChar) hm hb hb1 hb2
    have h1 := adv_ge s.src isAttrRefChar (s.start + 1)
    unfold scanBrace startsAttributeReference
    dsimp only
    rw [List.getElem?_eq_getElem h0]
    split
    · rename_i he; cases he
    · rename_i he
      simp only [Option.map_some, Option.some.injEq, decide_eq_true_eq] at he
      exact Good.add h.bnd (h.end_byte (by omega) (List.getElem?_eq_getElem h0) (by rw [he]; decide)) _ _ _
    · exact h.text1
  refine .ite (fun e => ?_) (fun _ => ?_)
  · subst e
    unfold scanPipe
    refine .ite (fun hp => ?_) (fun _ => ?_)
    · simp only [Bool.and_eq_true, decide_eq_true_eq] at hp
      have h3 := take_get (k := 2) (b := c!"=") (peeks_take hp.2 (by decide)).1 rfl
      dsimp only at h3
      have hE : End s (s.start + 1 + 2 + 1) := h.end_byte (by omega) h3 (by decide)
      dsimp only
      exact .ite (fun _ => Good.add h.bnd hE _ _ _) (fun _ => h.text (.inl hE))
    refine .ite (fun _ => ?_) (fun _ => h.text1)
    have hu := h.safe.cell (by rw [h.drop_cons hc]; exact ⟨_, rfl⟩)
    unfold addTableCell
    exact Good.add h.bnd (h.cellEnd hu _ (s.start + 1) (by omega) h.lt (by
      intro k hk hk' he
      have : k = s.start := by omega
      subst this
      rw [hc] at he; cases he)) _ _ _
  refine .ite (fun e => ?_) (fun _ => ?_)
  · subst e
    unfold scanDouble
    exact .ite (fun hp => h.add_peek hp.2 (by decide) (by decide) _ _ _) (fun _ => h.text1)
  refine .ite (fun _ => ?_) (fun _ => h.text1)
  unfold scanSpace; rw [hend]
  exact .ite (fun e => by cases e) (fun _ => h.text1)

end Safe
end
end Adoc.Scanner
