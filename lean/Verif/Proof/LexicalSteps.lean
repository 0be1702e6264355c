import Verif.Proof.Lexical
/-!
# Every step of the scanner follows the lexical grammar
-/
namespace Adoc.Scanner
open Lexical Props

theorem isAsciiPunct_iff (b : UInt8) : isAsciiPunct b = true ↔ Punct b := by
  simp [isAsciiPunct, Punct, UInt8.le_iff_toNat_le]; omega

theorem isDigit_iff (b : UInt8) : isDigit b = true ↔ 48 ≤ b.toNat ∧ b.toNat ≤ 57 := by
  simp [isDigit, UInt8.le_iff_toNat_le]

theorem isAlnum_ascii (b : UInt8) (hb : b.toNat < 128) : isAlnum b = true ↔ Alnum b := by
  have h : ∀ x : UInt8, b = x ↔ b.toNat = x.toNat := fun x => UInt8.toNat_inj.symm
  simp only [isAlnum, isDigit, Alnum, UInt8.le_iff_toNat_le, Bool.or_eq_true, Bool.and_eq_true, decide_eq_true_eq, h,
    UInt8.reduceToNat]
  omega

namespace Here
variable {before rest : Str} {c : UInt8} {s : Scanner} (H : Here before c rest s)
include H

/-- Going to the next `x`. -/
theorem until_ (x : UInt8) (hx : x ≠ 0) (hx' : isCont x = false) {w r : Str} (hr : rest = w ++ r) :
    (x ∉ r ∧ Scanner.adv s.src (· ≠ x) (s.start + 1 + w.length) = s.src.length)
    ∨ ∃ p q, r = p ++ x :: q ∧ x ∉ p ∧ Scanner.adv s.src (· ≠ x) (s.start + 1 + w.length) = s.start + 1 + w.length + p.length := by
  rw [H.adv _ hr]
  have hlow : ∀ b : UInt8, low b = x ↔ b = x := by
    intro b
    refine ⟨fun h => low_eq h hx, ?_⟩
    rintro rfl
    simp [low, hx']
  have hsplit := List.takeWhile_append_dropWhile (p := fun b => decide (low b ≠ x)) (l := r)
  have hall := List.all_eq_true.1 (List.all_takeWhile (p := fun b => decide (low b ≠ x)) (l := r))
  have hno : x ∉ r.takeWhile fun b => decide (low b ≠ x) := by
    intro hm
    have := hall x hm
    simp [hlow] at this
  cases hd : r.dropWhile fun b => decide (low b ≠ x) with
  | nil =>
    left
    rw [hd, List.append_nil] at hsplit
    rw [hsplit] at hno ⊢
    refine ⟨hno, ?_⟩
    rw [H.src, H.start, hr]; simp; omega
  | cons y q =>
    right
    have hy := List.head_dropWhile_not (p := fun b => decide (low b ≠ x)) (l := r) (by rw [hd]; simp)
    simp only [hd, List.head_cons] at hy
    have hy' : y = x := by simpa [hlow] using hy
    subst hy'
    exact ⟨_, q, by rw [← hd]; exact hsplit.symm, hno, rfl⟩

theorem until0 (x : UInt8) (hx : x ≠ 0) (hx' : isCont x = false) :
    (x ∉ rest ∧ Scanner.adv s.src (· ≠ x) (s.start + 1) = s.src.length)
    ∨ ∃ p q, rest = p ++ x :: q ∧ x ∉ p ∧ Scanner.adv s.src (· ≠ x) (s.start + 1) = s.start + 1 + p.length :=
  H.until_ x hx hx' (w := []) rfl

theorem srcLen : s.src.length = s.start + 1 + rest.length := by rw [H.src, H.start]; simp; omega

/-- Everything through the next closing bracket. -/
theorem bracket (ty : TokenType) (h1 : ty ≠ .blockAnchor) (h2 : ty ≠ .crossReference)
    (h : ∀ p q, rest = p ++ c!"]" :: q → c!"]" ∉ p → Lexeme ty before (c :: p ++ [c!"]"]) q) :
    Out before s (addThroughBracket (at_ s (s.start + 1)) ty) := by
  unfold addThroughBracket
  dsimp only
  have hlen := H.srcLen
  rcases H.until0 c!"]" (by decide) (by decide) with ⟨_, ha⟩ | ⟨p, q, hr, hp, ha⟩
  · rw [if_pos (by rw [ha]; exact Nat.le_refl _)]; exact out_hang
  · rw [if_neg (by rw [ha, hlen, hr]; simp), ha]
    exact H.fixed ty true 0 _ (c :: p ++ [c!"]"]) q (by rw [hr]; simp) (by simp; omega) h1 h2 (by simp) (h p q hr hp)

theorem parens (hc : c = c!"(") (hs : startsParens (at_ s (s.start + 1)) = true) :
    Out before s (addParens (at_ s (s.start + 1))) := by
  unfold addParens
  dsimp only
  have hlen := H.srcLen
  rcases H.until0 c!")" (by decide) (by decide) with ⟨_, ha⟩ | ⟨p, q, hr, hp, ha⟩
  · rw [if_pos (by rw [ha]; exact Nat.le_refl _)]; exact out_hang
  · rw [if_neg (by rw [ha, hlen, hr]; simp), ha]
    refine H.fixed _ true 0 _ (c :: p ++ [c!")"]) q (by rw [hr]; simp) (by simp; omega) (by decide) (by decide) (by simp) ?_
    have key : ∀ w : Str, c!")" ∉ w → w ++ [c!")"] <+: rest → p = w := by
      rintro w hw ⟨r, hr'⟩
      rw [hr] at hr'
      have h1 : (w ++ c!")" :: r).takeWhile (· ≠ c!")") = w := by
        rw [List.takeWhile_append_of_pos]
        · simp
        · intro a ha; simp; rintro rfl; exact hw ha
      have h2 : (p ++ c!")" :: q).takeWhile (· ≠ c!")") = p := by
        rw [List.takeWhile_append_of_pos]
        · simp
        · intro a ha; simp; rintro rfl; exact hp ha
      rw [← h1, ← h2, ← hr']; simp
    subst hc
    left
    unfold startsParens at hs
    simp only [Bool.or_eq_true, decide_eq_true_eq] at hs
    rcases hs with (hs | hs) | hs
    · rw [key b!"C" (by decide) ((H.peeks (pat := b!"C)") (by decide) (by decide) (by decide)).1 hs)]; decide
    · rw [key b!"R" (by decide) ((H.peeks (pat := b!"R)") (by decide) (by decide) (by decide)).1 hs)]; decide
    · rw [key b!"TM" (by decide) ((H.peeks (pat := b!"TM)") (by decide) (by decide) (by decide)).1 hs)]; decide

theorem heading (hc : c = c!"=") (hl : LineStart before) (hd : ¬DelimiterLine before (c :: rest))
    (hg : Scanner.peek (at_ s (s.start + 1)) ≠ c!">") : Out before s (addHeading (at_ s (s.start + 1))) := by
  subst hc
  unfold addHeading
  dsimp only
  rw [H.adv0]
  have hlow : ∀ b : UInt8, low b = c!"=" ↔ b = c!"=" := by
    intro b
    refine ⟨fun h => low_eq h (by decide), ?_⟩
    rintro rfl; rfl
  have hsplit := List.takeWhile_append_dropWhile (p := fun b => decide (low b = c!"=")) (l := rest)
  have hall := List.all_eq_true.1 (List.all_takeWhile (p := fun b => decide (low b = c!"=")) (l := rest))
  generalize htw : rest.takeWhile (fun b => decide (low b = c!"=")) = w at *
  have hw : w = List.replicate w.length c!"=" := by
    apply List.eq_replicate_iff.2 ⟨rfl, ?_⟩
    intro b hb; have := hall b hb; simpa [hlow] using this
  have key : ∀ ty : TokenType, ty ≠ .blockAnchor → ty ≠ .crossReference →
      (∀ l after, Heading (w.length + 1) before l after → Lexeme ty before l after) →
      Out before s (addToken (at_ s (s.start + 1 + w.length + 1)) ty false 0) := by
    intro ty h1 h2 h3
    apply H.add ty false 0 _ (by omega) h1 h2
    intro l after hl' he hst
    apply h3
    cases hq : rest.dropWhile fun b => decide (low b = c!"=") with
    | nil =>
      exfalso
      rw [hq, List.append_nil] at hsplit
      have := congrArg List.length hl'
      simp only [List.length_cons, List.length_append] at this
      rw [← hsplit] at this; omega
    | cons x q =>
      have hx := List.head_dropWhile_not (p := fun b => decide (low b = c!"=")) (l := rest) (by rw [hq]; simp)
      simp only [hq, List.head_cons] at hx
      have hx' : x ≠ c!"=" := by simpa [hlow] using hx
      rw [hq] at hsplit
      have hh : c!"=" :: rest = (c!"=" :: w ++ [x]) ++ q := by rw [← hsplit]; simp
      obtain ⟨rfl, rfl⟩ := List.append_inj (hl'.symm.trans hh) (by simp; omega)
      have hxs : x.toNat < 128 := by
        refine H.ascii (p := before ++ c!"=" :: w) (x := x) (q := after) (by rw [H.src, hh]; simp) ?_ hst
        have h4 : s.src = (before ++ List.replicate w.length c!"=") ++ c!"=" :: (x :: after) := by
          rw [H.src, hh, hw]
          simp only [List.append_assoc, List.cons_append, List.length_replicate]
          rw [show ∀ t : Str, c!"=" :: (List.replicate w.length c!"=" ++ t) = List.replicate w.length c!"=" ++ c!"=" :: t by
            intro t
            rw [← List.cons_append, ← List.replicate_succ, List.replicate_succ', List.append_assoc]; rfl]
          simp
        exact H.starts h4 (by decide)
      refine ⟨hl, ⟨x, ?_, hx', hxs, ?_⟩, ?_⟩
      · rw [List.replicate_succ, ← hw]
      · rintro ⟨h5, rfl⟩
        have : w = [] := List.length_eq_zero_iff.1 (by omega)
        rw [this] at hsplit
        rw [H.peek (by decide), ← hsplit] at hg
        exact hg rfl
      · rw [← hl']; exact hd
  rw [show s.start + 1 + w.length + 1 - 1 - s.start = w.length + 1 by omega]
  split
  · rename_i hn; exact key _ (by decide) (by decide) (by rw [hn]; exact fun _ _ h => h)
  · rename_i hn; exact key _ (by decide) (by decide) (by rw [hn]; exact fun _ _ h => h)
  · rename_i hn; exact key _ (by decide) (by decide) (by rw [hn]; exact fun _ _ h => h)
  · rename_i hn; exact key _ (by decide) (by decide) (by rw [hn]; exact fun _ _ h => h)
  · rename_i hn; exact key _ (by decide) (by decide) (by rw [hn]; exact fun _ _ h => h)
  · exact out_err

/-- The byte read at a position. -/
theorem peekAt {w q : Str} (hr : rest = w ++ q) : Scanner.peekAt s.src (s.start + 1 + w.length) = (q.head?.map low).getD 0 := by
  rw [peekAt_low (by omega), ← List.head?_drop, ← List.drop_drop, H.drop, hr, List.drop_left]

theorem getD_last {w q : Str} (hr : rest = w ++ q) : s.src.getD (s.start + 1 + w.length - 1) 0 = (c :: w).getLastD 0 := by
  rw [List.getD_eq_getElem?_getD, H.src, H.start, List.getElem?_append_right (by omega), hr]
  rw [show before.length + 1 + w.length - 1 - before.length = w.length by omega, ← List.cons_append,
    List.getElem?_append_left (by simp)]
  rw [List.getLastD_eq_getLast?, List.getLast?_eq_getElem?]
  simp

/-- Bytes that the scanner passed one by one, none of them a continuation byte, are ASCII if a character begins after
them. -/
theorem all_ascii (v : Str) : ∀ (w q : Str), rest = w ++ v ++ q → Starts (v ++ q) → (∀ b ∈ v, isCont b = false) → Starts q →
    ∀ b ∈ v, b.toNat < 128 := by
  induction v with
  | nil => simp
  | cons x v ih =>
    intro w q hr hs hv hq b hb
    have h1 : Starts (v ++ q) := by
      cases v with
      | nil => exact hq
      | cons y v => exact starts_ascii _ _ (hv y (by simp))
    rcases List.mem_cons.1 hb with rfl | hb
    · exact H.ascii (p := before ++ c :: w) (q := v ++ q) (by rw [H.src, hr]; simp) hs h1
    · exact ih (w ++ [x]) q (by rw [hr]; simp) h1 (fun b hb => hv b (List.mem_cons_of_mem _ hb)) hq b hb

/-- The bytes of `q` up to where the loop condition `p` fails. -/
theorem split_at (p : UInt8 → Bool) {w q : Str} (hr : rest = w ++ q) :
    ∃ v q', q = v ++ q' ∧ Scanner.adv s.src p (s.start + 1 + w.length) = s.start + 1 + (w ++ v).length
      ∧ (∀ b ∈ v, p (low b) = true) ∧ (∀ b, q'.head? = some b → p (low b) = false) := by
  refine ⟨_, _, (List.takeWhile_append_dropWhile (p := fun b => p (low b)) (l := q)).symm, ?_, ?_, ?_⟩
  · rw [H.adv p hr]; simp; omega
  · exact List.all_eq_true.1 List.all_takeWhile
  · intro b hb
    have := List.head?_dropWhile_not (fun b => p (low b)) q
    rw [hb] at this
    simpa using this

/-- What is known of a link that goes on after `w`. -/
theorem linkLoop (n : Nat) : ∀ w q : Str, rest = w ++ q → s.src.length + 1 ≤ n + (s.start + 1 + w.length) →
    Starts q → (∀ b, (c :: w).getLast? = some b → b ∈ urlPunct → ¬UrlStop q) → UrlText (c :: w) →
    ∀ l after, c :: rest = l ++ after → (linkEnd s.src n (s.start + 1 + w.length)).2 = s.start + l.length → Starts after →
    ((linkEnd s.src n (s.start + 1 + w.length)).1 = .linkMacro ∧ ∃ u, l = u ++ b!"[" ∧ UrlText u ∧ c :: w <+: u)
    ∨ ((linkEnd s.src n (s.start + 1 + w.length)).1 = .hyperlink ∧ UrlText l ∧ UrlEnd l after ∧ c :: w <+: l) := by
  induction n with
  | zero =>
    intro w q hr hn hq hlast hw l after hl he _
    exfalso
    simp only [linkEnd] at he
    have := congrArg List.length hl
    have h2 := H.srcLen
    simp only [List.length_cons, List.length_append] at this
    omega
  | succ n ih =>
    intro w q hr hn hq hlast hw l after hl he hst
    have hlen := H.srcLen
    obtain ⟨v, q', hqv, hadv, hv, hstop⟩ := H.split_at (fun b => b ≠ 0 && b ≠ c!" " && !isAsciiPunct b) hr
    rw [linkEnd] at he ⊢
    dsimp only at he ⊢
    rw [hadv, H.peekAt (w := w ++ v) (q := q') (by rw [hr, hqv, List.append_assoc])] at he ⊢
    generalize hpk : (q'.head?.map low).getD 0 = y at he ⊢
    have hvc : ∀ b ∈ v, isCont b = false ∧ b ≠ 0 ∧ b ≠ c!" " ∧ ¬Punct b := by
      intro b hb
      have := hv b hb
      simp only [Bool.and_eq_true, decide_eq_true_eq, Bool.not_eq_true', ne_eq] at this
      have hc : isCont b = false := by
        cases h : isCont b with
        | false => rfl
        | true => simp [low, h] at this
      rw [show low b = b by simp [low, hc]] at this
      refine ⟨hc, this.1.1, this.1.2, ?_⟩
      rw [← isAsciiPunct_iff, this.2]; decide
    have hr' : rest = w ++ v ++ q' := by rw [hr, hqv, List.append_assoc]
    have htext : Starts q' → UrlText (c :: w ++ v) := by
      intro hs b hb
      rcases List.mem_append.1 hb with hb | hb
      · exact hw b hb
      · have := hvc b hb
        exact ⟨this.2.1, this.2.2.1, H.all_ascii v w q' hr' (by rw [← hqv]; exact hq) (fun b hb => (hvc b hb).1) hs b hb,
          fun hp => absurd hp this.2.2.2⟩
    have hpre : c :: w <+: c :: w ++ v := List.prefix_append ..
    -- the link ends at the end of `v`
    have hend : s.start + 1 + (w ++ v).length = s.start + l.length → l = c :: w ++ v ∧ after = q' := by
      intro h
      have : c :: rest = (c :: w ++ v) ++ q' := by rw [hr']; simp
      exact List.append_inj (hl.symm.trans this) (by simp at h ⊢; omega)
    split at he
    · -- an opening bracket
      rename_i h1
      rw [if_pos h1]
      left
      refine ⟨rfl, c :: w ++ v, ?_, ?_, hpre⟩
      all_goals
        cases q' with
        | nil => rw [← hpk] at h1; simp at h1
        | cons b q' =>
          have hb : b = c!"[" := low_eq (by rw [← hpk] at h1; simpa using h1) (by decide)
          subst hb
          first
          | exact htext (starts_ascii _ _ (by decide))
          | (have : c :: rest = (c :: w ++ v ++ [c!"["]) ++ q' := by rw [hr']; simp
             exact (List.append_inj (hl.symm.trans this) (by simp at he ⊢; omega)).1)
    · rename_i h1
      rw [if_neg h1]
      split at he
      · -- the end, NUL or a blank
        rename_i h2
        rw [if_pos h2]
        rw [← hpk] at h2
        right
        obtain ⟨rfl, rfl⟩ := hend he
        refine ⟨rfl, htext hst, .inl ⟨?_, ?_⟩, hpre⟩
        · cases after with
          | nil => exact .inl rfl
          | cons b q' =>
            have hb := hst b rfl
            simp only [List.head?_cons, Option.map_some, Option.getD_some, low, hb] at h2
            right
            rcases h2 with h2 | h2
            · left; simpa using h2
            · right; simpa using h2
        · intro b hb
          rcases List.eq_nil_or_concat v with rfl | ⟨v', x, rfl⟩
          · intro hu
            refine hlast b (by simpa using hb) hu ?_
            rw [List.nil_append] at hqv
            subst hqv
            cases q with
            | nil => exact .inl rfl
            | cons y q =>
              have hy := hst y rfl
              simp only [List.head?_cons, Option.map_some, Option.getD_some, low, hy] at h2
              right
              refine ⟨y, rfl, ?_⟩
              rcases h2 with h2 | h2
              · left; simpa using h2
              · right; left; simpa using h2
          · have hb' : x = b := by
              rw [List.concat_eq_append, ← List.append_assoc, List.getLast?_concat] at hb
              simpa using hb
            subst hb'
            intro hu
            have := (hvc x (by simp)).2.2.2
            apply this
            revert hu
            unfold urlPunct Punct
            intro hu
            simp only [List.mem_cons, List.not_mem_nil, or_false] at hu
            rcases hu with rfl | rfl | rfl | rfl | rfl | rfl | rfl <;> decide
      · rename_i h2
        rw [if_neg h2]
        cases q' with
        | nil => rw [← hpk] at h2; simp at h2
        | cons b q' =>
          simp only [List.head?_cons, Option.map_some, Option.getD_some] at hpk
          have hb0 : y ≠ 0 := fun h => h2 (.inl h)
          have hbc : isCont b = false := by
            cases h : isCont b with
            | false => rfl
            | true => rw [← hpk] at hb0; simp [low, h] at hb0
          rw [show low b = b by simp [low, hbc]] at hpk
          subst hpk
          have hbp : Punct b := by
            have := hstop b rfl
            rw [show low b = b by simp [low, hbc]] at this
            rw [not_or] at h2
            rw [← isAsciiPunct_iff]
            simpa [h2.1, h2.2] using this
          have hba : b.toNat < 128 := by unfold Punct at hbp; omega
          have hs' : Starts (b :: q') := starts_ascii _ _ hbc
          split at he
          · rename_i h3
            rw [if_pos h3]
            have h3' : b ∈ urlPunct := by simpa [isUrlPunct, urlPunct] using h3
            have hsrc : s.src = (before ++ c :: (w ++ v)) ++ b :: q' := by rw [H.src, hr']; simp
            have hpl : s.start + 1 + (w ++ v).length = (before ++ c :: (w ++ v)).length := by rw [H.start]; simp; omega
            have hq' := H.starts hsrc hba
            have hsec : ((peeksAheadAt s.src (s.start + 1 + (w ++ v).length) 2).getLastD 0 = 0
                ∨ (peeksAheadAt s.src (s.start + 1 + (w ++ v).length) 2).getLastD 0 = c!" ") ↔ UrlStop q' := by
              have hnone := H.peeks_none hsrc (by simp) hba
              rw [← hpl] at hnone
              unfold UrlStop
              cases q' with
              | nil => rw [hnone.2 (.inl rfl)]; simp
              | cons y r =>
                have hy := (isCont_false_iff y).1 (hq' y rfl)
                rcases hy with hy | hy
                · have : peeksAheadAt s.src (s.start + 1 + (w ++ v).length) 2 = [b, y] := by
                    refine (H.peeksAt_iff (pat := [b, y]) (by simp) (by simp; omega) (by simp) _).2 ?_
                    rw [hpl, hsrc, List.drop_left]; simp
                  rw [this]
                  have hy' : ¬128 ≤ y.toNat := by omega
                  simp [hy']
                · rw [hnone.2 (.inr ⟨y, rfl, hy⟩)]
                  simp; omega
            split at he
            · rename_i h4
              rw [if_pos h4]
              right
              obtain ⟨rfl, rfl⟩ := hend he
              exact ⟨rfl, htext hs', .inr (.inl ⟨b, q', rfl, h3', hsec.1 h4⟩), hpre⟩
            · rename_i h4
              rw [if_neg h4]
              have h5 : s.start + 1 + (w ++ v).length + 1 = s.start + 1 + (w ++ v ++ [b]).length := by simp; omega
              rw [h5] at he ⊢
              have := ih (w ++ v ++ [b]) q' (by rw [hr']; simp) (by simp; omega) hq' (fun x _ _ => fun hu => h4 (hsec.2 hu))
                (by
                  intro x hx
                  have hx' : x ∈ c :: w ++ v ∨ x = b := by simpa [or_assoc] using hx
                  rcases hx' with hx' | rfl
                  · exact htext hs' x hx'
                  · refine ⟨hb0, ?_, hba, fun _ => h3'⟩
                    rintro rfl; exact h2 (.inr rfl))
                l after hl he hst
              have hpp : c :: w <+: c :: (w ++ v ++ [b]) := by
                rw [List.append_assoc]; exact (List.prefix_cons_inj c).2 (List.prefix_append ..)
              rcases this with ⟨e1, u, e2, e3, e4⟩ | ⟨e1, e2, e3, e4⟩
              · exact .inl ⟨e1, u, e2, e3, hpp.trans e4⟩
              · exact .inr ⟨e1, e2, e3, hpp.trans e4⟩
          · rename_i h3
            rw [if_neg h3]
            right
            obtain ⟨rfl, rfl⟩ := hend he
            refine ⟨rfl, htext hs', .inr (.inr ⟨b, q', rfl, hbp, ?_, h1⟩), hpre⟩
            simpa [isUrlPunct, urlPunct] using h3

theorem link (hc : c = c!"h") (hp : b!"ttp" <+: rest) : Out before s (addLink (at_ s (s.start + 1))) := by
  obtain ⟨q, hq⟩ := hp
  subst hc
  have hch : UrlText [c!"h"] := by unfold UrlText Punct; decide
  have key := H.linkLoop (s.src.length + 1 - (s.start + 1)) [] rest rfl (by simp; omega) (H.starts_rest (by decide))
    (by
      intro b hb h
      simp at hb; subst hb
      exact absurd h (by decide)) hch
  unfold addLink
  dsimp only
  simp only [List.length_nil, Nat.add_zero] at key
  have hge := linkEnd_ge s.src (s.src.length + 1 - (s.start + 1)) (s.start + 1)
  apply H.add
  · omega
  · rcases linkEnd_ty s.src (s.src.length + 1 - (s.start + 1)) (s.start + 1) with h | h <;> rw [h] <;> decide
  · rcases linkEnd_ty s.src (s.src.length + 1 - (s.start + 1)) (s.start + 1) with h | h <;> rw [h] <;> decide
  · intro l after hl he hst
    have h4 : ∀ u t : Str, u ++ t = c!"h" :: rest → u ≠ [] → (∀ b, t.head? = some b → b ≠ c!"t" ∧ b ≠ c!"p") → b!"http" <+: u := by
      intro u t hu hne ht
      rw [← hq] at hu
      match u, hne with
      | [a], _ => simp at hu; rw [hu.2] at ht; exact absurd rfl (ht _ rfl).1
      | [a, b], _ => simp at hu; rw [hu.2.2] at ht; exact absurd rfl (ht _ rfl).1
      | [a, b, d], _ => simp at hu; rw [hu.2.2.2] at ht; exact absurd rfl (ht _ rfl).2
      | a :: b :: d :: e :: u, _ => simp at hu; simp [hu]
    rcases key l after hl he hst with ⟨e1, u, e2, e3, e4⟩ | ⟨e1, e2, e3, e4⟩
    · rw [e1]
      refine ⟨u, e2, h4 u (c!"[" :: after) (by rw [hl, e2]; simp) ?_ (by simp), e3⟩
      rintro rfl; simp at e4
    · rw [e1]
      refine ⟨h4 l after hl.symm ?_ ?_, e2, e3⟩
      · rintro rfl; simp at e4
      · intro b hb
        have hnp : ¬Punct c!"t" ∧ ¬Punct c!"p" := by unfold Punct; decide
        have hnu : c!"t" ∉ urlPunct ∧ c!"p" ∉ urlPunct := by decide
        rcases e3 with ⟨e3 | e3 | e3, _⟩ | ⟨x, r, e3, e5, _⟩ | ⟨x, r, e3, e5, _⟩
        · rw [e3] at hb; simp at hb
        · rw [e3] at hb; simp at hb; subst hb; decide
        · rw [e3] at hb; simp at hb; subst hb; decide
        · rw [e3] at hb; simp at hb; subst hb
          exact ⟨fun h => hnu.1 (h ▸ e5), fun h => hnu.2 (h ▸ e5)⟩
        · rw [e3] at hb; simp at hb; subst hb
          exact ⟨fun h => hnp.1 (h ▸ e5), fun h => hnp.2 (h ▸ e5)⟩

/-- What is known of a cell that goes on after `w`. -/
theorem cellLoop (n : Nat) : ∀ w q : Str, rest = w ++ q → s.src.length + 1 ≤ n + (s.start + 1 + w.length) →
    Starts q → (∀ b ∈ w, b ≠ 10 ∧ b ≠ 0 ∧ b.toNat < 128) →
    (∀ p q, c :: w = p ++ c!"|" :: q → p ≠ [] → p.getLast? ≠ some c!" ") →
    ∀ l after, c :: rest = l ++ after → tableCellEnd s.src n (s.start + 1 + w.length) = s.start + l.length → Starts after →
    (∃ body, l = c :: body ∧ ∀ b ∈ body, b ≠ 10 ∧ b ≠ 0 ∧ b.toNat < 128)
    ∧ (∀ p q, l = p ++ c!"|" :: q → p ≠ [] → p.getLast? ≠ some c!" ")
    ∧ (after = [] ∨ after.head? = some 10 ∨ after.head? = some 0
      ∨ after.head? = some c!"|" ∧ l.getLast? = some c!" ") := by
  induction n with
  | zero =>
    intro w q hr hn hq hw hpipe l after hl he _
    exfalso
    simp only [tableCellEnd] at he
    have := congrArg List.length hl
    have h2 := H.srcLen
    simp only [List.length_cons, List.length_append] at this
    omega
  | succ n ih =>
    intro w q hr hn hq hw hpipe l after hl he hst
    have hlen := H.srcLen
    obtain ⟨v, q', hqv, hadv, hv, hstop⟩ := H.split_at (fun b => b ≠ c!"\n" && b ≠ 0 && b ≠ c!"|") hr
    have hr' : rest = w ++ v ++ q' := by rw [hr, hqv, List.append_assoc]
    rw [tableCellEnd] at he
    rw [hadv, H.peekAt hr', H.getD_last hr'] at he
    generalize hpk : (q'.head?.map low).getD 0 = y at he
    have hvc : ∀ b ∈ v, isCont b = false ∧ b ≠ 10 ∧ b ≠ 0 ∧ b ≠ c!"|" := by
      intro b hb
      have := hv b hb
      simp only [Bool.and_eq_true, decide_eq_true_eq, ne_eq] at this
      have hc : isCont b = false := by
        cases h : isCont b with
        | false => rfl
        | true => simp [low, h] at this
      rw [show low b = b by simp [low, hc]] at this
      exact ⟨hc, this.1.1, this.1.2, this.2⟩
    have htext : Starts q' → ∀ b ∈ w ++ v, b ≠ 10 ∧ b ≠ 0 ∧ b.toNat < 128 := by
      intro hs b hb
      rcases List.mem_append.1 hb with hb | hb
      · exact hw b hb
      · have := hvc b hb
        exact ⟨this.2.1, this.2.2.1, H.all_ascii v w q' hr' (by rw [← hqv]; exact hq) (fun b hb => (hvc b hb).1) hs b hb⟩
    have hpipe' : ∀ p q, c :: (w ++ v) = p ++ c!"|" :: q → p ≠ [] → p.getLast? ≠ some c!" " := by
      intro p q hpq hp
      by_cases hlt : p.length < (c :: w).length
      · -- the pipe is in `w`
        have h1 : p ++ [c!"|"] <+: c :: w := by
          refine List.prefix_of_prefix_length_le (l₃ := c :: (w ++ v)) ⟨q, by rw [hpq]; simp⟩ ⟨v, by simp⟩ ?_
          simp at hlt ⊢; omega
        obtain ⟨t, ht⟩ := h1
        exact hpipe p t (by rw [← ht]; simp) hp
      · -- the pipe is in `v`
        exfalso
        have h1 : c :: w <+: p := by
          refine List.prefix_of_prefix_length_le (l₃ := c :: (w ++ v)) ⟨v, by simp⟩ ⟨_, hpq.symm⟩ ?_
          omega
        obtain ⟨t, rfl⟩ := h1
        have h2 : v = t ++ c!"|" :: q := by
          have : c :: w ++ v = (c :: w) ++ (t ++ c!"|" :: q) := by rw [List.cons_append, hpq]; simp
          exact List.append_cancel_left this
        exact (hvc c!"|" (by rw [h2]; simp)).2.2.2 rfl
    split at he
    · rename_i h1
      cases q' with
      | nil => rw [← hpk] at h1; simp at h1
      | cons b q' =>
        have hb : b = c!"|" := low_eq (by rw [hpk.symm] at h1; simpa using h1.1) (by decide)
        subst hb
        have h5 : s.start + 1 + (w ++ v).length + 1 = s.start + 1 + (w ++ v ++ [c!"|"]).length := by simp; omega
        rw [h5] at he
        have hs' : Starts (c!"|" :: q') := starts_ascii _ _ (by decide)
        refine ih (w ++ v ++ [c!"|"]) q' (by rw [hr']; simp) (by simp; omega)
          (H.starts (p := before ++ c :: (w ++ v)) (x := c!"|") (by rw [H.src, hr']; simp) (by decide)) ?_ ?_ l after hl he hst
        · intro b hb
          rcases List.mem_append.1 hb with hb | hb
          · exact htext hs' b hb
          · simp at hb; subst hb; decide
        · intro p q hpq hp
          rcases List.eq_nil_or_concat q with rfl | ⟨q1, z, rfl⟩
          · have h6 : c :: (w ++ v) ++ [c!"|"] = p ++ [c!"|"] := by rw [← hpq]; simp
            have h7 := List.append_cancel_right h6
            rw [← h7]
            intro hsp
            apply h1.2
            rw [List.getLastD_eq_getLast?, hsp]; rfl
          · have h6 : c :: (w ++ v) ++ [c!"|"] = (p ++ c!"|" :: q1) ++ [z] := by
              rw [List.cons_append, hpq]; simp
            have h7 := (List.append_inj' h6 rfl).1
            exact hpipe' p q1 h7 hp
    · rename_i h1
      have h2 : l = c :: (w ++ v) ∧ after = q' := by
        have : c :: rest = (c :: (w ++ v)) ++ q' := by rw [hr']; simp
        exact List.append_inj (hl.symm.trans this) (by simp at he ⊢; omega)
      obtain ⟨rfl, rfl⟩ := h2
      refine ⟨⟨w ++ v, rfl, htext hst⟩, hpipe', ?_⟩
      cases after with
      | nil => exact .inl rfl
      | cons b r =>
        have hbc := hst b rfl
        have h3 := hstop b rfl
        simp only [List.head?_cons, Option.map_some, Option.getD_some, low, hbc] at hpk
        simp only [low, hbc] at h3
        simp only [Bool.false_eq_true, if_false] at hpk h3
        subst hpk
        simp only [Bool.and_eq_false_iff, decide_eq_false_iff_not, ne_eq, Decidable.not_not] at h3
        rcases h3 with (rfl | rfl) | rfl
        · right; left; rfl
        · right; right; left; rfl
        · right; right; right
          refine ⟨rfl, ?_⟩
          have : (c :: (w ++ v)).getLastD 0 = c!" " := by
            simp only [true_and, Decidable.not_not] at h1
            simpa using h1
          rw [List.getLastD_eq_getLast?] at this
          cases h8 : (c :: (w ++ v)).getLast? with
          | none => simp at h8
          | some z => rw [h8] at this; simp at this; rw [this]

theorem cell (hc : c = c!"|") (hb : LineStart before ∨ before.getLast? = some c!" ")
    (hn : ¬(LineStart before ∧ b!"===" <+: rest)) : Out before s (addTableCell (at_ s (s.start + 1))) := by
  subst hc
  unfold addTableCell
  have key := H.cellLoop (s.src.length + 1 - (s.start + 1)) [] rest rfl (by simp; omega) (H.starts_rest (by decide))
    (by simp) (by
      intro p q h hp
      exfalso
      cases p with
      | nil => exact hp rfl
      | cons x p =>
        have := congrArg List.length h
        simp at this)
  simp only [List.length_nil, Nat.add_zero] at key
  have hge := tableCellEnd_ge s.src (s.src.length + 1 - (s.start + 1)) (s.start + 1)
  refine H.add .tableCell true 0 _ (by dsimp only; omega) (by decide) (by decide) ?_
  intro l after hl he hst
  obtain ⟨k1, k2, k3⟩ := key l after hl he hst
  refine ⟨hb, k1, k2, k3, ?_⟩
  rintro ⟨a, t, ht⟩
  refine hn ⟨a, t ++ after, ?_⟩
  rw [← ht] at hl
  simp at hl
  rw [hl]; rfl

/-- Where a pattern is found. -/
theorem find {pat : Str} (hp : pat ≠ []) (ha : ∀ b ∈ pat, b.toNat < 128) (h0 : pat ≠ [0]) (n : Nat) : ∀ i j : Nat,
    findPat s.src pat n i = some j → s.src.length + 1 ≤ n + i →
    j < s.src.length → pat <+: s.src.drop j ∧ i ≤ j ∧ ∀ k, i ≤ k → k < j → ¬pat <+: s.src.drop k := by
  induction n with
  | zero => intro i j h h1 h2; simp [findPat] at h; omega
  | succ n ih =>
    intro i j h h1 h2
    rw [findPat] at h
    split at h
    · simp at h; omega
    · split at h
      · cases h
      · split at h
        · rename_i hm
          simp at h; subst h
          exact ⟨(H.peeksAt_iff hp ha h0 i).1 hm, Nat.le_refl _, fun k h3 h4 => by omega⟩
        · rename_i hm
          obtain ⟨e1, e2, e3⟩ := ih (i + 1) j h (by omega) h2
          refine ⟨e1, by omega, ?_⟩
          intro k h3 h4
          by_cases hk : k = i
          · subst hk; exact fun hx => hm ((H.peeksAt_iff hp ha h0 k).2 hx)
          · exact e3 k (by omega) h4

/-- The text up to where a pattern is found. -/
theorem find_body {pat : Str} (hp : pat ≠ []) (ha : ∀ b ∈ pat, b.toNat < 128) (h0 : pat ≠ [0]) {j : Nat}
    (h : findPat s.src pat (s.src.length + 1 - (s.start + 1)) (s.start + 1) = some j) (hj : j < s.src.length) :
    ∃ p q, rest = p ++ (pat ++ q) ∧ j = s.start + 1 + p.length ∧ ¬pat <:+: p ++ pat.dropLast := by
  have hlen := H.srcLen
  obtain ⟨⟨q, hq⟩, h1, h2⟩ := H.find hp ha h0 _ _ _ h (by omega) hj
  have hd := H.drop
  have hsp : rest = rest.take (j - (s.start + 1)) ++ (pat ++ q) := by
    conv => lhs; rw [← List.take_append_drop (j - (s.start + 1)) rest]
    rw [hq, ← hd, List.drop_drop, Nat.add_sub_cancel' h1]
  refine ⟨rest.take (j - (s.start + 1)), q, hsp, ?_, ?_⟩
  · rw [List.length_take]; omega
  · rintro ⟨a, b, hab⟩
    have hpl := List.length_pos_iff.2 hp
    have hl1 := congrArg List.length hab
    simp only [List.length_append, List.length_dropLast] at hl1
    refine h2 (s.start + 1 + a.length) (by omega) ?_ ?_
    · rw [List.length_take] at hl1; omega
    · rw [← List.drop_drop, hd, hsp]
      have h3 : rest.take (j - (s.start + 1)) ++ (pat ++ q) = a ++ (pat ++ (b ++ ([pat.getLast hp] ++ q))) := by
        have h4 : a ++ (pat ++ (b ++ ([pat.getLast hp] ++ q))) = (a ++ pat ++ b) ++ ([pat.getLast hp] ++ q) := by simp
        rw [h4, hab, List.append_assoc]
        congr 1
        rw [← List.append_assoc, List.dropLast_concat_getLast]
      rw [h3, List.drop_left]
      exact List.prefix_append ..

omit H in
theorem validate_blank (ty : TokenType) (h : ty = .blockAnchor ∨ ty = .crossReference) (l : Str) (o : Option Str) (a b d : Nat)
    (fs : List Str) : (Blank l ∧ (Token.validate ⟨ty, l, o, a, b, d, fs⟩).ty = .text)
      ∨ (¬Blank l ∧ (Token.validate ⟨ty, l, o, a, b, d, fs⟩).ty = ty) := by
  have hb : (l.contains c!" " || l.contains c!"\n") = true ↔ Blank l := by
    unfold Blank; simp
  by_cases h1 : Blank l
  · left; refine ⟨h1, ?_⟩
    unfold Token.validate
    rcases h with rfl | rfl <;> dsimp only <;> rw [if_pos (hb.2 h1)]
  · right; refine ⟨h1, ?_⟩
    unfold Token.validate
    rcases h with rfl | rfl <;> dsimp only <;> rw [if_neg (fun h => h1 (hb.1 h))]

theorem xref (hc : c = c!"<") (hx : rest.head? = some c!"<") (hp : ¬b!"<<\n" <+: rest) :
    Out before s (addCrossReference (at_ s (s.start + 1))) := by
  subst hc
  unfold addCrossReference
  dsimp only
  split
  · exact out_panic
  · rename_i j hj
    have hge := findPat_ge _ _ _ _ _ hj
    refine H.add' .crossReference true 0 _ (by omega) ?_
    intro l after hl he hst
    have hlen := H.srcLen
    have h1 := congrArg List.length hl
    simp only [List.length_cons, List.length_append] at h1
    obtain ⟨p, q, hr, hjp, hno⟩ := H.find_body (pat := b!">>") (by decide) (by decide) (by decide) hj (by omega)
    obtain ⟨x, hx'⟩ : ∃ x, p = c!"<" :: x := by
      cases p with
      | nil => rw [hr] at hx; simp at hx
      | cons y x => rw [hr] at hx; simp at hx; exact ⟨x, by rw [hx]⟩
    subst hx'
    have h2 : c!"<" :: rest = (b!"<<" ++ x ++ b!">>") ++ q := by rw [hr]; simp
    obtain ⟨rfl, rfl⟩ := List.append_inj (hl.symm.trans h2) (by simp at hjp ⊢; omega)
    have href : Reference before (b!"<<" ++ x ++ b!">>") after := by
      refine ⟨⟨x, rfl, ?_⟩, ?_⟩
      · intro hi
        apply hno
        exact hi.trans (by simpa using (List.suffix_cons c!"<" (x ++ b!">")).isInfix)
      · rw [← hl]
        intro hx
        exact hp ((List.prefix_cons_inj c!"<").1 hx)
    rcases validate_blank .crossReference (.inr rfl) (b!"<<" ++ x ++ b!">>") _ _ _ _ _ with ⟨hb, hv⟩ | ⟨hb, hv⟩
    · rw [hv]; exact .inr ⟨hb, .inr href⟩
    · rw [hv]; exact ⟨href, hb⟩

theorem anchor (hc : c = c!"[") (hx : rest.head? = some c!"[") (hs : LineStart before) :
    Out before s (addBlockAnchor (at_ s (s.start + 1))) := by
  subst hc
  unfold addBlockAnchor
  dsimp only
  split
  · exact out_panic
  · rename_i j hj
    have hge := findPat_ge _ _ _ _ _ hj
    refine H.add' .blockAnchor true 0 _ (by omega) ?_
    intro l after hl he hst
    have hlen := H.srcLen
    have h1 := congrArg List.length hl
    simp only [List.length_cons, List.length_append] at h1
    obtain ⟨p, q, hr, hjp, hno⟩ := H.find_body (pat := b!"]]\n") (by decide) (by decide) (by decide) hj (by omega)
    obtain ⟨x, hx'⟩ : ∃ x, p = c!"[" :: x := by
      cases p with
      | nil => rw [hr] at hx; simp at hx
      | cons y x => rw [hr] at hx; simp at hx; exact ⟨x, by rw [hx]⟩
    subst hx'
    have h2 : c!"[" :: rest = (b!"[[" ++ x ++ b!"]]") ++ (10 :: q) := by rw [hr]; simp
    obtain ⟨rfl, rfl⟩ := List.append_inj (hl.symm.trans h2) (by simp at hjp ⊢; omega)
    have href : Anchor before (b!"[[" ++ x ++ b!"]]") (10 :: q) := by
      refine ⟨hs, rfl, x, rfl, ?_⟩
      intro hi
      apply hno
      exact hi.trans (by simpa using (List.suffix_cons c!"[" (x ++ b!"]]")).isInfix)
    rcases validate_blank .blockAnchor (.inl rfl) (b!"[[" ++ x ++ b!"]]") _ _ _ _ _ with ⟨hb, hv⟩ | ⟨hb, hv⟩
    · rw [hv]; exact .inr ⟨hb, .inl href⟩
    · rw [hv]; exact ⟨href, hb⟩

theorem digits {w q : Str} (hr : rest = w ++ q) : ∃ ds q', q = ds ++ q' ∧ Digits ds ∧
    Scanner.adv s.src isDigit (s.start + 1 + w.length) = s.start + 1 + (w ++ ds).length
    ∧ ∀ b, q'.head? = some b → ¬Digits [b] := by
  obtain ⟨v, q', h1, h2, h3, h4⟩ := H.split_at isDigit hr
  refine ⟨v, q', h1, ?_, h2, ?_⟩
  rotate_left
  · intro b hb hd
    have h5 := hd b (by simp)
    have := h4 b hb
    rw [low_ascii (by omega)] at this
    rw [(isDigit_iff b).2 h5] at this; cases this
  intro b hb
  have := h3 b hb
  have hc : isCont b = false := by
    cases h : isCont b with
    | false => rfl
    | true => simp [low, h, isDigit] at this
  rw [show low b = b by simp [low, hc]] at this
  exact (isDigit_iff b).1 this

omit H in
theorem digits_stop {ds : Str} (h : Digits ds) : ∀ b ∈ ds, b ∉ stops := by
  intro b hb hm
  have := h b hb
  have h2 : ∀ b ∈ stops, ¬(48 ≤ b.toNat ∧ b.toNat ≤ 57) := by decide
  exact h2 b hm this

/-- The digits of a callout and the `>` after them. -/
theorem callout {w q : Str} (hr : rest = w ++ q) : ∃ ds q', q = ds ++ q' ∧ Digits ds ∧
    ((∃ r, q' = c!">" :: r ∧ calloutScan (at_ s (s.start + 1 + w.length)) = (true, at_ s (s.start + 1 + (w ++ ds ++ [c!">"]).length)))
    ∨ calloutScan (at_ s (s.start + 1 + w.length)) = (false, at_ s (s.start + 1 + (w ++ ds).length))
      ∧ ∀ b, q'.head? = some b → ¬Digits [b] ∧ b ≠ c!">") := by
  obtain ⟨ds, q', h1, h2, h3, h4⟩ := H.digits hr
  have hr' : rest = (w ++ ds) ++ q' := by rw [hr, h1, List.append_assoc]
  refine ⟨ds, q', h1, h2, ?_⟩
  unfold calloutScan
  dsimp only
  rw [h3, H.peekAt hr']
  split
  · rename_i hp
    left
    cases q' with
    | nil => simp at hp
    | cons b r =>
      have : b = c!">" := low_eq (by simpa using hp) (by decide)
      subst this
      exact ⟨r, rfl, by simp [Nat.add_assoc]⟩
  · rename_i hp
    right
    refine ⟨rfl, fun b hb => ⟨h4 b hb, ?_⟩⟩
    rintro rfl
    rw [hb] at hp
    exact hp rfl

theorem peek_at {w q : Str} (hr : rest = w ++ q) {x : UInt8} (hx : x ≠ 0)
    (h : Scanner.peek (at_ s (s.start + 1 + w.length)) = x) : ∃ r, q = x :: r := by
  have h' : Scanner.peekAt s.src (s.start + 1 + w.length) = x := h
  rw [H.peekAt hr] at h'
  cases q with
  | nil => exact absurd h'.symm hx
  | cons b r =>
    have : b = x := low_eq (by simpa using h') hx
    exact ⟨r, by rw [this]⟩

omit H in
theorem stops_gt {w ds : Str} (h : ∀ b ∈ w, b ∉ stops) (hd : Digits ds) : ∀ b ∈ w ++ ds ++ [c!">"], b ∉ stops := by
  intro b hb
  rcases List.mem_append.1 hb with hb | hb
  · rcases List.mem_append.1 hb with hb | hb
    · exact h b hb
    · exact digits_stop hd b hb
  · simp at hb; subst hb; decide

omit H in
theorem stops_ds {w ds : Str} (h : ∀ b ∈ w, b ∉ stops) (hd : Digits ds) : ∀ b ∈ w ++ ds, b ∉ stops := by
  intro b hb
  exact stops_gt h hd b (List.mem_append_left _ hb)

/-- The second callout test. -/
theorem calloutTail {w q : Str} (hr : rest = w ++ q) (hw : ∀ b ∈ w, b ∉ stops)
    (h : ∀ ds r, q = ds ++ c!">" :: 10 :: r → Digits ds → Lexeme .codeCallout before (c :: w ++ ds ++ [c!">"]) (10 :: r)) :
    Out before s (if (startsCallout (at_ s (s.start + 1 + w.length))).1 = true then
        addToken (startsCallout (at_ s (s.start + 1 + w.length))).2 .codeCallout true 0
      else (startsCallout (at_ s (s.start + 1 + w.length))).2.addText) := by
  obtain ⟨ds, q', h1, h2, h3⟩ := H.callout hr
  unfold startsCallout
  rcases h3 with ⟨r, h3, h4⟩ | ⟨h4, h5⟩
  · rw [h4]
    have hr' : rest = (w ++ ds ++ [c!">"]) ++ r := by rw [hr, h1, h3]; simp
    refine .ite (fun hp => ?_) fun _ => H.text _ _ hr' (stops_gt hw h2) _ rfl
    simp only [Bool.true_and, decide_eq_true_eq] at hp
    obtain ⟨r', rfl⟩ := H.peek_at hr' (by decide) hp
    exact H.fixed _ true 0 _ (c :: w ++ ds ++ [c!">"]) (c!"\n" :: r') (by rw [hr']; simp) (by simp; omega) (by decide)
      (by decide) (by simp) (h ds r' (by rw [h1, h3]) h2)
  · rw [h4]
    refine .ite (fun hp => by simp at hp) fun _ => ?_
    exact H.text (w ++ ds) q' (by rw [hr, h1, List.append_assoc]) (stops_ds hw h2) _ rfl

theorem callouts (hc : c = c!"<") : Out before s (scanCallouts (at_ s (s.start + 1))) := by
  subst hc
  unfold scanCallouts
  refine .ite (fun hl => ?_) fun hl => ?_
  · rw [H.newLine] at hl
    obtain ⟨ds, q', h1, h2, h3⟩ := H.callout (w := []) (q := rest) rfl
    unfold startsCalloutListItem
    dsimp only
    simp only [List.length_nil, Nat.add_zero, List.nil_append] at h3
    rcases h3 with ⟨r, h3, h4⟩ | ⟨h4, h5⟩
    · rw [h4]
      have hr' : rest = (ds ++ [c!">"]) ++ r := by rw [h1, h3]; simp
      refine .ite (fun hp => ?_) fun _ => ?_
      · simp only [Bool.true_and, decide_eq_true_eq] at hp
        obtain ⟨r', rfl⟩ := H.peek_at hr' (by decide) hp
        exact H.fixed _ true 0 _ (b!"<" ++ ds ++ b!"> ") r' (by rw [hr']; simp) (by simp; omega) (by decide)
          (by decide) (by simp) ⟨hl, ds, h2, rfl⟩
      · refine H.calloutTail hr' (stops_gt (w := []) (by simp) h2) ?_
        intro es r' _ hes
        exact ⟨rfl, .inr ⟨hl, ds, es, h2, hes, by simp⟩⟩
    · rw [h4]
      refine .ite (fun hp => by simp at hp) fun _ => ?_
      refine H.calloutTail h1 (digits_stop h2) ?_
      intro es r' he hes
      -- the first test stopped before `>`, so there is none after the digits
      exfalso
      cases es with
      | nil => exact (h5 c!">" (by rw [he]; rfl)).2 rfl
      | cons e es => exact (h5 e (by rw [he]; rfl)).1 (fun b hb => hes b (by simp at hb; subst hb; simp))
  · rw [H.newLine] at hl
    refine H.calloutTail (w := []) (q := rest) rfl (by simp) ?_
    intro es r' _ hes
    exact ⟨rfl, .inl ⟨hl, es, hes, by simp⟩⟩

end Here
end Adoc.Scanner
