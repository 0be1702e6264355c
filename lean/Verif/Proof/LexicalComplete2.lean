import Verif.Proof.LexicalComplete
/-!
# Links, cells and callouts are found where the lexical grammar has them
-/
namespace Adoc.Scanner
open Lexical Props

theorem isUrlPunct_iff (b : UInt8) : isUrlPunct b = true ↔ b ∈ urlPunct := by unfold isUrlPunct urlPunct; simp

theorem urlPunct_punct : ∀ b ∈ urlPunct, Punct b ∧ b.toNat < 128 ∧ b ≠ 0 ∧ b ≠ c!" " ∧ b ≠ c!"[" := by
  unfold Punct; decide

namespace Here
variable {before rest : Str} {c : UInt8} {s : Scanner} (H : Here before c rest s)
include H

/-- The byte after the next one. -/
theorem second {w : Str} {x y : UInt8} {r : Str} (hr : rest = w ++ x :: y :: r) (hx : x.toNat < 128) (hy : y.toNat < 128) :
    (peeksAheadAt s.src (s.start + 1 + w.length) 2).getLastD 0 = y := by
  by_cases h0 : [x, y] = [0]
  · simp at h0
  have := (H.peeksAt_iff (pat := [x, y]) (by simp) (by
    intro b hb; simp at hb; rcases hb with rfl | rfl
    · exact hx
    · exact hy) h0 (s.start + 1 + w.length)).2 (by
      rw [← List.drop_drop, H.drop, hr, List.drop_left]; exact ⟨r, rfl⟩)
  simp only [List.length_cons, List.length_nil] at this
  rw [this]; rfl

theorem second_stop {w : Str} {x : UInt8} {r : Str} (hr : rest = w ++ x :: r) (hx : x.toNat < 128) (h : UrlStop r) :
    (peeksAheadAt s.src (s.start + 1 + w.length) 2).getLastD 0 = 0
      ∨ (peeksAheadAt s.src (s.start + 1 + w.length) 2).getLastD 0 = c!" " := by
  have hn := H.peeks_none (p := before ++ c :: w) (x := x) (r := r) (by rw [H.src, hr]; simp) (by simp) hx
  have hl : (before ++ c :: w).length = s.start + 1 + w.length := by rw [H.start]; simp; omega
  rw [hl] at hn
  rcases h with h | ⟨b, hb, h | h | h⟩
  · left; rw [hn.2 (.inl h)]; rfl
  · cases r with
    | nil => cases hb
    | cons y r =>
      simp at hb; subst hb; subst h
      left; exact H.second hr hx (by decide)
  · cases r with
    | nil => cases hb
    | cons y r =>
      simp at hb; subst hb; subst h
      right; exact H.second hr hx (by decide)
  · left
    rw [hn.2 (.inr ⟨b, hb, ?_⟩)]; rfl
    have hst := H.starts (p := before ++ c :: w) (x := x) (q := r) (by rw [H.src, hr]; simp) hx
    have := hst b hb
    rw [isCont_false_iff] at this
    omega

omit H in
theorem urlText_low {u : Str} (h : UrlText u) : ∀ b ∈ u, low b = b := fun b hb => low_ascii (h b hb).2.2.1

omit H in
/-- A URL text is plain up to its first punctuation mark. -/
theorem url_split : ∀ (v : Str), UrlText v → (∀ b ∈ v, ¬Punct b) ∨ ∃ v1 b v2, v = v1 ++ b :: v2 ∧ (∀ b ∈ v1, ¬Punct b) ∧ b ∈ urlPunct
  | [], _ => .inl (by simp)
  | b :: v, h => by
    by_cases hb : Punct b
    · exact .inr ⟨[], b, v, rfl, by simp, (h b (by simp)).2.2.2 hb⟩
    · rcases url_split v (fun b hb => h b (List.mem_cons_of_mem _ hb)) with h' | ⟨v1, x, v2, h1, h2, h3⟩
      · left; intro x hx; simp at hx; rcases hx with rfl | hx
        · exact hb
        · exact h' x hx
      · right
        refine ⟨b :: v1, x, v2, by rw [h1]; rfl, ?_, h3⟩
        intro y hy; simp at hy; rcases hy with rfl | hy
        · exact hb
        · exact h2 y hy

/-- The link goes on through `v` and ends before `after`. -/
theorem linkLoopC (n : Nat) : ∀ w v after : Str, rest = w ++ (v ++ after) → s.src.length + 1 ≤ n + (s.start + 1 + w.length) →
    UrlText v → Starts after →
    (after.head? = some c!"[" → linkEnd s.src n (s.start + 1 + w.length) = (.linkMacro, s.start + 1 + w.length + v.length + 1))
    ∧ ((∀ b, v.getLast? = some b → b ∈ urlPunct → ¬UrlStop after) →
        (after = [] ∨ after.head? = some 0 ∨ after.head? = some c!" " ∨ (∃ b r, after = b :: r ∧ b ∈ urlPunct ∧ UrlStop r)
        ∨ (∃ b r, after = b :: r ∧ Punct b ∧ b ∉ urlPunct ∧ b ≠ c!"[")) →
      linkEnd s.src n (s.start + 1 + w.length) = (.hyperlink, s.start + 1 + w.length + v.length)) := by
  induction n with
  | zero =>
    intro w v after hr hn
    have := H.srcLen
    rw [hr] at this; simp at this; omega
  | succ n ih =>
    intro w v after hr hn hv hst
    rw [linkEnd]
    dsimp only
    have hpu : ∀ b : UInt8, isAsciiPunct b = false ↔ ¬Punct b := by
      intro b; rw [← isAsciiPunct_iff]; simp
    rcases url_split v hv with hnp | ⟨v1, b, v2, hvs, hnp, hb⟩
    · -- no punctuation left
      have hadv : ∀ (_ : ∀ b, after.head? = some b → low b = 0 ∨ low b = c!" " ∨ Punct (low b)),
          Scanner.adv s.src (fun b => b ≠ 0 && b ≠ c!" " && !isAsciiPunct b) (s.start + 1 + w.length)
            = s.start + 1 + w.length + v.length := by
        intro hstop
        refine H.advTo _ hr ?_ ?_
        · intro b hb
          have := hv b hb
          rw [low_ascii this.2.2.1]
          simp [this.1, this.2.1, (hpu b).2 (hnp b hb)]
        · intro b hb
          rcases hstop b hb with h | h | h
          · simp [h]
          · simp [h]
          · simp [(isAsciiPunct_iff _).2 h]
      have hr' : rest = (w ++ v) ++ after := by rw [hr]; simp
      have hpk : Scanner.peekAt s.src (s.start + 1 + w.length + v.length) = after.head?.getD 0 := by
        have := H.peekAt hr'
        rw [show s.start + 1 + (w ++ v).length = s.start + 1 + w.length + v.length by simp; omega] at this
        rw [this]
        cases after with
        | nil => rfl
        | cons y r => simp [low, hst y rfl]
      have hlowh : ∀ b, after.head? = some b → low b = b := by
        intro b hb; simp [low, hst b hb]
      constructor
      · intro hh
        rw [hadv (by
          intro b hb; rw [hlowh b hb]; rw [hh] at hb; cases hb
          right; right; unfold Punct; decide), hpk, hh]
        simp
      · intro hlast hend
        rw [hadv (by
          intro b hb; rw [hlowh b hb]
          rcases hend with h | h | h | ⟨x, r, h, h1, _⟩ | ⟨x, r, h, h1, _⟩
          · rw [h] at hb; cases hb
          · rw [h] at hb; cases hb; exact .inl rfl
          · rw [h] at hb; cases hb; exact .inr (.inl rfl)
          · rw [h] at hb; cases hb; exact .inr (.inr (urlPunct_punct _ h1).1)
          · rw [h] at hb; cases hb; exact .inr (.inr h1)), hpk]
        rcases hend with h | h | h | ⟨x, r, h, h1, h2⟩ | ⟨x, r, h, h1, h2, h3⟩
        · rw [h]; simp
        · rw [h]; simp
        · rw [h]; simp
        · obtain ⟨_, h4, h5, h6, h7⟩ := urlPunct_punct _ h1
          rw [h]
          have hs2 := H.second_stop (w := w ++ v) (x := x) (r := r) (by rw [hr', h]) h4 h2
          rw [show s.start + 1 + (w ++ v).length = s.start + 1 + w.length + v.length by simp; omega] at hs2
          simp only [List.head?_cons, Option.getD_some, h7, h5, h6, if_false, or_self, (isUrlPunct_iff x).2 h1, if_true]
          rw [if_pos hs2]
        · rw [h]
          have h5 : x ≠ 0 := by rintro rfl; revert h1; unfold Punct; decide
          have h6 : x ≠ c!" " := by rintro rfl; revert h1; unfold Punct; decide
          have h7 : isUrlPunct x = false := by
            cases hu : isUrlPunct x with
            | false => rfl
            | true => exact absurd ((isUrlPunct_iff x).1 hu) h2
          simp [h3, h5, h6, h7]
    · -- a punctuation mark inside
      obtain ⟨h1, h2, h3, h4, h5⟩ := urlPunct_punct _ hb
      have hv1 : ∀ x ∈ v1, x ∈ v := by intro x hx; rw [hvs]; simp [hx]
      have hadv : Scanner.adv s.src (fun b => b ≠ 0 && b ≠ c!" " && !isAsciiPunct b) (s.start + 1 + w.length)
            = s.start + 1 + w.length + v1.length := by
        refine H.advTo _ (q := b :: v2 ++ after) (by rw [hr, hvs]; simp) ?_ ?_
        · intro b hb
          have := hv b (hv1 b hb)
          rw [low_ascii this.2.2.1]
          simp [this.1, this.2.1, (hpu b).2 (hnp b hb)]
        · intro x hx
          simp at hx; subst hx
          rw [low_ascii h2]
          simp [(isAsciiPunct_iff _).2 h1]
      have hr1 : rest = (w ++ v1) ++ (b :: v2 ++ after) := by rw [hr, hvs]; simp
      have hpk : Scanner.peekAt s.src (s.start + 1 + w.length + v1.length) = b := by
        have := H.peekAt hr1
        rw [show s.start + 1 + (w ++ v1).length = s.start + 1 + w.length + v1.length by simp; omega] at this
        rw [this]
        simp [low_ascii h2]
      have hv2 : UrlText v2 := fun x hx => hv x (by rw [hvs]; simp [hx])
      have hsec : (∀ y r, v2 ++ after = y :: r → y.toNat < 128 → y ≠ 0 ∧ y ≠ c!" ") → (∃ y r, v2 ++ after = y :: r ∧ y.toNat < 128) →
          ¬((peeksAheadAt s.src (s.start + 1 + w.length + v1.length) 2).getLastD 0 = 0
            ∨ (peeksAheadAt s.src (s.start + 1 + w.length + v1.length) 2).getLastD 0 = c!" ") := by
        rintro ha ⟨y, r, hy, hy'⟩
        have := H.second (w := w ++ v1) (x := b) (y := y) (r := r) (by rw [hr1, List.cons_append, hy]) h2 hy'
        rw [show s.start + 1 + (w ++ v1).length = s.start + 1 + w.length + v1.length by simp; omega] at this
        rw [this]
        have := ha y r hy hy'
        simp [this.1, this.2]
      have hih := ih (w ++ v1 ++ [b]) v2 after (by rw [hr1]; simp) (by simp; omega) hv2 hst
      rw [show s.start + 1 + (w ++ v1 ++ [b]).length = s.start + 1 + w.length + v1.length + 1 by simp; omega] at hih
      rw [hadv, hpk, if_neg h5, if_neg (by simp [h3, h4]), if_pos ((isUrlPunct_iff b).2 hb)]
      have hlen : v.length = v1.length + 1 + v2.length := by rw [hvs]; simp; omega
      constructor
      · intro hh
        rw [if_neg (hsec ?_ ?_), hih.1 hh, hlen]
        · congr 1; omega
        · intro y r hy _
          cases v2 with
          | nil =>
            cases after with
            | nil => cases hh
            | cons z after => simp at hh hy; rw [← hy.1, hh]; decide
          | cons z v2 =>
            simp at hy
            have := hv2 z (by simp)
            rw [← hy.1]; exact ⟨this.1, this.2.1⟩
        · cases v2 with
          | nil =>
            cases after with
            | nil => cases hh
            | cons z after => simp at hh; exact ⟨z, after, rfl, by rw [hh]; decide⟩
          | cons z v2 => exact ⟨z, v2 ++ after, rfl, (hv2 z (by simp)).2.2.1⟩
      · intro hlast hend
        have hl2 : v2 = [] → ∃ y r, after = y :: r ∧ y.toNat < 128 ∧ y ≠ 0 ∧ y ≠ c!" " := by
          rintro rfl
          have hns := hlast b (by rw [hvs]; simp) hb
          rcases hend with h | h | h | ⟨x, r, h, h1, _⟩ | ⟨x, r, h, h1, _⟩
          · exact absurd (.inl h) hns
          · exact absurd (.inr ⟨0, h, .inl rfl⟩) hns
          · exact absurd (.inr ⟨_, h, .inr (.inl rfl)⟩) hns
          · have := urlPunct_punct _ h1; exact ⟨x, r, h, this.2.1, this.2.2.1, this.2.2.2.1⟩
          · refine ⟨x, r, h, ?_, ?_, ?_⟩
            · revert h1; unfold Punct; omega
            · rintro rfl; revert h1; unfold Punct; decide
            · rintro rfl; revert h1; unfold Punct; decide
        rw [if_neg (hsec ?_ ?_), hih.2 ?_ hend, hlen]
        · congr 1; omega
        · intro x hx
          exact hlast x (by rw [hvs]; cases v2 with
            | nil => cases hx
            | cons z v2 => rw [List.getLast?_append]; rw [List.getLast?_cons_cons, hx]; rfl)
        · intro y r hy _
          cases v2 with
          | nil =>
            obtain ⟨y', r', h, _, h3, h4⟩ := hl2 rfl
            rw [h] at hy; simp at hy; rw [← hy.1]; exact ⟨h3, h4⟩
          | cons z v2 =>
            simp at hy
            have := hv2 z (by simp)
            rw [← hy.1]; exact ⟨this.1, this.2.1⟩
        · cases v2 with
          | nil => obtain ⟨y, r, h, h', _⟩ := hl2 rfl; exact ⟨y, r, h, h'⟩
          | cons z v2 => exact ⟨z, v2 ++ after, rfl, (hv2 z (by simp)).2.2.1⟩

theorem link_url {l after : Str} (hw : c :: rest = l ++ after) (hp : b!"http" <+: l) (hu : UrlText l)
    (hs : Starts after) :
    (after.head? = some c!"[" → addLink (at_ s (s.start + 1)) = addToken (at_ s (s.start + l.length + 1)) .linkMacro true 0)
    ∧ (UrlEnd l after → addLink (at_ s (s.start + 1)) = addToken (at_ s (s.start + l.length)) .hyperlink true 0) := by
  obtain ⟨v, rfl⟩ : ∃ v, l = c :: v := by
    cases l with
    | nil => simp at hp
    | cons x v => simp at hw; exact ⟨v, by rw [hw.1]⟩
  have hr : rest = v ++ after := by simpa using hw
  have hne : v ≠ [] := by rintro rfl; have := hp.length_le; simp at this
  obtain ⟨h1, h2⟩ := H.linkLoopC (s.src.length + 1 - (s.start + 1)) [] v after hr (by simp; omega)
    (fun b hb => hu b (List.mem_cons_of_mem _ hb)) hs
  simp only [List.length_nil, Nat.add_zero] at h1 h2
  have e : s.start + (c :: v).length = s.start + 1 + v.length := by simp; omega
  rw [e]
  constructor
  · intro h
    show addToken (at_ s (linkEnd s.src _ (s.start + 1)).2) _ true 0 = _
    show addToken (at_ s (linkEnd s.src (s.src.length + 1 - (s.start + 1)) (s.start + 1)).2)
      (linkEnd s.src (s.src.length + 1 - (s.start + 1)) (s.start + 1)).1 true 0 = _
    rw [h1 h]
  · intro h
    show addToken (at_ s (linkEnd s.src (s.src.length + 1 - (s.start + 1)) (s.start + 1)).2)
      (linkEnd s.src (s.src.length + 1 - (s.start + 1)) (s.start + 1)).1 true 0 = _
    rw [h2 ?_ ?_]
    · intro b hb hbu hstop
      have hb' : (c :: v).getLast? = some b := by
        cases v with
        | nil => exact absurd rfl hne
        | cons x v => rw [List.getLast?_cons_cons]; exact hb
      have hno : ∀ x r, after = x :: r → Punct x → False := by
        rintro x r rfl hx
        rcases hstop with h | ⟨y, hy, h⟩
        · cases h
        · cases hy
          unfold Punct at hx
          rcases h with rfl | rfl | h
          · revert hx; decide
          · revert hx; decide
          · omega
      rcases h with ⟨_, h⟩ | ⟨x, r, h, h3, _⟩ | ⟨x, r, h, h3, _⟩
      · exact h b hb' hbu
      · exact hno x r h (urlPunct_punct _ h3).1
      · exact hno x r h h3
    · rcases h with ⟨h | h | h, _⟩ | h | h
      · exact .inl h
      · exact .inr (.inl h)
      · exact .inr (.inr (.inl h))
      · exact .inr (.inr (.inr (.inl h)))
      · exact .inr (.inr (.inr (.inr h)))

omit H in
theorem mem_split : ∀ (x : UInt8) (v : Str), x ∉ v ∨ ∃ v1 v2, v = v1 ++ x :: v2 ∧ x ∉ v1
  | x, [] => .inl (by simp)
  | x, y :: v => by
    by_cases h : x = y
    · exact .inr ⟨[], v, by rw [h]; rfl, by simp⟩
    · rcases mem_split x v with h' | ⟨v1, v2, h1, h2⟩
      · left; simp [h, h']
      · exact .inr ⟨y :: v1, v2, by rw [h1]; rfl, by simp [h, h2]⟩

/-- The cell goes on through `v` and ends before `after`. -/
theorem cellLoopC (n : Nat) : ∀ w v after : Str, rest = w ++ (v ++ after) → s.src.length + 1 ≤ n + (s.start + 1 + w.length) →
    (∀ b ∈ v, b ≠ 10 ∧ b ≠ 0 ∧ b.toNat < 128) →
    (∀ p q, c :: (w ++ v) = p ++ c!"|" :: q → p ≠ [] → p.getLast? ≠ some c!" ") →
    (after = [] ∨ after.head? = some 10 ∨ after.head? = some 0
      ∨ after.head? = some c!"|" ∧ (c :: (w ++ v)).getLast? = some c!" ") →
    tableCellEnd s.src n (s.start + 1 + w.length) = s.start + 1 + w.length + v.length := by
  induction n with
  | zero =>
    intro w v after hr hn
    have := H.srcLen
    rw [hr] at this; simp at this; omega
  | succ n ih =>
    intro w v after hr hn hv hp hend
    rw [tableCellEnd]
    rcases mem_split c!"|" v with hno | ⟨v1, v2, hvs, hno⟩
    · have hadv : Scanner.adv s.src (fun b => b ≠ c!"\n" && b ≠ 0 && b ≠ c!"|") (s.start + 1 + w.length)
          = s.start + 1 + w.length + v.length := by
        refine H.advTo _ hr ?_ ?_
        · intro b hb
          have := hv b hb
          rw [low_ascii this.2.2]
          have h3 : b ≠ c!"|" := fun h => hno (h ▸ hb)
          simp [this.1, this.2.1, h3]
        · intro b hb
          rcases hend with h | h | h | h
          · rw [h] at hb; cases hb
          · rw [h] at hb; cases hb; decide
          · rw [h] at hb; cases hb; decide
          · rw [h.1] at hb; cases hb; decide
      have hr' : rest = (w ++ v) ++ after := by rw [hr]; simp
      have e : s.start + 1 + (w ++ v).length = s.start + 1 + w.length + v.length := by simp; omega
      have hpk := H.peekAt hr'
      have hlast := H.getD_last hr'
      rw [e] at hpk hlast
      rw [hadv, if_neg]
      rintro ⟨ha, hb⟩
      rw [hpk] at ha
      rw [hlast] at hb
      rcases hend with h | h | h | h
      · rw [h] at ha; revert ha; decide
      · rw [h] at ha; revert ha; decide
      · rw [h] at ha; revert ha; decide
      · apply hb; rw [List.getLastD_eq_getLast?, h.2]; rfl
    · have hadv : Scanner.adv s.src (fun b => b ≠ c!"\n" && b ≠ 0 && b ≠ c!"|") (s.start + 1 + w.length)
          = s.start + 1 + w.length + v1.length := by
        refine H.advTo _ (q := c!"|" :: v2 ++ after) (by rw [hr, hvs]; simp) ?_ ?_
        · intro b hb
          have := hv b (by rw [hvs]; simp [hb])
          rw [low_ascii this.2.2]
          have h3 : b ≠ c!"|" := fun h => hno (h ▸ hb)
          simp [this.1, this.2.1, h3]
        · intro b hb
          cases hb; decide
      have hr' : rest = (w ++ v1) ++ (c!"|" :: v2 ++ after) := by rw [hr, hvs]; simp
      have e : s.start + 1 + (w ++ v1).length = s.start + 1 + w.length + v1.length := by simp; omega
      have hpk := H.peekAt hr'
      have hlast := H.getD_last hr'
      rw [e] at hpk hlast
      rw [hadv, if_pos]
      · have := ih (w ++ v1 ++ [c!"|"]) v2 after (by rw [hr']; simp) (by simp; omega) (fun b hb => hv b (by rw [hvs]; simp [hb]))
          (by
            intro p q h
            exact hp p q (by rw [← h, hvs]; simp)) (by
            rw [show w ++ v1 ++ [c!"|"] ++ v2 = w ++ v by rw [hvs]; simp]; exact hend)
        rw [show s.start + 1 + (w ++ v1 ++ [c!"|"]).length = s.start + 1 + w.length + v1.length + 1 by simp; omega] at this
        rw [this, hvs]; simp; omega
      · refine ⟨by rw [hpk]; rfl, ?_⟩
        rw [hlast, List.getLastD_eq_getLast?]
        have := hp (c :: (w ++ v1)) v2 (by rw [hvs]; simp) (by simp)
        intro h
        cases hg : (c :: (w ++ v1)).getLast? with
        | none => rw [hg] at h; revert h; decide
        | some z => rw [hg] at h this; simp at h; rw [h] at this; exact this rfl

theorem peekAt_some {w q : Str} {x : UInt8} (hr : rest = w ++ x :: q) (hx : x.toNat < 128) :
    Scanner.peekAt s.src (s.start + 1 + w.length) = x := by
  rw [H.peekAt hr]; simp [low_ascii hx]

/-- Digits and the `>` after them. -/
theorem calloutC {w ds r : Str} (hr : rest = w ++ (ds ++ c!">" :: r)) (hd : Digits ds) :
    calloutScan (at_ s (s.start + 1 + w.length)) = (true, at_ s (s.start + 1 + (w ++ ds ++ [c!">"]).length)) := by
  have ha := H.advTo isDigit (w := w) (v := ds) (q := c!">" :: r) hr (by
    intro b hb
    rw [low_ascii (by have := hd b hb; omega)]
    exact (isDigit_iff b).2 (hd b hb)) (by intro b hb; cases hb; decide)
  have hp := H.peekAt_some (w := w ++ ds) (x := c!">") (q := r) (by rw [hr]; simp) (by decide)
  rw [show s.start + 1 + (w ++ ds).length = s.start + 1 + w.length + ds.length by simp; omega] at hp
  unfold calloutScan
  show (if Scanner.peekAt s.src (Scanner.adv s.src isDigit (s.start + 1 + w.length)) = c!">" then _ else _) = _
  rw [ha, if_pos hp]
  show (true, at_ s (s.start + 1 + w.length + ds.length + 1)) = _
  congr 2
  simp; omega

end Here
end Adoc.Scanner
