import Verif.Proof.LexicalComplete3
/-!
# Wherever a rule matches, its token is returned
-/
namespace Adoc.Scanner
open Lexical Props

/-- A pattern is found at its first occurrence, unless the search stops inside a character. -/
theorem findPat_at {src pat : Str} (hp : pat ≠ []) (n : Nat) : ∀ i k : Nat, i ≤ k → src.length + 1 ≤ n + i →
    (∀ j, peeksAheadAt src j pat.length = pat ↔ pat <+: src.drop j) →
    pat <+: src.drop k → (∀ j, i ≤ j → j < k → ¬pat <+: src.drop j) → isBoundary src k = true →
    findPat src pat n i = some k ∨ findPat src pat n i = none ∧ ∃ j, i ≤ j ∧ j < k ∧ isBoundary src j = false := by
  have hpl := List.length_pos_iff.2 hp
  induction n with
  | zero =>
    intro i k hik hn hpk hat hno hb
    have : pat.length ≤ (src.drop k).length := hat.length_le
    simp at this; omega
  | succ n ih =>
    intro i k hik hn hpk hat hno hb
    have hlen : pat.length ≤ (src.drop k).length := hat.length_le
    simp at hlen
    rw [findPat, if_neg (by omega)]
    by_cases hik' : i = k
    · subst hik'
      rw [if_neg (by rintro ⟨_, _, h⟩; rw [hb] at h; cases h), if_pos ((hpk i).2 hat)]
      exact .inl rfl
    · split
      · rename_i h
        exact .inr ⟨rfl, i, Nat.le_refl _, by omega, h.2.2⟩
      · rw [if_neg (fun h => hno i (Nat.le_refl _) (by omega) ((hpk i).1 h))]
        rcases ih (i + 1) k (by omega) (by omega) hpk hat (fun j h1 h2 => hno j (by omega) h2) hb with h | ⟨h, j, h1, h2, h3⟩
        · exact .inl h
        · exact .inr ⟨h, j, by omega, h2, h3⟩

namespace Here
variable {before rest : Str} {c : UInt8} {s : Scanner} (H : Here before c rest s)
include H

theorem peeksAt_prefix {pat : Str} (hp : pat ≠ []) (ha : ∀ b ∈ pat, b.toNat < 128) (h0 : pat ≠ [0]) :
    ∀ j, peeksAheadAt s.src j pat.length = pat ↔ pat <+: s.src.drop j := fun j => H.peeksAt_iff hp ha h0 j

/-- The search for the end of a reference or an anchor. -/
theorem findC {pat : Str} (hp : pat ≠ []) (ha : ∀ b ∈ pat, b.toNat < 128) (h0 : pat ≠ [0]) {p q : Str}
    (hr : rest = p ++ (pat ++ q)) (hno : ∀ x y, p ++ pat.dropLast = x ++ y → ¬pat <+: y) :
    findPat s.src pat (s.src.length + 1 - (s.start + 1)) (s.start + 1) = some (s.start + 1 + p.length)
    ∨ findPat s.src pat (s.src.length + 1 - (s.start + 1)) (s.start + 1) = none ∧ ∃ b ∈ p, 128 ≤ b.toNat := by
  have hlen := H.srcLen
  have hdrop : ∀ j, j ≤ p.length → s.src.drop (s.start + 1 + j) = p.drop j ++ (pat ++ q) := by
    intro j hj
    rw [← List.drop_drop, H.drop, hr, List.drop_append_of_le_length hj]
  have hst : Starts (pat ++ q) := by
    cases pat with
    | nil => exact absurd rfl hp
    | cons x pat =>
      intro b hb; simp at hb; subst hb
      exact (isCont_false_iff _).2 (.inl (ha _ (by simp)))
  have hbk : isBoundary s.src (s.start + 1 + p.length) = true := by
    have := isBoundary_append (before ++ c :: p) (pat ++ q) hst
    rw [show before ++ c :: p ++ (pat ++ q) = s.src by rw [H.src, hr]; simp] at this
    rw [← this, H.start]; simp; congr 1; omega
  rcases findPat_at hp (s.src.length + 1 - (s.start + 1)) (s.start + 1) (s.start + 1 + p.length) (by omega) (by omega)
    (H.peeksAt_prefix hp ha h0) (by rw [hdrop _ (Nat.le_refl _)]; simp) (by
      intro j h1 h2 hpre
      obtain ⟨k, rfl⟩ : ∃ k, j = s.start + 1 + k := ⟨j - (s.start + 1), by omega⟩
      rw [hdrop k (by omega)] at hpre
      obtain ⟨pl, x, hpx⟩ := (List.eq_nil_or_concat pat).resolve_left hp
      refine hno (p.take k) (p.drop k ++ pat.dropLast) (by rw [← List.append_assoc, List.take_append_drop]) ?_
      have hle : pat.length ≤ (p.drop k ++ pat.dropLast).length := by
        simp; omega
      have h3 : p.drop k ++ pat.dropLast <+: p.drop k ++ (pat ++ q) := by
        rw [List.prefix_append_right_inj]
        exact (List.dropLast_prefix pat).trans (List.prefix_append _ _)
      exact List.prefix_of_prefix_length_le hpre h3 hle) hbk with h | ⟨h, j, h1, h2, h3⟩
  · exact .inl h
  · right
    refine ⟨h, ?_⟩
    obtain ⟨k, rfl⟩ : ∃ k, j = s.start + 1 + k := ⟨j - (s.start + 1), by omega⟩
    have hk : k < p.length := by omega
    refine ⟨p[k], List.getElem_mem hk, ?_⟩
    unfold isBoundary at h3
    rw [if_neg (by omega), ← List.head?_drop, hdrop k (by omega), List.drop_eq_getElem_cons hk] at h3
    simp only [List.cons_append, List.head?_cons, Bool.not_eq_false'] at h3
    exact ((isCont_iff _).1 h3).1

/-- The result of a reference or an anchor. -/
theorem refToken (hc : c.toNat < 128) (ty : TokenType) (hty : ty = .blockAnchor ∨ ty = .crossReference) (e : Nat) {l after : Str}
    (hw : c :: rest = l ++ after) (he : e = s.start + l.length) (hl : ∃ p x, l = p ++ [x] ∧ x.toNat < 128) :
    (¬Blank l → Gives ty l (addToken (at_ s e) ty true 0)) ∧ (Blank l → Gives .text l (addToken (at_ s e) ty true 0)) := by
  obtain ⟨p, x, hl, hx⟩ := hl
  have hs : Starts after := H.starts (p := before ++ p) (x := x) (by rw [H.src, hw, hl]; simp) hx
  have hsl : slice s.src s.start e = some l := by
    rw [H.src, he, H.start, hw]
    refine slice_mid before l after ?_ hs
    rw [← hw]
    intro b hb
    simp at hb; subst hb
    exact (isCont_false_iff _).2 (.inl hc)
  unfold addToken
  show (¬Blank l → Gives ty l (match slice s.src s.start e with | none => _ | some text => _))
    ∧ (Blank l → Gives .text l (match slice s.src s.start e with | none => _ | some text => _))
  rw [hsl]
  dsimp only
  rw [if_neg (by simp)]
  constructor
  · intro hb
    refine ⟨_, _, rfl, ?_, validate_lexeme _⟩
    rcases validate_blank ty hty l _ _ _ _ _ with ⟨h, _⟩ | ⟨_, h⟩
    · exact absurd h hb
    · exact h
  · intro hb
    refine ⟨_, _, rfl, ?_, validate_lexeme _⟩
    rcases validate_blank ty hty l _ _ _ _ _ with ⟨_, h⟩ | ⟨h, _⟩
    · exact h
    · exact absurd hb h

omit H in
theorem infix_cons {pat y : Str} {a : UInt8} (h : ¬pat <:+: y) (ha : pat.head? ≠ some a) (hp : pat ≠ []) :
    ∀ u v, a :: y = u ++ v → ¬pat <+: v := by
  rintro u v huv ⟨r, rfl⟩
  cases u with
  | nil =>
    cases pat with
    | nil => exact hp rfl
    | cons x pat => simp at huv; rw [huv.1] at ha; exact ha rfl
  | cons z u =>
    simp at huv
    exact h ⟨u, r, by rw [huv.2]; simp⟩

theorem xrefC {l after : Str} (hw : c :: rest = l ++ after) (h : Reference before l after) :
    ((¬Blank l → Gives .crossReference l (Scanner.dispatch (at_ s (s.start + 1)) c))
      ∧ (Blank l → Gives .text l (Scanner.dispatch (at_ s (s.start + 1)) c)))
    ∨ (∃ s', Scanner.dispatch (at_ s (s.start + 1)) c = (.panic .slice, s')) ∧ ∃ b ∈ l, 128 ≤ b.toNat := by
  obtain ⟨⟨body, rfl, hb⟩, hd⟩ := h
  rw [← hw] at hd
  obtain ⟨rfl, hr⟩ := cons_inj hw
  have hr : rest = (c!"<" :: body) ++ (b!">>" ++ after) := by rw [hr]; simp
  have hdisp : Scanner.dispatch (at_ s (s.start + 1)) c!"<" = addCrossReference (at_ s (s.start + 1)) := by
    show scanLess (at_ s (s.start + 1)) = _
    have hp := H.peek_some (by decide) (x := c!"<") (by rw [hr]; rfl)
    unfold scanLess
    rw [H.endTag, if_neg (by decide), if_neg, if_neg (by rw [hp]; decide), if_pos hp]
    rw [H.repeated c!"<" 3 (by decide) (by omega)]
    rintro ⟨r, h⟩
    exact hd ⟨r, by rw [← h]; rfl⟩
  rw [hdisp]
  unfold addCrossReference
  have hfind := H.findC (pat := b!">>") (by decide) (by decide) (by decide) hr
    (infix_cons (y := body ++ b!">") hb (by decide) (by decide))
  rcases hfind with h | ⟨h, b, hb', hb''⟩
  · left
    change findPat (at_ s (s.start + 1)).src _ ((at_ s (s.start + 1)).src.length + 1 - (at_ s (s.start + 1)).current)
      (at_ s (s.start + 1)).current = _ at h
    rw [h]
    exact H.refToken (by decide) .crossReference (.inr rfl) _ hw (by simp; omega) ⟨b!"<<" ++ body ++ b!">", c!">", by simp, by decide⟩
  · right
    change findPat (at_ s (s.start + 1)).src _ ((at_ s (s.start + 1)).src.length + 1 - (at_ s (s.start + 1)).current)
      (at_ s (s.start + 1)).current = _ at h
    rw [h]
    refine ⟨⟨_, rfl⟩, b, ?_, hb''⟩
    simp at hb'
    rcases hb' with rfl | hb'
    · simp
    · simp [hb']

theorem anchorC {l after : Str} (hw : c :: rest = l ++ after) (h : Anchor before l after) :
    ((¬Blank l → Gives .blockAnchor l (Scanner.dispatch (at_ s (s.start + 1)) c))
      ∧ (Blank l → Gives .text l (Scanner.dispatch (at_ s (s.start + 1)) c)))
    ∨ (∃ s', Scanner.dispatch (at_ s (s.start + 1)) c = (.panic .slice, s')) ∧ ∃ b ∈ l, 128 ≤ b.toNat := by
  obtain ⟨hl, ha, body, rfl, hb⟩ := h
  obtain ⟨r, rfl⟩ : ∃ r, after = c!"\n" :: r := by
    cases after with
    | nil => cases ha
    | cons y r => cases ha; exact ⟨r, rfl⟩
  obtain ⟨rfl, hr⟩ := cons_inj hw
  have hr : rest = (c!"[" :: body) ++ (b!"]]\n" ++ r) := by rw [hr]; simp
  have hdisp : Scanner.dispatch (at_ s (s.start + 1)) c!"[" = addBlockAnchor (at_ s (s.start + 1)) := by
    show scanBracket (at_ s (s.start + 1)) = _
    have hp := H.peek_some (by decide) (x := c!"[") (by rw [hr]; rfl)
    unfold scanBracket
    rw [if_pos]
    rw [Bool.and_eq_true, decide_eq_true_eq]
    exact ⟨(H.newLine _).2 hl, hp⟩
  rw [hdisp]
  unfold addBlockAnchor
  have hfind := H.findC (pat := b!"]]\n") (by decide) (by decide) (by decide) hr
    (infix_cons (y := body ++ b!"]]") hb (by decide) (by decide))
  rcases hfind with h | ⟨h, b, hb', hb''⟩
  · left
    change findPat (at_ s (s.start + 1)).src _ ((at_ s (s.start + 1)).src.length + 1 - (at_ s (s.start + 1)).current)
      (at_ s (s.start + 1)).current = _ at h
    rw [h]
    exact H.refToken (by decide) .blockAnchor (.inl rfl) _ hw (by simp; omega) ⟨b!"[[" ++ body ++ b!"]", c!"]", by simp, by decide⟩
  · right
    change findPat (at_ s (s.start + 1)).src _ ((at_ s (s.start + 1)).src.length + 1 - (at_ s (s.start + 1)).current)
      (at_ s (s.start + 1)).current = _ at h
    rw [h]
    refine ⟨⟨_, rfl⟩, b, ?_, hb''⟩
    simp at hb'
    rcases hb' with rfl | hb'
    · simp
    · simp [hb']

omit H in
theorem lineEnd_cases {after : Str} (h : after.head? = some 10) : ∃ r, after = 10 :: r := by
  cases after with
  | nil => cases h
  | cons y r => cases h; exact ⟨r, rfl⟩

/-- Every rule except those of references and anchors. -/
theorem complete (ty : TokenType) (h1 : ty ≠ .blockAnchor ∧ ty ≠ .crossReference ∧ ty ≠ .text) {l after : Str}
    (hw : c :: rest = l ++ after) (h : Lexeme ty before l after) :
    Gives ty l (Scanner.dispatch (at_ s (s.start + 1)) c) := by
  cases ty
  case newLineChar =>
    have h : l = b!"\n" := h
    subst h; obtain ⟨rfl, hr⟩ := cons_inj hw
    exact H.givesA (by decide) _ false 1 _ hw rfl ⟨[], _, rfl, by decide⟩ (by decide)
  case lineContinuation =>
    obtain ⟨rfl, hb, ha⟩ := h
    obtain ⟨rfl, hr⟩ := cons_inj hw
    obtain ⟨r, rfl⟩ := lineEnd_cases ha
    have hr : rest = 10 :: r := hr
    show Gives _ _ (scanDelimChar (at_ s (s.start + 1)) c!"+")
    rw [H.delimOff (no_delim_head (by rw [hr]; simp)) (by decide)]
    show Gives _ _ (scanPlus (at_ s (s.start + 1)))
    unfold scanPlus
    rw [H.noLine (space_line hb)]
    refine .neg (by simp) (.pos ⟨H.back_some (by decide) (by decide) hb, H.peek_some (by decide) (by rw [hr]; rfl)⟩ ?_)
    exact H.givesA (by decide) _ false 0 _ hw rfl ⟨[], _, rfl, by decide⟩ (by decide)
  case thematicBreak =>
    obtain ⟨rfl, ha⟩ := h
    obtain ⟨rfl, hr⟩ := cons_inj hw
    obtain ⟨r, rfl⟩ := lineEnd_cases ha
    show Gives _ _ (scanQuote (at_ s (s.start + 1)))
    unfold scanQuote
    rw [H.endTag, if_neg (by decide)]
    refine .pos ((H.repeated c!"'" 3 (by decide) (by omega)).2 ⟨r, hr.symm⟩) ?_
    exact H.givesA (by decide) _ false 0 _ hw rfl ⟨b!"''", _, rfl, by decide⟩ (by decide)
  case pageBreak =>
    obtain ⟨rfl, ha⟩ := h
    obtain ⟨rfl, hr⟩ := cons_inj hw
    obtain ⟨r, rfl⟩ := lineEnd_cases ha
    show Gives _ _ (scanLess (at_ s (s.start + 1)))
    unfold scanLess
    rw [H.endTag, if_neg (by decide)]
    refine .pos ((H.repeated c!"<" 3 (by decide) (by omega)).2 ⟨r, hr.symm⟩) ?_
    exact H.givesA (by decide) _ false 0 _ hw rfl ⟨b!"<<", _, rfl, by decide⟩ (by decide)
  case comment =>
    obtain ⟨hl, ⟨r, rfl⟩, hd, h⟩ := h
    rw [← hw] at hd
    obtain ⟨rfl, hr⟩ := cons_inj hw
    have hr : rest = c!"/" :: (r ++ after) := hr
    show Gives _ _ (scanDelimChar (at_ s (s.start + 1)) c!"/")
    rw [H.delimOff hd (by decide)]
    show Gives _ _ (scanSlash (at_ s (s.start + 1)))
    unfold scanSlash
    rw [H.endTag, if_neg (by decide)]
    have ht := H.peeks (pat := b!"/ tag::") (by decide) (by decide) (by decide)
    have he := H.peeks (pat := b!"/ end::") (by decide) (by decide) (by decide)
    change peeksAhead (at_ s (s.start + 1)) 7 = _ ↔ _ at ht he
    refine .pos (by rw [Bool.and_eq_true, decide_eq_true_eq]; exact ⟨(H.newLine _).2 hl, H.peek_some (by decide) (by rw [hr]; rfl)⟩) ?_
    rcases h with ⟨h, hte⟩ | ⟨h2, h3, h4, h5⟩
    · have h : r = b!" " := by simpa using h
      subst h
      refine .pos ?_ (H.givesA (by decide) _ true 0 _ hw rfl ⟨b!"//", _, rfl, by decide⟩ (by decide))
      rcases hte with ⟨u, hu⟩ | ⟨u, hu⟩
      · exact .inl (ht.2 ⟨u, by rw [hr, ← hu]; rfl⟩)
      · exact .inr (he.2 ⟨u, by rw [hr, ← hu]; rfl⟩)
    · have hr' : rest = (c!"/" :: r) ++ after := hr
      have hadv := H.advUntil c!"\n" (by decide) hr' (by
        intro h; apply h2; simp at h ⊢; exact h) h3
      refine .neg ?_ ?_
      · have key : ∀ w : Str, w.length = 5 → 10 ∉ w → b!"/ " ++ w <+: rest → b!"// " ++ w <+: b!"//" ++ r := by
          rintro w _ hw10 hpre
          have h6 : b!"/ " ++ w <+: c!"/" :: r := by
            rw [hr'] at hpre
            rcases List.prefix_or_prefix_of_prefix hpre (List.prefix_append (c!"/" :: r) after) with h | ⟨u, hu⟩
            · exact h
            · rcases h3 with rfl | h3
              · rwa [List.append_nil] at hpre
              · obtain ⟨a, rfl⟩ := lineEnd_cases h3
                rw [← hu] at hpre ⊢
                rw [List.prefix_append_right_inj] at hpre
                cases u with
                | nil => simp
                | cons x u =>
                  obtain ⟨z, hz⟩ := hpre
                  simp at hz
                  rw [hz.1] at hu
                  exfalso
                  have : (10 : UInt8) ∈ b!"/ " ++ w := by rw [← hu]; simp
                  simp at this
                  exact hw10 this
          obtain ⟨z, hz⟩ := h6
          refine ⟨z, ?_⟩
          simp at hz ⊢
          exact hz
        rintro (h | h)
        · exact h4 (key b!"tag::" rfl (by decide) (ht.1 h))
        · exact h5 (key b!"end::" rfl (by decide) (he.1 h))
      · show Gives _ _ (addToken (at_ s (Scanner.adv s.src (· ≠ c!"\n") (s.start + 1))) .comment true 0)
        rw [hadv]
        exact H.gives (by decide) _ true 0 _ hw (by simp; omega) (H.line_starts hr' h3) (by decide)
  case passthroughBlock => 
    have hc : c = c!"+" := by obtain ⟨_, rfl, _⟩ := h; exact (cons_inj hw).1
    subst hc; exact H.delimC (by decide) hw c!"+" rfl (by decide) h
  case sidebarBlock =>
    have hc : c = c!"*" := by obtain ⟨_, rfl, _⟩ := h; exact (cons_inj hw).1
    subst hc; exact H.delimC (by decide) hw c!"*" rfl (by decide) h
  case sourceBlock =>
    have hc : c = c!"-" := by obtain ⟨_, rfl, _⟩ := h; exact (cons_inj hw).1
    subst hc; exact H.delimC (by decide) hw c!"-" rfl (by decide) h
  case quoteVerseBlock =>
    have hc : c = c!"_" := by obtain ⟨_, rfl, _⟩ := h; exact (cons_inj hw).1
    subst hc; exact H.delimC (by decide) hw c!"_" rfl (by decide) h
  case commentBlock =>
    have hc : c = c!"/" := by obtain ⟨_, rfl, _⟩ := h; exact (cons_inj hw).1
    subst hc; exact H.delimC (by decide) hw c!"/" rfl (by decide) h
  case literalBlock =>
    have hc : c = c!"." := by obtain ⟨_, rfl, _⟩ := h; exact (cons_inj hw).1
    subst hc; exact H.delimC (by decide) hw c!"." rfl (by decide) h
  case exampleBlock =>
    have hc : c = c!"=" := by obtain ⟨_, rfl, _⟩ := h; exact (cons_inj hw).1
    subst hc; exact H.delimC (by decide) hw c!"=" rfl (by decide) h
  case openBlock =>
    obtain ⟨hl, rfl, ha⟩ := h
    obtain ⟨r, rfl⟩ := lineEnd_cases ha
    obtain ⟨rfl, hr⟩ := cons_inj hw
    have hr : rest = c!"-" :: 10 :: r := hr
    show Gives _ _ (scanDelimChar (at_ s (s.start + 1)) c!"-")
    have hnd : ¬DelimiterLine before (c!"-" :: rest) := by
      intro h
      obtain ⟨_, r', hr'⟩ := delimiterLine h
      rw [hr] at hr'; simp at hr'
    rw [H.delimOff hnd (by decide)]
    show Gives _ _ (scanMinus (at_ s (s.start + 1)))
    have hp := H.peek_some (by decide) (x := c!"-") (by rw [hr]; rfl)
    unfold scanMinus
    refine .neg (by rw [hp]; decide) (.neg ?_ (.pos ?_ (H.givesA (by decide) _ false 0 _ hw rfl ⟨b!"-", _, rfl, by decide⟩ (by decide))))
    · have h2 := H.second (w := []) (x := c!"-") (y := 10) (r := r) hr (by decide) (by decide)
      unfold startsEmdash
      dsimp only
      show ¬(_ && (isAlnum ((peeksAheadAt s.src (s.start + 1) 2).getLastD 0) || decide ((peeksAheadAt s.src (s.start + 1) 2).getLastD 0 = c!" ")
        || decide ((peeksAheadAt s.src (s.start + 1) 2).getLastD 0 = 0))) = true
      rw [show s.start + 1 = s.start + 1 + ([] : Str).length from rfl, h2]
      simp [show isAlnum 10 = false from rfl]
    · rw [Bool.and_eq_true]
      exact ⟨(H.newLine _).2 hl, (H.repeated c!"-" 2 (by decide) (by omega)).2 ⟨r, hr.symm⟩⟩
  case orderedListItem =>
    obtain ⟨hl, rfl⟩ := h
    obtain ⟨rfl, hr⟩ := cons_inj hw
    have hr : rest = c!" " :: after := hr
    show Gives _ _ (scanDelimChar (at_ s (s.start + 1)) c!".")
    rw [H.delimOff (no_delim_head (by rw [hr]; simp)) (by decide)]
    show Gives _ _ (scanDot (at_ s (s.start + 1)))
    unfold scanDot
    refine .neg ?_ (.pos ((H.newLine _).2 hl) (.pos (H.peek_some (by decide) (by rw [hr]; rfl))
      (H.givesA (by decide) _ false 0 _ hw rfl ⟨b!".", _, rfl, by decide⟩ (by decide))))
    intro h
    obtain ⟨r, h⟩ := (H.peeks (pat := b!"..") (by decide) (by decide) (by decide)).1 h
    rw [hr] at h; simp at h
  case unorderedListItem =>
    obtain ⟨hl, rfl⟩ := h
    obtain ⟨rfl, hr⟩ := cons_inj hw
    have hr : rest = c!" " :: after := hr
    show Gives _ _ (scanDelimChar (at_ s (s.start + 1)) c!"*")
    rw [H.delimOff (no_delim_head (by rw [hr]; simp)) (by decide)]
    show Gives _ _ (scanStar (at_ s (s.start + 1)))
    unfold scanStar
    refine .pos ?_ (H.givesA (by decide) _ false 0 _ hw rfl ⟨b!"*", _, rfl, by decide⟩ (by decide))
    rw [Bool.and_eq_true, decide_eq_true_eq]
    exact ⟨(H.newLine _).2 hl, H.peek_some (by decide) (by rw [hr]; rfl)⟩
  case descriptionListMarker =>
    obtain ⟨hl, hb, h⟩ := h
    have hback : Scanner.peekBack (at_ s (s.start + 1)) ≠ c!" " := fun h => hb ((H.last _ (by decide)).1 h).1
    have hc : c = c!":" := by rcases h with rfl | rfl <;> exact (cons_inj hw).1
    subst hc
    show Gives _ _ (scanColon (at_ s (s.start + 1)))
    unfold scanColon
    rw [H.noLine hl]
    refine .neg (by decide) ?_
    unfold scanColonRest
    rcases h with rfl | rfl
    · exact .pos ⟨hback, .inl ((H.peeks (pat := b!": ") (by decide) (by decide) (by decide)).2 ⟨after, (cons_inj hw).2.symm⟩)⟩
        (H.givesA (by decide) _ false 0 _ hw rfl ⟨b!"::", _, rfl, by decide⟩ (by decide))
    · exact .pos ⟨hback, .inr ((H.peeks (pat := b!":\n") (by decide) (by decide) (by decide)).2 ⟨after, (cons_inj hw).2.symm⟩)⟩
        (H.givesA (by decide) _ false 0 _ hw rfl ⟨b!"::", _, rfl, by decide⟩ (by decide))
  case codeCallout => exact H.calloutC' hw h
  case codeCalloutListItem => exact H.calloutListC hw h
  case blockLabel =>
    obtain ⟨hl, rfl, h1, h2⟩ := h
    obtain ⟨rfl, hr⟩ := cons_inj hw
    have hr : rest = after := hr
    subst hr
    show Gives _ _ (scanDelimChar (at_ s (s.start + 1)) c!".")
    have hnd : ¬DelimiterLine before (c!"." :: rest) := by
      intro h
      obtain ⟨_, r', hr'⟩ := delimiterLine h
      exact h2 ⟨b!".\n" ++ r', by rw [← hr']; simp⟩
    rw [H.delimOff hnd (by decide)]
    show Gives _ _ (scanDot (at_ s (s.start + 1)))
    unfold scanDot
    exact .neg (fun h => h2 ((H.peeks (pat := b!"..") (by decide) (by decide) (by decide)).1 h)) (.pos ((H.newLine _).2 hl)
      (.neg (H.peek_ne (by decide) (by decide) h1) (H.givesA (by decide) _ false 0 _ hw rfl ⟨[], _, rfl, by decide⟩ (by decide))))
  case heading1 => exact H.headingC hw 0 _ (by decide) h fun _ => rfl
  case heading2 => exact H.headingC hw 1 _ (by decide) h fun _ => rfl
  case heading3 => exact H.headingC hw 2 _ (by decide) h fun _ => rfl
  case heading4 => exact H.headingC hw 3 _ (by decide) h fun _ => rfl
  case heading5 => exact H.headingC hw 4 _ (by decide) h fun _ => rfl
  case notePara => exact H.admonitionC (w := b!"OTE: ") rfl (by decide) (by decide) (by decide) (by decide) (by decide) (fun _ => rfl) rfl hw h
  case tipPara => exact H.admonitionC (w := b!"IP: ") rfl (by decide) (by decide) (by decide) (by decide) (by decide) (fun _ => rfl) rfl hw h
  case importantPara =>
    exact H.admonitionC (w := b!"MPORTANT: ") rfl (by decide) (by decide) (by decide) (by decide) (by decide) (fun _ => rfl) rfl hw h
  case cautionPara =>
    exact H.admonitionC (w := b!"AUTION: ") rfl (by decide) (by decide) (by decide) (by decide) (by decide) (fun _ => rfl) rfl hw h
  case warningPara =>
    exact H.admonitionC (w := b!"ARNING: ") rfl (by decide) (by decide) (by decide) (by decide) (by decide) (fun _ => rfl) rfl hw h
  case blockContinuation =>
    obtain ⟨hl, rfl, ha⟩ := h
    obtain ⟨rfl, hr⟩ := cons_inj hw
    obtain ⟨r, rfl⟩ := lineEnd_cases ha
    have hr : rest = 10 :: r := hr
    show Gives _ _ (scanDelimChar (at_ s (s.start + 1)) c!"+")
    rw [H.delimOff (no_delim_head (by rw [hr]; simp)) (by decide)]
    show Gives _ _ (scanPlus (at_ s (s.start + 1)))
    unfold scanPlus
    refine .pos ?_ (H.givesA (by decide) _ false 0 _ hw rfl ⟨[], _, rfl, by decide⟩ (by decide))
    rw [Bool.and_eq_true, decide_eq_true_eq]
    exact ⟨(H.newLine _).2 hl, H.peek_some (by decide) (by rw [hr]; rfl)⟩
  case table =>
    obtain ⟨hl, rfl, ha⟩ := h
    obtain ⟨rfl, hr⟩ := cons_inj hw
    have hr : rest = b!"===" ++ after := hr
    show Gives _ _ (scanPipe (at_ s (s.start + 1)))
    unfold scanPipe
    refine .pos ?_ ?_
    · rw [Bool.and_eq_true, decide_eq_true_eq]
      exact ⟨(H.newLine _).2 hl, (H.peeks (pat := b!"===") (by decide) (by decide) (by decide)).2 ⟨after, hr.symm⟩⟩
    · have hpk := H.peekAt hr
      change Scanner.peek (at_ s (s.start + 1 + 3)) = _ at hpk
      show Gives _ _ (if Scanner.peek (at_ s (s.start + 1 + 3)) = c!"\n" ∨ Scanner.peek (at_ s (s.start + 1 + 3)) = 0
        then addToken (at_ s (s.start + 1 + 3)) .table false 0 else addText (at_ s (s.start + 1 + 3)))
      refine .pos ?_ (H.givesA (by decide) _ false 0 _ hw rfl ⟨b!"|==", _, rfl, by decide⟩ (by decide))
      rw [hpk]
      rcases ha with (rfl | ha) | ha
      · right; rfl
      · left; rw [ha]; rfl
      · right; rw [ha]; rfl
  case tableCell =>
    obtain ⟨hb, ⟨body, rfl, hbody⟩, hp, hend, hn⟩ := h
    obtain ⟨rfl, hr⟩ := cons_inj hw
    have hr : rest = body ++ after := hr
    show Gives _ _ (scanPipe (at_ s (s.start + 1)))
    unfold scanPipe
    have h3 := H.peeks (pat := b!"===") (by decide) (by decide) (by decide)
    change peeksAhead (at_ s (s.start + 1)) 3 = _ ↔ _ at h3
    refine .neg ?_ (.pos ?_ ?_)
    · rw [Bool.and_eq_true, decide_eq_true_eq, H.newLine]
      rintro ⟨a, b⟩
      refine hn ⟨a, ?_⟩
      have hpre := h3.1 b
      rw [hr] at hpre
      have : b!"===" <+: body := by
        rcases List.prefix_or_prefix_of_prefix hpre (List.prefix_append body after) with h | ⟨u, hu⟩
        · exact h
        · cases u with
          | nil => rw [List.append_nil] at hu; rw [hu]; simp
          | cons x u =>
            exfalso
            rw [← hu] at hpre
            rw [List.prefix_append_right_inj] at hpre
            obtain ⟨z, hz⟩ := hpre
            have hx : x = c!"=" := by
              have : x ∈ b!"===" := by rw [← hu]; simp
              simpa using this
            rw [← hz, hx] at hend
            revert hend; simp
      obtain ⟨z, hz⟩ := this
      exact ⟨z, by rw [← hz]; rfl⟩
    · rw [Bool.or_eq_true, decide_eq_true_eq, H.newLine]
      exact hb.imp_right fun h => H.back_some (by decide) (by decide) h
    · have hcell := H.cellLoopC (s.src.length + 1 - (s.start + 1)) [] body after hr (by simp; omega) hbody hp hend
      simp only [List.length_nil, Nat.add_zero] at hcell
      unfold addTableCell
      show Gives _ _ (addToken (at_ s (tableCellEnd s.src (s.src.length + 1 - (s.start + 1)) (s.start + 1))) .tableCell true 0)
      rw [hcell]
      refine H.givesA (by decide) _ true 0 _ hw (by simp; omega) ?_ (by decide)
      obtain h | ⟨q, x, h⟩ := List.eq_nil_or_concat body
      · exact ⟨[], c!"|", by rw [h]; rfl, by decide⟩
      · exact ⟨c!"|" :: q, x, by rw [h]; simp, (hbody x (by rw [h]; simp)).2.2⟩
  case strong =>
    refine H.markC (u := .unconstrainedStrong) hw (by decide) (by decide) h.1 ?_
    rintro rfl rfl
    show scanDelimChar (at_ s (s.start + 1)) c!"*" = _
    rw [H.delimOff (no_delim_head h.1.2.1) (by decide)]
    show scanStar (at_ s (s.start + 1)) = _
    unfold scanStar
    rw [if_neg]
    rw [Bool.and_eq_true, decide_eq_true_eq, H.newLine]
    rintro ⟨a, b⟩
    obtain ⟨r, hr⟩ := H.next (by decide) (by decide) b
    exact h.2 ⟨a, by rw [hr]; rfl⟩
  case emphasis =>
    refine H.markC (u := .unconstrainedEmphasis) hw (by decide) (by decide) h ?_
    rintro rfl rfl
    show scanDelimChar (at_ s (s.start + 1)) c!"_" = _
    rw [H.delimOff (no_delim_head h.2.1) (by decide)]
    rfl
  case monospace =>
    refine H.markC (u := .unconstrainedMonospace) hw (by decide) (by decide) h.1 ?_
    rintro rfl rfl
    show scanBacktick (at_ s (s.start + 1)) = _
    unfold scanBacktick
    rw [if_neg, if_neg]
    · intro hq
      obtain ⟨r, hr, hq⟩ := (H.quote (x := c!"\"") (by decide) (by decide) (by decide)).1 hq
      exact h.2 ⟨r, .inr hr, hq⟩
    · intro hq
      obtain ⟨r, hr, hq⟩ := (H.quote (x := c!"'") (by decide) (by decide) (by decide)).1 hq
      exact h.2 ⟨r, .inl hr, hq⟩
  case literal =>
    refine H.markC (u := .unconstrainedLiteral) hw (by decide) (by decide) h.1 ?_
    rintro rfl rfl
    show scanDelimChar (at_ s (s.start + 1)) c!"+" = _
    rw [H.delimOff (no_delim_head h.1.2.1) (by decide)]
    show scanPlus (at_ s (s.start + 1)) = _
    unfold scanPlus
    rw [if_neg, if_neg]
    · rintro ⟨a, b⟩
      obtain ⟨r, hr⟩ := H.next (by decide) (by decide) b
      exact h.2 ⟨.inr ((H.last _ (by decide)).1 a).1, by rw [hr]; rfl⟩
    · rw [Bool.and_eq_true, decide_eq_true_eq, H.newLine]
      rintro ⟨a, b⟩
      obtain ⟨r, hr⟩ := H.next (by decide) (by decide) b
      exact h.2 ⟨.inl a, by rw [hr]; rfl⟩
  case mark =>
    refine H.markC (u := .unconstrainedMark) hw (by decide) (by decide) h ?_
    rintro rfl rfl
    show scanHash (at_ s (s.start + 1)) = _
    unfold scanHash
    rw [H.endTag, if_neg (by decide)]
  case superscript =>
    have h : l = b!"^" := h
    subst h; obtain ⟨rfl, hr⟩ := cons_inj hw
    exact H.givesA (by decide) _ false 0 _ hw rfl ⟨[], _, rfl, by decide⟩ (by decide)
  case subscript =>
    have h : l = b!"~" := h
    subst h; obtain ⟨rfl, hr⟩ := cons_inj hw
    exact H.givesA (by decide) _ false 0 _ hw rfl ⟨[], _, rfl, by decide⟩ (by decide)
  case unconstrainedStrong =>
    refine H.doubleC (t := .strong) hw (by decide) (by decide) h ?_
    rintro rfl hr hd
    show scanDelimChar (at_ s (s.start + 1)) c!"*" = _
    rw [H.delimOff hd (by decide)]
    show scanStar (at_ s (s.start + 1)) = _
    unfold scanStar
    rw [if_neg]
    rw [Bool.and_eq_true, decide_eq_true_eq, H.peek_some (x := c!"*") (by decide) (by rw [hr]; rfl)]
    rintro ⟨_, b⟩; revert b; decide
  case unconstrainedEmphasis =>
    refine H.doubleC (t := .emphasis) hw (by decide) (by decide) h ?_
    rintro rfl hr hd
    show scanDelimChar (at_ s (s.start + 1)) c!"_" = _
    rw [H.delimOff hd (by decide)]
    rfl
  case unconstrainedMonospace =>
    refine H.doubleC (t := .monospace) hw (by decide) (by decide) h ?_
    rintro rfl hr hd
    show scanBacktick (at_ s (s.start + 1)) = _
    unfold scanBacktick
    rw [if_neg, if_neg]
    · intro hq
      obtain ⟨r, hr', hq⟩ := (H.quote (x := c!"\"") (by decide) (by decide) (by decide)).1 hq
      rw [hr] at hr'; simp at hr'
    · intro hq
      obtain ⟨r, hr', hq⟩ := (H.quote (x := c!"'") (by decide) (by decide) (by decide)).1 hq
      rw [hr] at hr'; simp at hr'
  case unconstrainedLiteral =>
    refine H.doubleC (t := .literal) hw (by decide) (by decide) h ?_
    rintro rfl hr hd
    show scanDelimChar (at_ s (s.start + 1)) c!"+" = _
    rw [H.delimOff hd (by decide)]
    show scanPlus (at_ s (s.start + 1)) = _
    unfold scanPlus
    have hp := H.peek_some (x := c!"+") (by decide) (by rw [hr]; rfl)
    rw [if_neg, if_neg]
    · rw [hp]; rintro ⟨_, b⟩; revert b; decide
    · rw [Bool.and_eq_true, decide_eq_true_eq, hp]; rintro ⟨_, b⟩; revert b; decide
  case unconstrainedMark =>
    refine H.doubleC (t := .mark) hw (by decide) (by decide) h ?_
    rintro rfl hr hd
    show scanHash (at_ s (s.start + 1)) = _
    unfold scanHash
    rw [H.endTag, if_neg (by decide)]
  case blockImageMacro =>
    obtain ⟨hl, h⟩ := h
    have hc : c = c!"i" := by obtain ⟨body, rfl, _⟩ := h; exact (cons_inj hw).1
    subst hc
    obtain ⟨p, hr, hp, rfl, hpre⟩ := H.bracketedC (w := b!"mage::") hw rfl h (by decide)
    show Gives _ _ (scanI (at_ s (s.start + 1)))
    unfold scanI
    refine .neg ?_ (.pos ?_ (H.givesBracket (by decide) _ (by decide) hr hp))
    · rw [Bool.and_eq_true, decide_eq_true_eq]
      rintro ⟨_, b⟩
      obtain ⟨r, hr'⟩ := (H.peeks (pat := b!"nclude::") (by decide) (by decide) (by decide)).1 b
      obtain ⟨r', hr''⟩ := hpre
      rw [← hr'] at hr''; simp at hr''
    · rw [Bool.and_eq_true, decide_eq_true_eq]
      exact ⟨(H.newLine _).2 hl, (H.peeks (pat := b!"mage::") (by decide) (by decide) (by decide)).2 hpre⟩
  case inlineImageMacro =>
    obtain ⟨h, hs1, hs2⟩ := h
    have hc : c = c!"i" := by obtain ⟨body, rfl, _⟩ := h; exact (cons_inj hw).1
    subst hc
    have key : ∀ x : UInt8, b!"mage:" ++ [x] <+: rest → x ≠ c!"]" → b!"image:" ++ [x] <+: l := by
      rintro x ⟨r, hr⟩ hx
      obtain ⟨body, rfl, hb⟩ := h
      have := (cons_inj hw).2
      rw [← hr] at this
      cases body with
      | nil => simp at this; exact absurd this.1 hx
      | cons y body => simp at this; simp [this.1]
    obtain ⟨p, hr, hp, rfl, hpre⟩ := H.bracketedC (w := b!"mage:") hw rfl h (by decide)
    show Gives _ _ (scanI (at_ s (s.start + 1)))
    unfold scanI
    have hno2 : peeksAhead (at_ s (s.start + 1)) 6 ≠ b!"mage::" := fun hh =>
      hs2 (key c!":" ((H.peeks (pat := b!"mage::") (by decide) (by decide) (by decide)).1 hh) (by decide))
    have hno3 : peeksAhead (at_ s (s.start + 1)) 6 ≠ b!"mage: " := fun hh =>
      hs1 (key c!" " ((H.peeks (pat := b!"mage: ") (by decide) (by decide) (by decide)).1 hh) (by decide))
    refine .neg ?_ (.neg ?_ (.pos ⟨(H.peeks (pat := b!"mage:") (by decide) (by decide) (by decide)).2 hpre, hno2, hno3⟩
      (H.givesBracket (by decide) _ (by decide) hr hp)))
    · rw [Bool.and_eq_true, decide_eq_true_eq]
      rintro ⟨_, b⟩
      obtain ⟨r, hr'⟩ := (H.peeks (pat := b!"nclude::") (by decide) (by decide) (by decide)).1 b
      obtain ⟨r', hr''⟩ := hpre
      rw [← hr'] at hr''; simp at hr''
    · rw [Bool.and_eq_true, decide_eq_true_eq]
      rintro ⟨_, b⟩; exact hno2 b
  case linkMacro =>
    obtain ⟨u, rfl, hp, hu⟩ := h
    have hc : c = c!"h" := by obtain ⟨r, rfl⟩ := hp; exact (cons_inj hw).1
    have hw' : c :: rest = u ++ c!"[" :: after := by rw [hw]; simp
    have hst : Starts (c!"[" :: after) := by intro b hb; cases hb; decide
    have hl := (H.link_url hw' hp hu hst).1 rfl
    subst hc
    show Gives _ _ (if peeksAhead (at_ s (s.start + 1)) 3 = b!"ttp" then addLink (at_ s (s.start + 1)) else addText (at_ s (s.start + 1)))
    refine .pos ?_ ?_
    · obtain ⟨r, rfl⟩ := hp
      exact (H.peeks (pat := b!"ttp") (by decide) (by decide) (by decide)).2 ⟨r ++ c!"[" :: after, (cons_inj hw').2.symm⟩
    · rw [hl]
      exact H.givesA (by decide) _ true 0 _ hw (by simp; omega) ⟨u, _, rfl, by decide⟩ (by decide)
  case footnoteMacro =>
    have h : l = b!"footnote:[" := h
    subst h; obtain ⟨rfl, hr⟩ := cons_inj hw
    exact H.wordC (by decide) b!"ootnote:[" _ false (by decide) (by decide) (by decide) (by decide) hr
  case passthroughInlineMacro =>
    have h : l = b!"pass:[" := h
    subst h; obtain ⟨rfl, hr⟩ := cons_inj hw
    exact H.wordC (by decide) b!"ass:[" _ false (by decide) (by decide) (by decide) (by decide) hr
  case inlineMacroClose =>
    have h : l = b!"]" := h
    subst h; obtain ⟨rfl, hr⟩ := cons_inj hw
    exact H.givesA (by decide) _ true 0 _ hw rfl ⟨[], _, rfl, by decide⟩ (by decide)
  case hyperlink =>
    obtain ⟨hp, hu, he⟩ := h
    have hc : c = c!"h" := by obtain ⟨r, rfl⟩ := hp; exact (cons_inj hw).1
    have hne : l ≠ [] := by rintro rfl; simp at hp
    obtain ⟨p, x, hlx⟩ := (List.eq_nil_or_concat l).resolve_left hne
    rw [List.concat_eq_append] at hlx
    have hx : x.toNat < 128 := (hu x (by rw [hlx]; simp)).2.2.1
    have hst : Starts after := H.starts (p := before ++ p) (x := x) (by rw [H.src, hw, hlx]; simp) hx
    have hl := (H.link_url hw hp hu hst).2 he
    subst hc
    show Gives _ _ (if peeksAhead (at_ s (s.start + 1)) 3 = b!"ttp" then addLink (at_ s (s.start + 1)) else addText (at_ s (s.start + 1)))
    refine .pos ?_ ?_
    · obtain ⟨r, hr⟩ := hp
      rw [← hr] at hw
      exact (H.peeks (pat := b!"ttp") (by decide) (by decide) (by decide)).2 ⟨r ++ after, (cons_inj hw).2.symm⟩
    · rw [hl]
      exact H.givesA (by decide) _ true 0 _ hw rfl ⟨p, x, hlx, hx⟩ (by decide)
  case email => exact h.elim
  case text => exact absurd rfl h1.2.2
  case charRef => exact H.charRefC hw h
  case openDoubleQuote =>
    obtain ⟨rfl, hq⟩ := h
    obtain ⟨rfl, hr⟩ := cons_inj hw
    show Gives _ _ (scanDouble (at_ s (s.start + 1)))
    unfold scanDouble
    exact .pos ⟨H.back_quote hq, H.peek_some (by decide) (by rw [hr]; rfl)⟩
      (H.givesA (by decide) _ true 0 _ hw rfl ⟨b!"\"", _, rfl, by decide⟩ (by decide))
  case closeDoubleQuote =>
    obtain ⟨rfl, hq⟩ := h
    obtain ⟨rfl, hr⟩ := cons_inj hw
    show Gives _ _ (scanBacktick (at_ s (s.start + 1)))
    unfold scanBacktick
    refine .neg ?_ (.pos ((H.quote (x := c!"\"") (by decide) (by decide) (by decide)).2 ⟨after, hr, hq⟩)
      (H.givesA (by decide) _ true 0 _ hw rfl ⟨b!"`", _, rfl, by decide⟩ (by decide)))
    intro hq
    obtain ⟨r, hr', hq⟩ := (H.quote (x := c!"'") (by decide) (by decide) (by decide)).1 hq
    rw [hr] at hr'; simp at hr'
  case openSingleQuote =>
    obtain ⟨rfl, hq⟩ := h
    obtain ⟨rfl, hr⟩ := cons_inj hw
    show Gives _ _ (scanQuote (at_ s (s.start + 1)))
    unfold scanQuote
    rw [H.endTag, if_neg (by decide)]
    refine .neg ?_ (.pos ⟨H.back_quote hq, H.peek_some (by decide) (by rw [hr]; rfl)⟩
      (H.givesA (by decide) _ true 0 _ hw rfl ⟨b!"'", _, rfl, by decide⟩ (by decide)))
    rw [H.repeated c!"'" 3 (by decide) (by omega)]
    rintro ⟨r, h⟩; rw [hr] at h; simp at h
  case closeSingleQuote =>
    obtain ⟨rfl, hq⟩ := h
    obtain ⟨rfl, hr⟩ := cons_inj hw
    show Gives _ _ (scanBacktick (at_ s (s.start + 1)))
    unfold scanBacktick
    exact .pos ((H.quote (x := c!"'") (by decide) (by decide) (by decide)).2 ⟨after, hr, hq⟩)
      (H.givesA (by decide) _ true 0 _ hw rfl ⟨b!"`", _, rfl, by decide⟩ (by decide))
  case eof => exact h.elim
  case inlineStyle =>
    obtain ⟨h, hn⟩ := h
    have hc : c = c!"[" := by obtain ⟨body, rfl, _⟩ := h; exact (cons_inj hw).1
    subst hc
    obtain ⟨p, hr, hp, rfl, hpre⟩ := H.bracketedC (w := b!".") hw rfl h (by decide)
    obtain ⟨z, hz⟩ := hpre
    have hpk := H.peek_some (x := c!".") (by decide) (by rw [← hz]; rfl)
    show Gives _ _ (scanBracket (at_ s (s.start + 1)))
    unfold scanBracket
    refine .neg (by rw [hpk]; simp) ?_
    have hat : attributionEnd (at_ s (s.start + 1)) = none := by
      obtain ⟨w, q, hr', hw10, hq, ha⟩ := H.line
      have hlast := H.getD_last hr'
      unfold attributionEnd
      show (if startsNewLine (at_ s (s.start + 1)) = true ∧ s.src.getD (Scanner.adv s.src (· ≠ c!"\n") (s.start + 1) - 1) 0 = c!"]"
        then some (Scanner.adv s.src (· ≠ c!"\n") (s.start + 1)) else none) = _
      rw [ha, hlast, if_neg]
      rintro ⟨a, b⟩
      apply hn
      refine ⟨(H.newLine _).1 a, c!"[" :: w, q, by rw [← hw, hr']; rfl, by simpa using hw10, hq, ?_⟩
      rw [List.getLastD_eq_getLast?] at b
      cases hg : (c!"[" :: w).getLast? with
      | none => simp at hg
      | some y => rw [hg] at b; simpa using b
    rw [hat]
    exact .pos hpk (H.givesBracket (by decide) _ (by decide) hr hp)
  case «include» =>
    obtain ⟨hl, h⟩ := h
    have hc : c = c!"i" := by obtain ⟨body, rfl, _⟩ := h; exact (cons_inj hw).1
    subst hc
    obtain ⟨p, hr, hp, rfl, hpre⟩ := H.bracketedC (w := b!"nclude::") hw rfl h (by decide)
    show Gives _ _ (scanI (at_ s (s.start + 1)))
    unfold scanI
    refine .pos ?_ (H.givesBracket (by decide) _ (by decide) hr hp)
    rw [Bool.and_eq_true, decide_eq_true_eq]
    exact ⟨(H.newLine _).2 hl, (H.peeks (pat := b!"nclude::") (by decide) (by decide) (by decide)).2 hpre⟩
  case startTag => exact h.elim
  case endTag => exact h.elim
  case blockAnchor => exact absurd rfl h1.1
  case elementAttributes =>
    obtain ⟨h, hn⟩ := h
    have hc : c = c!"[" := by
      obtain ⟨_, ⟨body, hb⟩, _⟩ := h
      rw [hb] at hw
      exact (cons_inj hw).1
    have := H.bracketLineC hc hw h (ty := .elementAttributes) (by decide) (by
      intro b hb
      have := hn b hb
      simp only [List.mem_cons, List.not_mem_nil, or_false, not_or] at this
      unfold attributionType
      rw [if_neg this.1, if_neg this.2.1, if_neg this.2.2.1, if_neg this.2.2.2.1, if_neg this.2.2.2.2])
    subst hc; exact this
  case crossReference => exact absurd rfl h1.2.1
  case «attribute» =>
    obtain ⟨hl, ha, name, value, rfl, hname, hval⟩ := h
    obtain ⟨r, rfl⟩ := lineEnd_cases ha
    obtain ⟨rfl, hr⟩ := cons_inj hw
    have hr : rest = name ++ c!":" :: (value ++ 10 :: r) := by rw [hr]; simp
    have hadv := H.advTo0 (fun b => b ≠ c!" " && b ≠ c!"\n" && b ≠ c!":") hr (by
      intro b hb
      have h2 := hname b hb
      simp only [List.mem_cons, List.not_mem_nil, or_false, not_or] at h2
      simp [low_ne h2.1 (by decide), low_ne h2.2.1 (by decide), low_ne h2.2.2 (by decide)]) (by intro b hb; cases hb; decide)
    have hat : startsAttr (at_ s (s.start + 1)) = some true := by
      unfold startsAttr
      show (s.src[Scanner.adv s.src (fun b => b ≠ c!" " && b ≠ c!"\n" && b ≠ c!":") (s.start + 1)]?).map _ = _
      rw [hadv, H.at_get hr]; rfl
    have hr' : rest = (name ++ c!":" :: value) ++ 10 :: r := by rw [hr]; simp
    have hadv' := H.advUntil c!"\n" (by decide) hr' (by
      simp only [List.mem_append, List.mem_cons, not_or]
      refine ⟨fun h => ?_, by decide, hval⟩
      exact hname _ h (by decide)) (.inr rfl)
    show Gives _ _ (scanColon (at_ s (s.start + 1)))
    unfold scanColon
    refine .pos ((H.newLine _).2 hl) ?_
    rw [hat]
    show Gives _ _ (if s.src.length ≤ Scanner.adv s.src (· ≠ c!"\n") (s.start + 1) then _ else
        addToken (at_ s (Scanner.adv s.src (· ≠ c!"\n") (s.start + 1))) .attribute false 0)
    rw [hadv']
    refine .neg (by rw [H.srcLen, hr']; simp) ?_
    exact H.gives (by decide) _ false 0 _ hw (by simp; omega) (by intro b hb; cases hb; decide) (by decide)
  case attributeReference =>
    obtain ⟨w, rfl, ha⟩ := h
    obtain ⟨rfl, hr⟩ := cons_inj hw
    have hr : rest = w ++ c!"}" :: after := by rw [hr]; simp
    have hwl : ∀ b ∈ w, low b = b ∧ isAttrRefChar b = true := by
      intro b hb
      have hlt : b.toNat < 128 := by
        rcases ha b hb with h | rfl
        · unfold Alnum at h; omega
        · decide
      refine ⟨low_ascii hlt, ?_⟩
      unfold isAttrRefChar
      rw [Bool.or_eq_true, decide_eq_true_eq]
      exact (ha b hb).imp_left (isAlnum_ascii b hlt).2
    have hadv := H.advTo0 isAttrRefChar hr (fun b hb => by rw [(hwl b hb).1]; exact (hwl b hb).2) (by intro b hb; cases hb; decide)
    show Gives _ _ (scanBrace (at_ s (s.start + 1)))
    unfold scanBrace
    have hsc : startsAttributeReference (at_ s (s.start + 1)) = some true := by
      unfold startsAttributeReference
      show (s.src[Scanner.adv s.src isAttrRefChar (s.start + 1)]?).map _ = _
      rw [hadv, H.at_get hr]; rfl
    rw [hsc]
    show Gives _ _ (addToken (at_ s (Scanner.adv s.src isAttrRefChar (s.start + 1) + 1)) .attributeReference false 0)
    rw [hadv]
    exact H.givesA (by decide) _ false 0 _ hw (by simp; omega) ⟨b!"{" ++ w, _, rfl, by decide⟩ (by decide)

end Here
end Adoc.Scanner
