import Verif.Proof.LexicalDispatch
/-!
# Wherever a rule of the lexical grammar matches, the scanner returns its token
-/
namespace Adoc.Scanner
open Lexical Props

/-- The token returned has type `ty` and text `l`. -/
def Gives (ty : TokenType) (l : Str) (r : Item × Scanner) : Prop := ∃ t s', r = (.tok t, s') ∧ t.ty = ty ∧ t.lexeme = l

theorem Gives.pos {ty : TokenType} {l : Str} {p : Prop} [Decidable p] {a b : Item × Scanner} (h : p) (ha : Gives ty l a) :
    Gives ty l (if p then a else b) := by rw [if_pos h]; exact ha

theorem Gives.neg {ty : TokenType} {l : Str} {p : Prop} [Decidable p] {a b : Item × Scanner} (h : ¬p) (hb : Gives ty l b) :
    Gives ty l (if p then a else b) := by rw [if_neg h]; exact hb

namespace Here
variable {before rest : Str} {c : UInt8} {s : Scanner} (H : Here before c rest s)
include H

/-- A token with known text is returned. -/
theorem gives (hc : c.toNat < 128) (ty : TokenType) (lit : Bool) (n e : Nat) {l after : Str} (hw : c :: rest = l ++ after)
    (he : e = s.start + l.length) (hs : Starts after) (h1 : ty ≠ .blockAnchor ∧ ty ≠ .crossReference) :
    Gives ty l (addToken (at_ s e) ty lit n) := by
  have hsl : slice s.src s.start e = some l := by
    rw [H.src, he, H.start, hw]
    refine slice_mid before l after ?_ hs
    rw [← hw]
    intro b hb
    simp at hb; subst hb
    exact (isCont_false_iff _).2 (.inl hc)
  have hv : ∀ t : Token, t.ty = ty → t.validate.ty = ty := by
    intro t ht
    rcases validate_ty t with h | h
    · rw [h, ht]
    · rw [ht] at h
      rcases h.2 with h | h
      · exact absurd h h1.1
      · exact absurd h h1.2
  unfold addToken
  show Gives ty l (match slice s.src s.start e with | none => _ | some text => _)
  rw [hsl]
  dsimp only
  split
  · exact ⟨_, _, rfl, hv _ rfl, validate_lexeme _⟩
  · exact ⟨_, _, rfl, hv _ rfl, validate_lexeme _⟩

/-- A token whose text ends with an ASCII byte is returned. -/
theorem givesA (hc : c.toNat < 128) (ty : TokenType) (lit : Bool) (n e : Nat) {l after : Str} (hw : c :: rest = l ++ after)
    (he : e = s.start + l.length) (hl : ∃ p x, l = p ++ [x] ∧ x.toNat < 128) (h1 : ty ≠ .blockAnchor ∧ ty ≠ .crossReference) :
    Gives ty l (addToken (at_ s e) ty lit n) := by
  obtain ⟨p, x, rfl, hx⟩ := hl
  exact H.gives hc ty lit n e hw he (H.starts (p := before ++ p) (x := x) (by rw [H.src, hw]; simp) hx) h1

theorem noDelim (hd : ¬DelimiterLine before (c :: rest)) (hc : c ∈ b!"+*-_/=.") :
    ¬(startsNewLine (at_ s (s.start + 1)) && startsRepeated (at_ s (s.start + 1)) c 4) = true := by
  intro h
  obtain ⟨h1, r, hr⟩ := (H.delim hc).1 h
  exact hd ⟨h1, c, hc, r, by rw [← hr]; rfl⟩

theorem delimOff (hd : ¬DelimiterLine before (c :: rest)) (hc : c ∈ b!"+*-_/=.") :
    scanDelimChar (at_ s (s.start + 1)) c = (if c = c!"=" then scanEquals (at_ s (s.start + 1))
      else if c = c!"-" then scanMinus (at_ s (s.start + 1))
      else if c = c!"*" then scanStar (at_ s (s.start + 1))
      else if c = c!"/" then scanSlash (at_ s (s.start + 1))
      else if c = c!"+" then scanPlus (at_ s (s.start + 1))
      else if c = c!"_" then inlineFormatting (at_ s (s.start + 1)) c!"_" .emphasis .unconstrainedEmphasis
      else if c = c!"." then scanDot (at_ s (s.start + 1))
      else addText (at_ s (s.start + 1))) := by
  unfold scanDelimChar
  rw [H.endTag, if_neg (by decide), if_neg (H.noDelim hd hc)]

omit H in
/-- No delimiter line when the next byte is another one. -/
theorem no_delim_head (h : rest.head? ≠ some c) : ¬DelimiterLine before (c :: rest) := by
  intro hd
  obtain ⟨_, r, hr⟩ := delimiterLine hd
  rw [← hr] at h; exact h rfl

theorem peek_some (hc : c.toNat < 128) {x : UInt8} (h : rest.head? = some x) : Scanner.peek (at_ s (s.start + 1)) = x := by
  rw [H.peek hc, h]; rfl

theorem peek_ne (hc : c.toNat < 128) {x : UInt8} (hx : x ≠ 0) (h : rest.head? ≠ some x) :
    Scanner.peek (at_ s (s.start + 1)) ≠ x := by
  intro hp
  obtain ⟨r, hr⟩ := H.next hc hx hp
  rw [hr] at h; exact h rfl

theorem back_some {x : UInt8} (hx : x ≠ 0) (hx' : isCont x = false) (h : before.getLast? = some x) :
    Scanner.peekBack (at_ s (s.start + 1)) = x := (H.last _ hx).2 ⟨h, hx'⟩

theorem opener (h : Opener before) : beginsInline (Scanner.peekBack (at_ s (s.start + 1))) = true := by
  rw [H.peekBack]
  rcases h with rfl | ⟨b, hb, h⟩
  · rfl
  · rw [hb]
    simp only [Option.map_some, Option.getD_some]
    unfold low
    split
    · rfl
    · rename_i hn
      rw [isCont_iff] at hn
      rcases h with h | h | h
      · rw [h]; rfl
      · exact absurd h hn
      · unfold beginsInline
        rw [Bool.or_eq_true]; right
        simpa using h

theorem closer (hc : c.toNat < 128) (h : Closer rest) : endsInline (Scanner.peek (at_ s (s.start + 1))) = true := by
  rw [H.peek hc]
  rcases h with rfl | ⟨b, hb, h⟩
  · rfl
  · rw [hb]
    simp only [Option.getD_some]
    unfold endsInline
    rw [Bool.or_eq_true]
    rcases h with h | h
    · left; simpa using h
    · right; simpa using h

theorem single (hc : c.toNat < 128) (h0 : c ≠ 0) (t u : TokenType) (h1 : t ≠ .blockAnchor ∧ t ≠ .crossReference)
    (h : Single c before [c] rest) : Gives t [c] (inlineFormatting (at_ s (s.start + 1)) c t u) := by
  obtain ⟨_, h2, h3, h4⟩ := h
  unfold inlineFormatting
  refine .neg ?_ (.neg (H.peek_ne hc h0 h2) (.pos ?_ ?_))
  · rintro ⟨a, b⟩
    obtain ⟨r, hr⟩ := H.next hc (by decide) a
    exact h4 ⟨((H.last _ (by decide)).1 b).1, by rw [hr]; rfl⟩
  · rcases h3 with h3 | h3
    · exact .inr ⟨H.opener h3, H.peek_ne hc h0 h2⟩
    · exact .inl (H.closer hc h3)
  · exact H.givesA hc t false 0 _ rfl rfl ⟨[], c, rfl, hc⟩ h1

theorem double (hc : c.toNat < 128) (h0 : c ≠ 0 ∧ c ≠ c!" ") (t u : TokenType) (h1 : u ≠ .blockAnchor ∧ u ≠ .crossReference)
    {r : Str} (h : rest = c :: r) : Gives u [c, c] (inlineFormatting (at_ s (s.start + 1)) c t u) := by
  have hp : Scanner.peek (at_ s (s.start + 1)) = c := H.peek_some hc (by rw [h]; rfl)
  unfold inlineFormatting
  refine .neg ?_ (.pos hp ?_)
  · rintro ⟨a, _⟩; exact h0.2 (hp.symm.trans a)
  · exact H.givesA hc u false 0 _ (after := r) (by rw [h]; rfl) rfl ⟨[c], c, rfl, hc⟩ h1

/-- The cursor moves over `v` and stops there. -/
theorem advTo (p : UInt8 → Bool) {w v q : Str} (hr : rest = w ++ (v ++ q)) (hv : ∀ b ∈ v, p (low b) = true)
    (hq : ∀ b, q.head? = some b → p (low b) = false) :
    Scanner.adv s.src p (s.start + 1 + w.length) = s.start + 1 + w.length + v.length := by
  rw [H.adv p hr, List.takeWhile_append_of_pos (by simpa using hv)]
  congr 1
  cases q with
  | nil => simp
  | cons b q => simp [hq b rfl]

theorem advTo0 (p : UInt8 → Bool) {v q : Str} (hr : rest = v ++ q) (hv : ∀ b ∈ v, p (low b) = true)
    (hq : ∀ b, q.head? = some b → p (low b) = false) : Scanner.adv s.src p (s.start + 1) = s.start + 1 + v.length :=
  H.advTo p (w := []) hr hv hq

omit H in
theorem low_ne {b x : UInt8} (hb : b ≠ x) (hx : x ≠ 0) : low b ≠ x := fun h => hb (low_eq h hx)

/-- Up to the first `x`. -/
theorem advUntil (x : UInt8) (hx : x ≠ 0 ∧ isCont x = false) {v q : Str} (hr : rest = v ++ q) (hv : x ∉ v)
    (hq : q = [] ∨ q.head? = some x) : Scanner.adv s.src (· ≠ x) (s.start + 1) = s.start + 1 + v.length := by
  refine H.advTo0 _ hr ?_ ?_
  · intro b hb
    simp only [ne_eq, decide_eq_true_eq]
    exact low_ne (fun h => hv (h ▸ hb)) hx.1
  · intro b hb
    rcases hq with rfl | hq
    · cases hb
    · rw [hq] at hb; cases hb
      simp [low, hx.2]

theorem line_starts {v q : Str} (hr : rest = v ++ q) (hq : LineEnd q) : Starts q := by
  intro b hb
  rcases hq with rfl | hq
  · cases hb
  · rw [hq] at hb; cases hb; decide

/-- Everything through the bracket. -/
theorem givesBracket (hc : c.toNat < 128) (ty : TokenType) (h1 : ty ≠ .blockAnchor ∧ ty ≠ .crossReference) {p q : Str}
    (hr : rest = p ++ c!"]" :: q) (hp : c!"]" ∉ p) :
    Gives ty (c :: p ++ [c!"]"]) (addThroughBracket (at_ s (s.start + 1)) ty) := by
  have ha := H.advUntil c!"]" (by decide) hr hp (.inr rfl)
  unfold addThroughBracket
  dsimp only
  rw [ha]
  refine .neg (by rw [H.srcLen, hr]; simp) ?_
  exact H.givesA hc ty true 0 _ (after := q) (by rw [hr]; simp) (by simp; omega) ⟨c :: p, _, rfl, by decide⟩ h1

end Here
end Adoc.Scanner
