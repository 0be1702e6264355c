import Verif.Proof.LexicalComplete2
/-!
# Every rule of the lexical grammar
-/
namespace Adoc.Scanner
open Lexical Props

namespace Here
variable {before rest : Str} {c : UInt8} {s : Scanner} (H : Here before c rest s)
include H

theorem noLine (h : ¬LineStart before) : startsNewLine (at_ s (s.start + 1)) = false := by
  cases hn : startsNewLine (at_ s (s.start + 1)) with
  | false => rfl
  | true => exact absurd ((H.newLine _).1 hn) h

omit H in
theorem space_line (h : before.getLast? = some c!" ") : ¬LineStart before := by
  rintro (rfl | h')
  · cases h
  · rw [h] at h'; revert h'; decide

theorem cQuote {ty : TokenType} {l : Str} (hc : c = c!"'") (h : Gives ty l (scanQuote (at_ s (s.start + 1)))) :
    Gives ty l (Scanner.dispatch (at_ s (s.start + 1)) c) := by subst hc; exact h

/-- The quotation mark after a word boundary. -/
theorem back_quote (h : QuoteStart before) : Scanner.peekBack (at_ s (s.start + 1)) = 0
    ∨ Scanner.peekBack (at_ s (s.start + 1)) = c!" " ∨ Scanner.peekBack (at_ s (s.start + 1)) = c!"\n" := by
  rw [H.peekBack]
  rcases h with rfl | ⟨b, hb, h⟩
  · left; rfl
  · rw [hb]
    simp only [Option.map_some, Option.getD_some]
    unfold low
    split
    · exact .inl rfl
    · rename_i hn
      rw [isCont_iff] at hn
      rcases h with h | h | h
      · exact .inl h
      · exact absurd h hn
      · have h : b = c!" " ∨ b = c!"\n" := by simpa using h
        exact .inr h

omit H in
theorem cons_inj {a x : UInt8} {p q : Str} (h : a :: p = x :: q) : a = x ∧ p = q := by simpa using h

theorem delimC (hc : c ∈ b!"+*-_/=.") {l after : Str} (hw : c :: rest = l ++ after) {ty : TokenType} (x : UInt8)
    (hty : TokenType.blockFromChar x = some ty) (h1 : ty ≠ .blockAnchor ∧ ty ≠ .crossReference)
    (h : Delimiter x before l after) : Gives ty l (scanDelimChar (at_ s (s.start + 1)) c) := by
  obtain ⟨hl, rfl, ha⟩ := h
  obtain ⟨rfl, hr⟩ := cons_inj hw
  have hlow : ∀ b ∈ b!"+*-_/=.", b.toNat < 128 := by decide
  cases after with
  | nil => cases ha
  | cons y after =>
    cases ha
    unfold scanDelimChar
    rw [H.endTag, if_neg (by decide), if_pos ((H.delim hc).2 ⟨hl, after, hr.symm⟩), hty]
    exact H.givesA (hlow _ hc) ty false 0 _ hw rfl ⟨[c, c, c], c, rfl, hlow _ hc⟩ h1

theorem wordC (hc : c.toNat < 128) (w : Str) (ty : TokenType) (lit : Bool) (hw : w ≠ []) (ha : ∀ b ∈ w, b.toNat < 128) (h0 : w ≠ [0])
    (h1 : ty ≠ .blockAnchor ∧ ty ≠ .crossReference) {after : Str} (h : rest = w ++ after) :
    Gives ty (c :: w) (scanWord (at_ s (s.start + 1)) w ty lit) := by
  unfold scanWord
  refine .pos ((H.peeks hw ha h0).2 ⟨after, h.symm⟩) ?_
  refine H.givesA hc ty lit 0 _ (after := after) (by rw [h]; rfl) (by simp; omega) ?_ h1
  obtain ⟨p, x, rfl⟩ := (List.eq_nil_or_concat w).resolve_left hw
  exact ⟨c :: p, x, by simp, ha x (by simp)⟩

/-- A whole line in brackets. -/
theorem bracketLineC (hc : c = c!"[") {l after : Str} (hw : c :: rest = l ++ after) (h : BracketLine before l after)
    {ty : TokenType} (h1 : ty ≠ .blockAnchor ∧ ty ≠ .crossReference)
    (hty : ∀ b, l[1]? = some b → attributionType b = ty) : Gives ty l (scanBracket (at_ s (s.start + 1))) := by
  obtain ⟨hl, ⟨body, hb⟩, hn, ha, hnb⟩ := h
  subst hc
  obtain ⟨w, hlw⟩ : ∃ w, l = c!"[" :: w := ⟨body ++ [c!"]"], by rw [hb]; rfl⟩
  have hwb : w = body ++ [c!"]"] := by rw [hlw] at hb; simpa using hb
  have hr : rest = w ++ after := by rw [hlw] at hw; simpa using hw
  have hadv := H.advUntil c!"\n" (by decide) hr (by rw [hlw] at hn; simp at hn; exact hn) ha
  have hlast := H.getD_last hr
  have hg : (c!"[" :: w).getLastD 0 = c!"]" := by
    rw [hwb, ← List.cons_append, List.getLastD_eq_getLast?, List.getLast?_concat]; rfl
  unfold scanBracket
  refine .neg ?_ ?_
  · rw [Bool.and_eq_true, decide_eq_true_eq]
    rintro ⟨_, hp⟩
    obtain ⟨r, hr'⟩ := H.next (by decide) (by decide) hp
    apply hnb
    rw [hlw]
    cases w with
    | nil => simp at hwb
    | cons y w => rw [hr'] at hr; simp at hr; rw [← hr.1]; exact ⟨w, rfl⟩
  have hat : attributionEnd (at_ s (s.start + 1)) = some (s.start + 1 + w.length) := by
    unfold attributionEnd
    show (if startsNewLine (at_ s (s.start + 1)) = true ∧ s.src.getD (Scanner.adv s.src (· ≠ c!"\n") (s.start + 1) - 1) 0 = c!"]"
      then some (Scanner.adv s.src (· ≠ c!"\n") (s.start + 1)) else none) = _
    rw [hadv, hlast, if_pos ⟨(H.newLine _).2 hl, hg⟩]
  rw [hat]
  have hget : l[1]? = some (s.src.getD (s.start + 1) 0) := by
    have h1 : s.src[s.start + 1]? = rest.head? := by rw [← H.drop, List.head?_drop]
    rw [List.getD_eq_getElem?_getD, h1, hr, hlw]
    cases w with
    | nil => simp at hwb
    | cons y w => rfl
  show Gives ty l (addToken (at_ s (s.start + 1 + w.length)) (attributionType (s.src.getD (s.start + 1) 0)) true 0)
  rw [hty _ hget]
  exact H.givesA (by decide) ty true 0 _ hw (by rw [hlw]; simp; omega) ⟨c!"[" :: body, _, by rw [hlw, hwb]; rfl, by decide⟩ h1

theorem admonitionC {l after label : Str} {x : UInt8} {w : Str} (hlab : label = x :: w) (hx : x.toNat < 128) (hw0 : w ≠ []) (hwa : ∀ b ∈ w, b.toNat < 128)
    (hz : w ≠ [0]) {ty : TokenType} (h1 : ty ≠ .blockAnchor ∧ ty ≠ .crossReference)
    (hd : ∀ t, Scanner.dispatch t x = scanWord t w ty true) (hty : attributionType x = ty) (hw : c :: rest = l ++ after)
    (h : Admonition label x before l after) : Gives ty l (Scanner.dispatch (at_ s (s.start + 1)) c) := by
  rcases h with h | ⟨h, hg⟩
  · rw [h, hlab] at hw ⊢
    obtain ⟨rfl, hr⟩ := cons_inj hw
    rw [hd]
    exact H.wordC hx w ty true hw0 hwa hz h1 hr
  · have hc : c = c!"[" := by
      obtain ⟨_, ⟨body, hb⟩, _⟩ := h
      rw [hb] at hw
      exact (cons_inj hw).1
    have := H.bracketLineC hc hw h h1 (by intro b hb; rw [hg] at hb; cases hb; exact hty)
    subst hc; exact this

theorem markC {l after : Str} (hw : c :: rest = l ++ after) {x : UInt8} {t u : TokenType} (hx : x.toNat < 128 ∧ x ≠ 0)
    (h1 : t ≠ .blockAnchor ∧ t ≠ .crossReference) (h : Single x before l after)
    (hd : c = x → after = rest → Scanner.dispatch (at_ s (s.start + 1)) x = inlineFormatting (at_ s (s.start + 1)) x t u) :
    Gives t l (Scanner.dispatch (at_ s (s.start + 1)) c) := by
  have hl := h.1
  subst hl
  obtain ⟨rfl, hr⟩ := cons_inj hw
  have hr : after = rest := hr.symm
  subst hr
  rw [hd rfl rfl]
  exact H.single hx.1 hx.2 t u h1 h

theorem doubleC {l after : Str} (hw : c :: rest = l ++ after) {x : UInt8} {t u : TokenType} (hx : x.toNat < 128 ∧ x ≠ 0 ∧ x ≠ c!" ")
    (h1 : u ≠ .blockAnchor ∧ u ≠ .crossReference) (h : Double x before l after)
    (hd : c = x → rest = x :: after → ¬DelimiterLine before (c :: rest) →
      Scanner.dispatch (at_ s (s.start + 1)) x = inlineFormatting (at_ s (s.start + 1)) x t u) :
    Gives u l (Scanner.dispatch (at_ s (s.start + 1)) c) := by
  obtain ⟨rfl, hn⟩ := h
  rw [← hw] at hn
  obtain ⟨rfl, hr⟩ := cons_inj hw
  rw [hd rfl hr hn]
  exact H.double hx.1 hx.2 t u h1 hr

theorem headingC {l after : Str} (hw : c :: rest = l ++ after) (m : Nat) (ty : TokenType)
    (h1 : ty ≠ .blockAnchor ∧ ty ≠ .crossReference) (h : Heading (m + 1) before l after)
    (hm : ∀ t : Scanner, (match m + 1 with
      | 1 => addToken t .heading1 false 0
      | 2 => addToken t .heading2 false 0
      | 3 => addToken t .heading3 false 0
      | 4 => addToken t .heading4 false 0
      | 5 => addToken t .heading5 false 0
      | _ => (.err (.headingLevel t.line), t)) = addToken t ty false 0) :
    Gives ty l (Scanner.dispatch (at_ s (s.start + 1)) c) := by
  obtain ⟨hl, ⟨x, hlx, hx, hx', hg⟩, hd⟩ := h
  rw [← hw] at hd
  have hw' := hw
  rw [hlx, List.replicate_succ, List.cons_append, List.cons_append] at hw'
  obtain ⟨rfl, hr⟩ := cons_inj hw'
  show Gives ty l (scanDelimChar (at_ s (s.start + 1)) c!"=")
  rw [H.delimOff hd (by decide)]
  show Gives ty l (scanEquals (at_ s (s.start + 1)))
  unfold scanEquals
  refine .neg ?_ (.pos ((H.newLine _).2 hl) ?_)
  · intro hp
    obtain ⟨r, hr'⟩ := H.next (by decide) (by decide) hp
    rw [hr'] at hr
    cases m with
    | zero => simp at hr; exact hg ⟨rfl, hr.1.symm⟩
    | succ m => rw [List.replicate_succ] at hr; simp at hr
  · have ha := H.advTo0 (· = c!"=") (v := List.replicate m c!"=") (q := x :: after) (by rw [hr]; simp) (by
      intro b hb; rw [List.mem_replicate] at hb; rw [hb.2]; decide) (by
      intro b hb; cases hb; rw [low_ascii hx']; simpa using hx)
    unfold addHeading
    show Gives ty l (match Scanner.adv s.src (· = c!"=") (s.start + 1) + 1 - 1 - s.start with
      | 1 => addToken (at_ s (Scanner.adv s.src (· = c!"=") (s.start + 1) + 1)) .heading1 false 0
      | 2 => addToken (at_ s (Scanner.adv s.src (· = c!"=") (s.start + 1) + 1)) .heading2 false 0
      | 3 => addToken (at_ s (Scanner.adv s.src (· = c!"=") (s.start + 1) + 1)) .heading3 false 0
      | 4 => addToken (at_ s (Scanner.adv s.src (· = c!"=") (s.start + 1) + 1)) .heading4 false 0
      | 5 => addToken (at_ s (Scanner.adv s.src (· = c!"=") (s.start + 1) + 1)) .heading5 false 0
      | _ => (.err (.headingLevel (at_ s (Scanner.adv s.src (· = c!"=") (s.start + 1) + 1)).line), at_ s (Scanner.adv s.src (· = c!"=") (s.start + 1) + 1)))
    rw [ha, List.length_replicate, show s.start + 1 + m + 1 - 1 - s.start = m + 1 by omega, hm]
    exact H.givesA (by decide) ty false 0 _ hw (by rw [hlx]; simp; omega) ⟨_, x, hlx, hx'⟩ h1

theorem charRefC {l after : Str} (hw : c :: rest = l ++ after) (h : Lexeme .charRef before l after) :
    Gives .charRef l (Scanner.dispatch (at_ s (s.start + 1)) c) := by
  have hq : TokenType.charRef ≠ .blockAnchor ∧ TokenType.charRef ≠ .crossReference := by decide
  have parens : ∀ w : Str, w ∈ [b!"C", b!"R", b!"TM"] → rest = w ++ c!")" :: after → c = c!"(" →
      Gives .charRef (c!"(" :: w ++ [c!")"]) (Scanner.dispatch (at_ s (s.start + 1)) c) := by
    rintro w hm hr rfl
    show Gives .charRef _ (if startsParens (at_ s (s.start + 1)) then addParens (at_ s (s.start + 1)) else addText (at_ s (s.start + 1)))
    have hs : startsParens (at_ s (s.start + 1)) = true := by
      have p1 := H.peeks (pat := b!"C)") (by decide) (by decide) (by decide)
      have p2 := H.peeks (pat := b!"R)") (by decide) (by decide) (by decide)
      have p3 := H.peeks (pat := b!"TM)") (by decide) (by decide) (by decide)
      unfold startsParens
      rw [Bool.or_eq_true, Bool.or_eq_true, decide_eq_true_eq, decide_eq_true_eq, decide_eq_true_eq]
      simp only [List.mem_cons, List.not_mem_nil, or_false] at hm
      rcases hm with rfl | rfl | rfl
      · exact .inl (.inl (p1.2 ⟨after, hr.symm⟩))
      · exact .inl (.inr (p2.2 ⟨after, hr.symm⟩))
      · exact .inr (p3.2 ⟨after, hr.symm⟩)
    refine .pos hs ?_
    have hno : c!")" ∉ w := by
      simp only [List.mem_cons, List.not_mem_nil, or_false] at hm
      rcases hm with rfl | rfl | rfl <;> decide
    have ha := H.advUntil c!")" (by decide) hr hno (.inr rfl)
    unfold addParens
    dsimp only
    rw [ha]
    refine .neg (by rw [H.srcLen, hr]; simp) ?_
    exact H.givesA (by decide) _ true 0 _ (after := after) (by rw [hr]; simp) (by simp; omega) ⟨c!"(" :: w, _, rfl, by decide⟩ hq
  rcases h with h | ⟨rfl, hd⟩ | ⟨rfl, hd⟩ | ⟨rfl, r, hr, hq'⟩ | ⟨w, rfl, ha⟩
  · simp only [List.mem_cons, List.not_mem_nil, or_false] at h
    rcases h with rfl | rfl | rfl | rfl | rfl | rfl | rfl
    · exact parens b!"C" (by decide) (cons_inj hw).2 (cons_inj hw).1
    · exact parens b!"R" (by decide) (cons_inj hw).2 (cons_inj hw).1
    · exact parens b!"TM" (by decide) (cons_inj hw).2 (cons_inj hw).1
    · obtain ⟨rfl, hr⟩ := cons_inj hw
      show Gives .charRef _ (scanDelimChar (at_ s (s.start + 1)) c!"-")
      rw [H.delimOff (no_delim_head (by rw [hr]; simp)) (by decide)]
      show Gives .charRef _ (scanMinus (at_ s (s.start + 1)))
      exact .pos (H.peek_some (by decide) (by rw [hr]; rfl))
        (H.givesA (by decide) _ false 0 _ hw rfl ⟨b!"-", _, rfl, by decide⟩ hq)
    · obtain ⟨rfl, hr⟩ := cons_inj hw
      show Gives .charRef _ (scanDelimChar (at_ s (s.start + 1)) c!"=")
      rw [H.delimOff (no_delim_head (by rw [hr]; simp)) (by decide)]
      show Gives .charRef _ (scanEquals (at_ s (s.start + 1)))
      exact .pos (H.peek_some (by decide) (by rw [hr]; rfl))
        (H.givesA (by decide) _ false 0 _ hw rfl ⟨b!"=", _, rfl, by decide⟩ hq)
    · obtain ⟨rfl, hr⟩ := cons_inj hw
      show Gives .charRef _ (scanLess (at_ s (s.start + 1)))
      unfold scanLess
      rw [H.endTag, if_neg (by decide)]
      refine .neg ?_ (.pos (.inl (H.peek_some (by decide) (by rw [hr]; rfl)))
        (H.givesA (by decide) _ false 0 _ hw rfl ⟨b!"<", _, rfl, by decide⟩ hq))
      rw [H.repeated c!"<" 3 (by decide) (by omega)]
      rintro ⟨r, hr'⟩; rw [hr] at hr'; simp at hr'
    · obtain ⟨rfl, hr⟩ := cons_inj hw
      show Gives .charRef _ (scanLess (at_ s (s.start + 1)))
      unfold scanLess
      rw [H.endTag, if_neg (by decide)]
      refine .neg ?_ (.pos (.inr (H.peek_some (by decide) (by rw [hr]; rfl)))
        (H.givesA (by decide) _ false 0 _ hw rfl ⟨b!"<", _, rfl, by decide⟩ hq))
      rw [H.repeated c!"<" 3 (by decide) (by omega)]
      rintro ⟨r, hr'⟩; rw [hr] at hr'; simp at hr'
  · rw [← hw] at hd
    obtain ⟨rfl, hr⟩ := cons_inj hw
    show Gives .charRef _ (scanDelimChar (at_ s (s.start + 1)) c!".")
    rw [H.delimOff hd (by decide)]
    show Gives .charRef _ (scanDot (at_ s (s.start + 1)))
    exact .pos ((H.peeks (pat := b!"..") (by decide) (by decide) (by decide)).2 ⟨after, hr.symm⟩)
      (H.givesA (by decide) _ false 0 _ hw rfl ⟨b!"..", _, rfl, by decide⟩ hq)
  · obtain ⟨rfl, hr⟩ := cons_inj hw
    have hr : rest = c!"-" :: after := hr
    show Gives .charRef _ (scanDelimChar (at_ s (s.start + 1)) c!"-")
    have hnd : ¬DelimiterLine before (c!"-" :: rest) := by
      intro h
      obtain ⟨_, r, hr'⟩ := delimiterLine h
      rw [hr] at hr'
      simp at hr'
      rw [← hr'] at hd
      rcases hd with hd | ⟨b, hb, h⟩
      · cases hd
      · cases hb; revert h; unfold Alnum; decide
    rw [H.delimOff hnd (by decide)]
    have hp := H.peek_some (by decide) (x := c!"-") (by rw [hr]; rfl)
    show Gives .charRef _ (scanMinus (at_ s (s.start + 1)))
    unfold scanMinus
    refine .neg (by rw [hp]; decide) (.pos ?_ (H.givesA (by decide) _ false 0 _ hw rfl ⟨b!"-", _, rfl, by decide⟩ hq))
    unfold startsEmdash
    dsimp only
    rw [hp]
    simp only [decide_true, Bool.true_and, Bool.or_eq_true, decide_eq_true_eq]
    have hn := H.peeks_none (p := before ++ [c!"-"]) (x := c!"-") (r := after) (by rw [H.src, hr]; simp) (by simp) (by decide)
    have hpk : peeksAhead (at_ s (s.start + 1)) 2 = peeksAheadAt s.src (before ++ [c!"-"]).length 2 := by
      show peeksAheadAt s.src (s.start + 1) 2 = _
      rw [H.start]; simp
    rw [hpk]
    rcases hd with hd | ⟨b, hb, hd⟩
    · right; rw [hn.2 (.inl hd)]; rfl
    · by_cases hb128 : b.toNat < 128
      · cases after with
        | nil => cases hb
        | cons y after =>
          cases hb
          have h2 := H.second (w := []) (x := c!"-") (y := b) (r := after) hr (by decide) hb128
          rw [show s.start + 1 + ([] : Str).length = (before ++ [c!"-"]).length by rw [H.start]; simp] at h2
          rw [h2]
          rcases hd with hd | hd | hd | hd
          · exact .inr hd
          · exact .inl (.inr hd)
          · omega
          · exact .inl (.inl ((isAlnum_ascii b hb128).2 hd))
      · right
        have hst := H.starts (p := before ++ [c!"-"]) (x := c!"-") (q := after) (by rw [H.src, hr]; simp) (by decide) b hb
        rw [isCont_false_iff] at hst
        rw [hn.2 (.inr ⟨b, hb, by omega⟩)]; rfl
  · obtain ⟨rfl, hr'⟩ := cons_inj hw
    have hr' : rest = after := hr'
    show Gives .charRef _ (scanQuote (at_ s (s.start + 1)))
    unfold scanQuote
    rw [H.endTag, if_neg (by decide)]
    refine .neg ?_ (.neg ?_ (.pos ((H.quote (x := c!"s") (by decide) (by decide) (by decide)).2 ⟨r, hr'.trans hr, hq'⟩)
      (H.givesA (by decide) _ false 0 _ hw rfl ⟨[], _, rfl, by decide⟩ hq)))
    · rw [H.repeated c!"'" 3 (by decide) (by omega)]
      rintro ⟨r', h⟩; rw [hr', hr] at h; simp at h
    · rintro ⟨_, h⟩
      obtain ⟨r', h⟩ := H.next (by decide) (by decide) h
      rw [hr', hr] at h; simp at h
  · obtain ⟨rfl, hr⟩ := cons_inj hw
    have hr : rest = w ++ c!";" :: after := by rw [hr]; simp
    have hwl : ∀ b ∈ w, low b = b ∧ isAlnum b = true := by
      intro b hb
      have := ha b hb
      have hlt : b.toNat < 128 := by unfold Alnum at this; omega
      exact ⟨low_ascii hlt, (isAlnum_ascii b hlt).2 this⟩
    have hadv := H.advTo0 isAlnum hr (fun b hb => by rw [(hwl b hb).1]; exact (hwl b hb).2) (by intro b hb; cases hb; decide)
    show Gives .charRef _ (scanAmp (at_ s (s.start + 1)))
    unfold scanAmp
    have hsc : startsCharref (at_ s (s.start + 1)) = some true := by
      unfold startsCharref
      show (s.src[Scanner.adv s.src isAlnum (s.start + 1)]?).map _ = _
      rw [hadv, H.at_get hr]; rfl
    rw [hsc]
    show Gives .charRef _ (addToken (at_ s (Scanner.adv s.src isAlnum (s.start + 1) + 1)) .charRef true 0)
    rw [hadv]
    exact H.givesA (by decide) _ true 0 _ hw (by simp; omega) ⟨b!"&" ++ w, _, rfl, by decide⟩ hq

theorem calloutListC {l after : Str} (hw : c :: rest = l ++ after) (h : Lexeme .codeCalloutListItem before l after) :
    Gives .codeCalloutListItem l (Scanner.dispatch (at_ s (s.start + 1)) c) := by
  obtain ⟨hl, ds, hd, rfl⟩ := h
  obtain ⟨rfl, hr⟩ := cons_inj hw
  have hr : rest = ds ++ c!">" :: c!" " :: after := by rw [hr]; simp
  have hcs := H.calloutC (w := []) hr hd
  have hpk := H.peekAt_some (w := ds ++ [c!">"]) (x := c!" ") (q := after) (by rw [hr]; simp) (by decide)
  simp only [List.length_nil, Nat.add_zero, List.nil_append] at hcs
  show Gives _ _ (scanLess (at_ s (s.start + 1)))
  have hh : ∀ x, rest.head? = some x → x = c!">" ∨ 48 ≤ x.toNat ∧ x.toNat ≤ 57 := by
    intro x hx
    rw [hr] at hx
    cases ds with
    | nil => left; simpa using hx.symm
    | cons d ds => right; simp at hx; exact hx ▸ hd d (by simp)
  have hno : ∀ x, x ∈ b!"<-=" → rest.head? ≠ some x := by
    intro x hx h
    have := hh x h
    clear h
    simp only [List.mem_cons, List.not_mem_nil, or_false] at hx
    rcases hx with rfl | rfl | rfl <;> revert this <;> decide
  unfold scanLess
  rw [H.endTag, if_neg (by decide)]
  refine .neg ?_ (.neg ?_ (.neg (H.peek_ne (by decide) (by decide) (hno _ (by decide))) ?_))
  · rw [H.repeated c!"<" 3 (by decide) (by omega)]
    rintro ⟨r, hr'⟩; exact hno c!"<" (by decide) (by rw [← hr']; rfl)
  · rintro (h | h)
    · exact H.peek_ne (by decide) (by decide) (hno _ (by decide)) h
    · exact H.peek_ne (by decide) (by decide) (hno _ (by decide)) h
  · unfold scanCallouts startsCalloutListItem
    refine .pos ((H.newLine _).2 hl) ?_
    rw [hcs]
    refine .pos (by dsimp only; rw [Bool.true_and, decide_eq_true_eq]; exact hpk) ?_
    exact H.givesA (by decide) _ true 0 _ hw (by simp; omega) ⟨b!"<" ++ ds ++ b!">", c!" ", by simp, by decide⟩ (by decide)

theorem calloutC' {l after : Str} (hw : c :: rest = l ++ after) (h : Lexeme .codeCallout before l after) :
    Gives .codeCallout l (Scanner.dispatch (at_ s (s.start + 1)) c) := by
  obtain ⟨ha, h⟩ := h
  obtain ⟨r, rfl⟩ : ∃ r, after = c!"\n" :: r := by
    cases after with
    | nil => cases ha
    | cons y r => cases ha; exact ⟨r, rfl⟩
  have hmain : ∀ ds q, Digits ds → c = c!"<" → rest = ds ++ c!">" :: q → Gives .codeCallout l (scanCallouts (at_ s (s.start + 1))) →
      Gives .codeCallout l (Scanner.dispatch (at_ s (s.start + 1)) c) := by
    rintro ds q hd rfl hr hg
    have hh : ∀ x, rest.head? = some x → x = c!">" ∨ 48 ≤ x.toNat ∧ x.toNat ≤ 57 := by
      intro x hx
      rw [hr] at hx
      cases ds with
      | nil => left; simpa using hx.symm
      | cons d ds => right; simp at hx; exact hx ▸ hd d (by simp)
    have hno : ∀ x, x ∈ b!"<-=" → rest.head? ≠ some x := by
      intro x hx h
      have := hh x h
      clear h
      simp only [List.mem_cons, List.not_mem_nil, or_false] at hx
      rcases hx with rfl | rfl | rfl <;> revert this <;> decide
    show Gives _ _ (scanLess (at_ s (s.start + 1)))
    unfold scanLess
    rw [H.endTag, if_neg (by decide)]
    refine .neg ?_ (.neg ?_ (.neg (H.peek_ne (by decide) (by decide) (hno _ (by decide))) hg))
    · rw [H.repeated c!"<" 3 (by decide) (by omega)]
      rintro ⟨r, hr'⟩; exact hno c!"<" (by decide) (by rw [← hr']; rfl)
    · rintro (h | h)
      · exact H.peek_ne (by decide) (by decide) (hno _ (by decide)) h
      · exact H.peek_ne (by decide) (by decide) (hno _ (by decide)) h
  rcases h with ⟨hl, ds, hd, rfl⟩ | ⟨hl, ds, es, hd, he, rfl⟩
  · obtain ⟨rfl, hr⟩ := cons_inj hw
    have hr : rest = ds ++ c!">" :: c!"\n" :: r := by rw [hr]; simp
    refine hmain ds _ hd rfl hr ?_
    have hcs := H.calloutC (w := []) hr hd
    have hpk := H.peekAt_some (w := ds ++ [c!">"]) (x := c!"\n") (q := r) (by rw [hr]; simp) (by decide)
    simp only [List.length_nil, Nat.add_zero, List.nil_append] at hcs
    unfold scanCallouts startsCallout
    rw [H.noLine hl, if_neg (by decide), hcs]
    refine .pos (by dsimp only; rw [Bool.true_and, decide_eq_true_eq]; exact hpk) ?_
    exact H.givesA (by decide) _ true 0 _ hw (by simp; omega) ⟨b!"<" ++ ds, _, rfl, by decide⟩ (by decide)
  · obtain ⟨rfl, hr⟩ := cons_inj hw
    have hr : rest = ds ++ c!">" :: (es ++ c!">" :: c!"\n" :: r) := by rw [hr]; simp
    refine hmain ds _ hd rfl hr ?_
    have hcs := H.calloutC (w := []) hr hd
    have hr2 : rest = (ds ++ [c!">"]) ++ (es ++ c!">" :: c!"\n" :: r) := by rw [hr]; simp
    have hcs2 := H.calloutC (w := ds ++ [c!">"]) hr2 he
    have hpk := H.peekAt_some (w := ds ++ [c!">"] ++ es ++ [c!">"]) (x := c!"\n") (q := r) (by rw [hr]; simp) (by decide)
    have hpk1 : Scanner.peek (at_ s (s.start + 1 + (ds ++ [c!">"]).length)) ≠ c!" " := by
      intro h
      obtain ⟨q, hq⟩ := H.peek_at hr2 (by decide) h
      cases es with
      | nil => simp at hq
      | cons e es =>
        simp at hq
        have := he e (by simp)
        rw [hq.1] at this; revert this; decide
    simp only [List.length_nil, Nat.add_zero, List.nil_append] at hcs
    unfold scanCallouts startsCalloutListItem startsCallout
    refine .pos ((H.newLine _).2 hl) ?_
    rw [hcs]
    refine .neg (by dsimp only; rw [Bool.true_and, decide_eq_true_eq]; exact hpk1) ?_
    dsimp only
    rw [hcs2]
    refine .pos (by dsimp only; rw [Bool.true_and, decide_eq_true_eq]; exact hpk) ?_
    exact H.givesA (by decide) _ true 0 _ hw (by simp; omega) ⟨b!"<" ++ ds ++ b!">" ++ es, _, rfl, by decide⟩ (by decide)

theorem bracketedC {l after word w : Str} (hw : c :: rest = l ++ after) (hword : word = c :: w) (h : Bracketed word l)
    (hno : c!"]" ∉ w) : ∃ p, rest = p ++ c!"]" :: after ∧ c!"]" ∉ p ∧ l = c :: p ++ [c!"]"] ∧ w <+: rest := by
  obtain ⟨body, rfl, hb⟩ := h
  subst hword
  have hr := (cons_inj hw).2
  refine ⟨w ++ body, by rw [hr]; simp, ?_, by simp, ?_⟩
  · simp only [List.mem_append, not_or]; exact ⟨hno, hb⟩
  · exact ⟨body ++ c!"]" :: after, by rw [hr]; simp⟩

end Here
end Adoc.Scanner
