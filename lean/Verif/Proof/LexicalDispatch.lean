import Verif.Proof.LexicalSteps
/-!
# Every branch of the scanner returns a token of the lexical grammar
-/
namespace Adoc.Scanner
open Lexical Props

namespace Here
variable {before rest : Str} {c : UInt8} {s : Scanner} (H : Here before c rest s)
include H

theorem repeated (x : UInt8) (n : Nat) (hx : x.toNat < 128) (hn : 2 ≤ n) :
    startsRepeated (at_ s (s.start + 1)) x n = true ↔ List.replicate (n - 1) x ++ [10] <+: rest := by
  have hlen := H.srcLen
  have hpat : (List.replicate (n - 1) x ++ [10]).length = n := by simp; omega
  have hp := H.peeks (pat := List.replicate (n - 1) x ++ [10]) (by simp) (by
    intro b hb
    simp only [List.mem_append, List.mem_replicate, List.mem_singleton] at hb
    rcases hb with ⟨_, rfl⟩ | rfl
    · exact hx
    · decide) (by
    intro h
    have := congrArg List.length h
    rw [hpat] at this; simp at this; omega)
  rw [hpat] at hp
  unfold startsRepeated
  rw [Bool.and_eq_true, decide_eq_true_eq, decide_eq_true_eq]
  show _ ∧ peeksAhead (at_ s (s.start + 1)) n = List.replicate (n - 1) x ++ [10] ↔ _
  rw [hp]
  refine ⟨fun h => h.2, fun h => ⟨?_, h⟩⟩
  have := h.length_le
  rw [hpat] at this
  show s.start + 1 + n ≤ s.src.length
  omega

omit H in
theorem delimiterLine : DelimiterLine before (c :: rest) → LineStart before ∧ [c, c, c, 10] <+: rest := by
  rintro ⟨h1, x, _, r, hr⟩
  refine ⟨h1, r, ?_⟩
  simp at hr
  obtain ⟨rfl, hr⟩ := hr
  simpa using hr

theorem delim (hc : c ∈ b!"+*-_/=.") :
    (startsNewLine (at_ s (s.start + 1)) && startsRepeated (at_ s (s.start + 1)) c 4) = true ↔
      LineStart before ∧ [c, c, c, 10] <+: rest := by
  have hlow : ∀ b ∈ b!"+*-_/=.", b.toNat < 128 := by decide
  rw [Bool.and_eq_true, H.newLine, H.repeated c 4 (hlow c hc) (by omega)]
  rfl

theorem quoteStart (h : Scanner.peekBack (at_ s (s.start + 1)) = 0 ∨ Scanner.peekBack (at_ s (s.start + 1)) = c!" "
    ∨ Scanner.peekBack (at_ s (s.start + 1)) = c!"\n") : QuoteStart before := by
  rw [H.peekBack] at h
  unfold QuoteStart
  cases hl : before.getLast? with
  | none => left; exact List.getLast?_eq_none_iff.1 hl
  | some b =>
    right
    refine ⟨b, rfl, ?_⟩
    rw [hl] at h
    simp only [Option.map_some, Option.getD_some] at h
    unfold low at h
    split at h
    · rename_i hc; rw [isCont_iff] at hc; exact .inr (.inl hc)
    · rcases h with rfl | rfl | rfl
      · exact .inl rfl
      · exact .inr (.inr (by decide))
      · exact .inr (.inr (by decide))

theorem quote (hc : c.toNat < 128) {x : UInt8} (hx : x.toNat < 128) (h0 : x ≠ 0) :
    (peeksAhead (at_ s (s.start + 1)) 2 = [x, c!" "] ∨ peeksAhead (at_ s (s.start + 1)) 2 = [x, 10]
      ∨ (peeksAhead (at_ s (s.start + 1)) 2 = [0] ∧ Scanner.peek (at_ s (s.start + 1)) = x))
    ↔ ∃ r, rest = x :: r ∧ QuoteEnd r := by
  have hb : ∀ y : UInt8, y.toNat < 128 → (peeksAhead (at_ s (s.start + 1)) 2 = [x, y] ↔ [x, y] <+: rest) := by
    intro y hy
    exact H.peeks (pat := [x, y]) (by simp) (by
      intro b hb; simp at hb; rcases hb with rfl | rfl
      · exact hx
      · exact hy) (by simp)
  rw [hb c!" " (by decide), hb 10 (by decide)]
  have hnone : ∀ r, rest = x :: r → (peeksAhead (at_ s (s.start + 1)) 2 = [0] ↔ r = [] ∨ ∃ b, r.head? = some b ∧ 192 ≤ b.toNat) := by
    intro r hr
    have := H.peeks_none (p := before ++ [c]) (x := x) (r := r) (by rw [H.src, hr]; simp) (by simp) hx
    rw [← this]
    show peeksAheadAt s.src (s.start + 1) 2 = [0] ↔ _
    rw [H.start]; simp
  constructor
  · rintro (⟨r, hr⟩ | ⟨r, hr⟩ | ⟨h1, h2⟩)
    · exact ⟨c!" " :: r, by rw [← hr]; rfl, .inr ⟨_, rfl, .inr (by decide)⟩⟩
    · exact ⟨10 :: r, by rw [← hr]; rfl, .inr ⟨_, rfl, .inr (by decide)⟩⟩
    · obtain ⟨r, hr⟩ := H.next hc h0 h2
      refine ⟨r, hr, ?_⟩
      rcases (hnone r hr).1 h1 with h | ⟨b, h, h'⟩
      · exact .inl h
      · exact .inr ⟨b, h, .inl h'⟩
  · rintro ⟨r, hr, h⟩
    have hpk : Scanner.peek (at_ s (s.start + 1)) = x := by rw [H.peek hc, hr]; rfl
    rcases h with h | ⟨b, h, h' | h'⟩
    · exact .inr (.inr ⟨(hnone r hr).2 (.inl h), hpk⟩)
    · exact .inr (.inr ⟨(hnone r hr).2 (.inr ⟨b, h, h'⟩), hpk⟩)
    · cases r with
      | nil => cases h
      | cons y r =>
        simp at h; subst h
        have h' : y = c!" " ∨ y = 10 := by simpa using h'
        rcases h' with rfl | rfl
        · left; exact ⟨r, hr.symm⟩
        · right; left; exact ⟨r, hr.symm⟩

theorem quoteArm (hc : c = c!"'") : Out before s (scanQuote (at_ s (s.start + 1))) := by
  subst hc
  unfold scanQuote
  rw [H.endTag, if_neg (by decide)]
  refine .ite (fun h => ?_) fun _ => .ite (fun h => ?_) fun _ => .ite (fun h => ?_) fun _ => H.text1
  · obtain ⟨r, hr⟩ := (H.repeated c!"'" 3 (by decide) (by omega)).1 h
    exact H.fixed .thematicBreak false 0 _ b!"'''" (10 :: r) (by rw [← hr]; rfl) rfl (by decide) (by decide) (by decide) ⟨rfl, rfl⟩
  · obtain ⟨r, hr⟩ := H.next (by decide) (by decide) h.2
    exact H.fixed .openSingleQuote true 0 _ b!"'`" r (by rw [hr]; rfl) rfl (by decide) (by decide) (by decide)
      ⟨rfl, H.quoteStart h.1⟩
  · obtain ⟨r, hr, hq⟩ := (H.quote (x := c!"s") (by decide) (by decide) (by decide)).1 h
    exact H.fixed .charRef false 0 _ b!"'" rest rfl rfl (by decide) (by decide) (by decide)
      (.inr (.inr (.inr (.inl ⟨rfl, r, hr, hq⟩))))

theorem lessArm (hc : c = c!"<") : Out before s (scanLess (at_ s (s.start + 1))) := by
  unfold scanLess
  rw [H.endTag, if_neg (by decide)]
  have h3 := H.repeated c!"<" 3 (by decide) (by omega)
  refine .ite (fun h => ?_) fun hn => .ite (fun h => ?_) fun _ => .ite (fun h => ?_) fun _ => H.callouts hc
  · obtain ⟨r, hr⟩ := h3.1 h
    subst hc
    exact H.fixed .pageBreak false 0 _ b!"<<<" (10 :: r) (by rw [← hr]; rfl) rfl (by decide) (by decide) (by decide) ⟨rfl, rfl⟩
  · subst hc
    rcases h with h | h
    · obtain ⟨r, hr⟩ := H.next (by decide) (by decide) h
      exact H.fixed .charRef false 0 _ b!"<-" r (by rw [hr]; rfl) rfl (by decide) (by decide) (by decide)
        (.inl (by decide))
    · obtain ⟨r, hr⟩ := H.next (by decide) (by decide) h
      exact H.fixed .charRef false 0 _ b!"<=" r (by rw [hr]; rfl) rfl (by decide) (by decide) (by decide)
        (.inl (by decide))
  · have hx := H.next (by subst hc; decide) (by decide) h
    obtain ⟨r, hr⟩ := hx
    exact H.xref hc (by rw [hr]; rfl) fun hp => hn (h3.2 hp)

theorem arrow (h0 : c.toNat < 128) (hl : [c, c!">"] ∈ [b!"->", b!"=>"]) (hp : Scanner.peek (at_ s (s.start + 1)) = c!">") :
    Out before s (addToken (at_ s (s.start + 1 + 1)) .charRef false 0) := by
  obtain ⟨r, hr⟩ := H.next h0 (by decide) hp
  refine H.fixed .charRef false 0 _ [c, c!">"] r (by rw [hr]; rfl) rfl (by decide) (by decide) (by simp) (.inl ?_)
  simp only [List.mem_cons, List.not_mem_nil, or_false] at hl
  rcases hl with hl | hl
  · rw [hl]; decide
  · rw [hl]; decide

theorem equalsArm (hc : c = c!"=") (hd : ¬DelimiterLine before (c :: rest)) :
    Out before s (scanEquals (at_ s (s.start + 1))) := by
  unfold scanEquals
  refine .ite (fun h => ?_) fun hg => .ite (fun h => ?_) fun _ => H.text1
  · exact H.arrow (by subst hc; decide) (by subst hc; decide) h
  · exact H.heading hc ((H.newLine _).1 h) hd hg

theorem emdash (hc : c = c!"-") (h : startsEmdash (at_ s (s.start + 1)) = true) :
    ∃ r, rest = c!"-" :: r ∧ DashEnd r := by
  unfold startsEmdash at h
  simp only [Bool.and_eq_true, Bool.or_eq_true, decide_eq_true_eq] at h
  obtain ⟨h1, h2⟩ := h
  obtain ⟨r, hr⟩ := H.next (by subst hc; decide) (by decide) h1
  refine ⟨r, hr, ?_⟩
  have hn := H.peeks_none (p := before ++ [c]) (x := c!"-") (r := r) (by rw [H.src, hr]; simp) (by simp) (by decide)
  have hpk : peeksAhead (at_ s (s.start + 1)) 2 = peeksAheadAt s.src (before ++ [c]).length 2 := by
    show peeksAheadAt s.src (s.start + 1) 2 = _
    rw [H.start]; simp
  rw [hpk] at h2
  by_cases hz : peeksAheadAt s.src (before ++ [c]).length 2 = [0]
  · rcases hn.1 hz with h | ⟨b, h, h'⟩
    · exact .inl h
    · exact .inr ⟨b, h, .inr (.inr (.inl (by omega)))⟩
  · have hv : peeksAheadAt s.src (before ++ [c]).length 2 = (c!"-" :: r).take 2 := by
      unfold peeksAheadAt at hz ⊢
      split at hz
      · exact absurd rfl hz
      · rename_i hcd
        rw [if_neg hcd, H.src, hr]; simp
    cases r with
    | nil => exact .inl rfl
    | cons y r =>
      right; refine ⟨y, rfl, ?_⟩
      rw [hv] at h2
      simp only [List.take_succ_cons, List.take_zero, List.getLastD_cons, List.getLastD_nil] at h2
      rcases h2 with (h2 | h2) | h2
      · by_cases hy : y.toNat < 128
        · exact .inr (.inr (.inr ((isAlnum_ascii y hy).1 h2)))
        · exact .inr (.inr (.inl (by omega)))
      · exact .inr (.inl h2)
      · exact .inl h2

theorem minusArm (hc : c = c!"-") : Out before s (scanMinus (at_ s (s.start + 1))) := by
  unfold scanMinus
  refine .ite (fun h => ?_) fun _ => .ite (fun h => ?_) fun _ => .ite (fun h => ?_) fun _ => H.text1
  · exact H.arrow (by subst hc; decide) (by subst hc; decide) h
  · obtain ⟨r, hr, he⟩ := H.emdash hc h
    subst hc
    exact H.fixed .charRef false 0 _ b!"--" r (by rw [hr]; rfl) rfl (by decide) (by decide) (by decide)
      (.inr (.inr (.inl ⟨rfl, he⟩)))
  · rw [Bool.and_eq_true, H.newLine, H.repeated c!"-" 2 (by decide) (by omega)] at h
    obtain ⟨hl, r, hr⟩ := h
    subst hc
    exact H.fixed .openBlock false 0 _ b!"--" (10 :: r) (by rw [← hr]; rfl) rfl (by decide) (by decide) (by decide)
      ⟨hl, rfl, rfl⟩

theorem starArm (hc : c = c!"*") (hd : ¬DelimiterLine before (c :: rest)) : Out before s (scanStar (at_ s (s.start + 1))) := by
  subst hc
  unfold scanStar
  refine .ite (fun h => ?_) fun hn => ?_
  · rw [Bool.and_eq_true, H.newLine, decide_eq_true_eq] at h
    obtain ⟨r, hr⟩ := H.next (by decide) (by decide) h.2
    exact H.fixed .unorderedListItem false 0 _ b!"* " r (by rw [hr]; rfl) rfl (by decide) (by decide) (by decide)
      ⟨h.1, rfl⟩
  · refine H.formatting (by decide) (by decide) .strong .unconstrainedStrong (by decide) (by decide) (fun h => ⟨h, ?_⟩) ?_
    · rintro ⟨a, b⟩
      apply hn
      rw [Bool.and_eq_true, H.newLine, decide_eq_true_eq]
      refine ⟨a, ?_⟩
      rw [H.peek (by decide), b]; rfl
    · intro r hr
      exact ⟨rfl, by rw [hr] at hd; exact hd⟩

omit H in
theorem prefix_rest {a l : Str} {x : UInt8} {after : Str} (hl : c :: rest = l ++ after) (h : x :: a <+: l) : a <+: rest := by
  obtain ⟨r, rfl⟩ := h
  refine ⟨r ++ after, ?_⟩
  simp at hl
  rw [hl.2]

theorem slashArm (hc : c = c!"/") (hd : ¬DelimiterLine before (c :: rest)) : Out before s (scanSlash (at_ s (s.start + 1))) := by
  subst hc
  unfold scanSlash
  rw [H.endTag, if_neg (by decide)]
  refine .ite (fun h => ?_) fun hn => H.text1
  rw [Bool.and_eq_true, H.newLine, decide_eq_true_eq] at h
  obtain ⟨r, hr⟩ := H.next (by decide) (by decide) h.2
  have ht := H.peeks (pat := b!"/ tag::") (by decide) (by decide) (by decide)
  have he := H.peeks (pat := b!"/ end::") (by decide) (by decide) (by decide)
  change peeksAhead (at_ s (s.start + 1)) 7 = _ ↔ _ at ht he
  refine .ite (fun h7 => ?_) fun h7 => ?_
  · have : ∃ r, rest = b!"/ " ++ r ∧ (b!"tag::" <+: r ∨ b!"end::" <+: r) := by
      rcases h7 with h7 | h7
      · obtain ⟨r, hr⟩ := ht.1 h7
        exact ⟨b!"tag::" ++ r, by rw [← hr]; rfl, .inl ⟨r, rfl⟩⟩
      · obtain ⟨r, hr⟩ := he.1 h7
        exact ⟨b!"end::" ++ r, by rw [← hr]; rfl, .inr ⟨r, rfl⟩⟩
    obtain ⟨r, hr, hte⟩ := this
    exact H.fixed .comment true 0 _ b!"// " r (by rw [hr]; rfl) rfl (by decide) (by decide) (by decide)
      ⟨h.1, ⟨b!" ", rfl⟩, by rw [hr] at hd; exact hd, .inl ⟨rfl, hte⟩⟩
  · rw [not_or] at h7
    show Out before s (addToken (at_ s (Scanner.adv s.src (· ≠ c!"\n") (s.start + 1))) .comment true 0)
    rcases H.until0 c!"\n" (by decide) (by decide) with ⟨hp, ha⟩ | ⟨p, q, hr', hp, ha⟩
    · rw [ha]
      refine H.fixed .comment true 0 _ (c!"/" :: rest) [] (by simp) (by rw [H.srcLen]; simp; omega) (by decide) (by decide)
        (by simp) ⟨h.1, ⟨r, by rw [hr]; rfl⟩, by rw [List.append_nil]; exact hd, .inr ⟨?_, .inl rfl, ?_, ?_⟩⟩
      · simp at hp ⊢; exact hp
      · intro hx; exact h7.1 (ht.2 (prefix_rest (l := c!"/" :: rest) (after := []) (List.append_nil _).symm hx))
      · intro hx; exact h7.2 (he.2 (prefix_rest (l := c!"/" :: rest) (after := []) (List.append_nil _).symm hx))
    · rw [ha]
      have hsp : c!"/" :: rest = (c!"/" :: p) ++ 10 :: q := by rw [hr']; rfl
      refine H.fixed .comment true 0 _ (c!"/" :: p) (10 :: q) hsp (by simp; omega) (by decide) (by decide)
        (by simp) ⟨h.1, ?_, by rw [← hsp]; exact hd, .inr ⟨?_, .inr rfl, ?_, ?_⟩⟩
      · cases p with
        | nil => rw [hr] at hr'; simp at hr'
        | cons y p =>
          rw [hr] at hr'
          simp at hr'
          exact ⟨p, by rw [← hr'.1]; rfl⟩
      · simp at hp ⊢; exact hp
      · intro hx; exact h7.1 (ht.2 (prefix_rest hsp hx))
      · intro hx; exact h7.2 (he.2 (prefix_rest hsp hx))

theorem plusArm (hc : c = c!"+") (hd : ¬DelimiterLine before (c :: rest)) : Out before s (scanPlus (at_ s (s.start + 1))) := by
  subst hc
  unfold scanPlus
  refine .ite (fun h => ?_) fun hn => .ite (fun h => ?_) fun hn' => ?_
  · rw [Bool.and_eq_true, H.newLine, decide_eq_true_eq] at h
    obtain ⟨r, hr⟩ := H.next (by decide) (by decide) h.2
    exact H.fixed .blockContinuation false 0 _ b!"+" rest rfl rfl (by decide) (by decide) (by decide)
      ⟨h.1, rfl, by rw [hr]; rfl⟩
  · obtain ⟨r, hr⟩ := H.next (by decide) (by decide) h.2
    exact H.fixed .lineContinuation false 0 _ b!"+" rest rfl rfl (by decide) (by decide) (by decide)
      ⟨rfl, ((H.last _ (by decide)).1 h.1).1, by rw [hr]; rfl⟩
  · refine H.formatting (by decide) (by decide) .literal .unconstrainedLiteral (by decide) (by decide) (fun h => ⟨h, ?_⟩) ?_
    · rintro ⟨a, b⟩
      have hp : Scanner.peek (at_ s (s.start + 1)) = c!"\n" := by rw [H.peek (by decide), b]; rfl
      rcases a with a | a
      · apply hn
        rw [Bool.and_eq_true, H.newLine, decide_eq_true_eq]
        exact ⟨a, hp⟩
      · exact hn' ⟨(H.last _ (by decide)).2 ⟨a, by decide⟩, hp⟩
    · intro r hr
      exact ⟨rfl, by rw [hr] at hd; exact hd⟩

theorem dotArm (hc : c = c!".") (hd : ¬DelimiterLine before (c :: rest)) : Out before s (scanDot (at_ s (s.start + 1))) := by
  subst hc
  unfold scanDot
  have h2 := H.peeks (pat := b!"..") (by decide) (by decide) (by decide)
  change peeksAhead (at_ s (s.start + 1)) 2 = _ ↔ _ at h2
  refine .ite (fun h => ?_) fun hn => .ite (fun h => .ite (fun h' => ?_) fun h' => ?_) fun _ => H.text1
  · obtain ⟨r, hr⟩ := h2.1 h
    exact H.fixed .charRef false 0 _ b!"..." r (by rw [← hr]; rfl) rfl (by decide) (by decide) (by decide)
      (.inr (.inl ⟨rfl, by rw [← hr] at hd; exact hd⟩))
  · obtain ⟨r, hr⟩ := H.next (by decide) (by decide) h'
    exact H.fixed .orderedListItem false 0 _ b!". " r (by rw [hr]; rfl) rfl (by decide) (by decide) (by decide)
      ⟨(H.newLine _).1 h, rfl⟩
  · exact H.fixed .blockLabel false 0 _ b!"." rest rfl rfl (by decide) (by decide) (by decide)
      ⟨(H.newLine _).1 h, rfl, H.head_ne (by decide) h', fun hx => hn (h2.2 hx)⟩

theorem delimArm (hc : c ∈ b!"+*-_/=.") : Out before s (scanDelimChar (at_ s (s.start + 1)) c) := by
  unfold scanDelimChar
  rw [H.endTag, if_neg (by decide)]
  refine .ite (fun h => ?_) fun hn => ?_
  · obtain ⟨hl, r, hr⟩ := (H.delim hc).1 h
    have key : ∀ ty, ty ≠ .blockAnchor → ty ≠ .crossReference → (∀ l after, Delimiter c before l after → Lexeme ty before l after) →
        Out before s (addToken (at_ s (s.start + 1 + 3)) ty false 0) := by
      intro ty h1 h2 h3
      exact H.fixed ty false 0 _ [c, c, c, c] (10 :: r) (by rw [← hr]; rfl) rfl h1 h2 (by simp) (h3 _ _ ⟨hl, rfl, rfl⟩)
    have hc' : c = c!"+" ∨ c = c!"*" ∨ c = c!"-" ∨ c = c!"_" ∨ c = c!"/" ∨ c = c!"=" ∨ c = c!"." := by simpa using hc
    rcases hc' with rfl | rfl | rfl | rfl | rfl | rfl | rfl
    · exact key .passthroughBlock (by decide) (by decide) fun _ _ h => h
    · exact key .sidebarBlock (by decide) (by decide) fun _ _ h => h
    · exact key .sourceBlock (by decide) (by decide) fun _ _ h => h
    · exact key .quoteVerseBlock (by decide) (by decide) fun _ _ h => h
    · exact key .commentBlock (by decide) (by decide) fun _ _ h => h
    · exact key .exampleBlock (by decide) (by decide) fun _ _ h => h
    · exact key .literalBlock (by decide) (by decide) fun _ _ h => h
  · have hd : ¬DelimiterLine before (c :: rest) := fun hx => hn ((H.delim hc).2 (delimiterLine hx))
    refine .ite (fun h => H.equalsArm h hd) fun _ => .ite (fun h => H.minusArm h) fun _ => .ite (fun h => H.starArm h hd) fun _ =>
      .ite (fun h => H.slashArm h hd) fun _ => .ite (fun h => H.plusArm h hd) fun _ => .ite (fun h => ?_) fun _ =>
      .ite (fun h => H.dotArm h hd) fun _ => H.text1
    subst h
    exact H.formatting (by decide) (by decide) .emphasis .unconstrainedEmphasis (by decide) (by decide) (fun h => h)
      fun r hr => ⟨rfl, by rw [hr] at hd; exact hd⟩

/-- The rest of the line. -/
theorem line : ∃ w q, rest = w ++ q ∧ 10 ∉ w ∧ LineEnd q ∧ Scanner.adv s.src (· ≠ c!"\n") (s.start + 1) = s.start + 1 + w.length := by
  rcases H.until0 c!"\n" (by decide) (by decide) with ⟨hp, ha⟩ | ⟨p, q, hr, hp, ha⟩
  · exact ⟨rest, [], by simp, hp, .inl rfl, by rw [ha, H.srcLen]⟩
  · exact ⟨p, 10 :: q, hr, hp, .inr rfl, ha⟩

omit H in
theorem line_unique : ∀ {a b x y : Str}, a ++ x = b ++ y → 10 ∉ a → 10 ∉ b → LineEnd x → LineEnd y → a = b
  | [], [], _, _, _, _, _, _, _ => rfl
  | [], b :: bs, x, y, h, _, hb, hx, _ => by
    rcases hx with rfl | hx
    · simp at h
    · simp at h; rw [h] at hx; simp at hx; simp [hx] at hb
  | a :: as, [], x, y, h, ha, _, _, hy => by
    rcases hy with rfl | hy
    · simp at h
    · simp at h; rw [← h] at hy; simp at hy; simp [hy] at ha
  | a :: as, b :: bs, x, y, h, ha, hb, hx, hy => by
    simp at h ha hb
    rw [h.1, line_unique h.2 ha.2 hb.2 hx hy]

theorem bracketArm (hc : c = c!"[") : Out before s (scanBracket (at_ s (s.start + 1))) := by
  unfold scanBracket
  refine .ite (fun h => ?_) fun hn => ?_
  · rw [Bool.and_eq_true, H.newLine, decide_eq_true_eq] at h
    obtain ⟨r, hr⟩ := H.next (by subst hc; decide) (by decide) h.2
    exact H.anchor hc (by rw [hr]; rfl) h.1
  subst hc
  obtain ⟨w, q, hr, hw, hq, ha⟩ := H.line
  have hlast := H.getD_last hr
  unfold attributionEnd
  show Out before s (match (if startsNewLine (at_ s (s.start + 1)) = true ∧ s.src.getD (Scanner.adv s.src (· ≠ c!"\n") (s.start + 1) - 1) 0 = c!"]"
    then some (Scanner.adv s.src (· ≠ c!"\n") (s.start + 1)) else none) with | some j => _ | none => _)
  rw [ha, hlast]
  have hnl := H.newLine (s.start + 1)
  by_cases hat : LineStart before ∧ (c!"[" :: w).getLastD 0 = c!"]"
  · rw [if_pos ⟨hnl.2 hat.1, hat.2⟩]
    show Out before s (addToken (at_ s (s.start + 1 + w.length)) (attributionType (s.src.getD (s.start + 1) 0)) true 0)
    obtain ⟨hl, hb⟩ := hat
    obtain rfl | ⟨body, z, hwz⟩ := List.eq_nil_or_concat w
    · simp at hb
    have hz : z = c!"]" := by
      rw [hwz, List.concat_eq_append, ← List.cons_append, List.getLastD_eq_getLast?, List.getLast?_concat] at hb; exact hb
    subst hz
    have hlin : BracketLine before (c!"[" :: w) q := by
      refine ⟨hl, ⟨body, by rw [hwz]; simp⟩, by simpa using hw, hq, ?_⟩
      intro hx
      apply hn
      rw [Bool.and_eq_true, H.newLine, decide_eq_true_eq]
      refine ⟨hl, ?_⟩
      obtain ⟨r, hr'⟩ := prefix_rest (c := c!"[") (rest := rest) (l := c!"[" :: w) (after := q) (by rw [hr]; rfl) hx
      rw [H.peek (by decide), ← hr']; rfl
    have hget : (c!"[" :: w)[1]? = some (s.src.getD (s.start + 1) 0) := by
      have h1 : s.src[s.start + 1]? = rest.head? := by rw [← H.drop, List.head?_drop]
      rw [List.getD_eq_getElem?_getD, h1, hr]
      cases w with
      | nil => simp at hwz
      | cons y w => rfl
    generalize s.src.getD (s.start + 1) 0 = y at hget
    have key : ∀ ty, ty ≠ .blockAnchor → ty ≠ .crossReference → Lexeme ty before (c!"[" :: w) q →
        Out before s (addToken (at_ s (s.start + 1 + w.length)) ty true 0) := fun ty h1 h2 h3 =>
      H.fixed ty true 0 _ (c!"[" :: w) q (by rw [hr]; rfl) (by simp; omega) h1 h2 (by simp) h3
    unfold attributionType
    split
    · rename_i h; exact key _ (by decide) (by decide) (.inr ⟨hlin, by rw [hget, h]⟩)
    split
    · rename_i h; exact key _ (by decide) (by decide) (.inr ⟨hlin, by rw [hget, h]⟩)
    split
    · rename_i h; exact key _ (by decide) (by decide) (.inr ⟨hlin, by rw [hget, h]⟩)
    split
    · rename_i h; exact key _ (by decide) (by decide) (.inr ⟨hlin, by rw [hget, h]⟩)
    split
    · rename_i h; exact key _ (by decide) (by decide) (.inr ⟨hlin, by rw [hget, h]⟩)
    · rename_i h1 h2 h3 h4 h5
      refine key _ (by decide) (by decide) ⟨hlin, ?_⟩
      intro b hb
      rw [hget] at hb
      simp only [Option.some.injEq] at hb
      subst hb
      simp [h1, h2, h3, h4, h5]
  · rw [if_neg fun h => hat ⟨hnl.1 h.1, h.2⟩]
    refine .ite (fun h => ?_) fun _ => H.text1
    obtain ⟨r, hr'⟩ := H.next (by decide) (by decide) h
    refine H.bracket .inlineStyle (by decide) (by decide) ?_
    intro p q' hpq hp
    refine ⟨?_, ?_⟩
    · cases p with
      | nil => rw [hr'] at hpq; simp at hpq
      | cons y p =>
        rw [hr'] at hpq
        simp at hpq
        refine ⟨p, ?_, by simp at hp; exact hp.2⟩
        rw [← hpq.1]; rfl
    · rintro ⟨hl, line, rest', h1, h2, h3, h4⟩
      apply hat
      refine ⟨hl, ?_⟩
      have h5 : (c!"[" :: w) ++ q = line ++ rest' := by
        rw [← h1]
        simp only [List.cons_append, List.append_assoc, List.nil_append]
        rw [← hr, ← hpq]
      have h6 := line_unique h5 (by simpa using hw) h2 hq h3
      rw [h6, List.getLastD_eq_getLast?, h4]; rfl

theorem backtickArm (hc : c = c!"`") : Out before s (scanBacktick (at_ s (s.start + 1))) := by
  subst hc
  unfold scanBacktick
  have h1 := H.quote (x := c!"'") (by decide) (by decide) (by decide)
  have h2 := H.quote (x := c!"\"") (by decide) (by decide) (by decide)
  refine .ite (fun h => ?_) fun hn1 => .ite (fun h => ?_) fun hn2 => ?_
  · obtain ⟨r, hr, hq⟩ := h1.1 h
    exact H.fixed .closeSingleQuote true 0 _ b!"`'" r (by rw [hr]; rfl) rfl (by decide) (by decide) (by decide) ⟨rfl, hq⟩
  · obtain ⟨r, hr, hq⟩ := h2.1 h
    exact H.fixed .closeDoubleQuote true 0 _ b!"`\"" r (by rw [hr]; rfl) rfl (by decide) (by decide) (by decide) ⟨rfl, hq⟩
  · refine H.formatting (by decide) (by decide) .monospace .unconstrainedMonospace (by decide) (by decide) (fun h => ⟨h, ?_⟩) ?_
    · rintro ⟨r, hr | hr, hq⟩
      · exact hn1 (h1.2 ⟨r, hr, hq⟩)
      · exact hn2 (h2.2 ⟨r, hr, hq⟩)
    · intro r hr
      refine ⟨rfl, ?_⟩
      rintro ⟨_, x, hx, r', hr'⟩
      simp at hr'
      rw [hr'.1] at hx
      revert hx; decide

theorem hashArm (hc : c = c!"#") : Out before s (scanHash (at_ s (s.start + 1))) := by
  subst hc
  unfold scanHash
  rw [H.endTag, if_neg (by decide)]
  refine H.formatting (by decide) (by decide) .mark .unconstrainedMark (by decide) (by decide) (fun h => h) ?_
  intro r hr
  refine ⟨rfl, ?_⟩
  rintro ⟨_, x, hx, r', hr'⟩
  simp at hr'
  rw [hr'.1] at hx
  revert hx; decide

theorem colonRest (hc : c = c!":") (hl : LineStart before → ¬(b!": " <+: rest ∨ b!":\n" <+: rest)) :
    Out before s (scanColonRest (at_ s (s.start + 1))) := by
  subst hc
  unfold scanColonRest
  have h1 := H.peeks (pat := b!": ") (by decide) (by decide) (by decide)
  have h2 := H.peeks (pat := b!":\n") (by decide) (by decide) (by decide)
  change peeksAhead (at_ s (s.start + 1)) 2 = _ ↔ _ at h1 h2
  refine .ite (fun h => ?_) fun _ => H.text1
  obtain ⟨hb, h⟩ := h
  have hb' : before.getLast? ≠ some c!" " := fun hx => hb ((H.last _ (by decide)).2 ⟨hx, by decide⟩)
  rcases h with h | h
  · have h' := h1.1 h
    obtain ⟨r, hr⟩ := id h'
    exact H.fixed .descriptionListMarker false 0 _ b!":: " r (by rw [← hr]; rfl) rfl (by decide) (by decide) (by decide)
      ⟨fun hx => hl hx (.inl h'), hb', .inl rfl⟩
  · have h' := h2.1 h
    obtain ⟨r, hr⟩ := id h'
    exact H.fixed .descriptionListMarker false 0 _ b!"::\n" r (by rw [← hr]; rfl) rfl (by decide) (by decide) (by decide)
      ⟨fun hx => hl hx (.inr h'), hb', .inr rfl⟩

theorem at_get {w q : Str} (hr : rest = w ++ q) : s.src[s.start + 1 + w.length]? = q.head? := by
  rw [← List.head?_drop, ← List.drop_drop, H.drop, hr, List.drop_left]

omit H in
theorem prefix_before : ∀ {a x b y : Str} {u v : UInt8}, a ++ u :: x = b ++ v :: y → v ∉ a → u ≠ v → v ∉ b →
    ∃ value, b = a ++ u :: value
  | [], x, [], y, u, v, h, _, hu, _ => by simp at h; exact absurd h.1 hu
  | [], x, z :: b, y, u, v, h, _, _, _ => by simp at h; exact ⟨b, by rw [h.1]; rfl⟩
  | z :: a, x, [], y, u, v, h, ha, _, _ => by simp at h; simp [h.1] at ha
  | z :: a, x, z' :: b, y, u, v, h, ha, hu, hb => by
    simp at h ha hb
    obtain ⟨value, hv⟩ := prefix_before h.2 ha.2 hu hb.2
    exact ⟨value, by rw [h.1, hv]; rfl⟩

theorem colonArm (hc : c = c!":") : Out before s (scanColon (at_ s (s.start + 1))) := by
  unfold scanColon
  refine .ite (fun hl => ?_) fun hl => H.colonRest hc fun h => absurd ((H.newLine _).2 h) hl
  obtain ⟨name, q, h1, h2, h3, h4⟩ := H.split_at (fun b => b ≠ c!" " && b ≠ c!"\n" && b ≠ c!":") (w := []) (q := rest) rfl
  rw [List.nil_append] at h2
  have hat : startsAttr (at_ s (s.start + 1)) = q.head?.map (decide <| · = c!":") := by
    unfold startsAttr
    show (s.src[Scanner.adv s.src (fun b => b ≠ c!" " && b ≠ c!"\n" && b ≠ c!":") (s.start + 1)]?).map _ = _
    rw [show s.start + 1 = s.start + 1 + ([] : Str).length from rfl, h2, H.at_get h1]
  rw [hat]
  cases q with
  | nil => exact out_panic
  | cons y q =>
    simp only [List.head?_cons, Option.map_some]
    by_cases hy : y = c!":"
    · rw [decide_eq_true hy]
      show Out before s (if s.src.length ≤ Scanner.adv s.src (· ≠ c!"\n") (s.start + 1) then _ else
        addToken (at_ s (Scanner.adv s.src (· ≠ c!"\n") (s.start + 1))) .attribute false 0)
      rcases H.until0 c!"\n" (by decide) (by decide) with ⟨_, ha⟩ | ⟨p, q', hr, hp, ha⟩
      · rw [if_pos (by rw [ha]; exact Nat.le_refl _)]; exact out_hang
      · rw [if_neg (by rw [ha, H.srcLen, hr]; simp), ha]
        have hname : ∀ b ∈ name, b ∉ b!" \n:" := by
          intro b hb hm
          have := h3 b hb
          have hall : ∀ b ∈ b!" \n:", (low b ≠ c!" " && low b ≠ c!"\n" && low b ≠ c!":") = false := by decide
          rw [hall b hm] at this; cases this
        obtain ⟨value, hv⟩ := prefix_before (a := name) (u := y) (v := 10) (h1.symm.trans hr)
          (fun hx => hname 10 hx (by decide)) (by rw [hy]; decide) hp
        subst hc hy
        refine H.fixed .attribute false 0 _ (c!":" :: p) (10 :: q') (by rw [hr]; rfl) (by simp; omega) (by decide) (by decide) (by simp)
          ⟨(H.newLine _).1 hl, rfl, name, value, by rw [hv]; simp, hname, ?_⟩
        intro hx; apply hp; rw [hv]; simp [hx]
    · rw [decide_eq_false hy]
      refine H.colonRest hc ?_
      rintro _ (⟨r, hr⟩ | ⟨r, hr⟩)
      · cases name with
        | nil => rw [h1] at hr; simp at hr; exact hy hr.1.symm
        | cons z name =>
          rw [h1] at hr
          simp at hr
          have := h3 z (by simp)
          rw [← hr.1] at this
          revert this; decide
      · cases name with
        | nil => rw [h1] at hr; simp at hr; exact hy hr.1.symm
        | cons z name =>
          rw [h1] at hr
          simp at hr
          have := h3 z (by simp)
          rw [← hr.1] at this
          revert this; decide

theorem word (w : Str) (ty : TokenType) (lit : Bool) (hw : w ≠ []) (ha : ∀ b ∈ w, b.toNat < 128) (h0 : w ≠ [0])
    (h1 : ty ≠ .blockAnchor) (h2 : ty ≠ .crossReference) (h : ∀ r, Lexeme ty before (c :: w) r) :
    Out before s (scanWord (at_ s (s.start + 1)) w ty lit) := by
  unfold scanWord
  refine .ite (fun hp => ?_) fun _ => H.text1
  obtain ⟨r, hr⟩ := (H.peeks hw ha h0).1 hp
  exact H.fixed ty lit 0 _ (c :: w) r (by rw [← hr]; rfl) (by simp; omega) h1 h2 (by simp) (h r)

omit H in
theorem word_prefix : ∀ {w p q : Str} {x : UInt8}, w <+: p ++ x :: q → x ∉ w → ∃ body, p = w ++ body
  | [], p, _, _, _, _ => ⟨p, rfl⟩
  | a :: w, [], q, x, ⟨r, hr⟩, hx => by simp at hr; simp [hr.1] at hx
  | a :: w, b :: p, q, x, ⟨r, hr⟩, hx => by
    simp at hr hx
    obtain ⟨body, hb⟩ := word_prefix (w := w) (p := p) (q := q) ⟨r, hr.2⟩ hx.2
    exact ⟨body, by rw [hr.1, hb]; rfl⟩

omit H in
theorem bracketed {w p q : Str} (hw : w <+: rest) (hx : c!"]" ∉ w) (hr : rest = p ++ c!"]" :: q) (hp : c!"]" ∉ p) :
    Bracketed (c :: w) (c :: p ++ [c!"]"]) := by
  rw [hr] at hw
  obtain ⟨body, hb⟩ := word_prefix hw hx
  refine ⟨body, by rw [hb]; simp, ?_⟩
  intro h; apply hp; rw [hb]; simp [h]

theorem iArm (hc : c = c!"i") : Out before s (scanI (at_ s (s.start + 1))) := by
  subst hc
  unfold scanI
  have h1 := H.peeks (pat := b!"nclude::") (by decide) (by decide) (by decide)
  have h2 := H.peeks (pat := b!"mage::") (by decide) (by decide) (by decide)
  have h3 := H.peeks (pat := b!"mage:") (by decide) (by decide) (by decide)
  have h4 := H.peeks (pat := b!"mage: ") (by decide) (by decide) (by decide)
  change peeksAhead (at_ s (s.start + 1)) 8 = _ ↔ _ at h1
  change peeksAhead (at_ s (s.start + 1)) 6 = _ ↔ _ at h2 h4
  change peeksAhead (at_ s (s.start + 1)) 5 = _ ↔ _ at h3
  refine .ite (fun h => ?_) fun _ => .ite (fun h => ?_) fun _ => .ite (fun h => ?_) fun _ => H.text1
  · rw [Bool.and_eq_true, H.newLine, decide_eq_true_eq] at h
    exact H.bracket .include (by decide) (by decide) fun p q hr hp => ⟨h.1, bracketed (h1.1 h.2) (by decide) hr hp⟩
  · rw [Bool.and_eq_true, H.newLine, decide_eq_true_eq] at h
    exact H.bracket .blockImageMacro (by decide) (by decide) fun p q hr hp => ⟨h.1, bracketed (h2.1 h.2) (by decide) hr hp⟩
  · refine H.bracket .inlineImageMacro (by decide) (by decide) fun p q hr hp => ⟨bracketed (h3.1 h.1) (by decide) hr hp, ?_, ?_⟩
    · intro hx
      exact h.2.2 (h4.2 (prefix_rest (c := c!"i") (l := c!"i" :: p ++ [c!"]"]) (after := q) (by rw [hr]; simp) hx))
    · intro hx
      exact h.2.1 (h2.2 (prefix_rest (c := c!"i") (l := c!"i" :: p ++ [c!"]"]) (after := q) (by rw [hr]; simp) hx))

/-- Letters and digits and then a given character. -/
theorem run (p : UInt8 → Bool) (hp0 : p 0 = false) (x : UInt8) (hx : x.toNat < 128) (hc : c.toNat < 128)
    (h : (s.src[Scanner.adv s.src p (s.start + 1)]?).map (decide <| · = x) = some true) :
    ∃ w q, rest = w ++ x :: q ∧ (∀ b ∈ w, b.toNat < 128 ∧ p b = true)
      ∧ Scanner.adv s.src p (s.start + 1) = s.start + 1 + w.length := by
  obtain ⟨w, q, h1, h2, h3, h4⟩ := H.split_at p (w := []) (q := rest) rfl
  rw [List.nil_append] at h2
  change Scanner.adv s.src p (s.start + 1) = _ at h2
  rw [h2, H.at_get h1] at h
  cases q with
  | nil => cases h
  | cons y q =>
    simp at h
    subst h
    have hcont : ∀ b ∈ w, isCont b = false := by
      intro b hb
      have := h3 b hb
      unfold low at this
      split at this
      · rw [hp0] at this; cases this
      · rename_i h; simpa using h
    refine ⟨w, q, h1, ?_, h2⟩
    intro b hb
    have hlow := H.all_ascii w [] (y :: q) (by rw [h1]; simp) (by rw [← h1]; exact H.starts_rest hc) hcont (by
      intro b' hb'
      simp at hb'; subst hb'
      exact (isCont_false_iff _).2 (.inl hx)) b hb
    refine ⟨hlow, ?_⟩
    have := h3 b hb
    rwa [low_ascii hlow] at this

theorem ampArm (hc : c = c!"&") : Out before s (scanAmp (at_ s (s.start + 1))) := by
  subst hc
  unfold scanAmp
  split
  · exact out_panic
  · rename_i h
    obtain ⟨w, q, h1, h2, h3⟩ := H.run isAlnum (by decide) c!";" (by decide) (by decide) h
    show Out before s (addToken (at_ s (Scanner.adv s.src isAlnum (s.start + 1) + 1)) .charRef true 0)
    rw [h3]
    refine H.fixed .charRef true 0 _ (c!"&" :: w ++ [c!";"]) q (by rw [h1]; simp) (by simp; omega) (by decide) (by decide) (by simp)
      (.inr (.inr (.inr (.inr ⟨w, rfl, fun b hb => (isAlnum_ascii b (h2 b hb).1).1 (h2 b hb).2⟩))))
  · exact H.text1

theorem braceArm (hc : c = c!"{") : Out before s (scanBrace (at_ s (s.start + 1))) := by
  subst hc
  unfold scanBrace
  split
  · exact out_panic
  · rename_i h
    obtain ⟨w, q, h1, h2, h3⟩ := H.run isAttrRefChar (by decide) c!"}" (by decide) (by decide) h
    show Out before s (addToken (at_ s (Scanner.adv s.src isAttrRefChar (s.start + 1) + 1)) .attributeReference false 0)
    rw [h3]
    refine H.fixed .attributeReference false 0 _ (c!"{" :: w ++ [c!"}"]) q (by rw [h1]; simp) (by simp; omega) (by decide) (by decide)
      (by simp) ⟨w, rfl, fun b hb => ?_⟩
    have h4 := (h2 b hb).2
    unfold isAttrRefChar at h4
    rw [Bool.or_eq_true, decide_eq_true_eq] at h4
    exact h4.imp_left (isAlnum_ascii b (h2 b hb).1).1
  · exact H.text1

theorem pipeArm (hc : c = c!"|") : Out before s (scanPipe (at_ s (s.start + 1))) := by
  unfold scanPipe
  have h3 := H.peeks (pat := b!"===") (by decide) (by decide) (by decide)
  change peeksAhead (at_ s (s.start + 1)) 3 = _ ↔ _ at h3
  refine .ite (fun h => ?_) fun hn => .ite (fun h => ?_) fun _ => H.text1
  · rw [Bool.and_eq_true, H.newLine, decide_eq_true_eq] at h
    obtain ⟨hl, h⟩ := h
    obtain ⟨r, hr⟩ := h3.1 h
    have hst : Starts r := H.starts (p := before ++ c :: b!"==") (x := c!"=") (by rw [H.src, ← hr]; simp) (by decide)
    have hpk := H.peekAt hr.symm
    change Scanner.peek (at_ s (s.start + 1 + 3)) = _ at hpk
    show Out before s (if Scanner.peek (at_ s (s.start + 1 + 3)) = c!"\n" ∨ Scanner.peek (at_ s (s.start + 1 + 3)) = 0
      then addToken (at_ s (s.start + 1 + 3)) .table false 0 else addText (at_ s (s.start + 1 + 3)))
    rw [hpk]
    refine .ite (fun h' => ?_) fun _ => H.text b!"===" r hr.symm (by decide) _ rfl
    subst hc
    refine H.fixed .table false 0 _ b!"|===" r (by rw [← hr]; rfl) rfl (by decide) (by decide) (by decide) ⟨hl, rfl, ?_⟩
    cases r with
    | nil => exact .inl (.inl rfl)
    | cons y r =>
      have hy : low y = y := by unfold low; rw [hst y rfl]; rfl
      simp only [List.head?_cons, Option.map_some, Option.getD_some, hy] at h'
      rcases h' with rfl | rfl
      · exact .inl (.inr rfl)
      · exact .inr rfl
  · refine H.cell hc ?_ ?_
    · rw [Bool.or_eq_true, H.newLine, decide_eq_true_eq] at h
      exact h.imp_right fun h => ((H.last _ (by decide)).1 h).1
    · rintro ⟨a, b⟩
      apply hn
      rw [Bool.and_eq_true, H.newLine, decide_eq_true_eq]
      exact ⟨a, h3.2 b⟩

theorem doubleArm (hc : c = c!"\"") : Out before s (scanDouble (at_ s (s.start + 1))) := by
  subst hc
  unfold scanDouble
  refine .ite (fun h => ?_) fun _ => H.text1
  obtain ⟨r, hr⟩ := H.next (by decide) (by decide) h.2
  exact H.fixed .openDoubleQuote true 0 _ b!"\"`" r (by rw [hr]; rfl) rfl (by decide) (by decide) (by decide)
    ⟨rfl, H.quoteStart h.1⟩

theorem dispatch : Out before s (Scanner.dispatch (at_ s (s.start + 1)) c) := by
  have one : ∀ (ty : TokenType) (lit : Bool) (n : Nat), ty ≠ .blockAnchor → ty ≠ .crossReference → Lexeme ty before [c] rest →
      Out before s (addToken (at_ s (s.start + 1)) ty lit n) := fun ty lit n h1 h2 h3 =>
    H.fixed ty lit n _ [c] rest rfl rfl h1 h2 (by simp) h3
  unfold Scanner.dispatch
  refine .ite (fun h => ?_) fun _ => .ite H.quoteArm fun _ => .ite H.lessArm fun _ => .ite (fun h => ?_) fun _ =>
    .ite H.bracketArm fun _ => .ite H.backtickArm fun _ => .ite (fun h => ?_) fun _ => .ite (fun h => ?_) fun _ =>
    .ite H.hashArm fun _ => .ite H.colonArm fun _ => .ite (fun h => .ite (H.parens h) fun _ => H.text1) fun _ =>
    .ite (fun h => ?_) fun _ => .ite (fun h => ?_) fun _ => .ite (fun h => .ite (fun h' => ?_) fun _ => H.text1) fun _ =>
    .ite H.iArm fun _ => .ite (fun _ => .ite (fun _ => out_tag) fun _ => H.text1) fun _ =>
    .ite (fun _ => .ite (fun _ => out_tag) fun _ => H.text1) fun _ =>
    .ite (fun h => ?_) fun _ => .ite (fun h => ?_) fun _ => .ite (fun h => ?_) fun _ => .ite (fun h => ?_) fun _ =>
    .ite (fun h => ?_) fun _ => .ite (fun h => ?_) fun _ => .ite H.ampArm fun _ => .ite H.braceArm fun _ =>
    .ite H.pipeArm fun _ => .ite H.doubleArm fun _ => .ite (fun _ => ?_) fun _ => H.text1
  · exact one _ _ _ (by decide) (by decide) (by subst h; rfl)
  · exact H.delimArm (by simpa using h)
  · exact one _ _ _ (by decide) (by decide) (by subst h; rfl)
  · exact one _ _ _ (by decide) (by decide) (by subst h; rfl)
  · subst h; exact H.word _ _ _ (by decide) (by decide) (by decide) (by decide) (by decide) fun _ => rfl
  · subst h; exact H.word _ _ _ (by decide) (by decide) (by decide) (by decide) (by decide) fun _ => rfl
  · exact H.link h ((H.peeks (pat := b!"ttp") (by decide) (by decide) (by decide)).1 h')
  · subst h; exact H.word _ _ _ (by decide) (by decide) (by decide) (by decide) (by decide) fun _ => .inl rfl
  · subst h; exact H.word _ _ _ (by decide) (by decide) (by decide) (by decide) (by decide) fun _ => .inl rfl
  · subst h; exact H.word _ _ _ (by decide) (by decide) (by decide) (by decide) (by decide) fun _ => .inl rfl
  · subst h; exact H.word _ _ _ (by decide) (by decide) (by decide) (by decide) (by decide) fun _ => .inl rfl
  · subst h; exact H.word _ _ _ (by decide) (by decide) (by decide) (by decide) (by decide) fun _ => .inl rfl
  · exact one _ _ _ (by decide) (by decide) (by subst h; rfl)
  · unfold scanSpace
    rw [H.endTag, if_neg (by decide)]
    exact H.text1

end Here

end Adoc.Scanner
