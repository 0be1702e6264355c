import Verif.Spec.Lexical
import Verif.Proof.Lines
/-!
# What the scanner looks at, as texts before and after the cursor
-/
namespace Adoc.Scanner
open Lexical Props

/-- A byte as `peek` reads it. -/
def low (b : UInt8) : UInt8 := if isCont b then 0 else b

theorem low_ascii {b : UInt8} (h : b.toNat < 128) : low b = b := by
  unfold low; rw [if_neg]; rw [isCont_iff]; omega

theorem low_eq {b x : UInt8} (h : low b = x) (hx : x ≠ 0) : b = x := by
  unfold low at h; split at h
  · exact absurd h.symm hx
  · exact h

theorem peekAt_low {src : Str} {i : Nat} (hi : 0 < i) : peekAt src i = ((src[i]?).map low).getD 0 := by
  have h0 : i ≠ 0 := by omega
  unfold peekAt low
  cases h : src[i]? with
  | none => simp [List.getD_eq_getElem?_getD, h]
  | some b => cases hb : isCont b <;> simp [isBoundary, List.getD_eq_getElem?_getD, h, hb, h0]

theorem advF_takeWhile (src : Str) (p : UInt8 → Bool) (n i : Nat) (hi : 0 < i) (hn : src.length - i ≤ n) :
    advF src p n i = i + ((src.drop i).takeWhile fun b => p (low b)).length := by
  induction n generalizing i with
  | zero => simp [advF]; simp [List.drop_eq_nil_of_le (show src.length ≤ i by omega)]
  | succ n ih =>
    rw [advF]
    by_cases hlt : i < src.length
    · rw [List.drop_eq_getElem_cons hlt, List.takeWhile_cons]
      have hp : peekAt src i = low src[i] := by rw [peekAt_low hi, List.getElem?_eq_getElem hlt]; rfl
      rw [hp]
      by_cases hb : p (low src[i]) = true
      · rw [if_pos ⟨hlt, hb⟩, if_pos hb, ih (i + 1) (by omega) (by omega)]; simp; omega
      · rw [if_neg (by simp [hb]), if_neg hb]; simp
    · rw [if_neg (by omega), List.drop_eq_nil_of_le (by omega)]; simp

theorem adv_takeWhile (src : Str) (p : UInt8 → Bool) (i : Nat) (hi : 0 < i) :
    adv src p i = i + ((src.drop i).takeWhile fun b => p (low b)).length := advF_takeWhile src p _ i hi (Nat.le_refl _)

/-- A character outside ASCII has several bytes. -/
theorem char_multi (c : Char) : ∀ b bs, String.utf8EncodeChar c = b :: bs → 128 ≤ b.toNat → bs ≠ [] := by
  unfold String.utf8EncodeChar
  dsimp only
  generalize c.val.toNat = v
  repeat' split
  · intro b bs h; simp at h; intro hb; rw [← h.1] at hb; simp at hb; omega
  all_goals intro b bs h; simp at h; intro _; rw [← h.2]; simp

/-- A scanner at the byte `c` between `before` and `rest`, outside tagged regions, in a UTF-8 source. -/
structure Here (before : Str) (c : UInt8) (rest : Str) (s : Scanner) : Prop where
  src : s.src = before ++ c :: rest
  start : s.start = before.length
  tag : s.expectingTagEnd = false
  utf : ∃ cs, s.src = enc cs

namespace Here
variable {before rest : Str} {c : UInt8} {s : Scanner} (H : Here before c rest s)
include H

/-- After an ASCII byte a character begins. -/
theorem starts {p q : Str} {x : UInt8} (h : s.src = p ++ x :: q) (hx : x.toNat < 128) : Starts q := by
  obtain ⟨cs, hcs⟩ := H.utf
  have h1 := (boundary_ascii cs p.length x (by rw [← hcs, h]; simp) hx).2
  rw [← hcs, h] at h1
  intro b hb
  unfold isBoundary at h1
  rw [if_neg (by omega)] at h1
  cases q with
  | nil => simp at hb
  | cons y q =>
    simp at hb; subst hb
    simpa using h1

theorem starts_rest (hc : c.toNat < 128) : Starts rest := H.starts H.src hc

theorem drop : s.src.drop (s.start + 1) = rest := by rw [H.src, H.start]; simp

theorem peek (hc : c.toNat < 128) : peek (at_ s (s.start + 1)) = rest.head?.getD 0 := by
  show peekAt s.src (s.start + 1) = _
  rw [peekAt_low (by omega), ← List.head?_drop, H.drop]
  have := H.starts_rest hc
  cases rest with
  | nil => rfl
  | cons b r =>
    have hb := this b rfl
    simp [low, hb]

theorem peekBack (k : Nat) : peekBack (at_ s k) = (before.getLast?.map low).getD 0 := by
  unfold Scanner.peekBack
  show (if s.start = 0 then 0 else peekAt s.src (s.start - 1)) = _
  rw [H.start]
  rcases List.eq_nil_or_concat before with rfl | ⟨q, x, rfl⟩
  · rfl
  · rw [if_neg (by simp), H.src]
    have hg : (q.concat x ++ c :: rest)[(q.concat x).length - 1]? = some x := by simp
    cases q with
    | nil =>
      obtain ⟨cs, hcs⟩ := H.utf
      have hx : isCont x = false := by
        have h1 := H.src
        rw [hcs] at h1
        cases cs with
        | nil => simp [enc] at h1
        | cons d cs =>
          obtain ⟨b, bs, hd, hb, _⟩ := char_bytes d
          rw [enc_cons, hd] at h1
          simp at h1
          rw [← h1.1]; exact hb
      simp [peekAt, isBoundary, low, hx]
    | cons y q =>
      rw [peekAt_low (by simp), hg, List.concat_eq_append, List.getLast?_concat]

theorem newLine (k : Nat) : startsNewLine (at_ s k) = true ↔ LineStart before :=
  startsNewLine_iff (s := at_ s k) H.src H.start

/-- A byte outside ASCII at the beginning of a character is followed by a continuation byte. -/
theorem multi {p q : Str} {x : UInt8} (h : s.src = p ++ x :: q) (hs : Starts (x :: q)) (hx : 128 ≤ x.toNat) :
    ∃ y r, q = y :: r ∧ isCont y = true := by
  obtain ⟨cs, hcs⟩ := H.utf
  have h1 : isBoundary (enc cs) p.length = true := by
    rw [← hcs, h]; exact isBoundary_append p (x :: q) hs
  obtain ⟨u, v, hcs', hu⟩ := boundary_split cs _ h1
  have hv : enc v = x :: q := by
    rw [hcs, hcs', enc_append] at h
    exact (List.append_inj h hu).2
  cases v with
  | nil => simp [enc] at hv
  | cons d v =>
    obtain ⟨b', bs, hd, hb', hbs, _⟩ := char_bytes d
    have hm := char_multi d b' bs hd
    rw [enc_cons, hd] at hv
    simp at hv
    obtain ⟨rfl, hv⟩ := hv
    cases bs with
    | nil => exact absurd rfl (hm hx)
    | cons z bs => exact ⟨z, bs ++ enc v, by rw [← hv]; rfl, hbs z (by simp)⟩

theorem ascii {p q : Str} {x : UInt8} (h : s.src = p ++ x :: q) (hs : Starts (x :: q)) (hq : Starts q) : x.toNat < 128 := by
  rcases Nat.lt_or_ge x.toNat 128 with h1 | h1
  · exact h1
  · obtain ⟨y, r, rfl, hy⟩ := H.multi h hs h1
    have := hq y rfl
    rw [hy] at this; cases this

/-- Looking two bytes ahead fails when there is at most one, or the second begins a character outside ASCII. -/
theorem peeks_none {p r : Str} {x : UInt8} (hr : s.src = p ++ x :: r) (hp : p ≠ []) (hx : x.toNat < 128) :
    peeksAheadAt s.src p.length 2 = [0] ↔ r = [] ∨ ∃ b, r.head? = some b ∧ 192 ≤ b.toNat := by
  have hst := H.starts hr hx
  have hlen : s.src.length = p.length + 1 + r.length := by rw [hr]; simp; omega
  have hpl := List.length_pos_iff.2 hp
  have hd : s.src.drop p.length = x :: r := by rw [hr]; simp
  unfold peeksAheadAt
  cases r with
  | nil =>
    rw [if_pos (by right; left; rw [hlen]; simp)]; simp
  | cons b r =>
    have hb := hst b rfl
    rw [isCont_false_iff] at hb
    have hbd : isBoundary s.src (p.length + 2) = false ↔ ∃ y r', r = y :: r' ∧ isCont y = true := by
      unfold isBoundary
      rw [if_neg (by omega), hr, List.getElem?_append_right (by omega), Nat.add_sub_cancel_left]
      cases r with
      | nil => simp
      | cons y r => simp
    constructor
    · intro h
      right; refine ⟨b, rfl, ?_⟩
      rcases hb with hb | hb
      · exfalso
        split at h
        · rename_i hc
          simp only [List.length_cons] at hlen
          rcases hc with hc | hc | hc
          · omega
          · omega
          · obtain ⟨y, r', rfl, hy⟩ := hbd.1 hc
            have := H.starts (p := p ++ [x]) (x := b) (q := y :: r') (by rw [hr]; simp) hb y rfl
            rw [hy] at this; cases this
        · rw [hd] at h; simp at h
      · exact hb
    · rintro (h | ⟨y, hy, hy'⟩)
      · cases h
      · simp at hy; subst hy
        rw [if_pos]
        right; right
        exact hbd.2 (H.multi (p := p ++ [x]) (by rw [hr]; simp) hst (by omega))

theorem peeksAt_iff {pat : Str} (hp : pat ≠ []) (ha : ∀ b ∈ pat, b.toNat < 128) (h0 : pat ≠ [0]) (i : Nat) :
    peeksAheadAt s.src i pat.length = pat ↔ pat <+: s.src.drop i := by
  have hpl : 0 < pat.length := List.length_pos_iff.2 hp
  constructor
  · intro h
    have := (peeksAheadAt_eq h h0).2.2.2
    rw [← this]; exact List.take_prefix ..
  · rintro ⟨r, hr⟩
    unfold peeksAheadAt
    have hlen : i + pat.length + r.length = s.src.length := by
      have := congrArg List.length hr
      simp only [List.length_append, List.length_drop] at this; omega
    rw [if_neg]
    · rw [← hr, List.take_left]
    · rw [not_or, not_or]
      refine ⟨by omega, by omega, ?_⟩
      rw [Bool.not_eq_false]
      obtain ⟨q, x, rfl⟩ := (List.eq_nil_or_concat pat).resolve_left hp
      have hsrc : s.src = (s.src.take i ++ q) ++ x :: r := by
        conv => lhs; rw [← List.take_append_drop i s.src, ← hr]
        simp
      have hs := H.starts hsrc (ha x (by simp))
      have := isBoundary_append ((s.src.take i ++ q) ++ [x]) r hs
      rw [show (s.src.take i ++ q) ++ [x] ++ r = s.src by rw [List.append_assoc, List.singleton_append, ← hsrc]] at this
      rw [← this]; congr 1; simp at hpl hlen ⊢; omega

theorem peeks {pat : Str} (hp : pat ≠ []) (ha : ∀ b ∈ pat, b.toNat < 128) (h0 : pat ≠ [0]) :
    peeksAhead (at_ s (s.start + 1)) pat.length = pat ↔ pat <+: rest := by
  rw [← H.drop]; exact H.peeksAt_iff hp ha h0 _

theorem adv (p : UInt8 → Bool) {w q : Str} (hr : rest = w ++ q) :
    Scanner.adv s.src p (s.start + 1 + w.length) = s.start + 1 + w.length + (q.takeWhile fun b => p (low b)).length := by
  rw [adv_takeWhile _ _ _ (by omega), ← List.drop_drop, H.drop, hr, List.drop_left]

theorem adv0 (p : UInt8 → Bool) :
    Scanner.adv s.src p (s.start + 1) = s.start + 1 + (rest.takeWhile fun b => p (low b)).length :=
  H.adv p (w := []) rfl

theorem endTag (k : Nat) : startsEndTagLine (at_ s k) = false := by
  unfold startsEndTagLine
  show (s.expectingTagEnd && _) = false
  rw [H.tag]; rfl

end Here

/-- Every token that `r` returns is written as the grammar says. -/
def Out (before : Str) (s : Scanner) (r : Item × Scanner) : Prop :=
  ∀ t s', r = (.tok t, s') → IsTag t ∨ ∃ after, s.src = before ++ t.lexeme ++ after ∧ Lexeme t.ty before t.lexeme after

theorem Out.ite {before : Str} {s : Scanner} {p : Prop} [Decidable p] {a b : Item × Scanner}
    (h1 : p → Out before s a) (h2 : ¬p → Out before s b) : Out before s (if p then a else b) := by
  by_cases h : p
  · rw [if_pos h]; exact h1 h
  · rw [if_neg h]; exact h2 h

theorem out_hang {before : Str} {s s' : Scanner} : Out before s (.hang, s') := by intro t s' h; cases h
theorem out_panic {before : Str} {s s' : Scanner} {p : Site} : Out before s (.panic p, s') := by intro t s' h; cases h
theorem out_err {before : Str} {s s' : Scanner} {p : ScanError} : Out before s (.err p, s') := by intro t s' h; cases h

theorem out_tag {before : Str} {s : Scanner} : Out before s (addTag (at_ s (s.start + 1))) := by
  intro t s' h
  have hs : (at_ s (s.start + 1)) = { ({ s with current := s.start } : Scanner) with start := s.start, current := s.start + 1 } := rfl
  rw [hs] at h
  have := (Tag.of_addTag (s := { s with current := s.start }) (t := t) (s' := s') h).ty
  left
  rcases this with h | h
  · exact .inl h.1
  · exact .inr h.1

namespace Here
variable {before rest : Str} {c : UInt8} {s : Scanner} (H : Here before c rest s)
include H

/-- A token up to `e`; its type may be changed to text. -/
theorem add' (ty : TokenType) (lit : Bool) (n e : Nat) (he : s.start < e)
    (h : ∀ l after, c :: rest = l ++ after → e = s.start + l.length → Starts after →
      Lexeme (Token.validate ⟨ty, l, if lit then some l else none, s.line, s.startcol, s.startcol + l.length - 1, s.fileStack⟩).ty
        before l after) :
    Out before s (addToken (at_ s e) ty lit n) := by
  intro t s' ht
  right
  rcases addToken_panic_or (at_ s e) ty lit n with ⟨p, s1, h1⟩ | ⟨text, hs, h1, _⟩
  · rw [h1] at ht; cases ht
  · rw [ht] at h1
    simp only [Item.tok.injEq] at h1
    obtain ⟨hle, hel, _, hbe, htx⟩ := slice_some hs
    dsimp only at hle hel hbe htx
    have hd : s.src.drop s.start = c :: rest := by rw [H.src, H.start]; simp
    have hlen : text.length = e - s.start := by rw [htx]; exact take_length hel
    have hsplit : c :: rest = text ++ s.src.drop e := by
      rw [htx, ← hd]
      conv => lhs; rw [← List.take_append_drop (e - s.start) (s.src.drop s.start)]
      rw [List.drop_drop, Nat.add_sub_cancel' hle]
    have hlex : t.lexeme = text := by rw [h1, validate_lexeme]
    refine ⟨s.src.drop e, ?_, ?_⟩
    · rw [hlex, List.append_assoc, ← hsplit, ← H.src]
    · have := h text (s.src.drop e) hsplit (by omega) ?_
      · rw [h1, validate_lexeme]; exact this
      · intro b hb
        rw [List.head?_drop] at hb
        unfold isBoundary at hbe
        split at hbe
        · omega
        · rw [hb] at hbe; simpa using hbe

/-- A token up to `e` whose type is not subject to a later check. -/
theorem add (ty : TokenType) (lit : Bool) (n e : Nat) (he : s.start < e) (h1 : ty ≠ .blockAnchor) (h2 : ty ≠ .crossReference)
    (h : ∀ l after, c :: rest = l ++ after → e = s.start + l.length → Starts after → Lexeme ty before l after) :
    Out before s (addToken (at_ s e) ty lit n) := by
  apply H.add' ty lit n e he
  intro l after a1 a2 a3
  rcases validate_ty ⟨ty, l, if lit then some l else none, s.line, s.startcol, s.startcol + l.length - 1, s.fileStack⟩ with hv | hv
  · rw [hv]; exact h l after a1 a2 a3
  · exfalso
    rcases hv.2 with h3 | h3
    · exact h1 h3
    · exact h2 h3

/-- A token with known text. -/
theorem fixed (ty : TokenType) (lit : Bool) (n e : Nat) (w q : Str) (hw : c :: rest = w ++ q) (he : e = s.start + w.length)
    (h1 : ty ≠ .blockAnchor) (h2 : ty ≠ .crossReference) (hpos : w ≠ []) (h : Lexeme ty before w q) :
    Out before s (addToken (at_ s e) ty lit n) := by
  have := List.length_pos_iff.2 hpos
  apply H.add ty lit n e (by omega) h1 h2
  intro l after a1 a2 _
  obtain ⟨rfl, rfl⟩ := List.append_inj (hw.symm.trans a1) (by omega)
  exact h

theorem text (p q : Str) (hp : rest = p ++ q) (hs : ∀ b ∈ p, b ∉ stops) (k : Nat) (hk : k = s.start + 1 + p.length) :
    Out before s (addText (at_ s k)) := by
  subst hk
  have ha := H.adv (fun b => !isStop b) hp
  show Out before s (addToken (at_ s (Scanner.adv s.src (fun b => !isStop b) (s.start + 1 + p.length))) .text true 0)
  rw [ha]
  have hstop : ∀ b : UInt8, isStop (low b) = false ↔ b ∉ stops := by
    intro b
    unfold low
    by_cases hb : isCont b = true
    · rw [if_pos hb]
      refine ⟨fun _ hm => ?_, fun _ => rfl⟩
      have := isStop_cont b (by simpa [isStop, stops] using hm)
      rw [hb] at this; cases this
    · rw [if_neg hb]
      simp [isStop, stops]
  have hsplit := List.takeWhile_append_dropWhile (p := fun b => !isStop (low b)) (l := q)
  apply H.fixed .text true 0 _ (c :: p ++ q.takeWhile fun b => !isStop (low b)) (q.dropWhile fun b => !isStop (low b))
  · rw [List.append_assoc, hsplit, hp]; rfl
  · simp; omega
  · decide
  · decide
  · simp
  · left
    refine ⟨by simp, ?_, ?_⟩
    · intro b hb
      simp only [List.cons_append, List.tail_cons, List.mem_append] at hb
      rcases hb with hb | hb
      · exact hs b hb
      · have := List.all_eq_true.1 (List.all_takeWhile (p := fun b => !isStop (low b)) (l := q)) b hb
        exact (hstop b).1 (by simpa using this)
    · cases hd : q.dropWhile fun b => !isStop (low b) with
      | nil => left; rfl
      | cons b r =>
        right
        have := List.head_dropWhile_not (p := fun b => !isStop (low b)) (l := q) (by rw [hd]; simp)
        simp only [hd, List.head_cons] at this
        refine ⟨b, ?_, rfl⟩
        by_cases hm : b ∈ stops
        · exact hm
        · rw [(hstop b).2 hm] at this; cases this

theorem text1 : Out before s (addText (at_ s (s.start + 1))) := H.text [] rest rfl (by simp) _ rfl

/-- The next byte. -/
theorem next (hc : c.toNat < 128) {x : UInt8} (hx : x ≠ 0) (h : Scanner.peek (at_ s (s.start + 1)) = x) :
    ∃ r, rest = x :: r := by
  rw [H.peek hc] at h
  cases rest with
  | nil => exact absurd h.symm hx
  | cons y r => exact ⟨r, by simp at h; rw [h]⟩

theorem head_ne (hc : c.toNat < 128) {x : UInt8} (h : Scanner.peek (at_ s (s.start + 1)) ≠ x) : rest.head? ≠ some x := by
  rw [H.peek hc] at h
  intro hh; rw [hh] at h; exact h rfl

theorem last (k : Nat) {x : UInt8} (hx : x ≠ 0) : Scanner.peekBack (at_ s k) = x ↔ before.getLast? = some x ∧ isCont x = false := by
  rw [H.peekBack]
  cases before.getLast? with
  | none => simp [Ne.symm hx]
  | some b =>
    simp only [Option.map_some, Option.getD_some, Option.some.injEq]
    constructor
    · intro h
      have := low_eq h hx
      subst this
      refine ⟨rfl, ?_⟩
      unfold low at h
      split at h
      · exact absurd h.symm hx
      · simpa using ‹¬isCont b = true›
    · rintro ⟨rfl, h⟩; simp [low, h]

theorem begins (k : Nat) : beginsInline (Scanner.peekBack (at_ s k)) = true → Opener before := by
  rw [H.peekBack]
  unfold Opener
  cases h : before.getLast? with
  | none => intro _; left; exact List.getLast?_eq_none_iff.1 h
  | some b =>
    intro hb
    right
    refine ⟨b, rfl, ?_⟩
    simp only [Option.map_some, Option.getD_some] at hb
    unfold low at hb
    split at hb
    · rename_i hc; rw [isCont_iff] at hc; exact .inr (.inl hc)
    · unfold beginsInline at hb
      simp only [Bool.or_eq_true, decide_eq_true_eq, List.contains_eq_mem] at hb
      rcases hb with hb | hb
      · exact .inl hb
      · exact .inr (.inr hb)

theorem ends (hc : c.toNat < 128) : endsInline (Scanner.peek (at_ s (s.start + 1))) = true → Closer rest := by
  rw [H.peek hc]
  unfold Closer
  cases rest with
  | nil => intro _; left; rfl
  | cons b r =>
    intro hb
    right
    refine ⟨b, rfl, ?_⟩
    unfold endsInline at hb
    simp only [Option.getD_some, List.head?_cons, Bool.or_eq_true, decide_eq_true_eq, List.contains_eq_mem] at hb
    exact hb.imp of_decide_eq_true id

theorem formatting (hc : c.toNat < 128) (h0 : c ≠ 0) (t u : TokenType) (h1 : t ≠ .blockAnchor ∧ t ≠ .crossReference)
    (h2 : u ≠ .blockAnchor ∧ u ≠ .crossReference)
    (ht : Single c before [c] rest → Lexeme t before [c] rest)
    (hu : ∀ r, rest = c :: r → Lexeme u before [c, c] r) :
    Out before s (inlineFormatting (at_ s (s.start + 1)) c t u) := by
  unfold inlineFormatting
  refine .ite (fun _ => H.text1) fun hsp => .ite (fun hp => ?_) fun hp => .ite (fun he => ?_) fun _ => H.text1
  · obtain ⟨r, hr⟩ := H.next hc h0 hp
    exact H.fixed u false 0 _ [c, c] r (by rw [hr]; rfl) rfl h2.1 h2.2 (by simp) (hu r hr)
  · refine H.fixed t false 0 _ [c] rest rfl rfl h1.1 h1.2 (by simp) (ht ⟨rfl, H.head_ne hc hp, ?_, ?_⟩)
    · rcases he with he | he
      · exact .inr (H.ends hc he)
      · exact .inl (H.begins _ he.1)
    · rintro ⟨a, b⟩
      refine hsp ⟨?_, ?_⟩
      · rw [H.peek hc, b]; rfl
      · exact (H.last _ (by decide)).2 ⟨a, by decide⟩

end Here

end Adoc.Scanner
