import Verif.Proof.Lines
import Verif.Props.Lexical
import Verif.Proof.ScanSafe
/-!
# Scanning legible signs
-/
namespace Adoc.Scanner
open Spec Props Lexical

/-- The text of a token with a given type and lexeme. -/
def signText (ty : TokenType) (l : Str) : Str :=
  match ty with
  | .charRef => (replacements.lookup l).getD l
  | .openDoubleQuote => b!"“"
  | .closeDoubleQuote => b!"”"
  | .openSingleQuote => b!"‘"
  | .closeSingleQuote => b!"’"
  | _ => l

/-- A token that is a sign. -/
structure IsMark (tp : TokenType) (l : Str) (t : Token) : Prop where
  ty : t.ty = tp
  lexeme : t.lexeme = l
  text : t.text = signText tp l

/-- Text tokens that make up a text. -/
inductive Pieces' : Str → List Token → Prop where
  | nil : Pieces' [] []
  | cons (x rest : Str) (t : Token) (ts : List Token) (hx : x ≠ []) (ht : IsMark .text x t) (h : Pieces' rest ts) :
      Pieces' (x ++ rest) (t :: ts)

/-- The tokens of some signs. -/
inductive Matches : List Sign → List Token → Prop where
  | nil : Matches [] []
  | text (l : Str) (ss : List Sign) (ts us : List Token) (hl : l ≠ []) (ht : Pieces' l ts) (h : Matches ss us) :
      Matches (.text l :: ss) (ts ++ us)
  | mark (ty : TokenType) (l : Str) (ss : List Sign) (t : Token) (us : List Token) (ht : IsMark ty l t) (h : Matches ss us) :
      Matches (.mark ty l :: ss) (t :: us)

theorem Matches.split {a b : List Sign} {ts : List Token} (h : Matches (a ++ b) ts) :
    ∃ us vs, ts = us ++ vs ∧ Matches a us ∧ Matches b vs := by
  induction a generalizing ts with
  | nil => exact ⟨[], ts, rfl, .nil, h⟩
  | cons s a ih =>
    cases h with
    | text l _ ts us hl ht h =>
      obtain ⟨us', vs, rfl, h1, h2⟩ := ih h
      exact ⟨ts ++ us', vs, by simp, .text l a ts us' hl ht h1, h2⟩
    | mark ty l _ t us ht h =>
      obtain ⟨us', vs, rfl, h1, h2⟩ := ih h
      exact ⟨t :: us', vs, by simp, .mark ty l a t us' ht h1, h2⟩

/-- Signs that end well: cross references and anchors are ASCII. -/
def Sign.Plain : Sign → Prop
  | .text _ => True
  | .mark ty l => ty ≠ .text ∧ (ty = .blockAnchor ∨ ty = .crossReference → ∀ b ∈ l, b.toNat < 128)

theorem text_of {t : Token} {ty : TokenType} {l : Str} {s s' : Scanner} (hn : s.next = some (.tok t, s')) (h1 : t.ty = ty)
    (h2 : t.lexeme = l) (hl : t.lit = none ∨ t.lit = some t.lexeme ∨ (t.ty = .charRef ∧ t.lit = Token.charRefLiteral t.lexeme)) :
    t.text = signText ty l := by
  by_cases hc : ty = .charRef
  · rw [charRef_validated hn (h1.trans hc), h2, hc]; rfl
  · have hl' : t.lit = none ∨ t.lit = some t.lexeme := by
      rcases hl with h | h | h
      · exact .inl h
      · exact .inr h
      · exact absurd (h1.symm.trans h.1) hc
    unfold Token.text
    rw [h1]
    rcases hl' with hl' | hl' <;> rw [hl'] <;> cases ty <;> first | (exact absurd rfl hc) | (simp [signText, h2])

/-- What a step gives is what the next token is. -/
theorem next_gives (pre l post : Str) (st col n : Nat) (fs : List Str) (ty : TokenType) (c : UInt8) (r : Str) (hc : l ++ post = c :: r)
    (hty : ty ≠ .startTag ∧ ty ≠ .endTag ∧ ty ≠ .eof)
    (hg : Gives ty l (dispatch (at_ { cut pre (l ++ post) st col n fs with start := pre.length } (pre.length + 1)) c)) :
    ∃ t st' col' n', (cut pre (l ++ post) st col n fs).next = some (.tok t, cut (pre ++ l) post st' col' n' fs)
      ∧ IsMark ty l t := by
  obtain ⟨t, s', h1, h2, h3⟩ := hg
  have hget : (pre ++ (l ++ post)).getD pre.length 0 = c := by rw [hc]; simp
  have hn : (cut pre (l ++ post) st col n fs).next = some (.tok t, s') := by
    unfold next isAtEnd
    rw [if_neg (by simp [cut, hc])]
    unfold scanToken
    simp only [cut, hget]
    exact congrArg some h1
  have hp : Plain (cut pre (l ++ post) st col n fs) t s' := by
    have hsp := next_spec hn
    cases hsp with
    | eof => exact absurd h2.symm hty.2.2
    | plain _ _ _ h => exact h
    | tag _ _ _ h =>
      rcases h.ty with h | h
      · exact absurd (h2.symm.trans h.1) hty.1
      · exact absurd (h2.symm.trans h.1) hty.2.1
  have hlen : s'.current = (pre ++ l).length := by
    have h4 := hp.lex
    have h5 := congrArg List.length h4
    rw [take_length hp.le, h3] at h5
    have h6 := hp.lt
    have h7 : (cut pre (l ++ post) st col n fs).current = pre.length := rfl
    rw [h7] at h5 h6
    rw [List.length_append]; omega
  refine ⟨t, s'.start, s'.startcol, s'.line, ?_, h2, h3, text_of hn h2 h3 hp.lit⟩
  rw [hn]
  congr 2
  have e1 : s'.src = pre ++ (l ++ post) := hp.src
  have e2 := hp.scanning
  have e3 := hp.expecting
  have e4 := hp.fs
  cases s' with
  | mk src start startcol current line scanning exp fs =>
    simp only [cut] at e1 e2 e3 e4 hlen ⊢
    subst e1 e2 e3 e4 hlen
    simp

/-- A token of the lexical grammar is read. -/
theorem next_lexeme (pre l post : Str) (st col n : Nat) (fs : List Str) (hu : ∃ cs, pre ++ (l ++ post) = enc cs) (ty : TokenType)
    (hty : ty ≠ .text) (hx : ty = .blockAnchor ∨ ty = .crossReference → ∀ b ∈ l, b.toNat < 128)
    (hl : Lexeme ty pre l post) :
    ∃ t st' col' n', (cut pre (l ++ post) st col n fs).next = some (.tok t, cut (pre ++ l) post st' col' n' fs)
      ∧ IsMark ty l t := by
  have hne := lexeme_ne_nil hl
  obtain ⟨c, r, hc⟩ : ∃ c r, l ++ post = c :: r := by
    cases l with
    | nil => exact absurd rfl hne
    | cons c l => exact ⟨c, l ++ post, rfl⟩
  let s : Scanner := { cut pre (l ++ post) st col n fs with start := pre.length }
  have H : Here pre c r s := ⟨by rw [← hc]; rfl, rfl, rfl, hu⟩
  refine next_gives pre l post st col n fs ty c r hc ⟨?_, ?_, ?_⟩ ?_
  · rintro rfl; exact hl
  · rintro rfl; exact hl
  · rintro rfl; exact hl
  by_cases ha : ty = .blockAnchor
  · subst ha
    obtain ⟨hl, hb⟩ : Anchor _ l post ∧ ¬Blank l := hl
    rcases H.anchorC hc.symm hl with ⟨h4, _⟩ | ⟨_, b, hb, h5⟩
    · exact h4 hb
    · have := hx (.inl rfl) b hb; omega
  by_cases hx' : ty = .crossReference
  · subst hx'
    obtain ⟨hl, hb⟩ : Reference _ l post ∧ ¬Blank l := hl
    rcases H.xrefC hc.symm hl with ⟨h4, _⟩ | ⟨_, b, hb, h5⟩
    · exact h4 hb
    · have := hx (.inr rfl) b hb; omega
  exact H.complete ty ⟨ha, hx', hty⟩ hc.symm hl

/-- A cross reference with a blank in it is read as text. -/
theorem next_spaced (pre l post : Str) (st col n : Nat) (fs : List Str) (hu : ∃ cs, pre ++ (l ++ post) = enc cs)
    (hl : Spaced pre l post) :
    ∃ t st' col' n', (cut pre (l ++ post) st col n fs).next = some (.tok t, cut (pre ++ l) post st' col' n' fs)
      ∧ IsMark .text l t := by
  obtain ⟨hb, hl, ha⟩ := hl
  have hne : l ≠ [] := by rintro rfl; rcases hb with h | h <;> cases h
  obtain ⟨c, r, hc⟩ : ∃ c r, l ++ post = c :: r := by
    cases l with
    | nil => exact absurd rfl hne
    | cons c l => exact ⟨c, l ++ post, rfl⟩
  let s : Scanner := { cut pre (l ++ post) st col n fs with start := pre.length }
  have H : Here pre c r s := ⟨by rw [← hc]; rfl, rfl, rfl, hu⟩
  refine next_gives pre l post st col n fs .text c r hc (by decide) ?_
  rcases hl with hl | hl
  · rcases H.anchorC hc.symm hl with ⟨_, h4⟩ | ⟨_, b, hb, h5⟩
    · exact h4 hb
    · have := ha b hb; omega
  · rcases H.xrefC hc.symm hl with ⟨_, h4⟩ | ⟨_, b, hb, h5⟩
    · exact h4 hb
    · have := ha b hb; omega

/-- Two pieces at the same position are the same. -/
theorem piece_unique {l post l' post' : Str} (h : Piece l post) (h' : Piece l' post') (he : l' ++ post' = l ++ post) : l' = l := by
  obtain ⟨n1, t1, e1⟩ := h
  obtain ⟨n2, t2, e2⟩ := h'
  cases l with
  | nil => exact absurd rfl n1
  | cons c l =>
    cases l' with
    | nil => exact absurd rfl n2
    | cons c' l' =>
      simp only [List.cons_append, List.cons.injEq] at he
      obtain ⟨rfl, he⟩ := he
      simp only [List.tail_cons] at t1 t2
      clear n1 n2
      congr 1
      induction l generalizing l' with
      | nil =>
        cases l' with
        | nil => rfl
        | cons x l' =>
          exfalso
          rcases e1 with rfl | ⟨b, hb, h⟩
          · cases he
          · rw [List.nil_append] at he
            rw [← he] at h
            cases h
            exact t2 _ (by simp) hb
      | cons x l ih =>
        cases l' with
        | nil =>
          exfalso
          rcases e2 with rfl | ⟨b, hb, h⟩
          · cases he
          · rw [List.nil_append] at he
            rw [he] at h
            cases h
            exact t1 _ (by simp) hb
        | cons y l' =>
          simp only [List.cons_append, List.cons.injEq] at he
          obtain ⟨rfl, he⟩ := he
          rw [ih l' (fun b hb => t2 b (by simp [hb])) he (fun b hb => t1 b (by simp [hb]))]

/-- A text that looks like markup is read as text. -/
theorem next_stray (pre l post : Str) (st col n : Nat) (fs : List Str) (hu : ∃ cs, pre ++ (l ++ post) = enc cs)
    (hl : Stray pre l post) :
    ∃ t st' col' n', (cut pre (l ++ post) st col n fs).next = some (.tok t, cut (pre ++ l) post st' col' n' fs)
      ∧ IsMark .text l t := by
  have hne := hl.piece.1
  obtain ⟨c, r, hc⟩ : ∃ c r, l ++ post = c :: r := by
    cases l with
    | nil => exact absurd rfl hne
    | cons c l => exact ⟨c, l ++ post, rfl⟩
  let s : Scanner := { cut pre (l ++ post) st col n fs with start := pre.length }
  have H : Here pre c r s := ⟨by rw [← hc]; rfl, rfl, rfl, hu⟩
  have hsrc : s.src = pre ++ (l ++ post) := rfl
  have hst : s.start = pre.length := rfl
  have hdrop : s.src.drop s.start = l ++ post := by rw [hsrc, hst]; simp
  have hget : s.src[s.start]? = some c := by rw [hsrc, hst, hc]; simp
  have hin : ∀ b ∈ r, ∃ m, s.start < m ∧ s.src[m]? = some b := by
    intro b hb
    obtain ⟨k, hk⟩ := List.mem_iff_getElem?.1 hb
    refine ⟨s.start + 1 + k, by omega, ?_⟩
    have : (s.src.drop s.start)[1 + k]? = some b := by
      rw [hdrop, hc, Nat.add_comm, List.getElem?_cons_succ]; exact hk
    rw [List.getElem?_drop, ← Nat.add_assoc] at this
    exact this
  have hsafe : Safe s := by
    refine ⟨hu, ?_, (List.getElem?_eq_some_iff.1 hget).1, rfl, by rw [hdrop]; exact hl.safe, ?_, ?_, ?_⟩
    · have hb : isCont c = false := by
        refine hl.first c ?_
        cases l with
        | nil => exact absurd rfl hne
        | cons x l => cases hc; rfl
      unfold isBoundary
      split
      · rfl
      · rw [hget]; simp [hb]
    · intro h
      rw [hget] at h
      obtain ⟨b, h1, h2, h3⟩ := hl.amp r (by rw [hc, Option.some.inj h])
      obtain ⟨m, g1, g2⟩ := hin b h1
      exact ⟨m, b, g1, g2, h2, by rw [← Bool.not_eq_true, isAlnum_ascii b h2]; exact h3⟩
    · intro h
      rw [hget] at h
      obtain ⟨b, h1, h2, h3⟩ := hl.brace r (by rw [hc, Option.some.inj h])
      obtain ⟨m, g1, g2⟩ := hin b h1
      refine ⟨m, b, g1, g2, h2, ?_⟩
      rw [← Bool.not_eq_true]
      intro h4
      unfold isAttrRefChar at h4
      rw [Bool.or_eq_true, isAlnum_ascii b h2, decide_eq_true_eq] at h4
      exact h3 h4
    · intro h h'
      rw [hget] at h
      exact hin 10 (hl.colon ((H.newLine s.current).1 h') r (by rw [hc, Option.some.inj h]))
  have hg := hsafe.dispatch hget
  obtain ⟨it, s', hd⟩ : ∃ it s', dispatch (at_ s (s.start + 1)) c = (it, s') := ⟨_, _, rfl⟩
  have ho := H.dispatch
  rw [hd] at hg ho
  cases it with
  | panic p => exact absurd hg.ret (by simp [Item.returned])
  | hang => exact absurd hg.ret (by simp [Item.returned])
  | err e =>
    have := hg.err e rfl
    rw [hdrop] at this
    exact absurd this hl.level
  | tok t =>
    have htag := hg.tag t rfl
    obtain ⟨after, h1, h2⟩ : ∃ after, s.src = pre ++ t.lexeme ++ after ∧ Lexeme t.ty pre t.lexeme after := by
      rcases ho t s' rfl with h | h
      · rcases h with h | h
        · exact absurd h htag.1
        · exact absurd h htag.2
      · exact h
    have hafter : t.lexeme ++ after = l ++ post := by
      rw [hsrc, List.append_assoc] at h1
      exact (List.append_cancel_left h1).symm
    have hty : t.ty = .text := by
      apply Decidable.byContradiction
      intro h
      exact hl.other _ _ _ hafter h h2
    have hlex : t.lexeme = l := by
      rw [hty] at h2
      rcases h2 with h2 | ⟨_, h2 | h2⟩
      · exact piece_unique hl.piece h2 hafter
      · exact absurd h2 (hl.blank _ _ hafter).1
      · exact absurd h2 (hl.blank _ _ hafter).2
    exact next_gives pre l post st col n fs .text c r hc (by decide) ⟨t, s', hd, hty, hlex⟩

theorem pieces_of {n col : Nat} {fs : List Str} {l : Str} {ts : List Token} (h : Pieces n fs col l ts) : Pieces' l ts := by
  induction h with
  | nil => exact .nil
  | cons col x rest ts hx h ih => exact .cons x rest _ ts hx ⟨rfl, rfl, rfl⟩ ih

theorem Pieces'.append {a b : Str} {ts us : List Token} (h : Pieces' a ts) (h' : Pieces' b us) : Pieces' (a ++ b) (ts ++ us) := by
  induction h with
  | nil => exact h'
  | cons x rest t ts hx ht h ih =>
    rw [List.append_assoc, List.cons_append]
    exact .cons x _ t _ hx ht ih

/-- Text is read as text. -/
theorem trace_told (xs : List Str) (pre post : Str) (st col n : Nat) (fs : List Str)
    (hu : ∃ cs, pre ++ (xs.flatten ++ post) = enc cs) (h : Told pre xs post) :
    ∃ ts st' col' n', Pieces' xs.flatten ts ∧ Trace (cut pre (xs.flatten ++ post) st col n fs) (ts.map .tok)
      (cut (pre ++ xs.flatten) post st' col' n' fs) := by
  induction xs generalizing pre st col n with
  | nil => exact ⟨[], st, col, n, .nil, by simpa using Trace.nil _⟩
  | cons x xs ih =>
    obtain ⟨h1, h2⟩ := h
    have hu' : ∃ cs, (pre ++ x) ++ (xs.flatten ++ post) = enc cs := by simpa using hu
    have ih := fun st col n => ih (pre ++ x) st col n hu' h2
    rcases h1 with h1 | h1
    · obtain ⟨ts, st1, a1, a2⟩ := trace_run pre x (xs.flatten ++ post) st col n fs h1
      obtain ⟨us, st2, col2, n2, b1, b2⟩ := ih st1 (col + x.length) n
      refine ⟨ts ++ us, st2, col2, n2, ?_, ?_⟩
      · rw [List.flatten_cons]; exact (pieces_of a1).append b1
      · simp only [List.map_append, List.flatten_cons, List.append_assoc] at b2 ⊢
        exact a2.append b2
    · have hx : x ≠ [] := by
        rcases h1 with h1 | h1
        · exact h1.piece.1
        · rintro rfl; rcases h1.1 with h | h <;> cases h
      obtain ⟨t, st1, col1, n1, a1, a2⟩ : ∃ t st1 col1 n1, (cut pre (x ++ (xs.flatten ++ post)) st col n fs).next
          = some (.tok t, cut (pre ++ x) (xs.flatten ++ post) st1 col1 n1 fs) ∧ IsMark .text x t := by
        rcases h1 with h1 | h1
        · exact next_stray pre x (xs.flatten ++ post) st col n fs (by simpa using hu) h1
        · exact next_spaced pre x (xs.flatten ++ post) st col n fs (by simpa using hu) h1
      obtain ⟨us, st2, col2, n2, b1, b2⟩ := ih st1 col1 n1
      refine ⟨t :: us, st2, col2, n2, ?_, ?_⟩
      · rw [List.flatten_cons]; exact .cons x _ t us hx a2 b1
      · simp only [List.map_cons, List.flatten_cons, List.append_assoc] at b2 ⊢
        exact .cons a1 rfl b2

/-- Legible signs are read one after the other. -/
theorem trace_signs (ss : List Sign) (pre post : Str) (st col n : Nat) (fs : List Str) (hu : ∃ cs, pre ++ (written ss ++ post) = enc cs)
    (hs : ∀ s ∈ ss, Sign.Plain s) (h : Legible pre ss post) :
    ∃ ts st' col' n', Matches ss ts ∧ Trace (cut pre (written ss ++ post) st col n fs) (ts.map .tok)
      (cut (pre ++ written ss) post st' col' n' fs) := by
  induction ss generalizing pre st col n with
  | nil => exact ⟨[], st, col, n, .nil, by simpa [written] using Trace.nil _⟩
  | cons s ss ih =>
    obtain ⟨h1, h2⟩ := h
    have hu' : ∃ cs, (pre ++ s.str) ++ (written ss ++ post) = enc cs := by simpa [written] using hu
    have ih := fun st col n => ih (pre ++ s.str) st col n hu' (fun x hx => hs x (by simp [hx])) h2
    cases s with
    | text l =>
      obtain ⟨hl, xs, rfl, h1⟩ := h1
      obtain ⟨ts, st1, col1, n1, a1, a2⟩ := trace_told xs pre (written ss ++ post) st col n fs
        (by simpa [written, Sign.str] using hu) h1
      obtain ⟨us, st2, col2, n2, b1, b2⟩ := ih st1 col1 n1
      refine ⟨ts ++ us, st2, col2, n2, .text _ ss ts us hl a1 b1, ?_⟩
      simp only [List.map_append, written, Sign.str, List.append_assoc] at b2 ⊢
      exact a2.append b2
    | mark ty l =>
      obtain ⟨g1, g2⟩ : Sign.Plain (.mark ty l) := hs _ (by simp)
      obtain ⟨t, st1, col1, n1, a1, a2⟩ := next_lexeme pre l (written ss ++ post) st col n fs
        (by simpa [written, Sign.str] using hu) ty g1 g2 h1
      obtain ⟨us, st2, col2, n2, b1, b2⟩ := ih st1 col1 n1
      refine ⟨t :: us, st2, col2, n2, .mark ty l ss t us a2 b1, ?_⟩
      simp only [List.map_cons, written, Sign.str, List.append_assoc] at b2 ⊢
      exact .cons a1 rfl b2

/-- The tokens are from the file `fs` and begin on line `n`, and after a newline the line is the next one. -/
def Lined (fs : List Str) : Nat → List Token → Prop
  | _, [] => True
  | n, t :: ts => (t.line = n ∧ t.fileStack = fs) ∧ Lined fs (if t.ty = .newLineChar then n + 1 else n) ts

/-- The line after some tokens. -/
def lineAfter (n : Nat) : List Token → Nat
  | [] => n
  | t :: ts => lineAfter (if t.ty = .newLineChar then n + 1 else n) ts

theorem Lined.split {fs : List Str} {n : Nat} {a b : List Token} (h : Lined fs n (a ++ b)) : Lined fs n a ∧ Lined fs (lineAfter n a) b := by
  induction a generalizing n with
  | nil => exact ⟨trivial, h⟩
  | cons t a ih =>
    obtain ⟨h1, h2⟩ := h
    obtain ⟨h3, h4⟩ := ih h2
    exact ⟨⟨h1, h3⟩, h4⟩

theorem lineAfter_le (n : Nat) (ts : List Token) : n ≤ lineAfter n ts := by
  induction ts generalizing n with
  | nil => exact Nat.le_refl n
  | cons t ts ih =>
    unfold lineAfter
    have := ih (if t.ty = .newLineChar then n + 1 else n)
    split at this <;> rename_i h <;> simp only [h, if_true, if_false] <;> omega

theorem trace_lined {s s' : Scanner} {ts : List Token} (h : Trace s (ts.map .tok) s')
    (hty : ∀ t ∈ ts, t.ty ≠ .eof ∧ t.ty ≠ .startTag ∧ t.ty ≠ .endTag) : Lined s.fileStack s.line ts := by
  induction ts generalizing s with
  | nil => trivial
  | cons t ts ih =>
    rw [List.map_cons] at h
    cases h with
    | cons hn _ h =>
      have ht := hty t (by simp)
      cases next_spec hn with
      | eof => exact absurd rfl ht.1
      | tag _ _ _ h =>
        rcases h.ty with h | h
        · exact absurd h.1 ht.2.1
        · exact absurd h.1 ht.2.2
      | plain _ _ _ hp =>
        refine ⟨⟨hp.line, hp.tfs⟩, ?_⟩
        have := ih h (fun u hu => hty u (by simp [hu]))
        rw [hp.fs] at this
        by_cases hnl : t.ty = .newLineChar
        · rw [if_pos hnl, ← (hp.nl hnl).2.1]; exact this
        · rw [if_neg hnl, ← (hp.notnl hnl).1]; exact this

/-- Tokens of legible signs are neither the end nor include tags. -/
theorem matches_plain (ss : List Sign) (pre post : Str) (h : Legible pre ss post) (ts : List Token) (hm : Matches ss ts) :
    ∀ t ∈ ts, t.ty ≠ .eof ∧ t.ty ≠ .startTag ∧ t.ty ≠ .endTag := by
  have hp : ∀ l ts, Pieces' l ts → ∀ t ∈ ts, t.ty = .text := by
    intro l ts h
    induction h with
    | nil => intro t h; cases h
    | cons x rest u ts _ hu _ ih =>
      intro t h
      rcases List.mem_cons.1 h with rfl | h
      · exact hu.ty
      · exact ih t h
  induction hm generalizing pre with
  | nil => intro t h; cases h
  | text l ss ts us _ hl _ ih =>
    intro t ht
    rcases List.mem_append.1 ht with h' | h'
    · rw [hp l ts hl t h']; decide
    · exact ih _ h.2 t h'
  | mark ty l ss u us hu _ ih =>
    intro t ht
    rcases List.mem_cons.1 ht with rfl | h'
    · rw [hu.ty]
      have := h.1
      refine ⟨?_, ?_, ?_⟩ <;> rintro rfl <;> exact this
    · exact ih _ h.2 t h'

/-- Legible signs are scanned to their tokens. -/
theorem run_signs (ss : List Sign) (fs : List Str) (hu : ∃ cs, written ss = enc cs) (hs : ∀ s ∈ ss, Sign.Plain s) (h : Legible [] ss []) :
    ∃ ts n, Matches ss ts ∧ (newWithStack (written ss) fs).run = ts.map .tok ++ [.tok (Token.final n fs)] ∧ Lined fs 1 ts := by
  obtain ⟨ts, st, col, n, h1, h2⟩ := trace_signs ss [] [] 0 1 1 fs (by simpa using hu) hs h
  refine ⟨ts, n, h1, ?_, trace_lined h2 (matches_plain ss [] [] h ts h1)⟩
  apply run_of_trace
  simpa [cut, newWithStack] using h2

theorem scan_signs (ss : List Sign) (hu : ∃ cs, written ss = enc cs) (hs : ∀ s ∈ ss, Sign.Plain s) (h : Legible [] ss []) :
    ∃ ts n, Matches ss ts ∧ scan (written ss) = ts.map .tok ++ [.tok (Token.final n [])] ∧ Lined [] 1 ts := run_signs ss [] hu hs h

end Adoc.Scanner
