import Verif.Props.Returns
import Verif.Props.ScannerReturns
import Verif.Props.Lexical
import Verif.Props.Origin
import Verif.Props.Whole
import Verif.Props.Messages
/-!
# C103: ordinary texts are converted
-/
namespace Adoc.Spec

/-- A mark between these two characters is text, a list item or a line break, but does not begin or end a span: it stands between
two blanks or two letters or digits, is an asterisk at the beginning of a line before a blank, or a plus sign after a blank at the end of a line. -/
def harmless (c : UInt8) (prev next : Option UInt8) : Bool :=
  prev == some c!" " && next == some c!" "
  || prev.any (fun b => b.toNat ∈ alnums) && next.any (fun b => b.toNat ∈ alnums)
  || c == c!"*" && (prev == none || prev == some 10) && next == some c!" "
  || c == c!"+" && prev == some c!" " && next == some 10
where
  /-- The codes of letters and digits. -/
  alnums : List Nat := List.range' 48 10 ++ List.range' 65 26 ++ List.range' 97 26

/-- A text without the characters and words that can crash the program: it ends with a newline, has none of the marks, the marks of spans only
where they are harmless, none of the words, no less-than sign right before a digit or another such sign, no equals sign right before a character
outside of ASCII, and only ASCII between `http` and the next blank. -/
structure Ordinary (src : Str) : Prop where
  last : src.getLast? = some 10
  marks : ∀ b ∈ b!"[]|^~", b ∉ src
  spans : ∀ p c q, src = p ++ c :: q → c ∈ b!"*_`+#" → harmless c p.getLast? q.head? = true
  less : ∀ b ∈ b!"<>0123456789", ¬[c!"<", b] <:+: src
  words : ∀ w ∈ [b!"image:", b!"include::", b!"tag::", b!"end::", b!"leveloffset"], ¬w <:+: src
  equals : ∀ p b q, src = p ++ c!"=" :: b :: q → b.toNat < 128
  links : ∀ p q, src = p ++ b!"http" ++ q → AsciiUntil 32 (b!"http" ++ q)

end Adoc.Spec

namespace Adoc.Props
open Adoc Scanner Spec Lexical
open Origin

theorem not_alnum {x : UInt8} (hx : x ∈ b!" \n](\"[*_`+^~#.,;:)!?'" ∨ x = 0 ∨ 128 ≤ x.toNat) : x.toNat ∉ harmless.alnums := by
  have h : ∀ n ∈ harmless.alnums, 48 ≤ n ∧ n ≤ 122 ∧ n.toUInt8 ∉ b!" \n](\"[*_`+^~#.,;:)!?'" ∧ n < 256 := by decide
  intro hn
  obtain ⟨h1, h2, h3, h4⟩ := h _ hn
  rcases hx with hx | rfl | hx
  · exact h3 (by simpa using hx)
  · exact absurd h1 (by decide)
  · omega

/-- Harmless marks do not begin or end spans. -/
theorem harmless_single {c : UInt8} {p q l : Str} (h : harmless c p.getLast? q.head? = true) (hs : Single c p l q) :
    c = c!"*" ∧ LineStart p ∧ q.head? = some c!" " ∨ c = c!"+" ∧ p.getLast? = some c!" " ∧ q.head? = some 10 := by
  obtain ⟨_, _, ho, hb⟩ := hs
  simp only [harmless, Bool.or_eq_true, Bool.and_eq_true, beq_iff_eq, Option.any_eq_true, decide_eq_true_eq] at h
  rcases h with ((⟨h1, h2⟩ | ⟨⟨a, ha, ha'⟩, ⟨b, hb1, hb'⟩⟩) | ⟨⟨h1, h2⟩, h3⟩) | ⟨⟨h1, h2⟩, h3⟩
  · exact absurd ⟨h1, h2⟩ hb
  · exfalso
    rcases ho with (rfl | ⟨x, hx, hx'⟩) | (rfl | ⟨x, hx, hx'⟩)
    · simp at ha
    · rw [ha] at hx
      cases hx
      refine not_alnum ?_ ha'
      rcases hx' with h | h | h
      · exact .inr (.inl h)
      · exact .inr (.inr h.1)
      · exact .inl ((by decide : ∀ y ∈ b!" \n](\"[*_`+^~#", y ∈ b!" \n](\"[*_`+^~#.,;:)!?'") _ h)
    · simp at hb1
    · rw [hb1] at hx
      cases hx
      refine not_alnum ?_ hb'
      rcases hx' with h | h
      · exact .inr (.inl h)
      · exact .inl ((by decide : ∀ y ∈ b!" .,;:\n)\"!?']*_`+^~#", y ∈ b!" \n](\"[*_`+^~#.,;:)!?'") _ h)
  · refine .inl ⟨h1, ?_, h3⟩
    rcases h2 with h2 | h2
    · exact .inl (List.getLast?_eq_none_iff.1 h2)
    · exact .inr h2
  · exact .inr ⟨h1, h2, h3⟩

/-- The first of two equal marks is not harmless. -/
theorem harmless_double {c : UInt8} {prev : Option UInt8} (hc : c ∈ b!"*_`+#") : harmless c prev (some c) = false := by
  simp only [List.mem_cons, List.not_mem_nil, or_false] at hc
  have key : ∀ c ∈ b!"*_`+#", (c == c!" ") = false ∧ (c == 10) = false ∧ decide (c.toNat ∈ harmless.alnums) = false := by decide
  obtain ⟨h1, h2, h3⟩ := key c (by simpa using hc)
  have e1 : (some c == some c!" ") = false := h1
  have e2 : (some c == some (10 : UInt8)) = false := h2
  simp [harmless, e1, e2, h3]

theorem _root_.Adoc.Spec.Ordinary.closed {src : Str} (h : Ordinary src) : WellClosed src := by
  refine ⟨h.last, fun p r hr => ?_⟩
  have hm : ∀ b ∈ b!"[]|^~", b ∉ r := fun b hb hn => h.marks b hb (by rw [hr]; exact List.mem_append_right _ hn)
  have hw : ∀ w ∈ [b!"image:", b!"include::", b!"tag::", b!"end::", b!"leveloffset"], ¬w <+: r :=
    fun w hw hn => h.words w hw (by rw [hr]; exact hn.isInfix.trans (List.suffix_append p r).isInfix)
  have hb : ∀ {c : UInt8} {w : Str}, c ∈ b!"[]|^~" → c :: w <+: r → False := by
    rintro c w hc ⟨t, rfl⟩
    exact hm c hc (by simp)
  refine ⟨fun x => (hb (by decide) x).elim, fun x => (hw _ (by simp) x).elim, fun x => (hw _ (by simp) x).elim, fun x => (hb (by decide) x).elim,
    fun x => (h.less c!"<" (by decide) (by rw [hr]; exact x.isInfix.trans (List.suffix_append p r).isInfix)).elim, ?_, fun x => (hb (by decide) x).elim, ?_, hw _ (by simp), hw _ (by simp)⟩
  · rintro ⟨t, rfl⟩
    have key : ∀ (t : Str) (p : Str), src = p ++ c!"=" :: t →
        ∃ n x q, c!"=" :: t = List.replicate n c!"=" ++ x :: q ∧ x ≠ c!"=" ∧ x.toNat < 128 := by
      intro t
      induction t with
      | nil =>
        intro p hp
        have := h.last
        rw [hp] at this
        simp at this
      | cons x q ih =>
        intro p hp
        by_cases hx : x = c!"="
        · subst hx
          obtain ⟨n, y, q', e, h1, h2⟩ := ih (p ++ [c!"="]) (by rw [hp]; simp)
          exact ⟨n + 1, y, q', by rw [e]; rfl, h1, h2⟩
        · exact ⟨1, x, q, rfl, hx, h.equals p x q hp⟩
    exact key t p hr
  · rintro ⟨q, rfl⟩
    exact h.links p q (by rw [hr]; simp)

/-- There are no tags in closed texts. -/
theorem safe_tags (src : Str) (hu : ∃ cs, src = enc cs) (hc : WellClosed src) (n : Nat) :
    ∀ s : Scanner, s.src = src → s.expectingTagEnd = false → s.current ≤ src.length → isBoundary src s.current = true →
      ∀ t, .tok t ∈ runF n s → ¬IsTag t := by
  induction n with
  | zero => intro s _ _ _ _ t hi; cases hi
  | succ n ih =>
    intro s hs he hl hb t hi
    rw [runF_succ] at hi
    unfold Scanner.next at hi
    by_cases hend : s.isAtEnd = true
    · rw [if_pos hend] at hi
      by_cases hsc : s.scanning = true
      · rw [if_pos hsc] at hi
        simp only [Item.returned, if_true, List.mem_cons] at hi
        rcases hi with hi | hi
        · cases hi
          rintro (h | h) <;> cases h
        · exact ih { s with scanning := false } hs he hl hb t hi
      · rw [if_neg hsc] at hi; cases hi
    · rw [if_neg hend] at hi
      have hlt : s.current < s.src.length := by
        unfold Scanner.isAtEnd at hend; simpa using hend
      have hsafe : Safe { s with start := s.current } :=
        .of_closed (by rw [← hs] at hu; exact hu) (by rw [hs]; exact hb) hlt he (by rw [← hs] at hc; exact hc)
      have hg := hsafe.dispatch (c := s.src.getD s.current 0) (by
        dsimp only
        rw [List.getD_eq_getElem?_getD, List.getElem?_eq_getElem hlt]; rfl)
      have hst : scanToken { s with start := s.current }
          = dispatch (at_ { s with start := s.current } (s.current + 1)) (s.src.getD s.current 0) := rfl
      rw [hst] at hi
      generalize dispatch (at_ { s with start := s.current } (s.current + 1)) (s.src.getD s.current 0) = r at *
      obtain ⟨i, s'⟩ := r
      obtain ⟨h1, h2, h3, h4, h5, _, h7⟩ := hg
      dsimp only at h1 h2 h3 h4 h5 h7 hi
      simp only [h1, if_true, List.mem_cons] at hi
      rcases hi with hi | hi
      · rintro (h | h)
        · exact (h7 t hi.symm).1 h
        · exact (h7 t hi.symm).2 h
      · exact ih s' (by rw [h2, hs]) (by rw [h5, he]) (by rw [← hs]; exact h3) (by rw [← hs]; exact h4) t hi

theorem scan_tags (cs : List Char) (hc : WellClosed (enc cs)) (t : Token) (h : .tok t ∈ scan (enc cs)) : ¬IsTag t :=
  safe_tags (enc cs) ⟨cs, rfl⟩ hc _ (Scanner.new (enc cs)) rfl rfl (Nat.zero_le _) (by simp [Scanner.new, newWithStack, isBoundary]) t h

/-- Columns begin with one. -/
theorem startcol_pos {src : Str} {toks : List Token} {t : Token} {rest : List Item} (h : scan src = toks.map .tok ++ .tok t :: rest)
    (he : t.ty ≠ .eof) (hn : ∀ u ∈ toks ++ [t], ¬IsTag u) : t.startcol ≠ 0 := by
  rcases List.eq_nil_or_concat toks with rfl | ⟨init, u, rfl⟩
  · have := (C05_first src t rest h he (hn t (by simp))).2.1
    omega
  · have := C05_adjacent src (init.map .tok) rest u t (by rw [h]; simp) he (hn u (by simp)) (hn t (by simp))
    by_cases hu : u.ty = .newLineChar
    · have := (this.1 hu).2; omega
    · have := (this.2.1 hu).2; omega

theorem splitOnB_second {name value : Str} (hn : c!":" ∉ name) :
    (splitOnB c!":" (b!":" ++ name ++ b!":" ++ value))[1]? = some name := by
  have : ∀ (n v : Str), c!":" ∉ n → splitOnB c!":" (n ++ c!":" :: v) = n :: splitOnB c!":" v := by
    intro n v hn
    induction n with
    | nil => simp [splitOnB]
    | cons x n ih =>
      simp only [List.mem_cons, not_or] at hn
      rw [List.cons_append, splitOnB, if_neg (Ne.symm hn.1), ih hn.2]
  have e : b!":" ++ name ++ b!":" ++ value = c!":" :: (name ++ c!":" :: value) := by simp
  rw [e, splitOnB, if_pos rfl, this name value hn]
  rfl

/-- Every token of an ordinary text is tame. -/
theorem _root_.Adoc.Spec.Ordinary.tame {cs : List Char} (h : Ordinary (enc cs)) {toks : List Token} {t : Token} {rest : List Item}
    (hs : scan (enc cs) = toks.map .tok ++ .tok t :: rest) : Tame false t := by
  have hmem : ∀ u ∈ toks ++ [t], .tok u ∈ scan (enc cs) := by
    intro u hu
    rw [hs]
    rcases List.mem_append.1 hu with hu | hu
    · exact List.mem_append_left _ (List.mem_map_of_mem hu)
    · simp only [List.mem_singleton] at hu; subst hu; simp
  have htag : ∀ u ∈ toks ++ [t], ¬IsTag u := fun u hu => scan_tags cs h.closed u (hmem u hu)
  by_cases he : t.ty = .eof
  · unfold Tame; rw [he]; trivial
  have htext := C11_text (enc cs) t (hmem t (by simp))
  have hcol := startcol_pos hs he htag
  rcases C49_sound cs toks t rest hs (fun u hu => htag u (by simp [hu])) he with ht | ⟨after, hsrc, hl⟩
  · exact absurd ht (htag t (by simp))
  have hin : t.lexeme <:+: enc cs := ⟨source toks, after, hsrc.symm⟩
  have no : ∀ b ∈ b!"[]|^~", b ∉ t.lexeme := fun b hb hn => h.marks b hb (hin.subset hn)
  unfold Tame
  revert hl htext
  generalize t.ty = ty at *
  intro htext hl
  have bad : ∀ {b : UInt8} {P : Prop}, b ∈ b!"[]|^~" → b ∈ t.lexeme → P := fun hb hn => absurd hn (no _ hb)
  have less : ∀ {b : UInt8} {w : Str} {P : Prop}, b ∈ b!"<>0123456789" → t.lexeme = c!"<" :: b :: w → P := fun {b w P} hb e =>
    absurd (List.IsInfix.trans (by rw [e]; exact ⟨[], w, rfl⟩) hin) (h.less b hb)
  have single : ∀ {c : UInt8}, c ∈ b!"*_`+#" → Single c (source toks) t.lexeme after →
      c = c!"*" ∧ LineStart (source toks) ∧ after.head? = some c!" " ∨ c = c!"+" ∧ (source toks).getLast? = some c!" " ∧ after.head? = some 10 :=
    fun {c} hc hx => harmless_single (h.spans (source toks) c after (by rw [hsrc, hx.1]; simp) hc) hx
  have double : ∀ {c : UInt8} {P : Prop}, c ∈ b!"*_`+#" → t.lexeme = [c, c] → P := fun {c P} hc e => by
    have := h.spans (source toks) c (c :: after) (by rw [hsrc, e]; simp) hc
    rw [List.head?_cons, harmless_double hc] at this
    cases this
  cases ty
  all_goals first
    | trivial
    | exact absurd rfl he
    | rfl
    | (exfalso; exact hl)
    | skip
  case codeCallout =>
    have digit : ∀ {ds w : Str} {P : Prop}, Digits ds → t.lexeme = b!"<" ++ ds ++ b!">" ++ w → P := by
      intro ds w P hd e
      cases ds with
      | nil => exact less (b := c!">") (w := w) (by decide) (by rw [e]; rfl)
      | cons x ds =>
        refine less (b := x) (w := ds ++ b!">" ++ w) ?_ (by rw [e]; simp)
        have hx := hd x (by simp)
        have key : ∀ n ∈ List.range' 48 10, n.toUInt8 ∈ b!"<>0123456789" := by decide
        have := key x.toNat (by simp only [List.mem_range'_1]; omega)
        simpa using this
    obtain ⟨_, ⟨_, ds, hd, e⟩ | ⟨_, ds, es, hd, _, e⟩⟩ := hl
    · exact digit (w := []) hd (by rw [e]; simp)
    · exact digit (w := es ++ b!">") hd (by rw [e]; simp)
  case blockContinuation =>
    obtain ⟨h1, e, h2⟩ := hl
    have hx := h.spans (source toks) c!"+" after (by rw [hsrc, e]; simp) (by decide)
    rcases h1 with h1 | h1
    · rw [h1, h2] at hx; exact absurd hx (by decide)
    · rw [h1, h2] at hx; exact absurd hx (by decide)
  case table =>
    obtain ⟨_, e, _⟩ := hl
    exact bad (b := c!"|") (by decide) (by rw [e]; simp)
  case tableCell =>
    obtain ⟨_, ⟨body, e, _⟩, _⟩ := hl
    exact bad (b := c!"|") (by decide) (by rw [e]; simp)
  case strong =>
    rcases single (by decide) hl.1 with hx | hx
    · exact absurd hx.2 hl.2
    · exact absurd hx.1 (by decide)
  case emphasis => rcases single (by decide) hl with hx | hx <;> exact absurd hx.1 (by decide)
  case monospace => rcases single (by decide) hl.1 with hx | hx <;> exact absurd hx.1 (by decide)
  case literal =>
    rcases single (by decide) hl.1 with hx | hx
    · exact absurd hx.1 (by decide)
    · exact absurd ⟨.inr hx.2.1, hx.2.2⟩ hl.2
  case mark => rcases single (by decide) hl with hx | hx <;> exact absurd hx.1 (by decide)
  case superscript =>
    have e : t.lexeme = _ := hl
    exact bad (b := c!"^") (by decide) (by rw [e]; decide)
  case subscript =>
    have e : t.lexeme = _ := hl
    exact bad (b := c!"~") (by decide) (by rw [e]; decide)
  case footnoteMacro =>
    have e : t.lexeme = _ := hl
    exact bad (b := c!"[") (by decide) (by rw [e]; decide)
  case passthroughInlineMacro =>
    have e : t.lexeme = _ := hl
    exact bad (b := c!"[") (by decide) (by rw [e]; decide)
  case inlineMacroClose =>
    have e : t.lexeme = _ := hl
    exact bad (b := c!"]") (by decide) (by rw [e]; decide)
  case unconstrainedStrong => exact double (by decide) hl.1
  case unconstrainedEmphasis => exact double (by decide) hl.1
  case unconstrainedMonospace => exact double (by decide) hl.1
  case unconstrainedLiteral => exact double (by decide) hl.1
  case unconstrainedMark => exact double (by decide) hl.1
  case blockImageMacro =>
    obtain ⟨_, body, e, _⟩ := hl
    exact bad (b := c!"]") (by decide) (by rw [e]; simp)
  case inlineImageMacro =>
    obtain ⟨⟨body, e, _⟩, _⟩ := hl
    exact bad (b := c!"]") (by decide) (by rw [e]; simp)
  case linkMacro =>
    obtain ⟨u, e, _⟩ := hl
    exact bad (b := c!"[") (by decide) (by rw [e]; simp)
  case inlineStyle =>
    obtain ⟨⟨body, e, _⟩, _⟩ := hl
    exact bad (b := c!"[") (by decide) (by rw [e]; simp)
  case «include» =>
    obtain ⟨_, body, e, _⟩ := hl
    exact bad (b := c!"]") (by decide) (by rw [e]; simp)
  case blockAnchor =>
    obtain ⟨⟨_, _, body, e, _⟩, _⟩ := hl
    exact bad (b := c!"[") (by decide) (by rw [e]; simp)
  case elementAttributes =>
    obtain ⟨⟨_, ⟨body, e⟩, _⟩, _⟩ := hl
    exact bad (b := c!"[") (by decide) (by rw [e]; simp)
  case crossReference =>
    obtain ⟨⟨⟨body, e, _⟩, _⟩, _⟩ := hl
    exact less (b := c!"<") (w := body ++ b!">>") (by decide) (by rw [e]; simp)
  case «attribute» =>
    obtain ⟨_, _, name, value, e, hname, _⟩ := hl
    have ht : t.text = t.lexeme := htext
    refine ⟨by rw [ht, e]; simp, ?_⟩
    rw [ht, e, splitOnB_second fun hn => hname _ hn (by decide)]
    intro hx
    cases hx
    exact h.words b!"leveloffset" (by simp) (List.IsInfix.trans ⟨b!":", b!":" ++ value, by rw [e]; simp⟩ hin)
  case attributeReference =>
    obtain ⟨w, e, hw⟩ := hl
    have ht : t.text = t.lexeme := htext
    refine ⟨⟨w, by rw [ht, e], ?_⟩, hcol⟩
    intro b hb
    have hx := hw b (List.mem_of_mem_head? hb)
    have hlow : b.toNat < 128 := by
      rcases hx with hx | rfl
      · unfold Alnum at hx; omega
      · decide
    have hge : ¬(0x80 : UInt8) ≤ b := by
      rw [UInt8.le_iff_toNat_le]
      show ¬128 ≤ b.toNat
      omega
    simp [isCont, hge]

/-! ## Parsing -/

/-- Tame tokens do not ask for files. -/
theorem dispatch_world {c : Bool} {t : Token} (ht : Tame c t) (w w' : World) (f f' : Token → Parser → M Parser) (p : Parser) :
    p.dispatchToken w f t = p.dispatchToken w' f' t := by
  unfold Tame at ht
  unfold Parser.dispatchToken
  revert ht
  generalize ht : t.ty = ty
  cases ty <;> intro h <;> first | rfl | exact h.elim

theorem feed_world {c : Bool} (w w' : World) (n m : Nat) (items : List Item)
    (hi : ∀ i ∈ items, (∃ t, i = .tok t ∧ Tame c t) ∨ ∃ e, i = .err e) (p : Parser) :
    Parser.feed (Parser.tokenInto w (n + 1)) true items p = Parser.feed (Parser.tokenInto w' (m + 1)) true items p := by
  induction items generalizing p with
  | nil => rfl
  | cons i rest ih =>
    rcases hi i (by simp) with ⟨t, rfl, ht⟩ | ⟨e, rfl⟩
    · have hs : Parser.tokenInto w (n + 1) t p = Parser.tokenInto w' (m + 1) t p := by
        show Parser.step _ _ _ _ = Parser.step _ _ _ _
        unfold Parser.step
        simp only [dispatch_world ht w w' (Parser.tokenInto w n) (Parser.tokenInto w' m)]
      unfold Parser.feed
      rw [hs]
      exact bind_congr fun q => ih (fun i hi' => hi i (by simp [hi'])) _
    · rfl

/-- What comes after an error is not read. -/
theorem feed_cut (f : Token → Parser → M Parser) (l : Bool) (toks : List Token) (e : ScanError) (rest : List Item) (p : Parser) :
    Parser.feed f l (toks.map .tok ++ .err e :: rest) p = Parser.feed f l (toks.map .tok ++ [.err e]) p := by
  induction toks generalizing p with
  | nil => rfl
  | cons t toks ih =>
    simp only [List.map_cons, List.cons_append, Parser.feed]
    exact bind_congr fun q => ih _

/-- The items of an ordinary text up to the first error. -/
theorem _root_.Adoc.Spec.Ordinary.items {cs : List Char} (h : Ordinary (enc cs)) :
    ∃ items, (∀ i ∈ items, (∃ t, i = .tok t ∧ Tame false t) ∨ ∃ e, i = .err e)
      ∧ ∀ f p, Parser.feed f true (scan (enc cs)) p = Parser.feed f true items p := by
  have hf := C07_returns_partial cs h.closed
  have hcut : ∀ (l : List Item), (∀ i ∈ l, ¬Failed i) →
      (∃ toks : List Token, l = toks.map .tok) ∨ ∃ (toks : List Token) (e : ScanError) (rest : List Item), l = toks.map .tok ++ .err e :: rest := by
    intro l hl
    induction l with
    | nil => exact .inl ⟨[], rfl⟩
    | cons i l ih =>
      have hi := hl i (by simp)
      cases i with
      | tok t =>
        rcases ih (fun i hi => hl i (by simp [hi])) with ⟨toks, rfl⟩ | ⟨toks, e, rest, rfl⟩
        · exact .inl ⟨t :: toks, rfl⟩
        · exact .inr ⟨t :: toks, e, rest, rfl⟩
      | err e => exact .inr ⟨[], e, l, rfl⟩
      | panic s => exact absurd (by simp [Failed]) hi
      | hang => exact absurd (by simp [Failed]) hi
  have htame : ∀ (toks : List Token) (rest : List Item), scan (enc cs) = toks.map .tok ++ rest → ∀ t ∈ toks, Tame false t := by
    intro toks rest hs t ht
    obtain ⟨a, b, rfl⟩ := List.append_of_mem ht
    exact h.tame (toks := a) (t := t) (rest := b.map .tok ++ rest) (by rw [hs]; simp)
  rcases hcut _ hf with ⟨toks, hs⟩ | ⟨toks, e, rest, hs⟩
  · refine ⟨scan (enc cs), fun i hi => ?_, fun _ _ => rfl⟩
    rw [hs] at hi
    obtain ⟨t, ht, rfl⟩ := List.mem_map.1 hi
    exact .inl ⟨t, rfl, htame toks [] (by rw [hs]; simp) t ht⟩
  · refine ⟨toks.map .tok ++ [.err e], fun i hi => ?_, fun f p => by rw [hs]; exact feed_cut f true toks e rest p⟩
    rcases List.mem_append.1 hi with hi | hi
    · obtain ⟨t, ht, rfl⟩ := List.mem_map.1 hi
      exact .inl ⟨t, rfl, htame toks _ hs t ht⟩
    · simp only [List.mem_singleton] at hi
      exact .inr ⟨e, hi⟩

/-- No files. -/
def bare : World := ⟨fun _ _ => none, fun _ => none⟩

theorem _root_.Adoc.Spec.Ordinary.parse {cs : List Char} (h : Ordinary (enc cs)) (w : World) (fuel : Nat) (resolve : Bool) :
    Returns (Parser.parse w (fuel + 1) (scan (enc cs)) { Parser.new with resolveTargets := resolve })
    ∧ Parser.parse w (fuel + 1) (scan (enc cs)) { Parser.new with resolveTargets := resolve }
      = Parser.parse bare 1 (scan (enc cs)) { Parser.new with resolveTargets := resolve } := by
  obtain ⟨items, h1, h2⟩ := h.items
  have e : ∀ w' k, Parser.parse w' k (scan (enc cs)) { Parser.new with resolveTargets := resolve }
      = Parser.parse w' k items { Parser.new with resolveTargets := resolve } := by
    intro w' k
    unfold Parser.parse
    rw [h2]
  rw [e, e]
  refine ⟨C42_tame_partial false resolve w fuel items h1, ?_⟩
  unfold Parser.parse
  rw [feed_world w bare fuel 0 items h1]

/-! ## Runs -/

theorem _root_.Adoc.Spec.Ordinary.graph {cs : List Char} (h : Ordinary (enc cs)) (s : Cli.System) (c : Cli.Call) (hf : s.fuel ≠ 0) :
    Returns (Cli.graphOf s c (enc cs)) ∧ ∀ w' k, k ≠ 0 → Cli.graphOf s c (enc cs) = Cli.graphOf { s with world := w', fuel := k } c (enc cs) := by
  obtain ⟨n, hn⟩ : ∃ n, s.fuel = n + 1 := ⟨s.fuel - 1, by omega⟩
  have hp : (if c.noResolve then Parser.newNoTargets else Parser.new) = { Parser.new with resolveTargets := !c.noResolve } := by
    cases c.noResolve <;> rfl
  unfold Cli.graphOf
  rw [hp, hn]
  constructor
  · rcases (h.parse s.world n (!c.noResolve)).1 with ⟨q, hq⟩ | ⟨e, he⟩
    · exact .inl ⟨q.asg, by rw [hq]; rfl⟩
    · exact .inr ⟨e, by rw [he]; rfl⟩
  · intro w' k hk
    obtain ⟨m, rfl⟩ : ∃ m, k = m + 1 := ⟨k - 1, by omega⟩
    dsimp only
    rw [(h.parse s.world n _).2, (h.parse w' m _).2]

/-- **C103** (partial: for ordinary texts): a run on an ordinary text, in any order of its lines and characters, leaves its output
where it belongs, or it ends with status 1, writes nothing but an error message, and there is a cause for the error in the text. It does not
panic and does not hang. -/
theorem C103_run_partial (s : Cli.System) (c : Cli.Call) (cs : List Char) (ho : Ordinary (enc cs)) (hs : SourceOf s c (enc cs)) (hf : s.fuel ≠ 0)
    (hd : Cli.destination c.toArgs ≠ .refused) (hw : ∀ path, Cli.destination c.toArgs = .file path → s.writable path = true) :
    (∃ x, Leaves s c x)
    ∨ ∃ e, Cli.run s c = ⟨[], [], .failure⟩ ∧ Fault s.world (enc cs) e
        ∧ ∀ detail, Cli.complaint s c detail = b!"Error converting document: " ++ e.message detail ++ b!"\n" := by
  have hr := (source_iff s c _).2 hs
  obtain ⟨h1, h2⟩ := ho.graph s c hf
  rcases h1 with ⟨g, hg⟩ | ⟨e, he⟩
  · refine .inl ?_
    have hev : EveryG (· ∈ enc cs) g := by
      have h3 := h2 bare 1 (by decide)
      rw [hg] at h3
      unfold Cli.graphOf at h3
      generalize hp : (if c.noResolve = true then Parser.newNoTargets else Parser.new) = p0 at h3
      dsimp only at h3
      cases hq : Parser.parse bare 1 (scan (enc cs)) p0 with
      | error e => rw [hq] at h3; cases h3
      | ok q =>
        rw [hq] at h3
        cases h3
        exact Origin.parse_origin (w := bare) (fun b hb => hb) (fun path x hx => by cases hx)
          (by rw [← hp]; cases c.noResolve <;> simp) hq
    have hbar : ¬c!"|" ∈ enc cs := ho.marks _ (by decide)
    have hbr : ¬c!"]" ∈ enc cs := ho.marks _ (by decide)
    cases hb : c.backend with
    | htmlbook =>
      obtain ⟨page, hpage⟩ := (C65_returns_partial s.sees g).2 (griddedL_of hbar _ hev.blocks)
      exact ⟨.text page, leaves_graph hs hg hd hw (by rw [hb]; exact ⟨page, hpage, rfl⟩)⟩
    | json => exact ⟨_, leaves_graph hs hg hd hw (x := .text (jsonText s.ord g)) (by rw [hb]; rfl)⟩
    | docx =>
      obtain ⟨d, hdoc⟩ := C58_returns s.pictures g (fineL_of hbar (fun h => hbr (h _ (by decide))) _ hev.blocks)
      exact ⟨.word d, leaves_graph hs hg hd hw (by rw [hb]; exact ⟨d, hdoc, rfl⟩)⟩
  · refine .inr ⟨e, ?_, ?_, fun detail => ?_⟩
    · unfold Cli.run
      rw [hr]
      dsimp only
      rw [he]
      rfl
    · unfold Cli.graphOf at he
      generalize hp : (if c.noResolve = true then Parser.newNoTargets else Parser.new) = p0 at he
      cases hq : Parser.parse s.world s.fuel (scan (enc cs)) p0 with
      | error e' =>
        rw [hq] at he
        cases he
        exact C98_fault _ _ _ _ _ (by rw [← hp]; cases c.noResolve <;> simp) hq
      | ok q => rw [hq] at he; cases he
    · unfold Cli.complaint
      rw [hr]
      dsimp only
      rw [he]

/-- The other files do not matter for an ordinary text. -/
theorem C103_files_partial (s : Cli.System) (c : Cli.Call) (cs : List Char) (ho : Ordinary (enc cs)) (hs : SourceOf s c (enc cs)) (hf : s.fuel ≠ 0)
    (w : World) : Cli.run { s with world := w } c = Cli.run s c := by
  have h : Cli.graphOf s c (enc cs) = Cli.graphOf { s with world := w } c (enc cs) := (ho.graph s c hf).2 w s.fuel hf
  unfold Cli.run
  rw [(source_iff s c _).2 hs, (source_iff { s with world := w } c _).2 hs]
  dsimp only
  rw [← h]
  cases Cli.graphOf s c (enc cs) with
  | error e => rfl
  | ok g => rfl

/-- Are the marks of spans harmless in this text after this character? -/
def harmlessIn : Option UInt8 → Str → Bool
  | _, [] => true
  | prev, c :: q => (!b!"*_`+#".elem c || harmless c prev q.head?) && harmlessIn (some c) q

theorem harmlessIn_spec (src : Str) : ∀ (prev : Option UInt8), harmlessIn prev src = true → ∀ p c q, src = p ++ c :: q → c ∈ b!"*_`+#" →
    harmless c (p.getLast?.or prev) q.head? = true := by
  induction src with
  | nil => intro prev _ p c q h; simp at h
  | cons x src ih =>
    intro prev h p c q hp hc
    simp only [harmlessIn, Bool.and_eq_true] at h
    cases p with
    | nil =>
      cases hp
      rcases Bool.or_eq_true _ _ ▸ h.1 with h' | h'
      · simp only [Bool.not_eq_true', List.elem_eq_mem, decide_eq_false_iff_not] at h'
        exact absurd hc h'
      · exact h'
    | cons y p =>
      cases hp
      have := ih (some x) h.2 p c q rfl hc
      cases hp : p.getLast? with
      | none =>
        rw [hp] at this
        rw [List.getLast?_eq_none_iff.1 hp]
        exact this
      | some z =>
        rw [hp] at this
        rw [List.getLast?_cons, hp]
        exact this

/-- A text of ASCII. -/
theorem ordinary_ascii {src : Str} (ha : ∀ b ∈ src, b.toNat < 128) (hl : src.getLast? = some 10) (hm : ∀ b ∈ b!"[]|^~", b ∉ src)
    (hs : harmlessIn none src = true) (hg : ∀ b ∈ b!"<>0123456789", ¬[c!"<", b] <:+: src)
    (hw : ∀ w ∈ [b!"image:", b!"include::", b!"tag::", b!"end::", b!"leveloffset"], ¬w <:+: src) : Ordinary src where
  last := hl
  marks := hm
  spans p c q h hc := by simpa using harmlessIn_spec src none hs p c q h hc
  less := hg
  words := hw
  equals p b q h := ha b (by rw [h]; simp)
  links p q h p' x q' h' _ := ha x (by rw [h, List.append_assoc, h']; simp)

/-- A text that meets the hypotheses, with headings, lists, a description, a listing that is not closed, a reference, a link, marks that are
text, and a tag. -/
theorem C103_sample :
    Ordinary b!"= T: u\n:v: w\n\n. a\n. b\nc:: d\n\nNOTE: e {v} &amp; (C) -- f\n====\n== g\n\nhttp://h.i/ 'j' \"k\"\n----\n\n. l\n"
    ∧ Ordinary b!"* a_b\n* 2 * 3 + 4 < 5 # <b>\n\nx +\ny <- z\n" :=
  ⟨ordinary_ascii (by decide) (by decide) (by decide) (by decide) (by decide) (by decide),
    ordinary_ascii (by decide) (by decide) (by decide) (by decide) (by decide) (by decide)⟩

/-- Three more: two that have graphs and one that has an error. -/
theorem C103_outcomes :
    Ordinary b!"== a: b\n\n====\n. c\n"
    ∧ returns ((parseText emptyWorld 3 b!"== a: b\n\n====\n. c\n").map fun g => sketchBs g.blocks) b!"section(a: b)[example[list[item()[(c)]]]]" = true
    ∧ Ordinary b!"* a_b\n* 2 * 3\n\nx +\ny < z\n"
    ∧ returns ((parseText emptyWorld 3 b!"* a_b\n* 2 * 3\n\nx +\ny < z\n").map fun g => sketchBs g.blocks) b!"list[item(a_b)[] item(2 * 3)[]] (x |break|\ny < z)" = true
    ∧ Ordinary b!"a\n= b\n" ∧ errs (parseText emptyWorld 3 b!"a\n= b\n") (.topLevelHeading 2) = true :=
  ⟨ordinary_ascii (by decide) (by decide) (by decide) (by decide) (by decide) (by decide), by decide +kernel,
    ordinary_ascii (by decide) (by decide) (by decide) (by decide) (by decide) (by decide), by decide +kernel,
    ordinary_ascii (by decide) (by decide) (by decide) (by decide) (by decide) (by decide), by decide +kernel⟩

/-- Does it panic or hang? -/
def crashes {α : Type} : M α → Bool
  | .error (.panic _) => true
  | .error .hang => true
  | _ => false

/-- Each of the conditions is there for a reason: without it there are texts on which the program panics or hangs. One text for each
mark (one for `^` and `~` together, two for `<`), for a character after an equals sign, for one in a link, for each of the words and for the newline
at the end. -/
theorem C103_needed : ∀ src ∈ [b!"[[]\na\n", b!"|é\n", b!"a **b *\n", b!"a __b _\n", b!"a ``b `\n", b!"a +b ++\n", b!"a #b ##\n", b!"<<é>>\n", b!":icons: true\n\na <1>\n",
    b!"a ^b ~\n", b!"=é\n", b!"http://aé\n", b!"image:a\n", b!"include::a\n", b!"tag::a\n", b!"end::a\n", b!":leveloffset: 127\n\n== a\n", b!"AT&T"],
    crashes (parseText emptyWorld 3 src) = true := by
  intro src h
  simp only [List.mem_cons, List.not_mem_nil, or_false] at h
  rcases h with rfl | rfl | rfl | rfl | rfl | rfl | rfl | rfl | rfl | rfl | rfl | rfl | rfl | rfl | rfl | rfl | rfl | rfl <;> decide +kernel

end Adoc.Props
