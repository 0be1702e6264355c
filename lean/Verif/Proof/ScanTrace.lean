import Verif.Proof.Scan
/-! # Facts about single calls of `next` and about runs -/
namespace Adoc.Scanner

/-- Facts about a call that returns a token which is neither an include tag nor the end of input. -/
structure Plain (s : Scanner) (t : Token) (s' : Scanner) : Prop where
  lt : s.current < s'.current
  le : s'.current ≤ s.src.length
  bstart : isBoundary s.src s.current = true
  bend : isBoundary s.src s'.current = true
  lex : t.lexeme = (s.src.drop s.current).take (s'.current - s.current)
  src : s'.src = s.src
  fs : s'.fileStack = s.fileStack
  tfs : t.fileStack = s.fileStack
  scanning : s'.scanning = s.scanning
  expecting : s'.expectingTagEnd = s.expectingTagEnd
  line : t.line = s.line
  startcol : t.startcol = s.startcol
  endcol : t.endcol + 1 = s.startcol + t.lexeme.length
  nl : t.ty = .newLineChar → t.lexeme = [10] ∧ s'.line = s.line + 1 ∧ s'.startcol = 1
  notnl : t.ty ≠ .newLineChar → s'.line = s.line ∧ s'.startcol = s.startcol + t.lexeme.length
  noteof : t.ty ≠ .eof
  lit : t.lit = none ∨ t.lit = some t.lexeme ∨ (t.ty = .charRef ∧ t.lit = Token.charRefLiteral t.lexeme)

theorem validate_lexeme (t : Token) : t.validate.lexeme = t.lexeme := by
  unfold Token.validate; repeat' split
  all_goals rfl
theorem validate_line (t : Token) : t.validate.line = t.line := by
  unfold Token.validate; repeat' split
  all_goals rfl
theorem validate_startcol (t : Token) : t.validate.startcol = t.startcol := by
  unfold Token.validate; repeat' split
  all_goals rfl
theorem validate_endcol (t : Token) : t.validate.endcol = t.endcol := by
  unfold Token.validate; repeat' split
  all_goals rfl
theorem validate_fs (t : Token) : t.validate.fileStack = t.fileStack := by
  unfold Token.validate; repeat' split
  all_goals rfl
theorem validate_ty (t : Token) : t.validate.ty = t.ty ∨ (t.validate.ty = .text
    ∧ (t.ty = .blockAnchor ∨ t.ty = .crossReference)) := by
  unfold Token.validate
  split
  · split
    · right; simp_all
    · left; rfl
  · split
    · right; simp_all
    · left; rfl
  · split <;> simp
  · left; rfl
theorem validate_lit (t : Token) (b : Bool) (h : t.lit = if b then some t.lexeme else none) :
    t.validate.lit = none ∨ t.validate.lit = some t.validate.lexeme
      ∨ (t.validate.ty = .charRef ∧ t.validate.lit = Token.charRefLiteral t.validate.lexeme) := by
  have h' : t.lit = none ∨ t.lit = some t.lexeme := by cases b <;> simp_all
  unfold Token.validate
  split
  · split <;> (rcases h' with h' | h' <;> simp [h'])
  · split <;> (rcases h' with h' | h' <;> simp [h'])
  · split
    · rename_i l hl
      right; right; exact ⟨by assumption, hl.symm⟩
    · rcases h' with h' | h' <;> simp [h']
  · rcases h' with h' | h' <;> simp [h']

theorem slice_some {src : Str} {i j : Nat} {t : Str} (h : slice src i j = some t) :
    i ≤ j ∧ j ≤ src.length ∧ isBoundary src i = true ∧ isBoundary src j = true
      ∧ t = (src.drop i).take (j - i) := by
  unfold slice at h
  split at h
  · rename_i hc; simp only [Option.some.injEq] at h; exact ⟨hc.1, hc.2.1, hc.2.2.1, hc.2.2.2, h.symm⟩
  · cases h

theorem take_length {src : Str} {i j : Nat} (h : j ≤ src.length) :
    ((src.drop i).take (j - i)).length = j - i := by
  simp; omega

/-- `addToken` outcomes. -/
theorem addToken_panic_or (s : Scanner) (ty : TokenType) (lit : Bool) (a : Nat) :
    (∃ p s', addToken s ty lit a = (.panic p, s')) ∨
    (∃ text, slice s.src s.start s.current = some text ∧
      (addToken s ty lit a).1 = .tok (Token.validate ⟨ty, text, if lit then some text else none, s.line,
        s.startcol, s.startcol + text.length - 1, s.fileStack⟩) ∧
      (addToken s ty lit a).2 = if a ≠ 0 then { s with line := s.line + a, startcol := 1 }
        else { s with startcol := s.startcol + text.length }) := by
  unfold addToken
  split
  · left; exact ⟨_, _, rfl⟩
  · rename_i text ht
    right
    refine ⟨text, ht, ?_, ?_⟩
    · dsimp only; split <;> rfl
    · dsimp only; split <;> rfl

theorem Plain.of_addToken {s : Scanner} {e : Nat} {ty : TokenType} {lit : Bool} {a : Nat} {t : Token}
    {s' : Scanner} (he : s.current < e) (hty : ty ≠ .eof)
    (hnl : (a = 0 ∧ ty ≠ .newLineChar) ∨ (a = 1 ∧ ty = .newLineChar ∧ e = s.current + 1 ∧ s.src.getD s.current 0 = 10))
    (h : addToken { s with start := s.current, current := e } ty lit a = (.tok t, s')) : Plain s t s' := by
  rcases addToken_panic_or { s with start := s.current, current := e } ty lit a with ⟨p, s1, h1⟩ | ⟨text, hs, h1, h2⟩
  · rw [h1] at h; cases h
  rw [h] at h1 h2
  simp only [Item.tok.injEq] at h1
  dsimp only at h2
  obtain ⟨_, hle, hb1, hb2, htext⟩ := slice_some hs
  dsimp only at hle hb1 hb2 htext
  have hlen : text.length = e - s.current := by rw [htext]; exact take_length hle
  have htl : t.lexeme = text := by rw [h1, validate_lexeme]
  have htt := validate_ty ⟨ty, text, if lit then some text else none, s.line,
        s.startcol, s.startcol + text.length - 1, s.fileStack⟩
  have hcur : s'.current = e := by rw [h2]; split <;> rfl
  have htext' : t.ty = ty ∨ (t.ty = .text ∧ ty ≠ .newLineChar) := by
    rw [h1]; rcases htt with h | ⟨h, h'⟩
    · left; exact h
    · right; refine ⟨h, ?_⟩; dsimp only at h'; rcases h' with h' | h' <;> rw [h'] <;> decide
  exact {
    lt := by omega
    le := by omega
    bstart := hb1
    bend := by rw [hcur]; exact hb2
    lex := by rw [htl, hcur]; exact htext
    src := by rw [h2]; split <;> rfl
    fs := by rw [h2]; split <;> rfl
    tfs := by rw [h1, validate_fs]
    scanning := by rw [h2]; split <;> rfl
    expecting := by rw [h2]; split <;> rfl
    line := by rw [h1, validate_line]
    startcol := by rw [h1, validate_startcol]
    endcol := by rw [htl, h1, validate_endcol]; dsimp only; omega
    nl := by
      intro hn
      rcases hnl with ⟨ha, hb⟩ | ⟨ha, hb, hc, hd⟩
      · rcases htext' with h | h
        · rw [h] at hn; exact absurd hn hb
        · rw [h.1] at hn; cases hn
      · subst ha
        refine ⟨?_, ?_, ?_⟩
        · rw [htl, htext, hc, Nat.add_sub_cancel_left]
          have hlt : s.current < s.src.length := by omega
          rw [List.drop_eq_getElem_cons hlt]
          simp only [List.take_succ_cons, List.take_zero, List.cons.injEq, and_true]
          rw [List.getD_eq_getElem?_getD, List.getElem?_eq_getElem hlt] at hd
          simpa using hd
        · rw [h2]; rfl
        · rw [h2]; rfl
    notnl := by
      intro hn
      rcases hnl with ⟨ha, hb⟩ | ⟨ha, hb, hc, hd⟩
      · subst ha; rw [h2, htl]; exact ⟨rfl, rfl⟩
      · exfalso; rcases htext' with h | h
        · rw [h] at hn; exact hn hb
        · exact h.2 hb
    noteof := by
      rcases htext' with h | h
      · rw [h]; exact hty
      · rw [h.1]; decide
    lit := by rw [h1]; exact validate_lit _ lit rfl }

/-- Facts about a call that returns an include tag token. -/
structure Tag (s : Scanner) (t : Token) (s' : Scanner) : Prop where
  lt : s.current < s'.current
  src : s'.src = s.src
  fs : s'.fileStack = s.fileStack
  tfs : t.fileStack = s.fileStack
  scanning : s'.scanning = s.scanning
  line : t.line = s.line
  line' : s'.line = s.line + 1
  ty : (t.ty = .startTag ∧ s'.expectingTagEnd = true) ∨ (t.ty = .endTag ∧ s'.expectingTagEnd = false)
  lit : t.lit = some t.lexeme
  lex : ∃ i j, s.current ≤ i ∧ i < j ∧ j ≤ s.src.length ∧ isBoundary s.src i = true ∧ isBoundary s.src j = true
    ∧ t.lexeme = (s.src.drop i).take (j - i)
  bend : isBoundary s.src s'.current = true ∨ s'.current < s.src.length

theorem validate_tag (t : Token) (h : t.ty = .startTag ∨ t.ty = .endTag) : t.validate = t := by
  unfold Token.validate
  rcases h with h | h <;> rw [h]

theorem isBoundary_length (src : Str) : isBoundary src src.length = true := by
  unfold isBoundary; split
  · rfl
  · simp

theorem skipLine_facts (s : Scanner) :
    s.current ≤ (skipLine s).current ∧ (skipLine s).src = s.src ∧ (skipLine s).fileStack = s.fileStack
    ∧ (skipLine s).scanning = s.scanning ∧ (skipLine s).line = s.line
    ∧ (skipLine s).expectingTagEnd = s.expectingTagEnd
    ∧ (s.current ≤ s.src.length → isBoundary s.src (skipLine s).current = true ∨ (skipLine s).current < s.src.length) := by
  have h1 := adv_ge s.src (· ≠ c!"\n") s.current
  unfold skipLine
  dsimp only
  refine ⟨by split <;> omega, rfl, rfl, rfl, rfl, rfl, ?_⟩
  intro hle
  have h2 := adv_le s.src (· ≠ c!"\n") s.current hle
  generalize adv s.src (· ≠ c!"\n") s.current = j at *
  split
  · rename_i hp
    by_cases hj : j + 1 < s.src.length
    · right; exact hj
    · by_cases hj' : j < s.src.length
      · left; have : j + 1 = s.src.length := by omega
        rw [this]; exact isBoundary_length _
      · exfalso
        have : j = s.src.length := by omega
        subst this
        simp [peekAt, isBoundary_length] at hp
  · by_cases hj' : j < s.src.length
    · right; exact hj'
    · left; have : j = s.src.length := by omega
      rw [this]; exact isBoundary_length _

theorem tagStart_facts {s s1 : Scanner} (h : tagStart s = some s1) :
    s.current ≤ s1.current ∧ s1.src = s.src ∧ s1.fileStack = s.fileStack ∧ s1.scanning = s.scanning
    ∧ s1.line = s.line ∧ (s.start ≤ s.current → s.start ≤ s1.start ∧ s1.start ≤ s1.current)
    ∧ s1.expectingTagEnd = s.expectingTagEnd := by
  unfold tagStart at h
  split at h
  · dsimp only at h
    split at h
    · cases h
    · cases h
      have := adv_ge s.src (· ≠ c!"e") s.current
      exact ⟨this, rfl, rfl, rfl, rfl, fun hh => ⟨by dsimp only; omega, by dsimp only; omega⟩, rfl⟩
  · cases h; exact ⟨Nat.le_refl _, rfl, rfl, rfl, rfl, fun hh => ⟨Nat.le_refl _, hh⟩, rfl⟩

theorem tag_of_addToken {s0 s2 : Scanner} {ty : TokenType} {t : Token} {s' : Scanner} {text : Str} {b : Bool}
    (hst : s0.current ≤ s2.start) (hlt : s2.start < s2.current) (hsrc : s2.src = s0.src)
    (hfs : s2.fileStack = s0.fileStack) (hsc : s2.scanning = s0.scanning) (hl : s2.line = s0.line)
    (hs : slice s2.src s2.start s2.current = some text)
    (hty : (ty = .startTag ∧ b = true) ∨ (ty = .endTag ∧ b = false))
    (h : ((addToken { s2 with expectingTagEnd := b } ty true 1).1,
        skipLine (addToken { s2 with expectingTagEnd := b } ty true 1).2) = (.tok t, s')) :
    Tag s0 t s' := by
  simp only [Prod.mk.injEq] at h
  obtain ⟨h1, h2⟩ := h
  rcases addToken_panic_or { s2 with expectingTagEnd := b } ty true 1 with ⟨p, s1, h3⟩ | ⟨text', hs', h3, h4⟩
  · rw [h3] at h1; cases h1
  have htt : text' = text := by rw [hs] at hs'; cases hs'; rfl
  subst htt
  rw [h1] at h3
  simp only [Item.tok.injEq] at h3
  rw [validate_tag _ (by rcases hty with h | h; exact .inl h.1; exact .inr h.1)] at h3
  rw [h4] at h2
  obtain ⟨k1, k2, k3, k4, k5, k6, k7⟩ := skipLine_facts
    { { s2 with expectingTagEnd := b } with line := s2.line + 1, startcol := 1 }
  simp only [ne_eq, Nat.one_ne_zero, not_false_eq_true, if_true] at h2
  rw [h2] at k1 k2 k3 k4 k5 k6 k7
  dsimp only at k1 k2 k3 k4 k5 k6 k7
  obtain ⟨hh1, hh2, hh3, hh4, hh5⟩ := slice_some hs
  exact {
    lt := by omega
    src := by rw [k2, hsrc]
    fs := by rw [k3, hfs]
    tfs := by rw [h3]; exact hfs
    scanning := by rw [k4, hsc]
    line := by rw [h3]; exact hl
    line' := by rw [k5, hl]
    ty := by rw [h3, k6]; exact hty
    lit := by rw [h3]; rfl
    lex := by
      refine ⟨s2.start, s2.current, hst, hlt, by rw [← hsrc]; exact hh2, by rw [← hsrc]; exact hh3, by rw [← hsrc]; exact hh4, ?_⟩
      rw [h3, ← hsrc]; exact hh5
    bend := by rw [← hsrc]; exact k7 hh2 }

theorem Tag.of_addTag {s : Scanner} {t : Token} {s' : Scanner}
    (h : addTag { s with start := s.current, current := s.current + 1 } = (.tok t, s')) : Tag s t s' := by
  unfold addTag at h
  split at h
  · cases h
  rename_i s1 h1
  obtain ⟨a1, a2, a3, a4, a5, a6, a9⟩ := tagStart_facts h1
  dsimp only at a1 a2 a3 a4 a5 a6 a9
  have a7 := a6 (by omega)
  have a8 := adv_ge s1.src (· ≠ c!"]") s1.current
  dsimp only at h
  split at h
  · cases h
  rename_i text ht
  split at h
  · exact tag_of_addToken (s2 := { s1 with current := adv s1.src (· ≠ c!"]") s1.current + 1 })
      (by dsimp only; omega) (by dsimp only; omega) a2 a3 a4 a5 ht (.inl ⟨rfl, rfl⟩) h
  split at h
  · exact tag_of_addToken (s2 := { s1 with current := adv s1.src (· ≠ c!"]") s1.current + 1 })
      (by dsimp only; omega) (by dsimp only; omega) a2 a3 a4 a5 ht (.inr ⟨rfl, rfl⟩) h
  · cases h

/-- Facts about a call that returns an error item. -/
structure Erred (s s' : Scanner) : Prop where
  lt : s.current < s'.current
  src : s'.src = s.src
  fs : s'.fileStack = s.fileStack
  scanning : s'.scanning = s.scanning
  line : s'.line = s.line
  expecting : s'.expectingTagEnd = s.expectingTagEnd

theorem Erred.of_addTag {s : Scanner} {x : ScanError} {s' : Scanner}
    (h : addTag { s with start := s.current, current := s.current + 1 } = (.err x, s')) : Erred s s' := by
  have nt : ∀ (s : Scanner) ty (r : Scanner), ((addToken s ty true 1).1, r) ≠ (.err x, s') := by
    intro s ty r hh
    rcases addToken_panic_or s ty true 1 with ⟨p, s1, h3⟩ | ⟨text', hs', h3, h4⟩
    · rw [h3] at hh; cases hh
    · rw [h3] at hh; cases hh
  unfold addTag at h
  split at h
  · cases h
  rename_i s1 h1
  obtain ⟨a1, a2, a3, a4, a5, a6, a9⟩ := tagStart_facts h1
  dsimp only at a1 a2 a3 a4 a5 a6 a9
  have a7 := a6 (by omega)
  have a8 := adv_ge s1.src (· ≠ c!"]") s1.current
  dsimp only at h
  split at h
  · cases h
  split at h
  · exact absurd h (nt _ _ _)
  split at h
  · exact absurd h (nt _ _ _)
  · cases h
    exact ⟨by dsimp only; omega, a2, a3, a4, a5, a9⟩

theorem Ok.ty {s : Scanner} {e : Nat} {ty : TokenType} (h : Ok s e ty) :
    ty ≠ .eof ∧ ty ≠ .startTag ∧ ty ≠ .endTag ∧ ty ≠ .newLineChar := by
  cases h with
  | simple h => refine ⟨?_, ?_, ?_, ?_⟩ <;> (intro h'; subst h'; cases h)
  | delim c hc hn he hr hty =>
    unfold TokenType.blockFromChar at hty
    repeat' split at hty
    all_goals first | (cases hty; decide) | cases hty
  | heading n hc hn he he' hty =>
    unfold headingOf at hty
    split at hty
    all_goals first | (cases hty; decide) | cases hty

/-- What a call of `next` that yields an item can do. -/
inductive NextSpec (s : Scanner) : Item → Scanner → Prop where
  | eof (h : s.src.length ≤ s.current) (hs : s.scanning = true) :
      NextSpec s (.tok (Token.final s.line s.fileStack)) { s with scanning := false }
  | plain (t : Token) (s' : Scanner) (hlt : s.current < s.src.length) (h : Plain s t s')
      (hty : t.ty ≠ .startTag ∧ t.ty ≠ .endTag) : NextSpec s (.tok t) s'
  | tag (t : Token) (s' : Scanner) (hlt : s.current < s.src.length) (h : Tag s t s') : NextSpec s (.tok t) s'
  | err (x : ScanError) (s' : Scanner) (hlt : s.current < s.src.length) (h : Erred s s') : NextSpec s (.err x) s'
  | panic (p : Site) (s' : Scanner) (hlt : s.current < s.src.length) : NextSpec s (.panic p) s'
  | hang (s' : Scanner) (hlt : s.current < s.src.length) : NextSpec s .hang s'

theorem plain_ty_of_addToken {s : Scanner} {ty : TokenType} {lit : Bool} {a : Nat} {t : Token}
    {s' : Scanner} (hty : ty ≠ .startTag ∧ ty ≠ .endTag)
    (h : addToken s ty lit a = (.tok t, s')) : t.ty ≠ .startTag ∧ t.ty ≠ .endTag := by
  rcases addToken_panic_or s ty lit a with ⟨p, s1, h1⟩ | ⟨text, hs, h1, h2⟩
  · rw [h1] at h; cases h
  rw [h] at h1
  simp only [Item.tok.injEq] at h1
  rcases validate_ty ⟨ty, text, if lit then some text else none, s.line,
        s.startcol, s.startcol + text.length - 1, s.fileStack⟩ with h | h
  · rw [h1, h]; exact hty
  · rw [h1, h.1]; exact ⟨by decide, by decide⟩

theorem next_spec {s s' : Scanner} {it : Item} (h : s.next = some (it, s')) : NextSpec s it s' := by
  unfold next at h
  split at h
  · rename_i he
    split at h
    · rename_i hsc; cases h; exact .eof (by simpa [isAtEnd] using he) hsc
    · cases h
  · rename_i he
    have hlt : s.current < s.src.length := by simpa [isAtEnd] using he
    simp only [Option.some.injEq] at h
    have hst := step_scanToken { s with start := s.current } rfl
    generalize hr : scanToken { s with start := s.current } = r at hst h
    cases hst with
    | tok e ty lit hlt' hty =>
      rcases addToken_panic_or { s with start := s.current, current := e } ty lit 0 with ⟨p, s1, h1⟩ | ⟨text, _, h1, h2⟩
      · rw [h1] at h; cases h; exact .panic _ _ hlt
      · rw [h] at h1; subst h1
        replace hty := hty.ty
        exact .plain _ _ hlt (Plain.of_addToken hlt' hty.1 (.inl ⟨rfl, hty.2.2.2⟩) h)
          (plain_ty_of_addToken ⟨hty.2.1, hty.2.2.1⟩ h)
    | nl hc =>
      rcases addToken_panic_or { s with start := s.current, current := s.current + 1 } .newLineChar false 1 with ⟨p, s1, h1⟩ | ⟨text, _, h1, h2⟩
      · rw [h1] at h; cases h; exact .panic _ _ hlt
      · rw [h] at h1; subst h1
        exact .plain _ _ hlt (Plain.of_addToken (Nat.lt_succ_self _) (by decide) (.inr ⟨rfl, rfl, rfl, hc⟩) h)
          (plain_ty_of_addToken (by decide) h)
    | tag =>
      cases it with
      | tok t => exact .tag _ _ hlt (Tag.of_addTag h)
      | err x => exact .err _ _ hlt (Erred.of_addTag h)
      | panic p => exact .panic _ _ hlt
      | hang => exact .hang _ hlt
    | err x e he => cases h; exact .err _ _ hlt ⟨he, rfl, rfl, rfl, rfl, rfl⟩
    | panic p s1 => cases h; exact .panic _ _ hlt
    | hang s1 => cases h; exact .hang _ hlt

/-- `Item`s after which iteration goes on. -/
def _root_.Adoc.Item.returned : Item → Bool
  | .tok _ => true
  | .err _ => true
  | .panic _ => false
  | .hang => false

/-- Successive calls of `next` from `s` return the given items and leave the scanner in `s'`. -/
inductive Trace : Scanner → List Item → Scanner → Prop where
  | nil (s : Scanner) : Trace s [] s
  | cons {s s1 s' : Scanner} {it : Item} {its : List Item} (h : s.next = some (it, s1))
      (hr : it.returned = true) (ht : Trace s1 its s') : Trace s (it :: its) s'

theorem runF_succ (n : Nat) (s : Scanner) : runF (n + 1) s = match s.next with
    | none => []
    | some (it, s') => it :: if it.returned then runF n s' else [] := by
  rw [runF]
  cases h : s.next with
  | none => rfl
  | some p => obtain ⟨it, s'⟩ := p; cases it <;> rfl

/-- Every prefix of a run is a trace. -/
theorem trace_of_runF {n : Nat} {s : Scanner} {pre rest : List Item} (h : runF n s = pre ++ rest)
    (hp : ∀ it ∈ pre, it.returned = true) : ∃ s', Trace s pre s' ∧ runF (n - pre.length) s' = rest := by
  induction pre generalizing n s with
  | nil => exact ⟨s, .nil s, by simpa using h⟩
  | cons it pre ih =>
    cases n with
    | zero => simp [runF] at h
    | succ n =>
      rw [runF_succ] at h
      cases hn : s.next with
      | none => rw [hn] at h; cases h
      | some p =>
        obtain ⟨it', s1⟩ := p
        rw [hn] at h
        simp only [List.cons_append, List.cons.injEq] at h
        obtain ⟨h1, h2⟩ := h
        subst h1
        have hr : it'.returned = true := hp _ (List.mem_cons_self ..)
        rw [if_pos hr] at h2
        obtain ⟨s', ht, hr'⟩ := ih h2 (fun i hi => hp i (List.mem_cons_of_mem _ hi))
        exact ⟨s', .cons hn hr ht, by simpa using hr'⟩

/-- Only the last item of a run can fail to return. -/
theorem returned_of_runF {n : Nat} {s : Scanner} {pre rest : List Item} (h : runF n s = pre ++ rest)
    (hr : rest ≠ []) : ∀ it ∈ pre, it.returned = true := by
  induction pre generalizing n s with
  | nil => simp
  | cons it pre ih =>
    cases n with
    | zero => simp [runF] at h
    | succ n =>
      rw [runF_succ] at h
      cases hn : s.next with
      | none => rw [hn] at h; cases h
      | some p =>
        obtain ⟨it', s1⟩ := p
        rw [hn] at h
        simp only [List.cons_append, List.cons.injEq] at h
        obtain ⟨h1, h2⟩ := h
        subst h1
        split at h2
        · rename_i hret
          intro i hi
          rcases List.mem_cons.1 hi with hi | hi
          · subst hi; exact hret
          · exact ih h2 i hi
        · exact absurd (List.append_eq_nil_iff.1 h2.symm).2 hr

theorem trace_append {s s1 s2 : Scanner} {a b : List Item} (h1 : Trace s a s1) (h2 : Trace s1 b s2) :
    Trace s (a ++ b) s2 := by
  induction h1 with
  | nil => exact h2
  | cons h hr _ ih => exact .cons h hr (ih h2)

theorem next_src {s s' : Scanner} {it : Item} (h : s.next = some (it, s')) (hr : it.returned = true) :
    s'.src = s.src ∧ s'.fileStack = s.fileStack ∧ s.current ≤ s'.current ∧ s.line ≤ s'.line := by
  cases next_spec h with
  | eof => exact ⟨rfl, rfl, Nat.le_refl _, Nat.le_refl _⟩
  | plain t _ _ hp =>
    refine ⟨hp.src, hp.fs, Nat.le_of_lt hp.lt, ?_⟩
    by_cases hn : t.ty = .newLineChar
    · have := hp.nl hn; omega
    · have := hp.notnl hn; omega
  | tag t _ _ ht => exact ⟨ht.src, ht.fs, Nat.le_of_lt ht.lt, by have := ht.line'; omega⟩
  | err x _ _ he => exact ⟨he.src, he.fs, Nat.le_of_lt he.lt, by rw [he.line]; exact Nat.le_refl _⟩
  | panic => cases hr
  | hang => cases hr

theorem trace_src {s s' : Scanner} {its : List Item} (h : Trace s its s') :
    s'.src = s.src ∧ s'.fileStack = s.fileStack ∧ s.current ≤ s'.current ∧ s.line ≤ s'.line := by
  induction h with
  | nil => exact ⟨rfl, rfl, Nat.le_refl _, Nat.le_refl _⟩
  | cons h hr _ ih =>
    obtain ⟨a, b, c, d⟩ := next_src h hr
    obtain ⟨a', b', c', d'⟩ := ih
    exact ⟨a'.trans a, b'.trans b, Nat.le_trans c c', Nat.le_trans d d'⟩

end Adoc.Scanner
