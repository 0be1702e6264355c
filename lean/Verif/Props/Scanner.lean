import Verif.Proof.ScanTrace
/-!
# Properties of the scanner: C01, C02, C03, C04, C05, C11

`scan src` is the list of everything that iterating `Scanner::new(src)` gives. An item is a token, an error
value, or a marker that the call panicked or never returned.
-/
namespace Adoc.Props
open Adoc Scanner

/-- Include-tag tokens (`tag::x[]`, `end::x[]`). -/
def IsTag (t : Token) : Prop := t.ty = .startTag ∨ t.ty = .endTag

/-- The token of an item, if it is one. -/
def _root_.Adoc.Item.tok? : Item → Option Token
  | .tok t => some t
  | _ => none

/-- The end-of-input token. -/
def IsEof (it : Item) : Prop := ∃ t, it = .tok t ∧ t.ty = .eof

/-- The call panicked or never returned. -/
def Failed (it : Item) : Prop := it = .hang ∨ ∃ p, it = .panic p

theorem failed_iff (it : Item) : Failed it ↔ it.returned = false := by
  cases it <;> simp [Failed, Item.returned]

/-! ## C03: progress -/

theorem run_shape (n : Nat) (s : Scanner) (hs : s.scanning = true) (hn : s.src.length - s.current + 1 ≤ n) :
    ∃ pre x, runF n s = pre ++ [x] ∧ (∀ it ∈ pre, ¬IsEof it ∧ ¬Failed it) ∧ (IsEof x ∨ Failed x)
      ∧ pre.length ≤ s.src.length - s.current ∧ ∀ m, n ≤ m → runF m s = runF n s := by
  induction n generalizing s with
  | zero => omega
  | succ n ih =>
    have step : ∀ it s', s.next = some (it, s') → s'.src = s.src → s'.scanning = s.scanning →
        s.current < s.src.length → s.current < s'.current → it.returned = true → ¬ IsEof it →
        ∃ pre x, runF (n + 1) s = pre ++ [x] ∧ (∀ it ∈ pre, ¬IsEof it ∧ ¬Failed it) ∧ (IsEof x ∨ Failed x)
          ∧ pre.length ≤ s.src.length - s.current ∧ ∀ m, n + 1 ≤ m → runF m s = runF (n + 1) s := by
      intro it s' hn' hsrc hsc hlt hlt' hret heof
      obtain ⟨pre, x, h1, h2, h3, h4, h5⟩ := ih s' (by rw [hsc, hs]) (by rw [hsrc]; omega)
      refine ⟨it :: pre, x, ?_, ?_, h3, ?_, ?_⟩
      · rw [runF_succ, hn']; simp only [hret, if_true, h1, List.cons_append]
      · intro i hi
        rcases List.mem_cons.1 hi with hi | hi
        · subst hi; exact ⟨heof, by rw [failed_iff]; simp [hret]⟩
        · exact h2 i hi
      · rw [hsrc] at h4; simp only [List.length_cons]; omega
      · intro m hm
        obtain ⟨m, rfl⟩ : ∃ k, m = k + 1 := ⟨m - 1, by omega⟩
        rw [runF_succ, runF_succ, hn']; simp only [hret, if_true, h5 m (by omega)]
    have stop : ∀ it s', s.next = some (it, s') → it.returned = false →
        ∃ pre x, runF (n + 1) s = pre ++ [x] ∧ (∀ it ∈ pre, ¬IsEof it ∧ ¬Failed it) ∧ (IsEof x ∨ Failed x)
          ∧ pre.length ≤ s.src.length - s.current ∧ ∀ m, n + 1 ≤ m → runF m s = runF (n + 1) s := by
      intro it s' hn' hret
      refine ⟨[], it, ?_, by simp, .inr ((failed_iff it).2 hret), by simp, ?_⟩
      · rw [runF_succ, hn']; simp [hret]
      · intro m hm
        obtain ⟨m, rfl⟩ : ∃ k, m = k + 1 := ⟨m - 1, by omega⟩
        rw [runF_succ, runF_succ, hn']; simp [hret]
    cases hnx : s.next with
    | none =>
      exfalso
      unfold Scanner.next at hnx
      rw [hs] at hnx
      split at hnx <;> simp at hnx
    | some p =>
      obtain ⟨it, s'⟩ := p
      cases next_spec hnx with
      | eof hlen _ =>
        have hnone : ({ s with scanning := false } : Scanner).next = none := by
          simp [Scanner.next, Scanner.isAtEnd, hlen]
        have hrun : ∀ m, runF m ({ s with scanning := false } : Scanner) = [] := by
          intro m; cases m with
          | zero => rfl
          | succ m => rw [runF_succ, hnone]
        refine ⟨[], .tok (Token.final s.line s.fileStack), ?_, by simp, .inl ⟨_, rfl, rfl⟩, by simp, ?_⟩
        · rw [runF_succ, hnx]; simp [Item.returned, hrun]
        · intro m hm
          obtain ⟨m, rfl⟩ : ∃ k, m = k + 1 := ⟨m - 1, by omega⟩
          rw [runF_succ, runF_succ, hnx]; simp [hrun]
      | plain t _ hlt hp _ =>
        exact step _ _ hnx hp.src hp.scanning hlt hp.lt rfl (by
          rintro ⟨t', h, h'⟩; cases h; exact hp.noteof h')
      | tag t _ hlt ht =>
        exact step _ _ hnx ht.src ht.scanning hlt ht.lt rfl (by
          rintro ⟨t', h, h'⟩; cases h; rcases ht.ty with h | h <;> rw [h.1] at h' <;> cases h')
      | err x _ hlt he =>
        exact step _ _ hnx he.src he.scanning hlt he.lt rfl (by rintro ⟨t', h, h'⟩; cases h)
      | panic p _ _ => exact stop _ _ hnx rfl
      | hang _ _ => exact stop _ _ hnx rfl

theorem scan_shape (src : Str) :
    ∃ pre x, scan src = pre ++ [x] ∧ (∀ it ∈ pre, ¬IsEof it ∧ ¬Failed it) ∧ (IsEof x ∨ Failed x)
      ∧ pre.length ≤ src.length ∧ ∀ m, src.length + 2 ≤ m → runF m (Scanner.new src) = scan src := by
  exact run_shape (src.length + 2) (Scanner.new src) rfl (by simp [Scanner.new, newWithStack])

/-- **C03**: every returned item other than the end-of-input token consumes at least one byte. -/
theorem C03_progress (src : Str) (its : List Item) (s s' : Scanner) (it : Item)
    (_reach : Trace (Scanner.new src) its s) (h : s.next = some (it, s')) (hne : ¬IsEof it) (hr : ¬Failed it) :
    s.current < s'.current := by
  cases next_spec h with
  | eof => exact absurd ⟨_, rfl, rfl⟩ hne
  | plain t _ _ hp => exact hp.lt
  | tag t _ _ ht => exact ht.lt
  | err x _ _ he => exact he.lt
  | panic p => exact absurd (.inr ⟨p, rfl⟩) hr
  | hang => exact absurd (.inl rfl) hr

-- one reachable state: after the text `a `, the next call reads the `*`
example : ∃ its s s' it, Trace (Scanner.new b!"a *b*") its s ∧ s.next = some (it, s') ∧ ¬IsEof it ∧ ¬Failed it
    ∧ s.current = 2 ∧ s'.current = 3 := by
  refine ⟨[.tok ⟨.text, b!"a ", some b!"a ", 1, 1, 2, []⟩], { Scanner.new b!"a *b*" with current := 2, startcol := 3 },
    { Scanner.new b!"a *b*" with start := 2, current := 3, startcol := 4 },
    .tok ⟨.strong, b!"*", none, 1, 3, 3, []⟩, .cons (by rfl) rfl (.nil _), by rfl, ?_, by simp [Failed], rfl, rfl⟩
  rintro ⟨t, h, ht⟩
  cases h
  cases ht

/-- **C03**: at most one item per source byte, plus the last item. -/
theorem C03_items_bounded (src : Str) : (scan src).length ≤ src.length + 1 := by
  obtain ⟨pre, x, h1, _, _, h4, _⟩ := scan_shape src
  rw [h1]; simp; omega

/-- **C03**: the bound used in the definition of `scan` cuts nothing off: iterating longer gives the same. -/
theorem C03_scan_is_whole_iteration (src : Str) (m : Nat) (h : src.length + 2 ≤ m) :
    runF m (Scanner.new src) = scan src := by
  obtain ⟨_, _, _, _, _, _, h5⟩ := scan_shape src
  exact h5 m h

-- the bound is attained up to one: a source of single-character tokens
example : (scan b!"^~^~").length = 5 := by decide

/-! ## C02: end of input -/

/-- **C02**: a completed iteration has exactly one end-of-input token, as its last item. -/
theorem C02_one_eof_last (src : Str) (h : ∀ it ∈ scan src, ¬Failed it) :
    ∃ pre t, scan src = pre ++ [.tok t] ∧ t.ty = .eof ∧ ∀ it ∈ pre, ¬IsEof it := by
  obtain ⟨pre, x, h1, h2, h3, _⟩ := scan_shape src
  rcases h3 with ⟨t, rfl, ht⟩ | hf
  · exact ⟨pre, t, h1, ht, fun it hi => (h2 it hi).1⟩
  · exact absurd hf (h x (by rw [h1]; simp))

example : ∀ it ∈ scan b!"a *b*\n\nc", it.returned = true := by decide

/-- One call of `next()` as seen by the caller: what it returns, and the scanner afterwards (a call that returns
`None` changes nothing, `scanner/mod.rs:25-36`). -/
def callNext (s : Scanner) : Option Item × Scanner :=
  match s.next with
  | none => (none, s)
  | some (it, s') => (some it, s')

/-- `n` calls. -/
def callN : Nat → Scanner → Scanner
  | 0, s => s
  | n + 1, s => callN n (callNext s).2

/-- **C02**: once the end-of-input token was returned, every further call returns `None`. -/
theorem C02_fused (src : Str) (its : List Item) (s s' : Scanner) (it : Item)
    (_reach : Trace (Scanner.new src) its s) (h : callNext s = (some it, s')) (he : IsEof it) (n : Nat) :
    (callNext (callN n s')).1 = none := by
  have hs : ∃ s', s.next = some (it, s') ∧ callNext s = (some it, s') := by
    unfold callNext at h ⊢
    cases hn : s.next with
    | none => rw [hn] at h; cases h
    | some p => obtain ⟨a, b⟩ := p; rw [hn] at h; cases h; exact ⟨_, rfl, rfl⟩
  obtain ⟨s1, hn, hc⟩ := hs
  rw [h] at hc; cases hc
  have hnone : s'.next = none := by
    cases next_spec hn with
    | eof hl hsc => simp [Scanner.next, Scanner.isAtEnd, hl]
    | plain t _ _ hp => obtain ⟨t', h, h'⟩ := he; cases h; exact absurd h' hp.noteof
    | tag t _ _ ht =>
      obtain ⟨t', h, h'⟩ := he; cases h; rcases ht.ty with h | h <;> rw [h.1] at h' <;> cases h'
    | err x _ _ he' => obtain ⟨t', h, h'⟩ := he; cases h
    | panic p => obtain ⟨t', h, h'⟩ := he; cases h
    | hang => obtain ⟨t', h, h'⟩ := he; cases h
  have hfix : (callNext s') = (none, s') := by simp [callNext, hnone]
  have : ∀ n, callN n s' = s' := by
    intro n; induction n with
    | zero => rfl
    | succ n ih => rw [callN, hfix]; exact ih
  rw [this, hfix]

example : IsEof ((callNext (callN 2 (Scanner.new b!"a\n"))).1.getD .hang) :=
  ⟨Token.final 2 [], by decide, rfl⟩

/-! ## C01: lossless -/

/-- Source text of a list of tokens. -/
def source (toks : List Token) : Str := toks.flatMap (·.lexeme)

theorem trace_source {s s' : Scanner} {toks : List Token} (h : Trace s (toks.map .tok) s')
    (hn : ∀ t ∈ toks, ¬IsTag t) :
    source toks ++ s.src.drop s'.current = s.src.drop s.current
      ∧ ((∃ t ∈ toks, t.ty = .eof) → s.src.length ≤ s'.current) := by
  generalize hi : toks.map Item.tok = its at h
  induction h generalizing toks with
  | nil => simp at hi; subst hi; simp [source]
  | @cons s s1 s' it its hnx hr ht ih =>
    cases toks with
    | nil => cases hi
    | cons t toks =>
      simp only [List.map_cons, List.cons.injEq] at hi
      obtain ⟨rfl, hi⟩ := hi
      have hn' : ∀ t ∈ toks, ¬IsTag t := fun t h => hn t (List.mem_cons_of_mem _ h)
      obtain ⟨ih1, ih2⟩ := ih hn' hi
      have hcur := (trace_src ht).2.2.1
      cases next_spec hnx with
      | eof hl _ =>
        dsimp only at ih1 hcur
        refine ⟨?_, fun _ => by omega⟩
        simp only [source, List.flatMap_cons, Token.final, List.nil_append]
        exact ih1
      | plain _ _ hlt hp =>
        rw [hp.src] at ih1 ih2
        refine ⟨?_, ?_⟩
        · simp only [source, List.flatMap_cons, List.append_assoc] at ih1 ⊢
          rw [ih1, hp.lex]
          have : s.src.drop s1.current = (s.src.drop s.current).drop (s1.current - s.current) := by
            rw [List.drop_drop]; congr 1; have := hp.lt; omega
          rw [this, List.take_append_drop]
        · rintro ⟨t', ht', he⟩
          rcases List.mem_cons.1 ht' with h | h
          · subst h; exact absurd he hp.noteof
          · exact ih2 ⟨t', h, he⟩
      | tag _ _ _ htag =>
        exact absurd (by rcases htag.ty with h | h; exact .inl h.1; exact .inr h.1) (hn t (List.mem_cons_self ..))

theorem scan_trace {src : Str} {toks : List Token} {rest : List Item} (h : scan src = toks.map .tok ++ rest) :
    ∃ s', Trace (Scanner.new src) (toks.map .tok) s' ∧ runF (src.length + 2 - toks.length) s' = rest := by
  obtain ⟨s', h1, h2⟩ := trace_of_runF (n := src.length + 2) (s := Scanner.new src) h
    (by intro it hi; obtain ⟨t, _, rfl⟩ := List.mem_map.1 hi; rfl)
  exact ⟨s', h1, by simpa using h2⟩

/-- **C01**: if the iteration gives tokens only, none of them an include tag, the lexemes concatenate to the
source. -/
theorem C01_lossless (src : Str) (toks : List Token) (h : scan src = toks.map .tok)
    (hn : ∀ t ∈ toks, ¬IsTag t) : source toks = src := by
  obtain ⟨s', h1, _⟩ := scan_trace (rest := []) (by simpa using h)
  obtain ⟨h3, h4⟩ := trace_source h1 hn
  have hfail : ∀ it ∈ scan src, ¬Failed it := by
    intro it hi; rw [h] at hi; obtain ⟨t, _, rfl⟩ := List.mem_map.1 hi; simp [Failed]
  obtain ⟨pre, t, h5, h6, _⟩ := C02_one_eof_last src hfail
  have hmem : t ∈ toks := by
    have : Item.tok t ∈ scan src := by rw [h5]; simp
    rw [h] at this; obtain ⟨t', h7, h8⟩ := List.mem_map.1 this; cases h8; exact h7
  have := h4 ⟨t, hmem, h6⟩
  rw [List.drop_eq_nil_of_le this] at h3
  simpa [Scanner.new, newWithStack] using h3

/-- **C01** for scans that stop early or contain errors: the tokens before the first other item cover a prefix of
the source. -/
theorem C01_prefix (src : Str) (toks : List Token) (rest : List Item) (h : scan src = toks.map .tok ++ rest)
    (hn : ∀ t ∈ toks, ¬IsTag t) : source toks <+: src := by
  obtain ⟨s', h1, _⟩ := scan_trace h
  obtain ⟨h3, _⟩ := trace_source h1 hn
  exact ⟨_, by simpa [Scanner.new, newWithStack] using h3⟩

example : ∃ toks : List Token, scan b!"= T\n\n* a _b_ &copy;\n" = toks.map .tok ∧ (∀ t ∈ toks, ¬IsTag t) ∧ 10 ≤ toks.length :=
  ⟨(scan b!"= T\n\n* a _b_ &copy;\n").filterMap Item.tok?,
    by decide, by unfold IsTag; decide, by decide⟩

/-! ## C04: line numbers -/

theorem trace_line {s s' : Scanner} {toks : List Token} (h : Trace s (toks.map .tok) s')
    (hn : ∀ t ∈ toks, ¬IsTag t) (hl : ∀ t ∈ toks, t.ty = .newLineChar ∨ 10 ∉ t.lexeme) :
    s'.line = s.line + (source toks).count 10 := by
  generalize hi : toks.map Item.tok = its at h
  induction h generalizing toks with
  | nil => simp at hi; subst hi; simp [source]
  | @cons s s1 s' it its hnx hr ht ih =>
    cases toks with
    | nil => cases hi
    | cons t toks =>
      simp only [List.map_cons, List.cons.injEq] at hi
      obtain ⟨rfl, hi⟩ := hi
      have ih1 := ih (fun t h => hn t (List.mem_cons_of_mem _ h)) (fun t h => hl t (List.mem_cons_of_mem _ h)) hi
      simp only [source, List.flatMap_cons, List.count_append] at ih1 ⊢
      cases next_spec hnx with
      | eof hl _ => simpa [Token.final] using ih1
      | plain _ _ hlt hp =>
        by_cases hty : t.ty = .newLineChar
        · obtain ⟨a, b, _⟩ := hp.nl hty
          rw [ih1, b, a]; simp; omega
        · obtain ⟨b, _⟩ := hp.notnl hty
          rcases hl t (List.mem_cons_self ..) with h | h
          · exact absurd h hty
          · rw [ih1, b, List.count_eq_zero.2 h]; omega
      | tag _ _ _ htag =>
        exact absurd (by rcases htag.ty with h | h; exact .inl h.1; exact .inr h.1) (hn t (List.mem_cons_self ..))

theorem next_tok_line {s s' : Scanner} {t : Token} (h : s.next = some (.tok t, s')) : t.line = s.line := by
  cases next_spec h with
  | eof => rfl
  | plain _ _ _ hp => exact hp.line
  | tag _ _ _ ht => exact ht.line

theorem runF_head {n : Nat} {s : Scanner} {it : Item} {rest : List Item} (h : runF n s = it :: rest) :
    ∃ s', s.next = some (it, s') := by
  cases n with
  | zero => cases h
  | succ n =>
    rw [runF_succ] at h
    cases hn : s.next with
    | none => rw [hn] at h; cases h
    | some p => obtain ⟨a, b⟩ := p; rw [hn] at h; simp only [List.cons.injEq] at h; rw [h.1]; exact ⟨_, rfl⟩

/-- **C04**: the line of a token is 1 plus the number of newlines in the source text before it, if no include tag
and no token spanning a newline comes before it. -/
theorem C04_line (src : Str) (toks : List Token) (t : Token) (rest : List Item)
    (h : scan src = toks.map .tok ++ .tok t :: rest) (hn : ∀ t ∈ toks, ¬IsTag t)
    (hl : ∀ t ∈ toks, t.ty = .newLineChar ∨ 10 ∉ t.lexeme) :
    source toks <+: src ∧ t.line = 1 + (source toks).count 10 := by
  refine ⟨C01_prefix src toks _ h hn, ?_⟩
  obtain ⟨s', h1, h2⟩ := scan_trace h
  have h3 := trace_line h1 hn hl
  obtain ⟨s2, h4⟩ := runF_head h2
  rw [next_tok_line h4, h3]; rfl

example : ∃ (toks : List Token) (t : Token), scan b!"a\n\n*b*\n" = toks.map .tok ++ [.tok t] ∧ (∀ t ∈ toks, ¬IsTag t)
    ∧ (∀ t ∈ toks, t.ty = .newLineChar ∨ 10 ∉ t.lexeme) ∧ t.line = 4 :=
  ⟨((scan b!"a\n\n*b*\n").dropLast).filterMap Item.tok?, Token.final 4 [],
    by decide, by unfold IsTag; decide, by decide, by decide⟩

/-- **C04**: line numbers never decrease, whatever the source (include tags, errors and tokens that span lines
included). -/
theorem C04_monotone (src : Str) (a b c : List Item) (t u : Token)
    (h : scan src = a ++ .tok t :: (b ++ .tok u :: c)) : t.line ≤ u.line := by
  have hret := returned_of_runF (n := src.length + 2) (s := Scanner.new src) (pre := a ++ .tok t :: b)
    (rest := .tok u :: c) (by rw [List.append_assoc]; exact h) (by simp)
  obtain ⟨s1, h1, h2⟩ := trace_of_runF (n := src.length + 2) (s := Scanner.new src) (pre := a)
    (rest := .tok t :: (b ++ .tok u :: c)) h (fun i hi => hret i (by simp [hi]))
  obtain ⟨s2, h3⟩ := runF_head h2
  obtain ⟨s3, h4, h5⟩ := trace_of_runF (s := s1) (pre := .tok t :: b)
    (rest := .tok u :: c) (by simpa using h2) (fun i hi => hret i (by
      rcases List.mem_cons.1 hi with h | h <;> simp [h]))
  obtain ⟨s4, h6⟩ := runF_head h5
  rw [next_tok_line h3, next_tok_line h6]
  exact (trace_src h4).2.2.2

/-- **C04**, why the proviso is needed: a hyperlink token runs over line ends, and the text after it is reported
one line too early (`b` is on line 3 of this source). -/
theorem C04_spanning_token_shifts_lines :
    ∃ (toks : List Token) (t : Token) (rest : List Item), scan b!"http://a\nx y\nb" = toks.map .tok ++ .tok t :: rest
      ∧ source toks = b!"http://a\nx y\n" ∧ t.lexeme = b!"b" ∧ t.line = 2 :=
  ⟨((scan b!"http://a\nx y\nb").take 3).filterMap Item.tok?,
    ⟨.text, b!"b", some b!"b", 2, 1, 1, []⟩, [.tok (Token.final 2 [])], by decide, by decide, rfl, rfl⟩

-- two tokens on different lines with an error between them
example : ∃ a t b u c, scan b!"a\n====== x\nb" = a ++ .tok t :: (b ++ .tok u :: c)
    ∧ .err (.headingLevel 2) ∈ b ∧ t.line = 1 ∧ u.line = 3 :=
  ⟨[], ⟨.text, b!"a", some b!"a", 1, 1, 1, []⟩, ((scan b!"a\n====== x\nb").drop 1).take 4,
    ⟨.text, b!"b", some b!"b", 3, 1, 1, []⟩, [.tok (Token.final 3 [])], by decide, by decide, rfl, rfl⟩

/-! ## C05: columns -/

/-- **C05**: the first token starts at column 1. -/
theorem C05_first (src : Str) (t : Token) (rest : List Item) (h : scan src = .tok t :: rest) (he : t.ty ≠ .eof)
    (hn : ¬IsTag t) : t.line = 1 ∧ t.startcol = 1 ∧ t.endcol = t.lexeme.length := by
  obtain ⟨s', h4⟩ := runF_head (n := src.length + 2) h
  cases next_spec h4 with
  | eof => exact absurd rfl he
  | plain _ _ _ hp =>
    have h1 := hp.line; have h2 := hp.startcol; have h3 := hp.endcol
    simp only [Scanner.new, newWithStack] at h1 h2 h3
    exact ⟨h1, h2, by omega⟩
  | tag _ _ _ ht => exact absurd (by rcases ht.ty with h | h; exact .inl h.1; exact .inr h.1) hn

example : ∃ t rest, scan b!"== T\n" = .tok t :: rest ∧ t.ty = .heading2 ∧ t.endcol = 3 :=
  ⟨⟨.heading2, b!"== ", none, 1, 1, 3, []⟩, (scan b!"== T\n").drop 1, by decide, rfl, rfl⟩

/-- **C05**: adjacent tokens tile the line: the second starts at column 1 of the next line if the first is a newline,
and one column after the first otherwise; a token's columns span its byte length. -/
theorem C05_adjacent (src : Str) (pre rest : List Item) (t u : Token)
    (h : scan src = pre ++ .tok t :: .tok u :: rest) (hu : u.ty ≠ .eof) (ht : ¬IsTag t) (hut : ¬IsTag u) :
    (t.ty = .newLineChar → u.line = t.line + 1 ∧ u.startcol = 1)
    ∧ (t.ty ≠ .newLineChar → u.line = t.line ∧ u.startcol = t.endcol + 1)
    ∧ u.endcol + 1 = u.startcol + u.lexeme.length ∧ u.lexeme ≠ [] := by
  have hret := returned_of_runF (n := src.length + 2) (s := Scanner.new src) (pre := pre)
    (rest := .tok t :: .tok u :: rest) h (by simp)
  obtain ⟨s1, h1, h2⟩ := trace_of_runF (n := src.length + 2) (s := Scanner.new src) h hret
  obtain ⟨s2, h3, h4⟩ := trace_of_runF (s := s1) (pre := [.tok t]) (rest := .tok u :: rest) (by simpa using h2)
    (by simp [Item.returned])
  obtain ⟨s4, h6⟩ := runF_head h4
  cases h3 with
  | cons hnx _ htr =>
    cases htr
    cases next_spec h6 with
    | eof => exact absurd rfl hu
    | tag _ _ _ ht => exact absurd (by rcases ht.ty with h | h; exact .inl h.1; exact .inr h.1) hut
    | plain _ _ _ hq =>
      cases next_spec hnx with
      | eof hl hs =>
        have hcur := hq.lt; have := hq.le
        dsimp only at hcur this; omega
      | tag _ _ _ ht' => exact absurd (by rcases ht'.ty with h | h; exact .inl h.1; exact .inr h.1) ht
      | plain _ _ _ hp =>
        have a1 := hp.line; have a2 := hp.startcol; have a3 := hp.endcol
        have b1 := hq.line; have b2 := hq.startcol; have b3 := hq.endcol
        refine ⟨?_, ?_, by omega, ?_⟩
        · intro hty; obtain ⟨_, c, d⟩ := hp.nl hty; omega
        · intro hty; obtain ⟨c, d⟩ := hp.notnl hty; omega
        · intro he
          have := hq.lex; rw [he] at this
          have h1 := congrArg List.length this
          rw [take_length hq.le] at h1
          have := hq.lt; simp at h1; omega

example : ∃ pre t u rest, scan b!"a *b* c\n" = pre ++ .tok t :: .tok u :: rest
    ∧ t.lexeme = b!"b" ∧ u.lexeme = b!"*" ∧ u.startcol = 5 ∧ u.endcol = 5 :=
  ⟨(scan b!"a *b* c\n").take 2, ⟨.text, b!"b", some b!"b", 1, 4, 4, []⟩, ⟨.strong, b!"*", none, 1, 5, 5, []⟩,
    (scan b!"a *b* c\n").drop 4, by decide, rfl, rfl, rfl, rfl⟩

/-! ## C11: token text -/

/-- The documented replacements, as a table. -/
def replacements : List (Str × Str) :=
  [(b!"(C)", b!"&#169;"), (b!"(R)", b!"&#174;"), (b!"(TM)", b!"&#8482;"), (b!"...", b!"&#8230;"),
   (b!"->", b!"&#8594;"), (b!"=>", b!"&#8658;"), (b!"<-", b!"&#8592;"), (b!"<=", b!"&#8656;"),
   (b!"--", b!"&#8212;"), (b!"'", b!"&#8217;")]

/-- Typographic quotes, as a table. -/
def quotes : List (TokenType × Str) :=
  [(.openDoubleQuote, b!"“"), (.closeDoubleQuote, b!"”"), (.openSingleQuote, b!"‘"), (.closeSingleQuote, b!"’")]

theorem charRefLiteral_eq (l : Str) : Token.charRefLiteral l = replacements.lookup l := by
  unfold Token.charRefLiteral replacements
  simp only [List.lookup]
  repeat' split
  all_goals simp_all

theorem charRef_validated {s s' : Scanner} {t : Token} (h : s.next = some (.tok t, s')) (hty : t.ty = .charRef) :
    t.text = (replacements.lookup t.lexeme).getD t.lexeme := by
  have key : ∀ (s : Scanner) ty lit a (s' : Scanner), addToken s ty lit a = (.tok t, s') →
      t.text = (replacements.lookup t.lexeme).getD t.lexeme := by
    intro s ty lit a s' h
    rcases addToken_panic_or s ty lit a with ⟨p, s1, h1⟩ | ⟨text, hs, h1, h2⟩
    · rw [h1] at h; cases h
    rw [h] at h1
    simp only [Item.tok.injEq] at h1
    have h3 : ty = .charRef := by
      rcases validate_ty ⟨ty, text, if lit then some text else none, s.line,
        s.startcol, s.startcol + text.length - 1, s.fileStack⟩ with h | h
      · rw [← h1, hty] at h; exact h.symm
      · rw [← h1, hty] at h; cases h.1
    subst h3
    subst h1
    rw [validate_lexeme, ← charRefLiteral_eq]
    unfold Token.validate Token.text
    dsimp only
    cases hc : Token.charRefLiteral text with
    | none => cases lit <;> simp
    | some l => simp
  unfold Scanner.next at h
  split at h
  · split at h
    · cases h; cases hty
    · cases h
  · simp only [Option.some.injEq] at h
    have hst := step_scanToken { s with start := s.current } rfl
    generalize hr : scanToken { s with start := s.current } = r at hst h
    cases hst with
    | tok e ty lit hlt' hty => exact key _ _ _ _ _ h
    | nl hc => exact key _ _ _ _ _ h
    | tag =>
      rcases (Tag.of_addTag h).ty with h | h <;> rw [hty] at h <;> cases h.1
    | err => cases h
    | panic => cases h
    | hang => cases h

/-- **C11**: the text of a scanned token is its lexeme, except for typographic quotes and for the character
replacements of the table. -/
theorem C11_text (src : Str) (t : Token) (h : .tok t ∈ scan src) :
    t.text = match quotes.lookup t.ty with
      | some q => q
      | none => if t.ty = .charRef then (replacements.lookup t.lexeme).getD t.lexeme else t.lexeme := by
  obtain ⟨pre, rest, hsplit⟩ := List.append_of_mem h
  have hret := returned_of_runF (n := src.length + 2) (s := Scanner.new src) (pre := pre)
    (rest := .tok t :: rest) hsplit (by simp)
  obtain ⟨s1, h1, h2⟩ := trace_of_runF (n := src.length + 2) (s := Scanner.new src) hsplit hret
  obtain ⟨s2, hn⟩ := runF_head h2
  by_cases hc : t.ty = .charRef
  · rw [charRef_validated hn hc, hc]; rfl
  · have hlit : t.lit = none ∨ t.lit = some t.lexeme := by
      cases next_spec hn with
      | eof => exact .inl rfl
      | plain _ _ _ hp => rcases hp.lit with h | h | h
                          · exact .inl h
                          · exact .inr h
                          · exact absurd h.1 hc
      | tag _ _ _ ht => exact .inr ht.lit
    unfold Token.text
    rcases hlit with h | h <;> rw [h] <;> generalize t.ty = ty at hc ⊢ <;> cases ty <;>
      first | exact absurd rfl hc | rfl

example : ∃ t, .tok t ∈ scan b!"a -- b (C) `c`" ∧ t.ty = .charRef ∧ t.text = b!"&#8212;" :=
  ⟨⟨.charRef, b!"--", some b!"&#8212;", 1, 3, 4, []⟩, by decide, rfl, by decide⟩

end Adoc.Props
