import Verif.Spec.Rich
import Verif.Proof.ScanTrace
import Verif.Proof.Strings
import Verif.Props.ScannerText
import Verif.Props.Scanner
/-!
# Scanning lines of plain text
-/
namespace Adoc.Scanner
open Spec Props Lexical

/-- The scanner with `pre` read and `post` still to be read, outside tagged regions. -/
def cut (pre post : Str) (st col n : Nat) (fs : List Str) : Scanner :=
  ⟨pre ++ post, st, col, pre.length, n, true, false, fs⟩

/-- Text tokens that follow each other on line `n` from column `col` on and make up a given text. -/
inductive Pieces (n : Nat) (fs : List Str) : Nat → Str → List Token → Prop where
  | nil (col : Nat) : Pieces n fs col [] []
  | cons (col : Nat) (x rest : Str) (ts : List Token) (hx : x ≠ []) (h : Pieces n fs (col + x.length) rest ts) :
      Pieces n fs col (x ++ rest) (⟨.text, x, some x, n, col, col + x.length - 1, fs⟩ :: ts)

/-- What follows a line: the end of the text or a newline. -/
def AfterLine (post : Str) : Prop := post = [] ∨ ∃ r, post = 10 :: r

theorem AfterLine.starts {post : Str} (h : AfterLine post) : Starts post := by
  rcases h with rfl | ⟨r, rfl⟩
  · intro b hb; simp at hb
  · exact starts_ascii _ _ (by decide)

theorem adv_eq (src : Str) (p : UInt8 → Bool) (i j : Nat) (hij : i ≤ j) (hj : j ≤ src.length)
    (hp : ∀ k, i ≤ k → k < j → p (peekAt src k) = true) (hs : j = src.length ∨ p (peekAt src j) = false) :
    adv src p i = j := by
  have h1 := adv_ge src p i
  have h2 := adv_le src p i (by omega)
  rcases Nat.lt_trichotomy (adv src p i) j with h | h | h
  · have h3 := adv_stop src p i (by omega)
    rw [hp _ h1 h] at h3; cases h3
  · exact h
  · have h3 := (adv_all src p i j hij h).2
    rcases hs with hs | hs
    · omega
    · rw [hs] at h3; cases h3

theorem slice_mid (a b c : Str) (hb : Starts (b ++ c)) (hc : Starts c) :
    slice (a ++ (b ++ c)) a.length (a.length + b.length) = some b := by
  have h1 := isBoundary_append a (b ++ c) hb
  have h2 := isBoundary_append (a ++ b) c hc
  rw [List.append_assoc, List.length_append] at h2
  unfold slice
  rw [if_pos ⟨by omega, by simp, h1, h2⟩]
  simp

/-- What is looked at ahead is what comes next. -/
theorem peeks_prefix (pre rest w : Str) (b : UInt8) (n : Nat)
    (h : peeksAheadAt (pre ++ b :: rest) (pre.length + 1) n = w) (hw : w ≠ [0]) : w <+: rest := by
  unfold peeksAheadAt at h
  split at h
  · exact absurd h.symm hw
  · have : (pre ++ b :: rest).drop (pre.length + 1) = rest := by simp
    rw [this] at h
    rw [← h]; exact List.take_prefix ..

/-- A word without newline that comes next is in the rest of the line. -/
theorem prefix_line (w bs post : Str) (hp : AfterLine post) (hw : 10 ∉ w) (h : w <+: bs ++ post) : w <+: bs := by
  rcases hp with rfl | ⟨r, rfl⟩
  · simpa using h
  · by_cases hl : w.length ≤ bs.length
    · exact List.prefix_of_prefix_length_le h (List.prefix_append ..) hl
    · exfalso
      have h2 : bs <+: w := List.prefix_of_prefix_length_le (List.prefix_append ..) h (by omega)
      obtain ⟨v, rfl⟩ := h2
      cases v with
      | nil => simp at hl
      | cons x v =>
        obtain ⟨u, hu⟩ := h
        simp only [List.append_assoc, List.append_cancel_left_eq, List.cons_append, List.cons.injEq] at hu
        exact hw (by simp [hu.1])

/-- The rest of a plain line, after `pre`. -/
structure Mid (pre l : Str) : Prop where
  first : ∃ b bs, l = b :: bs ∧ isCont b = false ∧ b ∉ b!"=./|(" ∧ (b = c!":" → ∃ c, pre.getLast? = some c ∧ c ≠ 10)
  chars : ∀ b ∈ l, b ∉ b!"\n*_`^~[]#&{+<"
  words : ∀ w ∈ markupWords, ¬w <:+: l

theorem _root_.Adoc.Spec.PlainLine.mid {l : Str} (h : PlainLine l) (pre : Str) : Mid pre l := by
  obtain ⟨b, bs, rfl, hb, hf⟩ := h.first
  refine ⟨⟨b, bs, rfl, hb, fun hm => hf ?_, fun hc => absurd ?_ hf⟩, h.chars, h.words⟩
  · simp only [List.mem_cons, List.not_mem_nil] at hm ⊢; grind
  · rw [hc]; decide

theorem _root_.Adoc.Spec.Run.end_starts {pre l post : Str} (h : Run pre l post) : Starts post := by
  rcases h.ends with rfl | ⟨c, r, rfl, hc, _⟩ | ⟨r, rfl, _⟩
  · intro b hb; simp at hb
  · refine starts_ascii _ _ ?_
    have : ∀ c ∈ runEnds, isCont c = false := by decide
    exact this c hc
  · exact starts_ascii _ _ (by decide)

/-- What follows a run of text is a character at which text ends. -/
theorem _root_.Adoc.Spec.Run.end_stop {pre l post : Str} (h : Run pre l post) :
    post = [] ∨ ∃ c r, post = c :: r ∧ isStop c = true := by
  rcases h.ends with rfl | ⟨c, r, rfl, hc, _⟩ | ⟨r, rfl, _⟩
  · exact .inl rfl
  · refine .inr ⟨c, r, rfl, ?_⟩
    have : ∀ c ∈ runEnds, isStop c = true := by decide
    exact this c hc
  · exact .inr ⟨_, _, rfl, by decide⟩

/-- A word without the characters that end a run is in the run, or goes on after it with colons. -/
theorem prefix_run' {pre l post : Str} (hp : Run pre l post) (w bs : Str) (hw : ∀ c ∈ runEnds, c ∉ w)
    (h : w <+: bs ++ post) : w <+: bs ∨ ∃ v r, post = b!"::" ++ r ∧ w = bs ++ c!":" :: v ∧ c!":" :: v <+: post := by
  rcases hp.ends with rfl | ⟨c, r, rfl, hc, _⟩ | ⟨r, rfl, _⟩
  · exact .inl (by simpa using h)
  · left
    by_cases hl : w.length ≤ bs.length
    · exact List.prefix_of_prefix_length_le h (List.prefix_append ..) hl
    · exfalso
      have h2 : bs <+: w := List.prefix_of_prefix_length_le (List.prefix_append ..) h (by omega)
      obtain ⟨v, rfl⟩ := h2
      cases v with
      | nil => simp at hl
      | cons x v =>
        obtain ⟨u, hu⟩ := h
        simp only [List.append_assoc, List.append_cancel_left_eq, List.cons_append, List.cons.injEq] at hu
        exact hw c hc (by simp [hu.1])
  · by_cases hl : w.length ≤ bs.length
    · exact .inl (List.prefix_of_prefix_length_le h (List.prefix_append ..) hl)
    · right
      have h2 : bs <+: w := List.prefix_of_prefix_length_le (List.prefix_append ..) h (by omega)
      obtain ⟨v, rfl⟩ := h2
      cases v with
      | nil => simp at hl
      | cons x v =>
        obtain ⟨u, hu⟩ := h
        rw [List.append_assoc, List.append_cancel_left_eq] at hu
        have hx : x = c!":" := by simpa using congrArg List.head? hu
        subst hx
        exact ⟨v, r, rfl, rfl, u, hu⟩

/-- A word without the characters that end a run and without the colons that end a term is in the run. -/
theorem prefix_run {pre l post : Str} (hp : Run pre l post) (w bs : Str) (hw : ∀ c ∈ runEnds, c ∉ w)
    (hcol : containsStr b!"::" w = false ∧ w.getLast? ≠ some c!":")
    (h : w <+: bs ++ post) : w <+: bs := by
  rcases prefix_run' hp w bs hw h with h | ⟨v, r, rfl, rfl, u, hu⟩
  · exact h
  · cases v with
    | nil => exact absurd (by simp) hcol.2
    | cons x v =>
      have hx : x = c!":" := by simpa using congrArg (fun l : Str => l.tail.head?) hu
      subst hx
      have := infix_contains b!"::" (bs ++ c!":" :: c!":" :: v) ⟨bs, v, by simp⟩
      rw [hcol.1] at this; cases this

/-- A word without the characters that end a run that is looked for and found after `b` is in the run. -/
theorem word_infix {pre bs post w : Str} {b : UInt8} {n : Nat} (hp : Run pre (b :: bs) post) (hw : ∀ c ∈ runEnds, c ∉ w)
    (hcol : containsStr b!"::" w = false ∧ w.getLast? ≠ some c!":") (hw0 : w ≠ [0]) (h : peeksAheadAt (pre ++ b :: (bs ++ post)) (pre.length + 1) n = w) : b :: w <+: b :: bs :=
  (List.prefix_cons_inj b).2 (prefix_run hp w bs hw hcol (peeks_prefix pre _ w b n h hw0))

/-- One byte that follows. -/
theorem byte_infix {bs post : Str} {b c : UInt8} (h : [c] <+: bs ++ post) : [b, c] <+: (b :: bs) ++ post.take 1 := by
  apply (List.prefix_cons_inj b).2
  cases bs with
  | nil =>
    cases post with
    | nil => simp at h
    | cons x xs => simpa using h
  | cons x xs => simpa using h

/-- The byte after `b`. -/
theorem peek_infix {pre bs post : Str} {b c : UInt8} (hc0 : c ≠ 0)
    (h : peekAt (pre ++ b :: (bs ++ post)) (pre.length + 1) = c) : [c] <+: bs ++ post := by
  have h1 : (pre ++ b :: (bs ++ post))[pre.length + 1]? = some c := by
    rcases peekAt_cases (pre ++ b :: (bs ++ post)) (pre.length + 1) with h0 | h0
    · rw [h0] at h; exact absurd h.symm hc0
    · rw [h0, h]
  have h2 : (bs ++ post)[0]? = some c := by
    rw [List.getElem?_append_right (by omega)] at h1
    simpa using h1
  cases hbp : bs ++ post with
  | nil => rw [hbp] at h2; simp at h2
  | cons x xs => rw [hbp] at h2; simp at h2; simp [h2]

theorem isStop_cont (b : UInt8) (h : isStop b = true) : isCont b = false := by
  have : ∀ b ∈ b!"\n*_`^~fph][:#NTICW&{+i<'\"-te", isCont b = false := by decide
  exact this b (by simpa [isStop] using h)

/-- The letters at which a text token ends although they may not begin any markup. -/
theorem plain_stop (b : UInt8) (h : isStop b = true) (hb : b ∉ b!"\n*_`^~[]#&{+<") : b ∉ b!"=./|(" := by
  have : ∀ b ∈ b!"\n*_`^~fph][:#NTICW&{+i<'\"-te", b ∉ b!"\n*_`^~[]#&{+<" → b ∉ b!"=./|(" := by decide
  exact this b (by simpa [isStop] using h) hb

theorem ite_same {α : Type} {p : Prop} [Decidable p] {a b t : α} (h1 : p → a = t) (h2 : ¬p → b = t) :
    (if p then a else b) = t := by
  by_cases h : p
  · rw [if_pos h]; exact h1 h
  · rw [if_neg h]; exact h2 h

theorem runStarts_cons : ∀ w ∈ runStarts, ∃ c r, w = c :: r ∧ c ∈ b!"=./|(" := by
  intro w hw
  simp only [runStarts, List.mem_cons, List.not_mem_nil, or_false] at hw
  rcases hw with rfl | rfl | rfl | rfl | rfl <;> exact ⟨_, _, rfl, by decide⟩

/-- The rest of a plain line is a run of text. -/
theorem Mid.run {pre l post : Str} (hl : Mid pre l) (hp : AfterLine post) : Run pre l post := by
  obtain ⟨b, bs, rfl, hb, hf, hc⟩ := hl.first
  refine ⟨⟨b, bs, rfl, hb, fun hs hm => ?_, fun h => absurd ?_ hf⟩, fun w hw h => ?_, hl.chars, fun w hw hi => ?_, ?_⟩
  · by_cases h : b = c!":"
    · obtain ⟨c, h1, h2⟩ := hc h
      rcases hs with rfl | hs
      · cases h1
      · rw [h1] at hs; cases hs; exact h2 rfl
    · apply hf
      simp only [List.mem_cons, List.not_mem_nil] at hm ⊢; grind
  · rw [h]; decide
  · have := runStarts_cons
    obtain ⟨c, r, rfl, hc⟩ := this w hw
    have := List.cons_prefix_cons.1 h
    exact hf (this.1 ▸ hc)
  · have h10 : ∀ w ∈ markupWords, (10 : UInt8) ∉ w := by decide
    refine hl.words w hw ?_
    rcases hp with rfl | ⟨r, rfl⟩
    · simpa using hi
    · obtain ⟨s, t, h⟩ := hi
      rcases List.eq_nil_or_concat t with rfl | ⟨t', x, rfl⟩
      · rw [List.append_nil] at h
        have h1 := congrArg List.getLast? h
        rcases List.eq_nil_or_concat w with rfl | ⟨w', y, rfl⟩
        · exact List.nil_infix
        · have h2 : y = 10 := by simpa [List.getLast?_cons] using h1
          exact absurd (by simp [h2]) (h10 _ hw)
      · have h1 : s ++ w ++ t' ++ [x] = (b :: bs) ++ [10] := by simpa using h
        exact ⟨s, t', (List.append_inj' h1 rfl).1⟩
  · rcases hp with rfl | ⟨r, rfl⟩
    · exact .inl rfl
    · exact .inr (.inl ⟨10, r, rfl, by decide, fun h => by cases h⟩)

/-- One text token of a run of plain text. -/
theorem next_text (pre l post : Str) (st col n : Nat) (fs : List Str) (hl : Run pre l post) :
    ∃ x rest, l = x ++ rest ∧ x ≠ [] ∧ (rest = [] ∨ Run (pre ++ x) rest post)
      ∧ (cut pre (l ++ post) st col n fs).next = some (.tok ⟨.text, x, some x, n, col, col + x.length - 1, fs⟩,
          cut (pre ++ x) (rest ++ post) pre.length (col + x.length) n fs) := by
  obtain ⟨b, bs, rfl, hb, hfirst, hpipe⟩ := hl.first
  have hch : ∀ c ∈ bs, c ∉ b!"\n*_`^~[]#&{+<" := fun c hc => hl.chars c (by simp [hc])
  have hbc := hl.chars b (by simp)
  let tl := bs.takeWhile fun b => !isStop b
  let dr := bs.dropWhile fun b => !isStop b
  have hbs : bs = tl ++ dr := (List.takeWhile_append_dropWhile).symm
  have htl : ∀ c ∈ tl, isStop c = false := by
    intro c hc
    have := List.all_takeWhile (p := fun b => !isStop b) (l := bs)
    rw [List.all_eq_true] at this
    simpa using this c hc
  have hdr : dr = [] ∨ ∃ c r, dr = c :: r ∧ isStop c = true := by
    cases hd : dr with
    | nil => exact .inl rfl
    | cons c r =>
      refine .inr ⟨c, r, rfl, ?_⟩
      have := List.head?_dropWhile_not (p := fun b => !isStop b) (l := bs)
      have he : (bs.dropWhile fun b => !isStop b).head? = some c := by
        show dr.head? = _; rw [hd]; rfl
      rw [he] at this
      simpa using this
  have hstop : Starts (dr ++ post) := by
    rcases hdr with h | ⟨c, r, h, hc⟩
    · rw [h]; exact hl.end_starts
    · rw [h]; exact starts_ascii _ _ (isStop_cont c hc)
  refine ⟨b :: tl, dr, by simp [hbs.symm], by simp, ?_, ?_⟩
  · rcases hdr with h | ⟨c, r, h, hc⟩
    · exact .inl h
    · have hplain := plain_stop c hc (hch c (by rw [hbs, h]; simp))
      have hlast : ∃ y, (pre ++ b :: tl).getLast? = some y ∧ y ≠ 10 := by
        have hm : (b :: tl).getLast (by simp) ∈ b :: bs := by
          have := List.getLast_mem (l := b :: tl) (by simp)
          rw [hbs]; simp only [List.mem_cons, List.mem_append] at this ⊢
          rcases this with h | h <;> simp [h]
        refine ⟨(b :: tl).getLast (by simp), ?_, fun h10 => hl.chars _ hm (by rw [h10]; decide)⟩
        rw [List.getLast?_append, List.getLast?_eq_some_getLast (by simp)]; rfl
      have hsuf : dr <:+ b :: bs := by
        rw [hbs]; exact (List.suffix_append ..).trans (List.suffix_cons ..)
      refine .inr ⟨⟨c, r, h, isStop_cont c hc, fun hs => ?_, fun hp => absurd ?_ hplain⟩, ?_, ?_, ?_, ?_⟩
      · obtain ⟨y, h1, h2⟩ := hlast
        rcases hs with hs | hs
        · simp at hs
        · rw [h1] at hs; cases hs; exact absurd rfl h2
      · rw [hp]; decide
      · intro w hw hi
        have := runStarts_cons
        obtain ⟨c', r', rfl, hc'⟩ := this w hw
        rw [h] at hi
        exact hplain ((List.cons_prefix_cons.1 hi).1 ▸ hc')
      · intro x hx; exact hch x (by rw [hbs]; simp [hx])
      · intro w hw hi
        apply hl.words w hw
        obtain ⟨q, hq⟩ := hsuf
        rw [← hq, List.append_assoc]
        exact hi.trans (List.suffix_append ..).isInfix
      · rcases hl.ends with h0 | ⟨x, y, h0, h1, h2⟩ | ⟨r', h0, h1⟩
        · exact .inl h0
        rotate_left
        · exact .inr (.inr ⟨r', h0, fun w hw hi => h1 w hw (hi.trans hsuf)⟩)
        · refine .inr (.inl ⟨x, y, h0, h1, fun hx => ?_⟩)
          have := h2 hx
          obtain ⟨q, hq⟩ := hsuf
          rw [← hq, h, List.getLast?_append] at this
          rw [h]
          simpa [List.getLast?_cons] using this
  · have htext : addText ⟨pre ++ (b :: bs ++ post), pre.length, col, pre.length + 1, n, true, false, fs⟩
        = (.tok ⟨.text, b :: tl, some (b :: tl), n, col, col + (b :: tl).length - 1, fs⟩,
          cut (pre ++ b :: tl) (dr ++ post) pre.length (col + (b :: tl).length) n fs) := by
      have hadv : adv (pre ++ (b :: bs ++ post)) (fun b => !isStop b) (pre.length + 1)
          = pre.length + (b :: tl).length := by
        apply adv_eq
        · simp
        · rw [hbs]; simp
        · intro k hk1 hk2
          rcases peekAt_cases (pre ++ (b :: bs ++ post)) k with h | h
          · rw [h]; decide
          · have hk : (pre ++ (b :: bs ++ post))[k]? = tl[k - (pre.length + 1)]? := by
              rw [hbs, List.getElem?_append_right (by omega)]
              have e : k - pre.length = (k - (pre.length + 1)) + 1 := by omega
              rw [e]
              simp only [List.cons_append, List.getElem?_cons_succ, List.append_assoc]
              rw [List.getElem?_append_left]
              simp at hk2; omega
            rw [hk] at h
            have := htl _ (List.mem_of_getElem? h)
            rw [this]; rfl
        · have e : pre ++ (b :: bs ++ post) = (pre ++ b :: tl) ++ (dr ++ post) := by
            rw [hbs]; simp
          have el : pre.length + (b :: tl).length = (pre ++ b :: tl).length := by simp
          rw [e, el]
          rcases hd : dr ++ post with _ | ⟨c, r⟩
          · left; simp
          · right
            have hc : isStop c = true := by
              rcases hdr with h | ⟨c', r', h, hc⟩
              · rw [h] at hd
                rcases hl.end_stop with rfl | ⟨c2, r2, rfl, hc2⟩
                · simp at hd
                · simp at hd; rw [← hd.1]; exact hc2
              · rw [h] at hd; simp at hd; rw [← hd.1]; exact hc
            rw [peekAt_eq (b := c) (by simp) (isStop_cont c hc)]
            simp [hc]
      unfold addText addToken
      simp only [hadv]
      have e : pre ++ (b :: bs ++ post) = pre ++ ((b :: tl) ++ (dr ++ post)) := by
        rw [hbs]; simp
      rw [e, slice_mid pre (b :: tl) (dr ++ post) (starts_ascii _ _ hb) hstop]
      simp [cut, Token.validate]
    have hget : (pre ++ (b :: bs ++ post)).getD pre.length 0 = b := by simp
    unfold next isAtEnd
    rw [if_neg (by simp [cut])]
    unfold scanToken
    simp only [cut]
    simp only [hget]
    refine congrArg some (Eq.trans ?_ htext)
    generalize hs : (⟨pre ++ (b :: bs ++ post), pre.length, col, pre.length + 1, n, true, false, fs⟩ : Scanner) = s
    have hbad : ∀ (w : Str), (∃ u ∈ markupWords, u <:+: w) → ¬w <+: b :: bs := fun w ⟨u, hu, hi⟩ h =>
      hl.words u hu ((hi.trans h.isInfix).trans (List.prefix_append ..).isInfix)
    have hbad2 : ∀ (c : UInt8), [b, c] ∈ markupWords → ¬[c] <+: bs ++ post := fun c hu h =>
      hl.words _ hu (byte_infix h).isInfix
    have hw : ∀ w k, (∀ c ∈ runEnds, c ∉ w) → (containsStr b!"::" w = false ∧ w.getLast? ≠ some c!":") → w ≠ [0] →
        (∃ u ∈ markupWords, u <:+: b :: w) → peeksAhead s k ≠ w := by
      intro w k h1 hcol h2 h3 h
      rw [← hs] at h
      exact hbad _ h3 (word_infix hl h1 hcol h2 h)
    have hcw : ∀ x y k, (y = b!":" ∨ y = b!"::") → (∀ c ∈ runEnds, c ∉ x ++ y) → c!":" ∉ x → b :: x ∈ colonWords →
        (∃ u ∈ markupWords, u <:+: b :: (x ++ y)) → peeksAhead s k ≠ x ++ y := by
      intro x y k hy h1 hx h2 h3 h
      rw [← hs] at h
      have h4 := peeks_prefix pre _ _ b k h (by
        intro h0
        have := congrArg (c!":" ∈ ·) h0
        rcases hy with rfl | rfl <;> simp at this)
      rcases prefix_run' hl _ bs h1 h4 with h5 | ⟨v, r, hp, he, u, hu⟩
      · exact hbad _ h3 ((List.prefix_cons_inj b).2 h5)
      · rcases hl.ends with h0 | ⟨z, q, h0, h6, _⟩ | ⟨q, h0, h6⟩
        · rw [hp] at h0; cases h0
        · rw [hp] at h0
          have : c!":" = z := by simpa using congrArg List.head? h0
          subst this
          exact absurd h6 (by decide)
        · have hbx : bs = x ∨ bs = x ++ b!":" := by
            rcases hy with rfl | rfl
            · rcases List.append_eq_append_iff.1 he with ⟨a, ha, hb⟩ | ⟨a, ha, hb⟩
              · cases a with
                | nil => left; simpa using ha
                | cons c a => have := congrArg List.length hb; simp at this
              · cases a with
                | nil => left; simpa using ha.symm
                | cons c a =>
                  simp only [List.cons_append, List.cons.injEq] at hb
                  exact absurd (by rw [ha, ← hb.1]; simp) hx
            · rcases List.append_eq_append_iff.1 he with ⟨a, ha, hb⟩ | ⟨a, ha, hb⟩
              · match a, ha, hb with
                | [], ha, _ => left; simpa using ha
                | [c], ha, hb => right; simp at hb; rw [ha, ← hb.1]
                | _ :: _ :: _, _, hb => have := congrArg List.length hb; simp at this
              · cases a with
                | nil => left; simpa using ha.symm
                | cons c a =>
                  simp only [List.cons_append, List.cons.injEq] at hb
                  exact absurd (by rw [ha, ← hb.1]; simp) hx
          rcases hbx with rfl | rfl
          · exact h6 _ h2 List.suffix_rfl
          · refine hl.words b!"::" (by decide) ?_
            rw [hp]
            exact ⟨b :: x, [], by simp⟩
    have hpk : ∀ c, c ≠ 0 → [b, c] ∈ markupWords → s.peek ≠ c := by
      intro c h2 h3 h
      rw [← hs] at h
      exact hbad2 _ h3 (peek_infix h2 h)
    have hpq : b = c!"'" ∨ b = c!"\"" → s.peek ≠ c!"`" := by
      intro hb h
      rw [← hs] at h
      have h1 := peek_infix (by decide) h
      cases bs with
      | cons x xs =>
        have h2 : c!"`" = x := by simpa using h1
        exact hl.chars x (by simp) (by rw [← h2]; decide)
      | nil =>
        rcases hl.ends with h0 | ⟨x, y, h0, h2, h3⟩ | ⟨y, h0, _⟩
        · rw [h0] at h1; simp at h1
        rotate_left
        · rw [h0] at h1; simp at h1
        · rw [h0] at h1
          have h4 : c!"`" = x := by simpa using h1
          have := h3 h4.symm
          rcases hb with hb | hb <;> rw [hb] at this <;> simp at this
    have htag : s.startsEndTagLine = false := by rw [← hs]; rfl
    have hnew : s.startsNewLine = true → LineStart pre := by
      intro h
      rw [← hs] at h
      unfold startsNewLine at h
      simp only [Bool.or_eq_true, decide_eq_true_eq] at h
      rcases List.eq_nil_or_concat pre with rfl | ⟨q, x, rfl⟩
      · exact .inl rfl
      · rcases h with h | h
        · simp at h
        · right; simp at h; simp [h]
    have hnl : b ∈ b!"=./|(:" → s.startsNewLine = false := by
      intro hm
      cases hn : s.startsNewLine with
      | false => rfl
      | true => exact absurd hm (hfirst (hnew hn))
    have hrep : ∀ k, 2 ≤ k → [b, b] ∈ markupWords → s.startsRepeated b k = false := by
      intro k hk h
      unfold startsRepeated
      rw [Bool.and_eq_false_iff]; right
      simp only [decide_eq_false_iff_not]
      intro he
      rw [← hs] at he
      have h1 := peeks_prefix pre _ _ b k he (by
        intro h0
        have := congrArg List.length h0
        simp at this; omega)
      match k, hk with
      | k + 2, _ =>
        rw [show k + 2 - 1 = k + 1 from rfl, List.replicate_succ, List.cons_append] at h1
        exact hbad2 b h ((List.prefix_append [b] _).trans h1)
    have hI : b = c!"i" → s.scanI = s.addText := by
      intro hb
      unfold scanI
      rw [if_neg, if_neg, if_neg]
      · exact fun h => hcw b!"mage" b!":" _ (.inl rfl) (by decide) (by decide) (by rw [hb]; decide)
          ⟨b!"image:", by decide, by rw [hb]; exact List.infix_rfl⟩ h.1
      · simp only [Bool.and_eq_true, decide_eq_true_eq]
        exact fun h => hcw b!"mage" b!"::" _ (.inr rfl) (by decide) (by decide) (by rw [hb]; decide)
          ⟨b!"image:", by decide, by rw [hb]; exact ⟨[], b!":", rfl⟩⟩ h.2
      · simp only [Bool.and_eq_true, decide_eq_true_eq]
        exact fun h => hcw b!"nclude" b!"::" _ (.inr rfl) (by decide) (by decide) (by rw [hb]; decide)
          ⟨b!"::", by decide, by rw [hb]; exact ⟨b!"include", [], rfl⟩⟩ h.2
    have hQ : b = c!"'" → s.scanQuote = s.addText := by
      intro hb
      unfold scanQuote
      have hs1 : ∀ k r, 2 ≤ k → peeksAhead s k ≠ 115 :: r := by
        intro k r hk h
        rw [← hs] at h
        have h1 := peeks_prefix pre _ _ b k h (by simp)
        exact hbad2 115 (by rw [hb]; decide) ((List.prefix_append [115] r).trans h1)
      rw [if_neg (by rw [htag]; decide), if_neg, if_neg, if_neg]
      · rintro (h | h | ⟨_, h⟩)
        · exact hs1 _ _ (by decide) h
        · exact hs1 _ _ (by decide) h
        · exact hpk _ (by decide) (by rw [hb]; decide) h
      · exact fun h => hpq (.inl hb) h.2
      · rw [← hb, hrep 3 (by decide) (by rw [hb]; decide)]; decide
    have hD : b = c!"\"" → s.scanDouble = s.addText := by
      intro hb
      unfold scanDouble
      rw [if_neg (fun h => hpq (.inr hb) h.2)]
    have hM : b = c!"-" → s.scanDelimChar b = s.addText := by
      intro hb
      have h1 := hpk c!">" (by decide) (by rw [hb]; decide)
      have h2 := hpk c!"-" (by decide) (by rw [hb]; decide)
      have h3 := hrep 4 (by decide) (by rw [hb]; decide)
      have h4 := hrep 2 (by decide) (by rw [hb]; decide)
      rw [hb] at h3 h4 ⊢
      unfold scanDelimChar scanMinus startsEmdash
      simp only [htag, h3, h4, h1, h2, Bool.and_false, Bool.false_eq_true, if_false, decide_false, Bool.false_and]
      rfl
    have hst : ∀ w ∈ runStarts, ∀ c r, w = c :: r → (∀ x ∈ runEnds, x ∉ r) →
        (containsStr b!"::" r = false ∧ r.getLast? ≠ some c!":") → b = c → ¬r <+: bs ++ post := by
      intro w hw' c r he hr hcol hb h
      refine hl.starts w hw' ?_
      rw [he, hb]
      exact (List.prefix_cons_inj c).2 (prefix_run hl r bs hr hcol h)
    have hE : b = c!"=" → s.scanDelimChar b = s.addText := by
      intro hb
      have h1 := hnl (by rw [hb]; decide)
      have h2 : s.peek ≠ c!">" := by
        intro h
        rw [← hs] at h
        exact hst b!"=>" (by decide) _ _ rfl (by decide) (by decide) hb (peek_infix (by decide) h)
      rw [hb]
      unfold scanDelimChar scanEquals
      simp only [htag, h1, h2, Bool.false_and, Bool.false_eq_true, if_false, if_true]
    have hS : b = c!"/" → s.scanDelimChar b = s.addText := by
      intro hb
      have h1 := hnl (by rw [hb]; decide)
      rw [hb]
      unfold scanDelimChar scanSlash
      simp only [htag, h1, Bool.false_and, Bool.false_eq_true, if_false]
      rfl
    have hDot : b = c!"." → s.scanDelimChar b = s.addText := by
      intro hb
      have h1 := hnl (by rw [hb]; decide)
      have h2 : peeksAhead s 2 ≠ b!".." := by
        intro h
        rw [← hs] at h
        exact hst b!"..." (by decide) _ _ rfl (by decide) (by decide) hb (peeks_prefix pre _ _ b 2 h (by decide))
      rw [hb]
      unfold scanDelimChar scanDot
      simp only [htag, h1, h2, Bool.false_and, Bool.false_eq_true, if_false]
      rfl
    have hP : b = c!"(" → s.startsParens = false := by
      intro hb
      unfold startsParens
      simp only [Bool.or_eq_false_iff, decide_eq_false_iff_not]
      refine ⟨⟨fun h => ?_, fun h => ?_⟩, fun h => ?_⟩ <;> rw [← hs] at h
      · exact hst b!"(C)" (by decide) _ _ rfl (by decide) (by decide) hb (peeks_prefix pre _ _ b 2 h (by decide))
      · exact hst b!"(R)" (by decide) _ _ rfl (by decide) (by decide) hb (peeks_prefix pre _ _ b 2 h (by decide))
      · exact hst b!"(TM)" (by decide) _ _ rfl (by decide) (by decide) hb (peeks_prefix pre _ _ b 3 h (by decide))
    have hPipe : b = c!"|" → s.scanPipe = s.addText := by
      intro hb
      have h1 := hnl (by rw [hb]; decide)
      have h2 : s.peekBack ≠ c!" " := by
        intro h
        rw [← hs] at h
        unfold peekBack at h
        rcases List.eq_nil_or_concat pre with rfl | ⟨q, x, rfl⟩
        · simp at h
        · refine hpipe hb ?_
          rw [if_neg (by simp)] at h
          rcases peekAt_cases (q.concat x ++ (b :: bs ++ post)) ((q.concat x).length - 1) with h0 | h0
          · dsimp only at h; rw [h0] at h; cases h
          · dsimp only at h
            rw [h] at h0
            simpa using h0
      unfold scanPipe
      simp only [h1, h2, Bool.false_and, Bool.false_or, Bool.false_eq_true, if_false, decide_false]
    have hC : b = c!":" → s.scanColon = s.addText := by
      intro hb
      have hn := hnl (by rw [hb]; decide)
      unfold scanColon scanColonRest
      rw [if_neg (by rw [hn]; decide), if_neg]
      rintro ⟨_, h | h⟩
      · exact hw _ _ (by decide) (by decide) (by decide) ⟨b!"::", by decide, by rw [hb]; exact ⟨[], b!" ", rfl⟩⟩ h
      · rw [← hs] at h
        have h1 := peeks_prefix pre _ _ b 2 h (by decide)
        exact hbad2 c!":" (by rw [hb]; decide) ((show [c!":"] <+: b!":\n" from ⟨b!"\n", rfl⟩).trans h1)
    simp only [List.mem_cons, List.not_mem_nil, or_false, not_or] at hbc
    obtain ⟨h1, h2, h3, h4, h5, h6, h7, h8, h9, h10, h11, h12, h13⟩ := hbc
    unfold dispatch
    simp only [h1, h2, h3, h4, h5, h6, h7, h8, h9, h10, h11, h12, h13, false_or,
      if_false, scanWord, scanSpace, htag, Bool.false_eq_true]
    have hbr : ∀ w k, (∀ c ∈ runEnds, c ∉ w) → (containsStr b!"::" w = false ∧ w.getLast? ≠ some c!":") → w ≠ [0] →
        c!"[" ∈ w → peeksAhead s k ≠ w := by
      intro w k q1 hcol q2 q3 h
      rw [← hs] at h
      exact hl.chars _ ((word_infix hl q1 hcol q2 h).subset (List.mem_cons_of_mem _ q3)) (by decide)
    refine ite_same (fun h => hQ h) fun _ => ?_
    refine ite_same (fun h => ?_) fun _ => ?_
    · rcases h with h | h | h | h
      · exact hM h
      · exact hS h
      · exact hE h
      · exact hDot h
    refine ite_same (fun h => hC h) fun _ => ?_
    refine ite_same (fun h => if_neg (by rw [hP h]; decide)) fun _ => ?_
    refine ite_same (fun h => if_neg (hbr _ _ (by decide) (by decide) (by decide) (by decide))) fun _ => ?_
    refine ite_same (fun h => if_neg (hbr _ _ (by decide) (by decide) (by decide) (by decide))) fun _ => ?_
    refine ite_same (fun h => if_neg (hw _ _ (by decide) (by decide) (by decide) ⟨b!"http", by decide, by rw [h]; exact ⟨[], [], rfl⟩⟩)) fun _ => ?_
    refine ite_same (fun h => hI h) fun _ => ?_
    refine ite_same (fun h => if_neg (hcw b!"ag" b!"::" _ (.inr rfl) (by decide) (by decide) (by rw [h]; decide)
      ⟨b!"::", by decide, by rw [h]; exact ⟨b!"tag", [], rfl⟩⟩)) fun _ => ?_
    refine ite_same (fun h => if_neg (hcw b!"nd" b!"::" _ (.inr rfl) (by decide) (by decide) (by rw [h]; decide)
      ⟨b!"::", by decide, by rw [h]; exact ⟨b!"end", [], rfl⟩⟩)) fun _ => ?_
    refine ite_same (fun h => if_neg (hw _ _ (by decide) (by decide) (by decide) ⟨b!"NOTE: ", by decide, by rw [h]; exact ⟨[], [], rfl⟩⟩)) fun _ => ?_
    refine ite_same (fun h => if_neg (hw _ _ (by decide) (by decide) (by decide) ⟨b!"TIP: ", by decide, by rw [h]; exact ⟨[], [], rfl⟩⟩)) fun _ => ?_
    refine ite_same (fun h => if_neg (hw _ _ (by decide) (by decide) (by decide) ⟨b!"IMPORTANT: ", by decide, by rw [h]; exact ⟨[], [], rfl⟩⟩)) fun _ => ?_
    refine ite_same (fun h => if_neg (hw _ _ (by decide) (by decide) (by decide) ⟨b!"CAUTION: ", by decide, by rw [h]; exact ⟨[], [], rfl⟩⟩)) fun _ => ?_
    refine ite_same (fun h => if_neg (hw _ _ (by decide) (by decide) (by decide) ⟨b!"WARNING: ", by decide, by rw [h]; exact ⟨[], [], rfl⟩⟩)) fun _ => ?_
    refine ite_same (fun h => hPipe h) fun _ => ?_
    refine ite_same (fun h => hD h) fun _ => ?_
    simp only [ite_self]

/-- A run of plain text is scanned to text tokens that make it up. -/
theorem trace_run (pre l post : Str) (st col n : Nat) (fs : List Str) (hl : Run pre l post) :
    ∃ ts st', Pieces n fs col l ts ∧ Trace (cut pre (l ++ post) st col n fs) (ts.map .tok)
      (cut (pre ++ l) post st' (col + l.length) n fs) := by
  induction hk : l.length using Nat.strongRecOn generalizing pre l st col with
  | _ k ih =>
    obtain ⟨x, rest, rfl, hx, hr, hn⟩ := next_text pre l post st col n fs hl
    rcases hr with rfl | hr
    · refine ⟨[_], pre.length, .cons col x [] [] hx (.nil _), .cons hn rfl ?_⟩
      rw [← hk, List.append_nil]
      exact Trace.nil _
    · have hxl : 0 < x.length := List.length_pos_iff.2 hx
      obtain ⟨ts, st', h1, h2⟩ := ih rest.length (by rw [← hk]; simp; omega) (pre ++ x) rest pre.length (col + x.length)
        hr rfl
      refine ⟨_ :: ts, st', .cons col x rest ts hx h1, .cons hn rfl ?_⟩
      rw [← hk, List.length_append, ← Nat.add_assoc, ← List.append_assoc pre]
      exact h2

/-- A plain line is scanned to text tokens that make it up. -/
theorem trace_text (pre l post : Str) (st col n : Nat) (fs : List Str) (hl : Mid pre l) (hp : AfterLine post) :
    ∃ ts st', Pieces n fs col l ts ∧ Trace (cut pre (l ++ post) st col n fs) (ts.map .tok)
      (cut (pre ++ l) post st' (col + l.length) n fs) := trace_run pre l post st col n fs (hl.run hp)

/-- A newline token. -/
def newline (n col : Nat) (fs : List Str) : Token := ⟨.newLineChar, b!"\n", none, n, col, col, fs⟩

theorem next_newline (pre post : Str) (st col n : Nat) (fs : List Str) (hp : Starts post) :
    (cut pre (10 :: post) st col n fs).next = some (.tok (newline n col fs), cut (pre ++ [10]) post pre.length 1 (n + 1) fs) := by
  have hget : (pre ++ 10 :: post).getD pre.length 0 = 10 := by simp
  unfold next isAtEnd
  rw [if_neg (by simp [cut])]
  unfold scanToken
  simp only [cut, hget]
  unfold dispatch addToken
  have := slice_mid pre [10] post (starts_ascii _ _ (by decide)) hp
  simp only [List.cons_append, List.nil_append, List.length_cons, List.length_nil, Nat.zero_add] at this
  simp [this, Token.validate, newline]

theorem runF_of_trace {s s' : Scanner} {its : List Item} (h : Trace s its s') (n : Nat) :
    runF (its.length + n) s = its ++ runF n s' := by
  induction h with
  | nil => simp
  | cons h hr _ ih =>
    rw [List.length_cons, Nat.add_right_comm, runF_succ, h]
    simp only [hr, if_true, ih, List.cons_append]

theorem Trace.append {s s1 s' : Scanner} {a b : List Item} (h1 : Trace s a s1) (h2 : Trace s1 b s') :
    Trace s (a ++ b) s' := by
  induction h1 with
  | nil => exact h2
  | cons h hr _ ih => exact .cons h hr (ih h2)

/-- A trace that reaches the end of the source is the whole scan. -/
theorem run_of_trace {src pre : Str} {its : List Item} {st col n : Nat} {fs : List Str}
    (h : Trace (newWithStack src fs) its (cut pre [] st col n fs)) : (newWithStack src fs).run = its ++ [.tok (Token.final n fs)] := by
  have hend : (cut pre [] st col n fs).next = some (.tok (Token.final n fs), { cut pre [] st col n fs with scanning := false }) := by
    unfold next isAtEnd; simp [cut]
  have h2 : Trace (newWithStack src fs) (its ++ [.tok (Token.final n fs)]) { cut pre [] st col n fs with scanning := false } :=
    h.append (.cons hend rfl (.nil _))
  have h3 := runF_of_trace h2 (src.length + 2)
  obtain ⟨_, _, _, _, _, _, h5⟩ := run_shape (src.length + 2) (newWithStack src fs) rfl (by simp [newWithStack])
  rw [h5 _ (by omega)] at h3
  refine Eq.trans h3 ?_
  rw [runF_succ]
  simp [next, isAtEnd, cut]

theorem scan_of_trace {src pre : Str} {its : List Item} {st col n : Nat}
    (h : Trace (Scanner.new src) its (cut pre [] st col n [])) : scan src = its ++ [.tok (Token.final n [])] := run_of_trace h

end Adoc.Scanner
