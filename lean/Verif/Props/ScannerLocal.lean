import Verif.Props.ScannerText
import Verif.Proof.ScanShift
/-!
# Properties of the scanner: C08
-/
namespace Adoc.Props
open Adoc Scanner

/-- An item of a text that begins `l` lines further down. -/
def shiftItem (l : Nat) : Item → Item
  | .tok t => .tok { t with line := t.line + l }
  | .err (.headingLevel n) => .err (.headingLevel (n + l))
  | it => it

/-- **C08**, partial: after a newline token that ends the text `a`, the rest of the scan of `a ++ b` is the scan of
`b` with the line numbers shifted.

Missing from the full statement: texts `b` that themselves contain an opening include tag. For those the claim is
false, see `C08_closing_tag_column_is_absolute`. -/
theorem C08_local_partial (a b : Str) (toks : List Token) (nl : Token) (rest : List Item)
    (h : scan (a ++ b) = toks.map .tok ++ .tok nl :: rest) (hn : ∀ t ∈ toks, ¬IsTag t) (hnl : nl.ty = .newLineChar)
    (ha : a = source (toks ++ [nl])) (hb : ∀ t, .tok t ∈ scan b → t.ty ≠ .startTag) :
    rest = (scan b).map (shiftItem nl.line) := by
  have hn' : ∀ t ∈ toks ++ [nl], ¬IsTag t := by
    intro t ht
    rcases List.mem_append.1 ht with ht | ht
    · exact hn t ht
    · simp only [List.mem_singleton] at ht; subst ht
      rintro (h | h) <;> rw [h] at hnl <;> cases hnl
  let m := (a ++ b).length + 2 + (toks.length + 1)
  have hm : runF m (Scanner.new (a ++ b)) = (toks ++ [nl]).map .tok ++ rest := by
    rw [C03_scan_is_whole_iteration _ _ (by omega), h]; simp
  obtain ⟨s1, h1, h2⟩ := trace_of_runF (pre := toks.map .tok) (rest := .tok nl :: rest) (n := m)
    (by rw [hm]; simp) (by intro it hi; obtain ⟨t, _, rfl⟩ := List.mem_map.1 hi; rfl)
  obtain ⟨s2, hnx⟩ := runF_head h2
  have htr : Trace (Scanner.new (a ++ b)) ((toks ++ [nl]).map .tok) s2 := by
    rw [List.map_append]
    exact trace_append h1 (.cons hnx rfl (.nil _))
  obtain ⟨k1, k2⟩ := trace_state htr hn'
  obtain ⟨k3, k4, _⟩ := trace_src htr
  have hplain : Plain s1 nl s2 ∧ s2.scanning = true := by
    cases next_spec hnx with
    | eof => cases hnl
    | plain _ _ hlt hp _ =>
      refine ⟨hp, ?_⟩
      -- a scanner that is not at its end is still scanning
      have : ∀ (s s' : Scanner) its, Trace s its s' → s.scanning = true → s'.current < s'.src.length → s'.scanning = true := by
        intro s s' its ht
        induction ht with
        | nil => intro h _; exact h
        | cons hnx' hr ht ih =>
          intro hs hl
          refine ih ?_ hl
          cases next_spec hnx' with
          | eof hle _ =>
            exfalso
            have := trace_src ht
            dsimp only at this
            rw [this.1] at hl
            omega
          | plain _ _ _ hp => rw [hp.scanning, hs]
          | tag _ _ _ hp => rw [hp.scanning, hs]
          | err _ _ _ hp => rw [hp.scanning, hs]
          | panic => cases hr
          | hang => cases hr
      rw [hp.scanning]
      exact this _ _ _ h1 rfl hlt
    | tag _ _ _ ht => exfalso; rcases ht.ty with h | h <;> rw [h.1] at hnl <;> cases hnl
  obtain ⟨hp, hsc⟩ := hplain
  obtain ⟨l1, l2, l3⟩ := hp.nl hnl
  have hcur : s2.current = a.length := by simpa [Scanner.new, newWithStack, ha] using k1
  have hsrc : s2.src = a ++ b := k3
  have hbef : Before a (Scanner.new b).src := by
    refine ⟨?_, ?_⟩
    · rw [ha]; simp [source, l1]
    · have := hp.bend
      rw [← hp.src, hsrc, hcur] at this
      exact this
  have hs2 : s2 = { sh a nl.line (Scanner.new b) with start := s2.start } := by
    obtain ⟨src, start, startcol, current, line, scanning, expecting, fs⟩ := s2
    simp only [sh, Scanner.new, newWithStack] at *
    subst hsrc hcur l3 hsc
    rw [k2, k4, l2, hp.line]; rfl
  obtain ⟨_, htr', hrun⟩ := trace_of_runF hm (by intro it hi; obtain ⟨t, _, rfl⟩ := List.mem_map.1 hi; rfl)
  have huniq : ∀ (s x y : Scanner) its, Trace s its x → Trace s its y → x = y := by
    intro s x y its hx
    induction hx with
    | nil => intro hy; cases hy; rfl
    | cons h _ _ ih =>
      intro hy
      cases hy with
      | cons h' _ hy' => rw [h] at h'; cases h'; exact ih hy'
  rw [huniq _ _ _ _ htr' htr, hs2, runF_start] at hrun
  rw [← hrun]
  have hfuel : b.length + 2 ≤ m - ((toks ++ [nl]).map Item.tok).length := by
    simp only [m, List.length_map, List.length_append, List.length_singleton]; omega
  have hscan := C03_scan_is_whole_iteration b _ hfuel
  rw [sh_runF _ _ hbef rfl (by rw [hscan]; intro it hi u hu; subst hu; exact hb u hi), hscan]
  apply List.map_congr_left
  intro it _
  cases it with
  | tok t => simp [shItem, shiftItem, Nat.add_comm]
  | err e => cases e <;> simp [shItem, shiftItem, Nat.add_comm]
  | panic => rfl
  | hang => rfl

example : ∃ (toks : List Token) (nl : Token) (rest : List Item),
    scan (b!"a *b*\n" ++ b!"+\n====== x\n'`c`'\n") = toks.map .tok ++ .tok nl :: rest ∧ (∀ t ∈ toks, ¬IsTag t)
      ∧ nl.ty = .newLineChar ∧ b!"a *b*\n" = source (toks ++ [nl]) ∧ 5 ≤ rest.length
      ∧ ∀ it ∈ scan b!"+\n====== x\n'`c`'\n", it.tok?.all (·.ty ≠ .startTag) = true :=
  ⟨((scan b!"a *b*\n").take 4).filterMap Item.tok?, ⟨.newLineChar, [10], none, 1, 6, 6, []⟩,
    (scan (b!"a *b*\n" ++ b!"+\n====== x\n'`c`'\n")).drop 5, by decide, by unfold IsTag; decide, by decide, by decide,
    by decide, by decide⟩

/-- **C08** does not hold as stated: the column of a closing include tag is its byte offset in the whole source, so
the same tagged lines scan differently after another line. -/
theorem C08_closing_tag_column_is_absolute :
    ∃ (a b : Str) (nl : Token) (x : Token) (rest : List Item), scan (a ++ b) = .tok x :: .tok nl :: rest ∧ ¬IsTag x
      ∧ nl.ty = .newLineChar ∧ a = source [x, nl] ∧ rest ≠ (scan b).map (shiftItem nl.line) :=
  ⟨b!"z\n", b!"# tag::a[]\nx\n# end::a[]\n", ⟨.newLineChar, [10], none, 1, 2, 2, []⟩, ⟨.text, b!"z", some b!"z", 1, 1, 1, []⟩,
    (scan b!"z\n# tag::a[]\nx\n# end::a[]\n").drop 2, by decide, by unfold IsTag; decide, by decide, by decide, by decide⟩

end Adoc.Props
