import Verif.Model.Scanner
/-! # Lemmas on the scanner: every step has one of a few shapes -/
namespace Adoc.Scanner

theorem advF_ge (src : Str) (p : UInt8 → Bool) (n i : Nat) : i ≤ advF src p n i := by
  induction n generalizing i with
  | zero => simp [advF]
  | succ n ih => rw [advF]; split
                 · have := ih (i + 1); omega
                 · omega

theorem adv_ge (src : Str) (p : UInt8 → Bool) (i : Nat) : i ≤ adv src p i := advF_ge ..

theorem advF_le (src : Str) (p : UInt8 → Bool) (n i : Nat) (h : i ≤ src.length) :
    advF src p n i ≤ src.length := by
  induction n generalizing i with
  | zero => simpa [advF]
  | succ n ih => rw [advF]; split
                 · exact ih _ (by omega)
                 · omega

theorem adv_le (src : Str) (p : UInt8 → Bool) (i : Nat) (h : i ≤ src.length) :
    adv src p i ≤ src.length := advF_le _ _ _ _ h

/-- Every position passed by `adv` satisfies the loop condition. -/
theorem advF_all (src : Str) (p : UInt8 → Bool) (n i k : Nat) (h1 : i ≤ k) (h2 : k < advF src p n i) :
    k < src.length ∧ p (peekAt src k) = true := by
  induction n generalizing i with
  | zero => simp [advF] at h2; omega
  | succ n ih =>
    rw [advF] at h2
    split at h2
    · rename_i hc
      by_cases hk : k = i
      · subst hk; exact hc
      · exact ih (i + 1) (by omega) h2
    · omega

theorem adv_all (src : Str) (p : UInt8 → Bool) (i k : Nat) (h1 : i ≤ k) (h2 : k < adv src p i) :
    k < src.length ∧ p (peekAt src k) = true := advF_all _ _ _ _ _ h1 h2

theorem advF_stop (src : Str) (p : UInt8 → Bool) (n i : Nat) (hn : src.length - i ≤ n)
    (h : advF src p n i < src.length) : p (peekAt src (advF src p n i)) = false := by
  induction n generalizing i with
  | zero => simp [advF] at h ⊢; omega
  | succ n ih =>
    rw [advF] at h ⊢
    split
    · rename_i hc; rw [if_pos hc] at h; exact ih (i + 1) (by omega) h
    · rename_i hc; rw [if_neg hc] at h; simp only [h, true_and] at hc; simpa using hc

/-- Where `adv` stops inside the source, the loop condition is false. -/
theorem adv_stop (src : Str) (p : UInt8 → Bool) (i : Nat) (h : adv src p i < src.length) :
    p (peekAt src (adv src p i)) = false := advF_stop _ _ _ _ (Nat.le_refl _) h

theorem tableCellEnd_ge (src : Str) (n i : Nat) : i ≤ tableCellEnd src n i := by
  induction n generalizing i with
  | zero => simp [tableCellEnd]
  | succ n ih =>
    rw [tableCellEnd]
    have := adv_ge src (fun b => b ≠ c!"\n" && b ≠ 0 && b ≠ c!"|") i
    split
    · have := ih (adv src (fun b => b ≠ c!"\n" && b ≠ 0 && b ≠ c!"|") i + 1); omega
    · assumption

theorem linkEnd_ge (src : Str) (n i : Nat) : i ≤ (linkEnd src n i).2 := by
  induction n generalizing i with
  | zero => simp [linkEnd]
  | succ n ih =>
    rw [linkEnd]
    have := adv_ge src (fun b => b ≠ 0 && b ≠ c!" " && !isAsciiPunct b) i
    have := ih (adv src (fun b => b ≠ 0 && b ≠ c!" " && !isAsciiPunct b) i + 1)
    dsimp only
    repeat' split
    all_goals first | omega | (dsimp only; omega)

theorem linkEnd_ty (src : Str) (n i : Nat) :
    (linkEnd src n i).1 = .hyperlink ∨ (linkEnd src n i).1 = .linkMacro := by
  induction n generalizing i with
  | zero => simp [linkEnd]
  | succ n ih =>
    rw [linkEnd]; dsimp only
    repeat' split
    all_goals first | exact ih _ | simp

theorem findPat_ge (src pat : Str) (n i j : Nat) (h : findPat src pat n i = some j) : i ≤ j := by
  induction n generalizing i with
  | zero => simp [findPat] at h; omega
  | succ n ih =>
    rw [findPat] at h
    repeat' split at h
    all_goals first | cases h | skip
    all_goals first | omega | skip
    have := ih _ h; omega

/-- Token types about which `Ok` says something. -/
def special : TokenType → Bool
  | .eof | .startTag | .endTag | .newLineChar
  | .passthroughBlock | .sidebarBlock | .sourceBlock | .quoteVerseBlock | .commentBlock | .literalBlock | .exampleBlock
  | .heading1 | .heading2 | .heading3 | .heading4 | .heading5 => true
  | _ => false

/-- Heading token of a level. -/
def headingOf : Nat → Option TokenType
  | 1 => some .heading1
  | 2 => some .heading2
  | 3 => some .heading3
  | 4 => some .heading4
  | 5 => some .heading5
  | _ => none

/-- What is known when a step from `s` ends at `e` with a token of type `ty`. -/
inductive Ok (s : Scanner) (e : Nat) (ty : TokenType) : Prop where
  | simple (h : special ty = false)
  | delim (c : UInt8) (hc : s.src.getD s.start 0 = c) (hn : s.startsNewLine = true) (he : e = s.start + 4)
      (hr : startsRepeated { s with current := s.start + 1 } c 4 = true)
      (hty : TokenType.blockFromChar c = some ty)
  | heading (n : Nat) (hc : s.src.getD s.start 0 = c!"=") (hn : s.startsNewLine = true)
      (he : adv s.src (· = c!"=") (s.start + 1) = s.start + n) (he' : e = s.start + n + 1)
      (hty : headingOf n = some ty)

/-- The shapes of one scanning step from `s` (with `s.start = s.current`). -/
inductive Step (s : Scanner) : Item × Scanner → Prop where
  /-- a token other than a newline, an include tag or the end of input -/
  | tok (e : Nat) (ty : TokenType) (lit : Bool) (he : s.start < e) (hty : Ok s e ty) :
      Step s (addToken { s with current := e } ty lit 0)
  /-- a newline -/
  | nl (hc : s.src.getD s.start 0 = c!"\n") :
      Step s (addToken { s with current := s.start + 1 } .newLineChar false 1)
  | tag : Step s (addTag { s with current := s.start + 1 })
  | err (x : ScanError) (e : Nat) (he : s.start < e) : Step s (.err x, { s with current := e })
  | panic (p : Site) (s' : Scanner) : Step s (.panic p, s')
  | hang (s' : Scanner) : Step s (.hang, s')

/-- A scanner that has just consumed something beyond `start`. -/
abbrev at_ (s : Scanner) (k : Nat) : Scanner := { s with current := k }

theorem Step.text {s : Scanner} {k : Nat} (h : s.start < k) : Step s (addText (at_ s k)) := by
  refine Step.tok _ _ _ ?_ (.simple rfl)
  have := adv_ge s.src (fun b => !isStop b) k
  simp only []; omega

theorem Step.bracket {s : Scanner} {k : Nat} (h : s.start < k) (ty : TokenType)
    (hty : special ty = false) :
    Step s (addThroughBracket (at_ s k) ty) := by
  unfold addThroughBracket
  have := adv_ge s.src (· ≠ c!"]") k
  dsimp only
  split
  · exact .hang _
  · exact .tok _ _ _ (by omega) (.simple hty)

theorem Step.parens {s : Scanner} {k : Nat} (h : s.start < k) : Step s (addParens (at_ s k)) := by
  unfold addParens
  have := adv_ge s.src (· ≠ c!")") k
  dsimp only
  split
  · exact .hang _
  · exact .tok _ _ _ (by omega) (.simple rfl)

theorem Step.formatting {s : Scanner} {k : Nat} (h : s.start < k) (c : UInt8) (t u : TokenType)
    (ht : special t = false) (hu : special u = false) :
    Step s (inlineFormatting (at_ s k) c t u) := by
  unfold inlineFormatting
  split
  · exact .text h
  · split
    · exact .tok (k + 1) _ _ (by omega) (.simple hu)
    · split
      · exact .tok k _ _ h (.simple ht)
      · exact .text h

theorem Step.heading {s : Scanner} (hc : s.src.getD s.start 0 = c!"=") (hn : s.startsNewLine = true) :
    Step s (addHeading (at_ s (s.start + 1))) := by
  unfold addHeading
  have := adv_ge s.src (· = c!"=") (s.start + 1)
  dsimp only
  repeat' split
  all_goals first
    | (rename_i hm
       exact Step.tok (s := s) (adv s.src (· = c!"=") (s.start + 1) + 1) _ _ (by omega)
        (Ok.heading (s := s) (adv s.src (· = c!"=") (s.start + 1) - s.start) hc hn (by omega) (by omega)
          (by rw [show adv s.src (· = c!"=") (s.start + 1) - s.start
                = adv s.src (· = c!"=") (s.start + 1) + 1 - 1 - s.start by omega, hm]; rfl)))
    | exact .err _ (adv s.src (· = c!"=") (s.start + 1) + 1) (by omega)

theorem Step.link {s : Scanner} {k : Nat} (h : s.start < k) : Step s (addLink (at_ s k)) := by
  unfold addLink
  have h1 := linkEnd_ge s.src (s.src.length + 1 - k) k
  have h2 := linkEnd_ty s.src (s.src.length + 1 - k) k
  refine .tok _ _ _ (by dsimp only; omega) ?_
  dsimp only
  rcases h2 with h2 | h2 <;> rw [h2] <;> exact .simple rfl

theorem Step.cell {s : Scanner} {k : Nat} (h : s.start < k) : Step s (addTableCell (at_ s k)) := by
  have h1 := tableCellEnd_ge s.src (s.src.length + 1 - k) k
  exact .tok _ _ _ (by dsimp only; omega) (.simple rfl)

theorem Step.xref {s : Scanner} {k : Nat} (h : s.start < k) : Step s (addCrossReference (at_ s k)) := by
  unfold addCrossReference
  split
  · exact .panic _ _
  · rename_i i hi
    have := findPat_ge _ _ _ _ _ hi
    dsimp only at this
    exact .tok _ _ _ (by omega) (.simple rfl)

theorem Step.anchor {s : Scanner} {k : Nat} (h : s.start < k) : Step s (addBlockAnchor (at_ s k)) := by
  unfold addBlockAnchor
  split
  · exact .panic _ _
  · rename_i i hi
    have := findPat_ge _ _ _ _ _ hi
    dsimp only at this
    exact .tok _ _ _ (by omega) (.simple rfl)

theorem calloutScan_eq (s : Scanner) (k : Nat) :
    ∃ b j, k ≤ j ∧ calloutScan (at_ s k) = (b, at_ s j) := by
  unfold calloutScan
  have := adv_ge s.src isDigit k
  dsimp only
  split
  · exact ⟨_, adv s.src isDigit k + 1, by omega, rfl⟩
  · exact ⟨_, adv s.src isDigit k, by omega, rfl⟩

theorem Step.callouts {s : Scanner} {k : Nat} (h : s.start < k) : Step s (scanCallouts (at_ s k)) := by
  have fin : ∀ j, k ≤ j → Step s
      (if (startsCallout (at_ s j)).1 = true then
        addToken (startsCallout (at_ s j)).2 .codeCallout true 0 else (startsCallout (at_ s j)).2.addText) := by
    intro j hj
    obtain ⟨b, i, hi, e⟩ := calloutScan_eq s j
    unfold startsCallout
    rw [e]; dsimp only
    split
    · exact .tok i _ _ (by omega) (.simple rfl)
    · exact .text (by omega)
  unfold scanCallouts
  split
  · obtain ⟨b, i, hi, e⟩ := calloutScan_eq s k
    unfold startsCalloutListItem
    rw [e]; dsimp only
    split
    · exact .tok (i + 1) _ _ (by omega) (.simple rfl)
    · exact fin i hi
  · exact fin k (Nat.le_refl _)

theorem attributionType_ty (b : UInt8) :
    special (attributionType b) = false := by
  unfold attributionType
  repeat' split
  all_goals decide

theorem attributionEnd_ge (s : Scanner) (k j : Nat) (h : attributionEnd (at_ s k) = some j) : k ≤ j := by
  unfold attributionEnd at h
  dsimp only at h
  split at h
  · cases h; exact adv_ge ..
  · cases h

theorem Step.ite {s : Scanner} {p : Prop} [Decidable p] {a b : Item × Scanner}
    (h1 : p → Step s a) (h2 : ¬p → Step s b) : Step s (if p then a else b) := by
  by_cases h : p
  · rw [if_pos h]; exact h1 h
  · rw [if_neg h]; exact h2 h

/-- One scanning step has one of the shapes of `Step`. -/
theorem step_scanToken (s : Scanner) (h : s.start = s.current) : Step s (scanToken s) := by
  have hcur : s.start < s.start + 1 := Nat.lt_succ_self _
  have key : ∀ ty lit k, special ty = false →
      Step s (addToken (at_ s (s.start + 1 + k)) ty lit 0) :=
    fun ty lit k hty => .tok _ _ _ (by omega) (.simple hty)
  have key0 : ∀ ty lit, special ty = false →
      Step s (addToken (at_ s (s.start + 1)) ty lit 0) :=
    fun ty lit hty => .tok _ _ _ (by omega) (.simple hty)
  unfold scanToken
  rw [← h]
  unfold dispatch
  refine .ite (fun hc => ?_) (fun _ => ?_)
  · exact .nl hc
  refine .ite (fun _ => ?_) (fun _ => ?_)
  · unfold scanQuote; repeat' split
    · exact .tag
    · exact key _ _ 2 rfl
    · exact key _ _ 1 rfl
    · exact key0 _ _ rfl
    · exact .text hcur
  refine .ite (fun _ => ?_) (fun _ => ?_)
  · unfold scanLess; repeat' split
    · exact .tag
    · exact key _ _ 2 rfl
    · exact key _ _ 1 rfl
    · exact .xref hcur
    · exact .callouts hcur
  refine .ite (fun _ => ?_) (fun _ => ?_)
  · unfold scanDelimChar
    split
    · exact .tag
    split
    · rename_i hd
      simp only [Bool.and_eq_true] at hd
      split
      · rename_i hty; exact .tok _ _ _ (by dsimp only; omega) (.delim _ rfl hd.1 rfl hd.2 hty)
      · exact .err _ _ (by dsimp only; omega)
    split
    · rename_i hc
      unfold scanEquals; split
      · exact key _ _ 1 rfl
      · split
        · rename_i hn; exact .heading hc hn
        · exact .text hcur
    split
    · unfold scanMinus; repeat' split
      · exact key _ _ 1 rfl
      · exact key _ _ 1 rfl
      · exact key _ _ 1 rfl
      · exact .text hcur
    split
    · unfold scanStar; repeat' split
      · exact key _ _ 1 rfl
      · exact .formatting hcur _ _ _ rfl rfl
    split
    · unfold scanSlash; repeat' split
      · exact .tag
      · exact key _ _ 2 rfl
      · have := adv_ge s.src (· ≠ c!"\n") (s.start + 1)
        exact .tok _ _ _ (by dsimp only; omega) (.simple rfl)
      · exact .text hcur
    split
    · unfold scanPlus; repeat' split
      · exact key0 _ _ rfl
      · exact key0 _ _ rfl
      · exact .formatting hcur _ _ _ rfl rfl
    split
    · exact .formatting hcur _ _ _ rfl rfl
    split
    · unfold scanDot; repeat' split
      · exact key _ _ 2 rfl
      · exact key _ _ 1 rfl
      · exact key0 _ _ rfl
      · exact .text hcur
    · exact .text hcur
  refine .ite (fun _ => ?_) (fun _ => ?_)
  · unfold scanBracket
    split
    · exact .anchor hcur
    · split
      · rename_i hj
        have := attributionEnd_ge _ _ _ hj
        exact .tok _ _ _ (by omega) (.simple (attributionType_ty _))
      · split
        · exact .bracket hcur _ rfl
        · exact .text hcur
  refine .ite (fun _ => ?_) (fun _ => ?_)
  · unfold scanBacktick; repeat' split
    · exact key _ _ 1 rfl
    · exact key _ _ 1 rfl
    · exact .formatting hcur _ _ _ rfl rfl
  refine .ite (fun _ => ?_) (fun _ => ?_)
  · exact key0 _ _ rfl
  refine .ite (fun _ => ?_) (fun _ => ?_)
  · exact key0 _ _ rfl
  refine .ite (fun _ => ?_) (fun _ => ?_)
  · unfold scanHash; split
    · exact .tag
    · exact .formatting hcur _ _ _ rfl rfl
  refine .ite (fun _ => ?_) (fun _ => ?_)
  · have hr : Step s (scanColonRest (at_ s (s.start + 1))) := by
      unfold scanColonRest; split
      · exact key _ _ 2 rfl
      · exact .text hcur
    unfold scanColon; split
    · split
      · exact .panic _ _
      · have := adv_ge s.src (· ≠ c!"\n") (s.start + 1)
        dsimp only
        split
        · exact .hang _
        · exact .tok _ _ _ (by omega) (.simple rfl)
      · exact hr
    · exact hr
  refine .ite (fun _ => ?_) (fun _ => ?_)
  · split
    · exact .parens hcur
    · exact .text hcur
  have word : ∀ rest ty lit, special ty = false →
      Step s (scanWord (at_ s (s.start + 1)) rest ty lit) := by
    intro rest ty lit hty
    unfold scanWord; split
    · exact key _ _ _ hty
    · exact .text hcur
  refine .ite (fun _ => ?_) (fun _ => ?_)
  · exact word _ _ _ rfl
  refine .ite (fun _ => ?_) (fun _ => ?_)
  · exact word _ _ _ rfl
  refine .ite (fun _ => ?_) (fun _ => ?_)
  · split
    · exact .link hcur
    · exact .text hcur
  refine .ite (fun _ => ?_) (fun _ => ?_)
  · unfold scanI; repeat' split
    · exact .bracket hcur _ rfl
    · exact .bracket hcur _ rfl
    · exact .bracket hcur _ rfl
    · exact .text hcur
  refine .ite (fun _ => ?_) (fun _ => ?_)
  · split
    · exact .tag
    · exact .text hcur
  refine .ite (fun _ => ?_) (fun _ => ?_)
  · split
    · exact .tag
    · exact .text hcur
  refine .ite (fun _ => ?_) (fun _ => ?_)
  · exact word _ _ _ rfl
  refine .ite (fun _ => ?_) (fun _ => ?_)
  · exact word _ _ _ rfl
  refine .ite (fun _ => ?_) (fun _ => ?_)
  · exact word _ _ _ rfl
  refine .ite (fun _ => ?_) (fun _ => ?_)
  · exact word _ _ _ rfl
  refine .ite (fun _ => ?_) (fun _ => ?_)
  · exact word _ _ _ rfl
  refine .ite (fun _ => ?_) (fun _ => ?_)
  · exact key0 _ _ rfl
  refine .ite (fun _ => ?_) (fun _ => ?_)
  · unfold scanAmp; split
    · exact .panic _ _
    · have := adv_ge s.src isAlnum (s.start + 1)
      exact .tok _ _ _ (by dsimp only; omega) (.simple rfl)
    · exact .text hcur
  refine .ite (fun _ => ?_) (fun _ => ?_)
  · unfold scanBrace; split
    · exact .panic _ _
    · have := adv_ge s.src isAttrRefChar (s.start + 1)
      exact .tok _ _ _ (by dsimp only; omega) (.simple rfl)
    · exact .text hcur
  refine .ite (fun _ => ?_) (fun _ => ?_)
  · unfold scanPipe; dsimp only; repeat' split
    · exact key _ _ 3 rfl
    · exact .text (by omega)
    · exact .cell hcur
    · exact .text hcur
  refine .ite (fun _ => ?_) (fun _ => ?_)
  · unfold scanDouble; repeat' split
    · exact key _ _ 1 rfl
    · exact .text hcur
  refine .ite (fun _ => ?_) (fun _ => ?_)
  · unfold scanSpace; split
    · exact .tag
    · exact .text hcur
  · exact .text hcur

end Adoc.Scanner
