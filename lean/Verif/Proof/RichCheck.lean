import Verif.Props.Lexical
import Verif.Proof.RichScan
import Verif.Spec.RichDoc
/-!
# A way to show that a text is legible

Used for concrete documents only: marks follow the lexical grammar if the scanner reads them (C49), and whether text is
plain can be computed.
-/
namespace Adoc.Scanner
open Spec Lexical Props

/-- The tokens are the signs. -/
def reads : List Sign → List Token → Bool
  | [], _ => true
  | _ :: _, [] => false
  | .mark ty l :: ss, t :: ts => t.ty = ty && t.lexeme = l && ty ≠ .startTag && ty ≠ .endTag && ty ≠ .eof && reads ss ts
  | .text l :: ss, t :: ts => t.ty = .text
      && (l = t.lexeme && reads ss ts
        || t.lexeme ++ l.drop t.lexeme.length = l && reads (.text (l.drop t.lexeme.length) :: ss) ts)

theorem source_snoc (pre : List Token) (t : Token) : source (pre ++ [t]) = source pre ++ t.lexeme := by
  simp [source]

/-- What is read as a mark is a mark. -/
theorem marks_of_reads (cs : List Char) (ts : List Token) (ss : List Sign) (pre : List Token) (rest : List Item)
    (hs : scan (enc cs) = (pre ++ ts).map .tok ++ rest) (hn : ∀ t ∈ pre, ¬IsTag t) (hr : reads ss ts = true)
    (hw : source pre ++ written ss = enc cs) (a b : List Sign) (ty : TokenType) (l : Str) (hss : ss = a ++ .mark ty l :: b) :
    Lexeme ty (source pre ++ written a) l (written b) := by
  induction ts generalizing ss pre a with
  | nil =>
    cases ss with
    | nil => simp at hss
    | cons => simp [reads] at hr
  | cons t ts ih =>
    have hs' : scan (enc cs) = (pre ++ [t] ++ ts).map .tok ++ rest := by simpa using hs
    cases ss with
    | nil => simp at hss
    | cons s ss =>
      cases s with
      | mark ty' l' =>
        simp only [reads, Bool.and_eq_true, decide_eq_true_eq] at hr
        obtain ⟨⟨⟨⟨⟨h1, h2⟩, h3⟩, h4⟩, h5⟩, h6⟩ := hr
        have htag : ¬IsTag t := by rintro (h | h) <;> rw [h1] at h <;> contradiction
        cases a with
        | nil =>
          simp only [List.nil_append, List.cons.injEq, Sign.mark.injEq] at hss
          obtain ⟨⟨rfl, rfl⟩, rfl⟩ := hss
          have := C49_sound cs pre t (ts.map .tok ++ rest) (by simpa using hs) hn (by rw [h1]; exact h5)
          rcases this with h | ⟨after, g1, g2⟩
          · exact absurd h htag
          · rw [h1, h2] at g2
            rw [h2] at g1
            have : after = written ss := by
              have : source pre ++ (l' ++ written ss) = source pre ++ (l' ++ after) := by
                rw [← List.append_assoc _ l' after, ← g1, ← hw]; rfl
              exact (List.append_cancel_left (List.append_cancel_left this)).symm
            rw [this] at g2
            simpa [written] using g2
        | cons x a =>
          simp only [List.cons_append, List.cons.injEq] at hss
          obtain ⟨rfl, rfl⟩ := hss
          have := ih _ (pre ++ [t]) hs' (by
            intro u hu
            rcases List.mem_append.1 hu with hu | hu
            · exact hn u hu
            · rw [List.mem_singleton.1 hu]; exact htag) h6 (by
            rw [source_snoc, h2, ← hw]; simp [written, Sign.str]) a rfl
          rw [source_snoc, h2] at this
          simpa [written, Sign.str] using this
      | text l' =>
        simp only [reads, Bool.and_eq_true, decide_eq_true_eq, Bool.or_eq_true] at hr
        obtain ⟨h1, h6⟩ := hr
        have hn' : ∀ u ∈ pre ++ [t], ¬IsTag u := by
          intro u hu
          rcases List.mem_append.1 hu with hu | hu
          · exact hn u hu
          · rw [List.mem_singleton.1 hu]
            rintro (h | h) <;> rw [h1] at h <;> cases h
        cases a with
        | nil => simp at hss
        | cons x a =>
          simp only [List.cons_append, List.cons.injEq] at hss
          obtain ⟨rfl, rfl⟩ := hss
          rcases h6 with ⟨h2, h6⟩ | ⟨h2, h6⟩
          · have := ih _ (pre ++ [t]) hs' hn' h6 (by
              rw [source_snoc, ← h2, ← hw]; simp [written, Sign.str]) a rfl
            rw [source_snoc, ← h2] at this
            simpa [written, Sign.str] using this
          · have := ih _ (pre ++ [t]) hs' hn' h6 (by
              rw [source_snoc, ← hw]
              simp only [written, Sign.str]
              rw [← List.append_assoc, List.append_assoc (source pre), h2, List.append_assoc]) (.text (l'.drop t.lexeme.length) :: a) rfl
            rw [source_snoc] at this
            simp only [written, Sign.str] at this ⊢
            have e : source pre ++ (l' ++ written a)
                = source pre ++ t.lexeme ++ (List.drop t.lexeme.length l' ++ written a) := by
              rw [← List.append_assoc _ (List.drop _ _), List.append_assoc (source pre), h2, List.append_assoc]
            rw [e]; exact this

/-- Plain text, computed. -/
def runB (before l after : Str) : Bool :=
  (match l with
    | b :: _ => !isCont b && (!(before = [] || before.getLast? = some 10) || !(b!"=./|(:").contains b)
        && (b ≠ c!"|" || before.getLast? ≠ some c!" ")
    | [] => false)
  && runStarts.all (fun w => !w.isPrefixOf l) && l.all (fun b => !(b!"\n*_`^~[]#&{+<").contains b)
  && markupWords.all (fun w => decide (¬w <:+: l ++ after.take 1))
  && (match after with
    | [] => true
    | h :: r => (runEnds.contains h && (h ≠ c!"`" || l.getLast? ≠ some c!"'" && l.getLast? ≠ some c!"\""))
      || (h = c!":" && r.head? = some c!":" && colonWords.all fun w => decide (¬w <:+ l)))

theorem run_of_runB {before l after : Str} (h : runB before l after = true) : Run before l after := by
  simp only [runB, Bool.and_eq_true] at h
  obtain ⟨⟨⟨⟨h1, h2⟩, h3⟩, h4⟩, h5⟩ := h
  cases l with
  | nil => cases h1
  | cons b bs =>
    refine ⟨⟨b, bs, rfl, ?_⟩, ?_, ?_, ?_, ?_⟩
    · simp only [Bool.and_eq_true, Bool.not_eq_true', Bool.or_eq_true, decide_eq_true_eq, ne_eq] at h1
      obtain ⟨⟨g1, g2⟩, g3⟩ := h1
      refine ⟨g1, fun hl hm => ?_, fun hb => ?_⟩
      · rcases g2 with g2 | g2
        · rcases hl with hl | hl <;> simp [hl] at g2
        · rw [List.contains_eq_mem] at g2
          simp only [decide_eq_false_iff_not] at g2
          exact g2 hm
      · rcases g3 with g3 | g3
        · exact absurd hb g3
        · exact g3
    · intro w hw hp
      have := List.all_eq_true.1 h2 w hw
      rw [← List.isPrefixOf_iff_prefix] at hp
      rw [hp] at this; cases this
    · intro x hx hm
      have := List.all_eq_true.1 h3 x hx
      rw [List.contains_eq_mem, decide_eq_true hm] at this; cases this
    · intro w hw
      exact of_decide_eq_true (List.all_eq_true.1 h4 w hw)
    · cases after with
      | nil => exact .inl rfl
      | cons x r =>
        simp only [Bool.and_eq_true, Bool.or_eq_true, decide_eq_true_eq, ne_eq, List.contains_eq_mem, List.all_eq_true] at h5
        rcases h5 with h5 | ⟨⟨rfl, h6⟩, h7⟩
        · refine .inr (.inl ⟨x, r, rfl, h5.1, fun hx => ?_⟩)
          rcases h5.2 with h | h
          · exact absurd hx h
          · exact h
        · cases r with
          | nil => cases h6
          | cons y r => cases h6; exact .inr (.inr ⟨r, rfl, h7⟩)

/-- Checks that a pattern occurs in an ASCII text. -/
def closedB (pat r : Str) : Bool :=
  (r.all fun b => decide (b.toNat < 128)) && (List.range (r.length + 1)).any fun k => pat.isPrefixOf (r.drop k)

theorem closed_of_closedB {pat r : Str} (h : closedB pat r = true) : Closed pat r := by
  simp only [closedB, Bool.and_eq_true, List.all_eq_true, List.any_eq_true, decide_eq_true_eq, List.isPrefixOf_iff_prefix] at h
  obtain ⟨h1, k, _, q, h3⟩ := h
  exact ⟨r.take k, q, by rw [List.append_assoc, h3, List.take_append_drop], fun x hx => h1 x (List.mem_of_mem_take hx)⟩

/-- The construct that begins here is closed, computed (for some texts only). -/
def safeB (r : Str) : Bool :=
  (!(b!"[.").isPrefixOf r || r.contains c!"]") && (!(b!"image:").isPrefixOf r || r.contains c!"]")
  && (!(b!"include::").isPrefixOf r || r.contains c!"]") && (!(b!"[[").isPrefixOf r || closedB b!"]]\n" r) && (!(b!"<<").isPrefixOf r || closedB b!">>" r)
  && (!(b!"=").isPrefixOf r || (match r.dropWhile (· = c!"=") with
      | x :: _ => decide (x.toNat < 128)
      | [] => false))
  && (!(b!"|").isPrefixOf r || r.all fun b => decide (b.toNat < 128)) && (!(b!"http").isPrefixOf r || r.all fun b => decide (b.toNat < 128))
  && !(b!"tag::").isPrefixOf r && !(b!"end::").isPrefixOf r

theorem safe_of_safeB {r : Str} (h : safeB r = true) : SafeAt r := by
  simp only [safeB, Bool.and_eq_true, Bool.or_eq_true, Bool.not_eq_true', List.contains_eq_mem, decide_eq_true_eq,
    List.all_eq_true] at h
  obtain ⟨⟨⟨⟨⟨⟨⟨⟨⟨h1, h2⟩, h3⟩, h4⟩, h5⟩, h6⟩, h7⟩, h8⟩, h9⟩, h10⟩ := h
  have np : ∀ {w : Str}, w.isPrefixOf r = false → ¬w <+: r := by
    intro w h hp
    rw [← List.isPrefixOf_iff_prefix, h] at hp; cases hp
  have ascii : ∀ {stop : UInt8}, (∀ x ∈ r, x.toNat < 128) → AsciiUntil stop r := by
    intro stop h p x q hr _
    exact h x (by rw [hr]; simp)
  refine ⟨fun h => h1.resolve_left fun e => np e h, fun h => h2.resolve_left fun e => np e h, fun h => h3.resolve_left fun e => np e h,
    fun h => closed_of_closedB (h4.resolve_left fun e => np e h),
    fun h => closed_of_closedB (h5.resolve_left fun e => np e h), fun h => ?_, fun h => ascii (h7.resolve_left fun e => np e h),
    fun h => ascii (h8.resolve_left fun e => np e h), np h9, np h10⟩
  have h6 := h6.resolve_left fun e => np e h
  have e := List.takeWhile_append_dropWhile (p := fun b => decide (b = c!"=")) (l := r)
  cases hd : r.dropWhile (fun b => decide (b = c!"=")) with
  | nil => rw [hd] at h6; cases h6
  | cons x q =>
    rw [hd] at h6 e
    refine ⟨(r.takeWhile fun b => decide (b = c!"=")).length, x, q, ?_, ?_, of_decide_eq_true h6⟩
    · conv => lhs; rw [← e]
      congr 1
      rw [List.eq_replicate_iff]
      refine ⟨rfl, fun b hb => ?_⟩
      have := List.all_eq_true.1 (List.all_takeWhile (p := fun b => decide (b = c!"=")) (l := r)) b hb
      exact of_decide_eq_true this
    · have := List.head_dropWhile_not (fun b => decide (b = c!"=")) (l := r) (by rw [hd]; simp)
      simp only [hd, List.head_cons, decide_eq_false_iff_not] at this
      exact this

/-- A text that is checked at every position has its constructs closed. -/
theorem closed_of_safeB {r : Str} (h : (List.range (r.length + 1)).all (fun k => safeB (r.drop k)) = true) (hl : r.getLast? = some 10) :
    WellClosed r := by
  refine ⟨hl, fun p q he => ?_⟩
  have := List.all_eq_true.1 h p.length (by rw [List.mem_range, he, List.length_append]; omega)
  rw [he, List.drop_left] at this
  exact safe_of_safeB this


/-- The scanner reads some text here. -/
def readsText (before l after : Str) : Bool :=
  match (cut before (l ++ after) 0 1 1 []).next with
  | some (.tok t, _) => t.ty = .text && t.lexeme = l
  | _ => false

/-- Text that looks like markup and is none, computed with the scanner. -/
def strayB (before l after : Str) : Bool :=
  (match l with
    | b :: bs => !isCont b && bs.all (fun x => !stops.contains x)
    | [] => false)
  && (match after with
    | [] => true
    | b :: _ => stops.contains b)
  && readsText before l after && safeB (l ++ after)
  && (match l ++ after with
    | c :: q => (c ≠ c!"&" || q.any fun b => decide (b.toNat < 128) && !isAlnum b)
      && (c ≠ c!"{" || q.any fun b => decide (b.toNat < 128) && !isAttrRefChar b)
      && (c ≠ c!":" || !(before = [] || before.getLast? = some 10) || q.contains 10)
    | [] => false)
  && !(b!"======").isPrefixOf (l ++ after)

theorem stray_of_strayB {before l after : Str} (hu : ∃ cs, before ++ (l ++ after) = enc cs) (h : strayB before l after = true) :
    Stray before l after := by
  simp only [strayB, Bool.and_eq_true] at h
  obtain ⟨⟨⟨⟨⟨h1, h2⟩, h3⟩, h4⟩, h5⟩, h6⟩ := h
  cases l with
  | nil => cases h1
  | cons c bs =>
    simp only [Bool.and_eq_true, Bool.not_eq_true', List.all_eq_true, List.contains_eq_mem, decide_eq_false_iff_not] at h1
    obtain ⟨t, s', hn, ht1, ht2⟩ : ∃ t s', (cut before (c :: bs ++ after) 0 1 1 []).next = some (.tok t, s') ∧ t.ty = .text
        ∧ t.lexeme = c :: bs := by
      unfold readsText at h3
      split at h3
      · rename_i t s' hn
        simp only [Bool.and_eq_true, decide_eq_true_eq] at h3
        exact ⟨t, s', hn, h3.1, h3.2⟩
      · cases h3
    have hgive : ∀ {ty : TokenType} {l' : Str}, Gives ty l' (dispatch (at_ { cut before (c :: bs ++ after) 0 1 1 [] with
        start := before.length } (before.length + 1)) c) → ty = .text ∧ l' = c :: bs := by
      rintro ty l' ⟨t', s'', g1, g2, g3⟩
      have : (cut before (c :: bs ++ after) 0 1 1 []).next = some (.tok t', s'') := by
        unfold next isAtEnd
        rw [if_neg (by simp [cut])]
        unfold scanToken
        have : (before ++ (c :: bs ++ after)).getD before.length 0 = c := by simp
        simp only [cut, this]
        exact congrArg some g1
      rw [hn] at this
      cases this
      exact ⟨g2.symm.trans ht1, g3.symm.trans ht2⟩
    have hpanic : ∀ {s : Scanner}, dispatch (at_ { cut before (c :: bs ++ after) 0 1 1 [] with
        start := before.length } (before.length + 1)) c ≠ (.panic .slice, s) := by
      intro s g1
      have : (cut before (c :: bs ++ after) 0 1 1 []).next = some (.panic .slice, s) := by
        unfold next isAtEnd
        rw [if_neg (by simp [cut])]
        unfold scanToken
        have : (before ++ (c :: bs ++ after)).getD before.length 0 = c := by simp
        simp only [cut, this]
        exact congrArg some g1
      rw [hn] at this
      cases this
    have H : Here before c (bs ++ after) { cut before (c :: bs ++ after) 0 1 1 [] with start := before.length } :=
      ⟨rfl, rfl, rfl, hu⟩
    have hpiece : Piece (c :: bs) after := by
      refine ⟨by simp, h1.2, ?_⟩
      cases after with
      | nil => exact .inl rfl
      | cons b r =>
        dsimp only at h2
        rw [List.contains_eq_mem, decide_eq_true_eq] at h2
        exact .inr ⟨b, h2, rfl⟩
    have hanchor : ∀ l' after', l' ++ after' = c :: bs ++ after → ¬Anchor before l' after' := by
      intro l' after' he hl'
      rcases H.anchorC he.symm hl' with ⟨g1, g2⟩ | ⟨⟨s, g⟩, _⟩
      · by_cases hb : Blank l'
        · obtain ⟨_, e⟩ := hgive (g2 hb)
          obtain ⟨_, _, body, hl', _⟩ := hl'
          rw [e] at hl'
          cases hl'
          exact h1.2 c!"[" (by simp) (by decide)
        · cases (hgive (g1 hb)).1
      · exact hpanic g
    have href : ∀ l' after', l' ++ after' = c :: bs ++ after → ¬Reference before l' after' := by
      intro l' after' he hl'
      rcases H.xrefC he.symm hl' with ⟨g1, g2⟩ | ⟨⟨s, g⟩, _⟩
      · by_cases hb : Blank l'
        · obtain ⟨_, e⟩ := hgive (g2 hb)
          obtain ⟨⟨body, hl', _⟩, _⟩ := hl'
          rw [e] at hl'
          cases hl'
          exact h1.2 c!"<" (by simp) (by decide)
        · cases (hgive (g1 hb)).1
      · exact hpanic g
    refine ⟨fun b hb => by cases hb; exact h1.1, hpiece, ?_, fun l' after' he => ⟨hanchor l' after' he, href l' after' he⟩,
      safe_of_safeB h4, ?_, ?_, ?_, ?_⟩
    · intro ty l' after' he hty hl'
      by_cases ha : ty = .blockAnchor
      · subst ha; exact hanchor l' after' he hl'.1
      by_cases hx : ty = .crossReference
      · subst hx; exact href l' after' he hl'.1
      exact hty (hgive (H.complete ty ⟨ha, hx, hty⟩ he.symm hl')).1
    all_goals simp only [List.cons_append, Bool.and_eq_true, Bool.or_eq_true, Bool.not_eq_true', decide_eq_true_eq, ne_eq, List.any_eq_true,
      List.contains_eq_mem, decide_not, decide_eq_false_iff_not] at h5
    · intro q hq
      cases hq
      obtain ⟨b, g1, g2, g3⟩ := h5.1.1.resolve_left (by simp)
      exact ⟨b, g1, g2, by rw [← isAlnum_ascii b g2, g3]; simp⟩
    · intro q hq
      cases hq
      obtain ⟨b, g1, g2, g3⟩ := h5.1.2.resolve_left (by simp)
      refine ⟨b, g1, g2, fun h => ?_⟩
      unfold isAttrRefChar at g3
      rw [Bool.or_eq_false_iff, ← Bool.not_eq_true, isAlnum_ascii b g2, decide_eq_false_iff_not] at g3
      exact h.elim g3.1 g3.2
    · intro hl q hq
      cases hq
      rcases h5.2 with (h | h) | h
      · exact absurd rfl h
      · rcases hl with hl | hl <;> simp [hl] at h
      · exact h
    · rw [Bool.not_eq_true'] at h6
      intro h
      rw [← List.isPrefixOf_iff_prefix, h6] at h; cases h

/-- Text has no markup in it, computed with the scanner. -/
def saidB : Nat → Str → Str → Str → Bool
  | 0, _, _, _ => false
  | n + 1, before, l, after => runB before l after || (match (cut before (l ++ after) 0 1 1 []).next with
    | some (.tok t, _) => t.lexeme.isPrefixOf l && strayB before t.lexeme (l.drop t.lexeme.length ++ after)
        && (l.length = t.lexeme.length || saidB n (before ++ t.lexeme) (l.drop t.lexeme.length) after)
    | _ => false)

theorem said_of_saidB {n : Nat} {before l after : Str} (hu : ∃ cs, before ++ (l ++ after) = enc cs) (h : saidB n before l after = true) :
    Said before l after := by
  induction n generalizing before l with
  | zero => cases h
  | succ n ih =>
    unfold saidB at h
    rw [Bool.or_eq_true] at h
    rcases h with h | h
    · have hr := run_of_runB h
      obtain ⟨b, bs, hb, _⟩ := hr.first
      exact ⟨by rw [hb]; simp, [l], by simp, .inl (by simpa using hr), trivial⟩
    · split at h
      · rename_i t s' hn
        simp only [Bool.and_eq_true, Bool.or_eq_true, decide_eq_true_eq] at h
        obtain ⟨⟨h1, h2⟩, h3⟩ := h
        obtain ⟨r, rfl⟩ := List.isPrefixOf_iff_prefix.1 h1
        rw [List.drop_left] at h2 h3
        have hs := stray_of_strayB (by simpa using hu) h2
        refine ⟨by simp [hs.piece.1], ?_⟩
        rcases h3 with h3 | h3
        · have : r = [] := by
            rw [List.length_append] at h3
            exact List.length_eq_zero_iff.1 (by omega)
          subst this
          exact ⟨[t.lexeme], by simp, .inr (.inl (by simpa using hs)), trivial⟩
        · obtain ⟨_, xs, rfl, h4⟩ := ih (by simpa using hu) h3
          exact ⟨t.lexeme :: xs, by simp, .inr (.inl (by simpa using hs)), h4⟩
      · cases h

/-- Text has no markup in it where it stands, computed. -/
def runsB (before : Str) : List Sign → Bool
  | [] => true
  | .text l :: ss => saidB l.length before l (written ss) && runsB (before ++ l) ss
  | .mark _ l :: ss => runsB (before ++ l) ss

/-- A text is legible, computed with the scanner. -/
def legibleB (ss : List Sign) : Bool :=
  runsB [] ss && (scan (written ss)).all (fun i => i.tok?.isSome) && reads ss ((scan (written ss)).filterMap Item.tok?)

theorem legible_of {before : Str} {ss : List Sign} (hu : ∃ cs, before ++ written ss = enc cs) (h1 : runsB before ss = true)
    (h2 : ∀ a b ty l, ss = a ++ .mark ty l :: b → Lexeme ty (before ++ written a) l (written b)) : Legible before ss [] := by
  induction ss generalizing before with
  | nil => trivial
  | cons s ss ih =>
    have hr : ∀ a b ty l, ss = a ++ .mark ty l :: b → Lexeme ty (before ++ s.str ++ written a) l (written b) := by
      rintro a b ty l rfl
      have := h2 (s :: a) b ty l rfl
      simpa [written] using this
    cases s with
    | text l =>
      simp only [runsB, Bool.and_eq_true] at h1
      exact ⟨by simpa using said_of_saidB (by simpa [written, Sign.str] using hu) h1.1, ih (by simpa [written, Sign.str] using hu) h1.2 hr⟩
    | mark ty l =>
      simp only [runsB] at h1
      refine ⟨?_, ih (by simpa [written, Sign.str] using hu) h1 hr⟩
      have := h2 [] ss ty l rfl
      simpa [written] using this

theorem toks_of_all (is : List Item) (h : is.all (fun i => i.tok?.isSome) = true) : is = (is.filterMap Item.tok?).map .tok := by
  induction is with
  | nil => rfl
  | cons i is ih =>
    simp only [List.all_cons, Bool.and_eq_true] at h
    cases i with
    | tok t =>
      have := ih h.2
      simp only [Item.tok?, List.filterMap_cons, List.map_cons]
      rw [← this]
    | _ => cases h.1

theorem legible_of_legibleB {ss : List Sign} (hu : ∃ cs, written ss = enc cs) (h : legibleB ss = true) : Legible [] ss [] := by
  obtain ⟨cs, hu⟩ := hu
  simp only [legibleB, Bool.and_eq_true] at h
  obtain ⟨⟨h1, h2⟩, h3⟩ := h
  refine legible_of ⟨cs, by simpa using hu⟩ h1 fun a b ty l hss => ?_
  have := marks_of_reads cs _ ss [] [] (by rw [← hu]; simpa using toks_of_all _ h2) (by simp) h3 (by simpa [source] using hu) a b ty l hss
  simpa [source] using this

/-- Is a file there? -/
def thereB (w : World) (files : List Str) (x : Str × Option Str) : Bool :=
  match w.resolve files x.1 with
  | some path => match x.2 with
    | some s => w.read path == some s
    | none => true
  | none => false

instance (w : World) (files : List Str) (x : Str × Option Str) : Decidable (There w files x) :=
  decidable_of_iff (thereB w files x = true) (by
    unfold thereB There
    cases h1 : w.resolve files x.1 with
    | none => simp
    | some path => cases h2 : x.2 <;> simp)

/-- A document without callouts. -/
theorem no_callouts {cs : List Tagged} {P : Prop} (h : (cs.any fun e => e.blk.hasCallout) = false) :
    (∃ e ∈ cs, e.blk.hasCallout = true) → P := by
  rintro ⟨e, he, hc⟩
  rw [List.any_eq_false] at h
  exact absurd hc (h e he)

end Adoc.Scanner
