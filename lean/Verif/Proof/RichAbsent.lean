import Verif.Proof.RichBefore
/-!
# Listings with files that do not exist
-/
namespace Adoc.Rich
open Spec Block Parser Scanner Props

/-- An include directive in a listing for a file that does not exist. -/
theorem code_absent (w : World) (k : Nat) (p p0 : Parser) (hp : CodeStart p0) (d : Str) (m : Option Meta) (done : List Inline) (cur : Option Str)
    (h : InCode p p0 d m done cur) (target : Str) (o1 : CodeName target) (hw : w.resolve p0.files target = none) (t : Token)
    (ht : IsMark .include (includeLine target) t) :
    tokenInto w (k + 1) t p = .error (.err (.targetResolution t.line target)) := by
  obtain ⟨h1, -⟩ := h
  have e1 : p.header = none := by rw [h1]; exact hp.header
  have e4 : p.openText = some .sourceBlock := by rw [h1]
  have e5 : p.files = p0.files := by rw [h1]
  have hv : p.verbatim t = none := by
    unfold verbatim
    rw [e4, ht.ty]
    simp
  have hta : targetAndAttrs t = .ok (target, none) := by
    have := image_read t b!"include::" target [] (by rw [ht.ty]; rfl) (by
      rw [ht.text]
      simp [signText, includeLine, joinB]) ⟨o1.1, o1.2.1, trivial, trivial⟩
    exact this
  rw [tokenInto_noHeader w k t p e1, hv]
  show p.dispatchToken w (tokenInto w k) t = _
  unfold dispatchToken
  rw [ht.ty]
  simp only [parseInclude, hta, bind, Except.bind, selection, e5, hw]

/-- What is written before an include directive in a listing. -/
def _root_.Adoc.Spec.RichDoc.beforeFile (d : RichDoc) (pre : List Tagged) (tags : List Tag) (delim : Str) (ps : List CodePart) : List Sign :=
  d.front ++ (pre.flatMap Tagged.signs ++ (tagsSigns tags ++ .mark .sourceBlock delim :: ps.flatMap CodePart.signs))

/-- A document with a listing whose file does not exist is not parsed: the error says which file, and where. -/
theorem parse_absent (w : World) (k : Nat) (d : RichDoc) (ho : d.Ok) (hl : Legible [] d.signs [])
    (hu : ∃ cs, written d.signs = enc cs) (pre post : List Tagged) (c : Tagged) (delim target : Str) (ps qs : List CodePart)
    (src : List Sign) (hd : d.blocks = pre ++ c :: post) (hc : c.blk = .code delim (ps ++ .file target src :: qs))
    (hw : ∀ e ∈ pre, ∀ x ∈ e.blk.targets, There w [] x) (hwp : ∀ x ∈ (Blk.code delim ps).targets, There w [] x)
    (hmi : w.resolve [] target = none) :
    ∃ line, Adoc.parseText w (k + 2) (written d.signs) = .error (.err (.targetResolution line target))
      ∧ ((∀ s ∈ d.signs, s = Spec.newline ∨ 10 ∉ s.str) → line = 1 + (written (d.beforeFile pre c.tags delim ps)).count 10) := by
  obtain ⟨ts, m, h1, h2, hli⟩ := scan_signs d.signs hu (fun s hs => by
    have := ho.signs s hs
    cases s with
    | text => trivial
    | mark ty l => exact this) hl
  obtain ⟨p, f, us, vs, rfl, h3, h4, m2, -, hf2, i, hi, hli⟩ := feed_front w (k + 1) d.head d.lead _ ho.head ho.lead ts _ _ h1 h2 hli
  rw [hd, List.flatMap_append, List.flatMap_cons] at m2
  obtain ⟨bs, vs, rfl, mb, m3⟩ := m2.split
  obtain ⟨cs, es, rfl, m3, m4⟩ := m3.split
  rw [Tagged.signs, hc] at m3
  obtain ⟨gs, cs, rfl, m5, m3⟩ := m3.split
  obtain ⟨is, ns, rfl, m3, m6⟩ := m3.split
  simp only [Blk.signs, List.flatMap_append, List.flatMap_cons, CodePart.signs] at m3
  rw [show ∀ (a b c e : List Sign) (s : Sign), s :: ((a ++ (b ++ c)) ++ e) = (s :: a) ++ (b ++ (c ++ e)) by simp] at m3
  obtain ⟨as, is, rfl, ma, m7⟩ := m3.split
  obtain ⟨is, xs, rfl, m7, m8⟩ := m7.split
  obtain ⟨t, rfl, ht⟩ := matches_one m7
  have hsg : ∀ e ∈ d.blocks, ∀ s ∈ e.signs, SignOk s := fun e he s hs =>
    ho.signs s (by unfold RichDoc.signs; simp only [List.mem_append]; exact .inr (.inr (List.mem_flatMap.2 ⟨e, he, hs⟩)))
  obtain ⟨hst, hfi, hrt⟩ := files_same h3 ⟨by simp [Parser.new], trivial⟩
  obtain ⟨q, hs', E', fl', h5, h6⟩ := feed_until w k f pre (c :: post) p [] [] {} h4 (fun x hx => ho.blocks x (by rw [hd]; simp [hx]))
    (by simp) (by rw [← hd]; exact ho.gaps) (by rw [← hd]; exact ho.flow) hst
    (fun x hx y hy => by rw [hfi]; exact hw x hx y hy)
    (fun x hx => icons_head hf2 ho.icons x (by rw [hd]; simp [hx]))
    (fun s hs => by
      obtain ⟨e, he, hs⟩ := List.mem_flatMap.1 hs
      exact hsg e (by rw [hd]; simp [he]) s hs) i hi bs mb hli.split.1
  have hcm : c ∈ d.blocks := by rw [hd]; simp
  have hco := ho.blocks c hcm
  have hwa : Waits q none f hs' E' fl' := by
    have e : q = { q with data := none, dangling := none } := by rw [← h6.dangling, ← h6.data]
    exact ⟨by rw [← e]; exact h6, h6.data⟩
  obtain ⟨q', dd, g1, g2, g0, g3, g4⟩ := feed_tags w (k + 1) c.tags [] q none hwa.still ⟨fun _ => rfl, fun h => absurd rfl h⟩
    (fun _ => h6.dangling) hco.tags (fun t ht => hsg c hcm _ (by
      simp only [List.mem_append, Tagged.signs]
      exact .inl (List.mem_flatMap.2 ⟨t, ht, by simp⟩))) gs m5
  rw [List.nil_append] at g3 g4
  obtain ⟨_, hfi', -⟩ := files_same (h3.append (h5.append g1)) ⟨by simp [Parser.new], trivial⟩
  have hpl := hco.place
  have hblk := hco.blk
  rw [hc] at hpl hblk
  have hic := icons_head hf2 ho.icons c hcm
  rw [hc] at hic
  obtain ⟨p', rfl, hb⟩ := (g0.waits hwa g2).over (g4 hpl)
  have hcs : CodeStart (Parser.over none dd none p') := ⟨⟨rfl, rfl, hb.inlines, hb.dangling, hb.inCont, hb.line⟩, hb.span⟩
  have hat : (Parser.over none dd none p').attrs = f.2.1.getD [] := by
    have := hb.steady.2
    rw [← hb.front]
    exact this
  obtain ⟨r, h7, h8⟩ : ∃ r, Feeds w (k + 1) as (Parser.over none dd none p') r
      ∧ tokenInto w (k + 2) t r = .error (.err (.targetResolution t.line target)) := by
    cases ma with
    | mark _ _ _ t0 us' ht0 h' =>
      obtain ⟨q0, k1, k2⟩ := code_open w (k + 1) _ hcs delim t0 ht0
      obtain ⟨q1, done, cur, k3, k4, -⟩ := code_parts w (k + 1) _ hcs delim _ ps (fun x hx => hblk.2 x (by simp [hx]))
        (fun x hx => by rw [hfi']; exact hwp x hx) (fun hx => by
          rw [hat]
          refine hic ?_
          simp only [Blk.hasCallout, List.any_append, Bool.or_eq_true]
          exact .inl hx) q0 [] none k2 us' h'
      exact ⟨q1, Feeds.append (a := [t0]) k1 k3, code_absent w (k + 1) q1 _ hcs delim _ done cur k4 target
        (hblk.2 (.file target src) (by simp)).1 (by rw [hfi']; exact hmi) t ht⟩
  refine ⟨t.line, ?_, fun hnl => ?_⟩
  · have hall : Feeds w (k + 1) (us ++ (bs ++ (gs ++ as))) Parser.new r := h3.append (h5.append (g1.append h7))
    unfold Adoc.parseText
    rw [h2, show ((us ++ (bs ++ (gs ++ (as ++ ([t] ++ xs) ++ ns) ++ es))).map Item.tok ++ [.tok (Token.final m [])] : List Item)
        = (us ++ (bs ++ (gs ++ as))).map .tok ++ (.tok t :: (xs ++ ns ++ es).map .tok ++ [.tok (Token.final m [])]) by simp,
      parse_append w (k + 2) _ _ _ r hall]
    simp only [parse, List.cons_append, feed, h8, bind, Except.bind]
  · have hsc : scan (written d.signs) = (us ++ (bs ++ (gs ++ as))).map .tok ++ .tok t :: ((xs ++ ns ++ es).map .tok ++ [.tok (Token.final m [])]) := by
      rw [h2]; simp
    have hsrc : source us = written (d.front) := by
      have e := matches_source h1
      have e' : d.signs = d.front ++ d.blocks.flatMap Tagged.signs := by
        unfold RichDoc.signs RichDoc.front
        simp
      rw [e', written_append, ← matches_source (ss := d.blocks.flatMap Tagged.signs) (ts := bs ++ (gs ++ (as ++ ([t] ++ xs) ++ ns) ++ es)) (by rw [hd]; simpa using m2)] at e
      simp only [source, List.flatMap_append] at e ⊢
      exact List.append_cancel_right e
    have hmem : ∀ u ∈ us ++ (bs ++ (gs ++ as)), u ∈ us ++ (bs ++ (gs ++ (as ++ ([t] ++ xs) ++ ns) ++ es)) := by
      intro u hu
      simp only [List.mem_append] at hu ⊢
      rcases hu with hu | hu | hu | hu
      · exact .inl hu
      · exact .inr (.inl hu)
      · exact .inr (.inr (.inl (.inl hu)))
      · exact .inr (.inr (.inl (.inr (.inl (.inl hu)))))
    rw [(C04_line _ _ t _ hsc (fun u hu => ?_) (fun u hu => ?_)).2]
    · have e : source (us ++ (bs ++ (gs ++ as))) = written (d.beforeFile pre c.tags delim ps) := by
        unfold RichDoc.beforeFile
        rw [written_append, written_append, written_append, ← hsrc, ← matches_source mb, ← matches_source m5, ← matches_source ma]
        simp [source]
      rw [e]
    · rcases matches_mem h1 u (hmem u hu) with ⟨l, a, -⟩ | ⟨a, -⟩
      · rintro (h | h)
        all_goals
          rw [h] at a
          exact (legible_lexeme _ _ _ hl _ _ a).elim fun x hx => hx.elim fun y hy => hy
      · rintro (h | h) <;> rw [a] at h <;> cases h
    · rcases matches_mem h1 u (hmem u hu) with ⟨l, a, b⟩ | ⟨a, l, x, y, b, e⟩
      · rcases hnl _ a with h | h
        · exact .inl (by simp only [Spec.newline, Sign.mark.injEq] at h; exact h.1)
        · exact .inr (by rw [b]; exact h)
      · rcases hnl _ b with h | h
        · cases h
        · refine .inr fun hx => h ?_
          show 10 ∈ l
          rw [e]; simp [hx]

theorem legible_append (a b : List Sign) (before after : Str) (h1 : Legible before a (written b ++ after))
    (h2 : Legible (before ++ written a) b after) : Legible before (a ++ b) after := by
  induction a generalizing before with
  | nil => simpa [written] using h2
  | cons s a ih =>
    obtain ⟨h3, h4⟩ := h1
    refine ⟨?_, ih _ h4 (by simpa [written] using h2)⟩
    rw [show a.append b = a ++ b from rfl, written_append, List.append_assoc]
    exact h3

/-- A document is not parsed if it is followed by an include directive for a file that does not exist, whatever comes next. -/
theorem parse_gone (w : World) (k : Nat) (d : RichDoc) (target rest : Str) (ho : d.Ok)
    (hl : Legible [] (d.signs ++ [.mark .include (includeLine target)]) rest)
    (hu : ∃ cs, written (d.signs ++ [.mark .include (includeLine target)]) ++ rest = enc cs) (hw : ∀ x ∈ d.targets, There w [] x)
    (hg : ∀ c ∈ d.blocks, c.gap.Ok 2 false) (ht1 : c!"[" ∉ target) (ht2 : ∀ b, target.head? = some b → isCont b = false)
    (hmi : w.resolve [] target = none) :
    ∃ line, Adoc.parseText w (k + 2) (written (d.signs ++ [.mark .include (includeLine target)]) ++ rest)
        = .error (.err (.targetResolution line target))
      ∧ ((∀ s ∈ d.signs, s = Spec.newline ∨ 10 ∉ s.str) → line = 1 + (written d.signs).count 10) := by
  obtain ⟨ts, mo, h1, h2, hli⟩ := scan_before _ rest hu (fun s hs => by
    rcases List.mem_append.1 hs with hs | hs
    · have := ho.signs s hs
      cases s with
      | text => trivial
      | mark ty l => exact this
    · simp only [List.mem_cons, List.not_mem_nil, or_false] at hs
      subst hs
      simp [Sign.Plain]) hl
  have h0 := h1
  obtain ⟨ts, is, rfl, ma, mi⟩ := h1.split
  obtain ⟨t, rfl, ht⟩ := matches_one mi
  have hli' := hli.split.1
  obtain ⟨p, f, us, vs, rfl, h3, h4, m2, -, hf2, i, hi, hli'⟩ := feed_front w (k + 1) d.head d.lead _ ho.head ho.lead ts ([.tok t] ++ mo) _ ma
    (by rw [h2]; simp) hli'
  obtain ⟨hst, hfi, -⟩ := files_same h3 ⟨by simp [Parser.new], trivial⟩
  obtain ⟨q, hs', fl', h5, h6, -⟩ := feed_upto w k _ d.blocks p [] [] {} h4 ho.blocks hg ho.flow hst
    (fun c hc x hx => by rw [hfi]; exact hw x (List.mem_flatMap.2 ⟨c, hc, hx⟩))
    (icons_head hf2 ho.icons)
    (fun s hs => ho.signs s (by unfold RichDoc.signs; simp only [List.mem_append]; exact .inr (.inr hs))) i hi vs m2 hli'
  have h9 := h3.append h5
  obtain ⟨-, hfq, -⟩ := files_same h9 ⟨by simp [Parser.new], trivial⟩
  have hwa : Waits q none f hs' ([] ++ contents [] [] d.blocks) fl' := by
    have e : q = { q with data := none, dangling := none } := by rw [← h6.dangling, ← h6.data]
    exact ⟨by rw [← e]; exact h6, h6.data⟩
  have hb := hwa.still.base
  have hta : targetAndAttrs t = .ok (target, none) := by
    have := image_read t b!"include::" target [] (by rw [ht.ty]; rfl) (by
      rw [ht.text]
      simp [signText, includeLine, joinB]) ⟨ht1, ht2, trivial, trivial⟩
    exact this
  have h8 : tokenInto w (k + 2) t q = .error (.err (.targetResolution t.line target)) := by
    rw [tokenInto_plain w (k + 1) t q hb.header hb.openText]
    unfold dispatchToken
    rw [ht.ty]
    simp only [parseInclude, hta, bind, Except.bind, selection, hfq, show w.resolve Parser.new.files target = none from hmi]
  refine ⟨t.line, ?_, fun hnl => ?_⟩
  · unfold Adoc.parseText
    rw [h2, show ((us ++ vs ++ [t]).map Item.tok ++ mo : List Item) = (us ++ vs).map .tok ++ (.tok t :: mo) by simp,
      parse_append w (k + 2) _ _ _ q h9]
    simp only [parse, feed, h8, bind, Except.bind]
  · have hsc : scan (written (d.signs ++ [.mark .include (includeLine target)]) ++ rest) = (us ++ vs).map .tok ++ .tok t :: mo := by
      rw [h2]; simp
    rw [(C04_line _ _ t _ hsc (fun u hu => ?_) (fun u hu => ?_)).2, matches_source ma]
    · rcases matches_mem ma u hu with ⟨l, a, -⟩ | ⟨a, -⟩
      · rintro (h | h)
        all_goals
          rw [h] at a
          exact (legible_lexeme _ _ _ hl _ _ (List.mem_append_left _ a)).elim fun x hx => hx.elim fun y hy => hy
      · rintro (h | h) <;> rw [a] at h <;> cases h
    · rcases matches_mem ma u hu with ⟨l, a, b⟩ | ⟨a, l, x, y, b, e⟩
      · rcases hnl _ a with h | h
        · exact .inl (by simp only [Spec.newline, Sign.mark.injEq] at h; exact h.1)
        · exact .inr (by rw [b]; exact h)
      · rcases hnl _ b with h | h
        · cases h
        · refine .inr fun hx => h ?_
          show 10 ∈ l
          rw [e]; simp [hx]

end Adoc.Rich
