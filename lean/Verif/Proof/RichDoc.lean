import Verif.Proof.RichRemark
/-!
# Documents of blocks with inline markup
-/
namespace Adoc.Rich
open Spec Block Parser Scanner Props

theorem stack_true : Good (fun _ => True) where
  nonsec _ _ _ := trivial
  sec _ _ _ _ := trivial
  same _ _ _ _ _ := trivial
  push _ _ _ _ _ _ _ := trivial

/-- The open files stay the same, and images must exist as before. -/
theorem files_same {w : World} {k : Nat} {ts : List Token} {p q : Parser} (h : Feeds w k ts p q)
    (hp : StackOk (fun _ => True) p.blocks) : StackOk (fun _ => True) q.blocks ∧ q.files = p.files ∧ q.resolveTargets = p.resolveTargets :=
  have := feedAll_rel stack_true w (k + 1) _ p q h hp
  ⟨this.1, congrArg (·.1) this.2.2, congrArg (·.2) this.2.2⟩

/-- A block with its metadata lines. -/
theorem feed_one (w : World) (k : Nat) (f : Front) (c : Tagged) (p : Parser) (hs : List Title)
    (E : List (List Title × Block)) (fl fl' : Flow) (h : Between p f hs E fl) (hc : c.Ok) (hnx : fl.next c.blk = some fl')
    (hst : StackOk (fun _ => True) p.blocks) (hw : ∀ x ∈ c.blk.targets, There w p.files x) (hic : IconsFor f c.blk)
    (hso : ∀ s ∈ c.signs, SignOk s) (n : Nat) (hn : 1 ≤ n) (ts : List Token)
    (hm : Matches (tagsSigns c.tags ++ c.blk.signs) ts) {fs : List Str} (hli : Lined fs n ts) :
    ∃ q, Feeds w (k + 1) ts p q ∧ Ready w (k + 1) q f (c.blk.after [] hs) (E ++ [(parents hs c.blk.level, c.block [])]) fl'
      (fl.stop c.blk) c.blk.ending := by
  obtain ⟨gs, us, rfl, m0, m1⟩ := hm.split
  have l2 := hli.split.2
  have e1 := lineAfter_le n gs
  have hwa : Waits p none f hs E fl := by
    have e : p = { p with data := none, dangling := none } := by rw [← h.dangling, ← h.data]
    exact ⟨by rw [← e]; exact h, h.data⟩
  obtain ⟨p', d, g1, g2, g0, g3, g4⟩ := feed_tags w (k + 1) c.tags [] p none hwa.still ⟨fun _ => rfl, fun h => absurd rfl h⟩
    (fun _ => h.dangling) hc.tags (fun t ht => hso _ (by
      simp only [List.mem_append, Tagged.signs]
      exact .inl (List.mem_flatMap.2 ⟨t, ht, by simp⟩))) gs m0
  rw [List.nil_append] at g3 g4
  obtain ⟨hst', hk'⟩ := Flow.next_step hnx
  obtain ⟨q, h1, h2⟩ := feed_blk w k p' c.tags d f hs E fl fl' (g0.waits hwa g2) g3.none g3.declared g3.meta g4 c.blk hc.blk hc.place
    (fun s hs => hso s (by simp only [List.mem_append, Tagged.signs]; exact .inr (.inl hs)))
    (fun x hx => by rw [(files_same g1 hst).2.1]; exact hw x hx) hic hst' hk' _ (Nat.le_trans hn e1) us m1 l2
  rw [g3.meta] at h2
  exact ⟨q, g1.append h1, h2⟩

/-- The tokens of a block and of what is between it and the next block. -/
theorem Tagged.split {c : Tagged} {rest : List Sign} {ts : List Token} (hm : Matches (c.signs ++ rest) ts) {fs : List Str} {n : Nat}
    (hli : Lined fs n ts) :
    ∃ us ns vs n', ts = us ++ (ns ++ vs) ∧ Matches (tagsSigns c.tags ++ c.blk.signs) us ∧ Matches c.gap.signs ns
      ∧ Matches rest vs ∧ Lined fs n us ∧ Lined fs n' vs ∧ n ≤ n' := by
  simp only [Tagged.signs, List.append_assoc] at hm
  rw [← List.append_assoc] at hm
  obtain ⟨us, vs, rfl, m1, m'⟩ := hm.split
  obtain ⟨ns, vs, rfl, m2, m3⟩ := m'.split
  obtain ⟨l1, l2⟩ := hli.split
  obtain ⟨_, l3⟩ := l2.split
  have e1 := lineAfter_le n us
  have e2 := lineAfter_le (lineAfter n us) ns
  exact ⟨us, ns, vs, _, rfl, m1, m2, m3, l1, l3, by omega⟩

theorem feed_blocks (w : World) (k : Nat) (f : Front) (cs : List Tagged) (p : Parser) (hs : List Title)
    (E : List (List Title × Block)) (fl : Flow) (h : Between p f hs E fl) (ho : ∀ c ∈ cs, c.Ok) (hg : GapsOk cs)
    (hf : flows fl (cs.map (·.blk)) = true) (hst : StackOk (fun _ => True) p.blocks)
    (hw : ∀ c ∈ cs, ∀ x ∈ c.blk.targets, There w p.files x) (hic : ∀ c ∈ cs, IconsFor f c.blk)
    (hso : ∀ s ∈ cs.flatMap Tagged.signs, SignOk s) (n : Nat) (hn : 1 ≤ n)
    (ts : List Token) (hm : Matches (cs.flatMap Tagged.signs) ts) {fs : List Str} (hli : Lined fs n ts) :
    ∃ q hs' fe, Feeds w (k + 1) ts p q ∧ q.header = none ∧ q.openText = none ∧ Finishes q f hs' (E ++ contents [] hs cs) fe := by
  induction cs generalizing p hs E fl n ts with
  | nil =>
    cases hm
    exact ⟨p, _, _, Feeds.nil .., h.header, h.openText, by simpa [contents] using h.finish⟩
  | cons c cs ih =>
    simp only [List.flatMap_cons] at hso hm
    obtain ⟨us, ns, vs, n', rfl, m1, n1, m3, l1, l3, hle⟩ := Tagged.split hm hli
    simp only [List.map_cons, flows] at hf
    cases hnx : fl.next c.blk with
    | none => rw [hnx] at hf; cases hf
    | some fl' =>
      rw [hnx] at hf
      obtain ⟨q, h1, h2⟩ := feed_one w k f c p hs E fl fl' h (ho c (by simp)) hnx hst (hw c (by simp)) (hic c (by simp))
        (fun s hs => hso s (List.mem_append_left _ hs)) n hn us m1 l1
      cases cs with
      | nil =>
        cases m3
        obtain ⟨r, h3, h4, h5, h6⟩ := h2.gapEnd c.gap hg ns n1
        exact ⟨r, _, _, h1.append (by simpa using h3), h4, h5, by rw [contents, contents]; exact h6⟩
      | cons d ds =>
        obtain ⟨r, h3, h4⟩ := h2.gap c.gap hg.1 ns n1
        obtain ⟨hst', hfi, _⟩ := files_same (h1.append h3) hst
        obtain ⟨s, hs', fe, h5, h6, h7, h8⟩ := ih r _ _ fl' h4 (fun x hx => ho x (by simp [hx])) hg.2 hf hst'
          (fun x hx y hy => by rw [hfi]; exact hw x (by simp [hx]) y hy) (fun x hx => hic x (by simp [hx]))
          (fun x hx => hso x (List.mem_append_right _ hx)) _ (by omega) vs m3 l3
        refine ⟨s, hs', fe, h1.append (h3.append h5), h6, h7, ?_⟩
        simpa [contents] using h8

/-- Blocks that are followed by blank lines. -/
theorem feed_until (w : World) (k : Nat) (f : Front) (cs rest : List Tagged) (p : Parser) (hs : List Title)
    (E : List (List Title × Block)) (fl : Flow) (h : Between p f hs E fl) (ho : ∀ c ∈ cs, c.Ok) (hne : rest ≠ []) (hg : GapsOk (cs ++ rest))
    (hf : flows fl ((cs ++ rest).map (·.blk)) = true) (hst : StackOk (fun _ => True) p.blocks)
    (hw : ∀ c ∈ cs, ∀ x ∈ c.blk.targets, There w p.files x) (hic : ∀ c ∈ cs, IconsFor f c.blk)
    (hso : ∀ s ∈ cs.flatMap Tagged.signs, SignOk s)
    (n : Nat) (hn : 1 ≤ n) (ts : List Token) (hm : Matches (cs.flatMap Tagged.signs) ts) {fs : List Str} (hli : Lined fs n ts) :
    ∃ q hs' E' fl', Feeds w (k + 1) ts p q ∧ Between q f hs' E' fl' := by
  induction cs generalizing p hs E fl n ts with
  | nil =>
    cases hm
    exact ⟨p, hs, E, fl, Feeds.nil .., h⟩
  | cons c cs ih =>
    simp only [List.flatMap_cons] at hso hm
    obtain ⟨us, ns, vs, n', rfl, m1, n1, m3, l1, l3, hle⟩ := Tagged.split hm hli
    simp only [List.cons_append, List.map_cons, flows] at hf
    cases hnx : fl.next c.blk with
    | none => rw [hnx] at hf; cases hf
    | some fl' =>
      rw [hnx] at hf
      obtain ⟨q, h1, h2⟩ := feed_one w k f c p hs E fl fl' h (ho c (by simp)) hnx hst (hw c (by simp)) (hic c (by simp))
        (fun s hs => hso s (List.mem_append_left _ hs)) n hn us m1 l1
      obtain ⟨hg1, hg2⟩ : c.gap.Ok 2 false ∧ GapsOk (cs ++ rest) := by
        cases hcr : cs ++ rest with
        | nil => simp at hcr; exact absurd hcr.2 hne
        | cons x xs =>
          rw [List.cons_append, hcr] at hg
          exact hg
      obtain ⟨r, h3, h4⟩ := h2.gap c.gap hg1 ns n1
      obtain ⟨hst', hfi, _⟩ := files_same (h1.append h3) hst
      obtain ⟨s, hs', E', fl'', h5, h6⟩ := ih r _ _ fl' h4 (fun x hx => ho x (by simp [hx])) hg2 hf hst'
        (fun x hx y hy => by rw [hfi]; exact hw x (by simp [hx]) y hy) (fun x hx => hic x (by simp [hx]))
        (fun x hx => hso x (List.mem_append_right _ hx)) _ (by omega) vs m3 l3
      exact ⟨s, hs', E', fl'', h1.append (h3.append h5), h6⟩

/-! ## The header -/

/-- A token that may be in a header. -/
theorem tokenInto_header (w : World) (k : Nat) (t : Token) (p : Parser) (h : t.canBeInHeader = true) (ho : p.openText = none) :
    tokenInto w (k + 1) t p = p.dispatchToken w (tokenInto w k) t := by
  have hv : p.verbatim t = none := by unfold verbatim; rw [ho]
  simp only [tokenInto, step, h, Bool.not_true, Bool.and_false, Bool.false_eq_true, if_false]
  show (match p.verbatim t with
    | some pass => p.parseText t pass
    | none => p.dispatchToken w (tokenInto w k) t) = _
  rw [hv]

/-- A newline after something else in a header. -/
theorem header_newline (w : World) (k : Nat) (p : Parser) (ho : p.openText = none) (hti : p.title = none) (hic : p.inCont = false)
    (hl : After p.lastTy) (t : Token) (ht : IsNewline t) :
    ∃ d, Feeds w k [t] p { p with inBlockLine := false, dangling := d, lastTy := .newLineChar } := by
  have h : ∃ d, tokenInto w (k + 1) t p = .ok { p with inBlockLine := false, dangling := d } := by
    rw [tokenInto_header w k t p (by unfold Token.canBeInHeader Token.isInline; rw [ht.ty]) ho]
    unfold dispatchToken
    rw [ht.ty]
    simp only [parseNewLine, hti, hic, Bool.false_or]
    rw [if_neg (fun h => h.elim hl.1 hl.2)]
    split
    · exact ⟨_, rfl⟩
    · exact ⟨_, rfl⟩
  obtain ⟨d, h⟩ := h
  refine ⟨d, ?_⟩
  have := Feeds.cons (k := k) (w := w) h (Feeds.nil w k _)
  rw [ht.ty] at this
  exact this

/-- A line that defines an attribute. -/
theorem parse_attribute (p : Parser) (kv : Str × Str) (h : AttrOk kv) (t : Token) (ht : IsMark .attribute (attributeLine kv) t) :
    p.parseAttribute t = .ok { p with attrs := p.attrs.insert kv.1 kv.2 } := by
  obtain ⟨key, v⟩ := kv
  obtain ⟨⟨h1, h2, h3⟩, h4, h5, h6⟩ := h
  have e : t.text = c!":" :: key ++ c!":" :: (if v = [] then [] else c!" " :: v) := by
    rw [ht.text]
    simp [signText, attributeLine]
  unfold parseAttribute
  rw [e, split_attr key _ h1 (by split <;> simp_all)]
  by_cases hv : v = []
  · subst hv
    simp only [if_pos]
    simp [h2, h3]
  · simp only [if_neg hv]
    simp only [List.cons_ne_nil, if_false]
    simp only [List.getLast_cons_cons, List.getLast_singleton, trim_space]
    simp only at h2 h5
    have h6' : key ≠ v := fun e => h6 e.symm
    have h3' : key ≠ b!"leveloffset" := h3
    rw [h5]
    simp [h6', h3']

/-- The lines of a header. -/
theorem feed_attrs (w : World) (k : Nat) (attrs : List (Str × Str)) (ha : ∀ kv ∈ attrs, AttrOk kv) (p : Parser)
    (ho : p.openText = none) (hti : p.title = none) (hic : p.inCont = false) (hl : After p.lastTy) (ts : List Token)
    (hm : Matches (attrs.flatMap fun kv => [Spec.newline, .mark .attribute (attributeLine kv)]) ts) :
    ∃ b d ty, Feeds w k ts p { p with
      inBlockLine := b, dangling := d, lastTy := ty, attrs := attrs.foldl (fun m kv => m.insert kv.1 kv.2) p.attrs } ∧ After ty := by
  induction attrs generalizing p ts with
  | nil =>
    cases hm
    exact ⟨p.inBlockLine, p.dangling, p.lastTy, Feeds.nil .., hl⟩
  | cons kv attrs ih =>
    simp only [List.flatMap_cons, List.cons_append, List.nil_append] at hm
    cases hm with
    | mark _ _ _ n us hn hm =>
    cases hm with
    | mark _ _ _ t us ht hm =>
    obtain ⟨d, h1⟩ := header_newline w k p ho hti hic hl n hn
    have h2 : tokenInto w (k + 1) t { p with inBlockLine := false, dangling := d, lastTy := .newLineChar }
        = .ok { p with inBlockLine := false, dangling := d, lastTy := .newLineChar, attrs := p.attrs.insert kv.1 kv.2 } := by
      rw [tokenInto_header w k t { p with inBlockLine := false, dangling := d, lastTy := .newLineChar }
        (by unfold Token.canBeInHeader; rw [ht.ty]) ho]
      unfold dispatchToken
      rw [ht.ty]
      exact parse_attribute _ kv (ha kv (by simp)) t ht
    obtain ⟨b', d', ty', h3, h4⟩ := ih (fun x hx => ha x (by simp [hx]))
      { p with inBlockLine := false, dangling := d, lastTy := t.ty, attrs := p.attrs.insert kv.1 kv.2 } ho hti hic
      (by show After t.ty; rw [ht.ty]; exact ⟨by decide, by decide⟩) us hm
    exact ⟨b', d', ty', Feeds.append (a := [n]) h1 (Feeds.cons h2 h3), h4⟩

theorem plain_refers (es : List Elem) (h : es.all Elem.plain = true) : es.any Elem.refers = false := by
  rw [List.any_eq_false]
  intro e he
  have := List.all_eq_true.1 h e he
  cases e <;> simp_all [Elem.plain, Elem.refers]

/-- The header of a document. -/
theorem feed_header (w : World) (k : Nat) (hd : Head) (h : hd.Ok) (t : Token) (rest : List Token)
    (ht : t.line = 1 ∧ t.startcol = 1 ∧ t.fileStack = []) (hm : Matches hd.signs (t :: rest)) :
    ∃ q x, Feeds w k (t :: rest) Parser.new q ∧ bareL x.title = shownL [] hd.title
      ∧ Between q (some x, some hd.defs, x.documentId) [] [] {} := by
  unfold Head.signs at hm
  cases hm with
  | mark _ _ _ _ _ hmk hm =>
  obtain ⟨us, vs, rfl, m1, m2⟩ := hm.split
  obtain ⟨as, ns, rfl, m2, m3⟩ := m2.split
  obtain ⟨n1, n2⟩ := matches_newlines m3
  have h0 : tokenInto w (k + 1) t Parser.new = .ok (over (some ⟨[], t.locations⟩) none none { Parser.new with inBlockLine := true }) := by
    rw [C48_place w k Parser.new t hmk.ty rfl rfl, if_pos ht]
    rfl
  obtain ⟨q, h1, hp⟩ := feed_prose_over w k { Parser.new with inBlockLine := true, lastTy := t.ty }
    ⟨rfl, rfl, rfl, rfl, rfl⟩ rfl rfl rfl hd.title h.title.1 nofun us m1 (some ⟨[], t.locations⟩) none (.inl rfl) (.inr h.title.2.2)
  have hcp : q.closeParent = false := by
    have := congrArg (·.closeParent) hp.eq
    rw [plain_refers _ h.title.2.2] at this
    exact this
  have hq := hp.eq
  obtain ⟨b, d, ty, h2, hty⟩ := feed_attrs w k hd.attrs h.attrs (over (some ⟨[], t.locations⟩) none none q) rfl rfl
    (by rw [hq]; rfl) hp.last as m2
  match ns, n1, n2, h2 with
  | [], n1, n2, _ => have := h.gap; simp at n1; omega
  | [_], n1, n2, _ => have := h.gap; simp at n1; omega
  | n :: n' :: ns, n1, n2, h2 =>
    obtain ⟨d', h3⟩ := header_newline w k { over (some ⟨[], t.locations⟩) none none q with
        inBlockLine := b, dangling := d, lastTy := ty, attrs := hd.attrs.foldl (fun m kv => m.insert kv.1 kv.2) q.attrs } rfl rfl
      (by show q.inCont = false; rw [hq]; rfl) hty n (n2 n (by simp))
    have hattrs : q.attrs = [] := by rw [hq]; rfl
    let x : Header := Header.consolidate ⟨q.inlines.reverse, t.locations⟩
    let r : Parser := { over none none none q with
      inBlockLine := false, dangling := none, lastTy := .newLineChar, attrs := hd.defs, inlines := [], inSpan := false
      asg := q.asg.addHeader x hd.defs }
    have h4 : tokenInto w (k + 1) n' { over (some ⟨[], t.locations⟩) none none q with
        inBlockLine := false, dangling := d', lastTy := .newLineChar
        attrs := hd.attrs.foldl (fun m kv => m.insert kv.1 kv.2) q.attrs } = .ok r := by
      have hn' := n2 n' (by simp)
      rw [tokenInto_header w k n' _ (by unfold Token.canBeInHeader Token.isInline; rw [hn'.ty]) rfl]
      unfold dispatchToken
      rw [hn'.ty]
      have hne : q.inlines.isEmpty = false := by
        have := hp.ne
        cases hi : q.inlines with
        | nil => exact absurd hi this
        | cons => rfl
      have hsp : q.inSpan = false := by rw [hq]; rfl
      have hti : q.inlines.reverse.isEmpty = false := by simpa using hne
      simp only [parseNewLine, over, true_or, if_true, blankLine, moveHeader, addInlines, hne, hsp, Bool.false_eq_true, if_false,
        bind, Except.bind, pure, Except.pure, List.nil_append, hti]
      rw [hattrs]
      rfl
    have hb : Between r (some x, some hd.defs, x.documentId) [] [] {} := by
      have hasg : q.asg = Parser.new.asg := by rw [hq]
      refine ⟨⟨⟨rfl, rfl, rfl, ?_, rfl⟩, ?_, ?_⟩, rfl, rfl, rfl, ?_, hcp, rfl, ?_, .inl rfl, ?_, none, ?_, .inl rfl, ?_⟩
      · show q.inCont = false; rw [hq]; rfl
      · show q.openLines = []; rw [hq]; rfl
      · show Steady q.offset hd.defs (q.asg.addHeader x hd.defs); exact ⟨by rw [hq]; rfl, rfl⟩
      · rfl
      · show Built (q.asg.addHeader x hd.defs)
        rw [hasg]
        exact .header .new
      · show q.preserveNl = true → _; rw [hq]; nofun
      · show q.blocks = []; rw [hq]; rfl
      · show Content q.asg.blocks [] [] {} none
        rw [hasg]
        exact .flat (fun _ => rfl) rfl (by simp) rfl rfl (fun _ => rfl)
    obtain ⟨s, h5, h6⟩ := hb.newlines w k ns (fun u hu => n2 u (by simp [hu]))
    refine ⟨s, x, ?_, hp.text, h6⟩
    refine Feeds.cons h0 (h1.append (h2.append (Feeds.append (a := [n]) h3 (Feeds.cons h4 ?_))))
    rw [(n2 n' (by simp)).ty]
    exact h5

/-! ## Resolved cross references -/

theorem get_lookup (ids : Ids) (i : Str) : SMap.get? ids i = ids.lookup i := by
  induction ids with
  | nil => rfl
  | cons x xs ih =>
    obtain ⟨j, v⟩ := x
    rw [SMap.get?, List.lookup_cons, ih]
    by_cases h : j = i
    · subst h; simp
    · rw [if_neg h]
      have : (i == j) = false := by simpa using fun e => h e.symm
      rw [this]

theorem get_mem {V : Type} (m : SMap V) (hn : (m.map (·.1)).Nodup) (k : Str) (v : V) (h : (k, v) ∈ m) : m.get? k = some v := by
  induction m with
  | nil => cases h
  | cons x xs ih =>
    obtain ⟨j, u⟩ := x
    rw [List.map_cons, List.nodup_cons] at hn
    rw [SMap.get?]
    rcases List.mem_cons.1 h with h | h
    · cases h; rw [if_pos rfl]
    · rw [if_neg (fun e => hn.1 (List.mem_map.2 ⟨_, h, e.symm⟩)), ih hn.2 h]

theorem get_none {V : Type} (m : SMap V) (k : Str) (h : ∀ v, (k, v) ∉ m) : m.get? k = none := by
  induction m with
  | nil => rfl
  | cons x xs ih =>
    obtain ⟨j, u⟩ := x
    rw [SMap.get?, if_neg (fun e => h u (by simp [e])), ih (fun v hv => h v (by simp [hv]))]

theorem shown_resolve (ids : Ids) (e : Elem) : Elem.shown ids e = Inline.resolveXref ids (Elem.shown [] e) := by
  cases e with
  | xref id => simp only [Elem.shown, Inline.resolveXref, get_lookup]; rfl
  | _ => rfl

theorem shownL_resolve (ids : Ids) (es : List Elem) : shownL ids es = (shownL [] es).map (Inline.resolveXref ids) := by
  simp only [shownL, List.map_map]
  exact List.map_congr_left fun e _ => shown_resolve ids e

theorem mapInlinesL_map (f : Inline → Inline) (bs : List Block) : mapInlinesL f bs = bs.map (mapInlines f) := by
  induction bs with
  | nil => rfl
  | cons b bs ih => rw [mapInlinesL, ih]; rfl

theorem piece_resolve (ids : Ids) (m : Option Meta) (c : Piece) :
    c.block ids m = (c.block [] m).mapInlines (Inline.resolveXref ids) := by
  cases c with
  | para es => simp only [Piece.block, mapInlines, shownL_resolve ids es]
  | list v items =>
    simp only [Piece.block, mapInlines, mapInlinesL_map, List.map_map]
    congr 1
    apply List.map_congr_left
    intro es _
    simp [mapInlines, shownL_resolve ids es, mapInlinesL]
  | verb n d body => rfl

theorem code_resolve (ids : Ids) (cur : Option Str) (parts : List CodePart) :
    (codeInlines cur parts).map (Inline.resolveXref ids) = codeInlines cur parts := by
  induction parts generalizing cur with
  | nil => cases cur <;> rfl
  | cons x rest ih =>
    cases x with
    | text ss => exact ih _
    | callout n => cases cur <;> simp [codeInlines, ih] <;> constructor <;> rfl
    | file target source => simp only [codeInlines, List.map_cons, ih]; rfl

theorem block_resolve (ids : Ids) (m : Option Meta) (c : Blk) :
    c.block ids m = (c.block [] m).mapInlines (Inline.resolveXref ids) := by
  cases c with
  | piece p => exact piece_resolve ids m p
  | head n es => simp only [Blk.block, mapInlines, shownL_resolve ids es, mapInlinesL]
  | brk v => rfl
  | image target args ti => rfl
  | note v es => simp only [Blk.block, mapInlines, mapInlinesL, shownL_resolve ids es, List.map_nil]
  | box n d ti lead held =>
    simp only [Blk.block, mapInlines, mapInlinesL_map, List.map_map, shownL_resolve ids (ti.getD [])]
    congr 1
    apply List.map_congr_left
    intro h _
    exact piece_resolve ids _ h.piece
  | table ti lead rows =>
    simp only [Blk.block, mapInlines, mapInlinesL_map, List.map_map, shownL_resolve ids (ti.getD [])]
    congr 1
    apply List.map_congr_left
    intro es _
    simp [mapInlines, shownL_resolve ids es]
  | dlist entries =>
    simp only [Blk.block, mapInlines, mapInlinesL_map, List.map_map]
    congr 1
    apply List.map_congr_left
    intro e _
    simp [mapInlines, shownL_resolve ids e.text, mapInlinesL]
  | colist items =>
    simp only [Blk.block, mapInlines, mapInlinesL_map, List.map_map]
    congr 1
    apply List.map_congr_left
    intro x _
    simp [mapInlines, shownL_resolve ids x.2, mapInlinesL]
  | code d parts =>
    simp only [Blk.block, mapInlines]
    rw [code_resolve]
  | attached v points =>
    simp only [Blk.block, mapInlines, mapInlinesL_map, List.map_map]
    congr 1
    apply List.map_congr_left
    intro x _
    simp only [Function.comp_apply, Point.block, mapInlines, mapInlinesL_map, List.map_map, ← shownL_resolve ids x.text]
    congr 1
    apply List.map_congr_left
    intro a _
    simp only [Function.comp_apply, Annex.block, mapInlines, mapInlinesL_map, List.map_map, List.map_nil]
    congr 1
    apply List.map_congr_left
    intro h _
    exact piece_resolve ids _ h.piece

theorem parents_map (f : List Inline → List Inline) (hs : List Title) (n : Nat) :
    parents (hs.map fun t => (t.1, f t.2)) n = (parents hs n).map fun t => (t.1, f t.2) := by
  induction hs generalizing n with
  | nil => rfl
  | cons h hs ih =>
    simp only [List.map_cons, parents]
    split
    · rw [ih]; simp
    · exact ih _

theorem contents_resolve (ids : Ids) (hs : List Title) (cs : List Tagged) :
    contents ids (hs.map (resT ids)) cs = (contents [] hs cs).map (resE ids) := by
  induction cs generalizing hs with
  | nil => rfl
  | cons c cs ih =>
    simp only [contents, List.map_cons, resE]
    have h1 : parents (hs.map (resT ids)) c.blk.level = (parents hs c.blk.level).map (resT ids) :=
      parents_map (fun l => l.map (Inline.resolveXref ids)) hs _
    have h2 : c.blk.after ids (hs.map (resT ids)) = (c.blk.after [] hs).map (resT ids) := by
      cases c.blk with
      | head n es => simp only [Blk.after, List.map_cons, resT, shownL_resolve ids es]
      | _ => rfl
    rw [h1, h2, ih]
    congr 2
    exact block_resolve ids _ c.blk

theorem items_titled (v : ListVariant) (items : List (List Elem)) :
    titledL (items.map fun es => .listItem (bullet v) (shownL [] es) [] none []) = [] := by
  induction items with
  | nil => rfl
  | cons es items ih => rw [List.map_cons, titledL, ih]; rfl

theorem ids_piece (tags : List Tag) (c : Piece) : titled (c.block [] (tagsMeta tags)) = idWith (tagsMeta tags) [] := by
  unfold idWith
  cases c with
  | list v items =>
    simp only [Piece.block, titled, items_titled, List.append_nil]
    cases tagsMeta tags <;> rfl
  | _ => cases tagsMeta tags <;> rfl

theorem ids_held (held : List Held) : titledL (held.map (Held.block [])) = held.flatMap fun h => idWith (tagsMeta h.tags) [] := by
  induction held with
  | nil => rfl
  | cons h hs ih =>
    rw [List.map_cons, titledL, ih, List.flatMap_cons]
    congr 1
    exact ids_piece h.tags h.piece

theorem ids_annexes (as : List Annex) :
    titledL (as.map (Annex.block [])) = as.flatMap fun a => a.held.flatMap fun h => idWith (tagsMeta h.tags) [] := by
  induction as with
  | nil => rfl
  | cons a as ih =>
    rw [List.map_cons, titledL, ih, List.flatMap_cons, Annex.block, titled, ids_held]
    rfl

theorem ids_points (v : ListVariant) (ps : List Point) : titledL (ps.map (Point.block [] v))
    = ps.flatMap fun p => p.boxes.flatMap fun a => a.held.flatMap fun h => idWith (tagsMeta h.tags) [] := by
  induction ps with
  | nil => rfl
  | cons p ps ih =>
    rw [List.map_cons, titledL, ih, List.flatMap_cons, Point.block, titled, ids_annexes]
    rfl

theorem cells_titled (ess : List (List Elem)) : titledL (ess.map fun es => .tableCell (shownL [] es) none []) = [] := by
  induction ess with
  | nil => rfl
  | cons es ess ih => rw [List.map_cons, titledL, ih]; rfl

theorem entries_titled (es : List Described) :
    titledL (es.map fun e => .dlistItem (shownL [] e.term) (shownL [] e.text) [] none []) = [] := by
  induction es with
  | nil => rfl
  | cons e es ih => rw [List.map_cons, titledL, ih]; rfl

theorem callouts_titled (items : List (Str × List Elem)) (f : Str × List Elem → Str) :
    titledL (items.map fun x => .listItem (f x) (shownL [] x.2) [] none []) = [] := by
  induction items with
  | nil => rfl
  | cons e es ih => rw [List.map_cons, titledL, ih]; rfl

theorem ids_block (c : Tagged) (h : TagsFor c.tags c.blk) : titled (c.block []) = c.ids := by
  obtain ⟨tags, blk, gap⟩ := c
  unfold Tagged.block Tagged.ids
  simp only
  cases blk with
  | brk v => rw [show tags = [] from h]; rfl
  | note v es => rw [show tags = [] from h]; rfl
  | piece p => simp only [Blk.block, ids_piece, Blk.title, Blk.inner, Blk.own, List.append_nil]
  | head n es =>
    simp only [Blk.block, titled, titledL, List.append_nil, Blk.title, Blk.inner, ← shownL_nil, idWith, Blk.own]
    cases tagsMeta tags <;> rfl
  | box n d ti lead held =>
    simp only [Blk.block, titled, ids_held, Blk.title, Blk.inner, ← shownL_nil, idWith, Blk.own]
    cases tagsMeta tags <;> rfl
  | image target args ti =>
    simp only [Blk.block, titled, Blk.title, Blk.inner, List.append_nil, idWith, Blk.own]
    generalize (imageMeta args).or (tagsMeta tags) = m
    cases m <;> rfl
  | table ti lead rows =>
    simp only [Blk.block, titled, cells_titled, Blk.title, Blk.inner, List.append_nil, ← shownL_nil, idWith, Blk.own]
    generalize tableMeta lead rows (tagsMeta tags) = m
    cases m <;> rfl
  | dlist entries =>
    simp only [Blk.block, titled, entries_titled, Blk.title, Blk.inner, List.append_nil, idWith, Blk.own]
    cases tagsMeta tags <;> rfl
  | colist items =>
    simp only [Blk.block, titled, callouts_titled, Blk.title, Blk.inner, List.append_nil, idWith, Blk.own]
    generalize colistMeta (tagsMeta tags) = m
    cases m <;> rfl
  | attached v points =>
    simp only [Blk.block, titled, ids_points, Blk.title, Blk.inner, idWith, Blk.own]
    cases tagsMeta tags <;> rfl
  | code d parts =>
    simp only [Blk.block, titled, Blk.title, Blk.inner, List.append_nil, idWith, Blk.own]
    cases tagsMeta tags <;> rfl

theorem ids_contents (hs : List Title) (cs : List Tagged) (h : ∀ c ∈ cs, TagsFor c.tags c.blk) :
    ((contents [] hs cs).flatMap fun x => titled x.2) = cs.flatMap Tagged.ids := by
  induction cs generalizing hs with
  | nil => rfl
  | cons c cs ih =>
    simp only [contents, List.flatMap_cons, ih _ (fun x hx => h x (by simp [hx])), ids_block c (h c (by simp))]

/-- The newlines and the header at the beginning. -/
theorem feed_front (w : World) (k : Nat) (head : Option Head) (lead : Gap) (rest : List Sign) (ho : ∀ h, head = some h → h.Ok)
    (hlo : RemarksOk false lead.remarks)
    (ts : List Token) (more : List Item) (src : Str) (h1 : Matches (headSigns head ++ (lead.signs ++ rest)) ts)
    (h2 : scan src = ts.map .tok ++ more) (hli : Lined [] 1 ts) :
    ∃ (p : Parser) (f : Front) (us vs : List Token), ts = us ++ vs ∧ Feeds w k us Parser.new p ∧ Between p f [] [] {}
      ∧ Matches rest vs ∧ f.1.map (fun h => bareL h.title) = head.map (fun h => shownL [] h.title)
      ∧ f.2.1 = head.map Head.defs ∧ ∃ i, 1 ≤ i ∧ Lined [] i vs := by
  cases hh : head with
  | none =>
    rw [hh] at h1
    obtain ⟨us, vs, rfl, m1, m2⟩ := h1.split
    cases m1
    obtain ⟨us, vs, rfl, m1, m2⟩ := m2.split
    have h0 : Between Parser.new Parser.new.asg.front [] [] {} :=
      ⟨⟨⟨rfl, rfl, rfl, rfl, rfl⟩, rfl, rfl, rfl⟩, rfl, rfl, rfl, rfl, rfl, rfl, .new, .inr rfl, nofun, none, rfl, .inl rfl,
        .flat (fun _ => rfl) rfl (by simp) rfl rfl (fun _ => rfl)⟩
    obtain ⟨p, h3, h4⟩ := h0.gap w k lead hlo us m1
    exact ⟨p, _, us, vs, rfl, h3, h4, m2, rfl, rfl, _, lineAfter_le 1 us, (Lined.split (a := us) hli).2⟩
  | some hd =>
    rw [hh] at h1
    obtain ⟨us, vs, rfl, m1, m2⟩ := h1.split
    obtain ⟨ns, vs, rfl, m2, m3⟩ := m2.split
    obtain ⟨t, us', rfl, hty⟩ : ∃ t us', us = t :: us' ∧ t.ty = .heading1 := by
      unfold headSigns Head.signs at m1
      cases m1 with
      | mark _ _ _ t us ht _ => exact ⟨t, us, rfl, ht.ty⟩
    have hpos := C05_first _ t _ (by rw [h2]; rfl) (by rw [hty]; decide) (by unfold IsTag; rw [hty]; decide)
    obtain ⟨q, x, g1, g2, g3⟩ := feed_header w k hd (ho hd hh) t us' ⟨hpos.1, hpos.2.1, hli.1.2⟩ m1
    obtain ⟨p, h3, h4⟩ := g3.gap w k lead hlo ns m2
    refine ⟨p, _, t :: us' ++ ns, vs, by simp, g1.append h3, h4, m3, by simp [g2], rfl, _, lineAfter_le 1 (t :: us' ++ ns), ?_⟩
    rw [← List.append_assoc] at hli
    exact hli.split.2

/-- When all tokens have been read, the graph has the contents. -/
theorem parse_tokens (w : World) (k : Nat) (ts : List Token) (m : Nat) (q : Parser) (f : Front) (hs : List Title) (fe : Flow)
    (cs : List Tagged) (h2 : Feeds w (k + 1) ts Parser.new q)
    (h3 : q.header = none) (h4 : q.openText = none) (h5 : Finishes q f hs (contents [] [] cs) fe)
    (hp : ∀ c ∈ cs, TagsFor c.tags c.blk) (hi : ((cs.flatMap Tagged.ids).map (·.1)).Nodup) :
    ∃ r, Parser.parse w (k + 2) (ts.map .tok ++ [.tok (Token.final m [])]) Parser.new = .ok r
      ∧ listedL [] r.asg.blocks = contents (cs.flatMap Tagged.ids) [] cs ∧ r.asg.header = f.1 ∧ r.asg.attributes = f.2.1 := by
  obtain ⟨⟨r, r1, r2, r3, r4⟩, -⟩ := h5 .eof
  have hids : (titledL r.asg.blocks).map bareKV = cs.flatMap Tagged.ids := by
    rw [titledL_listed [], r2, ids_contents _ _ hp]
  have hget : ∀ i, SMap.get? (cs.flatMap Tagged.ids) i = (r.asg.idHash.get? i).map bareL := by
    intro i
    obtain ⟨b1, b2⟩ := built_inv _ r4
    cases hi' : r.asg.idHash.get? i with
    | some v =>
      have := b1 i v hi'
      exact get_mem _ hi i (bareL v) (by rw [← hids]; exact List.mem_map.2 ⟨_, this, rfl⟩)
    | none =>
      refine get_none _ i fun v hv => ?_
      rw [← hids] at hv
      obtain ⟨y, hy, he⟩ := List.mem_map.1 hv
      have := b2 i (List.mem_map.2 ⟨y, hy, congrArg (·.1) he⟩)
      rw [hi'] at this
      cases this
  refine ⟨{ r with asg := r.asg.consolidate }, ?_, ?_, ?_, ?_⟩
  · rw [parse_append w (k + 2) _ _ _ q h2, parse_final w (k + 1) m q h3 h4, r1]
  · have hb : r.asg.consolidate.blocks = mapInlinesL (Inline.resolveXref r.asg.idHash) r.asg.blocks := by
      unfold Asg.consolidate Asg.consolidateLocations Asg.consolidateXrefs
      split
      · rfl
      · split <;> rfl
    rw [hb]
    have := listedL_resolve r.asg.idHash (cs.flatMap Tagged.ids) hget [] r.asg.blocks
    rw [List.map_nil] at this
    rw [this, r2, ← contents_resolve]
    rfl
  · have hb : r.asg.consolidate.header = r.asg.header := by
      unfold Asg.consolidate Asg.consolidateLocations Asg.consolidateXrefs
      split
      · rfl
      · split <;> simp_all
    rw [hb, show r.asg.header = f.1 from congrArg (·.1) r3]
  · have hb : r.asg.consolidate.attributes = r.asg.attributes := by
      unfold Asg.consolidate Asg.consolidateLocations Asg.consolidateXrefs
      split
      · rfl
      · split <;> rfl
    rw [hb, show r.asg.attributes = f.2.1 from congrArg (·.2.1) r3]

/-- When all tokens have been read, the graph has the contents. -/
theorem parse_end (w : World) (k : Nat) (src : Str) (ts : List Token) (m : Nat) (q : Parser) (f : Front) (hs : List Title) (fe : Flow)
    (cs : List Tagged) (h1 : scan src = ts.map .tok ++ [.tok (Token.final m [])]) (h2 : Feeds w (k + 1) ts Parser.new q)
    (h3 : q.header = none) (h4 : q.openText = none) (h5 : Finishes q f hs (contents [] [] cs) fe)
    (hp : ∀ c ∈ cs, TagsFor c.tags c.blk) (hi : ((cs.flatMap Tagged.ids).map (·.1)).Nodup) :
    ∃ g, Adoc.parseText w (k + 2) src = .ok g ∧ listedL [] g.blocks = contents (cs.flatMap Tagged.ids) [] cs
      ∧ g.header = f.1 ∧ g.attributes = f.2.1 := by
  obtain ⟨r, r1, r2, r3, r4⟩ := parse_tokens w k ts m q f hs fe cs h2 h3 h4 h5 hp hi
  refine ⟨r.asg, ?_, r2, r3, r4⟩
  unfold Adoc.parseText
  rw [h1, r1]
  rfl

theorem icons_head {f : Front} {head : Option Head} {cs : List Tagged} (hf : f.2.1 = head.map Head.defs)
    (h : (∃ e ∈ cs, e.blk.hasCallout = true) → NoIcons head) : ∀ e ∈ cs, IconsFor f e.blk := by
  intro e he hc
  rw [hf]
  cases hh : head with
  | none => nofun
  | some x => exact h ⟨e, he, hc⟩ x hh

/-- A document is parsed to a graph with the contents written. -/
theorem parse_rich (w : World) (k : Nat) (d : RichDoc) (ho : d.Ok) (hl : Legible [] d.signs [])
    (hu : ∃ cs, written d.signs = enc cs) (hw : ∀ x ∈ d.targets, There w [] x) :
    ∃ g, Adoc.parseText w (k + 2) (written d.signs) = .ok g ∧ listedL [] g.blocks = contents d.ids [] d.blocks
      ∧ g.header.map (fun h => bareL h.title) = d.head.map (fun h => shownL [] h.title)
      ∧ g.attributes = d.head.map Head.defs := by
  obtain ⟨ts, m, h1, h2, hli⟩ := scan_signs d.signs hu (fun s hs => by
    have := ho.signs s hs
    cases s with
    | text => trivial
    | mark ty l => exact this) hl
  obtain ⟨p, f, us, vs, rfl, h3, h4, m2, hf1, hf2, i, hi, hli⟩ := feed_front w (k + 1) d.head d.lead _ ho.head ho.lead ts _ _ h1 h2 hli
  obtain ⟨q, hs', fe, h5, h6, h7, h8⟩ := feed_blocks w k _ d.blocks p [] [] {} h4 ho.blocks ho.gaps ho.flow
    (files_same h3 ⟨by simp [Parser.new], trivial⟩).1 (fun c hc x hx => by
      rw [(files_same h3 ⟨by simp [Parser.new], trivial⟩).2.1]; exact hw x (List.mem_flatMap.2 ⟨c, hc, hx⟩))
    (icons_head hf2 ho.icons)
    (fun s hs => ho.signs s (by unfold RichDoc.signs; simp only [List.mem_append]; exact .inr (.inr hs))) i hi vs m2 hli
  obtain ⟨g, g1, g2, g3, g4⟩ := parse_end w k _ _ m q f hs' fe d.blocks h2 (h3.append h5) h6 h7 h8
    (fun c hc => (ho.blocks c hc).place) ho.ids
  exact ⟨g, g1, g2, by rw [g3, hf1], by rw [g4, hf2]⟩

theorem written_append (a b : List Sign) : written (a ++ b) = written a ++ written b := by
  induction a with
  | nil => rfl
  | cons s a ih => simp [written, ih]

theorem legible_lexeme (ss : List Sign) (before after : Str) (h : Legible before ss after) (ty : TokenType) (l : Str)
    (hm : .mark ty l ∈ ss) : ∃ x y, Lexical.Lexeme ty x l y := by
  induction ss generalizing before with
  | nil => cases hm
  | cons s ss ih =>
    rcases List.mem_cons.1 hm with rfl | hm
    · exact ⟨_, _, h.1⟩
    · exact ih _ h.2 hm

theorem matches_source {ss : List Sign} {ts : List Token} (h : Matches ss ts) : source ts = written ss := by
  have hp : ∀ l ts, Pieces' l ts → source ts = l := by
    intro l ts h
    induction h with
    | nil => rfl
    | cons x rest t ts _ ht _ ih =>
      simp only [source, List.flatMap_cons] at ih ⊢
      rw [ht.lexeme, ih]
  induction h with
  | nil => rfl
  | text l ss ts us _ ht _ ih =>
    simp only [source, List.flatMap_append, written, Sign.str] at ih ⊢
    rw [ih]
    congr 1
    exact hp l ts ht
  | mark ty l ss t us ht _ ih =>
    simp only [source, List.flatMap_cons, written, Sign.str] at ih ⊢
    rw [ih, ht.lexeme]

/-- A document with an image that does not exist is not parsed: the error says which image, and where. -/
theorem parse_missing (w : World) (k : Nat) (d : RichDoc) (ho : d.Ok) (hl : Legible [] d.signs [])
    (hu : ∃ cs, written d.signs = enc cs) (pre post : List Tagged) (c : Tagged) (target : Str) (args : List Arg)
    (title : Option (List Elem)) (hd : d.blocks = pre ++ c :: post) (hc : c.blk = .image target args title)
    (hw : ∀ e ∈ pre, ∀ x ∈ e.blk.targets, There w [] x) (hmi : w.resolve [] target = none) :
    ∃ line, Adoc.parseText w (k + 2) (written d.signs) = .error (.err (.targetResolution line target))
      ∧ ((∀ s ∈ d.signs, s = Spec.newline ∨ 10 ∉ s.str) → line = 1 + (written (d.before pre c.tags title)).count 10) := by
  obtain ⟨ts, m, h1, h2, hli⟩ := scan_signs d.signs hu (fun s hs => by
    have := ho.signs s hs
    cases s with
    | text => trivial
    | mark ty l => exact this) hl
  obtain ⟨p, f, us, vs, rfl, h3, h4, m2, -, hf2, i, hi, hli⟩ := feed_front w (k + 1) d.head d.lead _ ho.head ho.lead ts _ _ h1 h2 hli
  rw [hd, List.flatMap_append, List.flatMap_cons] at m2
  obtain ⟨bs, vs, rfl, mb, m3⟩ := m2.split
  obtain ⟨cs, es, rfl, m3, m4⟩ := m3.split
  rw [Tagged.signs, hc] at m3
  obtain ⟨gs, cs, rfl, m5, m3⟩ := m3.split
  obtain ⟨is, ns, rfl, m3, m6⟩ := m3.split
  simp only [Blk.signs] at m3
  obtain ⟨as, is, rfl, ma, m7⟩ := m3.split
  obtain ⟨t, rfl, ht⟩ := matches_one m7
  have hsg : ∀ e ∈ d.blocks, ∀ s ∈ e.signs, SignOk s := fun e he s hs =>
    ho.signs s (by unfold RichDoc.signs; simp only [List.mem_append]; exact .inr (.inr (List.mem_flatMap.2 ⟨e, he, hs⟩)))
  obtain ⟨hst, hfi, hrt⟩ := files_same h3 ⟨by simp [Parser.new], trivial⟩
  obtain ⟨q, hs', E', fl', h5, h6⟩ := feed_until w k f pre (c :: post) p [] [] {} h4 (fun x hx => ho.blocks x (by rw [hd]; simp [hx]))
    (by simp) (by rw [← hd]; exact ho.gaps) (by rw [← hd]; exact ho.flow) hst
    (fun x hx y hy => by rw [hfi]; exact hw x hx y hy)
    (fun x hx => icons_head hf2 ho.icons x (by rw [hd]; simp [hx]))
    (fun s hs => by
      obtain ⟨e, he, hs⟩ := List.mem_flatMap.1 hs
      exact hsg e (by rw [hd]; simp [he]) s hs) i hi bs mb hli.split.1
  have hcm : c ∈ d.blocks := by rw [hd]; simp
  have hco := ho.blocks c hcm
  have hwa : Waits q none f hs' E' fl' := by
    have e : q = { q with data := none, dangling := none } := by rw [← h6.dangling, ← h6.data]
    exact ⟨by rw [← e]; exact h6, h6.data⟩
  obtain ⟨q', dd, g1, g2, g0, g3, g4⟩ := feed_tags w (k + 1) c.tags [] q none hwa.still ⟨fun _ => rfl, fun h => absurd rfl h⟩
    (fun _ => h6.dangling) hco.tags (fun t ht => hsg c hcm _ (by
      simp only [List.mem_append, Tagged.signs]
      exact .inl (List.mem_flatMap.2 ⟨t, ht, by simp⟩))) gs m5
  rw [List.nil_append] at g3
  obtain ⟨_, hfi', hrt'⟩ := files_same (h3.append (h5.append g1)) ⟨by simp [Parser.new], trivial⟩
  obtain ⟨r, h7, h8⟩ := feed_missing w (k + 1) q' c.tags dd g2 g3.none target args title (by rw [← hc]; exact hco.blk)
    (by rw [← hc]; exact hco.place) hrt' (by rw [hfi']; exact hmi) as ma t ht
  refine ⟨t.line, ?_, fun hnl => ?_⟩
  · have hall : Feeds w (k + 1) (us ++ (bs ++ (gs ++ as))) Parser.new r := h3.append (h5.append (g1.append h7))
    unfold Adoc.parseText
    rw [h2, show ((us ++ (bs ++ (gs ++ (as ++ [t] ++ ns) ++ es))).map Item.tok ++ [.tok (Token.final m [])] : List Item)
        = (us ++ (bs ++ (gs ++ as))).map .tok ++ (.tok t :: (ns ++ es).map .tok ++ [.tok (Token.final m [])]) by simp,
      parse_append w (k + 2) _ _ _ r hall]
    simp only [parse, List.cons_append, feed, h8, bind, Except.bind]
  · have hsc : scan (written d.signs) = (us ++ (bs ++ (gs ++ as))).map .tok ++ .tok t :: ((ns ++ es).map .tok ++ [.tok (Token.final m [])]) := by
      rw [h2]; simp
    have hsrc : source us = written (d.front) := by
      have e := matches_source h1
      have e' : d.signs = d.front ++ d.blocks.flatMap Tagged.signs := by
        unfold RichDoc.signs RichDoc.front
        simp
      rw [e', written_append, ← matches_source (ss := d.blocks.flatMap Tagged.signs) (ts := bs ++ (gs ++ (as ++ [t] ++ ns) ++ es)) (by rw [hd]; simpa using m2)] at e
      simp only [source, List.flatMap_append] at e ⊢
      exact List.append_cancel_right e
    have hmem : ∀ u ∈ us ++ (bs ++ (gs ++ as)), u ∈ us ++ (bs ++ (gs ++ (as ++ [t] ++ ns) ++ es)) := by
      intro u hu
      simp only [List.mem_append] at hu ⊢
      rcases hu with hu | hu | hu | hu
      · exact .inl hu
      · exact .inr (.inl hu)
      · exact .inr (.inr (.inl (.inl hu)))
      · exact .inr (.inr (.inl (.inr (.inl (.inl hu)))))
    rw [(C04_line _ _ t _ hsc (fun u hu => ?_) (fun u hu => ?_)).2]
    · have e : source (us ++ (bs ++ (gs ++ as))) = written (d.before pre c.tags title) := by
        unfold RichDoc.before
        rw [written_append, written_append, written_append, ← hsrc, ← matches_source mb, ← matches_source m5, ← matches_source ma]
        simp [source]
      rw [e]
    · rcases matches_mem h1 u (hmem u hu) with ⟨l, a, -⟩ | ⟨a, -⟩
      · rintro (h | h)
        all_goals
          rw [h] at a
          exact (legible_lexeme _ _ _ hl _ _ a).elim fun x hx => hx.elim fun y hy => hy
      · rintro (h | h) <;> rw [a] at h <;> cases h
    · rcases matches_mem h1 u (hmem u hu) with ⟨l, a, b⟩ | ⟨a, l, x, y, b, e⟩
      · rcases hnl _ a with h | h
        · exact .inl (by simp only [Spec.newline, Sign.mark.injEq] at h; exact h.1)
        · exact .inr (by rw [b]; exact h)
      · rcases hnl _ b with h | h
        · cases h
        · refine .inr fun hx => h ?_
          show 10 ∈ l
          rw [e]; simp [hx]

end Adoc.Rich
