import Verif.Spec.Book
import Verif.Props.Include
import Verif.Proof.RichDoc
/-!
# Documents of several files
-/
namespace Adoc.Rich
open Spec Block Parser Scanner Props

/-- A file name with the extension of AsciiDoc files. -/
theorem asciidoc_name (target : Str) (h : FileName target) : isAsciidoc target = true := by
  have key : ∀ (stem e : Str), c!"." ∉ e → (splitOnB c!"." (stem ++ c!"." :: e)).getLast? = some e := by
    intro stem e he
    induction stem with
    | nil => rw [show ([] : Str) ++ c!"." :: e = [] ++ c!"." :: e from rfl, splitOnB_sep _ [] _ (by simp), splitOnB_plain _ _ he]; rfl
    | cons b bs ih =>
      rw [List.cons_append, splitOnB]
      have hne := splitOnB_ne_nil c!"." (bs ++ c!"." :: e)
      split
      · rw [List.getLast?_cons_of_ne_nil hne]; exact ih
      · cases hx : splitOnB c!"." (bs ++ c!"." :: e) with
        | nil => exact absurd hx hne
        | cons x xs =>
          rw [hx] at ih
          have hxs : xs ≠ [] := by
            rintro rfl
            have := congrArg List.length hx
            have h2 : ∀ s : Str, 2 ≤ (splitOnB c!"." (s ++ c!"." :: e)).length := by
              intro s
              induction s with
              | nil => rw [splitOnB_sep _ [] _ (by simp), splitOnB_plain _ _ he]; simp
              | cons y ys ihy =>
                rw [List.cons_append, splitOnB]
                split
                · simp; omega
                · split
                  · rename_i hz; rw [hz] at ihy; simp at ihy
                  · rename_i hz; rw [hz] at ihy; simpa using ihy
            have := h2 bs
            simp_all
          rw [List.getLast?_cons_of_ne_nil hxs] at ih
          simp only [List.getLast?_cons_of_ne_nil hxs]
          exact ih
  obtain ⟨_, _, h⟩ := h
  unfold isAsciidoc
  rcases h with ⟨s, rfl⟩ | ⟨s, rfl⟩ | ⟨s, rfl⟩
  · rw [key s b!"adoc" (by decide)]; rfl
  · rw [key s b!"asciidoc" (by decide)]; rfl
  · rw [key s b!"txt" (by decide)]; rfl

theorem feeds_included {w : World} {k : Nat} {ts : List Token} {p q : Parser} (h : Feeds w k ts p q) :
    Props.included (tokenInto w (k + 1)) true ts p = .ok q := by
  induction ts generalizing p with
  | nil => exact h
  | cons t ts ih =>
    unfold Feeds at h
    rw [List.map_cons, feed] at h
    unfold Props.included
    simp only [includeToken, if_true, bind, Except.bind, pure, Except.pure] at h ⊢
    cases h1 : tokenInto w (k + 1) t p with
    | error e => rw [h1] at h; cases h
    | ok p1 =>
      rw [h1] at h
      exact ih h

theorem included_append (f : Token → Parser → M Parser) (a : Bool) (ts us : List Token) (p : Parser) :
    included f a (ts ++ us) p = included f a ts p >>= included f a us := by
  induction ts generalizing p with
  | nil => rfl
  | cons t ts ih =>
    simp only [List.cons_append, included, bind, Except.bind]
    cases includeToken f a t p with
    | error e => rfl
    | ok p1 => exact ih p1

theorem final_step (w : World) (k m : Nat) (fs : List Str) (p : Parser) (hh : p.header = none) (ho : p.openText = none) :
    tokenInto w (k + 1) (Token.final m fs) p = .ok p := by
  rw [tokenInto_plain w k _ p hh ho]
  simp [dispatchToken, Token.final, hh]

/-- A file is included. -/
theorem include_step (w : World) (k : Nat) (p q : Parser) (target path : Str) (lead : Gap) (held : List Passage) (hn : FileName target)
    (t : Token) (ht : IsMark .include (includeLine target) t) (hh : p.header = none) (hot : p.openText = none)
    (hr : w.resolve p.files target = some path)
    (hrd : w.read path = some (written (fileSigns lead held))) (ts : List Token) (m : Nat)
    (hs : (newWithStack (written (fileSigns lead held)) (p.files ++ [target])).run = ts.map .tok ++ [.tok (Token.final m (p.files ++ [target]))])
    (hf : Feeds w k ts { p with files := p.files ++ [target] } q) (hqh : q.header = none) (hqo : q.openText = none) :
    tokenInto w (k + 2) t p = leaveFile p.blocks.length { q with lastTy := .eof } := by
  have hta : targetAndAttrs t = .ok (target, none) := by
    have := image_read t b!"include::" target [] (by rw [ht.ty]; rfl) (by
      rw [ht.text]
      simp [signText, includeLine, joinB]) ⟨hn.1, hn.2.1, trivial, trivial⟩
    exact this
  rw [tokenInto_plain w (k + 1) t p hh hot]
  unfold dispatchToken
  rw [ht.ty]
  simp only [parseInclude, hta, bind, Except.bind, selection, hr, hrd]
  rw [show ts.map Item.tok ++ [.tok (Token.final m (p.files ++ [target]))] = (ts ++ [Token.final m (p.files ++ [target])]).map .tok by simp] at hs
  rw [hs, C25_everything, asciidoc_name target hn, included_append, feeds_included hf]
  simp only [bind, Except.bind, included, includeToken, if_true, final_step w k m _ q hqh hqo, pure, Except.pure]
  rfl

/-- After a file that was included, newlines may follow. -/
theorem Left.ready {p : Parser} {f : Front} {hs : List Title} {E : List (List Title × Block)} {fl : Flow}
    (h : Left p f hs E fl) (hl : After p.lastTy) (w : World) (k : Nat) : Ready w k p f hs E fl fl 0 := by
  obtain ⟨pend, h1, h2⟩ := h.content
  have hc := h.toCalm
  have hfin : ∀ i d ty, Ended { p with inBlockLine := i, dangling := d, lastTy := ty } f hs E fl := by
    intro i d ty
    rw [← h.front]
    exact finish_quiet { p with inBlockLine := i, dangling := d, lastTy := ty } (hc.same rfl) hs E fl pend h.inlines h1 h.built h2 h.ref
      h.kept
  refine ⟨hc.header, hc.openText, ?_, fun _ ty => hfin _ _ ty, ?_⟩
  · intro t1 t2 ht1 ht2
    refine ⟨_, two_newlines w k p (base_data hc.toBase) hl t1 t2 ht1 ht2 { p with
        inBlockLine := false, dangling := none, lastTy := .newLineChar, inSpan := false, forceNew := true } ?_, ?_⟩
    · intro d
      exact blank_quiet { p with inBlockLine := false, dangling := d, lastTy := .newLineChar } (hc.same rfl) hs E fl pend h.inlines h1 h2
    · exact ⟨hc.same rfl, h.inlines, rfl, rfl, rfl, h.ref, h.front, h.built, .inl rfl, h.kept, pend, h1, .inr rfl, h2⟩
  · intro _ t ht
    obtain ⟨d, g⟩ := one_newline w k p (base_data hc.toBase) hl t ht
    exact ⟨_, g, hc.header, hc.openText, fun ty => hfin _ _ ty⟩

/-- The headings after blocks. -/
def headings (hs : List Title) (cs : List Tagged) : List Title := cs.foldl (fun hs c => c.blk.after [] hs) hs

theorem contents_append (hs : List Title) (a b : List Tagged) :
    contents [] hs (a ++ b) = contents [] hs a ++ contents [] (headings hs a) b := by
  induction a generalizing hs with
  | nil => rfl
  | cons c a ih => simp only [List.cons_append, contents, ih]; rfl

theorem headings_append (hs : List Title) (a b : List Tagged) : headings hs (a ++ b) = headings (headings hs a) b := by
  unfold headings; rw [List.foldl_append]

theorem Flow.step_sec {f f' : Flow} {c : Blk} (h : f.step c = some f') (hs : f.sec = true) : f'.sec = true := by
  unfold Flow.step at h
  split at h <;> (repeat' split at h) <;> cases h <;> first | rfl | exact hs

theorem Flow.stop_sec (f : Flow) (c : Blk) (hs : f.sec = true) : (f.stop c).sec = true := by
  unfold Flow.stop
  split <;> first | rfl | exact hs

mutual
theorem flow_sec : ∀ (x : Passage) (f f' : Flow) (l : Bool), x.flow f l = some f' → f.sec = true → f'.sec = true
  | .block e, f, f', l, h, hs => by
    simp only [Passage.flow, Option.map_eq_some_iff] at h
    obtain ⟨g, h1, h2⟩ := h
    subst h2
    split
    · exact Flow.stop_sec f _ hs
    · exact Flow.step_sec (Flow.next_step h1).1 hs
  | .file _ _ held _, f, f', l, h, hs => by
    simp only [Passage.flow, Option.map_eq_some_iff] at h
    obtain ⟨g, h1, h2⟩ := h
    subst h2
    have := flowL_sec held f g h1 hs
    unfold Flow.leave
    split
    · exact this
    · exact this
theorem flowL_sec : ∀ (xs : List Passage) (f f' : Flow), flowL xs f = some f' → f.sec = true → f'.sec = true
  | [], f, f', h, hs => by cases h; exact hs
  | x :: xs, f, f', h, hs => by
    simp only [flowL, Option.bind_eq_some_iff] at h
    obtain ⟨g, h1, h2⟩ := h
    exact flowL_sec xs g f' h2 (flow_sec x f g _ h1 hs)
end

mutual
theorem ok_signs : ∀ (x : Passage) (l : Bool), x.Ok l → ∀ s ∈ x.signs, SignOk s
  | .block e, l, h => h.2.1
  | .file target lead held gap, l, h => by
    intro s hs
    simp only [Passage.signs, List.mem_cons] at hs
    rcases hs with rfl | hs
    · exact ⟨by decide, by rintro (h | h) <;> cases h⟩
    · exact h.2.2.2.2.2.2 s hs
end

theorem okL_signs (lead : Gap) (ps : List Passage) (hl : LeadOk lead) (h : okL ps) : ∀ s ∈ fileSigns lead ps, SignOk s := by
  intro s hs
  simp only [fileSigns, List.mem_append] at hs
  rcases hs with hs | hs
  · exact hl.2 s hs
  · induction ps with
    | nil => cases hs
    | cons x xs ih =>
      simp only [List.flatMap_cons, List.mem_append] at hs
      rcases hs with hs | hs
      · exact ok_signs x _ h.1 s hs
      · exact ih h.2 hs

theorem signs_plain {ss : List Sign} (h : ∀ s ∈ ss, SignOk s) : ∀ s ∈ ss, Sign.Plain s := by
  intro s hs
  have := h s hs
  cases s with
  | text => trivial
  | mark ty l => exact this

/-- What it means that a part is read. -/
def Reads (w : World) (k : Nat) (f : Front) (x : Passage) : Prop :=
  ∀ (p : Parser) (hs : List Title) (E : List (List Title × Block)) (fl fl' : Flow) (last : Bool), Between p f hs E fl → x.Ok last →
    x.flow fl last = some fl' → StackOk (fun _ => True) p.blocks → x.Found w p.files → (∀ e ∈ x.blocks, IconsFor f e.blk) → ∀ (i : Nat), 1 ≤ i → ∀ (ts : List Token),
    Matches x.signs ts → ∀ (fs : List Str), Lined fs i ts →
    ∃ q, Feeds w k ts p q
      ∧ (if last then q.header = none ∧ q.openText = none ∧ Finishes q f (headings hs x.blocks) (E ++ contents [] hs x.blocks) fl'
        else Between q f (headings hs x.blocks) (E ++ contents [] hs x.blocks) fl')

/-- What it means that parts are read. -/
def ReadsAll (w : World) (k : Nat) (f : Front) (ps : List Passage) : Prop :=
  ∀ (p : Parser) (hs : List Title) (E : List (List Title × Block)) (fl fl' : Flow), Between p f hs E fl → okL ps →
    flowL ps fl = some fl' → StackOk (fun _ => True) p.blocks → foundL w ps p.files → (∀ e ∈ blocksL ps, IconsFor f e.blk) → ∀ (i : Nat), 1 ≤ i → ∀ (ts : List Token),
    Matches (ps.flatMap Passage.signs) ts → ∀ (fs : List Str), Lined fs i ts →
    ∃ q, Feeds w k ts p q ∧ q.header = none ∧ q.openText = none
      ∧ Finishes q f (headings hs (blocksL ps)) (E ++ contents [] hs (blocksL ps)) fl'

theorem reads_block (w : World) (k : Nat) (f : Front) (e : Tagged) : Reads w (k + 1) f (.block e) := by
  intro p hs E fl fl' last h ho hf hst hw hic i hi ts hm fs hli
  obtain ⟨ho1, ho2, ho3⟩ := ho
  simp only [Passage.flow, Option.map_eq_some_iff] at hf
  obtain ⟨g, hnx, hg⟩ := hf
  have hm' : Matches (e.signs ++ []) ts := by simpa [Passage.signs] using hm
  obtain ⟨us, ns, vs, n', rfl, m1, n1, m3, l1, l3, hle⟩ := Tagged.split hm' hli
  cases m3
  obtain ⟨q, h1, h2⟩ := feed_one w k f e p hs E fl g h ho1 hnx hst hw (hic e (by simp [Passage.blocks])) ho2 i hi us m1 l1
  have e1 : headings hs (Passage.block e).blocks = e.blk.after [] hs := rfl
  have e2 : contents [] hs (Passage.block e).blocks = [(parents hs e.blk.level, e.block [])] := rfl
  rw [e1, e2]
  cases last with
  | true =>
    obtain ⟨r, h3, h4, h5, h6⟩ := h2.gapEnd e.gap ho3 ns n1
    refine ⟨r, h1.append (by simpa using h3), ?_⟩
    subst hg
    refine ⟨h4, h5, ?_⟩
    simpa using h6
  | false =>
    obtain ⟨r, h3, h4⟩ := h2.gap e.gap ho3 ns n1
    refine ⟨r, h1.append (by simpa using h3), ?_⟩
    simp only [Bool.false_and, Bool.false_eq_true, if_false] at hg
    subst hg
    exact h4

theorem reads_all (w : World) (k : Nat) (f : Front) (ps : List Passage) (hx : ∀ x ∈ ps, Reads w k f x) : ReadsAll w k f ps := by
  induction ps with
  | nil =>
    intro p hs E fl fl' h ho hf hst hw hic i hi ts hm fs hli
    cases hm
    cases hf
    exact ⟨p, Feeds.nil .., h.header, h.openText, by simpa [blocksL, headings, contents] using h.finish⟩
  | cons x xs ih =>
    intro p hs E fl fl' h ho hf hst hw hic i hi ts hm fs hli
    simp only [flowL, Option.bind_eq_some_iff] at hf
    obtain ⟨g, hf1, hf2⟩ := hf
    rw [List.flatMap_cons] at hm
    obtain ⟨us, vs, rfl, m1, m2⟩ := hm.split
    obtain ⟨l1, l2⟩ := hli.split
    obtain ⟨q, h1, h2⟩ := hx x (by simp) p hs E fl g xs.isEmpty h ho.1 hf1 hst hw.1 (fun e he => hic e (by simp [blocksL, he])) i hi us m1 fs l1
    cases xs with
    | nil =>
      cases m2
      cases hf2
      refine ⟨q, by simpa using h1, ?_⟩
      simpa [blocksL] using h2
    | cons y ys =>
      have h2' : Between q f _ _ g := h2
      obtain ⟨hst', hfi, _⟩ := files_same h1 hst
      obtain ⟨r, h3, h4, h5, h6⟩ := ih (fun z hz => hx z (by simp [hz])) q _ _ g fl' h2' ho.2 hf2 hst' (by rw [hfi]; exact hw.2)
        (fun e he => hic e (by rw [blocksL]; exact List.mem_append_right _ he)) _ (Nat.le_trans hi (lineAfter_le i us)) vs m2 fs l2
      refine ⟨r, h1.append h3, h4, h5, ?_⟩
      rw [show blocksL (x :: y :: ys) = x.blocks ++ blocksL (y :: ys) from rfl, contents_append, headings_append, ← List.append_assoc]
      exact h6

theorem Between.files {p : Parser} {f : Front} {hs : List Title} {E : List (List Title × Block)} {fl : Flow} (h : Between p f hs E fl)
    (fs : List Str) : Between { p with files := fs } f hs E fl :=
  ⟨h.toCalm.same rfl, h.inlines, h.dangling, h.line, h.span, h.ref, h.front, h.built, h.last, h.kept, h.content⟩

theorem Left.set {p : Parser} {f : Front} {hs : List Title} {E : List (List Title × Block)} {fl : Flow} (h : Left p f hs E fl)
    (fs : List Str) (ty : TokenType) : Left { p with files := fs, lastTy := ty } f hs E fl :=
  ⟨h.toCalm.same rfl, h.inlines, h.ref, h.front, h.built, h.kept, h.content⟩

theorem reads_file (w : World) (k : Nat) (f : Front) (target : Str) (lead : Gap) (held : List Passage) (gap : Gap)
    (ih : ReadsAll w k f held) : Reads w (k + 1) f (.file target lead held gap) := by
  intro p hs E fl fl' last h ho hf hst hw hic i hi ts hm fs hli
  obtain ⟨ho1, hlo, ho2, ho3, ho4, ho5, -⟩ := ho
  obtain ⟨⟨path, hr, hrd⟩, hw2⟩ := hw
  simp only [Passage.flow, Option.map_eq_some_iff] at hf
  obtain ⟨g, hf1, hf2⟩ := hf
  simp only [Passage.signs] at hm
  cases hm with
  | mark _ _ _ t us ht hm =>
  obtain ⟨vs, m, v1, v2, v3⟩ := run_signs (fileSigns lead held) (p.files ++ [target]) ho4 (signs_plain (okL_signs lead held hlo ho2)) ho3
  unfold fileSigns at v1
  obtain ⟨ns, bs, rfl, v1, v4⟩ := v1.split
  have hb := h.files (p.files ++ [target])
  obtain ⟨q1, h1, h2⟩ := hb.gap w k lead hlo.1 ns v1
  obtain ⟨s1, s2, _⟩ := files_same h1 hst
  obtain ⟨q, h3, h4, h5, h6⟩ := ih q1 hs E fl g h2 ho2 hf1 s1 (by rw [s2]; exact hw2) hic _ (lineAfter_le 1 ns) bs v4 _ v3.split.2
  have hin := include_step w k p q target path lead held ho1 t ht h.header h.openText hr hrd (ns ++ bs) m v2 (h1.append h3) h4 h5
  obtain ⟨-, p1, a1, a2⟩ := h6 .eof
  obtain ⟨q', a3, a4⟩ := a2 (fl.sec && !fl.shut) (fun hh => flowL_sec held fl g hf1 (by
    rw [Bool.and_eq_true] at hh; exact hh.1))
  obtain ⟨pend, hbl, _, hcon⟩ := h.content
  have hlen : p.blocks.length = if (fl.sec && !fl.shut) = true then 1 else 0 := by
    rw [hbl, pend_length hcon.isSome]
  have hin' : tokenInto w (k + 2) t p = .ok { q' with files := q'.files.dropLast } := by
    rw [hin]
    unfold leaveFile
    rw [hlen]
    simp only [a1, bind, Except.bind, a3]
    rfl
  have hone : Feeds w (k + 1) [t] p { q' with files := q'.files.dropLast, lastTy := .include } := by
    have := Feeds.one hin'
    rw [ht.ty] at this
    exact this
  rw [hf2] at a4
  have hre := (a4.set q'.files.dropLast .include).ready ⟨nofun, nofun⟩ w (k + 1)
  have e1 : (Passage.file target lead held gap).blocks = blocksL held := rfl
  rw [e1]
  cases last with
  | true =>
    obtain ⟨r, h7, h8, h9, h10⟩ := hre.gapEnd gap ho5 us hm
    refine ⟨r, Feeds.append (a := [t]) hone h7, h8, h9, ?_⟩
    simpa using h10
  | false =>
    obtain ⟨r, h7, h8⟩ := hre.gap gap ho5 us hm
    exact ⟨r, Feeds.append (a := [t]) hone h7, h8⟩

theorem depth_le {x : Passage} {ps : List Passage} (h : x ∈ ps) : x.depth ≤ depthL ps := by
  induction ps with
  | nil => cases h
  | cons y ys ih =>
    rw [depthL]
    rcases List.mem_cons.1 h with rfl | h
    · omega
    · have := ih h; omega

/-- Parts are read if there is fuel for the files in files. -/
theorem feed_parts (w : World) (k n : Nat) (f : Front) (ps : List Passage) (hd : depthL ps ≤ n) : ReadsAll w (k + n + 1) f ps := by
  induction n generalizing ps with
  | zero =>
    refine reads_all w _ f ps fun x hx => ?_
    cases x with
    | block e => exact reads_block w k f e
    | file target lead held gap =>
      have := depth_le hx
      rw [Passage.depth] at this
      omega
  | succ n ih =>
    refine reads_all w _ f ps fun x hx => ?_
    cases x with
    | block e => exact reads_block w (k + (n + 1)) f e
    | file target lead held gap =>
      have := depth_le hx
      rw [Passage.depth] at this
      exact reads_file w (k + n + 1) f target lead held gap (ih held (by omega))

mutual
theorem place_passage : ∀ (x : Passage) (l : Bool), x.Ok l → ∀ c ∈ x.blocks, TagsFor c.tags c.blk
  | .block e, l, h => by
    intro c hc
    rw [Passage.blocks, List.mem_singleton] at hc
    subst hc
    exact h.1.place
  | .file target lead held gap, l, h => place_passages held h.2.2.1
theorem place_passages : ∀ (ps : List Passage), okL ps → ∀ c ∈ blocksL ps, TagsFor c.tags c.blk
  | [], _ => nofun
  | x :: xs, h => by
    intro c hc
    rcases List.mem_append.1 hc with hc | hc
    · exact place_passage x _ h.1 c hc
    · exact place_passages xs h.2 c hc
end

/-- A document of several files is parsed to a graph with the contents of its blocks. -/
theorem parse_book (w : World) (k : Nat) (d : Book) (ho : d.Ok) (hl : Legible [] d.signs [])
    (hu : ∃ cs, written d.signs = enc cs) (hw : foundL w d.parts []) :
    ∃ g, Adoc.parseText w (k + depthL d.parts + 2) (written d.signs) = .ok g
      ∧ listedL [] g.blocks = contents d.whole.ids [] (blocksL d.parts)
      ∧ g.header.map (fun h => bareL h.title) = d.head.map (fun h => shownL [] h.title)
      ∧ g.attributes = d.head.map Head.defs := by
  have hsg : ∀ s ∈ d.signs, SignOk s := by
    intro s hs
    unfold Book.signs at hs
    rcases List.mem_append.1 hs with hs | hs
    · cases hh : d.head with
      | none => rw [hh] at hs; cases hs
      | some h => rw [hh] at hs; exact (ho.head h hh).2 s hs
    · exact okL_signs d.lead d.parts ho.lead ho.parts s hs
  obtain ⟨ts, m, h1, h2, hli⟩ := scan_signs d.signs hu (signs_plain hsg) hl
  obtain ⟨p, f, us, vs, rfl, h3, h4, m2, hf1, hf2, i, hi, hli⟩ := feed_front w (k + depthL d.parts + 1) d.head d.lead _
    (fun h hh => (ho.head h hh).1) ho.lead.1 ts _ _ h1 h2 hli
  obtain ⟨fe, hfe⟩ := Option.isSome_iff_exists.1 ho.flow
  obtain ⟨s1, s2, _⟩ := files_same h3 ⟨by simp [Parser.new], trivial⟩
  obtain ⟨q, h5, h6, h7, h8⟩ := feed_parts w k _ f d.parts (Nat.le_refl _) p [] [] {} fe h4 ho.parts hfe s1 (by rw [s2]; exact hw)
    (icons_head hf2 ho.icons) i hi vs m2 _ hli
  obtain ⟨g, g1, g2, g3, g4⟩ := parse_end w (k + depthL d.parts) _ _ m q f _ fe (blocksL d.parts) h2 (h3.append h5) h6 h7 h8
    (place_passages d.parts ho.parts) ho.ids
  exact ⟨g, g1, g2, by rw [g3, hf1], by rw [g4, hf2]⟩

end Adoc.Rich
