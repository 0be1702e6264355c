import Verif.Proof.RichFeed
import Verif.Props.Metadata
/-!
# Feeding metadata lines to the parser
-/
namespace Adoc.Rich
open Spec Block Parser Scanner Props Meta

/-- What the attribute list says. -/
theorem list_apply (m : Meta) (st : Option Style) (args : List Arg) (rest : List Tag)
    (h : TagsOk m.declared (.list st args :: rest)) :
    m.processAttributes (extractAttributes (joinB c!"," ((st.map Style.str).toList ++ args.map Arg.str)))
      = .ok ((Tag.list st args).apply m) ∧ TagsOk ((Tag.list st args).apply m).declared rest := by
  cases st with
  | none =>
    obtain ⟨h1, h2, h3, h4⟩ := h
    simp only [Option.map_none, Option.toList_none, List.nil_append, Tag.apply]
    rw [extract_join _ (by simpa using h1) (arg_free h2)]
    exact ⟨args_from m 0 args h2 (fun _ => h3), by rw [arg_keeps]; exact h4⟩
  | some s =>
    obtain ⟨h1, h2⟩ := h
    simp only [Option.map_some, Option.toList_some, List.cons_append, List.nil_append, Tag.apply]
    rw [extract_join _ (by simp) (by
      intro x hx
      rcases List.mem_cons.1 hx with rfl | hx
      · cases s <;> decide
      · exact arg_free h1 x hx)]
    refine ⟨?_, by rw [arg_keeps]; exact h2⟩
    have h0 : m.processOne 0 s.str = .ok { m with declared := some s.type } := by
      cases s <;> rfl
    rw [processAttributes, processFrom, h0]
    exact args_from { m with declared := some s.type } 1 args h1 (by omega)

theorem quoted_apply (m : Meta) (k v : Str) (hk : ∀ b ∈ k, isWordB b = true)
    (h1 : c!"\"" ∉ v) (h2 : c!"\n" ∉ v) (hs : Starts v) :
    m.processAttributes (extractAttributes (k ++ b!"=\"" ++ v ++ b!"\"")) = .ok (assign m k v) := by
  change m.processAttributes (extractAttributes (quotedText k v)) = _
  have hne : quotedText k v ≠ [] := by simp [quotedText]
  have hx : extractAttributes (quotedText k v) = [quotedText k v, []] := by
    unfold extractAttributes
    rw [quoted_one k v hk h1 h2]
    simp only [List.foldl_cons, List.foldl_nil, erase_self _ hne]
    rfl
  have hkn : (10 : UInt8) ∉ k := clean_not k (word_clean k hk) 10 (by simp [AttrDelim])
  have hkv : keyValues (quotedText k v) = .ok (some (k, v)) := by
    have e : quotedText k v = k ++ (61 :: 34 :: (v ++ [34])) := by simp [quotedText]
    have hn : (10 : UInt8) ∉ quotedText k v := by simp [quotedText, hkn, h2]
    unfold keyValues reNamed
    rw [splitOnB_plain _ _ hn, cutLines, e, cutDelim_key k _ _ (word_clean k hk) (by simp)]
    have := sliceM_mid [34] v [34] (starts_append _ _ hs (starts_ascii _ _ (by decide)))
      (starts_ascii _ _ (by decide)) 1 ((34 :: (v ++ [34])).length - 1) rfl (by simp; omega)
    simp only [List.cons_append, List.nil_append] at this
    simp only [if_true, this, bind, Except.bind]
    rfl
  rw [hx, processAttributes, processFrom, one_named m 0 _ k v hkv]
  rfl

/-- A metadata line has been read. -/
theorem tag_apply (tag : Tag) (rest : List Tag) (t : Token) (ty : TokenType) (l : Str) (hs : tag.sign = .mark ty l)
    (ht : IsMark ty l t) (m : Meta) (h : TagsOk m.declared (tag :: rest)) (hok : SignOk tag.sign) :
    m.addFromToken t = .ok (tag.apply m) ∧ TagsOk (tag.apply m).declared rest
      ∧ ((∃ id, tag = .anchor id) ∧ t.ty = .blockAnchor ∨ (∀ id, tag ≠ .anchor id) ∧ t.ty = .elementAttributes)
      ∧ Meta.blockFromToken t = Meta.addFromToken { loc := t.locations } t := by
  have hb : Meta.blockFromToken t = Meta.addFromToken { loc := t.locations } t := by
    unfold Meta.blockFromToken Meta.addFromToken
    rfl
  refine ⟨?_, ?_, ?_, hb⟩
  · have hlist : ∀ x, t.ty = .elementAttributes → t.lexeme = b!"[" ++ x ++ b!"]" → Starts (x ++ b!"]") →
        m.addFromToken t = m.processAttributes (extractAttributes x) := by
      intro x h1 h2 h3
      unfold Meta.addFromToken
      rw [if_neg (by rw [h1]; decide), h2]
      have := sliceM_mid b!"[" x b!"]" h3 (starts_ascii _ _ (by decide)) 1 (1 + x.length) rfl rfl
      have e : (b!"[" ++ x ++ b!"]").length - 1 = 1 + x.length := by simp; omega
      rw [e, List.append_assoc, this]
      rfl
    cases tag with
    | anchor id =>
      simp only [Tag.sign, Sign.mark.injEq] at hs
      obtain ⟨rfl, rfl⟩ := hs
      have hid : Starts (id ++ b!"]]") := by
        intro b hb'
        have := hok.2 (.inl rfl) b (by
          have := List.mem_of_mem_head? hb'
          simp only [List.append_assoc, List.mem_append]
          simp only [List.mem_append] at this
          exact .inr this)
        exact (isCont_false_iff b).2 (.inl this)
      have hsl : sliceM t.lexeme 2 (t.lexeme.length - 2) = .ok id := by
        have := sliceM_mid b!"[[" id b!"]]" hid (starts_ascii _ _ (by decide)) 2 (2 + id.length) rfl rfl
        rw [ht.lexeme]
        have e : (b!"[[" ++ id ++ b!"]]").length - 2 = 2 + id.length := by simp; omega
        rw [e, List.append_assoc, this]
      unfold Meta.addFromToken
      rw [if_pos ht.ty]
      simp only [hsl, bind, Except.bind, Tag.apply]
      cases hg : m.attributes.get? b!"id" with
      | some x => rfl
      | none => simp only [Option.isSome_none, Bool.false_eq_true, if_false, assign_other _ _ _ (show b!"id" ≠ b!"role" by decide)]; rfl
    | list st args =>
      simp only [Tag.sign, Sign.mark.injEq] at hs
      obtain ⟨rfl, rfl⟩ := hs
      rw [hlist _ ht.ty ht.lexeme (starts_join _ _ ?_ (starts_ascii _ _ (by decide)))]
      · exact (list_apply m st args rest h).1
      · intro x hx
        cases st with
        | some s =>
          simp only [Option.map_some, Option.toList_some, List.cons_append, List.head?_cons, Option.some.injEq] at hx
          subst hx
          cases s <;> exact starts_ascii _ _ (by decide)
        | none =>
          obtain ⟨h1, h2, h3, h4⟩ := h
          cases args with
          | nil => exact absurd rfl h1
          | cons a as =>
            simp only [Option.map_none, Option.toList_none, List.nil_append, List.map_cons, List.head?_cons,
              Option.some.injEq] at hx
            subst hx
            cases a with
            | named k v => exact starts_append _ _ h3 (starts_ascii _ _ (by decide))
            | pos v =>
              intro b hb'
              obtain ⟨h3, _⟩ := h3
              refine (isCont_false_iff b).2 (.inl (h3 b ?_))
              cases v with
              | nil => cases hb'
              | cons y ys =>
                simp only [Arg.str, List.head?_cons, Option.mem_def, Option.some.injEq] at hb'
                subst hb'; simp
    | quoted k v =>
      simp only [Tag.sign, Sign.mark.injEq] at hs
      obtain ⟨rfl, rfl⟩ := hs
      obtain ⟨h1, h2, h3, h4, h5⟩ := h
      have hw : ∀ b ∈ k, isWordB b = true := by
        intro b hb'
        have := h1 b hb'
        unfold Lexical.Alnum at this
        simp only [isWordB, isDigit, Bool.or_eq_true, Bool.and_eq_true, decide_eq_true_eq, UInt8.le_iff_toNat_le]
        simp only [UInt8.toNat_ofNat]
        omega
      have hk : Starts (k ++ b!"=\"") := by
        refine starts_append _ _ ?_ (starts_ascii _ _ (by decide))
        intro b hb'
        have := h1 b (List.mem_of_mem_head? hb')
        unfold Lexical.Alnum at this
        exact (isCont_false_iff b).2 (.inl (by omega))
      rw [hlist _ ht.ty ht.lexeme (by
        rw [List.append_assoc, List.append_assoc]
        cases hkk : k ++ b!"=\"" with
        | nil => simp at hkk
        | cons y ys => rw [hkk] at hk; simp only [List.cons_append]; exact starts_ascii _ _ (hk y (by simp)))]
      exact quoted_apply m k v hw h2 h3 h4
  · cases tag with
    | anchor id =>
      simp only [Tag.apply]
      split
      · exact h
      · rw [assign_other _ _ _ (by decide)]; exact h
    | list st args => exact (list_apply m st args rest h).2
    | quoted k v =>
      have : ((Tag.quoted k v).apply m).declared = m.declared := arg_keeps m 0 [.named k v]
      rw [this]
      exact h.2.2.2.2
  · cases tag with
    | anchor id =>
      simp only [Tag.sign, Sign.mark.injEq] at hs
      exact .inl ⟨⟨id, rfl⟩, by rw [ht.ty, ← hs.1]⟩
    | list st args =>
      simp only [Tag.sign, Sign.mark.injEq] at hs
      exact .inr ⟨by simp, by rw [ht.ty, ← hs.1]⟩
    | quoted k v =>
      simp only [Tag.sign, Sign.mark.injEq] at hs
      exact .inr ⟨by simp, by rw [ht.ty, ← hs.1]⟩

/-! ## Locations do not matter -/

theorem bareM_assign (m : Meta) (k v : Str) : bareM (assign m k v) = assign (bareM m) k v := by
  unfold assign; split <;> rfl

theorem bareM_args (m : Meta) (i : Nat) (args : List Arg) : bareM (applyArgs m i args) = applyArgs (bareM m) i args := by
  induction args generalizing m i with
  | nil => rfl
  | cons a args ih =>
    cases a with
    | named k v => rw [applyArgs, ih, bareM_assign]; rfl
    | pos v =>
      rw [applyArgs, ih, applyArgs]
      rw [show (bareM m).declared = m.declared from rfl]
      cases position m.declared i with
      | none => rfl
      | some k => simp only [bareM_assign]

theorem bareM_tag (m : Meta) (t : Tag) : bareM (t.apply m) = t.apply (bareM m) := by
  cases t with
  | anchor id =>
    simp only [Tag.apply]
    rw [show (bareM m).attributes = m.attributes from rfl]
    split
    · rfl
    · exact bareM_assign ..
  | list st args => cases st <;> exact bareM_args ..
  | quoted k v => exact bareM_assign ..

theorem apply_options (m : Meta) (t : Tag) : (t.apply m).options = m.options := by
  have has : ∀ (m : Meta) k v, (assign m k v).options = m.options := by
    intro m k v; unfold assign; split <;> rfl
  have har : ∀ (args : List Arg) (m : Meta) i, (applyArgs m i args).options = m.options := by
    intro args
    induction args with
    | nil => intro m i; rfl
    | cons a args ih =>
      intro m i
      cases a with
      | named k v => rw [applyArgs, ih, has]
      | pos v =>
        rw [applyArgs, ih]
        split
        · rw [has]
        · rfl
  cases t with
  | anchor id =>
    simp only [Tag.apply]
    split
    · rfl
    · exact has ..
  | list st args => cases st <;> exact har ..
  | quoted k v => exact has ..

/-- What has been read of some metadata lines. -/
structure Read (tags : List Tag) (d : Option Meta) : Prop where
  none : tags = [] → d = none
  some : tags ≠ [] → ∃ m, d = some m ∧ bareM m = tags.foldl Tag.apply {} ∧ m.options = []

theorem Read.meta {tags : List Tag} {d : Option Meta} (h : Read tags d) : (metaOf d).map bareM = tagsMeta tags := by
  by_cases ht : tags = []
  · subst ht
    rw [h.none rfl]
    rfl
  · obtain ⟨m, rfl, h1, h2⟩ := h.some ht
    unfold tagsMeta metaOf Meta.isEmpty
    simp only [← h1, h2, List.isEmpty_nil, Bool.and_true]
    rw [show (bareM m).attributes = m.attributes from rfl, show (bareM m).roles = m.roles from rfl]
    split <;> rfl

theorem Read.declared {tags : List Tag} {d : Option Meta} (h : Read tags d) :
    (d.getD {}).declared = (tags.foldl Tag.apply {}).declared := by
  by_cases ht : tags = []
  · subst ht
    rw [h.none rfl]
    rfl
  · obtain ⟨m, rfl, h1, h2⟩ := h.some ht
    rw [← h1]; rfl

/-- Only metadata lines are between the two states. -/
structure Moved (p q : Parser) : Prop where
  eq : q = { p with
    data := q.data, dangling := q.dangling, forceNew := q.forceNew, lastTy := q.lastTy, inBlockLine := q.inBlockLine }
  force : q.forceNew = true ∨ q.forceNew = p.forceNew

theorem Moved.waits {p q : Parser} {d d' : Option Meta} {f : Front} {hs : List Title} {E : List (List Title × Block)} {fl : Flow}
    (h : Moved p q) (hw : Waits p d f hs E fl) (hs' : Still q d') : Waits q d' f hs E fl := by
  refine ⟨?_, hs'.data⟩
  have hq := hw.quiet
  obtain ⟨pend, c1, c2, c3⟩ := hq.content
  have e := h.eq
  have hb : q.blocks = p.blocks := by rw [e]
  have ha : q.asg = p.asg := by rw [e]
  have hcp : q.closeParent = p.closeParent := by rw [e]
  refine ⟨⟨base_same hs'.base rfl, ?_, ?_⟩, hs'.inlines, rfl, hs'.line, hs'.span, hcp.trans hq.ref, ?_, ?_, hs'.last, ?_, pend,
    hb.trans c1, ?_, ?_⟩
  · show q.openLines = []; rw [e]; exact hq.openLines
  · show Steady q.offset q.attrs q.asg; rw [e]; exact hq.steady
  · show q.asg.front = f; rw [ha]; exact hq.front
  · show Built q.asg; rw [ha]; exact hq.built
  · show q.preserveNl = true → _; rw [e]; exact hq.kept
  · rcases h.force with h | h
    · exact .inr h
    · exact c2.imp id (fun x => h.trans x)
  · show Content q.asg.blocks hs E fl pend; rw [ha]; exact c3

/-- Metadata lines are fed to the parser. -/
theorem feed_tags (w : World) (k : Nat) (tags done : List Tag) (p : Parser) (d : Option Meta) (h : Still p d) (hr : Read done d)
    (hdg : (∀ id, done.getLast? ≠ some (.anchor id)) → p.dangling = none)
    (ho : TagsOk (d.getD {}).declared tags) (hok : ∀ t ∈ tags, SignOk t.sign) (ts : List Token)
    (hm : Matches (tagsSigns tags) ts) :
    ∃ q d', Feeds w k ts p q ∧ Still q d' ∧ Moved p q ∧ Read (done ++ tags) d'
      ∧ ((∀ id, (done ++ tags).getLast? ≠ some (.anchor id)) → q.dangling = none) := by
  unfold tagsSigns at hm
  induction tags generalizing done p d ts with
  | nil =>
    cases hm
    exact ⟨p, d, Feeds.nil .., h, ⟨rfl, .inr rfl⟩, by simpa using hr, by simpa using hdg⟩
  | cons tag tags ih =>
    simp only [List.flatMap_cons, List.cons_append, List.nil_append] at hm
    obtain ⟨ty, l, hsign⟩ : ∃ ty l, tag.sign = .mark ty l := by cases tag <;> exact ⟨_, _, rfl⟩
    have hso := hok tag (by simp)
    rw [hsign] at hm
    cases hm with
    | mark _ _ _ t us ht hm =>
    cases hm with
    | mark _ _ _ n us hn hm =>
    obtain ⟨a1, a2, a3, a4⟩ := tag_apply tag tags t ty l hsign ht (d.getD { loc := t.locations })
      (by cases d <;> exact ho) hso
    have hpm : p.parseBlockMeta t = .ok { p with data := some (tag.apply (d.getD { loc := t.locations })), forceNew := true } := by
      unfold parseBlockMeta
      rw [h.data]
      cases d with
      | none => simp only [a4]; simp only [Option.getD_none] at a1; rw [a1]; rfl
      | some m => simp only; simp only [Option.getD_some] at a1; rw [a1]; rfl
    have hstep : tokenInto w (k + 1) t p = .ok { p with data := some (tag.apply (d.getD { loc := t.locations })), forceNew := true } := by
      rw [tokenInto_plain w k t p h.base.header h.base.openText, ← hpm]
      unfold dispatchToken
      rcases a3 with ⟨_, a3⟩ | ⟨_, a3⟩ <;> rw [a3]
    have hnl : ∃ dn, tokenInto w (k + 1) n { p with data := some (tag.apply (d.getD { loc := t.locations })), forceNew := true, lastTy := t.ty }
        = .ok { p with
          data := some (tag.apply (d.getD { loc := t.locations })), forceNew := true, lastTy := t.ty, inBlockLine := false
          dangling := dn } ∧ ((∀ id, tag ≠ .anchor id) → dn = none) := by
      rw [tokenInto_plain w k n { p with data := some (tag.apply (d.getD { loc := t.locations })), forceNew := true, lastTy := t.ty }
        h.base.header h.base.openText]
      have hti : p.title = none := h.base.title
      have hic : p.inCont = false := h.base.inCont
      unfold dispatchToken
      rw [hn.ty]
      rcases a3 with ⟨⟨id, a2⟩, a3⟩ | ⟨a2, a3⟩
      · refine ⟨some n, ?_, fun h => absurd a2 (h id)⟩
        simp [parseNewLine, hti, a3, hic, TokenType.clearsNewlineAfter]
      · refine ⟨none, ?_, fun _ => rfl⟩
        simp [parseNewLine, hti, a3, hic, TokenType.clearsNewlineAfter]
    obtain ⟨dn, hnl, hdn⟩ := hnl
    have hw : Still { p with
        data := some (tag.apply (d.getD { loc := t.locations })), forceNew := true, lastTy := n.ty, inBlockLine := false
        dangling := dn } (some (tag.apply (d.getD { loc := t.locations }))) :=
      ⟨base_same h.base rfl, rfl, h.inlines, rfl, h.span, .inl hn.ty, h.top⟩
    have hread : Read (done ++ [tag]) (some (tag.apply (d.getD { loc := t.locations }))) := by
      refine ⟨by simp, fun _ => ⟨_, rfl, ?_, ?_⟩⟩
      · rw [bareM_tag, List.foldl_append]
        simp only [List.foldl_cons, List.foldl_nil]
        congr 1
        by_cases hd0 : done = []
        · subst hd0
          rw [hr.none rfl]
          rfl
        · obtain ⟨m, rfl, h1, h2⟩ := hr.some hd0
          exact h1
      · rw [apply_options]
        by_cases hd0 : done = []
        · subst hd0
          rw [hr.none rfl]
          rfl
        · obtain ⟨m, rfl, h1, h2⟩ := hr.some hd0
          exact h2
    obtain ⟨q, d', b1, b2, b0, b3, b4⟩ := ih (done ++ [tag]) _ _ hw hread (by
        intro h1
        exact hdn (fun id hid => h1 id (by simp [hid]))) a2 (fun x hx => hok x (by simp [hx])) us hm
    refine ⟨q, d', Feeds.cons hstep (Feeds.cons hnl b1), b2, ⟨b0.eq, ?_⟩, ?_, ?_⟩
    · rcases b0.force with h | h <;> exact .inl h
    · simpa using b3
    · simpa using b4

end Adoc.Rich
