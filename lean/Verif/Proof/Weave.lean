import Verif.Spec.Weave
/-!
# Pages of documents with the same form
-/
namespace Adoc.Form
open Html

theorem Weave.wrap {a a' s s'} (A B : Str) (h : Weave a a' s s') : Weave a a' (A ++ s ++ B) (A ++ s' ++ B) := by
  simpa only [List.nil_append, List.append_nil] using ((Weave.fixed A).app h).app (.fixed B)

theorem hide_empty {is js : List Inline} (h : hide is = hide js) : is.isEmpty = js.isEmpty := by
  unfold hide at h
  cases is <;> cases js <;> simp at h <;> rfl

/-- A text that is only written if it is there. -/
theorem weave_if {is js : List Inline} (h : hide is = hide js) (A B : Str) :
    Weave [is] [js] (if is.isEmpty then [] else A ++ inlines is ++ B) (if js.isEmpty then [] else A ++ inlines js ++ B) := by
  rw [← hide_empty h]
  split
  · rename_i he
    have h1 : is = [] := List.isEmpty_iff.1 he
    have h2 : js = [] := List.isEmpty_iff.1 ((hide_empty h).symm.trans he)
    subst h1 h2
    exact .text [] []
  · exact (Weave.text is js).wrap A B

theorem weave_heading {is js : List Inline} (h : hide is = hide js) (lv : Str) : Weave [is] [js] (heading lv is) (heading lv js) := by
  simpa only [heading, List.append_assoc] using weave_if h (b!"\n        <h" ++ lv ++ b!">") (b!"</h" ++ lv ++ b!">\n        ")

theorem weave_principal {is js : List Inline} (h : hide is = hide js) : Weave [is] [js] (principal is) (principal js) := by
  simpa only [principal, List.append_assoc] using weave_if h b!"<p>" b!"</p>"

theorem weave_leaf (n : LeafName) (m : Option Meta) (is js : List Inline) : Weave [is] [js] (leaf n is m) (leaf n js m) := by
  unfold leaf
  split
  · rename_i tag _
    simpa only [List.append_assoc] using (Weave.text is js).wrap (b!"<" ++ tag ++ classAttr m
      ++ (if n = .listing then attr b!"data-code-language" (attrOf m b!"language") else [])
      ++ (if n = .verse then b!" data-type=\"verse\"" else []) ++ b!">") (b!"</" ++ tag ++ b!">")
  · exact .text is js

theorem cellText_eq (b : Block) : cellText b = cellInlines b := by cases b <;> rfl

theorem weave_cell (tag : Str) (b c : Block) : Weave [cellText b] [cellText c] (cell tag (some b)) (cell tag (some c)) := by
  simpa only [cell, cellText_eq, List.append_assoc] using (Weave.text (cellText b) (cellText c)).wrap (b!"<" ++ tag ++ b!">") (b!"</" ++ tag ++ b!">")

theorem weave_loop (cols total : Nat) : ∀ (bs cs : List Block) (idx : Nat) (s : Str), bs.length = cs.length →
    cellLoop cols total bs idx = .ok s →
    ∃ s', cellLoop cols total cs idx = .ok s' ∧ Weave (bs.map cellText) (cs.map cellText) s s'
  | [], [], _, s, _, hs => by cases hs; exact ⟨[], rfl, .fixed []⟩
  | [], _ :: _, _, _, h, _ => by cases h
  | _ :: _, [], _, _, h, _ => by cases h
  | b :: bs, c :: cs, idx, s, h, hs => by
    simp only [cellLoop] at hs ⊢
    have step : ∀ r, cellLoop cols total bs (idx + 1) = .ok r → ∃ r', cellLoop cols total cs (idx + 1) = .ok r'
        ∧ ∀ X, Weave ((b :: bs).map cellText) ((c :: cs).map cellText) (cell b!"td" (some b) ++ X ++ r) (cell b!"td" (some c) ++ X ++ r') := by
      intro r hr
      obtain ⟨r', h1, h2⟩ := weave_loop cols total bs cs (idx + 1) r (Nat.succ.inj h) hr
      exact ⟨r', h1, fun X => by simpa using ((weave_cell b!"td" b c).app (.fixed X)).app h2⟩
    cases hr : cellLoop cols total bs (idx + 1) with
    | error e =>
      rw [hr] at hs
      split at hs
      · split at hs <;> cases hs
      · cases hs
    | ok r =>
      rw [hr] at hs
      obtain ⟨r', h1, h2⟩ := step r hr
      rw [h1]
      split
      · rename_i hi
        rw [if_pos hi] at hs
        split at hs
        · cases hs
        · rename_i hc
          cases hs
          rw [if_neg hc]
          exact ⟨_, rfl, by simpa only [List.append_assoc] using h2 ((if (idx + 1) % cols = 0 ∧ idx + 1 ≠ total then
            b!"\n        </tr>\n        <tr>" else []) ++ b!"\n        ")⟩
      · rename_i hi
        rw [if_neg hi] at hs
        cases hs
        exact ⟨_, rfl, h2 b!"\n        "⟩

theorem weave_head (bs cs : List Block) (h : bs.length = cs.length) : ∀ (n k : Nat), k + n ≤ bs.length →
    Weave (((bs.drop k).take n).map cellText) (((cs.drop k).take n).map cellText) (headCells bs (List.range' k n)) (headCells cs (List.range' k n))
  | 0, k, _ => by simpa only [List.take_zero, List.map_nil, List.range'_zero, headCells] using Weave.fixed []
  | n + 1, k, hk => by
    have h1 : k < bs.length := by omega
    have h2 : k < cs.length := by omega
    have := ((weave_cell b!"th" bs[k] cs[k]).app (.fixed b!"\n    ")).app (weave_head bs cs h n (k + 1) (by omega))
    rw [List.drop_eq_getElem_cons h1, List.drop_eq_getElem_cons h2]
    simpa only [List.range'_succ, headCells, List.getElem?_eq_getElem h1, List.getElem?_eq_getElem h2, List.take_succ_cons, List.map_cons,
      List.append_nil, List.cons_append, List.nil_append] using this

theorem weave_table {titled : Bool} {bs cs : List Block} {m : Option Meta} (h : bs.length = cs.length) {s : Str}
    (hs : table titled bs m = .ok s) : ∃ s', table titled cs m = .ok s' ∧ Weave (bs.map cellText) (cs.map cellText) s s' := by
  unfold table at hs ⊢
  cases m with
  | none => cases hs
  | some m =>
    simp only at hs ⊢
    cases hc : m.attributes.get? b!"cols" with
    | none => rw [hc] at hs; cases hs
    | some c =>
      rw [hc] at hs
      simp only at hs ⊢
      have hsh : (m.options.contains b!"header" || titled) = false →
          (if m.options.contains b!"header" then colsInt c else 0) = 0 := by
        intro h
        have : m.options.contains b!"header" = false := (Bool.or_eq_false_iff.mp h).1
        rw [this]; rfl
      generalize (if m.options.contains b!"header" then colsInt c else 0) = start at hs hsh ⊢
      generalize (m.options.contains b!"header" || titled) = shown at hs hsh ⊢
      rw [← h]
      split at hs
      · cases hs
      · rename_i hl
        rw [if_neg hl]
        cases hb : cellLoop (colsInt c) bs.length (bs.drop start) start with
        | error e => rw [hb] at hs; cases hs
        | ok r =>
          rw [hb] at hs
          obtain ⟨r', h1, h2⟩ := weave_loop _ _ _ (cs.drop start) _ _ (by simp only [List.length_drop, h]) hb
          rw [h1]
          rw [List.range_eq_range'] at hs ⊢
          cases hs
          refine ⟨_, rfl, ?_⟩
          have hd := weave_head bs cs h start 0 (by omega)
          simp only [List.drop_zero] at hd
          have hb' : bs.map cellText = (bs.take start).map cellText ++ (bs.drop start).map cellText := by
            rw [← List.map_append, List.take_append_drop]
          have hc' : cs.map cellText = (cs.take start).map cellText ++ (cs.drop start).map cellText := by
            rw [← List.map_append, List.take_append_drop]
          rw [hb', hc']
          cases shown with
          | true =>
            have := (((hd.wrap b!"<table>\n    <thead>\n        " b!"</thead>\n    <tbody>\n        <tr>\n        ").app h2).app (.fixed b!"</tr>\n    </tbody>\n    </table>"))
            simpa using this
          | false =>
            have h0 := hsh rfl
            subst h0
            simpa using h2.wrap b!"<table><tr>\n        " b!"</tr>\n    </table>"

theorem formL_length {bs cs : List Block} (h : formL bs = formL cs) : bs.length = cs.length := by
  induction bs generalizing cs with
  | nil => cases cs with
    | nil => rfl
    | cons c cs => simp [formL] at h
  | cons b bs ih => cases cs with
    | nil => simp [formL] at h
    | cons c cs =>
      simp only [formL, List.cons.injEq] at h
      simp only [List.length_cons, ih h.2]

/-- What is written for a block around its children. -/
theorem weave_around {M1 M2 : M Str} {a a' c c' : List (List Inline)} {A A' : Str} (B : Str) (hA : Weave a a' A A')
    (hM : ∀ s, M1 = .ok s → ∃ s', M2 = .ok s' ∧ Weave c c' s s') {s : Str}
    (hs : M1.map (fun x => A ++ x ++ B) = .ok s) :
    ∃ s', M2.map (fun x => A' ++ x ++ B) = .ok s' ∧ Weave (a ++ c) (a' ++ c') s s' := by
  cases h1 : M1 with
  | error e => rw [h1] at hs; cases hs
  | ok x =>
    rw [h1] at hs
    obtain ⟨x', h2, h3⟩ := hM x h1
    have hs : A ++ x ++ B = s := Except.ok.inj hs
    subst hs
    exact ⟨A' ++ x' ++ B, by rw [h2]; rfl, by simpa only [List.append_nil] using (hA.app h3).app (.fixed B)⟩

theorem do_map (m : M Str) (f g : Str → Str) (h : ∀ x, f x = g x) : (do let x ← m; return f x : M Str) = m.map g := by
  cases m with
  | error e => rfl
  | ok x => exact congrArg Except.ok (h x)

theorem block_section (titled skip : Bool) (t m v bs l) : Html.block titled skip (.section t m v bs l) = (Html.blocks titled false bs).map fun x =>
    (b!"<section data-type=\"sect" ++ natToStr v ++ b!"\"" ++ classAttr m ++ attr b!"id" (attrOf m b!"id") ++ b!">"
      ++ heading b!"1" t ++ (attribution m ++ b!"\n    ")) ++ x ++ b!"</section>" := by
  rw [Html.block]
  exact do_map _ _ _ fun x => by simp only [List.append_assoc]

theorem block_list (titled skip : Bool) (v bs m l) : Html.block titled skip (.list v bs m l) = (Html.blocks titled false bs).map fun x =>
    openTag (listTag v) skip m [] [] ++ x ++ (attribution m ++ closeTag (listTag v) skip) := by
  rw [Html.block]
  exact do_map _ _ _ fun x => by simp only [List.append_assoc]

theorem block_dlist (titled skip : Bool) (bs m l) : Html.block titled skip (.dlist bs m l) = (Html.blocks titled false bs).map fun x =>
    openTag b!"dl" skip m [] [] ++ x ++ (attribution m ++ closeTag b!"dl" skip) := by
  rw [Html.block]
  exact do_map _ _ _ fun x => by simp only [List.append_assoc]

theorem block_item (titled skip : Bool) (k p bs m l) : Html.block titled skip (.listItem k p bs m l) = (Html.blocks titled false bs).map fun x =>
    (openTag b!"li" skip m [] [] ++ principal p) ++ x ++ (attribution m ++ closeTag b!"li" skip) := by
  rw [Html.block]
  exact do_map _ _ _ fun x => by simp only [List.append_assoc]

theorem block_term (titled skip : Bool) (t p bs m l) : Html.block titled skip (.dlistItem t p bs m l) = (Html.blocks titled false bs).map fun x =>
    ((if t.isEmpty then [] else b!"\n        <dt>" ++ inlines t ++ b!"</dt>\n        ")
      ++ openTag b!"dd" skip m [] [] ++ principal p) ++ x ++ (attribution m ++ closeTag b!"dd" skip) := by
  rw [Html.block]
  exact do_map _ _ _ fun x => by simp only [List.append_assoc]

theorem block_box (titled skip : Bool) (n v d bs t m l) (h : n ≠ .table) : Html.block titled skip (.parent n v d bs t m l)
    = (Html.blocks titled (n = .admonition) bs).map fun x =>
      (openTag (parentTag n) skip m [] (parentType n v) ++ heading (parentLevel n) t) ++ x ++ (attribution m ++ closeTag (parentTag n) skip) := by
  have e : Html.block titled skip (.parent n v d bs t m l) = (do
      let children ← Html.blocks titled (n = .admonition) bs
      return openTag (parentTag n) skip m [] (parentType n v) ++ heading (parentLevel n) t ++ children ++ attribution m
        ++ closeTag (parentTag n) skip) := by
    cases n <;> first | rfl | exact absurd rfl h
  rw [e]
  exact do_map _ _ _ fun x => by simp only [List.append_assoc]

theorem texts_box (n v d bs t m l) (h : n ≠ .table) : texts (.parent n v d bs t m l) = [t] ++ textsL bs := by
  cases n <;> first | rfl | exact absurd rfl h

mutual
theorem weave_block (titled skip : Bool) (b c : Block) (h : form b = form c) (s : Str) (hs : Html.block titled skip b = .ok s) :
    ∃ s', Html.block titled skip c = .ok s' ∧ Weave (texts b) (texts c) s s' := by
  match b with
  | .section t m v bs l =>
    cases c <;> simp only [form, reduceCtorEq, Block.section.injEq] at h
    rename_i t' m' v' cs l'
    obtain ⟨h1, rfl, rfl, h2, _⟩ := h
    rw [block_section] at hs ⊢
    have hA := (((Weave.fixed (b!"<section data-type=\"sect" ++ natToStr v ++ b!"\"" ++ classAttr m ++ attr b!"id" (attrOf m b!"id")
      ++ b!">")).app (weave_heading h1 b!"1")).app (.fixed (attribution m ++ b!"\n    ")))
    exact weave_around _ hA (fun x hx => weave_blocks titled false bs cs h2 x hx) hs
  | .list v bs m l =>
    cases c <;> simp only [form, reduceCtorEq, Block.list.injEq] at h
    rename_i v' cs m' l'
    obtain ⟨rfl, h2, rfl, _⟩ := h
    rw [block_list] at hs ⊢
    exact weave_around _ (.fixed _) (fun x hx => weave_blocks titled false bs cs h2 x hx) hs
  | .dlist bs m l =>
    cases c <;> simp only [form, reduceCtorEq, Block.dlist.injEq] at h
    rename_i cs m' l'
    obtain ⟨h2, rfl, _⟩ := h
    rw [block_dlist] at hs ⊢
    exact weave_around _ (.fixed _) (fun x hx => weave_blocks titled false bs cs h2 x hx) hs
  | .listItem k p bs m l =>
    cases c <;> simp only [form, reduceCtorEq, Block.listItem.injEq] at h
    rename_i k' p' cs m' l'
    obtain ⟨rfl, h1, h2, rfl, _⟩ := h
    rw [block_item] at hs ⊢
    exact weave_around _ ((Weave.fixed _).app (weave_principal h1)) (fun x hx => weave_blocks titled false bs cs h2 x hx) hs
  | .dlistItem t p bs m l =>
    cases c <;> simp only [form, reduceCtorEq, Block.dlistItem.injEq] at h
    rename_i t' p' cs m' l'
    obtain ⟨h0, h1, h2, rfl, _⟩ := h
    rw [block_term] at hs ⊢
    exact weave_around _ (((weave_if h0 b!"\n        <dt>" b!"</dt>\n        ").app (.fixed _)).app (weave_principal h1))
      (fun x hx => weave_blocks titled false bs cs h2 x hx) hs
  | .brk v l =>
    cases c <;> simp only [form, reduceCtorEq, Block.brk.injEq] at h
    obtain ⟨rfl, _⟩ := h
    cases v <;> exact ⟨s, hs, .fixed s⟩
  | .image t c0 m l =>
    cases c <;> simp only [form, reduceCtorEq, Block.image.injEq] at h
    rename_i t' c' m' l'
    obtain ⟨rfl, h1, rfl, _⟩ := h
    simp only [Html.block] at hs ⊢
    have hs := Except.ok.inj hs
    subst hs
    refine ⟨_, rfl, ?_⟩
    have := (weave_if h1 b!"\n        <figcaption>" b!"</figcaption>").wrap (openTag b!"figure" skip m (attrOf m b!"id") []
      ++ b!"\n        <img src=\"" ++ t ++ b!"\"" ++ attr b!"alt" (attrOf m b!"positional_1") ++ b!"/>")
      (b!"\n    " ++ attribution m ++ closeTag b!"figure" skip)
    simpa only [texts, List.append_assoc] using this
  | .leaf n f d is m l =>
    cases c <;> simp only [form, reduceCtorEq, Block.leaf.injEq] at h
    obtain ⟨rfl, _, _, _, rfl, _⟩ := h
    simp only [Html.block] at hs ⊢
    have hs := Except.ok.inj hs
    subst hs
    refine ⟨_, rfl, ?_⟩
    simpa only [texts, List.nil_append] using (Weave.fixed b!"\n    ").app (weave_leaf n m is _)
  | .tableCell is m l =>
    cases c <;> simp only [form, reduceCtorEq, Block.tableCell.injEq] at h
    obtain ⟨_, rfl, _⟩ := h
    simp only [Html.block] at hs ⊢
    have hs := Except.ok.inj hs
    subst hs
    refine ⟨_, rfl, ?_⟩
    simpa only [texts, List.append_assoc] using (Weave.text is _).wrap (openTag b!"UNHANDLED" skip m [] [])
      (attribution m ++ closeTag b!"UNHANDLED" skip)
  | .parent n v d bs t m l =>
    cases c <;> simp only [form, reduceCtorEq, Block.parent.injEq] at h
    rename_i n' v' d' cs t' m' l'
    obtain ⟨rfl, rfl, rfl, h2, h1, rfl, _⟩ := h
    by_cases hn : n = .table
    · subst hn
      simp only [Html.block] at hs ⊢
      simp only [texts]
      exact weave_table (formL_length h2) hs
    · rw [block_box _ _ _ _ _ _ _ _ _ hn] at hs ⊢
      rw [texts_box _ _ _ _ _ _ _ hn, texts_box _ _ _ _ _ _ _ hn]
      exact weave_around _ ((Weave.fixed _).app (weave_heading h1 _)) (fun x hx => weave_blocks titled _ bs cs h2 x hx) hs
theorem weave_blocks (titled skip : Bool) (bs cs : List Block) (h : formL bs = formL cs) (s : Str)
    (hs : Html.blocks titled skip bs = .ok s) : ∃ s', Html.blocks titled skip cs = .ok s' ∧ Weave (textsL bs) (textsL cs) s s' := by
  match bs with
  | [] =>
    cases cs with
    | nil => cases hs; exact ⟨[], rfl, .fixed []⟩
    | cons c cs => simp only [formL, reduceCtorEq] at h
  | b :: bs =>
    cases cs with
    | nil => simp only [formL, reduceCtorEq] at h
    | cons c cs =>
      simp only [formL, List.cons.injEq] at h
      simp only [Html.blocks] at hs ⊢
      cases hx : Html.block titled skip b with
      | error e => rw [hx] at hs; cases hs
      | ok x =>
        rw [hx] at hs
        cases hy : Html.blocks titled skip bs with
        | error e => rw [hy] at hs; cases hs
        | ok y =>
          rw [hy] at hs
          cases hs
          obtain ⟨x', e1, e2⟩ := weave_block titled skip b c h.1 x hx
          obtain ⟨y', e3, e4⟩ := weave_blocks titled skip bs cs h.2 y hy
          rw [e1, e3]
          exact ⟨x' ++ y', rfl, e2.app e4⟩
end

theorem weave_body (titled : Bool) (bs cs : List Block) (h : formL bs = formL cs) (s : Str)
    (hs : Html.body titled bs = .ok s) : ∃ s', Html.body titled cs = .ok s' ∧ Weave (textsL bs) (textsL cs) s s' := by
  induction bs generalizing cs s with
  | nil =>
    cases cs with
    | nil => cases hs; exact ⟨[], rfl, .fixed []⟩
    | cons c cs => simp only [formL, reduceCtorEq] at h
  | cons b bs ih =>
    cases cs with
    | nil => simp only [formL, reduceCtorEq] at h
    | cons c cs =>
      simp only [formL, List.cons.injEq] at h
      simp only [Html.body] at hs ⊢
      cases hx : Html.block titled false b with
      | error e => rw [hx] at hs; cases hs
      | ok x =>
        rw [hx] at hs
        cases hy : Html.body titled bs with
        | error e => rw [hy] at hs; cases hs
        | ok y =>
          rw [hy] at hs
          cases hs
          obtain ⟨x', e1, e2⟩ := weave_block titled false b c h.1 x hx
          obtain ⟨y', e3, e4⟩ := ih cs h.2 y hy
          rw [e1, e3]
          exact ⟨b!"\n    " ++ x' ++ y', rfl, by simpa only [List.nil_append, textsL] using ((Weave.fixed b!"\n    ").app e2).app e4⟩

end Adoc.Form
