import Verif.Spec.Ink
import Verif.Proof.DocxFlow
/-!
# The formatting of the text of a Word document
-/
namespace Adoc.Ink

open Docx Word
open Render (Run RunProps)

variable {α β : Type} {rel : α → β → Prop}

theorem chars_append (a b : Str) (x : α) : chars (a ++ b) x = chars a x ++ chars b x := by simp [chars]

theorem Alike.append {a c : List (Mark α)} {b d : List (Mark β)} (h : Alike rel a b) (k : Alike rel c d) :
    Alike rel (a ++ c) (b ++ d) := by
  induction h with
  | nil => exact k
  | char x hr _ ih => exact .char x hr ih
  | brk _ ih => exact .brk ih
  | left x hw _ ih => rw [List.append_assoc]; exact .left x hw ih
  | right y hw _ ih => rw [List.append_assoc]; exact .right y hw ih

theorem Alike.ofWords {s t : Str} (h : SameWords s t) {x : α} {y : β} (hr : rel x y) : Alike rel (chars s x) (chars t y) := by
  induction h with
  | nil => exact .nil
  | byte b _ ih => exact .char b hr ih
  | left hw _ ih => rw [chars_append]; exact .left x hw ih
  | right hw _ ih => rw [chars_append]; exact .right y hw ih

/-- What is said about a byte is changed. -/
def Mark.map (f : α → β) : Mark α → Mark β
  | .char b x => .char b (f x)
  | .brk => .brk

theorem chars_map (f : α → β) (s : Str) (x : α) : (chars s x).map (Mark.map f) = chars s (f x) := by
  simp [chars, Mark.map]

/-- The formatting that comes from variants. -/
def dye (vs : List SpanVariant) : RunProps := vs.foldl RunProps.apply {}

theorem runLook_map (r : Run) : runLook r = (runMarks r).map (Mark.map dye) := by
  cases r with
  | text s vs => simp only [runLook, runMarks, chars_map]; rfl
  | brk => rfl

theorem Alike.look {s : List (Mark α)} {t : List (Mark β)} {γ : Type} {rel' : α → γ → Prop} (f : β → γ)
    (h : Alike rel s t) (hs : ∀ b x, Mark.char b x ∈ s → ∀ y, rel x y → rel' x (f y)) :
    Alike rel' s (t.map (Mark.map f)) := by
  induction h with
  | nil => exact .nil
  | char b hr _ ih => exact .char b (hs b _ (by simp) _ hr) (ih fun b' x hx => hs b' x (List.mem_cons_of_mem _ hx))
  | brk _ ih => exact .brk (ih fun b' x hx => hs b' x (List.mem_cons_of_mem _ hx))
  | left x hw _ ih => exact .left x hw (ih fun b' x' hx => hs b' x' (List.mem_append_right _ hx))
  | right y hw _ ih => rw [List.map_append, chars_map]; exact .right _ hw (ih hs)

/-! ## The variants that are applied -/

mutual
theorem runsWith_mono (i : Inline) (lb : Bool) (vs : List SpanVariant) : vs <+: (runsWith i lb vs).2.2 := by
  match i with
  | .lit n v l => exact List.prefix_refl _
  | .span v f is m l o => exact (List.prefix_append vs [v]).trans (runsWithL_mono is lb _)
  | .brk l => exact List.prefix_refl _
  | .ref v t is m l => exact runsWithL_mono is lb vs
theorem runsWithL_mono (is : List Inline) (lb : Bool) (vs : List SpanVariant) : vs <+: (runsWithL is lb vs).2.2 := by
  match is with
  | [] => exact List.prefix_refl _
  | i :: is => exact (runsWith_mono i lb vs).trans (runsWithL_mono is _ _)
end

theorem lit_alike (n : LitName) (v : Str) (lb : Bool) {x : α} {y : β} (hr : rel x y) :
    Alike rel (chars (refdChar n v) x) (chars (if lb then trimStart (flatLines (refdChar n v)) else flatLines (refdChar n v)) y) := by
  cases lb
  · exact .ofWords (flatLines_words _) hr
  · exact .ofWords (flat_trim _) hr

mutual
theorem runsWith_dyed (i : Inline) (lb : Bool) (ar vs : List SpanVariant) (h : ∀ v ∈ ar, v ∈ vs) :
    Alike (fun vs us => ∀ v ∈ vs, v ∈ us) (marks ar i) ((runsWith i lb vs).1.flatMap runMarks) := by
  match i with
  | .lit n v l =>
    simp only [marks, runsWith, List.flatMap_cons, List.flatMap_nil, List.append_nil, runMarks]
    exact lit_alike n v lb h
  | .span v f is m l o =>
    refine runsWithL_dyed is lb _ _ ?_
    intro w hw
    simp only [List.mem_append, List.mem_singleton] at hw ⊢
    exact hw.imp (h w) id
  | .brk l => exact .brk .nil
  | .ref v t is m l => exact runsWithL_dyed is lb ar vs h
theorem runsWithL_dyed (is : List Inline) (lb : Bool) (ar vs : List SpanVariant) (h : ∀ v ∈ ar, v ∈ vs) :
    Alike (fun vs us => ∀ v ∈ vs, v ∈ us) (marksL ar is) ((runsWithL is lb vs).1.flatMap runMarks) := by
  match is with
  | [] => exact .nil
  | i :: is =>
    simp only [marksL, runsWithL, List.flatMap_append]
    refine (runsWith_dyed i lb ar vs h).append (runsWithL_dyed is _ ar _ ?_)
    intro v hv
    exact (runsWith_mono i lb vs).subset (h v hv)
end

mutual
theorem runsWith_same (i : Inline) (lb : Bool) (vs : List SpanVariant) (h : spanned i = false) :
    (runsWith i lb vs).2.2 = vs := by
  match i with
  | .lit n v l => rfl
  | .span v f is m l o => simp [spanned] at h
  | .brk l => rfl
  | .ref v t is m l => exact runsWithL_same is lb vs h
theorem runsWithL_same (is : List Inline) (lb : Bool) (vs : List SpanVariant) (h : spannedL is = false) :
    (runsWithL is lb vs).2.2 = vs := by
  match is with
  | [] => rfl
  | i :: is =>
    simp only [spannedL, Bool.or_eq_false_iff] at h
    simp only [runsWithL]
    rw [runsWithL_same is _ _ h.2, runsWith_same i lb vs h.1]
end

mutual
theorem runsWith_exact (i : Inline) (lb : Bool) (vs : List SpanVariant) (deep : Bool) (h : clear deep i = true) :
    Alike Eq (marks vs i) ((runsWith i lb vs).1.flatMap runMarks) := by
  match i with
  | .lit n v l =>
    simp only [marks, runsWith, List.flatMap_cons, List.flatMap_nil, List.append_nil, runMarks]
    exact lit_alike n v lb rfl
  | .span v f is m l o =>
    simp only [clear, Bool.and_eq_true] at h
    exact runsWithL_exact is lb _ _ h.2
  | .brk l => exact .brk .nil
  | .ref v t is m l => exact runsWithL_exact is lb vs deep h
theorem runsWithL_exact (is : List Inline) (lb : Bool) (vs : List SpanVariant) (deep : Bool) (h : clearL deep is = true) :
    Alike Eq (marksL vs is) ((runsWithL is lb vs).1.flatMap runMarks) := by
  match is with
  | [] => exact .nil
  | i :: is =>
    simp only [clearL, Bool.and_eq_true, Bool.or_eq_true, Bool.not_eq_true'] at h
    simp only [marksL, runsWithL, List.flatMap_append]
    refine (runsWith_exact i lb vs deep h.1.1).append ?_
    rcases h.1.2 with hs | hs
    · rw [runsWith_same i lb vs hs]
      exact runsWithL_exact is _ vs deep h.2
    · rw [List.isEmpty_iff.1 hs]
      exact .nil
end

theorem lit_joined (n : LitName) (v : Str) (lb : Bool) {x : α} {y : β} (hr : rel x y) :
    Alike rel (chars (refdChar n v) x) (chars (joinLines (if lb then trimStart (refdChar n v) else refdChar n v)) y) := by
  cases lb
  · exact .ofWords (joinLines_words _) hr
  · exact .ofWords (joinLines_trim _) hr

theorem runsFrom_dyed (i : Inline) (lb : Bool) :
    Alike (fun vs us => ∀ v ∈ vs, v ∈ us) (marks [] i) ((runsFrom i lb).1.flatMap runMarks) := by
  match i with
  | .lit n v l =>
    simp only [marks, runsFrom, List.flatMap_cons, List.flatMap_nil, List.append_nil, runMarks]
    exact lit_joined n v lb (fun _ h => h)
  | .span v f is m l o => exact runsWithL_dyed is lb [v] [v] (fun _ h => h)
  | .brk l => exact .brk .nil
  | .ref v t is m l => exact runsWithL_dyed is lb [] [] (fun _ h => h)

theorem runs_dyed (is : List Inline) (lb : Bool) :
    Alike (fun vs us => ∀ v ∈ vs, v ∈ us) (marksL [] is) ((runs is lb).1.flatMap runMarks) := by
  induction is generalizing lb with
  | nil => exact .nil
  | cons i is ih =>
    simp only [marksL, runs, List.flatMap_append]
    exact (runsFrom_dyed i lb).append (ih _)

theorem runsFrom_exact (i : Inline) (lb : Bool) (h : clear false i = true) :
    Alike Eq (marks [] i) ((runsFrom i lb).1.flatMap runMarks) := by
  match i with
  | .lit n v l =>
    simp only [marks, runsFrom, List.flatMap_cons, List.flatMap_nil, List.append_nil, runMarks]
    exact lit_joined n v lb rfl
  | .span v f is m l o =>
    simp only [clear, Bool.and_eq_true] at h
    exact runsWithL_exact is lb [v] true h.2
  | .brk l => exact .brk .nil
  | .ref v t is m l => exact runsWithL_exact is lb [] false h

theorem runs_exact (is : List Inline) (lb : Bool) (h : Clear is) :
    Alike Eq (marksL [] is) ((runs is lb).1.flatMap runMarks) := by
  induction is generalizing lb with
  | nil => exact .nil
  | cons i is ih =>
    simp only [marksL, runs, List.flatMap_append]
    exact (runsFrom_exact i lb (h i (by simp))).append (ih _ fun j hj => h j (List.mem_cons_of_mem _ hj))

/-! ## The formatting -/

/-- No span but the outermost is a script. -/
def Tame (vs : List SpanVariant) : Prop := ∀ v ∈ vs.tail, script v = false

theorem looks_step (us : List SpanVariant) (r : RunProps) (v : SpanVariant) (hv : script v = false) (h : Looks us r) :
    Looks (us ++ [v]) (r.apply v) := by
  obtain ⟨h1, h2, h3, h4, h5⟩ := h
  cases v <;> simp_all [Looks, RunProps.apply, colour, script]

theorem looks_fold (vs : List SpanVariant) (h : ∀ v ∈ vs, script v = false) :
    ∀ (us : List SpanVariant) (r : RunProps), Looks us r → Looks (us ++ vs) (vs.foldl RunProps.apply r) := by
  induction vs with
  | nil => intro us r hr; simpa using hr
  | cons v vs ih =>
    intro us r hr
    have := ih (fun w hw => h w (List.mem_cons_of_mem _ hw)) (us ++ [v]) (r.apply v) (looks_step us r v (h v (by simp)) hr)
    simpa using this

theorem looks_dye (vs : List SpanVariant) (h : Tame vs) : Looks vs (dye vs) := by
  cases vs with
  | nil => simp [Looks, dye]
  | cons v vs =>
    have := looks_fold vs h [v] (RunProps.apply {} v) (by cases v <;> simp [Looks, RunProps.apply, colour, script])
    exact this

theorem chars_mem {s : Str} {x y : α} {b : UInt8} (h : Mark.char b y ∈ chars s x) : y = x := by
  simp only [chars, List.mem_map, Mark.char.injEq] at h
  obtain ⟨_, _, _, h⟩ := h
  exact h.symm

mutual
theorem marks_tame (i : Inline) (ar : List SpanVariant) (ht : Tame ar) (deep : Bool) (hd : ar ≠ [] → deep = true)
    (h : clear deep i = true) : ∀ b vs, Mark.char b vs ∈ marks ar i → Tame vs := by
  match i with
  | .lit n v l =>
    intro b vs hm
    rw [chars_mem hm]
    exact ht
  | .span v f is m l o =>
    simp only [clear, Bool.and_eq_true, Bool.not_eq_true', Bool.and_eq_false_iff] at h
    refine marksL_tame is _ ?_ true (fun _ => rfl) h.2
    cases ar with
    | nil => intro w hw; cases hw
    | cons a ar =>
      intro w hw
      simp only [List.cons_append, List.tail_cons, List.mem_append, List.mem_singleton] at hw
      rcases hw with hw | rfl
      · exact ht w hw
      · rcases h.1 with h | h
        · rw [hd (by simp)] at h; cases h
        · exact h
  | .brk l =>
    intro b vs hm
    simp [marks] at hm
  | .ref v t is m l => exact marksL_tame is ar ht deep hd h
theorem marksL_tame (is : List Inline) (ar : List SpanVariant) (ht : Tame ar) (deep : Bool) (hd : ar ≠ [] → deep = true)
    (h : clearL deep is = true) : ∀ b vs, Mark.char b vs ∈ marksL ar is → Tame vs := by
  match is with
  | [] => intro b vs hm; simp [marksL] at hm
  | i :: is =>
    simp only [clearL, Bool.and_eq_true] at h
    intro b vs hm
    simp only [marksL, List.mem_append] at hm
    rcases hm with hm | hm
    · exact marks_tame i ar ht deep hd h.1.1 b vs hm
    · exact marksL_tame is ar ht deep hd h.2 b vs hm
end

theorem clear_tame (is : List Inline) (h : Clear is) : ∀ b vs, Mark.char b vs ∈ marksL [] is → Tame vs := by
  induction is with
  | nil => intro b vs hm; simp [marksL] at hm
  | cons i is ih =>
    intro b vs hm
    simp only [marksL, List.mem_append] at hm
    rcases hm with hm | hm
    · exact marks_tame i [] (fun w hw => by cases hw) false (fun hc => absurd rfl hc) (h i (by simp)) b vs hm
    · exact ih (fun j hj => h j (List.mem_cons_of_mem _ hj)) b vs hm

/-! ## Paragraphs -/

/-- Where the runs of a paragraph come from. -/
def Made (is : List Inline) (p : Para) : Prop :=
  (∃ lb, p.runs = (runs is lb).1) ∨ ∃ s t, is = bareText s ∧ SameWords s t ∧ p.runs = [.text t []]

theorem Made.dyed {is : List Inline} {p : Para} (h : Made is p) : Dyed (marksL [] is) p := by
  rcases h with ⟨lb, e⟩ | ⟨s, t, rfl, hw, e⟩
  · unfold Dyed; rw [e]; exact runs_dyed is lb
  · unfold Dyed; rw [e]
    simp only [bareText, marksL, marks, refdChar, List.append_nil, List.flatMap_cons, List.flatMap_nil, runMarks]
    exact .ofWords hw (fun _ h => h)

theorem Made.inked {is : List Inline} {p : Para} (h : Made is p) (hc : Clear is) : Inked (marksL [] is) p := by
  have key : Alike Eq (marksL [] is) (p.runs.flatMap runMarks) := by
    rcases h with ⟨lb, e⟩ | ⟨s, t, rfl, hw, e⟩
    · rw [e]; exact runs_exact is lb hc
    · rw [e]
      simp only [bareText, marksL, marks, refdChar, List.append_nil, List.flatMap_cons, List.flatMap_nil, runMarks]
      exact .ofWords hw rfl
  unfold Inked
  have e : p.runs.flatMap runLook = (p.runs.flatMap runMarks).map (Mark.map dye) := by
    rw [List.map_flatMap]
    congr 1
    funext r
    exact runLook_map r
  rw [e]
  exact key.look dye fun b x hx y hy => hy ▸ looks_dye x (clear_tame is hc b x hx)

/-! ## The whole body -/

theorem Pairs.imp {γ : Type} {r : α → γ → Prop} {as : List α} {bs : List γ} {r' : β → γ → Prop} (f : α → β)
    (h : Pairs r as bs) (hi : ∀ a ∈ as, ∀ b, r a b → r' (f a) b) : Pairs r' (as.map f) bs := by
  induction h with
  | nil => exact .nil
  | cons hr _ ih => exact .cons (hi _ (by simp) _ hr) (ih fun a ha => hi a (List.mem_cons_of_mem _ ha))

theorem Has.imp {r : α → Para → Prop} {r' : β → Para → Prop} {p : α → Prop} (f : α → β) {ws : List (Want α)} {is : List Item}
    (h : Has r ws is) (hp : ∀ w ∈ ws, w.all p) (hi : ∀ a, p a → ∀ b, r a b → r' (f a) b) :
    Has r' (ws.map (Want.map f)) is := by
  induction h with
  | nil => exact .nil
  | @par x q ws is hr _ ih =>
    exact .par (hi x (hp (.par x) List.mem_cons_self) _ hr) (ih fun w hw => hp w (List.mem_cons_of_mem _ hw))
  | table rest hc _ ih =>
    simp only [List.map_cons, Want.map, List.map_append]
    have hq := hp _ List.mem_cons_self
    simp only [Want.all, List.mem_append] at hq
    exact .table _ (hc.imp f fun a ha b hb => hi a (hq a (.inl ha)) b hb) (ih fun w hw => hp w (List.mem_cons_of_mem _ hw))
  | picture t _ ih => exact .picture t (ih fun w hw => hp w (List.mem_cons_of_mem _ hw))

theorem Has.append {r : α → Para → Prop} {ws ws' : List (Want α)} {is is' : List Item} (h : Has r ws is) (k : Has r ws' is') :
    Has r (ws ++ ws') (is ++ is') := by
  induction h with
  | nil => exact k
  | par hr _ ih => exact .par hr ih
  | table rest hc _ ih => exact .table rest hc ih
  | picture t _ ih => exact .picture t ih

/-- What a step contributes. -/
def opWants : Op → List (Want (List Inline))
  | .raw t => [.par (bareText (if (t.getLast? = some 10) then t.dropLast else t))]
  | .para is => [.par is]
  | .item is => [.par is]
  | .table bs _ => [.table (bs.map Block.inlines)]
  | .picture t => [.picture t]
  | _ => []

theorem docxLoop_split {α : Type} (cols total : Nat) (cs : List α) (idx : Nat) (cur : List α) (rows : List (List α))
    (r : List (List α) × List α) (h : Render.docxLoop cols total cs idx cur rows = .ok r) :
    rows.flatten ++ cur ++ cs = r.1.flatten ++ r.2 := by
  induction cs generalizing idx cur rows with
  | nil =>
    simp only [Render.docxLoop, Except.ok.injEq] at h
    subst h
    simp
  | cons c cs ih =>
    simp only [Render.docxLoop] at h
    split at h
    · split at h
      · cases h
      · split at h
        · rw [← ih _ _ _ h]; simp
        · rw [← ih _ _ _ h]; simp
    · rw [← ih _ _ _ h]; simp

theorem docxRows_split {α : Type} (cols : Nat) (cs : List α) (rows : List (List α))
    (h : Render.docxRows cols cs = .ok rows) : ∃ rest, cs = rows.flatten ++ rest := by
  unfold Render.docxRows at h
  cases hl : Render.docxLoop cols cs.length cs 0 [] [] with
  | error e => rw [hl] at h; cases h
  | ok r =>
    rw [hl] at h
    cases h
    exact ⟨r.2, by simpa using docxLoop_split _ _ _ _ _ _ _ hl⟩

theorem cells_made (bs : List Block) (st : St) : Pairs Made (bs.map Block.inlines) (st.cells bs).2 := by
  induction bs generalizing st with
  | nil => exact .nil
  | cons b bs ih => exact .cons (.inl ⟨st.lineBreak, rfl⟩) (ih _)

theorem Pairs.split {as : List α} {bs cs : List β} (h : Pairs rel as (bs ++ cs)) :
    ∃ a a', as = a ++ a' ∧ Pairs rel a bs := by
  induction bs generalizing as with
  | nil => exact ⟨[], as, rfl, .nil⟩
  | cons b bs ih =>
    cases h with
    | cons hr hs =>
      obtain ⟨a, a', rfl, hp⟩ := ih hs
      exact ⟨_ :: a, a', rfl, .cons hr hp⟩

theorem raw_words (t : Str) : SameWords (if (t.getLast? = some 10) then t.dropLast else t) t := by
  split
  · rename_i h
    obtain ⟨hne, hl⟩ := List.getLast?_eq_some_iff.1 h
    subst hl
    have := (SameWords.refl hne).append (SameWords.right (t := []) space_nl .nil)
    simpa using this
  · exact .refl t

theorem op_wants {io : Str → Option Unit} {st st' : St} (o : Op) (hr : o.run io st = .ok st') :
    ∃ new, st'.doc.body = st.doc.body ++ new ∧ Has Made (opWants o) new := by
  cases o with
  | style s =>
    cases hr
    exact ⟨[], by rw [(setStyle_same st s).1, List.append_nil], .nil⟩
  | reset => cases hr; exact ⟨[], (List.append_nil _).symm, .nil⟩
  | raw t => cases hr; exact ⟨_, rfl, .par (.inr ⟨_, t, rfl, raw_words t, rfl⟩) .nil⟩
  | para is => cases hr; exact ⟨_, rfl, .par (.inl ⟨st.lineBreak, rfl⟩) .nil⟩
  | item is => cases hr; exact ⟨_, rfl, .par (.inl ⟨st.lineBreak, rfl⟩) .nil⟩
  | list v =>
    cases hr
    exact ⟨[], by rw [(listHead_same st v).1, List.append_nil], .nil⟩
  | page => cases hr; exact ⟨[], (List.append_nil _).symm, .nil⟩
  | table bs m =>
    obtain ⟨cols, rows, _, h2, rfl⟩ := table_ok st st' bs m hr
    obtain ⟨h1, -⟩ := setStyle_same st .table
    obtain ⟨_, c1, _⟩ := cells_spec bs (st.setStyle .table)
    refine ⟨[.table rows], ?_, ?_⟩
    · simp only [St.push, c1, h1]
    · obtain ⟨rest, e⟩ := docxRows_split _ _ _ h2
      have hp := cells_made bs (st.setStyle .table)
      rw [e] at hp
      obtain ⟨a, a', e', hp⟩ := hp.split
      simp only [opWants, e']
      exact .table a' hp .nil
  | picture t =>
    obtain rfl := image_ok io st st' t hr
    exact ⟨_, rfl, .picture t .nil⟩

theorem ops_wants {io : Str → Option Unit} (os : List Op) (st st' : St) (hr : runOps io os st = .ok st') :
    ∃ new, st'.doc.body = st.doc.body ++ new ∧ Has Made (os.flatMap opWants) new := by
  induction os generalizing st with
  | nil => cases hr; exact ⟨[], (List.append_nil _).symm, .nil⟩
  | cons o os ih =>
    simp only [runOps] at hr
    cases ho : o.run io st with
    | error e => rw [ho] at hr; cases hr
    | ok s =>
      rw [ho] at hr
      obtain ⟨n1, e1, f1⟩ := op_wants o ho
      obtain ⟨n2, e2, f2⟩ := ih s hr
      refine ⟨n1 ++ n2, by rw [e2, e1, List.append_assoc], ?_⟩
      rw [List.flatMap_cons]
      exact f1.append f2

theorem titleOps_wants (s : Sty) (is : List Inline) : (titleOps s is).flatMap opWants = heading is := by
  unfold titleOps heading
  split <;> simp [opWants]

theorem headOps_wants (name : Str) (v : Option ParentVariant) (t : List Inline) :
    (headOps name v t).flatMap opWants = label v ++ heading t := by
  cases v with
  | none => simp [headOps, titleOps_wants, label, opWants]
  | some v => cases v <;> simp [headOps, titleOps_wants, label, opWants] <;> rfl

theorem items_wants (bs : List Block) :
    (bs.map fun b => Op.para b.inlines).flatMap opWants = bs.map fun b => Want.par b.inlines := by
  induction bs with
  | nil => rfl
  | cons b bs ih => simp [opWants, ih]

mutual
theorem ops_wantsB (b : Block) : (ops b).flatMap opWants = wants b := by
  match b with
  | .section t m level bs l =>
    simp only [ops, List.flatMap_append, opsL_wants bs, wants, heading]
    split <;> simp [opWants]
  | .list v items m l => simpa [ops, wants, opWants] using opsL_wants items
  | .listItem k p [] m l => simp [ops, wants, opWants]
  | .listItem k p (b :: bs) m l =>
    simp only [ops, List.isEmpty_cons, Bool.false_eq_true, if_false, List.flatMap_cons, List.flatMap_append,
      List.cons_append, items_wants, wants]
    simp [opWants]
  | .dlist items m l => exact opsL_wants items
  | .dlistItem t p bs m l => simpa [ops, wants, opWants] using opsL_wants bs
  | .brk v l => cases v <;> rfl
  | .image t c m l => rfl
  | .leaf n f d is m l => cases n <;> rfl
  | .parent .table v d bs t m l => rfl
  | .parent .footnoteContainer v d bs t m l => rfl
  | .parent .open_ v d bs t m l => exact opsL_wants bs
  | .parent .quote v d bs t none l => simp [ops, wants, opWants, opsL_wants bs, St.attribution, source]
  | .parent .quote v d bs t (some m) l =>
    cases hm : m.attributes.get? b!"attribution" with
    | none => simp [ops, wants, opWants, opsL_wants bs, St.attribution, source, hm]
    | some a =>
      have e : (if (b!"— " ++ a ++ b!"\n").getLast? = some 10 then (b!"— " ++ a ++ b!"\n").dropLast
          else b!"— " ++ a ++ b!"\n") = b!"— " ++ a := by
        rw [show (b!"\n" : Str) = [10] from rfl, if_pos (by rw [List.getLast?_append]; rfl), List.dropLast_concat]
      simp only [ops, wants, List.flatMap_append, List.flatMap_cons, opsL_wants bs, St.attribution, source, hm, opWants,
        Option.bind_some, e]
      simp
  | .parent .admonition v d bs t m l =>
    simp only [ops, wants, List.flatMap_append, headOps_wants, opsL_wants bs]
    simp [opWants]
  | .parent .example_ v d bs t m l =>
    simp only [ops, wants, List.flatMap_append, headOps_wants, opsL_wants bs]
    simp [opWants]
  | .parent .sidebar v d bs t m l =>
    simp only [ops, wants, List.flatMap_append, headOps_wants, opsL_wants bs]
    simp [opWants]
  | .tableCell is m l => rfl
theorem opsL_wants (bs : List Block) : (opsL bs).flatMap opWants = wantsL bs := by
  match bs with
  | [] => rfl
  | b :: bs => simp only [opsL, wantsL, List.flatMap_append, ops_wantsB b, opsL_wants bs]
end

theorem start_wants (hd : Option Header) :
    Has Made (match hd with | some h => heading h.title | none => []) (start hd).doc.body := by
  cases hd with
  | none => exact .nil
  | some h =>
    simp only [start, heading]
    split
    · exact .nil
    · exact .par (.inl ⟨false, rfl⟩) .nil

theorem render_wants {io : Str → Option Unit} {g : Asg} {d : Doc} (h : render io g = .ok d) :
    Has Made (wantsDoc g) d.body := by
  obtain ⟨st, hr, rfl⟩ := render_ok h
  obtain ⟨new, e, f⟩ := ops_wants _ _ _ hr
  rw [opsL_wants] at f
  rw [e]
  exact (start_wants g.header).append f

end Adoc.Ink
