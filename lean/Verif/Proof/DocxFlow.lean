import Verif.Proof.DocxStyles
/-!
# The body of a Word document follows the graph
-/
namespace Adoc.Docx

open Word

theorem follows_append {p q r : Bool} {es es' : List Ev} {is is' : List Item} (h : Follows p es is q)
    (h' : Follows q es' is' r) : Follows p (es ++ es') (is ++ is') r := by
  induction h with
  | nil p => exact h'
  | page _ ih => exact .page (ih h')
  | par x hw _ ih => exact .par x hw (ih h')
  | table rows _ ih => exact .table rows (ih h')
  | picture t _ ih => exact .picture t (ih h')

theorem follows_one {p : Bool} {t : Str} (x : Para) (hw : SameWords t (paraText x)) (hx : x.pageBreak = p) :
    Follows p [.par t] [.para x] false := by
  subst hx
  exact .par x hw (.nil false)

/-- What a step contributes. -/
def Op.evs : Op → List Ev
  | .style _ => []
  | .reset => []
  | .raw t => [.par t]
  | .para is => [.par (shownL is)]
  | .item is => [.par (shownL is)]
  | .list _ => []
  | .page => [.page]
  | .table _ _ => [.table]
  | .picture _ => [.picture]

theorem setStyle_same (st : St) (s : Sty) :
    (st.setStyle s).doc.body = st.doc.body ∧ (st.setStyle s).pageBreak = st.pageBreak ∧
    (st.setStyle s).style = s ∧ (st.setStyle s).num = st.num ∧ (st.setStyle s).lineBreak = st.lineBreak ∧
    (st.setStyle s).abstractNum = st.abstractNum ∧ (st.setStyle s).doc.nums = st.doc.nums ∧
    (st.setStyle s).doc.abstractNums = st.doc.abstractNums := by
  unfold St.setStyle
  rcases addStyle_cases { st with style := s } s.generate with ⟨_, e⟩ | ⟨_, e⟩ <;> rw [e] <;>
    exact ⟨rfl, rfl, rfl, rfl, rfl, rfl, rfl, rfl⟩

theorem listHead_same (st : St) (v : ListVariant) :
    (st.listHead v).doc.body = st.doc.body ∧ (st.listHead v).pageBreak = st.pageBreak ∧
    (st.listHead v).num = st.num + 1 ∧
    (st.listHead v).style = (match v with | .ordered => .orderedList (st.num + 1) | .unordered => .listParagraph) := by
  unfold St.listHead
  cases v with
  | ordered =>
    have := setStyle_same { st with num := st.num + 1 } (.orderedList (st.num + 1))
    exact ⟨this.1, this.2.1, this.2.2.2.1, this.2.2.1⟩
  | unordered =>
    have := setStyle_same { st with num := st.num + 1 } .listParagraph
    simp only
    split
    · exact ⟨this.1, this.2.1, this.2.2.2.1, this.2.2.1⟩
    · exact ⟨this.1, this.2.1, this.2.2.2.1, this.2.2.1⟩

theorem addInlines_body (st : St) (num : Option Nat) (is : List Inline) :
    ∃ x : Para, (st.addInlines num is).doc.body = st.doc.body ++ [.para x] ∧ x.pageBreak = st.pageBreak ∧
      x.num = num ∧ x.style = st.style.id ∧ SameWords (shownL is) (paraText x) ∧
      (st.addInlines num is).pageBreak = false ∧ (st.addInlines num is).style = st.style ∧
      (st.addInlines num is).num = st.num ∧ x.runs = (runs is st.lineBreak).1 :=
  ⟨_, rfl, rfl, rfl, rfl, runs_words is st.lineBreak, rfl, rfl, rfl, rfl⟩

theorem op_follows {io : Str → Option Unit} {st st' : St} (o : Op) (hr : o.run io st = .ok st') :
    ∃ new, st'.doc.body = st.doc.body ++ new ∧ Follows st.pageBreak o.evs new st'.pageBreak := by
  cases o with
  | style s =>
    cases hr
    obtain ⟨h1, h2, -⟩ := setStyle_same st s
    exact ⟨[], by rw [h1, List.append_nil], by rw [h2]; exact .nil _⟩
  | reset => cases hr; exact ⟨[], (List.append_nil _).symm, .nil _⟩
  | raw t =>
    cases hr
    refine ⟨_, rfl, follows_one _ ?_ rfl⟩
    simpa [paraText, runText] using SameWords.refl t
  | para is =>
    cases hr
    exact ⟨_, rfl, follows_one _ (runs_words is st.lineBreak) rfl⟩
  | item is =>
    cases hr
    exact ⟨_, rfl, follows_one _ (runs_words is st.lineBreak) rfl⟩
  | list v =>
    cases hr
    obtain ⟨h1, h2, -⟩ := listHead_same st v
    exact ⟨[], by rw [h1, List.append_nil], by rw [h2]; exact .nil _⟩
  | page => cases hr; exact ⟨[], (List.append_nil _).symm, .page (.nil _)⟩
  | table bs m =>
    obtain ⟨cols, rows, _, _, rfl⟩ := table_ok st st' bs m hr
    obtain ⟨h1, h2, -⟩ := setStyle_same st .table
    obtain ⟨_, c1, _, c2, _⟩ := cells_spec bs (st.setStyle .table)
    refine ⟨[.table rows], ?_, ?_⟩
    · simp only [St.push, c1, h1]
    · simp only [St.push, c2, h2]
      exact .table rows (.nil _)
  | picture t =>
    obtain rfl := image_ok io st st' t hr
    exact ⟨_, rfl, .picture t (.nil _)⟩

theorem ops_follows {io : Str → Option Unit} (os : List Op) (st st' : St) (hr : runOps io os st = .ok st') :
    ∃ new, st'.doc.body = st.doc.body ++ new ∧ Follows st.pageBreak (os.flatMap Op.evs) new st'.pageBreak := by
  induction os generalizing st with
  | nil => cases hr; exact ⟨[], (List.append_nil _).symm, .nil _⟩
  | cons o os ih =>
    simp only [runOps] at hr
    cases ho : o.run io st with
    | error e => rw [ho] at hr; cases hr
    | ok s =>
      rw [ho] at hr
      obtain ⟨n1, e1, f1⟩ := op_follows o ho
      obtain ⟨n2, e2, f2⟩ := ih s hr
      refine ⟨n1 ++ n2, by rw [e2, e1, List.append_assoc], ?_⟩
      rw [List.flatMap_cons]
      exact follows_append f1 f2

theorem titleOps_evs (s : Sty) (is : List Inline) : (titleOps s is).flatMap Op.evs = Word.title is := by
  unfold titleOps Word.title
  split <;> simp [Op.evs]

theorem headOps_evs (name : Str) (v : Option ParentVariant) (t : List Inline) :
    (headOps name v t).flatMap Op.evs = Word.label v ++ Word.title t := by
  cases v with
  | none => simp [headOps, titleOps_evs, Word.label, Op.evs]
  | some v => cases v <;> simp [headOps, titleOps_evs, Word.label, Op.evs, variantText, Word.labelText]

theorem items_evs (bs : List Block) :
    (bs.map fun b => Op.para b.inlines).flatMap Op.evs = bs.map fun b => Ev.par (shownL b.inlines) := by
  induction bs with
  | nil => rfl
  | cons b bs ih => simp [Op.evs, ih]

mutual
theorem ops_evs (b : Block) : (ops b).flatMap Op.evs = flow b := by
  cases b with
  | «section» t m level bs l =>
    simp only [ops, List.flatMap_append, opsL_evs bs, flow, Word.title]
    split <;> simp [Op.evs]
  | list v items m l => simpa [ops, flow, Op.evs] using opsL_evs items
  | listItem k p bs m l =>
    cases bs with
    | nil => simp [ops, flow, Op.evs]
    | cons b bs =>
      simp only [ops, List.isEmpty_cons, Bool.false_eq_true, if_false, List.flatMap_cons, List.flatMap_append,
        List.cons_append, items_evs, flow]
      simp [Op.evs]
  | dlist items m l => exact opsL_evs items
  | dlistItem t p bs m l => simpa [ops, flow, Op.evs] using opsL_evs bs
  | brk v l => cases v <;> rfl
  | image t c m l => rfl
  | leaf n f d is m l => cases n <;> rfl
  | parent n v d bs t m l =>
    cases n with
    | table => rfl
    | footnoteContainer => rfl
    | open_ => exact opsL_evs bs
    | quote =>
      have := opsL_evs bs
      cases m with
      | none => simp [ops, flow, Op.evs, this, St.attribution, Word.source]
      | some m =>
        cases hm : m.attributes.get? b!"attribution" <;>
          simp [ops, flow, Op.evs, this, St.attribution, Word.source, hm]
    | admonition =>
      simp only [ops, flow, List.flatMap_append, headOps_evs, opsL_evs bs]
      simp [Op.evs]
    | example_ =>
      simp only [ops, flow, List.flatMap_append, headOps_evs, opsL_evs bs]
      simp [Op.evs]
    | sidebar =>
      simp only [ops, flow, List.flatMap_append, headOps_evs, opsL_evs bs]
      simp [Op.evs]
  | tableCell is m l => rfl
theorem opsL_evs (bs : List Block) : (opsL bs).flatMap Op.evs = flowL bs := by
  cases bs with
  | nil => rfl
  | cons b bs => simp only [opsL, flowL, List.flatMap_append, ops_evs b, opsL_evs bs]
end

theorem render_ok {io : Str → Option Unit} {g : Asg} {d : Doc} (h : render io g = .ok d) :
    ∃ st, runOps io (opsL g.blocks) (start g.header) = .ok st ∧ st.doc = d := by
  unfold render at h
  rw [addBlocks_ops] at h
  cases hr : runOps io (opsL g.blocks) (start g.header) with
  | error e => rw [hr] at h; cases h
  | ok st => rw [hr] at h; cases h; exact ⟨st, rfl, rfl⟩

theorem start_follows (hd : Option Header) :
    Follows false (match hd with | some h => Word.title h.title | none => []) (start hd).doc.body
      (start hd).pageBreak := by
  cases hd with
  | none => exact .nil false
  | some h =>
    simp only [start, Word.title]
    split
    · exact .nil false
    · exact follows_one { style := b!"Title", runs := (runs h.title false).1 } (runs_words _ _) rfl

theorem render_follows {io : Str → Option Unit} {g : Asg} {d : Doc} (h : render io g = .ok d) :
    ∃ q, Follows false (flowDoc g) d.body q := by
  obtain ⟨st, hr, rfl⟩ := render_ok h
  obtain ⟨new, e, f⟩ := ops_follows _ _ _ hr
  rw [opsL_evs] at f
  refine ⟨st.pageBreak, ?_⟩
  rw [e]
  exact follows_append (start_follows g.header) f

end Adoc.Docx
