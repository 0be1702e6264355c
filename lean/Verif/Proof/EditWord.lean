import Verif.Spec.Edit
import Verif.Proof.DocxOps
/-!
# Exchanging one paragraph, in the Word document
-/
namespace Adoc.Edit
open Docx

/-- A state with another body. -/
def onBody (st : St) (X : List Item) : St := { st with doc := { st.doc with body := X } }

theorem setStyle_on (st : St) (s : Sty) (X : List Item) :
    (st.setStyle s).doc.body = st.doc.body ∧ (onBody st X).setStyle s = onBody (st.setStyle s) X := by
  unfold St.setStyle St.addStyle onBody
  simp only
  split <;> exact ⟨rfl, rfl⟩

theorem cells_on (bs : List Block) (st : St) (X : List Item) :
    (st.cells bs).1.doc.body = st.doc.body ∧ (onBody st X).cells bs = (onBody (st.cells bs).1 X, (st.cells bs).2) := by
  induction bs generalizing st with
  | nil => exact ⟨rfl, rfl⟩
  | cons b bs ih =>
    obtain ⟨h1, h2⟩ := ih { st with lineBreak := (runs b.inlines st.lineBreak).2 }
    refine ⟨h1, ?_⟩
    simp only [St.cells]
    have e : ({ onBody st X with lineBreak := (runs b.inlines (onBody st X).lineBreak).2 } : St)
      = onBody { st with lineBreak := (runs b.inlines st.lineBreak).2 } X := rfl
    rw [e, h2]
    rfl

theorem op_frame (io : Str → Option Unit) (o : Op) (st st' : St) (h : o.run io st = .ok st') :
    ∃ T, st'.doc.body = st.doc.body ++ T ∧ ∀ X, o.run io (onBody st X) = .ok (onBody st' (X ++ T)) := by
  cases o with
  | style s =>
    cases h
    exact ⟨[], by rw [List.append_nil]; exact (setStyle_on st s []).1,
      fun X => by rw [List.append_nil]; exact congrArg _ (setStyle_on st s X).2⟩
  | reset => cases h; exact ⟨[], by rw [List.append_nil]; rfl, fun X => by rw [List.append_nil]; rfl⟩
  | raw t => cases h; exact ⟨_, rfl, fun X => rfl⟩
  | para is => cases h; exact ⟨_, rfl, fun X => rfl⟩
  | item is => cases h; exact ⟨_, rfl, fun X => rfl⟩
  | page => cases h; exact ⟨[], by rw [List.append_nil], fun X => by rw [List.append_nil]; rfl⟩
  | list v =>
    cases h
    refine ⟨[], ?_, fun X => ?_⟩
    · rw [List.append_nil]
      cases v with
      | ordered => exact (setStyle_on _ _ []).1
      | unordered =>
        simp only [St.listHead]
        split <;> exact (setStyle_on _ _ []).1
    · rw [List.append_nil]
      refine congrArg Except.ok ?_
      have e := fun s => (setStyle_on { st with num := st.num + 1 } s X).2
      cases v with
      | ordered => exact e _
      | unordered =>
        have e' : ({ onBody st X with num := (onBody st X).num + 1 } : St).setStyle .listParagraph
          = onBody (({ st with num := st.num + 1 } : St).setStyle .listParagraph) X := e _
        simp only [St.listHead]
        rw [e']
        generalize ({ st with num := st.num + 1 } : St).setStyle .listParagraph = q
        by_cases hq : q.abstractNum = 0
        · rw [if_pos hq, if_pos (show (onBody q X).abstractNum = 0 from hq)]; rfl
        · rw [if_neg hq, if_neg (show ¬ (onBody q X).abstractNum = 0 from hq)]
  | table bs m =>
    simp only [Op.run, St.table] at h ⊢
    cases hc : St.columns m with
    | error e => rw [hc] at h; cases h
    | ok cols =>
      rw [hc] at h
      simp only [bind, Except.bind] at h ⊢
      obtain ⟨h1, _⟩ := cells_on bs (st.setStyle .table) []
      cases hr : Render.docxRows cols ((st.setStyle .table).cells bs).2 with
      | error e => rw [hr] at h; cases h
      | ok rows =>
        rw [hr] at h
        cases h
        refine ⟨[.table rows], ?_, fun X => ?_⟩
        · simp only [St.push]
          rw [h1, (setStyle_on st .table []).1]
        · rw [(setStyle_on st .table X).2, (cells_on bs (st.setStyle .table) X).2]
          simp only [hr]
          rfl
  | picture t =>
    simp only [Op.run, St.image] at h ⊢
    cases hi : io t with
    | none => rw [hi] at h; cases h
    | some u => rw [hi] at h; cases h; exact ⟨_, rfl, fun X => rfl⟩

theorem ops_frame (io : Str → Option Unit) (os : List Op) : ∀ (st st' : St), runOps io os st = .ok st' →
    ∃ T, st'.doc.body = st.doc.body ++ T ∧ ∀ X, runOps io os (onBody st X) = .ok (onBody st' (X ++ T)) := by
  induction os with
  | nil => intro st st' h; cases h; exact ⟨[], by rw [List.append_nil], fun X => by rw [List.append_nil]; rfl⟩
  | cons o os ih =>
    intro st st' h
    simp only [runOps] at h ⊢
    cases ho : o.run io st with
    | error e => rw [ho] at h; cases h
    | ok q =>
      rw [ho] at h
      obtain ⟨T, h1, h2⟩ := op_frame io o st q ho
      obtain ⟨U, h3, h4⟩ := ih q st' h
      refine ⟨T ++ U, by rw [h3, h1, List.append_assoc], fun X => ?_⟩
      rw [h2]
      simp only [Except.bind]
      rw [h4, List.append_assoc]

theorem runs_append (a b : List Inline) (lb : Bool) : (runs (a ++ b) lb).2 = (runs b (runs a lb).2).2 := by
  induction a generalizing lb with
  | nil => rfl
  | cons i a ih => exact ih _

theorem runsWithL_append (a b : List Inline) (lb : Bool) (vs : List SpanVariant) :
    (runsWithL (a ++ b) lb vs).2 = (runsWithL b (runsWithL a lb vs).2.1 (runsWithL a lb vs).2.2).2 := by
  induction a generalizing lb vs with
  | nil => simp only [List.nil_append, runsWithL]
  | cons i a ih => simp only [List.cons_append, runsWithL, ih]

theorem textLast_runsWithL {is : List Inline} (h : TextLast is) : ∀ lb vs, (runsWithL is lb vs).2.1 = false := by
  induction h with
  | lit a n v l => intro lb vs; rw [runsWithL_append]; simp only [runsWithL, runsWith]
  | span a v f m l o h ih => intro lb vs; rw [runsWithL_append]; simp only [runsWithL, runsWith, ih]
  | ref a v t m l h ih => intro lb vs; rw [runsWithL_append]; simp only [runsWithL, runsWith, ih]

theorem textLast_runs {is : List Inline} (h : TextLast is) (lb : Bool) : (runs is lb).2 = false := by
  cases h with
  | lit a n v l => rw [runs_append]; rfl
  | span a v f m l o h => rw [runs_append]; simp only [runs, runsFrom, textLast_runsWithL h]
  | ref a v t m l h => rw [runs_append]; simp only [runs, runsFrom, textLast_runsWithL h]

/-- The steps for two lists of blocks are the same, up to the text of one paragraph. -/
def NearOps (is js : List Inline) (a b : List Op) : Prop :=
  a = b ∨ ∃ P u v S, a = P ++ .para (u ++ is ++ v) :: S ∧ b = P ++ .para (u ++ js ++ v) :: S

theorem NearOps.frame {is js : List Inline} {a b : List Op} (P S : List Op) (h : NearOps is js a b) :
    NearOps is js (P ++ a ++ S) (P ++ b ++ S) := by
  rcases h with h | ⟨Q, u, v, T, h1, h2⟩
  · exact .inl (by rw [h])
  · exact .inr ⟨P ++ Q, u, v, T ++ S, by rw [h1]; simp, by rw [h2]; simp⟩

theorem opsL_append (a b : List Block) : opsL (a ++ b) = opsL a ++ opsL b := by
  induction a with
  | nil => rfl
  | cons x a ih => simp only [List.cons_append, opsL, ih, List.append_assoc]

theorem inlinesL_append (a b : List Block) : Block.inlinesL (a ++ b) = Block.inlinesL a ++ Block.inlinesL b := by
  induction a with
  | nil => rfl
  | cons x a ih => simp only [List.cons_append, Block.inlinesL, ih, List.append_assoc]

theorem holder_inlines {f : List Block → Block} (hf : Holder f) : ∃ A, ∀ bs, (f bs).inlines = A ++ Block.inlinesL bs := by
  cases hf with
  | «section» t m v l => exact ⟨t, fun bs => by simp only [Block.inlines]⟩
  | list v m l => exact ⟨[], fun bs => by simp only [Block.inlines, List.nil_append]⟩
  | listItem k p m l => exact ⟨p, fun bs => by simp only [Block.inlines]⟩
  | dlist m l => exact ⟨[], fun bs => by simp only [Block.inlines, List.nil_append]⟩
  | dlistItem t p m l => exact ⟨p, fun bs => by simp only [Block.inlines]⟩
  | box n v d t m l h => exact ⟨t, fun bs => by simp only [Block.inlines]⟩

theorem swapped_inlines {x y : Block} {bs cs : List Block} (h : Swapped x y bs cs) :
    ∃ u v, Block.inlinesL bs = u ++ x.inlines ++ v ∧ Block.inlinesL cs = u ++ y.inlines ++ v := by
  induction h with
  | here a b =>
    exact ⟨Block.inlinesL a, Block.inlinesL b, by simp [inlinesL_append, Block.inlinesL], by simp [inlinesL_append, Block.inlinesL]⟩
  | within a b hf h ih =>
    obtain ⟨u, v, h1, h2⟩ := ih
    obtain ⟨A, hA⟩ := holder_inlines hf
    exact ⟨Block.inlinesL a ++ A ++ u, v ++ Block.inlinesL b, by simp [inlinesL_append, Block.inlinesL, hA, h1],
      by simp [inlinesL_append, Block.inlinesL, hA, h2]⟩

theorem swapped_attached {x y : Block} {bs cs : List Block} (h : Swapped x y bs cs) :
    bs.isEmpty = false ∧ cs.isEmpty = false
      ∧ NearOps x.inlines y.inlines (bs.map fun b => .para b.inlines) (cs.map fun b => .para b.inlines) := by
  cases h with
  | here a b =>
    exact ⟨by simp, by simp, .inr ⟨a.map fun b => .para b.inlines, [], [], b.map fun b => .para b.inlines, by simp, by simp⟩⟩
  | within a b hf h =>
    obtain ⟨u, v, h1, h2⟩ := swapped_inlines h
    obtain ⟨A, hA⟩ := holder_inlines hf
    exact ⟨by simp, by simp, .inr ⟨a.map fun b => .para b.inlines, A ++ u, v, b.map fun b => .para b.inlines,
      by simp [hA, h1], by simp [hA, h2]⟩⟩

theorem holder_ops {f : List Block → Block} (hf : Holder f) {x y : Block} {bs cs : List Block} (h : Swapped x y bs cs)
    (hn : NearOps x.inlines y.inlines (opsL bs) (opsL cs)) : NearOps x.inlines y.inlines (ops (f bs)) (ops (f cs)) := by
  have hc := fun P S => NearOps.frame P S hn
  cases hf with
  | «section» t m v l => simpa only [ops, List.append_nil] using hc (if t.isEmpty then [] else [.style (.heading v), .para t, .reset]) []
  | list v m l => simpa only [ops, List.append_nil, List.cons_append, List.nil_append] using hc [.list v] []
  | listItem k p m l =>
    obtain ⟨h1, h2, h3⟩ := swapped_attached h
    simpa only [ops, h1, h2, Bool.false_eq_true, if_false, List.cons_append, List.nil_append]
      using h3.frame [.item p, .style .listParagraphContinue] [.reset]
  | dlist m l => simpa only [ops, List.append_nil, List.nil_append] using hc [] []
  | dlistItem t p m l => simpa only [ops, List.append_nil] using hc [.style .definitionTerm, .para t, .style .definition, .para p] []
  | box n v d t m l hb =>
    cases n with
    | table => exact absurd rfl hb
    | footnoteContainer => exact .inl (by simp only [ops])
    | admonition => simpa only [ops] using hc (headOps b!"Admonition" v t) [.reset]
    | example_ => simpa only [ops] using hc (headOps b!"Example" v t) [.reset]
    | sidebar => simpa only [ops] using hc (headOps b!"Sidebar" v t) [.reset]
    | open_ => simpa only [ops, List.nil_append, List.append_nil] using hc [] []
    | quote =>
      have := hc [.style .quote] ((match St.attribution m with
        | some a => [.raw (b!"— " ++ a ++ b!"\n")]
        | none => []) ++ [.reset])
      rw [← List.append_assoc, ← List.append_assoc] at this
      simp only [ops]
      exact this

theorem swapped_ops {x y : Block} {R : List Op} (hx : ops x = R ++ [.para x.inlines]) (hy : ops y = R ++ [.para y.inlines])
    {bs cs : List Block}
    (h : Swapped x y bs cs) : NearOps x.inlines y.inlines (opsL bs) (opsL cs) := by
  induction h with
  | here a b =>
    exact .inr ⟨opsL a ++ R, [], [], opsL b, by simp [opsL_append, opsL, hx], by simp [opsL_append, opsL, hy]⟩
  | within a b hf h ih =>
    have := (holder_ops hf h ih).frame (opsL a) (opsL b)
    simpa only [opsL_append, opsL, List.append_assoc] using this

/-- Two Word documents are the same, up to the text of at most one paragraph, which has the same style in both. -/
def NearDocs (d e : Doc) : Prop :=
  d = e ∨ ∃ A p r B, d.body = A ++ .para p :: B ∧ e = { d with body := A ++ .para { p with runs := r } :: B }

theorem near_run (io : Str → Option Unit) {is js : List Inline} (hb : ∀ lb, (runs is lb).2 = (runs js lb).2) {a b : List Op}
    (h : NearOps is js a b) (st st' : St) (hr : runOps io a st = .ok st') :
    ∃ st'', runOps io b st = .ok st'' ∧ NearDocs st'.doc st''.doc := by
  rcases h with h | ⟨P, u, v, S, h1, h2⟩
  · exact ⟨st', h ▸ hr, .inl rfl⟩
  · rw [h1, runOps_append] at hr
    rw [h2, runOps_append]
    cases hP : runOps io P st with
    | error e => rw [hP] at hr; cases hr
    | ok q =>
      rw [hP] at hr
      simp only [Except.bind, runOps, Op.run] at hr ⊢
      have e : q.addInlines none (u ++ js ++ v) = onBody (q.addInlines none (u ++ is ++ v)) (q.doc.body ++ [.para
          { style := q.style.id, pageBreak := q.pageBreak, num := none, runs := (runs (u ++ js ++ v) q.lineBreak).1 }]) := by
        have : (runs (u ++ is ++ v) q.lineBreak).2 = (runs (u ++ js ++ v) q.lineBreak).2 := by
          simp only [runs_append, hb]
        simp only [St.addInlines, St.addPara, St.push, onBody, this]
      obtain ⟨T, h3, h4⟩ := ops_frame io S _ _ hr
      rw [e, h4]
      refine ⟨_, rfl, .inr ⟨q.doc.body, ⟨q.style.id, q.pageBreak, none, (runs (u ++ is ++ v) q.lineBreak).1⟩, (runs (u ++ js ++ v) q.lineBreak).1, T, ?_, ?_⟩⟩
      · rw [h3]
        simp [St.addInlines, St.addPara, St.push]
      · simp [onBody]

end Adoc.Edit
