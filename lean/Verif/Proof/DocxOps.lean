import Verif.Proof.DocxText
/-!
# The Word writer as a sequence of steps

Writing a block is a sequence of steps (`Op`) that does not depend on the state of the writer. The invariants are
proved step by step.
-/
namespace Adoc.Docx

open Word

/-- One step of the writer. -/
inductive Op where
  | style (s : Sty)
  | reset
  | raw (text : Str)
  | para (is : List Inline)
  | item (is : List Inline)
  | list (v : ListVariant)
  | page
  | table (bs : List Block) (m : Option Meta)
  | picture (target : Str)

/-- The effect of a step. -/
def Op.run (io : Str → Option Unit) (st : St) : Op → R St
  | .style s => .ok (st.setStyle s)
  | .reset => .ok st.reset
  | .raw t => .ok (st.addPara none [.text t []])
  | .para is => .ok (st.addInlines none is)
  | .item is => .ok (st.addInlines (some st.num) is)
  | .list v => .ok (st.listHead v)
  | .page => .ok { st with pageBreak := true }
  | .table bs m => st.table bs m
  | .picture t => st.image io t

/-- The effect of steps one after the other. -/
def runOps (io : Str → Option Unit) : List Op → St → R St
  | [], st => .ok st
  | o :: os, st => (o.run io st).bind (runOps io os)

theorem runOps_append (io : Str → Option Unit) (a b : List Op) (st : St) :
    runOps io (a ++ b) st = (runOps io a st).bind (runOps io b) := by
  induction a generalizing st with
  | nil => rfl
  | cons o a ih =>
    simp only [List.cons_append, runOps]
    cases o.run io st with
    | error e => rfl
    | ok st' => exact ih st'

/-- The steps for a title in style `s`. -/
def titleOps (s : Sty) (is : List Inline) : List Op := if is.isEmpty then [] else [.style s, .para is]

/-- The steps before the children of an admonition, example or sidebar. -/
def headOps (name : Str) (v : Option ParentVariant) (t : List Inline) : List Op :=
  (match v with
    | some v => [.style (.sectionTitle name), .raw (variantText v)]
    | none => []) ++ titleOps (.sectionTitle name) t ++ [.style (.sectionText name)]

mutual
/-- The steps for a block. -/
def ops : Block → List Op
  | .section t _ level bs _ =>
    (if t.isEmpty then [] else [.style (.heading level), .para t, .reset]) ++ opsL bs
  | .list v items _ _ => .list v :: opsL items
  | .listItem _ p bs _ _ =>
    .item p :: if bs.isEmpty then [] else .style .listParagraphContinue :: (bs.map fun b => .para b.inlines) ++ [.reset]
  | .dlist items _ _ => opsL items
  | .dlistItem t p bs _ _ => [.style .definitionTerm, .para t, .style .definition, .para p] ++ opsL bs
  | .brk .page _ => [.page]
  | .brk .thematic _ => [.style .thematicBreak, .raw b!"#"]
  | .leaf n _ _ is _ _ =>
    (match n with
      | .verse => [.style .verse]
      | .listing | .literal => [.style .monospace]
      | .paragraph | .pass => []) ++ [.para is]
  | .parent .admonition v _ bs t _ _ => headOps b!"Admonition" v t ++ opsL bs ++ [.reset]
  | .parent .example_ v _ bs t _ _ => headOps b!"Example" v t ++ opsL bs ++ [.reset]
  | .parent .sidebar v _ bs t _ _ => headOps b!"Sidebar" v t ++ opsL bs ++ [.reset]
  | .parent .open_ _ _ bs _ _ _ => opsL bs
  | .parent .quote _ _ bs _ m _ =>
    .style .quote :: opsL bs ++
      (match St.attribution m with
        | some a => [.raw (b!"— " ++ a ++ b!"\n")]
        | none => []) ++ [.reset]
  | .parent .table _ _ bs _ m _ => [.table bs m]
  | .parent .footnoteContainer .. => []
  | .image target _ _ _ => [.picture target]
  | .tableCell .. => []
/-- The steps for each block. -/
def opsL : List Block → List Op
  | [] => []
  | b :: bs => ops b ++ opsL bs
end

theorem attached_ops (io : Str → Option Unit) (bs : List Block) (st : St) :
    runOps io (bs.map fun b => .para b.inlines) st = .ok (st.attached bs) := by
  induction bs generalizing st with
  | nil => rfl
  | cons b bs ih => exact ih _

theorem titleOps_run (io : Str → Option Unit) (s : Sty) (is : List Inline) (st : St) :
    runOps io (titleOps s is) st = .ok (if is.isEmpty then st else (st.setStyle s).addInlines none is) := by
  unfold titleOps
  split <;> rfl

theorem headOps_run (io : Str → Option Unit) (name : Str) (v : Option ParentVariant) (t : List Inline) (st : St) :
    runOps io (headOps name v t) st = .ok (st.parentHead name v t) := by
  cases v with
  | none =>
    simp only [headOps, List.nil_append, runOps_append, titleOps_run]
    rfl
  | some v =>
    simp only [headOps, List.cons_append, List.nil_append, runOps, Op.run, Except.bind, runOps_append, titleOps_run]
    rfl

mutual
theorem addBlock_ops (io : Str → Option Unit) (b : Block) (st : St) : addBlock io b st = runOps io (ops b) st := by
  have wrap : ∀ (bs : List Block) (tail : List Op) (pre : List Op) (st0 st1 : St) (f : St → St),
      runOps io pre st0 = .ok st1 → (∀ s, runOps io tail s = .ok (f s)) → addBlocks io bs st1 = runOps io (opsL bs) st1 →
      (do let s ← addBlocks io bs st1; return f s : R St) = runOps io (pre ++ opsL bs ++ tail) st0 := by
    intro bs tail pre st0 st1 f h1 h2 h3
    rw [runOps_append, runOps_append, h1]
    simp only [Except.bind]
    rw [h3]
    cases runOps io (opsL bs) st1 with
    | error e => rfl
    | ok s => simp only [h2]; rfl
  cases b with
  | «section» t m level bs l =>
    simp only [addBlock, ops, runOps_append, St.sectionHead]
    split
    · exact addBlocks_ops io bs st
    · exact addBlocks_ops io bs _
  | list v items m l => exact addBlocks_ops io items _
  | listItem k p bs m l =>
    simp only [addBlock, ops, St.listItem, runOps, Op.run, Except.bind]
    split
    · rfl
    · simp only [List.cons_append, runOps, Op.run, Except.bind, runOps_append, attached_ops]
  | dlist items m l => exact addBlocks_ops io items st
  | dlistItem t p bs m l => exact addBlocks_ops io bs _
  | brk v l => cases v <;> rfl
  | image t c m l =>
    simp only [addBlock, ops, runOps, Op.run]
    cases St.image io st t <;> rfl
  | leaf n f d is m l => cases n <;> rfl
  | parent n v d bs t m l =>
    cases n with
    | admonition =>
      exact wrap bs [.reset] _ st _ St.reset (headOps_run io _ v t st) (fun _ => rfl) (addBlocks_ops io bs _)
    | example_ =>
      exact wrap bs [.reset] _ st _ St.reset (headOps_run io _ v t st) (fun _ => rfl) (addBlocks_ops io bs _)
    | sidebar =>
      exact wrap bs [.reset] _ st _ St.reset (headOps_run io _ v t st) (fun _ => rfl) (addBlocks_ops io bs _)
    | open_ => exact addBlocks_ops io bs st
    | quote =>
      simp only [addBlock, ops]
      rw [List.append_assoc]
      refine wrap bs _ [.style .quote] st (st.setStyle .quote) (fun s => s.quoteTail m) rfl ?_
        (addBlocks_ops io bs _)
      intro s
      unfold St.quoteTail
      cases St.attribution m <;> rfl
    | table =>
      simp only [addBlock, ops, runOps, Op.run]
      cases St.table st bs m <;> rfl
    | footnoteContainer => rfl
  | tableCell is m l => rfl
theorem addBlocks_ops (io : Str → Option Unit) (bs : List Block) (st : St) :
    addBlocks io bs st = runOps io (opsL bs) st := by
  cases bs with
  | nil => rfl
  | cons b bs =>
    simp only [addBlocks, opsL, runOps_append]
    rw [addBlock_ops io b st]
    cases runOps io (ops b) st with
    | error e => rfl
    | ok s => exact addBlocks_ops io bs s
end

/-- A property of states that every step keeps is kept by writing blocks. -/
theorem keep {io : Str → Option Unit} {I : St → Prop} (os : List Op)
    (h : ∀ o ∈ os, ∀ st st', I st → o.run io st = .ok st' → I st') (st st' : St) (hi : I st)
    (hr : runOps io os st = .ok st') : I st' := by
  induction os generalizing st with
  | nil => cases hr; exact hi
  | cons o os ih =>
    simp only [runOps] at hr
    cases ho : o.run io st with
    | error e => rw [ho] at hr; cases hr
    | ok s =>
      rw [ho] at hr
      exact ih (fun o' ho' => h o' (List.mem_cons_of_mem _ ho')) s (h o (List.mem_cons_self ..) st s hi ho) hr

end Adoc.Docx
