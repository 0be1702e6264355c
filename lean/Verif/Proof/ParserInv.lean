import Verif.Proof.Graph
import Verif.Model.Parser
/-!
# Invariants of the parser

One pass over all handlers, for any property `Q` of blocks with the closure conditions `Good Q`: the blocks on the
stack keep `Q`, no section lies directly on a section, the graph changes only by adding a header or pushing blocks with
`Q`, and the stack of open files is unchanged.
-/
namespace Adoc

/-- `P` holds of the value that `x` returns, if it returns one. -/
def Ok {α : Type} (x : M α) (P : α → Prop) : Prop := ∀ a, x = .ok a → P a

namespace Ok
variable {α β : Type}

theorem pure {a : α} {P : α → Prop} (h : P a) : Ok (.ok a) P := by intro b hb; cases hb; exact h
theorem error {e : Fail} {P : α → Prop} : Ok (.error e) P := by intro b hb; cases hb
theorem bind {x : M α} {f : α → M β} {P : α → Prop} {R : β → Prop} (hx : Ok x P) (hf : ∀ a, P a → Ok (f a) R) :
    Ok (x >>= f) R := by
  intro b hb
  cases x with
  | error e => cases hb
  | ok a => exact hf a (hx a rfl) b hb
theorem bind' {x : M α} {f : α → M β} {R : β → Prop} (hf : ∀ a, x = .ok a → Ok (f a) R) : Ok (x >>= f) R := by
  intro b hb
  cases x with
  | error e => cases hb
  | ok a => exact hf a rfl b hb
theorem ite {c : Prop} [Decidable c] {x y : M α} {P : α → Prop} (hx : c → Ok x P) (hy : ¬ c → Ok y P) :
    Ok (if c then x else y) P := by
  split
  · exact hx ‹_›
  · exact hy ‹_›
theorem mono {x : M α} {P R : α → Prop} (h : Ok x P) (hPR : ∀ a, P a → R a) : Ok x R := fun a ha => hPR a (h a ha)

end Ok

open Block Parser

/-- Closure conditions on a property of blocks. -/
structure Good (Q : Block → Prop) : Prop where
  /-- new blocks other than sections -/
  nonsec : ∀ b : Block, b.isSection = false → b.children = [] → Q b
  /-- new sections -/
  sec : ∀ (v : Nat) (l : List Location), 1 ≤ v → v ≤ 4 → Q (.section [] none v [] l)
  /-- changes to other parts than level and children -/
  same : ∀ b c : Block, Q b → c.levelCheck = b.levelCheck → c.children = b.children → Q c
  /-- adding a block; a section only where it is accepted -/
  push : ∀ a b c : Block, Q a → Q b → (a.isSection = true → b.isSection = true → a.takesBlock b = true) →
    a.pushBlock b = .ok c → Q c

/-- No section lies directly on a section. -/
def Adj : List Block → Prop
  | [] => True
  | [_] => True
  | a :: b :: r => (a.isSection = true → b.isSection = false) ∧ Adj (b :: r)

theorem Adj.tail {a : Block} {r : List Block} (h : Adj (a :: r)) : Adj r := by
  cases r with
  | nil => trivial
  | cons b r => exact h.2

theorem Adj.drop {l : List Block} (h : Adj l) (n : Nat) : Adj (l.drop n) := by
  induction n generalizing l with
  | zero => exact h
  | succ n ih =>
    cases l with
    | nil => trivial
    | cons a r => exact ih h.tail

/-- Replace the top by a block that is a section only if the old one was. -/
theorem Adj.top {a b : Block} {r : List Block} (h : Adj (a :: r)) (hb : b.isSection = true → a.isSection = true) :
    Adj (b :: r) := by
  cases r with
  | nil => trivial
  | cons c r => exact ⟨fun h' => h.1 (hb h'), h.2⟩

theorem Adj.cons {b : Block} {r : List Block} (h : Adj r) (hb : b.isSection = false) : Adj (b :: r) := by
  cases r with
  | nil => trivial
  | cons c r => exact ⟨fun h' => absurd h' (by simp [hb]), h⟩

/-- A stack of blocks with `Q`. -/
def StackOk (Q : Block → Prop) (l : List Block) : Prop := (∀ b ∈ l, Q b) ∧ Adj l

/-- What may happen to the graph. -/
inductive Steps (Q : Block → Prop) : Asg → Asg → Prop
  | refl {g : Asg} : Steps Q g g
  | push {g g' g'' : Asg} {b : Block} : Steps Q g g' → Q b → g'.pushBlock b = .ok g'' → Steps Q g g''
  | header {g g' : Asg} {h : Header} {attrs : SMap Str} : Steps Q g g' → Steps Q g (g'.addHeader h attrs)

theorem Steps.trans {Q : Block → Prop} {a b c : Asg} (h : Steps Q a b) (h' : Steps Q b c) : Steps Q a c := by
  induction h' with
  | refl => exact h
  | push _ hq hp ih => exact .push ih hq hp
  | header _ ih => exact .header ih

/-- The open files, and whether images must exist. -/
def env (p : Parser) : List Str × Bool := (p.files, p.resolveTargets)

/-- From a state with a good stack, the new state has a good stack, an extended graph and the same open files; images
must exist as before. -/
def Rel (Q : Block → Prop) (p q : Parser) : Prop :=
  StackOk Q p.blocks → StackOk Q q.blocks ∧ Steps Q p.asg q.asg ∧ env q = env p

namespace Rel
variable {Q : Block → Prop}
theorem refl (p : Parser) : Rel Q p p := fun h => ⟨h, .refl, rfl⟩
theorem trans {p q r : Parser} (h : Rel Q p q) (h' : Rel Q q r) : Rel Q p r := fun hp =>
  let a := h hp
  let b := h' a.1
  ⟨b.1, a.2.1.trans b.2.1, b.2.2.trans a.2.2⟩
/-- Same stack, graph and files. -/
theorem of_eq {p q : Parser} (h1 : q.blocks = p.blocks) (h2 : q.asg = p.asg) (h3 : env q = env p) : Rel Q p q := by
  intro h; rw [h1, h2, h3]; exact ⟨h, .refl, rfl⟩
end Rel

/-- Only the top of the stack changes (to a block with the same level), or a block that is no section is added. -/
inductive TopMod (Q : Block → Prop) : List Block → List Block → Prop
  | refl {l : List Block} : TopMod Q l l
  | top {a b : Block} {r : List Block} : (Q a → Q b) → b.levelCheck = a.levelCheck → TopMod Q (a :: r) (b :: r)
  | push {b : Block} {l : List Block} : Q b → b.isSection = false → TopMod Q l (b :: l)

theorem isSection_iff (b : Block) : b.isSection = b.levelCheck.isSome := by cases b <;> rfl

theorem isSection_congr {a b : Block} (h : b.levelCheck = a.levelCheck) : b.isSection = a.isSection := by
  rw [isSection_iff, isSection_iff, h]

section
variable {Q : Block → Prop}

theorem TopMod.stack {l l' : List Block} (h : TopMod Q l l') (hl : StackOk Q l) : StackOk Q l' := by
  cases h with
  | refl => exact hl
  | top hq hs =>
    refine ⟨?_, hl.2.top (by rw [isSection_congr hs]; exact id)⟩
    intro x hx
    rcases List.mem_cons.1 hx with rfl | hx
    · exact hq (hl.1 _ (by simp))
    · exact hl.1 x (by simp [hx])
  | push hq hs =>
    refine ⟨?_, hl.2.cons hs⟩
    intro x hx
    rcases List.mem_cons.1 hx with rfl | hx
    · exact hq
    · exact hl.1 x hx

theorem TopMod.rel {p q : Parser} (h : TopMod Q p.blocks q.blocks) (h2 : q.asg = p.asg) (h3 : env q = env p) :
    Rel Q p q := fun hp => ⟨h.stack hp, by rw [h2]; exact .refl, h3⟩

/-! ## Blocks -/

theorem pushInline_shape {b c : Block} {i : Inline} (h : b.pushInline i = .ok c) :
    c.levelCheck = b.levelCheck ∧ c.children = b.children := by
  cases b <;> simp [Block.pushInline] at h <;> subst h <;> exact ⟨rfl, rfl⟩

theorem addMeta_shape {b c : Block} {m : Meta} (h : b.addMeta m = .ok c) :
    c.levelCheck = b.levelCheck ∧ c.children = b.children := by
  unfold Block.addMeta at h
  split at h
  · cases h; exact ⟨rfl, rfl⟩
  · split at h <;> cases h <;> exact ⟨rfl, rfl⟩

theorem addLocations_shape {b c : Block} {l : List Location} (h : b.addLocations l = .ok c) :
    c.levelCheck = b.levelCheck ∧ c.children = b.children := by
  unfold Block.addLocations at h
  split at h <;> cases h; exact ⟨rfl, rfl⟩

theorem tableInfo_shape {b c : Block} (h : b.tableInfo = .ok c) :
    c.levelCheck = b.levelCheck ∧ c.children = b.children := by
  unfold Block.tableInfo at h
  split at h
  · split at h
    · simp only [bind, Except.bind] at h
      repeat' (split at h)
      all_goals first | (cases h; exact ⟨rfl, rfl⟩) | cases h
    · cases h; exact ⟨rfl, rfl⟩
  · cases h

theorem consolidate_level (b : Block) : b.consolidate.levelCheck = b.levelCheck := by cases b <;> rfl

theorem pushBlock_level {a b c : Block} (h : a.pushBlock b = .ok c) : c.levelCheck = a.levelCheck := by
  cases a <;> unfold Block.pushBlock at h
  case «section» =>
    split at h
    · simp only [bind, Except.bind] at h
      split at h <;> cases h; rfl
    · cases h; rfl
  case parent =>
    split at h
    · simp only [bind, Except.bind] at h
      split at h <;> cases h; rfl
    · split at h <;> cases h; rfl
  all_goals first | (cases h; rfl) | cases h

theorem liftB_ok {α : Type} {x : Except BlockError α} {a : α} (h : liftB x = .ok a) : x = .ok a := by
  cases x <;> simp [liftB] at h; rw [h]

theorem Ok.liftB {α : Type} {x : Except BlockError α} {P : α → Prop} (h : ∀ a, x = .ok a → P a) :
    Ok (liftB x) P := fun a ha => h a (liftB_ok ha)

/-! ## Handlers -/

variable (hQ : Good Q)
include hQ

omit hQ in
theorem graphPush_rel {p : Parser} {b : Block} (hb : Q b) : Ok (p.graphPush b) (Rel Q p) := by
  unfold Parser.graphPush
  split
  · exact .pure fun h => ⟨h, .push .refl hb ‹_›, rfl⟩
  · exact .error

omit hQ in
/-- Parser states that agree on stack, graph and files. -/
theorem addText_same (p : Parser) (t : Token) (pass : Bool) :
    Ok (p.addText t pass) fun q => q.blocks = p.blocks ∧ q.asg = p.asg ∧ env q = env p := by
  unfold Parser.addText
  dsimp only
  split
  · exact .pure ⟨rfl, rfl, rfl⟩
  · exact .ite (fun _ => .pure ⟨rfl, rfl, rfl⟩) (fun _ => .pure ⟨rfl, rfl, rfl⟩)
  · exact .ite (fun _ => .pure ⟨rfl, rfl, rfl⟩) (fun _ => .pure ⟨rfl, rfl, rfl⟩)
  · exact .ite (fun _ => .pure ⟨rfl, rfl, rfl⟩) (fun _ => .bind' fun _ _ => .pure ⟨rfl, rfl, rfl⟩)
  · exact .pure ⟨rfl, rfl, rfl⟩

omit hQ in
theorem danglingSpans_same (p : Parser) :
    Ok p.danglingSpans fun q => q.blocks = p.blocks ∧ q.asg = p.asg ∧ env q = env p := by
  unfold Parser.danglingSpans
  split
  · exact .pure ⟨rfl, rfl, rfl⟩
  · refine .bind' fun _ _ => .bind' fun _ _ => ?_
    split
    · exact addText_same _ _ _
    · exact .bind' fun _ _ => .pure ⟨rfl, rfl, rfl⟩

/-- `push_block_to_stack` of a block that is no section. -/
theorem pushToStack_top {p : Parser} {b : Block} (hb : Q b) (hs : b.isSection = false) :
    Ok (p.pushToStack b) fun q => TopMod Q p.blocks q.blocks ∧ q.asg = p.asg ∧ env q = env p := by
  unfold Parser.pushToStack
  refine .ite (fun _ => ?_) (fun _ => ?_)
  · split
    · exact .error
    · rename_i last rest heq
      refine .bind' fun last' hl => .pure ⟨?_, rfl, rfl⟩
      rw [heq]
      exact .top (fun h => hQ.push _ _ _ h hb (by rw [hs]; simp) (liftB_ok hl)) (pushBlock_level (liftB_ok hl))
  · split
    · refine .bind' fun b' hb' => .pure ⟨.push ?_ ?_, rfl, rfl⟩
      · exact hQ.same _ _ hb (addMeta_shape hb').1 (addMeta_shape hb').2
      · rw [isSection_congr (addMeta_shape hb').1, hs]
    · exact .pure ⟨.push hb hs, rfl, rfl⟩

/-- `push_block_to_stack` of any block that may lie on the stack. -/
theorem pushToStack_rel {p : Parser} {b : Block} (hb : Q b)
    (hs : b.isSection = true → ∀ x ∈ p.blocks.head?, x.isSection = false) :
    Ok (p.pushToStack b) (Rel Q p) := by
  by_cases hsec : b.isSection = true
  · unfold Parser.pushToStack
    refine .ite (fun _ => ?_) (fun _ => ?_)
    · split
      · exact .error
      · rename_i last rest heq
        have hlast := hs hsec last (by rw [heq]; simp)
        refine .bind' fun last' hl => .pure (TopMod.rel ?_ rfl rfl)
        rw [heq]
        exact .top (fun h => hQ.push _ _ _ h hb (by rw [hlast]; simp) (liftB_ok hl)) (pushBlock_level (liftB_ok hl))
    · have key : ∀ b' : Block, Q b' → StackOk Q p.blocks → StackOk Q (b' :: p.blocks) := by
        intro b' hq hp
        refine ⟨fun x hx => ?_, ?_⟩
        · rcases List.mem_cons.1 hx with rfl | hx
          · exact hq
          · exact hp.1 x hx
        · cases hbl : p.blocks with
          | nil => trivial
          | cons c r => exact ⟨fun _ => hs hsec c (by rw [hbl]; simp), hbl ▸ hp.2⟩
      split
      · refine .bind' fun b' hb' => .pure fun hp => ⟨key b' ?_ hp, .refl, rfl⟩
        exact hQ.same _ _ hb (addMeta_shape hb').1 (addMeta_shape hb').2
      · exact .pure fun hp => ⟨key b hb hp, .refl, rfl⟩
  · have := pushToStack_top hQ (p := p) hb (by simpa using hsec)
    exact this.mono fun q h => TopMod.rel h.1 h.2.1 h.2.2

theorem pushToStack_new {p : Parser} {b : Block} (hs : b.isSection = false) (hc : b.children = []) :
    Ok (p.pushToStack b) (Rel Q p) :=
  pushToStack_rel hQ (hQ.nonsec b hs hc) (by rw [hs]; simp)

omit hQ in
theorem pushInlines_shape (b : Block) (is : List Inline) :
    Ok (Parser.pushInlines b is) fun c => c.levelCheck = b.levelCheck ∧ c.children = b.children := by
  induction is generalizing b with
  | nil => exact .pure ⟨rfl, rfl⟩
  | cons i is ih =>
    refine .bind' fun b' hb => (ih b').mono fun c hc => ?_
    have := pushInline_shape (liftB_ok hb)
    exact ⟨hc.1.trans this.1, hc.2.trans this.2⟩

omit hQ in
theorem push_children_nonsec {a b c : Block} (h : a.pushBlock b = .ok c) (ha : a.isSection = false) :
    c.isSection = false := by
  rw [isSection_congr (pushBlock_level h), ha]

theorem newParagraph_top (p : Parser) :
    Ok p.newParagraph fun q => TopMod Q p.blocks q.blocks ∧ q.asg = p.asg ∧ env q = env p := by
  unfold Parser.newParagraph
  have hpara : ∀ is l, Q (.leaf .paragraph .paragraph none is none l) := fun is l => hQ.nonsec _ rfl rfl
  dsimp only
  refine .ite (fun _ => ?_) (fun _ => ?_)
  · split
    · exact .error
    · rename_i last rest heq
      refine .bind' fun last' hl => .pure ⟨?_, rfl, rfl⟩
      show TopMod Q p.blocks _
      rw [show p.blocks = last :: rest from heq]
      exact .top (fun h => hQ.push _ _ _ h (hpara _ _) (by simp [Block.isSection]) (liftB_ok hl))
        (pushBlock_level (liftB_ok hl))
  · split
    · split
      · exact .error
      · refine .ite (fun _ => ?_) (fun _ => ?_)
        · refine .bind' fun q hq => ?_
          refine (pushToStack_top hQ (hQ.push _ _ _ (hQ.nonsec _ rfl rfl) (hpara _ _) (by simp [Block.isSection])
            (liftB_ok hq)) (push_children_nonsec (liftB_ok hq) rfl))
        · exact pushToStack_top hQ (hpara _ _) rfl
    · exact pushToStack_top hQ (hpara _ _) rfl

theorem addInlines_top (p : Parser) :
    Ok p.addInlines fun q => TopMod Q p.blocks q.blocks ∧ q.asg = p.asg ∧ env q = env p := by
  unfold Parser.addInlines
  refine .ite (fun _ => .pure ⟨.refl, rfl, rfl⟩) (fun _ => ?_)
  have h1 : Ok (if p.inSpan = true then p.danglingSpans else .ok p)
      fun q => q.blocks = p.blocks ∧ q.asg = p.asg ∧ env q = env p :=
    .ite (fun _ => danglingSpans_same p) (fun _ => .pure ⟨rfl, rfl, rfl⟩)
  refine .bind h1 fun p1 hp1 => ?_
  have hnew := (newParagraph_top hQ p1).mono (R := fun q => TopMod Q p.blocks q.blocks ∧ q.asg = p.asg ∧ env q = env p)
    (fun q hq => ⟨hp1.1 ▸ hq.1, hq.2.1.trans hp1.2.1, hq.2.2.trans hp1.2.2⟩)
  split
  · exact .pure ⟨by rw [show _ = p1.blocks from rfl, hp1.1]; exact .refl, hp1.2.1, hp1.2.2⟩
  · split
    · rename_i last rest heq
      refine .ite (fun _ => ?_) (fun _ => hnew)
      refine .bind (pushInlines_shape _ _) fun last' hl => .pure ⟨?_, hp1.2.1, hp1.2.2⟩
      rw [← hp1.1, heq]
      exact .top (fun h => hQ.same _ _ h hl.1 hl.2) hl.1
    · exact hnew

theorem addInlines_rel (p : Parser) : Ok p.addInlines (Rel Q p) :=
  (addInlines_top hQ p).mono fun _ h => TopMod.rel h.1 h.2.1 h.2.2


omit hQ in
/-- Assume the invariant of the start state. -/
theorem Ok.rel {p : Parser} {x : M Parser} (h : StackOk Q p.blocks → Ok x (Rel Q p)) : Ok x (Rel Q p) :=
  fun a ha hp => h hp a ha hp

omit hQ in
/-- A first part that keeps the invariant, then a second part. -/
theorem Ok.relBind {p : Parser} {x : M Parser} {f : Parser → M Parser} (hx : Ok x (Rel Q p))
    (hf : ∀ q, StackOk Q q.blocks → Ok (f q) (Rel Q q)) : Ok (x >>= f) (Rel Q p) :=
  Ok.rel fun hp => .bind (P := fun q => Rel Q p q) hx fun q hq => (hf q (hq hp).1).mono fun _ hr => hq.trans hr

omit hQ in
theorem StackOk.tail {a : Block} {r : List Block} (h : StackOk Q (a :: r)) : StackOk Q r :=
  ⟨fun x hx => h.1 x (by simp [hx]), h.2.tail⟩

omit hQ in
theorem StackOk.head {a : Block} {r : List Block} (h : StackOk Q (a :: r)) : Q a := h.1 a (by simp)

omit hQ in
theorem StackOk.below {a : Block} {r : List Block} (h : StackOk Q (a :: r)) (hs : a.isSection = true) :
    ∀ x ∈ r.head?, x.isSection = false := by
  intro x hx
  cases r with
  | nil => cases hx
  | cons b r => simp at hx; exact hx ▸ h.2.1 hs

omit hQ in
theorem StackOk.setTop {a b : Block} {r : List Block} (h : StackOk Q (a :: r)) (hb : Q b)
    (hs : b.levelCheck = a.levelCheck) : StackOk Q (b :: r) :=
  TopMod.stack (.top (fun _ => hb) hs) h

omit hQ in
theorem StackOk.nil : StackOk Q [] := ⟨fun x hx => absurd hx (by simp), trivial⟩

omit hQ in
theorem anyItem_nonsec {b : Block} (h : b.isAnyItem = true) : b.isSection = false := by
  cases b <;> simp_all [Block.isAnyItem, Block.isSection]

omit hQ in
/-- The state with the top of the stack taken away. -/
theorem Rel.pop {p : Parser} {a : Block} {r : List Block} (h : p.blocks = a :: r) :
    Rel Q p { p with blocks := r } := fun hp => ⟨(h ▸ hp).tail, .refl, rfl⟩

/-- A block from the stack is pushed back after the rest. -/
theorem repush {p : Parser} {a : Block} {r : List Block} (hb : p.blocks = a :: r) (q : Parser)
    (h1 : q.blocks = r) (h2 : q.asg = p.asg) (h3 : env q = env p) : Ok (q.pushToStack a) (Rel Q p) :=
  Ok.rel fun hp => by
    have hp' := hb ▸ hp
    have := pushToStack_rel hQ (p := q) (b := a) hp'.head (by rw [h1]; exact hp'.below)
    exact this.mono fun c hc _ => by
      have := hc (by rw [h1]; exact hp'.tail)
      rw [h2, h3] at this
      exact this

theorem addLastItem_rel (p : Parser) : Ok p.addLastItem (Rel Q p) := by
  unfold Parser.addLastItem
  refine Ok.relBind (addInlines_rel hQ _) fun p1 hp1 => ?_
  split
  · exact .error
  · rename_i item rest heq
    rw [heq] at hp1
    refine .ite (fun hi => ?_) (fun _ => repush hQ heq _ rfl rfl rfl)
    split
    · exact .pure fun _ => ⟨.nil, .refl, rfl⟩
    · refine .bind' fun list' hl => .pure fun _ => ⟨?_, .refl, rfl⟩
      exact hp1.tail.setTop
        (hQ.push _ _ _ hp1.tail.head hp1.head (by rw [anyItem_nonsec hi]; simp) (liftB_ok hl))
        (pushBlock_level (liftB_ok hl))

theorem addToStackOrGraph_rel (p : Parser) (b : Block) (hb : Q b) : Ok (p.addToStackOrGraph b) (Rel Q p) := by
  unfold Parser.addToStackOrGraph
  have hg : Ok (match p.data with
    | some m => do
      let b' ← b.addMeta m
      graphPush { p with data := none } b'
    | none => p.graphPush b) (Rel Q p) := by
    split
    · refine .bind' fun b' hb' => ?_
      exact (graphPush_rel (Q := Q) (p := { p with data := none })
        (hQ.same _ _ hb (addMeta_shape hb').1 (addMeta_shape hb').2)).mono fun _ h => h
    · exact graphPush_rel hb
  dsimp only
  split
  · rename_i last rest heq
    refine .ite (fun ht => ?_) (fun _ => hg)
    refine Ok.rel fun hp => .bind' fun last' hl => .pure fun _ => ⟨?_, .refl, rfl⟩
    rw [heq] at hp
    exact hp.setTop (hQ.push _ _ _ hp.head hb (fun _ _ => ht) (liftB_ok hl)) (pushBlock_level (liftB_ok hl))
  · exact hg

omit hQ in
/-- `graphPush` after the stack was cut to `r`. -/
theorem graphPush_cut {p q : Parser} {b : Block} (hb : Q b) (h1 : StackOk Q q.blocks) (h2 : q.asg = p.asg)
    (h3 : env q = env p) : Ok (q.graphPush b) (Rel Q p) :=
  (graphPush_rel hb).mono fun c hc _ => by
    have := hc h1
    rw [h2, h3] at this
    exact this

theorem addLastToStackOrGraph_rel (p : Parser) : Ok p.addLastToStackOrGraph (Rel Q p) := by
  unfold Parser.addLastToStackOrGraph
  refine Ok.rel fun hp => ?_
  split
  · exact .error
  · rename_i b heq
    rw [heq] at hp
    exact graphPush_cut hp.head .nil rfl rfl
  · rename_i b prior rest heq
    rw [heq] at hp
    refine .ite (fun ht => ?_) (fun _ => graphPush_cut hp.head hp.tail rfl rfl)
    refine .bind' fun prior' hl => .pure fun _ => ⟨?_, .refl, rfl⟩
    exact hp.tail.setTop (hQ.push _ _ _ hp.tail.head hp.head (fun _ _ => ht) (liftB_ok hl))
      (pushBlock_level (liftB_ok hl))

theorem addLastToGraph_rel (p : Parser) : Ok p.addLastToGraph (Rel Q p) := by
  unfold Parser.addLastToGraph
  refine Ok.rel fun hp => ?_
  split
  · exact .pure (Rel.refl p)
  · rename_i b rest heq
    rw [heq] at hp
    have h1 : Ok (match p.data with
      | some m => b.addMeta m
      | none => .ok b) fun c => Q c ∧ c.levelCheck = b.levelCheck := by
      split
      · exact fun c hc => ⟨hQ.same _ _ hp.head (addMeta_shape hc).1 (addMeta_shape hc).2, (addMeta_shape hc).1⟩
      · exact .pure ⟨hp.head, rfl⟩
    refine .bind h1 fun c hc => ?_
    dsimp only
    have ht := hp.tail
    split
    · refine .ite (fun htk => ?_) (fun _ => graphPush_cut hc.1 ht rfl rfl)
      refine .bind' fun next' hl => .pure fun _ => ⟨?_, .refl, rfl⟩
      exact ht.setTop (hQ.push _ _ _ ht.head hc.1 (fun _ _ => htk) (liftB_ok hl)) (pushBlock_level (liftB_ok hl))
    · exact graphPush_cut hc.1 .nil rfl rfl

theorem drain_rel (n fuel : Nat) (p : Parser) : Ok (drain n fuel p) (Rel Q p) := by
  induction fuel generalizing p with
  | zero => exact .pure (Rel.refl p)
  | succ k ih =>
    unfold drain
    exact .ite (fun _ => Ok.relBind (addLastToGraph_rel hQ p) fun q _ => ih q) (fun _ => .pure (Rel.refl p))

theorem moveHeader_rel (p : Parser) : Ok p.moveHeader (Rel Q p) := by
  unfold Parser.moveHeader
  refine Ok.relBind (addInlines_rel hQ p) fun p1 _ => ?_
  split
  · refine .ite (fun _ => .pure fun h => ⟨h, .refl, rfl⟩) (fun _ => .pure fun h => ⟨h, .header .refl, rfl⟩)
  · exact .pure (Rel.refl _)

omit hQ in
theorem levelOffset_same (p : Parser) (v : Str) :
    Ok (p.levelOffset v) fun q => q.blocks = p.blocks ∧ q.asg = p.asg ∧ env q = env p := by
  unfold Parser.levelOffset
  split
  · exact .pure ⟨rfl, rfl, rfl⟩
  · split
    · exact .ite (fun _ => .pure ⟨rfl, rfl, rfl⟩) (fun _ => .error)
    · exact .error

omit hQ in
theorem Ok.ofSame {p : Parser} {x : M Parser}
    (h : Ok x fun q => q.blocks = p.blocks ∧ q.asg = p.asg ∧ env q = env p) : Ok x (Rel Q p) :=
  h.mono fun _ hq => Rel.of_eq hq.1 hq.2.1 hq.2.2

omit hQ in
theorem parseAttribute_rel (p : Parser) (t : Token) : Ok (p.parseAttribute t) (Rel Q p) := by
  unfold Parser.parseAttribute
  split
  · exact .error
  · exact .pure (Rel.refl _)
  · exact .ite (fun _ => Ok.ofSame (levelOffset_same _ _)) (fun _ => .pure fun h => ⟨h, .refl, rfl⟩)

omit hQ in
theorem parseBlockMeta_rel (p : Parser) (t : Token) : Ok (p.parseBlockMeta t) (Rel Q p) := by
  unfold Parser.parseBlockMeta
  exact .bind' fun _ _ => .pure fun h => ⟨h, .refl, rfl⟩

omit hQ in
theorem parseInlineMeta_rel (p : Parser) (t : Token) : Ok (p.parseInlineMeta t) (Rel Q p) := by
  unfold Parser.parseInlineMeta
  exact .bind' fun _ _ => .pure fun h => ⟨h, .refl, rfl⟩

theorem blankLine_rel (p : Parser) : Ok p.blankLine (Rel Q p) := by
  unfold Parser.blankLine
  dsimp only
  split
  · exact (moveHeader_rel hQ _).mono fun _ h => h
  · have h1 : Ok (match p.blocks with
      | b :: _ => if b.isAnyItem then addLastItem { p with dangling := none } else .ok { p with dangling := none }
      | [] => .ok { p with dangling := none }) (Rel Q p) := by
      split
      · exact .ite (fun _ => (addLastItem_rel hQ _).mono fun _ h => h) (fun _ => .pure fun h => ⟨h, .refl, rfl⟩)
      · exact .pure fun h => ⟨h, .refl, rfl⟩
    refine Ok.relBind h1 fun p1 _ => Ok.relBind (p := p1) (addInlines_rel hQ _) fun p2 hp2 => ?_
    split
    · exact .pure fun h => ⟨h, .refl, rfl⟩
    · rename_i b rest heq
      have heq : p2.blocks = b :: rest := heq
      rw [heq] at hp2
      refine .ite (fun _ => ?_) (fun _ => repush hQ heq _ rfl rfl rfl)
      have h3 := addToStackOrGraph_rel hQ { p2 with forceNew := true, blocks := rest } b hp2.head
      have h4 := h3.mono (R := Rel Q p2) fun q hq => (Rel.pop heq).trans hq
      refine Ok.relBind h4 fun p3 _ => .ite (fun _ => ?_) (fun _ => .pure (Rel.refl _))
      exact Ok.relBind (addLastToStackOrGraph_rel hQ p3) fun p4 _ => .pure fun h => ⟨h, .refl, rfl⟩

theorem parseNewLine_rel (p : Parser) (t : Token) : Ok (p.parseNewLine t) (Rel Q p) := by
  unfold Parser.parseNewLine
  extract_lets p0 p1
  have hs : p1.blocks = p.blocks ∧ p1.asg = p.asg ∧ env p1 = env p := by
    simp only [p1, p0]; split <;> exact ⟨rfl, rfl, rfl⟩
  obtain ⟨h1, h2, h3⟩ := hs
  refine .ite (fun _ => ?_) (fun _ => .ite (fun _ => ?_) (fun _ => ?_))
  · exact (blankLine_rel hQ p1).mono fun q hq => (Rel.of_eq h1 h2 h3).trans hq
  · exact .pure (Rel.of_eq h1 h2 h3)
  · exact .pure (Rel.of_eq h1 h2 h3)

theorem parseDlistTerm_rel (p : Parser) (t : Token) : Ok (p.parseDlistTerm t) (Rel Q p) := by
  unfold Parser.parseDlistTerm
  dsimp only
  have h1 : Ok (match splitFirst Inline.isNewline p.inlines.reverse with
    | some (before, _, after) => do
      let p ← addInlines { p with forceNew := false, inlines := before.reverse }
      .ok { p with inlines := after.reverse ++ p.inlines }
    | none => .ok { p with forceNew := false }) (Rel Q p) := by
    split
    · exact Ok.relBind (p := p) (addInlines_rel hQ _) fun q _ => .pure fun h => ⟨h, .refl, rfl⟩
    · exact .pure fun h => ⟨h, .refl, rfl⟩
  refine Ok.relBind h1 fun p1 _ => ?_
  have h2 : ∀ loc, Ok (match p1.blocks with
    | b :: _ => if b.isDlistItem then addLastItem { p1 with inlines := [] }
        else pushToStack { p1 with inlines := [] } (.dlist [] none loc)
    | [] => pushToStack { p1 with inlines := [] } (.dlist [] none loc)) (Rel Q p1) := by
    intro loc
    split
    · exact .ite (fun _ => (addLastItem_rel hQ _).mono fun _ h => h)
        (fun _ => (pushToStack_new hQ (p := { p1 with inlines := [] }) rfl rfl).mono fun _ h => h)
    · exact (pushToStack_new hQ (p := { p1 with inlines := [] }) rfl rfl).mono fun _ h => h
  refine Ok.relBind (h2 _) fun p2 _ => Ok.relBind (pushToStack_new hQ rfl rfl) fun p3 _ => ?_
  exact .pure fun h => ⟨h, .refl, rfl⟩

theorem parseOrdered_rel (p : Parser) (t : Token) : Ok (p.parseOrdered t) (Rel Q p) := by
  unfold Parser.parseOrdered
  extract_lets p0 newList
  have hn : ∀ p1, Ok (newList p1) (Rel Q p1) := by
    intro p1
    refine .ite (fun _ => ?_) (fun _ => pushToStack_new hQ rfl rfl)
    refine Ok.relBind ?_ fun q _ => pushToStack_new hQ rfl rfl
    split
    · exact .ite (fun _ => addLastToStackOrGraph_rel hQ _) (fun _ => .pure (Rel.refl _))
    · exact .pure (Rel.refl _)
  clear_value newList
  refine Ok.relBind (p := p) ?_ fun q _ => pushToStack_new hQ rfl rfl
  split
  · exact .ite (fun _ => (addLastItem_rel hQ _).mono fun _ h => h) (fun _ => (hn _).mono fun _ h => h)
  · exact (hn _).mono fun _ h => h

theorem parseUnordered_rel (p : Parser) (t : Token) : Ok (p.parseUnordered t) (Rel Q p) := by
  unfold Parser.parseUnordered
  dsimp only
  refine Ok.relBind (p := p) ?_ fun q _ => pushToStack_new hQ rfl rfl
  split
  · exact .ite (fun _ => (addLastItem_rel hQ _).mono fun _ h => h)
      (fun _ => (pushToStack_new hQ (p := { p with dangling := none }) rfl rfl).mono fun _ h => h)
  · exact (pushToStack_new hQ (p := { p with dangling := none }) rfl rfl).mono fun _ h => h

omit hQ in
theorem headingLevel_range (p : Parser) (t : Token) : Ok (p.headingLevel t) fun v => 1 ≤ v ∧ v ≤ 4 := by
  unfold Parser.headingLevel
  split
  · exact .error
  · refine .ite (fun _ => .error) (fun _ => .ite (fun h => .pure ?_) (fun _ => .error))
    omega

theorem parseSection_rel (p : Parser) (t : Token) : Ok (p.parseSection t) (Rel Q p) := by
  unfold Parser.parseSection
  refine Ok.rel fun hp => .bind (headingLevel_range p t) fun v hv => ?_
  -- after closing a section on top, the new top is no section
  have h1 : Ok (match p.blocks with
    | b :: _ => if b.isSection then p.addLastToStackOrGraph else .ok p
    | [] => .ok p) fun q => Rel Q p q ∧ ∀ x ∈ q.blocks.head?, x.isSection = false := by
    split
    · rename_i b rest heq
      refine .ite (fun hs => fun q hq => ⟨addLastToStackOrGraph_rel hQ p q hq, ?_⟩)
        (fun hs => .pure ⟨Rel.refl p, by rw [heq]; simpa using hs⟩)
      rw [heq] at hp
      unfold Parser.addLastToStackOrGraph at hq
      rw [heq] at hq
      split at hq
      · cases hq
      · unfold Parser.graphPush at hq
        split at hq
        · cases hq; simp
        · cases hq
      · rename_i c prior rest' hcons
        cases hcons
        have hpr := hp.below hs prior (by simp)
        split at hq
        · cases hl : liftB (prior.pushBlock b) with
          | error e => rw [hl] at hq; cases hq
          | ok pr =>
            rw [hl] at hq; cases hq
            intro x hx
            simp at hx
            rw [← hx, isSection_congr (pushBlock_level (liftB_ok hl)), hpr]
        · unfold Parser.graphPush at hq
          split at hq
          · cases hq; simpa using hpr
          · cases hq
    · rename_i heq
      exact .pure ⟨Rel.refl p, by rw [heq]; simp⟩
  refine .bind h1 fun p1 h => ?_
  have h2 := (pushToStack_rel hQ (p := p1) (hQ.sec v [t.firstLocation] hv.1 hv.2) (fun _ => h.2)).mono
    (R := Rel Q p) fun _ hr => h.1.trans hr
  exact Ok.relBind h2 fun q _ => .pure fun h => ⟨h, .refl, rfl⟩

theorem parseTitle_rel (p : Parser) (t : Token) : Ok (p.parseTitle t) (Rel Q p) := by
  unfold Parser.parseTitle
  exact .ite (fun _ => parseSection_rel hQ p t) (fun _ => .ite (fun _ => .pure fun h => ⟨h, .refl, rfl⟩) (fun _ => .error))

theorem parentFromToken_new (t : Token) : Ok (liftB (Block.parentFromToken t)) fun b =>
    Q b ∧ b.isSection = false := by
  refine Ok.liftB fun b hb => ?_
  unfold Block.parentFromToken at hb
  split at hb <;> cases hb
  exact ⟨hQ.nonsec _ rfl rfl, rfl⟩

theorem parseAdmonition_rel (p : Parser) (t : Token) : Ok (p.parseAdmonition t) (Rel Q p) := by
  unfold Parser.parseAdmonition
  refine .bind (parentFromToken_new hQ t) fun b hb => .pure ?_
  exact TopMod.rel (.push hb.1 hb.2) rfl rfl

theorem parseContinuation_rel (p : Parser) : Ok p.parseContinuation (Rel Q p) := by
  unfold Parser.parseContinuation
  exact Ok.relBind (addInlines_rel hQ p) fun q _ => .pure fun h => ⟨h, .refl, rfl⟩

omit hQ in
theorem openSpan_rel (p : Parser) (i : Inline) : Ok (p.openSpan i) (Rel Q p) := by
  unfold Parser.openSpan
  refine Ok.relBind (p := p) ?_ fun p1 _ => Ok.relBind (Ok.ofSame (danglingSpans_same p1)) fun p2 _ => ?_
  · split
    · exact Ok.relBind (Ok.ofSame (addText_same p _ _)) fun q _ => .pure fun h => ⟨h, .refl, rfl⟩
    · exact .pure (Rel.refl _)
  · split
    · exact .bind' fun _ _ => .pure fun h => ⟨h, .refl, rfl⟩
    · exact .pure fun h => ⟨h, .refl, rfl⟩

omit hQ in
theorem parseSpan_rel (p : Parser) (i : Inline) : Ok (p.parseSpan i) (Rel Q p) := by
  unfold Parser.parseSpan
  split
  · refine .ite (fun _ => .bind' fun _ _ => .pure fun h => ⟨h, .refl, rfl⟩) (fun _ => ?_)
    split
    · split
      · exact .bind' fun _ _ => .pure fun h => ⟨h, .refl, rfl⟩
      · exact .pure fun h => ⟨h, .refl, rfl⟩
    · exact openSpan_rel p i
  · exact openSpan_rel p i

theorem parseBlockImage_rel (w : World) (p : Parser) (t : Token) : Ok (p.parseBlockImage w t) (Rel Q p) := by
  unfold Parser.parseBlockImage
  refine .bind' fun tm _ => ?_
  obtain ⟨target, m⟩ := tm
  dsimp only
  refine .bind' fun _ _ => ?_
  exact (addToStackOrGraph_rel hQ { p with data := none, title := none } _ (hQ.nonsec _ rfl rfl)).mono fun _ h => h

omit hQ in
theorem parseInlineImage_rel (p : Parser) (t : Token) : Ok (p.parseInlineImage t) (Rel Q p) := by
  unfold Parser.parseInlineImage
  exact .bind' fun tm _ => .pure fun h => ⟨h, .refl, rfl⟩

omit hQ in
theorem parseFootnote_rel (p : Parser) (t : Token) : Ok (p.parseFootnote t) (Rel Q p) := by
  unfold Parser.parseFootnote
  exact .bind' fun tm _ => .pure fun h => ⟨h, .refl, rfl⟩

omit hQ in
theorem parseMacroClose_rel (p : Parser) (t : Token) : Ok (p.parseMacroClose t) (Rel Q p) := by
  unfold Parser.parseMacroClose
  refine .ite (fun _ => .pure fun h => ⟨h, .refl, rfl⟩) (fun _ => ?_)
  split
  · exact .bind' fun _ _ => .bind' fun _ _ => .pure fun h => ⟨h, .refl, rfl⟩
  · exact Ok.ofSame (addText_same _ _ _)

omit hQ in
theorem parseText_rel (p : Parser) (t : Token) (pass : Bool) : Ok (p.parseText t pass) (Rel Q p) := by
  unfold Parser.parseText
  split
  · refine .ite (fun _ => .pure fun h => ⟨h, .refl, rfl⟩) (fun _ => ?_)
    refine Ok.relBind (Ok.ofSame (addText_same _ _ _)) fun q _ => ?_
    exact (Ok.ofSame (addText_same { q with dangling := none } _ _)).mono fun _ h => h
  · exact Ok.ofSame (addText_same _ _ _)

omit hQ in
theorem parseAttrRef_rel (p : Parser) (t : Token) : Ok (p.parseAttrRef t) (Rel Q p) := by
  unfold Parser.parseAttrRef
  refine .bind' fun _ _ => ?_
  split
  · exact .ite (fun _ => .error) (fun _ => parseText_rel _ _ _)
  · exact parseText_rel _ _ _

omit hQ in
theorem parseXref_rel (p : Parser) (t : Token) : Ok (p.parseXref t) (Rel Q p) := by
  unfold Parser.parseXref
  exact .bind' fun tm _ => .pure fun h => ⟨h, .refl, rfl⟩

omit hQ in
theorem parseCallout_rel (p : Parser) (t : Token) : Ok (p.parseCallout t) (Rel Q p) := by
  unfold Parser.parseCallout
  exact .ite (fun _ => .error) (fun _ => .bind' fun tm _ => .pure fun h => ⟨h, .refl, rfl⟩)

omit hQ in
theorem addCharref_rel (p : Parser) (x : Inline) : Ok (p.addCharref x) (Rel Q p) := by
  unfold Parser.addCharref
  split
  · exact .ite (fun _ => .pure fun h => ⟨h, .refl, rfl⟩) (fun _ => .pure fun h => ⟨h, .refl, rfl⟩)
  · exact .ite (fun _ => .pure fun h => ⟨h, .refl, rfl⟩) (fun _ => .pure fun h => ⟨h, .refl, rfl⟩)
  · exact .pure fun h => ⟨h, .refl, rfl⟩

omit hQ in
theorem parseCharref_rel (p : Parser) (t : Token) : Ok (p.parseCharref t) (Rel Q p) := by
  unfold Parser.parseCharref
  dsimp only
  split
  · refine .ite (fun _ => .pure fun h => ⟨h, .refl, rfl⟩) (fun _ => ?_)
    refine Ok.relBind (Ok.ofSame (addText_same _ _ _)) fun q _ => ?_
    exact (addCharref_rel { q with dangling := none } _).mono fun _ h => h
  · exact addCharref_rel _ _

theorem parseLeaf_rel (p : Parser) (t : Token) : Ok (p.parseLeaf t) (Rel Q p) := by
  unfold Parser.parseLeaf
  split
  · refine Ok.relBind (addInlines_rel hQ p) fun p1 hp1 => ?_
    split
    · exact .error
    · rename_i b rest heq
      rw [heq] at hp1
      refine .bind' fun b' hb => ?_
      have hsh := addLocations_shape hb
      have hq : Q b' := hQ.same _ _ hp1.head hsh.1 hsh.2
      have h2 := (pushToStack_rel hQ (p := { p1 with blocks := rest }) hq
        (by rw [isSection_congr hsh.1]; exact hp1.below)).mono (R := Rel Q p1)
        fun q hq => (Rel.pop heq).trans hq
      exact Ok.relBind h2 fun q _ => .pure fun h => ⟨h, .refl, rfl⟩
  · refine .bind' fun b hb => ?_
    have hb' : b.isSection = false ∧ b.children = [] := by
      have := liftB_ok hb
      unfold Block.leafFromToken at this
      split at this <;> cases this
      exact ⟨rfl, rfl⟩
    have h2 := (pushToStack_new hQ (p := { p with openText := some t.ty }) hb'.1 hb'.2).mono (R := Rel Q p) fun _ h => h
    exact Ok.relBind h2 fun q _ => .pure fun h => ⟨h, .refl, rfl⟩

theorem pushBlocks_ok (b : Block) (l : List Block) (hb : Q b) (hs : b.isSection = false) (hl : ∀ x ∈ l, Q x) :
    Ok (Parser.pushBlocks b l) fun c => Q c ∧ c.isSection = false := by
  induction l generalizing b with
  | nil => exact .pure ⟨hb, hs⟩
  | cons x l ih =>
    refine .bind' fun b' hb' => ?_
    have h := liftB_ok hb'
    exact ih b' (hQ.push _ _ _ hb (hl x (by simp)) (by rw [hs]; simp) h) (push_children_nonsec h hs)
      (fun y hy => hl y (by simp [hy]))

theorem openParent_rel (p : Parser) (line : Nat) (b : Block) (hs : b.isSection = false) (hc : b.children = []) :
    Ok (p.openParent line b) (Rel Q p) := by
  unfold Parser.openParent
  exact (pushToStack_new hQ (p := { p with openLines := line :: p.openLines }) hs hc).mono fun _ h => h

omit hQ in
theorem splitFirst_eq {α : Type} {f : α → Bool} {l a b : List α} {x : α} (h : splitFirst f l = some (a, x, b)) :
    l = a ++ x :: b := by
  induction l generalizing a with
  | nil => cases h
  | cons y l ih =>
    unfold splitFirst at h
    split at h
    · cases h; rfl
    · split at h
      · rename_i heq; cases h; rw [ih heq]; rfl
      · cases h

theorem closeParentBlock_rel (p : Parser) (above below : List Block) (n : ParentName) (v : Option ParentVariant)
    (d : Str) (bs : List Block) (ti : List Inline) (m : Option Meta) (l loc : List Location)
    (heq : p.blocks = above ++ .parent n v d bs ti m l :: below) :
    Ok (p.closeParentBlock above below n v d bs ti m l loc) (Rel Q p) := by
  unfold Parser.closeParentBlock
  refine Ok.rel fun hp => ?_
  rw [heq] at hp
  have hpar : Q (.parent n v d bs ti m l) := hp.1 _ (by simp)
  have hbelow : StackOk Q below := by
    refine ⟨fun x hx => hp.1 x (by simp [hx]), ?_⟩
    have := hp.2.drop (above.length + 1)
    rw [show (above ++ .parent n v d bs ti m l :: below).drop (above.length + 1) = below by
      rw [← List.drop_drop]; simp] at this
    exact this
  refine .bind (addInlines_top hQ { p with blocks := above ++ below }) fun p1 h1 => ?_
  have hall : ∀ x ∈ p1.blocks, Q x := by
    have h0 : ∀ x ∈ above ++ below, Q x := fun x hx => hp.1 x (by
      rcases List.mem_append.1 hx with h | h <;> simp [h])
    obtain ⟨ht, _⟩ := h1
    generalize hl : p1.blocks = l1 at ht ⊢
    dsimp only at ht
    generalize ha : above ++ below = l0 at ht h0
    cases ht with
    | refl => exact h0
    | top hq _ =>
      intro x hx
      rcases List.mem_cons.1 hx with rfl | hx
      · exact hq (h0 _ (by simp))
      · exact h0 x (by simp [hx])
    | push hq _ =>
      intro x hx
      rcases List.mem_cons.1 hx with rfl | hx
      · exact hq
      · exact h0 x hx
  have hdrop : StackOk Q (p1.blocks.drop (p1.blocks.length - below.length)) := by
    refine ⟨fun x hx => hall x (List.mem_of_mem_drop hx), ?_⟩
    obtain ⟨ht, _⟩ := h1
    generalize hl : p1.blocks = l1 at ht ⊢
    dsimp only at ht
    generalize ha : above ++ below = l0 at ht
    have hbd : l0.drop (l0.length - below.length) = below := by rw [← ha]; simp
    cases ht with
    | refl => rw [hbd]; exact hbelow.2
    | @top a b r hq hs =>
      cases above with
      | nil =>
        simp only [List.nil_append] at ha
        have e : (b :: r).length - below.length = 0 := by rw [ha]; simp
        rw [e]
        have hb2 := hbelow.2
        rw [ha] at hb2
        exact Adj.top hb2 (by rw [isSection_congr hs]; exact id)
      | cons y above' =>
        simp only [List.cons_append, List.cons.injEq] at ha
        have e : (b :: r).length - below.length = above'.length + 1 := by rw [← ha.2]; simp; omega
        rw [e, List.drop_succ_cons, ← ha.2]
        simp only [List.drop_left]
        exact hbelow.2
    | @push b hq hs =>
      have e : (b :: l0).length - below.length = (l0.length - below.length) + 1 := by rw [← ha]; simp; omega
      rw [e, List.drop_succ_cons, hbd]; exact hbelow.2
  split
  · exact .error
  · refine .ite (fun _ => .error) (fun _ => ?_)
    refine .bind (pushBlocks_ok hQ _ _ (hQ.same _ _ hpar rfl rfl) rfl ?_) fun b hb => ?_
    · intro x hx
      exact hall x (List.mem_of_mem_take (List.mem_reverse.1 hx))
    · have ht : Ok (if b.isTable = true then b.tableInfo else .ok b) fun c => Q c ∧ c.isSection = false :=
        .ite (fun _ => fun c hc => ⟨hQ.same _ _ hb.1 (tableInfo_shape hc).1 (tableInfo_shape hc).2, by
          rw [isSection_congr (tableInfo_shape hc).1, hb.2]⟩) (fun _ => .pure hb)
      refine .bind ht fun c hc => .bind (P := Rel Q p) ?_ fun q hq => .pure fun h => hq h
      refine (pushToStack_rel hQ hc.1 (by rw [hc.2]; simp)).mono fun q hq _ => ?_
      have := hq hdrop
      rw [show Steps Q _ q.asg = Steps Q p1.asg q.asg from rfl, h1.2.1] at this
      exact ⟨this.1, this.2.1, this.2.2.trans h1.2.2⟩

theorem parseParent_rel (p : Parser) (t : Token) : Ok (p.parseParent t) (Rel Q p) := by
  unfold Parser.parseParent
  split
  · exact .error
  · dsimp only
    have hopen : ∀ b : Block, b.isSection = false → b.children = [] →
        Ok (openParent { p with dangling := none, title := none } t.line b) (Rel Q p) := fun b h1 h2 =>
      (openParent_rel hQ _ _ b h1 h2).mono fun _ h => h
    split
    · rename_i heq
      refine .ite (fun _ => ?_) (fun _ => hopen _ rfl rfl)
      exact (closeParentBlock_rel hQ { p with dangling := none, title := none } _ _ _ _ _ _ _ _ _ _ (splitFirst_eq heq)).mono
        fun _ h => h
    · exact hopen _ rfl rfl

theorem parseCommentBlock_rel (p : Parser) (t : Token) : Ok (p.parseCommentBlock t) (Rel Q p) := by
  unfold Parser.parseCommentBlock
  split
  · refine .ite (fun _ => .pure fun h => ⟨?_, .refl, rfl⟩) (fun _ => .pure (Rel.refl _))
    show StackOk Q p.blocks.tail
    cases hb : p.blocks with
    | nil => exact .nil
    | cons a r => rw [hb] at h; exact h.tail
  · exact parseLeaf_rel hQ p t

theorem parseQuoteVerse_rel (p : Parser) (t : Token) : Ok (p.parseQuoteVerse t) (Rel Q p) := by
  unfold Parser.parseQuoteVerse
  split
  · exact .ite (fun _ => parseLeaf_rel hQ p t) (fun _ => parseParent_rel hQ p t)
  · split
    · exact parseLeaf_rel hQ p t
    · exact parseParent_rel hQ p t

/-- The recursive calls keep the invariant. -/
def CallOk (Q : Block → Prop) (f : Token → Parser → M Parser) : Prop := ∀ t p, Ok (f t p) (Rel Q p)

omit hQ in
theorem feed_rel {f : Token → Parser → M Parser} (hf : CallOk Q f) (b : Bool) (items : List Item) (p : Parser) :
    Ok (feed f b items p) (Rel Q p) := by
  induction items generalizing p with
  | nil => exact .pure (Rel.refl p)
  | cons i items ih =>
    cases i with
    | tok t =>
      unfold feed
      refine Ok.relBind (hf t p) fun q _ => ?_
      refine (ih _).mono fun r hr => ?_
      cases b with
      | true => exact hr
      | false => exact hr
    | _ => exact .error

theorem parseTableCell_rel {f : Token → Parser → M Parser} (hf : CallOk Q f) (p : Parser) (t : Token) :
    Ok (p.parseTableCell f t) (Rel Q p) := by
  unfold Parser.parseTableCell
  refine .bind' fun _ _ => Ok.relBind (pushToStack_new hQ rfl rfl) fun p1 _ => ?_
  have hs : CallOk Q (fun (u : Token) (p : Parser) => (do
      let u' ← u.offsetBy t.line t.startcol
      f u' p : M Parser)) := fun u p => .bind' fun _ _ => hf _ _
  refine Ok.relBind (p := p1) ((feed_rel hs false _ { p1 with dangling := none }).mono fun _ h => h) fun p2 _ => ?_
  exact (addInlines_rel hQ { p2 with inBlockLine := false, forceNew := false }).mono fun _ h => h

omit hQ in
theorem selection_same (p : Parser) (m : Option Meta) :
    Ok (p.selection m) fun r => r.1.blocks = p.blocks ∧ r.1.asg = p.asg ∧ env r.1 = env p := by
  unfold Parser.selection
  split
  · exact .pure ⟨rfl, rfl, rfl⟩
  · refine .bind (P := fun q : Parser => q.blocks = p.blocks ∧ q.asg = p.asg ∧ env q = env p) ?_ fun q hq => ?_
    · split
      · exact levelOffset_same _ _
      · exact .pure ⟨rfl, rfl, rfl⟩
    · refine .bind' fun lt _ => ?_
      obtain ⟨lines, toEnd⟩ := lt
      exact .pure hq

omit hQ in
theorem includeToken_rel {f : Token → Parser → M Parser} (hf : CallOk Q f) (a : Bool) (t : Token) (p : Parser) :
    Ok (includeToken f a t p) (Rel Q p) := by
  unfold Parser.includeToken
  refine .ite (fun _ => ?_) (fun _ => ?_)
  · exact Ok.relBind (hf t p) fun q _ => .pure fun h => ⟨h, .refl, rfl⟩
  · exact (parseText_rel { p with lastTy := if t.ty = .eof then .eof else .text } t false).mono fun _ h => h

omit hQ in
theorem includeLoop_rel {f : Token → Parser → M Parser} (hf : CallOk Q f) (a e : Bool) (tags : List Str)
    (items : List Item) (lines : List Int) (cur : Option Str) (p : Parser) :
    Ok (includeLoop f a e tags items lines cur p) (Rel Q p) := by
  induction items generalizing lines cur p with
  | nil => exact .pure (Rel.refl p)
  | cons i items ih =>
    cases i with
    | tok t =>
      unfold includeLoop
      split
      · exact ih _ _ _
      · refine .bind' fun ck _ => ?_
        obtain ⟨cur', keep⟩ := ck
        dsimp only
        refine Ok.relBind (p := p) ?_ fun q _ => ih _ _ _
        exact .ite (fun _ => includeToken_rel hf _ _ _) (fun _ => .pure (Rel.refl p))
    | _ => exact .error

theorem parseInclude_rel {f : Token → Parser → M Parser} (hf : CallOk Q f) (w : World) (p : Parser) (t : Token) :
    Ok (p.parseInclude w f t) (Rel Q p) := by
  unfold Parser.parseInclude
  refine .bind' fun tm _ => ?_
  obtain ⟨target, m⟩ := tm
  dsimp only
  refine .bind (selection_same p m) fun ps hps => ?_
  obtain ⟨p1, sel⟩ := ps
  dsimp only at hps ⊢
  split
  · exact .error
  · split
    · exact .error
    · refine Ok.rel fun hp => ?_
      refine .bind (includeLoop_rel (Q := Q) hf _ _ _ _ _ _ _) fun p2 h2 => ?_
      refine .bind (addInlines_rel hQ p2) fun p3 h3 => .bind (drain_rel hQ _ _ p3) fun p4 h4 => .pure fun _ => ?_
      have := (h2.trans (h3.trans h4)) (show StackOk Q p1.blocks by rw [hps.1]; exact hp)
      refine ⟨this.1, ?_, ?_⟩
      · have h := this.2.1
        rw [show Steps Q _ p4.asg = Steps Q p1.asg p4.asg from rfl, hps.2.1] at h
        exact h
      · have e := this.2.2
        have e' := hps.2.2
        simp only [env, Prod.mk.injEq] at e e' ⊢
        rw [e.1, e.2, e'.1, e'.2]
        simp

theorem dispatchToken_rel {f : Token → Parser → M Parser} (hf : CallOk Q f) (w : World) (p : Parser) (t : Token) :
    Ok (p.dispatchToken w f t) (Rel Q p) := by
  unfold Parser.dispatchToken
  have hspan : Ok (do
      let s ← Inline.spanFromToken t
      p.parseSpan s : M Parser) (Rel Q p) := .bind' fun _ _ => parseSpan_rel _ _
  split
  all_goals first
    | exact .error
    | exact parseTitle_rel hQ p t
    | exact parseSection_rel hQ p t
    | exact parseAttribute_rel p t
    | exact parseBlockMeta_rel p t
    | exact parseInlineMeta_rel p t
    | exact parseNewLine_rel hQ p t
    | exact parseText_rel p t false
    | exact parseCharref_rel p t
    | exact hspan
    | exact parseAttrRef_rel p t
    | exact parseXref_rel p t
    | exact parseInclude_rel hQ hf w p t
    | exact parseFootnote_rel p t
    | exact parseInlineImage_rel p t
    | exact parseMacroClose_rel p t
    | exact addToStackOrGraph_rel hQ p _ (hQ.nonsec _ rfl rfl)
    | exact parseParent_rel hQ p t
    | exact parseTableCell_rel hQ hf p t
    | exact parseQuoteVerse_rel hQ p t
    | exact parseLeaf_rel hQ p t
    | exact parseCallout_rel p t
    | exact parseBlockImage_rel hQ w p t
    | exact parseUnordered_rel hQ p t
    | exact parseOrdered_rel hQ p t
    | exact parseDlistTerm_rel hQ p t
    | exact parseAdmonition_rel hQ p t
    | exact parseContinuation_rel hQ p
    | exact parseCommentBlock_rel hQ p t
    | exact .ite (fun _ => moveHeader_rel hQ p) (fun _ => .pure (Rel.refl p))
    | exact .pure (Rel.refl p)
    | exact .pure fun h => ⟨h, .refl, rfl⟩

theorem step_rel {f : Token → Parser → M Parser} (hf : CallOk Q f) (w : World) (t : Token) (p : Parser) :
    Ok (step w f t p) (Rel Q p) := by
  unfold Parser.step
  refine Ok.relBind (p := p) ?_ fun q _ => ?_
  · exact .ite (fun _ => moveHeader_rel hQ p) (fun _ => .pure (Rel.refl p))
  · split
    · exact parseText_rel _ _ _
    · exact dispatchToken_rel hQ hf w _ t

/-- The invariant for one token, with any number of nested includes. -/
theorem tokenInto_rel (w : World) (fuel : Nat) : CallOk Q (tokenInto w fuel) := by
  induction fuel with
  | zero => exact fun _ _ => .error
  | succ n ih => exact fun t p => step_rel hQ ih w t p

/-- The invariant for a token stream. -/
theorem feedAll_rel (w : World) (fuel : Nat) (items : List Item) (p : Parser) :
    Ok (feed (tokenInto w fuel) true items p) (Rel Q p) := feed_rel (tokenInto_rel hQ w fuel) _ _ _

/-- The invariant for `parse`, except for the final consolidation. -/
theorem parse_rel (w : World) (fuel : Nat) (items : List Item) (p : Parser) :
    Ok (parse w fuel items p) fun r => ∃ q, Rel Q p q ∧ r = { q with asg := q.asg.consolidate } := by
  unfold Parser.parse Parser.finish
  refine .bind (feedAll_rel hQ w fuel items p) fun p1 h1 => .bind (addInlines_rel hQ p1) fun p2 h2 =>
    .bind (drain_rel hQ _ _ p2) fun p3 h3 => .pure ⟨p3, h1.trans (h2.trans h3), rfl⟩

end
end Adoc
