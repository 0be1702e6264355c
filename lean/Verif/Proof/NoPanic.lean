import Verif.Proof.Steps
import Verif.Proof.Strings
/-!
# Handlers that return

A pass over the handlers of the parser for tokens that cannot make it panic.
-/
namespace Adoc

/-- `x` returns a value with `P`, or an error value. -/
def Ret {α : Type} (x : M α) (P : α → Prop) : Prop :=
  match x with
  | .ok a => P a
  | .error (.err _) => True
  | .error _ => False

namespace Ret
variable {α β : Type}

theorem pure {a : α} {P : α → Prop} (h : P a) : Ret (.ok a) P := h
theorem err {e : ParserError} {P : α → Prop} : Ret (.error (.err e)) P := trivial
theorem bind {x : M α} {f : α → M β} {P : α → Prop} {R : β → Prop} (hx : Ret x P) (hf : ∀ a, P a → Ret (f a) R) :
    Ret (x >>= f) R := by
  cases x with
  | ok a => exact hf a hx
  | error e => cases e <;> first | exact trivial | exact hx.elim
theorem ite {c : Prop} [Decidable c] {x y : M α} {P : α → Prop} (hx : c → Ret x P) (hy : ¬ c → Ret y P) :
    Ret (if c then x else y) P := by
  split
  · exact hx ‹_›
  · exact hy ‹_›
theorem mono {x : M α} {P R : α → Prop} (h : Ret x P) (hPR : ∀ a, P a → R a) : Ret x R := by
  cases x with
  | ok a => exact hPR a h
  | error e => cases e <;> first | exact trivial | exact h.elim
theorem liftB {x : Except BlockError α} {P : α → Prop} (h : ∀ a, x = .ok a → P a) : Ret (Block.liftB x) P := by
  cases x with
  | ok a => exact h a rfl
  | error e => trivial
theorem and {x : M α} {P R : α → Prop} (h : Ret x P) (h' : Ok x R) : Ret x fun a => P a ∧ R a := by
  cases x with
  | ok a => exact ⟨h, h' a rfl⟩
  | error e => cases e <;> first | exact trivial | exact h.elim
end Ret

open Block Parser

/-- Inlines that arise without spans and macros. -/
def simpleInline : Inline → Bool
  | .span .. => false
  | .ref _ _ is _ l => is.all Inline.isLiteral && !l.isEmpty
  | .lit _ _ l => !l.isEmpty
  | .brk l => !l.isEmpty

/-- What holds between any two tokens, in terms of the parts of the state. -/
structure BaseOf (c : Bool) (is : List Inline) (span cont : Bool) (bs : List Block) (data : Option Meta) (offset : Int) :
    Prop where
  inlines : ∀ i ∈ is, simpleInline i = true
  span : span = false
  cont : c = false → cont = false
  tables : ∀ b ∈ bs, b.isTable = false
  data : ∀ m, data = some m → m.declared = none
  offset : offset = 0

/-- What holds between any two tokens; `c` says whether block continuations are possible. -/
def Base (c : Bool) (p : Parser) : Prop := BaseOf c p.inlines p.inSpan p.inCont p.blocks p.data p.offset

/-- A next state. -/
def Nx (c : Bool) (p q : Parser) : Prop := Base c q ∧ q.openText = p.openText

variable {c : Bool}

theorem BaseOf.setInlines {is js : List Inline} {a b : Bool} {bs : List Block} {d : Option Meta} {o : Int}
    (h : BaseOf c is a b bs d o) (hj : ∀ i ∈ js, simpleInline i = true) : BaseOf c js a b bs d o :=
  ⟨hj, h.span, h.cont, h.tables, h.data, h.offset⟩
theorem BaseOf.noInlines {is : List Inline} {a b : Bool} {bs : List Block} {d : Option Meta} {o : Int}
    (h : BaseOf c is a b bs d o) : BaseOf c [] a b bs d o := h.setInlines (by simp)
theorem BaseOf.setBlocks {is : List Inline} {a b : Bool} {bs cs : List Block} {d : Option Meta} {o : Int}
    (h : BaseOf c is a b bs d o) (hc : ∀ x ∈ cs, x.isTable = false) : BaseOf c is a b cs d o :=
  ⟨h.inlines, h.span, h.cont, hc, h.data, h.offset⟩
theorem BaseOf.noCont {is : List Inline} {a b : Bool} {bs : List Block} {d : Option Meta} {o : Int}
    (h : BaseOf c is a b bs d o) : BaseOf c is a false bs d o :=
  ⟨h.inlines, h.span, fun _ => rfl, h.tables, h.data, h.offset⟩
theorem BaseOf.noData {is : List Inline} {a b : Bool} {bs : List Block} {d : Option Meta} {o : Int}
    (h : BaseOf c is a b bs d o) : BaseOf c is a b bs none o :=
  ⟨h.inlines, h.span, h.cont, h.tables, by simp, h.offset⟩

theorem mem_tail {α : Type} {P : α → Prop} {a : α} {l : List α} (h : ∀ x ∈ a :: l, P x) : ∀ x ∈ l, P x :=
  fun x hx => h x (by simp [hx])
theorem mem_cons' {α : Type} {P : α → Prop} {a : α} {l : List α} (ha : P a) (h : ∀ x ∈ l, P x) : ∀ x ∈ a :: l, P x := by
  intro x hx
  rcases List.mem_cons.1 hx with rfl | hx
  · exact ha
  · exact h x hx

/-! ## Shapes of blocks -/

theorem consolidate_table (b : Block) : b.consolidate.isTable = b.isTable := by cases b <;> rfl

theorem pushBlock_table {a b d : Block} (h : a.pushBlock b = .ok d) : d.isTable = a.isTable := by
  cases a <;> simp only [Block.pushBlock] at h
  case «section» =>
    split at h
    · simp only [bind, Except.bind] at h
      split at h
      · cases h
      · cases h; rw [consolidate_table]; rfl
    · cases h; rw [consolidate_table]; rfl
  case list => cases h; rw [consolidate_table]; rfl
  case dlist => cases h; rw [consolidate_table]; rfl
  case listItem => cases h; rw [consolidate_table]; rfl
  case dlistItem => cases h; rw [consolidate_table]; rfl
  case parent =>
    split at h
    · simp only [bind, Except.bind] at h
      split at h
      · cases h
      · cases h; rw [consolidate_table]; rfl
    · split at h
      · cases h
      · cases h; rw [consolidate_table]; rfl
  all_goals cases h

theorem pushInline_table {a d : Block} {i : Inline} (h : a.pushInline i = .ok d) : d.isTable = a.isTable := by
  cases a <;> simp only [Block.pushInline] at h <;> cases h <;> rfl

theorem addMeta_ret (b : Block) (m : Meta) : Ret (b.addMeta m) fun d => d.isTable = b.isTable := by
  unfold Block.addMeta
  refine .ite (fun _ => rfl) (fun _ => ?_)
  cases b <;> first | exact rfl | exact trivial

theorem pushInlines_ret (b : Block) (is : List Inline) : Ret (pushInlines b is) fun d => d.isTable = b.isTable := by
  induction is generalizing b with
  | nil => exact rfl
  | cons i is ih =>
    unfold pushInlines
    refine .bind (.liftB fun d hd => pushInline_table hd) fun d hd => ?_
    exact (ih d).mono fun e he => he.trans hd

theorem graphPush_ret {p : Parser} {b : Block} (h : Base c p) : Ret (p.graphPush b) (Nx c p) := by
  unfold Parser.graphPush
  split
  · exact ⟨h, rfl⟩
  · trivial

theorem pushToStack_ret {p : Parser} {b : Block} (h : Base c p) (hb : b.isTable = false) :
    Ret (p.pushToStack b) fun q => Nx c p q ∧ q.blocks ≠ [] ∧ q.inlines = p.inlines := by
  unfold Parser.pushToStack
  refine .ite (fun _ => ?_) (fun _ => ?_)
  · split
    · trivial
    · rename_i last rest heq
      refine .bind (.liftB fun d hd => pushBlock_table hd) fun d hd => .pure ?_
      have ht := h.tables
      rw [heq] at ht
      exact ⟨⟨BaseOf.noCont (BaseOf.setBlocks h (mem_cons' (hd.trans (ht _ (by simp))) (mem_tail ht))), rfl⟩, by simp, rfl⟩
  · split
    · refine .bind (addMeta_ret b _) fun d hd => .pure ?_
      exact ⟨⟨BaseOf.noData (BaseOf.setBlocks h (mem_cons' (hd.trans hb) h.tables)), rfl⟩, by simp, rfl⟩
    · exact ⟨⟨BaseOf.setBlocks h (mem_cons' hb h.tables), rfl⟩, by simp, rfl⟩

theorem simple_loc {i : Inline} (h : simpleInline i = true) : i.locations ≠ [] := by
  cases i <;> simp [simpleInline, Inline.locations] at h ⊢
  · exact h.2
  · exact h
  · exact h

theorem newParagraph_ret {p : Parser} (h : Base c p) (hi : p.inlines ≠ []) :
    Ret p.newParagraph fun q => Nx c p q ∧ q.blocks ≠ [] ∧ q.inlines = [] := by
  have h0 : Base c { p with inlines := [] } := BaseOf.noInlines h
  unfold Parser.newParagraph
  dsimp only
  refine .ite (fun _ => ?_) (fun _ => ?_)
  · split
    · trivial
    · rename_i last rest heq
      refine .bind (.liftB fun d hd => pushBlock_table hd) fun d hd => .pure ?_
      have ht := h.tables
      rw [heq] at ht
      exact ⟨⟨BaseOf.setBlocks h0 (mem_cons' (hd.trans (ht _ (by simp))) (mem_tail ht)), rfl⟩, by simp, rfl⟩
  · split
    · cases hr : p.inlines.reverse with
      | nil => exact absurd (by simpa using hr) hi
      | cons i is =>
        have hl := simple_loc (h.inlines i (by rw [← List.mem_reverse, hr]; simp))
        dsimp only
        cases hloc : i.locations with
        | nil => exact absurd hloc hl
        | cons l0 ls =>
          refine .ite (fun _ => ?_) (fun _ => pushToStack_ret h0 (by rfl))
          refine .bind (.liftB fun d hd => pushBlock_table hd) fun d hd => ?_
          exact pushToStack_ret h0 hd
    · exact pushToStack_ret h0 (by rfl)

theorem addInlines_ret {p : Parser} (h : Base c p) :
    Ret p.addInlines fun q => Nx c p q ∧ q.inlines = [] ∧ (p.blocks ≠ [] → q.blocks ≠ []) := by
  unfold Parser.addInlines
  refine .ite (fun he => ⟨⟨h, rfl⟩, by simpa using he, id⟩) (fun he => ?_)
  have hs : p.inSpan = false := h.span
  have hne : p.inlines ≠ [] := by simpa using he
  rw [hs]
  refine .bind (P := fun q => q = p) rfl fun q hq => ?_
  subst hq
  split
  · exact ⟨⟨BaseOf.noInlines h, rfl⟩, rfl, id⟩
  · split
    · rename_i last rest heq
      refine .ite (fun _ => ?_) (fun _ => (newParagraph_ret h hne).mono fun q hq => ⟨hq.1, hq.2.2, fun _ => hq.2.1⟩)
      refine .bind (pushInlines_ret last _) fun d hd => .pure ?_
      have ht := h.tables
      rw [heq] at ht
      exact ⟨⟨BaseOf.setBlocks (BaseOf.noInlines h) (mem_cons' (hd.trans (ht _ (by simp))) (mem_tail ht)), rfl⟩, rfl,
        fun _ => by simp⟩
    · exact (newParagraph_ret h hne).mono fun q hq => ⟨hq.1, hq.2.2, fun _ => hq.2.1⟩

theorem Nx.trans {p q r : Parser} (h : Nx c p q) (h' : Nx c q r) : Nx c p r := ⟨h'.1, h'.2.trans h.2⟩

theorem addLastItem_ret {p : Parser} (h : Base c p) (hb : p.blocks ≠ []) : Ret p.addLastItem (Nx c p) := by
  unfold Parser.addLastItem
  refine .bind (addInlines_ret (p := { p with forceNew := false }) h) fun q hq => ?_
  obtain ⟨⟨h1, ho⟩, _, hne⟩ := hq
  split
  · rename_i heq
    exact absurd heq (hne hb)
  · rename_i item rest heq
    have ht := h1.tables
    rw [heq] at ht
    refine .ite (fun _ => ?_) (fun _ => ?_)
    · split
      · exact ⟨BaseOf.setBlocks h1 (by simp), ho⟩
      · refine .bind (.liftB fun d hd => pushBlock_table hd) fun d hd => .pure ?_
        exact ⟨BaseOf.setBlocks h1 (mem_cons' (hd.trans (mem_tail ht _ (by simp))) (mem_tail (mem_tail ht))), ho⟩
    · exact (pushToStack_ret (p := { q with blocks := rest }) (BaseOf.setBlocks h1 (mem_tail ht)) (ht _ (by simp))).mono
        fun r hr => ⟨hr.1.1, hr.1.2.trans ho⟩

theorem addToStackOrGraph_ret {p : Parser} (b : Block) (h : Base c p) : Ret (p.addToStackOrGraph b) (Nx c p) := by
  unfold Parser.addToStackOrGraph
  have hg : Ret (match p.data with
    | some m => do
      let b' ← b.addMeta m
      graphPush { p with data := none } b'
    | none => p.graphPush b) (Nx c p) := by
    split
    · refine .bind (addMeta_ret b _) fun d _ => ?_
      exact graphPush_ret (p := { p with data := none }) (BaseOf.noData h)
    · exact graphPush_ret h
  dsimp only
  split
  · rename_i last rest heq
    refine .ite (fun _ => ?_) (fun _ => hg)
    refine .bind (.liftB fun d hd => pushBlock_table hd) fun d hd => .pure ?_
    have ht := h.tables
    rw [heq] at ht
    exact ⟨BaseOf.setBlocks h (mem_cons' (hd.trans (ht _ (by simp))) (mem_tail ht)), rfl⟩
  · exact hg

theorem addLastToStackOrGraph_ret {p : Parser} (h : Base c p) : Ret p.addLastToStackOrGraph (Nx c p) := by
  unfold Parser.addLastToStackOrGraph
  split
  · trivial
  · exact graphPush_ret (p := { p with blocks := [] }) (BaseOf.setBlocks h (by simp))
  · rename_i b prior rest heq
    have ht := h.tables
    rw [heq] at ht
    refine .ite (fun _ => ?_)
      (fun _ => graphPush_ret (p := { p with blocks := prior :: rest }) (BaseOf.setBlocks h (mem_tail ht)))
    refine .bind (.liftB fun d hd => pushBlock_table hd) fun d hd => .pure ?_
    exact ⟨BaseOf.setBlocks h (mem_cons' (hd.trans (mem_tail ht _ (by simp))) (mem_tail (mem_tail ht))), rfl⟩

theorem addLastToGraph_ret {p : Parser} (h : Base c p) : Ret p.addLastToGraph (Nx c p) := by
  unfold Parser.addLastToGraph
  split
  · exact ⟨h, rfl⟩
  · rename_i b rest heq
    have ht := h.tables
    rw [heq] at ht
    have h1 : Ret (match p.data with
      | some m => b.addMeta m
      | none => .ok b) fun _ => True := by
      split
      · exact (addMeta_ret b _).mono fun _ _ => trivial
      · exact .pure trivial
    refine .bind h1 fun d _ => ?_
    have hb : Base c { p with data := none, blocks := rest } := BaseOf.noData (BaseOf.setBlocks h (mem_tail ht))
    dsimp only
    split
    · refine .ite (fun _ => ?_) (fun _ => graphPush_ret hb)
      refine .bind (.liftB fun d hd => pushBlock_table hd) fun d hd => .pure ?_
      exact ⟨BaseOf.setBlocks hb (mem_cons' (hd.trans (mem_tail ht _ (by simp))) (mem_tail (mem_tail ht))), rfl⟩
    · exact graphPush_ret hb

theorem drain_ret (n fuel : Nat) {p : Parser} (h : Base c p) : Ret (drain n fuel p) (Nx c p) := by
  induction fuel generalizing p with
  | zero => exact ⟨h, rfl⟩
  | succ k ih =>
    unfold drain
    refine .ite (fun _ => ?_) (fun _ => ⟨h, rfl⟩)
    refine .bind (addLastToGraph_ret h) fun q hq => ?_
    exact (ih hq.1).mono fun r hr => hq.trans hr

theorem moveHeader_ret {p : Parser} (h : Base c p) : Ret p.moveHeader (Nx c p) := by
  unfold Parser.moveHeader
  refine .bind (addInlines_ret h) fun q hq => ?_
  split
  · exact .ite (fun _ => ⟨hq.1.1, hq.1.2⟩) (fun _ => ⟨hq.1.1, hq.1.2⟩)
  · exact hq.1

/-! ## Handlers -/

theorem parseAttribute_ret {p : Parser} {t : Token} (h : Base c p) (ht : t.text ≠ [])
    (hk : (splitOnB c!":" t.text)[1]? ≠ some b!"leveloffset") : Ret (p.parseAttribute t) (Nx c p) := by
  have h1 : splitTerminatorB c!":" t.text ≠ [] := by
    unfold splitTerminatorB
    have hj := joinB_splitOnB c!":" t.text
    generalize splitOnB c!":" t.text = l at hj
    intro he
    dsimp only at he
    split at he
    · match l with
      | [] => exact ht hj.symm
      | [x] => simp_all [joinB]
      | x :: y :: r => simp at he
    · subst he; exact ht hj.symm
  have h2 : (splitTerminatorB c!":" t.text)[1]? ≠ some b!"leveloffset" := by
    unfold splitTerminatorB
    dsimp only
    split
    · rw [List.getElem?_dropLast]
      split
      · exact hk
      · simp
    · exact hk
  unfold Parser.parseAttribute
  split
  · rename_i he; exact absurd he h1
  · exact ⟨h, rfl⟩
  · rename_i x key more he
    rw [he] at h2
    have : key ≠ b!"leveloffset" := by simpa using h2
    dsimp only
    rw [if_neg this]
    exact ⟨h, rfl⟩

theorem parseBlockMeta_ret {p : Parser} {t : Token} (h : Base c p) (hty : t.ty = .blockAnchor)
    (hs : (slice t.lexeme 2 (t.lexeme.length - 2)).isSome) : Ret (p.parseBlockMeta t) (Nx c p) := by
  have hsl : ∃ x, sliceM t.lexeme 2 (t.lexeme.length - 2) = .ok x := by
    unfold sliceM
    cases h' : slice t.lexeme 2 (t.lexeme.length - 2) with
    | none => rw [h'] at hs; cases hs
    | some x => exact ⟨x, rfl⟩
  obtain ⟨x, hx⟩ := hsl
  unfold Parser.parseBlockMeta
  have h1 : Ret (match p.data with
    | some m => m.addFromToken t
    | none => Meta.blockFromToken t) fun m => m.declared = none := by
    split
    · rename_i m hm
      have := h.data m hm
      unfold Meta.addFromToken
      simp only [hty, if_true, hx, bind, Except.bind]
      split <;> exact this
    · unfold Meta.blockFromToken
      simp only [hty, if_true, hx, bind, Except.bind]
      exact rfl
  refine .bind h1 fun m hm => .pure ⟨?_, rfl⟩
  exact ⟨h.inlines, h.span, h.cont, h.tables, fun m' hm' => by cases hm'; exact hm, h.offset⟩

theorem blankLine_ret {p : Parser} (h : Base c p) : Ret p.blankLine (Nx c p) := by
  unfold Parser.blankLine
  dsimp only
  split
  · exact moveHeader_ret (p := { p with dangling := none }) h
  · have h1 : Ret (match p.blocks with
      | b :: _ => if b.isAnyItem then addLastItem { p with dangling := none } else .ok { p with dangling := none }
      | [] => .ok { p with dangling := none }) (Nx c p) := by
      split
      · rename_i heq
        exact .ite (fun _ => addLastItem_ret (p := { p with dangling := none }) h (by simp [heq])) (fun _ => ⟨h, rfl⟩)
      · exact ⟨h, rfl⟩
    refine .bind h1 fun p1 hp1 => ?_
    have h1' : Base c { p1 with inSpan := false } := ⟨hp1.1.inlines, rfl, hp1.1.cont, hp1.1.tables, hp1.1.data, hp1.1.offset⟩
    refine .bind (addInlines_ret h1') fun p2 hp2 => ?_
    have ho : p2.openText = p.openText := hp2.1.2.trans hp1.2
    split
    · exact ⟨hp2.1.1, ho⟩
    · rename_i b rest heq
      have heq : p2.blocks = b :: rest := heq
      have ht := hp2.1.1.tables
      rw [heq] at ht
      have hb : Base c { p2 with forceNew := true, blocks := rest } := BaseOf.setBlocks hp2.1.1 (mem_tail ht)
      refine .ite (fun _ => ?_) (fun _ => (pushToStack_ret hb (ht _ (by simp))).mono fun r hr => ⟨hr.1.1, hr.1.2.trans ho⟩)
      refine .bind (addToStackOrGraph_ret b hb) fun p3 hp3 => .ite (fun _ => ?_) (fun _ => ⟨hp3.1, hp3.2.trans ho⟩)
      refine .bind (addLastToStackOrGraph_ret hp3.1) fun p4 hp4 => .pure ⟨hp4.1, (hp4.2.trans hp3.2).trans ho⟩

theorem parseNewLine_ret {p : Parser} (t : Token) (h : Base c p) : Ret (p.parseNewLine t) (Nx c p) := by
  unfold Parser.parseNewLine
  extract_lets p0 p1
  have hs : Base c p1 ∧ p1.openText = p.openText := by
    simp only [p1, p0]
    split
    · exact ⟨BaseOf.noInlines h, rfl⟩
    · exact ⟨h, rfl⟩
  refine .ite (fun _ => ?_) (fun _ => .ite (fun _ => ⟨hs.1, hs.2⟩) (fun _ => ⟨hs.1, hs.2⟩))
  exact (blankLine_ret hs.1).mono fun q hq => ⟨hq.1, hq.2.trans hs.2⟩

theorem pushNew_ret {p : Parser} {b : Block} (h : Base c p) (hb : b.isTable = false) : Ret (p.pushToStack b) (Nx c p) :=
  (pushToStack_ret h hb).mono fun _ hq => hq.1

theorem parseDlistTerm_ret {p : Parser} (t : Token) (h : Base c p) : Ret (p.parseDlistTerm t) (Nx c p) := by
  unfold Parser.parseDlistTerm
  dsimp only
  have h1 : Ret (match splitFirst Inline.isNewline p.inlines.reverse with
    | some (before, _, after) => do
      let p ← addInlines { p with forceNew := false, inlines := before.reverse }
      .ok { p with inlines := after.reverse ++ p.inlines }
    | none => .ok { p with forceNew := false }) (Nx c p) := by
    split
    · rename_i before x after heq
      have hm := splitFirst_eq heq
      have hsub : ∀ i, i ∈ before ∨ i ∈ after → simpleInline i = true := by
        intro i hi
        refine h.inlines i ?_
        rw [← List.mem_reverse, hm]
        rcases hi with hi | hi <;> simp [hi]
      have hb : Base c { p with forceNew := false, inlines := before.reverse } :=
        BaseOf.setInlines h fun i hi => hsub i (.inl (by simpa using hi))
      refine .bind (addInlines_ret hb) fun q hq => .pure ⟨?_, hq.1.2⟩
      refine BaseOf.setInlines hq.1.1 fun i hi => ?_
      rw [hq.2.1] at hi
      exact hsub i (.inr (by simpa using hi))
    · exact ⟨h, rfl⟩
  refine .bind h1 fun p1 hp1 => ?_
  have hb : Base c { p1 with inlines := [] } := BaseOf.noInlines hp1.1
  have h2 : ∀ loc, Ret (match p1.blocks with
    | b :: _ => if b.isDlistItem then addLastItem { p1 with inlines := [] }
        else pushToStack { p1 with inlines := [] } (.dlist [] none loc)
    | [] => pushToStack { p1 with inlines := [] } (.dlist [] none loc)) (Nx c p1) := by
    intro loc
    split
    · rename_i heq
      exact .ite (fun _ => addLastItem_ret hb (by simp [heq])) (fun _ => pushNew_ret hb rfl)
    · exact pushNew_ret hb rfl
  refine .bind (h2 _) fun p2 hp2 => .bind (pushNew_ret hp2.1 rfl) fun p3 hp3 => ?_
  exact .pure ⟨hp3.1, hp3.2.trans (hp2.2.trans hp1.2)⟩

theorem parseOrdered_ret {p : Parser} (t : Token) (h : Base c p) : Ret (p.parseOrdered t) (Nx c p) := by
  unfold Parser.parseOrdered
  extract_lets p0 newList
  have h0 : Base c p0 := h
  have hn : ∀ p1, Base c p1 → Ret (newList p1) (Nx c p1) := by
    intro p1 hp1
    refine .ite (fun _ => ?_) (fun _ => pushNew_ret hp1 rfl)
    refine .bind (P := Nx c p1) ?_ fun q hq => (pushNew_ret hq.1 rfl).mono fun r hr => hq.trans hr
    split
    · exact .ite (fun _ => addLastToStackOrGraph_ret hp1) (fun _ => ⟨hp1, rfl⟩)
    · exact ⟨hp1, rfl⟩
  clear_value newList
  refine .bind (P := Nx c p) ?_ fun q hq => (pushNew_ret hq.1 rfl).mono fun r hr => hq.trans hr
  split
  · rename_i heq
    exact .ite (fun _ => addLastItem_ret h0 (by simp [heq])) (fun _ => hn _ h0)
  · exact hn _ h0

theorem parseUnordered_ret {p : Parser} (t : Token) (h : Base c p) : Ret (p.parseUnordered t) (Nx c p) := by
  unfold Parser.parseUnordered
  dsimp only
  have h0 : Base c { p with dangling := none } := h
  refine .bind (P := Nx c p) ?_ fun q hq => (pushNew_ret hq.1 rfl).mono fun r hr => hq.trans hr
  split
  · rename_i heq
    exact .ite (fun _ => addLastItem_ret h0 (by simp [heq])) (fun _ => pushNew_ret h0 rfl)
  · exact pushNew_ret h0 rfl

theorem headingLevel_ret {p : Parser} (t : Token) (h : p.offset = 0) : Ret (p.headingLevel t) fun _ => True := by
  unfold Parser.headingLevel
  split
  · trivial
  · rename_i b heq
    have hb : b ≤ 4 := by
      unfold baseLevel at heq
      split at heq <;> simp at heq <;> omega
    dsimp only
    rw [h]
    refine .ite (fun h' => by omega) (fun _ => .ite (fun _ => trivial) (fun _ => trivial))

theorem parseSection_ret {p : Parser} (t : Token) (h : Base c p) : Ret (p.parseSection t) (Nx c p) := by
  unfold Parser.parseSection
  refine .bind (headingLevel_ret t h.offset) fun v _ => ?_
  refine .bind (P := Nx c p) ?_ fun q hq => ?_
  · split
    · exact .ite (fun _ => addLastToStackOrGraph_ret h) (fun _ => ⟨h, rfl⟩)
    · exact ⟨h, rfl⟩
  · exact .bind (pushNew_ret hq.1 rfl) fun r hr => .pure ⟨hr.1, hr.2.trans hq.2⟩

theorem parseTitle_ret {p : Parser} (t : Token) (h : Base c p) : Ret (p.parseTitle t) (Nx c p) := by
  unfold Parser.parseTitle
  exact .ite (fun _ => parseSection_ret t h) (fun _ => .ite (fun _ => ⟨h, rfl⟩) (fun _ => trivial))

theorem parseAdmonition_ret {p : Parser} (t : Token) (h : Base c p) (ht : t.ty ≠ .table) :
    Ret (p.parseAdmonition t) (Nx c p) := by
  unfold Parser.parseAdmonition
  refine .bind (P := fun b => b.isTable = false) (.liftB fun b hb => ?_) fun b hb => ?_
  · unfold Block.parentFromToken at hb
    split at hb
    · rename_i n v heq
      cases hb
      simp only [Block.isTable, decide_eq_false_iff_not]
      intro hn
      subst hn
      unfold Block.parentKind at heq
      split at heq <;> simp_all
    · cases hb
  · exact .pure ⟨BaseOf.setBlocks h (mem_cons' hb h.tables), rfl⟩

theorem parseContinuation_ret {p : Parser} (h : Base true p) : Ret p.parseContinuation (Nx true p) := by
  unfold Parser.parseContinuation
  refine .bind (addInlines_ret h) fun q hq => .pure ⟨?_, hq.1.2⟩
  exact ⟨hq.1.1.inlines, hq.1.1.span, by simp, hq.1.1.tables, hq.1.1.data, hq.1.1.offset⟩

/-! ## Inlines -/

theorem lits_refAddText (is : List Inline) (t : Token) (pass : Bool) (h : is.all Inline.isLiteral = true) :
    ∃ js, Inline.refAddText is t pass = .ok js ∧ js.all Inline.isLiteral = true := by
  induction is with
  | nil => exact ⟨_, rfl, rfl⟩
  | cons x xs ih =>
    simp only [List.all_cons, Bool.and_eq_true] at h
    cases xs with
    | nil => cases x <;> first | exact ⟨_, rfl, rfl⟩ | (simp [Inline.isLiteral] at h)
    | cons y ys =>
      obtain ⟨js, h1, h2⟩ := ih h.2
      refine ⟨x :: js, ?_, by simp [h.1, h2]⟩
      cases x <;> first
        | (simp [Inline.isLiteral] at h; done)
        | (simp only [Inline.refAddText, h1, bind, Except.bind, Pure.pure, Except.pure])

theorem addText_ret {p : Parser} (t : Token) (pass : Bool) (h : Base c p) : Ret (p.addText t pass)
    fun q => Nx c p q ∧ q.blocks = p.blocks ∧ q.data = p.data := by
  have hlit : ∀ x : Str, simpleInline (.lit .text x t.locations) = true := by
    intro x; simp [simpleInline, tokLoc_ne]
  have hset : ∀ is, (∀ i ∈ is, simpleInline i = true) → Nx c p { p with inlines := is } := fun is his =>
    ⟨BaseOf.setInlines h his, rfl⟩
  have hi := h.inlines
  unfold Parser.addText
  dsimp only
  split
  · exact ⟨hset _ (mem_cons' (hlit _) (by simp)), rfl, rfl⟩
  · rename_i heq
    rw [heq] at hi
    have := hi _ List.mem_cons_self
    simp [simpleInline] at this
  · rename_i n v l rest heq
    rw [heq] at hi
    refine .ite (fun _ => ⟨hset _ (mem_cons' (hlit _) hi), rfl, rfl⟩) (fun _ => ⟨hset _ (mem_cons' ?_ (mem_tail hi)), rfl, rfl⟩)
    have : l ≠ [] := simple_loc (hi _ List.mem_cons_self)
    simpa [simpleInline, Inline.litAdd] using reconcile_ne _ _ this
  · rename_i v g is m l rest heq
    rw [heq] at hi
    refine .ite (fun _ => ⟨hset _ (mem_cons' (hlit _) hi), rfl, rfl⟩) (fun _ => ?_)
    have h1 := hi _ List.mem_cons_self
    simp only [simpleInline, Bool.and_eq_true] at h1
    obtain ⟨js, h2, h3⟩ := lits_refAddText is t pass h1.1
    rw [h2]
    exact ⟨hset _ (mem_cons' (by simpa [simpleInline, h3] using h1.2) (mem_tail hi)), rfl, rfl⟩
  · rename_i l rest heq
    rw [heq] at hi
    exact ⟨hset _ (mem_cons' (hlit _) hi), rfl, rfl⟩

theorem parseText_ret {p : Parser} (t : Token) (pass : Bool) (h : Base c p) : Ret (p.parseText t pass)
    fun q => Nx c p q ∧ q.blocks = p.blocks ∧ q.data = p.data := by
  have htok : ∀ u : Token, simpleInline (Inline.textFromToken u) = true ∧ simpleInline (Inline.passFromToken u) = true := by
    intro u; simp [simpleInline, Inline.textFromToken, Inline.passFromToken, tokLoc_ne]
  unfold Parser.parseText
  split
  · refine .ite (fun _ => ⟨⟨BaseOf.setInlines h ?_, rfl⟩, rfl, rfl⟩) (fun _ => ?_)
    · refine mem_cons' ?_ (mem_cons' (htok _).1 h.inlines)
      split
      · exact (htok t).2
      · exact (htok t).1
    · refine .bind (addText_ret _ false h) fun q hq => ?_
      refine (addText_ret (p := { q with dangling := none }) t pass hq.1.1).mono fun r hr => ?_
      exact ⟨⟨hr.1.1, hr.1.2.trans hq.1.2⟩, hr.2.1.trans hq.2.1, hr.2.2.trans hq.2.2⟩
  · exact addText_ret t pass h

theorem parseTextNx {p : Parser} (t : Token) (pass : Bool) (h : Base c p) : Ret (p.parseText t pass) (Nx c p) :=
  (parseText_ret t pass h).mono fun _ hq => hq.1

theorem sliceM_ok {s : Str} {i j : Nat} (h : (slice s i j).isSome) : ∃ x, sliceM s i j = .ok x := by
  unfold sliceM
  cases h' : slice s i j with
  | none => rw [h'] at h; cases h
  | some x => exact ⟨x, rfl⟩

theorem parseAttrRef_ret {p : Parser} (t : Token) (h : Base c p) (hs : (slice t.text 1 (t.text.length - 1)).isSome)
    (hc : t.startcol ≠ 0) : Ret (p.parseAttrRef t) (Nx c p) := by
  obtain ⟨x, hx⟩ := sliceM_ok hs
  unfold Parser.parseAttrRef
  rw [hx]
  refine .bind (P := fun _ => True) trivial fun y _ => ?_
  split
  · exact .ite (fun h' => absurd h' (by omega)) (fun _ => parseTextNx _ _ h)
  · exact parseTextNx _ _ h

theorem parseXref_ret {p : Parser} (t : Token) (h : Base c p) (hs : (slice t.text 2 (t.text.length - 2)).isSome) :
    Ret (p.parseXref t) (Nx c p) := by
  obtain ⟨x, hx⟩ := sliceM_ok hs
  unfold Parser.parseXref Inline.xrefFromToken
  rw [hx]
  exact ⟨BaseOf.setInlines h (mem_cons' (by simp [simpleInline, tokLoc_ne]) h.inlines), rfl⟩

theorem addCharref_ret {p : Parser} (t : Token) (h : Base c p) : Ret (p.addCharref (Inline.charrefFromToken t)) (Nx c p) := by
  have hx : simpleInline (Inline.charrefFromToken t) = true := by simp [simpleInline, Inline.charrefFromToken, tokLoc_ne]
  have hi := h.inlines
  unfold Parser.addCharref
  split
  · rename_i heq
    rw [heq] at hi
    have := hi _ List.mem_cons_self
    simp [simpleInline] at this
  · rename_i v g is m l rest heq
    rw [heq] at hi
    refine .ite (fun _ => ⟨BaseOf.setInlines h (mem_cons' hx hi), rfl⟩)
      (fun _ => ⟨BaseOf.setInlines h (mem_cons' ?_ (mem_tail hi)), rfl⟩)
    have h1 := hi _ List.mem_cons_self
    simpa [simpleInline, Inline.charrefFromToken, Inline.isLiteral] using h1
  · exact ⟨BaseOf.setInlines h (mem_cons' hx hi), rfl⟩

theorem parseCharref_ret {p : Parser} (t : Token) (h : Base c p) : Ret (p.parseCharref t) (Nx c p) := by
  have hx : simpleInline (Inline.charrefFromToken t) = true := by simp [simpleInline, Inline.charrefFromToken, tokLoc_ne]
  unfold Parser.parseCharref
  dsimp only
  split
  · refine .ite (fun _ => ⟨BaseOf.setInlines h (mem_cons' hx (mem_cons' ?_ h.inlines)), rfl⟩) (fun _ => ?_)
    · simp [simpleInline, Inline.textFromToken, tokLoc_ne]
    · refine .bind (addText_ret _ false h) fun q hq => ?_
      exact (addCharref_ret (p := { q with dangling := none }) t hq.1.1).mono fun r hr => ⟨hr.1, hr.2.trans hq.1.2⟩
  · exact addCharref_ret t h

/-! ## Delimited blocks -/

/-- The token types that delimit verbatim blocks. -/
def isVerb : TokenType → Bool
  | .passthroughBlock | .literalBlock | .sourceBlock | .commentBlock => true
  | _ => false

/-- The top of the stack is a leaf block. -/
def TopLeaf (p : Parser) : Prop := ∃ n f d is m l rest, p.blocks = .leaf n f d is m l :: rest

/-- Inside a verbatim block. -/
def Shut (p : Parser) : Prop :=
  Base false p ∧ p.data = none ∧ TopLeaf p ∧ ∃ ty, p.openText = some ty ∧ isVerb ty = true

theorem pushToStack_plain {p : Parser} {b : Block} (h : Base false p) (hd : p.data = none) :
    p.pushToStack b = .ok { p with blocks := b :: p.blocks } := by
  have hc : p.inCont = false := h.cont rfl
  unfold Parser.pushToStack
  rw [hc, hd]
  rfl

theorem addInlines_leaf {p : Parser} (h : Base false p) (hd : p.data = none) (ht : TopLeaf p) :
    Ret p.addInlines fun q => Base false q ∧ q.data = none ∧ TopLeaf q := by
  obtain ⟨n, f, d, is, m, l, rest, hb⟩ := ht
  have hnew : p.inlines ≠ [] → Ret p.newParagraph fun q => Base false q ∧ q.data = none ∧ TopLeaf q := by
    intro _
    have h0 : Base false { p with inlines := [] } := BaseOf.noInlines h
    have hc : p.inCont = false := h.cont rfl
    unfold Parser.newParagraph
    dsimp only
    refine .ite (fun h' => by rw [hc] at h'; simp at h') (fun _ => ?_)
    split
    · rename_i hm
      rw [hd] at hm; cases hm
    · rw [pushToStack_plain h0 hd]
      exact ⟨BaseOf.setBlocks h0 (mem_cons' rfl h.tables), hd, _, _, _, _, _, _, _, rfl⟩
  unfold Parser.addInlines
  refine .ite (fun _ => ⟨h, hd, _, _, _, _, _, _, _, hb⟩) (fun he => ?_)
  have hs : p.inSpan = false := h.span
  have hne : p.inlines ≠ [] := by simpa using he
  rw [hs]
  refine .bind (P := fun q => q = p) rfl fun q hq => ?_
  subst hq
  split
  · exact ⟨BaseOf.noInlines h, hd, _, _, _, _, _, _, _, hb⟩
  · rw [hb]
    dsimp only
    refine .ite (fun _ => ?_) (fun _ => hnew hne)
    rw [pushInlines_leaf]
    have ht := h.tables
    rw [hb] at ht
    exact ⟨BaseOf.setBlocks (BaseOf.noInlines h) (mem_cons' rfl (mem_tail ht)), hd, _, _, _, _, _, _, _, rfl⟩

theorem leaf_open {p : Parser} (t : Token) (h : Base false p) (ho : p.openText = none) (ht : isVerb t.ty = true) :
    Ret (p.parseLeaf t) Shut := by
  have hl : ∃ n, Block.leafFromToken t = .ok (.leaf n .delimited (some t.text) [] none t.locations) := by
    unfold Block.leafFromToken
    revert ht
    cases t.ty <;> intro ht <;> first | exact ⟨_, rfl⟩ | cases ht
  obtain ⟨n, hl⟩ := hl
  have hc : p.inCont = false := h.cont rfl
  unfold Parser.parseLeaf
  rw [ho, hl]
  dsimp only
  refine .bind (P := fun b => b = .leaf n .delimited (some t.text) [] none t.locations) (by exact rfl) fun b hb => ?_
  subst hb
  refine .bind (P := Shut) ?_ fun q hq => .pure hq
  unfold Parser.pushToStack
  refine .ite (fun h' => by have : (p.inCont && p.openLines.isEmpty) = true := h'; rw [hc] at this; simp at this) (fun _ => ?_)
  split
  · rename_i m hm
    have h1 : ∃ m', Block.addMeta (.leaf n .delimited (some t.text) [] none t.locations) m
        = .ok (.leaf n .delimited (some t.text) [] m' t.locations) := by
      unfold Block.addMeta; split
      · exact ⟨_, rfl⟩
      · exact ⟨_, rfl⟩
    obtain ⟨m', h1⟩ := h1
    rw [h1]
    exact ⟨BaseOf.noData (BaseOf.setBlocks h (mem_cons' rfl h.tables)), rfl, ⟨_, _, _, _, _, _, _, rfl⟩, _, rfl, ht⟩
  · rename_i hm
    exact ⟨BaseOf.setBlocks h (mem_cons' rfl h.tables), hm, ⟨_, _, _, _, _, _, _, rfl⟩, _, rfl, ht⟩

theorem leaf_close {p : Parser} (t : Token) (h : Shut p) :
    Ret (p.parseLeaf t) fun q => Base false q ∧ q.openText = none := by
  obtain ⟨h1, hd, htop, ty, ho, hv⟩ := h
  unfold Parser.parseLeaf
  rw [ho]
  refine .bind (addInlines_leaf h1 hd htop) fun q hq => ?_
  obtain ⟨hq1, hqd, n, f, d, is, m, l, rest, hb⟩ := hq
  rw [hb]
  have ht := hq1.tables
  rw [hb] at ht
  dsimp only [Block.addLocations]
  refine .bind (P := fun b => b = .leaf n f d is m (reconcile l t.locations)) (by exact rfl) fun b hb => ?_
  subst hb
  rw [pushToStack_plain (by exact BaseOf.setBlocks hq1 (mem_tail ht)) (by exact hqd)]
  exact .pure ⟨BaseOf.setBlocks hq1 (mem_cons' rfl (mem_tail ht)), rfl⟩

theorem pushBlocks_ret (b : Block) (l : List Block) : Ret (pushBlocks b l) fun d => d.isTable = b.isTable := by
  induction l generalizing b with
  | nil => exact rfl
  | cons x xs ih =>
    unfold pushBlocks
    refine .bind (.liftB fun d hd => pushBlock_table hd) fun d hd => ?_
    exact (ih d).mono fun e he => he.trans hd

theorem closeParentBlock_ret {p : Parser} (above below : List Block) (n : ParentName) (v : Option ParentVariant)
    (d : Str) (bs : List Block) (ti : List Inline) (m : Option Meta) (l loc : List Location) (h : Base c p)
    (hab : ∀ b ∈ above ++ below, b.isTable = false) (hn : n ≠ .table) :
    Ret (p.closeParentBlock above below n v d bs ti m l loc) (Nx c p) := by
  unfold Parser.closeParentBlock
  have h0 : Base c { p with blocks := above ++ below } := BaseOf.setBlocks h hab
  refine .bind (addInlines_ret h0) fun q hq => ?_
  split
  · trivial
  · refine .ite (fun _ => trivial) (fun _ => ?_)
    dsimp only
    refine .bind (pushBlocks_ret _ _) fun b hb => ?_
    have hbt : b.isTable = false := by rw [hb]; simp [Block.isTable, hn]
    rw [hbt]
    refine .bind (P := fun b' => b' = b) rfl fun b' hb' => ?_
    subst hb'
    rename_i lines heq _
    refine .bind (pushNew_ret (c := c) ?_ hbt) fun r hr => .pure ⟨BaseOf.noCont hr.1, hr.2.trans hq.1.2⟩
    exact BaseOf.setBlocks hq.1.1 fun x hx => hq.1.1.tables x (List.mem_of_mem_drop hx)

theorem parseParent_ret {p : Parser} (t : Token) (h : Base c p) (hty : t.ty ≠ .table) : Ret (p.parseParent t) (Nx c p) := by
  unfold Parser.parseParent
  split
  · trivial
  · rename_i n' v' heq
    have hn' : n' ≠ .table := by
      intro hn
      subst hn
      unfold Block.parentKind at heq
      split at heq <;> simp_all
    dsimp only
    have hopen : Ret (openParent { p with dangling := none, title := none } t.line
        (.parent n' v' t.text [] (p.title.getD []) none t.locations)) (Nx c p) := by
      unfold Parser.openParent
      exact pushNew_ret (c := c) (p := { p with dangling := none, title := none, openLines := t.line :: p.openLines }) h
        (by simp [Block.isTable, hn'])
    split
    · rename_i above n v d bs ti m l below hsp
      refine .ite (fun _ => ?_) (fun _ => hopen)
      have hm := splitFirst_eq hsp
      have ht := h.tables
      refine closeParentBlock_ret (c := c) (p := { p with dangling := none, title := none }) above below n v d bs ti m l _ h ?_ ?_
      · intro b hb
        refine ht b ?_
        rw [show p.blocks = _ from hm]
        rcases List.mem_append.1 hb with hb | hb <;> simp [hb]
      · have := ht (.parent n v d bs ti m l) (by rw [show p.blocks = _ from hm]; simp)
        simpa [Block.isTable] using this
    · exact hopen

end Adoc
