import Verif.Proof.DocxFlow
/-!
# List numbers and paragraph roles in the Word writer
-/
namespace Adoc.Docx

open Word

/-! ## Numbers -/

/-- The numbers that steps give to paragraphs, and the counter after them. -/
def nums : Nat → List Op → List Nat × Nat
  | n, [] => ([], n)
  | n, .list _ :: os => nums (n + 1) os
  | n, .item _ :: os => let r := nums n os; (n :: r.1, r.2)
  | n, _ :: os => nums n os

theorem nums_append (n : Nat) (a b : List Op) :
    nums n (a ++ b) = ((nums n a).1 ++ (nums (nums n a).2 b).1, (nums (nums n a).2 b).2) := by
  induction a generalizing n with
  | nil => rfl
  | cons o a ih =>
    cases o <;> simp only [List.cons_append, nums, ih]

/-- The numbers of the paragraphs of a body. -/
def bodyNums (is : List Item) : List Nat :=
  is.filterMap fun
    | .para p => p.num
    | _ => none

theorem op_nums {io : Str → Option Unit} {st st' : St} (o : Op) (hr : o.run io st = .ok st') :
    bodyNums st'.doc.body = bodyNums st.doc.body ++ (nums st.num [o]).1 ∧ st'.num = (nums st.num [o]).2 := by
  cases o with
  | style s =>
    cases hr
    obtain ⟨h1, -, -, h2, -⟩ := setStyle_same st s
    exact ⟨by rw [h1]; simp [nums], h2⟩
  | reset => cases hr; simp [nums, St.reset]
  | raw t => cases hr; simp [nums, St.addPara, St.push, bodyNums]
  | para is => cases hr; simp [nums, St.addInlines, St.addPara, St.push, bodyNums]
  | item is => cases hr; simp [nums, St.addInlines, St.addPara, St.push, bodyNums]
  | list v =>
    cases hr
    obtain ⟨h1, -, h2, -⟩ := listHead_same st v
    exact ⟨by rw [h1]; simp [nums], h2⟩
  | page => cases hr; simp [nums]
  | table bs m =>
    obtain ⟨cols, rows, _, _, rfl⟩ := table_ok st st' bs m hr
    obtain ⟨h1, -, -, h2, -⟩ := setStyle_same st .table
    obtain ⟨_, c1, _, _, c2, _⟩ := cells_spec bs (st.setStyle .table)
    exact ⟨by simp [St.push, c1, h1, bodyNums, nums], by simp [St.push, c2, h2, nums]⟩
  | picture t =>
    obtain rfl := image_ok io st st' t hr
    simp [nums, St.push, bodyNums]

theorem ops_nums {io : Str → Option Unit} (os : List Op) (st st' : St) (hr : runOps io os st = .ok st') :
    bodyNums st'.doc.body = bodyNums st.doc.body ++ (nums st.num os).1 ∧ st'.num = (nums st.num os).2 := by
  induction os generalizing st with
  | nil => cases hr; simp [nums]
  | cons o os ih =>
    simp only [runOps] at hr
    cases ho : o.run io st with
    | error e => rw [ho] at hr; cases hr
    | ok s =>
      rw [ho] at hr
      obtain ⟨e1, f1⟩ := op_nums o ho
      obtain ⟨e2, f2⟩ := ih s hr
      have ha := nums_append st.num [o] os
      rw [List.singleton_append] at ha
      rw [e2, f2, e1, ha, f1, List.append_assoc]
      exact ⟨rfl, rfl⟩

theorem titleOps_nums (n : Nat) (s : Sty) (is : List Inline) : nums n (titleOps s is) = ([], n) := by
  unfold titleOps
  split <;> simp [nums]

theorem headOps_nums (n : Nat) (name : Str) (v : Option ParentVariant) (t : List Inline) :
    nums n (headOps name v t) = ([], n) := by
  cases v <;> simp [headOps, nums_append, titleOps_nums, nums]

theorem item_nums (n : Nat) (b : Block) (h : isItem b = true) : nums n (ops b) = ([n], n) := by
  cases b with
  | listItem k p bs m l =>
    have hm : ∀ bs : List Block, nums n ((bs.map fun b => Op.para b.inlines) ++ [.reset]) = ([], n) := by
      intro bs
      induction bs with
      | nil => rfl
      | cons b bs ih => exact ih
    cases bs with
    | nil => simp [ops, nums]
    | cons b bs =>
      simp only [ops, List.isEmpty_cons, Bool.false_eq_true, if_false, nums, List.cons_append]
      rw [hm]
  | _ => simp [isItem] at h

theorem items_nums (n : Nat) (bs : List Block) (h : bs.all isItem = true) :
    nums n (opsL bs) = (List.replicate bs.length n, n) := by
  induction bs with
  | nil => rfl
  | cons b bs ih =>
    simp only [List.all_cons, Bool.and_eq_true] at h
    simp only [opsL, nums_append, item_nums n b h.1, ih h.2, List.length_cons, List.replicate_succ,
      List.singleton_append]

theorem itemNumbers_append (n : Nat) (a b : List (ListVariant × Nat)) :
    itemNumbers n (a ++ b) = itemNumbers n a ++ itemNumbers (n + a.length) b := by
  induction a generalizing n with
  | nil => simp [itemNumbers]
  | cons x a ih =>
    obtain ⟨v, k⟩ := x
    simp only [List.cons_append, itemNumbers, ih, List.append_assoc, List.length_cons]
    rw [show n + 1 + a.length = n + (a.length + 1) by omega]

mutual
theorem block_nums (n : Nat) (b : Block) (h : itemsInLists b = true) :
    nums n (ops b) = (itemNumbers n (lists b), n + (lists b).length) := by
  cases b with
  | «section» t m level bs l =>
    have ih := fun n => blocks_nums n bs (by simpa [itemsInLists] using h)
    simp only [ops, lists]
    split <;> simp [nums, ih]
  | list v items m l =>
    simp only [ops, lists, nums, itemNumbers, List.append_nil, List.length_singleton]
    exact items_nums (n + 1) items (by simpa [itemsInLists] using h)
  | listItem k p bs m l => simp [itemsInLists] at h
  | dlist items m l => exact blocks_nums n items (by simpa [itemsInLists] using h)
  | dlistItem t p bs m l => exact blocks_nums n bs (by simpa [itemsInLists] using h)
  | brk v l => cases v <;> rfl
  | image t c m l => rfl
  | leaf nm f d is m l => cases nm <;> rfl
  | parent nm v d bs t m l =>
    cases nm with
    | table => rfl
    | footnoteContainer => rfl
    | open_ => exact blocks_nums n bs (by simpa [itemsInLists] using h)
    | quote =>
      have ih := fun n => blocks_nums n bs (by simpa [itemsInLists] using h)
      cases hm : St.attribution m <;> simp [ops, nums, hm, nums_append, ih, lists]
    | admonition =>
      have ih := fun n => blocks_nums n bs (by simpa [itemsInLists] using h)
      simp [ops, nums, nums_append, headOps_nums, ih, lists]
    | example_ =>
      have ih := fun n => blocks_nums n bs (by simpa [itemsInLists] using h)
      simp [ops, nums, nums_append, headOps_nums, ih, lists]
    | sidebar =>
      have ih := fun n => blocks_nums n bs (by simpa [itemsInLists] using h)
      simp [ops, nums, nums_append, headOps_nums, ih, lists]
  | tableCell is m l => rfl
theorem blocks_nums (n : Nat) (bs : List Block) (h : itemsInListsL bs = true) :
    nums n (opsL bs) = (itemNumbers n (listsL bs), n + (listsL bs).length) := by
  cases bs with
  | nil => rfl
  | cons b bs =>
    simp only [itemsInListsL, Bool.and_eq_true] at h
    simp only [opsL, listsL, nums_append, block_nums n b h.1, blocks_nums _ bs h.2, itemNumbers_append,
      List.length_append, Nat.add_assoc]
end

/-! ## Numbering definitions -/

/-- The kinds of the lists that steps begin. -/
def kinds (os : List Op) : List ListVariant :=
  os.filterMap fun
    | .list v => some v
    | _ => none

/-- The numbering definitions after lists of the given kinds, when `n` lists came before them. -/
def defsAfter (n : Nat) (ks : List ListVariant) : List (Nat × Nat) :=
  match ks.findIdx? (· = .unordered) with
  | some i => [(n + i + 1, 1)]
  | none => []

theorem defsAfter_cons (n : Nat) (k : ListVariant) (ks : List ListVariant) :
    defsAfter n (k :: ks) = match k with
      | .unordered => [(n + 1, 1)]
      | .ordered => defsAfter (n + 1) ks := by
  cases k with
  | unordered => simp [defsAfter, List.findIdx?_cons]
  | ordered =>
    simp only [defsAfter, List.findIdx?_cons]
    simp only [reduceCtorEq, decide_false, Bool.false_eq_true, if_false]
    cases ks.findIdx? (· = .unordered) with
    | none => rfl
    | some i => simp only [Option.map_some]; rw [show n + 1 + i = n + (i + 1) by omega]

/-- Which numbering definitions there are, and that they are kept. -/
theorem ops_defs {io : Str → Option Unit} (os : List Op) (st st' : St) (hr : runOps io os st = .ok st') :
    (st.abstractNum = 0 → st'.doc.nums = st.doc.nums ++ defsAfter st.num (kinds os)) ∧
    (st.abstractNum ≠ 0 → st'.doc.nums = st.doc.nums) := by
  induction os generalizing st with
  | nil => cases hr; simp [kinds, defsAfter]
  | cons o os ih =>
    simp only [runOps] at hr
    cases ho : o.run io st with
    | error e => rw [ho] at hr; cases hr
    | ok s =>
      rw [ho] at hr
      obtain ⟨i1, i2⟩ := ih s hr
      have same : s.doc.nums = st.doc.nums → s.abstractNum = st.abstractNum → s.num = st.num →
          kinds (o :: os) = kinds os →
          (st.abstractNum = 0 → st'.doc.nums = st.doc.nums ++ defsAfter st.num (kinds (o :: os))) ∧
          (st.abstractNum ≠ 0 → st'.doc.nums = st.doc.nums) := by
        intro a b c d
        rw [d, ← a, ← b, ← c]
        exact ⟨i1, i2⟩
      cases o with
      | style x =>
        cases ho
        obtain ⟨-, -, -, h4, -, h6, h7, -⟩ := setStyle_same st x
        exact same h7 h6 h4 rfl
      | reset => cases ho; exact same rfl rfl rfl rfl
      | raw t => cases ho; exact same rfl rfl rfl rfl
      | para is => cases ho; exact same rfl rfl rfl rfl
      | item is => cases ho; exact same rfl rfl rfl rfl
      | page => cases ho; exact same rfl rfl rfl rfl
      | table bs m =>
        obtain ⟨cols, rows, _, _, rfl⟩ := table_ok st s bs m ho
        obtain ⟨-, -, -, h4, -, h6, h7, -⟩ := setStyle_same st .table
        obtain ⟨_, c1, _, _, c2, c3⟩ := cells_spec bs (st.setStyle .table)
        exact same (by simp only [St.push, c1, h7]) (by simp only [St.push, c3, h6]) (by simp only [St.push, c2, h4]) rfl
      | picture t =>
        obtain rfl := image_ok io st s t ho
        exact same rfl rfl rfl rfl
      | list v =>
        have hk : kinds (.list v :: os) = v :: kinds os := rfl
        rw [hk, defsAfter_cons]
        cases ho
        cases v with
        | ordered =>
          obtain ⟨-, -, -, h4, -, h6, h7, -⟩ := setStyle_same { st with num := st.num + 1 } (.orderedList (st.num + 1))
          have e1 : (st.listHead .ordered).doc.nums = st.doc.nums := h7
          have e2 : (st.listHead .ordered).abstractNum = st.abstractNum := h6
          have e3 : (st.listHead .ordered).num = st.num + 1 := h4
          rw [e1, e2, e3] at i1
          rw [e1, e2] at i2
          exact ⟨i1, i2⟩
        | unordered =>
          obtain ⟨-, -, -, h4, -, h6, h7, -⟩ := setStyle_same { st with num := st.num + 1 } .listParagraph
          unfold St.listHead at i1 i2
          simp only [h6, h4, h7] at i1 i2
          by_cases hz : st.abstractNum = 0
          · simp only [hz, if_pos] at i2
            refine ⟨fun _ => ?_, fun hn => absurd hz hn⟩
            exact i2 (by simp)
          · simp only [hz, if_false, h6, h7] at i2
            refine ⟨fun h0 => absurd h0 hz, fun _ => ?_⟩
            exact i2 (by simpa using hz)

theorem kinds_append (a b : List Op) : kinds (a ++ b) = kinds a ++ kinds b := by simp [kinds]

theorem titleOps_kinds (s : Sty) (is : List Inline) : kinds (titleOps s is) = [] := by
  unfold titleOps
  split <;> simp [kinds]

theorem headOps_kinds (name : Str) (v : Option ParentVariant) (t : List Inline) : kinds (headOps name v t) = [] := by
  cases v <;> simp only [headOps, kinds_append, titleOps_kinds] <;> rfl

theorem items_kinds (bs : List Block) (h : bs.all isItem = true) : kinds (opsL bs) = [] := by
  induction bs with
  | nil => rfl
  | cons b bs ih =>
    simp only [List.all_cons, Bool.and_eq_true] at h
    simp only [opsL, kinds_append, ih h.2, List.append_nil]
    cases b with
    | listItem k p bs m l =>
      simp only [ops]
      split <;> simp [kinds]
    | _ => simp [isItem] at h

mutual
theorem block_kinds (b : Block) (h : itemsInLists b = true) : kinds (ops b) = (lists b).map (·.1) := by
  cases b with
  | «section» t m level bs l =>
    have ih := blocks_kinds bs (by simpa [itemsInLists] using h)
    simp only [ops, lists, kinds_append, ih]
    split <;> simp [kinds]
  | list v items m l =>
    have := items_kinds items (by simpa [itemsInLists] using h)
    simp only [ops, lists, List.map_cons, List.map_nil]
    show v :: kinds (opsL items) = _
    rw [this]
  | listItem k p bs m l => simp [itemsInLists] at h
  | dlist items m l => exact blocks_kinds items (by simpa [itemsInLists] using h)
  | dlistItem t p bs m l => exact blocks_kinds bs (by simpa [itemsInLists] using h)
  | brk v l => cases v <;> rfl
  | image t c m l => rfl
  | leaf nm f d is m l => cases nm <;> rfl
  | parent nm v d bs t m l =>
    cases nm with
    | table => rfl
    | footnoteContainer => rfl
    | open_ => exact blocks_kinds bs (by simpa [itemsInLists] using h)
    | quote =>
      have ih := blocks_kinds bs (by simpa [itemsInLists] using h)
      show kinds (.style .quote :: opsL bs ++ _ ++ _) = _
      rw [kinds_append, kinds_append]
      have : kinds (.style .quote :: opsL bs) = kinds (opsL bs) := rfl
      rw [this, ih]
      cases hm : St.attribution m <;> simp [lists] <;> simp [kinds]
    | admonition =>
      have ih := blocks_kinds bs (by simpa [itemsInLists] using h)
      simp only [ops, kinds_append, headOps_kinds, ih, lists]
      simp [kinds]
    | example_ =>
      have ih := blocks_kinds bs (by simpa [itemsInLists] using h)
      simp only [ops, kinds_append, headOps_kinds, ih, lists]
      simp [kinds]
    | sidebar =>
      have ih := blocks_kinds bs (by simpa [itemsInLists] using h)
      simp only [ops, kinds_append, headOps_kinds, ih, lists]
      simp [kinds]
  | tableCell is m l => rfl
theorem blocks_kinds (bs : List Block) (h : itemsInListsL bs = true) : kinds (opsL bs) = (listsL bs).map (·.1) := by
  cases bs with
  | nil => rfl
  | cons b bs =>
    simp only [itemsInListsL, Bool.and_eq_true] at h
    simp only [opsL, listsL, kinds_append, block_kinds b h.1, blocks_kinds bs h.2, List.map_append]
end

/-! ## Roles -/

/-- The role that a style stands for (`rule` also for the styles that are never current). -/
def Sty.role : Sty → Role
  | .normal => .body
  | .monospace => .code
  | .heading n => .heading n
  | .sectionTitle name => .boxTitle name
  | .sectionText name => .boxText name
  | .quote => .quotation
  | .verse => .verse
  | .listParagraph => .bullet
  | .listParagraphContinue => .continuation
  | .orderedList _ => .numbered
  | .definitionTerm => .term
  | .definition => .definition
  | .thematicBreak => .rule
  | .table => .rule
  | .noSpacing => .rule
  | .title => .rule

/-- The styles that steps use and that show their role. -/
def Sty.shows (s : Sty) : Prop := s ≠ .table ∧ s ≠ .noSpacing ∧ s ≠ .title

theorem Sty.shows_style (s : Sty) (h : s.shows) : s.role.style s.id := by
  cases s with
  | table => exact absurd rfl h.1
  | noSpacing => exact absurd rfl h.2.1
  | title => exact absurd rfl h.2.2
  | orderedList n => exact ⟨n, rfl⟩
  | _ => rfl

/-- The roles of the paragraphs that steps add, and the role after them; `none` is the style of tables. -/
def opRoles : Option Role → List Op → Option (List Role × Option Role)
  | r, [] => some ([], r)
  | _, .style s :: os => opRoles (if s = .table ∨ s = .noSpacing ∨ s = .title then none else some s.role) os
  | _, .reset :: os => opRoles (some .body) os
  | _, .list v :: os => opRoles (some (match v with | .ordered => .numbered | .unordered => .bullet)) os
  | _, .table _ _ :: os => opRoles none os
  | r, .page :: os => opRoles r os
  | r, .picture _ :: os => opRoles r os
  | some r, .raw _ :: os => (opRoles (some r) os).map fun x => (r :: x.1, x.2)
  | some r, .para _ :: os => (opRoles (some r) os).map fun x => (r :: x.1, x.2)
  | some r, .item _ :: os => (opRoles (some r) os).map fun x => (r :: x.1, x.2)
  | none, .raw _ :: _ => none
  | none, .para _ :: _ => none
  | none, .item _ :: _ => none

/-- The paragraphs of a body. -/
def bodyP (is : List Item) : List Para :=
  is.filterMap fun
    | .para p => some p
    | _ => none

/-- The current style shows the role. -/
def Shows (r : Option Role) (s : Sty) : Prop := ∀ x, r = some x → x.style s.id

theorem ops_roles {io : Str → Option Unit} (os : List Op) (st st' : St) (hr : runOps io os st = .ok st')
    (r : Option Role) (hs : Shows r st.style) (x : List Role × Option Role) (ho : opRoles r os = some x) :
    (∃ new, bodyP st'.doc.body = bodyP st.doc.body ++ new ∧ showRoles x.1 new) ∧
    Shows x.2 st'.style := by
  induction os generalizing st r x with
  | nil =>
    cases hr
    simp only [opRoles, Option.some.injEq] at ho
    subst ho
    exact ⟨⟨[], (List.append_nil _).symm, True.intro⟩, hs⟩
  | cons o os ih =>
    simp only [runOps] at hr
    cases hrun : o.run io st with
    | error e => rw [hrun] at hr; cases hr
    | ok s =>
      rw [hrun] at hr
      have noBody : ∀ r', bodyP s.doc.body = bodyP st.doc.body → Shows r' s.style → opRoles r' os = some x →
          (∃ new, bodyP st'.doc.body = bodyP st.doc.body ++ new ∧
            showRoles x.1 new) ∧ Shows x.2 st'.style := by
        intro r' e h1 h2
        rw [← e]
        exact ih s hr r' h1 x h2
      have one : ∀ q, ∀ p : Para, r = some q → p.style = st.style.id → bodyP s.doc.body = bodyP st.doc.body ++ [p] →
          s.style = st.style → (opRoles r os).map (fun y => (q :: y.1, y.2)) = some x →
          (∃ new, bodyP st'.doc.body = bodyP st.doc.body ++ new ∧
            showRoles x.1 new) ∧ Shows x.2 st'.style := by
        intro q p e e1 e2 e3 e4
        obtain ⟨y, hy, rfl⟩ := Option.map_eq_some_iff.1 e4
        obtain ⟨⟨new, n1, n2⟩, n3⟩ := ih s hr r (e3 ▸ hs) y hy
        refine ⟨⟨p :: new, by rw [n1, e2, List.append_assoc]; rfl, ?_, n2⟩, n3⟩
        rw [e1]
        exact hs q e
      cases o with
      | style y =>
        cases hrun
        obtain ⟨h1, -, h3, -⟩ := setStyle_same st y
        simp only [opRoles] at ho
        refine noBody _ (by rw [h1]) ?_ ho
        intro z hz
        rw [h3]
        split at hz
        · cases hz
        · rename_i hn
          simp only [not_or] at hn
          cases hz
          exact y.shows_style hn
      | reset =>
        cases hrun
        simp only [opRoles] at ho
        exact noBody _ rfl (fun z hz => by cases hz; rfl) ho
      | raw t =>
        cases hrun
        cases r with
        | none => simp [opRoles] at ho
        | some q => exact one q _ rfl rfl (by simp [St.addPara, St.push, bodyP]; rfl) rfl ho
      | para is =>
        cases hrun
        cases r with
        | none => simp [opRoles] at ho
        | some q => exact one q _ rfl rfl (by simp [St.addInlines, St.addPara, St.push, bodyP]; rfl) rfl ho
      | item is =>
        cases hrun
        cases r with
        | none => simp [opRoles] at ho
        | some q => exact one q _ rfl rfl (by simp [St.addInlines, St.addPara, St.push, bodyP]; rfl) rfl ho
      | list v =>
        cases hrun
        obtain ⟨h1, -, -, h4⟩ := listHead_same st v
        simp only [opRoles] at ho
        refine noBody _ (by rw [h1]) ?_ ho
        intro z hz
        rw [h4]
        cases hz
        cases v
        · exact ⟨_, rfl⟩
        · rfl
      | page => cases hrun; exact noBody r rfl hs (by simpa [opRoles] using ho)
      | table bs m =>
        obtain ⟨cols, rows, _, _, rfl⟩ := table_ok st s bs m hrun
        obtain ⟨h1, -⟩ := setStyle_same st .table
        obtain ⟨_, c1, _⟩ := cells_spec bs (st.setStyle .table)
        refine noBody none ?_ (fun _ hz => by cases hz) (by simpa [opRoles] using ho)
        simp [St.push, c1, h1, bodyP]
      | picture t =>
        obtain rfl := image_ok io st s t hrun
        exact noBody r (by simp [St.push, bodyP]) hs (by simpa [opRoles] using ho)

theorem opRoles_append (r : Option Role) (a b : List Op) :
    opRoles r (a ++ b) = (opRoles r a).bind fun x => (opRoles x.2 b).map fun y => (x.1 ++ y.1, y.2) := by
  induction a generalizing r with
  | nil => simp [opRoles]
  | cons o a ih =>
    have push : ∀ q, ((opRoles (some q) (a ++ b)).map fun x => (q :: x.1, x.2)) =
        ((opRoles (some q) a).map fun x => (q :: x.1, x.2)).bind fun x =>
          (opRoles x.2 b).map fun y => (x.1 ++ y.1, y.2) := by
      intro q
      rw [ih]
      cases opRoles (some q) a with
      | none => rfl
      | some x => cases hx : opRoles x.2 b <;> simp [hx]
    cases o with
    | raw t => cases r with
      | none => rfl
      | some q => exact push q
    | para t => cases r with
      | none => rfl
      | some q => exact push q
    | item t => cases r with
      | none => rfl
      | some q => exact push q
    | _ => simp only [List.cons_append, opRoles, ih]

/-- Steps one after the other. -/
theorem opRoles_seq {r r1 r2 : Option Role} {a b : List Op} {x y : List Role} (ha : opRoles r a = some (x, r1))
    (hb : opRoles r1 b = some (y, r2)) : opRoles r (a ++ b) = some (x ++ y, r2) := by
  rw [opRoles_append, ha]
  simp [hb]

theorem plain_roles (q : Role) (bs : List Block) (h : bs.all plain = true) :
    opRoles (some q) (opsL bs) = some (rolesL q bs, some q) := by
  induction bs with
  | nil => rfl
  | cons b bs ih =>
    simp only [List.all_cons, Bool.and_eq_true] at h
    refine opRoles_seq (r1 := some q) ?_ (ih h.2)
    have hb := h.1
    cases b with
    | leaf n f d is m l => cases n <;> first | rfl | (simp [plain] at hb)
    | brk v l => cases v <;> first | rfl | (simp [plain] at hb)
    | image t c m l => rfl
    | _ => simp [plain] at hb

theorem attached_roles (bs : List Block) :
    opRoles (some .continuation) ((bs.map fun b => Op.para b.inlines) ++ [.reset]) =
      some (bs.map fun _ => .continuation, some .body) := by
  induction bs with
  | nil => rfl
  | cons b bs ih =>
    simp only [List.map_cons, List.cons_append, opRoles]
    rw [ih]
    rfl

/-- The roles of the paragraphs of a list item. -/
def itemRoles (q : Role) : Block → List Role
  | .listItem _ _ bs _ _ => q :: bs.map fun _ => .continuation
  | _ => []

theorem items_roles (q : Role) (items : List Block) (d : Bool) (h : itemsCalm items = some d) :
    ∃ r', opRoles (some q) (opsL items) = some (items.flatMap (itemRoles q), r') ∧
      (d = false → r' = some .body) := by
  induction items with
  | nil =>
    simp only [itemsCalm, Option.some.injEq] at h
    exact ⟨some q, rfl, fun hd => by rw [← h] at hd; cases hd⟩
  | cons b items ih =>
    cases b with
    | listItem k p bs m l =>
      cases items with
      | nil =>
        simp only [itemsCalm, Option.some.injEq] at h
        cases bs with
        | nil => exact ⟨some q, rfl, fun hd => by rw [← h] at hd; cases hd⟩
        | cons c bs =>
          refine ⟨some .body, ?_, fun _ => rfl⟩
          simp only [opsL, ops, List.isEmpty_cons, Bool.false_eq_true, if_false, List.append_nil, List.cons_append,
            opRoles, List.flatMap_cons, List.flatMap_nil, itemRoles]
          have := attached_roles (c :: bs)
          simp only [Sty.role, reduceCtorEq, or_self, if_false]
          rw [this]
          rfl
      | cons b2 rest =>
        cases bs with
        | nil =>
          obtain ⟨r', h1, h2⟩ := ih (by simpa [itemsCalm] using h)
          refine ⟨r', ?_, h2⟩
          rw [List.flatMap_cons]
          exact opRoles_seq (a := ops (.listItem k p [] m l)) (r1 := some q) rfl h1
        | cons c bs => simp [itemsCalm] at h
    | _ => simp [itemsCalm] at h

theorem dlist_roles (r : Option Role) (amb : Role) (items : List Block)
    (h : items.all (fun | .dlistItem _ _ [] _ _ => true | _ => false) = true) :
    ∃ r', opRoles r (opsL items) = some (rolesL amb items, r') := by
  induction items generalizing r with
  | nil => exact ⟨r, rfl⟩
  | cons b items ih =>
    simp only [List.all_cons, Bool.and_eq_true] at h
    cases b with
    | dlistItem t p bs m l =>
      cases bs with
      | nil =>
        obtain ⟨r', h'⟩ := ih (some .definition) h.2
        exact ⟨r', opRoles_seq (a := ops (.dlistItem t p [] m l)) (r1 := some .definition) rfl h'⟩
      | cons c bs => simp at h
    | _ => simp at h

theorem titleOps_roles (r : Option Role) (name : Str) (t : List Inline) :
    ∃ r', opRoles r (titleOps (.sectionTitle name) t) = some ((Word.title t).map fun _ => .boxTitle name, r') := by
  unfold titleOps Word.title
  split
  · exact ⟨r, rfl⟩
  · exact ⟨_, rfl⟩

theorem headOps_roles (r : Option Role) (name : Str) (v : Option ParentVariant) (t : List Inline) :
    opRoles r (headOps name v t) =
      some ((Word.label v).map (fun _ => .boxTitle name) ++ (Word.title t).map (fun _ => .boxTitle name),
        some (.boxText name)) := by
  have last : ∀ r', opRoles r' [.style (.sectionText name)] = some ([], some (.boxText name)) := fun _ => rfl
  cases v with
  | none =>
    obtain ⟨r', h⟩ := titleOps_roles r name t
    have := opRoles_seq h (last r')
    simpa [headOps, Word.label] using this
  | some v =>
    obtain ⟨r', h⟩ := titleOps_roles (some (.boxTitle name)) name t
    have h0 : opRoles r [.style (.sectionTitle name), .raw (variantText v)] =
        some ([.boxTitle name], some (.boxTitle name)) := rfl
    have := opRoles_seq (opRoles_seq h0 h) (last r')
    simpa [headOps, Word.label] using this

theorem box_roles (r : Option Role) (name : Str) (v : Option ParentVariant) (t : List Inline) (bs : List Block)
    (h : bs.all plain = true) :
    opRoles r (headOps name v t ++ opsL bs ++ [.reset]) =
      some ((Word.label v).map (fun _ => .boxTitle name) ++ (Word.title t).map (fun _ => .boxTitle name) ++
        rolesL (.boxText name) bs, some .body) := by
  have := opRoles_seq (opRoles_seq (headOps_roles r name v t) (plain_roles (.boxText name) bs h))
    (b := [.reset]) (r2 := some .body) (y := []) rfl
  simpa using this

mutual
theorem block_roles (b : Block) (d d' : Bool) (r : Option Role) (hd : d = false → r = some .body)
    (h : calm d b = some d') :
    ∃ r', opRoles r (ops b) = some (roles .body b, r') ∧ (d' = false → r' = some .body) := by
  cases b with
  | «section» t m level bs l =>
    simp only [calm] at h
    simp only [ops, roles]
    split
    · rename_i ht
      rw [if_pos ht] at h
      exact blocks_roles bs d d' r hd h
    · rename_i ht
      rw [if_neg ht] at h
      obtain ⟨r', h1, h2⟩ := blocks_roles bs false d' (some .body) (fun _ => rfl) h
      refine ⟨r', ?_, h2⟩
      exact opRoles_seq (a := [.style (.heading level), .para t, .reset]) (r1 := some .body) rfl h1
  | list v items m l =>
    simp only [calm] at h
    obtain ⟨r', h1, h2⟩ := items_roles (match v with | .ordered => .numbered | .unordered => .bullet) items d' h
    refine ⟨r', ?_, h2⟩
    simp only [ops, opRoles, roles]
    rw [h1]
    rfl
  | listItem k p bs m l => simp [calm] at h
  | dlist items m l =>
    simp only [calm] at h
    split at h
    · rename_i hi
      cases h
      obtain ⟨r', h1⟩ := dlist_roles r .body items hi
      exact ⟨r', h1, nofun⟩
    · cases h
  | dlistItem t p bs m l => simp [calm] at h
  | brk v l =>
    cases v with
    | page =>
      simp only [calm, Option.some.injEq] at h
      subst h
      exact ⟨r, rfl, hd⟩
    | thematic =>
      simp only [calm, Option.some.injEq] at h
      subst h
      exact ⟨some .rule, rfl, nofun⟩
  | image t c m l =>
    simp only [calm, Option.some.injEq] at h
    subst h
    exact ⟨r, rfl, hd⟩
  | leaf n f dl is m l =>
    cases n with
    | paragraph =>
      cases d with
      | true => simp [calm] at h
      | false =>
        rw [hd rfl]
        exact ⟨some .body, rfl, fun _ => rfl⟩
    | pass =>
      cases d with
      | true => simp [calm] at h
      | false =>
        rw [hd rfl]
        exact ⟨some .body, rfl, fun _ => rfl⟩
    | verse => simp [calm] at h; subst h; exact ⟨some .verse, rfl, nofun⟩
    | listing => simp [calm] at h; subst h; exact ⟨some .code, rfl, nofun⟩
    | literal => simp [calm] at h; subst h; exact ⟨some .code, rfl, nofun⟩
  | parent n v dl bs t m l =>
    cases n with
    | table =>
      simp only [calm, Option.some.injEq] at h
      subst h
      exact ⟨none, rfl, nofun⟩
    | footnoteContainer =>
      simp only [calm, Option.some.injEq] at h
      subst h
      exact ⟨r, rfl, hd⟩
    | open_ => exact blocks_roles bs d d' r hd (by simpa [calm] using h)
    | quote =>
      simp only [calm] at h
      split at h
      · rename_i hp
        refine ⟨some .body, ?_, fun _ => rfl⟩
        have h1 := plain_roles .quotation bs hp
        have h2 : opRoles (some .quotation)
            ((match St.attribution m with | some a => [.raw (b!"— " ++ a ++ b!"\n")] | none => []) ++ [.reset]) =
            some ((Word.source m).map fun _ => .quotation, some .body) := by
          cases m with
          | none => rfl
          | some m => cases hm : m.attributes.get? b!"attribution" <;> simp [St.attribution, Word.source, hm, opRoles]
        have := opRoles_seq h1 h2
        simp only [ops, List.cons_append, opRoles]
        simp only [Sty.role, reduceCtorEq, or_self, if_false]
        rw [List.append_assoc]
        exact this
      · cases h
    | admonition =>
      simp only [calm] at h
      split at h
      · rename_i hp
        exact ⟨some .body, box_roles r _ v t bs hp, fun _ => rfl⟩
      · cases h
    | example_ =>
      simp only [calm] at h
      split at h
      · rename_i hp
        exact ⟨some .body, box_roles r _ v t bs hp, fun _ => rfl⟩
      · cases h
    | sidebar =>
      simp only [calm] at h
      split at h
      · rename_i hp
        exact ⟨some .body, box_roles r _ v t bs hp, fun _ => rfl⟩
      · cases h
  | tableCell is m l =>
    simp only [calm, Option.some.injEq] at h
    subst h
    exact ⟨r, rfl, hd⟩
theorem blocks_roles (bs : List Block) (d d' : Bool) (r : Option Role) (hd : d = false → r = some .body)
    (h : calmL d bs = some d') :
    ∃ r', opRoles r (opsL bs) = some (rolesL .body bs, r') ∧ (d' = false → r' = some .body) := by
  cases bs with
  | nil =>
    simp only [calmL, Option.some.injEq] at h
    subst h
    exact ⟨r, rfl, hd⟩
  | cons b bs =>
    simp only [calmL] at h
    cases hb : calm d b with
    | none => rw [hb] at h; cases h
    | some d1 =>
      rw [hb] at h
      obtain ⟨r1, h1, h2⟩ := block_roles b d d1 r hd hb
      obtain ⟨r2, h3, h4⟩ := blocks_roles bs d1 d' r1 h2 h
      exact ⟨r2, opRoles_seq h1 h3, h4⟩
end

end Adoc.Docx
