import Verif.Spec.Rich
import Verif.Props.Metadata
import Verif.Proof.Lines
/-!
# Reading attribute lists
-/
namespace Adoc.Rich
open Spec Props Meta Scanner

theorem clean_of {s : Str} (h : Unseparated s) : Clean s := by
  intro b hb hd
  refine h b hb ?_
  rcases hd with rfl | rfl | rfl | rfl | rfl <;> decide

theorem arg_keeps (m : Meta) (i : Nat) (args : List Arg) : (applyArgs m i args).declared = m.declared := by
  have has : ∀ (m : Meta) k v, (assign m k v).declared = m.declared := by
    intro m k v; unfold assign; split <;> rfl
  induction args generalizing m i with
  | nil => rfl
  | cons a args ih =>
    cases a with
    | named k v => rw [applyArgs, ih, has]
    | pos v =>
      rw [applyArgs, ih]
      split
      · rw [has]
      · rfl

theorem arg_loc (m : Meta) (i : Nat) (args : List Arg) : (applyArgs m i args).loc = m.loc := by
  have has : ∀ (m : Meta) k v, (assign m k v).loc = m.loc := by
    intro m k v; unfold assign; split <;> rfl
  induction args generalizing m i with
  | nil => rfl
  | cons a args ih =>
    cases a with
    | named k v => rw [applyArgs, ih, has]
    | pos v =>
      rw [applyArgs, ih]
      split
      · rw [has]
      · rfl

/-- An entry with a name. -/
theorem one_named (m : Meta) (i : Nat) (s k v : Str) (h : keyValues s = .ok (some (k, v))) :
    m.processOne i s = .ok (assign m k v) := by
  unfold processOne assign
  simp only [h, bind, Except.bind, pure, Except.pure, setAttr]
  split <;> rfl

theorem assign_other (m : Meta) (k v : Str) (h : k ≠ b!"role") : assign m k v = m.setAttr k v := by
  simp only [assign, if_neg h, setAttr]

theorem positional_ne (n : Nat) : b!"positional_" ++ natToStr n ≠ b!"role" := by
  intro h
  have := congrArg List.head? h
  simp at this

/-- An entry without name. -/
theorem one_pos (m : Meta) (i : Nat) (v : Str) (hv : Unseparated v) (hne : v ≠ [])
    (hd : m.declared = none ∨ trim v = v ∧ 1 ≤ i ∧ (m.declared = some .source ∨ i ≤ 2)) (hf : i = 0 → FirstOk [.pos v]) :
    m.processOne i v = .ok (match position m.declared i with
      | some k => assign m k v
      | none => m) := by
  have hq : v.head? ≠ some 34 := by
    intro h
    exact clean_not v (clean_of hv) 34 (by simp [AttrDelim]) (List.mem_of_mem_head? h)
  have hp : m.processAttribute i v = .ok (match position m.declared i with
      | some k => assign m k v
      | none => m) := by
    have hpos : ∀ m : Meta, (do
        let v ← if v.head? = some c!"\"" then sliceM v 1 (v.length - 1) else .ok v
        return m.setAttr (b!"positional_" ++ natToStr (i + 1)) v : M Meta)
        = .ok (assign m (b!"positional_" ++ natToStr (i + 1)) v) := by
      intro m
      simp only [hq, if_false, bind, Except.bind, pure, Except.pure]
      rw [assign_other _ _ _ (positional_ne _)]
    unfold processAttribute
    rcases hd with hd | ⟨h1, h2, h3⟩
    · rw [hd]
      exact hpos m
    · rw [h1]
      have h4 : (m.declared = some .source ∧ i ≠ 1) ∨ i = 1 ∨ i = 2 := by
        rcases h3 with h3 | h3
        · by_cases hi : i = 1
          · exact .inr (.inl hi)
          · exact .inl ⟨h3, hi⟩
        · omega
      cases hdd : m.declared with
      | none => exact hpos m
      | some a =>
        cases a with
        | role => exact hpos m
        | source =>
          by_cases hi : i = 1
          · subst hi
            simp only [position, if_true]
            rw [assign_other _ _ _ (by decide)]
          · simp only [if_neg hi]
            have : position (some .source) i = none := by
              unfold position
              split <;> simp_all
            rw [this]
        | quote =>
          rw [hdd] at h4
          rcases h4 with ⟨h4, _⟩ | rfl | rfl
          · cases h4
          · simp only [position, if_true]
            rw [assign_other _ _ _ (by decide)]
          · simp only [position, if_true]
            rw [assign_other _ _ _ (by decide)]
            rfl
        | verse =>
          rw [hdd] at h4
          rcases h4 with ⟨h4, _⟩ | rfl | rfl
          · cases h4
          · simp only [position, if_true]
            rw [assign_other _ _ _ (by decide)]
          · simp only [position, if_true]
            rw [assign_other _ _ _ (by decide)]
            rfl
  have hem : v.isEmpty = false := by simp [hne]
  unfold processOne
  simp only [keyValues_none v (clean_of hv), bind, Except.bind]
  by_cases h : i = 0 ∧ 2 ≤ v.length
  · rw [if_pos h]
    obtain ⟨h1, h2, h3, h4⟩ := hf h.1
    have hs : sliceM v 0 2 = .ok (v.take 2) := by
      have hbd : isBoundary v 2 = true := by
        have : v = v.take 2 ++ v.drop 2 := (List.take_append_drop 2 v).symm
        have hl : (v.take 2).length = 2 := by simp; omega
        have hb := isBoundary_append (v.take 2) (v.drop 2) (by
          intro b hb
          rw [Option.mem_def, List.head?_drop] at hb
          have : b ∈ v.take 3 := by
            rw [List.mem_take_iff_getElem]
            obtain ⟨hlt, he⟩ := List.getElem?_eq_some_iff.1 hb
            exact ⟨2, by omega, he⟩
          exact (isCont_false_iff b).2 (.inl (h1 b this)))
        rw [← this, hl] at hb
        exact hb
      unfold sliceM slice
      rw [if_pos ⟨by omega, h.2, by simp [isBoundary], hbd⟩]
      simp
    simp only [hs, h2, h3, h4, or_self, if_false]
    exact hp
  · rw [if_neg h]
    simp only [hem, Bool.false_eq_true, if_false]
    exact hp

theorem args_from (m : Meta) (i : Nat) (args : List Arg) (h : ArgsOk m.declared i args) (hf : i = 0 → FirstOk args) :
    m.processFrom i (args.map Arg.str) = .ok (applyArgs m i args) := by
  induction args generalizing m i with
  | nil => rfl
  | cons a args ih =>
    cases a with
    | named k v =>
      obtain ⟨h1, h2, h3⟩ := h
      simp only [List.map_cons, Arg.str, processFrom, bind, Except.bind,
        one_named m i _ k v (keyValues_named k v (clean_of h1) (clean_of h2))]
      exact ih (assign m k v) (i + 1) (by rw [show (assign m k v).declared = m.declared from arg_keeps m 0 [.named k v]]; exact h3)
        (by omega)
    | pos v =>
      obtain ⟨h1, h2, h3, h4⟩ := h
      simp only [List.map_cons, Arg.str, processFrom, bind, Except.bind, one_pos m i v h1 h2 h3 (fun h => hf h)]
      have hk : Meta.declared (match position m.declared i with
          | some k => assign m k v
          | none => m) = m.declared := arg_keeps m i [.pos v]
      exact ih _ (i + 1) (by rw [hk]; exact h4) (by omega)

theorem arg_free {st : Option AttrType} {i : Nat} {args : List Arg} (h : ArgsOk st i args) :
    ∀ s ∈ args.map Arg.str, c!"," ∉ s ∧ c!"\"" ∉ s := by
  induction args generalizing i with
  | nil => simp
  | cons a args ih =>
    intro s hs
    rw [List.map_cons] at hs
    rcases List.mem_cons.1 hs with rfl | hs'
    · cases a with
      | named k v =>
        obtain ⟨h1, h2, h3⟩ := h
        have e1 := clean_not k (clean_of h1)
        have e2 := clean_not v (clean_of h2)
        simp [Arg.str, e1 44 (by simp [AttrDelim]), e2 44 (by simp [AttrDelim]), e1 34 (by simp [AttrDelim]),
          e2 34 (by simp [AttrDelim])]
      | pos v =>
        have e := clean_not v (clean_of h.1)
        exact ⟨e 44 (by simp [AttrDelim]), e 34 (by simp [AttrDelim])⟩
    · cases a with
      | named k v => exact ih h.2.2 s hs'
      | pos v => exact ih h.2.2.2 s hs'

theorem extract_join (l : List Str) (hne : l ≠ []) (h : ∀ s ∈ l, c!"," ∉ s ∧ c!"\"" ∉ s) :
    extractAttributes (joinB c!"," l) = l := by
  have hq : (34 : UInt8) ∉ joinB c!"," l := by
    intro hm
    rcases mem_joinB _ _ _ hm with hm | ⟨p, hp, hm⟩
    · cases hm
    · exact (h p hp).2 hm
  unfold extractAttributes quoted
  rw [quotedF_none _ _ _ hq]
  simp only [List.foldl_nil, List.nil_append]
  exact splitOnB_join _ _ hne (fun p hp => (h p hp).1)

theorem starts_join (l : List Str) (rest : Str) (h : ∀ x, l.head? = some x → Starts x) (hr : Starts rest) :
    Starts (joinB c!"," l ++ rest) := by
  match l with
  | [] => exact hr
  | [x] => exact starts_append _ _ (h x rfl) hr
  | x :: y :: l =>
    rw [joinB, List.append_assoc]
    exact starts_append _ _ (h x rfl) (starts_ascii _ _ (by decide))

theorem args_start {args : List Arg} (h : FirstOk args) (rest : Str) (hr : Starts rest) :
    Starts (joinB c!"," (args.map Arg.str) ++ rest) := by
  refine starts_join _ _ (fun x hx => ?_) hr
  cases args with
  | nil => cases hx
  | cons a as =>
    simp only [List.map_cons, List.head?_cons, Option.some.injEq] at hx
    subst hx
    cases a with
    | named k v => exact starts_append _ _ h (starts_ascii _ _ (by decide))
    | pos v =>
      intro b hb
      refine (isCont_false_iff b).2 (.inl (h.1 b ?_))
      cases v with
      | nil => cases hb
      | cons y ys =>
        simp only [Arg.str, List.head?_cons, Option.mem_def, Option.some.injEq] at hb
        subst hb; simp

theorem args_ne {args : List Arg} (h : ArgsOk none 0 args) (hn : args ≠ []) : joinB c!"," (args.map Arg.str) ≠ [] := by
  cases args with
  | nil => exact absurd rfl hn
  | cons a as =>
    have : a.str ≠ [] := by
      cases a with
      | named k v => simp [Arg.str]
      | pos v => exact h.2.1
    cases as with
    | nil => simpa [joinB] using this
    | cons => simp [joinB]

/-- The macro of an image is read. -/
theorem image_read (t : Token) (name target : Str) (args : List Arg) (hn : macroName t.ty = some name)
    (ht : t.text = name ++ (target ++ (b!"[" ++ (joinB c!"," (args.map Arg.str) ++ b!"]")))) (h : ImageOk target args) :
    targetAndAttrs t = .ok (target, imageMeta args) := by
  obtain ⟨h1, h2, h3, h4⟩ := h
  have hst : Starts (joinB c!"," (args.map Arg.str)) := by
    have := args_start h4 [] (by intro b hb; cases hb)
    simpa using this
  rw [C46_target_partial t name target _ hn ht h1 h2 hst]
  by_cases ha : args = []
  · subst ha; rfl
  · rw [if_neg (args_ne h3 ha), extract_join _ (by simpa using ha) (arg_free h3), processAttributes,
      args_from { inlineMeta := true } 0 args h3 (fun _ => h4)]
    simp [imageMeta, ha, Except.map]

end Adoc.Rich
