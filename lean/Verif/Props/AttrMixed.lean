import Verif.Props.Attrlist
import Verif.Props.Parser
/-!
# C30: lists that mix quoted entries with others
-/
namespace Adoc.Props
open Adoc Meta

/-- An entry of an attribute list: `key="value"`, or one without quotes. -/
inductive Item where
  | quoted (key value : Str)
  | plain (e : Entry)

namespace Item
/-- How it is written. -/
def text : Item → Str
  | quoted k v => quotedText k v
  | plain e => e.text
/-- It is well formed. -/
def Ok : Item → Prop
  | quoted k v => Named.Ok ⟨true, k, v⟩
  | plain e => e.Ok
/-- The entries without quotes, as they are, and nothing in place of the quoted ones. -/
def rest : Item → Str
  | quoted .. => []
  | plain e => e.text
end Item

/-- Names and values of the quoted entries. -/
def quotedOnes : List Item → List (Str × Str)
  | [] => []
  | .quoted k v :: es => (k, v) :: quotedOnes es
  | .plain _ :: es => quotedOnes es

/-- Names and values of the other entries; the first entry of the list has number `n`, and all of them are counted. -/
def otherOnes (n : Nat) : List Item → List (Str × Str)
  | [] => []
  | .quoted .. :: es => otherOnes (n + 1) es
  | .plain e :: es => e.meaning n :: otherOnes (n + 1) es

/-- The quoted entries. -/
def quotedNamed (es : List Item) : List Named := (quotedOnes es).map fun x => ⟨true, x.1, x.2⟩

theorem quotedNamed_mem {es : List Item} {q : Named} (h : q ∈ quotedNamed es) : Item.quoted q.key q.value ∈ es ∧ q.quotes = true := by
  obtain ⟨x, hx, rfl⟩ := List.mem_map.1 h
  refine ⟨?_, rfl⟩
  clear h
  induction es with
  | nil => cases hx
  | cons e es ih =>
    cases e with
    | quoted k v =>
      rcases List.mem_cons.1 hx with rfl | hx
      · exact List.mem_cons_self
      · exact List.mem_cons_of_mem _ (ih hx)
    | plain e => exact List.mem_cons_of_mem _ (ih hx)

theorem entry_no (e : Entry) (h : e.Ok) (b : UInt8) (hb : AttrDelim b) (hne : b ≠ c!"=") : b ∉ e.text := by
  cases e with
  | named k v => simp [Entry.text, clean_not k h.1 b hb, clean_not v h.2.1 b hb, hne]
  | pos v => exact clean_not v h.1 b hb

theorem quotedF_past (s tail : Str) (hs : (34 : UInt8) ∉ s) (ht : tail.head? ≠ some 34) (n : Nat) (w : Str) (hn : s.length ≤ n) :
    ∃ w', quotedF n w (s ++ tail) = quotedF (n - s.length) w' tail := by
  induction s generalizing n w with
  | nil => exact ⟨w, rfl⟩
  | cons b s ih =>
    simp only [List.mem_cons, not_or] at hs
    simp only [List.length_cons] at hn
    obtain ⟨m, rfl⟩ : ∃ m, n = m + 1 := ⟨n - 1, by omega⟩
    by_cases hb : b = 61
    · subst hb
      obtain ⟨w', h⟩ := ih hs.2 m [] (by omega)
      refine ⟨w', ?_⟩
      rw [show m + 1 - (61 :: s : Str).length = m - s.length by simp, ← h]
      have hh : (s ++ tail).head? ≠ some 34 := by
        cases s with
        | nil => exact ht
        | cons c s =>
          simp only [List.cons_append, List.head?_cons, ne_eq, Option.some.injEq]
          intro hc
          exact hs.2 (by simp [hc])
      cases hr : s ++ tail with
      | nil =>
        simp only [List.cons_append, hr, quotedF, if_true]
        cases m <;> rfl
      | cons q r =>
        rw [hr] at hh
        simp only [List.head?_cons, ne_eq, Option.some.injEq] at hh
        simp only [List.cons_append, hr, quotedF, if_true, hh, if_false]
    · obtain ⟨w', h⟩ := ih hs.2 m (if isWordB b then b :: w else []) (by omega)
      exact ⟨w', by simp only [List.cons_append, quotedF, hb, if_false, h]; congr 1; simp⟩

theorem quotedF_items (es : List Item) (he : ∀ e ∈ es, e.Ok) : ∀ n, (joinB c!"," (es.map Item.text)).length < n →
    quotedF n [] (joinB c!"," (es.map Item.text)) = (quotedNamed es).map Named.text := by
  induction es with
  | nil => intro n _; cases n <;> rfl
  | cons e es ih =>
    intro n hn
    obtain ⟨tail, htail⟩ : ∃ tail, tail = (match es with
      | [] => ([] : Str)
      | _ => c!"," :: joinB c!"," (es.map Item.text)) := ⟨_, rfl⟩
    have hj : joinB c!"," ((e :: es).map Item.text) = e.text ++ tail := by
      rw [htail]
      cases es <;> simp [joinB]
    have hhead : tail.head? ≠ some 34 := by rw [htail]; cases es <;> simp
    have hrest : ∀ (m : Nat) (w : Str), tail.length < m → quotedF m w tail = (quotedNamed es).map Named.text := by
      intro m w hm
      cases es with
      | nil => rw [htail]; cases m <;> rfl
      | cons e' es =>
        rw [htail] at hm ⊢
        simp only [List.length_cons] at hm
        obtain ⟨m, rfl⟩ : ∃ k, m = k + 1 := ⟨m - 1, by omega⟩
        have : isWordB c!"," = false := by decide
        simp only [quotedF, this]
        rw [if_neg (by decide)]
        exact ih (fun x hx => he x (by simp [hx])) m (by omega)
    rw [hj] at hn ⊢
    have ho := he e (by simp)
    cases e with
    | quoted k v =>
      obtain ⟨_, hw⟩ := ho.word rfl
      obtain ⟨h1, h2, _, _⟩ := ho.inside rfl
      have e1 : Item.text (.quoted k v) ++ tail = k ++ (61 :: 34 :: (v ++ 34 :: tail)) := by simp [Item.text, quotedText]
      rw [e1] at hn ⊢
      simp only [List.length_append, List.length_cons] at hn
      rw [quotedF_words k _ (fun b hb => (nameByte_iff b).1 (hw b hb)) n [] (by omega)]
      obtain ⟨m, hm⟩ : ∃ m, n - k.length = m + 1 := ⟨n - k.length - 1, by omega⟩
      rw [hm, quotedF]
      simp only [if_true, cutQuote_body v _ h1 h2, List.append_nil, List.reverse_reverse]
      rw [hrest m [] (by omega)]
      simp [quotedNamed, quotedOnes, Named.text, quotedText]
    | plain e =>
      simp only [Item.text, List.length_append] at hn ⊢
      obtain ⟨w', h⟩ := quotedF_past e.text tail (entry_no e ho 34 (by simp [AttrDelim]) (by decide)) hhead n [] (by omega)
      rw [h, hrest _ _ (by omega)]
      rfl

theorem items_split (es : List Item) (hne : es ≠ []) (he : ∀ e ∈ es, e.Ok)
    (hs : ∀ k v k', Item.quoted k v ∈ es → Item.quoted k' v ∈ es → k <:+ k' → k = k') :
    extractAttributes (joinB c!"," (es.map Item.text)) = (quotedNamed es).map Named.text ++ es.map Item.rest := by
  have hqs : ∀ q ∈ quotedNamed es, q.quotes = true ∧ q.Ok := fun q hq => by
    obtain ⟨h1, h2⟩ := quotedNamed_mem hq
    have := he _ h1
    obtain ⟨qq, k, v⟩ := q
    subst h2
    exact ⟨rfl, this⟩
  unfold extractAttributes quoted
  rw [quotedF_items es he _ (Nat.lt_succ_self _)]
  dsimp only
  rw [erase_all _ hqs _ fun s h => by
    obtain ⟨e, hm, rfl⟩ := List.mem_map.1 h
    cases e with
    | quoted k v =>
      refine .inr ⟨⟨true, k, v⟩, he _ hm, rfl, fun q hq _ h2 h3 => ?_⟩
      have := (quotedNamed_mem hq).1
      exact hs _ v _ (by rw [h2] at this; exact this) hm h3
    | plain e => exact .inl (entry_no e (he _ hm) 34 (by simp [AttrDelim]) (by decide))]
  have hmap : (es.map Item.text).map (fun s => if s ∈ (quotedNamed es).map Named.text then [] else s) = es.map Item.rest := by
    rw [List.map_map]
    refine List.map_congr_left fun e hm => ?_
    simp only [Function.comp_def]
    cases e with
    | quoted k v =>
      rw [if_pos]
      · rfl
      · refine List.mem_map.2 ⟨⟨true, k, v⟩, List.mem_map.2 ⟨(k, v), ?_, rfl⟩, rfl⟩
        clear hqs hs hne he
        induction es with
        | nil => cases hm
        | cons e es ih =>
          rcases List.mem_cons.1 hm with rfl | hm'
          · exact List.mem_cons_self
          · cases e with
            | quoted => exact List.mem_cons_of_mem _ (ih hm')
            | plain => exact ih hm'
    | plain e =>
      rw [if_neg]
      · rfl
      · intro hn
        obtain ⟨q, hqm, hqe⟩ := List.mem_map.1 hn
        have h1 : (34 : UInt8) ∈ q.text := by simp [Named.text, (hqs q hqm).1, quotedText]
        rw [hqe] at h1
        exact entry_no e (he _ hm) 34 (by simp [AttrDelim]) (by decide) h1
  rw [hmap, splitOnB_join _ _ (by simpa using hne)]
  intro s h
  obtain ⟨e, hm, rfl⟩ := List.mem_map.1 h
  cases e with
  | quoted k v => simp [Item.rest]
  | plain e => exact entry_no e (he _ hm) 44 (by simp [AttrDelim]) (by decide)

theorem later_entry (m : Meta) (i : Nat) (e : Entry) (he : e.Ok) (hd : m.declared = none) (hi : i ≠ 0) :
    m.processOne i e.text = .ok (m.setAttr (e.meaning (i + 1)).1 (e.meaning (i + 1)).2) := by
  cases e with
  | named k v =>
    unfold processOne Entry.text
    simp only [keyValues_named k v he.1 he.2.1, bind, Except.bind, he.2.2, if_false]
    rfl
  | pos v =>
    have hq : v.head? ≠ some 34 := fun h => clean_not v he.1 34 (by simp [AttrDelim]) (List.mem_of_mem_head? h)
    have hne : v.isEmpty = false := by simp [he.2]
    unfold processOne Entry.text
    simp only [keyValues_none v he.1, bind, Except.bind]
    rw [if_neg (fun h => hi h.1)]
    simp only [hne, Bool.false_eq_true, if_false]
    unfold processAttribute
    simp only [hd, hq, if_false]
    rfl

theorem process_items (es : List Item) (he : ∀ e ∈ es, e.Ok) (m : Meta) (i : Nat) (hd : m.declared = none) (hi : i ≠ 0) :
    m.processFrom i (es.map Item.rest) = .ok { m with attributes := m.attributes.extend (otherOnes (i + 1) es) } := by
  induction es generalizing m i with
  | nil => rfl
  | cons e es ih =>
    have ho := he e (by simp)
    have ih' := fun m hd => ih (fun x hx => he x (by simp [hx])) m (i + 1) hd (by omega)
    cases e with
    | quoted k v =>
      have : m.processOne i [] = .ok m := by
        unfold processOne
        simp only [show keyValues [] = .ok none from rfl, bind, Except.bind]
        simp [pure, Except.pure]
      simp only [List.map_cons, Item.rest, processFrom, this, bind, Except.bind, ih' m hd, otherOnes]
    | plain e =>
      simp only [List.map_cons, Item.rest, processFrom, later_entry m i e ho hd hi, bind, Except.bind,
        ih' (m.setAttr _ _) hd, otherOnes]
      simp [setAttr, SMap.extend]

/-- **C30, partial** (mixed lists): in a list with at least one quoted entry, in any order, every name has the value of its
last entry without quotes, or else of its last quoted entry; an unnamed entry has its position as name, but with the number
of quoted entries added; nothing else is added, and no kind of block is declared, not even if the list begins with `source`,
`quote` or `verse`. No quoted entry is the end of another one (see `C30_invented`). -/
theorem C30_mixed_partial (es : List Item) (he : ∀ e ∈ es, e.Ok) (hq : quotedOnes es ≠ [])
    (hs : ∀ k v k', Item.quoted k v ∈ es → Item.quoted k' v ∈ es → k <:+ k' → k = k') :
    ∃ m, processAttributes {} (extractAttributes (joinB c!"," (es.map Item.text))) = .ok m
      ∧ (∀ k, m.attributes.get? k = (SMap.last? (otherOnes ((quotedOnes es).length + 1) es) k).or (SMap.last? (quotedOnes es) k))
      ∧ m.declared = none ∧ m.roles = [] ∧ m.options = [] := by
  have hne : es ≠ [] := by rintro rfl; exact hq rfl
  have hqs : ∀ q ∈ quotedNamed es, q.Ok := fun q hq => by
    obtain ⟨h1, h2⟩ := quotedNamed_mem hq
    have := he _ h1
    obtain ⟨qq, k, v⟩ := q
    subst h2
    exact this
  have happ : ∀ (a b : List Str) (m : Meta) (i : Nat), m.processFrom i (a ++ b) = (m.processFrom i a >>= fun m' => m'.processFrom (i + a.length) b) := by
    intro a
    induction a with
    | nil => intro b m i; rfl
    | cons x a ih =>
      intro b m i
      simp only [List.cons_append, processFrom, bind, Except.bind]
      cases m.processOne i x with
      | error e => rfl
      | ok m' =>
        have := ih b m' (i + 1)
        simp only [bind, Except.bind] at this
        rw [show i + (x :: a).length = i + 1 + a.length by simp; omega]
        exact this
  have hp1 := process_named (fun _ => false) (quotedNamed es) hqs {} 0
  simp only [Bool.false_eq_true, if_false, Bool.not_false, List.filter_eq_self.2 (fun _ _ => rfl : ∀ a ∈ quotedNamed es, (fun _ => true) a = true)] at hp1
  have hl : ((quotedNamed es).map Named.text).length = (quotedOnes es).length := by simp [quotedNamed]
  have hl0 : (quotedOnes es).length ≠ 0 := by simpa using hq
  have hm : (quotedNamed es).map (fun e => (e.key, e.value)) = quotedOnes es := by
    rw [quotedNamed, List.map_map]; exact List.map_id _
  rw [hm] at hp1
  refine ⟨_, by
    unfold processAttributes
    rw [items_split es hne he hs, happ, hp1]
    simp only [bind, Except.bind]
    rw [hl, process_items es he _ _ rfl (by omega)], ?_, rfl, rfl, rfl⟩
  intro k
  dsimp only
  rw [SMap.get?_extend, SMap.get?_extend, Nat.zero_add]
  simp [SMap.get?]

/-- A list that meets the hypotheses: `source,ruby,alt="p, q",n=1`. The kind of block and the language are not read. -/
theorem C30_mixed_sample : ∃ m, processAttributes {} (extractAttributes b!"source,ruby,alt=\"p, q\",n=1") = .ok m
    ∧ m.declared = none ∧ m.attributes.get? b!"language" = none ∧ m.attributes.get? b!"positional_2" = some b!"source"
    ∧ m.attributes.get? b!"positional_3" = some b!"ruby" ∧ m.attributes.get? b!"alt" = some b!"p, q"
    ∧ m.attributes.get? b!"n" = some b!"1" := by
  have hn : ∀ {l : Str}, (∀ b ∈ l, isWordB b = true) → ∀ b ∈ l, NameByte b := fun h b hb => (nameByte_iff b).2 (h b hb)
  obtain ⟨m, h, hk, hd, _⟩ := C30_mixed_partial
    [.plain (.pos b!"source"), .plain (.pos b!"ruby"), .quoted b!"alt" b!"p, q", .plain (.named b!"n" b!"1")]
    (by
      intro e he
      simp only [List.mem_cons, List.not_mem_nil, or_false] at he
      rcases he with rfl | rfl | rfl | rfl
      · exact ⟨by simp [Clean, AttrDelim], by simp⟩
      · exact ⟨by simp [Clean, AttrDelim], by simp⟩
      · exact ⟨by decide, fun _ => ⟨by simp, hn (by decide)⟩, fun _ => ⟨by decide, by decide, starts_ascii _ _ (by decide), by decide⟩, by simp⟩
      · exact ⟨by simp [Clean, AttrDelim], by simp [Clean, AttrDelim], by decide⟩)
    (by simp [quotedOnes])
    (by
      intro k v k' h1 h2 _
      simp only [List.mem_cons, List.not_mem_nil, or_false, reduceCtorEq, false_or, Item.quoted.injEq] at h1 h2
      rw [h1.1, h2.1])
  refine ⟨m, h, hd, ?_, ?_, ?_, ?_, ?_⟩
  all_goals
    rw [hk]
    decide

/-- The metadata of the first block of a text: the language, and whether a kind is declared. -/
def firstLanguage (text : Str) : M (Option Str × Bool) :=
  (parseText emptyWorld 5 text).map fun g =>
    match g.blocks with
    | .leaf _ _ _ _ (some m) _ :: _ => (m.attributes.get? b!"language", m.declared.isSome)
    | _ => (none, false)

/-- **C30** is false: with a quoted entry in the list, `source` does not declare a listing, and its language is not read. -/
theorem C30_language_lost :
    returns (firstLanguage b!"[source,ruby]\n----\na\n----\n") (some b!"ruby", true) = true
      ∧ returns (firstLanguage b!"[source,ruby,alt=\"p\"]\n----\na\n----\n") (none, false) = true := by
  decide +kernel

end Adoc.Props
