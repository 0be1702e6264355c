import Verif.Props.Metadata
import Verif.Proof.RichDoc
/-!
# C30: lists of named entries, with and without quotes
-/
namespace Adoc.Props
open Adoc Meta

/-- A named entry of an attribute list: `key=value` or `key="value"`. -/
structure Named where
  quotes : Bool
  key : Str
  value : Str

/-- The entry as it is written. -/
def Named.text (e : Named) : Str := if e.quotes then quotedText e.key e.value else e.key ++ c!"=" :: e.value

/-- Names of entries in quotes are words, and their values are on one line and do not end with an equals sign; entries without quotes have no
delimiters in them. -/
structure Named.Ok (e : Named) : Prop where
  role : e.key ≠ b!"role"
  word : e.quotes = true → e.key ≠ [] ∧ ∀ b ∈ e.key, NameByte b
  inside : e.quotes = true → c!"\"" ∉ e.value ∧ c!"\n" ∉ e.value ∧ Starts e.value ∧ e.value.getLast? ≠ some c!"="
  plain : e.quotes = false → Clean e.key ∧ Clean e.value

/-! ## Finding the quotes -/

theorem quotedF_skip (p rest : Str) (hp : c!"=" ∉ p) (n : Nat) (w : Str) (hn : p.length ≤ n) :
    ∃ w', quotedF n w (p ++ rest) = quotedF (n - p.length) w' rest := by
  induction p generalizing n w with
  | nil => exact ⟨w, rfl⟩
  | cons b p ih =>
    simp only [List.mem_cons, not_or] at hp
    simp only [List.length_cons] at hn
    obtain ⟨m, rfl⟩ : ∃ m, n = m + 1 := ⟨n - 1, by omega⟩
    simp only [List.cons_append, quotedF, Ne.symm hp.1, if_false]
    obtain ⟨w', h⟩ := ih hp.2 m (if isWordB b then b :: w else []) (by omega)
    exact ⟨w', by rw [h]; congr 1; simp⟩

theorem quotedF_words (k rest : Str) (hk : ∀ b ∈ k, isWordB b = true) (n : Nat) (w : Str) (hn : k.length ≤ n) :
    quotedF n w (k ++ rest) = quotedF (n - k.length) (k.reverse ++ w) rest := by
  induction k generalizing n w with
  | nil => rfl
  | cons b k ih =>
    have hb := hk b (by simp)
    simp only [List.length_cons] at hn
    obtain ⟨m, rfl⟩ : ∃ m, n = m + 1 := ⟨n - 1, by omega⟩
    have hne : b ≠ c!"=" := by rintro rfl; revert hb; decide
    simp only [List.cons_append, quotedF, hne, if_false, hb, if_true]
    rw [ih (fun x hx => hk x (by simp [hx])) m _ (by omega)]
    simp

/-- What comes after an entry: nothing, or a comma and the other entries. -/
def tailText : List Named → Str
  | [] => []
  | es => c!"," :: joinB c!"," (es.map Named.text)

theorem joinB_text (e : Named) (es : List Named) : joinB c!"," ((e :: es).map Named.text) = e.text ++ tailText es := by
  cases es with
  | nil => simp [joinB, tailText]
  | cons e' es => simp [joinB, tailText]

theorem quotedF_named (es : List Named) (he : ∀ e ∈ es, e.Ok) : ∀ n, (joinB c!"," (es.map Named.text)).length < n →
    quotedF n [] (joinB c!"," (es.map Named.text)) = (es.filter (·.quotes)).map Named.text := by
  induction es with
  | nil => intro n _; cases n <;> rfl
  | cons e es ih =>
    intro n hn
    have hrest : ∀ (m : Nat) (w : Str), (tailText es).length < m → quotedF m w (tailText es) = (es.filter (·.quotes)).map Named.text := by
      intro m w hm
      cases es with
      | nil => cases m <;> rfl
      | cons e' es =>
        simp only [tailText, List.length_cons] at hm
        obtain ⟨m, rfl⟩ : ∃ k, m = k + 1 := ⟨m - 1, by omega⟩
        have : isWordB c!"," = false := by decide
        simp only [tailText, quotedF, this]
        rw [if_neg (by decide)]
        exact ih (fun x hx => he x (by simp [hx])) m (by omega)
    rw [joinB_text] at hn ⊢
    have ho := he e (by simp)
    cases hq : e.quotes with
    | true =>
      obtain ⟨_, hw⟩ := ho.word hq
      obtain ⟨h1, h2, _, _⟩ := ho.inside hq
      have ht : e.text = quotedText e.key e.value := by simp [Named.text, hq]
      have e1 : e.text ++ tailText es = e.key ++ (61 :: 34 :: (e.value ++ 34 :: tailText es)) := by rw [ht]; simp [quotedText]
      have hl : n = e.key.length + (n - e.key.length - 1) + 1 := by rw [e1] at hn; simp at hn; omega
      have hl2 : (tailText es).length < n - e.key.length - 1 := by rw [e1] at hn; simp at hn; omega
      rw [e1, quotedF_words _ _ (fun b hb => (nameByte_iff b).1 (hw b hb)) n [] (by omega)]
      obtain ⟨m, hm⟩ : ∃ m, n - e.key.length = m + 1 := ⟨n - e.key.length - 1, by omega⟩
      rw [hm, quotedF]
      simp only [if_true, cutQuote_body e.value _ h1 h2, List.append_nil, List.reverse_reverse]
      rw [hrest m [] (by omega)]
      simp [hq, ht, quotedText]
    | false =>
      obtain ⟨hk, hv⟩ := ho.plain hq
      have ht : e.text = e.key ++ c!"=" :: e.value := by simp [Named.text, hq]
      have e1 : e.text ++ tailText es = e.key ++ (61 :: (e.value ++ tailText es)) := by rw [ht]; simp
      rw [e1] at hn ⊢
      simp only [List.length_append, List.length_cons] at hn
      obtain ⟨w', h⟩ := quotedF_skip e.key (61 :: (e.value ++ tailText es)) (clean_not _ hk _ (by simp [AttrDelim])) n [] (by omega)
      rw [h]
      obtain ⟨m, hm⟩ : ∃ m, n - e.key.length = m + 1 := ⟨n - e.key.length - 1, by omega⟩
      rw [hm]
      have hend : quotedF m [] (e.value ++ tailText es) = ((e :: es).filter (·.quotes)).map Named.text := by
        obtain ⟨w2, h2⟩ := quotedF_skip e.value (tailText es) (clean_not _ hv _ (by simp [AttrDelim])) m [] (by omega)
        rw [h2, hrest _ _ (by omega)]
        simp [hq]
      have hhead : (e.value ++ tailText es).head? ≠ some c!"\"" := by
        cases hv' : e.value with
        | nil =>
          cases es <;> simp [tailText]
        | cons b v =>
          have : b ≠ 34 := by
            rintro rfl
            exact hv 34 (by rw [hv']; simp) (by simp [AttrDelim])
          simpa using this
      cases hr : e.value ++ tailText es with
      | nil =>
        rw [hr] at hend
        rw [← hend]
        simp only [quotedF, if_true]
        cases m <;> rfl
      | cons q rest =>
        rw [hr] at hend hhead
        simp only [List.head?_cons, ne_eq, Option.some.injEq] at hhead
        simp only [quotedF, if_true, hhead, if_false]
        exact hend

/-! ## Taking the quoted entries out -/

theorem eraseF_fuel (q : Str) (hq : q ≠ []) : ∀ (n m : Nat) (s : Str), s.length < n → s.length < m → eraseF q n s = eraseF q m s := by
  intro n
  induction n with
  | zero => intro m s h; omega
  | succ n ih =>
    intro m s h h'
    obtain ⟨m, rfl⟩ : ∃ k, m = k + 1 := ⟨m - 1, by omega⟩
    cases s with
    | nil => rfl
    | cons b s =>
      have hl : 0 < q.length := List.length_pos_iff.2 hq
      simp only [List.length_cons] at h h'
      simp only [eraseF]
      rw [ih m _ (by simp; omega) (by simp; omega), ih m s (by omega) (by omega)]

theorem erase_skip (q : Str) (p rest : Str) (h : ∀ a b, p = a ++ b → b ≠ [] → ¬q <+: b ++ rest) :
    erase q (p ++ rest) = p ++ erase q rest := by
  induction p with
  | nil => rfl
  | cons x p ih =>
    have h0 : q.isPrefixOf (x :: (p ++ rest)) = false := by
      cases hx : q.isPrefixOf (x :: (p ++ rest)) with
      | false => rfl
      | true => exact absurd (List.isPrefixOf_iff_prefix.1 hx) (h [] (x :: p) rfl (by simp))
    have := ih fun a b hab hb => h (x :: a) b (by rw [hab]; rfl) hb
    unfold erase at this ⊢
    simp only [List.cons_append, List.length_cons, eraseF, h0, Bool.false_eq_true, if_false]
    rw [this]

theorem erase_front (q rest : Str) (hq : q ≠ []) : erase q (q ++ rest) = erase q rest := by
  cases q with
  | nil => exact absurd rfl hq
  | cons b q =>
    have hp : (b :: q).isPrefixOf (b :: (q ++ rest)) = true := List.isPrefixOf_iff_prefix.2 ⟨rest, rfl⟩
    unfold erase
    simp only [List.cons_append, eraseF, hp, if_true]
    rw [show (b :: (q ++ rest)).drop (b :: q).length = rest by simp]
    exact eraseF_fuel _ (by simp) _ _ _ (by simp; omega) (by simp)

/-- Where the first double quotes are. -/
theorem first_quote {a b a' b' : Str} (h : a ++ 34 :: b <+: a' ++ 34 :: b') (ha : (34 : UInt8) ∉ a) (ha' : (34 : UInt8) ∉ a') :
    a = a' ∧ b <+: b' := by
  induction a generalizing a' with
  | nil =>
    cases a' with
    | nil =>
      simp only [List.nil_append, List.cons_prefix_cons] at h
      exact ⟨rfl, h.2⟩
    | cons x a' =>
      simp only [List.nil_append, List.cons_append, List.cons_prefix_cons] at h
      exact absurd h.1 fun e => ha' (by simp [e])
  | cons x a ih =>
    simp only [List.mem_cons, not_or] at ha
    cases a' with
    | nil =>
      simp only [List.nil_append, List.cons_append, List.cons_prefix_cons] at h
      exact absurd h.1.symm ha.1
    | cons y a' =>
      simp only [List.mem_cons, not_or] at ha'
      simp only [List.cons_append, List.cons_prefix_cons] at h
      obtain ⟨h1, h2⟩ := ih h.2 ha.2 ha'.2
      exact ⟨by rw [h.1, h1], h2⟩

theorem no_quote {a b s : Str} (h : a ++ 34 :: b <+: s) : (34 : UInt8) ∈ s := h.subset (by simp)

theorem comma_first {a b t r : Str} (h : a ++ 34 :: b <+: t ++ 44 :: r) (ha : (44 : UInt8) ∉ a) (ht : (34 : UInt8) ∉ t) : False := by
  induction a generalizing t with
  | nil =>
    cases t with
    | nil => simp only [List.nil_append, List.cons_prefix_cons] at h; exact absurd h.1 (by decide)
    | cons x t =>
      simp only [List.nil_append, List.cons_append, List.cons_prefix_cons] at h
      exact ht (by simp [h.1])
  | cons x a ih =>
    simp only [List.mem_cons, not_or] at ha
    cases t with
    | nil => simp only [List.nil_append, List.cons_append, List.cons_prefix_cons] at h; exact ha.1 h.1.symm
    | cons y t =>
      simp only [List.mem_cons, not_or] at ht
      simp only [List.cons_append, List.cons_prefix_cons] at h
      exact ih h.2 ha.2 ht.2

/-- After an entry. -/
def Then (t : Str) : Prop := t = [] ∨ ∃ r, t = 44 :: r

/-- Apart from itself, a quoted entry is not found in another one. -/
theorem erase_other {q e : Named} (hq : q.quotes = true) (hqo : q.Ok) (heo : e.Ok)
    (hs : e.quotes = true → q.value = e.value → q.key <:+ e.key → q.key = e.key) (hne : e.text ≠ q.text) {t : Str} (ht : Then t) :
    erase q.text (e.text ++ t) = e.text ++ erase q.text t := by
  obtain ⟨hk0, hkw⟩ := hqo.word hq
  obtain ⟨hq1, hq2, _, _⟩ := hqo.inside hq
  have hclean : Clean q.key := word_clean _ fun b hb => (nameByte_iff b).1 (hkw b hb)
  have hqt : q.text = (q.key ++ [61]) ++ 34 :: (q.value ++ [34]) := by simp [Named.text, hq, quotedText]
  have hK : (34 : UInt8) ∉ q.key ++ [61] := by simp [clean_not _ hclean 34 (by simp [AttrDelim])]
  have hKc : (44 : UInt8) ∉ q.key ++ [61] := by simp [clean_not _ hclean 44 (by simp [AttrDelim])]
  refine erase_skip _ _ _ fun a b hab hb hpre => ?_
  rw [hqt] at hpre
  cases he : e.quotes with
  | false =>
    obtain ⟨h1, h2⟩ := heo.plain he
    have h3 : (34 : UInt8) ∉ b := by
      intro hn
      have : (34 : UInt8) ∈ e.text := by rw [hab]; simp [hn]
      rw [show e.text = e.key ++ 61 :: e.value by simp [Named.text, he]] at this
      simp only [List.mem_append, List.mem_cons] at this
      rcases this with h | h | h
      · exact clean_not _ h1 34 (by simp [AttrDelim]) h
      · exact absurd h (by decide)
      · exact clean_not _ h2 34 (by simp [AttrDelim]) h
    rcases ht with rfl | ⟨r, rfl⟩
    · rw [List.append_nil] at hpre
      exact h3 (no_quote hpre)
    · exact comma_first hpre hKc h3
  | true =>
    obtain ⟨_, hew⟩ := heo.word he
    obtain ⟨he1, he2, _, he4⟩ := heo.inside he
    have heclean : Clean e.key := word_clean _ fun b hb => (nameByte_iff b).1 (hew b hb)
    have het : e.text = e.key ++ (61 :: 34 :: (e.value ++ [34])) := by simp [Named.text, he, quotedText]
    rw [het] at hab
    have hinner : ∀ (x : Str), (34 : UInt8) ∉ x → x.getLast? ≠ some 61 → (q.key ++ [61]) ++ 34 :: (q.value ++ [34]) <+: x ++ 34 :: t → False := by
      intro x hx hl hp
      have := (first_quote hp hK hx).1
      exact hl (by rw [← this]; simp)
    rcases List.append_eq_append_iff.1 hab with ⟨c, hc, hc2⟩ | ⟨c, hc, hc2⟩
    · -- past the name
      rcases c with _ | ⟨x, c⟩
      · -- at the equals sign
        simp only [List.nil_append] at hc2
        rw [← hc2] at hpre
        have := (first_quote (a' := [61]) (b' := e.value ++ [34] ++ t) (by simpa using hpre) hK (by simp)).1
        exact hk0 (List.append_cancel_right (as := q.key) (bs := [61]) (cs := []) this)
      · simp only [List.cons_append, List.cons.injEq] at hc2
        obtain ⟨rfl, hc2⟩ := hc2
        rcases c with _ | ⟨y, c⟩
        · simp only [List.nil_append] at hc2
          rw [← hc2] at hpre
          have := (first_quote (a' := []) (b' := e.value ++ [34] ++ t) (by simpa using hpre) hK (by simp)).1
          simp at this
        · simp only [List.cons_append, List.cons.injEq] at hc2
          obtain ⟨rfl, hc2⟩ := hc2
          -- in the value
          rcases List.append_eq_append_iff.1 hc2 with ⟨d, hd, hd2⟩ | ⟨d, hd, hd2⟩
          · rcases d with _ | ⟨z, d⟩
            · simp only [List.nil_append] at hd2
              rw [← hd2] at hpre
              exact hinner [] (by simp) (by simp) (by simpa using hpre)
            · simp only [List.cons_append, List.cons.injEq] at hd2
              obtain ⟨_, hd2⟩ := hd2
              have := List.append_eq_nil_iff.1 hd2.symm
              exact hb this.2
          · rw [hd2] at hpre
            rcases List.eq_nil_or_concat d with rfl | ⟨d', z, rfl⟩
            · exact hinner [] (by simp) (by simp) (by simpa using hpre)
            · refine hinner (d'.concat z) (fun hn => he1 (by rw [hd]; simp only [List.mem_append]; exact .inr hn)) ?_ (by simpa using hpre)
              rw [hd] at he4
              simpa using he4
    · -- in the name
      rw [hc2] at hpre
      have hcq : (34 : UInt8) ∉ c ++ [61] := by
        have : (34 : UInt8) ∉ e.key := clean_not _ heclean 34 (by simp [AttrDelim])
        rw [hc] at this
        simp only [List.mem_append, not_or] at this
        simp [this.2]
      obtain ⟨h1, h2⟩ := first_quote (a' := c ++ [61]) (b' := e.value ++ 34 :: t) (by simpa using hpre) hK hcq
      have h3 : q.key = c := List.append_cancel_right h1
      obtain ⟨h4, _⟩ := first_quote h2 hq1 he1
      have h5 := hs he h4 ⟨a, by rw [hc, h3]⟩
      refine hne ?_
      rw [het, hqt, h5, h4]
      simp

theorem erase_comma {q : Named} (hq : q.quotes = true) (hqo : q.Ok) (t : Str) : erase q.text (44 :: t) = 44 :: erase q.text t := by
  obtain ⟨hk0, hkw⟩ := hqo.word hq
  refine erase_skip q.text [44] t fun a b hab hb hpre => ?_
  have hbe : b = [44] := by
    rcases a with _ | ⟨x, a⟩
    · exact hab.symm
    · simp only [List.cons_append, List.cons.injEq] at hab
      exact absurd (List.append_eq_nil_iff.1 hab.2.symm).2 hb
  subst hbe
  cases hk : q.key with
  | nil => exact hk0 hk
  | cons x k =>
    rw [show q.text = x :: (k ++ [61] ++ 34 :: (q.value ++ [34])) by simp [Named.text, hq, quotedText, hk]] at hpre
    simp only [List.cons_append, List.cons_prefix_cons] at hpre
    have := (nameByte_iff x).1 (hkw x (by rw [hk]; simp))
    rw [hpre.1] at this
    exact absurd this (by decide)

/-- A quoted entry is not found in a piece without quotes. -/
theorem erase_plain {q : Named} (hq : q.quotes = true) (hqo : q.Ok) {s : Str} (hs : (34 : UInt8) ∉ s) {t : Str} (ht : Then t) :
    erase q.text (s ++ t) = s ++ erase q.text t := by
  obtain ⟨hk0, hkw⟩ := hqo.word hq
  have hclean : Clean q.key := word_clean _ fun b hb => (nameByte_iff b).1 (hkw b hb)
  have hqt : q.text = (q.key ++ [61]) ++ 34 :: (q.value ++ [34]) := by simp [Named.text, hq, quotedText]
  have hKc : (44 : UInt8) ∉ q.key ++ [61] := by simp [clean_not _ hclean 44 (by simp [AttrDelim])]
  refine erase_skip _ _ _ fun a b hab hb hpre => ?_
  rw [hqt] at hpre
  have h3 : (34 : UInt8) ∉ b := fun hn => hs (by rw [hab]; simp [hn])
  rcases ht with rfl | ⟨r, rfl⟩
  · rw [List.append_nil] at hpre
    exact h3 (no_quote hpre)
  · exact comma_first hpre hKc h3

/-- A piece of the list while entries are taken out: without quotes, or an entry in which others are not found. -/
def Held (qs : List Named) (s : Str) : Prop :=
  (34 : UInt8) ∉ s ∨ ∃ e : Named, e.Ok ∧ s = e.text ∧ ∀ q ∈ qs, e.quotes = true → q.value = e.value → q.key <:+ e.key → q.key = e.key

theorem text_ne {q : Named} (hq : q.quotes = true) : q.text ≠ [] := by simp [Named.text, hq, quotedText]

theorem erase_join {q : Named} (hq : q.quotes = true) (hqo : q.Ok) (segs : List Str) (hs : ∀ s ∈ segs, Held [q] s) :
    erase q.text (joinB 44 segs) = joinB 44 (segs.map fun s => if s = q.text then [] else s) := by
  have one : ∀ s, Held [q] s → ∀ t, Then t → erase q.text (s ++ t) = (if s = q.text then [] else s) ++ erase q.text t := by
    intro s h t ht
    rcases h with h | ⟨e, heo, rfl, he⟩
    · rw [if_neg (by rintro rfl; exact h (by simp [Named.text, hq, quotedText]))]
      exact erase_plain hq hqo h ht
    · by_cases hx : e.text = q.text
      · rw [if_pos hx, hx]; exact erase_front _ _ (text_ne hq)
      · rw [if_neg hx]; exact erase_other hq hqo heo (he q (by simp)) hx ht
  match segs with
  | [] => rfl
  | [s] =>
    have := one s (hs s (by simp)) [] (.inl rfl)
    simpa [joinB, erase, eraseF] using this
  | s :: s' :: r =>
    have ih := erase_join hq hqo (s' :: r) fun x hx => hs x (by simp [hx])
    simp only [joinB, List.map_cons] at ih ⊢
    rw [one s (hs s (by simp)) _ (.inr ⟨_, rfl⟩), erase_comma hq hqo, ih]

theorem erase_all (qs : List Named) (hq : ∀ q ∈ qs, q.quotes = true ∧ q.Ok) (segs : List Str) (hs : ∀ s ∈ segs, Held qs s) :
    (qs.map Named.text).foldl (fun acc total => erase total acc) (joinB 44 segs)
      = joinB 44 (segs.map fun s => if s ∈ qs.map Named.text then [] else s) := by
  induction qs generalizing segs with
  | nil => simp
  | cons q qs ih =>
    have held : ∀ s ∈ segs, Held [q] s ∧ Held qs s := by
      intro s h
      rcases hs s h with h | ⟨e, h1, h2, h3⟩
      · exact ⟨.inl h, .inl h⟩
      · exact ⟨.inr ⟨e, h1, h2, fun x hx => h3 x (by simp at hx; simp [hx])⟩, .inr ⟨e, h1, h2, fun x hx => h3 x (by simp [hx])⟩⟩
    rw [List.map_cons, List.foldl_cons, erase_join (hq q (by simp)).1 (hq q (by simp)).2 segs fun s h => (held s h).1,
      ih (fun x hx => hq x (by simp [hx])) _ fun s h => by
        obtain ⟨s', h', rfl⟩ := List.mem_map.1 h
        split
        · exact .inl (by simp)
        · exact (held s' h').2]
    congr 1
    rw [List.map_map]
    refine List.map_congr_left fun s _ => ?_
    simp only [Function.comp_def, List.mem_cons]
    by_cases h1 : s = q.text
    · simp [h1]
    · simp [h1]

/-! ## Reading the entries -/

theorem inj_of_nodup {α β : Type} {f : α → β} {l : List α} (h : (l.map f).Nodup) {x y : α} (hx : x ∈ l) (hy : y ∈ l) (he : f x = f y) : x = y := by
  induction l with
  | nil => cases hx
  | cons a l ih =>
    simp only [List.map_cons, List.nodup_cons] at h
    rcases List.mem_cons.1 hx with rfl | hx <;> rcases List.mem_cons.1 hy with rfl | hy
    · rfl
    · exact absurd (he ▸ List.mem_map_of_mem hy) h.1
    · rename_i hx'
      exact absurd (he ▸ List.mem_map_of_mem hx') h.1
    · exact ih h.2 hx hy

theorem keyValues_quoted (e : Named) (he : e.Ok) (hq : e.quotes = true) : keyValues e.text = .ok (some (e.key, e.value)) := by
  obtain ⟨_, hw⟩ := he.word hq
  obtain ⟨h1, h2, hs, _⟩ := he.inside hq
  have hc : Clean e.key := word_clean _ fun b hb => (nameByte_iff b).1 (hw b hb)
  have et : e.text = e.key ++ (61 :: 34 :: (e.value ++ [34])) := by simp [Named.text, hq, quotedText]
  have hn : (10 : UInt8) ∉ e.text := by
    rw [et]
    simp [clean_not _ hc 10 (by simp [AttrDelim]), h2]
  unfold keyValues reNamed
  rw [splitOnB_plain _ _ hn, cutLines, et, cutDelim_key e.key _ _ hc (by simp)]
  have := sliceM_mid [34] e.value [34] (starts_append _ _ hs (starts_ascii _ _ (by decide)))
    (starts_ascii _ _ (by decide)) 1 ((34 :: (e.value ++ [34])).length - 1) rfl (by simp; omega)
  simp only [List.cons_append, List.nil_append] at this
  simp only [if_true, this, bind, Except.bind]
  rfl

theorem keyValues_text (e : Named) (he : e.Ok) : keyValues e.text = .ok (some (e.key, e.value)) := by
  cases hq : e.quotes with
  | true => exact keyValues_quoted e he hq
  | false =>
    rw [show e.text = e.key ++ c!"=" :: e.value by simp [Named.text, hq]]
    exact keyValues_named _ _ (he.plain hq).1 (he.plain hq).2

theorem process_named (f : Named → Bool) (es : List Named) (he : ∀ e ∈ es, e.Ok) (m : Meta) (i : Nat) :
    m.processFrom i (es.map fun e => if f e then [] else e.text)
      = .ok { m with attributes := m.attributes.extend ((es.filter fun e => !f e).map fun e => (e.key, e.value)) } := by
  induction es generalizing m i with
  | nil => rfl
  | cons e es ih =>
    have ho := he e (by simp)
    have ih' := fun m i => ih (fun x hx => he x (by simp [hx])) m i
    simp only [List.map_cons, processFrom]
    cases hf : f e with
    | true =>
      have : m.processOne i [] = .ok m := by
        unfold processOne
        simp only [show keyValues [] = .ok none from rfl, bind, Except.bind]
        simp [pure, Except.pure]
      simp only [if_true, this, bind, Except.bind, ih', List.filter_cons, hf, Bool.not_true, Bool.false_eq_true, if_false]
    | false =>
      have : m.processOne i e.text = .ok (m.setAttr e.key e.value) := by
        unfold processOne
        simp only [keyValues_text e ho, bind, Except.bind, ho.role, if_false]
        rfl
      simp only [Bool.false_eq_true, if_false, this, bind, Except.bind, ih', List.filter_cons, hf, Bool.not_false, if_true]
      simp [setAttr, SMap.extend]

/-- **C30, partial** (named entries): in a list of entries with different names, with and without quotes in any order, every name has its
value, and nothing else is added. No quoted entry is the end of another one (see `C30_invented`). -/
theorem C30_named_partial (es : List Named) (hne : es ≠ []) (he : ∀ e ∈ es, e.Ok) (hd : (es.map (·.key)).Nodup)
    (hs : ∀ a ∈ es, ∀ b ∈ es, a.quotes = true → b.quotes = true → a.value = b.value → a.key <:+ b.key → a.key = b.key) :
    ∃ m, processAttributes {} (extractAttributes (joinB c!"," (es.map Named.text))) = .ok m
      ∧ (∀ e ∈ es, m.attributes.get? e.key = some e.value) ∧ (∀ k, k ∉ es.map (·.key) → m.attributes.get? k = none)
      ∧ m.roles = [] ∧ m.options = [] := by
  have hqs : ∀ q ∈ es.filter (·.quotes), q.quotes = true ∧ q.Ok := fun q hq => by
    simp only [List.mem_filter] at hq
    exact ⟨hq.2, he q hq.1⟩
  have hx : extractAttributes (joinB c!"," (es.map Named.text))
      = (es.filter (·.quotes)).map Named.text ++ es.map fun e => if e.quotes then [] else e.text := by
    unfold extractAttributes quoted
    rw [quotedF_named es he _ (Nat.lt_succ_self _)]
    dsimp only
    rw [erase_all _ hqs _ fun s h => by
      obtain ⟨e, hm, rfl⟩ := List.mem_map.1 h
      refine .inr ⟨e, he e hm, rfl, fun q hq h1 h2 h3 => hs q ?_ e hm (hqs q hq).1 h1 h2 h3⟩
      exact (List.mem_filter.1 hq).1]
    have hmap : (es.map Named.text).map (fun s => if s ∈ (es.filter (·.quotes)).map Named.text then [] else s)
        = es.map fun e => if e.quotes then [] else e.text := by
      rw [List.map_map]
      refine List.map_congr_left fun e hm => ?_
      simp only [Function.comp_def]
      cases hq : e.quotes with
      | true => rw [if_pos (List.mem_map_of_mem (List.mem_filter.2 ⟨hm, hq⟩))]; rfl
      | false =>
        rw [if_neg]
        · rfl
        · intro hn
          obtain ⟨q, hqm, hqe⟩ := List.mem_map.1 hn
          have h1 : (34 : UInt8) ∈ q.text := by simp [Named.text, (hqs q hqm).1, quotedText]
          rw [hqe, show e.text = e.key ++ 61 :: e.value by simp [Named.text, hq]] at h1
          obtain ⟨h2, h3⟩ := (he e hm).plain hq
          simp only [List.mem_append, List.mem_cons] at h1
          rcases h1 with h | h | h
          · exact clean_not _ h2 34 (by simp [AttrDelim]) h
          · exact absurd h (by decide)
          · exact clean_not _ h3 34 (by simp [AttrDelim]) h
    rw [hmap, splitOnB_join _ _ (by simpa using hne)]
    intro s h
    obtain ⟨e, hm, rfl⟩ := List.mem_map.1 h
    split
    · simp
    · rename_i hq
      have hq : e.quotes = false := by simpa using hq
      obtain ⟨h2, h3⟩ := (he e hm).plain hq
      rw [show e.text = e.key ++ 61 :: e.value by simp [Named.text, hq]]
      simp [clean_not _ h2 44 (by simp [AttrDelim]), clean_not _ h3 44 (by simp [AttrDelim])]
  have ft : ∀ l : List Named, l.filter (fun _ => true) = l := fun l => List.filter_eq_self.2 (by simp)
  have hp1 := process_named (fun _ => false) (es.filter (·.quotes)) (fun e h => (hqs e h).2)
  have hp2 := process_named (·.quotes) es he
  have happ : ∀ (a b : List Str) (m : Meta) (i : Nat), m.processFrom i (a ++ b) = (m.processFrom i a >>= fun m' => m'.processFrom (i + a.length) b) := by
    intro a
    induction a with
    | nil => intro b m i; rfl
    | cons x a ih =>
      intro b m i
      simp only [List.cons_append, processFrom, bind, Except.bind]
      cases m.processOne i x with
      | error e => rfl
      | ok m' =>
        have := ih b m' (i + 1)
        simp only [bind, Except.bind] at this
        rw [show i + (x :: a).length = i + 1 + a.length by simp; omega]
        exact this
  simp only [Bool.false_eq_true, if_false, Bool.not_false, ft] at hp1
  refine ⟨_, by unfold processAttributes; rw [hx, happ, hp1]; simp only [bind, Except.bind]; rw [hp2], ?_, ?_, rfl, rfl⟩
  all_goals
    have hu : ∀ f : Named → Bool, SMap.Uniq ((es.filter f).map fun e => (e.key, e.value)) := by
      intro f
      unfold SMap.Uniq
      rw [List.map_map]
      exact (List.filter_sublist.map _).nodup hd
  · intro e hm
    dsimp only
    rw [SMap.get?_extend, SMap.get?_extend, SMap.last?_eq_get? _ (hu _), SMap.last?_eq_get? _ (hu _)]
    have hin : ∀ f : Named → Bool, f e = true → SMap.get? ((es.filter f).map fun e => (e.key, e.value)) e.key = some e.value := by
      intro f hf
      exact Rich.get_mem _ (hu f) _ _ (List.mem_map.2 ⟨e, List.mem_filter.2 ⟨hm, hf⟩, rfl⟩)
    have hout : ∀ f : Named → Bool, f e = false → SMap.get? ((es.filter f).map fun e => (e.key, e.value)) e.key = none := by
      intro f hf
      cases hg : SMap.get? ((es.filter f).map fun e => (e.key, e.value)) e.key with
      | none => rfl
      | some v =>
        obtain ⟨x, hx, hxe⟩ := List.mem_map.1 (SMap.get?_mem _ _ _ hg)
        obtain ⟨hx1, hx2⟩ := List.mem_filter.1 hx
        have : x = e := by
          have hk : x.key = e.key := congrArg Prod.fst hxe
          exact inj_of_nodup hd hx1 hm hk
        rw [this, hf] at hx2
        cases hx2
    cases hq : e.quotes with
    | true => rw [hout _ (by simp [hq]), hin _ hq]; rfl
    | false => rw [hin _ (by simp [hq])]; rfl
  · intro k hk
    dsimp only
    rw [SMap.get?_extend, SMap.get?_extend, SMap.last?_eq_get? _ (hu _), SMap.last?_eq_get? _ (hu _)]
    have hout : ∀ f : Named → Bool, SMap.get? ((es.filter f).map fun e => (e.key, e.value)) k = none := by
      intro f
      cases hg : SMap.get? ((es.filter f).map fun e => (e.key, e.value)) k with
      | none => rfl
      | some v =>
        obtain ⟨x, hx, hxe⟩ := List.mem_map.1 (SMap.get?_mem _ _ _ hg)
        exact absurd (List.mem_map.2 ⟨x, (List.mem_filter.1 hx).1, congrArg Prod.fst hxe⟩) hk
    rw [hout, hout]
    rfl

/-- A list that meets the hypotheses: `width=40,alt="a, b",title="c"`. -/
theorem C30_named_sample : ∃ m, processAttributes {} (extractAttributes b!"width=40,alt=\"a, b\",title=\"c\"") = .ok m
    ∧ m.attributes.get? b!"alt" = some b!"a, b" ∧ m.attributes.get? b!"width" = some b!"40" ∧ m.attributes.get? b!"title" = some b!"c" := by
  have hn : ∀ {l : Str}, (∀ b ∈ l, isWordB b = true) → ∀ b ∈ l, NameByte b := fun h b hb => (nameByte_iff b).2 (h b hb)
  obtain ⟨m, h, hk, _⟩ := C30_named_partial [⟨false, b!"width", b!"40"⟩, ⟨true, b!"alt", b!"a, b"⟩, ⟨true, b!"title", b!"c"⟩] (by simp)
    (by
      intro e he
      simp only [List.mem_cons, List.not_mem_nil, or_false] at he
      rcases he with rfl | rfl | rfl
      · exact ⟨by decide, by simp, by simp, fun _ => ⟨by simp [Clean, AttrDelim], by simp [Clean, AttrDelim]⟩⟩
      · exact ⟨by decide, fun _ => ⟨by simp, hn (by decide)⟩, fun _ => ⟨by decide, by decide, starts_ascii _ _ (by decide), by decide⟩, by simp⟩
      · exact ⟨by decide, fun _ => ⟨by simp, hn (by decide)⟩, fun _ => ⟨by decide, by decide, starts_ascii _ _ (by decide), by decide⟩, by simp⟩)
    (by decide) (by decide)
  exact ⟨m, h, hk ⟨true, b!"alt", b!"a, b"⟩ (by simp), hk ⟨false, b!"width", b!"40"⟩ (by simp), hk ⟨true, b!"title", b!"c"⟩ (by simp)⟩

/-- Quoted entries are read before the others, so that of two entries of the same name the last one does not always win. -/
theorem C30_order : ∃ m, processAttributes {} (extractAttributes b!"a=x,a=\"y\"") = .ok m ∧ m.attributes.get? b!"a" = some b!"x" :=
  ⟨_, rfl, by decide⟩

end Adoc.Props
