import Verif.Spec.Character

namespace Meevax.Unicode

open Spec

/-! ### Fields of lines -/

theorem upTo_append {f : Line} (h : ';' ∉ f) (r : Line) : upTo (f ++ ';' :: r) = f := by
  induction f with
  | nil => simp [upTo]
  | cons c f ih =>
    have hc : c ≠ ';' := fun e => h (by simp [e])
    have := ih fun e => h (List.mem_cons_of_mem _ e)
    simp only [upTo, List.cons_append, List.takeWhile_cons] at this ⊢
    simp [hc, this]

theorem upTo_self {f : Line} (h : ';' ∉ f) : upTo f = f := by
  induction f with
  | nil => simp [upTo]
  | cons c f ih =>
    have hc : c ≠ ';' := fun e => h (by simp [e])
    have := ih fun e => h (List.mem_cons_of_mem _ e)
    simp only [upTo, List.takeWhile_cons] at this ⊢
    simp [hc, this]

theorem after_append {f : Line} (h : ';' ∉ f) (r : Line) : after (f ++ ';' :: r) = some r := by
  induction f with
  | nil => simp [after]
  | cons c f ih =>
    have hc : c ≠ ';' := fun e => h (by simp [e])
    have := ih fun e => h (List.mem_cons_of_mem _ e)
    simp only [after, List.cons_append, List.dropWhile_cons] at this ⊢
    simp [hc, this]

theorem join_cons (f g : Line) (fs : List Line) :
    List.intercalate [';'] (f :: g :: fs) = f ++ ';' :: List.intercalate [';'] (g :: fs) := by
  simp [List.intercalate]

theorem upTo_join {f : Line} {fs : List Line} (h : ';' ∉ f) : upTo (List.intercalate [';'] (f :: fs)) = f := by
  cases fs with
  | nil => simpa [List.intercalate] using upTo_self h
  | cons g fs => rw [join_cons, upTo_append h]

theorem skip_join : ∀ (k : Nat) (fs : List Line), (∀ f ∈ fs, ';' ∉ f) → k < fs.length →
    skip k (List.intercalate [';'] fs) = some (List.intercalate [';'] (fs.drop k))
  | 0, fs, _, _ => rfl
  | k + 1, [], _, h => by simp at h
  | k + 1, [f], _, h => by simp at h
  | k + 1, f :: g :: fs, hf, h => by
    rw [join_cons, skip, after_append (hf f (by simp))]
    exact skip_join k (g :: fs) (fun x hx => hf x (List.mem_cons_of_mem _ hx)) (by simpa using h)

theorem sed_join {k : Nat} {f : Line} {fs : List Line} (hf : ∀ x ∈ f :: fs, ';' ∉ x) (h : k < fs.length) :
    sed k (List.intercalate [';'] (f :: fs)) = some (f, fs[k]) := by
  cases fs with
  | nil => simp at h
  | cons g fs =>
    have h1 : ∀ x ∈ g :: fs, ';' ∉ x := fun x hx => hf x (List.mem_cons_of_mem _ hx)
    rw [sed, upTo_join (hf f (by simp)), join_cons, after_append (hf f (by simp))]
    simp only [Option.bind_some]
    rw [skip_join k _ h1 h, List.drop_eq_getElem_cons h]
    simp only [Option.map_some]
    rw [upTo_join (h1 _ (List.getElem_mem h))]

/-! ### Numbers -/

theorem hexDigit_val : ∀ d, d < 16 → digit 16 (hexDigit d) = some d := by decide

theorem decDigit_val : ∀ d, d < 10 → digit 10 (hexDigit d) = some d := by decide

theorem hexDigit_sep : ∀ d, d < 16 → hexDigit d ≠ ';' := by decide

theorem literal_hexDigits (ds : List Nat) (h : ∀ d ∈ ds, d < 16) (n : Nat) :
    literal 16 (ds.map hexDigit) n = some (ds.foldl (fun a d => a * 16 + d) n) := by
  induction ds generalizing n with
  | nil => rfl
  | cons d ds ih =>
    rw [List.map_cons, literal, hexDigit_val d (h d (by simp))]
    simp only [Option.bind_some, List.foldl_cons]
    exact ih (fun x hx => h x (List.mem_cons_of_mem _ hx)) _

theorem literal_zeros (k : Nat) (l : Line) : literal 16 (List.replicate k '0' ++ l) 0 = literal 16 l 0 := by
  induction k with
  | zero => rfl
  | succ k ih =>
    rw [List.replicate_succ, List.cons_append, literal]
    have : digit 16 '0' = some 0 := by decide
    rw [this]
    simpa using ih

theorem literal_hex (n : Nat) : literal 16 (hex n) 0 = some n := by
  simp only [hex]
  rw [literal_zeros, literal_hexDigits]
  · rw [List.foldl_reverse]
    have h := Nat.ofDigits_digits 16 n
    rw [Nat.ofDigits_eq_foldr] at h
    congr 1
    conv_rhs => rw [← h]
    congr 1
    funext x y
    simp
    ring
  · intro d hd
    exact Nat.digits_lt_base (by decide) (List.mem_reverse.1 hd)

theorem hex_sep (n : Nat) : ';' ∉ hex n := by
  simp only [hex, List.mem_append, List.mem_replicate, List.mem_map, List.mem_reverse, not_or, not_and, not_exists]
  refine ⟨fun _ => by decide, fun d hd e => ?_⟩
  exact hexDigit_sep d (Nat.digits_lt_base (by decide) hd) e

theorem hex_ne_nil (n : Nat) : hex n ≠ [] := by
  intro h
  have := congrArg List.length h
  simp only [hex, List.length_append, List.length_replicate, List.length_nil] at this
  omega

/-! ### Tables -/

theorem fields_sep {e : Entry} (h : e.Ok) : ∀ f ∈ e.fields, ';' ∉ f := by
  have ht := h.texts
  have hd : ∀ o : Option Nat, (∀ d, o = some d → d < 10) → ';' ∉ digitField o := by
    intro o ho
    cases o with
    | none => simp [digitField]
    | some d =>
      simp only [digitField, List.mem_singleton]
      exact fun e => hexDigit_sep d (by have := ho d rfl; omega) e.symm
  have hc : ∀ o : Option Nat, ';' ∉ codeField o := by
    intro o
    cases o with
    | none => simp [codeField]
    | some c => exact hex_sep c
  have hcat : ∀ v : Category, ';' ∉ v.text := by intro v; cases v <;> decide
  simp only [List.mem_cons, List.not_mem_nil, or_false, forall_eq_or_imp, forall_eq] at ht
  simp only [Entry.fields, List.mem_cons, List.not_mem_nil, or_false, forall_eq_or_imp, forall_eq]
  obtain ⟨h1, h2, h3, h4, h5, h6, h7, h8, h9⟩ := ht
  exact ⟨hex_sep _, h1, hcat _, h2, h3, h4, hd _ (fun d e' => h.digit d (h.decimal d e')), hd _ h.digit, h5, h6, h7, h8,
    hc _, hc _, h9⟩

theorem sed_line {e : Entry} (h : e.Ok) {k : Nat} (hk : k < 14) :
    sed k e.line = some (hex e.code, e.fields[k + 1]'(by simp [Entry.fields]; omega)) := by
  have := fields_sep h
  simp only [Entry.line]
  exact sed_join (f := hex e.code) (fs := e.fields.tail) this (by simp [Entry.fields]; omega)

theorem table_lines (es : List Entry) (h : ∀ e ∈ es, e.Ok) {k : Nat} (hk : k < 14) :
    (es.map Entry.line).filterMap (sed k) =
      es.map fun e => (hex e.code, e.fields[k + 1]'(by simp [Entry.fields]; omega)) := by
  induction es with
  | nil => rfl
  | cons e es ih =>
    simp only [List.map_cons, List.filterMap_cons, sed_line (h e (by simp)) hk,
      ih fun x hx => h x (List.mem_cons_of_mem _ hx)]

/-- A table made of lines: the field of the line of the code point. -/
theorem switch_lines (es : List Entry) (g : Entry → Line) (c : Int) :
    switch (es.map fun e => (hex e.code, g e)) c = (es.find? fun e => (e.code : Int) == c).map g := by
  induction es with
  | nil => rfl
  | cons e es ih =>
    simp only [switch, List.map_cons, List.find?_cons, literal_hex, Option.map_some] at ih ⊢
    by_cases h : (e.code : Int) = c
    · have : (some (Int.ofNat e.code) == some c) = true := by simpa using h
      simp [this, h]
    · have h1 : (some (Int.ofNat e.code) == some c) = false := by simpa using h
      have h2 : ((e.code : Int) == c) = false := by simpa using h
      rw [h1, h2]
      exact ih

/-- The same after `grep`. -/
theorem switch_grep (es : List Entry) (g : Entry → Line) (c : Int)
    (hd : es.Pairwise fun e f => e.code ≠ f.code) :
    switch (grep (es.map fun e => (hex e.code, g e))) c =
      (es.find? fun e => (e.code : Int) == c).bind fun e => if g e = [] then none else some (g e) := by
  have hg : grep (es.map fun e => (hex e.code, g e)) =
      (es.filter fun e => !(g e).isEmpty).map fun e => (hex e.code, g e) := by
    simp only [grep, List.filter_map]
    congr 1
    apply List.filter_congr
    intro e _
    have : (hex e.code).isEmpty = false := by simpa using hex_ne_nil e.code
    simp [this]
  rw [hg, switch_lines]
  induction es with
  | nil => rfl
  | cons e es ih =>
    have hd' := List.pairwise_cons.1 hd
    have hg' : grep (es.map fun e => (hex e.code, g e)) =
      (es.filter fun e => !(g e).isEmpty).map fun e => (hex e.code, g e) := by
      simp only [grep, List.filter_map]
      congr 1
      apply List.filter_congr
      intro e _
      have : (hex e.code).isEmpty = false := by simpa using hex_ne_nil e.code
      simp [this]
    have ih := ih hd'.2 hg'
    by_cases hc : (e.code : Int) = c
    · by_cases hn : g e = []
      · simp only [List.filter_cons, hn, List.isEmpty_nil, Bool.not_true, Bool.false_eq_true, if_false, List.find?_cons,
          hc, BEq.rfl, Option.bind_some, if_true]
        rw [List.find?_eq_none.2, Option.map_none]
        intro x hx
        have := hd'.1 x (List.mem_filter.1 hx).1
        have hc' := hc
        simp only [beq_iff_eq]
        omega
      · have : (g e).isEmpty = false := by simpa using hn
        simp [List.filter_cons, this, hc, hn]
    · have h2 : ((e.code : Int) == c) = false := by simpa using hc
      rw [List.find?_cons, h2, ← ih]
      by_cases hn : g e = []
      · simp [List.filter_cons, hn]
      · have : (g e).isEmpty = false := by simpa using hn
        simp [List.filter_cons, this, h2]

/-! ### Files -/

theorem entries_ok {items : List Item} (h : Data items) : ∀ e ∈ items.flatMap Item.entries, e.Ok := by
  intro e he
  obtain ⟨i, hi, hei⟩ := List.mem_flatMap.1 he
  have := h.ok i hi
  cases i with
  | single a => simp only [Item.entries, List.mem_singleton] at hei; subst hei; exact this
  | range a b =>
    simp only [Item.entries, List.mem_cons, List.not_mem_nil, or_false] at hei
    rcases hei with rfl | rfl
    · exact this.1
    · exact this.2.1

theorem entries_bounds {i : Item} (h : i.Ok) {e : Entry} (he : e ∈ i.entries) : i.entry.code ≤ e.code ∧ e.code ≤ i.last := by
  cases i with
  | single a => simp only [Item.entries, List.mem_singleton] at he; subst he; exact ⟨le_refl _, le_refl _⟩
  | range a b =>
    simp only [Item.entries, List.mem_cons, List.not_mem_nil, or_false] at he
    have := h.2.2.1
    rcases he with rfl | rfl
    · exact ⟨le_refl _, by simp only [Item.last]; omega⟩
    · exact ⟨by simp only [Item.entry]; omega, le_refl _⟩

theorem entries_distinct : ∀ {items : List Item}, Data items →
    (items.flatMap Item.entries).Pairwise fun e f => e.code < f.code
  | [], _ => by simp
  | i :: items, h => by
    have ha := List.pairwise_cons.1 h.ascending
    have ih := entries_distinct (items := items) ⟨fun j hj => h.ok j (List.mem_cons_of_mem _ hj), ha.2⟩
    rw [List.flatMap_cons, List.pairwise_append]
    refine ⟨?_, ih, ?_⟩
    · have := h.ok i (by simp)
      cases i with
      | single a => simp [Item.entries]
      | range a b => simpa [Item.entries] using this.2.2.1
    · intro e he f hf
      obtain ⟨j, hj, hfj⟩ := List.mem_flatMap.1 hf
      have h1 := ha.1 j hj
      have h2 := entries_bounds (h.ok i (by simp)) he
      have h3 := entries_bounds (h.ok j (List.mem_cons_of_mem _ hj)) hfj
      omega

theorem find_entry {es : List Entry} (h : es.Pairwise fun e f => e.code < f.code) {e : Entry} (he : e ∈ es) :
    (es.find? fun x => (x.code : Int) == (e.code : Int)) = some e := by
  induction es with
  | nil => cases he
  | cons a es ih =>
    have h' := List.pairwise_cons.1 h
    rcases List.mem_cons.1 he with rfl | he
    · simp
    · have := h'.1 e he
      rw [List.find?_cons]
      have hne : ((a.code : Int) == (e.code : Int)) = false := by
        rw [beq_eq_false_iff_ne]
        omega
      rw [hne]
      exact ih h'.2 he

theorem find_none {es : List Entry} {c : Int} (h : ∀ e ∈ es, (e.code : Int) ≠ c) :
    (es.find? fun x => (x.code : Int) == c) = none := by
  rw [List.find?_eq_none]
  intro e he
  simpa using h e he

theorem enumerator_text (v : Category) : enumerator v.text = some v := by cases v <;> rfl

theorem property_text {items : List Item} (h : Data items) (c : Int) :
    property (text items) c =
      match (items.flatMap Item.entries).find? fun e => (e.code : Int) == c with
      | some e => e.category
      | none => .Cn := by
  simp only [property, propertyTable, text]
  have ht : ((items.flatMap Item.entries).map Entry.line).filterMap (sed 1) =
      (items.flatMap Item.entries).map fun e => (hex e.code, e.category.text) :=
    table_lines _ (entries_ok h) (by decide)
  rw [ht, switch_lines _ (fun e => e.category.text)]
  cases (items.flatMap Item.entries).find? fun e => (e.code : Int) == c with
  | none => rfl
  | some e => simp [enumerator_text]

theorem digit_text {items : List Item} (h : Data items) (c : Int) :
    digitValue (text items) c = ((items.flatMap Item.entries).find? fun e => (e.code : Int) == c).bind (·.digit) := by
  have hd := (entries_distinct h).imp fun hlt => Nat.ne_of_lt hlt
  simp only [digitValue, digitTable, text]
  have ht : ((items.flatMap Item.entries).map Entry.line).filterMap (sed 6) =
      (items.flatMap Item.entries).map fun e => (hex e.code, digitField e.digit) :=
    table_lines _ (entries_ok h) (by decide)
  rw [ht, switch_grep _ (fun e => digitField e.digit) _ hd]
  cases he : (items.flatMap Item.entries).find? fun e => (e.code : Int) == c with
  | none => rfl
  | some e =>
    have hok := entries_ok h e (List.mem_of_find?_eq_some he)
    simp only [Option.bind_some]
    cases hdg : e.digit with
    | none => simp [digitField]
    | some d => simp [digitField, literal, decDigit_val d (hok.digit d hdg)]

theorem case_text {items : List Item} (h : Data items) (c : Int) {k : Nat} (hk : k < 14) {g : Entry → Option Nat}
    (hg : ∀ e, e.fields[k + 1]'(by simp [Entry.fields]; omega) = codeField (g e)) :
    ((switch (grep ((text items).filterMap (sed k))) c).bind fun v => literal 16 v 0) =
      ((items.flatMap Item.entries).find? fun e => (e.code : Int) == c).bind g := by
  have hd := (entries_distinct h).imp fun hlt => Nat.ne_of_lt hlt
  simp only [text]
  rw [table_lines _ (entries_ok h) hk]
  simp only [hg]
  rw [switch_grep _ (fun e => codeField (g e)) _ hd]
  cases (items.flatMap Item.entries).find? fun e => (e.code : Int) == c with
  | none => rfl
  | some e =>
    simp only [Option.bind_some]
    cases g e with
    | none => simp [codeField]
    | some d => simp [codeField, hex_ne_nil, literal_hex]

theorem upcase_text {items : List Item} (h : Data items) (c : Int) :
    upcase (text items) c = match ((items.flatMap Item.entries).find? fun e => (e.code : Int) == c).bind (·.upper) with
      | some d => d
      | none => c := by
  simp only [upcase, upcaseTable]
  rw [case_text h c (by decide) (g := (·.upper)) (fun _ => rfl)]
  cases ((items.flatMap Item.entries).find? fun e => (e.code : Int) == c).bind (·.upper) <;> rfl

theorem downcase_text {items : List Item} (h : Data items) (c : Int) :
    downcase (text items) c = match ((items.flatMap Item.entries).find? fun e => (e.code : Int) == c).bind (·.lower) with
      | some d => d
      | none => c := by
  simp only [downcase, downcaseTable]
  rw [case_text h c (by decide) (g := (·.lower)) (fun _ => rfl)]
  cases ((items.flatMap Item.entries).find? fun e => (e.code : Int) == c).bind (·.lower) <;> rfl

end Meevax.Unicode
