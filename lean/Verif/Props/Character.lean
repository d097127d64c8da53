import Verif.Lemmas.Character
import Verif.Props.Sequence
import Verif.Lemmas.NumberBits

/-!
C83: characters.
-/

namespace Meevax.Unicode

open Spec Meevax.Number Meevax.Seq

/-! ### Items -/

theorem last_ge {i : Item} (h : i.Ok) : i.entry.code ≤ i.last := by
  cases i with
  | single a => exact le_refl _
  | range a b => exact Nat.le_of_lt h.2.2.1

theorem covers_bounds {i : Item} {c : Nat} (h : i.covers c) : i.entry.code ≤ c ∧ c ≤ i.last := by
  cases i with
  | single a => simp only [Item.covers] at h; subst h; exact ⟨le_refl _, le_refl _⟩
  | range a b => exact h

theorem covers_unique {items : List Item} (h : Data items) {i j : Item} (hi : i ∈ items) (hj : j ∈ items) {c : Nat}
    (hic : i.covers c) (hjc : j.covers c) : i = j := by
  have hp := h.ascending
  clear h
  induction items with
  | nil => cases hi
  | cons k items ih =>
    have hp' := List.pairwise_cons.1 hp
    have b1 := covers_bounds hic
    have b2 := covers_bounds hjc
    rcases List.mem_cons.1 hi with hik | hi' <;> rcases List.mem_cons.1 hj with hjk | hj'
    · rw [hik, hjk]
    · have := hp'.1 j hj'; rw [← hik] at this; omega
    · have := hp'.1 i hi'; rw [← hjk] at this; omega
    · exact ih hi' hj' hp'.2

/-- The line of a code point that is not inside a range. -/
theorem entry_of_covers {items : List Item} (h : Data items) {i : Item} (hi : i ∈ items) {c : Nat} (hc : i.covers c)
    (hn : ¬i.inside c) : ∃ e ∈ items.flatMap Item.entries, e.code = c ∧ e.category = i.entry.category ∧
      e.digit = i.entry.digit ∧ e.upper = i.entry.upper ∧ e.lower = i.entry.lower := by
  have hok := h.ok i hi
  cases i with
  | single a =>
    exact ⟨a, List.mem_flatMap.2 ⟨_, hi, by simp [Item.entries]⟩, hc.symm, rfl, rfl, rfl, rfl⟩
  | range a b =>
    obtain ⟨_, _, _, h4, h5, h6, h7, h8, h9, h10⟩ := hok
    simp only [Item.covers, Item.inside] at hc hn
    by_cases hca : c = a.code
    · exact ⟨a, List.mem_flatMap.2 ⟨_, hi, by simp [Item.entries]⟩, hca.symm, rfl, rfl, rfl, rfl⟩
    · refine ⟨b, List.mem_flatMap.2 ⟨_, hi, by simp [Item.entries]⟩, by omega, h4, ?_, ?_, ?_⟩
      · rw [h6]; exact h5.symm
      · rw [h8]; exact h7.symm
      · rw [h10]; exact h9.symm

theorem covers_of_entry {items : List Item} (h : Data items) {e : Entry} (he : e ∈ items.flatMap Item.entries) :
    ∃ i ∈ items, i.covers e.code ∧ ¬i.inside e.code := by
  obtain ⟨i, hi, hei⟩ := List.mem_flatMap.1 he
  refine ⟨i, hi, ?_⟩
  have hok := h.ok i hi
  cases i with
  | single a => simp only [Item.entries, List.mem_singleton] at hei; subst hei; exact ⟨rfl, fun h => h⟩
  | range a b =>
    have := hok.2.2.1
    simp only [Item.entries, List.mem_cons, List.not_mem_nil, or_false] at hei
    rcases hei with rfl | rfl <;> simp only [Item.covers, Item.inside] <;> omega

theorem find_covers {items : List Item} (h : Data items) {i : Item} (hi : i ∈ items) {c : Nat} (hc : i.covers c)
    (hn : ¬i.inside c) : ∃ e, ((items.flatMap Item.entries).find? fun x => (x.code : Int) == (c : Int)) = some e ∧
      e ∈ items.flatMap Item.entries ∧ e.category = i.entry.category ∧
      e.digit = i.entry.digit ∧ e.upper = i.entry.upper ∧ e.lower = i.entry.lower := by
  obtain ⟨e, he, rfl, hcat⟩ := entry_of_covers h hi hc hn
  exact ⟨e, find_entry (entries_distinct h) he, he, hcat⟩

theorem find_inside {items : List Item} (h : Data items) {i : Item} (hi : i ∈ items) {c : Nat} (hn : i.inside c) :
    ((items.flatMap Item.entries).find? fun x => (x.code : Int) == (c : Int)) = none := by
  apply find_none
  intro e he hec
  have hec : e.code = c := by exact_mod_cast hec
  obtain ⟨j, hj, hjc, hjn⟩ := covers_of_entry h he
  have hic : i.covers c := by
    cases i with
    | single a => exact hn.elim
    | range a b => exact ⟨Nat.le_of_lt hn.1, Nat.le_of_lt hn.2⟩
  subst hec
  have := covers_unique h hi hj hic hjc
  subst this
  exact hjn hn

theorem find_uncovered {items : List Item} (h : Data items) {c : Nat} (hn : ¬∃ i ∈ items, i.covers c) :
    ((items.flatMap Item.entries).find? fun x => (x.code : Int) == (c : Int)) = none := by
  apply find_none
  intro e he hec
  have hec : e.code = c := by exact_mod_cast hec
  obtain ⟨j, hj, hjc, _⟩ := covers_of_entry h he
  exact hn ⟨j, hj, hec ▸ hjc⟩

/-! ### Categories -/

/-- **C83** (partial: not for characters inside of the ranges of the file): the tables that are generated from
the file give each code point its general category. -/
theorem C83_category_partial {items : List Item} (h : Data items) {c : Nat} (hc : ∀ i ∈ items, ¬i.inside c) (v : Category) :
    property (text items) c = v ↔ HasCategory items c v := by
  rw [property_text h]
  by_cases hcov : ∃ i ∈ items, i.covers c
  · obtain ⟨i, hi, hic⟩ := hcov
    obtain ⟨e, he, _, hcat, _⟩ := find_covers h hi hic (hc i hi)
    rw [he]
    constructor
    · rintro rfl
      exact Or.inl ⟨i, hi, hic, hcat⟩
    · rintro (⟨j, hj, hjc, rfl⟩ | ⟨hn, _⟩)
      · rw [covers_unique h hj hi hjc hic]; exact hcat
      · exact (hn ⟨i, hi, hic⟩).elim
  · rw [find_uncovered h hcov]
    constructor
    · rintro rfl
      exact Or.inr ⟨hcov, rfl⟩
    · rintro (⟨j, hj, hjc, _⟩ | ⟨_, rfl⟩)
      · exact (hcov ⟨j, hj, hjc⟩).elim
      · rfl

/-- **C83** fails: the lines of a range only make two case labels, so all characters inside (nearly all
ideographs and Hangul syllables) are unassigned: not one of them is alphabetic. -/
theorem C83_range_fails {items : List Item} (h : Data items) {i : Item} (hi : i ∈ items) {c : Nat} (hc : i.inside c)
    (hl : i.entry.category = .Lo) :
    HasCategory items c .Lo ∧ property (text items) c = .Cn ∧ charAlphabetic (text items) c = false := by
  have hp : property (text items) c = .Cn := by rw [property_text h, find_inside h hi hc]
  refine ⟨Or.inl ⟨i, hi, ?_, hl.symm⟩, hp, ?_⟩
  · cases i with
    | single a => exact hc.elim
    | range a b => exact ⟨Nat.le_of_lt hc.1, Nat.le_of_lt hc.2⟩
  · rw [charAlphabetic, hp]; rfl

/-! ### Case -/

/-- **C83**: `char-upcase` and `char-downcase` are the simple case mappings of the file. -/
theorem C83_case {items : List Item} (h : Data items) (c d : Nat) :
    (upcase (text items) c = d ↔ HasUpper items c d) ∧ (downcase (text items) c = d ↔ HasLower items c d) := by
  rw [upcase_text h, downcase_text h]
  by_cases hcov : ∃ i ∈ items, i.covers c
  · obtain ⟨i, hi, hic⟩ := hcov
    have huniq : ∀ j ∈ items, j.covers c → j = i := fun j hj hjc => covers_unique h hj hi hjc hic
    have key : ∀ (g : Entry → Option Nat), ((items.flatMap Item.entries).find? fun e => (e.code : Int) == (c : Int)).bind g
        = g i.entry →
        (((match ((items.flatMap Item.entries).find? fun e => (e.code : Int) == (c : Int)).bind g with
          | some d => Int.ofNat d
          | none => Int.ofNat c) = Int.ofNat d) ↔
        ((∃ i ∈ items, i.covers c ∧ g i.entry = some d) ∨ ((∀ i ∈ items, i.covers c → g i.entry = none) ∧ d = c))) := by
      intro g hg
      rw [hg]
      cases hgi : g i.entry with
      | none =>
        constructor
        · intro e
          exact Or.inr ⟨fun j hj hjc => by rw [huniq j hj hjc, hgi], (Int.ofNat.inj e).symm⟩
        · rintro (⟨j, hj, hjc, hg'⟩ | ⟨_, rfl⟩)
          · rw [huniq j hj hjc, hgi] at hg'; cases hg'
          · rfl
      | some d' =>
        constructor
        · intro e
          have e : d' = d := Int.ofNat.inj e
          exact Or.inl ⟨i, hi, hic, by rw [hgi, e]⟩
        · rintro (⟨j, hj, hjc, hg'⟩ | ⟨hn, _⟩)
          · rw [huniq j hj hjc, hgi] at hg'
            cases hg'
            rfl
          · rw [hn i hi hic] at hgi; cases hgi
    have hu : ∀ (g : Entry → Option Nat), (g = (·.upper) ∨ g = (·.lower)) →
        ((items.flatMap Item.entries).find? fun e => (e.code : Int) == (c : Int)).bind g = g i.entry := by
      intro g hg
      by_cases hin : i.inside c
      · rw [find_inside h hi hin]
        have hok := h.ok i hi
        cases i with
        | single a => exact hin.elim
        | range a b =>
          obtain ⟨_, _, _, _, _, _, h7, _, h9, _⟩ := hok
          rcases hg with rfl | rfl
          · exact h7.symm
          · exact h9.symm
      · obtain ⟨e, he, _, _, _, h1, h2⟩ := find_covers h hi hic hin
        rw [he]
        rcases hg with rfl | rfl
        · exact h1
        · exact h2
    exact ⟨key _ (hu _ (Or.inl rfl)), key _ (hu _ (Or.inr rfl))⟩
  · rw [find_uncovered h hcov]
    have hn : ∀ (g : Entry → Option Nat), ((c : Int) = d) ↔
        ((∃ i ∈ items, i.covers c ∧ g i.entry = some d) ∨ ((∀ i ∈ items, i.covers c → g i.entry = none) ∧ d = c)) := by
      intro g
      constructor
      · intro e
        exact Or.inr ⟨fun j hj hjc => (hcov ⟨j, hj, hjc⟩).elim, by exact_mod_cast e.symm⟩
      · rintro (⟨j, hj, hjc, _⟩ | ⟨_, rfl⟩)
        · exact (hcov ⟨j, hj, hjc⟩).elim
        · rfl
    exact ⟨hn _, hn _⟩

/-- **C83**: the case procedures of strings map each character. -/
theorem C83_string_case {items : List Item} (h : Data items) (s t : List Nat) :
    (stringUpcase (text items) (s.map Int.ofNat) = t.map Int.ofNat ↔ List.Forall₂ (HasUpper items) s t) ∧
    (stringDowncase (text items) (s.map Int.ofNat) = t.map Int.ofNat ↔ List.Forall₂ (HasLower items) s t) ∧
    stringFoldcase (text items) (s.map Int.ofNat) = stringDowncase (text items) (s.map Int.ofNat) := by
  have key : ∀ (f : Int → Int) (R : Nat → Nat → Prop), (∀ c d : Nat, f c = d ↔ R c d) → ∀ s t : List Nat,
      (stringMap f (s.map Int.ofNat) = t.map Int.ofNat ↔ List.Forall₂ R s t) := by
    intro f R hf s
    induction s with
    | nil => intro t; cases t <;> simp [stringMap]
    | cons a s ih =>
      intro t
      cases t with
      | nil => simp [stringMap]
      | cons b t =>
        have := ih t
        simp only [stringMap, List.map_cons, List.cons.injEq, List.forall₂_cons] at this ⊢
        rw [this]
        exact and_congr (hf a b) Iff.rfl
  exact ⟨key _ _ (fun c d => (C83_case h c d).1) s t, key _ _ (fun c d => (C83_case h c d).2) s t, rfl⟩

/-- **C83** fails: `string-upcase` never makes a string longer, so the upper case of `ß` (which has no simple
mapping) is `ß`, not `SS`. -/
theorem C83_sharp_s_fails {items : List Item} (h : Data items) {e : Entry} (he : .single e ∈ items) (hc : e.code = 0xDF)
    (hu : e.upper = none) : stringUpcase (text items) [0xDF] = [0xDF] := by
  have := (C83_case h 0xDF 0xDF).1.2 (Or.inr ⟨fun i hi hic => by
    rw [covers_unique h hi he hic hc.symm]; exact hu, rfl⟩)
  simpa [stringUpcase, stringMap] using this

/-! ### Digits -/

/-- **C83** (partial: not for digits that are no decimal digits): `digit-value`. -/
theorem C83_digit_value_partial {items : List Item} (h : Data items) {c : Nat} (hv : ¬HasCategory items c .No) (d : Option Nat) :
    digitValue (text items) c = d ↔ HasDigitValue items c d := by
  rw [digit_text h]
  by_cases hcov : ∃ i ∈ items, i.covers c
  · obtain ⟨i, hi, hic⟩ := hcov
    have huniq : ∀ j ∈ items, j.covers c → j = i := fun j hj hjc => covers_unique h hj hi hjc hic
    have hcat : i.entry.category ≠ .No := fun e => hv (Or.inl ⟨i, hi, hic, e.symm⟩)
    have hok : i.entry.Ok := by
      have := h.ok i hi
      cases i with
      | single a => exact this
      | range a b => exact this.1
    have hdd : i.entry.digit = i.entry.decimal := by
      cases hdec : i.entry.decimal with
      | some x => exact hok.decimal x hdec
      | none =>
        cases hdig : i.entry.digit with
        | none => rfl
        | some x =>
          rcases hok.isDigit (by rw [hdig]; rfl) with h1 | h1
          · have := hok.isDecimal.2 h1
            rw [hdec] at this
            cases this
          · exact (hcat h1).elim
    have hval : ((items.flatMap Item.entries).find? fun e => (e.code : Int) == (c : Int)).bind (·.digit) = i.entry.decimal := by
      rw [← hdd]
      by_cases hin : i.inside c
      · rw [find_inside h hi hin]
        have hok := h.ok i hi
        cases i with
        | single a => exact hin.elim
        | range a b => exact hok.2.2.2.2.1.symm
      · obtain ⟨e, he, _, _, h1, _⟩ := find_covers h hi hic hin
        rw [he]
        exact h1
    rw [hval]
    constructor
    · rintro rfl
      exact Or.inl ⟨i, hi, hic, rfl⟩
    · rintro (⟨j, hj, hjc, rfl⟩ | ⟨hn, _⟩)
      · rw [huniq j hj hjc]
      · exact (hn ⟨i, hi, hic⟩).elim
  · rw [find_uncovered h hcov]
    constructor
    · rintro rfl
      exact Or.inr ⟨hcov, rfl⟩
    · rintro (⟨j, hj, hjc, _⟩ | ⟨_, rfl⟩)
      · exact (hcov ⟨j, hj, hjc⟩).elim
      · rfl

/-- **C83** fails: `digit-value` of a superscript is its digit, although it is not `char-numeric?`. -/
theorem C83_digit_value_fails {items : List Item} (h : Data items) {e : Entry} (he : .single e ∈ items) {d : Nat}
    (hd : e.digit = some d) (hc : e.category = .No) :
    digitValue (text items) e.code = some d ∧ charNumeric (text items) e.code = false ∧ HasDigitValue items e.code none := by
  obtain ⟨x, hx, _, hcat, h1, _⟩ := find_covers h he (rfl : (Item.single e).covers e.code) (fun h => h)
  refine ⟨?_, ?_, ?_⟩
  · rw [digit_text h, hx]
    exact h1.trans hd
  · rw [charNumeric, property_text h, hx]
    simp only [hcat, Item.entry, hc]
    rfl
  · refine Or.inl ⟨_, he, rfl, ?_⟩
    have hok : e.Ok := h.ok _ he
    cases hdec : e.decimal with
    | none => exact hdec
    | some x =>
      have := hok.isDecimal.1 (by rw [hdec]; rfl)
      rw [hc] at this
      cases this

/-! ### Predicates -/

/-- **C83** (partial: not for characters inside of ranges, letter numbers, characters that are alphabetic, upper
or lower case without being letters, and white space that is not a space): the predicates. -/
theorem C83_predicates_partial {items : List Item} (h : Data items) {c : Nat} (hc : ∀ i ∈ items, ¬i.inside c)
    {v : Category} (hv : HasCategory items c v) :
    (charNumeric (text items) c = true ↔ v = .Nd) ∧
    (∀ other, (charAlphabetic (text items) c = true → Alphabetic other c v) ∧
      (v ≠ .Nl → ¬other c → Alphabetic other c v → charAlphabetic (text items) c = true)) ∧
    (∀ other, (charUpperCase (text items) c = true → Uppercase other c v) ∧
      (¬other c → Uppercase other c v → charUpperCase (text items) c = true)) ∧
    (∀ other, (charLowerCase (text items) c = true → Lowercase other c v) ∧
      (¬other c → Lowercase other c v → charLowerCase (text items) c = true)) ∧
    (charWhitespace (text items) c = true → WhiteSpace c v) ∧
    (v ≠ .Zl → v ≠ .Zp → ¬(9 ≤ c ∧ c ≤ 13) → c ≠ 0x85 → WhiteSpace c v → charWhitespace (text items) c = true) := by
  have hp := (C83_category_partial h hc v).2 hv
  simp only [charNumeric, charAlphabetic, charUpperCase, charLowerCase, charWhitespace, hp, Alphabetic, Uppercase,
    Lowercase, WhiteSpace]
  cases v <;> simp [Category.isNumeric, Category.isLetter, Category.isUpperCase, Category.isLowerCase,
    Category.isWhitespace] <;> tauto

/-- **C83** fails: tab, newline and the other control characters, and the line and paragraph separators, are
not `char-whitespace?`. -/
theorem C83_whitespace_fails {items : List Item} (h : Data items) {e : Entry} (he : .single e ∈ items)
    (hw : e.category = .Zl ∨ e.category = .Zp ∨ e.category = .Cc ∧ 9 ≤ e.code ∧ e.code ≤ 13) :
    WhiteSpace e.code e.category ∧ charWhitespace (text items) e.code = false := by
  obtain ⟨x, hx, _, hcat, _⟩ := find_covers h he (rfl : (Item.single e).covers e.code) (fun h => h)
  constructor
  · rcases hw with hw | hw | ⟨_, h1, h2⟩
    · exact Or.inr (Or.inl hw)
    · exact Or.inr (Or.inr (Or.inl hw))
    · exact Or.inr (Or.inr (Or.inr (Or.inl ⟨h1, h2⟩)))
  · rw [charWhitespace, property_text h, hx]
    simp only [hcat, Item.entry]
    rcases hw with hw | hw | ⟨hw, _⟩ <;> rw [hw] <;> rfl

/-- **C83** fails: letter numbers (Roman numerals, ...) are not `char-alphabetic?`. -/
theorem C83_alphabetic_fails {items : List Item} (h : Data items) {e : Entry} (he : .single e ∈ items)
    (hw : e.category = .Nl) (other : Nat → Prop) :
    Alphabetic other e.code e.category ∧ charAlphabetic (text items) e.code = false := by
  obtain ⟨x, hx, _, hcat, _⟩ := find_covers h he (rfl : (Item.single e).covers e.code) (fun h => h)
  constructor
  · rw [hw]; simp [Alphabetic]
  · rw [charAlphabetic, property_text h, hx]
    simp only [hcat, Item.entry]
    rw [hw]; rfl

/-! ### Comparison -/

/-- **C83**: `char=?` and its relatives compare code points, of any number of characters. -/
theorem C83_compare (xs : List Int) :
    (charEq xs = true ↔ xs.Pairwise (· = ·)) ∧ (charLt xs = true ↔ xs.Pairwise (· < ·)) ∧
    (charLe xs = true ↔ xs.Pairwise (· ≤ ·)) ∧ (charGt xs = true ↔ xs.Pairwise (· > ·)) ∧
    (charGe xs = true ↔ xs.Pairwise (· ≥ ·)) := by
  refine ⟨noAdjacent_pairwise ?_ ?_ xs, noAdjacent_pairwise ?_ ?_ xs, noAdjacent_pairwise ?_ ?_ xs,
    noAdjacent_pairwise ?_ ?_ xs, noAdjacent_pairwise ?_ ?_ xs⟩
  all_goals first | (intro a b; simp; done) | (intro a b c; omega)

/-- **C83**: `char-ci=?` and its relatives compare what `char-foldcase` gives. -/
theorem C83_compare_ci (file : List Line) (xs : List Int) :
    (charCiEq file xs = true ↔ (xs.map (charFoldcase file)).Pairwise (· = ·)) ∧
    (charCiLt file xs = true ↔ (xs.map (charFoldcase file)).Pairwise (· < ·)) ∧
    (charCiLe file xs = true ↔ (xs.map (charFoldcase file)).Pairwise (· ≤ ·)) ∧
    (charCiGt file xs = true ↔ (xs.map (charFoldcase file)).Pairwise (· > ·)) ∧
    (charCiGe file xs = true ↔ (xs.map (charFoldcase file)).Pairwise (· ≥ ·)) := by
  simp only [List.pairwise_map]
  refine ⟨noAdjacent_pairwise ?_ ?_ xs, noAdjacent_pairwise ?_ ?_ xs, noAdjacent_pairwise ?_ ?_ xs,
    noAdjacent_pairwise ?_ ?_ xs, noAdjacent_pairwise ?_ ?_ xs⟩
  all_goals first | (intro a b; simp [charFoldcase]; done) | (intro a b c; omega)

/-- **C83** fails: `char-foldcase` is `char-downcase`, so letters that have the same upper case can differ:
the final sigma is not `char-ci=?` to sigma. -/
theorem C83_fold_fails {items : List Item} (h : Data items) {e f : Entry} (he : .single e ∈ items) (hf : .single f ∈ items)
    {u : Nat} (hu : e.upper = some u) (hu' : f.upper = some u) (hl : e.lower = none) (hl' : f.lower = none)
    (hne : e.code ≠ f.code) :
    upcase (text items) e.code = upcase (text items) f.code ∧
      charCiEq (text items) [(e.code : Int), (f.code : Int)] = false := by
  have h1 := (C83_case h e.code u).1.2 (Or.inl ⟨_, he, rfl, hu⟩)
  have h2 := (C83_case h f.code u).1.2 (Or.inl ⟨_, hf, rfl, hu'⟩)
  have h3 := (C83_case h e.code e.code).2.2 (Or.inr ⟨fun i hi hic => by
    rw [covers_unique h hi he hic rfl]; exact hl, rfl⟩)
  have h4 := (C83_case h f.code f.code).2.2 (Or.inr ⟨fun i hi hic => by
    rw [covers_unique h hi hf hic rfl]; exact hl', rfl⟩)
  refine ⟨h1.trans h2.symm, ?_⟩
  have hne' : (e.code : Int) ≠ f.code := by exact_mod_cast hne
  simp [charCiEq, Seq.noAdjacent, h3, h4, hne']

/-! ### Integers -/

/-- **C83**: `char->integer` and `integer->char` are inverse to each other on code points, whichever
representation the integer has. -/
theorem C83_integer (c : Int) :
    integerToChar (charToInteger c) = .value c ∧
    (Fits32 c → ∀ x : Num, x = .small c ∨ x = .large c → integerToChar x = .value c ∧ (charToInteger c).val = x.val) := by
  refine ⟨rfl, fun hc x hx => ?_⟩
  rcases hx with rfl | rfl
  · exact ⟨rfl, rfl⟩
  · refine ⟨?_, rfl⟩
    simp only [integerToChar, castSmall]
    congr 1
    unfold Fits32 at hc
    unfold narrow
    omega

/-- **C83** fails: `integer->char` accepts integers that are no code points: surrogates, negative ones, and
others modulo `2 ^ 32`. -/
theorem C83_integer_fails :
    (integerToChar (.small 0xD800) = .value 0xD800 ∧ ¬Scalar 0xD800) ∧
    (integerToChar (.small (-1)) = .value (-1) ∧ ¬Scalar (-1)) ∧
    (integerToChar (.large (2 ^ 32 + 65)) = .value 65 ∧ ¬Scalar (2 ^ 32 + 65)) := by
  refine ⟨⟨rfl, by unfold Scalar; omega⟩, ⟨rfl, by unfold Scalar; omega⟩, ⟨?_, by unfold Scalar; omega⟩⟩
  simp only [integerToChar, castSmall, narrow]
  rfl

end Meevax.Unicode
