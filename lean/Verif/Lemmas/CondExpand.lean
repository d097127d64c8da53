import Verif.Lemmas.Library
import Verif.Lemmas.RoundTrip

/-
Lemmas about `cond-expand`.
-/

namespace Meevax.Library
open Meevax.Text

/-- Readable data are written differently. -/
theorem write_injective {high : Nat → Bool} {a b : Datum} (ha : Readable high a) (hb : Readable high b)
    (h : write high a = write high b) : a = b := by
  obtain ⟨s, h1, h2⟩ := read_write high a ha
  obtain ⟨s', h1', h2'⟩ := read_write high b hb
  have hs : s = s' := by rw [h1, h1'] at h; exact Option.some.inj h
  subst hs
  have d : Delimited ([] : List Byte) := by simp [Delimited]
  obtain ⟨p, h3, _⟩ := h2 [] d
  obtain ⟨p', h3', _⟩ := h2' [] d
  rw [h3] at h3'
  simp only [Option.some.injEq, Prod.mk.injEq, Outcome.datum.injEq] at h3'
  exact h3'.1

theorem write_some {high : Nat → Bool} {a : Datum} (ha : Readable high a) : ∃ s, write high a = some s := by
  obtain ⟨s, h1, _⟩ := read_write high a ha
  exact ⟨s, h1⟩

theorem lookup_isSome {registry : Registry} {key : List Byte} :
    (registry.lookup key).isSome = true ↔ key ∈ registry.map Prod.fst := by
  induction registry with
  | nil => simp
  | cons e registry ih =>
    obtain ⟨k, i⟩ := e
    by_cases h : key = k
    · subst h; simp [List.lookup]
    · have : (key == k) = false := by simpa using h
      simp only [List.lookup, this]
      rw [ih]
      simp [h]

theorem registered_iff {high : Nat → Bool} {registry : Registry} {available : List Datum}
    (hr : Registered high registry available) (ha : ∀ d ∈ available, Readable high d) {d : Datum} {key : List Byte}
    (hd : Readable high d) (hk : write high d = some key) :
    (registry.lookup key).isSome = true ↔ d ∈ available := by
  rw [lookup_isSome]
  have e : key ∈ registry.map Prod.fst ↔ some key ∈ registry.map (fun e => some e.1) := by
    simp
  rw [e, hr, List.mem_map]
  constructor
  · rintro ⟨d', h1, h2⟩
    rw [← hk] at h2
    rw [← write_injective (ha d' h1) hd h2]
    exact h1
  · intro h
    exact ⟨d, h, hk⟩

theorem ne_ascii' : (ascii "and" : Name) ≠ ascii "library" ∧ (ascii "or" : Name) ≠ ascii "library" ∧
    (ascii "or" : Name) ≠ ascii "and" ∧ (ascii "not" : Name) ≠ ascii "library" ∧
    (ascii "not" : Name) ≠ ascii "and" ∧ (ascii "not" : Name) ≠ ascii "or" := by decide

theorem test_and {lc : Cast} {features : List Name} {registry : Registry} (rest : Datum) :
    test lc features registry (.cons (.symbol (ascii "and")) rest) = testAll lc features registry rest := by
  rw [test.eq_def]
  simp only [if_neg ne_ascii'.1, if_true]

theorem test_or {lc : Cast} {features : List Name} {registry : Registry} (rest : Datum) :
    test lc features registry (.cons (.symbol (ascii "or")) rest) = testAny lc features registry rest := by
  rw [test.eq_def]
  simp only [if_neg ne_ascii'.2.1, if_neg ne_ascii'.2.2.1, if_true]

mutual

theorem test_spec {lc : Cast} {features : List Name} {registry : Registry} {available : List Datum}
    (hr : Registered lc.high registry available) (ha : ∀ d ∈ available, Readable lc.high d) :
    ∀ r : Requirement, r.ReadableNames lc.high →
      (r.Holds features available ∧ test lc features registry r.toDatum = .value true) ∨
      (¬ r.Holds features available ∧ test lc features registry r.toDatum = .value false)
  | .feature n, _ => by
    by_cases h : n = ascii "else" ∨ n ∈ features
    · exact Or.inl ⟨h, by simpa [Requirement.toDatum, test] using h⟩
    · refine Or.inr ⟨h, ?_⟩
      have : (n == ascii "else" || features.contains n) = false := by simpa using h
      simp only [Requirement.toDatum, test, this]
  | .library name, hn => by
    simp only [Requirement.ReadableNames] at hn
    obtain ⟨key, hk⟩ := write_some hn
    have h := registered_iff hr ha hn hk
    simp only [Requirement.toDatum, listOf, test, if_true, Cast.cast_eq, hk, Requirement.Holds, ← h]
    cases (List.lookup key registry).isSome <;> simp
  | .and rs, hn => by
    simp only [Requirement.ReadableNames] at hn
    have h := testAll_spec hr ha rs hn (features := features)
    simp only [Requirement.toDatum, test_and, Requirement.Holds]
    exact h
  | .or rs, hn => by
    simp only [Requirement.ReadableNames] at hn
    have h := testAny_spec hr ha rs hn (features := features)
    simp only [Requirement.toDatum, test_or, Requirement.Holds]
    exact h
  | .not r, hn => by
    simp only [Requirement.ReadableNames] at hn
    obtain ⟨_, _, _, e1, e2, e3⟩ := ne_ascii'
    simp only [Requirement.toDatum, listOf, test, if_neg e1, if_neg e2, if_neg e3, if_true, Requirement.Holds]
    rcases test_spec hr ha r hn (features := features) with ⟨h, e⟩ | ⟨h, e⟩
    · rw [e]; exact Or.inr ⟨not_not_intro h, rfl⟩
    · rw [e]; exact Or.inl ⟨h, rfl⟩

theorem testAll_spec {lc : Cast} {features : List Name} {registry : Registry} {available : List Datum}
    (hr : Registered lc.high registry available) (ha : ∀ d ∈ available, Readable lc.high d) :
    ∀ rs : Requirements, rs.ReadableNames lc.high →
      (rs.AllHold features available ∧ testAll lc features registry rs.toDatum = .value true) ∨
      (¬ rs.AllHold features available ∧ testAll lc features registry rs.toDatum = .value false)
  | .nil, _ => Or.inl ⟨trivial, rfl⟩
  | .cons r rs, hn => by
    simp only [Requirements.ReadableNames] at hn
    simp only [Requirements.toDatum, testAll, Requirements.AllHold]
    rcases test_spec hr ha r hn.1 (features := features) with ⟨h, e⟩ | ⟨h, e⟩
    · rw [e]
      rcases testAll_spec hr ha rs hn.2 (features := features) with ⟨h', e'⟩ | ⟨h', e'⟩
      · exact Or.inl ⟨⟨h, h'⟩, e'⟩
      · exact Or.inr ⟨fun x => h' x.2, e'⟩
    · rw [e]
      exact Or.inr ⟨fun x => h x.1, rfl⟩

theorem testAny_spec {lc : Cast} {features : List Name} {registry : Registry} {available : List Datum}
    (hr : Registered lc.high registry available) (ha : ∀ d ∈ available, Readable lc.high d) :
    ∀ rs : Requirements, rs.ReadableNames lc.high →
      (rs.AnyHolds features available ∧ testAny lc features registry rs.toDatum = .value true) ∨
      (¬ rs.AnyHolds features available ∧ testAny lc features registry rs.toDatum = .value false)
  | .nil, _ => Or.inr ⟨fun h => h, rfl⟩
  | .cons r rs, hn => by
    simp only [Requirements.ReadableNames] at hn
    simp only [Requirements.toDatum, testAny, Requirements.AnyHolds]
    rcases test_spec hr ha r hn.1 (features := features) with ⟨h, e⟩ | ⟨h, e⟩
    · rw [e]
      exact Or.inl ⟨Or.inl h, rfl⟩
    · rw [e]
      rcases testAny_spec hr ha rs hn.2 (features := features) with ⟨h', e'⟩ | ⟨h', e'⟩
      · exact Or.inl ⟨Or.inr h', e'⟩
      · exact Or.inr ⟨fun x => x.elim h h', e'⟩

end

end Meevax.Library
