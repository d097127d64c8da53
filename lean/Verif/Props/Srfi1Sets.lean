import Verif.Props.Srfi1Search

/-!
# C56: lists as sets
-/

namespace Meevax.Srfi1

open Spec

variable {V : Type} {same : List V → List V → Bool} {eqv : V → V → Bool}

theorem memberB_eq (eqv : V → V → Bool) (x : V) (xs : List V) : memberB eqv x xs = xs.any (eqv x) := by
  unfold memberB
  rw [C56_member]
  cases h : xs.any (eqv x) <;> simp [h]

theorem memberB_iff (x : V) (xs : List V) : memberB eqv x xs = true ↔ Mem eqv x xs := by
  rw [memberB_eq]
  simp [Mem]

theorem any1_run {α : Type} (p : α → Bool) (xs : List α) : (any1 (m := Id) (total1 p) xs).run = xs.any p := by
  cases xs with
  | nil => rfl
  | cons x xs =>
    simp only [any1]
    induction xs generalizing x with
    | nil => simp [anyLoop, total1]
    | cons y ys ih =>
      simp only [anyLoop, total1, pure_bind, List.any_cons] at ih ⊢
      by_cases h : p x = true
      · simp [h, isFalse]
      · simpa [h, isFalse] using ih y

theorem every1_run {α : Type} (p : α → Bool) (xs : List α) :
    (every1 (m := Id) (total1 p) xs).run = xs.all p := by
  cases xs with
  | nil => rfl
  | cons x xs =>
    simp only [every1]
    induction xs generalizing x with
    | nil => simp [everyLoop, total1]
    | cons y ys ih =>
      simp only [everyLoop, total1, pure_bind, List.all_cons] at ih ⊢
      by_cases h : p x = true
      · simpa [h, isFalse] using ih y
      · simp [h, isFalse, no]

theorem fold1_run {α β : Type} (f : α → β → β) (xs : List α) (z : β) :
    (fold1 (m := Id) (fun x a => pure (f x a)) xs z).run = xs.foldl (fun a x => f x a) z := by
  induction xs generalizing z with
  | nil => rfl
  | cons x xs ih => exact ih (f x z)

theorem filter_run {α : Type} {same : List α → List α → Bool} (hs : Sound same) (p : α → Bool)
    (xs : List α) : (filter (m := Id) same (total1 p) xs).run = xs.filter p := by
  have h := C56_filter_pure hs p xs
  have hp : (fun x => !isFalse (p x)) = p := by
    funext x
    simp [isFalse]
  rw [hp] at h
  exact h

theorem partition_run {α : Type} (p : α → Bool) (xs : List α) :
    (partition (m := Id) (total1 p) xs).run = (xs.filter p, xs.filter fun x => !p x) := by
  have h := C56_partition_pure p xs
  have hp : (fun x => !isFalse (p x)) = p := by
    funext x
    simp [isFalse]
  rw [hp] at h
  exact h

theorem delete_run {α : Type} {same : List α → List α → Bool} (hs : Sound same) (eqv : α → α → Bool)
    (x : α) (xs : List α) :
    (delete (m := Id) same (fun a b => pure (eqv a b)) x xs).run = xs.filter fun y => !eqv x y :=
  C56_delete hs eqv x xs

theorem mem_refl (he : Equivalence eqv) {x : V} {xs : List V} (h : x ∈ xs) : Mem eqv x xs :=
  ⟨x, h, he.refl x⟩

theorem mem_congr (he : Equivalence eqv) {x y : V} (h : eqv x y = true) (xs : List V) :
    Mem eqv x xs ↔ Mem eqv y xs := by
  constructor
  · rintro ⟨z, hz, hxz⟩
    exact ⟨z, hz, he.trans _ _ _ (he.symm _ _ h) hxz⟩
  · rintro ⟨z, hz, hyz⟩
    exact ⟨z, hz, he.trans _ _ _ h hyz⟩

/-! ## Duplicates -/

theorem deleteDuplicatesLoop_spec (hs : Sound same) : ∀ (fuel : Nat) (xs : List V), xs.length ≤ fuel →
    (deleteDuplicatesLoop same eqv fuel xs).Sublist xs ∧
    (deleteDuplicatesLoop same eqv fuel xs).Pairwise (fun a b => eqv a b = false) ∧
    ∀ x ∈ xs, ∃ y ∈ deleteDuplicatesLoop same eqv fuel xs, x = y ∨ eqv y x = true := by
  intro fuel
  induction fuel with
  | zero =>
    intro xs h
    have : xs = [] := List.length_eq_zero_iff.mp (by omega)
    subst this
    simp [deleteDuplicatesLoop]
  | succ fuel ih =>
    intro xs h
    cases xs with
    | nil => simp [deleteDuplicatesLoop]
    | cons x xs =>
      have hstep : deleteDuplicatesLoop same eqv (fuel + 1) (x :: xs) =
          x :: deleteDuplicatesLoop same eqv fuel (xs.filter fun y => !eqv x y) := by
        simp only [deleteDuplicatesLoop, delete_run hs]
        split
        · rename_i hsame
          exact congrArg _ (hs _ _ hsame)
        · rfl
      have hlen : (xs.filter fun y => !eqv x y).length ≤ fuel :=
        Nat.le_trans (List.length_filter_le _ _) (by simpa using h)
      obtain ⟨h1, h2, h3⟩ := ih _ hlen
      rw [hstep]
      refine ⟨(h1.trans List.filter_sublist).cons_cons x, List.pairwise_cons.mpr ⟨?_, h2⟩, ?_⟩
      · intro y hy
        have := (List.mem_filter.mp (h1.subset hy)).2
        simpa using this
      · intro z hz
        rcases List.mem_cons.mp hz with hz | hz
        · exact ⟨x, by simp, Or.inl hz⟩
        · by_cases hxz : eqv x z = true
          · exact ⟨x, by simp, Or.inr hxz⟩
          · obtain ⟨y, hy, hyz⟩ := h3 z (List.mem_filter.mpr ⟨hz, by simpa using hxz⟩)
            exact ⟨y, by simp [hy], hyz⟩

/-- C56: `delete-duplicates` keeps elements of the list in their order, no two of which are equal (an
earlier one to a later one), and every element of the list is equal to one that is kept. -/
theorem C56_deleteDuplicates (hs : Sound same) (xs : List V) :
    (deleteDuplicates same eqv xs).Sublist xs ∧
    (deleteDuplicates same eqv xs).Pairwise (fun a b => eqv a b = false) ∧
    ∀ x ∈ xs, ∃ y ∈ deleteDuplicates same eqv xs, x = y ∨ eqv y x = true :=
  deleteDuplicatesLoop_spec hs xs.length xs (Nat.le_refl _)

/-! ## Comparing lists -/

theorem listEqInner_iff : ∀ (xs ys : List V), listEqInner eqv xs ys = true ↔ SameElements eqv xs ys := by
  intro xs
  induction xs with
  | nil =>
    intro ys
    cases ys with
    | nil => simp [listEqInner, SameElements]
    | cons y ys => simp [listEqInner, SameElements]
  | cons x xs ih =>
    intro ys
    cases ys with
    | nil => simp [listEqInner, SameElements]
    | cons y ys =>
      simp only [listEqInner, Bool.and_eq_true, ih ys, SameElements, List.length_cons, Nat.add_right_cancel_iff]
      constructor
      · rintro ⟨hxy, hl, h⟩
        refine ⟨hl, fun i a b ha hb => ?_⟩
        cases i with
        | zero =>
          simp only [List.getElem?_cons_zero, Option.some.injEq] at ha hb
          rw [← ha, ← hb]; exact hxy
        | succ i => exact h i a b (by simpa using ha) (by simpa using hb)
      · rintro ⟨hl, h⟩
        exact ⟨h 0 x y rfl rfl, hl, fun i a b ha hb => h (i + 1) a b (by simpa using ha) (by simpa using hb)⟩

theorem chain_cons (R : List V → List V → Prop) (xs ys : List V) (xss : List (List V)) :
    Chain R (xs :: ys :: xss) ↔ R xs ys ∧ Chain R (ys :: xss) := by
  constructor
  · intro h
    exact ⟨h 0 xs ys rfl rfl, fun i a b ha hb => h (i + 1) a b (by simpa using ha) (by simpa using hb)⟩
  · rintro ⟨h0, h⟩ i a b ha hb
    cases i with
    | zero =>
      simp only [List.getElem?_cons_zero, Option.some.injEq, Nat.zero_add, List.getElem?_cons_succ] at ha hb
      rw [← ha, ← hb]; exact h0
    | succ i => exact h i a b (by simpa using ha) (by simpa using hb)

theorem chain_one (R : List V → List V → Prop) (xs : List V) : Chain R [xs] := by
  intro i a b ha hb
  simp at hb

/-- C56: `list=` holds when each list has the same length as the next and equal elements at the same
places. -/
theorem C56_listEq (hs : Sound same) (hr : ∀ x, eqv x x = true) (xss : List (List V)) :
    listEq same eqv xss = true ↔ Chain (SameElements eqv) xss := by
  cases xss with
  | nil => simp [listEq, Chain]
  | cons xs xss =>
    simp only [listEq]
    induction xss generalizing xs with
    | nil => simp [listEqLoop, chain_one]
    | cons ys xss ih =>
      rw [chain_cons, ← ih ys, ← listEqInner_iff]
      simp only [listEqLoop]
      split
      · rename_i h
        have hxy := hs _ _ h
        subst hxy
        have : listEqInner eqv xs xs = true := by
          rw [listEqInner_iff]
          refine ⟨rfl, fun i a b ha hb => ?_⟩
          rw [ha] at hb
          rw [Option.some.inj hb]
          exact hr b
        simp [this]
      · simp

theorem lset2Le_iff (he : Equivalence eqv) (xs ys : List V) :
    lset2Le eqv xs ys = true ↔ Subset eqv xs ys := by
  unfold lset2Le
  rw [every1_run, List.all_eq_true]
  constructor
  · rintro h x ⟨z, hz, hxz⟩
    exact (mem_congr he hxz ys).mpr ((memberB_iff z ys).mp (h z hz))
  · intro h x hx
    exact (memberB_iff x ys).mpr (h x (mem_refl he hx))

/-- C56: `lset<=` holds when each set is contained in the next. -/
theorem C56_lsetLe (hs : Sound same) (he : Equivalence eqv) (xss : List (List V)) :
    lsetLe same eqv xss = true ↔ Chain (Subset eqv) xss := by
  cases xss with
  | nil => simp [lsetLe, Chain]
  | cons xs xss =>
    simp only [lsetLe]
    induction xss generalizing xs with
    | nil => simp [lsetLeLoop, chain_one]
    | cons ys xss ih =>
      rw [chain_cons, ← ih ys, ← lset2Le_iff he]
      simp only [lsetLeLoop, Bool.and_eq_true, Bool.or_eq_true]
      refine and_congr_left fun _ => ⟨?_, Or.inr⟩
      rintro (h | h)
      · have hxy := hs _ _ h
        subst hxy
        exact (lset2Le_iff he _ _).mpr fun _ h => h
      · exact h

/-- C56: `lset=` holds when each set has the same elements as the next. -/
theorem C56_lsetEq (hs : Sound same) (he : Equivalence eqv) (xss : List (List V)) :
    lsetEq same eqv xss = true ↔ Chain (fun xs ys => ∀ x, Mem eqv x xs ↔ Mem eqv x ys) xss := by
  cases xss with
  | nil => simp [lsetEq, Chain]
  | cons xs xss =>
    simp only [lsetEq]
    induction xss generalizing xs with
    | nil => simp [lsetEqLoop, chain_one]
    | cons ys xss ih =>
      rw [chain_cons, ← ih ys]
      simp only [lsetEqLoop, Bool.and_eq_true, Bool.or_eq_true, lset2Le_iff he]
      refine and_congr_left fun _ => ⟨?_, ?_⟩
      · rintro (h | h)
        · have hxy := hs _ _ h
          subst hxy
          exact fun _ => Iff.rfl
        · exact fun x => ⟨h.1 x, h.2 x⟩
      · intro h
        exact Or.inr ⟨fun x => (h x).mp, fun x => (h x).mpr⟩

/-! ## Operations on sets -/

theorem mem_cons (he : Equivalence eqv) (x y : V) (xs : List V) :
    Mem eqv x (y :: xs) ↔ eqv x y = true ∨ Mem eqv x xs := by
  simp [Mem]

theorem foldAdd_mem (he : Equivalence eqv) : ∀ (ys xs : List V) (x : V),
    Mem eqv x (ys.foldl (fun xs y => if memberB eqv y xs then xs else y :: xs) xs) ↔
      Mem eqv x xs ∨ Mem eqv x ys := by
  intro ys
  induction ys with
  | nil => intro xs x; simp [Mem]
  | cons y ys ih =>
    intro xs x
    rw [List.foldl_cons, ih, mem_cons he]
    by_cases h : memberB eqv y xs = true
    · rw [if_pos h]
      have hm := (memberB_iff y xs).mp h
      constructor
      · rintro (h | h)
        · exact Or.inl h
        · exact Or.inr (Or.inr h)
      · rintro (h | h | h)
        · exact Or.inl h
        · exact Or.inl ((mem_congr he h xs).mpr hm)
        · exact Or.inr h
    · rw [if_neg h, mem_cons he]
      constructor
      · rintro ((h | h) | h)
        · exact Or.inr (Or.inl h)
        · exact Or.inl h
        · exact Or.inr (Or.inr h)
      · rintro (h | h | h)
        · exact Or.inl (Or.inr h)
        · exact Or.inl (Or.inl h)
        · exact Or.inr h

/-- C56: `lset-adjoin` adds the elements. -/
theorem C56_lsetAdjoin (he : Equivalence eqv) (xs ys : List V) (x : V) :
    Mem eqv x (lsetAdjoin eqv xs ys) ↔ Mem eqv x xs ∨ Mem eqv x ys := by
  unfold lsetAdjoin
  rw [fold1_run (fun y xs => if memberB eqv y xs then xs else y :: xs)]
  exact foldAdd_mem he ys xs x

/-- C56: `lset-adjoin` keeps the given list as the end of the result, and adds no element twice. -/
theorem C56_lsetAdjoin_once (eqv : V → V → Bool) (xs ys : List V) :
    xs <:+ lsetAdjoin eqv xs ys ∧
    (xs.Pairwise (fun a b => eqv a b = false) →
      (lsetAdjoin eqv xs ys).Pairwise (fun a b => eqv a b = false)) := by
  unfold lsetAdjoin
  rw [fold1_run (fun y xs => if memberB eqv y xs then xs else y :: xs)]
  induction ys generalizing xs with
  | nil => exact ⟨List.suffix_refl _, fun h => h⟩
  | cons y ys ih =>
    rw [List.foldl_cons]
    by_cases h : memberB eqv y xs = true
    · rw [if_pos h]
      exact ih xs
    · rw [if_neg h]
      obtain ⟨h1, h2⟩ := ih (y :: xs)
      refine ⟨(List.suffix_cons y xs).trans h1, fun hp => h2 (List.pairwise_cons.mpr ⟨fun a ha => ?_, hp⟩)⟩
      cases hya : eqv y a with
      | false => rfl
      | true => exact absurd ((memberB_iff y xs).mpr ⟨a, ha, hya⟩) h

theorem union2_mem (hs : Sound same) (he : Equivalence eqv) (xs ys : List V) (x : V) :
    Mem eqv x (union2 same eqv xs ys) ↔ Mem eqv x xs ∨ Mem eqv x ys := by
  unfold union2
  split
  · rename_i h; subst h; simp [Mem]
  · split
    · rename_i h; subst h; simp [Mem]
    · split
      · rename_i h
        have := hs _ _ h
        subst this
        simp
      · simp only [any1_run]
        have hfun : (fun (x : V) (ys : List V) => if (ys.any fun y => eqv x y) = true then ys else x :: ys) =
            fun y xs => if memberB eqv y xs then xs else y :: xs := by
          funext x ys
          rw [memberB_eq]
        have := fold1_run (fun (x : V) (ys : List V) => if (ys.any fun y => eqv x y) = true then ys
          else x :: ys) xs ys
        rw [this]
        have hm := foldAdd_mem he xs ys x
        rw [or_comm]
        simp only [memberB_eq] at hm
        exact hm

theorem foldUnion_mem (hs : Sound same) (he : Equivalence eqv) (x : V) : ∀ (xss : List (List V)) (z : List V),
    Mem eqv x (xss.foldl (fun a xs => union2 same eqv xs a) z) ↔ Mem eqv x z ∨ ∃ xs ∈ xss, Mem eqv x xs := by
  intro xss
  induction xss with
  | nil => intro z; simp
  | cons xs xss ih =>
    intro z
    rw [List.foldl_cons, ih, union2_mem hs he]
    simp only [List.mem_cons, exists_eq_or_imp]
    constructor
    · rintro ((h | h) | h)
      · exact Or.inr (Or.inl h)
      · exact Or.inl h
      · exact Or.inr (Or.inr h)
    · rintro (h | h | h)
      · exact Or.inl (Or.inr h)
      · exact Or.inl (Or.inl h)
      · exact Or.inr h

/-- C56: `lset-union`: an object is in the union exactly when it is in one of the sets. -/
theorem C56_lsetUnion (hs : Sound same) (he : Equivalence eqv) (xss : List (List V)) (x : V) :
    Mem eqv x (lsetUnion same eqv xss) ↔ ∃ xs ∈ xss, Mem eqv x xs := by
  cases xss with
  | nil => simp [lsetUnion, reduce, Mem]
  | cons xs xss =>
    unfold lsetUnion reduce
    simp only
    rw [fold1_run (fun xs ys => union2 same eqv xs ys), foldUnion_mem hs he]
    simp

/-- C56: `lset-intersection` returns, in their order, the elements of the first set that are in all the
others. -/
theorem C56_lsetIntersection {sames : List (List V) → List (List V) → Bool} (hs : Sound same)
    (hss : Sound sames) (he : Equivalence eqv) (xs : List V) (xss : List (List V)) :
    ∃ p : V → Bool, (∀ x, p x = true ↔ ∀ ys ∈ xss, Mem eqv x ys) ∧
      lsetIntersection same eqv sames xs xss = xs.filter p := by
  refine ⟨fun x => xss.all fun ys => memberB eqv x ys, fun x => ?_, ?_⟩
  · simp only [List.all_eq_true, memberB_iff]
  · unfold lsetIntersection
    simp only [delete_run hss]
    -- lists that are `eq?` to the first one impose no condition
    have hdrop : ∀ x ∈ xs, (xss.all fun ys => memberB eqv x ys) =
        ((xss.filter fun ys => !same xs ys).all fun ys => memberB eqv x ys) := by
      intro x hx
      rw [Bool.eq_iff_iff]
      simp only [List.all_eq_true, List.mem_filter]
      constructor
      · intro h ys hys
        exact h ys hys.1
      · intro h ys hys
        by_cases hsame : same xs ys = true
        · have := hs _ _ hsame
          subst this
          exact (memberB_iff x xs).mpr (mem_refl he hx)
        · exact h ys ⟨hys, by simp [hsame]⟩
    rw [List.filter_congr hdrop]
    split
    · rename_i h
      rw [any1_run, List.any_eq_true] at h
      obtain ⟨ys, hys, hempty⟩ := h
      symm
      rw [List.filter_eq_nil_iff]
      intro x hx hall
      have := List.all_eq_true.mp hall ys hys
      rw [memberB_iff] at this
      obtain ⟨z, hz, _⟩ := this
      cases ys with
      | nil => simp at hz
      | cons y ys => simp at hempty
    · split
      · rename_i h
        rw [h]
        exact (List.filter_eq_self.mpr (by simp)).symm
      · rw [filter_run hs]
        simp only [every1_run]

/-- C56: `lset-difference` returns, in their order, the elements of the first set that are in none of the
others. -/
theorem C56_lsetDifference {sames : List (List V) → List (List V) → Bool} (hs : Sound same)
    (hss : Sound sames) (he : Equivalence eqv) (xs : List V) (xss : List (List V)) :
    ∃ p : V → Bool, (∀ x, p x = true ↔ ∀ ys ∈ xss, ¬ Mem eqv x ys) ∧
      lsetDifference same eqv sames xs xss = xs.filter p := by
  refine ⟨fun x => xss.all fun ys => !memberB eqv x ys, fun x => ?_, ?_⟩
  · simp only [List.all_eq_true, Bool.not_eq_true', ← Bool.not_eq_true, memberB_iff]
  · unfold lsetDifference
    simp only [filter_run hss]
    have hdrop : ∀ x ∈ xs, (xss.all fun ys => !memberB eqv x ys) =
        ((xss.filter fun ys => !ys.isEmpty).all fun ys => !memberB eqv x ys) := by
      intro x _
      rw [Bool.eq_iff_iff]
      simp only [List.all_eq_true, List.mem_filter]
      constructor
      · intro h ys hys
        exact h ys hys.1
      · intro h ys hys
        cases ys with
        | nil => rfl
        | cons y ys => exact h _ ⟨hys, rfl⟩
    rw [List.filter_congr hdrop]
    have hmemq : ∀ (xss : List (List V)), memq same xs xss = true → xs ∈ xss := by
      intro xss
      induction xss with
      | nil => intro h; simp [memq] at h
      | cons ys xss ih =>
        intro h
        simp only [memq, Bool.or_eq_true] at h
        rcases h with h | h
        · simp [hs _ _ h]
        · simp [ih h]
    split
    · rename_i h
      rw [h]
      exact (List.filter_eq_self.mpr (by simp)).symm
    · split
      · rename_i h
        have hm := hmemq _ h
        symm
        rw [List.filter_eq_nil_iff]
        intro x hx hall
        have := List.all_eq_true.mp hall xs hm
        simp only [Bool.not_eq_true', ← Bool.not_eq_true, memberB_iff] at this
        exact this (mem_refl he hx)
      · rw [filter_run hs]
        simp only [every1_run]

theorem memq_mem (hs : Sound same) (xs : List V) : ∀ (xss : List (List V)),
    memq same xs xss = true → xs ∈ xss := by
  intro xss
  induction xss with
  | nil => intro h; simp [memq] at h
  | cons ys xss ih =>
    intro h
    simp only [memq, Bool.or_eq_true] at h
    rcases h with h | h
    · simp [hs _ _ h]
    · simp [ih h]

/-- C56: `lset-diff+intersection` returns the elements of the first set that are in none of the others,
and those that are in one of them. -/
theorem C56_lsetDiffIntersection (hs : Sound same) (he : Equivalence eqv) (xs : List V)
    (xss : List (List V)) :
    ∃ p : V → Bool, (∀ x, p x = true ↔ ∀ ys ∈ xss, ¬ Mem eqv x ys) ∧
      lsetDiffIntersection same eqv xs xss = (xs.filter p, xs.filter fun x => !p x) := by
  have hp : ∀ x, (!xss.any fun ys => memberB eqv x ys) = true ↔ ∀ ys ∈ xss, ¬ Mem eqv x ys := by
    intro x
    simp only [Bool.not_eq_true', ← Bool.not_eq_true, List.any_eq_true, memberB_iff, not_exists, not_and]
  refine ⟨fun x => !xss.any fun ys => memberB eqv x ys, hp, ?_⟩
  unfold lsetDiffIntersection
  simp only [every1_run, any1_run]
  split
  · rename_i h
    have hn : ∀ x ∈ xs, (!xss.any fun ys => memberB eqv x ys) = true := by
      intro x _
      rw [hp]
      rintro ys hys ⟨z, hz, _⟩
      have := List.all_eq_true.mp h ys hys
      cases ys with
      | nil => simp at hz
      | cons y ys => simp at this
    rw [List.filter_eq_self.mpr hn]
    symm
    congr 1
    rw [List.filter_eq_nil_iff]
    intro x hx
    simpa using hn x hx
  · split
    · rename_i h
      have hm := memq_mem hs xs xss h
      have hn : ∀ x ∈ xs, (xss.any fun ys => memberB eqv x ys) = true := by
        intro x hx
        exact List.any_eq_true.mpr ⟨xs, hm, (memberB_iff x xs).mpr (mem_refl he hx)⟩
      symm
      refine Prod.ext ?_ ?_
      · rw [List.filter_eq_nil_iff]
        intro x hx
        simpa using hn x hx
      · rw [List.filter_eq_self]
        intro x hx
        simpa using hn x hx
    · exact partition_run _ xs

theorem mem_filter (he : Equivalence eqv) {p : V → Bool} {P : V → Prop} (hp : ∀ x, p x = true ↔ P x)
    (hP : ∀ x y, eqv x y = true → (P x ↔ P y)) (x : V) (xs : List V) :
    Mem eqv x (xs.filter p) ↔ Mem eqv x xs ∧ P x := by
  constructor
  · rintro ⟨y, hy, hxy⟩
    obtain ⟨h1, h2⟩ := List.mem_filter.mp hy
    exact ⟨⟨y, h1, hxy⟩, (hP x y hxy).mpr ((hp y).mp h2)⟩
  · rintro ⟨⟨y, hy, hxy⟩, h⟩
    exact ⟨y, List.mem_filter.mpr ⟨hy, (hp y).mpr ((hP x y hxy).mp h)⟩, hxy⟩

theorem mem_append (x : V) (xs ys : List V) : Mem eqv x (xs ++ ys) ↔ Mem eqv x xs ∨ Mem eqv x ys := by
  simp only [Mem, List.mem_append]
  constructor
  · rintro ⟨y, h | h, hxy⟩
    · exact Or.inl ⟨y, h, hxy⟩
    · exact Or.inr ⟨y, h, hxy⟩
  · rintro (⟨y, h, hxy⟩ | ⟨y, h, hxy⟩)
    · exact ⟨y, Or.inl h, hxy⟩
    · exact ⟨y, Or.inr h, hxy⟩

theorem foldSkip_mem (he : Equivalence eqv) (both : List V) (x : V) : ∀ (b z : List V),
    Mem eqv x (b.foldl (fun xs y => if memberB eqv y both then xs else y :: xs) z) ↔
      Mem eqv x z ∨ (Mem eqv x b ∧ ¬ Mem eqv x both) := by
  intro b
  induction b with
  | nil => intro z; simp [Mem]
  | cons y ys ih =>
    intro z
    rw [List.foldl_cons, ih, mem_cons he]
    by_cases h : memberB eqv y both = true
    · rw [if_pos h]
      have hm := (memberB_iff y both).mp h
      constructor
      · rintro (h | ⟨h1, h2⟩)
        · exact Or.inl h
        · exact Or.inr ⟨Or.inr h1, h2⟩
      · rintro (h | ⟨h | h, h2⟩)
        · exact Or.inl h
        · exact absurd ((mem_congr he h both).mpr hm) h2
        · exact Or.inr ⟨h, h2⟩
    · rw [if_neg h, mem_cons he]
      have hm : ¬ Mem eqv y both := fun e => h ((memberB_iff y both).mpr e)
      constructor
      · rintro ((h | h) | ⟨h1, h2⟩)
        · exact Or.inr ⟨Or.inl h, fun e => hm ((mem_congr he h both).mp e)⟩
        · exact Or.inl h
        · exact Or.inr ⟨Or.inr h1, h2⟩
      · rintro (h | ⟨h | h, h2⟩)
        · exact Or.inl (Or.inr h)
        · exact Or.inl (Or.inl h)
        · exact Or.inr ⟨h, h2⟩

theorem xor2_mem {sames : List (List V) → List (List V) → Bool} (hs : Sound same) (hss : Sound sames)
    (he : Equivalence eqv) (b a : List V) (x : V) :
    Mem eqv x (xor2 same eqv sames b a) ↔
      (Mem eqv x b ∧ ¬ Mem eqv x a) ∨ (Mem eqv x a ∧ ¬ Mem eqv x b) := by
  obtain ⟨p, hp, hpe⟩ := C56_lsetDiffIntersection (eqv := eqv) hs he a [b]
  obtain ⟨q, hq, hqe⟩ := C56_lsetDifference (eqv := eqv) hs hss he b [a]
  simp only [List.mem_singleton, forall_eq] at hp hq
  have hnot : ∀ (c : List V) (u v : V), eqv u v = true → (¬ Mem eqv u c ↔ ¬ Mem eqv v c) :=
    fun c u v h => not_congr (mem_congr he h c)
  have h1 : Mem eqv x (a.filter p) ↔ Mem eqv x a ∧ ¬ Mem eqv x b := mem_filter he hp (hnot b) x a
  have hp' : ∀ u, (!p u) = true ↔ Mem eqv u b := by
    intro u
    rw [Bool.not_eq_true', ← Bool.not_eq_true, hp, Classical.not_not]
  have h2 : Mem eqv x (a.filter fun u => !p u) ↔ Mem eqv x a ∧ Mem eqv x b :=
    mem_filter he hp' (fun u v h => mem_congr he h b) x a
  have h3 : Mem eqv x (b.filter q) ↔ Mem eqv x b ∧ ¬ Mem eqv x a := mem_filter he hq (hnot a) x b
  unfold xor2
  simp only [hpe]
  split
  · rename_i h
    rw [hqe, h3]
    have : ¬ (Mem eqv x a ∧ ¬ Mem eqv x b) := by
      rw [← h1, h]; simp [Mem]
    constructor
    · exact Or.inl
    · rintro (h | h)
      · exact h
      · exact absurd h this
  · split
    · rename_i h
      have hd : ¬ (Mem eqv x a ∧ Mem eqv x b) := by
        rw [← h2, h]; simp [Mem]
      rw [mem_append]
      constructor
      · rintro (h | h)
        · exact Or.inl ⟨h, fun e => hd ⟨e, h⟩⟩
        · exact Or.inr ⟨h, fun e => hd ⟨h, e⟩⟩
      · rintro (h | h)
        · exact Or.inl h.1
        · exact Or.inr h.1
    · rw [fold1_run (fun x xs => if memberB eqv x (a.filter fun u => !p u) then xs else x :: xs),
        foldSkip_mem he, h1, h2]
      constructor
      · rintro (h | ⟨h, hn⟩)
        · exact Or.inr h
        · exact Or.inl ⟨h, fun e => hn ⟨e, h⟩⟩
      · rintro (h | h)
        · exact Or.inr ⟨h.1, fun e => h.2 e.1⟩
        · exact Or.inl h

theorem foldXor_mem {sames : List (List V) → List (List V) → Bool} (hs : Sound same) (hss : Sound sames)
    (he : Equivalence eqv) (x : V) : ∀ (xss : List (List V)) (z : List V),
    Mem eqv x (xss.foldl (fun a b => xor2 same eqv sames b a) z) ↔ occurrences eqv x (z :: xss) % 2 = 1 := by
  classical
  intro xss
  induction xss with
  | nil =>
    intro z
    unfold occurrences
    by_cases h : Mem eqv x z <;> simp [h]
  | cons xs xss ih =>
    intro z
    rw [List.foldl_cons, ih]
    unfold occurrences
    simp only [List.countP_cons, decide_eq_true_eq, xor2_mem hs hss he]
    by_cases h1 : Mem eqv x xs <;> by_cases h2 : Mem eqv x z <;> simp [h1, h2] <;> omega

/-- C56: `lset-xor`: an object is in the result exactly when it is in an odd number of the sets. -/
theorem C56_lsetXor {sames : List (List V) → List (List V) → Bool} (hs : Sound same) (hss : Sound sames)
    (he : Equivalence eqv) (xss : List (List V)) (x : V) :
    Mem eqv x (lsetXor same eqv sames xss) ↔ occurrences eqv x xss % 2 = 1 := by
  cases xss with
  | nil => simp [lsetXor, reduce, Mem, occurrences]
  | cons xs xss =>
    unfold lsetXor reduce
    simp only
    rw [fold1_run (fun b a => xor2 same eqv sames b a)]
    exact foldXor_mem hs hss he x xss xs

/-! ## Concrete cases -/

/-- `eq?` on lists as coarse as it may be, for the examples. -/
def sameNat {α : Type} [DecidableEq α] (a b : α) : Bool := decide (a = b)

theorem sameNat_sound {α : Type} [DecidableEq α] : Sound (sameNat (α := α)) := by
  intro a b h
  simpa [sameNat] using h

/-- Numbers with the same remainder modulo ten. -/
def mod10 (a b : Nat) : Bool := a % 10 == b % 10

theorem mod10_equivalence : Equivalence mod10 where
  refl x := by simp [mod10]
  symm x y h := by simp only [mod10, beq_iff_eq] at h ⊢; exact h.symm
  trans x y z h1 h2 := by simp only [mod10, beq_iff_eq] at h1 h2 ⊢; exact h1.trans h2

example : lsetXor sameNat mod10 sameNat [[1, 2, 3], [12, 4], [23, 4, 5]] = [5, 1] ∨
    lsetXor sameNat mod10 sameNat [[1, 2, 3], [12, 4], [23, 4, 5]] = [1, 5] := by decide
example : Sound (sameNat (α := List Nat)) ∧ Equivalence mod10 := ⟨sameNat_sound, mod10_equivalence⟩
example : deleteDuplicates sameNat mod10 [1, 2, 11, 3, 12, 21] = [1, 2, 3] := by decide
example : lsetIntersection sameNat mod10 sameNat [1, 2, 3] [[13, 21], [3, 1, 1]] = [1, 3] := by decide
example : lsetDifference sameNat mod10 sameNat [1, 2, 3] [[13], [5, 4, 11]] = [2] := by decide
example : lsetDiffIntersection sameNat mod10 [1, 2, 3] [[13], [5, 4, 11]] = ([2], [1, 3]) := by decide
example : listEq sameNat mod10 [[1, 2], [11, 12], [21, 2]] = true := by decide

/-- A log of the calls: the procedure is called for the first and then for the second position, and not
for the third because the second list is too short. -/
example : (map (m := StateM (List (List Nat))) (fun args => do modify (· ++ [args]); pure args.length)
    [1, 2, 3] [[10, 20]]).run [] = ([2, 2], [[1, 10], [2, 20]]) := by
  rw [C56_map]
  rfl

example : (partition (m := StateM (List Nat)) (fun x => do modify (· ++ [x]); pure (x % 2 == 0))
    [1, 2, 3, 4]).run [] = (([2, 4], [1, 3]), [4, 3, 2, 1]) := by rfl

end Meevax.Srfi1
