import Verif.Model.Srfi1
import Verif.Spec.Srfi1

/-!
# Lemmas about several lists
-/

namespace Meevax.Srfi1

open Spec

variable {V : Type}

theorem carsCdrsLoop_stop : ∀ {xss : List (List V)}, [] ∈ xss → carsCdrsLoop xss = none := by
  intro xss
  induction xss with
  | nil => intro h; simp at h
  | cons xs xss ih =>
    intro h
    cases xs with
    | nil => rfl
    | cons a d =>
      have : [] ∈ xss := by simpa using h
      simp only [carsCdrsLoop, ih this]

theorem carsCdrsLoop_step : ∀ {xss : List (List V)}, ¬ [] ∈ xss →
    carsCdrsLoop xss = some (cars xss, tails xss) := by
  intro xss
  induction xss with
  | nil => intro _; rfl
  | cons xs xss ih =>
    intro h
    cases xs with
    | nil => simp at h
    | cons a d =>
      have : ¬ [] ∈ xss := by simpa using h
      simp only [carsCdrsLoop, ih this]
      rfl

theorem cdrsLoop_eq : ∀ (xss : List (List V)), cdrsLoop xss = (carsCdrsLoop xss).map (·.2) := by
  intro xss
  induction xss with
  | nil => rfl
  | cons xs xss ih =>
    cases xs with
    | nil => rfl
    | cons a d =>
      simp only [cdrsLoop, carsCdrsLoop, ih]
      cases carsCdrsLoop xss <;> rfl

theorem carsCdrs_stop {xss : List (List V)} (h : [] ∈ xss) : carsCdrs xss = ([], []) := by
  simp only [carsCdrs, carsCdrsLoop_stop h]

theorem carsCdrs_step {xss : List (List V)} (h : ¬ [] ∈ xss) : carsCdrs xss = (cars xss, tails xss) := by
  simp only [carsCdrs, carsCdrsLoop_step h]

theorem carsCdrsPlus_stop {xss : List (List V)} (z : V) (h : [] ∈ xss) :
    carsCdrsPlus xss z = ([], []) := by
  simp only [carsCdrsPlus, carsCdrsLoop_stop h]

theorem carsCdrsPlus_step {xss : List (List V)} (z : V) (h : ¬ [] ∈ xss) :
    carsCdrsPlus xss z = (cars xss ++ [z], tails xss) := by
  simp only [carsCdrsPlus, carsCdrsLoop_step h]

theorem cdrs_stop {xss : List (List V)} (h : [] ∈ xss) : cdrs xss = [] := by
  simp only [cdrs, cdrsLoop_eq, carsCdrsLoop_stop h, Option.map]

theorem cdrs_step {xss : List (List V)} (h : ¬ [] ∈ xss) : cdrs xss = tails xss := by
  simp only [cdrs, cdrsLoop_eq, carsCdrsLoop_step h, Option.map]

theorem carsPlus_eq : ∀ (xss : List (List V)) (z : V), carsPlus xss z = cars xss ++ [z] := by
  intro xss z
  induction xss with
  | nil => rfl
  | cons xs xss ih =>
    cases xs with
    | nil => simp only [carsPlus, ih]; rfl
    | cons a d => simp only [carsPlus, ih]; rfl

theorem tails_ne {xss : List (List V)} (h : xss ≠ []) : tails xss ≠ [] := by
  simpa [tails] using h

theorem cars_ne {xss : List (List V)} (h : xss ≠ []) (hn : ¬ [] ∈ xss) : cars xss ≠ [] := by
  cases xss with
  | nil => exact absurd rfl h
  | cons xs xss =>
    cases xs with
    | nil => simp at hn
    | cons a d => simp [cars]

theorem shortest_stop : ∀ {xss : List (List V)}, [] ∈ xss → shortest xss = 0 := by
  intro xss
  induction xss with
  | nil => intro h; simp at h
  | cons xs xss ih =>
    intro h
    cases xss with
    | nil =>
      have : xs = [] := (List.mem_singleton.mp h).symm
      subst this; rfl
    | cons ys yss =>
      rcases List.mem_cons.mp h with h | h
      · subst h; simp [shortest]
      · simp only [shortest, ih h, Nat.min_zero]

theorem shortest_step : ∀ {xss : List (List V)}, xss ≠ [] → ¬ [] ∈ xss →
    shortest xss = shortest (tails xss) + 1 := by
  intro xss
  induction xss with
  | nil => intro h; exact absurd rfl h
  | cons xs xss ih =>
    intro _ h
    have h1 : xs ≠ [] := fun e => h (by simp [e])
    have h2 : ¬ [] ∈ xss := fun e => h (by simp [e])
    have h3 : 0 < xs.length := List.length_pos_iff.mpr h1
    cases xss with
    | nil => simp only [tails, List.map_cons, List.map_nil, shortest, List.length_tail]; omega
    | cons ys yss =>
      have := ih (by simp) h2
      simp only [tails, List.map_cons, shortest, List.length_tail] at this ⊢
      omega

theorem columns_stop {xss : List (List V)} (h : [] ∈ xss) : columns xss = [] := by
  simp only [columns, shortest_stop h, List.range_zero, List.map_nil]

theorem columns_step {xss : List (List V)} (hne : xss ≠ []) (h : ¬ [] ∈ xss) :
    columns xss = cars xss :: columns (tails xss) := by
  simp only [columns, shortest_step hne h, List.range_succ_eq_map, List.map_cons, List.map_map]
  refine List.cons_eq_cons.mpr ⟨?_, ?_⟩
  · unfold cars
    congr 1
    funext xs
    cases xs <;> rfl
  · apply List.map_congr_left
    intro i _
    simp only [Function.comp, tails, List.filterMap_map]
    congr 1
    funext xs
    simp

theorem columns_one : ∀ (x : List V), columns [x] = x.map fun a => [a] := by
  intro x
  induction x with
  | nil => rfl
  | cons a d ih =>
    rw [columns_step (by simp) (by simp)]
    simp only [tails, List.map_cons, List.map_nil, List.tail_cons, ih, cars]
    rfl

theorem suffixes_stop {xss : List (List V)} (h : [] ∈ xss) : suffixes xss = [] := by
  simp only [suffixes, shortest_stop h, List.range_zero, List.map_nil]

theorem suffixes_step {xss : List (List V)} (hne : xss ≠ []) (h : ¬ [] ∈ xss) :
    suffixes xss = xss :: suffixes (tails xss) := by
  simp only [suffixes, shortest_step hne h, List.range_succ_eq_map, List.map_cons, List.map_map]
  refine List.cons_eq_cons.mpr ⟨?_, ?_⟩
  · simp
  · apply List.map_congr_left
    intro i _
    simp only [Function.comp, tails, List.map_map]
    congr 1
    funext xs
    simp

theorem suffixes_one_cons (a : V) (d : List V) : suffixes [a :: d] = [a :: d] :: suffixes [d] := by
  rw [suffixes_step (by simp) (by simp)]
  rfl

theorem suffixes_one_nil : suffixes [([] : List V)] = [] := rfl

/-- Induction over several lists. -/
theorem several {P : List (List V) → Prop} (stop : ∀ xss, [] ∈ xss → P xss)
    (step : ∀ xss, xss ≠ [] → ¬ [] ∈ xss → P (tails xss) → P xss) : ∀ xss, xss ≠ [] → P xss := by
  have key : ∀ n, ∀ xss : List (List V), total xss ≤ n → xss ≠ [] → P xss := by
    intro n
    induction n with
    | zero =>
      intro xss hn hne
      by_cases hm : [] ∈ xss
      · exact stop xss hm
      · have := tails_total xss hne hm
        omega
    | succ n ih =>
      intro xss hn hne
      by_cases hm : [] ∈ xss
      · exact stop xss hm
      · have := tails_total xss hne hm
        exact step xss hne hm (ih (tails xss) (by omega) (tails_ne hne))
  intro xss
  exact key (total xss) xss (Nat.le_refl _)

theorem someEmpty_iff {xss : List (List V)} : someEmpty xss = true ↔ [] ∈ xss := by
  constructor
  · intro h
    obtain ⟨xs, hm, he⟩ := List.any_eq_true.mp h
    cases xs with
    | nil => exact hm
    | cons a d => simp at he
  · intro h
    exact List.any_eq_true.mpr ⟨[], h, rfl⟩

theorem isFalse_no {B : Type} [Objects B] : isFalse (no : B) = true := (Objects.isFalse_iff _).mpr rfl

theorem isFalse_yes {B : Type} [Objects B] : isFalse (yes : B) = false := by
  cases h : isFalse (yes : B) with
  | false => rfl
  | true => exact absurd ((Objects.isFalse_iff _).mp h) Objects.yes_ne_no

theorem isFalse_negate {B : Type} [Objects B] (b : B) : isFalse (negate b) = !isFalse b := by
  unfold negate
  cases h : isFalse b with
  | false => simp [isFalse_no]
  | true => simp [isFalse_yes]

end Meevax.Srfi1
