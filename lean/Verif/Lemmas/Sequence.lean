import Verif.Model.Sequence
import Verif.Spec.Sequence

namespace Meevax.Seq
open Meevax.Number

variable {α : Type}

@[simp] theorem bind_value {β γ : Type} (a : β) (f : β → Outcome γ) : (Outcome.value a >>= f) = f a := rfl
@[simp] theorem bind_raised {β γ : Type} (f : β → Outcome γ) : (Outcome.raised >>= f) = .raised := rfl
@[simp] theorem bind_undefined {β γ : Type} (f : β → Outcome γ) : (Outcome.undefined >>= f) = .undefined := rfl

theorem sizeCast_index {k : Nat} {x : Num} (h : IsIndex k x) : sizeCast x = .value k := by
  obtain ⟨h, rfl | rfl⟩ := h
  · simp only [sizeCast]; congr 1
    rw [Int.emod_eq_of_lt] <;> omega
  · simp only [sizeCast, Int.natAbs_natCast]; rw [Nat.mod_eq_of_lt h]

theorem elements_some {σ : Store α} {a : Nat} {xs : List α} (h : σ[a]? = some xs) : elements σ a = .value xs := by
  unfold elements; rw [h]

theorem bounds_designated {n : Nat} {range : List Num} {i j : Nat} (h : Designates n range i j) :
    bounds n range = .value (i, j) ∧ i ≤ j ∧ j ≤ n := by
  cases h with
  | all => exact ⟨rfl, Nat.zero_le _, le_refl _⟩
  | «from» h1 h2 => simp [bounds, sizeCast_index h1, h2]
  | range h1 h2 h3 h4 => simp [bounds, sizeCast_index h1, sizeCast_index h2, h3, h4]

theorem between_spec {xs : List α} {i j : Nat} (h1 : i ≤ j) (h2 : j ≤ xs.length) :
    ∃ ys, between xs i j = .value ys ∧ IsRange xs i j ys := by
  refine ⟨(xs.drop i).take (j - i), by simp [between, h1, h2], by simp; omega, ?_⟩
  intro k hk
  rw [List.getElem?_take_of_lt hk, List.getElem?_drop]

theorem IsRange.eq {xs ys : List α} {i j : Nat} (h : IsRange xs i j ys) (h2 : j ≤ xs.length) :
    ys = (xs.drop i).take (j - i) := by
  apply List.ext_getElem?
  intro k
  by_cases hk : k < j - i
  · rw [h.2 k hk, List.getElem?_take_of_lt hk, List.getElem?_drop]
  · rw [List.getElem?_eq_none (by rw [h.1]; omega), List.getElem?_eq_none (by simp; omega)]

theorem new_allocate (σ : Store α) (xs : List α) : New σ xs (allocate σ xs).1 (allocate σ xs).2 := by
  refine ⟨by simp [allocate], by simp [allocate], ?_⟩
  intro b ys h
  simp only [allocate]
  rw [List.getElem?_append_left, h]
  exact (List.getElem?_eq_some_iff.1 h).1

theorem consAll_eq (xs : List α) : consAll xs = xs.reverse := by
  unfold consAll
  have : ∀ (xs acc : List α), xs.foldl (fun l x => x :: l) acc = xs.reverse ++ acc := by
    intro xs
    induction xs with
    | nil => intro acc; rfl
    | cons x xs ih => intro acc; simp [ih]
  simpa using this xs []

theorem toList_spec {xs : List α} {i j : Nat} (h1 : i ≤ j) (h2 : j ≤ xs.length) :
    ∃ ys, between xs.reverse (xs.length - j) (xs.length - i) = .value ys ∧ IsRange xs i j (consAll ys) := by
  obtain ⟨ys, h3, h4⟩ := between_spec (xs := xs.reverse) (i := xs.length - j) (j := xs.length - i) (by omega)
    (by simp)
  refine ⟨ys, h3, ?_⟩
  rw [consAll_eq]
  have hl : ys.length = j - i := by rw [h4.1]; omega
  refine ⟨by simpa using hl, ?_⟩
  intro k hk
  rw [List.getElem?_reverse (by omega), h4.2 _ (by omega), List.getElem?_reverse (by omega)]
  congr 1
  omega

theorem fillLoop_length (x : α) (xs : List α) (i count : Nat) : (fillLoop x xs i count).length = xs.length := by
  induction count generalizing xs i with
  | zero => rfl
  | succ n ih => simp [fillLoop, ih]

theorem fillLoop_spec (x : α) (count : Nat) : ∀ (xs : List α) (i : Nat), i + count ≤ xs.length →
    ∀ k, (fillLoop x xs i count)[k]? = if i ≤ k ∧ k < i + count then some x else xs[k]? := by
  induction count with
  | zero => intro xs i _ k; rw [if_neg (by omega)]; rfl
  | succ n ih =>
    intro xs i h k
    rw [fillLoop, ih _ _ (by simp; omega)]
    by_cases hk : k = i
    · subst hk
      rw [if_neg (by omega), if_pos (by omega), List.getElem?_set_self (by omega)]
    · rw [List.getElem?_set_ne (by omega)]
      by_cases h' : i + 1 ≤ k ∧ k < i + 1 + n
      · rw [if_pos h', if_pos (by omega)]
      · rw [if_neg h', if_neg (by omega)]

/-- Copying forward gives the old elements if no element is overwritten before it is read. -/
theorem copyLoop_spec (count : Nat) : ∀ (σ : Store α) (target at' source i : Nat) (xs ys : List α),
    σ[source]? = some xs → σ[target]? = some ys → i + count ≤ xs.length → at' + count ≤ ys.length →
    (target = source → at' ≤ i ∨ i + count ≤ at') →
    ∃ τ zs, copyLoop σ target at' source i count = some τ ∧ OnlyAt target σ τ ∧ τ[target]? = some zs ∧
      zs.length = ys.length ∧
      ∀ k, zs[k]? = if at' ≤ k ∧ k < at' + count then xs[i + (k - at')]? else ys[k]? := by
  induction count with
  | zero =>
    intro σ target at' source i xs ys hs ht _ _ _
    refine ⟨σ, ys, rfl, ⟨rfl, fun _ _ => rfl⟩, ht, rfl, ?_⟩
    intro k; rw [if_neg (by omega)]
  | succ n ih =>
    intro σ target at' source i xs ys hs ht hi ha hover
    have hx : xs[i]? = some (xs[i]'(by omega)) := List.getElem?_eq_getElem _
    generalize hxi : xs[i]'(by omega) = x at hx
    have htl : target < σ.length := (List.getElem?_eq_some_iff.1 ht).1
    have ht' : (σ.set target (ys.set at' x))[target]? = some (ys.set at' x) := by
      rw [List.getElem?_set_self htl]
    by_cases hst : target = source
    · subst hst
      rw [hs] at ht
      cases ht
      obtain ⟨τ, zs, h1, h2, h3, h4, h5⟩ := ih (σ.set target (xs.set at' x)) target (at' + 1) target (i + 1)
        (xs.set at' x) (xs.set at' x) ht' ht' (by simp; omega) (by simp; omega)
        (fun _ => by rcases hover rfl with h | h <;> omega)
      refine ⟨τ, zs, ?_, ⟨?_, ?_⟩, h3, by simpa using h4, ?_⟩
      · simp only [copyLoop, hs, hx]; rw [if_pos (by omega), h1]
      · rw [h2.1]; simp
      · intro b hb; rw [h2.2 b hb, List.getElem?_set_ne (by omega)]
      · intro k
        rw [h5]
        by_cases hk : k = at'
        · subst hk
          rw [if_neg (by omega), if_pos (by omega), List.getElem?_set_self (by omega)]
          simp [hx]
        · by_cases h' : at' + 1 ≤ k ∧ k < at' + 1 + n
          · rw [if_pos h', if_pos (by omega), List.getElem?_set_ne]
            · congr 1; omega
            · rcases hover rfl with h | h <;> omega
          · rw [if_neg h', if_neg (by omega), List.getElem?_set_ne (by omega)]
    · have hs' : (σ.set target (ys.set at' x))[source]? = some xs := by
        rw [List.getElem?_set_ne hst, hs]
      obtain ⟨τ, zs, h1, h2, h3, h4, h5⟩ := ih (σ.set target (ys.set at' x)) target (at' + 1) source (i + 1)
        xs (ys.set at' x) hs' ht' (by omega) (by simp; omega) (fun e => absurd e hst)
      refine ⟨τ, zs, ?_, ⟨?_, ?_⟩, h3, by simpa using h4, ?_⟩
      · simp only [copyLoop, hs, ht, hx]; rw [if_pos (by omega), h1]
      · rw [h2.1]; simp
      · intro b hb; rw [h2.2 b hb, List.getElem?_set_ne (by omega)]
      · intro k
        rw [h5]
        by_cases hk : k = at'
        · subst hk
          rw [if_neg (by omega), if_pos (by omega), List.getElem?_set_self (by omega)]
          simp [hx]
        · by_cases h' : at' + 1 ≤ k ∧ k < at' + 1 + n
          · rw [if_pos h', if_pos (by omega)]
            congr 1; omega
          · rw [if_neg h', if_neg (by omega), List.getElem?_set_ne (by omega)]

theorem copyLoop_past (count : Nat) : ∀ (σ : Store α) (target at' source i : Nat) (xs ys : List α),
    σ[source]? = some xs → σ[target]? = some ys → ys.length < at' + count → at' ≤ ys.length →
    copyLoop σ target at' source i count = none := by
  induction count with
  | zero => intro σ target at' source i xs ys _ _ h h'; omega
  | succ n ih =>
    intro σ target at' source i xs ys hs ht h h'
    simp only [copyLoop, hs, ht]
    split
    · rename_i x hx
      split
      · rename_i hlt
        have htl : target < σ.length := (List.getElem?_eq_some_iff.1 ht).1
        have ht' : (σ.set target (ys.set at' x))[target]? = some (ys.set at' x) := by
          rw [List.getElem?_set_self htl]
        by_cases hst : target = source
        · subst hst
          exact ih _ _ _ _ _ _ _ ht' ht' (by simp; omega) (by simp; omega)
        · exact ih _ _ _ _ _ xs _ (by rw [List.getElem?_set_ne hst, hs]) ht' (by simp; omega) (by simp; omega)
      · rfl
    · rfl

end Meevax.Seq
