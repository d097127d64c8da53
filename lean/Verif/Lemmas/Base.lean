import Verif.Model.Base
import Verif.Spec.Base
import Verif.Props.Srfi1
import Verif.Props.Sequence

/-! Lemmas about the procedures of (scheme base). -/

namespace Meevax.Base
open Meevax.Number Meevax.Seq Meevax.Srfi1.Spec Spec

variable {n : Type → Type} [Monad n] [LawfulMonad n] [Failing n] {α : Type}

theorem consAll_reverse (xs : List α) : consAll xs.reverse = xs := by
  have h : ∀ (ys zs : List α), ys.foldl (fun list x => x :: list) zs = ys.reverse ++ zs := by
    intro ys
    induction ys with
    | nil => intro zs; rfl
    | cons y ys ih => intro zs; simp [ih]
  simp [consAll, h]

theorem toList_all {σ : Store α} {a : Nat} {xs : List α} (h : σ[a]? = some xs) :
    toList σ a [] = .value xs := by
  simp only [toList, elements, h, bounds, between, bind, Outcome.bind]
  simp [consAll_reverse, List.take_of_length_le]

theorem toList_none {σ : Store α} {a : Nat} (h : σ[a]? = none) : toList σ a [] = .raised := by
  simp only [toList, elements, h, bind, Outcome.bind]

theorem listOf_all {σ : Store α} {a : Nat} {xs : List α} (h : σ[a]? = some xs) :
    (listOf a : StateT (Store α) n (List α)) σ = pure (xs, σ) := by
  simp [listOf, bind, StateT.bind, get, getThe, MonadStateOf.get, StateT.get, toList_all h, outcome, pure, StateT.pure]

theorem listOf_none {σ : Store α} {a : Nat} (h : σ[a]? = none) :
    (listOf a : StateT (Store α) n (List α)) σ = Failing.raised := by
  simp [listOf, bind, StateT.bind, get, getThe, MonadStateOf.get, StateT.get, toList_none h, outcome]

/-- The list of contents is made without changing anything. -/
theorem contents_mapM {σ : Store α} : ∀ {as : List Nat} {xss : List (List α)}, contents σ as = some xss →
    (as.mapM listOf : StateT (Store α) n (List (List α))) σ = pure (xss, σ) := by
  intro as
  induction as with
  | nil =>
    intro xss h
    simp only [contents, Option.some.injEq] at h
    subst h
    rfl
  | cons a as ih =>
    intro xss h
    rw [contents] at h
    split at h
    · rename_i xs xss' h1 h2
      cases h
      rw [List.mapM_cons]
      show (listOf a σ >>= fun p => _) = _
      rw [listOf_all h1, pure_bind]
      show (List.mapM listOf as σ >>= fun p => _) = _
      rw [ih h2, pure_bind]
      rfl
    · cases h

/-- An argument that is not of the type raises. -/
theorem contents_mapM_none {σ : Store α} : ∀ {as : List Nat}, contents σ as = none →
    (as.mapM listOf : StateT (Store α) n (List (List α))) σ = Failing.raised := by
  intro as
  induction as with
  | nil => intro h; simp [contents] at h
  | cons a as ih =>
    intro h
    rw [List.mapM_cons]
    show (listOf a σ >>= fun p => _) = _
    rw [contents] at h
    cases h1 : σ[a]? with
    | none => rw [listOf_none h1, Failing.raised_bind]
    | some xs =>
      cases h2 : contents σ as with
      | some xss => simp [h1, h2] at h
      | none =>
        rw [listOf_all h1, pure_bind]
        show (List.mapM listOf as σ >>= fun p => _) = _
        rw [ih h2, Failing.raised_bind]

theorem listsOf_eq (x : Nat) (xs : List Nat) :
    (listsOf x xs : StateT (Store α) n (List (List α))) = (x :: xs).mapM listOf := by
  rw [listsOf, Srfi1.C56_map, Srfi1.columns_one, List.mapM_map]
  rfl

theorem contents_cons {σ : Store α} {x : Nat} {xs : List Nat} {yss : List (List α)}
    (h : contents σ (x :: xs) = some yss) :
    ∃ y ys, yss = y :: ys ∧ σ[x]? = some y ∧ contents σ xs = some ys := by
  rw [contents] at h
  split at h
  · rename_i y ys h1 h2
    cases h
    exact ⟨y, ys, rfl, h1, h2⟩
  · cases h

theorem contents_none {σ : Store α} {x : Nat} (h : contents σ [x] = none) : σ[x]? = none := by
  cases h1 : σ[x]? with
  | none => rfl
  | some y => simp [contents, h1] at h

theorem columns_length (xss : List (List α)) : (columns xss).length = shortest xss := by
  simp [columns]

theorem lt_shortest : ∀ {xss : List (List α)}, xss ≠ [] → ∀ {i : Nat},
    i < shortest xss ↔ ∀ xs ∈ xss, i < xs.length := by
  intro xss
  induction xss with
  | nil => intro h; exact absurd rfl h
  | cons xs xss ih =>
    intro _ i
    cases xss with
    | nil => simp [shortest]
    | cons ys yss =>
      have := ih (by simp) (i := i)
      rw [shortest, Nat.lt_min, this]
      · simp
      · simp

theorem filterMap_all {xss : List (List α)} {i : Nat} (h : ∀ xs ∈ xss, i < xs.length) :
    (xss.filterMap fun xs => xs[i]?).length = xss.length ∧
      ∀ (j : Nat) (xs : List α) (x : α), xss[j]? = some xs →
        (xss.filterMap fun xs => xs[i]?)[j]? = some x → xs[i]? = some x := by
  induction xss with
  | nil => simp
  | cons ys yss ih =>
    have h1 : i < ys.length := h ys (by simp)
    obtain ⟨h2, h3⟩ := ih fun xs hx => h xs (by simp [hx])
    rw [List.filterMap_cons_some (f := fun xs : List α => xs[i]?) (List.getElem?_eq_getElem h1)]
    refine ⟨by simp [h2], ?_⟩
    intro j xs x hj hx
    cases j with
    | zero =>
      simp only [List.getElem?_cons_zero, Option.some.injEq] at hj hx
      subst hj hx
      exact List.getElem?_eq_getElem h1
    | succ j =>
      simp only [List.getElem?_cons_succ] at hj hx
      exact h3 j xs x hj hx

/-- The values of the calls, one for each position. -/
theorem mapped_columns {β : Type} (g : List α → β) {xss : List (List α)} (hne : xss ≠ []) :
    Mapped g xss ((columns xss).map g) := by
  have hi : ∀ i : Nat, ((columns xss).map g)[i]? =
      if i < shortest xss then some (g (xss.filterMap fun xs => xs[i]?)) else none := by
    intro i
    rw [List.getElem?_map, columns, List.getElem?_map]
    by_cases h : i < shortest xss
    · simp [h]
    · simp [h]
  constructor
  · intro i
    rw [hi]
    by_cases h : i < shortest xss
    · simp only [h, if_true, Option.some.injEq, exists_eq', true_iff]
      intro xs hx
      exact ⟨_, List.getElem?_eq_getElem ((lt_shortest hne).mp h xs hx)⟩
    · simp only [h, if_false, reduceCtorEq, exists_false, false_iff]
      intro hall
      apply h
      rw [lt_shortest hne]
      intro xs hx
      obtain ⟨y, hy⟩ := hall xs hx
      exact (List.getElem?_eq_some_iff.mp hy).1
  · intro i y hy
    rw [hi] at hy
    by_cases h : i < shortest xss
    · simp only [h, if_true, Option.some.injEq] at hy
      obtain ⟨h1, h2⟩ := filterMap_all ((lt_shortest hne).mp h)
      exact ⟨_, h1, h2, hy.symm⟩
    · simp [h] at hy

theorem characters_chars (cs : List Nat) : characters (cs.map .char) = .value cs := by
  induction cs with
  | nil => rfl
  | cons c cs ih => simp [characters, ih, bind, Outcome.bind]

theorem characters_other : ∀ {xs : List Element}, (∃ k, .other k ∈ xs) → characters xs = .raised := by
  intro xs
  induction xs with
  | nil => simp
  | cons x xs ih =>
    intro ⟨k, hk⟩
    cases x with
    | other _ => rfl
    | char c =>
      have : .other k ∈ xs := by simpa using hk
      simp [characters, ih ⟨k, this⟩, bind, Outcome.bind]

theorem listToVector_run (ys : List α) (σ : Store α) :
    (listToVector ys : StateT (Store α) n Nat) σ = pure (σ.length, σ ++ [ys]) := by
  simp [listToVector, ofList, allocate, bind, StateT.bind, get, getThe, MonadStateOf.get, StateT.get, set,
    StateT.set, pure, StateT.pure]

end Meevax.Base
