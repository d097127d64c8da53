import Verif.Lemmas.DerivedStep

/-! Programs with derived expression types and their translations behave alike. -/

namespace Meevax.Surface

open Secd (Name Form)

variable {free : Name → Nat} {P : Prims} {P' : Scheme.Prims} {t r : Name}

theorem run_sim (hne : t ≠ r) (hP : PrimRel t r P P') : ∀ (n : Nat) {st : State} {st' : Scheme.State},
    StRel t r st st' →
    match run free P n st with
    | .running _ => ∃ m st₁, n ≤ m ∧ Scheme.run free P' m st' = .running st₁
    | .done v σ => ∃ m v' σ' μ, Scheme.run free P' m st' = .done v' σ' ∧ VRel t r μ σ.nvars v v' ∧
        SRel t r μ σ σ' []
    | .raise v σ => ∃ m v' σ' μ, Scheme.run free P' m st' = .raise v' σ' ∧ VRel t r μ σ.nvars v v' ∧
        PRel t r μ σ.nvars σ.pairs σ'.pairs
    | .wrong => ∃ m, Scheme.run free P' m st' = .wrong
  | 0, st, st', h => ⟨0, st', by omega, rfl⟩
  | n + 1, st, st', h => by
    have hs := sim (free := free) hne hP h
    simp only [run]
    cases hx : step free P st with
    | next st₁ =>
      rw [hx] at hs
      obtain ⟨m, st₁', ⟨hm, -⟩, hrun, hrel⟩ := hs
      have ih := run_sim hne hP n hrel
      simp only
      revert ih
      cases run free P n st₁ with
      | running st₂ =>
        rintro ⟨k, st₂', hk, h⟩
        exact ⟨m + k, st₂', by omega, by rw [hrun, h]⟩
      | done v σ =>
        rintro ⟨k, v', σ', μ, h, h'⟩
        exact ⟨m + k, v', σ', μ, by rw [hrun, h], h'⟩
      | raise v σ =>
        rintro ⟨k, v', σ', μ, h, h'⟩
        exact ⟨m + k, v', σ', μ, by rw [hrun, h], h'⟩
      | wrong =>
        rintro ⟨k, h⟩
        exact ⟨m + k, by rw [hrun, h]⟩
    | done v σ => rw [hx] at hs; obtain ⟨n, v', σ', μ, -, h⟩ := hs; exact ⟨n, v', σ', μ, h⟩
    | raise v σ => rw [hx] at hs; obtain ⟨n, v', σ', μ, -, h⟩ := hs; exact ⟨n, v', σ', μ, h⟩
    | wrong => rw [hx] at hs; obtain ⟨n, -, h⟩ := hs; exact ⟨n, h⟩

theorem running_le : ∀ {n m : Nat} {st st' : Scheme.State}, n ≤ m →
    Scheme.run free P' m st = .running st' → ∃ st₁, Scheme.run free P' n st = .running st₁
  | 0, _, st, _, _, _ => ⟨st, rfl⟩
  | n + 1, m + 1, st, st', h, hr => by
    simp only [Scheme.run] at hr ⊢
    cases hs : Scheme.step free P' st with
    | next st₁ =>
      rw [hs] at hr
      exact running_le (by omega) hr
    | done | raise | wrong | reentered => rw [hs] at hr; cases hr
  | n + 1, 0, _, _, h, _ => by omega

theorem toplevel_rel {μ : Nat → Nat} {H : Name → Prop} {σ : Store} {σ' : Scheme.Store} {e : Expr} (ht : H t)
    (hr : H r) (he : e.Avoids H) (hσ : SRel t r μ σ σ' []) :
    StRel t r (toplevel e σ) (Scheme.toplevel (e.core t r) σ') :=
  .eval ht hr (fun x _ => ⟨rfl, fun l h => by simp at h⟩) he .halt hσ ⟨.nil, by simp⟩

/-- The translation of a program behaves as the program. -/
theorem Behaves.core (hne : t ≠ r) (hP : PrimRel t r P P') {H : Name → Prop} (ht : H t) (hr : H r)
    {σ : Store} {es : List Expr} {outs : List (Nat → Tree)} {x : Ending} (hb : Behaves free P σ es outs x) :
    ∀ {μ : Nat → Nat} {σ' : Scheme.Store}, SRel t r μ σ σ' [] → Avoid es H →
      Scheme.Behaves free P' σ' (cores t r es) outs x := by
  induction hb with
  | nil σ => exact fun _ _ => .nil _
  | cons n h _ ih =>
    intro μ σ' hσ ha
    have := run_sim (free := free) hne hP n (toplevel_rel ht hr ha.1 hσ)
    rw [h] at this
    obtain ⟨m, v', σ₁, μ', h₁, h₂, h₃⟩ := this
    have hv : (fun n => view _ n _) = fun n => Scheme.view σ₁.pairs n v' :=
      funext fun n => view_eq h₃.pairs n h₂
    rw [hv]
    exact .cons m h₁ (ih h₃ ha.2)
  | raise n h =>
    intro μ σ' hσ ha
    have := run_sim (free := free) hne hP n (toplevel_rel ht hr ha.1 hσ)
    rw [h] at this
    obtain ⟨m, v', σ₁, μ', h₁, h₂, h₃⟩ := this
    have hv : (fun n => view _ n _) = fun n => Scheme.view σ₁.pairs n v' :=
      funext fun n => view_eq h₃ n h₂
    rw [hv]
    exact .raise m h₁
  | forever h =>
    intro μ σ' hσ ha
    refine .forever fun n => ?_
    obtain ⟨st, hst⟩ := h n
    have := run_sim (free := free) hne hP n (toplevel_rel ht hr ha.1 hσ)
    rw [hst] at this
    obtain ⟨m, st₁, hm, h₁⟩ := this
    exact running_le hm h₁

/-- Every program behaves in some way, or is in error. -/
theorem behaves_or_error (P : Prims) : ∀ (es : List Expr) (σ : Store),
    (∃ outs x, Behaves free P σ es outs x) ∨ InError free P σ es
  | [], σ => .inl ⟨_, _, .nil σ⟩
  | e :: es, σ => by
    by_cases h : ∀ n, ∃ st, run free P n (toplevel e σ) = .running st
    · exact .inl ⟨_, _, .forever h⟩
    · obtain ⟨n, hn⟩ := Classical.not_forall.1 h
      cases ho : run free P n (toplevel e σ) with
      | running st => exact absurd ⟨st, ho⟩ hn
      | done v σ' =>
        rcases behaves_or_error P es σ' with ⟨outs, x, hb⟩ | hf
        · exact .inl ⟨_, _, .cons n ho hb⟩
        · exact .inr (.later n ho hf)
      | raise v σ' => exact .inl ⟨_, _, .raise n ho⟩
      | wrong => exact .inr (.here n ho)

/-- How the run stands does not change once it has ended. -/
theorem run_more {o : Outcome} (ho : ∀ st, o ≠ .running st) : ∀ {n : Nat} {st : State} (k : Nat),
    run free P n st = o → run free P (n + k) st = o
  | 0, st, k, h => absurd h.symm (ho st)
  | n + 1, st, k, h => by
    rw [Nat.add_right_comm]
    simp only [run] at h ⊢
    cases hs : step free P st with
    | next st₁ => rw [hs] at h; exact run_more ho k h
    | done | raise | wrong => rw [hs] at h; exact h

theorem run_unique {o o' : Outcome} (ho : ∀ st, o ≠ .running st) (ho' : ∀ st, o' ≠ .running st) {n m : Nat}
    {st : State} (h : run free P n st = o) (h' : run free P m st = o') : o = o' := by
  have h₁ := run_more ho (max n m - n) h
  have h₂ := run_more ho' (max n m - m) h'
  rw [show n + (max n m - n) = max n m by omega] at h₁
  rw [show m + (max n m - m) = max n m by omega] at h₂
  exact h₁.symm.trans h₂

/-- A program that behaves in some way is not in error. -/
theorem not_inError {σ : Store} {es : List Expr} {outs : List (Nat → Tree)} {x : Ending}
    (hb : Behaves free P σ es outs x) : ¬ InError free P σ es := by
  induction hb with
  | nil => intro h; cases h
  | cons n h _ ih =>
    intro h'
    cases h' with
    | here m hm => cases run_unique (by simp) (by simp) h hm
    | later m hm ht =>
      cases run_unique (by simp) (by simp) h hm
      exact ih ht
  | raise n h =>
    intro h'
    cases h' with
    | here m hm => cases run_unique (by simp) (by simp) h hm
    | later m hm ht => cases run_unique (by simp) (by simp) h hm
  | forever h =>
    intro h'
    cases h' with
    | here m hm => obtain ⟨st, h⟩ := h m; rw [h] at hm; cases hm
    | later m hm ht => obtain ⟨st, h⟩ := h m; rw [h] at hm; cases hm

theorem initial_rel (g r₀ : Nat → Base) : SRel t r id (initial g) (Scheme.initial g r₀) [] := by
  refine ⟨fun i j hi => ?_, fun i hi => ?_, fun i hi => ?_, ⟨rfl, fun _ => .datum .nil, fun _ => .datum .nil⟩,
    fun i => ?_, by simp, .nil⟩
  · simp [initial] at hi
  · simp [initial] at hi
  · simp [initial] at hi
  · simp only [initial, Scheme.initial]
    cases g i with
    | datum d => exact .datum d
    | prim p => exact .prim p

end Meevax.Surface
