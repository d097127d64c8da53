import Verif.Lemmas.DerivedMain

/-!
Derived expression types in tail positions: the continuations of the translation are no deeper, up to a
constant, than those of the program.
-/

namespace Meevax.Scheme

open Secd (Name)

variable {free : Name → Nat}

theorem operands_depth (todo : List Expr) (vs : List Val) (f : Expr) (ρ : Env) (κ : Kont) (σ : Store) :
    (operands todo vs f ρ κ σ).κ.depth ≤ κ.depth + 1 := by
  cases todo <;> simp [operands, Kont.depth]

theorem inits_depth (todo : List Expr) (vs : List Val) (ls : List Nat) (b : Expr) (ρ : Env) (κ : Kont) (σ : Store) :
    (inits todo vs ls b ρ κ σ).κ.depth ≤ κ.depth + 1 := by
  cases todo <;> simp [inits, Kont.depth]

theorem apply_depth {P : Prims} {f : Val} {vs : List Val} {κ : Kont} {σ : Store} {st : State} (hf : f.Plain)
    (h : apply P f vs κ σ = .next st) : st.κ.depth ≤ κ.depth + 1 := by
  cases hf with
  | datum | pair => simp [apply] at h
  | prim p =>
    simp only [apply] at h
    split at h
    · cases h; simp
    · cases h
    · cases h
  | closure fs rest ρ hb =>
    cases rest with
    | none =>
      simp only [apply] at h
      split at h
      · cases h; simp
      · cases h
    | some r =>
      simp only [apply] at h
      split at h
      · cases h; simp
      · cases h

/-- One step makes the continuation deeper by one at most, when continuations are not captured. -/
theorem step_depth {P : Prims} {st st₁ : State} (hp : st.Plain) (h : step free P st = .next st₁) :
    st₁.κ.depth ≤ st.κ.depth + 1 := by
  obtain ⟨ctl, κ, σ⟩ := st
  obtain ⟨hc, -, is, hκ, -⟩ := hp
  simp only at hc hκ ⊢
  cases ctl with
  | eval e ρ =>
    cases hc with
    | const | lam | current | seq | ite | set | install =>
      simp only [step] at h; cases h; simp [Kont.depth]
    | var x =>
      simp only [step] at h
      split at h
      · cases h; simp
      · split at h
        · cases h; simp
        · cases h
    | app => simp only [step] at h; cases h; exact operands_depth ..
    | letrec => simp only [step] at h; cases h; exact inits_depth ..
  | value v =>
    cases hκ with
    | halt => simp [step] at h
    | ite | seq | install => simp only [step] at h; cases h; simp [Kont.depth]; try omega
    | set =>
      simp only [step] at h
      split at h
      · cases h; simp [Kont.depth]; omega
      · split at h
        · cases h; simp [Kont.depth]; omega
        · cases h
    | arg =>
      simp only [step] at h
      split at h
      · cases h
        refine Nat.le_trans (operands_depth ..) ?_
        simp [Kont.depth]
      · cases h
    | fn =>
      simp only [step] at h
      split at h
      · have := apply_depth hc h
        simp only [Kont.depth]
        omega
      · cases h
    | init =>
      simp only [step] at h
      split at h
      · cases h
        refine Nat.le_trans (inits_depth ..) ?_
        simp [Kont.depth]
      · cases h

theorem run_depth {P : Prims} (hP : PlainPrims P) : ∀ (n : Nat) {st st₁ : State}, st.Plain →
    run free P n st = .running st₁ → st₁.κ.depth ≤ st.κ.depth + n
  | 0, st, st₁, _, h => by cases h; simp
  | n + 1, st, st₁, hp, h => by
    simp only [run] at h
    cases hs : step free P st with
    | next st₂ =>
      rw [hs] at h
      have h₁ := step_depth hp hs
      have h₂ := Plain.step hP hp (free := free)
      rw [hs] at h₂
      have := run_depth hP n h₂ h
      omega
    | done | raise | wrong | reentered => rw [hs] at h; cases h

end Meevax.Scheme

namespace Meevax.Surface

open Secd (Name)

variable {free : Name → Nat} {P : Prims} {P' : Scheme.Prims} {t r : Name}

theorem seqs_plain : ∀ {es : List Scheme.Expr}, (∀ e ∈ es, Scheme.Plain e) → Scheme.Plain (seqs es)
  | [], _ => .const _
  | [e], h => h e (by simp)
  | e :: e' :: es, h => by
    simp only [seqs]
    exact .seq (h e (by simp)) (seqs_plain fun x hx => h x (by simp [hx]))

theorem again_plain {steps cmds : List Scheme.Expr} (hs : ∀ e ∈ steps, Scheme.Plain e)
    (hc : ∀ e ∈ cmds, Scheme.Plain e) : Scheme.Plain (again r steps cmds) := by
  refine seqs_plain fun e he => ?_
  rcases List.mem_append.1 he with he | he
  · exact hc e he
  · obtain rfl := List.mem_singleton.1 he
    exact .app (.var _) hs

theorem orBody_plain {b : Scheme.Expr} (hb : Scheme.Plain b) : Scheme.Plain (orBody t b) :=
  .lam _ _ (.ite (.var _) (.var _) hb)

mutual

theorem core_plain : ∀ e : Expr, Scheme.Plain (e.core t r)
  | .const d => .const d
  | .var x => .var x
  | .lam fs rest body => .lam _ _ (core_plain body)
  | .app f args => .app (core_plain f) (cores_plain args)
  | .ite a b c => .ite (core_plain a) (core_plain b) (core_plain c)
  | .set x e => .set _ (core_plain e)
  | .letrec xs es body => .letrec _ (cores_plain es) (core_plain body)
  | .seq a b => .seq (core_plain a) (core_plain b)
  | .orElse a b => .app (orBody_plain (core_plain b)) (by
      intro x hx; obtain rfl := List.mem_singleton.1 hx; exact core_plain a)
  | .arrow a f b => .app (.lam _ _ (.ite (.var _) (.app (core_plain f) (by
      intro x hx; obtain rfl := List.mem_singleton.1 hx; exact .var _)) (core_plain b))) (by
      intro x hx; obtain rfl := List.mem_singleton.1 hx; exact core_plain a)
  | .let_ xs es body => .app (.lam _ _ (core_plain body)) (cores_plain es)
  | .named f xs es body => .letrec _ (by
      intro x hx; obtain rfl := List.mem_singleton.1 hx; exact .lam _ _ (core_plain body))
      (.app (.var _) (cores_plain es))
  | .loop xs es steps test res commands => by
    have h₁ := core_plain test
    have h₂ := cores_plain res
    have h₃ := again_plain (r := r) (cores_plain steps) (cores_plain commands)
    refine .letrec _ ?_ (.app (.var _) (cores_plain es))
    intro x hx
    obtain rfl := List.mem_singleton.1 hx
    refine .lam _ _ ?_
    generalize cores t r res = rs at *
    cases rs with
    | nil => exact .app (orBody_plain h₃) (by intro x hx; obtain rfl := List.mem_singleton.1 hx; exact h₁)
    | cons => exact .ite h₁ (seqs_plain h₂) h₃

theorem cores_plain : ∀ es : List Expr, ∀ e ∈ cores t r es, Scheme.Plain e
  | [], e, he => by cases he
  | e :: es, x, hx => by
    simp only [cores, List.mem_cons] at hx
    rcases hx with rfl | hx
    · exact core_plain e
    · exact cores_plain es x hx

end

/-- Related continuations are equally deep. -/
theorem KRel.depth {μ : Nat → Nat} {nx : Nat} {κ : Kont} {κ' : Scheme.Kont} {is : List Nat}
    {ps : List (Nat × Scheme.Val)} (h : KRel t r μ nx κ κ' is ps) : κ'.depth = κ.depth := by
  induction h <;> simp [Kont.depth, Scheme.Kont.depth, *]

theorem StRel.depth {st : State} {st' : Scheme.State} (h : StRel t r st st') : st'.κ.depth = st.κ.depth := by
  cases h with
  | eval _ _ _ _ hκ => exact hκ.depth
  | value _ hκ => exact hκ.depth

/-- Every state of the translation is at most 12 deeper than some state of the program. -/
theorem run_depth (hne : t ≠ r) (hP : PrimRel t r P P') (hP' : Scheme.PlainPrims P') (n : Nat) :
    ∀ {st : State} {st' : Scheme.State} {st₁ : Scheme.State}, StRel t r st st' → st'.Plain →
      Scheme.run free P' n st' = .running st₁ →
      ∃ k st₂, run free P k st = .running st₂ ∧ st₁.κ.depth ≤ st₂.κ.depth + 12 := by
  induction n using Nat.strongRecOn with
  | _ n ih =>
    intro st st' st₁ hrel hp hr
    have hs := sim (free := free) hne hP hrel
    have near : n ≤ 12 → ∃ k st₂, run free P k st = .running st₂ ∧ st₁.κ.depth ≤ st₂.κ.depth + 12 := fun hn => by
      have := Scheme.run_depth hP' n hp hr
      rw [hrel.depth] at this
      exact ⟨0, st, rfl, by omega⟩
    cases hx : step free P st with
    | next st₂ =>
      rw [hx] at hs
      obtain ⟨m, st₂', ⟨hm, hM⟩, hrun, hrel'⟩ := hs
      by_cases hn : n ≤ 12
      · exact near hn
      · have hpl := Scheme.Plain.run hP' m hp (free := free)
        have h0 := hrun 0
        simp only [Nat.add_zero, Scheme.run] at h0
        rw [h0] at hpl
        obtain ⟨k, st₃, h₁, h₂⟩ := ih (n - m) (by omega) hrel' hpl (by
          rw [← hrun, show m + (n - m) = n by omega]; exact hr)
        exact ⟨k + 1, st₃, by simp only [run, hx, h₁], h₂⟩
    | done v σ =>
      rw [hx] at hs
      obtain ⟨m, v', σ', μ, hM, h, -⟩ := hs
      refine near ?_
      by_cases hn : n ≤ 12
      · exact hn
      · obtain ⟨_, h'⟩ := running_le (n := m) (by omega) hr
        rw [h] at h'; cases h'
    | raise v σ =>
      rw [hx] at hs
      obtain ⟨m, v', σ', μ, hM, h, -⟩ := hs
      refine near ?_
      by_cases hn : n ≤ 12
      · exact hn
      · obtain ⟨_, h'⟩ := running_le (n := m) (by omega) hr
        rw [h] at h'; cases h'
    | wrong =>
      rw [hx] at hs
      obtain ⟨m, hM, h⟩ := hs
      refine near ?_
      by_cases hn : n ≤ 12
      · exact hn
      · obtain ⟨_, h'⟩ := running_le (n := m) (by omega) hr
        rw [h] at h'; cases h'

theorem Reaches.core (hne : t ≠ r) (hP : PrimRel t r P P') (hP' : Scheme.PlainPrims P') {H : Name → Prop}
    (ht : H t) (hr : H r) : ∀ {es : List Expr} {σ : Store} {σ' : Scheme.Store} {μ : Nat → Nat} {st : Scheme.State},
      SRel t r μ σ σ' [] → σ'.Plain → Avoid es H → ¬ InError free P σ es →
      Scheme.Reaches free P' σ' (cores t r es) st →
      ∃ st₁, Reaches free P σ es st₁ ∧ st.κ.depth ≤ st₁.κ.depth + 12
  | [], _, _, _, _, _, _, _, _, h => by cases h
  | e :: es, σ, σ', μ, st, hσ, hpl, ha, he, h => by
    have htop := toplevel_rel ht hr ha.1 hσ
    have hptop := Scheme.Plain.toplevel (core_plain (t := t) (r := r) e) hpl
    cases h with
    | here n h =>
      obtain ⟨k, st₂, h₁, h₂⟩ := run_depth hne hP hP' n htop hptop h
      exact ⟨st₂, .here k h₁, h₂⟩
    | @later _ σ₁' _ _ v' _ n h htail =>
      -- the program must have ended there too
      by_cases hf : ∀ k, ∃ s, run free P k (toplevel e σ) = .running s
      · obtain ⟨s, hs⟩ := hf n
        have := run_sim (free := free) hne hP n htop
        rw [hs] at this
        obtain ⟨m, s', hm, h₁⟩ := this
        obtain ⟨_, h₂⟩ := running_le hm h₁
        rw [h] at h₂; cases h₂
      · obtain ⟨k, hk⟩ := Classical.not_forall.1 hf
        have hs := run_sim (free := free) hne hP k htop
        cases ho : run free P k (toplevel e σ) with
        | running s => exact absurd ⟨s, ho⟩ hk
        | wrong => exact absurd (.here k ho) he
        | raise v σ₁ =>
          rw [ho] at hs
          obtain ⟨m, v', σ₁, μ', h₁, -⟩ := hs
          have := Secd.spec_run_unique h h₁ (by simp) (by simp)
          cases this
        | done v σ₁ =>
          rw [ho] at hs
          obtain ⟨m, v', σ₂, μ', h₁, h₂, h₃⟩ := hs
          have := Secd.spec_run_unique h h₁ (by simp) (by simp)
          cases this
          have hpl' := Scheme.Plain.run hP' n hptop (free := free)
          rw [h] at hpl'
          obtain ⟨st₁, h₄, h₅⟩ := Reaches.core hne hP hP' ht hr h₃ hpl'.2 ha.2 (fun hi => he (.later k ho hi)) htail
          exact ⟨st₁, .later k ho h₄, h₅⟩

end Meevax.Surface
