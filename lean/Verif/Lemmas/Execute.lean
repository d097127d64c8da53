import Verif.Spec.Execute

/-! Lemmas about nested calls of `execute`. -/

namespace Meevax.Execute

open Meevax.Secd

/-! ### More frames below -/

/-- The result of a step, with more frames below. -/
def Result.over (K : Kernel) (fs : List Frame) : Result → Result
  | .next C => .next { C with frames := C.frames ++ fs }
  | .done v S => leave K v S fs
  | .uncaught x S => unwind K x fs S
  | .exit n S => .exit n S
  | .stuck => .stuck

theorem unwind_append (K : Kernel) (x : Value) (fs : List Frame) : ∀ (fs₀ : List Frame) (S : Store),
    unwind K x (fs₀ ++ fs) S = (unwind K x fs₀ S).over K fs
  | [], _ => rfl
  | .catching :: fs₀, S => by simpa [unwind] using unwind_append K x fs fs₀ S
  | .waiting i tail m k :: fs₀, S => by
    simp only [List.cons_append, unwind]
    split
    · exact unwind_append K x fs fs₀ S
    · simp [applyHandler, Result.over]

theorem catchError_append (K : Kernel) (i : Nat) (x : Value) (fs fs₀ : List Frame) (S : Store) :
    catchError K i x (fs₀ ++ fs) S = (catchError K i x fs₀ S).over K fs := by
  simp only [catchError]
  split
  · exact unwind_append K x fs fs₀ S
  · simp [applyHandler, Result.over]

theorem catchObject_append (K : Kernel) (x : Value) (fs fs₀ : List Frame) (S : Store) :
    catchObject K x (fs₀ ++ fs) S = (catchObject K x fs₀ S).over K fs := by
  simp only [catchObject]
  split
  · exact unwind_append K x fs fs₀ S
  · exact unwind_append K _ fs fs₀ _

theorem perform_append (K : Kernel) (i : Nat) (tail : Bool) (m : Regs) (fs fs₀ : List Frame) (x : Effect) :
    perform K i tail m (fs₀ ++ fs) x = (perform K i tail m fs₀ x).over K fs := by
  cases x with
  | value v S =>
    simp only [perform]
    cases resume tail m v <;> rfl
  | error x S => exact catchError_append K i x fs fs₀ S
  | object x S => exact catchObject_append K x fs fs₀ S
  | exit n S => rfl
  | run j c S k => rfl
  | undefined => rfl

theorem leave_append (K : Kernel) (v : Value) (S : Store) (fs : List Frame) : ∀ fs₀ : List Frame,
    leave K v S (fs₀ ++ fs) = (leave K v S fs₀).over K fs
  | [] => rfl
  | .catching :: fs₀ => by simpa [leave] using leave_append K v S fs fs₀
  | .waiting i tail m k :: fs₀ => by
    simp only [List.cons_append, leave]
    exact perform_append K i tail m fs fs₀ _

theorem step_append (K : Kernel) (C : Config) (fs : List Frame) :
    step K { C with frames := C.frames ++ fs } = (step K C).over K fs := by
  simp only [step]
  split
  · exact perform_append K C.i _ _ fs C.frames _
  · split
    · rfl
    · exact leave_append K _ _ fs C.frames
    · exact catchError_append K C.i _ fs C.frames _
    · rfl

/-- Go on after a step. -/
def Result.go (K : Kernel) (n : Nat) : Result → Outcome
  | .next C => run K n C
  | .done v S => .done v S
  | .uncaught x S => .uncaught x S
  | .exit n S => .exit n S
  | .stuck => .stuck

theorem run_succ (K : Kernel) (n : Nat) (C : Config) : run K (n + 1) C = (step K C).go K n := by
  simp only [run]
  cases step K C <;> rfl

theorem run_add (K : Kernel) : ∀ (n k : Nat) {C C' : Config}, run K n C = .running C' → run K (n + k) C = run K k C'
  | 0, k, C, C', h => by simp only [run, Outcome.running.injEq] at h; subst h; rw [Nat.zero_add]
  | n + 1, k, C, C', h => by
    rw [Nat.add_right_comm, run_succ]
    rw [run_succ] at h
    cases hs : step K C with
    | next C₁ => rw [hs] at h; exact run_add K n k h
    | _ => rw [hs] at h; simp [Result.go] at h

/-- A run that ends, with more frames below: it goes on there. -/
theorem run_append (K : Kernel) (fs : List Frame) : ∀ (n : Nat) {C : Config},
    (∀ C', run K n C = .running C' →
      run K n { C with frames := C.frames ++ fs } = .running { C' with frames := C'.frames ++ fs }) ∧
    (∀ v S, run K n C = .done v S → ∃ k, k < n ∧ ∀ r,
      run K (k + 1 + r) { C with frames := C.frames ++ fs } = (leave K v S fs).go K r) ∧
    (∀ x S, run K n C = .uncaught x S → ∃ k, k < n ∧ ∀ r,
      run K (k + 1 + r) { C with frames := C.frames ++ fs } = (unwind K x fs S).go K r) ∧
    (∀ x S, run K n C = .exit x S → run K n { C with frames := C.frames ++ fs } = .exit x S) ∧
    (run K n C = .stuck → run K n { C with frames := C.frames ++ fs } = .stuck)
  | 0, C => by
    refine ⟨?_, ?_, ?_, ?_, ?_⟩
    · intro C' h; simp only [run, Outcome.running.injEq] at h ⊢; subst h; rfl
    all_goals simp [run]
  | n + 1, C => by
    have hs := step_append K C fs
    cases h : step K C with
    | next C₁ =>
      rw [h] at hs
      simp only [Result.over] at hs
      obtain ⟨h₁, h₂, h₃, h₄, h₅⟩ := run_append K fs n (C := C₁)
      have hr : run K (n + 1) C = run K n C₁ := by rw [run_succ, h]; rfl
      have hr' : ∀ r, run K (r + 1) { C with frames := C.frames ++ fs } =
        run K r { C₁ with frames := C₁.frames ++ fs } := fun r => by rw [run_succ, hs]; rfl
      rw [hr]
      refine ⟨?_, ?_, ?_, ?_, ?_⟩
      · intro C' h; rw [hr']; exact h₁ C' h
      · intro v S h
        obtain ⟨k, hk, hk'⟩ := h₂ v S h
        exact ⟨k + 1, by omega, fun r => by rw [Nat.add_right_comm, hr', hk']⟩
      · intro v S h
        obtain ⟨k, hk, hk'⟩ := h₃ v S h
        exact ⟨k + 1, by omega, fun r => by rw [Nat.add_right_comm, hr', hk']⟩
      · intro x S h; rw [hr']; exact h₄ x S h
      · intro h; rw [hr']; exact h₅ h
    | done v S =>
      rw [h] at hs
      have hr : run K (n + 1) C = .done v S := by rw [run_succ, h]; rfl
      rw [hr]
      refine ⟨by simp, ?_, by simp, by simp, by simp⟩
      rintro v' S' ⟨⟩
      exact ⟨0, by omega, fun r => by rw [Nat.add_comm, run_succ, hs]; rfl⟩
    | uncaught x S =>
      rw [h] at hs
      have hr : run K (n + 1) C = .uncaught x S := by rw [run_succ, h]; rfl
      rw [hr]
      refine ⟨by simp, by simp, ?_, by simp, by simp⟩
      rintro v' S' ⟨⟩
      exact ⟨0, by omega, fun r => by rw [Nat.add_comm, run_succ, hs]; rfl⟩
    | exit x S =>
      rw [h] at hs
      have hr : run K (n + 1) C = .exit x S := by rw [run_succ, h]; rfl
      rw [hr]
      refine ⟨by simp, by simp, by simp, ?_, by simp⟩
      rintro v' S' ⟨⟩
      rw [run_succ, hs]; rfl
    | stuck =>
      rw [h] at hs
      have hr : run K (n + 1) C = .stuck := by rw [run_succ, h]; rfl
      rw [hr]
      refine ⟨by simp, by simp, by simp, by simp, ?_⟩
      rintro ⟨⟩
      rw [run_succ, hs]; rfl

/-! ### Catch clauses -/

def Result.evals : Result → Result
  | .next C => .next C.evals
  | r => r

theorem evals_catching (fs : List Frame) : evals (.catching :: fs) = evals fs := by simp [evals]

theorem evals_waiting (i : Nat) (tail : Bool) (m : Regs) (k : Value → Store → Effect) (fs : List Frame) :
    evals (.waiting i tail m k :: fs) = .waiting i tail m k :: evals fs := by simp [evals]

theorem evals_evals (fs : List Frame) : evals (evals fs) = evals fs := by simp [evals]

theorem applyHandler_evals (K : Kernel) (i : Nat) (x : Value) (fs : List Frame) (S : Store) :
    (applyHandler K i x fs S).evals = (applyHandler K i x (evals fs) S).evals := by
  simp [applyHandler, Result.evals, Config.evals, evals_catching, evals_evals]

theorem unwind_evals (K : Kernel) (x : Value) : ∀ (fs : List Frame) (S : Store),
    (unwind K x fs S).evals = (unwind K x (evals fs) S).evals
  | [], _ => rfl
  | .catching :: fs, S => by rw [evals_catching]; exact unwind_evals K x fs S
  | .waiting i tail m k :: fs, S => by
    rw [evals_waiting]
    simp only [unwind]
    split
    · exact unwind_evals K x fs S
    · exact applyHandler_evals ..

theorem catchError_evals (K : Kernel) (i : Nat) (x : Value) (fs : List Frame) (S : Store) :
    (catchError K i x fs S).evals = (catchError K i x (evals fs) S).evals := by
  simp only [catchError]
  split
  · exact unwind_evals K x fs S
  · exact applyHandler_evals ..

theorem perform_evals (K : Kernel) (i : Nat) (tail : Bool) (m : Regs) (fs : List Frame) (x : Effect) :
    (perform K i tail m fs x).evals = (perform K i tail m (evals fs) x).evals := by
  cases x with
  | value v S =>
    simp only [perform]
    cases resume tail m v <;> simp [Result.evals, Config.evals, evals_evals]
  | error x S => exact catchError_evals K i x fs S
  | object x S =>
    simp only [perform, catchObject]
    split
    · exact unwind_evals K x fs S
    · exact unwind_evals K _ fs _
  | exit n S => rfl
  | run j c S k => simp [perform, Result.evals, Config.evals, evals_waiting, evals_evals]
  | undefined => rfl

theorem leave_evals (K : Kernel) (v : Value) (S : Store) : ∀ fs : List Frame,
    (leave K v S fs).evals = (leave K v S (evals fs)).evals
  | [] => rfl
  | .catching :: fs => by rw [evals_catching]; exact leave_evals K v S fs
  | .waiting i tail m k :: fs => by
    rw [evals_waiting]
    exact perform_evals ..

theorem step_evals (K : Kernel) (C : Config) : (step K C).evals = (step K C.evals).evals := by
  simp only [step, Config.evals]
  split
  · exact perform_evals ..
  · split
    · simp [Result.evals, Config.evals, evals_evals]
    · exact leave_evals ..
    · exact catchError_evals ..
    · rfl

theorem run_evals (K : Kernel) : ∀ (n : Nat) (C : Config), (run K n C).evals = (run K n C.evals).evals
  | 0, C => by simp [run, Outcome.evals, Config.evals, evals_evals]
  | n + 1, C => by
    have h := step_evals K C
    rw [run_succ, run_succ]
    cases hs : step K C with
    | next C₁ =>
      rw [hs] at h
      cases hs' : step K C.evals with
      | next C₂ =>
        rw [hs'] at h
        simp only [Result.evals, Result.next.injEq] at h
        simp only [Result.go]
        rw [run_evals K n C₁, run_evals K n C₂, h]
      | _ => rw [hs'] at h; simp [Result.evals] at h
    | _ =>
      rw [hs] at h
      cases hs' : step K C.evals <;> rw [hs'] at h <;> simp [Result.evals] at h <;> simp [Result.go, h]

end Meevax.Execute
