import Verif.Props.Execute

/-!
C86: errors that primitive procedures and calls raise.
-/

namespace Meevax.Execute

open Meevax.Secd

/-- An error at `C`: a primitive procedure throws it, or what is called is no procedure.  `x` is the error, `S`
the store at that moment. -/
inductive Raises (K : Kernel) (C : Config) (x : Value) (S : Store) : Prop where
  | prim {p : Nat} {xs : Value} {tail : Bool} {m : Regs} (h : callee C.m = some (p, xs, tail, m))
      (h' : K.prims p xs C.S = .error x S)
  | call {f : Value} {heap : Heap} (h : callee C.m = none)
      (h' : Secd.step noPrims ⟨C.m.s, C.m.e, C.m.c, C.m.d, C.S.heap C.i⟩ = .raise f heap)
      (hx : x = (K.notApplicable f heap.cells).1)
      (hS : S = { C.S.put C.i heap with cells := (K.notApplicable f heap.cells).2 })

theorem Raises.step {K : Kernel} {C : Config} {x : Value} {S : Store} (h : Raises K C x S) :
    Execute.step K C = catchError K C.i x C.frames S := by
  cases h with
  | prim h h' => simp only [Execute.step, h, h', perform]
  | call h h' hx hS => simp only [Execute.step, h, h', hx, hS]

theorem run_catching (K : Kernel) (n : Nat) {C C' : Config} (h : C.evals = C'.evals) :
    (run K n C).evals = (run K n C').evals := by
  rw [run_evals K n C, run_evals K n C', h]

/-- C86: an error is a call of the exception handler with an error object, in place of whatever the program was
doing: nothing of the stack, the environment, the code and the dump remains, only the procedures that wait
for the result of an evaluation.  What follows does not depend on how many errors there were before. -/
theorem C86_handler {K : Kernel} {C : Config} {x : Value} {S : Store} (h : Raises K C x S)
    (hh : isNull S.handler = false) (n : Nat) :
    let (y, cells) := K.copy x S.cells
    (run K (n + 1) C).evals =
      (run K n ⟨C.i, ⟨[S.handler, .pair cells.next], .nil, [.call, .stop], .nil⟩, evals C.frames,
        { S with cells := cells.cons y .nil }⟩).evals := by
  simp only []
  rw [run_succ, h.step]
  simp only [catchError, hh, applyHandler, Result.go]
  exact run_catching K n (by simp [Config.evals, evals_catching, evals_evals])

/-- C86: a continuation that is called as the exception handler, directly or by it, goes on where it was
captured, with its own stack, environment, code and dump.  Here the handler is the continuation. -/
theorem C86_escape {K : Kernel} {C : Config} {x : Value} {S : Store} (h : Raises K C x S)
    {s : List Value} {e : Value} {c : Code} {d : Dump} (hh : S.handler = .cont s e c d) (n : Nat) :
    let (y, cells) := K.copy x S.cells
    ∃ S', S'.cells = cells.cons y .nil ∧ S'.globals = S.globals ∧ S'.handler = S.handler ∧ (∀ i r, S'.regs i r = S.regs i r) ∧
      (run K (n + 2) C).evals = (run K n ⟨C.i, ⟨y :: s, e, c, d⟩, evals C.frames, S'⟩).evals := by
  have h₁ := C86_handler h (by rw [hh]; rfl) (n + 1)
  simp only [] at h₁ ⊢
  refine ⟨⟨(K.copy x S.cells).2.cons (K.copy x S.cells).1 .nil, S.globals, update S.regs C.i (S.regs C.i), S.handler⟩, rfl, rfl, rfl, ?_, ?_⟩
  · intro i r
    simp only [update]
    split
    · next h => rw [h]
    · rfl
  · rw [h₁, run_succ, hh]
    have : ∀ (cells : Cells) (y : Value), (cells.cons y .nil).car (.pair cells.next) = some y := fun cells y => by
      simp [Cells.car, Cells.cons]
    simp only [Execute.step, callee, Secd.step, Secd.call, Store.heap, this, Result.go, Store.put, hh]

/-- C86: if the exception handler returns, then the expression that the error is in is over: its value is the value
of the handler, and nothing of the rest of it is evaluated. -/
theorem C86_return {K : Kernel} {C : Config} {x : Value} {S : Store} (h : Raises K C x S)
    (hh : isNull S.handler = false) (hf : evals C.frames = []) {n : Nat} {v : Value} {S' : Store}
    (hr : run K n ⟨C.i, ⟨[S.handler, .pair (K.copy x S.cells).2.next], .nil, [.call, .stop], .nil⟩, [],
      { S with cells := (K.copy x S.cells).2.cons (K.copy x S.cells).1 .nil }⟩ = .done v S') :
    run K (n + 1) C = .done v S' := by
  have h₁ := C86_handler h hh n
  simp only [hf, hr] at h₁
  cases h₂ : run K (n + 1) C with
  | running C' => rw [h₂] at h₁; simp [Outcome.evals] at h₁
  | _ => rw [h₂] at h₁; exact h₁

/-- C86: where the C++ stack is: as many calls of `execute` are nested as errors were handed to the exception handler
since the expression was begun, whether or not they are still being handled. -/
theorem C86_depth {K : Kernel} (hK : NoEval K) : ∀ (n k : Nat) {C C' : Config}, C.frames = List.replicate k .catching →
    run K n C = .running C' → C'.frames = List.replicate (errors K n C + k) .catching
  | 0, k, C, C', hf, h => by
    simp only [run, Outcome.running.injEq] at h
    subst h
    simp [errors, hf]
  | n + 1, k, C, C', hf, h => by
    rw [run_succ] at h
    have hu : ∀ (x : Value) (S : Store) (k : Nat), unwind K x (List.replicate k .catching) S = .uncaught x S := by
      intro x S k
      induction k with
      | zero => rfl
      | succ k ih => rw [List.replicate_succ]; exact ih
    have hl : ∀ (v : Value) (S : Store) (k : Nat), leave K v S (List.replicate k .catching) = .done v S := by
      intro x S k
      induction k with
      | zero => rfl
      | succ k ih => rw [List.replicate_succ]; exact ih
    have hc : ∀ x S, catchError K C.i x C.frames S = if isNull S.handler then .uncaught x S else
        applyHandler K C.i x (List.replicate k .catching) S := by
      intro x S
      rw [catchError, hf, hu]
    have key : ∀ C₁, step K C = .next C₁ →
        C₁.frames = List.replicate ((if faults K C then 1 else 0) + k) .catching := by
      intro C₁ hs
      simp only [step] at hs
      cases hm : callee C.m with
      | some q =>
        obtain ⟨p, xs, tail, m⟩ := q
        simp only [hm] at hs
        cases hp : K.prims p xs C.S with
        | value v S =>
          rw [hp] at hs
          simp only [perform] at hs
          cases hr : resume tail m v with
          | none => rw [hr] at hs; cases hs
          | some m' =>
            rw [hr] at hs
            cases hs
            simpa [faults, hm, hp] using hf
        | error x S =>
          rw [hp] at hs
          simp only [perform, hc] at hs
          cases hn : isNull S.handler with
          | true => rw [hn] at hs; cases hs
          | false =>
            rw [hn] at hs
            cases hs
            simp [faults, hm, hp, hn, Nat.add_comm 1, List.replicate_succ]
        | object x S =>
          rw [hp] at hs
          simp only [perform, catchObject, hf, hu] at hs
          split at hs <;> cases hs
        | exit z S => rw [hp] at hs; cases hs
        | run j c S k' => exact (hK _ _ _ _ _ _ _ hp).elim
        | undefined => rw [hp] at hs; cases hs
      | none =>
        simp only [hm] at hs
        cases hp : Secd.step noPrims ⟨C.m.s, C.m.e, C.m.c, C.m.d, C.S.heap C.i⟩ with
        | next st => rw [hp] at hs; cases hs; simpa [faults, hm, hp] using hf
        | halt v h => rw [hp] at hs; simp only [hf, hl] at hs; cases hs
        | raise f h =>
          rw [hp] at hs
          simp only [hc] at hs
          cases hn : isNull C.S.handler with
          | true => simp [Store.put, hn] at hs
          | false =>
            simp [Store.put, hn, applyHandler] at hs
            subst hs
            simp [faults, hm, hp, hn, Nat.add_comm 1, List.replicate_succ]
        | stuck => rw [hp] at hs; cases hs
    cases hs : step K C with
    | next C₁ =>
      rw [hs] at h
      rw [C86_depth hK n _ (key C₁ hs) h, errors, hs]
      simp only []
      congr 1
      omega
    | _ => rw [hs] at h; simp [Result.go] at h

/-! ### Without exception handler -/

/-- The primitive procedures of Model/Machine.lean. -/
def Kernel.ofPrims (K : Kernel) (P : Prims) : Kernel :=
  { K with prims := fun p xs S => match P p xs S.cells with
      | .ok v cells => .value v { S with cells }
      | .throw x cells => .error x { S with cells }
      | .undefined => .undefined }

theorem heap_put (S : Store) (i : Nat) (h : Heap) : (S.put i h).heap i = h := by
  simp [Store.heap, Store.put, update]

/-- The same registers and the same store, in environment `i`, and no exception handler. -/
structure Sees (i : Nat) (C : Config) (st : State) : Prop where
  env : C.i = i
  m : C.m = ⟨st.s, st.e, st.c, st.d⟩
  frames : C.frames = []
  heap : C.S.heap i = st.h
  handler : C.S.handler = .nil

theorem step_noPrims (P : Prims) {s : List Value} {e : Value} {c : Code} {d : Dump} {h : Heap}
    (hm : callee ⟨s, e, c, d⟩ = none) : Secd.step P ⟨s, e, c, d, h⟩ = Secd.step noPrims ⟨s, e, c, d, h⟩ := by
  cases c with
  | nil => cases s <;> rfl
  | cons i c =>
    cases i with
    | call =>
      match s with
      | [] => rfl
      | [_] => rfl
      | f :: xs :: s => cases f <;> first | rfl | (simp [callee] at hm)
    | tailCall =>
      match s with
      | [] => rfl
      | [_] => rfl
      | f :: xs :: s => cases f <;> first | rfl | (simp [callee] at hm)
    | _ =>
      match s with
      | [] => cases d <;> rfl
      | [_] => cases d <;> rfl
      | _ :: _ :: _ => cases d <;> rfl

/-- C86: without an exception handler, and without evaluations, the machine is that of Model/Machine.lean, and an
error ends the program. -/
theorem C86_machine (K : Kernel) (P : Prims) (i : Nat) : ∀ (n : Nat) {C : Config} {st : State}, Sees i C st →
    match Secd.run P n st with
    | .running st' => ∃ C', run (K.ofPrims P) n C = .running C' ∧ Sees i C' st'
    | .halt v h => ∃ S, run (K.ofPrims P) n C = .done v S ∧ S.heap i = h
    | .raise _ h => ∃ x S, run (K.ofPrims P) n C = .uncaught x S ∧ S.globals = h.globals ∧ S.regs i = h.regs
    | .stuck => run (K.ofPrims P) n C = .stuck
  | 0, C, st, hs => ⟨C, rfl, hs⟩
  | n + 1, C, st, hs => by
    obtain ⟨ci, m, fs, S⟩ := C
    obtain ⟨s, e, c, d, h⟩ := st
    obtain ⟨h₁, h₂, h₃, h₄, h₅⟩ := hs
    simp only at h₁ h₂ h₃ h₄ h₅
    subst h₁ h₂ h₃ h₄
    rw [run_succ]
    simp only [Secd.run]
    cases hm : callee ⟨s, e, c, d⟩ with
    | some q =>
      obtain ⟨p, xs, tail, m⟩ := q
      simp only [callee] at hm
      split at hm
      · next c' _ p' xs' s' =>
        cases hm
        simp only [step, callee, Secd.step, Secd.call, Kernel.ofPrims, Store.heap]
        cases P p xs S.cells with
        | ok v cells => exact C86_machine K P ci n ⟨rfl, rfl, rfl, rfl, h₅⟩
        | throw x cells =>
          simp only [perform, catchError, h₅, isNull, unwind, if_true, Result.go]
          exact ⟨_, _, rfl, rfl, rfl⟩
        | undefined => rfl
      · next c' _ p' xs' s' =>
        cases hm
        simp only [step, callee, Secd.step, Secd.tailCall, Kernel.ofPrims, Store.heap]
        cases P p xs S.cells with
        | ok v cells =>
          cases d with
          | frame s₁ e₁ c₁ d₁ => exact C86_machine K P ci n ⟨rfl, rfl, rfl, rfl, h₅⟩
          | _ => rfl
        | throw x cells =>
          simp only [perform, catchError, h₅, isNull, unwind, if_true, Result.go]
          exact ⟨_, _, rfl, rfl, rfl⟩
        | undefined => rfl
      · cases hm
    | none =>
      have hst : Secd.step P ⟨s, e, c, d, S.heap ci⟩ = Secd.step noPrims ⟨s, e, c, d, S.heap ci⟩ := step_noPrims P hm
      simp only [step, hm, hst]
      generalize Secd.step noPrims ⟨s, e, c, d, S.heap ci⟩ = r
      cases r with
      | next st' => exact C86_machine K P ci n ⟨rfl, rfl, rfl, heap_put .., h₅⟩
      | halt v h => exact ⟨_, rfl, heap_put ..⟩
      | raise f h =>
        simp only [catchError, Store.put, h₅, isNull, unwind, if_true, Result.go]
        exact ⟨_, _, rfl, rfl, by simp [update]⟩
      | stuck => rfl

/-! ### Concrete programs -/

/-- A primitive procedure that raises an error. -/
def failing : Kernel := { sample [] with prims := fun _ xs S => .error xs S }

theorem failing_noEval : NoEval failing := fun _ _ _ _ _ _ _ h => by cases h

/-- The code of `(fail)` after `(call/cc (lambda (k) (set-exception-handler! k)))`. -/
def retryCode : Code := [.drop, .loadConstant .nil, .loadAbsolute 1, .call, .stop]

def retryHandler : Value := .cont [] .nil retryCode .nil

/-- Not so: an error that is handled leaves nothing behind.  In this loop, where the handler is a continuation that
leads to the same error again, the nesting of C++ calls grows without bound. -/
theorem C86_space_fails : ∀ k, ∃ n C,
    run failing n ⟨0, ⟨[.nil], .nil, retryCode, .nil⟩, [], { emptyStore fun _ => .prim 1 with handler := retryHandler }⟩ =
      .running C ∧ C.frames.length = k ∧ C.m.s.length = 1 ∧ C.m.c = retryCode := by
  have round : ∀ (S : Store) (v : Value) (fs : List Frame), S.globals 1 = .prim 1 → S.handler = retryHandler →
      ∃ S' v', S'.globals 1 = .prim 1 ∧ S'.handler = retryHandler ∧
        run failing 5 ⟨0, ⟨[v], .nil, retryCode, .nil⟩, fs, S⟩ =
          .running ⟨0, ⟨[v'], .nil, retryCode, .nil⟩, .catching :: fs, S'⟩ := by
    intro S v fs hg hh
    obtain ⟨cells, globals, regs, handler⟩ := S
    simp only at hg hh
    subst hh
    exact ⟨⟨_, globals, _, retryHandler⟩, .nil, hg, rfl, by
      simp [run, step, callee, retryCode, Secd.step, Store.heap, Store.put, hg, failing, perform, catchError, isNull,
        retryHandler, applyHandler, sample, Secd.call, Cells.car, Cells.cons]
      exact ⟨rfl, rfl⟩⟩
  intro k
  have : ∃ n v S fs, S.globals 1 = .prim 1 ∧ S.handler = retryHandler ∧ fs.length = k ∧
      run failing n ⟨0, ⟨[.nil], .nil, retryCode, .nil⟩, [], { emptyStore fun _ => .prim 1 with handler := retryHandler }⟩ =
        .running ⟨0, ⟨[v], .nil, retryCode, .nil⟩, fs, S⟩ := by
    induction k with
    | zero => exact ⟨0, _, _, [], rfl, rfl, rfl, rfl⟩
    | succ k ih =>
      obtain ⟨n, v, S, fs, hg, hh, hf, hr⟩ := ih
      obtain ⟨S', v', hg', hh', hr'⟩ := round S v fs hg hh
      exact ⟨n + 5, v', S', .catching :: fs, hg', hh', by simp [hf], by rw [run_add _ _ _ hr, hr']⟩
  obtain ⟨n, v, S, fs, _, _, hf, hr⟩ := this
  exact ⟨n, _, hr, hf, rfl, rfl⟩

/-- The hypotheses of `C86_handler`, `C86_escape` and `C86_depth` are met. -/
example : ∃ x S, Raises failing
      ⟨0, ⟨[.prim 1, .nil], .nil, [.call, .stop], .nil⟩, [], { emptyStore fun _ => .prim 1 with handler := retryHandler }⟩ x S ∧
    S.handler = retryHandler ∧ isNull S.handler = false := ⟨_, _, .prim rfl rfl, rfl, rfl⟩

/-- The hypothesis of `C86_machine` is met, for every code. -/
example (c : Code) : Sees 0 (start 0 c (emptyStore fun _ => .prim 1)) (Secd.start c ((emptyStore fun _ => .prim 1).heap 0)) :=
  ⟨rfl, rfl, rfl, rfl, rfl⟩

/-- The hypotheses of `C86_return` are met: the handler is `(lambda (x) 'a)`. -/
example : ∃ S', run failing 3 ⟨0, ⟨[.closure [.loadConstant (.sym 100), .ret] .nil, .pair 0], .nil, [.call, .stop], .nil⟩, [],
    emptyStore fun _ => .nil⟩ = .running S' ∧
    run failing 4 ⟨0, ⟨[.closure [.loadConstant (.sym 100), .ret] .nil, .pair 0], .nil, [.call, .stop], .nil⟩, [],
    emptyStore fun _ => .nil⟩ = .done (.datum (.sym 100)) (S'.S.put 0 (S'.S.heap 0)) := ⟨_, rfl, rfl⟩

/-- Something that is no procedure is called: the other way to meet the hypotheses. -/
example (S : Store) : ∃ x S', Raises (sample []) ⟨0, ⟨[.datum (.bool true), .nil], .nil, [.call, .stop], .nil⟩, [], S⟩ x S' :=
  ⟨_, _, .call rfl rfl rfl rfl⟩

end Meevax.Execute
