import Verif.Lemmas.ControlJump
import Verif.Lemmas.ControlParam

/-
C41 (dynamic-wind), C42 (parameterize), C43 (exception handlers).
-/

namespace Meevax.Control

variable {C W S P : Type} [DecidableEq P]

/-! ## Programs for the examples -/

/-- Programs whose code, values and parameters are numbers, and whose state is a number. -/
abbrev Demo := Program Nat Nat Nat Nat

/-- Does the state satisfy `Calm`? -/
def calmNow (pr : Program C W S P) (s : Config C W S P) : Bool :=
  match nextAction pr s with
  | some a => !a.escapes || !insideAfter s.stack
  | none => true

theorem calm_of_calmNow {pr : Program C W S P} {s : Config C W S P} (h : calmNow pr s = true) :
    Calm pr s := by
  intro a ha he
  unfold calmNow at h
  rw [ha] at h
  simpa [he] using h

/-- `n` steps from states that pass a test. -/
def stepsThrough (pr : Program C W S P) (q : Config C W S P → Bool) :
    Nat → Config C W S P → Option (Config C W S P)
  | 0, s => some s
  | n + 1, s =>
    match stepsThrough pr q n s with
    | some t => if q t then step pr t else none
    | none => none

theorem runThrough_of_steps {pr : Program C W S P} {q : Config C W S P → Bool}
    {Q : Config C W S P → Prop} (hq : ∀ x, q x = true → Q x) : ∀ {n : Nat} {s t : Config C W S P},
    stepsThrough pr q n s = some t → RunThrough pr Q s t
  | 0, s, t, h => by cases h; exact .refl s
  | n + 1, s, t, h => by
    simp only [stepsThrough] at h
    cases hu : stepsThrough pr q n s with
    | none => rw [hu] at h; cases h
    | some u =>
      rw [hu] at h
      simp only at h
      split at h
      · rename_i hc
        exact .step (runThrough_of_steps hq hu) (hq u hc) h
      · cases h

/-- `n` calm steps. -/
abbrev calmSteps (pr : Program C W S P) : Nat → Config C W S P → Option (Config C W S P) :=
  stepsThrough pr (calmNow pr)

theorem calmRun_of_calmSteps {pr : Program C W S P} {n : Nat} {s t : Config C W S P}
    (h : calmSteps pr n s = some t) : CalmRun pr s t :=
  runThrough_of_steps (fun _ => calm_of_calmNow) h

/-- Does the state satisfy `Calm` and not assign to the cell? -/
def quietNow (pr : Program C W S P) (c : Cell P) (s : Config C W S P) : Bool :=
  calmNow pr s && match nextAction pr s with
    | some (.assign p _ _) => cellOf s.bindings p != c
    | _ => true

theorem quiet_of_quietNow {pr : Program C W S P} {c : Cell P} {s : Config C W S P}
    (h : quietNow pr c s = true) : Calm pr s ∧ ¬ Assigns pr s c := by
  unfold quietNow at h
  rw [Bool.and_eq_true] at h
  refine ⟨calm_of_calmNow h.1, fun ⟨p, w, next, h1, h2⟩ => ?_⟩
  rw [h1] at h
  simp [h2] at h

/-- Two `dynamic-wind`s side by side inside a third; the second body jumps into the first, once:
```
(dynamic-wind nop
  (lambda ()
    (let ((k #f) (n 0))
      (dynamic-wind nop (lambda () (call/cc (lambda (c) (set! k c)))) nop)
      (dynamic-wind nop (lambda () (if (= n 0) (begin (set! n 1) (k 7)))) nop)))
  nop)
``` -/
def sideBySide : Demo where
  step c w u _ :=
    match c with
    | 0 => (u, .wind 1 2 1 1)
    | 2 => (u, .wind 1 3 1 4)
    | 3 => (u, .callcc 1 1)
    | 4 => (u, .wind 1 5 1 1)
    | 5 => if u = 0 then (1, .jump 0 7) else (u, .ret w)
    | _ => (u, .ret w)
  convert _ w := w
  ofCont k := k
  unspecified := 0

/-- `(dynamic-wind nop (lambda () (guard (e (#t 0)) 42)) nop)`: the body of `guard` ends with a jump to
the continuation of the `guard` form (srfi-34.ss L119-L123), out of the extent of the handler. -/
def guardInside : Demo where
  step c w u _ :=
    match c with
    | 0 => (u, .wind 1 2 1 1)
    | 2 => (u, .callcc 4 1)
    | 4 => (u, .handle 1 7 1)
    | 7 => (u, .jump 0 42)
    | _ => (u, .ret w)
  convert _ w := w
  ofCont k := k
  unspecified := 0

/-- `(call/cc (lambda (k) (dynamic-wind nop (lambda () (k 0)) (lambda () (k 1)))))`. -/
def afterJumps : Demo where
  step c w u _ :=
    match c with
    | 0 => (u, .callcc 1 9)
    | 1 => (u, .wind 2 3 4 9)
    | 3 => (u, .jump 0 0)
    | 4 => (u, .jump 0 1)
    | _ => (u, .ret w)
  convert _ w := w
  ofCont k := k
  unspecified := 0

/-- `parameterize` of parameter 0 to 5 (the converter adds 100), an assignment inside, a jump out:
```
(call/cc (lambda (k) (parameterize ((p 5)) (p 6) (k 0)))) (p)
``` -/
def paramJump : Demo where
  step c w u look :=
    match c with
    | 0 => (u, .callcc 1 9)
    | 1 => (u, .parameterize [(0, 5), (1, 6), (0, 7)] 2 9)
    | 2 => (look 0, .assign 0 6 3)
    | 3 => (u, .jump 0 0)
    | _ => (u, .ret w)
  convert _ w := w + 100
  ofCont k := k
  unspecified := 0

/-- `(with-exception-handler h9 (lambda () (with-exception-handler h4 (lambda () (raise 7)))))` and
friends: what is raised depends on the state. -/
def nestedHandlers : Demo where
  step c w u _ :=
    match c with
    | 0 => (u, .handle 9 1 8)
    | 1 => (u, .handle 4 2 8)
    | 2 => if u = 0 then (u, .raise 7) else if u = 1 then (u, .raiseContinuable 7 8) else (u, .fault 7)
    | 4 => (u, .ret (w + 1))
    | 9 => (1000, .ret w)
    | _ => (u, .ret w)
  convert _ w := w
  ofCont k := k
  unspecified := 0

/-- Starts a demo. -/
def Demo.init (_ : Demo) (u : Nat) : Config Nat Nat Nat Nat := start 0 0 u fun _ => 50

/-- Thunks of the demos that only return. -/
theorem Demo.returns {pr : Demo} {c : Nat} (h : ∀ w u look, pr.step c w u look = (u, .ret w)) :
    Returns pr (.code c) := by
  intro s stack
  refine ⟨1, { s with mode := .ret pr.unspecified, stack := stack }, pr.unspecified, ?_, rfl, rfl, rfl,
    rfl, fun _ _ h => h⟩
  simp only [steps, step, callThunk, h, perform, Option.bind_some]

/-! ## C41 -/

/-- C41, nesting: in every state that any program reaches, through any normal returns, captured
continuations, jumps, exceptions, `exit`s, the extents have been entered and left like brackets; the
code that is about to run is inside exactly the extents its continuation says it is inside of; none is
still entered when the program has returned; those that `exit` was called in are (`C41_exit_fails`). Missing: programs in which an `after` that a jump calls jumps
itself (`C41_after_escape_fails`); what a jump may touch (`C41_jump_partial`). -/
theorem C41_nesting_partial (pr : Program C W S P) (c : C) (v : W) (u : S) (cells : Cell P → W)
    (s : Config C W S P) (h : CalmRun pr (start c v u cells) s) :
    (∃ ids, Balanced s.log ids) ∧
      (∀ c w, s.mode = .run c w → Balanced s.log ((lexical s.stack).map Extent.id)) ∧
      (∀ w, s.mode = .returned w → s.stack = [] → Balanced s.log []) ∧
      (s.mode = .exited → Balanced s.log ((lexical s.stack).map Extent.id)) := by
  obtain ⟨w, xs, hi⟩ := inv_run h
  refine ⟨⟨_, hi.balanced⟩, ?_, ?_, ?_⟩
  · intro c w hm
    have hs := hi.shape
    rw [hm] at hs
    cases hs with
    | run _ hl _ _ => exact hl ▸ hi.balanced
  · intro w hm hst
    have hs := hi.shape
    rw [hm] at hs
    cases hs with
    | returned hl => rw [hl hst] at hi; exact hi.balanced
  · intro hm
    have hs := hi.shape
    rw [hm] at hs
    cases hs with
    | exited hl => exact hl ▸ hi.balanced

/-- A calm run of `sideBySide` with a jump from one extent into another; both are entered and left
twice, the common one once. -/
example : ∃ s, CalmRun sideBySide (sideBySide.init 0) s ∧ s.mode = .returned 0 ∧ s.stack = [] ∧
    s.log.reverse = [.enter 0, .enter 1, .leave 1, .enter 2, .leave 2, .enter 1, .leave 1, .enter 3,
      .leave 3, .leave 0] := by
  refine ⟨(calmSteps sideBySide 47 (sideBySide.init 0)).get (by decide),
    calmRun_of_calmSteps (n := 47) (by simp), ?_, ?_, ?_⟩ <;> rfl

/-- The states a jump starts from. -/
theorem jump_start {pr : Program C W S P} {c : C} {v : W} {u : S} {cells : Cell P → W}
    {s : Config C W S P} (h : CalmRun pr (start c v u cells) s) {k : Nat} {w : W}
    {stack : Stack C W P} {target : Extents C P} (hc : Calm pr s)
    (ha : nextAction pr s = some (.jump k w)) (hk : s.conts[k]? = some (stack, target))
    (hafter : ∀ e ∈ s.extents, Returns pr e.after) (hbefore : ∀ e ∈ target, Returns pr e.before) :
    s.extents = lexical s.stack ∧ lexical stack = target ∧
    ∃ wd : World C W P, Known wd s.extents ∧ Known wd target ∧
    ∃ n s', steps pr n s = some s' ∧ s'.mode = .ret w ∧ s'.stack = stack ∧ s'.extents = target ∧
      s'.log = (windupEvents s.extents target).reverse ++ s.log := by
  obtain ⟨wd, xs, hi⟩ := inv_run h
  have hin := hc _ ha rfl
  unfold nextAction at ha
  split at ha
  · rename_i code x hm
    have hs := hi.shape
    rw [hm] at hs
    cases hs with
    | run hg hl hx hr =>
    have hlex : s.extents = lexical s.stack := by rw [hx, register_eq_lexical hin]
    have hkn : Known wd s.extents := by rw [hlex, ← hl]; exact hi.known
    have hgk := hi.good _ (List.mem_of_getElem? hk)
    refine ⟨hlex, hgk.2.1, wd, hkn, hgk.2.2.2, ?_⟩
    injection ha with ha
    have h1 : steps pr 1 s = some { s with
        user := (pr.step code x s.user fun p => s.cells (cellOf s.bindings p)).1
        mode := .windup s.extents target, stack := .resume k w :: s.stack } := by
      refine steps_one pr ?_
      simp only [step, hm, ha, perform, hk]
    obtain ⟨n, s1, h2, h3⟩ := windup_exec pr _ s.extents target
      { s with
        user := (pr.step code x s.user fun p => s.cells (cellOf s.bindings p)).1
        mode := .windup s.extents target, stack := .resume k w :: s.stack } (Nat.le_refl _) rfl
      (fun a b ha hb => sameCell_iff (hkn.suffix ha) (hgk.2.2.2.suffix hb)) hafter hbefore
    obtain ⟨w', hw'⟩ := h3.mode
    have hst := h3.stack
    have hk' := h3.conts k _ hk
    have h4 : steps pr 1 s1 = some { s1 with mode := .ret w, stack := stack } := by
      refine steps_one pr ?_
      simp only at hst
      simp only [step, hw', returnTo, hst, hk']
    exact ⟨_, _, steps_trans pr (steps_trans pr h1 h2) h4, rfl, rfl, h3.extents, h3.log⟩
  · cases ha

/-- C41, jumps between equal depths: a continuation called in any state any program reaches runs the
`after`s of the extents that are left, the innermost first, then the `before`s of the extents that are
entered, the outermost first, touches no common extent, and returns the value to the continuation.
Missing: depths that differ (`C41_unequal_fails`), thunks that do not return. -/
theorem C41_jump_partial (pr : Program C W S P) (c : C) (v : W) (u : S) (cells : Cell P → W)
    (s : Config C W S P) (h : CalmRun pr (start c v u cells) s) (k : Nat) (w : W)
    (stack : Stack C W P) (target : Extents C P) (hc : Calm pr s)
    (ha : nextAction pr s = some (.jump k w)) (hk : s.conts[k]? = some (stack, target))
    (hafter : ∀ e ∈ s.extents, Returns pr e.after) (hbefore : ∀ e ∈ target, Returns pr e.before)
    (hlen : (lexical s.stack).length = (lexical stack).length) :
    ∃ n s', steps pr n s = some s' ∧ s'.mode = .ret w ∧ s'.stack = stack ∧
      s'.log = (jumpEvents ((lexical s.stack).map Extent.id)
        ((lexical stack).map Extent.id)).reverse ++ s.log := by
  obtain ⟨h1, h2, wd, h3, h4, n, s', h5, h6, h7, h8, h9⟩ := jump_start h hc ha hk hafter hbefore
  refine ⟨n, s', h5, h6, h7, ?_⟩
  rw [h9, (windupEvents_equal _ _ h3 h4 (by rw [h1, ← h2]; exact hlen)).1, h1, h2]

/-- The hypotheses of `C41_jump_partial` are met when `sideBySide` jumps: from extents 2, 0 to extents
1, 0. -/
example : ∃ s stack target, CalmRun sideBySide (sideBySide.init 0) s ∧ Calm sideBySide s ∧
    nextAction sideBySide s = some (.jump 0 7) ∧ s.conts[0]? = some (stack, target) ∧
    (∀ e ∈ s.extents, Returns sideBySide e.after) ∧ (∀ e ∈ target, Returns sideBySide e.before) ∧
    (lexical s.stack).length = (lexical stack).length ∧
    (lexical s.stack).map Extent.id = [2, 0] ∧ (lexical stack).map Extent.id = [1, 0] ∧
    jumpEvents [2, 0] [1, 0] = [.leave 2, .enter 1] := by
  have hret : Returns sideBySide (.code 1) := Demo.returns (pr := sideBySide) (c := 1) fun _ _ _ => rfl
  refine ⟨(calmSteps sideBySide 17 (sideBySide.init 0)).get (by decide),
    [.next 1, .body ⟨1, .code 1, .code 1⟩, .next 4, .body ⟨0, .code 1, .code 1⟩, .next 1],
    [⟨1, .code 1, .code 1⟩, ⟨0, .code 1, .code 1⟩], calmRun_of_calmSteps (n := 17) (by simp),
    calm_of_calmNow rfl, rfl, rfl, ?_, ?_, rfl, rfl, rfl, by decide⟩
  · intro e he
    rcases List.mem_cons.1 (show e ∈ [⟨2, .code 1, .code 1⟩, ⟨0, .code 1, .code 1⟩] from he) with rfl | he
    · exact hret
    · rw [List.mem_singleton.1 he]; exact hret
  · intro e he
    rcases List.mem_cons.1 he with rfl | he
    · exact hret
    · rw [List.mem_singleton.1 he]; exact hret

/-- What a jump between different depths does: it runs every `after` of the source and every `before`
of the target, those of the common extents as well. -/
theorem C41_unequal (pr : Program C W S P) (c : C) (v : W) (u : S) (cells : Cell P → W)
    (s : Config C W S P) (h : CalmRun pr (start c v u cells) s) (k : Nat) (w : W)
    (stack : Stack C W P) (target : Extents C P) (hc : Calm pr s)
    (ha : nextAction pr s = some (.jump k w)) (hk : s.conts[k]? = some (stack, target))
    (hafter : ∀ e ∈ s.extents, Returns pr e.after) (hbefore : ∀ e ∈ target, Returns pr e.before)
    (hlen : (lexical s.stack).length ≠ (lexical stack).length) :
    ∃ n s', steps pr n s = some s' ∧ s'.mode = .ret w ∧ s'.stack = stack ∧
      s'.log = (((lexical s.stack).map Extent.id).map Event.leave ++
        (((lexical stack).map Extent.id).reverse).map Event.enter).reverse ++ s.log := by
  obtain ⟨h1, h2, wd, h3, h4, n, s', h5, h6, h7, h8, h9⟩ := jump_start h hc ha hk hafter hbefore
  refine ⟨n, s', h5, h6, h7, ?_⟩
  rw [h9, windupEvents_unequal _ _ h3 h4 (by rw [h1, ← h2]; exact hlen), h1, h2]

/-- C41 fails: `(dynamic-wind before (lambda () (guard (e (#t 0)) 42)) after)` leaves and re-enters the
extent of the `dynamic-wind` although `guard` is inside of it; R7RS asks for `leave 1` only where the
model has `leave 1, leave 0, enter 0`. -/
theorem C41_unequal_fails :
    ∃ s, CalmRun guardInside (guardInside.init 0) s ∧ s.mode = .returned 42 ∧
      s.log.reverse = [.enter 0, .enter 1, .leave 1, .leave 0, .enter 0, .leave 0] ∧
      jumpEvents [1, 0] [0] = [.leave 1] := by
  refine ⟨(calmSteps guardInside 26 (guardInside.init 0)).get (by decide),
    calmRun_of_calmSteps (n := 26) (by simp), ?_, ?_, by decide⟩ <;> rfl

/-- The state `afterJumps` comes back to. -/
def afterJumpsLoop (v : Nat) (stack : Stack Nat Nat Nat) (log : List Event) : Config Nat Nat Nat Nat :=
  { mode := .windup [⟨0, .code 2, .code 4⟩] [], stack := .resume 0 v :: stack,
    extents := [⟨0, .code 2, .code 4⟩], bindings := [], handlers := [], cells := fun _ => 50, fresh := 1,
    conts := [([.next 9], [])], user := 0, log := log }

theorem afterJumps_loop (v : Nat) (stack : Stack Nat Nat Nat) (log : List Event) :
    steps afterJumps 2 (afterJumpsLoop v stack log) =
      some (afterJumpsLoop 1 (.unwoundLast [⟨0, .code 2, .code 4⟩] [] :: .resume 0 v :: stack)
        (.leave 0 :: log)) := rfl

theorem afterJumps_loops : ∀ n v stack log, ∃ v' stack', steps afterJumps (2 * n)
    (afterJumpsLoop v stack log) =
      some (afterJumpsLoop v' stack' (List.replicate n (.leave 0) ++ log))
  | 0, v, stack, log => ⟨v, stack, rfl⟩
  | n + 1, v, stack, log => by
    obtain ⟨v', stack', h⟩ := afterJumps_loops n 1
      (.unwoundLast [⟨0, .code 2, .code 4⟩] [] :: .resume 0 v :: stack) (.leave 0 :: log)
    refine ⟨v', stack', ?_⟩
    rw [show 2 * (n + 1) = 2 + 2 * n by omega, steps_add _ _ _ _ _ (afterJumps_loop v stack log), h,
      List.replicate_succ', List.append_assoc]
    rfl

/-- C41 fails: an `after` that jumps while a jump is calling it is called again, for ever:
`(call/cc (lambda (k) (dynamic-wind nop (lambda () (k 0)) (lambda () (k 1)))))` enters its extent once,
leaves it any number of times, and never ends (R7RS: the value is 1, the `after` runs once). -/
theorem C41_after_escape_fails (n : Nat) :
    ∃ m s, steps afterJumps m (afterJumps.init 0) = some s ∧
      s.log = List.replicate n (.leave 0) ++ [.enter 0] ∧ ∃ s', step afterJumps s = some s' := by
  have h0 : steps afterJumps 5 (afterJumps.init 0) = some (afterJumpsLoop 0 [.body ⟨0, .code 2, .code 4⟩,
    .next 9, .next 9] [.enter 0]) := rfl
  obtain ⟨v', stack', h⟩ := afterJumps_loops n 0 [.body ⟨0, .code 2, .code 4⟩, .next 9, .next 9] [.enter 0]
  exact ⟨_, _, steps_trans _ h0 h, rfl, _, rfl⟩

/-- C41, `dynamic-wind` without jumps: `before`, then the thunk inside the extent, then `after`, and
the thunk's value is returned. -/
theorem C41_normal (pr : Program C W S P) (s : Config C W S P) (before thunk after next : C)
    (ha : nextAction pr s = some (.wind before thunk after next))
    (hb : Returns pr (.code before)) (hf : Returns pr (.code after)) (w : W)
    (ht : ∀ (s : Config C W S P) (stack : Stack C W P), ∃ n s',
      steps pr n (callThunk pr (.code thunk) stack s) = some s' ∧ s'.mode = .ret w ∧ s'.stack = stack ∧
        s'.extents = s.extents ∧ s'.log = s.log) :
    ∃ n s' i, steps pr n s = some s' ∧ s'.mode = .run next w ∧ s'.stack = s.stack ∧
      s'.extents = s.extents ∧ s'.log = .leave i :: .enter i :: s.log := by
  unfold nextAction at ha
  split at ha
  · rename_i code x hm
    injection ha with ha
    have h1 : steps pr 1 s = some (callThunk pr (.code before)
        (.entered (.code before) (.thunk thunk) (.code after) :: .next next :: s.stack) { s with
        user := (pr.step code x s.user fun p => s.cells (cellOf s.bindings p)).1 }) := by
      refine steps_one pr ?_
      simp only [step, hm, ha, perform]
    obtain ⟨n1, s1, w1, g1, g2, g3, g4, g5, _⟩ := hb { s with
      user := (pr.step code x s.user fun p => s.cells (cellOf s.bindings p)).1 }
      (.entered (.code before) (.thunk thunk) (.code after) :: .next next :: s.stack)
    obtain ⟨n2, s2, f1, f2, f3, f4, f5⟩ := ht { s1 with
        extents := ⟨s1.fresh, .code before, .code after⟩ :: s1.extents
        fresh := s1.fresh + 1
        log := .enter s1.fresh :: s1.log }
      (.body ⟨s1.fresh, .code before, .code after⟩ :: .next next :: s.stack)
    have h2 : steps pr 1 s1 = some (callThunk pr (.code thunk)
        (.body ⟨s1.fresh, .code before, .code after⟩ :: .next next :: s.stack) { s1 with
        extents := ⟨s1.fresh, .code before, .code after⟩ :: s1.extents
        fresh := s1.fresh + 1
        log := .enter s1.fresh :: s1.log }) := by
      refine steps_one pr ?_
      simp only [step, g2, returnTo, g3]
      rfl
    have h3 : steps pr 1 s2 = some (callThunk pr (.code after) (.result w :: .next next :: s.stack)
        { s2 with extents := s2.extents.tail, log := .leave s1.fresh :: s2.log }) := by
      refine steps_one pr ?_
      simp only [step, f2, returnTo, f3]
    obtain ⟨n3, s3, w3, e1, e2, e3, e4, e5, _⟩ := hf
      { s2 with extents := s2.extents.tail, log := .leave s1.fresh :: s2.log }
      (.result w :: .next next :: s.stack)
    have h4 : steps pr 2 s3 = some { s3 with mode := .run next w, stack := s.stack } := by
      simp only [steps, step, e2, returnTo, e3, Option.bind_some]
    refine ⟨_, _, s1.fresh, steps_trans pr (steps_trans pr (steps_trans pr (steps_trans pr
      (steps_trans pr (steps_trans pr h1 g1) h2) f1) h3) e1) h4, rfl, rfl, ?_, ?_⟩
    · show s3.extents = _
      rw [e4, f4, g4]
      rfl
    · show s3.log = _
      rw [e5, f5, g5]
  · cases ha

/-- `C41_normal` applies to `guardInside`'s outer form with another body. -/
example : ∃ n s' i, steps sideBySide n { sideBySide.init 0 with mode := .run 2 0 } = some s' ∧
    s'.mode = .run 4 0 ∧ s'.log = [.leave i, .enter i] := ⟨11, _, 0, rfl, rfl, rfl⟩

/-- C41, `exit`: the program ends at once; no `after` is called, whatever extents it is inside of
(`C41_exit_code` is why). -/
theorem C41_exit_fails (pr : Program C W S P) (c : C) (v : W) (u : S) (cells : Cell P → W)
    (s : Config C W S P) (h : CalmRun pr (start c v u cells) s) (ha : nextAction pr s = some .exit) :
    ∃ s', step pr s = some s' ∧ s'.mode = .exited ∧ s'.log = s.log ∧
      Balanced s'.log ((lexical s.stack).map Extent.id) := by
  have hb := (C41_nesting_partial pr c v u cells s h).2.1
  unfold nextAction at ha
  split at ha
  · rename_i code x hm
    injection ha with ha
    refine ⟨{ s with
        user := (pr.step code x s.user fun p => s.cells (cellOf s.bindings p)).1, mode := .exited }, ?_, rfl, rfl,
      hb _ _ hm⟩
    simp only [step, hm, ha, perform]
  · cases ha

/-- `(dynamic-wind before (lambda () (exit)) after)`. -/
def exitInside : Demo where
  step
    | 0, _, u, _ => (u, .wind 1 2 3 4)
    | 2, _, u, _ => (u, .exit)
    | _, w, u, _ => (u, .ret w)
  convert := fun _ w => w
  ofCont := id
  unspecified := 0

/-- The hypotheses of `C41_exit_fails` are met inside of an extent, which is entered and never left. -/
example : ∃ s, CalmRun exitInside (exitInside.init 0) s ∧ nextAction exitInside s = some .exit ∧
    s.log = [.enter 0] ∧ (lexical s.stack).map Extent.id = [0] := by
  refine ⟨(calmSteps exitInside 3 (exitInside.init 0)).get (by decide),
    calmRun_of_calmSteps (n := 3) (by simp), ?_, ?_, ?_⟩ <;> rfl

/-! ## C42 -/

/-- C42, scope: whenever code of any program runs, after any normal or non-local entries and exits, the
bindings in force are those of the innermost `parameterize` the code is lexically inside of. (The runs
are those of `C41_nesting_partial`.) -/
theorem C42_scope_partial (pr : Program C W S P) (c : C) (v : W) (u : S) (cells : Cell P → W)
    (s : Config C W S P) (h : CalmRun pr (start c v u cells) s) (code : C) (w : W)
    (hm : s.mode = .run code w) : s.bindings = bindingsOf (lexical s.stack) := by
  obtain ⟨wd, xs, hi⟩ := inv_run h
  have hs := hi.shape
  rw [hm] at hs
  cases hs with
  | run hg hl hx hr => exact hl ▸ hr.1

/-- C42, entry: the body of a `parameterize` starts with the converted new values (the first one given
for a parameter counts), all other parameters keep their values, and the continuation of the body is
inside one more extent. -/
theorem C42_enter (pr : Program C W S P) (c : C) (v : W) (u : S) (cells : Cell P → W)
    (s : Config C W S P) (h : CalmRun pr (start c v u cells) s) (bs : List (P × W)) (thunk next : C)
    (ha : nextAction pr s = some (.parameterize bs thunk next)) :
    ∃ s' e, steps pr 2 s = some s' ∧ s'.mode = .run thunk pr.unspecified ∧
      s'.stack = .body e :: .next next :: s.stack ∧
      ∀ p, value s' p = match bs.find? (fun b => b.1 == p) with
        | some b => pr.convert b.1 b.2
        | none => value s p := by
  obtain ⟨wd, xs, hi⟩ := inv_run h
  unfold nextAction at ha
  split at ha
  · rename_i code x hm
    have hs := hi.shape
    rw [hm] at hs
    cases hs with
    | run hg hl hx hr =>
    injection ha with ha
    obtain ⟨s1, hs1⟩ : ∃ s1, s1 = ({ s with
      user := (pr.step code x s.user fun p => s.cells (cellOf s.bindings p)).1 } : Config C W S P) :=
      ⟨_, rfl⟩
    have hob : ∀ y ∈ s1.bindings, y.2 < s1.fresh := by
      intro y hy
      rw [hs1] at hy ⊢
      simp only at hy ⊢
      rw [hr.1] at hy
      rw [← hi.n]
      exact bound_of_known hi.known y hy
    have hval := bindCells_value pr bs s1 s1.bindings hob
    have hstep : step pr s = some (perform pr s1 (.parameterize bs thunk next)) := by
      simp only [step, hm, ha, hs1]
    have hst : s1.stack = s.stack := by rw [hs1]
    have hv : ∀ p, s1.cells (cellOf s1.bindings p) = value s p := by
      intro p; rw [hs1]; rfl
    obtain ⟨s2, hs2⟩ : ∃ s2, s2 = (bindCells pr bs s1).2 := ⟨_, rfl⟩
    rw [← hs2] at hval
    refine ⟨callBody pr (.thunk thunk) (.body ⟨s2.fresh, .setBindings ((bindCells pr bs s1).1 ++ s1.bindings),
        .setBindings s1.bindings⟩ :: .next next :: s1.stack) { s2 with
          bindings := (bindCells pr bs s1).1 ++ s1.bindings
          extents := ⟨s2.fresh, .setBindings ((bindCells pr bs s1).1 ++ s1.bindings),
            .setBindings s1.bindings⟩ :: s2.extents
          fresh := s2.fresh + 1
          log := .enter s2.fresh :: s2.log },
      ⟨s2.fresh, .setBindings ((bindCells pr bs s1).1 ++ s1.bindings), .setBindings s1.bindings⟩,
      ?_, ?_, ?_, ?_⟩
    · simp only [steps, hstep, Option.bind_some, perform, callThunk, ← hs2]
      simp only [step, returnTo, Option.bind_some]
      rfl
    · rfl
    · rw [← hst]; rfl
    · intro p
      have := hval p
      rw [hv] at this
      exact this
  · cases ha

/-- The hypotheses of `C42_enter`, and its values: 105 and 106 inside, 50 outside. -/
example : ∃ s, CalmRun paramJump (paramJump.init 0) s ∧
    nextAction paramJump s = some (.parameterize [(0, 5), (1, 6), (0, 7)] 2 9) ∧ value s 0 = 50 ∧
    ∃ s', steps paramJump 2 s = some s' ∧ value s' 0 = 105 ∧ value s' 1 = 106 ∧ value s' 2 = 50 := by
  refine ⟨(calmSteps paramJump 1 (paramJump.init 0)).get (by decide),
    calmRun_of_calmSteps (n := 1) (by simp), rfl, rfl, _, rfl, rfl, rfl, rfl⟩

/-- C42, restoration: when code runs in the same lexical extents as at an earlier moment, after any
normal and non-local entries and exits, a parameter has the value it had then, unless its cell was
assigned to: `parameterize`, assignments inside of it and jumps out of it leave the outer value alone. -/
theorem C42_restored (pr : Program C W S P) (c : C) (v : W) (u : S) (cells : Cell P → W)
    (s t : Config C W S P) (h : CalmRun pr (start c v u cells) s) (p : P)
    (ht : RunThrough pr (fun x => Calm pr x ∧ ¬ Assigns pr x (cellOf s.bindings p)) s t)
    (c1 c2 : C) (w1 w2 : W) (hs1 : s.mode = .run c1 w1) (ht1 : t.mode = .run c2 w2)
    (hl : lexical t.stack = lexical s.stack) : value t p = value s p := by
  have h2 : CalmRun pr (start c v u cells) t := by
    clear ht1 hl
    induction ht with
    | refl => exact h
    | step _ hq hst ih => exact .step ih hq.1 hst
  have hb1 := C42_scope_partial pr c v u cells s h c1 w1 hs1
  have hb2 := C42_scope_partial pr c v u cells t h2 c2 w2 ht1
  obtain ⟨wd, xs, hi⟩ := inv_run h
  have hold : Old s.fresh (cellOf s.bindings p) := by
    refine cellOf_old (fun y hy => ?_) p
    have hs := hi.shape
    rw [hs1] at hs
    cases hs with
    | run hg hl hx hr =>
      rw [hr.1] at hy
      rw [← hi.n]
      exact bound_of_known hi.known y hy
  have := keeps_run ht (fun x hx => hx.2) hold
  unfold value
  rw [hb2, hl, ← hb1, this.cells]

/-- `paramJump` assigns to parameter 0 inside of a `parameterize` and jumps out: it had the new value
105 inside, and has the old one, 50, afterwards. -/
example : ∃ s t, CalmRun paramJump (paramJump.init 0) s ∧
    RunThrough paramJump (fun x => Calm paramJump x ∧ ¬ Assigns paramJump x (cellOf s.bindings 0)) s t ∧
    s.mode = .run 1 0 ∧ t.mode = .run 9 0 ∧ lexical t.stack = lexical s.stack ∧ value t 0 = 50 ∧
    t.user = 105 := by
  refine ⟨(calmSteps paramJump 1 (paramJump.init 0)).get (by decide),
    (stepsThrough paramJump (quietNow paramJump (.global 0)) 10
      ((calmSteps paramJump 1 (paramJump.init 0)).get (by decide))).get (by decide),
    calmRun_of_calmSteps (n := 1) (by simp), ?_, rfl, rfl, rfl, rfl, rfl⟩
  exact runThrough_of_steps (q := quietNow paramJump (.global 0)) (n := 10)
    (fun x hx => quiet_of_quietNow hx) (by simp)

/-! ## C43 -/

/-- C43, scope: whenever code of any program runs, after any normal or non-local entries and exits, the
handlers in force are those of the innermost `with-exception-handler` (or handler call) the code is
lexically inside of. -/
theorem C43_scope_partial (pr : Program C W S P) (c : C) (v : W) (u : S) (cells : Cell P → W)
    (s : Config C W S P) (h : CalmRun pr (start c v u cells) s) (code : C) (w : W)
    (hm : s.mode = .run code w) : s.handlers = handlersOf (lexical s.stack) := by
  obtain ⟨wd, xs, hi⟩ := inv_run h
  have hs := hi.shape
  rw [hm] at hs
  cases hs with
  | run hg hl hx hr => exact hl ▸ hr.2

/-- C43, `with-exception-handler`: the thunk runs with the handler on top of the handlers. -/
theorem C43_install (pr : Program C W S P) (s : Config C W S P) (handler thunk next : C)
    (ha : nextAction pr s = some (.handle handler thunk next)) :
    ∃ s' e, steps pr 2 s = some s' ∧ s'.mode = .run thunk pr.unspecified ∧
      s'.handlers = handler :: s.handlers ∧ s'.stack = .body e :: .next next :: s.stack := by
  unfold nextAction at ha
  split at ha
  · rename_i code x hm
    injection ha with ha
    simp only [steps, step, hm, ha, perform, withHandlers, callThunk, Option.bind_some, returnTo]
    exact ⟨_, ⟨s.fresh, .setHandlers (handler :: s.handlers), .setHandlers s.handlers⟩, rfl, rfl, rfl,
      rfl⟩
  · cases ha

/-- C43, `raise`, `raise-continuable`, exceptions of primitives: the innermost handler is called with
the object, and the handlers in force are the others. -/
theorem C43_raise (pr : Program C W S P) (s : Config C W S P) (w : W) (inner : C) (outer : List C)
    (hh : s.handlers = inner :: outer) (a : Action C W P) (ha : nextAction pr s = some a)
    (hr : a = .raise w ∨ (∃ next, a = .raiseContinuable w next) ∨ a = .fault w) :
    ∃ s', steps pr 2 s = some s' ∧ s'.mode = .run inner w ∧ s'.handlers = outer := by
  unfold nextAction at ha
  split at ha
  · rename_i code x hm
    injection ha with ha
    rcases hr with rfl | ⟨next, rfl⟩ | rfl
    all_goals
      simp only [steps, step, hm, ha, perform, raise, hh, withHandlers, callThunk, Option.bind_some,
        returnTo]
      exact ⟨_, rfl, rfl, rfl⟩
  · cases ha

/-- Without handlers the object is thrown out of the machine. -/
theorem C43_uncaught (pr : Program C W S P) (s : Config C W S P) (w : W) (hh : s.handlers = [])
    (a : Action C W P) (ha : nextAction pr s = some a)
    (hr : a = .raise w ∨ (∃ next, a = .raiseContinuable w next) ∨ a = .fault w) :
    ∃ s', step pr s = some s' ∧ s'.mode = .thrown w := by
  unfold nextAction at ha
  split at ha
  · rename_i code x hm
    injection ha with ha
    rcases hr with rfl | ⟨next, rfl⟩ | rfl
    all_goals
      simp only [step, hm, ha, perform, raise, hh]
      exact ⟨_, rfl, rfl⟩
  · cases ha

/-- C43, `raise-continuable`: when the handler returns, its value is the value of the call, and the
handlers are again those of the call. -/
theorem C43_continuable (pr : Program C W S P) (s : Config C W S P) (w v : W) (inner next : C)
    (outer : List C) (hh : s.handlers = inner :: outer)
    (ha : nextAction pr s = some (.raiseContinuable w next))
    (hret : ∀ (s : Config C W S P), s.mode = .run inner w → ∃ n s',
      steps pr n s = some s' ∧ s'.mode = .ret v ∧ s'.stack = s.stack ∧ s'.extents = s.extents) :
    ∃ n s', steps pr n s = some s' ∧ s'.mode = .run next v ∧ s'.stack = s.stack ∧
      s'.handlers = inner :: outer ∧ s'.extents = s.extents := by
  unfold nextAction at ha
  split at ha
  · rename_i code x hm
    injection ha with ha
    obtain ⟨s1, h1, h2, h3, h4⟩ : ∃ s1 : Config C W S P, steps pr 2 s = some s1 ∧
        s1.mode = .run inner w ∧ s1.stack = .body ⟨s.fresh, .setHandlers outer,
          .setHandlers (inner :: outer)⟩ :: .next next :: s.stack ∧
        s1.extents = ⟨s.fresh, .setHandlers outer, .setHandlers (inner :: outer)⟩ :: s.extents := by
      simp only [steps, step, hm, ha, perform, raise, hh, withHandlers, callThunk, Option.bind_some,
        returnTo]
      exact ⟨_, rfl, rfl, rfl, rfl⟩
    obtain ⟨n, s2, g1, g2, g3, g4⟩ := hret s1 h2
    rw [h3] at g3
    have h5 : steps pr 3 s2 = some { s2 with
        mode := .run next v, stack := s.stack, extents := s2.extents.tail, handlers := inner :: outer
        log := .leave s.fresh :: s2.log } := by
      simp only [steps, step, g2, returnTo, g3, callThunk, Option.bind_some]
    refine ⟨_, _, steps_trans pr (steps_trans pr h1 g1) h5, rfl, rfl, rfl, ?_⟩
    show s2.extents.tail = _
    rw [g4, h4]
    rfl
  · cases ha

/-- C43 fails where R7RS raises a secondary exception: when a handler returns from `raise`, the object
is thrown out of the machine although an outer handler is installed; the outer handler (which would set
the state to 1000) is not called. The same happens when a handler returns from an exception of a
primitive. -/
theorem C43_returning_fails :
    (∃ n s, steps nestedHandlers n (nestedHandlers.init 0) = some s ∧ s.mode = .thrown 7 ∧ s.user = 0 ∧
      s.handlers = [9]) ∧
    (∃ n s, steps nestedHandlers n (nestedHandlers.init 2) = some s ∧ s.mode = .thrown 7 ∧ s.user = 2 ∧
      s.handlers = [9]) := by
  refine ⟨⟨8, _, rfl, rfl, rfl, rfl⟩, ⟨8, _, rfl, rfl, rfl, rfl⟩⟩

/-- `C43_raise` and `C43_continuable` at work: the handler adds one, 8 is the value. -/
example : ∃ n s, steps nestedHandlers n (nestedHandlers.init 1) = some s ∧ s.mode = .returned 8 ∧
    s.handlers = [] ∧ s.user = 1 := ⟨20, _, rfl, rfl, rfl, rfl⟩

end Meevax.Control
