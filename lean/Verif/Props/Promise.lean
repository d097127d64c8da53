import Verif.Lemmas.Promise

/-
C44: promises.
-/

namespace Meevax.Promise

variable {C W S : Type}

/-- C44, the same value every time: once a call of `force` has found promise `p` finished with value `w`,
every later call of `force` on it, in any state the program reaches, returns `w` at once and evaluates
nothing. -/
theorem C44_same_value (pr : Program C W S) (c : C) (v : W) (u : S) (s t : Config C W S)
    (hs : Run pr (start c v u) s) (ht : Run pr s t) (p : Nat) (w : W)
    (hp : s.mode = .force p) (hw : step pr s = some { s with mode := .ret w }) (hq : t.mode = .force p) :
    step pr t = some { t with mode := .ret w } := by
  have ho := own_run (own_start c v u) hs
  have ho' := own_run ho ht
  have hb : s.boxes[p]? = some (.done w) := by
    simp only [step, hp, force, boxOf_eq ho, Option.some.injEq] at hw
    split at hw
    · rename_i w' h'
      have := congrArg Config.mode hw
      simp only [Mode.ret.injEq] at this
      rw [this] at h'
      exact h'
    · rename_i t' h'
      have := congrArg Config.log hw
      unfold callThunk at this
      split at this <;> simp at this
    · have := congrArg Config.mode hw
      cases this
  have hd := done_run ho ht hb
  simp only [step, hq, force, boxOf_eq ho', hd]

/-- C44, what `force` returns: from a call of `force` on promise `p` every state is either inside of the
call, or comes after a return of the call, at which `p` was finished and the value returned was its
value; or the program has failed. The first line is also the space bound of `delay-force` chains:
whenever the loop of the call comes back to `p`, after any number of links, the stack is exactly the
stack of the call. -/
theorem C44_force (pr : Program C W S) (c : C) (v : W) (u : S) (s t : Config C W S)
    (hs : Run pr (start c v u) s) (ht : Run pr s t) (p : Nat) (hp : s.mode = .force p) :
    ((t.stack = s.stack ∧ t.mode = .force p) ∨ ∃ fs, t.stack = fs ++ .forced p :: s.stack) ∨
    (∃ r w, Run pr s r ∧ Run pr r t ∧ r.stack = s.stack ∧ r.mode = .ret w ∧
      boxOf r p = some (.done w)) ∨
    (∃ r, Run pr s r ∧ Run pr r t ∧ r.mode = .stuck) := by
  have ho := own_run (own_start c v u) hs
  induction ht with
  | refl => exact .inl (.inl ⟨rfl, hp⟩)
  | @step t1 t2 h1 _ hst ih =>
    have htrans : ∀ r, Run pr r t1 → Run pr r t2 := fun r h => .step h trivial hst
    rcases ih with h | ⟨r, w, h2, h3, h4⟩ | ⟨r, h2, h3, h4⟩
    · rcases active_step (own_run ho h1) (effect (own_run ho h1) hst) h with h | ⟨h, w, h4, h5⟩ | h
      · exact .inl h
      · exact .inr (.inl ⟨t2, w, .step h1 trivial hst, .refl _, h, h4, h5⟩)
      · exact .inr (.inr ⟨t2, .step h1 trivial hst, .refl _, h⟩)
    · exact .inr (.inl ⟨r, w, h2, htrans r h3, h4⟩)
    · exact .inr (.inr ⟨r, h2, htrans r h3, h4⟩)

/-- C44, at most one evaluation: the expression of a `delay` is evaluated at most once in any run,
provided it is only reached through its own promise (not through a `delay-force` around it, see
`C44_chain_fails`) and is not forced while it is being forced. -/
theorem C44_once_partial (pr : Program C W S) (c : C) (v : W) (u : S) (s s1 t : Config C W S)
    (hs : Run pr (start c v u) s) (code expression next : C) (w : W) (hm : s.mode = .run code w)
    (ha : (pr.step code w s.user).2 = .delay expression next) (hst : step pr s = some s1)
    (ht : RunThrough pr (NotReentered s.objects.length) s1 t)
    (hl : OnlyForcedDirectly t s.objects.length) : evaluations t s.objects.length ≤ 1 := by
  have ho := own_run (own_start c v u) hs
  have ho1 : Own s1 := own_step ho (effect ho hst)
  have heq : s1 = { s with
      user := (pr.step code w s.user).1, mode := .run next (pr.ofPromise s.objects.length)
      objects := s.objects ++ [⟨.tag, s.boxes.length⟩]
      boxes := s.boxes ++ [.pending ⟨s.objects.length, .delay expression⟩] } := by
    simp only [step, hm, ha, perform, make, nextOrigin, Option.some.injEq] at hst
    exact hst.symm
  refine (phase_run (k := .delay expression) ho1 (by intro c h; cases h) ht ?_ hl).le
  refine .unstarted ?_ ?_ ?_
  · rw [heq]
    simp only
    rw [ho.len]
    simp
  · rw [heq]
    unfold evaluations
    simp only
    rw [List.filter_eq_nil_iff.2]
    · rfl
    · intro e he
      have := ho.log e he
      have := ho.len
      simp only [beq_iff_eq]
      omega
  · rw [heq]
    intro h
    have := ho.stack _ h
    have := ho.len
    omega

/-! ## Programs for the examples -/

theorem RunThrough.trans {pr : Program C W S} {q : Config C W S → Prop} {s t u : Config C W S}
    (h : RunThrough pr q s t) (h' : RunThrough pr q t u) : RunThrough pr q s u := by
  induction h' with
  | refl => exact h
  | step _ h1 h2 ih => exact .step ih h1 h2

/-- `n` steps from states that pass a test. -/
def stepsThrough (pr : Program C W S) (q : Config C W S → Bool) :
    Nat → Config C W S → Option (Config C W S)
  | 0, s => some s
  | n + 1, s => if q s then (step pr s).bind (stepsThrough pr q n) else none

theorem runThrough_of_steps {pr : Program C W S} {q : Config C W S → Bool}
    {Q : Config C W S → Prop} (hq : ∀ x, q x = true → Q x) : ∀ {n : Nat} {s t : Config C W S},
    stepsThrough pr q n s = some t → RunThrough pr Q s t
  | 0, s, t, h => by cases h; exact .refl s
  | n + 1, s, t, h => by
    simp only [stepsThrough] at h
    split at h
    · rename_i hc
      obtain ⟨u, hu, h⟩ := Option.bind_eq_some_iff.1 h
      exact (RunThrough.step (.refl s) (hq s hc) hu).trans (runThrough_of_steps hq h)
    · cases h

/-- Is this the frame of a call of `force` on this promise? -/
def Frame.isForced (o : Nat) : Frame C → Bool
  | .forced p => p == o
  | _ => false

/-- Does the state satisfy `NotReentered`? -/
def notReenteredNow (o : Nat) (s : Config C W S) : Bool :=
  match s.mode with
  | .force p => p != o || isDone s o || !s.stack.any (Frame.isForced o)
  | _ => true

theorem notReentered_of_now {o : Nat} {s : Config C W S} (h : notReenteredNow o s = true) :
    NotReentered o s := by
  intro hm hd f hf hfo
  simp only [notReenteredNow, hm, hd, bne_self_eq_false, Bool.false_or, Bool.not_eq_true',
    List.any_eq_false] at h
  exact absurd (h f hf) (by rw [hfo]; simp [Frame.isForced])

/-- Values of the examples. -/
inductive Val where
  | num (n : Nat)
  | promise (i : Nat)
  | bool (b : Bool)
  deriving DecidableEq

/-- Fills in the fixed parts. -/
def demo (f : Nat → Val → Nat → Nat × Action Nat Val) : Program Nat Val Nat where
  step := f
  ofPromise := .promise
  toPromise | .promise i => some i | _ => none
  toPromise_ofPromise _ := rfl
  ofBool := .bool
  unspecified := .num 0

/-- `(define r (delay (begin (set! n (+ n 1)) n))) (force r) (force r)`. -/
def twice : Program Nat Val Nat := demo fun c w n =>
  match c with
  | 0 => (n, .delay 1 2)
  | 1 => (n + 1, .ret (.num (n + 1)))
  | 2 => (n, .force w 3)
  | 3 => (n, .force (.promise 0) 9)
  | _ => (n, .ret w)

/-- The hypotheses of `C44_once_partial` are met, and the expression is evaluated once. -/
example : ∃ s1 t, step twice (start 0 (.num 0) 0) = some s1 ∧ RunThrough twice (NotReentered 0) s1 t ∧
    t.mode = .returned (.num 1) ∧ t.user = 1 ∧ OnlyForcedDirectly t 0 ∧ evaluations t 0 = 1 := by
  have h : (stepsThrough twice (notReenteredNow 0) 12
      ⟨.run 2 (.promise 0), [], [⟨.tag, 0⟩], [.pending ⟨0, .delay 1⟩], 0, []⟩).any (fun t =>
        (match t.mode with | .returned (.num 1) => true | _ => false) && t.user == 1 &&
          t.log == [(0, 0)]) = true := by decide +kernel
  obtain ⟨t, ht, hp⟩ := (Option.any_eq_true ..).1 h
  simp only [Bool.and_eq_true, beq_iff_eq] at hp
  obtain ⟨⟨h1, h2⟩, h3⟩ := hp
  refine ⟨_, t, rfl, runThrough_of_steps (fun x hx => notReentered_of_now hx) ht, ?_, h2, ?_, ?_⟩
  · split at h1
    · assumption
    · cases h1
  · intro e he _
    rw [h3] at he
    simp only [List.mem_singleton] at he
    rw [he]
  · unfold evaluations
    rw [h3]
    rfl

/-- `(define r (delay (begin (set! n (+ n 1)) n))) (define s (delay-force r)) (force s) (force r)`, and
`(promise? r)` at the end. -/
def chained : Program Nat Val Nat := demo fun c w n =>
  match c with
  | 0 => (n, .delay 1 2)
  | 1 => (n + 1, .ret (.num (n + 1)))
  | 2 => (n, .lazy 3 4)
  | 3 => (n, .ret (.promise 0))
  | 4 => (n, .force w 5)
  | 5 => (n, .force (.promise 0) 6)
  | 6 => (n, .isPromise (.promise 0) 9)
  | _ => (n, .ret w)

/-- C44 fails: a promise that is forced through a `delay-force` is evaluated again when it is forced
itself (R7RS and SRFI 45: once), and is no longer a promise. -/
theorem C44_chain_fails : ∃ n s, steps chained n (start 0 (.num 0) 0) = some s ∧
    s.mode = .returned (.bool false) ∧ s.user = 2 ∧ evaluations s 0 = 2 ∧ s.log = [(0, 0), (1, 0), (1, 1)] :=
  ⟨22, (steps chained 22 (start 0 (.num 0) 0)).get (by decide), (Option.some_get _).symm, rfl, rfl, rfl, rfl⟩

/-- `(define (loop) (if (= n 0) (delay 42) (begin (set! n (- n 1)) (delay-force (loop)))))`,
`(force (loop))`. -/
def longChain : Program Nat Val Nat := demo fun c w n =>
  match c with
  | 0 => (n, .call 1 w 4)
  | 1 => if n = 0 then (n, .delay 2 9) else (n - 1, .lazy 1 9)
  | 2 => (n, .ret (.num 42))
  | 4 => (n, .forceTail w)
  | _ => (n, .ret w)

/-- The states in which the loop of `force` comes back to the first promise. -/
structure AtLink (n : Nat) (s : Config Nat Val Nat) : Prop where
  mode : s.mode = .force 0
  stack : s.stack = []
  user : s.user = n
  heap : ∃ car o os bs, s.objects = ⟨car, 0⟩ :: os ∧ s.boxes = .pending ⟨o, .lazy 1⟩ :: bs ∧
    os.length = bs.length ∧ ∀ (i : Nat) (x : Obj), os[i]? = some x → x.cdr = i + 1

/-- The promise at the end of the chain. -/
theorem finish_delay (car : Car) (o : Nat) (os : List Obj) (bs : List (Box Nat Val)) (log : List (Nat × Nat))
    (hl : os.length = bs.length) :
    ∃ t, RunThrough longChain (fun t => t.stack.length ≤ 2)
      ⟨.force 0, [], ⟨car, 0⟩ :: os, .pending ⟨o, .delay 2⟩ :: bs, 0, log⟩ t ∧
      t.mode = .returned (.num 42) := by
  let L := os.length + 1
  have h1 : step longChain ⟨.force 0, [], ⟨car, 0⟩ :: os, .pending ⟨o, .delay 2⟩ :: bs, 0, log⟩ = some
      ⟨.run 2 (.num 0), [.wrap, .forced 0], ⟨car, 0⟩ :: os, .pending ⟨o, .delay 2⟩ :: bs, 0, (0, o) :: log⟩ :=
    rfl
  have h2 : step longChain
      ⟨.run 2 (.num 0), [.wrap, .forced 0], ⟨car, 0⟩ :: os, .pending ⟨o, .delay 2⟩ :: bs, 0, (0, o) :: log⟩ =
      some ⟨.ret (.num 42), [.wrap, .forced 0], ⟨car, 0⟩ :: os, .pending ⟨o, .delay 2⟩ :: bs, 0,
        (0, o) :: log⟩ := rfl
  have h3 : step longChain
      ⟨.ret (.num 42), [.wrap, .forced 0], ⟨car, 0⟩ :: os, .pending ⟨o, .delay 2⟩ :: bs, 0, (0, o) :: log⟩ =
      some ⟨.ret (.promise L), [.forced 0], ⟨car, 0⟩ :: (os ++ [⟨.tag, L⟩]),
        .pending ⟨o, .delay 2⟩ :: (bs ++ [.done (.num 42)]), 0, (0, o) :: log⟩ := by
    have : bs.length + 1 = L := by omega
    simp [step, longChain, demo, returnTo, make, L, this]
  have h4 : step longChain
      ⟨.ret (.promise L), [.forced 0], ⟨car, 0⟩ :: (os ++ [⟨.tag, L⟩]),
        .pending ⟨o, .delay 2⟩ :: (bs ++ [.done (.num 42)]), 0, (0, o) :: log⟩ = some
      ⟨.force 0, [], ⟨car, 0⟩ :: (os ++ [⟨.box 0, L⟩]),
        .done (.num 42) :: (bs ++ [.done (.num 42)]), 0, (0, o) :: log⟩ := by
    simp [step, longChain, demo, returnTo, isDone, boxOf, update, L, hl]
  refine ⟨_, .step (.step (.step (.step (.step (.step (.refl _) ?_ h1) ?_ h2) ?_ h3) ?_ h4) ?_ rfl) ?_ rfl,
    rfl⟩ <;> simp [force, boxOf]

/-- One link. -/
theorem link {n : Nat} {s : Config Nat Val Nat} (h : AtLink (n + 1) s) :
    ∃ t, RunThrough longChain (fun t => t.stack.length ≤ 2) s t ∧ AtLink n t := by
  obtain ⟨hm, hs, hu, car, o, os, bs, ho, hb, hl, hc⟩ := h
  obtain ⟨mode, stack, objects, boxes, user, log⟩ := s
  simp only at hm hs hu ho hb
  subst hm hs hu ho hb
  let L := os.length + 1
  have h1 : step longChain ⟨.force 0, [], ⟨car, 0⟩ :: os, .pending ⟨o, .lazy 1⟩ :: bs, n + 1, log⟩ = some
      ⟨.run 1 (.num 0), [.forced 0], ⟨car, 0⟩ :: os, .pending ⟨o, .lazy 1⟩ :: bs, n + 1, (0, o) :: log⟩ :=
    rfl
  have h2 : step longChain
      ⟨.run 1 (.num 0), [.forced 0], ⟨car, 0⟩ :: os, .pending ⟨o, .lazy 1⟩ :: bs, n + 1, (0, o) :: log⟩ = some
      ⟨.run 9 (.promise L), [.forced 0], ⟨car, 0⟩ :: (os ++ [⟨.tag, L⟩]),
        .pending ⟨o, .lazy 1⟩ :: (bs ++ [.pending ⟨L, .lazy 1⟩]), n, (0, o) :: log⟩ := by
    have : bs.length + 1 = L := by omega
    simp [step, longChain, demo, perform, make, nextOrigin, L, this]
  have h3 : step longChain
      ⟨.run 9 (.promise L), [.forced 0], ⟨car, 0⟩ :: (os ++ [⟨.tag, L⟩]),
        .pending ⟨o, .lazy 1⟩ :: (bs ++ [.pending ⟨L, .lazy 1⟩]), n, (0, o) :: log⟩ = some
      ⟨.ret (.promise L), [.forced 0], ⟨car, 0⟩ :: (os ++ [⟨.tag, L⟩]),
        .pending ⟨o, .lazy 1⟩ :: (bs ++ [.pending ⟨L, .lazy 1⟩]), n, (0, o) :: log⟩ := rfl
  have h4 : step longChain
      ⟨.ret (.promise L), [.forced 0], ⟨car, 0⟩ :: (os ++ [⟨.tag, L⟩]),
        .pending ⟨o, .lazy 1⟩ :: (bs ++ [.pending ⟨L, .lazy 1⟩]), n, (0, o) :: log⟩ = some
      ⟨.force 0, [], ⟨car, 0⟩ :: (os ++ [⟨.box 0, L⟩]),
        .pending ⟨L, .lazy 1⟩ :: (bs ++ [.pending ⟨L, .lazy 1⟩]), n, (0, o) :: log⟩ := by
    simp [step, longChain, demo, returnTo, isDone, boxOf, update, L, hl]
  refine ⟨_, .step (.step (.step (.step (.refl _) ?_ h1) ?_ h2) ?_ h3) ?_ h4,
    rfl, rfl, rfl, car, L, _, _, rfl, rfl, ?_, ?_⟩ <;> try simp
  · exact hl
  · intro i x hi
    by_cases h : i < os.length
    · rw [List.getElem?_append_left h] at hi
      exact hc i x hi
    · rw [List.getElem?_append_right (by omega)] at hi
      cases he : i - os.length with
      | zero =>
        rw [he] at hi
        simp only [List.getElem?_cons_zero, Option.some.injEq] at hi
        rw [← hi]
        simp only [L]
        omega
      | succ k => rw [he] at hi; simp at hi

/-- The last link. -/
theorem last_link {s : Config Nat Val Nat} (h : AtLink 0 s) :
    ∃ t, RunThrough longChain (fun t => t.stack.length ≤ 2) s t ∧ t.mode = .returned (.num 42) := by
  obtain ⟨hm, hs, hu, car, o, os, bs, ho, hb, hl, hc⟩ := h
  obtain ⟨mode, stack, objects, boxes, user, log⟩ := s
  simp only at hm hs hu ho hb
  subst hm hs hu ho hb
  let L := os.length + 1
  have h1 : step longChain ⟨.force 0, [], ⟨car, 0⟩ :: os, .pending ⟨o, .lazy 1⟩ :: bs, 0, log⟩ = some
      ⟨.run 1 (.num 0), [.forced 0], ⟨car, 0⟩ :: os, .pending ⟨o, .lazy 1⟩ :: bs, 0, (0, o) :: log⟩ :=
    rfl
  have h2 : step longChain
      ⟨.run 1 (.num 0), [.forced 0], ⟨car, 0⟩ :: os, .pending ⟨o, .lazy 1⟩ :: bs, 0, (0, o) :: log⟩ = some
      ⟨.run 9 (.promise L), [.forced 0], ⟨car, 0⟩ :: (os ++ [⟨.tag, L⟩]),
        .pending ⟨o, .lazy 1⟩ :: (bs ++ [.pending ⟨L, .delay 2⟩]), 0, (0, o) :: log⟩ := by
    have : bs.length + 1 = L := by omega
    simp [step, longChain, demo, perform, make, nextOrigin, L, this]
  have h3 : step longChain
      ⟨.run 9 (.promise L), [.forced 0], ⟨car, 0⟩ :: (os ++ [⟨.tag, L⟩]),
        .pending ⟨o, .lazy 1⟩ :: (bs ++ [.pending ⟨L, .delay 2⟩]), 0, (0, o) :: log⟩ = some
      ⟨.ret (.promise L), [.forced 0], ⟨car, 0⟩ :: (os ++ [⟨.tag, L⟩]),
        .pending ⟨o, .lazy 1⟩ :: (bs ++ [.pending ⟨L, .delay 2⟩]), 0, (0, o) :: log⟩ := rfl
  have h4 : step longChain
      ⟨.ret (.promise L), [.forced 0], ⟨car, 0⟩ :: (os ++ [⟨.tag, L⟩]),
        .pending ⟨o, .lazy 1⟩ :: (bs ++ [.pending ⟨L, .delay 2⟩]), 0, (0, o) :: log⟩ = some
      ⟨.force 0, [], ⟨car, 0⟩ :: (os ++ [⟨.box 0, L⟩]),
        .pending ⟨L, .delay 2⟩ :: (bs ++ [.pending ⟨L, .delay 2⟩]), 0, (0, o) :: log⟩ := by
    simp [step, longChain, demo, returnTo, isDone, boxOf, update, L, hl]
  obtain ⟨t, h5, h6⟩ := finish_delay car L (os ++ [⟨.box 0, L⟩]) (bs ++ [.pending ⟨L, .delay 2⟩])
    ((0, o) :: log) (by simp [hl])
  refine ⟨t, .trans (.step (.step (.step (.step (.refl _) ?_ h1) ?_ h2) ?_ h3) ?_ h4) h5, h6⟩ <;> simp

theorem links : ∀ {n : Nat} {s : Config Nat Val Nat}, AtLink n s →
    ∃ t, RunThrough longChain (fun t => t.stack.length ≤ 2) s t ∧ t.mode = .returned (.num 42)
  | 0, _, h => last_link h
  | n + 1, s, h => by
    obtain ⟨t, h1, h2⟩ := link h
    obtain ⟨r, h3, h4⟩ := links h2
    exact ⟨r, h1.trans h3, h4⟩

/-- C44, space: a chain of any number of `delay-force`s is forced with at most two frames on the stack,
and yields the value at its end. -/
theorem C44_chain_space (n : Nat) : ∃ s, RunThrough longChain (fun t => t.stack.length ≤ 2)
    (start 0 (.num 0) n) s ∧ s.mode = .returned (.num 42) := by
  cases n with
  | zero =>
    obtain ⟨t, h, h'⟩ := finish_delay .tag 0 [] [] [] rfl
    refine ⟨t, .trans (.step (.step (.step (.step (.step (.refl _) ?_ rfl) ?_ rfl) ?_ rfl) ?_ rfl) ?_ rfl) h,
      h'⟩ <;> decide
  | succ n =>
    obtain ⟨t, h, h'⟩ := links (n := n)
      (s := ⟨.force 0, [], [⟨.tag, 0⟩], [.pending ⟨0, .lazy 1⟩], n, []⟩)
      ⟨rfl, rfl, rfl, .tag, 0, [], [], rfl, rfl, rfl, by simp⟩
    refine ⟨t, .trans (.step (.step (.step (.step (.step (.refl _) ?_ rfl) ?_ rfl) ?_ rfl) ?_ rfl) ?_ rfl) h,
      h'⟩ <;> simp [start, perform, make, longChain, demo, nextOrigin, returnTo]

end Meevax.Promise
