import Verif.Lemmas.Guard
import Verif.Props.Control

/-
C76: `guard`.
-/

namespace Meevax.Control

variable {C W S P : Type} [DecidableEq P]

/-- The states of a program with `guard`. -/
abbrev GuardConfig (C W S P : Type) := Config (GuardCode C W) (GuardValue C W) S P

/-- What the user's code is about to do. -/
def userAction (pr : GuardProgram C W S P) (s : GuardConfig C W S P) : Option (GuardAction C W P) :=
  match s.mode with
  | .run (.user c) v => some (pr.step c (pr.view v) s.user fun p => pr.view (value s p)).2
  | _ => none

/-- The handler that a `guard` installs. -/
def guardHandler (f : W → Nat → C) (s : GuardConfig C W S P) : GuardCode C W :=
  .handler f s.conts.length

/-- The body of the `guard` that is about to be evaluated in `s` starts in `t`: the value of the body
goes to the `guard`, the handlers are the `guard`'s and those outside of it, and the only dynamic extent
more is that of the handlers. -/
structure BodyStarts (pr : GuardProgram C W S P) (f : W → Nat → C) (body next : C)
    (s t : GuardConfig C W S P) : Prop where
  run : CalmRun pr.translate s t
  mode : t.mode = .run (.user body) (.user pr.unspecified)
  handlers : t.handlers = guardHandler f s :: s.handlers
  bindings : t.bindings = s.bindings
  cells : t.cells = s.cells
  stack : ∃ e, t.stack = .next (.leave s.conts.length) :: .body e :: .next .tail :: .next .invoke ::
    .next (.user next) :: s.stack ∧ ReturnsQuietly pr.translate e.after ∧
      e.before = .setHandlers t.handlers
  extents : ∃ e, t.extents = e :: s.extents
  cont : t.conts[s.conts.length]? = some (.next .invoke :: .next (.user next) :: s.stack, s.extents)

theorem nextAction_user {pr : GuardProgram C W S P} {s : GuardConfig C W S P} {a : GuardAction C W P}
    (h : userAction pr s = some a) : nextAction pr.translate s = some (a.translate pr) := by
  unfold userAction at h
  split at h
  · rename_i c v hm
    injection h with h
    unfold nextAction
    rw [hm, ← h]
    rfl
  · cases h

/-- The step of a state that runs code. -/
theorem step_run {pr : Program C W S P} {s : Config C W S P} {a : Action C W P}
    (h : nextAction pr s = some a) : ∃ u, step pr s = some (perform pr { s with user := u } a) := by
  unfold nextAction at h
  split at h
  · rename_i c w hm
    injection h with h
    refine ⟨(pr.step c w s.user fun p => s.cells (cellOf s.bindings p)).1, ?_⟩
    simp only [step, hm]
    rw [← h]
  · cases h

theorem calm_of_not_inside {pr : Program C W S P} {s : Config C W S P}
    (h : insideAfter s.stack = false) : Calm pr s := fun _ _ _ => h

omit [DecidableEq P] in
theorem not_inside_cons {f : Frame C W P} {s : Stack C W P} (hf : f.isAfter = false)
    (h : insideAfter s = false) : insideAfter (f :: s) = false := by
  unfold insideAfter at h ⊢
  rw [List.any_cons, hf, h]
  rfl

/-- C76, entry: the body of a `guard` is evaluated with the `guard`'s handler added to the handlers, in
the dynamic environment of the `guard` otherwise. -/
theorem C76_enter (pr : GuardProgram C W S P) (s : GuardConfig C W S P) (f : W → Nat → C)
    (body next : C) (ha : userAction pr s = some (.guard f body next))
    (hin : insideAfter s.stack = false) : ∃ t, BodyStarts pr f body next s t := by
  obtain ⟨u, h1⟩ := step_run (nextAction_user ha)
  have hq0 : Calm pr.translate s := calm_of_not_inside hin
  have r1 := RunThrough.one hq0 h1
  simp only [GuardAction.translate, perform] at r1
  have r2 := r1.step (q := Calm pr.translate) (calm_of_not_inside (not_inside_cons rfl hin)) rfl
  have r3 := r2.step (q := Calm pr.translate)
    (calm_of_not_inside (not_inside_cons rfl (not_inside_cons rfl hin))) rfl
  have r4 := r3.step (q := Calm pr.translate) (quiet_of_mode (fun _ _ h => by cases h)).calm rfl
  have r5 := r4.step (q := Calm pr.translate)
    (calm_of_not_inside (not_inside_cons rfl (not_inside_cons rfl (not_inside_cons rfl
      (not_inside_cons rfl hin))))) rfl
  refine ⟨_, r5, rfl, rfl, rfl, rfl, ⟨_, rfl, returnsQuietly_setHandlers _ _, rfl⟩, ⟨_, rfl⟩, ?_⟩
  exact List.getElem?_concat_length

/-- Where a `guard` has come back to: its continuation, with the dynamic extents, the handlers and the
bindings of parameters it was evaluated in. -/
structure BackAt (s t : GuardConfig C W S P) : Prop where
  extents : t.extents = s.extents
  handlers : t.handlers = s.handlers
  bindings : t.bindings = s.bindings

omit [DecidableEq P] in
theorem lexical_next {s : Stack C W P} {c : C} : lexical (.next c :: s) = lexical s := rfl

/-- In calm states outside of the `after`s of jumps the register agrees with the continuation. -/
theorem extents_eq {pr : Program C W S P} {c : C} {v : W} {u : S} {cells : Cell P → W}
    {s : Config C W S P} (h : CalmRun pr (start c v u cells) s) (hin : insideAfter s.stack = false)
    {a : Action C W P} (ha : nextAction pr s = some a) : s.extents = lexical s.stack := by
  obtain ⟨wd, xs, hi⟩ := inv_run h
  unfold nextAction at ha
  split at ha
  · rename_i code x hm
    have hs := hi.shape
    rw [hm] at hs
    cases hs with
    | run hg hl hx hr => rw [hx, register_eq_lexical hin]
  · cases ha

theorem mode_run_of_action {pr : Program C W S P} {s : Config C W S P} {a : Action C W P}
    (ha : nextAction pr s = some a) : ∃ c w, s.mode = .run c w := by
  unfold nextAction at ha
  split at ha
  · exact ⟨_, _, by assumption⟩
  · cases ha

/-- Two moments with the same lexical extents have the same handlers and bindings. -/
theorem same_scope {pr : Program C W S P} {c : C} {v : W} {u : S} {cells : Cell P → W}
    {s t : Config C W S P} (hs : CalmRun pr (start c v u cells) s)
    (ht : CalmRun pr (start c v u cells) t) {c1 c2 : C} {w1 w2 : W} (h1 : s.mode = .run c1 w1)
    (h2 : t.mode = .run c2 w2) (hl : lexical t.stack = lexical s.stack) :
    t.handlers = s.handlers ∧ t.bindings = s.bindings := by
  rw [C43_scope_partial pr c v u cells s hs c1 w1 h1, C43_scope_partial pr c v u cells t ht c2 w2 h2,
    C42_scope_partial pr c v u cells s hs c1 w1 h1, C42_scope_partial pr c v u cells t ht c2 w2 h2, hl]
  exact ⟨rfl, rfl⟩

/-- The jump to the continuation of a `guard`: the thunk it is given is called there. -/
theorem guard_jump {pr : GuardProgram C W S P} {c : GuardCode C W} {v : GuardValue C W} {u : S}
    {cells : Cell P → GuardValue C W} {t : GuardConfig C W S P} {k : Nat} {x : GuardValue C W}
    {stack : Stack (GuardCode C W) (GuardValue C W) P} {target : Extents (GuardCode C W) P}
    (h : CalmRun pr.translate (start c v u cells) t) (hin : insideAfter t.stack = false)
    (ha : nextAction pr.translate t = some (.jump k x))
    (hk : t.conts[k]? = some (.next .invoke :: stack, target))
    (h1 : Tame pr.translate (lexical t.stack)) (h2 : Tame pr.translate target) :
    lexical stack = target ∧
    ∃ t', CalmRun pr.translate t t' ∧ t'.mode = .run .invoke x ∧ t'.stack = stack ∧
      t'.extents = target ∧ t'.log = (windupEvents (lexical t.stack) target).reverse ++ t.log := by
  obtain ⟨-, g2, t1, g3, g4, g5, g6, g7, g8⟩ := jump_run h (calm_of_not_inside hin) ha hk h1 h2
  refine ⟨g2, { t1 with mode := .run .invoke x, stack := stack },
    g3.step (quiet_of_mode (by simp [g4])).calm (by simp only [step, g4, returnTo, g5]), rfl, rfl, g6, g7⟩

/-- C76, normal return: when the body returns, its value is the value of the `guard`, which returns with
the handlers, bindings and dynamic extents it was evaluated in. (The dynamic extents around the `guard`
are left and entered again: `C41_unequal_fails`.) -/
theorem C76_return_partial (pr : GuardProgram C W S P) (c : GuardCode C W) (v : GuardValue C W) (u : S)
    (cells : Cell P → GuardValue C W) (s : GuardConfig C W S P)
    (h : CalmRun pr.translate (start c v u cells) s) (f : W → Nat → C) (body next : C)
    (ha : userAction pr s = some (.guard f body next)) (hin : insideAfter s.stack = false)
    (t0 t : GuardConfig C W S P) (h0 : BodyStarts pr f body next s t0)
    (ht : CalmRun pr.translate t0 t) (w : GuardValue C W) (hm : t.mode = .ret w)
    (hst : t.stack = t0.stack) (htame : Tame pr.translate (lexical s.stack)) :
    ∃ t', CalmRun pr.translate t t' ∧ t'.mode = .run (.user next) w ∧ t'.stack = s.stack ∧
      BackAt s t' := by
  obtain ⟨e, hstack, hafter, hbefore⟩ := h0.stack
  have hex : s.extents = lexical s.stack := extents_eq h hin (nextAction_user ha)
  rw [hstack] at hst
  -- `(lambda args …)`
  have s1 : step pr.translate t = some { t with
      mode := .run (.leave s.conts.length) w
      stack := .body e :: .next .tail :: .next .invoke :: .next (.user next) :: s.stack } := by
    simp only [step, hm, returnTo, hst]
  have r1 := ht.step (quiet_of_mode (by simp [hm])).calm s1
  obtain ⟨t1, ht1⟩ : ∃ t1, t1 = ({ t with
      mode := .run (.leave s.conts.length) w
      stack := .body e :: .next .tail :: .next .invoke :: .next (.user next) :: s.stack } :
      GuardConfig C W S P) := ⟨_, rfl⟩
  rw [← ht1] at r1 s1
  have hrun : CalmRun pr.translate (start c v u cells) t1 := (h.trans h0.run).trans r1
  have hk := (conts_run r1).get h0.cont
  have hl1 : lexical t1.stack = e :: lexical s.stack := by rw [ht1]; rfl
  have hin1 : insideAfter t1.stack = false := by
    rw [ht1]
    exact not_inside_cons rfl (not_inside_cons rfl (not_inside_cons rfl (not_inside_cons rfl hin)))
  have hnext : nextAction pr.translate t1 = some (.jump s.conts.length (.values w)) := by
    rw [ht1]; rfl
  obtain ⟨-, t2, g1, g2, g3, g4, g5⟩ := guard_jump hrun hin1 hnext hk
    (by
      rw [hl1]
      intro x hx
      rcases List.mem_cons.1 hx with rfl | hx
      · exact ⟨by rw [hbefore]; exact returnsQuietly_setHandlers _ _, hafter⟩
      · exact htame x hx) (by rw [hex]; exact htame)
  have hrun2 := hrun.trans g1
  have hin2 : insideAfter t2.stack = false := by rw [g3]; exact not_inside_cons rfl hin
  obtain ⟨u3, s3⟩ := step_run (pr := pr.translate) (s := t2) (a := .ret w) (by
    unfold nextAction; rw [g2]; rfl)
  have r3 := g1.step (calm_of_not_inside hin2) s3
  have s4 : step pr.translate (perform pr.translate { t2 with user := u3 } (.ret w)) = some
      { t2 with user := u3, mode := .run (.user next) w, stack := s.stack } := by
    simp only [perform, step, returnTo, g3]
  have r4 := r3.step (quiet_of_mode (fun _ _ h => by cases h)).calm s4
  refine ⟨_, (RunThrough.one (quiet_of_mode (by simp [hm])).calm s1).trans r4, rfl, rfl, ?_⟩
  obtain ⟨c1, w1, hm1⟩ := mode_run_of_action (nextAction_user ha)
  have := same_scope h (hrun.trans r4) hm1 rfl rfl
  exact ⟨g4, this.1, this.2⟩

/-- The continuation of the handler that is called because of an action of the user's code: `raise`
throws the object when the handler returns, `raise-continuable` goes on, and the kernel calls `raise` on
a stack of its own. -/
def handlerStack (e : Extent (GuardCode C W) P) (t : GuardConfig C W S P) :
    Action C W P → Option (W × Stack (GuardCode C W) (GuardValue C W) P)
  | .raise x => some (x, .rethrow (.user x) :: .body e :: t.stack)
  | .raiseContinuable x next => some (x, .body e :: .next (.user next) :: t.stack)
  | .fault x => some (x, [.rethrow (.user x), .body e, .stop t.extents])
  | _ => none

/-- The clauses of a `guard` start in `t'`: with the object raised, on the continuation of the `guard`,
with the handlers, bindings and extents of the `guard`, and with a continuation that goes back to the
place of the raise. -/
structure ClausesStart (pr : GuardProgram C W S P) (f : W → Nat → C) (next : C) (x : W)
    (s t : GuardConfig C W S P) (stack : Stack (GuardCode C W) (GuardValue C W) P)
    (e : Extent (GuardCode C W) P) (t' : GuardConfig C W S P) : Prop where
  run : CalmRun pr.translate t t'
  mode : t'.mode = .run (.user (f x t.conts.length)) (.user pr.unspecified)
  onStack : t'.stack = .next (.user next) :: s.stack
  back : BackAt s t'
  extent : e.before = .setHandlers s.handlers ∧ e.after = .setHandlers t.handlers
  cont : t'.conts[t.conts.length]? = some (.next .invoke :: stack, e :: lexical t.stack)

/-- C76, an object is raised (by `raise`, `raise-continuable` or a primitive) in the body while the
handlers are those the body started with: the clauses of the `guard` are evaluated with that object, on
the continuation of the `guard`, with the handlers, bindings and dynamic extents of the `guard`. -/
theorem C76_catch_partial (pr : GuardProgram C W S P) (c : GuardCode C W) (v : GuardValue C W) (u : S)
    (cells : Cell P → GuardValue C W) (s : GuardConfig C W S P)
    (h : CalmRun pr.translate (start c v u cells) s) (f : W → Nat → C) (body next : C)
    (ha : userAction pr s = some (.guard f body next)) (hin : insideAfter s.stack = false)
    (t0 t : GuardConfig C W S P) (h0 : BodyStarts pr f body next s t0)
    (ht : CalmRun pr.translate t0 t) (hint : insideAfter t.stack = false) (a : Action C W P)
    (hact : userAction pr t = some (.plain a)) (hh : t.handlers = guardHandler f s :: s.handlers)
    (x : W) (hx : ∃ e stack, handlerStack e t a = some (x, stack))
    (htame : Tame pr.translate (lexical t.stack)) (htame' : Tame pr.translate (lexical s.stack)) :
    ∃ t' e stack, handlerStack e t a = some (x, stack) ∧ ClausesStart pr f next x s t stack e t' := by
  have hex : s.extents = lexical s.stack := extents_eq h hin (nextAction_user ha)
  have hrun0 : CalmRun pr.translate (start c v u cells) t := (h.trans h0.run).trans ht
  have hext : t.extents = lexical t.stack := extents_eq hrun0 hint (nextAction_user hact)
  obtain ⟨u1, s1⟩ := step_run (nextAction_user hact)
  -- the handler is called
  obtain ⟨t2, e, stack, hstk, hlex, hinh, he, r2, hm2, hst2, hxs2, hc2⟩ : ∃ (t2 : GuardConfig C W S P)
      (e : Extent (GuardCode C W) P) (stack : Stack (GuardCode C W) (GuardValue C W) P),
      handlerStack e t a = some (x, stack) ∧ lexical stack = e :: lexical t.stack ∧
      insideAfter stack = false ∧
      (e.before = .setHandlers s.handlers ∧ e.after = .setHandlers t.handlers) ∧
      CalmRun pr.translate t t2 ∧ t2.mode = .run (guardHandler f s) (.user x) ∧ t2.stack = stack ∧
      t2.extents = e :: t.extents ∧ t2.conts = t.conts := by
    have hq := calm_of_not_inside (pr := pr.translate) hint
    obtain ⟨e', stack', hx⟩ := hx
    cases a with
    | raise y =>
      injection hx with hx
      injection hx with hx _
      subst hx
      simp only [GuardAction.translate, Action.translate, perform, raise, hh, withHandlers, callThunk]
        at s1
      refine ⟨_, ⟨t.fresh, .setHandlers s.handlers, .setHandlers (guardHandler f s :: s.handlers)⟩, _,
        rfl, rfl, not_inside_cons rfl (not_inside_cons rfl hint),
        ⟨rfl, congrArg _ hh.symm⟩, (RunThrough.one hq s1).step
          (quiet_of_mode (fun _ _ h => by cases h)).calm rfl, rfl, rfl, rfl, rfl⟩
    | raiseContinuable y n =>
      injection hx with hx
      injection hx with hx _
      subst hx
      simp only [GuardAction.translate, Action.translate, perform, raise, hh, withHandlers, callThunk]
        at s1
      refine ⟨_, ⟨t.fresh, .setHandlers s.handlers, .setHandlers (guardHandler f s :: s.handlers)⟩, _,
        rfl, rfl, not_inside_cons rfl (not_inside_cons rfl hint),
        ⟨rfl, congrArg _ hh.symm⟩, (RunThrough.one hq s1).step
          (quiet_of_mode (fun _ _ h => by cases h)).calm rfl, rfl, rfl, rfl, rfl⟩
    | fault y =>
      injection hx with hx
      injection hx with hx _
      subst hx
      simp only [GuardAction.translate, Action.translate, perform, raise, hh, withHandlers, callThunk]
        at s1
      refine ⟨_, ⟨t.fresh, .setHandlers s.handlers, .setHandlers (guardHandler f s :: s.handlers)⟩, _,
        rfl, ?_, rfl, ⟨rfl, congrArg _ hh.symm⟩, (RunThrough.one hq s1).step
          (quiet_of_mode (fun _ _ h => by cases h)).calm rfl, rfl, rfl, rfl, rfl⟩
      rw [← hext]
      rfl
    | _ => cases hx
  have hin2 : insideAfter t2.stack = false := by rw [hst2]; exact hinh
  -- the continuation of the handler is captured
  obtain ⟨u3, s3⟩ := step_run (pr := pr.translate) (s := t2)
    (a := .callcc (.escape f s.conts.length (.user x)) .invoke) (by unfold nextAction; rw [hm2]; rfl)
  have r3 := r2.step (calm_of_not_inside hin2) s3
  obtain ⟨t3, ht3⟩ : ∃ t3, t3 = perform pr.translate { t2 with user := u3 }
    (.callcc (.escape f s.conts.length (.user x)) .invoke) := ⟨_, rfl⟩
  rw [← ht3] at r3
  have hrun3 := hrun0.trans r3
  have hst3 : t3.stack = .next .invoke :: stack := by rw [ht3, ← hst2]; rfl
  have hin3 : insideAfter t3.stack = false := by rw [hst3]; exact not_inside_cons rfl hinh
  have hk3 : t3.conts[t.conts.length]? = some (.next .invoke :: stack, e :: lexical t.stack) := by
    rw [ht3, ← hc2, ← hst2, ← hext, ← hxs2]
    exact List.getElem?_concat_length
  have hkg := (conts_run (ht.trans r3)).get h0.cont
  obtain ⟨-, t4, g1, g2, g3, g4, -⟩ := guard_jump (k := s.conts.length)
    (x := .clauses f (.user x) t.conts.length) hrun3 hin3 (by
      rw [ht3, ← hc2]; rfl) hkg
    (by
      rw [hst3]
      show Tame _ (lexical stack)
      rw [hlex]
      intro y hy
      rcases List.mem_cons.1 hy with rfl | hy
      · exact ⟨by rw [he.1]; exact returnsQuietly_setHandlers _ _,
          by rw [he.2]; exact returnsQuietly_setHandlers _ _⟩
      · exact htame y hy) (by rw [hex]; exact htame')
  have hin4 : insideAfter t4.stack = false := by rw [g3]; exact not_inside_cons rfl hin
  obtain ⟨u5, s5⟩ := step_run (pr := pr.translate) (s := t4)
    (a := .goto (.user (f x t.conts.length)) (.user pr.unspecified)) (by
      unfold nextAction; rw [g2]; rfl)
  have r5 := (r3.trans g1).step (calm_of_not_inside hin4) s5
  refine ⟨_, e, stack, hstk, r5, rfl, g3, ?_, he, ?_⟩
  · obtain ⟨c1, w1, hm1⟩ := mode_run_of_action (nextAction_user ha)
    have := same_scope h (hrun0.trans r5) hm1 rfl (by
      show lexical t4.stack = _
      rw [g3]; rfl)
    exact ⟨g4, this.1, this.2⟩
  · exact (conts_run (g1.step (calm_of_not_inside hin4) s5)).get hk3

/-- C76, no clause applies: `raise-continuable` is called with the object in the dynamic environment of
the raise (bindings and extents), except that the handlers are those outside of the `guard`: the innermost
of them is called, with the others in force. -/
theorem C76_reraise_partial (pr : GuardProgram C W S P) (c : GuardCode C W) (v : GuardValue C W) (u : S)
    (cells : Cell P → GuardValue C W) (s t t1 t2 : GuardConfig C W S P)
    (h : CalmRun pr.translate (start c v u cells) t) (f : W → Nat → C) (next : C) (x : W)
    (a : Action C W P) (hact : userAction pr t = some (.plain a))
    (stack : Stack (GuardCode C W) (GuardValue C W) P) (e : Extent (GuardCode C W) P)
    (hstack : handlerStack e t a = some (x, stack))
    (h1 : ClausesStart pr f next x s t stack e t1) (h2 : CalmRun pr.translate t1 t2)
    (hin : insideAfter t2.stack = false) (hint : insideAfter t.stack = false) (y : W)
    (ha : userAction pr t2 = some (.reraise t.conts.length y))
    (htame : Tame pr.translate (lexical t2.stack)) (htame' : Tame pr.translate (lexical t.stack))
    (inner : GuardCode C W) (outer : List (GuardCode C W)) (hh : s.handlers = inner :: outer) :
    ∃ t' e', CalmRun pr.translate t2 t' ∧ t'.mode = .run inner (.user y) ∧ t'.handlers = outer ∧
      t'.bindings = t.bindings ∧ t'.stack = .body e' :: .next .tail :: stack ∧
      e'.after = .setHandlers s.handlers ∧ t'.extents = e' :: e :: lexical t.stack := by
  have hrun2 := (h.trans h1.run).trans h2
  obtain ⟨hlex, t3, g1, g2, g3, g4, -⟩ := guard_jump hrun2 hin (nextAction_user ha)
    ((conts_run h2).get h1.cont) htame (by
      intro z hz
      rcases List.mem_cons.1 hz with rfl | hz
      · exact ⟨by rw [h1.extent.1]; exact returnsQuietly_setHandlers _ _,
          by rw [h1.extent.2]; exact returnsQuietly_setHandlers _ _⟩
      · exact htame' z hz)
  have hrun3 := hrun2.trans g1
  have hinS : insideAfter stack = false := by
    cases a with
    | raise => injection hstack with hs; injection hs with _ hs; rw [← hs]
               exact not_inside_cons rfl (not_inside_cons rfl hint)
    | raiseContinuable => injection hstack with hs; injection hs with _ hs; rw [← hs]
                          exact not_inside_cons rfl (not_inside_cons rfl hint)
    | fault => injection hstack with hs; injection hs with _ hs; rw [← hs]; rfl
    | _ => cases hstack
  have hh3 : t3.handlers = s.handlers := by
    rw [C43_scope_partial _ c v u cells t3 hrun3 _ _ g2, g3, hlex, handlersOf, h1.extent.1]
  have hb3 : t3.bindings = t.bindings := by
    obtain ⟨c1, w1, hm1⟩ := mode_run_of_action (nextAction_user hact)
    rw [C42_scope_partial _ c v u cells t3 hrun3 _ _ g2, C42_scope_partial _ c v u cells t h _ _ hm1,
      g3, hlex, bindingsOf, h1.extent.1]
  have hin3 : insideAfter t3.stack = false := by rw [g3]; exact hinS
  obtain ⟨u4, s4⟩ := step_run (pr := pr.translate) (s := t3)
    (a := .raiseContinuable (.user y) .tail) (by unfold nextAction; rw [g2]; rfl)
  have r4 := g1.step (calm_of_not_inside hin3) s4
  rw [hh] at hh3
  simp only [perform, raise, hh3, withHandlers, callThunk] at r4
  have r5 := r4.step (quiet_of_mode (fun _ _ h => by cases h)).calm rfl
  refine ⟨_, ⟨t3.fresh, .setHandlers outer, .setHandlers (inner :: outer)⟩, r5, rfl, rfl, hb3, ?_, ?_, ?_⟩
  · rw [← g3]; rfl
  · rw [hh]
  · rw [← g4]; rfl

/-- C76, no clause applies, and the handler outside of the `guard` returns: its value is the value of the
original call of `raise-continuable`, which returns with the handlers and bindings of that call; after
`raise` (and after an exception of a primitive) the object is thrown out of the machine. -/
theorem C76_reraise_value (pr : GuardProgram C W S P) (c : GuardCode C W) (v : GuardValue C W) (u : S)
    (cells : Cell P → GuardValue C W) (s t t1 t3 : GuardConfig C W S P)
    (h : CalmRun pr.translate (start c v u cells) t) (f : W → Nat → C) (next : C) (x : W)
    (a : Action C W P) (hact : userAction pr t = some (.plain a))
    (stack : Stack (GuardCode C W) (GuardValue C W) P) (e e' : Extent (GuardCode C W) P)
    (hstack : handlerStack e t a = some (x, stack)) (h1 : ClausesStart pr f next x s t stack e t1)
    (h3 : CalmRun pr.translate t1 t3) (w : GuardValue C W) (hm : t3.mode = .ret w)
    (hst : t3.stack = .body e' :: .next .tail :: stack) (he' : e'.after = .setHandlers s.handlers)
    (hint : insideAfter t.stack = false) :
    ∃ t', CalmRun pr.translate t3 t' ∧ match (generalizing := false) a with
      | .raiseContinuable _ n => t'.mode = .run (.user n) w ∧ t'.stack = t.stack ∧ BackAt t t'
      | _ => t'.mode = .thrown (.user x) := by
  have q1 : Calm pr.translate t3 := (quiet_of_mode (by simp [hm])).calm
  have s1 : step pr.translate t3 = some { t3 with
      mode := .ret (.user pr.unspecified), stack := .result w :: .next .tail :: stack
      extents := t3.extents.tail, handlers := s.handlers, log := .leave e'.id :: t3.log } := by
    simp only [step, hm, returnTo, hst, he', callThunk]
    rfl
  have hin : insideAfter stack = false := by
    cases a with
    | raise => injection hstack with hs; injection hs with _ hs; rw [← hs]
               exact not_inside_cons rfl (not_inside_cons rfl hint)
    | raiseContinuable => injection hstack with hs; injection hs with _ hs; rw [← hs]
                          exact not_inside_cons rfl (not_inside_cons rfl hint)
    | fault => injection hstack with hs; injection hs with _ hs; rw [← hs]; rfl
    | _ => cases hstack
  have r1 := RunThrough.one q1 s1
  have r2 := r1.step (quiet_of_mode (fun _ _ h => by cases h)).calm rfl
  have r3 := r2.step (quiet_of_mode (fun _ _ h => by cases h)).calm rfl
  have r4 := r3.step (calm_of_not_inside hin) rfl
  obtain ⟨t4, ht4⟩ : ∃ t4, t4 = ({ t3 with
      mode := .ret w, stack := stack
      extents := t3.extents.tail, handlers := s.handlers, log := .leave e'.id :: t3.log } :
      GuardConfig C W S P) := ⟨_, rfl⟩
  have r4' : CalmRun pr.translate t3 t4 := by rw [ht4]; exact r4
  clear r1 r2 r3 r4
  have q4 : Calm pr.translate t4 := by rw [ht4]; exact (quiet_of_mode (fun _ _ h => by cases h)).calm
  cases a with
  | raise y =>
    injection hstack with hs
    injection hs with hx hs
    have s5 : step pr.translate t4 = some { t4 with mode := .thrown (.user y) } := by
      rw [ht4]; simp only [step, returnTo, ← hs]
    subst hx
    exact ⟨_, r4'.step q4 s5, rfl⟩
  | fault y =>
    injection hstack with hs
    injection hs with hx hs
    have s5 : step pr.translate t4 = some { t4 with mode := .thrown (.user y) } := by
      rw [ht4]; simp only [step, returnTo, ← hs]
    subst hx
    exact ⟨_, r4'.step q4 s5, rfl⟩
  | raiseContinuable y n =>
    injection hstack with hs
    injection hs with hx hs
    have s5 : step pr.translate t4 = some { t4 with
        mode := .ret (.user pr.unspecified), stack := .result w :: .next (.user n) :: t.stack
        extents := t4.extents.tail, handlers := t.handlers, log := .leave e.id :: t4.log } := by
      rw [ht4]
      simp only [step, returnTo, ← hs, h1.extent.2, callThunk]
      rfl
    have r5 := r4'.step q4 s5
    have r6 := r5.step (quiet_of_mode (fun _ _ h => by cases h)).calm rfl
    have r7 := r6.step (quiet_of_mode (fun _ _ h => by cases h)).calm rfl
    have hrun := ((h.trans h1.run).trans h3).trans r7
    obtain ⟨c1, w1, hm1⟩ := mode_run_of_action (nextAction_user hact)
    have hsame := same_scope h hrun hm1 rfl rfl
    refine ⟨_, r7, rfl, rfl, ?_, hsame.1, hsame.2⟩
    rw [extents_eq h hint (nextAction_user hact)]
    exact extents_eq hrun hint (pr := pr.translate) (by unfold nextAction; rfl)
  | _ => cases hstack

/-- C76, no clause applies and there is no handler outside of the `guard`: the object is thrown out of
the machine. -/
theorem C76_uncaught (pr : GuardProgram C W S P) (c : GuardCode C W) (v : GuardValue C W) (u : S)
    (cells : Cell P → GuardValue C W) (s t t1 t2 : GuardConfig C W S P)
    (h : CalmRun pr.translate (start c v u cells) t) (f : W → Nat → C) (next : C) (x : W)
    (stack : Stack (GuardCode C W) (GuardValue C W) P) (e : Extent (GuardCode C W) P)
    (h1 : ClausesStart pr f next x s t stack e t1) (h2 : CalmRun pr.translate t1 t2)
    (hin : insideAfter t2.stack = false) (hinS : insideAfter stack = false) (y : W)
    (ha : userAction pr t2 = some (.reraise t.conts.length y))
    (htame : Tame pr.translate (lexical t2.stack)) (htame' : Tame pr.translate (lexical t.stack))
    (hh : s.handlers = []) : ∃ t', CalmRun pr.translate t2 t' ∧ t'.mode = .thrown (.user y) := by
  have hrun2 := (h.trans h1.run).trans h2
  obtain ⟨hlex, t3, g1, g2, g3, g4, -⟩ := guard_jump hrun2 hin (nextAction_user ha)
    ((conts_run h2).get h1.cont) htame (by
      intro z hz
      rcases List.mem_cons.1 hz with rfl | hz
      · exact ⟨by rw [h1.extent.1]; exact returnsQuietly_setHandlers _ _,
          by rw [h1.extent.2]; exact returnsQuietly_setHandlers _ _⟩
      · exact htame' z hz)
  have hrun3 := hrun2.trans g1
  have hh3 : t3.handlers = [] := by
    rw [C43_scope_partial _ c v u cells t3 hrun3 _ _ g2, g3, hlex, handlersOf, h1.extent.1, hh]
  obtain ⟨u4, s4⟩ := step_run (pr := pr.translate) (s := t3)
    (a := .raiseContinuable (.user y) .tail) (by unfold nextAction; rw [g2]; rfl)
  have r4 := g1.step (calm_of_not_inside (by rw [g3]; exact hinS)) s4
  simp only [perform, raise, hh3] at r4
  exact ⟨_, r4, rfl⟩

/-! ## A program -/

/-- `(with-exception-handler (lambda (x) (+ x 10)) (lambda () (dynamic-wind nop (lambda () (guard (x (… (+ x
100))) (dynamic-wind nop (lambda () …) nop))) nop)))`: the state decides what the inner body does (0, 1:
`(+ 1 (raise-continuable 5))`, 2: `(raise 5)`, 3: a primitive fails, 4: returns 5) and whether the clause
applies (only if it is 0). -/
def guarded : GuardProgram (List Nat) Nat Nat Nat where
  convert _ w := w
  ofCont k := 1000 + k
  unspecified := 0
  step c v u _ :=
    match c with
    | 0 :: _ => (u, .plain (.handle [9] [1] [8]))
    | 1 :: _ => (u, .plain (.wind [6] [2] [6] [8]))
    | 2 :: _ => (u, .guard (fun x k => [5, x, k]) [3] [8])
    | 3 :: _ => (u, .plain (.wind [6] [4] [6] [8]))
    | 4 :: _ => (u, .plain (if u < 2 then .raiseContinuable 5 [7] else if u = 2 then .raise 5
        else if u = 3 then .fault 5 else .ret 5))
    | 5 :: x :: k :: _ => (u, if u = 0 then .plain (.ret (x + 100)) else .reraise k x)
    | 7 :: _ => (u, .plain (.ret (v + 1)))
    | 9 :: _ => (u, .plain (.ret (v + 10)))
    | _ => (u, .plain (.ret v))

/-- Its start. -/
def guarded.init (u : Nat) : GuardConfig (List Nat) Nat Nat Nat :=
  start (.user [0]) (.user 0) u fun _ => .user 0

/-- The values: a clause; the handler outside and the rest of the body; thrown, twice; the body. -/
example : (∃ n s, steps guarded.translate n (guarded.init 0) = some s ∧ s.mode = .returned (.user 105)) ∧
    (∃ n s, steps guarded.translate n (guarded.init 1) = some s ∧ s.mode = .returned (.user 16)) ∧
    (∃ n s, steps guarded.translate n (guarded.init 2) = some s ∧ s.mode = .thrown (.user 5)) ∧
    (∃ n s, steps guarded.translate n (guarded.init 3) = some s ∧ s.mode = .thrown (.user 5)) ∧
    (∃ n s, steps guarded.translate n (guarded.init 4) = some s ∧ s.mode = .returned (.user 5)) :=
  ⟨⟨54, _, rfl, rfl⟩, ⟨112, _, rfl, rfl⟩, ⟨73, _, rfl, rfl⟩, ⟨73, _, rfl, rfl⟩, ⟨50, _, rfl, rfl⟩⟩

theorem guarded_quiet : ReturnsQuietly guarded.translate (.code (.user [6])) := by
  intro s stack
  refine ⟨{ s with mode := .ret (.user 0), stack := stack }, .user 0,
    .one ?_ rfl, rfl, rfl, rfl, rfl⟩
  intro a ha
  injection ha with ha
  rw [← ha]
  rfl

/-- The state after `n` steps. -/
def guarded.after (u n : Nat) : GuardConfig (List Nat) Nat Nat Nat :=
  (calmSteps guarded.translate n (guarded.init u)).getD (guarded.init u)

theorem guarded_run (u : Nat) {n m : Nat} (h : (calmSteps guarded.translate n (guarded.init u)).isSome)
    (h' : calmSteps guarded.translate m (guarded.after u n) = some (guarded.after u (n + m))) :
    CalmRun guarded.translate (guarded.init u) (guarded.after u n) ∧
      CalmRun guarded.translate (guarded.after u n) (guarded.after u (n + m)) := by
  refine ⟨calmRun_of_calmSteps (n := n) ?_, calmRun_of_calmSteps h'⟩
  unfold guarded.after
  obtain ⟨t, ht⟩ := Option.isSome_iff_exists.1 h
  rw [ht]
  rfl

/-- The hypotheses of `C76_catch_partial`, when the state is 1: the `guard` is reached after 5 steps, its body
starts after 10, and the object is raised after 13, inside of one more `dynamic-wind`. -/
example : let s := guarded.after 1 5; let t0 := guarded.after 1 10; let t := guarded.after 1 13
    CalmRun guarded.translate (guarded.init 1) s ∧
    userAction guarded s = some (.guard (fun x k => [5, x, k]) [3] [8]) ∧
    insideAfter s.stack = false ∧ BodyStarts guarded (fun x k => [5, x, k]) [3] [8] s t0 ∧
    CalmRun guarded.translate t0 t ∧ insideAfter t.stack = false ∧
    userAction guarded t = some (.plain (.raiseContinuable 5 [7])) ∧
    t.handlers = guardHandler (fun x k => [5, x, k]) s :: s.handlers ∧
    Tame guarded.translate (lexical t.stack) ∧ Tame guarded.translate (lexical s.stack) ∧
    (lexical t.stack).map Extent.id = [3, 2, 1, 0] ∧ (lexical s.stack).map Extent.id = [1, 0] := by
  have h1 := guarded_run 1 (n := 5) (m := 5) rfl rfl
  have h2 := guarded_run 1 (n := 10) (m := 3) rfl rfl
  have htame : ∀ xs : Extents (GuardCode (List Nat) Nat) Nat,
      (∀ e ∈ xs, (e.before = .code (.user [6]) ∨ ∃ h, e.before = .setHandlers h) ∧
        (e.after = .code (.user [6]) ∨ ∃ h, e.after = .setHandlers h)) →
      Tame guarded.translate xs := by
    intro xs hxs e he
    obtain ⟨h3 | ⟨_, h3⟩, h4 | ⟨_, h4⟩⟩ := hxs e he <;> rw [h3, h4] <;>
      exact ⟨by first | exact guarded_quiet | exact returnsQuietly_setHandlers _ _,
        by first | exact guarded_quiet | exact returnsQuietly_setHandlers _ _⟩
  refine ⟨h1.1, rfl, rfl, ?_, h2.2, rfl, rfl, rfl, htame _ ?_, htame _ ?_, rfl, rfl⟩
  · exact ⟨h1.2, rfl, rfl, rfl, rfl, ⟨_, rfl, returnsQuietly_setHandlers _ _, rfl⟩, ⟨_, rfl⟩, rfl⟩
  · intro e he
    obtain ⟨e0, h0⟩ : ∃ e0, e0 = lexical (guarded.after 1 13).stack := ⟨_, rfl⟩
    rw [← h0] at he
    change e0 = [⟨3, .code (.user [6]), .code (.user [6])⟩, ⟨2, .setHandlers _, .setHandlers _⟩,
      ⟨1, .code (.user [6]), .code (.user [6])⟩, ⟨0, .setHandlers _, .setHandlers _⟩] at h0
    rw [h0] at he
    simp only [List.mem_cons, List.not_mem_nil, or_false] at he
    rcases he with rfl | rfl | rfl | rfl
    · exact ⟨.inl rfl, .inl rfl⟩
    · exact ⟨.inr ⟨_, rfl⟩, .inr ⟨_, rfl⟩⟩
    · exact ⟨.inl rfl, .inl rfl⟩
    · exact ⟨.inr ⟨_, rfl⟩, .inr ⟨_, rfl⟩⟩
  · intro e he
    obtain ⟨e0, h0⟩ : ∃ e0, e0 = lexical (guarded.after 1 5).stack := ⟨_, rfl⟩
    rw [← h0] at he
    change e0 = [⟨1, .code (.user [6]), .code (.user [6])⟩, ⟨0, .setHandlers _, .setHandlers _⟩] at h0
    rw [h0] at he
    simp only [List.mem_cons, List.not_mem_nil, or_false] at he
    rcases he with rfl | rfl
    · exact ⟨.inl rfl, .inl rfl⟩
    · exact ⟨.inr ⟨_, rfl⟩, .inr ⟨_, rfl⟩⟩

/-- C76 fails with a `dynamic-wind` around the `guard`: a body that returns at once leaves and re-enters
it. When the state is 4, between the start of the `guard` (after 5 steps) and its value (39 steps) the
program should only enter and leave the extents of the body (3) and of the handlers (2); it also leaves the
enclosing `dynamic-wind` (1) and the extent around it (0), and enters them again. -/
theorem C76_enclosing_fails :
    userAction guarded (guarded.after 4 5) = some (.guard (fun x k => [5, x, k]) [3] [8]) ∧
    (lexical (guarded.after 4 5).stack).map Extent.id = [1, 0] ∧
    (guarded.after 4 39).mode = .run (.user [8]) (.user 5) ∧
    (guarded.after 4 39).stack = (guarded.after 4 5).stack ∧
    (guarded.after 4 39).log = [.enter 1, .enter 0, .leave 0, .leave 1, .leave 2, .leave 3, .enter 3,
      .enter 2] ++ (guarded.after 4 5).log := ⟨rfl, rfl, rfl, rfl, rfl⟩

/-- And of `C76_reraise_partial`, `C76_reraise_value` and `C76_return_partial`: the clauses start after 41 steps and
reraise, the handler outside is called after 67 steps, returns after 68, and the body returns after 81. -/
example : (guarded.after 1 41).mode = .run (.user [5, 5, 1]) (.user 0) ∧
    userAction guarded (guarded.after 1 41) = some (.reraise 1 5) ∧
    (guarded.after 1 13).conts.length = 1 ∧ insideAfter (guarded.after 1 41).stack = false ∧
    (guarded.after 1 67).mode = .run (.user [9]) (.user 5) ∧
    (guarded.after 1 68).mode = .ret (.user 15) ∧
    (guarded.after 1 68).stack = (guarded.after 1 67).stack ∧
    (guarded.after 1 75).mode = .run (.user [7]) (.user 15) ∧
    (guarded.after 1 75).stack = (guarded.after 1 13).stack ∧
    (guarded.after 1 81).mode = .ret (.user 16) ∧
    (guarded.after 1 81).stack = (guarded.after 1 10).stack ∧
    CalmRun guarded.translate (guarded.after 1 41) (guarded.after 1 68) ∧
    CalmRun guarded.translate (guarded.after 1 10) (guarded.after 1 81) :=
  ⟨rfl, rfl, rfl, rfl, rfl, rfl, rfl, rfl, rfl, rfl, rfl, (guarded_run 1 (n := 41) (m := 27) rfl rfl).2,
    (guarded_run 1 (n := 10) (m := 71) rfl rfl).2⟩

end Meevax.Control
