import Verif.Props.FilePort
import Verif.Props.Control

/-
The procedures of Model/FilePort that open and close, on the machine of Model/Control.
-/

namespace Meevax.Control

variable {C W S P : Type} [DecidableEq P]

theorem bindCells_user (pr : Program C W S P) : ∀ (bs : List (P × W)) (s : Config C W S P),
    (bindCells pr bs s).2.user = s.user
  | [], _ => rfl
  | (_, _) :: rest, s => by
    rw [bindCells]
    exact bindCells_user pr rest _

theorem callThunk_user (pr : Program C W S P) (t : Thunk C P) (stack : Stack C W P) (s : Config C W S P) :
    (callThunk pr t stack s).user = s.user := by
  cases t <;> rfl

theorem callBody_user (pr : Program C W S P) (b : Body C W) (stack : Stack C W P) (s : Config C W S P) :
    (callBody pr b stack s).user = s.user := by
  rcases b with c | ⟨c, w, _ | _⟩ <;> rfl

theorem raise_user (pr : Program C W S P) (w : W) (b : Bool) (stack : Stack C W P) (s : Config C W S P) :
    (raise pr w b stack s).user = s.user := by
  unfold raise
  split
  · exact callThunk_user ..
  · rfl

theorem perform_user (pr : Program C W S P) (s : Config C W S P) (a : Action C W P) :
    (perform pr s a).user = s.user := by
  cases a with
  | parameterize bs thunk next =>
    simp only [perform]
    rw [callThunk_user, bindCells_user]
  | jump k w =>
    simp only [perform]
    split <;> rfl
  | handle h t n => exact callThunk_user ..
  | raise w => exact raise_user ..
  | raiseContinuable w n => exact raise_user ..
  | fault w => exact raise_user ..
  | wind b t a n => exact callThunk_user ..
  | _ => rfl

theorem returnTo_user (pr : Program C W S P) (w : W) (s : Config C W S P) : (returnTo pr w s).user = s.user := by
  unfold returnTo
  split
  · rfl
  · rfl
  · exact callBody_user ..
  · exact callThunk_user ..
  · rfl
  · rfl
  · rfl
  · split
    · exact callThunk_user ..
    · rfl
  · split <;> rfl
  · rfl
  · split <;> rfl
  · rfl
  · rfl

theorem windup_user (pr : Program C W S P) (a b : Extents C P) (s : Config C W S P) :
    (windup pr a b s).user = s.user := by
  unfold windup
  simp only
  split
  · rfl
  · split
    · rfl
    · exact callThunk_user ..
    · exact callThunk_user ..
    · rfl

/-- A step changes the user's state by one step of the user's code, or not. -/
theorem step_user {pr : Program C W S P} {s t : Config C W S P} (h : step pr s = some t) :
    t.user = s.user ∨ ∃ c w look, t.user = (pr.step c w s.user look).1 := by
  unfold step at h
  split at h
  · injection h with h
    subst h
    exact .inr ⟨_, _, _, perform_user ..⟩
  · injection h with h; subst h; exact .inl (returnTo_user ..)
  · injection h with h; subst h; exact .inl (windup_user ..)
  · cases h
  · cases h
  · cases h
  · cases h

/-- The entry of `parameterize`, in full. -/
theorem parameterize_enter {pr : Program C W S P} {s : Config C W S P} {code : C} {x : W}
    (hm : s.mode = .run code x) {u : S} {bs : List (P × W)} {thunk next : C}
    (ha : pr.step code x s.user (value s) = (u, .parameterize bs thunk next)) :
    ∃ s' i inner, steps pr 2 s = some s' ∧ s'.mode = .run thunk pr.unspecified ∧
      s'.stack = .body ⟨i, .setBindings inner, .setBindings s.bindings⟩ :: .next next :: s.stack ∧
      s'.user = u ∧ ∀ m, step pr s = some m → ∀ c w, m.mode ≠ .run c w := by
  have hstep : step pr s = some (perform pr { s with user := u } (.parameterize bs thunk next)) := by
    have : (pr.step code x s.user fun p => s.cells (cellOf s.bindings p)) = _ := ha
    simp only [step, hm, this]
  obtain ⟨s1, hs1⟩ : ∃ s1 : Config C W S P, s1 = { s with user := u } := ⟨_, rfl⟩
  rw [← hs1] at hstep
  obtain ⟨s2, hs2⟩ : ∃ s2, s2 = (bindCells pr bs s1).2 := ⟨_, rfl⟩
  have hst : s1.stack = s.stack := by rw [hs1]
  have hb : s1.bindings = s.bindings := by rw [hs1]
  have hu : s2.user = u := by rw [hs2, bindCells_user, hs1]
  refine ⟨callBody pr (.thunk thunk) (.body ⟨s2.fresh, .setBindings ((bindCells pr bs s1).1 ++ s1.bindings),
      .setBindings s1.bindings⟩ :: .next next :: s1.stack) { s2 with
        bindings := (bindCells pr bs s1).1 ++ s1.bindings
        extents := ⟨s2.fresh, .setBindings ((bindCells pr bs s1).1 ++ s1.bindings),
          .setBindings s1.bindings⟩ :: s2.extents
        fresh := s2.fresh + 1
        log := .enter s2.fresh :: s2.log }, s2.fresh, (bindCells pr bs s1).1 ++ s1.bindings, ?_, rfl, ?_, hu, ?_⟩
  · simp only [steps, hstep, Option.bind_some, perform, callThunk, ← hs2]
    simp only [step, returnTo, Option.bind_some]
    rfl
  · rw [← hst, ← hb]; rfl
  · intro m h c w
    rw [hstep] at h
    injection h with h
    subst h
    simp [perform, callThunk]

theorem RunThrough.mono {pr : Program C W S P} {q q' : Config C W S P → Prop} (hq : ∀ x, q x → q' x)
    {s t : Config C W S P} (h : RunThrough pr q s t) : RunThrough pr q' s t := by
  induction h with
  | refl => exact .refl _
  | step _ hx hs ih => exact .step ih (hq _ hx) hs

theorem RunThrough.trans {pr : Program C W S P} {q : Config C W S P → Prop}
    {s t u : Config C W S P} (h : RunThrough pr q s t) (h' : RunThrough pr q t u) : RunThrough pr q s u := by
  induction h' with
  | refl => exact h
  | step _ hx hs ih => exact .step ih hx hs

theorem calm_of_none {pr : Program C W S P} {s : Config C W S P} (h : ∀ c w, s.mode ≠ .run c w) :
    Calm pr s := by
  intro a ha
  unfold nextAction at ha
  split at ha
  · rename_i c w hm; exact absurd hm (h c w)
  · cases ha

theorem calm_of_action {pr : Program C W S P} {s : Config C W S P} {a : Action C W P}
    (h : nextAction pr s = some a) (ha : a.escapes = false) : Calm pr s := by
  intro b hb he
  rw [h] at hb
  injection hb with hb
  rw [← hb, ha] at he
  cases he

end Meevax.Control

namespace Meevax.FilePort
open Meevax.Control
open Meevax.Text (Byte utf8String)

variable {C W S P : Type}

/-! ### What the machine does to the world -/

/-- The port is a file port, open or closed. -/
def IsFile (p : Nat) (w : World) : Prop :=
  ∃ x, w.ports[p]? = some x ∧ (∀ s, x ≠ .inputString s) ∧ ∀ b, x ≠ .outputString b

theorem isFile_exec (pl : Platform) {w : World} {p : Nat} (h : IsFile p w) (op : Op) :
    IsFile p (exec pl w op).2 := by
  obtain ⟨x, hx, h1, h2⟩ := h
  have set : ∀ (d : Disk) (n : Nat) (y : Port),
      (n = p → (∀ s, y ≠ .inputString s) ∧ ∀ b, y ≠ .outputString b) →
      IsFile p { disk := d, ports := w.ports.set n y } := by
    intro d n y hy
    by_cases e : n = p
    · subst e
      exact ⟨y, by show (w.ports.set n y)[n]? = _; rw [List.getElem?_set_self', hx]; rfl, hy rfl⟩
    · exact ⟨x, by show (w.ports.set n y)[p]? = _; rw [List.getElem?_set_ne e, hx], h1, h2⟩
  have add : ∀ (d : Disk) (y : Port), IsFile p { disk := d, ports := w.ports ++ [y] } :=
    fun d y => ⟨x, getElem?_add_left hx, h1, h2⟩
  have same : ∀ d : Disk, IsFile p { disk := d, ports := w.ports } := fun d => ⟨x, hx, h1, h2⟩
  have con : ∀ g n, IsFile p (consume pl g n w).2 := by
    intro g n
    unfold consume
    split
    · exact set _ _ _ fun _ => ⟨by simp [advance], by simp [advance]⟩
    · exact set _ _ _ fun _ => ⟨by simp, by simp⟩
    · rename_i st hn
      refine set _ _ _ fun e => ?_
      subst e
      rw [hx] at hn
      injection hn with hn
      exact absurd hn (h1 _)
    · exact same _
  cases op with
  | openOutput q =>
    show IsFile p (openOutput pl q w).2
    unfold openOutput
    split
    · split
      · exact add _ _
      · exact add _ _
    · exact add _ _
  | openInput q =>
    show IsFile p (openInput q w).2
    unfold openInput
    split
    · exact add _ _
    · exact same _
  | openInputString text => exact add _ _
  | openOutputString => exact add _ _
  | getOutputString n => exact same _
  | put n text =>
    show IsFile p (put pl n text w).2
    unfold put
    split
    · exact set _ _ _ fun _ => ⟨by simp, by simp⟩
    · exact same _
    · rename_i b hn
      refine set _ _ _ fun e => ?_
      subst e
      rw [hx] at hn
      injection hn with hn
      exact absurd hn (h2 _)
    · exact same _
  | flush n =>
    show IsFile p (flush n w).2
    unfold flush
    split
    · exact set _ _ _ fun _ => ⟨by simp, by simp⟩
    · exact same _
    · exact same _
    · exact same _
  | close n =>
    show IsFile p (close n w).2
    unfold close
    split
    · exact set _ _ _ fun _ => ⟨by simp, by simp⟩
    · exact set _ _ _ fun _ => ⟨by simp, by simp⟩
    · exact same _
    · exact same _
  | isOpen n => exact same _
  | readChar n => exact con _ n
  | peekChar n => exact con _ n
  | fileExists q => exact same _
  | deleteFile q =>
    show IsFile p (deleteFile q w).2
    unfold deleteFile
    split
    · exact same _
    · exact same _

theorem isFile_execAll (pl : Platform) {p : Nat} : ∀ (ops : List Op) {w : World}, IsFile p w →
    IsFile p (execAll pl w ops)
  | [], _, h => h
  | op :: ops, _, h => isFile_execAll pl ops (isFile_exec pl h op)

theorem close_result {w : World} {p : Nat} (h : IsFile p w) : (close p w).1 = .unspecified := by
  obtain ⟨x, hx, -, -⟩ := h
  unfold close
  split
  · rfl
  · rfl
  · rfl
  · rename_i hn; rw [hx] at hn; cases hn

/-- The calls made between two states. -/
def Traces (pl : Platform) (u u' : FileState S) : Prop :=
  ∃ ops, u'.world = execAll pl u.world ops ∧ u'.calls = u.calls ++ ops

theorem Traces.trans {pl : Platform} {u u' u'' : FileState S} (h : Traces pl u u') (h' : Traces pl u' u'') :
    Traces pl u u'' := by
  obtain ⟨a, h1, h2⟩ := h
  obtain ⟨b, h3, h4⟩ := h'
  exact ⟨a ++ b, by rw [h3, h1, execAll_append], by rw [h4, h2, List.append_assoc]⟩

theorem perform_traces (pr : FileProgram C W S P) (pl : Platform) (code : FileCode C) (v : W) (u : FileState S)
    (look : P → W) : Traces pl u (pr.perform pl code v u look).1 := by
  have none : ∀ s, Traces pl u { u with user := s } := fun s => ⟨[], rfl, (List.append_nil _).symm⟩
  have one : ∀ s op f, Traces pl u (pr.call pl { u with user := s } op f).1 :=
    fun s op f => ⟨[op], rfl, rfl⟩
  cases code with
  | user c =>
    cases ha : pr.step c v u.user look with
    | mk s a =>
    cases a with
    | plain a => simp only [FileProgram.perform, ha]; exact none s
    | callWithPort n f next => simp only [FileProgram.perform, ha]; exact none s
    | _ => simp only [FileProgram.perform, ha]; exact one s _ _
  | inside o t => exact none u.user
  | closeCurrent o => exact one u.user _ _
  | closePort n next => exact one u.user _ _

variable [DecidableEq P]

theorem run_traces {pr : FileProgram C W S P} {pl : Platform}
    {q : Config (FileCode C) W (FileState S) P → Prop}
    {s t : Config (FileCode C) W (FileState S) P} (h : RunThrough (pr.translate pl) q s t) :
    Traces pl s.user t.user := by
  induction h with
  | refl => exact ⟨[], rfl, (List.append_nil _).symm⟩
  | step _ _ hs ih =>
    rcases step_user hs with e | ⟨c, w, look, e⟩
    · rw [e]; exact ih
    · rw [e]; exact ih.trans (perform_traces pr pl c w _ look)

theorem traces_ops {pl : Platform} {u u' : FileState S} {ops : List Op} (h : Traces pl u u')
    (hc : u'.calls = u.calls ++ ops) : u'.world = execAll pl u.world ops := by
  obtain ⟨a, h1, h2⟩ := h
  rw [h2] at hc
  rw [h1, List.append_cancel_left hc]

/-! ### `with-output-to-file` and `with-input-from-file` -/

/-- What the user's code is about to do. -/
def userAction (pr : FileProgram C W S P) (s : Config (FileCode C) W (FileState S) P) :
    Option (FileAction C W P) :=
  match s.mode with
  | .run (.user c) w => some (pr.step c w s.user.user (value s)).2
  | _ => none

/-- The call that opens the file, and the parameter. -/
def opening (output : Bool) (path : String) : Op := if output then .openOutput path else .openInput path

/-- The call of `with-output-to-file` or `with-input-from-file`. -/
def withFile (output : Bool) (path : String) (thunk next : C) : FileAction C W P :=
  if output then .withOutput path thunk next else .withInput path thunk next

/-- `current-output-port` or `current-input-port`. -/
def currentPort (pr : FileProgram C W S P) (output : Bool) : P := if output then pr.out else pr.inp

theorem with_enter {pr : FileProgram C W S P} {pl : Platform} {c : FileCode C} {v : W} {u : FileState S} {cells : Cell P → W}
    {s : Config (FileCode C) W (FileState S) P} (h : CalmRun (pr.translate pl) (start c v u cells) s)
    {output : Bool} {path : String} {thunk next : C} {n : Nat}
    (ha : userAction pr s = some (withFile output path thunk next))
    (hn : (exec pl s.user.world (opening output path)).1 = .port n) :
    ∃ s1 i inner, RunThrough (pr.translate pl) (Calm (pr.translate pl)) s s1 ∧
      s1.mode = .run (.user thunk) pr.unspecified ∧
      s1.stack = .next (.closeCurrent output) ::
        .body ⟨i, .setBindings inner, .setBindings s.bindings⟩ :: .next (.user next) :: s.stack ∧
      (∀ p, value s1 p = if p = currentPort pr output then pr.ofResult (.port n) else value s p) ∧
      s1.user.world = (exec pl s.user.world (opening output path)).2 ∧
      s1.user.calls = s.user.calls ++ [opening output path] := by
  unfold userAction at ha
  split at ha
  case h_2 => cases ha
  rename_i code x hm
  injection ha with ha
  have hstep : (pr.translate pl).step (.user code) x s.user (value s) =
      ({ user := (pr.step code x s.user.user (value s)).1,
         world := (exec pl s.user.world (opening output path)).2,
         calls := s.user.calls ++ [opening output path] },
        .parameterize [(currentPort pr output, pr.ofResult (.port n))] (.inside output thunk) (.user next)) := by
    show pr.perform pl (.user code) x s.user (value s) = _
    obtain ⟨u', a, ha'⟩ : ∃ u' a, pr.step code x s.user.user (value s) = (u', a) := ⟨_, _, rfl⟩
    rw [ha'] at ha
    simp only at ha
    subst ha
    simp only [FileProgram.perform, ha']
    cases output with
    | false =>
      simp only [opening, Bool.false_eq_true, if_false] at hn
      simp [withFile, FileProgram.call, FileState.exec, opening, currentPort, hn, FileProgram.proceed]
    | true =>
      simp only [opening, if_true] at hn
      simp [withFile, FileProgram.call, FileState.exec, opening, currentPort, hn, FileProgram.proceed]
  obtain ⟨s', i, inner, h1, h2, h3, h4, h5⟩ := parameterize_enter hm hstep
  have hact : nextAction (pr.translate pl) s = some (.parameterize
      [(currentPort pr output, pr.ofResult (.port n))] (.inside output thunk) (.user next)) := by
    unfold nextAction
    rw [hm]
    show some ((pr.translate pl).step (.user code) x s.user (value s)).2 = _
    rw [hstep]
  obtain ⟨s'', e, g1, -, -, g4⟩ := C42_enter _ c v u cells s h _ _ _ hact
  rw [h1] at g1
  injection g1 with g1
  subst g1
  -- the two steps are calm
  have hrun : CalmRun (pr.translate pl) s s' := by
    simp only [steps] at h1
    cases e1 : step (pr.translate pl) s with
    | none => rw [e1] at h1; cases h1
    | some m =>
      rw [e1, Option.bind_some] at h1
      cases e2 : step (pr.translate pl) m with
      | none => rw [e2] at h1; cases h1
      | some m' =>
        rw [e2, Option.bind_some] at h1
        injection h1 with h1
        subst h1
        exact .step (.step (.refl _) (calm_of_action hact rfl) e1) (calm_of_none (h5 _ e1)) e2
  have hst' : step (pr.translate pl) s' = some { s' with
      mode := .run (.user thunk) pr.unspecified
      stack := .next (.closeCurrent output) :: s'.stack } := by
    simp only [step, h2]
    rfl
  refine ⟨_, i, inner, .step hrun (calm_of_action (a := .call (.user thunk) pr.unspecified (.closeCurrent output))
    (by unfold nextAction; rw [h2]; rfl) rfl) hst', rfl, by rw [h3], fun p => ?_, by rw [h4], by rw [h4]⟩
  show value s' p = _
  rw [g4 p]
  by_cases e : p = currentPort pr output
  · subst e
    simp only [List.find?_cons, beq_self_eq_true, if_true]
    show (if _ then _ else _) = _
    rw [if_pos]
    cases output
    · exact .inr rfl
    · exact .inl rfl
  · have : (currentPort pr output == p) = false := by simp [Ne.symm e]
    simp only [List.find?_cons, this, List.find?_nil, if_neg e]

theorem with_exit {pr : FileProgram C W S P} {pl : Platform} {t : Config (FileCode C) W (FileState S) P}
    {output : Bool} {i n : Nat} {inner outer : List (P × Nat)} {next : C}
    {rest : Stack (FileCode C) W P} {v : W} (hm : t.mode = .ret v)
    (hs : t.stack = .next (.closeCurrent output) ::
      .body ⟨i, .setBindings inner, .setBindings outer⟩ :: .next (.user next) :: rest)
    (hf : IsFile n t.user.world)
    (hv : ∀ t1, step (pr.translate pl) t = some t1 → pr.toPort (value t1 (currentPort pr output)) = some n) :
    ∃ t', CalmRun (pr.translate pl) t t' ∧ t'.mode = .run (.user next) v ∧ t'.stack = rest ∧
      t'.bindings = outer ∧ t'.cells = t.cells ∧ t'.user.world = (exec pl t.user.world (.close n)).2 ∧
      t'.user.calls = t.user.calls ++ [.close n] := by
  have e1 : step (pr.translate pl) t = some { t with
      mode := .run (.closeCurrent output) v
      stack := .body ⟨i, .setBindings inner, .setBindings outer⟩ :: .next (.user next) :: rest } := by
    simp only [step, hm, returnTo, hs]
  have hv' := hv _ e1
  obtain ⟨t1, ht1⟩ : ∃ t1 : Config (FileCode C) W (FileState S) P, t1 = { t with
      mode := .run (.closeCurrent output) v
      stack := .body ⟨i, .setBindings inner, .setBindings outer⟩ :: .next (.user next) :: rest } := ⟨_, rfl⟩
  rw [← ht1] at e1 hv'
  have hclose : (exec pl t.user.world (.close n)).1 = .unspecified := close_result hf
  have hstep : (pr.translate pl).step (.closeCurrent output) v t1.user (value t1) =
      ((t.user.exec pl (.close n)).2, .ret v) := by
    show pr.perform pl (.closeCurrent output) v t1.user (value t1) = _
    have hu : t1.user = t.user := by rw [ht1]
    have htar : pr.target t1.user (if output then pr.out else pr.inp) (value t1) none = n := by
      show (pr.toPort (value t1 (currentPort pr output))).getD _ = n
      rw [hv']
      rfl
    simp only [FileProgram.perform, htar, FileProgram.call]
    simp only [hu, FileState.exec, hclose, FileProgram.proceed]
  have hm1 : t1.mode = .run (.closeCurrent output) v := by rw [ht1]
  have e2 : step (pr.translate pl) t1 = some { t1 with
      mode := .ret v, user := (t.user.exec pl (.close n)).2 } := by
    have : ((pr.translate pl).step (.closeCurrent output) v t1.user fun p => t1.cells (cellOf t1.bindings p)) = _ :=
      hstep
    simp only [step, hm1, this, perform]
  have hact : nextAction (pr.translate pl) t1 = some (.ret v) := by
    unfold nextAction
    rw [hm1]
    show some ((pr.translate pl).step (.closeCurrent output) v t1.user (value t1)).2 = _
    rw [hstep]
  have hrun : CalmRun (pr.translate pl) t { t1 with mode := .ret v, user := (t.user.exec pl (.close n)).2 } :=
    .step (.step (.refl _) (calm_of_none (by simp [hm])) e1) (calm_of_action hact rfl) e2
  have hst : t1.stack = .body ⟨i, .setBindings inner, .setBindings outer⟩ :: .next (.user next) :: rest := by
    rw [ht1]
  obtain ⟨t2, ht2⟩ : ∃ t2 : Config (FileCode C) W (FileState S) P, t2 = { t1 with
      mode := .ret v, user := (t.user.exec pl (.close n)).2 } := ⟨_, rfl⟩
  rw [← ht2] at hrun
  have hm2 : t2.mode = .ret v := by rw [ht2]
  have hs2 : t2.stack = .body ⟨i, .setBindings inner, .setBindings outer⟩ :: .next (.user next) :: rest := by
    rw [ht2, hst]
  have e3 : step (pr.translate pl) t2 = some { t2 with
      mode := .ret pr.unspecified
      stack := .result v :: .next (.user next) :: rest
      bindings := outer
      extents := t2.extents.tail
      log := .leave i :: t2.log } := by
    simp only [step, hm2, returnTo, hs2, callThunk]
    rfl
  refine ⟨{ t2 with
      mode := .run (.user next) v
      stack := rest
      bindings := outer
      extents := t2.extents.tail
      log := .leave i :: t2.log },
    .step (.step (.step hrun (calm_of_none (by simp [hm2])) e3) (calm_of_none (by simp)) rfl)
      (calm_of_none (by simp [returnTo])) rfl, rfl, rfl, rfl, ?_, ?_, ?_⟩
  all_goals simp [ht2, ht1, FileState.exec]

/-! ### `call-with-output-file`, `call-with-input-file` and `call-with-port` -/

theorem closePort_exit {pr : FileProgram C W S P} {pl : Platform} {t : Config (FileCode C) W (FileState S) P}
    {n : Nat} {next : C} {rest : Stack (FileCode C) W P} {v : W} (hm : t.mode = .ret v)
    (hs : t.stack = .next (.closePort n next) :: rest) (hn : n < t.user.world.ports.length) :
    steps (pr.translate pl) 2 t = some { t with
      mode := .run (.user next) v
      stack := rest
      user := { t.user with
        world := (exec pl t.user.world (.close n)).2
        calls := t.user.calls ++ [.close n] } } := by
  have hclose : (exec pl t.user.world (.close n)).1 = .unspecified := by
    show (close n t.user.world).1 = _
    unfold close
    split
    · rfl
    · rfl
    · rfl
    · rename_i h; rw [List.getElem?_eq_getElem hn] at h; cases h
  simp only [steps, step, hm, returnTo, hs, Option.bind_some]
  show some (perform _ _ (pr.call pl t.user (.close n) fun _ => .goto (.user next) v).2) = _
  simp only [FileProgram.call, FileState.exec, hclose, FileProgram.proceed, perform]
  simp only [FileProgram.translate, FileProgram.perform, FileProgram.call, FileState.exec]

end Meevax.FilePort
