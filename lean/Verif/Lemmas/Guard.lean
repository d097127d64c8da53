import Verif.Lemmas.ControlJump
import Verif.Model.Guard

/-
What a jump does when the thunks it calls return quietly, as a run through calm states; continuations
are never forgotten.
-/

namespace Meevax.Control

variable {C W S P : Type} [DecidableEq P]

/-- The user's code is not about to capture a continuation, to jump, to fail or to exit. -/
def Quiet (pr : Program C W S P) (s : Config C W S P) : Prop :=
  ∀ a, nextAction pr s = some a → a.escapes = false

theorem Quiet.calm {pr : Program C W S P} {s : Config C W S P} (h : Quiet pr s) : Calm pr s := by
  intro a ha he
  rw [h a ha] at he
  cases he

/-- A thunk that returns, to the stack it was called on, with the dynamic extents it was called in,
leaving no entry or exit in the log, and that never captures a continuation, jumps, fails or exits. -/
def ReturnsQuietly (pr : Program C W S P) (t : Thunk C P) : Prop :=
  ∀ (s : Config C W S P) (stack : Stack C W P), ∃ s' w,
    RunThrough pr (Quiet pr) (callThunk pr t stack s) s' ∧ s'.mode = .ret w ∧ s'.stack = stack ∧
      s'.extents = s.extents ∧ s'.log = s.log

/-- Every thunk of these extents returns quietly. -/
def Tame (pr : Program C W S P) (xs : Extents C P) : Prop :=
  ∀ e ∈ xs, ReturnsQuietly pr e.before ∧ ReturnsQuietly pr e.after

theorem returnsQuietly_setHandlers (pr : Program C W S P) (h : List C) :
    ReturnsQuietly pr (.setHandlers h) :=
  fun _ _ => ⟨_, _, .refl _, rfl, rfl, rfl, rfl⟩

theorem returnsQuietly_setBindings (pr : Program C W S P) (b : List (P × Nat)) :
    ReturnsQuietly pr (.setBindings b) :=
  fun _ _ => ⟨_, _, .refl _, rfl, rfl, rfl, rfl⟩

theorem RunThrough.mono {pr : Program C W S P} {q q' : Config C W S P → Prop} (hq : ∀ x, q x → q' x)
    {s t : Config C W S P} (h : RunThrough pr q s t) : RunThrough pr q' s t := by
  induction h with
  | refl => exact .refl _
  | step _ hx hs ih => exact .step ih (hq _ hx) hs

theorem RunThrough.trans {pr : Program C W S P} {q : Config C W S P → Prop}
    {s t u : Config C W S P} (h : RunThrough pr q s t) (h' : RunThrough pr q t u) :
    RunThrough pr q s u := by
  induction h' with
  | refl => exact h
  | step _ hx hs ih => exact .step ih hx hs

theorem RunThrough.one {pr : Program C W S P} {q : Config C W S P → Prop}
    {s t : Config C W S P} (hq : q s) (h : Control.step pr s = some t) : RunThrough pr q s t :=
  .step (.refl _) hq h

/-- States that do not run the user's code are quiet. -/
theorem quiet_of_mode {pr : Program C W S P} {s : Config C W S P}
    (h : ∀ c w, s.mode ≠ .run c w) : Quiet pr s := by
  intro a ha
  unfold nextAction at ha
  split at ha
  · rename_i c w hm
    exact absurd hm (h c w)
  · cases ha

/-! ## Continuations are never forgotten -/

/-- The continuations of a state are continuations of another. -/
def ContsIn (s s' : Config C W S P) : Prop := s.conts <+: s'.conts

omit [DecidableEq P] in
theorem ContsIn.get {s s' : Config C W S P} (h : ContsIn s s') {k : Nat}
    {x : Stack C W P × Extents C P} (hk : s.conts[k]? = some x) : s'.conts[k]? = some x := by
  obtain ⟨r, hr⟩ := h
  have hlt : k < s.conts.length := by
    rw [List.getElem?_eq_some_iff] at hk
    exact hk.1
  rw [← hr, List.getElem?_append_left hlt, hk]

theorem conts_callThunk (pr : Program C W S P) (t : Thunk C P) (stack : Stack C W P)
    (s : Config C W S P) : (callThunk pr t stack s).conts = s.conts := by
  cases t <;> rfl

theorem conts_callBody (pr : Program C W S P) (b : Body C W) (stack : Stack C W P)
    (s : Config C W S P) : (callBody pr b stack s).conts = s.conts := by
  cases b with
  | thunk => rfl
  | handler c w b => cases b <;> rfl

theorem conts_bindCells (pr : Program C W S P) : ∀ (bs : List (P × W)) (s : Config C W S P),
    (bindCells pr bs s).2.conts = s.conts
  | [], s => rfl
  | (p, w) :: rest, s => by
    simp only [bindCells]
    rw [conts_bindCells pr rest]

theorem conts_raise (pr : Program C W S P) (w : W) (b : Bool) (stack : Stack C W P)
    (s : Config C W S P) : (raise pr w b stack s).conts = s.conts := by
  unfold raise
  split
  · exact conts_callThunk ..
  · rfl

theorem conts_perform (pr : Program C W S P) (s : Config C W S P) (a : Action C W P) :
    s.conts <+: (perform pr s a).conts := by
  cases a with
  | callcc body next => exact ⟨_, rfl⟩
  | jump k w =>
    simp only [perform]
    split <;> exact List.prefix_refl _
  | parameterize bs thunk next =>
    simp only [perform]
    rw [conts_callThunk, conts_bindCells]
    exact List.prefix_refl _
  | raise w => simp only [perform, conts_raise]; exact List.prefix_refl _
  | raiseContinuable w next => simp only [perform, conts_raise]; exact List.prefix_refl _
  | fault w => simp only [perform, conts_raise]; exact List.prefix_refl _
  | _ => exact List.prefix_refl _

theorem conts_returnTo (pr : Program C W S P) (w : W) (s : Config C W S P) :
    (returnTo pr w s).conts = s.conts := by
  unfold returnTo
  split
  any_goals rfl
  · rw [conts_callBody]
  · rw [conts_callThunk]
  · split
    · rw [conts_callThunk]
    · rfl
  · split <;> rfl
  · split <;> rfl

theorem conts_windup (pr : Program C W S P) (a b : Extents C P) (s : Config C W S P) :
    (windup pr a b s).conts = s.conts := by
  unfold windup
  dsimp only
  split
  · rfl
  · split
    · rfl
    · rw [conts_callThunk]
    · rw [conts_callThunk]
    · rfl

theorem conts_step {pr : Program C W S P} {s s' : Config C W S P} (h : step pr s = some s') :
    ContsIn s s' := by
  unfold step at h
  split at h
  · rename_i c w _
    injection h with h
    rw [← h]
    exact conts_perform pr
      { s with user := (pr.step c w s.user fun p => s.cells (cellOf s.bindings p)).1 }
      (pr.step c w s.user fun p => s.cells (cellOf s.bindings p)).2
  · injection h with h
    rw [← h]
    unfold ContsIn
    rw [conts_returnTo]
    exact List.prefix_refl _
  · injection h with h
    rw [← h]
    unfold ContsIn
    rw [conts_windup]
    exact List.prefix_refl _
  all_goals cases h

theorem conts_run {pr : Program C W S P} {q : Config C W S P → Prop} {s s' : Config C W S P}
    (h : RunThrough pr q s s') : ContsIn s s' := by
  induction h with
  | refl => exact List.prefix_refl _
  | step _ _ hs ih => exact List.IsPrefix.trans ih (conts_step hs)

/-! ## `windup!` -/

/-- The relation between the states before and after a `windup!`. -/
structure Rewound (s s' : Config C W S P) (target : Extents C P) (events : List Event) : Prop where
  mode : ∃ w, s'.mode = .ret w
  stack : s'.stack = s.stack
  extents : s'.extents = target
  log : s'.log = events.reverse ++ s.log

theorem rewind_run (pr : Program C W S P) {e : Extent C P} {t : Extents C P}
    {rest : Stack C W P} {s : Config C W S P} {v : W} (hm : s.mode = .ret v)
    (hs : s.stack = .rewinding (e :: t) :: rest) (hb : ReturnsQuietly pr e.before) :
    ∃ s', RunThrough pr (Quiet pr) s s' ∧ (∃ v, s'.mode = .ret v) ∧ s'.stack = rest ∧
      s'.extents = e :: t ∧ s'.log = .enter e.id :: s.log := by
  have h1 : step pr s = some (callThunk pr e.before (.rewound (e :: t) :: rest) s) := by
    simp only [step, hm, returnTo, hs]
  obtain ⟨s1, w, h2, h3, h4, h5, h6⟩ := hb s (.rewound (e :: t) :: rest)
  have h8 : step pr s1 = some { s1 with
      mode := .ret pr.unspecified, stack := rest, extents := e :: t, log := .enter e.id :: s1.log } := by
    simp only [step, h3, returnTo, h4]
  refine ⟨_, ((RunThrough.one (quiet_of_mode (by simp [hm])) h1).trans h2).step
    (quiet_of_mode (by simp [h3])) h8, ⟨_, rfl⟩, rfl, rfl, ?_⟩
  show _ :: s1.log = _
  rw [h6]

theorem windup_run (pr : Program C W S P) : ∀ (m : Nat) (source target : Extents C P)
    (s : Config C W S P), source.length + target.length ≤ m → s.mode = .windup source target →
    (∀ a b, a <:+ source → b <:+ target → (sameCell a b = true ↔ a = b)) →
    (∀ x ∈ source, ReturnsQuietly pr x.after) → (∀ x ∈ target, ReturnsQuietly pr x.before) →
    ∃ s', RunThrough pr (Quiet pr) s s' ∧ Rewound s s' target (windupEvents source target)
  | m, source, target, s, hlen, hm, hsame, hafter, hbefore => by
    have hq : Quiet pr s := quiet_of_mode (by simp [hm])
    by_cases hc : sameCell source target = true
    · have heq := (hsame _ _ (List.suffix_refl _) (List.suffix_refl _)).1 hc
      subst heq
      refine ⟨windup pr source source s, .one hq (by simp only [step, hm]), ?_⟩
      have hw : windup pr source source s =
          { s with mode := .ret pr.unspecified, extents := source } := by
        unfold windup
        simp only [hc, if_true]
      rw [hw]
      refine ⟨⟨_, rfl⟩, rfl, rfl, ?_⟩
      cases source with
      | nil => simp [windupEvents]
      | cons x f => simp [windupEvents]
    · match m, source, target with
      | m, [], [] => exact absurd rfl hc
      | 0, [], _ :: _ => simp at hlen
      | 0, _ :: _, _ => simp at hlen
      | m + 1, [], e :: t =>
        have h1 : step pr s = some { s with
            mode := .windup [] t, extents := [], stack := .rewinding (e :: t) :: s.stack } := by
          simp only [step, hm, windup, if_neg hc]
        obtain ⟨s1, h2, h3⟩ := windup_run pr m [] t
          { s with mode := .windup [] t, extents := [], stack := .rewinding (e :: t) :: s.stack }
          (by simp only [List.length_nil, List.length_cons] at hlen ⊢; omega) rfl
          (fun a b ha hb => hsame a b ha (hb.trans (List.suffix_cons _ _))) (by simp)
          (fun x hx => hbefore x (List.mem_cons_of_mem _ hx))
        obtain ⟨w, hw⟩ := h3.mode
        obtain ⟨s2, h4, h5, h6, h7, h8⟩ := rewind_run pr hw h3.stack
          (hbefore e (List.mem_cons_self ..))
        refine ⟨s2, ((RunThrough.one hq h1).trans h2).trans h4, h5, h6, h7, ?_⟩
        rw [h8, h3.log]
        simp [windupEvents]
      | m + 1, x :: f, [] =>
        have h1 : step pr s = some (callThunk pr x.after (.unwoundLast (x :: f) [] :: s.stack)
            { s with extents := x :: f, log := .leave x.id :: s.log }) := by
          simp only [step, hm, windup, if_neg hc]
        obtain ⟨s1, w, h2, h3, h4, h5, h6⟩ := hafter x (List.mem_cons_self ..)
          { s with extents := x :: f, log := .leave x.id :: s.log } (.unwoundLast (x :: f) [] :: s.stack)
        have h8 : step pr s1 = some { s1 with
            mode := .windup f [], stack := .finish [] :: s.stack } := by
          simp only [step, h3, returnTo, h4, List.tail_cons]
        obtain ⟨s2, h9, h10⟩ := windup_run pr m f []
          { s1 with mode := .windup f [], stack := .finish [] :: s.stack }
          (by simp only [List.length_nil, List.length_cons] at hlen ⊢; omega) rfl
          (fun a b ha hb => hsame a b (ha.trans (List.suffix_cons _ _)) hb)
          (fun x hx => hafter x (List.mem_cons_of_mem _ hx)) (by simp)
        obtain ⟨w', hw'⟩ := h10.mode
        have h11 : step pr s2 = some { s2 with
            mode := .ret pr.unspecified, stack := s.stack, extents := [] } := by
          have := h10.stack
          simp only at this
          simp only [step, hw', returnTo, this]
        refine ⟨_, (((((RunThrough.one hq h1).trans h2).step (quiet_of_mode (by simp [h3])) h8).trans
          h9).step (quiet_of_mode (by simp [hw'])) h11), ⟨_, rfl⟩, rfl, rfl, ?_⟩
        show s2.log = _
        rw [h10.log]
        simp [windupEvents, h6]
      | m + 1, x :: f, e :: t =>
        have h1 : step pr s = some (callThunk pr x.after (.unwound (x :: f) (e :: t) :: s.stack)
            { s with extents := x :: f, log := .leave x.id :: s.log }) := by
          simp only [step, hm, windup, if_neg hc]
        obtain ⟨s1, w, h2, h3, h4, h5, h6⟩ := hafter x (List.mem_cons_self ..)
          { s with extents := x :: f, log := .leave x.id :: s.log } (.unwound (x :: f) (e :: t) :: s.stack)
        have h8 : step pr s1 = some { s1 with
            mode := .windup f t, stack := .rewinding (e :: t) :: s.stack } := by
          simp only [step, h3, returnTo, h4, List.tail_cons]
        obtain ⟨s2, h9, h10⟩ := windup_run pr m f t
          { s1 with mode := .windup f t, stack := .rewinding (e :: t) :: s.stack }
          (by simp only [List.length_cons] at hlen ⊢; omega) rfl
          (fun a b ha hb => hsame a b (ha.trans (List.suffix_cons _ _)) (hb.trans (List.suffix_cons _ _)))
          (fun x hx => hafter x (List.mem_cons_of_mem _ hx))
          (fun x hx => hbefore x (List.mem_cons_of_mem _ hx))
        obtain ⟨w', hw'⟩ := h10.mode
        obtain ⟨s3, h11, h12, h13, h14, h15⟩ := rewind_run pr hw' h10.stack
          (hbefore e (List.mem_cons_self ..))
        refine ⟨s3, ((((RunThrough.one hq h1).trans h2).step (quiet_of_mode (by simp [h3])) h8).trans
          h9).trans h11, h12, h13, h14, ?_⟩
        have hne : x.id ≠ e.id := by
          intro h
          apply hc
          simp only [sameCell, h, beq_self_eq_true]
        rw [h15, h10.log]
        simp [windupEvents, if_neg hne, h6]
  termination_by m => m

/-- A jump in any state a program reaches, when the thunks on its way return quietly: the run goes on
calmly to the continuation. -/
theorem jump_run {pr : Program C W S P} {c : C} {v : W} {u : S} {cells : Cell P → W}
    {s : Config C W S P} (h : CalmRun pr (start c v u cells) s) {k : Nat} {w : W}
    {stack : Stack C W P} {target : Extents C P} (hc : Calm pr s)
    (ha : nextAction pr s = some (.jump k w)) (hk : s.conts[k]? = some (stack, target))
    (hafter : Tame pr (lexical s.stack)) (hbefore : Tame pr target) :
    s.extents = lexical s.stack ∧ lexical stack = target ∧
    ∃ s', CalmRun pr s s' ∧ s'.mode = .ret w ∧ s'.stack = stack ∧ s'.extents = target ∧
      s'.log = (windupEvents (lexical s.stack) target).reverse ++ s.log ∧ ContsIn s s' := by
  obtain ⟨wd, xs, hi⟩ := inv_run h
  have hin := hc _ ha rfl
  have ha' := ha
  unfold nextAction at ha
  split at ha
  · rename_i code x hm
    have hs := hi.shape
    rw [hm] at hs
    cases hs with
    | run hg hl hx hr =>
    have hlex : s.extents = lexical s.stack := by rw [hx, register_eq_lexical hin]
    have hkn : Known wd s.extents := by rw [hlex, ← hl]; exact hi.known
    have hgk := hi.good _ (List.mem_of_getElem? hk)
    refine ⟨hlex, hgk.2.1, ?_⟩
    rw [← hlex] at hafter ⊢
    injection ha with ha
    have h1 : step pr s = some { s with
        user := (pr.step code x s.user fun p => s.cells (cellOf s.bindings p)).1
        mode := .windup s.extents target, stack := .resume k w :: s.stack } := by
      simp only [step, hm, ha, perform, hk]
    obtain ⟨s1, h2, h3⟩ := windup_run pr _ s.extents target
      { s with
        user := (pr.step code x s.user fun p => s.cells (cellOf s.bindings p)).1
        mode := .windup s.extents target, stack := .resume k w :: s.stack } (Nat.le_refl _) rfl
      (fun a b ha hb => sameCell_iff (hkn.suffix ha) (hgk.2.2.2.suffix hb))
      (fun x hx => (hafter x hx).2) (fun x hx => (hbefore x hx).1)
    obtain ⟨w', hw'⟩ := h3.mode
    have hst := h3.stack
    have hrun := (RunThrough.one hc h1).trans (h2.mono fun _ => Quiet.calm)
    have hk' := (conts_run hrun).get hk
    have h4 : step pr s1 = some { s1 with mode := .ret w, stack := stack } := by
      simp only at hst
      simp only [step, hw', returnTo, hst, hk']
    have hrun' := hrun.step (quiet_of_mode (by simp [hw'])).calm h4
    exact ⟨_, hrun', rfl, rfl, h3.extents, h3.log, conts_run hrun'⟩
  · cases ha

end Meevax.Control
