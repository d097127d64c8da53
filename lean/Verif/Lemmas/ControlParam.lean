import Verif.Lemmas.Control

/-
Who changes the values of parameters.
-/

namespace Meevax.Control

variable {C W S P : Type} [DecidableEq P]

/-- A cell that exists. -/
def Old (n : Nat) : Cell P → Prop
  | .global _ => True
  | .bound i => i < n

omit [DecidableEq P] in
theorem Old.mono {n m : Nat} {c : Cell P} (h : Old n c) (hle : n ≤ m) : Old m c := by
  cases c with
  | global => exact trivial
  | bound i => exact Nat.lt_of_lt_of_le h hle

theorem cellOf_old {n : Nat} {bs : List (P × Nat)} (h : ∀ x ∈ bs, x.2 < n) (p : P) :
    Old n (cellOf bs p) := by
  unfold cellOf
  split
  · rename_i b hb
    exact h b (List.mem_of_find?_eq_some hb)
  · trivial

/-- The memory of `y` is that of `x`, and more. -/
structure Keeps (c : Cell P) (x y : Config C W S P) : Prop where
  cells : y.cells c = x.cells c
  fresh : x.fresh ≤ y.fresh

omit [DecidableEq P] in
theorem Keeps.trans {c : Cell P} {x y z : Config C W S P} (h : Keeps c x y) (h' : Keeps c y z) :
    Keeps c x z := ⟨h'.cells.trans h.cells, Nat.le_trans h.fresh h'.fresh⟩

omit [DecidableEq P] in
theorem keeps_callThunk {pr : Program C W S P} {t : Thunk C P} {stack : Stack C W P}
    {c : Cell P} {x s : Config C W S P} (h : Keeps c x s) : Keeps c x (callThunk pr t stack s) := by
  refine h.trans ?_
  cases t <;> exact ⟨rfl, Nat.le_refl _⟩

omit [DecidableEq P] in
theorem keeps_raise {pr : Program C W S P} {v : W} {b : Bool} {stack : Stack C W P}
    {c : Cell P} {x s : Config C W S P} (h : Keeps c x s) : Keeps c x (raise pr v b stack s) := by
  unfold raise
  split
  · exact keeps_callThunk h
  · exact h.trans ⟨rfl, Nat.le_refl _⟩

theorem keeps_step {pr : Program C W S P} {c : Cell P} {s s' : Config C W S P}
    (hstep : step pr s = some s') (hold : Old s.fresh c) (hna : ¬ Assigns pr s c) :
    Keeps c s s' := by
  unfold step at hstep
  split at hstep
  · rename_i code v hm
    simp only [Option.some.injEq] at hstep
    have hnext : nextAction pr s =
        some (pr.step code v s.user fun p => s.cells (cellOf s.bindings p)).2 := by
      simp only [nextAction, hm]
    generalize ha : (pr.step code v s.user fun p => s.cells (cellOf s.bindings p)).2 = a at *
    generalize (pr.step code v s.user fun p => s.cells (cellOf s.bindings p)).1 = u at *
    subst hstep
    cases a with
    | parameterize bs thunk next =>
      obtain ⟨cells, h1, _, h3⟩ := bindCells_spec pr bs { s with user := u }
      simp only [perform]
      refine keeps_callThunk ?_
      rw [h1]
      refine ⟨?_, Nat.le_add_right _ _⟩
      refine h3 c fun i hi hc => ?_
      rw [hc] at hold
      exact Nat.not_lt.2 hi hold
    | assign p w next =>
      refine ⟨?_, Nat.le_refl _⟩
      show (if c = cellOf s.bindings p then _ else s.cells c) = s.cells c
      rw [if_neg]
      intro hc
      exact hna ⟨p, w, next, hnext, hc.symm⟩
    | wind => exact ⟨rfl, Nat.le_refl _⟩
    | handle => exact ⟨rfl, Nat.le_refl _⟩
    | raise v => simp only [perform]; exact keeps_raise ⟨rfl, Nat.le_refl _⟩
    | raiseContinuable v next => simp only [perform]; exact keeps_raise ⟨rfl, Nat.le_refl _⟩
    | fault v => simp only [perform]; exact keeps_raise ⟨rfl, Nat.le_refl _⟩
    | jump k v =>
      simp only [perform]
      split <;> exact ⟨rfl, Nat.le_refl _⟩
    | _ => exact ⟨rfl, Nat.le_refl _⟩
  · cases hstep
    unfold returnTo
    split
    · exact ⟨rfl, Nat.le_refl _⟩
    · exact ⟨rfl, Nat.le_refl _⟩
    · rename_i body _ _ _
      cases body with
      | thunk => exact ⟨rfl, Nat.le_succ _⟩
      | handler _ _ b => cases b <;> exact ⟨rfl, Nat.le_succ _⟩
    · exact keeps_callThunk ⟨rfl, Nat.le_refl _⟩
    · exact ⟨rfl, Nat.le_refl _⟩
    · exact ⟨rfl, Nat.le_refl _⟩
    · exact ⟨rfl, Nat.le_refl _⟩
    · split
      · exact keeps_callThunk ⟨rfl, Nat.le_refl _⟩
      · exact ⟨rfl, Nat.le_refl _⟩
    · split <;> exact ⟨rfl, Nat.le_refl _⟩
    · exact ⟨rfl, Nat.le_refl _⟩
    · split <;> exact ⟨rfl, Nat.le_refl _⟩
    · exact ⟨rfl, Nat.le_refl _⟩
    · exact ⟨rfl, Nat.le_refl _⟩
  · cases hstep
    unfold windup
    simp only
    split
    · exact ⟨rfl, Nat.le_refl _⟩
    · split
      · exact ⟨rfl, Nat.le_refl _⟩
      · exact keeps_callThunk ⟨rfl, Nat.le_refl _⟩
      · exact keeps_callThunk ⟨rfl, Nat.le_refl _⟩
      · exact ⟨rfl, Nat.le_refl _⟩
  all_goals cases hstep

theorem keeps_run {pr : Program C W S P} {q : Config C W S P → Prop} {c : Cell P}
    {s t : Config C W S P} (h : RunThrough pr q s t) (hq : ∀ x, q x → ¬ Assigns pr x c)
    (hold : Old s.fresh c) : Keeps c s t := by
  induction h with
  | refl => exact ⟨rfl, Nat.le_refl _⟩
  | step _ h1 h2 ih =>
    exact ih.trans (keeps_step h2 (hold.mono ih.fresh) (hq _ h1))

/-- What `bindCells` makes: the value of a parameter of the list is the converted value of its first
occurrence. -/
theorem bindCells_value (pr : Program C W S P) : ∀ (bs : List (P × W)) (s : Config C W S P)
    (outer : List (P × Nat)), (∀ x ∈ outer, x.2 < s.fresh) → ∀ p,
    (bindCells pr bs s).2.cells (cellOf ((bindCells pr bs s).1 ++ outer) p) =
      match bs.find? (fun b => b.1 == p) with
      | some b => pr.convert b.1 b.2
      | none => s.cells (cellOf outer p)
  | [], s, outer, _, p => rfl
  | (q, v) :: bs, s, outer, ho, p => by
    have hs' : ∀ x ∈ outer, x.2 < s.fresh + 1 := fun x hx => Nat.lt_succ_of_lt (ho x hx)
    have ih := bindCells_value pr bs { s with
      fresh := s.fresh + 1
      cells := fun c => if c = .bound s.fresh then pr.convert q v else s.cells c } outer hs' p
    obtain ⟨cells, h1, h2, h3⟩ := bindCells_spec pr bs { s with
      fresh := s.fresh + 1
      cells := fun c => if c = .bound s.fresh then pr.convert q v else s.cells c }
    show (bindCells pr bs _).2.cells (cellOf ((q, s.fresh) :: (bindCells pr bs _).1 ++ outer) p) = _
    by_cases hq : q = p
    · subst hq
      have : cellOf ((q, s.fresh) :: (bindCells pr bs { s with
          fresh := s.fresh + 1
          cells := fun c => if c = .bound s.fresh then pr.convert q v else s.cells c }).1 ++ outer) q =
          .bound s.fresh := by
        simp only [cellOf, List.cons_append, List.find?_cons, beq_self_eq_true]
      rw [this, h1]
      simp only [List.find?_cons, beq_self_eq_true]
      rw [h3]
      · simp
      · intro i hi hc
        simp only at hi
        injection hc with hc
        omega
    · have hne : (q == p) = false := by simpa using hq
      have : cellOf ((q, s.fresh) :: (bindCells pr bs { s with
          fresh := s.fresh + 1
          cells := fun c => if c = .bound s.fresh then pr.convert q v else s.cells c }).1 ++ outer) p =
          cellOf ((bindCells pr bs { s with
          fresh := s.fresh + 1
          cells := fun c => if c = .bound s.fresh then pr.convert q v else s.cells c }).1 ++ outer) p := by
        simp only [cellOf, List.cons_append, List.find?_cons, hne]
      rw [this, ih]
      simp only [List.find?_cons, hne]
      cases hf : bs.find? fun b => b.1 == p with
      | some b => rfl
      | none =>
        simp only
        rw [if_neg]
        intro hc
        have := cellOf_old ho p
        rw [hc] at this
        exact Nat.lt_irrefl _ this

end Meevax.Control
