import Verif.Lemmas.SecdCore

/-! From steps to runs, and from runs to programs. -/

namespace Meevax.Secd

open Scheme

variable {free : Name → Nat}

/-! ### The machine is deterministic -/

theorem Steps.run {Q : Prims} : ∀ {n : Nat} {m m' : State} (k : Nat), Steps Q n m m' →
    Secd.run Q (n + k) m = Secd.run Q k m'
  | 0, m, m', k, h => by cases h; simp
  | n + 1, m, m', k, ⟨m₁, h₁, h₂⟩ => by
    rw [show n + 1 + k = (n + k) + 1 by omega]
    simp only [Secd.run, h₁]
    exact h₂.run k

theorem run_steps {Q : Prims} : ∀ {n : Nat} {m m' : State}, run Q n m = .running m' → Steps Q n m m'
  | 0, m, m', h => by cases h; rfl
  | n + 1, m, m', h => by
    simp only [run] at h
    split at h
    · rename_i m₁ h₁; exact ⟨m₁, h₁, run_steps h⟩
    all_goals cases h

theorem steps_run {Q : Prims} {n : Nat} {m m' : State} (h : Steps Q n m m') :
    run Q n m = .running m' := by
  have := h.run 0
  simpa [run] using this

theorem Steps.split {Q : Prims} : ∀ {n k : Nat} {m m' : State}, Steps Q (n + k) m m' →
    ∃ m₁, Steps Q n m m₁ ∧ Steps Q k m₁ m'
  | 0, k, m, m', h => ⟨m, rfl, by simpa using h⟩
  | n + 1, k, m, m', h => by
    rw [show n + 1 + k = (n + k) + 1 by omega] at h
    obtain ⟨m₁, h₁, h₂⟩ := h
    obtain ⟨m₂, h₃, h₄⟩ := Steps.split h₂
    exact ⟨m₂, ⟨m₁, h₁, h₃⟩, h₄⟩

theorem Steps.det {Q : Prims} : ∀ {n : Nat} {m m' m'' : State}, Steps Q n m m' → Steps Q n m m'' →
    m' = m''
  | 0, _, _, _, h, h' => by cases h; cases h'; rfl
  | n + 1, _, _, _, ⟨m₁, h₁, h₂⟩, ⟨m₂, g₁, g₂⟩ => by
    rw [h₁] at g₁; cases g₁; exact h₂.det g₂

/-- More fuel changes nothing once the run is over. -/
theorem run_mono {Q : Prims} : ∀ {n : Nat} {m : State} {o : Outcome}, run Q n m = o →
    (∀ m', o ≠ .running m') → ∀ k, run Q (n + k) m = o
  | 0, m, o, h, ho, _ => by simp only [run] at h; exact absurd h.symm (ho m)
  | n + 1, m, o, h, ho, k => by
    rw [show n + 1 + k = (n + k) + 1 by omega]
    simp only [run] at h ⊢
    split at h
    · exact run_mono h ho k
    all_goals exact h

theorem run_unique {Q : Prims} {n k : Nat} {m : State} {o o' : Outcome} (h : run Q n m = o)
    (h' : run Q k m = o') (ho : ∀ m', o ≠ .running m') (ho' : ∀ m', o' ≠ .running m') : o = o' := by
  rw [← run_mono h ho k, ← run_mono h' ho' n, Nat.add_comm]

/-! ### Runs -/

theorem spec_run {P : Scheme.Prims} {Q : Prims} (hPQ : PrimsOK free P Q) :
    ∀ {n : Nat} {W : World} {st : Scheme.State} {m : State}, Repr free W st m →
    match Scheme.run free P n st with
    | .running st' => ∃ k W' m', Steps Q k m m' ∧ Repr free W' st' m'
    | .done v σ => ∃ k W' x h, run Q k m = .halt x h ∧ VRel free W' v x ∧ Inv free W' σ h
    | .raise v σ => ∃ k W' x h, run Q k m = .raise x h ∧ VRel free W' v x ∧ Inv free W' σ h
    | .wrong => True
    | .reentered => True
  | 0, W, st, m, hr => ⟨0, W, m, rfl, hr⟩
  | n + 1, W, st, m, hr => by
    have hs := simulation hPQ hr
    simp only [Scheme.run]
    cases hst : Scheme.step free P st with
    | next st₁ =>
      rw [hst] at hs
      obtain ⟨j, W₁, m₁, h₁, h₂, -⟩ := hs
      have ih := spec_run hPQ (n := n) h₂
      dsimp only
      split
      · rename_i o st' heq
        rw [heq] at ih
        obtain ⟨k, W', m', h₃, h₄⟩ := ih
        exact ⟨j + k, W', m', h₁.add h₃, h₄⟩
      · rename_i o v σ heq
        rw [heq] at ih
        obtain ⟨k, W', x, h, h₃, h₄⟩ := ih
        exact ⟨j + k, W', x, h, by rw [h₁.run, h₃], h₄⟩
      · rename_i o v σ heq
        rw [heq] at ih
        obtain ⟨k, W', x, h, h₃, h₄⟩ := ih
        exact ⟨j + k, W', x, h, by rw [h₁.run, h₃], h₄⟩
      · trivial
      · trivial
    | done v σ =>
      rw [hst] at hs
      obtain ⟨j, W₁, m₁, x, h, h₁, h₂, h₃, h₄, -⟩ := hs
      exact ⟨j + 1, W₁, x, h, by rw [h₁.run]; simp [run, h₂], h₃, h₄⟩
    | raise v σ =>
      rw [hst] at hs
      obtain ⟨j, W₁, m₁, x, h, h₁, h₂, h₃, h₄, -⟩ := hs
      exact ⟨j + 1, W₁, x, h, by rw [h₁.run]; simp [run, h₂], h₃, h₄⟩
    | wrong => trivial
    | reentered => trivial

theorem spec_run_next {P : Scheme.Prims} {st st₁ : Scheme.State} (n : Nat)
    (h : Scheme.step free P st = .next st₁) :
    Scheme.run free P (n + 1) st = Scheme.run free P n st₁ := by
  simp only [Scheme.run, h]

/-- When the specification runs on and on, so does the machine. -/
theorem spec_forever {P : Scheme.Prims} {Q : Prims} (hPQ : PrimsOK free P Q) :
    ∀ (k w : Nat) {W : World} {st : Scheme.State} {m : State}, weight st ≤ w → Repr free W st m →
      (∀ n, ∃ st', Scheme.run free P n st = .running st') → ∃ j m', k ≤ j ∧ Steps Q j m m'
  | 0, _, _, _, m, _, _, _ => ⟨0, m, Nat.le_refl _, rfl⟩
  | k + 1, w, W, st, m, hw, hr, hf => by
    have hs := simulation hPQ hr
    cases hst : Scheme.step free P st with
    | next st₁ =>
      rw [hst] at hs
      obtain ⟨j, W₁, m₁, h₁, h₂, h₃, -⟩ := hs
      have hf' : ∀ n, ∃ st', Scheme.run free P n st₁ = .running st' := by
        intro n
        obtain ⟨st', h⟩ := hf (n + 1)
        exact ⟨st', by rw [← h, spec_run_next n hst]⟩
      cases j with
      | zero =>
        have := h₃ rfl
        cases h₁
        cases w with
        | zero => omega
        | succ w => exact spec_forever hPQ (k + 1) w (by omega) h₂ hf'
      | succ j =>
        obtain ⟨i, m', h₄, h₅⟩ := spec_forever hPQ k (weight st₁) (Nat.le_refl _) h₂ hf'
        exact ⟨j + 1 + i, m', by omega, h₁.add h₅⟩
    | done v σ => obtain ⟨st', h⟩ := hf 1; simp [Scheme.run, hst] at h
    | raise v σ => obtain ⟨st', h⟩ := hf 1; simp [Scheme.run, hst] at h
    | wrong => obtain ⟨st', h⟩ := hf 1; simp [Scheme.run, hst] at h
    | reentered => obtain ⟨st', h⟩ := hf 1; simp [Scheme.run, hst] at h

theorem machine_forever {P : Scheme.Prims} {Q : Prims} (hPQ : PrimsOK free P Q) {W : World}
    {st : Scheme.State} {m : State} (hr : Repr free W st m)
    (hf : ∀ n, ∃ st', Scheme.run free P n st = .running st') (k : Nat) :
    ∃ m', run Q k m = .running m' := by
  obtain ⟨j, m', h₁, h₂⟩ := spec_forever hPQ k (weight st) (Nat.le_refl _) hr hf
  obtain ⟨i, rfl⟩ := Nat.exists_eq_add_of_le h₁
  obtain ⟨m₁, h₃, -⟩ := h₂.split
  exact ⟨m₁, steps_run h₃⟩

/-! ### Programs -/

theorem VRel.view {W : World} {p : Pairs} {c : Cells} (hp : PairsInv free W p c) :
    ∀ (n : Nat) {v : Val} {x : Value}, VRel free W v x → Scheme.view p n v = Secd.view c n x
  | 0, _, _, _ => by simp [Scheme.view, Secd.view]
  | n + 1, v, x, h => by
    cases h with
    | datum d => simp [Scheme.view, Secd.view]
    | pair hl =>
      obtain ⟨-, h₁, h₂⟩ := hp.user _ _ hl
      simp only [Scheme.view, Secd.view, h₁.view hp n, h₂.view hp n]
    | prim p => simp [Scheme.view, Secd.view]
    | closure he hb => simp [Scheme.view, Secd.view]
    | cont h => simp [Scheme.view, Secd.view]

theorem initial_inv (g r : Nat → Base) :
    Inv free ⟨fun _ => .free, fun _ => (0, 0), fun _ => none⟩ (Scheme.initial g r)
      (Secd.initial g r) := by
  refine ⟨⟨by simp, by simp, by simp, by simp⟩, by simp, by simp [Scheme.initial], by simp,
    fun i => ?_, fun i => ?_⟩
  · simp only [Scheme.initial, Secd.initial]
    cases g i
    · exact .datum _
    · exact .prim _
  · simp only [Scheme.initial, Secd.initial]
    cases r i
    · exact .datum _
    · exact .prim _

theorem toplevel_repr {W : World} {σ : Store} {h : Heap} (hi : Inv free W σ h) {e : Expr}
    (hp : Placed false e) :
    Repr free W (toplevel e σ) (start (comp free [] e [.stop] false) h) :=
  ⟨hi, [], [.stop], false, .nil, hp, rfl, ⟨by simp, by simp⟩, .halt⟩

theorem behaves_of {P : Scheme.Prims} {Q : Prims} (hPQ : PrimsOK free P Q) {σ : Store}
    {es : List Expr} {outs : List (Nat → Tree)} {x : Ending}
    (hb : Scheme.Behaves free P σ es outs x) : ∀ {W : World} {h : Heap}, Inv free W σ h →
    (∀ e ∈ es, Placed false e) →
    Behaves Q h (es.map fun e => comp free [] e [.stop] false) outs x := by
  induction hb with
  | nil σ => exact fun _ _ => .nil _
  | cons n hr _ ih =>
    intro W h hi hp
    have := spec_run hPQ (n := n) (toplevel_repr hi (hp _ (List.mem_cons_self ..)))
    rw [hr] at this
    obtain ⟨k, W', y, h', h₁, h₂, h₃⟩ := this
    have hv : (fun n => Scheme.view _ n _) = fun n => Secd.view h'.cells n y :=
      funext fun n => h₂.view h₃.pairs n
    rw [hv]
    exact .cons k h₁ (ih h₃ fun e he => hp e (by simp [he]))
  | raise n hr =>
    intro W h hi hp
    have := spec_run hPQ (n := n) (toplevel_repr hi (hp _ (List.mem_cons_self ..)))
    rw [hr] at this
    obtain ⟨k, W', y, h', h₁, h₂, h₃⟩ := this
    have hv : (fun n => Scheme.view _ n _) = fun n => Secd.view h'.cells n y :=
      funext fun n => h₂.view h₃.pairs n
    rw [hv]
    exact .raise k h₁
  | forever hf =>
    intro W h hi hp
    exact .forever (machine_forever hPQ (toplevel_repr hi (hp _ (by simp))) hf)

/-- A program has a behaviour or is faulty. -/
theorem behaves_or_faulty (P : Scheme.Prims) : ∀ (es : List Expr) (σ : Store),
    (∃ outs x, Scheme.Behaves free P σ es outs x) ∨ Scheme.Faulty free P σ es
  | [], σ => .inl ⟨_, _, .nil σ⟩
  | e :: es, σ => by
    by_cases h : ∀ n, ∃ st, Scheme.run free P n (toplevel e σ) = .running st
    · exact .inl ⟨_, _, .forever h⟩
    · obtain ⟨n, hn⟩ := Classical.not_forall.1 h
      cases ho : Scheme.run free P n (toplevel e σ) with
      | running st => exact absurd ⟨st, ho⟩ hn
      | done v σ' =>
        rcases behaves_or_faulty P es σ' with ⟨outs, x, h⟩ | h
        · exact .inl ⟨_, _, .cons n ho h⟩
        · exact .inr (.later n ho h)
      | raise v σ' => exact .inl ⟨_, _, .raise n ho⟩
      | wrong => exact .inr (.here n (.inl ho))
      | reentered => exact .inr (.here n (.inr ho))

theorem Behaves.det {Q : Prims} {h : Heap} {cs : List Code} {outs outs' : List (Nat → Tree)}
    {x x' : Ending} (hb : Behaves Q h cs outs x) (hb' : Behaves Q h cs outs' x') :
    outs = outs' ∧ x = x' := by
  induction hb generalizing outs' x' with
  | nil h => cases hb'; exact ⟨rfl, rfl⟩
  | cons n hr _ ih =>
    cases hb' with
    | cons n' hr' ht' =>
      have := run_unique hr hr' (by simp) (by simp)
      cases this
      obtain ⟨h₁, h₂⟩ := ih ht'
      exact ⟨by rw [h₁], h₂⟩
    | raise n' hr' => have := run_unique hr hr' (by simp) (by simp); cases this
    | forever hr' => obtain ⟨st, h⟩ := hr' n; rw [hr] at h; cases h
  | raise n hr =>
    cases hb' with
    | cons n' hr' ht' => have := run_unique hr hr' (by simp) (by simp); cases this
    | raise n' hr' =>
      have := run_unique hr hr' (by simp) (by simp)
      cases this; exact ⟨rfl, rfl⟩
    | forever hr' => obtain ⟨st, h⟩ := hr' n; rw [hr] at h; cases h
  | forever hr =>
    cases hb' with
    | cons n' hr' ht' => obtain ⟨st, h⟩ := hr n'; rw [hr'] at h; cases h
    | raise n' hr' => obtain ⟨st, h⟩ := hr n'; rw [hr'] at h; cases h
    | forever hr' => exact ⟨rfl, rfl⟩

/-! ### The control stack -/

/-- A continuation accounts for the frames of the dump. -/
theorem KRel.frames {W : World} {κ : Kont} {s : List Value} {e : Value} {c : Code} {d : Dump}
    (h : KRel free W κ s e c d) :
    d.frames ≤ κ.depth + 1 ∧ (c ≠ [.ret] → d.frames ≤ κ.depth) := by
  induction h with
  | halt => simp [Dump.frames]
  | ret e' hc h ih =>
    have := ih.2 hc
    exact ⟨by simp only [Dump.frames]; omega, fun h => absurd rfl h⟩
  | join hc h ih => exact ⟨by simpa [Dump.frames] using ih.1, fun _ => by simpa [Dump.frames] using ih.2 hc⟩
  | _ => rename_i ih; simp only [Kont.depth]; exact ⟨by omega, fun _ => ih.1⟩

theorem Repr.frames {W : World} {st : Scheme.State} {m : State} (h : Repr free W st m) :
    m.d.frames ≤ st.κ.depth + 1 := by
  obtain ⟨ctl, κ, σ⟩ := st
  obtain ⟨hi, h⟩ := h
  cases ctl with
  | eval e ρ => obtain ⟨sc, k, tail, -, -, -, -, hk⟩ := h; exact hk.frames.1
  | value v => obtain ⟨x, s, -, -, hk⟩ := h; exact hk.frames.1

/-- Every state of the machine is between states that represent states of the specification. -/
theorem frames_bound {P : Scheme.Prims} {Q : Prims} (hPQ : PrimsOK free P Q) :
    ∀ (k w : Nat) {W : World} {st : Scheme.State} {m m' : State}, weight st ≤ w → Repr free W st m →
      (∀ n, Scheme.run free P n st ≠ .wrong ∧ Scheme.run free P n st ≠ .reentered) →
      Steps Q k m m' →
      ∃ n st', Scheme.run free P n st = .running st' ∧ m'.d.frames ≤ st'.κ.depth + 1
  | k, w, W, st, m, m', hw, hr, hf, hst => by
    have h0 : ∃ n st', Scheme.run free P n st = .running st' ∧ m.d.frames ≤ st'.κ.depth + 1 :=
      ⟨0, st, rfl, hr.frames⟩
    have hs := simulation hPQ hr
    cases hstep : Scheme.step free P st with
    | next st₁ =>
      rw [hstep] at hs
      obtain ⟨j, W₁, m₁, h₁, h₂, h₃, h₄⟩ := hs
      by_cases hjk : k ≤ j
      · have := h₄ k m' hjk hst
        by_cases hmax : m'.d.frames ≤ m.d.frames
        · exact ⟨0, st, rfl, by have := hr.frames; omega⟩
        · exact ⟨1, st₁, by simp [Scheme.run, hstep], by have := h₂.frames; omega⟩
      · obtain ⟨i, rfl⟩ := Nat.exists_eq_add_of_le (show j ≤ k by omega)
        obtain ⟨m₂, g₁, g₂⟩ := hst.split
        cases g₁.det h₁
        have hf' : ∀ n, Scheme.run free P n st₁ ≠ .wrong ∧ Scheme.run free P n st₁ ≠ .reentered := by
          intro n
          rw [← spec_run_next n hstep]
          exact hf (n + 1)
        have hrec : ∃ n st', Scheme.run free P n st₁ = .running st' ∧
            m'.d.frames ≤ st'.κ.depth + 1 := by
          cases j with
          | zero =>
            have := h₃ rfl
            cases w with
            | zero => omega
            | succ w => exact frames_bound hPQ i w (by omega) h₂ hf' g₂
          | succ j => exact frames_bound hPQ i (weight st₁) (Nat.le_refl _) h₂ hf' g₂
        obtain ⟨n, st', h₅, h₆⟩ := hrec
        exact ⟨n + 1, st', by rw [spec_run_next n hstep, h₅], h₆⟩
    | done v σ =>
      rw [hstep] at hs
      obtain ⟨j, W₁, m₁, x, h, h₁, h₂, -, -, h₄⟩ := hs
      have hjk : k ≤ j := by
        by_contra hlt
        obtain ⟨i, rfl⟩ := Nat.exists_eq_add_of_le (show j + 1 ≤ k by omega)
        rw [Nat.add_assoc] at hst
        obtain ⟨m₂, g₁, g₂⟩ := hst.split
        cases g₁.det h₁
        rw [Nat.add_comm] at g₂
        obtain ⟨m₃, g₃, -⟩ := g₂
        rw [h₂] at g₃; cases g₃
      have := h₄ k m' hjk hst
      exact ⟨0, st, rfl, by have := hr.frames; omega⟩
    | raise v σ =>
      rw [hstep] at hs
      obtain ⟨j, W₁, m₁, x, h, h₁, h₂, -, -, h₄⟩ := hs
      have hjk : k ≤ j := by
        by_contra hlt
        obtain ⟨i, rfl⟩ := Nat.exists_eq_add_of_le (show j + 1 ≤ k by omega)
        rw [Nat.add_assoc] at hst
        obtain ⟨m₂, g₁, g₂⟩ := hst.split
        cases g₁.det h₁
        rw [Nat.add_comm] at g₂
        obtain ⟨m₃, g₃, -⟩ := g₂
        rw [h₂] at g₃; cases g₃
      have := h₄ k m' hjk hst
      exact ⟨0, st, rfl, by have := hr.frames; omega⟩
    | wrong => exact absurd (by simp [Scheme.run, hstep]) (hf 1).1
    | reentered => exact absurd (by simp [Scheme.run, hstep]) (hf 1).2
  termination_by k w => (k, w)
  decreasing_by all_goals simp_wf; first | (apply Prod.Lex.left; omega) | (subst_vars; simp [Prod.lex_def]; try omega)

/-! ### Whole programs -/

theorem Behaves.not_stuck {Q : Prims} {h : Heap} {cs : List Code} {outs : List (Nat → Tree)}
    {x : Ending} (hb : Behaves Q h cs outs x) : ¬ Stuck Q h cs := by
  induction hb with
  | nil h => intro hs; cases hs
  | cons n hr _ ih =>
    intro hs
    cases hs with
    | here n' hr' => have := run_unique hr hr' (by simp) (by simp); cases this
    | later n' hr' ht =>
      have := run_unique hr hr' (by simp) (by simp)
      cases this
      exact ih ht
  | raise n hr =>
    intro hs
    cases hs with
    | here n' hr' => have := run_unique hr hr' (by simp) (by simp); cases this
    | later n' hr' ht => have := run_unique hr hr' (by simp) (by simp); cases this
  | forever hr =>
    intro hs
    cases hs with
    | here n' hr' => obtain ⟨st, h⟩ := hr n'; rw [hr'] at h; cases h
    | later n' hr' ht => obtain ⟨st, h⟩ := hr n'; rw [hr'] at h; cases h

theorem spec_run_mono {P : Scheme.Prims} : ∀ {n : Nat} {st : Scheme.State} {o : Scheme.Outcome},
    Scheme.run free P n st = o → (∀ st', o ≠ .running st') → ∀ k, Scheme.run free P (n + k) st = o
  | 0, st, o, h, ho, _ => by simp only [Scheme.run] at h; exact absurd h.symm (ho st)
  | n + 1, st, o, h, ho, k => by
    rw [show n + 1 + k = (n + k) + 1 by omega]
    simp only [Scheme.run] at h ⊢
    split at h
    · exact spec_run_mono h ho k
    all_goals exact h

theorem spec_run_unique {P : Scheme.Prims} {n k : Nat} {st : Scheme.State} {o o' : Scheme.Outcome}
    (h : Scheme.run free P n st = o) (h' : Scheme.run free P k st = o')
    (ho : ∀ st', o ≠ .running st') (ho' : ∀ st', o' ≠ .running st') : o = o' := by
  rw [← spec_run_mono h ho k, ← spec_run_mono h' ho' n, Nat.add_comm]

theorem behaves_not_faulty {P : Scheme.Prims} {σ : Store} {es : List Expr}
    {outs : List (Nat → Tree)} {x : Ending} (hb : Scheme.Behaves free P σ es outs x) :
    ¬ Scheme.Faulty free P σ es := by
  induction hb with
  | nil h => intro hs; cases hs
  | cons n hr _ ih =>
    intro hs
    cases hs with
    | here n' hr' =>
      rcases hr' with hr' | hr' <;>
        (have := spec_run_unique hr hr' (by simp) (by simp); cases this)
    | later n' hr' ht =>
      have := spec_run_unique hr hr' (by simp) (by simp)
      cases this
      exact ih ht
  | raise n hr =>
    intro hs
    cases hs with
    | here n' hr' =>
      rcases hr' with hr' | hr' <;>
        (have := spec_run_unique hr hr' (by simp) (by simp); cases this)
    | later n' hr' ht => have := spec_run_unique hr hr' (by simp) (by simp); cases this
  | forever hr =>
    intro hs
    cases hs with
    | here n' hr' =>
      obtain ⟨st, h⟩ := hr n'
      rcases hr' with hr' | hr' <;> (rw [hr'] at h; cases h)
    | later n' hr' ht => obtain ⟨st, h⟩ := hr n'; rw [hr'] at h; cases h

theorem reaches_bound {P : Scheme.Prims} {Q : Prims} (hPQ : PrimsOK free P Q) {h : Heap}
    {cs : List Code} {m : State} (hm : Reaches Q h cs m) : ∀ {W : World} {σ : Store} {es : List Expr},
    cs = es.map (fun e => comp free [] e [.stop] false) → Inv free W σ h →
    (∀ e ∈ es, Placed false e) → ¬ Scheme.Faulty free P σ es →
    ∃ st, Scheme.Reaches free P σ es st ∧ m.d.frames ≤ st.κ.depth + 1 := by
  induction hm with
  | here n hr =>
    intro W σ es hcs hi hp hf
    cases es with
    | nil => cases hcs
    | cons e es =>
      cases hcs
      have hrep := toplevel_repr (free := free) hi (hp e (List.mem_cons_self ..))
      obtain ⟨k, st, h₁, h₂⟩ := frames_bound hPQ n _ (Nat.le_refl _) hrep
        (fun i => ⟨fun h => hf (.here i (.inl h)), fun h => hf (.here i (.inr h))⟩) (run_steps hr)
      exact ⟨st, .here k h₁, h₂⟩
  | later n hr ht ih =>
    intro W σ es hcs hi hp hf
    cases es with
    | nil => cases hcs
    | cons e es =>
      cases hcs
      have hrep := toplevel_repr (free := free) hi (hp e (List.mem_cons_self ..))
      by_cases hforever : ∀ i, ∃ st, Scheme.run free P i (toplevel e σ) = .running st
      · obtain ⟨m', h⟩ := machine_forever hPQ hrep hforever n
        rw [hr] at h; cases h
      · obtain ⟨i, hn⟩ := Classical.not_forall.1 hforever
        have hs := spec_run hPQ (n := i) hrep
        cases ho : Scheme.run free P i (toplevel e σ) with
        | running st => exact absurd ⟨st, ho⟩ hn
        | done v σ' =>
          rw [ho] at hs
          obtain ⟨k, W', y, h', h₁, h₂, h₃⟩ := hs
          have := run_unique hr h₁ (by simp) (by simp)
          cases this
          obtain ⟨st, h₄, h₅⟩ := ih rfl h₃ (fun e he => hp e (by simp [he]))
            (fun hl => hf (.later i ho hl))
          exact ⟨st, .later i ho h₄, h₅⟩
        | raise v σ' =>
          rw [ho] at hs
          obtain ⟨k, W', y, h', h₁, h₂, h₃⟩ := hs
          have := run_unique hr h₁ (by simp) (by simp)
          cases this
        | wrong => exact absurd (.here i (.inl ho)) hf
        | reentered => exact absurd (.here i (.inr ho)) hf

end Meevax.Secd
