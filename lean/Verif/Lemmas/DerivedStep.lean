import Verif.Lemmas.DerivedStore

/-! One step of a program with derived expression types is one or more steps of its translation. -/

namespace Meevax.Surface

open Secd (Name Form)

/-- The outcome of a step in the translation, at least `m` and at most `M` steps from `st'`. -/
def Sim (free : Name → Nat) (P' : Scheme.Prims) (t r : Name) (m M : Nat) (x : Result) (st' : Scheme.State) : Prop :=
  match x with
  | .next st => ∃ n st₁, (m ≤ n ∧ n ≤ M) ∧ (∀ k, Scheme.run free P' (n + k) st' = Scheme.run free P' k st₁) ∧ StRel t r st st₁
  | .done v σ => ∃ n v' σ' μ, n ≤ M ∧ Scheme.run free P' n st' = .done v' σ' ∧ VRel t r μ σ.nvars v v' ∧
      SRel t r μ σ σ' []
  | .raise v σ => ∃ n v' σ' μ, n ≤ M ∧ Scheme.run free P' n st' = .raise v' σ' ∧ VRel t r μ σ.nvars v v' ∧
      PRel t r μ σ.nvars σ.pairs σ'.pairs
  | .wrong => ∃ n, n ≤ M ∧ Scheme.run free P' n st' = .wrong

variable {free : Name → Nat} {P : Prims} {P' : Scheme.Prims} {t r : Name}

theorem Sim.step {m M : Nat} {x : Result} {st st₁ : Scheme.State} (hs : Scheme.step free P' st = .next st₁)
    (h : Sim free P' t r m M x st₁) : Sim free P' t r (m + 1) (M + 1) x st := by
  have hrun : ∀ k, Scheme.run free P' (k + 1) st = Scheme.run free P' k st₁ := fun k => by
    simp [Scheme.run, hs]
  cases x with
  | next s =>
    obtain ⟨n, st₂, h₁, h₂, h₃⟩ := h
    exact ⟨n + 1, st₂, by omega, fun k => by rw [← h₂, ← hrun]; congr 1; omega, h₃⟩
  | done v σ =>
    obtain ⟨n, v', σ', μ, hn, h₁, h₂⟩ := h
    exact ⟨n + 1, v', σ', μ, by omega, by rw [hrun, h₁], h₂⟩
  | raise v σ =>
    obtain ⟨n, v', σ', μ, hn, h₁, h₂⟩ := h
    exact ⟨n + 1, v', σ', μ, by omega, by rw [hrun, h₁], h₂⟩
  | wrong =>
    obtain ⟨n, hn, h⟩ := h
    exact ⟨n + 1, by omega, by rw [hrun, h]⟩

theorem Sim.weaken {m m' M M' : Nat} {x : Result} {st : Scheme.State} (h : Sim free P' t r m M x st) (hm : m' ≤ m)
    (hM : M ≤ M') : Sim free P' t r m' M' x st := by
  cases x with
  | next s =>
    obtain ⟨n, st₂, h₁, h₂, h₃⟩ := h
    exact ⟨n, st₂, by omega, h₂, h₃⟩
  | done v σ =>
    obtain ⟨n, v', σ', μ, hn, h⟩ := h
    exact ⟨n, v', σ', μ, by omega, h⟩
  | raise v σ =>
    obtain ⟨n, v', σ', μ, hn, h⟩ := h
    exact ⟨n, v', σ', μ, by omega, h⟩
  | wrong =>
    obtain ⟨n, hn, h⟩ := h
    exact ⟨n, by omega, h⟩

theorem Sim.first {M : Nat} {x : Result} {st st₁ : Scheme.State} (hs : Scheme.step free P' st = .next st₁)
    (h : Sim free P' t r 0 M x st₁) : Sim free P' t r 1 (M + 1) x st := (h.step hs).weaken (by omega) (by omega)

theorem Sim.zero {M : Nat} {x : Result} {st st₁ : Scheme.State} (hs : Scheme.step free P' st = .next st₁)
    (h : Sim free P' t r 0 M x st₁) : Sim free P' t r 0 (M + 1) x st := (h.step hs).weaken (by omega) (by omega)

theorem Sim.refl {M : Nat} {st : State} {st' : Scheme.State} (h : StRel t r st st') :
    Sim free P' t r 0 M (.next st) st' := ⟨0, st', by omega, fun k => by simp, h⟩

theorem step_arg {v : Scheme.Val} {id : Nat} {todo : List Scheme.Expr} {vs : List Scheme.Val}
    {f : Scheme.Expr} {ρ : Scheme.Env} {κ : Scheme.Kont} {σ : Scheme.Store} (h : σ.pending id = true) :
    Scheme.step free P' ⟨.value v, .arg id todo vs f ρ κ, σ⟩ =
      .next (Scheme.operands todo (v :: vs) f ρ κ (σ.redeem id)) := by
  simp [Scheme.step, h]

theorem step_fn {v : Scheme.Val} {id : Nat} {vs : List Scheme.Val}
    {κ : Scheme.Kont} {σ : Scheme.Store} (h : σ.pending id = true) :
    Scheme.step free P' ⟨.value v, .fn id vs κ, σ⟩ = Scheme.apply P' v vs κ (σ.redeem id) := by
  simp [Scheme.step, h]

theorem step_init {v : Scheme.Val} {id : Nat} {todo : List Scheme.Expr} {vs : List Scheme.Val}
    {locs : List Nat} {body : Scheme.Expr} {ρ : Scheme.Env} {κ : Scheme.Kont} {σ : Scheme.Store}
    (h : σ.pending id = true) :
    Scheme.step free P' ⟨.value v, .init id todo vs locs body ρ κ, σ⟩ =
      .next (Scheme.inits todo (v :: vs) locs body ρ κ (σ.redeem id)) := by
  simp [Scheme.step, h]

section

variable {M : Nat} {μ : Nat → Nat} {H : Name → Prop} {ρ : Env} {ρ' : Scheme.Env} {κ : Kont} {κ' : Scheme.Kont}
  {σ : Store} {σ' : Scheme.Store} {is : List Nat} {ps : List (Nat × Scheme.Val)}

theorem operands_sim {todo : List Expr} {vs : List Val} {vs' : List Scheme.Val} {f : Expr} (ht : H t)
    (hr : H r) (hρ : EnvRel μ σ.nvars H ρ ρ') (ha : Avoid todo H) (hf : f.Avoids H)
    (hv : List.Forall₂ (VRel t r μ σ.nvars) vs vs') (hκ : KRel t r μ σ.nvars κ κ' is ps)
    (hσ : SRel t r μ σ σ' ps) (hi : Scheme.Tickets σ' is) :
    Sim free P' t r 0 M (.next (operands todo vs f ρ κ σ))
      (Scheme.operands (cores t r todo) vs' (f.core t r) ρ' κ' σ') := by
  cases todo with
  | nil => exact .refl (.eval ht hr hρ hf (.fn _ hv hκ) hσ.issue hi.issue)
  | cons a todo => exact .refl (.eval ht hr hρ ha.1 (.arg _ ht hr hρ ha.2 hf hv hκ) hσ.issue hi.issue)

theorem inits_sim {todo : List Expr} {vs : List Val} {vs' : List Scheme.Val} {locs : List Nat}
    {body : Expr} (ht : H t)
    (hr : H r) (hρ : EnvRel μ σ.nvars H ρ ρ') (ha : Avoid todo H) (hl : ∀ l ∈ locs, l < σ.nvars)
    (hb : body.Avoids H)
    (hv : List.Forall₂ (VRel t r μ σ.nvars) vs vs') (hκ : KRel t r μ σ.nvars κ κ' is ps)
    (hσ : SRel t r μ σ σ' ps) (hi : Scheme.Tickets σ' is) :
    Sim free P' t r 0 M (.next (inits todo vs locs body ρ κ σ))
      (Scheme.inits (cores t r todo) vs' (locs.map μ) (body.core t r) ρ' κ' σ') := by
  cases todo with
  | nil =>
    have hn := assign_nvars locs vs σ
    have htk := Scheme.Store.assign_tickets (locs.map μ) vs' σ'
    exact .refl (.eval (μ := μ) ht hr (by rw [hn]; exact hρ) hb (by rw [hn]; exact hκ) (hσ.assign hl hv)
      (hi.same htk.1 htk.2))
  | cons a todo => exact .refl (.eval ht hr hρ ha.1 (.init _ ht hr hρ ha.2 hl hb hv hκ) hσ.issue hi.issue)

theorem some_rel {μ : Nat → Nat} {nx : Nat} {vs : List Val} {vs' : List Scheme.Val}
    (hv : List.Forall₂ (VRel t r μ nx) vs vs') :
    List.Forall₂ (Option.Rel (VRel t r μ nx)) (vs.map some) (vs'.map some) := by
  induction hv with
  | nil => exact .nil
  | cons h _ ih => exact .cons (.some h) ih

/-- The new world of a call: stores, environments, tickets. -/
theorem call_rel {vs : List Val} {vs' : List Scheme.Val} {xs : List Name} {rest : Option Name}
    {qs : List (Nat × Scheme.Val)}     (hρ : EnvRel μ σ.nvars H ρ ρ')
    (hv : List.Forall₂ (VRel t r μ σ.nvars) vs vs') (hκ : KRel t r μ σ.nvars κ κ' is qs)
    (hσ : SRel t r μ σ σ' ps) (hi : Scheme.Tickets σ' is) :
    ∃ μ', Ext μ μ' σ.nvars (σ.bind (vs.map some)).2.nvars ∧
      EnvRel μ' (σ.bind (vs.map some)).2.nvars H (bindings xs rest (σ.bind (vs.map some)).1 ++ ρ)
        (Scheme.bindings xs rest (σ'.bind (vs'.map some)).1 ++ ρ') ∧
      KRel t r μ' (σ.bind (vs.map some)).2.nvars κ κ' is qs ∧
      SRel t r μ' (σ.bind (vs.map some)).2 (σ'.bind (vs'.map some)).2 ps ∧
      Scheme.Tickets (σ'.bind (vs'.map some)).2 is := by
  have he : Ext μ (grow μ σ.nvars σ'.nvars) σ.nvars (σ.bind (vs.map some)).2.nvars := by
    simpa [Store.bind] using ext_grow μ σ.nvars σ'.nvars vs.length
  refine ⟨grow μ σ.nvars σ'.nvars, he, ?_, hκ.mono he, hσ.bind (some_rel ?_), hi.same rfl rfl⟩
  · have e : (σ'.bind (vs'.map some)).1 = ((σ.bind (vs.map some)).1).map (grow μ σ.nvars σ'.nvars) := by
      simp only [Scheme.Store.bind, Store.bind, List.length_map, ← hv.length_eq]
      exact bind_locs _ _ _ _
    rw [e]
    refine (hρ.mono he).bind _ ?_
    intro l hl
    simp only [Store.bind, List.mem_range'_1] at hl ⊢
    omega
  · exact vrels_mono hv (by simpa [Store.bind] using he)

theorem apply_sim (hP : PrimRel t r P P') {f : Val} {f' : Scheme.Val} {vs : List Val}
    {vs' : List Scheme.Val} (hf : VRel t r μ σ.nvars f f')
    (hv : List.Forall₂ (VRel t r μ σ.nvars) vs vs') (hκ : KRel t r μ σ.nvars κ κ' is ps)
    (hσ : SRel t r μ σ σ' ps) (hi : Scheme.Tickets σ' is) {st : Scheme.State}
    (hs : Scheme.step free P' st = Scheme.apply P' f' vs' κ' σ') :
    Sim free P' t r 1 (M + 1) (apply P f vs κ σ) st := by
  have hlen := hv.length_eq
  have raise : ∀ {v : Val} {v' : Scheme.Val}, VRel t r μ σ.nvars v v' →
      Scheme.step free P' st = .raise v' σ' → Sim free P' t r 1 (M + 1) (.raise v σ) st := fun hv h =>
    ⟨1, _, _, μ, by omega, by simp [Scheme.run, h], hv, hσ.pairs⟩
  have wrong : Scheme.step free P' st = .wrong → Sim free P' t r 1 (M + 1) .wrong st := fun h =>
    ⟨1, by omega, by simp [Scheme.run, h]⟩
  cases hf with
  | datum d => exact raise (.datum d) hs
  | pair l => exact raise (.pair l) hs
  | prim p =>
    simp only [apply, Scheme.apply] at hs ⊢
    have := hP μ σ.nvars p vs vs' σ.pairs σ'.pairs hv hσ.pairs
    revert this hs
    generalize P p vs σ.pairs = x
    generalize P' p vs' σ'.pairs = y
    intro hs h
    cases h with
    | ok h₁ h₂ => exact .step hs (.refl (.value (μ := μ) h₁ hκ (hσ.withPairs h₂) (hi.same rfl rfl)))
    | throw h₁ h₂ =>
      rename_i v v' p p'
      exact ⟨1, v', { σ' with pairs := p' }, μ, by omega, by simp [Scheme.run, hs], h₁, h₂⟩
    | wrong => exact wrong hs
  | closure fs rest ht hr hb hρ =>
    cases rest with
    | none =>
      simp only [apply, Scheme.apply] at hs ⊢
      by_cases hl : vs.length = fs.length
      · rw [if_pos (by omega)] at hs
        rw [if_pos hl]
        obtain ⟨μ', he, h₁, h₂, h₃, h₄⟩ := call_rel (xs := fs) (rest := none) hρ hv hκ hσ hi
        exact .step hs (.refl (.eval ht hr h₁ hb h₂ h₃ h₄))
      · rw [if_neg (by omega)] at hs
        rw [if_neg hl]
        exact wrong hs
    | some x =>
      simp only [apply, Scheme.apply] at hs ⊢
      by_cases hl : fs.length ≤ vs.length
      · rw [if_pos (by omega)] at hs
        rw [if_pos hl]
        have hd : List.Forall₂ (VRel t r μ σ.nvars) (vs.drop fs.length) (vs'.drop fs.length) :=
          List.forall₂_drop _ hv
        have hk : List.Forall₂ (VRel t r μ σ.nvars) (vs.take fs.length) (vs'.take fs.length) :=
          List.forall₂_take _ hv
        obtain ⟨hl₁, hl₂⟩ := hσ.pairs.list hd
        obtain ⟨μ', he, h₁, h₂, h₃, h₄⟩ := call_rel (xs := fs) (rest := some x)
          (σ := { σ with pairs := (σ.pairs.list (vs.drop fs.length)).2 })
          (σ' := { σ' with pairs := (σ'.pairs.list (vs'.drop fs.length)).2 }) hρ
          (List.rel_append hk (.cons hl₁ .nil)) hκ (hσ.withPairs hl₂) (hi.same rfl rfl)
        exact .step hs (.refl (.eval ht hr h₁ hb h₂ h₃ h₄))
      · rw [if_neg (by omega)] at hs
        rw [if_neg hl]
        exact wrong hs

theorem cores_reverse (t r : Name) (es : List Expr) : cores t r es.reverse = (cores t r es).reverse := by
  simp [cores_eq]

theorem avoid_reverse {es : List Expr} (h : Avoid es H) : Avoid es.reverse H := by
  rw [avoid_iff] at h ⊢
  intro e he
  exact h e (by simpa using he)

theorem Tickets.head {σ : Scheme.Store} {i : Nat} {is : List Nat} (h : Scheme.Tickets σ (i :: is)) :
    σ.pending i = true := (h.valid i (by simp)).1

theorem lets_sim (hP : PrimRel t r P P') {todo : List Expr} {vs : List Val} {vs' : List Scheme.Val}
    {xs : List Name} {body : Expr} (ht : H t)
    (hr : H r) (hρ : EnvRel μ σ.nvars H ρ ρ') (ha : Avoid todo H) (hb : body.Avoids H)
    (hv : List.Forall₂ (VRel t r μ σ.nvars) vs vs') (hκ : KRel t r μ σ.nvars κ κ' is ps)
    (hσ : SRel t r μ σ σ' ps) (hi : Scheme.Tickets σ' is) :
    Sim free P' t r 0 (M + 2) (lets todo vs xs body ρ κ σ)
      (Scheme.operands (cores t r todo) vs' (.lam xs none (body.core t r)) ρ' κ' σ') := by
  cases todo with
  | nil =>
    refine .zero (st₁ := ⟨.value (.closure xs none (body.core t r) ρ'), .fn σ'.nid vs' κ', σ'.issue⟩) rfl ?_
    refine Sim.weaken (m := 1) ?_ (by omega) (Nat.le_refl _)
    exact apply_sim (f := .closure xs none body ρ) hP (.closure xs none ht hr hb hρ) hv hκ (hσ.issue.redeem _)
      hi.issue.redeem (step_fn (Tickets.head hi.issue))
  | cons a todo =>
    exact .refl (.eval ht hr hρ ha.1 (.let_ _ ht hr hρ ha.2 hb hv hκ) hσ.issue hi.issue)

theorem nameds_sim (hP : PrimRel t r P P') {todo : List Expr} {vs : List Val} {vs' : List Scheme.Val}
    {f : Name} {xs : List Name} {body : Expr} {l : Nat} (ht : H t)
    (hr : H r) (hρ : EnvRel μ σ.nvars H ρ ρ') (ha : Avoid todo fun x => H x ∨ x = f) (hb : body.Avoids H)
    (hv : List.Forall₂ (VRel t r μ σ.nvars) vs vs') (hκ : KRel t r μ σ.nvars κ κ' is ps)
    (hσ : SRel t r μ σ σ' ((l, .closure xs none (body.core t r) ((f, l) :: ρ')) :: ps))
    (hi : Scheme.Tickets σ' is) :
    Sim free P' t r 0 (M + 2) (nameds todo vs f xs body ρ κ σ)
      (Scheme.operands (cores t r todo) vs' (.var f) ((f, l) :: ρ') κ' σ') := by
  cases todo with
  | nil =>
    have hl : σ'.issue.vars l = some (.closure xs none (body.core t r) ((f, l) :: ρ')) :=
      (hσ.issue.priv (l, _) (List.mem_cons_self ..)).1
    refine .zero (st₁ := ⟨.value (.closure xs none (body.core t r) ((f, l) :: ρ')), .fn σ'.nid vs' κ', σ'.issue⟩)
      (by simp [Scheme.operands, Scheme.step, cores, List.lookup_cons, hl]) ?_
    have he : Ext μ (publish μ σ.nvars l) σ.nvars (σ.nvars + 1) := ext_publish μ σ.nvars l
    have henv : EnvRel (publish μ σ.nvars l) (σ.nvars + 1) H ((f, σ.nvars) :: ρ) ((f, l) :: ρ') := by
      have := (hρ.mono he).bind [f] (ls := [σ.nvars]) (by simp)
      simpa [Surface.publish] using this
    refine Sim.weaken (m := 1) ?_ (by omega) (Nat.le_refl _)
    exact apply_sim (σ := (σ.bind [some (.closure xs none body ((f, σ.nvars) :: ρ))]).2)
      (f := .closure xs none body ((f, σ.nvars) :: ρ)) hP (.closure xs none ht hr hb henv)
      (vrels_mono hv he) (hκ.mono he) ((hσ.issue.redeem _).publish (.closure xs none ht hr hb henv))
      hi.issue.redeem (step_fn (Tickets.head hi.issue))
  | cons a todo =>
    refine .refl (.eval (H := fun x => H x ∨ x = f) (.inl ht) (.inl hr) ?_ ha.1
      (.named _ l ht hr hρ ha.2 hb hv hκ) hσ.issue hi.issue)
    exact (hρ.weaken fun x h => .inl h).hide (.inr rfl) l

theorem again_cons (r : Name) (steps : List Scheme.Expr) (c : Scheme.Expr) (cmds : List Scheme.Expr) :
    again r steps (c :: cmds) = .seq c (again r steps cmds) := by
  cases cmds <;> simp [again, seqs]

theorem again_nil (r : Name) (steps : List Scheme.Expr) : again r steps [] = .app (.var r) steps := by
  simp [again, seqs]

theorem lookup_loop {r l : Nat} {xs : List Name} {ls : List Nat} {ρ : Scheme.Env} (h : r ∉ xs) :
    (xs.zip ls ++ (r, l) :: ρ).lookup r = some l := by
  rw [lookup_append]
  cases hz : (xs.zip ls).lookup r with
  | none => simp
  | some l' => exact absurd (lookup_zip_mem hz).2 h

theorem cores_eq_nil {es : List Expr} : cores t r es = [] ↔ es = [] := by
  simp [cores_eq]

theorem loops_sim {todo : List Expr} {vs : List Val} {vs' : List Scheme.Val}
    {L : Loop} {l : Nat} {ρ₀ : Scheme.Env} (hL : LoopRel t r μ σ.nvars H L ρ₀)
    (hρ : EnvRel μ σ.nvars H ρ ρ') (hl : ρ'.lookup r = some l) (ha : Avoid todo H)
    (hv : List.Forall₂ (VRel t r μ σ.nvars) vs vs') (hκ : KRel t r μ σ.nvars κ κ' is ps)
    (hσ : SRel t r μ σ σ' ((l, loopClosure t r L l ρ₀) :: ps))
    (hi : Scheme.Tickets σ' is) :
    Sim free P' t r 0 (M + 3) (loops todo vs L ρ κ σ)
      (Scheme.operands (cores t r todo) vs' (.var r) ρ' κ' σ') := by
  cases todo with
  | nil =>
    have hlv : σ'.issue.vars l = some (loopClosure t r L l ρ₀) := (hσ.issue.priv (l, _) (List.mem_cons_self ..)).1
    refine .zero (st₁ := ⟨.value (loopClosure t r L l ρ₀), .fn σ'.nid vs' κ', σ'.issue⟩)
      (by simp [Scheme.operands, Scheme.step, cores, hl, hlv]) ?_
    have hs := step_fn (free := free) (P' := P') (v := loopClosure t r L l ρ₀) (vs := vs') (κ := κ')
      (Tickets.head hi.issue)
    have hlen := hv.length_eq
    simp only [loops]
    simp only [loopClosure, Scheme.apply] at hs ⊢
    by_cases hn : vs.length = L.xs.length
    · rw [if_pos (by omega)] at hs
      rw [if_pos hn]
      refine .zero hs ?_
      obtain ⟨μ', he, h₁, h₂, h₃, h₄⟩ := call_rel (xs := L.xs) (rest := none) (hL.env.hide hL.r l) hv hκ
        (hσ.issue.redeem σ'.nid) hi.issue.redeem
      have hL' := hL.mono he
      have hlook : (Scheme.bindings L.xs none ((σ'.issue.redeem σ'.nid).bind (vs'.map some)).1 ++ (r, l) :: ρ₀).lookup
          r = some l := by
        simp only [Scheme.bindings, Option.toList, List.append_nil]
        exact lookup_loop fun h => hL.xs r h hL.r
      by_cases hres : L.res = []
      · have : cores t r L.res = [] := cores_eq_nil.2 hres
        rw [this]
        refine .zero (st₁ := ⟨.eval (L.test.core t r) _, .arg _ [] [] _ _ κ', _⟩) rfl ?_
        exact .refl (.eval hL.t hL.r h₁ hL.test (.testOr _ l hL' h₁ hlook hres h₂) h₃.issue h₄.issue)
      · obtain ⟨e, es, he'⟩ := List.exists_cons_of_ne_nil (mt (cores_eq_nil (t := t) (r := r)).1 hres)
        rw [he']
        refine .zero (st₁ := ⟨.eval (L.test.core t r) _, .ite _ _ _ κ', _⟩) rfl ?_
        rw [← he']
        exact .refl (.eval hL.t hL.r h₁ hL.test (.test l hL' h₁ hlook hres h₂) h₃ h₄)
    · rw [if_neg (by omega)] at hs
      rw [if_neg hn]
      exact ⟨1, by omega, by simp [Scheme.run, hs]⟩
  | cons a todo =>
    exact .refl (.eval hL.t hL.r hρ ha.1 (.loop _ l hL hρ hl ha.2 hv hκ) hσ.issue hi.issue)

theorem commands_sim {todo : List Expr}
    {L : Loop} {l : Nat} {ρ₀ : Scheme.Env} (hL : LoopRel t r μ σ.nvars H L ρ₀)
    (hρ : EnvRel μ σ.nvars H ρ ρ') (hl : ρ'.lookup r = some l) (ha : Avoid todo H)
    (hκ : KRel t r μ σ.nvars κ κ' is ps)
    (hσ : SRel t r μ σ σ' ((l, loopClosure t r L l ρ₀) :: ps))
    (hi : Scheme.Tickets σ' is) :
    Sim free P' t r 0 (M + 4) (commands todo L ρ κ σ)
      ⟨.eval (again r (cores t r L.steps) (cores t r todo)) ρ', κ', σ'⟩ := by
  cases todo with
  | nil =>
    simp only [cores, again_nil]
    refine .zero rfl ?_
    rw [← cores_reverse]
    exact loops_sim hL hρ hl (avoid_reverse hL.steps) .nil hκ hσ hi
  | cons c todo =>
    simp only [cores, again_cons]
    exact .zero rfl (.refl (.eval hL.t hL.r hρ ha.1 (.command l hL hρ hl ha.2 hκ) hσ hi))

/-- Bind a temporary variable to a value and test it. -/
theorem Sim.temp {x : Result} {v : Scheme.Val} {a b : Scheme.Expr} {id : Nat} (hi : σ'.pending id = true)
    (h : Sim free P' t r 0 M x ⟨.eval (if v.truthy then a else b) ((t, σ'.nvars) :: ρ'), κ',
      (((σ'.redeem id).issue.redeem σ'.nid).bind [some v]).2⟩) :
    Sim free P' t r 1 (M + 6) x ⟨.value v, .arg id [] [] (.lam [t] none (.ite (.var t) a b)) ρ' κ', σ'⟩ := by
  refine .first (step_arg hi) ?_
  refine .zero (st₁ := ⟨.value (.closure [t] none (.ite (.var t) a b) ρ'), .fn (σ'.redeem id).nid [v] κ',
    (σ'.redeem id).issue⟩) rfl ?_
  refine .zero (step_fn (by simp [Scheme.Store.issue, Secd.update])) ?_
  refine .zero (st₁ := ⟨.eval (.var t) ((t, σ'.nvars) :: ρ'), .ite a b ((t, σ'.nvars) :: ρ') κ',
    (((σ'.redeem id).issue.redeem σ'.nid).bind [some v]).2⟩) rfl ?_
  refine .zero (st₁ := ⟨.value v, .ite a b ((t, σ'.nvars) :: ρ') κ',
    (((σ'.redeem id).issue.redeem σ'.nid).bind [some v]).2⟩) ?_ (.zero rfl h)
  simp [Scheme.step, List.lookup_cons, Scheme.Store.bind, Scheme.Store.issue, Scheme.Store.redeem]

/-- The value of the temporary variable. -/
theorem Sim.tempValue {x : Result} {v : Scheme.Val} {id : Nat}
    (h : Sim free P' t r 0 M x ⟨.value v, κ', (((σ'.redeem id).issue.redeem σ'.nid).bind [some v]).2⟩) :
    Sim free P' t r 0 (M + 1) x ⟨.eval (.var t) ((t, σ'.nvars) :: ρ'), κ',
      (((σ'.redeem id).issue.redeem σ'.nid).bind [some v]).2⟩ := by
  refine .zero ?_ h
  simp [Scheme.step, List.lookup_cons, Scheme.Store.bind, Scheme.Store.issue, Scheme.Store.redeem]

theorem SRel.temps (h : SRel t r μ σ σ' ps) (id : Nat) (v : Scheme.Val) :
    SRel t r μ σ (((σ'.redeem id).issue.redeem σ'.nid).bind [some v]).2 ps :=
  (((h.redeem id).issue).redeem _).temp _

theorem Tickets.temps {id : Nat} (h : Scheme.Tickets σ' (id :: is)) (v : Scheme.Val) :
    Scheme.Tickets (((σ'.redeem id).issue.redeem σ'.nid).bind [some v]).2 is :=
  (Scheme.Tickets.redeem (Scheme.Tickets.issue (Scheme.Tickets.redeem h))).same rfl rfl

end

/-- The translation of a letrec with one procedure. -/
theorem Sim.rec_ {M : Nat} {x : Result} {f : Name} {xs : List Name} {body : Scheme.Expr} {args : List Scheme.Expr}
    {ρ' : Scheme.Env} {κ' : Scheme.Kont} {σ' : Scheme.Store} {μ : Nat → Nat} {σ : Store} {is : List Nat}
    {ps : List (Nat × Scheme.Val)} (hσ : SRel t r μ σ σ' ps) (hi : Scheme.Tickets σ' is)
    (h : ∀ σ₁ l, SRel t r μ σ σ₁ ((l, .closure xs none body ((f, l) :: ρ')) :: ps) → Scheme.Tickets σ₁ is →
      Sim free P' t r 0 M x (Scheme.operands args.reverse [] (.var f) ((f, l) :: ρ') κ' σ₁)) :
    Sim free P' t r 1 (M + 4) x ⟨.eval (.letrec [f] [.lam xs none body] (.app (.var f) args)) ρ', κ', σ'⟩ := by
  let σ₁ := (σ'.bind [none]).2
  let v : Scheme.Val := .closure xs none body ((f, σ'.nvars) :: ρ')
  have hi₁ : Scheme.Tickets σ₁ is := hi.same rfl rfl
  refine .first (st₁ := ⟨.eval (.lam xs none body) ((f, σ'.nvars) :: ρ'),
    .init σ₁.nid [] [] [σ'.nvars] (.app (.var f) args) ((f, σ'.nvars) :: ρ') κ', σ₁.issue⟩) rfl ?_
  refine .zero (st₁ := ⟨.value v,
    .init σ₁.nid [] [] [σ'.nvars] (.app (.var f) args) ((f, σ'.nvars) :: ρ') κ', σ₁.issue⟩) rfl ?_
  refine .zero (step_init (Tickets.head hi₁.issue)) ?_
  refine .zero rfl ?_
  exact h _ _ (hσ.keep v rfl rfl rfl rfl) (hi₁.issue.redeem.same rfl rfl)

/-- One step. -/
theorem sim (hne : t ≠ r) (hP : PrimRel t r P P') {st : State} {st' : Scheme.State} (h : StRel t r st st') :
    Sim free P' t r 1 12 (step free P st) st' := by
  cases h with
  | eval ht hr hρ he hκ hσ hi =>
    rename_i μ H e ρ ρ' κ κ' σ σ' is ps
    cases e with
    | const d => exact .first rfl (.refl (.value (.datum d) hκ hσ hi))
    | var x =>
      obtain ⟨h₁, h₂⟩ := hρ x he
      cases hl : ρ.lookup x with
      | none =>
        rw [hl] at h₁
        simp only [step, hl, Expr.core]
        refine .first (st₁ := ⟨.value (σ'.globals (free x)), κ', σ'⟩) (by simp [Scheme.step, h₁]) ?_
        exact .refl (.value (hσ.globals _) hκ hσ hi)
      | some l =>
        rw [hl] at h₁
        have hv := hσ.vars l (h₂ l hl)
        simp only [step, hl, Expr.core]
        cases hv₁ : σ.vars l with
        | none =>
          rw [hv₁] at hv
          cases hv₂ : σ'.vars (μ l) with
          | none => exact ⟨1, by omega, by simp [Scheme.run, Scheme.step, h₁, hv₂]⟩
          | some w => rw [hv₂] at hv; cases hv
        | some v =>
          rw [hv₁] at hv
          cases hv₂ : σ'.vars (μ l) with
          | none => rw [hv₂] at hv; cases hv
          | some w =>
            rw [hv₂] at hv
            cases hv with
            | some hv =>
              refine .first (st₁ := ⟨.value w, κ', σ'⟩) (by simp [Scheme.step, h₁, hv₂]) ?_
              exact .refl (.value hv hκ hσ hi)
    | lam fs rest body =>
      exact .first rfl (.refl (.value (.closure fs rest ht hr he.2 hρ) hκ hσ hi))
    | app f args =>
      simp only [Expr.core]
      refine .first rfl ?_
      rw [← cores_reverse]
      exact operands_sim ht hr hρ (avoid_reverse he.2) he.1 .nil hκ hσ hi
    | ite a b c =>
      exact .first rfl (.refl (.eval ht hr hρ he.1 (.ite ht hr hρ he.2.1 he.2.2 hκ) hσ hi))
    | set x e => exact .first rfl (.refl (.eval ht hr hρ he.2 (.set hρ he.1 hκ) hσ hi))
    | letrec xs es body =>
      simp only [Expr.core]
      refine .first (st₁ := Scheme.inits (cores t r es).reverse [] (σ'.bind (xs.map fun _ => none)).1 (body.core t r)
        (Scheme.bindings xs none (σ'.bind (xs.map fun _ => none)).1 ++ ρ') κ' (σ'.bind (xs.map fun _ => none)).2) rfl ?_
      rw [← cores_reverse]
      have he' : Ext μ (grow μ σ.nvars σ'.nvars) σ.nvars (σ.bind (xs.map fun _ => none)).2.nvars := by
        simpa [Store.bind] using ext_grow μ σ.nvars σ'.nvars xs.length
      have hb : ∀ l ∈ (σ.bind (xs.map fun _ => none)).1, l < (σ.bind (xs.map fun _ => none)).2.nvars := by
        intro l hl
        simp only [Store.bind, List.mem_range'_1] at hl ⊢
        omega
      have e : (σ'.bind (xs.map fun _ => none)).1 =
          ((σ.bind (xs.map fun _ => none)).1).map (grow μ σ.nvars σ'.nvars) := by
        simp only [Scheme.Store.bind, Store.bind, List.length_map]
        exact bind_locs _ _ _ _
      have hs : SRel t r (grow μ σ.nvars σ'.nvars) (σ.bind (xs.map fun _ => none)).2
          (σ'.bind (xs.map fun _ => none)).2 ps := by
        refine hσ.bind ?_
        generalize σ.nvars + _ = m
        clear hb e he' he
        induction xs with
        | nil => exact .nil
        | cons x xs ih => exact .cons .none ih
      rw [e]
      exact inits_sim ht hr ((hρ.mono he').bind _ hb) (avoid_reverse he.2.1) hb he.2.2 .nil (hκ.mono he') hs
        (hi.same rfl rfl)
    | seq a b => exact .first rfl (.refl (.eval ht hr hρ he.1 (.seq ht hr hρ he.2 hκ) hσ hi))
    | orElse a b =>
      exact .first rfl (.refl (.eval ht hr hρ he.1 (.orElse _ ht hr hρ he.2 hκ) hσ.issue hi.issue))
    | arrow a f b =>
      exact .first rfl (.refl (.eval ht hr hρ he.1 (.arrow _ ht hr hρ he.2.1 he.2.2 hκ) hσ.issue hi.issue))
    | let_ xs es body =>
      simp only [Expr.core]
      refine .first rfl ?_
      rw [← cores_reverse]
      exact lets_sim hP ht hr hρ (avoid_reverse he.2.1) he.2.2 .nil hκ hσ hi
    | named f xs es body =>
      simp only [Expr.core]
      refine .rec_ hσ hi fun σ₁ l hσ₁ hi₁ => ?_
      rw [← cores_reverse]
      exact nameds_sim hP ht hr hρ (avoid_reverse he.2.2.1) he.2.2.2 .nil hκ hσ₁ hi₁
    | loop xs es steps test res commands =>
      simp only [Expr.core]
      obtain ⟨h₁, h₂, h₃, h₄, h₅, h₆⟩ := he
      refine .rec_ hσ hi fun σ₁ l hσ₁ hi₁ => ?_
      rw [← cores_reverse]
      exact loops_sim (L := ⟨xs, steps, test, res, commands, ρ⟩) ⟨ht, hr, h₁, h₃, h₄, h₅, h₆, hρ⟩
        (hρ.hide hr l) (by simp) (avoid_reverse h₂) .nil hκ hσ₁ hi₁
  | value hv hκ hσ hi =>
    rename_i μ v v' κ κ' σ σ' is ps
    cases hκ with
    | halt => exact ⟨1, v', σ', μ, by omega, rfl, hv, hσ⟩
    | ite ht hr hρ ha hb hκ =>
      simp only [step]
      refine .first rfl ?_
      rw [hv.truthy]
      cases v.truthy
      · exact .refl (.eval ht hr hρ hb hκ hσ hi)
      · exact .refl (.eval ht hr hρ ha hκ hσ hi)
    | seq ht hr hρ hb hκ => exact .first rfl (.refl (.eval ht hr hρ hb hκ hσ hi))
    | set hρ hx hκ =>
      rename_i H x ρ ρ' κ κ'
      obtain ⟨h₁, h₂⟩ := hρ x hx
      cases hl : ρ.lookup x with
      | none =>
        rw [hl] at h₁
        simp only [step, hl]
        refine .first (st₁ := ⟨.value v', κ', { σ' with globals := Secd.update σ'.globals (free x) v' }⟩)
          (by simp [Scheme.step, h₁]) ?_
        exact .refl (.value (μ := μ) hv hκ (hσ.global _ hv) (hi.same rfl rfl))
      | some l =>
        rw [hl] at h₁
        have hv' := hσ.vars l (h₂ l hl)
        simp only [step, hl]
        cases hv₁ : σ.vars l with
        | none =>
          rw [hv₁] at hv'
          cases hv₂ : σ'.vars (μ l) with
          | none => exact ⟨1, by omega, by simp [Scheme.run, Scheme.step, h₁, hv₂]⟩
          | some w => rw [hv₂] at hv'; cases hv'
        | some v₀ =>
          rw [hv₁] at hv'
          cases hv₂ : σ'.vars (μ l) with
          | none => rw [hv₂] at hv'; cases hv'
          | some w =>
            refine .first (st₁ := ⟨.value v', κ', { σ' with vars := Secd.update σ'.vars (μ l) (some v') }⟩)
              (by simp [Scheme.step, h₁, hv₂]) ?_
            exact .refl (.value (μ := μ) hv hκ (hσ.var (h₂ l hl) hv) (hi.same rfl rfl))
    | arg id ht hr hρ ha hf hvs hκ =>
      exact .first (step_arg (Tickets.head hi))
        (operands_sim ht hr hρ ha hf (.cons hv hvs) hκ (hσ.redeem _) hi.redeem)
    | fn id hvs hκ => exact apply_sim hP hv hvs hκ (hσ.redeem _) hi.redeem (step_fn (Tickets.head hi))
    | init id ht hr hρ ha hl hb hvs hκ =>
      exact .first (step_init (Tickets.head hi))
        (inits_sim ht hr hρ ha hl hb (.cons hv hvs) hκ (hσ.redeem _) hi.redeem)
    | orElse id ht hr hρ hb hκ =>
      refine .temp (Tickets.head hi) ?_
      rw [hv.truthy]
      simp only [step]
      cases v.truthy
      · exact .refl (.eval ht hr (hρ.hide ht _) hb hκ (hσ.temps _ _) (Tickets.temps hi _))
      · exact .tempValue (.refl (.value hv hκ (hσ.temps _ _) (Tickets.temps hi _)))
    | arrow id ht hr hρ hf hb hκ =>
      refine .temp (Tickets.head hi) ?_
      rw [hv.truthy]
      simp only [step]
      cases v.truthy
      · exact .refl (.eval ht hr (hρ.hide ht _) hb hκ (hσ.temps _ _) (Tickets.temps hi _))
      · have hi' := Tickets.temps hi v'
        simp only [if_true]
        rename_i H f b ρ ρ' κ κ' is
        let σ₁ := (((σ'.redeem id).issue.redeem σ'.nid).bind [some v']).2
        refine .zero (st₁ := ⟨.eval (.var t) ((t, σ'.nvars) :: ρ'),
          .arg σ₁.nid [] [] (f.core t r) ((t, σ'.nvars) :: ρ') κ', σ₁.issue⟩) rfl ?_
        refine .zero (st₁ := ⟨.value v',
          .arg σ₁.nid [] [] (f.core t r) ((t, σ'.nvars) :: ρ') κ', σ₁.issue⟩) ?_ (.zero (step_arg (Tickets.head hi'.issue)) (.refl
          (.eval ht hr (hρ.hide ht _) hf (.fn _ (.cons hv .nil) hκ)
            (((hσ.temps _ _).issue.redeem _).issue) hi'.issue.redeem.issue)))
        simp [σ₁, Scheme.step, List.lookup_cons, Scheme.Store.bind, Scheme.Store.issue, Scheme.Store.redeem]
    | let_ id ht hr hρ ha hb hvs hκ =>
      exact .first (step_arg (Tickets.head hi))
        (lets_sim hP ht hr hρ ha hb (.cons hv hvs) hκ (hσ.redeem _) hi.redeem)
    | named id l ht hr hρ ha hb hvs hκ =>
      exact .first (step_arg (Tickets.head hi))
        (nameds_sim hP ht hr hρ ha hb (.cons hv hvs) hκ (hσ.redeem _) hi.redeem)
    | loop id l hL hρ hl ha hvs hκ =>
      exact .first (step_arg (Tickets.head hi))
        (loops_sim hL hρ hl ha (.cons hv hvs) hκ (hσ.redeem _) hi.redeem)
    | test l hL hρ hl hres hκ =>
      simp only [step]
      refine .first rfl ?_
      rw [hv.truthy]
      cases v.truthy
      · exact commands_sim hL hρ hl hL.commands hκ hσ hi
      · simp only [if_true, if_neg hres]
        rw [← core_sequence]
        exact .refl (.eval hL.t hL.r hρ (.sequence hL.res) hκ hσ.drop hi)
    | testOr id l hL hρ hl hres hκ =>
      refine .temp (Tickets.head hi) ?_
      rw [hv.truthy]
      simp only [step]
      cases v.truthy
      · refine commands_sim hL (hρ.hide hL.t _) ?_ hL.commands hκ (hσ.temps _ _) (Tickets.temps hi _)
        rw [List.lookup_cons, show (r == t) = false from beq_eq_false_iff_ne.2 (Ne.symm hne)]
        exact hl
      · simp only [if_true, if_pos hres]
        exact .tempValue (.refl (.value hv hκ (hσ.drop.temps _ _) (Tickets.temps hi _)))
    | command l hL hρ hl ha hκ =>
      simp only [step]
      refine .first rfl (commands_sim hL hρ hl ha hκ hσ hi)

end Meevax.Surface
