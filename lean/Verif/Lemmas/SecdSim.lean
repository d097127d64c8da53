import Verif.Lemmas.SecdLetrec
import Verif.Spec.Observe

/-! The machine simulates the specification, step by step. -/

namespace Meevax.Secd

open Scheme

variable {free : Name → Nat}

/-- `n` steps of the machine. -/
def Steps (Q : Prims) : Nat → State → State → Prop
  | 0, m, m' => m = m'
  | n + 1, m, m' => ∃ m₁, step Q m = .next m₁ ∧ Steps Q n m₁ m'

theorem Steps.one {Q : Prims} {m m' : State} (h : step Q m = .next m') : Steps Q 1 m m' :=
  ⟨m', h, rfl⟩

theorem Steps.add {Q : Prims} : ∀ {n n' : Nat} {m m' m'' : State}, Steps Q n m m' →
    Steps Q n' m' m'' → Steps Q (n + n') m m''
  | 0, n', m, m', m'', h, h' => by cases h; simpa using h'
  | n + 1, n', m, m', m'', ⟨m₁, h₁, h₂⟩, h' => by
    rw [show n + 1 + n' = (n + n') + 1 by omega]
    exact ⟨m₁, h₁, h₂.add h'⟩

/-- What decreases when the machine does nothing. -/
noncomputable def weight : Scheme.State → Nat
  | ⟨.eval e _, _, _⟩ => sizeOf e + 1
  | ⟨.value _, _, _⟩ => 0

/-- The machine can follow a step of the specification with result `r`. -/
def Sim (free : Name → Nat) (Q : Prims) (w : Nat) (m : State) : Scheme.Result → Prop
  | .next st => ∃ n W m', Steps Q n m m' ∧ Repr free W st m' ∧ (n = 0 → weight st < w) ∧
      ∀ j m'', j ≤ n → Steps Q j m m'' → m''.d.frames ≤ max m.d.frames m'.d.frames
  | .done v σ => ∃ n W m' x h, Steps Q n m m' ∧ step Q m' = .halt x h ∧ VRel free W v x ∧
      Inv free W σ h ∧ ∀ j m'', j ≤ n → Steps Q j m m'' → m''.d.frames ≤ m.d.frames
  | .raise v σ => ∃ n W m' x h, Steps Q n m m' ∧ step Q m' = .raise x h ∧ VRel free W v x ∧
      Inv free W σ h ∧ ∀ j m'', j ≤ n → Steps Q j m m'' → m''.d.frames ≤ m.d.frames
  | .wrong => True
  | .reentered => True

theorem Sim.step {Q : Prims} {w w' : Nat} {m m₁ : State} {r : Scheme.Result}
    (h : Secd.step Q m = .next m₁) (hd : m₁.d.frames ≤ m.d.frames) (hs : Sim free Q w m₁ r) :
    Sim free Q w' m r := by
  have key : ∀ {B n : Nat}, m.d.frames ≤ B →
      (∀ j m'', j ≤ n → Steps Q j m₁ m'' → m''.d.frames ≤ B) →
      ∀ j m'', j ≤ n + 1 → Steps Q j m m'' → m''.d.frames ≤ B := by
    intro B n hB hall j m'' hj hst
    cases j with
    | zero => cases hst; exact hB
    | succ j =>
      obtain ⟨m₂, h₁, h₂⟩ := hst
      rw [h] at h₁; cases h₁
      exact hall j m'' (by omega) h₂
  cases r with
  | next st =>
    obtain ⟨n, W, m', h₁, h₂, -, h₃⟩ := hs
    refine ⟨n + 1, W, m', ⟨m₁, h, h₁⟩, h₂, by omega, key (by omega) fun j m'' hj hst => ?_⟩
    have := h₃ j m'' hj hst
    omega
  | done v σ =>
    obtain ⟨n, W, m', x, h', h₁, h₂, h₃, h₄, h₅⟩ := hs
    exact ⟨n + 1, W, m', x, h', ⟨m₁, h, h₁⟩, h₂, h₃, h₄, key (by omega) fun j m'' hj hst =>
      Nat.le_trans (h₅ j m'' hj hst) hd⟩
  | raise v σ =>
    obtain ⟨n, W, m', x, h', h₁, h₂, h₃, h₄, h₅⟩ := hs
    exact ⟨n + 1, W, m', x, h', ⟨m₁, h, h₁⟩, h₂, h₃, h₄, key (by omega) fun j m'' hj hst =>
      Nat.le_trans (h₅ j m'' hj hst) hd⟩
  | wrong => trivial
  | reentered => trivial

theorem frames_zero {Q : Prims} {m : State} {B : Nat} (hB : m.d.frames ≤ B) :
    ∀ j m'', j ≤ 0 → Steps Q j m m'' → m''.d.frames ≤ B := by
  intro j m'' hj hst
  have : j = 0 := by omega
  subst this; cases hst; exact hB

theorem Sim.here {Q : Prims} {w : Nat} {m : State} {st : Scheme.State} {W : World}
    (hr : Repr free W st m) (hw : weight st < w) : Sim free Q w m (.next st) :=
  ⟨0, W, m, rfl, hr, fun _ => hw, frames_zero (by omega)⟩

/-- One step of the machine. -/
theorem Sim.one {Q : Prims} {w : Nat} {m m' : State} {st : Scheme.State} {W : World}
    (h : Secd.step Q m = .next m') (hr : Repr free W st m') : Sim free Q w m (.next st) := by
  refine ⟨1, W, m', Steps.one h, hr, by omega, fun j m'' hj hst => ?_⟩
  match j, hj, hst with
  | 0, _, hst => cases hst; omega
  | 1, _, ⟨m₁, h₁, h₂⟩ => rw [h] at h₁; cases h₁; cases h₂; omega

theorem KRel.frame {W : World} {κ : Kont} {s : List Value}
    {e : Value} {d : Dump} (h : KRel free W κ s e [.ret] d) :
    ∃ s' e' c' d', d = .frame s' e' c' d' ∧ c' ≠ [.ret] ∧ KRel free W κ s' e' c' d' := by
  generalize hc : ([.ret] : Code) = c at h
  cases h with
  | ret _ hne h => exact ⟨_, _, _, _, rfl, hne, h⟩
  | set x he h => simp only [List.cons.injEq] at hc; exact absurd hc.1.symm (storeInstr_ne _).1
  | fn ha ht h => rename_i t; cases t <;> simp [callCode] at hc
  | _ => simp at hc

theorem Inv.argList {W : World} {σ : Store} {h : Heap} (hi : Inv free W σ h) {id : Nat} {xs : Value}
    {vs : List Val} (ha : W.argv id = some (xs, vs)) (hp : σ.pending id = true) :
    ArgList free W h.cells id xs vs ∧ id < σ.nid := by
  refine ⟨?_, ?_⟩
  · obtain ⟨xs', vs', h₁, h₂⟩ := hi.args id hp
    rw [ha] at h₁; cases h₁; exact h₂
  · by_contra hn
    rw [(hi.ids id (by omega)).1] at ha; cases ha

/-- Where a call leads. -/
theorem call_closure {Q : Prims} {W : World} {κ : Kont} {s : List Value} {e : Value} {k : Code}
    {d : Dump} {tail : Bool} (ht : TailOK tail s k) (hk : KRel free W κ s e k d)
    (c' : Code) (e' xs : Value) (h : Heap) :
    ∃ d', step Q ⟨.closure c' e' :: xs :: s, e, callCode tail k, d, h⟩ =
        .next ⟨[], .pair h.cells.next, c', d', { h with cells := h.cells.cons xs e' }⟩ ∧
      ∀ e'', KRel free W κ [] e'' [.ret] d' := by
  cases tail with
  | false =>
    exact ⟨.frame s e k d, by simp [callCode, step, call], fun e'' => .ret e'' (ht.2 rfl) hk⟩
  | true =>
    obtain ⟨rfl, rfl⟩ := ht.1 rfl
    exact ⟨d, by simp [callCode, step, tailCall], hk.returns rfl⟩

/-- The locations that a procedure gets. -/
theorem bind_spec (σ : Store) (vs : List Val) :
    (σ.bind (vs.map some)).1 = List.range' σ.nvars vs.length ∧
    (∀ v, v < σ.nvars → (σ.bind (vs.map some)).2.vars v = σ.vars v) ∧
    (∀ j, j < vs.length → (σ.bind (vs.map some)).2.vars (σ.nvars + j) = vs[j]?) ∧
    (σ.bind (vs.map some)).2.nvars = σ.nvars + vs.length := by
  refine ⟨by simp [Store.bind], fun v hv => ?_, fun j hj => ?_, by simp [Store.bind]⟩
  · simp only [Store.bind]
    rw [if_neg (by omega)]
  · simp only [Store.bind, List.length_map]
    rw [if_pos (by omega)]
    simp [hj]

theorem Inv.apply {P : Scheme.Prims} {Q : Prims} (hPQ : PrimsOK free P Q) {W : World} {σ : Store}
    {h : Heap} (hi : Inv free W σ h) {id : Nat} {xs x e : Value} {vs : List Val} {f : Val}
    {κ : Kont} {s : List Value} {k : Code} {d : Dump} {tail : Bool} {w : Nat}
    (ha : W.argv id = some (xs, vs)) (hp : σ.pending id = true) (hf : VRel free W f x)
    (ht : TailOK tail s k) (hk : KRel free W κ s e k d) :
    Sim free Q w ⟨x :: xs :: s, e, callCode tail k, d, h⟩ (apply P f vs κ (σ.redeem id)) := by
  obtain ⟨hargs, hid⟩ := hi.argList ha hp
  cases hf with
  | datum g =>
    refine ⟨0, W, _, .datum g, h, rfl, ?_, .datum g, hi.redeem id, frames_zero (Nat.le_refl _)⟩
    cases tail <;> simp [callCode, step, call, tailCall]
  | @pair a l hl =>
    refine ⟨0, W, _, .pair l, h, rfl, ?_, .pair hl, hi.redeem id, frames_zero (Nat.le_refl _)⟩
    cases tail <;> simp [callCode, step, call, tailCall]
  | prim p =>
    simp only [Scheme.apply]
    cases hr : P p vs (σ.redeem id).pairs with
    | ok v ps =>
      obtain ⟨W', m, c', h₁, h₂, h₃, h₄⟩ := hPQ.ok p W _ ps h.cells id xs vs v hi.pairs hargs hr
      obtain ⟨hW, hi'⟩ := (hi.redeem id).grow (by simp [Store.redeem, update]) hid h₂ h₃
      cases tail with
      | false =>
        refine Sim.one (W := W') (m' := ⟨m :: s, e, k, d, { h with cells := c' }⟩) ?_
          ⟨hi', m, s, rfl, h₄, hk.mono hW⟩
        simp [callCode, step, call, h₁]
      | true =>
        obtain ⟨rfl, rfl⟩ := ht.1 rfl
        obtain ⟨s', e', k', d', rfl, -, hk'⟩ := hk.frame
        refine Sim.one (W := W') (m' := ⟨m :: s', e', k', d', { h with cells := c' }⟩) ?_
          ⟨hi', m, s', rfl, h₄, hk'.mono hW⟩
        simp [callCode, step, tailCall, h₁]
    | throw v ps =>
      obtain ⟨W', m, c', h₁, h₂, h₃, h₄⟩ := hPQ.throw p W _ ps h.cells id xs vs v hi.pairs hargs hr
      obtain ⟨hW, hi'⟩ := (hi.redeem id).grow (by simp [Store.redeem, update]) hid h₂ h₃
      refine ⟨0, W', _, m, { h with cells := c' }, rfl, ?_, h₄, hi', frames_zero (Nat.le_refl _)⟩
      cases tail <;> simp [callCode, step, call, tailCall, h₁]
    | wrong => trivial
  | @closure sc fs rest body ρ e' he hb =>
    cases rest with
    | none =>
      simp only [Scheme.apply]
      by_cases hlen : vs.length = fs.length
      · rw [if_pos hlen]
        obtain ⟨b₁, b₂, b₃, b₄⟩ := bind_spec (σ.redeem id) vs
        obtain ⟨d', h₁, h₂⟩ := call_closure (Q := Q) ht hk
          (comp free ((fs, none) :: sc) body [.ret] true) e' xs h
        obtain ⟨hW, hlab, hi'⟩ := hi.enter (σ' := ((σ.redeem id).bind (vs.map some)).2)
          (m := vs.length) (e := e') (r := none) (t := .datum .nil) ha hp (Nat.le_refl _)
          (by simp [Pairs.list, Store.bind, Store.redeem]) b₂ b₃ (by simp) (fun _ => rfl)
          (by rw [b₄]; exact Nat.le_refl _) rfl rfl rfl rfl
        refine Sim.one h₁ ⟨hi', (fs, none) :: sc, [.ret], true, ?_, hb, rfl,
          ⟨fun _ => ⟨rfl, rfl⟩, by simp⟩, (h₂ _).mono hW⟩
        rw [b₁]
        have := ERel.cons (fs := fs) (rest := none) hlab (by simpa using hlen) rfl (he.mono hW)
        simpa [Store.redeem] using this
      · rw [if_neg hlen]; trivial
    | some r =>
      simp only [Scheme.apply]
      by_cases hlen : fs.length ≤ vs.length
      · rw [if_pos hlen]
        generalize hl : (σ.redeem id).pairs.list (vs.drop fs.length) = tp
        obtain ⟨t, ps⟩ := tp
        obtain ⟨b₁, b₂, b₃, b₄⟩ :=
          bind_spec { σ.redeem id with pairs := ps } (vs.take fs.length ++ [t])
        obtain ⟨d', h₁, h₂⟩ := call_closure (Q := Q) ht hk
          (comp free ((fs, some r) :: sc) body [.ret] true) e' xs h
        have hlen' : (vs.take fs.length ++ [t]).length = fs.length + 1 := by simp [hlen]
        rw [hlen'] at b₁ b₃ b₄
        have c₁ : ∀ j, j < fs.length → (Store.bind { σ.redeem id with pairs := ps }
            ((vs.take fs.length ++ [t]).map some)).2.vars (σ.nvars + j) = vs[j]? := by
          intro j hj
          have := b₃ j (by omega)
          rw [List.getElem?_append_left (by simp; omega), List.getElem?_take_of_lt hj] at this
          exact this
        have c₂ : (Store.bind { σ.redeem id with pairs := ps }
            ((vs.take fs.length ++ [t]).map some)).2.vars (σ.nvars + fs.length) = some t := by
          have := b₃ fs.length (by omega)
          rw [List.getElem?_append_right (by simp; omega)] at this
          exact this.trans (by simp [hlen])
        obtain ⟨hW, hlab, hi'⟩ := hi.enter
          (σ' := (Store.bind { σ.redeem id with pairs := ps }
            ((vs.take fs.length ++ [t]).map some)).2)
          (m := fs.length) (e := e') (r := some (σ.nvars + fs.length)) (t := t) ha hp hlen
          hl b₂ c₁ (fun x hx => by
            cases hx
            exact ⟨rfl, c₂, by rw [b₄]; exact Nat.lt_succ_self _⟩) (by simp)
          (by rw [b₄]; exact Nat.le_succ _) rfl rfl rfl rfl
        refine Sim.one h₁ ⟨hi', (fs, some r) :: sc, [.ret], true, ?_, hb, rfl,
          ⟨fun _ => ⟨rfl, rfl⟩, by simp⟩, (h₂ _).mono hW⟩
        dsimp only
        rw [b₁]
        have := ERel.cons (fs := fs) (rest := some r) hlab (by simp) rfl (he.mono hW)
        simpa [List.range'_1_concat, Store.redeem] using this
      · rw [if_neg hlen]; trivial
  | @cont κ' s' e' c' d' h' =>
    simp only [Scheme.apply]
    split
    · rename_i v
      obtain ⟨l, rfl, hlab, hv, -⟩ := hargs
      refine Sim.one (W := W) (m' := ⟨(h.cells.cell l).1 :: s', e', c', d', h⟩) ?_
        ⟨hi.redeem id, _, _, rfl, hv, h'⟩
      cases tail <;> simp [callCode, step, call, tailCall, Cells.car]
    · trivial

/-- The code of the operands, and then of the operator. -/
theorem Repr.operands {W : World} {σ : Store} {h : Heap} {id : Nat} {xs e : Value} {vs : List Val}
    {κ : Kont} {s : List Value} {k : Code} {d : Dump} {tail : Bool} {sc : Scopes} {ρ : Env}
    {f : Expr} {todo : List Expr} (hi : Inv free W σ.issue h) (hid : id = σ.nid)
    (he : ERel W sc ρ e)
    (hp : ∀ a ∈ todo, Placed false a) (hf : Placed false f) (ha : W.argv id = some (xs, vs))
    (ht : TailOK tail s k) (hk : KRel free W κ s e k d) :
    Repr free W (operands todo vs f ρ κ σ)
      ⟨xs :: s, e, compTodo free sc todo (comp free sc f (callCode tail k) false), d, h⟩ := by
  subst hid
  cases todo with
  | nil =>
    refine ⟨hi, sc, callCode tail k, false, he, hf, rfl, ⟨by simp, fun _ => ?_⟩, .fn ha ht hk⟩
    cases tail <;> simp [callCode]
  | cons a todo =>
    exact ⟨hi, sc, _, false, he, hp a (by simp), rfl, ⟨by simp, by simp⟩,
      .arg he (fun b hb => hp b (by simp [hb])) hf ha ht hk⟩

theorem Repr.value {W : World} {σ : Store} {h : Heap} {κ : Kont} {s : List Value} {e : Value}
    {c : Code} {d : Dump} {v : Val} {x : Value} (hi : Inv free W σ h) (hv : VRel free W v x)
    (hk : KRel free W κ s e c d) : Repr free W ⟨.value v, κ, σ⟩ ⟨x :: s, e, c, d, h⟩ :=
  ⟨hi, x, s, rfl, hv, hk⟩

/-- Entering the body of `letrec`. -/
theorem letrec_enter {Q : Prims} {W : World} {κ : Kont} {s : List Value} {e : Value} {k : Code}
    {d : Dump} {tail : Bool} (ht : TailOK tail s k) (hk : KRel free W κ s e k d)
    {c' : Code} {xs : Value} {h : Heap} {l : Nat} (hl : (h.cells.cell l).2 = e) :
    ∃ d', step Q ⟨.closure c' (.pair l) :: xs :: s, .pair l, letrecCode tail k, d, h⟩ =
        .next ⟨[], .pair l, c', d', { h with cells := h.cells.setCar l xs }⟩ ∧
      ∀ e'', KRel free W κ [] e'' [.ret] d' := by
  cases tail with
  | false =>
    refine ⟨.frame s e k d, ?_, fun e'' => .ret e'' (ht.2 rfl) hk⟩
    simp [letrecCode, step, enterLetrec, Cells.cdr, Cells.setCar, Result.ofOption, hl]
  | true =>
    obtain ⟨rfl, rfl⟩ := ht.1 rfl
    exact ⟨d, by simp [letrecCode, step, enterLetrec, Result.ofOption], hk.returns rfl⟩

/-- An expression is to be evaluated. -/
theorem sim_eval {P : Scheme.Prims} {Q : Prims} {W : World} {e : Expr} {ρ : Env}
    {κ : Kont} {σ : Store} {m : State} (hr : Repr free W ⟨.eval e ρ, κ, σ⟩ m) :
    Sim free Q (weight ⟨.eval e ρ, κ, σ⟩) m (Scheme.step free P ⟨.eval e ρ, κ, σ⟩) := by
  obtain ⟨s, me, mc, d, h⟩ := m
  obtain ⟨hi, sc, k, tail, he, hp, hc, ht, hk⟩ := hr
  dsimp only at hi he hc ht hk
  subst hc
  cases hp with
  | const _ g =>
    simp only [Scheme.step, comp]
    exact Sim.one rfl (Repr.value hi (.datum g) hk)
  | var _ x =>
    simp only [Scheme.step, comp]
    rcases he.addr hi (x := x) with ⟨h₁, h₂⟩ | ⟨v, h₁, h₂⟩
    · rw [h₁, h₂]
      exact Sim.one rfl (Repr.value hi (hi.globals _) hk)
    · rw [h₁]
      dsimp only
      cases hv : σ.vars v with
      | none => trivial
      | some sv =>
        obtain ⟨y, h₃, h₄⟩ := h₂.load hi hv
        exact Sim.one h₄ (Repr.value hi h₃ hk)
  | lam _ fs rest hb =>
    simp only [Scheme.step, comp]
    exact Sim.one rfl (Repr.value hi (.closure he hb) hk)
  | @app f args _ hf ha =>
    simp only [Scheme.step, comp, compArgs_eq]
    obtain ⟨hW, hi'⟩ := hi.issueNil
    refine Sim.one rfl (Repr.operands (sc := sc) hi' rfl (he.mono hW)
      (fun a ha' => ha a (by simpa using ha')) hf (if_pos rfl) ht (hk.mono hW))
  | @ite _ a b c ha hb hc =>
    simp only [Scheme.step, comp]
    refine Sim.here (W := W) ⟨hi, sc, _, false, he, ha, rfl, ⟨by simp, fun _ => ?_⟩, ?_⟩
      (by simp [weight]; omega)
    · cases tail <;> simp
    · cases tail with
      | false => exact .ite he hb hc (ht.2 rfl) hk
      | true =>
        obtain ⟨rfl, rfl⟩ := ht.1 rfl
        exact .iteTail he hb hc hk
  | @set e _ x he' =>
    simp only [Scheme.step, comp]
    exact Sim.here (W := W) ⟨hi, sc, _, false, he, he', rfl,
      ⟨by simp, fun _ => by simp [(storeInstr_ne _).1]⟩, .set x he hk⟩ (by simp [weight]; omega)
  | @letrec es body _ xs hl hes hb =>
    simp only [Scheme.step, comp, compArgs_eq]
    have hbind : (σ.bind (xs.map fun _ => none)).1 = List.range' σ.nvars xs.length := by
      simp [Store.bind]
    obtain ⟨W', hW, hlab, hinv⟩ := hi.dummy xs.length me
    have hi' := hinv (σ.bind (xs.map fun _ => none)).2
      (fun v hv => by simp only [Store.bind]; rw [if_neg (by omega)])
      (fun v h₁ h₂ => by
        simp only [Store.bind, List.length_map]
        rw [if_pos ⟨h₁, h₂⟩]
        rw [List.getElem?_map]
        cases xs[v - σ.nvars]? <;> rfl)
      (by simp [Store.bind]) rfl rfl rfl rfl rfl
    have he' : ERel W' ((xs, none) :: sc)
        (bindings xs none (σ.bind (xs.map fun _ => none)).1 ++ ρ) (.pair h.cells.next) := by
      rw [hbind]
      have := ERel.cons (fs := xs) (rest := none) hlab (by simp) rfl (he.mono hW)
      simpa using this
    generalize htodo : es.reverse = todo
    cases todo with
    | nil =>
      have hes : es = [] := by simpa using htodo
      subst hes
      have hxs : xs = [] := by simpa using hl
      subst hxs
      obtain ⟨d', h₁, h₂⟩ := letrec_enter (Q := Q) (xs := .nil)
        (c' := comp free (([], none) :: sc) body [.ret] true) ht (hk.mono hW)
        (h := { h with cells := h.cells.cons .nil me }) (l := h.cells.next) (e := me)
        (by simp [Cells.cons])
      refine Sim.step (w := 0) rfl (Nat.le_refl _) (Sim.step (w := 0) rfl (Nat.le_refl _)
        (Sim.step (w := 0) rfl (Nat.le_refl _) (Sim.one (W := W') h₁ ?_)))
      have : (h.cells.cons .nil me).setCar h.cells.next .nil = h.cells.cons .nil me := by
        simp only [Cells.setCar, Cells.cons, if_pos]
        congr 1; funext l; split <;> rfl
      refine ⟨?_, ([], none) :: sc, [.ret], true, he', hb, rfl, ⟨fun _ => ⟨rfl, rfl⟩, by simp⟩,
        h₂ _⟩
      dsimp only
      rw [this]
      exact hi'
    | cons a todo =>
      obtain ⟨hW', hi''⟩ := hi'.issueNil
      have hm : ∀ b ∈ a :: todo, Placed false b := fun b hb' => hes b (by
        rw [← List.mem_reverse, htodo]; exact hb')
      refine Sim.step (w := 0) rfl (Nat.le_refl _) (Sim.one rfl ⟨hi'', (xs, none) :: sc, _, false, he'.mono hW',
        hm a (by simp), rfl, ⟨by simp, by simp⟩, ?_⟩)
      have hlen : es.length = todo.length + 1 := by
        rw [← List.length_reverse, htodo]; rfl
      refine .init (sc := sc) (hW'.env _ _ ?_) (he'.mono hW') (fun b hb' => hm b (by simp [hb'])) hb
        (if_pos rfl) ?_ ?_ ht ((hk.mono hW).mono hW')
      · rw [hbind]; exact hlab
      · rw [hbind]; exact List.nodup_range'
      · rw [hbind]; simp; omega
  | @seq _ a b ha hb =>
    simp only [Scheme.step, comp]
    exact Sim.here (W := W) ⟨hi, sc, _, false, he, ha, rfl, ⟨by simp, by simp⟩,
      .seq he hb ht hk⟩ (by simp [weight]; omega)
  | callccVar x =>
    obtain ⟨rfl, rfl⟩ := ht.1 rfl
    simp only [Scheme.step, comp]
    obtain ⟨W', hW, hargv, hi'⟩ := hi.pushCont (.cont hk)
    exact Sim.one rfl ⟨hi', sc, [.tailCall], false, he.mono hW, .var _ x, by simp only [comp],
      ⟨by simp, by simp⟩, .callcc hargv (hk.mono hW)⟩
  | callccLam fs rest hb =>
    obtain ⟨rfl, rfl⟩ := ht.1 rfl
    simp only [Scheme.step, comp]
    obtain ⟨W', hW, hargv, hi'⟩ := hi.pushCont (.cont hk)
    exact Sim.one rfl ⟨hi', sc, [.tailCall], false, he.mono hW, .lam _ fs rest hb,
      by simp only [comp], ⟨by simp, by simp⟩, .callcc hargv (hk.mono hW)⟩
  | current _ i =>
    simp only [Scheme.step, comp]
    exact Sim.one rfl (Repr.value hi (hi.regs _) hk)
  | @install e _ i he' =>
    simp only [Scheme.step, comp]
    exact Sim.here (W := W) ⟨hi, sc, _, false, he, he', rfl, ⟨by simp, by simp⟩, .install i hk⟩
      (by simp [weight]; omega)

/-- A value is given to the continuation. -/
theorem sim_value {P : Scheme.Prims} {Q : Prims} (hPQ : PrimsOK free P Q) {W : World} {v : Val}
    {κ : Kont} {s : List Value} {e : Value} {c : Code} {d : Dump} (hk : KRel free W κ s e c d) :
    ∀ {σ : Store} {h : Heap} {x : Value}, Inv free W σ h → VRel free W v x →
    Sim free Q 0 ⟨x :: s, e, c, d, h⟩ (Scheme.step free P ⟨.value v, κ, σ⟩) := by
  induction hk with
  | halt => exact fun {σ h x} hi hv => ⟨0, W, _, x, h, rfl, rfl, hv, hi, frames_zero (Nat.le_refl _)⟩
  | ret e' hc hk ih => exact fun hi hv => Sim.step rfl (Nat.le_succ _) (ih hi hv)
  | join hc hk ih => exact fun hi hv => Sim.step rfl (Nat.le_refl _) (ih hi hv)
  | @ite κ s e k d sc ρ t f he ht hf hk' hk ih =>
    intro σ h x hi hv
    simp only [Scheme.step]
    refine Sim.one (W := W) rfl ⟨hi, sc, [.join], false, he, ?_, ?_, ⟨by simp, by simp⟩,
      .join hk' hk⟩
    · split <;> assumption
    · dsimp only; rw [hv.truthy]; split <;> rfl
  | @iteTail κ e d sc ρ t f he ht hf hk ih =>
    intro σ h x hi hv
    simp only [Scheme.step]
    refine Sim.one (W := W) rfl ⟨hi, sc, [.ret], true, he, ?_, ?_, ⟨fun _ => ⟨rfl, rfl⟩, by simp⟩,
      hk⟩
    · split <;> assumption
    · dsimp only; rw [hv.truthy]; split <;> rfl
  | @seq κ s e k d sc ρ b tail he hb ht hk ih =>
    intro σ h x hi hv
    exact Sim.one (W := W) rfl ⟨hi, sc, k, tail, he, hb, rfl, ht, hk⟩
  | @set κ s e k d sc ρ x he hk ih =>
    intro σ h y hi hv
    simp only [Scheme.step]
    rcases he.addr hi (x := x) with ⟨h₁, h₂⟩ | ⟨l, h₁, h₂⟩
    · rw [h₁, h₂]
      refine Sim.one (W := W) rfl (Repr.value ⟨hi.pairs, hi.env, hi.args, hi.ids, fun g => ?_,
        hi.regs⟩ hv hk)
      simp only [update]
      split
      · exact hv
      · exact hi.globals g
    · rw [h₁]
      dsimp only
      cases hl : σ.vars l with
      | none => trivial
      | some sv =>
        obtain ⟨cells, h₃, h₄⟩ := h₂.store hi hv hl
        exact Sim.one h₃ (Repr.value h₄ hv hk)
  | @install κ s e k d i hk ih =>
    intro σ h x hi hv
    refine Sim.one (W := W) rfl (Repr.value ⟨hi.pairs, hi.env, hi.args, hi.ids, hi.globals,
      fun j => ?_⟩ hv hk)
    simp only [update]
    split
    · exact hv
    · exact hi.regs j
  | @arg κ s e k d sc ρ id todo vs f xs tail he hp hf ha ht hk ih =>
    intro σ h x hi hv
    simp only [Scheme.step]
    by_cases hpend : σ.pending id = true
    · rw [if_pos hpend]
      obtain ⟨hW, hi'⟩ := hi.push ha hpend hv
      exact Sim.one rfl (Repr.operands (sc := sc) (σ := σ.redeem id) hi' rfl (he.mono hW) hp hf
        (if_pos rfl) ht (hk.mono hW))
    · rw [if_neg hpend]; trivial
  | @fn κ s e k d id vs xs tail ha ht hk ih =>
    intro σ h x hi hv
    simp only [Scheme.step]
    by_cases hpend : σ.pending id = true
    · rw [if_pos hpend]
      exact hi.apply hPQ ha hpend hv ht hk
    · rw [if_neg hpend]; trivial
  | @init κ s e k d sc ρ id todo vs locs body xs ys l tail hl he hp hb ha hn hlen ht hk ih =>
    intro σ h x hi hv
    simp only [Scheme.step]
    by_cases hpend : σ.pending id = true
    · rw [if_pos hpend]
      cases todo with
      | nil =>
        obtain ⟨W', hW, hi'⟩ := hi.letrec ha hpend hv hl hn (by simpa using hlen)
        have hcell : ((h.cells.cons x xs).cell l).2 = e := by
          rw [Cells.cons_old]
          · exact (hi.env _ _ hl).parent
          · rintro rfl
            rw [hi.unalloc (Nat.le_refl _)] at hl; cases hl
        obtain ⟨d', h₁, h₂⟩ := letrec_enter (Q := Q) (xs := .pair h.cells.next)
          (c' := comp free ((ys, none) :: sc) body [.ret] true) ht (hk.mono hW)
          (h := { h with cells := h.cells.cons x xs }) (l := l) hcell
        exact Sim.step (w := 0) rfl (Nat.le_refl _) (Sim.step (w := 0) rfl (Nat.le_refl _) (Sim.one (W := W') h₁ ⟨hi',
          (ys, none) :: sc, [.ret], true, he.mono hW, hb, rfl, ⟨fun _ => ⟨rfl, rfl⟩, by simp⟩,
          h₂ _⟩))
      | cons a todo =>
        obtain ⟨hW, hi'⟩ := hi.push ha hpend hv
        refine Sim.one rfl ⟨hi', (ys, none) :: sc, _, false, he.mono hW, hp a (by simp), rfl,
          ⟨by simp, by simp⟩, ?_⟩
        refine .init (hW.env _ _ hl) (he.mono hW) (fun b hb' => hp b (by simp [hb'])) hb
          (if_pos rfl) hn ?_ ht (hk.mono hW)
        simp only [List.length_cons] at hlen ⊢
        omega
    · rw [if_neg hpend]; trivial
  | @callcc κ e d id xs ha hk ih =>
    intro σ h x hi hv
    simp only [Scheme.step]
    by_cases hpend : σ.pending id = true
    · rw [if_pos hpend]
      exact hi.apply hPQ (tail := true) ha hpend hv ⟨fun _ => ⟨rfl, rfl⟩, by simp⟩ hk
    · rw [if_neg hpend]; trivial

/-- Every step of the specification is followed by the machine. -/
theorem simulation {P : Scheme.Prims} {Q : Prims} (hPQ : PrimsOK free P Q) {W : World}
    {st : Scheme.State} {m : State} (hr : Repr free W st m) :
    Sim free Q (weight st) m (Scheme.step free P st) := by
  obtain ⟨ctl, κ, σ⟩ := st
  cases ctl with
  | eval e ρ => exact sim_eval hr
  | value v =>
    obtain ⟨s, me, mc, d, h⟩ := m
    obtain ⟨hi, x, s', hs, hv, hk⟩ := hr
    dsimp only at hi hs hv hk
    subst hs
    exact sim_value hPQ hk hi hv

end Meevax.Secd
