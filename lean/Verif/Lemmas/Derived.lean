import Verif.Spec.Surface
import Verif.Lemmas.SecdPlain

/-!
Derived expression types by means of the others: the translation, and the proof that it keeps the meaning.
`t` and `r` are names for the temporary variables.
-/

namespace Meevax.Surface

open Secd (Name Form)

/-- A sequence of expressions. -/
def seqs : List Scheme.Expr → Scheme.Expr
  | [] => .const .nil
  | [e] => e
  | e :: es => .seq e (seqs es)

/-- The commands of `do`, and the call for the next iteration. -/
def again (r : Name) (steps cmds : List Scheme.Expr) : Scheme.Expr := seqs (cmds ++ [.app (.var r) steps])

/-- `(let ((t a)) (if t t b))` -/
def orBody (t : Name) (b : Scheme.Expr) : Scheme.Expr := .lam [t] none (.ite (.var t) (.var t) b)

/-- `(let ((t a)) (if t (f t) b))` -/
def arrowBody (t : Name) (f b : Scheme.Expr) : Scheme.Expr :=
  .lam [t] none (.ite (.var t) (.app f [.var t]) b)

/-- The body of the procedure of `do`. -/
def loopBody (t r : Name) (test : Scheme.Expr) (res cmds steps : List Scheme.Expr) : Scheme.Expr :=
  match res with
  | [] => .app (orBody t (again r steps cmds)) [test]
  | res => .ite test (seqs res) (again r steps cmds)

mutual

/-- The expression without derived expression types. -/
def Expr.core (t r : Name) : Expr → Scheme.Expr
  | .const d => .const d
  | .var x => .var x
  | .lam fs rest body => .lam fs rest (body.core t r)
  | .app f args => .app (f.core t r) (cores t r args)
  | .ite a b c => .ite (a.core t r) (b.core t r) (c.core t r)
  | .set x e => .set x (e.core t r)
  | .letrec xs es body => .letrec xs (cores t r es) (body.core t r)
  | .seq a b => .seq (a.core t r) (b.core t r)
  | .orElse a b => .app (orBody t (b.core t r)) [a.core t r]
  | .arrow a f b => .app (arrowBody t (f.core t r) (b.core t r)) [a.core t r]
  | .let_ xs es body => .app (.lam xs none (body.core t r)) (cores t r es)
  | .named f xs es body => .letrec [f] [.lam xs none (body.core t r)] (.app (.var f) (cores t r es))
  | .loop xs es steps test res commands =>
    .letrec [r] [.lam xs none (loopBody t r (test.core t r) (cores t r res) (cores t r commands)
      (cores t r steps))] (.app (.var r) (cores t r es))

def cores (t r : Name) : List Expr → List Scheme.Expr
  | [] => []
  | e :: es => e.core t r :: cores t r es

end

theorem avoid_iff {H : Name → Prop} : ∀ {es : List Expr}, Avoid es H ↔ ∀ e ∈ es, e.Avoids H
  | [] => by simp [Avoid]
  | e :: es => by simp [Avoid, avoid_iff (es := es)]

theorem cores_eq (t r : Name) : ∀ es : List Expr, cores t r es = es.map (Expr.core t r)
  | [] => rfl
  | e :: es => by simp [cores, cores_eq t r es]

theorem Expr.Avoids.sequence {H : Name → Prop} : ∀ {es : List Expr}, Avoid es H → (sequence es).Avoids H
  | [], _ => by simp [Surface.sequence, Expr.Avoids]
  | [e], h => by simpa [Surface.sequence, Avoid] using h
  | e :: e' :: es, h => by
    simp only [Surface.sequence, Expr.Avoids]
    exact ⟨h.1, Expr.Avoids.sequence h.2⟩

theorem core_sequence (t r : Name) : ∀ es : List Expr, (sequence es).core t r = seqs (cores t r es)
  | [] => by simp [sequence, seqs, cores, Expr.core]
  | [e] => by simp [sequence, seqs, cores]
  | e :: e' :: es => by
    have := core_sequence t r (e' :: es)
    simp only [sequence, seqs, cores, Expr.core] at this ⊢
    rw [this]

section

variable (t r : Name)

/-- The environments agree outside `H`. -/
def EnvRel (μ : Nat → Nat) (nx : Nat) (H : Name → Prop) (ρ : Env) (ρ' : Scheme.Env) : Prop :=
  ∀ x, ¬ H x → ρ'.lookup x = (ρ.lookup x).map μ ∧ ∀ l, ρ.lookup x = some l → l < nx

/-- Values that mean the same. -/
inductive VRel (μ : Nat → Nat) (nx : Nat) : Val → Scheme.Val → Prop where
  | datum (d : Form) : VRel μ nx (.datum d) (.datum d)
  | pair (l : Nat) : VRel μ nx (.pair l) (.pair l)
  | prim (p : Nat) : VRel μ nx (.prim p) (.prim p)
  | closure {H : Name → Prop} {body : Expr} {ρ : Env} {ρ' : Scheme.Env} (fs : List Name)
      (rest : Option Name) (ht : H t) (hr : H r) (hb : body.Avoids H) (hρ : EnvRel μ nx H ρ ρ') :
      VRel μ nx (.closure fs rest body ρ) (.closure fs rest (body.core t r) ρ')

/-- The procedure of a `do` expression. -/
def loopClosure (L : Loop) (l : Nat) (ρ' : Scheme.Env) : Scheme.Val :=
  .closure L.xs none (loopBody t r (L.test.core t r) (cores t r L.res) (cores t r L.commands)
    (cores t r L.steps)) ((r, l) :: ρ')

structure LoopRel (μ : Nat → Nat) (nx : Nat) (H : Name → Prop) (L : Loop) (ρ' : Scheme.Env) : Prop where
  t : H t
  r : H r
  xs : ∀ x ∈ L.xs, ¬ H x
  steps : Avoid L.steps H
  test : L.test.Avoids H
  res : Avoid L.res H
  commands : Avoid L.commands H
  env : EnvRel μ nx H L.ρ ρ'

/-- Continuations that mean the same: the tickets, and the locations of temporary variables with their
values. -/
inductive KRel (μ : Nat → Nat) (nx : Nat) :
    Kont → Scheme.Kont → List Nat → List (Nat × Scheme.Val) → Prop where
  | halt : KRel μ nx .halt .halt [] []
  | ite {H : Name → Prop} {a b : Expr} {ρ : Env} {ρ' : Scheme.Env} {κ : Kont} {κ' : Scheme.Kont}
      {is : List Nat} {ps : List (Nat × Scheme.Val)} (ht : H t) (hr : H r) (hρ : EnvRel μ nx H ρ ρ')
      (ha : a.Avoids H) (hb : b.Avoids H) (hκ : KRel μ nx κ κ' is ps) :
      KRel μ nx (.ite a b ρ κ) (.ite (a.core t r) (b.core t r) ρ' κ') is ps
  | seq {H : Name → Prop} {b : Expr} {ρ : Env} {ρ' : Scheme.Env} {κ : Kont} {κ' : Scheme.Kont}
      {is : List Nat} {ps : List (Nat × Scheme.Val)} (ht : H t) (hr : H r) (hρ : EnvRel μ nx H ρ ρ')
      (hb : b.Avoids H) (hκ : KRel μ nx κ κ' is ps) :
      KRel μ nx (.seq b ρ κ) (.seq (b.core t r) ρ' κ') is ps
  | set {H : Name → Prop} {x : Name} {ρ : Env} {ρ' : Scheme.Env} {κ : Kont} {κ' : Scheme.Kont}
      {is : List Nat} {ps : List (Nat × Scheme.Val)} (hρ : EnvRel μ nx H ρ ρ')
      (hx : ¬ H x) (hκ : KRel μ nx κ κ' is ps) :
      KRel μ nx (.set x ρ κ) (.set x ρ' κ') is ps
  | arg {H : Name → Prop} {todo : List Expr} {vs : List Val} {vs' : List Scheme.Val} {f : Expr} {ρ : Env}
      {ρ' : Scheme.Env} {κ : Kont} {κ' : Scheme.Kont}
      {is : List Nat} {ps : List (Nat × Scheme.Val)} (id : Nat) (ht : H t) (hr : H r)
      (hρ : EnvRel μ nx H ρ ρ') (ha : Avoid todo H) (hf : f.Avoids H)
      (hv : List.Forall₂ (VRel t r μ nx) vs vs') (hκ : KRel μ nx κ κ' is ps) :
      KRel μ nx (.arg todo vs f ρ κ) (.arg id (cores t r todo) vs' (f.core t r) ρ' κ') (id :: is) ps
  | fn {vs : List Val} {vs' : List Scheme.Val} {κ : Kont} {κ' : Scheme.Kont}
      {is : List Nat} {ps : List (Nat × Scheme.Val)} (id : Nat)
      (hv : List.Forall₂ (VRel t r μ nx) vs vs') (hκ : KRel μ nx κ κ' is ps) :
      KRel μ nx (.fn vs κ) (.fn id vs' κ') (id :: is) ps
  | init {H : Name → Prop} {todo : List Expr} {vs : List Val} {vs' : List Scheme.Val} {locs : List Nat}
      {body : Expr} {ρ : Env} {ρ' : Scheme.Env} {κ : Kont} {κ' : Scheme.Kont}
      {is : List Nat} {ps : List (Nat × Scheme.Val)} (id : Nat) (ht : H t) (hr : H r)
      (hρ : EnvRel μ nx H ρ ρ') (ha : Avoid todo H) (hl : ∀ l ∈ locs, l < nx) (hb : body.Avoids H)
      (hv : List.Forall₂ (VRel t r μ nx) vs vs') (hκ : KRel μ nx κ κ' is ps) :
      KRel μ nx (.init todo vs locs body ρ κ)
        (.init id (cores t r todo) vs' (locs.map μ) (body.core t r) ρ' κ') (id :: is) ps
  | orElse {H : Name → Prop} {b : Expr} {ρ : Env} {ρ' : Scheme.Env} {κ : Kont} {κ' : Scheme.Kont}
      {is : List Nat} {ps : List (Nat × Scheme.Val)} (id : Nat) (ht : H t) (hr : H r)
      (hρ : EnvRel μ nx H ρ ρ') (hb : b.Avoids H) (hκ : KRel μ nx κ κ' is ps) :
      KRel μ nx (.orElse b ρ κ) (.arg id [] [] (orBody t (b.core t r)) ρ' κ') (id :: is) ps
  | arrow {H : Name → Prop} {f b : Expr} {ρ : Env} {ρ' : Scheme.Env} {κ : Kont} {κ' : Scheme.Kont}
      {is : List Nat} {ps : List (Nat × Scheme.Val)} (id : Nat) (ht : H t) (hr : H r)
      (hρ : EnvRel μ nx H ρ ρ') (hf : f.Avoids H) (hb : b.Avoids H) (hκ : KRel μ nx κ κ' is ps) :
      KRel μ nx (.arrow f b ρ κ) (.arg id [] [] (arrowBody t (f.core t r) (b.core t r)) ρ' κ')
        (id :: is) ps
  | let_ {H : Name → Prop} {todo : List Expr} {vs : List Val} {vs' : List Scheme.Val} {xs : List Name}
      {body : Expr} {ρ : Env} {ρ' : Scheme.Env} {κ : Kont} {κ' : Scheme.Kont}
      {is : List Nat} {ps : List (Nat × Scheme.Val)} (id : Nat) (ht : H t) (hr : H r)
      (hρ : EnvRel μ nx H ρ ρ') (ha : Avoid todo H) (hb : body.Avoids H)
      (hv : List.Forall₂ (VRel t r μ nx) vs vs') (hκ : KRel μ nx κ κ' is ps) :
      KRel μ nx (.let_ todo vs xs body ρ κ)
        (.arg id (cores t r todo) vs' (.lam xs none (body.core t r)) ρ' κ') (id :: is) ps
  | named {H : Name → Prop} {todo : List Expr} {vs : List Val} {vs' : List Scheme.Val} {f : Name}
      {xs : List Name} {body : Expr} {ρ : Env} {ρ' : Scheme.Env} {κ : Kont} {κ' : Scheme.Kont}
      {is : List Nat} {ps : List (Nat × Scheme.Val)} (id l : Nat) (ht : H t) (hr : H r)
      (hρ : EnvRel μ nx H ρ ρ') (ha : Avoid todo (fun x => H x ∨ x = f)) (hb : body.Avoids H)
      (hv : List.Forall₂ (VRel t r μ nx) vs vs') (hκ : KRel μ nx κ κ' is ps) :
      KRel μ nx (.named todo vs f xs body ρ κ)
        (.arg id (cores t r todo) vs' (.var f) ((f, l) :: ρ') κ') (id :: is)
        ((l, .closure xs none (body.core t r) ((f, l) :: ρ')) :: ps)
  | loop {H : Name → Prop} {todo : List Expr} {vs : List Val} {vs' : List Scheme.Val} {L : Loop}
      {ρ : Env} {ρ' ρ₀ : Scheme.Env} {κ : Kont} {κ' : Scheme.Kont}
      {is : List Nat} {ps : List (Nat × Scheme.Val)} (id l : Nat) (hL : LoopRel t r μ nx H L ρ₀)
      (hρ : EnvRel μ nx H ρ ρ') (hl : ρ'.lookup r = some l) (ha : Avoid todo H)
      (hv : List.Forall₂ (VRel t r μ nx) vs vs') (hκ : KRel μ nx κ κ' is ps) :
      KRel μ nx (.loop todo vs L ρ κ) (.arg id (cores t r todo) vs' (.var r) ρ' κ') (id :: is)
        ((l, loopClosure t r L l ρ₀) :: ps)
  | test {H : Name → Prop} {L : Loop}
      {ρ : Env} {ρ' ρ₀ : Scheme.Env} {κ : Kont} {κ' : Scheme.Kont}
      {is : List Nat} {ps : List (Nat × Scheme.Val)} (l : Nat) (hL : LoopRel t r μ nx H L ρ₀)
      (hρ : EnvRel μ nx H ρ ρ') (hl : ρ'.lookup r = some l) (hres : L.res ≠ []) (hκ : KRel μ nx κ κ' is ps) :
      KRel μ nx (.test L ρ κ)
        (.ite (seqs (cores t r L.res)) (again r (cores t r L.steps) (cores t r L.commands)) ρ' κ') is
        ((l, loopClosure t r L l ρ₀) :: ps)
  | testOr {H : Name → Prop} {L : Loop}
      {ρ : Env} {ρ' ρ₀ : Scheme.Env} {κ : Kont} {κ' : Scheme.Kont}
      {is : List Nat} {ps : List (Nat × Scheme.Val)} (id l : Nat) (hL : LoopRel t r μ nx H L ρ₀)
      (hρ : EnvRel μ nx H ρ ρ') (hl : ρ'.lookup r = some l) (hres : L.res = []) (hκ : KRel μ nx κ κ' is ps) :
      KRel μ nx (.test L ρ κ)
        (.arg id [] [] (orBody t (again r (cores t r L.steps) (cores t r L.commands))) ρ' κ') (id :: is)
        ((l, loopClosure t r L l ρ₀) :: ps)
  | command {H : Name → Prop} {todo : List Expr} {L : Loop}
      {ρ : Env} {ρ' ρ₀ : Scheme.Env} {κ : Kont} {κ' : Scheme.Kont}
      {is : List Nat} {ps : List (Nat × Scheme.Val)} (l : Nat) (hL : LoopRel t r μ nx H L ρ₀)
      (hρ : EnvRel μ nx H ρ ρ') (hl : ρ'.lookup r = some l) (ha : Avoid todo H) (hκ : KRel μ nx κ κ' is ps) :
      KRel μ nx (.command todo L ρ κ) (.seq (again r (cores t r L.steps) (cores t r todo)) ρ' κ') is
        ((l, loopClosure t r L l ρ₀) :: ps)

structure PRel (μ : Nat → Nat) (nx : Nat) (p : Pairs) (p' : Scheme.Pairs) : Prop where
  next : p.next = p'.next
  fst : ∀ l, VRel t r μ nx (p.pair l).1 (p'.pair l).1
  snd : ∀ l, VRel t r μ nx (p.pair l).2 (p'.pair l).2

/-- Stores that mean the same. -/
structure SRel (μ : Nat → Nat) (σ : Store) (σ' : Scheme.Store) (ps : List (Nat × Scheme.Val)) : Prop where
  inj : ∀ i j, i < σ.nvars → j < σ.nvars → μ i = μ j → i = j
  lt : ∀ i, i < σ.nvars → μ i < σ'.nvars
  vars : ∀ i, i < σ.nvars → Option.Rel (VRel t r μ σ.nvars) (σ.vars i) (σ'.vars (μ i))
  pairs : PRel t r μ σ.nvars σ.pairs σ'.pairs
  globals : ∀ g, VRel t r μ σ.nvars (σ.globals g) (σ'.globals g)
  priv : ∀ lv ∈ ps, σ'.vars lv.1 = some lv.2 ∧ lv.1 < σ'.nvars ∧ ∀ i, i < σ.nvars → μ i ≠ lv.1
  nodup : (ps.map Prod.fst).Nodup

/-- States that mean the same. -/
inductive StRel : State → Scheme.State → Prop where
  | eval {μ : Nat → Nat} {H : Name → Prop} {e : Expr} {ρ : Env} {ρ' : Scheme.Env} {κ : Kont}
      {κ' : Scheme.Kont} {σ : Store} {σ' : Scheme.Store} {is : List Nat} {ps : List (Nat × Scheme.Val)}
      (ht : H t) (hr : H r) (hρ : EnvRel μ σ.nvars H ρ ρ') (he : e.Avoids H)
      (hκ : KRel t r μ σ.nvars κ κ' is ps) (hσ : SRel t r μ σ σ' ps) (hi : Scheme.Tickets σ' is) :
      StRel ⟨.eval e ρ, κ, σ⟩ ⟨.eval (e.core t r) ρ', κ', σ'⟩
  | value {μ : Nat → Nat} {v : Val} {v' : Scheme.Val} {κ : Kont}
      {κ' : Scheme.Kont} {σ : Store} {σ' : Scheme.Store} {is : List Nat} {ps : List (Nat × Scheme.Val)}
      (hv : VRel t r μ σ.nvars v v')
      (hκ : KRel t r μ σ.nvars κ κ' is ps) (hσ : SRel t r μ σ σ' ps) (hi : Scheme.Tickets σ' is) :
      StRel ⟨.value v, κ, σ⟩ ⟨.value v', κ', σ'⟩

end

/-- A larger world. -/
def Ext (μ μ' : Nat → Nat) (nx nx' : Nat) : Prop := nx ≤ nx' ∧ ∀ i, i < nx → μ' i = μ i

section

variable {t r : Name} {μ μ' : Nat → Nat} {nx nx' : Nat}

theorem EnvRel.mono {H : Name → Prop} {ρ : Env} {ρ' : Scheme.Env} (h : EnvRel μ nx H ρ ρ')
    (he : Ext μ μ' nx nx') : EnvRel μ' nx' H ρ ρ' := by
  intro x hx
  obtain ⟨h₁, h₂⟩ := h x hx
  refine ⟨?_, fun l hl => Nat.lt_of_lt_of_le (h₂ l hl) he.1⟩
  rw [h₁]
  cases hl : ρ.lookup x with
  | none => rfl
  | some l => simp [he.2 l (h₂ l hl)]

theorem VRel.mono {v : Val} {v' : Scheme.Val} (h : VRel t r μ nx v v')
    (he : Ext μ μ' nx nx') : VRel t r μ' nx' v v' := by
  cases h with
  | datum d => exact .datum d
  | pair l => exact .pair l
  | prim p => exact .prim p
  | closure fs rest ht hr hb hρ => exact .closure fs rest ht hr hb (hρ.mono he)

theorem vrels_mono {vs : List Val} {vs' : List Scheme.Val} (h : List.Forall₂ (VRel t r μ nx) vs vs')
    (he : Ext μ μ' nx nx') : List.Forall₂ (VRel t r μ' nx') vs vs' :=
  h.imp fun _ _ h => h.mono he

theorem LoopRel.mono {H : Name → Prop} {L : Loop} {ρ' : Scheme.Env} (h : LoopRel t r μ nx H L ρ')
    (he : Ext μ μ' nx nx') : LoopRel t r μ' nx' H L ρ' :=
  ⟨h.t, h.r, h.xs, h.steps, h.test, h.res, h.commands, h.env.mono he⟩

theorem KRel.mono {κ : Kont} {κ' : Scheme.Kont} {is : List Nat} {ps : List (Nat × Scheme.Val)}
    (h : KRel t r μ nx κ κ' is ps) (he : Ext μ μ' nx nx') : KRel t r μ' nx' κ κ' is ps := by
  induction h with
  | halt => exact .halt
  | ite ht hr hρ ha hb hκ ih => exact .ite ht hr (hρ.mono he) ha hb ih
  | seq ht hr hρ hb hκ ih => exact .seq ht hr (hρ.mono he) hb ih
  | set hρ hx hκ ih => exact .set (hρ.mono he) hx ih
  | arg id ht hr hρ ha hf hv hκ ih => exact .arg id ht hr (hρ.mono he) ha hf (vrels_mono hv he) ih
  | fn id hv hκ ih => exact .fn id (vrels_mono hv he) ih
  | init id ht hr hρ ha hl hb hv hκ ih =>
    rename_i H todo vs vs' locs body ρ ρ' κ κ' is ps
    have : locs.map μ = locs.map μ' := List.map_congr_left fun l h => (he.2 l (hl l h)).symm
    rw [this]
    exact .init id ht hr (hρ.mono he) ha (fun l h => Nat.lt_of_lt_of_le (hl l h) he.1) hb (vrels_mono hv he) ih
  | orElse id ht hr hρ hb hκ ih => exact .orElse id ht hr (hρ.mono he) hb ih
  | arrow id ht hr hρ hf hb hκ ih => exact .arrow id ht hr (hρ.mono he) hf hb ih
  | let_ id ht hr hρ ha hb hv hκ ih => exact .let_ id ht hr (hρ.mono he) ha hb (vrels_mono hv he) ih
  | named id l ht hr hρ ha hb hv hκ ih =>
    exact .named id l ht hr (hρ.mono he) ha hb (vrels_mono hv he) ih
  | loop id l hL hρ hl ha hv hκ ih => exact .loop id l (hL.mono he) (hρ.mono he) hl ha (vrels_mono hv he) ih
  | test l hL hρ hl hres hκ ih => exact .test l (hL.mono he) (hρ.mono he) hl hres ih
  | testOr id l hL hρ hl hres hκ ih => exact .testOr id l (hL.mono he) (hρ.mono he) hl hres ih
  | command l hL hρ hl ha hκ ih => exact .command l (hL.mono he) (hρ.mono he) hl ha ih

theorem Ext.refl : Ext μ μ nx nx := ⟨Nat.le_refl _, fun _ _ => rfl⟩

end

end Meevax.Surface
