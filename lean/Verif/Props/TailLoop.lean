import Verif.Props.SecdExamples

/-! C35: an infinite loop of tail calls. -/

namespace Meevax.Secd

open Scheme

/-- `(letrec ((loop (lambda (x) (loop (cons 'a x))))) (loop '()))`. -/
def loopForm : Form :=
  ls [sy 5, ls [ls [sy 40, ls [sy 1, ls [sy 41],
    ls [sy 40, ls [sy 10, ls [sy 0, sy 50], sy 41]]]]], ls [sy 40, ls [sy 0, .nil]]]

def loopBody : Expr := .app (.var 40) [.app (.var 10) [.const (.sym 50), .var 41]]

def loopExpr : Expr :=
  .letrec [40] [.lam [41] none loopBody] (.app (.var 40) [.const .nil])

theorem loop_parse : List.Forall₂ (fun f e => Parse G₀ [] f (.expr e)) [loopForm] [loopExpr] := by
  refine .cons ?_ .nil
  unfold loopForm loopExpr loopBody
  parse

theorem loop_placed : ∀ e ∈ [loopExpr], Placed false e := by
  intro e he
  cases List.mem_singleton.1 he
  refine .letrec _ _ rfl ?_ ?_
  · intro e he; cases List.mem_singleton.1 he; unfold loopBody; placed
  · placed

/-- The states at the beginning of an iteration. -/
structure LoopState (st : Scheme.State) (l : Nat) (v : Val) : Prop where
  ctl : st.ctl = .eval loopBody [(41, l), (40, 0)]
  κ : st.κ = .halt
  lt : l < st.σ.nvars
  x : st.σ.vars l = some v
  loop : st.σ.vars 0 = some (.closure [41] none loopBody [(40, 0)])
  cons : st.σ.globals 10 = .prim 0

theorem loop_iteration {st : Scheme.State} {l : Nat} {v : Val} (h : LoopState st l v) :
    (∀ n, n ≤ 10 → ∃ st', Scheme.run G₀.free Scheme.core n st = .running st' ∧ st'.κ.depth ≤ 2) ∧
    ∃ st' l' v', LoopState st' l' v' ∧
      ∀ n, Scheme.run G₀.free Scheme.core (n + 11) st = Scheme.run G₀.free Scheme.core n st' := by
  obtain ⟨ctl, κ, σ⟩ := st
  obtain ⟨rfl, rfl, hl, hx, hloop, hcons⟩ := h
  dsimp only at hl hx hloop hcons
  have hf : G₀.free = fun x => x := rfl
  have hlk : ∀ l : Nat, List.lookup (41 : Nat) [(41, l), (40, 0)] = some l := fun l => rfl
  have hlk' : ∀ l : Nat, List.lookup (40 : Nat) [(41, l), (40, 0)] = some 0 := fun l => rfl
  have hlk'' : ∀ l : Nat, List.lookup (10 : Nat) [(41, l), (40, 0)] = none := fun l => rfl
  have h₁ : σ.nid ≠ σ.nid + 1 + 1 := by omega
  have h₂ : σ.nid ≠ σ.nid + 1 + 1 + 1 := by omega
  refine ⟨fun n hn => ?_, ?_⟩
  · have : n = 0 ∨ n = 1 ∨ n = 2 ∨ n = 3 ∨ n = 4 ∨ n = 5 ∨ n = 6 ∨ n = 7 ∨ n = 8 ∨ n = 9 ∨ n = 10 := by
      omega
    rcases this with rfl | rfl | rfl | rfl | rfl | rfl | rfl | rfl | rfl | rfl | rfl <;>
      simp [Scheme.run, Scheme.step, loopBody, operands, Store.issue, Store.redeem, update, hlk, hlk',
        hlk'', hx, hloop, hcons, hf, Scheme.apply, Scheme.core, Kont.depth, h₁, h₂]
  · have : ∃ st', st'.ctl = .eval loopBody [(41, σ.nvars), (40, 0)] ∧ st'.κ = .halt ∧
        st'.σ.nvars = σ.nvars + 1 ∧ st'.σ.vars = (fun l => if l = σ.nvars then
          some (.pair σ.pairs.next) else σ.vars l) ∧ st'.σ.globals = σ.globals ∧
        ∀ n, Scheme.run G₀.free Scheme.core (n + 11) ⟨.eval loopBody [(41, l), (40, 0)], .halt, σ⟩ =
          Scheme.run G₀.free Scheme.core n st' := by
      refine ⟨⟨.eval loopBody [(41, σ.nvars), (40, 0)], .halt, ?_⟩, rfl, rfl, ?_, ?_, ?_, fun n => ?_⟩
      rotate_left 4
      · simp [Scheme.run, Scheme.step, loopBody, operands, Store.issue, Store.redeem, update, hlk,
          hlk', hlk'', hx, hloop, hcons, hf, Scheme.apply, Scheme.core, h₁, h₂, bindings, Store.bind]
        rfl
      · rfl
      · funext l'
        dsimp only
        by_cases h : l' = σ.nvars
        · subst h; simp
        · have : ¬ (σ.nvars ≤ l' ∧ l' < σ.nvars + 1) := by omega
          simp [h, this]
      · rfl
    obtain ⟨st', h₃, h₄, h₅, h₆, h₇, h₈⟩ := this
    refine ⟨st', σ.nvars, .pair σ.pairs.next, ⟨h₃, h₄, by omega, by simp [h₆], ?_, by rw [h₇, hcons]⟩, h₈⟩
    rw [h₆]
    have : 0 ≠ σ.nvars := by omega
    simp [this, hloop]

theorem loop_forever (n : Nat) : ∀ {st : Scheme.State} {l : Nat} {v : Val}, LoopState st l v →
    ∃ st', Scheme.run G₀.free Scheme.core n st = .running st' ∧ st'.κ.depth ≤ 2 := by
  induction n using Nat.strongRecOn with
  | ind n ih =>
    intro st l v h
    obtain ⟨h₁, st', l', v', h₂, h₃⟩ := loop_iteration h
    by_cases hn : n ≤ 10
    · exact h₁ n hn
    · obtain ⟨k, rfl⟩ := Nat.exists_eq_add_of_le (show 11 ≤ n by omega)
      rw [Nat.add_comm, h₃]
      exact ih k (by omega) h₂

theorem loop_starts : (∀ n, n ≤ 7 → ∃ st', Scheme.run G₀.free Scheme.core n
      (toplevel loopExpr (Scheme.initial globals₀ regs₀)) = .running st' ∧ st'.κ.depth ≤ 2) ∧
    ∃ st' l' v', LoopState st' l' v' ∧ ∀ n, Scheme.run G₀.free Scheme.core (n + 8)
      (toplevel loopExpr (Scheme.initial globals₀ regs₀)) = Scheme.run G₀.free Scheme.core n st' := by
  refine ⟨fun n hn => ?_, _, 1, .datum .nil, ?_, fun n => rfl⟩
  · have : n = 0 ∨ n = 1 ∨ n = 2 ∨ n = 3 ∨ n = 4 ∨ n = 5 ∨ n = 6 ∨ n = 7 := by omega
    rcases this with rfl | rfl | rfl | rfl | rfl | rfl | rfl | rfl <;>
      exact ⟨_, rfl, Nat.le_of_ble_eq_true rfl⟩
  · exact ⟨rfl, rfl, Nat.lt_of_lt_of_le Nat.one_lt_two (Nat.le_of_ble_eq_true rfl), rfl, rfl, rfl⟩

theorem loop_runs (n : Nat) : ∃ st', Scheme.run G₀.free Scheme.core n
    (toplevel loopExpr (Scheme.initial globals₀ regs₀)) = .running st' ∧ st'.κ.depth ≤ 2 := by
  obtain ⟨h₁, st', l, v, h₂, h₃⟩ := loop_starts
  by_cases hn : n ≤ 7
  · exact h₁ n hn
  · obtain ⟨k, rfl⟩ := Nat.exists_eq_add_of_le (show 8 ≤ n by omega)
    rw [Nat.add_comm, h₃]
    exact loop_forever k h₂

/-- **C35**, an instance: this loop of tail calls goes on forever, and there are never more than three
calls that have not returned. -/
theorem C35_infinite_loop : ∃ c, compile G₀ loopForm = some c ∧
    ∀ n, ∃ m, run core n (start c (Secd.initial globals₀ regs₀)) = .running m ∧ m.d.frames ≤ 3 := by
  have hc := compile_forms loop_parse loop_placed
  have hb : Scheme.Behaves G₀.free Scheme.core (Scheme.initial globals₀ regs₀) [loopExpr] []
      .forever := .forever fun n => by obtain ⟨st, h, -⟩ := loop_runs n; exact ⟨st, h⟩
  have hf := behaves_not_faulty hb
  have hmb := behaves_of core_ok hb (initial_inv globals₀ regs₀) loop_placed
  refine ⟨_, by cases hc; assumption, fun n => ?_⟩
  cases hmb with
  | forever hr =>
    obtain ⟨m, hm⟩ := hr n
    obtain ⟨st, h₁, h₂⟩ := C35_control_stack_partial core_ok loop_parse loop_placed hc globals₀ regs₀
      hf (.here n hm)
    refine ⟨m, hm, ?_⟩
    cases h₁ with
    | here k hk =>
      obtain ⟨st', h₃, h₄⟩ := loop_runs k
      rw [hk] at h₃; cases h₃
      omega
    | later k hk _ => obtain ⟨st', h₃, -⟩ := loop_runs k; rw [hk] at h₃; cases h₃

end Meevax.Secd
