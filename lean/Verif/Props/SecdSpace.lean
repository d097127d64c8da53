import Verif.Lemmas.SecdSpace
import Verif.Props.TailLoop

/-! C35 and C40: the control space of compiled programs, and their stack discipline. -/

namespace Meevax.Secd

open Scheme

/-- The nesting of a program. -/
def nestingOf (es : List Expr) : Nat := nestingArgs es

theorem le_nestingArgs {es : List Expr} {e : Expr} (h : e ∈ es) : e.nesting ≤ nestingArgs es := by
  induction es with
  | nil => cases h
  | cons a es ih =>
    simp only [nestingArgs]
    rcases List.mem_cons.1 h with rfl | h
    · omega
    · have := ih h; omega

theorem program_ok {G : Globals} {Q : Prims} (hQ : Inert Q) {forms : List Form} {es : List Expr}
    {codes : List Code} (hp : List.Forall₂ (fun f e => Parse G [] f (.expr e)) forms es)
    (hpl : ∀ e ∈ es, Placed false e)
    (hc : List.Forall₂ (fun f c => compile G f = some c) forms codes) (g r : Nat → Base) {m : State}
    (hm : Reaches Q (Secd.initial g r) codes m) :
    ∃ t js, StateOk (nestingOf es) t js m := by
  refine reaches_ok hQ hm (initial_ok g r) ?_
  rw [forall₂_unique compile_unique hc (compile_forms hp hpl)]
  intro c hc
  obtain ⟨e, he, rfl⟩ := List.mem_map.1 hc
  have := le_nestingArgs he
  exact comp_ok _ _ e _ false true [] 0 (hpl e he) (by simp) (by simpa [nestingOf] using this)
    (by simpa [nestingOf] using this) .stop

/-- **C40.** No compiled program, in error or not, ever runs off the end of its code, or looks for an
operand on the stack or for an entry of the dump that is not there.  `Inert` holds of primitive
procedures that make no closures or continuations of their own (`core_inert`). -/
theorem C40_no_underflow {G : Globals} {Q : Prims} (hQ : Inert Q) {forms : List Form}
    {es : List Expr} {codes : List Code}
    (hp : List.Forall₂ (fun f e => Parse G [] f (.expr e)) forms es)
    (hpl : ∀ e ∈ es, Placed false e)
    (hc : List.Forall₂ (fun f c => compile G f = some c) forms codes) (g r : Nat → Base) {m : State}
    (hm : Reaches Q (Secd.initial g r) codes m) : ¬ Underflow m := by
  obtain ⟨t, js, h⟩ := program_ok hQ hp hpl hc g r hm
  exact not_underflow h

/-- **C35.** The whole control space, stack and dump, is at every moment at most a constant times the
number of calls that have not returned; the constant depends on the nesting of the program text only.
The program may be in error, and use continuations at will. -/
theorem C35_space_per_call {G : Globals} {Q : Prims} (hQ : Inert Q) {forms : List Form}
    {es : List Expr} {codes : List Code}
    (hp : List.Forall₂ (fun f e => Parse G [] f (.expr e)) forms es)
    (hpl : ∀ e ∈ es, Placed false e)
    (hc : List.Forall₂ (fun f c => compile G f = some c) forms codes) (g r : Nat → Base) {m : State}
    (hm : Reaches Q (Secd.initial g r) codes m) :
    m.space ≤ (2 * nestingOf es + 1) * (m.d.frames + 1) := by
  obtain ⟨t, js, h⟩ := program_ok hQ hp hpl hc g r hm
  exact h.space

/-- **C35.** The control space is at most a constant times the depth of the continuation of the
program, which a tail call does not deepen (`C35_call_keeps_continuation`). -/
theorem C35_control_space {G : Globals} {P : Scheme.Prims} {Q : Prims}
    (hPQ : PrimsOK G.free P Q) (hQ : Inert Q) {forms : List Form} {es : List Expr} {codes : List Code}
    (hp : List.Forall₂ (fun f e => Parse G [] f (.expr e)) forms es)
    (hpl : ∀ e ∈ es, Placed false e)
    (hc : List.Forall₂ (fun f c => compile G f = some c) forms codes) (g r : Nat → Base)
    (hf : ¬ Faulty G.free P (Scheme.initial g r) es) {m : State}
    (hm : Reaches Q (Secd.initial g r) codes m) :
    ∃ st, Scheme.Reaches G.free P (Scheme.initial g r) es st ∧
      m.space ≤ (2 * nestingOf es + 1) * (st.κ.depth + 2) := by
  obtain ⟨st, h₁, h₂⟩ := C35_control_stack_partial hPQ hp hpl hc g r hf hm
  refine ⟨st, h₁, Nat.le_trans (C35_space_per_call hQ hp hpl hc g r hm) ?_⟩
  exact Nat.mul_le_mul_left _ (by omega)

/-- **C35**, an instance: the loop runs forever in constant control space. -/
theorem C35_infinite_loop_space : ∃ c, compile G₀ loopForm = some c ∧
    ∀ n, ∃ m, run core n (start c (Secd.initial globals₀ regs₀)) = .running m ∧ m.space ≤ 44 := by
  obtain ⟨c, hc, h⟩ := C35_infinite_loop
  refine ⟨c, hc, fun n => ?_⟩
  obtain ⟨m, hm, hf⟩ := h n
  refine ⟨m, hm, Nat.le_trans (C35_space_per_call core_inert loop_parse loop_placed (.cons hc .nil)
    globals₀ regs₀ (.here n hm)) ?_⟩
  have : nestingOf [loopExpr] = 5 := rfl
  rw [this]
  calc (2 * 5 + 1) * (m.d.frames + 1) ≤ (2 * 5 + 1) * (3 + 1) := Nat.mul_le_mul_left _ (by omega)
    _ = 44 := rfl

end Meevax.Secd
