import Verif.Lemmas.SecdPlain

/-! C34, C35 and C40: compiled programs. -/

namespace Meevax.Secd

open Scheme

/-- The code of every form. -/
theorem compile_forms {G : Globals} {forms : List Form} {es : List Expr}
    (hp : List.Forall₂ (fun f e => Parse G [] f (.expr e)) forms es)
    (hpl : ∀ e ∈ es, Placed false e) :
    List.Forall₂ (fun f c => compile G f = some c) forms
      (es.map fun e => comp G.free [] e [.stop] false) := by
  induction hp with
  | nil => exact .nil
  | cons h _ ih =>
    exact .cons (parse_generate h .nil _ _ (by simp) (hpl _ (by simp)))
      (ih fun e he => hpl e (by simp [he]))

theorem forall₂_unique {α β : Type} {R : α → β → Prop} (hR : ∀ a b c, R a b → R a c → b = c)
    {as : List α} {bs cs : List β} (h : List.Forall₂ R as bs) (h' : List.Forall₂ R as cs) :
    bs = cs := by
  induction h generalizing cs with
  | nil => cases h'; rfl
  | cons h₁ _ ih =>
    cases h' with
    | cons h₂ h₃ => rw [hR _ _ _ h₁ h₂, ih h₃]

theorem compile_unique {G : Globals} (f : Form) (a b : Code) (ha : compile G f = some a)
    (hb : compile G f = some b) : a = b := Option.some.inj (ha.symm.trans hb)

/-! ### C34: compiled code computes what the source means -/

/-- **C34.** A program of forms that parse is compiled, and what the machine then does with the code
is what the program means: the same values, to every depth of printing, form by form, the same
object raised, or no end.  Excluded are programs in error by R7RS and the second use of an operand's
continuation (`Faulty`).
Missing: `call-with-current-continuation!` elsewhere than in tail position (`Placed`), where the
property fails (`C38_nontail_fails`, `C38_operand_call_fails`), and the second use of an operand's
continuation, where it fails too (`C38_reentry_fails`). -/
theorem C34_compiled_program_partial {G : Globals} {P : Scheme.Prims} {Q : Prims}
    (hPQ : PrimsOK G.free P Q) {forms : List Form} {es : List Expr}
    (hp : List.Forall₂ (fun f e => Parse G [] f (.expr e)) forms es)
    (hpl : ∀ e ∈ es, Placed false e) (g r : Nat → Base)
    (hf : ¬ Faulty G.free P (Scheme.initial g r) es) :
    ∃ codes, List.Forall₂ (fun f c => compile G f = some c) forms codes ∧
      ∀ outs x, Behaves Q (Secd.initial g r) codes outs x ↔
        Scheme.Behaves G.free P (Scheme.initial g r) es outs x := by
  refine ⟨_, compile_forms hp hpl, fun outs x => ⟨fun hb => ?_, fun hb => ?_⟩⟩
  · rcases behaves_or_faulty (free := G.free) P es (Scheme.initial g r) with ⟨outs', x', hb'⟩ | h
    · obtain ⟨rfl, rfl⟩ := hb.det (behaves_of hPQ hb' (initial_inv g r) hpl)
      exact hb'
    · exact absurd h hf
  · exact behaves_of hPQ hb (initial_inv g r) hpl

/-- **C34** for the procedures of Model/Builtins.lean and programs without
`call-with-current-continuation!`.  Only programs in error are excluded.
Missing: continuations. -/
theorem C34_without_callcc_partial {G : Globals} {forms : List Form} {es : List Expr}
    (hp : List.Forall₂ (fun f e => Parse G [] f (.expr e)) forms es) (hpl : ∀ e ∈ es, Plain e)
    (g r : Nat → Base) (hf : ¬ InError G.free Scheme.core (Scheme.initial g r) es) :
    ∃ codes, List.Forall₂ (fun f c => compile G f = some c) forms codes ∧
      ∀ outs x, Behaves core (Secd.initial g r) codes outs x ↔
        Scheme.Behaves G.free Scheme.core (Scheme.initial g r) es outs x := by
  refine C34_compiled_program_partial core_ok hp ?_ g r
    fun h => hf (Plain.faulty core_plain h (Plain.initial g r) hpl)
  clear hf
  induction hp with
  | nil => simp
  | cons h _ ih =>
    intro e he
    rcases List.mem_cons.1 he with rfl | he
    · exact h.placed (hpl _ (by simp)) false
    · exact ih (fun e he => hpl e (by simp [he])) e he

/-- A program that is not in error has a behaviour, hence so has its code. -/
theorem C34_defined_partial {G : Globals} {P : Scheme.Prims} {Q : Prims} (hPQ : PrimsOK G.free P Q)
    {forms : List Form} {es : List Expr} {codes : List Code}
    (hp : List.Forall₂ (fun f e => Parse G [] f (.expr e)) forms es)
    (hpl : ∀ e ∈ es, Placed false e)
    (hc : List.Forall₂ (fun f c => compile G f = some c) forms codes) (g r : Nat → Base)
    (hf : ¬ Faulty G.free P (Scheme.initial g r) es) :
    ∃ outs x, Behaves Q (Secd.initial g r) codes outs x := by
  rw [forall₂_unique compile_unique hc (compile_forms hp hpl)]
  rcases behaves_or_faulty (free := G.free) P es (Scheme.initial g r) with ⟨outs', x', hb'⟩ | h
  · exact ⟨_, _, behaves_of hPQ hb' (initial_inv g r) hpl⟩
  · exact absurd h hf

/-! ### C40: no undefined behaviour -/

/-- **C40.** The code of a program that is not in error, and that uses no operand's continuation
twice, never runs into undefined behaviour: there are always enough operands on the stack, the
control list does not run out, every environment has the frames and cells that are addressed.
Missing: programs in error (`C40_arity_fails`, `C40_letrec_fails`, `C40_car_fails`), and misplaced
`call-with-current-continuation!` (`C38_nontail_fails`). -/
theorem C40_never_stuck_partial {G : Globals} {P : Scheme.Prims} {Q : Prims}
    (hPQ : PrimsOK G.free P Q) {forms : List Form} {es : List Expr} {codes : List Code}
    (hp : List.Forall₂ (fun f e => Parse G [] f (.expr e)) forms es)
    (hpl : ∀ e ∈ es, Placed false e)
    (hc : List.Forall₂ (fun f c => compile G f = some c) forms codes) (g r : Nat → Base)
    (hf : ¬ Faulty G.free P (Scheme.initial g r) es) : ¬ Stuck Q (Secd.initial g r) codes := by
  obtain ⟨outs, x, hb⟩ := C34_defined_partial hPQ hp hpl hc g r hf
  exact hb.not_stuck

/-! ### C35: tail calls -/

/-- **C35.** At any time the calls that have not returned are at most one more than the
continuation of the program is deep; and in the specification a tail call does not deepen it.
Missing: the entries that `%select` pushes for the arms of a conditional that is not in tail
position are not counted; `C35_control_space` of Props/SecdSpace.lean counts them, and the stack. -/
theorem C35_control_stack_partial {G : Globals} {P : Scheme.Prims} {Q : Prims}
    (hPQ : PrimsOK G.free P Q) {forms : List Form} {es : List Expr} {codes : List Code}
    (hp : List.Forall₂ (fun f e => Parse G [] f (.expr e)) forms es)
    (hpl : ∀ e ∈ es, Placed false e)
    (hc : List.Forall₂ (fun f c => compile G f = some c) forms codes) (g r : Nat → Base)
    (hf : ¬ Faulty G.free P (Scheme.initial g r) es) {m : State}
    (hm : Reaches Q (Secd.initial g r) codes m) :
    ∃ st, Scheme.Reaches G.free P (Scheme.initial g r) es st ∧ m.d.frames ≤ st.κ.depth + 1 := by
  rw [forall₂_unique compile_unique hc (compile_forms hp hpl)] at hm
  exact reaches_bound hPQ hm rfl (initial_inv g r) hpl hf

/-- Tail calls in the specification. -/
theorem C35_call_keeps_continuation {P : Scheme.Prims} {fs : List Name} {rest : Option Name}
    {body : Expr} {ρ : Env} {vs : List Val} {κ : Kont} {σ : Store} {st : Scheme.State}
    (h : Scheme.apply P (.closure fs rest body ρ) vs κ σ = .next st) :
    st.κ = κ ∧ ∃ ρ', st.ctl = .eval body ρ' := by
  cases rest with
  | none => simp only [Scheme.apply] at h; split at h <;> cases h; exact ⟨rfl, _, rfl⟩
  | some r => simp only [Scheme.apply] at h; split at h <;> cases h; exact ⟨rfl, _, rfl⟩

end Meevax.Secd
