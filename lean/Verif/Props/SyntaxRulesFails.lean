import Verif.Props.SyntaxRules

/-!
C69: where `syntax-rules` does something else than the report says.  Each counterexample breaks one of the
hypotheses of the theorems in Props/SyntaxRules.lean.
-/

namespace Meevax.Rules

open Spec

/-- **C69, a counterexample.** In a template, `(f x) ... ...` becomes the concatenation of the forms instead of
their sequence: with `x` from `(_ (x ...) ...)`, the use `(m (1 2) (3))` becomes `(f (1 2) f (3))`, not
`((f 1) (f 2) (f 3))`. -/
theorem C69_two_ellipses_fails :
    transform exDef exUse
      [(.ofList [.id 101, .ofList [.id 2, .id 100], .id 100], .ofList [.ofList [.id 5, .id 2], .id 100, .id 100])]
      (.ofList [.id 1, .ofList [.num 1, .num 2], .ofList [.num 3]]) 60 =
    some (.expansion (.ofList [.id 1005, .ofList [.num 1, .num 2], .id 1005, .ofList [.num 3]])) := by decide +kernel

/-- The definition of the example with the literal 50. -/
def litDef : Def := { exDef with lits := [50] }

/-- The identifier 50 is a literal. -/
theorem lit_lit : IsLit litDef 50 := ⟨50, by simp [litDef], by decide⟩

/-- **C69, a counterexample.** A literal before an ellipsis is matched by everything: the pattern `(_ => ...)`,
where `=>` is a literal, does not match `(m 7)`, but the rule is applied. -/
theorem C69_literal_ellipsis_fails :
    (∀ σ, ¬Applies litDef exUse (.ofList [.id 101, .id 50, .id 100]) (.ofList [.id 1, .num 7]) σ) ∧
      transform litDef exUse [(.ofList [.id 101, .id 50, .id 100], .ofList [.id 5])] (.ofList [.id 1, .num 7]) 60 =
        some (.expansion (.ofList [.id 1005])) := by
  refine ⟨?_, by decide +kernel⟩
  rintro σ ⟨k, p, l, f, e1, e2, hm⟩
  cases e1
  cases e2
  have he : IsEllipsis litDef 100 := ⟨by decide, by simp [IsLit, litDef, exDef]⟩
  obtain ⟨fs, g, σs, σP, τ, e, _, hma, _, hp, hq⟩ := match_more_inv he hm
  obtain ⟨rfl, _⟩ := pairs_zero_nil _ hq
  cases fs with
  | nil => cases e
  | cons f fs =>
    have e := (Form.cons.inj e).1
    subst e
    cases hma with
    | cons h _ =>
      cases h with
      | under h => exact h.2 lit_lit
      | var h => exact h.1 lit_lit

/-- **C69, a counterexample.** In `(... t)` the template `t` is neither instantiated nor renamed: with the rule
`(_ x)` → `(... (f x))` the use `(m 7)` must become `(f 7)` with `f` renamed, and becomes `(f x)`. -/
theorem C69_escape_fails :
    Rewrites exDef exUse
      [(.ofList [.id 101, .id 2], .ofList [.id 100, .ofList [.id 5, .id 2]])] (.ofList [.id 1, .num 7])
      (.expansion (.ofList [.id 1005, .num 7])) ∧
    transform exDef exUse
      [(.ofList [.id 101, .id 2], .ofList [.id 100, .ofList [.id 5, .id 2]])] (.ofList [.id 1, .num 7]) 60 =
      some (.expansion (.ofList [.id 5, .id 2])) := by
  refine ⟨?_, by decide +kernel⟩
  refine .here (σ := [(2, .one (.num 7))]) ⟨_, _, _, _, rfl, rfl, ?_⟩ ?_
  · exact .pair (σ := [(2, .one (.num 7))]) (τ := []) trivial (.var (ex_var (by decide) (by decide))) .nil
  · exact .escape ex_ell (.pair id id (.insert rfl) (.pair id trivial (.var rfl) .nil))

/-- The definition of the example with the ellipsis as a literal. -/
def ellDef : Def := { exDef with lits := [100] }

/-- **C69, a counterexample.** An ellipsis among the literals still is an ellipsis: the pattern `(_ x ...)` of
`(syntax-rules (...) …)` must match `(m 1 ...)` only, but is matched by `(m 1 2)`. -/
theorem C69_ellipsis_literal_fails :
    (∀ σ, ¬Applies ellDef exUse (.ofList [.id 101, .id 2, .id 100]) (.ofList [.id 1, .num 1, .num 2]) σ) ∧
      transform ellDef exUse [(.ofList [.id 101, .id 2, .id 100], .ofList [.id 5, .id 2, .id 100])]
        (.ofList [.id 1, .num 1, .num 2]) 60 = some (.expansion (.ofList [.id 1005, .num 1, .num 2])) := by
  refine ⟨?_, by decide +kernel⟩
  rintro σ ⟨k, p, l, f, e1, e2, hm⟩
  cases e1
  cases e2
  have hlit : IsLit ellDef 100 := ⟨100, by simp [ellDef], by decide⟩
  have hno : ¬IsEllipsis ellDef 100 := fun h => h.2 hlit
  obtain ⟨a, d, σ₁, σ₂, e, _, _, hm⟩ := match_pair_inv
    (show NoEllipsis (IsEllipsis ellDef) (.cons (.id 100) .nil) from hno) hm
  cases e
  obtain ⟨a, d, σ₁, σ₂, e, _, hm, _⟩ := match_pair_inv (show NoEllipsis (IsEllipsis ellDef) .nil from trivial) hm
  cases e
  cases hm with
  | under h => exact h.2 hlit
  | var h => exact h.1 hlit

/-- **C69, a counterexample.** Variables repeated together whose numbers of repetitions differ are not an error:
the surplus is dropped.  `(_ (x ...) (y ...))` → `((x y) ...)` makes `((1 3))` of `(m (1 2) (3))`. -/
theorem C69_lengths_fails :
    transform exDef exUse
      [(.ofList [.id 101, .ofList [.id 2, .id 100], .ofList [.id 3, .id 100]],
        .ofList [.ofList [.id 2, .id 3], .id 100])]
      (.ofList [.id 1, .ofList [.num 1, .num 2], .ofList [.num 3]]) 60 =
    some (.expansion (.ofList [.ofList [.num 1, .num 3]])) := by decide +kernel

/-- **C69, a counterexample.** An underscore in a pattern under an ellipsis is taken for a pattern variable: the
macro with the rule `(_ (_ x) ...)` → `(_ x ...)` cannot be defined, although `_` is not a variable of the
pattern. -/
theorem C69_underscore_fails :
    IsUnder exDef 101 ∧
    exDef.compile [(.ofList [.id 101, .ofList [.id 101, .id 2], .id 100], .ofList [.id 101, .id 2, .id 100])] 0 = none := by
  refine ⟨⟨by decide, by simp [IsLit, exDef]⟩, ?_⟩
  have : (exDef.compile [(.ofList [.id 101, .ofList [.id 101, .id 2], .id 100], .ofList [.id 101, .id 2, .id 100])] 0).isNone
      = true := by decide +kernel
  simpa using this

/-- The definition of the example as the expansion of another macro, which inserted the identifiers from 1000
on. -/
def insertedDef : Def := { exDef with inserted := fun x => decide (1000 ≤ x) }

/-- **C69, a counterexample.** A macro definition that is the expansion of another macro is undefined behaviour
if the other macro has inserted a variable `a` in a pattern such as `(_ (a) ...)`: the use `(m)` must become
`(f)`, and does so if the same definition is written by hand. -/
theorem C69_inserted_variable_fails :
    Rewrites insertedDef exUse [(.ofList [.id 101, .ofList [.id 1002], .id 100], .ofList [.id 5])] (.ofList [.id 1])
      (.expansion (.ofList [.id 1005])) ∧
    insertedDef.compile [(.ofList [.id 101, .ofList [.id 1002], .id 100], .ofList [.id 5])] 0 = none ∧
    transform exDef exUse [(.ofList [.id 101, .ofList [.id 2], .id 100], .ofList [.id 5])] (.ofList [.id 1]) 60 =
      some (.expansion (.ofList [.id 1005])) := by
  refine ⟨?_, ?_, by decide +kernel⟩
  · obtain ⟨τ, hτ⟩ := collect_exists (MatchAll.nil (D := insertedDef) (U := exUse) (p := .ofList [.id 1002]))
    refine .here (σ := τ ++ []) ⟨_, _, _, _, rfl, rfl, ?_⟩ ?_
    · exact .more (fs := []) (g := .nil) ⟨by decide, by simp [IsLit, insertedDef, exDef]⟩ .nil hτ rfl .nil
    · refine .pair ?_ trivial (.insert ?_) .nil
      · rintro ⟨h, -⟩; revert h; decide
      · cases h : Binds.get (τ ++ []) 5 with
        | none => rfl
        | some t =>
          rw [List.append_nil] at h
          obtain ⟨⟨k, hk⟩, -⟩ := (hτ 5 t).1 h
          have := hk.mem_ids
          simp [Form.ofList, ids] at this
  · have : (insertedDef.compile [(.ofList [.id 101, .ofList [.id 1002], .id 100], .ofList [.id 5])] 0).isNone
        = true := by decide +kernel
    simpa using this

end Meevax.Rules
