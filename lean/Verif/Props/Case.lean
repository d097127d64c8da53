import Verif.Lemmas.Case

/-!
C89: `case` (library/r4rs.ss L228-L251), `when`, `unless` and `letrec*` (library/r7rs.ss L102-L120) do what R7RS
says, whatever the expressions in them do and whatever names the user has bound.
-/

namespace Meevax.Case

open Meevax.Rules Meevax.Case.Spec
open Meevax.LibraryMacros (idsOf)

variable {V S : Type} {O : Objects V S} {H : Host V S} {Γ : Ctx} {U : Use}

/-- `case` evaluates the key once, and then the first clause one of whose data is `eqv?` to the key, or that is an
`else` clause, and nothing else: the expressions in order, or the procedure after `=>` applied to the key.
Missing: lists of data that a macro has inserted (`Example.C89_inserted_list_fails`). -/
theorem C89_case_partial (L : Lawful O H) (F : Fresh Γ U) {k key cs : Spec.Form} {clauses : List Clause}
    (hk : Expr Γ key) (hr : Reads U cs clauses) (hw : Written Γ clauses) :
    ∃ f, caseForm U (.cons k (.cons key cs)) = some f ∧
      ∀ ρ σ, eval O H Γ f ρ σ = Spec.case O H key clauses ρ.var σ := by
  obtain ⟨e, he, hev⟩ := eval_clauses (O := O) L F hr hw
  refine ⟨.ofList [.id (U.rename 2), .ofList [.ofList [.id (U.rename 8), key]], e], ?_, fun ρ σ => ?_⟩
  · simp only [caseForm, he]
    rfl
  · have hkey := eval_expr L hk ρ σ
    have : eval O H Γ (.ofList [.id (U.rename 2), .ofList [.ofList [.id (U.rename 8), key]], e]) ρ σ =
        (H key ρ.var σ).bind fun p =>
          eval O H Γ e ⟨ρ.var, fun y => if y = U.rename 8 then some p.1 else ρ.tmp y⟩ p.2 := by
      rw [Form.ofList, eval.eq_def]
      simp only [Form.ofList, kw0 F, kw1 F, kw2 F, kw6 F, kw8 F, hkey]
      rfl
    rw [this, Spec.case]
    cases H key ρ.var σ with
    | none => rfl
    | some p => exact hev ⟨ρ.var, fun y => if y = U.rename 8 then some p.1 else ρ.tmp y⟩ p.2 p.1 (by simp)

/-- `when` evaluates the test once, and the expressions in order if it is not `#f`. -/
theorem C89_when (L : Lawful O H) (F : Fresh Γ U) {k test : Spec.Form} {es : List Spec.Form} (ht : Expr Γ test)
    (he : ∀ e ∈ es, Expr Γ e) :
    ∃ f, whenForm U (.cons k (.cons test (.ofList es))) = some f ∧
      ∀ ρ σ, eval O H Γ f ρ σ = Spec.when O H true test es ρ.var σ := by
  refine ⟨_, rfl, fun ρ σ => ?_⟩
  have hs := fun σ => evalSeq_exprs (Γ := Γ) L false he ρ σ
  have ht := eval_expr L ht ρ σ
  have hb : ∀ σ, eval O H Γ (.cons (.id (U.rename 1)) (.ofList es)) ρ σ = seq H es ρ.var σ := by
    intro σ
    rw [eval.eq_def]
    simp only [kw0 F, kw1 F, kw2 F, kw6 F, kw8 F]
    exact hs σ
  rw [Form.ofList, eval.eq_def]
  simp only [Form.ofList, kw0 F, kw1 F, kw2 F, kw6 F, kw8 F, ht, hb, Spec.when]

/-- `unless` evaluates the test once, and the expressions in order if it is `#f`. -/
theorem C89_unless (L : Lawful O H) (F : Fresh Γ U) {k test : Spec.Form} {es : List Spec.Form} (ht : Expr Γ test)
    (he : ∀ e ∈ es, Expr Γ e) :
    ∃ f, unlessForm U (.cons k (.cons test (.ofList es))) = some f ∧
      ∀ ρ σ, eval O H Γ f ρ σ = Spec.when O H false test es ρ.var σ := by
  refine ⟨_, rfl, fun ρ σ => ?_⟩
  have hs := fun σ => evalSeq_exprs (Γ := Γ) L false he ρ σ
  have ht := eval_expr L ht ρ σ
  have hb : ∀ σ, eval O H Γ (.cons (.id (U.rename 1)) (.ofList es)) ρ σ = seq H es ρ.var σ := by
    intro σ
    rw [eval.eq_def]
    simp only [kw0 F, kw1 F, kw2 F, kw6 F, kw8 F]
    exact hs σ
  have hn : eval O H Γ (.cons (.id (U.rename 6)) (.cons test .nil)) ρ σ =
      (H test ρ.var σ).bind fun p => some (O.datum (.bool (!O.truth p.1)), p.2) := by
    rw [eval.eq_def]
    simp only [kw0 F, kw1 F, kw2 F, kw6 F, kw8 F, ht]
    rfl
  rw [Form.ofList, eval.eq_def]
  simp only [Form.ofList, kw0 F, kw1 F, kw2 F, kw6 F, kw8 F, hn, hb, Spec.when]
  cases H test ρ.var σ with
  | none => rfl
  | some p =>
    show (if O.truth (O.datum (.bool (!O.truth p.1))) then seq H es ρ.var p.2 else _) =
      if O.truth p.1 = false then seq H es ρ.var p.2 else some (O.unspecified, p.2)
    rw [L.truth]
    cases O.truth p.1 <;> rfl

/-- `letrec*` makes new locations for the variables, evaluates the initial values from left to right where all of
the variables are visible, each assigned before the next is evaluated, and then the expressions.  Missing: a body that
begins with definitions (`Example.C89_letrec_star_definition_fails`). -/
theorem C89_letrec_star_partial (L : Lawful O H) (F : Fresh Γ U) {k : Spec.Form} {bs : List (Nat × Spec.Form)}
    {es : List Spec.Form} (hn : (bs.map Prod.fst).Nodup) (hb : ∀ b ∈ bs, Expr Γ b.2) (he : ∀ e ∈ es, Expr Γ e) :
    ∃ f, letrecStarForm U (.cons k (.cons (bindings bs) (.ofList es))) = some f ∧
      ∀ (ρ : Env V) (σ : State V S), ∃ ρ' σ', Extends (bs.map Prod.fst) ρ.var ρ' σ σ' ∧
        ∀ r, eval O H Γ f ρ σ = some r ↔ LetrecStar H bs es ρ' σ' r := by
  refine ⟨_, by rw [letrecStarForm, definitions_eq]; rfl, fun ρ σ => ?_⟩
  refine ⟨_, _, (alloc_extends (O.datum .nil) _ hn ρ.var σ).1, fun r => ?_⟩
  rw [← evalSeq_definitions L F he bs hb ⟨_, ρ.tmp⟩]
  have := defined_eq F he bs [] (by simpa using hn)
  simp only [List.nil_append] at this
  rw [eval.eq_def]
  simp only [kw0 F, kw1 F, kw2 F, kw6 F, kw8 F]
  rw [← this]

namespace Example

/-- `define` is 50, `else` is 60, `=>` is 61; identifiers from 100 on are renamed. -/
def ctx : Ctx where
  made x := 100 ≤ x
  kw x := if 100 ≤ x then keyword (x - 100) else if x = 50 then some .define else none
  symbol x := if 100 ≤ x then x - 100 else x
  user x h := by
    have : ¬100 ≤ x := h
    simp only [this, if_false]
    by_cases hx : x = 50 <;> simp [hx]

def use : Use := ⟨fun a b => (a == 109 && b == 60) || (a == 110 && b == 61), fun x => x + 100⟩

theorem fresh : Fresh ctx use where
  made x := by show 100 ≤ x + 100; omega
  injective x y h := by simpa [use] using h
  symbol x := by simp [ctx, use]

/-- Objects are forms; the rest of the store is the trace of the expressions that were evaluated. -/
def objects : Objects Spec.Form (List Spec.Form) where
  eqv v w := decide (v = w)
  datum f := f
  truth f := f != .bool false
  unspecified := .undefined
  apply f vs σ := some (.cons f (.ofList vs), σ)

/-- Each expression evaluates to itself. -/
def host : Host Spec.Form (List Spec.Form)
  | .undefined, _, σ => some (.undefined, σ)
  | f, _, σ => some (f, ⟨σ.locs, σ.next, f :: σ.rest⟩)

theorem lawful : Lawful objects host where
  truth _ := rfl
  unspecified _ _ := rfl

def σ₀ : State Spec.Form (List Spec.Form) := ⟨fun _ => .nil, 0, []⟩

def ρ₀ : Env Spec.Form := ⟨fun _ => none, fun _ => none⟩

theorem expr {f : Spec.Form} (h : (idsOf f).all (· < 50) = true) : Expr ctx f := by
  have hm : ∀ x ∈ idsOf f, ctx.kw x = none := by
    intro x hx
    have := List.all_eq_true.1 h x hx
    simp at this
    have h1 : ¬100 ≤ x := by omega
    have h2 : x ≠ 50 := by omega
    simp [ctx, h1, h2]
  refine ⟨fun x hx => ?_, fun k args e => ?_, fun k e => ?_⟩
  · have := List.all_eq_true.1 h x hx
    simp at this
    show ¬100 ≤ x
    omega
  · exact hm k (by simp [e, idsOf])
  · exact hm k (by simp [e, idsOf])

/-- `((1 2) 10 11) ((3)) ((a b c) => f) (else 12)`. -/
def clauses : List Clause :=
  [⟨some [.num 1, .num 2], .exprs [.num 10, .num 11]⟩, ⟨some [.num 3], .exprs []⟩,
   ⟨some [.id 20, .id 21, .id 22], .arrow (.id 30)⟩, ⟨none, .exprs [.num 12]⟩]

def clausesForm : Spec.Form :=
  .ofList [.ofList [.ofList [.num 1, .num 2], .num 10, .num 11], .ofList [.ofList [.num 3]],
    .ofList [.ofList [.id 20, .id 21, .id 22], .id 61, .id 30], .ofList [.id 60, .num 12]]

theorem reads : Reads use clausesForm clauses :=
  .cons (.data (ds := [.num 1, .num 2]) (.exprs (es := [.num 10, .num 11]) (by simp [is])))
    (.cons (.data (ds := [.num 3]) (.exprs (es := []) (by simp)))
      (.cons (.data (ds := [.id 20, .id 21, .id 22]) (.arrow rfl))
        (.cons (.els rfl (.exprs (es := [.num 12]) (by simp [is]))) .nil)))

theorem written : Written ctx clauses := by
  intro c hc
  have : c.body.parts.all (fun e => (idsOf e).all (· < 50)) = true ∧
      (c.data.getD []).all (fun e => (idsOf e).all (· < 50)) = true := by
    simp only [clauses, List.mem_cons, List.not_mem_nil, or_false] at hc
    rcases hc with rfl | rfl | rfl | rfl <;> decide
  refine ⟨fun ds hd d h => (expr ?_).1, fun e he => expr ?_⟩
  · have := this.2
    rw [hd] at this
    exact List.all_eq_true.1 this d h
  · exact List.all_eq_true.1 this.1 e he

/-- The hypotheses of the theorem are met; the keys 2, 3, b and 7 choose the four clauses. -/
theorem C89_example : ∀ key ∈ ([(.num 2, .num 11), (.num 3, .num 3), (.id 21, .ofList [.id 30, .id 21]),
      (.num 7, .num 12)] : List (Spec.Form × Spec.Form)),
    ∃ f, caseForm use (.cons (.id 40) (.cons key.1 clausesForm)) = some f ∧
      (eval objects host ctx f ρ₀ σ₀).map Prod.fst = some key.2 := by
  intro key hk
  have hkey : (idsOf key.1).all (· < 50) = true := by
    simp only [List.mem_cons, List.not_mem_nil, or_false] at hk
    rcases hk with rfl | rfl | rfl | rfl <;> decide
  obtain ⟨f, h1, h2⟩ := C89_case_partial (k := .id 40) lawful fresh (expr hkey) reads written
  refine ⟨f, h1, ?_⟩
  rw [h2]
  simp only [List.mem_cons, List.not_mem_nil, or_false] at hk
  rcases hk with rfl | rfl | rfl | rfl <;> rfl

example : ∃ f, whenForm use (.ofList [.id 40, .num 1, .num 2, .num 3]) = some f ∧
    (eval objects host ctx f ρ₀ σ₀).map (fun r => (r.1, r.2.rest)) = some (.num 3, [.num 3, .num 2, .num 1]) := by
  obtain ⟨f, h1, h2⟩ := C89_when (k := .id 40) (test := .num 1) (es := [.num 2, .num 3]) lawful fresh (expr rfl)
    (fun e he => expr (by simp at he; rcases he with rfl | rfl <;> rfl))
  exact ⟨f, h1, by rw [h2]; rfl⟩

example : ∃ f, unlessForm use (.ofList [.id 40, .num 1, .num 2, .num 3]) = some f ∧
    (eval objects host ctx f ρ₀ σ₀).map (fun r => (r.1, r.2.rest)) = some (.undefined, [.num 1]) := by
  obtain ⟨f, h1, h2⟩ := C89_unless (k := .id 40) (test := .num 1) (es := [.num 2, .num 3]) lawful fresh (expr rfl)
    (fun e he => expr (by simp at he; rcases he with rfl | rfl <;> rfl))
  exact ⟨f, h1, by rw [h2]; rfl⟩

/-- A macro whose template is `(case key ((a b) 1) (else 2))` inserts the renamed `a` and `b`, 120 and 121; the
quotation of a list does not take the renaming away, and so the symbol `a` is not found. -/
theorem C89_inserted_list_fails : ∃ f,
    caseForm use (.ofList [.id 40, .id 20, .ofList [.ofList [.id 120, .id 121], .num 1], .ofList [.id 60, .num 2]]) =
      some f ∧ (eval objects host ctx f ρ₀ σ₀).map Prod.fst = some (.num 2) ∧
    (Spec.case objects host (.id 20) [⟨some [.id (ctx.symbol 120), .id (ctx.symbol 121)], .exprs [.num 1]⟩,
      ⟨none, .exprs [.num 2]⟩] ρ₀.var σ₀).map Prod.fst = some (.num 1) :=
  ⟨_, rfl, rfl, rfl⟩

/-- With one inserted symbol, the template `(case key ((a) 1) (else 2))` does find it. -/
theorem C89_inserted_single : ∃ f,
    caseForm use (.ofList [.id 40, .id 20, .ofList [.ofList [.id 120], .num 1], .ofList [.id 60, .num 2]]) =
      some f ∧ (eval objects host ctx f ρ₀ σ₀).map Prod.fst = some (.num 1) :=
  ⟨_, rfl, rfl⟩

/-! `letrec*`: `(lambda () x)`, written as a vector of the variable, makes an object with the location of the
variable, and a call of it returns what the location holds. -/

def cells : Objects Spec.Form Unit where
  eqv v w := decide (v = w)
  datum f := f
  truth f := f != .bool false
  unspecified := .undefined
  apply _ _ _ := none

def lambdas : Host Spec.Form Unit
  | .undefined, _, σ => some (.undefined, σ)
  | .num n, _, σ => some (.num n, σ)
  | .vec (.id x), ρ, σ => (ρ x).map fun l => (.atom l, σ)
  | .cons (.id x) .nil, ρ, σ => (ρ x).bind fun l =>
    match σ.locs l with
    | .atom m => some (σ.locs m, σ)
    | _ => none
  | _, _, _ => none

theorem lambdas_lawful : Lawful cells lambdas where
  truth _ := rfl
  unspecified _ _ := rfl

def τ₀ : State Spec.Form Unit := ⟨fun _ => .nil, 0, ()⟩

/-- `((y (lambda () x)) (x 1))`. -/
def inits : List (Nat × Spec.Form) := [(21, .vec (.id 20)), (20, .num 1)]

/-- `(letrec* ((y (lambda () x)) (x 1)) (y))` is 1. -/
example : ∃ f, letrecStarForm use (.cons (.id 40) (.cons (bindings inits) (.ofList [.ofList [.id 21]]))) = some f ∧
    (eval cells lambdas ctx f ρ₀ τ₀).map Prod.fst = some (.num 1) ∧
    ∃ ρ' σ', Extends (inits.map Prod.fst) ρ₀.var ρ' τ₀ σ' ∧
      ∀ r, eval cells lambdas ctx f ρ₀ τ₀ = some r ↔ LetrecStar lambdas inits [.ofList [.id 21]] ρ' σ' r := by
  obtain ⟨f, h1, h2⟩ := C89_letrec_star_partial (k := .id 40) (bs := inits) (es := [.ofList [.id 21]]) lambdas_lawful
    fresh (by decide) (fun b hb => expr (by simp [inits] at hb; rcases hb with rfl | rfl <;> rfl))
    (fun e he => expr (by simp at he; subst he; rfl))
  refine ⟨f, h1, ?_, h2 ρ₀ τ₀⟩
  cases h1
  rfl

/-- The definitions at the beginning of the body of a `letrec*` are to make new variables; here they assign those of
the `letrec*`: `(letrec* ((x 1) (y (lambda () x))) (define x 2) (y))` returns 2. -/
theorem C89_letrec_star_definition_fails : ∃ f,
    letrecStarForm use (.cons (.id 40) (.cons (bindings [(20, .num 1), (21, .vec (.id 20))])
      (.ofList [.ofList [.id 50, .id 20, .num 2], .ofList [.id 21]]))) = some f ∧
    (eval cells lambdas ctx f ρ₀ τ₀).map Prod.fst = some (.num 2) ∧
    ∃ ρ₁ σ₁ σ₂ ρ₂ σ₃ σ₄, Extends [20, 21] ρ₀.var ρ₁ τ₀ σ₁ ∧
      Inits lambdas ρ₁ [(20, .num 1), (21, .vec (.id 20))] σ₁ σ₂ ∧
      Extends [20] ρ₁ ρ₂ σ₂ σ₃ ∧ Inits lambdas ρ₂ [(20, .num 2)] σ₃ σ₄ ∧
      (seq lambdas [.ofList [.id 21]] ρ₂ σ₄).map Prod.fst = some (.num 1) := by
  refine ⟨_, rfl, rfl, _, _, _, _, _, _, (alloc_extends .nil [20, 21] (by decide) _ _).1,
    .cons rfl (assign_assigned.1 rfl) (.cons rfl (assign_assigned.1 rfl) .nil),
    (alloc_extends .nil [20] (by decide) _ _).1, .cons rfl (assign_assigned.1 rfl) .nil, rfl⟩

end Example

end Meevax.Case
