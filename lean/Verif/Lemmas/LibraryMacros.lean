import Verif.Spec.LibraryMacros
import Verif.Lemmas.RulesCheck

/-!
For C82: one step of expansion for each rule; inversion of `Core`; procedures and bindings.
-/

namespace Meevax.LibraryMacros

open Meevax.Rules Meevax.Rules.Spec Spec

/-! ### Rules -/

section
variable {e u : Nat} {lits : List Nat} {U : Use}

theorem rewrites_here {k p t l f out : Form} {rules : List (Form × Form)} {σ : Binds}
    (hm : Match (eqDef e u lits) U p f σ) (hi : Inst U (IsEllipsis (eqDef e u lits)) σ t out) :
    Rewrites (eqDef e u lits) U ((.cons k p, t) :: rules) (.cons l f) (.expansion out) :=
  .here ⟨k, p, l, f, rfl, rfl, hm⟩ hi

theorem rewrites_next {k p t l f : Form} {rules : List (Form × Form)} {o : Outcome}
    (hm : ∀ σ, ¬Match (eqDef e u lits) U p f σ) (h : Rewrites (eqDef e u lits) U rules (.cons l f) o) :
    Rewrites (eqDef e u lits) U ((.cons k p, t) :: rules) (.cons l f) o :=
  .next (by
    rintro σ ⟨k', p', l', f', h1, h2, h3⟩
    cases h1
    cases h2
    exact hm σ h3) h

theorem match_cons_inv {p q F : Form} {σ : Binds} (hs : startsEll e lits q = false)
    (h : Match (eqDef e u lits) U (.cons p q) F σ) :
    ∃ f g, F = .cons f g ∧ (∃ σ, Match (eqDef e u lits) U p f σ) ∧ ∃ σ, Match (eqDef e u lits) U q g σ := by
  cases h with
  | datum h => cases h
  | pair _ h1 h2 => exact ⟨_, _, rfl, ⟨_, h1⟩, _, h2⟩
  | more h =>
    have := noEllipsis_of (u := u) hs
    exact absurd h this

theorem match_atom_inv {n : Nat} {F : Form} {σ : Binds} (h : Match (eqDef e u lits) U (.atom n) F σ) : F = .atom n := by
  cases h
  rfl

theorem match_nil_inv {F : Form} {σ : Binds} (h : Match (eqDef e u lits) U .nil F σ) : F = .nil := by
  cases h <;> rfl

end

/-- Derive a match. -/
macro "match_tac" : tactic => `(tactic| repeat' (first
  | exact Match.nil
  | exact Match.datum trivial
  | exact match_var rfl
  | exact match_all rfl rfl _
  | apply match_pair rfl))

/-- Derive an instance. -/
macro "inst_tac" : tactic => `(tactic| repeat' (first
  | exact Inst.nil
  | exact Inst.datum trivial
  | exact Inst.var rfl
  | exact Inst.insert rfl
  | exact inst_all rfl rfl rfl
  | refine inst_pair rfl rfl ?_ ?_))

/-- One step. -/
abbrev Steps (e : Nat) (U : Use) (rules : List (Form × Form)) (f out : Form) : Prop :=
  Rewrites (eqDef e 1 []) U rules f (.expansion out)

theorem step_receive (U : Use) (k formals ex : Form) (body : List Form) :
    Steps 0 U receiveRules (.cons k (.cons formals (.cons ex (.ofList body))))
      (.ofList [.id (U.rename 5), .ofList [.id (U.rename 2), .nil, ex], .cons (.id (U.rename 2)) (.cons formals (.ofList body))]) := by
  apply rewrites_here
  · match_tac
  · inst_tac

theorem step_let (U : Use) (k b0 : Form) (bs body : List Form) :
    Steps 0 U letValuesRules (.cons k (.cons (.ofList bs) (.cons b0 (.ofList body))))
      (.ofList [.id (U.rename 6), strBind, .ofList bs, .nil, .cons (.id (U.rename 4)) (.cons b0 (.ofList body))]) := by
  apply rewrites_here
  · match_tac
  · inst_tac

theorem not_first {U : Use} {n : Nat} {rest : Form} :
    ∀ σ, ¬Match (eqDef 0 1 []) U (.cons (.cons (s 20) (.cons dots .nil)) (.cons (s 21) (.cons (s 22) (.cons dots .nil))))
      (.cons (.atom n) rest) σ := by
  intro σ h
  obtain ⟨f, g, h1, ⟨σ', h2⟩, _⟩ := match_cons_inv rfl h
  cases h1
  obtain ⟨fs, hf⟩ := match_all_inv rfl h2
  cases fs <;> cases hf

theorem not_atom {U : Use} {n k : Nat} (hne : k ≠ n) {p rest : Form} (hs : startsEll 0 [] p = false) :
    ∀ σ, ¬Match (eqDef 0 1 []) U (.cons (.atom k) p) (.cons (.atom n) rest) σ := by
  intro σ h
  obtain ⟨f, g, h1, ⟨σ', h2⟩, _⟩ := match_cons_inv hs h
  cases h1
  cases match_atom_inv h2
  exact hne rfl

theorem step_bind_nil (U : Use) (k tmps body : Form) :
    Steps 0 U letValuesRules (.ofList [k, strBind, .nil, tmps, body]) (.ofList [.id (U.rename 3), tmps, body]) := by
  refine rewrites_next not_first ?_
  apply rewrites_here
  · match_tac
  · inst_tac

theorem step_bind_cons (U : Use) (k b0 e0 tmps body : Form) (bs : List Form) :
    Steps 0 U letValuesRules (.ofList [k, strBind, .cons (.ofList [b0, e0]) (.ofList bs), tmps, body])
      (.ofList [.id (U.rename 6), strMktmp, b0, e0, .nil, .ofList bs, tmps, body]) := by
  refine rewrites_next not_first ?_
  refine rewrites_next ?_ ?_
  · intro σ h
    obtain ⟨_, _, h1, _, ⟨_, h⟩⟩ := match_cons_inv rfl h
    cases h1
    obtain ⟨_, _, h1, ⟨_, h⟩, _⟩ := match_cons_inv rfl h
    cases h1
    cases match_nil_inv h
  · apply rewrites_here
    · match_tac
    · inst_tac

theorem step_mktmp_nil (U : Use) (k e0 args bs tmps body : Form) :
    Steps 0 U letValuesRules (.ofList [k, strMktmp, .nil, e0, args, bs, tmps, body])
      (.ofList [.id (U.rename 5), .ofList [.id (U.rename 2), .nil, e0],
        .ofList [.id (U.rename 2), args, .ofList [.id (U.rename 6), strBind, bs, tmps, body]]]) := by
  refine rewrites_next not_first ?_
  refine rewrites_next (not_atom (by decide) rfl) ?_
  refine rewrites_next (not_atom (by decide) rfl) ?_
  apply rewrites_here
  · match_tac
  · inst_tac

theorem snoc_form (fs : List Form) (z : Form) : fs.foldr Form.cons (.cons z .nil) = Form.ofList (fs ++ [z]) := by
  induction fs with
  | nil => rfl
  | cons a fs ih => simp [Form.ofList, ih]

theorem not_nil_formals {U : Use} {p f rest : Form} (hf : f ≠ .nil) (hs : startsEll 0 [] p = false) :
    ∀ σ, ¬Match (eqDef 0 1 []) U (.cons strMktmp (.cons .nil p)) (.cons strMktmp (.cons f rest)) σ := by
  intro σ h
  obtain ⟨_, _, h1, _, ⟨_, h⟩⟩ := match_cons_inv rfl h
  cases h1
  obtain ⟨_, _, h1, ⟨_, h⟩, _⟩ := match_cons_inv hs h
  cases h1
  exact hf (match_nil_inv h)

theorem step_mktmp_cons (U : Use) (k a b e0 bs body : Form) (args tmps : List Form) :
    Steps 0 U letValuesRules (.ofList [k, strMktmp, .cons a b, e0, .ofList args, bs, .ofList tmps, body])
      (.ofList [.id (U.rename 6), strMktmp, b, e0, .ofList (args ++ [.id (U.rename 33)]), bs,
        .ofList (tmps ++ [.ofList [a, .id (U.rename 33)]]), body]) := by
  refine rewrites_next not_first ?_
  refine rewrites_next (not_atom (by decide) rfl) ?_
  refine rewrites_next (not_atom (by decide) rfl) ?_
  refine rewrites_next (not_nil_formals (by rintro ⟨⟩) rfl) ?_
  apply rewrites_here
  · match_tac
  ·
    rw [← snoc_form, ← snoc_form]
    repeat' (first
      | exact Inst.nil
      | exact Inst.datum trivial
      | exact Inst.var rfl
      | exact Inst.insert rfl
      | refine inst_more rfl rfl rfl rfl ?_
      | refine inst_pair rfl rfl ?_ ?_)

theorem dotted_form (fs : List Form) (z : Form) : fs.foldr .cons z = Form.dotted fs z := by
  induction fs with
  | nil => rfl
  | cons a fs ih => simp [Form.dotted, ih]

theorem step_mktmp_rest (U : Use) (k e0 bs body : Form) (x : Nat) (args tmps : List Form) :
    Steps 0 U letValuesRules (.ofList [k, strMktmp, .id x, e0, .ofList args, bs, .ofList tmps, body])
      (.ofList [.id (U.rename 5), .ofList [.id (U.rename 2), .nil, e0],
        .ofList [.id (U.rename 2), Form.dotted args (.id (U.rename 33)), .ofList [.id (U.rename 6), strBind, bs,
          .ofList (tmps ++ [.ofList [.id x, .id (U.rename 33)]]), body]]]) := by
  refine rewrites_next not_first ?_
  refine rewrites_next (not_atom (by decide) rfl) ?_
  refine rewrites_next (not_atom (by decide) rfl) ?_
  refine rewrites_next (not_nil_formals (by rintro ⟨⟩) rfl) ?_
  refine rewrites_next ?_ ?_
  · intro σ h
    obtain ⟨_, _, h1, _, ⟨_, h⟩⟩ := match_cons_inv rfl h
    cases h1
    obtain ⟨_, _, h1, ⟨_, h⟩, _⟩ := match_cons_inv rfl h
    cases h1
    obtain ⟨_, _, h1, _⟩ := match_cons_inv rfl h
    cases h1
  · apply rewrites_here
    · match_tac
    ·
      rw [← snoc_form, ← dotted_form]
      repeat' (first
        | exact Inst.nil
        | exact Inst.datum trivial
        | exact Inst.var rfl
        | exact Inst.insert rfl
        | refine inst_more rfl rfl rfl rfl ?_
        | refine inst_pair rfl rfl ?_ ?_)

theorem step_star_nil (U : Use) (k b0 : Form) (body : List Form) :
    Steps 0 U letStarValuesRules (.cons k (.cons .nil (.cons b0 (.ofList body))))
      (.cons (.id (U.rename 3)) (.cons .nil (.cons b0 (.ofList body)))) := by
  apply rewrites_here
  · match_tac
  · inst_tac

theorem step_star_cons (U : Use) (k b b0 : Form) (bs body : List Form) :
    Steps 0 U letStarValuesRules (.cons k (.cons (.cons b (.ofList bs)) (.cons b0 (.ofList body))))
      (.ofList [.id (U.rename 6), .ofList [b], .cons (.id (U.rename 7)) (.cons (.ofList bs) (.cons b0 (.ofList body)))]) := by
  refine rewrites_next ?_ ?_
  · intro σ h
    obtain ⟨_, _, h1, ⟨_, h⟩, _⟩ := match_cons_inv rfl h
    cases h1
    cases match_nil_inv h
  · apply rewrites_here
    · match_tac
    · inst_tac

end Meevax.LibraryMacros
