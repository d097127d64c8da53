import Verif.Lemmas.RulesStatic

/-!
The text made for a pattern: it runs the rest of the text with the variables of the pattern bound, if the
form matches, and is `#f` otherwise.
-/

namespace Meevax.Rules

open Spec

variable {D : Def} {U : Use}

/-- What a variable is bound to in the text: nested lists. -/
def Spec.Tree.form : Tree → Form
  | .one f => f
  | .many ts => .ofList (ts.map Tree.form)

/-- The depth of calls the generator needs. -/
def need (D : Def) : Form → Nat
  | .cons a (.cons b d) =>
    if D.isEllipsis (.cons a (.cons b d)) then
      if d = .nil then need D a + 1 else max (need D d) (need D a + 2) + 2
    else max (need D a) (need D (.cons b d)) + 1
  | .cons a d => max (need D a) (need D d) + 1
  | .vec xs => need D xs + 1
  | _ => 1

theorem need_pair {a d : Form} (h : D.isEllipsis (.cons a d) = false) :
    need D (.cons a d) = max (need D a) (need D d) + 1 := by
  cases d with
  | cons b d => rw [need, if_neg (by simp [h])]
  | _ => rfl

theorem need_le : ∀ (n : Nat) (p : Form), p.size ≤ n → need D p ≤ 4 * p.size := by
  intro n
  induction n with
  | zero => intro p hp; have := size_pos p; omega
  | succ n ih =>
    intro p hp
    cases p with
    | vec xs => have := ih xs (by simp only [Form.size] at hp; omega); simp only [need, Form.size] at *; omega
    | cons a d =>
      have ha := ih a (by simp only [Form.size] at hp; omega)
      have hd := ih d (by simp only [Form.size] at hp; omega)
      cases h : D.isEllipsis (.cons a d) with
      | true =>
        cases d with
        | cons b d =>
          have hd' := ih d (by simp only [Form.size] at hp; omega)
          have := size_pos b
          have := size_pos d
          simp only [need, h, if_true, Form.size] at *
          split <;> omega
        | _ => simp [Def.isEllipsis] at h
      | false => rw [need_pair h]; simp only [Form.size] at *; omega
    | _ => simp [need, Form.size]

/-- Pattern variables are never bound to the procedures of loops. -/
def Good (ρ : Env) : Prop := ∀ x ps b ρ₀, Env.get ρ (.pat x) ≠ some (.loop ps b ρ₀)

/-- The environment in which the rest of the text runs. -/
structure Ext (c c₁ : Nat) (p : Form) (σ : Binds) (ρ ρ' : Env) : Prop where
  pat : ∀ x, x ∉ ids p → Env.get ρ' (.pat x) = Env.get ρ (.pat x)
  gen : ∀ n, n ≤ c ∨ c₁ < n → Env.get ρ' (.gen n) = Env.get ρ (.gen n)
  new : ∀ x t, Binds.get σ x = some t → Env.get ρ' (.pat x) = some (.form t.form)
  good : Good ρ → Good ρ'

/-- `wrap e` matches the value of `x` and goes on with `e`. -/
def Sem (D : Def) (U : Use) (p : Form) (x : Exp) (c c₁ : Nat) (wrap : Exp → Exp) : Prop :=
  ∀ ek ρ F, Good ρ → Ev U ρ x F →
    (∀ σ, Match D U p F σ → ∃ ρ', Ext c c₁ p σ ρ ρ' ∧ ∀ r, Ev U ρ' ek r → Ev U ρ (wrap ek) r) ∧
    ((∀ σ, ¬Match D U p F σ) → Ev U ρ (wrap ek) (.bool false))

theorem bind_one (ρ : Env) (v : Var) (f : Form) : Env.bind ρ [v] [f] = (v, .form f) :: ρ := rfl

theorem Ev.bind1 {ρ : Env} {v : Var} {x body : Exp} {F r : Form} (h : Ev U ρ x F)
    (h2 : Ev U ((v, .form F) :: ρ) body r) : Ev U ρ (.bind [(v, x)] body) r :=
  Ev.bind (.cons h .nil) h2

theorem Good.cons_gen {ρ : Env} (h : Good ρ) (n : Nat) (x : Val) : Good ((.gen n, x) :: ρ) := by
  intro y ps b ρ₀
  rw [get_cons_ne _ _ (by simp)]
  exact h y ps b ρ₀

theorem Good.cons_form {ρ : Env} (h : Good ρ) (v : Var) (x : Form) : Good ((v, .form x) :: ρ) := by
  intro y ps b ρ₀
  simp only [Env.get]
  split
  · simp
  · exact h y ps b ρ₀

theorem Good.bind {ρ : Env} (h : Good ρ) : ∀ (vs : List Var) (fs : List Form), Good (Env.bind ρ vs fs) := by
  intro vs
  induction vs with
  | nil => intro fs; simpa [Env.bind] using h
  | cons v vs ih =>
    intro fs
    cases fs with
    | nil => simpa [Env.bind] using h
    | cons f fs => exact Good.cons_form (ih fs) v f

/-- The text of a pattern, when what it does after naming the form `v` is known. -/
theorem Sem.named {p : Form} {x : Exp} {c c₁ : Nat} {wrap : Exp → Exp} (hc : c + 1 ≤ c₁)
    (h : ∀ ek ρ F, Good ρ → Env.get ρ (.gen (c + 1)) = some (.form F) →
      (∀ σ, Match D U p F σ → ∃ ρ', Ext (c + 1) c₁ p σ ρ ρ' ∧ ∀ r, Ev U ρ' ek r → Ev U ρ (wrap ek) r) ∧
      ((∀ σ, ¬Match D U p F σ) → Ev U ρ (wrap ek) (.bool false))) :
    Sem D U p x c c₁ (fun e => .bind [(.gen (c + 1), x)] (wrap e)) := by
  intro ek ρ F hg hx
  have hg' : Good ((.gen (c + 1), .form F) :: ρ) := hg.cons_gen _ _
  obtain ⟨h1, h2⟩ := h ek _ F hg' (get_cons_self _ _ _)
  constructor
  · intro σ hm
    obtain ⟨ρ', he, hr⟩ := h1 σ hm
    refine ⟨ρ', ⟨?_, ?_, he.new, fun _ => he.good hg'⟩, fun r h => Ev.bind1 hx (hr r h)⟩
    · intro y hy; rw [he.pat y hy, get_cons_ne _ _ (by simp)]
    · intro n hn
      rw [he.gen n (by omega), get_cons_ne _ _ (by simp; omega)]
  · intro hn; exact Ev.bind1 hx (h2 hn)

theorem Ext.refl {c c₁ : Nat} {p : Form} {ρ : Env} : Ext c c₁ p [] ρ ρ where
  pat _ _ := rfl
  gen _ _ := rfl
  new _ _ h := by simp [Binds.get] at h
  good h := h

/-- Binding one pattern variable. -/
theorem Ext.one {c c₁ : Nat} {p : Form} {ρ : Env} {y : Nat} {f : Form} {σ : Binds} (hy : y ∈ ids p)
    (hσ : ∀ x t, Binds.get σ x = some t → x = y ∧ t.form = f) :
    Ext c c₁ p σ ρ ((.pat y, .form f) :: ρ) where
  pat x hx := get_cons_ne _ _ (by rintro ⟨⟩; exact hx hy)
  gen n _ := get_cons_ne _ _ (by simp)
  new x t h := by obtain ⟨rfl, rfl⟩ := hσ x t h; exact get_cons_self _ _ _
  good h := h.cons_form _ _

/-! ### Lists -/

theorem toList_ofList (xs : List Form) : (Form.ofList xs).toList = some xs := by
  induction xs with
  | nil => rfl
  | cons a xs ih => simp [Form.ofList, Form.toList, ih]

theorem ofList_of_toList : ∀ {f : Form} {xs : List Form}, f.toList = some xs → f = .ofList xs := by
  intro f
  induction f with
  | nil => intro xs h; simp [Form.toList] at h; subst h; rfl
  | cons a d _ ih =>
    intro xs h
    simp only [Form.toList, Option.map_eq_some_iff] at h
    obtain ⟨ys, h1, rfl⟩ := h
    rw [ih h1]; rfl
  | _ => intro xs h; simp [Form.toList] at h

theorem foldr_nil (xs : List Form) : xs.foldr .cons .nil = Form.ofList xs := by
  induction xs with
  | nil => rfl
  | cons a xs ih => simp [Form.ofList, ih]

theorem pairs_foldr (xs : List Form) (g : Form) : pairs (xs.foldr .cons g) = xs.length + pairs g := by
  induction xs with
  | nil => simp
  | cons a xs ih => simp only [List.foldr_cons, pairs, ih, List.length_cons]; omega

theorem pairs_zero_nil {g : Form} (σ : Binds) (h : Match D U .nil g σ) : g = .nil ∧ σ = [] := by
  cases h with
  | nil => exact ⟨rfl, rfl⟩
  | datum h => exact ⟨rfl, rfl⟩

/-! ### A variable under an ellipsis -/

theorem matchAll_var {x : Nat} (hv : IsVar D x) : ∀ fs : List Form,
    MatchAll D U (.id x) fs (fs.map fun f => [(x, .one f)]) := by
  intro fs
  induction fs with
  | nil => exact .nil
  | cons f fs ih => exact .cons (.var hv) ih

theorem matchAll_under {x : Nat} (hv : IsUnder D x) : ∀ fs : List Form,
    MatchAll D U (.id x) fs (fs.map fun _ => []) := by
  intro fs
  induction fs with
  | nil => exact .nil
  | cons f fs ih => exact .cons (.under hv) ih

theorem matchAll_var_inv {x : Nat} (hv : IsVar D x) : ∀ {fs : List Form} {σs : List Binds},
    MatchAll D U (.id x) fs σs → ∀ ts, List.Forall₂ (fun σ t => Binds.get σ x = some t) σs ts →
    ts.map Tree.form = fs := by
  intro fs
  induction fs with
  | nil => intro σs h ts ht; cases h; cases ht; rfl
  | cons f fs ih =>
    intro σs h ts ht
    cases h with
    | cons h1 h2 =>
      cases ht with
      | cons t1 t2 =>
        simp only [List.map_cons, ih h2 _ t2]
        congr 1
        cases h1 with
        | lit hl _ => exact absurd hl hv.1
        | under hl => exact absurd hl hv.2.1
        | var _ => simp only [Binds.get, List.find?_cons_of_pos, decide_true, Option.map_some] at t1; cases t1; rw [Tree.form]
        | datum h => exact absurd h id

end Meevax.Rules
