import Verif.Lemmas.RulesPattern

/-!
The loop made for a pattern followed by an ellipsis (srfi-149.ss L151-L183).
-/

namespace Meevax.Rules

open Spec

variable {D : Def} {U : Use}

/-- The parameters of the loop. -/
def loopParams (c m : Nat) : List Var := .gen (c + 1) :: (List.range m).map fun j => .gen (c + 3 + j)

/-- The next turn. -/
def loopCall (c m : Nat) (nv : Nat → Nat) : Exp :=
  .call (.gen (c + 2)) (.prim1 .cdr (.var (.gen (c + 1))) ::
    (List.range m).map fun j => .prim2 .cons (.var (.pat (nv j))) (.var (.gen (c + 3 + j))))

/-- The body of the loop. -/
def loopBody (c m : Nat) (nv : Nat → Nat) (wrap : Exp → Exp) (ek : Exp) : Exp :=
  .ite (.prim1 .isNull (.var (.gen (c + 1))))
    (.bind ((List.range m).map fun j => (.pat (nv j), .prim1 .reverse (.var (.gen (c + 3 + j))))) ek)
    (.and (.prim1 .isPair (.var (.gen (c + 1)))) (wrap (loopCall c m nv)))

/-- The environment of one turn. -/
def loopEnv (c m : Nat) (body : Exp) (ρ₀ : Env) (F : Form) (A : Nat → List Form) : Env :=
  Env.bind ((.gen (c + 2), .loop (loopParams c m) body ρ₀) :: ρ₀) (loopParams c m)
    (F :: (List.range m).map fun j => .ofList (A j))

/-- The environment after the loop. -/
def afterEnv (c m : Nat) (nv : Nat → Nat) (body : Exp) (ρ₀ : Env) (A : Nat → List Form) : Env :=
  Env.bind (loopEnv c m body ρ₀ .nil A) ((List.range m).map fun j => .pat (nv j))
    ((List.range m).map fun j => .ofList (A j).reverse)

/-- The form a variable is bound to. -/
def val (y : Nat) (σ : Binds) : Form :=
  match Binds.get σ y with
  | some t => t.form
  | none => .undefined

/-- The accumulators after the repetitions `τs`. -/
def Inv (D : Def) (P : Form) (m : Nat) (nv : Nat → Nat) (A : Nat → List Form) (τs : List Binds) : Prop :=
  ∀ j, j < m → (∃ k, VarAt D P (nv j) k) → A j = (τs.map (val (nv j))).reverse

section

variable {c m : Nat} {nv : Nat → Nat} {body : Exp} {ρ₀ : Env} {F : Form} {A : Nat → List Form}

theorem loopEnv_w : Env.get (loopEnv c m body ρ₀ F A) (.gen (c + 1)) = some (.form F) := by
  simp only [loopEnv, loopParams, Env.bind, List.zipWith_cons_cons, List.cons_append]
  exact get_cons_self _ _ _

theorem loopEnv_ls {j : Nat} (hj : j < m) :
    Env.get (loopEnv c m body ρ₀ F A) (.gen (c + 3 + j)) = some (.form (.ofList (A j))) := by
  simp only [loopEnv, loopParams, Env.bind, List.zipWith_cons_cons, List.cons_append]
  rw [get_cons_ne _ _ (by simp; omega)]
  exact get_bind_map _ (fun j => .gen (c + 3 + j)) (fun j => .ofList (A j))
    (by intro a b h; simp at h; rw [h]) (List.range m) j (by simpa using hj)

theorem loopEnv_other {v : Var} (h : v ∉ loopParams c m) (h2 : v ≠ .gen (c + 2)) :
    Env.get (loopEnv c m body ρ₀ F A) v = Env.get ρ₀ v := by
  rw [loopEnv, get_bind_notin _ h, get_cons_ne _ _ (Ne.symm h2)]

theorem loopEnv_name :
    Env.get (loopEnv c m body ρ₀ F A) (.gen (c + 2)) = some (.loop (loopParams c m) body ρ₀) := by
  rw [loopEnv, get_bind_notin _ (by simp [loopParams]; omega), get_cons_self]

theorem loopEnv_pat {x : Nat} : Env.get (loopEnv c m body ρ₀ F A) (.pat x) = Env.get ρ₀ (.pat x) :=
  loopEnv_other (by simp [loopParams]) (by simp)

theorem loopEnv_gen {n : Nat} (h : n ≤ c ∨ c + 2 + m < n) :
    Env.get (loopEnv c m body ρ₀ F A) (.gen n) = Env.get ρ₀ (.gen n) := by
  refine loopEnv_other ?_ (by simp; omega)
  simp only [loopParams, List.mem_cons, Var.gen.injEq, List.mem_map, List.mem_range, not_or, not_exists, not_and]
  exact ⟨by omega, fun j hj => by omega⟩

theorem loopEnv_good (h : Good ρ₀) : Good (loopEnv c m body ρ₀ F A) :=
  (h.cons_gen _ _).bind _ _

theorem evs_map {ρ : Env} {α} (g : α → Exp) (h : α → Form) : ∀ l : List α,
    (∀ a ∈ l, Ev U ρ (g a) (h a)) → Evs U ρ (l.map g) (l.map h) := by
  intro l
  induction l with
  | nil => intro _; exact .nil
  | cons a l ih => intro H; exact .cons (H a (by simp)) (ih fun b hb => H b (by simp [hb]))

/-- One turn of the loop, after the element has been matched. -/
theorem loop_step {P : Form} {σ : Binds} {τs : List Binds} {a d : Form} {c₁ : Nat} {ρ' : Env}
    (hg : Good ρ₀) (hinv : Inv D P m nv A τs) (hm : Match D U P a σ)
    (he : Ext (c + 2 + m) c₁ P σ (loopEnv c m body ρ₀ (.cons a d) A) ρ') :
    ∃ A', Inv D P m nv A' (τs ++ [σ]) ∧
      ∀ r, Ev U (loopEnv c m body ρ₀ d A') body r → Ev U ρ' (loopCall c m nv) r := by
  have hgood := he.good (loopEnv_good hg)
  have hval : ∀ j, ∃ u, Ev U ρ' (.var (.pat (nv j))) u ∧ ((∃ k, VarAt D P (nv j) k) → u = val (nv j) σ) := by
    intro j
    cases hget : Env.get ρ' (.pat (nv j)) with
    | none =>
      refine ⟨.undefined, Ev.varNone hget, ?_⟩
      intro hv
      obtain ⟨t, ht⟩ := Option.isSome_iff_exists.1 ((match_domain hm _).2 hv)
      rw [he.new _ t ht] at hget; cases hget
    | some x =>
      cases x with
      | loop ps b ρ₁ => exact absurd hget (hgood _ _ _ _)
      | form f =>
        refine ⟨f, Ev.varForm hget, ?_⟩
        intro hv
        obtain ⟨t, ht⟩ := Option.isSome_iff_exists.1 ((match_domain hm _).2 hv)
        rw [he.new _ t ht] at hget
        cases hget
        simp [val, ht]
  choose u hu hu2 using hval
  refine ⟨fun j => u j :: A j, ?_, ?_⟩
  · intro j hj hv
    simp only [List.map_append, List.map_cons, List.map_nil, List.reverse_append, List.reverse_cons,
      List.reverse_nil, List.nil_append, List.cons_append]
    rw [hu2 j hv, hinv j hj hv]
  · intro r hr
    refine Ev.call (params := loopParams c m) (body := body) (ρ₀ := ρ₀) ?_
      (xs := d :: (List.range m).map fun j => .ofList (u j :: A j)) ?_ hr
    · rw [he.gen _ (by omega), loopEnv_name]
    · refine .cons ?_ ?_
      · exact Ev.prim1 (Ev.varForm (by rw [he.gen _ (by omega), loopEnv_w])) rfl
      · refine evs_map _ _ _ ?_
        intro j hj
        refine Ev.prim2 (hu j) (Ev.varForm (by
          rw [he.gen _ (by simp at hj; omega), loopEnv_ls (by simpa using hj)])) rfl

/-- The loop, when all elements match. -/
theorem loop_match {P : Form} {ek : Exp} {wrap : Exp → Exp} {c₁ : Nat} (hg : Good ρ₀)
    (hb : body = loopBody c m nv wrap ek)
    (hs : Sem D U P (.prim1 .car (.var (.gen (c + 1)))) (c + 2 + m) c₁ wrap) :
    ∀ {fs : List Form} {σs : List Binds}, MatchAll D U P fs σs → ∀ {A : Nat → List Form} {τs : List Binds},
    Inv D P m nv A τs → ∃ A', Inv D P m nv A' (τs ++ σs) ∧
      ∀ r, Ev U (afterEnv c m nv body ρ₀ A') ek r → Ev U (loopEnv c m body ρ₀ (.ofList fs) A) body r := by
  intro fs
  induction fs with
  | nil =>
    intro σs hm A τs hi
    cases hm
    refine ⟨A, by simpa using hi, ?_⟩
    intro r hr
    conv => arg 3; rw [hb]
    refine Ev.iteTrue (Ev.prim1 (Ev.varForm loopEnv_w) rfl) ?_
    refine Ev.bind (xs := (List.range m).map fun j => .ofList (A j).reverse) ?_ ?_
    · rw [List.map_map]
      refine evs_map _ _ _ ?_
      intro j hj
      exact Ev.prim1 (Ev.varForm (loopEnv_ls (by simpa using hj))) (by simp [Prim1.apply, toList_ofList])
    · rw [List.map_map]; exact hr
  | cons f fs ih =>
    intro σs hm A τs hi
    cases hm with
    | cons h1 h2 =>
      rename_i σ σs
      have hx : Ev U (loopEnv c m body ρ₀ (.cons f (.ofList fs)) A) (.prim1 .car (.var (.gen (c + 1)))) f :=
        Ev.prim1 (Ev.varForm loopEnv_w) rfl
      obtain ⟨ρ', he, hr'⟩ := (hs (loopCall c m nv) _ f (loopEnv_good hg) hx).1 σ h1
      obtain ⟨A₁, hi₁, hstep⟩ := loop_step hg hi h1 he
      obtain ⟨A', hi', hA'⟩ := ih h2 hi₁
      refine ⟨A', by simpa using hi', ?_⟩
      intro r hr
      conv => arg 3; rw [hb]
      refine Ev.iteFalse (Ev.prim1 (Ev.varForm loopEnv_w) rfl) ?_
      refine Ev.andTrue (Ev.prim1 (Ev.varForm loopEnv_w) rfl) ?_
      exact hr' r (hstep r (hA' r hr))

/-- The loop, when it does not. -/
theorem loop_fail {P : Form} {ek : Exp} {wrap : Exp → Exp} {c₁ : Nat} (hg : Good ρ₀)
    (hb : body = loopBody c m nv wrap ek)
    (hs : Sem D U P (.prim1 .car (.var (.gen (c + 1)))) (c + 2 + m) c₁ wrap) :
    ∀ (F : Form) {A : Nat → List Form} {τs : List Binds}, Inv D P m nv A τs →
    (∀ fs σs, F = .ofList fs → ¬MatchAll D U P fs σs) →
    Ev U (loopEnv c m body ρ₀ F A) body (.bool false) := by
  intro F
  induction F with
  | nil => intro A τs hi hn; exact absurd .nil (hn [] [] rfl)
  | cons a d _ ih =>
    intro A τs hi hn
    have hx : Ev U (loopEnv c m body ρ₀ (.cons a d) A) (.prim1 .car (.var (.gen (c + 1)))) a :=
      Ev.prim1 (Ev.varForm loopEnv_w) rfl
    have h := hs (loopCall c m nv) _ a (loopEnv_good hg) hx
    conv => arg 3; rw [hb]
    refine Ev.iteFalse (Ev.prim1 (Ev.varForm loopEnv_w) rfl) ?_
    refine Ev.andTrue (Ev.prim1 (Ev.varForm loopEnv_w) rfl) ?_
    by_cases hm : ∃ σ, Match D U P a σ
    · obtain ⟨σ, hm⟩ := hm
      obtain ⟨ρ', he, hr'⟩ := h.1 σ hm
      obtain ⟨A₁, hi₁, hstep⟩ := loop_step hg hi hm he
      refine hr' _ (hstep _ (ih hi₁ ?_))
      intro fs σs e hms
      exact hn (a :: fs) (σ :: σs) (by rw [e]; rfl) (.cons hm hms)
    · exact h.2 (fun σ hσ => hm ⟨σ, hσ⟩)
  | _ =>
    intro A τs hi hn
    conv => arg 3; rw [hb]
    exact Ev.iteFalse (Ev.prim1 (Ev.varForm loopEnv_w) rfl) (Ev.andFalse (Ev.prim1 (Ev.varForm loopEnv_w) rfl))

end

end Meevax.Rules
