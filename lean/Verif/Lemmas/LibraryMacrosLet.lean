import Verif.Lemmas.LibraryMacrosCore

/-!
For C82: the steps of `let-values`.
-/

namespace Meevax.LibraryMacros

open Meevax.Rules Spec

variable {m : Type → Type} [Monad m] {V : Type} {H : Host m V} {Γ : Ctx}

/-- `(a x)`, a variable of the user and its inserted variable. -/
def tmpForm (p : Nat × Nat) : Form := .ofList [.id p.1, .id p.2]

/-- `(formals init)`. -/
def bindingForm (b : Form × Form) : Form := .ofList [b.1, b.2]

/-- The second component is an inserted variable. -/
def TmpsOk (Γ : Ctx) (tmps : List (Nat × Nat)) : Prop :=
  ∀ p ∈ tmps, Γ.made p.2 ∧ Γ.kw p.2 = none ∧ Γ.var p.2 = p.2

theorem letValues_ok : letValuesRules.all (ruleOk 0 1 []) = true := by decide +kernel

theorem letStarValues_ok : letStarValuesRules.all (ruleOk 0 1 []) = true := by decide +kernel

theorem receive_ok : receiveRules.all (ruleOk 0 1 []) = true := by decide +kernel

theorem ids_tmps {tmps : List (Nat × Nat)} {p : Nat × Nat} (h : p ∈ tmps) : p.2 ∈ idsOf (.ofList (tmps.map tmpForm)) := by
  induction tmps with
  | nil => cases h
  | cons q tmps ih =>
    rcases List.mem_cons.1 h with h | h
    · subst h
      simp [idsOf, Form.ofList, tmpForm]
    · simp only [List.map_cons, Form.ofList, idsOf, List.mem_append]
      exact .inr (ih h)

/-- A symbol that no library gives a meaning, renamed. -/
theorem Fresh.variable {U : Use} {f : Form} (h : Fresh Γ U f) {x : Nat} (hx : ¬Γ.made x) (hk : keyword x = none) :
    Γ.made (U.rename x) ∧ Γ.kw (U.rename x) = none ∧ Γ.var (U.rename x) = U.rename x :=
  ⟨h.made x, by rw [(h.symbol x hx).1, hk], (h.symbol x hx).2⟩

theorem user_cons {f g : Form} (hf : Γ.User f) (hg : Γ.User g) : Γ.User (.cons f g) := by
  intro x hx
  rw [idsOf, List.mem_append] at hx
  exact hx.elim (hf x) (hg x)

theorem user_nil : Γ.User .nil := by
  intro x hx
  cases hx

variable [LawfulMonad m]

/-- `(lambda () init)`, called without arguments. -/
theorem thunk_inv {k : Nat} {e0 : Form} {P : Env V → List V → m V} (he : Γ.User e0)
    (h : Proc H Γ (.ofList [.id k, .nil, e0]) P) (ρ : Env V) : P ρ [] = H.body [e0] ρ := by
  obtain ⟨B, hb, rfl⟩ := proc_inv h
  rw [body_user_inv (fs := [e0]) (user_cons he user_nil) hb]
  simp [call, split, withRest, bindAll]

/-- The end of the formals. -/
def restForm : Option (Nat × Nat) → Form
  | none => .nil
  | some p => .id p.2

theorem dotted_nil (fs : List Form) : Form.dotted fs .nil = .ofList fs := by
  induction fs with
  | nil => rfl
  | cons a fs ih => simp [Form.dotted, Form.ofList, ih]

/-- All that the steps with "mktmp" do. -/
theorem mktmp_inv (hΓ : ∀ x, Γ.made x → 50 ≤ x) {F e0 bs body : Form} (hF : Formals F) (he : Γ.User e0) :
    ∀ {k : Nat} {T₀ tmps : List (Nat × Nat)} {d : Env V → m V}, Γ.made k → Γ.kw k = some (.rules 0 letValuesRules) →
      Core H Γ (.ofList [.id k, strMktmp, F, e0, .ofList (T₀.map fun p => .id p.2), bs, .ofList (tmps.map tmpForm), body]) d →
      ∃ T R k' D', Γ.made k' ∧ Γ.kw k' = some (.rules 0 letValuesRules) ∧ TmpsOk Γ (T ++ R.toList) ∧
        ((T ++ R.toList).map Prod.snd).Nodup ∧ (∀ p ∈ T ++ R.toList, p.2 ∉ tmps.map Prod.snd) ∧
        required F = T.map Prod.fst ∧ others F = R.map Prod.fst ∧
        Core H Γ (.ofList [.id k', strBind, bs, .ofList ((tmps ++ (T ++ R.toList)).map tmpForm), body]) D' ∧
        ∀ ρ, d ρ = (do
          let r ← H.body [e0] ρ
          call H (Form.dotted ((T₀ ++ T).map fun p => .id p.2) (restForm R)) D' ρ (H.vals r)) := by
  have hs : ∀ x, x < 50 → ¬Γ.made x := fun x h h' => by have := hΓ x h'; omega
  induction hF with
  | nil =>
    intro k T₀ tmps d hk hk' h
    obtain ⟨U, hf, hc⟩ := core_step (by decide) letValues_ok hk hk' (fun U => step_mktmp_nil U _ _ _ _ _ _) h
    obtain ⟨P, C, hp, hC, rfl⟩ := core_values_inv (hf.made _) (hf.symbol 5 (hs _ (by decide))).1 hc
    obtain ⟨B, hb, rfl⟩ := proc_inv hC
    have hl := (hf.symbol 6 (hs _ (by decide))).1
    have hb' := body_one_inv (hf.made 6) (by rw [hl]; rintro ⟨⟩) hb
    refine ⟨[], none, U.rename 6, B, hf.made _, hl, (fun p hp => by cases hp), .nil, (fun p hp => by cases hp), rfl, rfl, ?_, ?_⟩
    · simp only [Option.toList, List.append_nil]
      exact hb'
    · intro ρ
      simp only [thunk_inv he hp, List.append_nil, restForm, dotted_nil]
  | @rest x =>
    intro k T₀ tmps d hk hk' h
    obtain ⟨U, hf, hc⟩ := core_step (by decide) letValues_ok hk hk' (fun U => step_mktmp_rest U _ _ _ _ _ _ _) h
    obtain ⟨P, C, hp, hC, rfl⟩ := core_values_inv (hf.made _) (hf.symbol 5 (hs _ (by decide))).1 hc
    obtain ⟨B, hb, rfl⟩ := proc_inv hC
    have hl := (hf.symbol 6 (hs _ (by decide))).1
    have hb' := body_one_inv (hf.made 6) (by rw [hl]; rintro ⟨⟩) hb
    have hv := hf.variable (hs 33 (by decide)) rfl
    refine ⟨[], some (x, U.rename 33), U.rename 6, B, hf.made _, hl, ?_, by simp, ?_, rfl, rfl, ?_, ?_⟩
    · intro p hp
      simp at hp
      subst hp
      exact hv
    · intro p hp hq
      simp at hp
      subst hp
      obtain ⟨q, hq, e⟩ := List.mem_map.1 hq
      refine hf.fresh 33 ?_
      simp only at e
      rw [← e]
      simp [idsOf, Form.ofList, ids_tmps hq]
    · have e2 : tmps.map tmpForm ++ [Form.ofList [.id x, .id (U.rename 33)]] = (tmps ++ ([] ++ (some (x, U.rename 33)).toList)).map tmpForm := by
        simp [tmpForm]
      rw [← e2]
      exact hb'
    · intro ρ
      simp only [thunk_inv he hp, List.append_nil, restForm]
  | @cons a F _ ih =>
    intro k T₀ tmps d hk hk' h
    obtain ⟨U, hf, hc⟩ := core_step (by decide) letValues_ok hk hk' (fun U => step_mktmp_cons U _ _ _ _ _ _ _ _) h
    have hl := (hf.symbol 6 (hs _ (by decide))).1
    have hv := hf.variable (hs 33 (by decide)) rfl
    have e1 : (T₀.map fun p => Form.id p.2) ++ [Form.id (U.rename 33)] = (T₀ ++ [(a, U.rename 33)]).map fun p => .id p.2 := by
      simp
    have e2 : tmps.map tmpForm ++ [Form.ofList [.id a, .id (U.rename 33)]] = (tmps ++ [(a, U.rename 33)]).map tmpForm := by
      simp [tmpForm]
    rw [e1, e2] at hc
    obtain ⟨T, R, k', D', h1, h2, h3, h4, h5, h6, h7, h8, h9⟩ := ih (hf.made 6) hl hc
    refine ⟨(a, U.rename 33) :: T, R, k', D', h1, h2, ?_, ?_, ?_, by simp [required, h6], h7, ?_, ?_⟩
    · intro p hp
      rw [List.cons_append, List.mem_cons] at hp
      rcases hp with rfl | hp
      · exact hv
      · exact h3 p hp
    · rw [List.cons_append, List.map_cons, List.nodup_cons]
      refine ⟨?_, h4⟩
      intro hm
      obtain ⟨p, hp, e⟩ := List.mem_map.1 hm
      exact h5 p hp (by simp [e])
    · intro p hp hq
      rw [List.cons_append, List.mem_cons] at hp
      rcases hp with rfl | hp
      · obtain ⟨q, hq, e⟩ := List.mem_map.1 hq
        refine hf.fresh 33 ?_
        simp only at e
        rw [← e]
        simp [idsOf, Form.ofList, ids_tmps hq]
      · refine h5 p hp ?_
        rw [List.map_append]
        exact List.mem_append_left _ hq
    · simpa using h8
    · intro ρ
      rw [h9]
      simp

theorem inits_inv {tmps : List (Nat × Nat)} (ht : TmpsOk Γ tmps) {xs : List Nat} {ds : List (Env V → m V)}
    (h : Inits H Γ (.ofList (tmps.map tmpForm)) xs ds) :
    xs = tmps.map Prod.fst ∧ ∀ ρ, operands ds ρ = pure (tmps.map fun p => ρ p.2) := by
  induction tmps generalizing xs ds with
  | nil =>
    cases h
    exact ⟨rfl, fun _ => rfl⟩
  | cons p tmps ih =>
    cases h with
    | cons hc hi =>
      obtain ⟨rfl, h2⟩ := ih (fun q hq => ht q (by simp [hq])) hi
      refine ⟨rfl, fun ρ => ?_⟩
      obtain ⟨h3, _, h5⟩ := ht p (by simp)
      rw [operands, h2, core_var_inv h3 hc, h5]
      simp

omit [Monad m] [LawfulMonad m] in
theorem formals_dotted (T : List (Nat × Nat)) (R : Option (Nat × Nat)) :
    Formals (Form.dotted (T.map fun p => .id p.2) (restForm R)) ∧
      required (Form.dotted (T.map fun p => .id p.2) (restForm R)) = T.map Prod.snd ∧
      others (Form.dotted (T.map fun p => .id p.2) (restForm R)) = R.map Prod.snd := by
  induction T with
  | nil =>
    cases R with
    | none => exact ⟨.nil, rfl, rfl⟩
    | some p => exact ⟨.rest, rfl, rfl⟩
  | cons p T ih =>
    refine ⟨.cons ih.1, ?_, ?_⟩
    · simp only [List.map_cons, Form.dotted, required, ih.2.1]
    · simp only [List.map_cons, Form.dotted, others, ih.2.2]

/-- The meaning depends on the identifiers of the user only. -/
def Local (made : Nat → Prop) (B : Env V → m V) : Prop := ∀ ρ ρ', (∀ x, ¬made x → ρ x = ρ' x) → B ρ = B ρ'

theorem extend_local {made : Nat → Prop} (bs : List (Nat × V)) {ρ ρ' : Env V} {B : Env V → m V} (hB : Local made B)
    (h : ∀ x, ¬made x → ρ x = ρ' x) : inScope H ρ bs B = inScope H ρ' bs B := by
  rw [← bindAll_eq, ← bindAll_eq]
  induction bs generalizing ρ ρ' with
  | nil => exact hB _ _ h
  | cons b bs ih =>
    simp only [bindAll]
    congr 1
    funext c
    refine ih ?_
    intro x hx
    simp only [Env.set]
    split
    · rfl
    · exact h x hx

/-- All that the steps with "bind" do. -/
theorem bind_inv (hl : Lawful H Γ.made) (hΓ : ∀ x, Γ.made x → 50 ≤ x) {kb : Nat} {body : Form} (hb : Γ.made kb)
    (hb' : Γ.kw kb = some .begin_) {bs : List (Form × Form)}
    (hbs : ∀ b ∈ bs, Formals b.1 ∧ Γ.User b.2) :
    ∀ {k : Nat} {tmps : List (Nat × Nat)} {d : Env V → m V}, Γ.made k → Γ.kw k = some (.rules 0 letValuesRules) →
      TmpsOk Γ tmps →
      Core H Γ (.ofList [.id k, strBind, .ofList (bs.map bindingForm), .ofList (tmps.map tmpForm), .cons (.id kb) body]) d →
      ∃ B, Body H Γ body B ∧ (Local Γ.made B → ∀ ρ₀ ρ, (∀ x, ¬Γ.made x → ρ x = ρ₀ x) →
        d ρ = letValues H ρ₀ B bs (tmps.map fun p => (p.1, ρ p.2))) := by
  have hs : ∀ x, x < 50 → ¬Γ.made x := fun x h h' => by have := hΓ x h'; omega
  induction bs with
  | nil =>
    intro k tmps d hk hk' ht h
    obtain ⟨U, hf, hc⟩ := core_step (by decide) letValues_ok hk hk' (fun U => step_bind_nil U _ _ _) h
    obtain ⟨xs, ds, B, hi, hB, rfl⟩ := core_let_inv (hf.made _) (hf.symbol 3 (hs _ (by decide))).1 hc
    obtain ⟨rfl, ho⟩ := inits_inv ht hi
    refine ⟨B, body_begin_inv hb hb' hB, fun hloc ρ₀ ρ hρ => ?_⟩
    simp only [ho, pure_bind, bindAll_eq, letValues]
    rw [extend_local _ hloc hρ]
    congr 1
    rw [List.zip_map']
  | cons b bs ih =>
    intro k tmps d hk hk' ht h
    obtain ⟨U, hf, hc⟩ := core_step (by decide) letValues_ok hk hk' (fun U => step_bind_cons U _ _ _ _ _ _) h
    obtain ⟨hF, hu⟩ := hbs b (by simp)
    obtain ⟨T, R, k', D', h1, h2, h3, h4, h5, h6, h7, h8, h9⟩ :=
      mktmp_inv (T₀ := []) hΓ hF hu (hf.made 6) (hf.symbol 6 (hs _ (by decide))).1 hc
    obtain ⟨B, hB, hd⟩ := ih (fun c hc => hbs c (by simp [hc])) h1 h2
      (fun p hp => (List.mem_append.1 hp).elim (ht p) (h3 p)) h8
    refine ⟨B, hB, fun hloc ρ₀ ρ hρ => ?_⟩
    obtain ⟨g1, g2, g3⟩ := formals_dotted T R
    rw [h9]
    simp only [letValues, List.nil_append, call_eq g1]
    rw [hl.lexical _ ρ ρ₀ hρ]
    congr 1
    funext r
    refine receiving_rename h6 h7 g2 g3 ?_
    intro ws hw
    rw [inScope, extend_made hl]
    · rw [pure_bind, hd hloc ρ₀]
      · congr 1
        rw [List.map_append]
        congr 1
        · refine List.map_congr_left fun p hp => ?_
          rw [setAll_not]
          intro hm
          obtain ⟨q, hq, e⟩ := List.mem_map.1 hm
          exact h5 q hq (List.mem_map.2 ⟨p, hp, e.symm⟩)
        · have := setAll_zip (V := V) h4 (by simpa using hw) ρ
          rw [List.map_map] at this
          conv_rhs => rw [← this]
          rw [List.zip_map']
          rfl
      · intro x hx
        rw [setAll_not, hρ x hx]
        intro hm
        obtain ⟨q, hq, rfl⟩ := List.mem_map.1 hm
        exact hx (h3 q hq).1
    · intro b' hb'
      have := (List.of_mem_zip hb').1
      obtain ⟨q, hq, e⟩ := List.mem_map.1 this
      rw [← e]
      exact (h3 q hq).1

end Meevax.LibraryMacros
