import Verif.Lemmas.LibraryMacrosLet

/-!
C82: `receive`, `let-values`, `let*-values`.
-/

namespace Meevax.LibraryMacros

open Meevax.Rules Spec

variable {m : Type → Type} [Monad m] {V : Type} {H : Host m V} {Γ : Ctx}

/-! ### There is always an expansion -/

theorem exists_mktmp (hS : Supply Γ) (hΓ : Symbols Γ) {F e0 bs body : Form} (hF : Formals F) (he : Γ.User e0)
    (hb : ∀ (k : Nat) (tmps : List (Nat × Nat)), Γ.made k → Γ.kw k = some (.rules 0 letValuesRules) → TmpsOk Γ tmps →
      ∃ D, Core H Γ (.ofList [.id k, strBind, bs, .ofList (tmps.map tmpForm), body]) D) :
    ∀ {k : Nat} {args : List Form} {tmps : List (Nat × Nat)}, Γ.made k → Γ.kw k = some (.rules 0 letValuesRules) →
      TmpsOk Γ tmps →
      ∃ d, Core H Γ (.ofList [.id k, strMktmp, F, e0, .ofList args, bs, .ofList (tmps.map tmpForm), body]) d := by
  have hs : ∀ x, x < 50 → ¬Γ.made x := fun x h h' => by have := hΓ x h'; omega
  induction hF with
  | nil =>
    intro k args tmps hk hk' ht
    obtain ⟨U, hf⟩ := hS (.ofList [.id k, strMktmp, .nil, e0, .ofList args, bs, .ofList (tmps.map tmpForm), body])
    obtain ⟨D, hD⟩ := hb _ _ (hf.made 6) (hf.symbol 6 (hs _ (by decide))).1 ht
    have hlam := (hf.symbol 2 (hs _ (by decide))).1
    exact ⟨_, core_use (by decide) letValues_ok hk hk' hf (step_mktmp_nil U _ _ _ _ _ _)
      (.callWithValues (hf.made 5) (hf.symbol 5 (hs _ (by decide))).1
        (.lambda (hf.made 2) hlam (.one (.user he))) (.lambda (hf.made 2) hlam (.one hD)))⟩
  | @rest x =>
    intro k args tmps hk hk' ht
    obtain ⟨U, hf⟩ := hS (.ofList [.id k, strMktmp, .id x, e0, .ofList args, bs, .ofList (tmps.map tmpForm), body])
    have hv := hf.variable (hs 33 (by decide)) rfl
    obtain ⟨D, hD⟩ := hb _ (tmps ++ [(x, U.rename 33)]) (hf.made 6) (hf.symbol 6 (hs _ (by decide))).1 (by
      intro p hp
      rcases List.mem_append.1 hp with hp | hp
      · exact ht p hp
      · rw [List.mem_singleton] at hp
        subst hp
        exact hv)
    have hlam := (hf.symbol 2 (hs _ (by decide))).1
    have e2 : (tmps ++ [(x, U.rename 33)]).map tmpForm = tmps.map tmpForm ++ [Form.ofList [.id x, .id (U.rename 33)]] := by
      simp [tmpForm]
    rw [e2] at hD
    exact ⟨_, core_use (by decide) letValues_ok hk hk' hf (step_mktmp_rest U _ _ _ _ _ _ _)
      (.callWithValues (hf.made 5) (hf.symbol 5 (hs _ (by decide))).1
        (.lambda (hf.made 2) hlam (.one (.user he))) (.lambda (hf.made 2) hlam (.one hD)))⟩
  | @cons a F _ ih =>
    intro k args tmps hk hk' ht
    obtain ⟨U, hf⟩ := hS (.ofList [.id k, strMktmp, .cons (.id a) F, e0, .ofList args, bs, .ofList (tmps.map tmpForm), body])
    have hv := hf.variable (hs 33 (by decide)) rfl
    obtain ⟨d, hd⟩ := ih (args := args ++ [.id (U.rename 33)]) (tmps := tmps ++ [(a, U.rename 33)]) (hf.made 6)
      (hf.symbol 6 (hs _ (by decide))).1 (by
        intro p hp
        rcases List.mem_append.1 hp with hp | hp
        · exact ht p hp
        · rw [List.mem_singleton] at hp
          subst hp
          exact hv)
    have e2 : (tmps ++ [(a, U.rename 33)]).map tmpForm = tmps.map tmpForm ++ [Form.ofList [.id a, .id (U.rename 33)]] := by
      simp [tmpForm]
    rw [e2] at hd
    exact ⟨d, core_use (by decide) letValues_ok hk hk' hf (step_mktmp_cons U _ _ _ _ _ _ _ _) hd⟩

theorem exists_inits {tmps : List (Nat × Nat)} (ht : TmpsOk Γ tmps) :
    ∃ xs ds, Inits H Γ (.ofList (tmps.map tmpForm)) xs ds := by
  induction tmps with
  | nil => exact ⟨_, _, .nil⟩
  | cons p tmps ih =>
    obtain ⟨xs, ds, h⟩ := ih fun q hq => ht q (by simp [hq])
    obtain ⟨h1, h2, _⟩ := ht p (by simp)
    exact ⟨_, _, .cons (.var h1 h2) h⟩

theorem exists_bind (hS : Supply Γ) (hΓ : Symbols Γ) {kb : Nat} {body : Form} (hb : Γ.made kb)
    (hb' : Γ.kw kb = some .begin_) {B : Env V → m V} (hB : Body H Γ body B) {bs : List (Form × Form)}
    (hbs : ∀ b ∈ bs, Formals b.1 ∧ Γ.User b.2) :
    ∀ (k : Nat) (tmps : List (Nat × Nat)), Γ.made k → Γ.kw k = some (.rules 0 letValuesRules) → TmpsOk Γ tmps →
      ∃ D, Core H Γ (.ofList [.id k, strBind, .ofList (bs.map bindingForm), .ofList (tmps.map tmpForm),
        .cons (.id kb) body]) D := by
  have hs : ∀ x, x < 50 → ¬Γ.made x := fun x h h' => by have := hΓ x h'; omega
  induction bs with
  | nil =>
    intro k tmps hk hk' ht
    obtain ⟨U, hf⟩ := hS (.ofList [.id k, strBind, .nil, .ofList (tmps.map tmpForm), .cons (.id kb) body])
    obtain ⟨xs, ds, hi⟩ := exists_inits (H := H) ht
    exact ⟨_, core_use (by decide) letValues_ok hk hk' hf (step_bind_nil U _ _ _)
      (.let_ (hf.made 3) (hf.symbol 3 (hs _ (by decide))).1 hi (.begin_ hb hb' hB))⟩
  | cons b bs ih =>
    intro k tmps hk hk' ht
    obtain ⟨U, hf⟩ := hS (.ofList [.id k, strBind, .ofList ((b :: bs).map bindingForm), .ofList (tmps.map tmpForm),
      .cons (.id kb) body])
    obtain ⟨hF, hu⟩ := hbs b (by simp)
    obtain ⟨d, hd⟩ := exists_mktmp hS hΓ hF hu (ih fun c hc => hbs c (by simp [hc])) (args := []) (hf.made 6)
      (hf.symbol 6 (hs _ (by decide))).1 ht
    exact ⟨d, core_use (by decide) letValues_ok hk hk' hf (step_bind_cons U _ _ _ _ _ _) hd⟩

/-! ### Uses by the user -/

theorem means_step {rs : List (Form × Form)} (hr : rs.all (ruleOk 0 1 []) = true) {k args : Form} {d : Env V → m V}
    {out : Use → Form} (hs : ∀ U, Steps 0 U rs (.cons k args) (out U)) :
    Means H Γ rs (.cons k args) d ↔ ∃ U, Fresh Γ U (.cons k args) ∧ Core H Γ (out U) d := by
  constructor
  · rintro ⟨U, fuel, f, hf, ht, hc⟩
    rw [expansion_unique (by decide) (by simp) hr (hs U) ht] at hc
    exact ⟨U, hf, hc⟩
  · rintro ⟨U, hf, hc⟩
    obtain ⟨f₀, h₀⟩ := C69_syntax_rules_partial (eqDef_ok (by decide) (by simp)) (rulesOk_of hr) (hs U)
    exact ⟨U, f₀, _, hf, h₀ f₀ (Nat.le_refl _), hc⟩

theorem user_list {fs : List Form} : Γ.User (.ofList fs) ↔ ∀ f ∈ fs, Γ.User f := by
  induction fs with
  | nil => simp [Form.ofList, user_nil]
  | cons f fs ih =>
    constructor
    · intro h g hg
      rcases List.mem_cons.1 hg with rfl | hg
      · exact fun x hx => h x (by simp [idsOf, Form.ofList, hx])
      · exact ih.1 (fun x hx => h x (by simp [idsOf, Form.ofList, hx])) g hg
    · intro h
      exact user_cons (h f (by simp)) (ih.2 fun g hg => h g (by simp [hg]))

/-- The condition on the bindings. -/
def BindingsOk (Γ : Ctx) (bs : List (Form × Form)) : Prop := ∀ b ∈ bs, Formals b.1 ∧ Γ.User b.2

variable [LawfulMonad m]

/-- `(receive formals expression body ...)`. -/
theorem C82_receive (hS : Supply Γ) (hΓ : Symbols Γ) {k formals ex : Form} {body : List Form} (hF : Formals formals)
    (he : Γ.User ex) (hb : Γ.User (.ofList body)) {d : Env V → m V} :
    Means H Γ receiveRules (.cons k (.cons formals (.cons ex (.ofList body)))) d ↔ d = receive H formals ex body := by
  have hs : ∀ x, x < 50 → ¬Γ.made x := fun x h h' => by have := hΓ x h'; omega
  rw [means_step receive_ok (fun U => step_receive U _ _ _ _)]
  have uniq : ∀ U, Fresh Γ U (.cons k (.cons formals (.cons ex (.ofList body)))) → ∀ d, Core H Γ (.ofList [.id (U.rename 5),
      .ofList [.id (U.rename 2), .nil, ex], .cons (.id (U.rename 2)) (.cons formals (.ofList body))]) d →
      d = receive H formals ex body := by
    intro U hf d hc
    obtain ⟨P, C, hp, hC, rfl⟩ := core_values_inv (hf.made _) (hf.symbol 5 (hs _ (by decide))).1 hc
    obtain ⟨B, hB, rfl⟩ := proc_inv hC
    rw [body_user_inv hb hB]
    funext ρ
    simp only [thunk_inv he hp, call_eq hF, receive]
  constructor
  · rintro ⟨U, hf, hc⟩
    exact uniq U hf d hc
  · rintro rfl
    obtain ⟨U, hf⟩ := hS (.cons k (.cons formals (.cons ex (.ofList body))))
    have hlam := (hf.symbol 2 (hs _ (by decide))).1
    have hc : Core H Γ (.ofList [.id (U.rename 5), .ofList [.id (U.rename 2), .nil, ex],
        .cons (.id (U.rename 2)) (.cons formals (.ofList body))]) _ :=
      .callWithValues (hf.made 5) (hf.symbol 5 (hs _ (by decide))).1 (.lambda (hf.made 2) hlam (.one (.user he)))
        (.lambda (hf.made 2) hlam (.user hb))
    rw [uniq U hf _ hc] at hc
    exact ⟨U, hf, hc⟩

/-- `let-values` with any body. -/
theorem let_values_inv (hl : Lawful H Γ.made) (hΓ : Symbols Γ) {U : Use} {form body : Form} {bs : List (Form × Form)}
    (hbs : BindingsOk Γ bs) (hf : Fresh Γ U form) {d : Env V → m V}
    (hc : Core H Γ (.ofList [.id (U.rename 6), strBind, .ofList (bs.map bindingForm), .nil, .cons (.id (U.rename 4)) body]) d) :
    ∃ B, Body H Γ body B ∧ (Local Γ.made B → d = fun ρ => letValues H ρ B bs []) := by
  have hs : ∀ x, x < 50 → ¬Γ.made x := fun x h h' => by have := hΓ x h'; omega
  obtain ⟨B, hB, hd⟩ := bind_inv (tmps := []) hl hΓ (hf.made 4) (hf.symbol 4 (hs _ (by decide))).1 hbs (hf.made 6)
    (hf.symbol 6 (hs _ (by decide))).1 (fun p hp => by cases hp) hc
  exact ⟨B, hB, fun hloc => funext fun ρ => hd hloc ρ ρ fun _ _ => rfl⟩

omit [Monad m] [LawfulMonad m] in
theorem local_body {made : Nat → Prop} (hl : ∀ fs ρ ρ', (∀ x, ¬made x → ρ x = ρ' x) → H.body fs ρ = H.body fs ρ')
    (fs : List Form) : Local made (H.body fs) := fun ρ ρ' h => hl fs ρ ρ' h

/-- `(let-values ((formals init) ...) body0 body1 ...)`. -/
theorem C82_let_values (hl : Lawful H Γ.made) (hS : Supply Γ) (hΓ : Symbols Γ) {k b0 : Form} {body : List Form}
    {bs : List (Form × Form)} (hbs : BindingsOk Γ bs) (hb : Γ.User (.ofList (b0 :: body))) {d : Env V → m V} :
    Means H Γ letValuesRules (.cons k (.cons (.ofList (bs.map bindingForm)) (.cons b0 (.ofList body)))) d ↔
      d = fun ρ => letValues H ρ (H.body (b0 :: body)) bs [] := by
  have hs : ∀ x, x < 50 → ¬Γ.made x := fun x h h' => by have := hΓ x h'; omega
  rw [means_step letValues_ok (fun U => step_let U _ _ _ _)]
  have uniq : ∀ U, Fresh Γ U (.cons k (.cons (.ofList (bs.map bindingForm)) (.cons b0 (.ofList body)))) →
      ∀ d, Core H Γ (.ofList [.id (U.rename 6), strBind, .ofList (bs.map bindingForm), .nil,
        .cons (.id (U.rename 4)) (.cons b0 (.ofList body))]) d → d = fun ρ => letValues H ρ (H.body (b0 :: body)) bs [] := by
    intro U hf d hc
    obtain ⟨B, hB, hd⟩ := let_values_inv hl hΓ hbs hf hc
    rw [body_user_inv (fs := b0 :: body) hb hB] at hd
    exact hd (local_body hl.lexical _)
  constructor
  · rintro ⟨U, hf, hc⟩
    exact uniq U hf d hc
  · rintro rfl
    obtain ⟨U, hf⟩ := hS (.cons k (.cons (.ofList (bs.map bindingForm)) (.cons b0 (.ofList body))))
    obtain ⟨D, hD⟩ := exists_bind (H := H) hS hΓ (hf.made 4) (hf.symbol 4 (hs _ (by decide))).1 (.user hb) hbs _ [] (hf.made 6)
      (hf.symbol 6 (hs _ (by decide))).1 (fun p hp => by cases hp)
    refine ⟨U, hf, ?_⟩
    rw [← uniq U hf D hD]
    exact hD

omit [LawfulMonad m] in
theorem receiving_congr {f : Form} {vs : List V} {k k' : List (Nat × V) → m V} (h : ∀ bs, k bs = k' bs) :
    receiving H f vs k = receiving H f vs k' := by
  rw [show k = k' from funext h]

theorem local_star {made : Nat → Prop} (hl : ∀ fs ρ ρ', (∀ x, ¬made x → ρ x = ρ' x) → H.body fs ρ = H.body fs ρ')
    {B : Env V → m V} (hB : Local made B) (bs : List (Form × Form)) : Local made (letStarValues H B bs) := by
  induction bs with
  | nil => exact hB
  | cons b bs ih =>
    intro ρ ρ' h
    simp only [letStarValues]
    rw [hl _ ρ ρ' h]
    congr 1
    funext r
    exact receiving_congr fun new => extend_local new ih h

theorem star_inv (hl : Lawful H Γ.made) (hΓ : Symbols Γ) {b0 : Form} {body : List Form} {bs : List (Form × Form)}
    (hbs : BindingsOk Γ bs) (hb : Γ.User (.ofList (b0 :: body))) :
    ∀ {k : Form} {U : Use} {d : Env V → m V} {out : Form},
      Fresh Γ U (.cons k (.cons (.ofList (bs.map bindingForm)) (.cons b0 (.ofList body)))) →
      Steps 0 U letStarValuesRules (.cons k (.cons (.ofList (bs.map bindingForm)) (.cons b0 (.ofList body)))) out →
      Core H Γ out d → d = letStarValues H (H.body (b0 :: body)) bs := by
  have hs : ∀ x, x < 50 → ¬Γ.made x := fun x h h' => by have := hΓ x h'; omega
  have det : ∀ {f out out' : Form} {U : Use} {k args : Form}, f = .cons k args → Steps 0 U letStarValuesRules f out →
      Steps 0 U letStarValuesRules f out' → out = out' := by
    rintro f out out' U k args rfl h h'
    obtain ⟨f₀, h₀⟩ := C69_syntax_rules_partial (eqDef_ok (by decide) (by simp)) (rulesOk_of letStarValues_ok) h
    exact expansion_unique (by decide) (by simp) letStarValues_ok h' (h₀ f₀ (Nat.le_refl _))
  induction bs with
  | nil =>
    intro k U d out hf hst hc
    cases det rfl hst (step_star_nil U _ _ _)
    obtain ⟨xs, ds, B, hi, hB, rfl⟩ := core_let_inv (hf.made _) (hf.symbol 3 (hs _ (by decide))).1 hc
    cases hi
    rw [body_user_inv (fs := b0 :: body) hb hB]
    funext ρ
    simp [operands, bindAll, letStarValues]
  | cons b bs ih =>
    intro k U d out hf hst hc
    cases det rfl hst (step_star_cons U _ _ _ _ _)
    have h6 := (hf.symbol 6 (hs _ (by decide))).1
    have h7 := (hf.symbol 7 (hs _ (by decide))).1
    obtain ⟨U', hf', hc'⟩ := core_step (by decide) letValues_ok (hf.made 6) h6
      (fun U' => step_let U' _ (.cons (.id (U.rename 7)) (.cons (.ofList (bs.map bindingForm)) (.cons b0 (.ofList body))))
        [bindingForm b] []) hc
    obtain ⟨B, hB, hd⟩ := let_values_inv (bs := [b]) hl hΓ (fun c hc => by
      rw [List.mem_singleton] at hc
      subst hc
      exact hbs _ (by simp)) hf' hc'
    have hB' := body_one_inv (hf.made 7) (by rw [h7]; rintro ⟨⟩) hB
    obtain ⟨U'', fuel, f, hf'', ht, hc''⟩ := core_rules_inv (hf.made 7) h7 hB'
    have hst' : Steps 0 U'' letStarValuesRules (.cons (.id (U.rename 7)) (.cons (.ofList (bs.map bindingForm))
        (.cons b0 (.ofList body)))) f := by
      cases bs with
      | nil =>
        have := step_star_nil U'' (.id (U.rename 7)) b0 body
        rw [expansion_unique (by decide) (by simp) letStarValues_ok this ht]
        exact this
      | cons c bs =>
        have := step_star_cons U'' (.id (U.rename 7)) (bindingForm c) b0 (bs.map bindingForm) body
        rw [expansion_unique (by decide) (by simp) letStarValues_ok this ht]
        exact this
    have hBB := ih (fun c hc => hbs c (by simp [hc])) hf'' hst' hc''
    subst hBB
    rw [hd (local_star hl.lexical (local_body hl.lexical _) bs)]
    funext ρ
    simp only [letValues, letStarValues, List.nil_append]

omit [LawfulMonad m] in
theorem exists_star (hS : Supply Γ) (hΓ : Symbols Γ) {b0 : Form} {body : List Form} {bs : List (Form × Form)}
    (hbs : BindingsOk Γ bs) (hb : Γ.User (.ofList (b0 :: body))) :
    ∀ (k : Form), ∃ U out d, Fresh Γ U (.cons k (.cons (.ofList (bs.map bindingForm)) (.cons b0 (.ofList body)))) ∧
      Steps 0 U letStarValuesRules (.cons k (.cons (.ofList (bs.map bindingForm)) (.cons b0 (.ofList body)))) out ∧
      Core H Γ out d := by
  have hs : ∀ x, x < 50 → ¬Γ.made x := fun x h h' => by have := hΓ x h'; omega
  induction bs with
  | nil =>
    intro k
    obtain ⟨U, hf⟩ := hS (.cons k (.cons (.ofList []) (.cons b0 (.ofList body))))
    exact ⟨U, _, _, hf, step_star_nil U _ _ _, .let_ (hf.made 3) (hf.symbol 3 (hs _ (by decide))).1 .nil
      (.user (fs := b0 :: body) hb)⟩
  | cons b bs ih =>
    intro k
    obtain ⟨U, hf⟩ := hS (.cons k (.cons (.ofList ((b :: bs).map bindingForm)) (.cons b0 (.ofList body))))
    have h6 := (hf.symbol 6 (hs _ (by decide))).1
    have h7 := (hf.symbol 7 (hs _ (by decide))).1
    obtain ⟨U', out, d, hf', hst, hc⟩ := ih (fun c hc => hbs c (by simp [hc])) (.id (U.rename 7))
    have hc' := core_use (by decide) letStarValues_ok (hf.made 7) h7 hf' hst hc
    obtain ⟨U'', hf''⟩ := hS (.ofList [.id (U.rename 6), .ofList [bindingForm b],
      .cons (.id (U.rename 7)) (.cons (.ofList (bs.map bindingForm)) (.cons b0 (.ofList body)))])
    obtain ⟨D, hD⟩ := exists_bind (bs := [b]) hS hΓ (hf''.made 4) (hf''.symbol 4 (hs _ (by decide))).1 (.one hc') (fun c hc => by
      rw [List.mem_singleton] at hc
      subst hc
      exact hbs _ (by simp)) _ [] (hf''.made 6) (hf''.symbol 6 (hs _ (by decide))).1 (fun p hp => by cases hp)
    exact ⟨U, _, D, hf, step_star_cons U _ _ _ _ _, core_use (by decide) letValues_ok (hf.made 6) h6 hf''
      (step_let U'' _ _ [bindingForm b] []) hD⟩

/-- `(let*-values ((formals init) ...) body0 body1 ...)`. -/
theorem C82_let_star_values (hl : Lawful H Γ.made) (hS : Supply Γ) (hΓ : Symbols Γ) {k b0 : Form} {body : List Form}
    {bs : List (Form × Form)} (hbs : BindingsOk Γ bs) (hb : Γ.User (.ofList (b0 :: body))) {d : Env V → m V} :
    Means H Γ letStarValuesRules (.cons k (.cons (.ofList (bs.map bindingForm)) (.cons b0 (.ofList body)))) d ↔
      d = letStarValues H (H.body (b0 :: body)) bs := by
  have step : ∃ out : Use → Form, ∀ U, Steps 0 U letStarValuesRules
      (.cons k (.cons (.ofList (bs.map bindingForm)) (.cons b0 (.ofList body)))) (out U) := by
    cases bs with
    | nil => exact ⟨_, fun U => step_star_nil U _ _ _⟩
    | cons b bs => exact ⟨_, fun U => step_star_cons U _ _ _ _ _⟩
  obtain ⟨out, step⟩ := step
  rw [means_step letStarValues_ok step]
  constructor
  · rintro ⟨U, hf, hc⟩
    exact star_inv hl hΓ hbs hb hf (step U) hc
  · rintro rfl
    obtain ⟨U, out', d, hf, hst, hc⟩ := exists_star (H := H) hS hΓ hbs hb k
    have hd := star_inv hl hΓ hbs hb hf hst hc
    subst hd
    refine ⟨U, hf, ?_⟩
    obtain ⟨f₀, h₀⟩ := C69_syntax_rules_partial (eqDef_ok (by decide) (by simp)) (rulesOk_of letStarValues_ok) hst
    rw [← expansion_unique (by decide) (by simp) letStarValues_ok (step U) (h₀ f₀ (Nat.le_refl _))]
    exact hc

end Meevax.LibraryMacros
