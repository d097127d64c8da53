import Verif.Lemmas.LibraryMacrosCase

/-!
C82: `case-lambda`.
-/

namespace Meevax.LibraryMacros

open Meevax.Rules Spec

variable {m : Type → Type} [Monad m] {V : Type} {H : Host m V} {Γ : Ctx}

/-! ### Inversion -/

theorem core_if_inv {k : Nat} {t a b : Form} {d : Env V → m V} (hm : Γ.made k) (hk : Γ.kw k = some .if_)
    (h : Core H Γ (.ofList [.id k, t, a, b]) d) :
    ∃ T A B, Core H Γ t T ∧ Core H Γ a A ∧ Core H Γ b B ∧ d = (fun ρ => do
      let v ← T ρ
      if H.truth v then A ρ else B ρ) := by
  simp only [Form.ofList] at h
  cases h with
  | user hu => exact absurd hm (hu _ (by simp [idsOf]))
  | if_ _ _ ht ha hb => exact ⟨_, _, _, ht, ha, hb, rfl⟩
  | let_ _ hk' => rw [hk] at hk'; cases hk'
  | prim _ hk' => rw [hk] at hk'; cases hk'
  | use _ hk' => rw [hk] at hk'; cases hk'

theorem core_quote_inv {k : Nat} {f : Form} {d : Env V → m V} (hm : Γ.made k) (hk : Γ.kw k = some .quote)
    (h : Core H Γ (.ofList [.id k, f]) d) : d = fun _ => pure (H.const f) := by
  simp only [Form.ofList] at h
  cases h with
  | user hu => exact absurd hm (hu _ (by simp [idsOf]))
  | quote => rfl
  | let_ _ hk' => rw [hk] at hk'; cases hk'
  | prim _ hk' => rw [hk] at hk'; cases hk'
  | use _ hk' => rw [hk] at hk'; cases hk'

theorem core_prim_inv {k : Nat} {p : Prim} {args : Form} {d : Env V → m V} (hm : Γ.made k) (hk : Γ.kw k = some (.prim p))
    (h : Core H Γ (.cons (.id k) args) d) : ∃ ds, Cores H Γ args ds ∧ d = (fun ρ => do
      let vs ← operands ds ρ
      H.prim p vs) := by
  cases h with
  | user hu => exact absurd hm (hu _ (by simp [idsOf]))
  | prim _ hk' hc =>
    rw [hk] at hk'
    cases hk'
    exact ⟨_, hc, rfl⟩
  | quote _ hk' => rw [hk] at hk'; cases hk'
  | if_ _ hk' => rw [hk] at hk'; cases hk'
  | let_ _ hk' => rw [hk] at hk'; cases hk'
  | callWithValues _ hk' => rw [hk] at hk'; cases hk'
  | apply _ hk' => rw [hk] at hk'; cases hk'
  | letrecSyntax _ hk' => rw [hk] at hk'; cases hk'
  | use _ hk' => rw [hk] at hk'; cases hk'

theorem core_apply_inv {k : Nat} {p a : Form} {d : Env V → m V} (hm : Γ.made k) (hk : Γ.kw k = some .apply)
    (h : Core H Γ (.ofList [.id k, p, a]) d) : ∃ P A, Proc H Γ p P ∧ Core H Γ a A ∧ d = (fun ρ => do
      let l ← A ρ
      let vs ← H.items l
      P ρ vs) := by
  simp only [Form.ofList] at h
  cases h with
  | user hu => exact absurd hm (hu _ (by simp [idsOf]))
  | apply _ _ hp ha => exact ⟨_, _, hp, ha, rfl⟩
  | let_ _ hk' => rw [hk] at hk'; cases hk'
  | callWithValues _ hk' => rw [hk] at hk'; cases hk'
  | prim _ hk' => rw [hk] at hk'; cases hk'
  | letrecSyntax _ hk' => rw [hk] at hk'; cases hk'
  | use _ hk' => rw [hk] at hk'; cases hk'

theorem rulesForm_inj : ∀ {rs rs' : List (Form × Form)}, rulesForm rs = rulesForm rs' → rs = rs'
  | [], [], _ => rfl
  | [], _ :: _, h => by cases h
  | _ :: _, [], h => by cases h
  | (p, t) :: rs, (p', t') :: rs', h => by
    simp only [rulesForm, Form.ofList] at h
    injection h with h1 h2
    injection h1 with h3 h4
    injection h4 with h5 h6
    rw [h3, h5, rulesForm_inj h2]

theorem core_letrecSyntax_inv {k q x e : Nat} {rs : List (Form × Form)} {body : Form} {d : Env V → m V} (hm : Γ.made k)
    (hk : Γ.kw k = some .letrecSyntax)
    (h : Core H Γ (.ofList [.id k, .ofList [.ofList [.id x, .cons (.id q) (.cons (.id e) (.cons .nil (rulesForm rs)))]], body]) d) :
    Core H (Γ.define x (.rules e rs)) body d := by
  simp only [Form.ofList] at h
  generalize hg : Form.cons (.id k) (.cons (.cons (.cons (.id x)
    (.cons (.cons (.id q) (.cons (.id e) (.cons .nil (rulesForm rs)))) .nil)) .nil) (.cons body .nil)) = g at h
  cases h with
  | user hu =>
    rw [← hg] at hu
    exact absurd hm (hu _ (by simp [idsOf]))
  | var => cases hg
  | letrecSyntax _ _ _ _ hc =>
    simp only [Form.cons.injEq, Form.id.injEq] at hg
    obtain ⟨_, ⟨⟨⟨rfl, ⟨⟨_, rfl, _, hrs⟩, _⟩⟩, _⟩, ⟨rfl, _⟩⟩⟩ := hg
    rw [rulesForm_inj hrs]
    exact hc
  | quote _ hk' => cases hg
  | if_ _ hk' => cases hg
  | let_ _ hk' => cases hg; rw [hk] at hk'; cases hk'
  | callWithValues _ hk' => cases hg; rw [hk] at hk'; cases hk'
  | apply _ hk' => cases hg; rw [hk] at hk'; cases hk'
  | prim _ hk' => cases hg; rw [hk] at hk'; cases hk'
  | use _ hk' => cases hg; rw [hk] at hk'; cases hk'

/-! ### Clauses -/

/-- What the names inserted by the outer macro mean inside the local macro. -/
structure Inside (Γ : Ctx) (r : Nat → Nat) : Prop where
  injective : ∀ x y, r x = r y ↔ x = y
  made : ∀ x, Γ.made (r x)
  symbols : Symbols Γ
  keyword : ∀ x < 50, x ≠ 44 → Γ.kw (r x) = keyword x
  cl : Γ.kw (r 44) = some (.rules (r 41) (mapRules r clauseRules))
  var : ∀ x < 50, Γ.var (r x) = r x

theorem Inside.ne_one {r : Nat → Nat} (h : Inside Γ r) : ∀ x, r x ≠ 1 := by
  intro x hx
  have := h.symbols _ (h.made x)
  omega

theorem Inside.again {r : Nat → Nat} (h : Inside Γ r) {U : Use} {f : Form} (hf : Fresh Γ U f) (x : Nat) (hx : x < 50) :
    Γ.kw (U.rename (r x)) = Γ.kw (r x) ∧ Γ.var (U.rename (r x)) = r x := by
  obtain ⟨h1, h2⟩ := hf.again (r x) (h.made x)
  exact ⟨h1, by rw [h2, h.var x hx]⟩

theorem Inside.kw {r : Nat → Nat} (h : Inside Γ r) {U : Use} {f : Form} (hf : Fresh Γ U f) (x : Nat) (hx : x < 50) (hx' : x ≠ 44) :
    Γ.kw (U.rename (r x)) = Meevax.LibraryMacros.keyword x := by rw [(h.again hf x hx).1, h.keyword x hx hx']

theorem Inside.step {r : Nat → Nat} (h : Inside Γ r) {k : Nat} {args : Form} {d : Env V → m V} (hm : Γ.made k)
    (hk : Γ.kw k = some (.rules (r 41) (mapRules r clauseRules))) {out : Use → Form}
    (hs : ∀ U, Steps (r 41) U (mapRules r clauseRules) (.cons (.id k) args) (out U)) (hc : Core H Γ (.cons (.id k) args) d) :
    ∃ U, Fresh Γ U (.cons (.id k) args) ∧ Core H Γ (out U) d :=
  core_step (h.ne_one 41) (clauses_ok h.injective h.ne_one) hm hk hs hc

variable [LawfulMonad m]

/-- What the clauses do, with the list of arguments and its length given. -/
def select (H : Host m V) (l : V) (n : Nat) (cs : List (Form × List Form)) (ρ : Env V) : m V :=
  match cs.find? (fun c => takes c.1 n) with
  | some c => do
    let ws ← H.items l
    receiving H c.1 ws fun bs => inScope H ρ bs (H.body c.2)
  | none => do
    let s ← H.body [strNoMatch] ρ
    H.prim .error [s]

theorem test_inv {num : Nat → V} {bool : Bool → V} (ha : Arithmetic H num bool) {r : Nat → Nat} (hi : Inside Γ r) {U : Use}
    {f : Form} (hf : Fresh Γ U f) {p : Prim} {q : Nat} (hq' : q < 50) (hq : q ≠ 44) (hp : keyword q = some (.prim p)) {ps : List Form}
    {T : Env V → m V} (h : Core H Γ (.ofList [.id (U.rename (r q)), .id (U.rename (r 43)), .ofList [.id (U.rename (r 11)),
      .ofList [.id (U.rename (r 10)), .ofList ps]]]) T) (ρ : Env V) : T ρ = H.prim p [ρ (r 43), num ps.length] := by
  obtain ⟨ds, hc, rfl⟩ := core_prim_inv (hf.made _) ((hi.kw hf q hq' hq).trans hp) h
  cases hc with
  | cons h1 hc =>
    cases hc with
    | cons h2 hc =>
      cases hc
      obtain ⟨ds, hc, rfl⟩ := core_prim_inv (p := .length) (hf.made _) (hi.kw hf 11 (by decide) (by decide)) h2
      cases hc with
      | cons h3 hc =>
        cases hc
        cases core_quote_inv (hf.made _) (hi.kw hf 10 (by decide) (by decide)) h3
        cases core_var_inv (hf.made _) h1
        simp only [operands, pure_bind, ha.length_const, (hi.again hf 43 (by decide)).2]

theorem formals_cases {F : Form} (h : Formals F) :
    (∃ ps, F = .ofList ps ∧ others F = none ∧ (required F).length = ps.length) ∨
      ∃ ps y, F = Form.dotted ps (.id y) ∧ others F = some y ∧ (required F).length = ps.length := by
  induction h with
  | nil => exact .inl ⟨[], rfl, rfl, rfl⟩
  | @rest x => exact .inr ⟨[], x, rfl, rfl, rfl⟩
  | @cons x d _ ih =>
    rcases ih with ⟨ps, rfl, h2, h3⟩ | ⟨ps, y, rfl, h2, h3⟩
    · exact .inl ⟨.id x :: ps, rfl, h2, by simp [required, h3]⟩
    · exact .inr ⟨.id x :: ps, y, rfl, h2, by simp [required, h3]⟩

/-- The condition on the clauses. -/
def ClausesOk (Γ : Ctx) (cs : List (Form × List Form)) : Prop := ∀ c ∈ cs, Formals c.1 ∧ Γ.User (.ofList c.2)

theorem clauses_inv {num : Nat → V} {bool : Bool → V} (ha : Arithmetic H num bool) {r : Nat → Nat} (hi : Inside Γ r)
    {cs : List (Form × List Form)} (hcs : ClausesOk Γ cs) :
    ∀ {k : Nat} {d : Env V → m V}, Γ.made k → Γ.kw k = some (.rules (r 41) (mapRules r clauseRules)) →
      Core H Γ (.cons (.id k) (.ofList (cs.map clauseForm))) d →
      ∀ ρ n, ρ (r 43) = num n → d ρ = select H (ρ (r 42)) n cs ρ := by
  have hs : ∀ x, x < 50 → ¬Γ.made x := fun x h h' => by have := hi.symbols x h'; omega
  induction cs with
  | nil =>
    intro k d hm hk h ρ n hn
    obtain ⟨U, hf, hc⟩ := hi.step hm hk (fun U => step_none hi.injective hi.ne_one _) h
    obtain ⟨ds, hargs, rfl⟩ := core_prim_inv (p := .error) (hf.made _) (hi.kw hf 15 (by decide) (by decide)) hc
    cases hargs with
    | cons h1 hargs =>
      cases hargs
      cases core_user_inv (by intro x hx; cases hx) h1
      simp [operands, select]
  | cons c cs ih =>
    intro k d hm hk h ρ n hn
    obtain ⟨hF, hb⟩ := hcs c (by simp)
    -- both rules do the same but for the test
    have both : ∀ (U : Use) (f : Form), Fresh Γ U f → ∀ (q : Nat) (p : Prim) (ps : List Form), q < 50 → q ≠ 44 → keyword q = some (.prim p) →
        H.prim p [num n, num ps.length] = pure (bool (decide (takes c.1 n))) →
        Core H Γ (.ofList [.id (U.rename (r 9)), .ofList [.id (U.rename (r q)), .id (U.rename (r 43)),
          .ofList [.id (U.rename (r 11)), .ofList [.id (U.rename (r 10)), .ofList ps]]],
          .ofList [.id (U.rename (r 14)), .cons (.id (U.rename (r 2))) (.cons c.1 (.ofList c.2)), .id (U.rename (r 42))],
          .cons (.id (U.rename (r 44))) (.ofList (cs.map clauseForm))]) d →
        d ρ = select H (ρ (r 42)) n (c :: cs) ρ := by
      intro U f hf q p ps hq' hq hp ht hc
      obtain ⟨T, A, B, hT, hA, hB, rfl⟩ := core_if_inv (hf.made _) (hi.kw hf 9 (by decide) (by decide)) hc
      obtain ⟨P, L, hP, hL, rfl⟩ := core_apply_inv (hf.made _) (hi.kw hf 14 (by decide) (by decide)) hA
      obtain ⟨B', hB', rfl⟩ := proc_inv hP
      cases body_user_inv hb hB'
      cases core_var_inv (hf.made _) hL
      have hrest := ih (fun c hc => hcs c (by simp [hc])) (hf.made _) ((hi.again hf 44 (by decide)).1.trans hi.cl) hB ρ n hn
      simp only [test_inv ha hi hf hq' hq hp hT, hn, ht, pure_bind, ha.truth, hrest, call_eq hF, (hi.again hf 42 (by decide)).2]
      unfold select
      by_cases h : takes c.1 n
      · simp [h]
      · simp [h]
    rcases formals_cases hF with ⟨ps, e, h2, h3⟩ | ⟨ps, y, e, h2, h3⟩
    · have hc' : Core H Γ (.cons (.id k) (.cons (.cons (.ofList ps) (.ofList c.2)) (.ofList (cs.map clauseForm)))) d := by
        rw [← e]
        exact h
      obtain ⟨U, hf, hc⟩ := hi.step hm hk (fun U => step_fixed hi.injective hi.ne_one _ _ _ _) hc'
      rw [← e] at hc
      refine both U _ hf 12 .numEq ps (by decide) (by decide) rfl ?_ (by rw [← e]; exact hc)
      rw [ha.numEq]
      simp [takes, h2, h3]
    · have hc' : Core H Γ (.cons (.id k) (.cons (.cons (Form.dotted ps (.id y)) (.ofList c.2)) (.ofList (cs.map clauseForm)))) d := by
        rw [← e]
        exact h
      obtain ⟨U, hf, hc⟩ := hi.step hm hk (fun U => step_rest hi.injective hi.ne_one _ _ _ _ _) hc'
      rw [← e] at hc
      refine both U _ hf 13 .numGe ps (by decide) (by decide) rfl ?_ hc
      rw [ha.numGe]
      simp [takes, h2, h3]

/-! ### Uses by the user -/

/-- The expansion of `case-lambda`. -/
def caseOut (r : Nat → Nat) (cs : List (Form × List Form)) : Form :=
  .ofList [.id (r 2), .id (r 42), .ofList [.id (r 3),
    .ofList [.ofList [.id (r 43), .ofList [.id (r 11), .id (r 42)]]],
    .ofList [.id (r 16), .ofList [.ofList [.id (r 44), .cons (.id (r 17)) (.cons (.id (r 41))
      (.cons .nil (rulesForm (mapRules r clauseRules))))]],
      .cons (.id (r 44)) (.ofList (cs.map clauseForm))]]]

omit [Monad m] [LawfulMonad m] in
theorem inside (hΓ : Symbols Γ) {U : Use} {f : Form} (hf : Fresh Γ U f) :
    Inside (Γ.define (U.rename 44) (.rules (U.rename 41) (mapRules U.rename clauseRules))) U.rename := by
  have hs : ∀ x, x < 50 → ¬Γ.made x := fun x h h' => by have := hΓ x h'; omega
  have hv : ∀ x, x < 50 → Γ.var (U.rename x) = U.rename x := fun x hx => (hf.symbol x (hs x hx)).2
  refine ⟨fun x y => ⟨hf.injective x y, fun h => by rw [h]⟩, hf.made, hΓ, ?_, ?_, hv⟩
  · intro x hx h44
    simp only [Ctx.define, hv x hx, hv 44 (by decide)]
    rw [if_neg (fun h => h44 (hf.injective _ _ h))]
    exact (hf.symbol x (hs x hx)).1
  · simp [Ctx.define]

theorem case_inv {num : Nat → V} {bool : Bool → V} (hl : Lawful H Γ.made) (ha : Arithmetic H num bool) (hΓ : Symbols Γ)
    {U : Use} {f : Form} (hf : Fresh Γ U f) {cs : List (Form × List Form)} (hcs : ClausesOk Γ cs) {p : Env V → List V → m V}
    (h : Proc H Γ (caseOut U.rename cs) p) : p = caseLambda H cs := by
  have hs : ∀ x, x < 50 → ¬Γ.made x := fun x h h' => by have := hΓ x h'; omega
  have hkw : ∀ x, x < 50 → Γ.kw (U.rename x) = keyword x := fun x hx => (hf.symbol x (hs x hx)).1
  have hv : ∀ x, x < 50 → Γ.var (U.rename x) = U.rename x := fun x hx => (hf.symbol x (hs x hx)).2
  obtain ⟨B, hB, rfl⟩ := proc_inv h
  have hB := body_one_inv (hf.made 3) (by rw [hkw 3 (by decide)]; rintro ⟨⟩) hB
  obtain ⟨xs, ds, D, hin, hD, rfl⟩ := core_let_inv (hf.made 3) (hkw 3 (by decide)) hB
  have hD := body_one_inv (hf.made 16) (by rw [hkw 16 (by decide)]; rintro ⟨⟩) hD
  have hD := core_letrecSyntax_inv (hf.made 16) (hkw 16 (by decide)) hD
  have hi := inside hΓ hf
  have hsel := clauses_inv ha hi (fun c hc => hcs c hc) (hf.made 44) hi.cl hD
  cases hin with
  | cons hlen hin =>
    cases hin
    obtain ⟨ds, hargs, rfl⟩ := core_prim_inv (p := .length) (hf.made 11) (hkw 11 (by decide)) hlen
    cases hargs with
    | cons harg hargs =>
      cases hargs
      cases core_var_inv (hf.made 42) harg
      funext ρ vs
      rw [call_eq .rest]
      simp only [receiving, takes, others, required, Option.isSome_some, if_true, List.length_nil, Nat.zero_le, assigned,
        List.zip_nil_left, List.nil_append, List.drop_zero, bind_assoc, pure_bind, inScope]
      have e1 : ∀ l, extend H ρ [(U.rename 42, l)] = pure (ρ.set (U.rename 42) l) := fun l =>
        extend_made hl _ (by simp [hf.made]) ρ
      simp only [e1, pure_bind, operands, bind_assoc, hv 42 (by decide), List.zip_cons_cons, List.zip_nil_left, bindAll,
        hl.enter _ _ (hf.made 43)]
      have h42 : ∀ l, (ρ.set (U.rename 42) l) (U.rename 42) = l := fun l => by simp [Env.set]
      simp only [h42]
      rw [ha.length_list vs (fun l n => D ((ρ.set (U.rename 42) l).set (U.rename 43) n))]
      have h43 : ∀ l n, (((ρ.set (U.rename 42) l).set (U.rename 43) n) : Env V) (U.rename 43) = n := fun l n => by simp [Env.set]
      have h42' : ∀ l n, (((ρ.set (U.rename 42) l).set (U.rename 43) n) : Env V) (U.rename 42) = l := fun l n => by
        have : U.rename 42 ≠ U.rename 43 := fun h => by simpa using hf.injective _ _ h
        simp [Env.set, this]
      have hag : ∀ l n x, ¬Γ.made x → (((ρ.set (U.rename 42) l).set (U.rename 43) n) : Env V) x = ρ x := fun l n x hx => by
        have h1 : x ≠ U.rename 42 := fun h => hx (h ▸ hf.made 42)
        have h2 : x ≠ U.rename 43 := fun h => hx (h ▸ hf.made 43)
        simp [Env.set, h1, h2]
      simp only [hsel _ _ (h43 _ (num vs.length)), h42']
      simp only [select, caseLambda]
      cases cs.find? (fun c => takes c.1 vs.length) with
      | none =>
        simp only
        congr 1
        funext l
        rw [hl.lexical _ _ _ (hag l _)]
      | some c =>
        simp only
        rw [ha.items_list vs (fun l ws => receiving H c.1 ws fun bs =>
          inScope H ((ρ.set (U.rename 42) l).set (U.rename 43) (num vs.length)) bs (H.body c.2))]
        congr 1
        funext l
        exact receiving_congr fun bs => extend_local bs (local_body hl.lexical _) (hag l _)

omit [LawfulMonad m] in
theorem exists_clauses {r : Nat → Nat} (hS : Supply Γ) (hi : Inside Γ r)
    {cs : List (Form × List Form)} (hcs : ClausesOk Γ cs) :
    ∀ {k : Nat}, Γ.made k → Γ.kw k = some (.rules (r 41) (mapRules r clauseRules)) →
      ∃ d, Core H Γ (.cons (.id k) (.ofList (cs.map clauseForm))) d := by
  induction cs with
  | nil =>
    intro k hm hk
    obtain ⟨U, hf⟩ := hS (.cons (.id k) .nil)
    exact ⟨_, core_use (hi.ne_one 41) (clauses_ok hi.injective hi.ne_one) hm hk hf (step_none hi.injective hi.ne_one _)
      (.prim (p := .error) (hf.made _) (hi.kw hf 15 (by decide) (by decide)) (.cons (.user (by intro x hx; cases hx)) .nil))⟩
  | cons c cs ih =>
    intro k hm hk
    obtain ⟨hF, hb⟩ := hcs c (by simp)
    obtain ⟨U, hf⟩ := hS (.cons (.id k) (.ofList ((c :: cs).map clauseForm)))
    obtain ⟨d, hd⟩ := ih (fun c hc => hcs c (by simp [hc])) (hf.made (r 44)) ((hi.again hf 44 (by decide)).1.trans hi.cl)
    have hv : ∀ x, x < 50 → keyword x = none → x ≠ 44 → Core H Γ (.id (U.rename (r x))) (fun ρ => pure (ρ (Γ.var (U.rename (r x))))) :=
      fun x hx h hx' => .var (hf.made _) (by rw [hi.kw hf x hx hx', h])
    have both : ∀ (q : Nat) (p : Prim) (ps : List Form), q < 50 → q ≠ 44 → keyword q = some (.prim p) →
        ∃ d, Core H Γ (.ofList [.id (U.rename (r 9)), .ofList [.id (U.rename (r q)), .id (U.rename (r 43)),
          .ofList [.id (U.rename (r 11)), .ofList [.id (U.rename (r 10)), .ofList ps]]],
          .ofList [.id (U.rename (r 14)), .cons (.id (U.rename (r 2))) (.cons c.1 (.ofList c.2)), .id (U.rename (r 42))],
          .cons (.id (U.rename (r 44))) (.ofList (cs.map clauseForm))]) d := by
      intro q p ps hq' hq hp
      exact ⟨_, .if_ (hf.made _) (hi.kw hf 9 (by decide) (by decide))
        (.prim (p := p) (hf.made _) ((hi.kw hf q hq' hq).trans hp) (.cons (hv 43 (by decide) rfl (by decide))
          (.cons (.prim (p := .length) (hf.made _) (hi.kw hf 11 (by decide) (by decide))
            (.cons (.quote (hf.made _) (hi.kw hf 10 (by decide) (by decide))) .nil)) .nil)))
        (.apply (hf.made _) (hi.kw hf 14 (by decide) (by decide))
          (.lambda (hf.made _) (hi.kw hf 2 (by decide) (by decide)) (.user hb)) (hv 42 (by decide) rfl (by decide))) hd⟩
    rcases formals_cases hF with ⟨ps, e, _⟩ | ⟨ps, y, e, _⟩
    · obtain ⟨d', hd'⟩ := both 12 .numEq ps (by decide) (by decide) rfl
      refine ⟨d', core_use (hi.ne_one 41) (clauses_ok hi.injective hi.ne_one) hm hk hf ?_ hd'⟩
      have := step_fixed (U := U) hi.injective hi.ne_one (.id k) ps (.ofList c.2) (.ofList (cs.map clauseForm))
      simp only [List.map_cons, Form.ofList, clauseForm, e]
      exact this
    · obtain ⟨d', hd'⟩ := both 13 .numGe ps (by decide) (by decide) rfl
      refine ⟨d', core_use (hi.ne_one 41) (clauses_ok hi.injective hi.ne_one) hm hk hf ?_ hd'⟩
      have := step_rest (U := U) hi.injective hi.ne_one (.id k) ps y (.ofList c.2) (.ofList (cs.map clauseForm))
      simp only [List.map_cons, Form.ofList, clauseForm, e]
      exact this

omit [Monad m] [LawfulMonad m] in
theorem supply_define (hS : Supply Γ) {x : Nat} (hx : Γ.var x = x) (k : Kw) : Supply (Γ.define x k) := by
  intro form
  obtain ⟨U, hf⟩ := hS (.cons (.id x) form)
  refine ⟨U, hf.made, hf.injective, fun y hy => hf.fresh y (by simp [idsOf, hy]), ?_, ?_⟩
  · intro y hy
    obtain ⟨h1, h2⟩ := hf.symbol y hy
    refine ⟨?_, h2⟩
    have : U.rename y ≠ x := fun h => hf.fresh y (by simp [idsOf, h])
    simp only [Ctx.define, h2, hx, if_neg this, h1]
  · intro y hy
    obtain ⟨h1, h2⟩ := hf.again y hy
    exact ⟨by simp only [Ctx.define, h2, h1], h2⟩

/-- `(case-lambda (formals body ...) ...)`. -/
theorem C82_case_lambda {num : Nat → V} {bool : Bool → V} (hl : Lawful H Γ.made) (ha : Arithmetic H num bool)
    (hS : Supply Γ) (hΓ : Symbols Γ) {k : Form} {cs : List (Form × List Form)} (hcs : ClausesOk Γ cs)
    {p : Env V → List V → m V} :
    MeansProc H Γ caseLambdaRules (.cons k (.ofList (cs.map clauseForm))) p ↔ p = caseLambda H cs := by
  have hs : ∀ x, x < 50 → ¬Γ.made x := fun x h h' => by have := hΓ x h'; omega
  constructor
  · rintro ⟨U, fuel, f, hf, ht, hc⟩
    rw [expansion_unique (by decide) (by simp) caseLambda_ok (step_case U k cs) ht] at hc
    exact case_inv hl ha hΓ hf hcs hc
  · rintro rfl
    obtain ⟨U, hf⟩ := hS (.cons k (.ofList (cs.map clauseForm)))
    have hkw : ∀ x, x < 50 → Γ.kw (U.rename x) = keyword x := fun x hx => (hf.symbol x (hs x hx)).1
    obtain ⟨f₀, h₀⟩ := C69_syntax_rules_partial (eqDef_ok (by decide) (by simp)) (rulesOk_of caseLambda_ok) (step_case U k cs)
    obtain ⟨d, hd⟩ := exists_clauses (H := H)
      (supply_define (x := U.rename 44) hS (hf.symbol 44 (hs _ (by decide))).2 (.rules (U.rename 41) (mapRules U.rename clauseRules)))
      (inside hΓ hf) (fun c hc => hcs c hc) (hf.made 44) (inside hΓ hf).cl
    have hp : ∃ p, Proc H Γ (caseOut U.rename cs) p :=
      ⟨_, .lambda (hf.made 2) (hkw 2 (by decide)) (.one (.let_ (hf.made 3) (hkw 3 (by decide))
        (.cons (.prim (p := .length) (hf.made 11) (hkw 11 (by decide))
          (.cons (.var (hf.made 42) (hkw 42 (by decide))) .nil)) .nil)
        (.one (.letrecSyntax (hf.made 16) (hkw 16 (by decide)) (hf.made 17) (hkw 17 (by decide)) hd))))⟩
    obtain ⟨p, hp⟩ := hp
    refine ⟨U, f₀, _, hf, h₀ f₀ (Nat.le_refl _), ?_⟩
    rw [← case_inv hl ha hΓ hf hcs hp]
    exact hp

end Meevax.LibraryMacros
