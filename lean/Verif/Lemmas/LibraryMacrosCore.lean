import Verif.Lemmas.LibraryMacros

/-!
For C82: inversion of `Core`; procedures and bindings.
-/

namespace Meevax.LibraryMacros

open Meevax.Rules Spec

variable {m : Type → Type} [Monad m] {V : Type} {H : Host m V} {Γ : Ctx}

/-! ### Inversion -/

theorem ofList_inj : ∀ {xs ys : List Form}, Form.ofList xs = Form.ofList ys → xs = ys
  | [], [], _ => rfl
  | [], _ :: _, h => by cases h
  | _ :: _, [], h => by cases h
  | x :: xs, y :: ys, h => by
    injection h with h1 h2
    rw [h1, ofList_inj h2]

theorem core_user_inv {f : Form} {d : Env V → m V} (hu : Γ.User f) (h : Core H Γ f d) : d = H.body [f] := by
  cases h with
  | user => rfl
  | var hm => exact absurd hm (hu _ (by simp [idsOf]))
  | quote hm => exact absurd hm (hu _ (by simp [idsOf]))
  | if_ hm => exact absurd hm (hu _ (by simp [idsOf]))
  | let_ hm => exact absurd hm (hu _ (by simp [idsOf]))
  | callWithValues hm => exact absurd hm (hu _ (by simp [idsOf]))
  | apply hm => exact absurd hm (hu _ (by simp [idsOf]))
  | prim hm => exact absurd hm (hu _ (by simp [idsOf]))
  | letrecSyntax hm => exact absurd hm (hu _ (by simp [idsOf]))
  | use hm => exact absurd hm (hu _ (by simp [idsOf]))

theorem body_user_inv {fs : List Form} {B : Env V → m V} (hu : Γ.User (.ofList fs)) (h : Body H Γ (.ofList fs) B) :
    B = H.body fs := by
  generalize hg : Form.ofList fs = g at h hu
  cases h with
  | @user _ fs' _ => rw [ofList_inj hg]
  | begin_ hm => exact absurd hm (hu _ (by simp [idsOf]))
  | @one _ f d hc =>
    have e : fs = [f] := ofList_inj (ys := [f]) hg
    subst e
    exact core_user_inv (fun x hx => hu x (by simp [idsOf, hx])) hc

theorem core_rules_inv {k e : Nat} {rs : List (Form × Form)} {args : Form} {d : Env V → m V} (hm : Γ.made k)
    (hk : Γ.kw k = some (.rules e rs)) (h : Core H Γ (.cons (.id k) args) d) :
    ∃ U fuel f, Fresh Γ U (.cons (.id k) args) ∧
      transform (eqDef e 1 []) U rs (.cons (.id k) args) fuel = some (.expansion f) ∧ Core H Γ f d := by
  cases h with
  | user hu => exact absurd hm (hu _ (by simp [idsOf]))
  | use _ hk' hf ht hc =>
    rw [hk] at hk'
    cases hk'
    exact ⟨_, _, _, hf, ht, hc⟩
  | quote _ hk' => rw [hk] at hk'; cases hk'
  | if_ _ hk' => rw [hk] at hk'; cases hk'
  | let_ _ hk' => rw [hk] at hk'; cases hk'
  | callWithValues _ hk' => rw [hk] at hk'; cases hk'
  | apply _ hk' => rw [hk] at hk'; cases hk'
  | prim _ hk' => rw [hk] at hk'; cases hk'
  | letrecSyntax _ hk' => rw [hk] at hk'; cases hk'

/-- One step of a macro whose rule is known. -/
theorem core_step {k e : Nat} (he : e ≠ 1) {rs : List (Form × Form)} (hr : rs.all (ruleOk e 1 []) = true) {args : Form}
    {d : Env V → m V} (hm : Γ.made k) (hk : Γ.kw k = some (.rules e rs)) {out : Use → Form}
    (hs : ∀ U, Steps e U rs (.cons (.id k) args) (out U)) (h : Core H Γ (.cons (.id k) args) d) :
    ∃ U, Fresh Γ U (.cons (.id k) args) ∧ Core H Γ (out U) d := by
  obtain ⟨U, fuel, f, hf, ht, hc⟩ := core_rules_inv hm hk h
  rw [expansion_unique he (by simp) hr (hs U) ht] at hc
  exact ⟨U, hf, hc⟩

/-- One step of a macro whose rule is known, made. -/
theorem core_use {k e : Nat} (he : e ≠ 1) {rs : List (Form × Form)} (hr : rs.all (ruleOk e 1 []) = true) {args out : Form}
    {U : Use} {d : Env V → m V} (hm : Γ.made k) (hk : Γ.kw k = some (.rules e rs)) (hf : Fresh Γ U (.cons (.id k) args))
    (hs : Steps e U rs (.cons (.id k) args) out) (h : Core H Γ out d) : Core H Γ (.cons (.id k) args) d := by
  obtain ⟨f₀, h₀⟩ := C69_syntax_rules_partial (eqDef_ok he (by simp)) (rulesOk_of hr) hs
  exact .use hm hk hf (h₀ f₀ (Nat.le_refl _)) h

theorem core_var_inv {x : Nat} {d : Env V → m V} (hm : Γ.made x) (h : Core H Γ (.id x) d) :
    d = fun ρ => pure (ρ (Γ.var x)) := by
  cases h with
  | user hu => exact absurd hm (hu _ (by simp [idsOf]))
  | var => rfl

theorem core_let_inv {k : Nat} {bs body : Form} {d : Env V → m V} (hm : Γ.made k) (hk : Γ.kw k = some .let_)
    (h : Core H Γ (.cons (.id k) (.cons bs body)) d) :
    ∃ xs ds B, Inits H Γ bs xs ds ∧ Body H Γ body B ∧ d = (fun ρ => do
      let vs ← operands ds ρ
      bindAll H (xs.zip vs) ρ B) := by
  cases h with
  | user hu => exact absurd hm (hu _ (by simp [idsOf]))
  | let_ _ _ hi hb => exact ⟨_, _, _, hi, hb, rfl⟩
  | quote _ hk' => rw [hk] at hk'; cases hk'
  | if_ _ hk' => rw [hk] at hk'; cases hk'
  | callWithValues _ hk' => rw [hk] at hk'; cases hk'
  | apply _ hk' => rw [hk] at hk'; cases hk'
  | prim _ hk' => rw [hk] at hk'; cases hk'
  | letrecSyntax _ hk' => rw [hk] at hk'; cases hk'
  | use _ hk' => rw [hk] at hk'; cases hk'

theorem core_values_inv {k : Nat} {p c : Form} {d : Env V → m V} (hm : Γ.made k) (hk : Γ.kw k = some .callWithValues)
    (h : Core H Γ (.cons (.id k) (.cons p (.cons c .nil))) d) :
    ∃ P C, Proc H Γ p P ∧ Proc H Γ c C ∧ d = (fun ρ => do
      let r ← P ρ []
      C ρ (H.vals r)) := by
  cases h with
  | user hu => exact absurd hm (hu _ (by simp [idsOf]))
  | callWithValues _ _ hp hc => exact ⟨_, _, hp, hc, rfl⟩
  | let_ _ hk' => rw [hk] at hk'; cases hk'
  | apply _ hk' => rw [hk] at hk'; cases hk'
  | prim _ hk' => rw [hk] at hk'; cases hk'
  | letrecSyntax _ hk' => rw [hk] at hk'; cases hk'
  | use _ hk' => rw [hk] at hk'; cases hk'

theorem proc_inv {k : Nat} {formals body : Form} {P : Env V → List V → m V}
    (h : Proc H Γ (.cons (.id k) (.cons formals body)) P) : ∃ B, Body H Γ body B ∧ P = call H formals B := by
  cases h with
  | lambda _ _ hb => exact ⟨_, hb, rfl⟩

theorem body_begin_inv {k : Nat} {body : Form} {B : Env V → m V} (hm : Γ.made k) (hk : Γ.kw k = some .begin_)
    (h : Body H Γ (.cons (.cons (.id k) body) .nil) B) : Body H Γ body B := by
  generalize hg : Form.cons (.cons (.id k) body) .nil = g at h
  cases h with
  | @user _ fs hu =>
    rw [← hg] at hu
    exact absurd hm (hu _ (by simp [idsOf]))
  | begin_ _ _ hb =>
    cases hg
    exact hb
  | one hc =>
    cases hg
    cases hc with
    | user hu => exact absurd hm (hu _ (by simp [idsOf]))
    | quote _ hk' => rw [hk] at hk'; cases hk'
    | if_ _ hk' => rw [hk] at hk'; cases hk'
    | let_ _ hk' => rw [hk] at hk'; cases hk'
    | callWithValues _ hk' => rw [hk] at hk'; cases hk'
    | apply _ hk' => rw [hk] at hk'; cases hk'
    | prim _ hk' => rw [hk] at hk'; cases hk'
    | letrecSyntax _ hk' => rw [hk] at hk'; cases hk'
    | use _ hk' => rw [hk] at hk'; cases hk'

theorem body_one_inv {k : Nat} {args : Form} {B : Env V → m V} (hm : Γ.made k) (hk : Γ.kw k ≠ some .begin_)
    (h : Body H Γ (.cons (.cons (.id k) args) .nil) B) : Core H Γ (.cons (.id k) args) B := by
  generalize hg : Form.cons (.cons (.id k) args) .nil = g at h
  cases h with
  | @user _ fs hu =>
    rw [← hg] at hu
    exact absurd hm (hu _ (by simp [idsOf]))
  | begin_ _ hk' =>
    cases hg
    exact absurd hk' hk
  | one hc =>
    cases hg
    exact hc

/-! ### Procedures -/

theorem arity_eq {f : Form} (h : Formals f) : arity f = ((required f).length, (others f).isSome) := by
  induction h with
  | nil => rfl
  | rest => rfl
  | cons _ ih => simp [arity, required, others, ih]

theorem takes_cons {x n : Nat} {d : Form} : takes (.cons (.id x) d) (n + 1) ↔ takes d n := by
  simp [takes, others, required]

theorem takes_zero {x : Nat} {d : Form} : ¬takes (.cons (.id x) d) 0 := by
  simp [takes, others, required]

theorem split_eq {f : Form} (h : Formals f) : ∀ vs : List V, split f vs =
    if takes f vs.length then some ((required f).zip vs, (others f).map fun y => (y, vs.drop (required f).length)) else none := by
  induction h with
  | nil =>
    intro vs
    cases vs with
    | nil => rfl
    | cons v vs => simp [split, takes, others, required]
  | rest =>
    intro vs
    cases vs <;> simp [split, takes, others, required]
  | @cons x d _ ih =>
    intro vs
    cases vs with
    | nil =>
      rw [List.length_nil, if_neg takes_zero]
      rfl
    | cons v vs =>
      rw [split, ih, List.length_cons]
      by_cases ht : takes d vs.length
      · rw [if_pos ht, if_pos (takes_cons.2 ht)]
        simp [others, required]
      · rw [if_neg ht, if_neg (fun h => ht (takes_cons.1 h))]
        rfl

/-- Bindings without effect. -/
def setAll (ρ : Env V) (bs : List (Nat × V)) : Env V := bs.foldl (fun ρ b => ρ.set b.1 b.2) ρ

variable [LawfulMonad m]

theorem bindAll_eq (bs : List (Nat × V)) (ρ : Env V) (b : Env V → m V) : bindAll H bs ρ b = inScope H ρ bs b := by
  induction bs generalizing ρ with
  | nil => simp [bindAll, inScope, extend]
  | cons p bs ih =>
    obtain ⟨x, v⟩ := p
    simp only [bindAll, inScope, extend, List.foldlM_cons, bind_assoc, pure_bind]
    congr 1
    funext c
    rw [ih]
    simp only [inScope, extend]
    rfl

theorem call_eq {f : Form} (h : Formals f) (b : Env V → m V) (ρ : Env V) (vs : List V) :
    call H f b ρ vs = receiving H f vs fun bs => inScope H ρ bs b := by
  rw [call, split_eq h, receiving, arity_eq h]
  split
  · rename_i h'
    split at h'
    · cases h'
    · rename_i ht
      rw [if_neg ht]
  · rename_i r h'
    split at h'
    · rename_i ht
      rw [if_pos ht]
      cases h'
      simp only [withRest, assigned]
      cases others f with
      | none => simp [bindAll_eq]
      | some y => simp [bindAll_eq]
    · cases h'

theorem extend_made {made : Nat → Prop} (hl : Lawful H made) (bs : List (Nat × V)) (hb : ∀ b ∈ bs, made b.1)
    (ρ : Env V) : extend H ρ bs = pure (setAll ρ bs) := by
  induction bs generalizing ρ with
  | nil => rfl
  | cons b bs ih =>
    rw [extend, List.foldlM_cons, hl.enter _ _ (hb b (by simp))]
    simp only [pure_bind]
    exact ih (fun c hc => hb c (by simp [hc])) _

omit [Monad m] [LawfulMonad m] in
theorem setAll_not {xs : List Nat} {ws : List V} {y : Nat} (h : y ∉ xs) (ρ : Env V) : setAll ρ (xs.zip ws) y = ρ y := by
  induction xs generalizing ws ρ with
  | nil => rfl
  | cons x xs ih =>
    cases ws with
    | nil => rfl
    | cons w ws =>
      rw [List.mem_cons, not_or] at h
      have := ih (ws := ws) h.2 (ρ.set x w)
      simp only [List.zip_cons_cons]
      refine this.trans ?_
      simp [Env.set, h.1]

omit [Monad m] [LawfulMonad m] in
theorem setAll_zip {xs : List Nat} {ws : List V} (hn : xs.Nodup) (hl : ws.length = xs.length) (ρ : Env V) :
    xs.map (setAll ρ (xs.zip ws)) = ws := by
  induction xs generalizing ws ρ with
  | nil => cases ws <;> simp_all
  | cons x xs ih =>
    cases ws with
    | nil => simp at hl
    | cons w ws =>
      rw [List.nodup_cons] at hn
      have h1 := ih hn.2 (by simpa using hl) (ρ.set x w)
      have h2 := setAll_not (ws := ws) hn.1 (ρ.set x w)
      simp only [List.zip_cons_cons, List.map_cons]
      refine List.cons_eq_cons.2 ⟨?_, h1⟩
      refine h2.trans ?_
      simp [Env.set]

/-- The same values under other names. -/
theorem receiving_rename {f f' : Form} {T : List (Nat × Nat)} {R : Option (Nat × Nat)} (h1 : required f = T.map Prod.fst)
    (h2 : others f = R.map Prod.fst) (h3 : required f' = T.map Prod.snd) (h4 : others f' = R.map Prod.snd)
    {vs : List V} {k k' : List (Nat × V) → m V}
    (hk : ∀ ws : List V, ws.length = (T ++ R.toList).length →
      k' (((T ++ R.toList).map Prod.snd).zip ws) = k (((T ++ R.toList).map Prod.fst).zip ws)) :
    receiving H f' vs k' = receiving H f vs k := by
  rw [receiving, receiving]
  have ht : takes f' vs.length ↔ takes f vs.length := by simp [takes, h1, h2, h3, h4]
  have hl : (required f').length = (required f).length := by simp [h1, h3]
  have hs : (others f').isSome = (others f).isSome := by simp [h2, h4]
  rw [hl, hs]
  by_cases h : takes f vs.length
  · rw [if_pos h, if_pos (ht.2 h)]
    cases R with
    | none =>
      simp only [Option.map_none] at h2 h4
      have hv : vs.length = T.length := by simpa [takes, h2, h1] using h
      have := hk vs (by simp [hv])
      simp only [assigned, h2, h4, pure_bind, h1, h3]
      simpa using this
    | some p =>
      simp only [Option.map_some] at h2 h4
      have hv : T.length ≤ vs.length := by simpa [takes, h2, h1] using h
      simp only [assigned, h2, h4, bind_assoc, pure_bind, h1, h3, List.length_map]
      congr 1
      funext l
      have := hk (vs.take T.length ++ [l]) (by simp [hv])
      have e : ∀ g : Nat × Nat → Nat, ((T ++ (some p).toList).map g).zip (vs.take T.length ++ [l]) =
          (T.map g).zip vs ++ [(g p, l)] := by
        intro g
        rw [List.map_append, List.zip_append (by simp [hv])]
        congr 1
        rw [List.zip_eq_zip_take_min (l₁ := T.map g) (l₂ := vs)]
        simp [hv, List.take_of_length_le]
      rwa [e, e] at this
  · rw [if_neg h, if_neg (fun h' => h (ht.1 h'))]

end Meevax.LibraryMacros
