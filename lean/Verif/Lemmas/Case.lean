import Verif.Spec.Case

/-!
For C89: what the forms that `case`, `when`, `unless` and `letrec*` leave evaluate to.
-/

namespace Meevax.Case

open Meevax.Rules Meevax.Case.Spec
open Meevax.LibraryMacros (idsOf)

variable {V S : Type} {O : Objects V S} {H : Host V S} {Γ : Ctx} {U : Use}

theorem user_kw {x : Nat} (h : ¬Γ.made x) : Γ.kw x ≠ some .temp := by
  rcases (Γ.user x h).1 with h | h <;> simp [h]

theorem eval_expr (L : Lawful O H) {f : Spec.Form} (h : Expr Γ f) (ρ : Env V) (σ : State V S) :
    eval O H Γ f ρ σ = H f ρ.var σ := by
  cases f with
  | nil => simp only [eval]
  | bool => simp only [eval]
  | num => simp only [eval]
  | atom => simp only [eval]
  | vec => simp only [eval]
  | undefined => simp only [eval, L.unspecified]
  | id x =>
    have := user_kw (h.1 x (by simp [idsOf]))
    simp [eval, this]
  | cons a d =>
    by_cases ha : ∃ k, a = .id k
    · obtain ⟨k, rfl⟩ := ha
      have hk := h.2.1 k d rfl
      by_cases hd : ∃ r, d = .cons (.id r) .nil
      · obtain ⟨r, rfl⟩ := hd
        have := user_kw (h.1 r (by simp [idsOf]))
        simp [eval, hk, this]
      · cases d with
        | cons x y =>
          cases x with
          | id r => cases y <;> simp_all [eval]
          | _ => simp [eval, hk]
        | _ => simp [eval, hk]
    · by_cases hd : ∃ r, d = .cons (.id r) .nil
      · obtain ⟨r, rfl⟩ := hd
        have := user_kw (h.1 r (by simp [idsOf]))
        cases a <;> simp_all [eval]
      · cases a <;> simp_all [eval]

theorem evalSeq_exprs (L : Lawful O H) (b : Bool) {es : List Spec.Form} (h : ∀ e ∈ es, Expr Γ e) (ρ : Env V)
    (σ : State V S) : evalSeq O H Γ b (.ofList es) ρ σ = seq H es ρ.var σ := by
  induction es generalizing b σ with
  | nil => cases b <;> simp [Form.ofList, evalSeq, seq]
  | cons e es ih =>
    have he := h e (by simp)
    have ih := fun b => ih b (fun e he => h e (by simp [he]))
    have hev := eval_expr L he ρ
    have hfalse : ∀ b', (b' = true → ¬∃ k x e', e = .cons (.id k) (.cons (.id x) (.cons e' .nil))) →
        evalSeq O H Γ b' (.ofList (e :: es)) ρ σ = seq H (e :: es) ρ.var σ := by
      intro b' hb'
      cases es with
      | nil =>
        have : evalSeq O H Γ b' (.ofList [e]) ρ σ = eval O H Γ e ρ σ := by
          simp only [Form.ofList]
          rw [evalSeq]
          intro k x e' h1 h2
          exact hb' h1 ⟨k, x, e', h2⟩
        rw [this, hev, seq]
      | cons e2 es =>
        have : evalSeq O H Γ b' (.ofList (e :: e2 :: es)) ρ σ =
            (eval O H Γ e ρ σ).bind fun r => evalSeq O H Γ false (.ofList (e2 :: es)) ρ r.2 := by
          simp only [Form.ofList]
          rw [evalSeq]
          · rfl
          all_goals first | (intro k x e' h1 h2; exact hb' h1 ⟨k, x, e', h2⟩) | simp
        rw [this, hev, seq]
        · cases H e ρ.var σ with
          | none => rfl
          | some r => exact ih _ r.2
        · simp
    cases b with
    | false => exact hfalse false (by simp)
    | true =>
      by_cases hd : ∃ k x e', e = .cons (.id k) (.cons (.id x) (.cons e' .nil))
      · obtain ⟨k, x, e', rfl⟩ := hd
        have hk := he.2.1 k _ rfl
        cases es with
        | nil =>
          simp only [Form.ofList]
          rw [evalSeq]
          simp [hk, hev, seq]
        | cons e2 es =>
          simp only [Form.ofList]
          rw [evalSeq]
          simp only [hk, reduceCtorEq, if_false]
          rw [hev, seq]
          · cases H _ ρ.var σ with
            | none => rfl
            | some r => exact ih _ r.2
          all_goals simp
      · exact hfalse true (fun _ => hd)

/-! ### `case` -/

theorem kw_renamed (F : Fresh Γ U) (x : Nat) : Γ.kw (U.rename x) = keyword x := (F.symbol x).1

theorem kw0 (F : Fresh Γ U) : Γ.kw (U.rename 0) = some .if_ := kw_renamed F 0
theorem kw1 (F : Fresh Γ U) : Γ.kw (U.rename 1) = some .begin_ := kw_renamed F 1
theorem kw2 (F : Fresh Γ U) : Γ.kw (U.rename 2) = some .let_ := kw_renamed F 2
theorem kw6 (F : Fresh Γ U) : Γ.kw (U.rename 6) = some .not_ := kw_renamed F 6
theorem kw8 (F : Fresh Γ U) : Γ.kw (U.rename 8) = some .temp := kw_renamed F 8

theorem eval_body (L : Lawful O H) (F : Fresh Γ U) {b f : Spec.Form} {body' : Body} (h : ReadsBody U b body')
    (hw : ∀ e ∈ body'.parts, Expr Γ e) (hb : body U b = some f) (ρ : Env V) (σ : State V S) {key : V}
    (hk : ρ.tmp (U.rename 8) = some key) : eval O H Γ f ρ σ = body'.run O H key ρ.var σ := by
  cases h with
  | exprs hes =>
    rename_i es
    cases es with
    | nil =>
      cases hb
      simp [eval, kw_renamed F, keyword, hk, Body.run]
    | cons e es =>
      have := hes e rfl
      simp only [Form.ofList, body, this] at hb
      cases hb
      have := evalSeq_exprs L false (Γ := Γ) hw ρ σ
      simpa [eval, kw_renamed F, keyword, Body.run, Form.ofList, Body.parts] using this
  | arrow ha =>
    rename_i a f'
    simp only [Form.ofList, body, ha] at hb
    cases hb
    have he := hw f' (by simp [Body.parts])
    have hev := eval_expr L he ρ σ
    cases f' with
    | id k =>
      have hkw := he.2.2 k rfl
      simp [eval, hkw, kw_renamed F, keyword, hk, Body.run]
    | _ =>
      rw [eval]
      · simp [kw_renamed F, keyword, hk, hev, Body.run]
      · simp

theorem body_some {b : Spec.Form} {body' : Body} (h : ReadsBody U b body') : ∃ f, body U b = some f := by
  cases h with
  | exprs hes =>
    rename_i es
    cases es with
    | nil => exact ⟨_, rfl⟩
    | cons e es => exact ⟨_, by simp only [Form.ofList, body, hes e rfl]; rfl⟩
  | arrow ha => exact ⟨_, by simp only [Form.ofList, body, ha]; rfl⟩

theorem truth_memv (L : Lawful O H) (key : V) (ds : List Spec.Form) :
    O.truth (memv O key (.ofList ds)) = ds.any fun d => O.eqv key (O.datum d) := by
  induction ds with
  | nil => simp [Form.ofList, memv, L.truth]
  | cons d ds ih =>
    simp only [Form.ofList, memv, List.any_cons]
    by_cases h : O.eqv key (O.datum d) = true
    · simp [h, L.truth]
    · simp [h, ih]

theorem quoted_user {d : Spec.Form} (h : User Γ d) : quoted O Γ d = O.datum d := by
  cases d with
  | id x => simp [quoted, (Γ.user x (h x (by simp [idsOf]))).2]
  | _ => rfl

/-- The test that `case` leaves for a clause with data. -/
def outTest (U : Use) (data : Spec.Form) : Spec.Form :=
  match data with
  | .cons d .nil => .ofList [.id (U.rename 3), .id (U.rename 8), .ofList [.id (U.rename 5), d]]
  | data => .ofList [.id (U.rename 4), .id (U.rename 8), .ofList [.id (U.rename 5), data]]

theorem eval_test (L : Lawful O H) (F : Fresh Γ U) {ds : List Spec.Form} (hd : ∀ d ∈ ds, User Γ d) {ρ : Env V}
    (σ : State V S) {key : V} (hk : ρ.tmp (U.rename 8) = some key) :
    ∃ v, eval O H Γ (outTest U (.ofList ds)) ρ σ = some (v, σ) ∧ O.truth v = ds.any fun d => O.eqv key (O.datum d) := by
  have hm := truth_memv (O := O) L key ds
  match ds, hd with
  | [], _ =>
    refine ⟨_, ?_, hm⟩
    simp [outTest, Form.ofList, eval, kw_renamed F, keyword, hk]
  | [d], hd =>
    refine ⟨O.datum (.bool (O.eqv key (O.datum d))), ?_, by
      rw [L.truth]
      cases h : O.eqv key (O.datum d) <;> simp [h]⟩
    have := quoted_user (O := O) (hd d (by simp))
    simp [outTest, Form.ofList, eval, kw_renamed F, keyword, hk, this]
  | d :: d2 :: ds, _ =>
    refine ⟨_, ?_, hm⟩
    simp [outTest, Form.ofList, eval, kw_renamed F, keyword, hk]

theorem eval_if (F : Fresh Γ U) {t c a : Spec.Form} {ρ : Env V} {σ σ' : State V S} {v : V}
    (ht : eval O H Γ t ρ σ = some (v, σ')) :
    eval O H Γ (.ofList [.id (U.rename 0), t, c, a]) ρ σ =
      if O.truth v then eval O H Γ c ρ σ' else eval O H Γ a ρ σ' := by
  simp [Form.ofList, eval, kw_renamed F, keyword, ht]

theorem eval_clauses (L : Lawful O H) (F : Fresh Γ U) {cs : Spec.Form} {clauses : List Clause}
    (h : Reads U cs clauses) (hw : Written Γ clauses) :
    ∃ e, eachClause U cs = some e ∧ ∀ (ρ : Env V) (σ : State V S) (key : V), ρ.tmp (U.rename 8) = some key →
      eval O H Γ e ρ σ = match clauses.find? (Clause.accepts O key) with
        | some c => c.body.run O H key ρ.var σ
        | none => some (O.unspecified, σ) := by
  induction h with
  | nil => exact ⟨.undefined, rfl, fun ρ σ key _ => by simp [eval]⟩
  | cons hc _ ih =>
    obtain ⟨rest, hrest, ih⟩ := ih fun c h => hw c (by simp [h])
    have hw1 := hw _ List.mem_cons_self
    cases hc with
    | els he hb =>
      obtain ⟨f, hf⟩ := body_some hb
      refine ⟨f, by simp [eachClause, he, hf], fun ρ σ key hk => ?_⟩
      exact eval_body L F hb hw1.2 hf ρ σ hk
    | data hb =>
      rename_i ds b body'
      obtain ⟨f, hf⟩ := body_some hb
      have hds := hw1.1 ds rfl
      have ht := fun (ρ : Env V) (σ : State V S) key => eval_test (O := O) (H := H) L F hds (ρ := ρ) σ (key := key)
      have his : is U 9 (Form.ofList ds) = false := by cases ds <;> rfl
      refine ⟨.ofList [.id (U.rename 0), outTest U (.ofList ds), f, rest], ?_, fun ρ σ key hk => ?_⟩
      · simp only [eachClause, his, hf, hrest]
        match ds with
        | [] => rfl
        | [d] => rfl
        | d :: d2 :: ds => rfl
      · obtain ⟨v, hv, ht⟩ := ht ρ σ key hk
        rw [eval_if F hv, ht, eval_body L F hb hw1.2 hf ρ σ hk, ih ρ σ key hk]
        simp only [List.find?_cons, Clause.accepts]
        cases ds.any fun d => O.eqv key (O.datum d) <;> rfl

/-! ### `letrec*` -/

theorem definitions_eq (bs : List (Nat × Spec.Form)) (es : Spec.Form) :
    definitions U (bindings bs) es =
      some ((bs.map fun b => Form.ofList [.id (U.rename 7), .id b.1, b.2]).foldr .cons es) := by
  induction bs with
  | nil => rfl
  | cons b bs ih =>
    have : bindings (b :: bs) = .cons (.ofList [.id b.1, b.2]) (bindings bs) := rfl
    rw [this, definitions, ih]
    rfl

theorem defined_nil {xs : List Nat} {es : List Spec.Form} (h : ∀ e ∈ es, Expr Γ e) :
    defined Γ xs (.ofList es) = xs := by
  cases es with
  | nil => simp [Form.ofList, defined]
  | cons e es =>
    have he := h e (by simp)
    by_cases hd : ∃ k x e', e = .cons (.id k) (.cons (.id x) (.cons e' .nil))
    · obtain ⟨k, x, e', rfl⟩ := hd
      simp [Form.ofList, defined, he.2.1 k _ rfl]
    · rw [Form.ofList, defined]
      intro k x e' rest h2
      simp at h2
      exact hd ⟨k, x, e', h2.1⟩

theorem defined_eq (F : Fresh Γ U) {es : List Spec.Form} (h : ∀ e ∈ es, Expr Γ e) (bs : List (Nat × Spec.Form))
    (xs : List Nat) (hn : (xs ++ bs.map Prod.fst).Nodup) :
    defined Γ xs ((bs.map fun b => Form.ofList [.id (U.rename 7), .id b.1, b.2]).foldr .cons (.ofList es)) =
      xs ++ bs.map Prod.fst := by
  induction bs generalizing xs with
  | nil => simpa using defined_nil h
  | cons b bs ih =>
    have hb : b.1 ∉ xs := by
      intro hx
      have := (List.nodup_append.1 hn).2.2 _ hx b.1 (by simp)
      exact this rfl
    have e : xs ++ (b :: bs).map Prod.fst = (xs ++ [b.1]) ++ bs.map Prod.fst := by simp
    rw [e] at hn ⊢
    rw [← ih (xs ++ [b.1]) hn]
    simp [Form.ofList, defined, kw_renamed F, keyword, hb]

theorem alloc_extends (junk : V) (xs : List Nat) (hn : xs.Nodup) (ρ : Nat → Option Nat) (σ : State V S) :
    Extends xs ρ (alloc junk xs ρ σ).1 σ (alloc junk xs ρ σ).2 ∧ σ.next ≤ (alloc junk xs ρ σ).2.next := by
  induction xs generalizing ρ σ with
  | nil => exact ⟨⟨fun _ _ => rfl, by simp, by simp, fun _ _ => rfl, rfl⟩, Nat.le_refl _⟩
  | cons x xs ih =>
    have hx : x ∉ xs := (List.nodup_cons.1 hn).1
    obtain ⟨h, hle⟩ := ih (List.nodup_cons.1 hn).2 (fun y => if y = x then some σ.next else ρ y)
      ⟨fun l => if l = σ.next then junk else σ.locs l, σ.next + 1, σ.rest⟩
    simp only [alloc]
    have hle' : σ.next + 1 ≤ _ := hle
    have hxl := h.same x hx
    simp only [if_true] at hxl
    refine ⟨⟨fun y hy => ?_, fun y hy => ?_, fun y hy z hz he => ?_, fun l hl => ?_, h.rest⟩, by omega⟩
    · have := h.same y (fun hy' => hy (by simp [hy']))
      rw [this]
      exact if_neg (fun e => hy (by simp [e]))
    · rcases List.mem_cons.1 hy with rfl | hy
      · exact ⟨_, hxl, Nat.le_refl _, by omega⟩
      · obtain ⟨l, h1, h2, h3⟩ := h.fresh y hy
        have h2 : σ.next + 1 ≤ l := h2
        exact ⟨l, h1, by omega, h3⟩
    · have key : ∀ w ∈ xs, (alloc junk xs (fun y => if y = x then some σ.next else ρ y)
          ⟨fun l => if l = σ.next then junk else σ.locs l, σ.next + 1, σ.rest⟩).1 w ≠ some σ.next := by
        intro w hw hc
        obtain ⟨l, h1, h2, h3⟩ := h.fresh w hw
        have h2 : σ.next + 1 ≤ l := h2
        rw [hc] at h1
        cases h1
        omega
      rcases List.mem_cons.1 hy with h1 | hy' <;> rcases List.mem_cons.1 hz with h2 | hz'
      · rw [h1, h2]
      · subst h1
        exact absurd (he ▸ hxl) (key z hz')
      · subst h2
        exact absurd (he.trans hxl) (key y hy')
      · exact h.distinct y hy' z hz' he
    · rw [h.kept l (by show l < σ.next + 1; omega)]
      exact if_neg (by omega)

theorem assign_assigned {ρ : Nat → Option Nat} {x : Nat} {v : V} {σ σ' : State V S} :
    assign ρ x v σ = some σ' ↔ Assigned ρ x v σ σ' := by
  constructor
  · intro h
    simp only [assign, Option.map_eq_some_iff] at h
    obtain ⟨l, hl, rfl⟩ := h
    exact ⟨l, hl, by simp, fun k hk => by simp [hk], rfl, rfl⟩
  · rintro ⟨l, hl, h1, h2, h3, h4⟩
    obtain ⟨locs, next, rest⟩ := σ'
    simp only [assign, hl, Option.map_some]
    simp only at h1 h2 h3 h4
    subst h3 h4
    congr 2
    funext k
    by_cases hk : k = l
    · simp [hk, h1]
    · simp [hk, h2 k hk]

theorem evalSeq_definitions (L : Lawful O H) (F : Fresh Γ U) {es : List Spec.Form} (h : ∀ e ∈ es, Expr Γ e)
    (bs : List (Nat × Spec.Form)) (hb : ∀ b ∈ bs, Expr Γ b.2) (ρ : Env V) (σ : State V S) (r : V × State V S) :
    evalSeq O H Γ true ((bs.map fun b => Form.ofList [.id (U.rename 7), .id b.1, b.2]).foldr .cons (.ofList es)) ρ σ =
      some r ↔ LetrecStar H bs es ρ.var σ r := by
  induction bs generalizing σ with
  | nil =>
    rw [List.map_nil, List.foldr_nil, evalSeq_exprs L true h]
    constructor
    · intro h
      exact ⟨σ, .nil, h⟩
    · rintro ⟨σ', h1, h2⟩
      cases h1
      exact h2
  | cons b bs ih =>
    have he := hb b (by simp)
    have ih := ih fun b h => hb b (by simp [h])
    obtain ⟨x, e⟩ := b
    have e1 : evalSeq O H Γ true (((x, e) :: bs).map (fun b => Form.ofList [.id (U.rename 7), .id b.1, b.2])
        |>.foldr .cons (.ofList es)) ρ σ =
        (H e ρ.var σ).bind fun p => (assign ρ.var x p.1 p.2).bind fun σ =>
          evalSeq O H Γ true ((bs.map fun b => Form.ofList [.id (U.rename 7), .id b.1, b.2]).foldr .cons (.ofList es))
            ρ σ := by
      rw [List.map_cons, List.foldr_cons]
      simp only [Form.ofList]
      rw [evalSeq.eq_def]
      simp only [kw_renamed F, keyword, eval_expr L he]
      rfl
    rw [e1]
    constructor
    · intro h
      obtain ⟨⟨v, σ₂⟩, h1, h⟩ := Option.bind_eq_some_iff.1 h
      obtain ⟨σ₃, h2, h⟩ := Option.bind_eq_some_iff.1 h
      obtain ⟨σ₄, h3, h4⟩ := (ih σ₃).1 h
      exact ⟨σ₄, .cons h1 (assign_assigned.1 h2) h3, h4⟩
    · rintro ⟨σ₄, h3, h4⟩
      cases h3 with
      | cons h1 h2 h3 =>
        rw [h1]
        simp only [Option.bind_some]
        rw [assign_assigned.2 h2]
        exact (ih _).2 ⟨σ₄, h3, h4⟩

end Meevax.Case
