import Verif.Lemmas.RulesMore

/-!
The text made for `(P ... . tail)` (srfi-149.ss L120-L146): the elements before the last ones are collected
in a list, which is then matched with `(P ...)`.
-/

namespace Meevax.Rules

open Spec

variable {D : Def} {U : Use}

/-- The loop. -/
def tailBody (name : Var) (inner : Exp) : Exp :=
  .ite (.prim2 .ge (.const (.num 0)) (.var .i)) inner
    (.call name [.prim1 .cdr (.var .ls), .prim2 .sub (.var .i) (.const (.num 1)),
      .prim2 .cons (.prim1 .car (.var .ls)) (.var .res)])

/-- The environment of one turn. -/
def tailEnv (name : Var) (body : Exp) (ρ₀ : Env) (l : Form) (n : Int) (r : Form) : Env :=
  Env.bind ((name, .loop [.ls, .i, .res] body ρ₀) :: ρ₀) [.ls, .i, .res] [l, .num n, r]

section

variable {name : Var} {body : Exp} {ρ₀ : Env} {l r : Form} {n : Int}

theorem tailEnv_ls : Env.get (tailEnv name body ρ₀ l n r) .ls = some (.form l) := rfl
theorem tailEnv_i : Env.get (tailEnv name body ρ₀ l n r) .i = some (.form (.num n)) := rfl
theorem tailEnv_res : Env.get (tailEnv name body ρ₀ l n r) .res = some (.form r) := rfl

theorem tailEnv_gen (k : Nat) :
    Env.get (tailEnv name body ρ₀ l n r) (.gen k) =
      Env.get ((name, .loop [.ls, .i, .res] body ρ₀) :: ρ₀) (.gen k) :=
  get_bind_notin _ (by simp)

theorem tailEnv_pat (k : Nat) (h : ∀ x, name ≠ .pat x) :
    Env.get (tailEnv name body ρ₀ l n r) (.pat k) = Env.get ρ₀ (.pat k) := by
  rw [tailEnv, get_bind_notin _ (by simp), get_cons_ne _ _ (h k)]

theorem tail_run {c : Nat} {inner : Exp} {g : Form} {x : Form}
    (hb : body = tailBody (.gen c) inner) : ∀ (fs acc : List Form),
    Ev U (tailEnv (.gen c) body ρ₀ g 0 (.ofList (fs.reverse ++ acc))) inner x →
    Ev U (tailEnv (.gen c) body ρ₀ (fs.foldr .cons g) fs.length (.ofList acc)) body x := by
  intro fs
  induction fs with
  | nil =>
    intro acc h
    conv => arg 3; rw [hb]
    exact Ev.iteTrue (Ev.prim2 (Ev.const _) (Ev.varForm tailEnv_i) rfl) h
  | cons f fs ih =>
    intro acc h
    have h' := ih (f :: acc) (by simpa using h)
    conv => arg 3; rw [hb]
    refine Ev.iteFalse (Ev.prim2 (Ev.const _) (Ev.varForm tailEnv_i) ?_) ?_
    · simp only [Prim2.apply, List.length_cons]
      congr 2
    · refine Ev.call (params := [.ls, .i, .res]) (body := body) (ρ₀ := ρ₀)
        (xs := [fs.foldr .cons g, .num fs.length, .ofList (f :: acc)]) ?_ ?_ h'
      · rw [tailEnv_gen, get_cons_self]
      · refine .cons (Ev.prim1 (Ev.varForm tailEnv_ls) rfl) (.cons (Ev.prim2 (Ev.varForm tailEnv_i) (Ev.const _) ?_)
          (.cons (Ev.prim2 (Ev.prim1 (Ev.varForm tailEnv_ls) rfl) (Ev.varForm tailEnv_res) rfl) .nil))
        simp only [Prim2.apply, List.length_cons]
        congr 2
        push_cast
        omega

end

theorem split_pairs : ∀ (F : Form) (n : Nat), n ≤ pairs F →
    ∃ (fs : List Form) (g : Form), F = fs.foldr .cons g ∧ pairs g = n ∧ fs.length = pairs F - n := by
  intro F
  induction F with
  | cons a d _ ih =>
    intro n hn
    simp only [pairs] at hn ⊢
    by_cases h : n = pairs d + 1
    · exact ⟨[], .cons a d, rfl, by simp [pairs, h], by simp [h]⟩
    · obtain ⟨fs, g, h1, h2, h3⟩ := ih n (by omega)
      exact ⟨a :: fs, g, by simp [h1], h2, by simp [h3]; omega⟩
  | _ => intro n hn; exact ⟨[], _, rfl, by simp [pairs] at hn ⊢; omega, by simp [pairs]⟩

theorem foldr_unique : ∀ {fs fs' : List Form} {g g' : Form}, fs.foldr .cons g = fs'.foldr .cons g' →
    pairs g = pairs g' → fs = fs' ∧ g = g' := by
  intro fs
  induction fs with
  | nil =>
    intro fs' g g' h hp
    cases fs' with
    | nil => exact ⟨rfl, h⟩
    | cons f fs' =>
      simp only [List.foldr_nil] at h
      rw [h, pairs_foldr] at hp
      simp at hp
  | cons f fs ih =>
    intro fs' g g' h hp
    cases fs' with
    | nil =>
      simp only [List.foldr_nil] at h
      rw [← h, pairs_foldr] at hp
      simp at hp
    | cons f' fs' =>
      simp only [List.foldr_cons, Form.cons.injEq] at h
      obtain ⟨h1, h2⟩ := ih h.2 hp
      exact ⟨by rw [h.1, h1], h2⟩

theorem match_more_inv {p q F : Form} {e : Nat} {σ : Binds} (he : IsEllipsis D e)
    (h : Match D U (.cons p (.cons (.id e) q)) F σ) :
    ∃ fs g σs σP τ, F = fs.foldr .cons g ∧ σ = σP ++ τ ∧ MatchAll D U p fs σs ∧ Collect D p σs σP ∧
      pairs g = pairs q ∧ Match D U q g τ := by
  generalize hq : Form.cons p (.cons (.id e) q) = P at h
  cases h with
  | lit _ _ => cases hq
  | under _ => cases hq
  | var _ => cases hq
  | nil => cases hq
  | datum h => subst hq; exact absurd h id
  | vec _ => cases hq
  | pair hn _ _ => cases hq; exact absurd he hn
  | more _ hm hcol hp hnil => cases hq; exact ⟨_, _, _, _, _, rfl, rfl, hm, hcol, hp, hnil⟩

theorem match_pair_inv {p q F : Form} {σ : Binds} (hn : NoEllipsis (IsEllipsis D) q)
    (h : Match D U (.cons p q) F σ) :
    ∃ f g σ₁ σ₂, F = .cons f g ∧ σ = σ₁ ++ σ₂ ∧ Match D U p f σ₁ ∧ Match D U q g σ₂ := by
  generalize hq : Form.cons p q = P at h
  cases h with
  | lit _ _ => cases hq
  | under _ => cases hq
  | var _ => cases hq
  | nil => cases hq
  | datum h => subst hq; exact absurd h id
  | vec _ => cases hq
  | pair _ h1 h2 => cases hq; exact ⟨_, _, _, _, rfl, rfl, h1, h2⟩
  | more he _ _ _ _ => cases hq; exact absurd he hn

/-- The pattern `(tail (P ...))`. -/
def rotated (p : Form) (e : Nat) (q : Form) : Form := .cons q (.cons (.cons p (.cons (.id e) .nil)) .nil)

theorem match_rotated {p q g : Form} {e : Nat} {fs : List Form} {σ : Binds} (he : IsEllipsis D e)
    (hl : (vars D (.cons p (.cons (.id e) q))).Nodup) (hg : pairs g = pairs q)
    (h : Match D U (.cons p (.cons (.id e) q)) (fs.foldr .cons g) σ) :
    ∃ σ', Match D U (rotated p e q) (.cons g (.cons (.ofList fs) .nil)) σ' ∧
      ∀ x t, Binds.get σ x = some t → Binds.get σ' x = some t := by
  obtain ⟨fs', g', σs, σP, τ, e1, rfl, hm, hc, hp, h2⟩ := match_more_inv he h
  obtain ⟨rfl, rfl⟩ := foldr_unique e1 (hg.trans hp.symm)
  have h3 : Match D U (.cons p (.cons (.id e) .nil)) (.ofList fs) (σP ++ []) := by
    rw [← foldr_nil]; exact .more he hm hc rfl .nil
  refine ⟨τ ++ ((σP ++ []) ++ []), .pair trivial h2 (.pair trivial h3 .nil), ?_⟩
  intro x t ht
  simp only [List.append_nil]
  rw [get_append] at ht ⊢
  cases hP : Binds.get σP x with
  | none =>
    rw [hP] at ht
    simp only [] at ht ⊢
    rw [ht]
  | some u =>
    rw [hP] at ht
    simp only [] at ht ⊢
    cases hτ : Binds.get τ x with
    | none => exact ht
    | some w =>
      exfalso
      obtain ⟨⟨k, hk⟩, _⟩ := (hc x u).1 hP
      obtain ⟨k', hk'⟩ := (match_domain h2 x).1 (by simp [hτ])
      simp only [vars] at hl
      rw [List.nodup_append] at hl
      exact hl.2.2 x hk.mem_vars x (by simp [hk'.mem_vars]) rfl

theorem match_unrotated {p q g : Form} {e : Nat} {fs : List Form} {σ' : Binds} (he : IsEllipsis D e)
    (hg : pairs g = pairs q) (h : Match D U (rotated p e q) (.cons g (.cons (.ofList fs) .nil)) σ') :
    ∃ σ, Match D U (.cons p (.cons (.id e) q)) (fs.foldr .cons g) σ := by
  obtain ⟨f, d, σ₁, σ₂, e1, _, h1, h2⟩ := match_pair_inv (D := D)
    (q := .cons (.cons p (.cons (.id e) .nil)) .nil) trivial h
  cases e1
  obtain ⟨f, d, σ₃, σ₄, e2, _, h3, _⟩ := match_pair_inv (D := D) (q := .nil) trivial h2
  cases e2
  obtain ⟨fs', g', σs, σP, τ, e3, rfl, hm, hc, hp, h4⟩ := match_more_inv he h3
  obtain ⟨rfl, _⟩ := pairs_zero_nil _ h4
  rw [foldr_nil] at e3
  have : fs = fs' := by
    have := congrArg Form.toList e3
    rw [toList_ofList, toList_ofList] at this
    exact Option.some.inj this
  subst this
  exact ⟨_, .more he hm hc hg h1⟩

/-- `(P ... . tail)`. -/
theorem sem_tail {p q : Form} {e c c₁ : Nat} {wrap : Exp → Exp} (he : IsEllipsis D e)
    (hl : (vars D (.cons p (.cons (.id e) q))).Nodup) (hc : c + 1 ≤ c₁)
    (hs : Sem D U (rotated p e q)
      (.prim2 .cons (.var .ls) (.prim2 .cons (.prim1 .reverse (.var .res)) (.const .nil))) (c + 1) c₁ wrap)
    (ek : Exp) (ρ : Env) (F : Form) (v : Nat) (hg : Good ρ) (hv : Env.get ρ (.gen v) = some (.form F))
    (hvn : v ≠ c + 1) :
    let n : Int := lengthStar q
    let text := Exp.bind [(.len, .prim1 .length (.var (.gen v)))]
      (.and (.prim2 .ge (.var .len) (.const (.num n)))
        (.loop (.gen (c + 1))
          [(.ls, .var (.gen v)), (.i, .prim2 .sub (.var .len) (.const (.num n))), (.res, .const .nil)]
          (tailBody (.gen (c + 1)) (wrap ek))))
    (∀ σ, Match D U (.cons p (.cons (.id e) q)) F σ →
      ∃ ρ', Ext c c₁ (.cons p (.cons (.id e) q)) σ ρ ρ' ∧ ∀ r, Ev U ρ' ek r → Ev U ρ text r) ∧
    ((∀ σ, ¬Match D U (.cons p (.cons (.id e) q)) F σ) → Ev U ρ text (.bool false)) := by
  intro n text
  let ρ₀ : Env := (.len, .form (.num (pairs F))) :: ρ
  let body := tailBody (.gen (c + 1)) (wrap ek)
  have hv0 : Env.get ρ₀ (.gen v) = some (.form F) := by rw [get_cons_ne _ _ (by simp)]; exact hv
  have hlen : Env.get ρ₀ .len = some (.form (.num (pairs F))) := get_cons_self _ _ _
  have hbind : ∀ {b r}, Ev U ρ₀ b r → Ev U ρ (.bind [(.len, .prim1 .length (.var (.gen v)))] b) r := by
    intro b r hr
    refine Ev.bind1 (F := .num (pairs F)) (Ev.prim1 (Ev.varForm hv) ?_) hr
    simp [Prim1.apply, lengthStar_eq]
  by_cases hn : pairs q ≤ pairs F
  · obtain ⟨fs, g, rfl, hpg, hfl⟩ := split_pairs F (pairs q) hn
    have hrun : ∀ r, Ev U (tailEnv (.gen (c + 1)) body ρ₀ g 0 (.ofList fs.reverse)) (wrap ek) r →
        Ev U ρ text r := by
      intro r hr
      refine hbind (Ev.andTrue (Ev.prim2 (Ev.varForm hlen) (Ev.const _) ?_) ?_)
      · simp only [Prim2.apply, n, lengthStar_eq]
        congr 2
        simp only [decide_eq_true_eq]
        exact_mod_cast hn
      · refine Ev.loop (xs := [fs.foldr .cons g, .num fs.length, .nil]) ?_ ?_
        · refine .cons (Ev.varForm ?_) (.cons (Ev.prim2
            (x := .num (pairs (fs.foldr .cons g))) (Ev.varForm ?_) (Ev.const _) ?_) (.cons (Ev.const _) .nil))
          · rw [get_cons_ne _ _ (by simp; omega)]; exact hv0
          · exact hlen
          · simp only [Prim2.apply, n, lengthStar_eq]
            congr 2
            rw [hfl]
            omega
        · exact tail_run (body := body) rfl fs [] (by simpa using hr)
    have hgood : Good (tailEnv (.gen (c + 1)) body ρ₀ g 0 (.ofList fs.reverse)) :=
      ((hg.cons_form _ _).cons_gen _ _).bind _ _
    have hx : Ev U (tailEnv (.gen (c + 1)) body ρ₀ g 0 (.ofList fs.reverse))
        (.prim2 .cons (.var .ls) (.prim2 .cons (.prim1 .reverse (.var .res)) (.const .nil)))
        (.cons g (.cons (.ofList fs) .nil)) :=
      Ev.prim2 (Ev.varForm tailEnv_ls)
        (Ev.prim2 (Ev.prim1 (y := .ofList fs) (Ev.varForm tailEnv_res) (by simp [Prim1.apply, toList_ofList]))
          (Ev.const _) rfl) rfl
    have h := hs ek _ _ hgood hx
    constructor
    · intro σ hm
      obtain ⟨σ', hm', hσ⟩ := match_rotated he hl hpg hm
      obtain ⟨ρ', hE, hr⟩ := h.1 σ' hm'
      refine ⟨ρ', ⟨?_, ?_, ?_, ?_⟩, fun r hr' => hrun r (hr r hr')⟩
      · intro x hx
        rw [hE.pat x (by simp only [ids, rotated, List.mem_append] at hx ⊢; tauto), tailEnv_pat _ (by simp),
          get_cons_ne _ _ (by simp)]
      · intro k hk
        rw [hE.gen k (by omega), tailEnv_gen, get_cons_ne _ _ (by simp; omega), get_cons_ne _ _ (by simp)]
      · intro x t ht; exact hE.new x t (hσ x t ht)
      · exact fun _ => hE.good hgood
    · intro hnm
      refine hrun _ (h.2 ?_)
      intro σ' hm'
      obtain ⟨σ, hσ⟩ := match_unrotated he hpg hm'
      exact hnm σ hσ
  · constructor
    · intro σ hm
      obtain ⟨fs', g', σs, σP, τ, e1, _, _, _, hp, _⟩ := match_more_inv he hm
      rw [e1, pairs_foldr] at hn
      omega
    · intro _
      refine hbind (Ev.andFalse (Ev.prim2 (Ev.varForm hlen) (Ev.const _) ?_))
      simp only [Prim2.apply, n, lengthStar_eq]
      congr 2
      simp only [decide_eq_false_iff_not]
      exact_mod_cast hn

end Meevax.Rules
