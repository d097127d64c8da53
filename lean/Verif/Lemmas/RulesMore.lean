import Verif.Lemmas.RulesLoop

/-!
Patterns with an ellipsis: `(P ...)` for a variable and for another pattern, and `(P ... . tail)`.
-/

namespace Meevax.Rules

open Spec

variable {D : Def} {U : Use}

/-- A variable that is bound several times, to the same form. -/
theorem get_bind_local {α} (ρ : Env) (g : α → Var) (h : α → Form) : ∀ (l : List α) (a : α), a ∈ l →
    (∀ b ∈ l, g b = g a → h b = h a) →
    Env.get (Env.bind ρ (l.map g) (l.map h)) (g a) = some (.form (h a)) := by
  intro l
  induction l with
  | nil => intro a ha; simp at ha
  | cons b l ih =>
    intro a ha hl
    simp only [Env.bind, List.map_cons, List.zipWith_cons_cons, List.cons_append, Env.get]
    split
    · rename_i e; rw [hl b (by simp) e]
    · rename_i e
      rcases List.mem_cons.1 ha with rfl | ha
      · exact absurd rfl e
      · exact ih a ha (fun b hb => hl b (by simp [hb]))

theorem zipWith_range {α β γ} (f : α → β → γ) (l : List α) (g : Nat → β) (x : α) :
    List.zipWith f l ((List.range l.length).map g) =
      (List.range l.length).map fun j => f (l.getD j x) (g j) := by
  apply List.ext_getElem
  · simp
  · intro i h1 h2
    simp at h1
    simp [h1]

theorem forall₂_val {x : Nat} {σs : List Binds} {ts : List Tree}
    (h : List.Forall₂ (fun σ t => Binds.get σ x = some t) σs ts) : σs.map (val x) = ts.map Tree.form := by
  induction h with
  | nil => rfl
  | cons h _ ih => simp [val, h, ih]

theorem forall₂_unique {x : Nat} {σs : List Binds} {ts us : List Tree}
    (h : List.Forall₂ (fun σ t => Binds.get σ x = some t) σs ts)
    (h' : List.Forall₂ (fun σ t => Binds.get σ x = some t) σs us) : ts = us := by
  induction h generalizing us with
  | nil => cases h'; rfl
  | cons h _ ih =>
    cases h' with
    | cons h1 h2 => rw [h] at h1; cases h1; rw [ih h2]

theorem collect_exists {P : Form} {fs : List Form} {σs : List Binds} (hm : MatchAll D U P fs σs) :
    ∃ τ, Collect D P σs τ := by
  classical
  have hts : ∀ x, ∃ ts, (∃ k, VarAt D P x k) → List.Forall₂ (fun σ t => Binds.get σ x = some t) σs ts := by
    intro x
    by_cases hv : ∃ k, VarAt D P x k
    · obtain ⟨ts, hts⟩ := matchAll_domain hm x hv; exact ⟨ts, fun _ => hts⟩
    · exact ⟨[], fun h => absurd h hv⟩
  choose ts hts using hts
  refine ⟨((ids P).filter fun x => decide (∃ k, VarAt D P x k)).map fun x => (x, .many (ts x)), ?_⟩
  intro x t
  have hget : ∀ l : List Nat, Binds.get (l.map fun x => (x, Tree.many (ts x))) x =
      if x ∈ l then some (.many (ts x)) else none := by
    intro l
    induction l with
    | nil => simp [Binds.get]
    | cons y l ih =>
      by_cases hy : y = x
      · subst hy; simp [Binds.get]
      · have : Binds.get (List.map (fun x => (x, Tree.many (ts x))) (y :: l)) x =
            Binds.get (List.map (fun x => (x, Tree.many (ts x))) l) x := by
          simp [Binds.get, hy]
        rw [this, ih]
        have : x ∈ y :: l ↔ x ∈ l := by simp [Ne.symm hy]
        simp only [this]
  rw [hget]
  by_cases hx : ∃ k, VarAt D P x k
  · have h1 : x ∈ (ids P).filter fun x => decide (∃ k, VarAt D P x k) := by
      obtain ⟨k, hk⟩ := hx
      simp only [List.mem_filter, decide_eq_true_eq]
      exact ⟨hk.mem_ids, k, hk⟩
    rw [if_pos h1]
    constructor
    · intro h; cases h; exact ⟨hx, _, rfl, hts x hx⟩
    · rintro ⟨_, ts', rfl, hts'⟩
      rw [forall₂_unique (hts x hx) hts']
  · have h1 : x ∉ (ids P).filter fun x => decide (∃ k, VarAt D P x k) := by
      simp only [List.mem_filter, decide_eq_true_eq]; exact fun h => hx h.2
    rw [if_neg h1]
    constructor
    · intro h; cases h
    · exact fun h => absurd h.1 hx

/-- `(P ...)` where `P` is not an identifier. -/
theorem sem_loop {P : Form} {e : Nat} {c c₁ dim : Nat} {wrap : Exp → Exp} {nvl : Vars}
    (he : IsEllipsis D e) (hnv : NewVars D P (dim + 1) nvl) (hc : c + 2 + nvl.length ≤ c₁)
    (hs : Sem D U P (.prim1 .car (.var (.gen (c + 1)))) (c + 2 + nvl.length) c₁ wrap)
    (ek : Exp) (ρ : Env) (F : Form) (v : Var) (hg : Good ρ) (hv : Env.get ρ v = some (.form F))
    (hvn : v ≠ .gen (c + 2)) :
    let nv := fun j => (nvl.getD j (0, 0)).1
    let body := loopBody c nvl.length nv wrap ek
    let text := Exp.loop (.gen (c + 2))
      ((.gen (c + 1), .var v) :: (List.range nvl.length).map fun j => (.gen (c + 3 + j), .const .nil)) body
    (∀ σ, Match D U (.cons P (.cons (.id e) .nil)) F σ →
      ∃ ρ', Ext c c₁ (.cons P (.cons (.id e) .nil)) σ ρ ρ' ∧ ∀ r, Ev U ρ' ek r → Ev U ρ text r) ∧
    ((∀ σ, ¬Match D U (.cons P (.cons (.id e) .nil)) F σ) → Ev U ρ text (.bool false)) := by
  intro nv body text
  have hnvm : ∀ j, j < nvl.length → nv j ∈ ids P := by
    intro j hj
    have : nvl.getD j (0, 0) ∈ nvl := by simp [List.getD, hj]
    exact hnv.ids (nvl.getD j (0, 0)).1 (nvl.getD j (0, 0)).2 this
  have hstart : ∀ r, Ev U (loopEnv c nvl.length body ρ F fun _ => []) body r → Ev U ρ text r := by
    intro r hr
    refine Ev.loop (xs := F :: (List.range nvl.length).map fun _ => .ofList []) ?_ ?_
    · refine .cons (Ev.varForm ?_) ?_
      · rw [get_cons_ne _ _ (Ne.symm hvn)]; exact hv
      · rw [List.map_map]
        exact evs_map _ _ _ fun j _ => Ev.const _
    · have : (((Var.gen (c + 1), Exp.var v) :: (List.range nvl.length).map fun j =>
          ((Var.gen (c + 3 + j), Exp.const .nil) : Var × Exp)).map Prod.fst) = loopParams c nvl.length := by
        simp [loopParams]
      rw [this]
      exact hr
  have hinv : Inv D P nvl.length nv (fun _ => []) [] := fun j _ _ => rfl
  constructor
  · intro σ hm
    generalize hq : Form.cons P (.cons (.id e) .nil) = q at hm
    cases hm with
    | lit _ _ => cases hq
    | under _ => cases hq
    | var _ => cases hq
    | nil => cases hq
    | datum h => subst hq; exact absurd h id
    | vec _ => cases hq
    | pair hn _ _ => cases hq; exact absurd he hn
    | more _ hm hcol hp hnil =>
      cases hq
      rename_i fs g σs σP τ _
      obtain ⟨rfl, rfl⟩ := pairs_zero_nil _ hnil
      rw [foldr_nil] at hstart
      obtain ⟨A', hi', hA'⟩ := loop_match hg (body := body) rfl hs hm hinv
      refine ⟨afterEnv c nvl.length nv body ρ A', ⟨?_, ?_, ?_, ?_⟩, fun r hr => hstart r (hA' r hr)⟩
      · intro x hx
        rw [afterEnv, get_bind_notin, loopEnv_pat]
        simp only [List.mem_map, List.mem_range, Var.pat.injEq, not_exists, not_and]
        rintro j hj rfl
        exact hx (by simp [ids, hnvm j hj])
      · intro n hn
        rw [afterEnv, get_bind_notin _ (by simp), loopEnv_gen (by omega)]
      · intro x t ht
        rcases get_append_some ht with ht | ht
        · obtain ⟨⟨k, hk⟩, ts, rfl, hts⟩ := (hcol x t).1 ht
          obtain ⟨j, hj, hjx⟩ := List.getElem_of_mem (hnv.all x k hk)
          have hjx' : nv j = x := by simp [nv, List.getD, hj, hjx]
          have hA : ∀ i, i < nvl.length → nv i = x → A' i = (σs.map (val x)).reverse := by
            intro i hi e
            have := hi' i hi (by rw [e]; exact ⟨k, hk⟩)
            rw [this, e]; simp
          have := get_bind_local (loopEnv c nvl.length body ρ .nil A') (fun j => .pat (nv j))
            (fun j => .ofList (A' j).reverse) (List.range nvl.length) j (by simpa using hj) (by
              intro i hi e
              simp only [Var.pat.injEq] at e
              rw [hA i (by simpa using hi) (e.trans hjx'), hA j hj hjx'])
          rw [hjx'] at this
          rw [afterEnv, this, hA j hj hjx', List.reverse_reverse, forall₂_val hts, Tree.form]
        · simp [Binds.get] at ht
      · intro h
        exact (loopEnv_good h).bind _ _
  · intro hn
    refine hstart _ (loop_fail hg (body := body) rfl hs F hinv ?_)
    rintro fs σs rfl hm
    obtain ⟨τ, hτ⟩ := collect_exists hm
    have := Match.more he hm hτ (g := .nil) (q := .nil) rfl .nil
    rw [foldr_nil] at this
    exact hn _ this

end Meevax.Rules
