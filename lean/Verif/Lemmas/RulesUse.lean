import Verif.Lemmas.RulesTemplate

/-!
A use of a macro made by `syntax-rules`.
-/

namespace Meevax.Rules

open Spec

variable {D : Def} {U : Use}

theorem ellipses_mem {ell : Nat → Prop} {d r : Form} {k : Nat} (h : Ellipses ell d k r) :
    ∀ x ∈ ids d, ell x ∨ x ∈ ids r := by
  induction h with
  | none _ => exact fun x hx => .inr hx
  | some he _ ih =>
    intro x hx
    rw [ids] at hx
    rcases List.mem_append.1 hx with hx | hx
    · simp [ids] at hx
      subst hx
      exact .inl he
    · exact ih x hx

/-- The identifiers of a template. -/
theorem template_ids {p t : Form} {dim : Nat} (h : TemplateOk D p dim t) : ∀ x ∈ ids t,
    (∃ k, VarAt D p x k) ∨ (x ∈ ids p → IsLit D x) ∨ IsEllipsis D x := by
  induction h with
  | var hv _ => intro x hx; simp [ids] at hx; subst hx; exact .inl ⟨_, hv⟩
  | insert hn => intro x hx; simp [ids] at hx; subst hx; exact .inr (.inl hn)
  | nil => intro x hx; simp [ids] at hx
  | datum hd => intro x hx; rename_i t; cases t <;> first | exact absurd hd id | simp [ids] at hx
  | vec _ _ ih => exact ih
  | pair _ _ _ _ iha ihd =>
    intro x hx
    rcases List.mem_append.1 hx with hx | hx
    · exact iha x hx
    · exact ihd x hx
  | more _ he _ _ _ _ _ _ iha ihr =>
    intro x hx
    rcases List.mem_append.1 hx with hx | hx
    · exact iha x hx
    · rcases ellipses_mem he x hx with hx | hx
      · exact .inr (.inr hx)
      · exact ihr x hx

/-- After a match, the environment agrees with the bindings. -/
theorem agree_of_match (hD : DefOk D) {p t : Form} (hl : (vars D p).Nodup) (ht : TemplateOk D p 0 t) {nv : Vars}
    (hnv : NewVars D p 0 nv) {f : Form} {σ : Binds} {c c₁ : Nat} {ρ ρ' : Env} (hm : Match D U p f σ)
    (hext : Ext c c₁ p σ ρ ρ') : Agree nv 0 t σ ρ' := by
  have hok := hnv.ok hl
  intro x hx
  constructor
  · intro hn
    rw [← Option.not_isSome_iff_eq_none, match_domain hm x]
    rintro ⟨j, hj⟩
    rw [hok.var x j hj] at hn
    cases hn
  · intro d hd
    have hv : ∃ j, VarAt D p x j := by
      rcases template_ids ht x hx with h | h | h
      · exact h
      · rw [hok.other x h] at hd; cases hd
      · obtain ⟨v, hv, rfl⟩ := Option.map_eq_some_iff.1 hd
        have h1 := List.find?_some hv
        have h2 := List.mem_of_find?_eq_some hv
        simp at h1
        obtain ⟨y, d⟩ := v
        subst h1
        obtain ⟨j, hj, _⟩ := hnv.depth y d h2 (fun hu => by
          have h3 := hD.distinct y h.1
          rw [hu.1] at h3
          cases h3)
        exact ⟨j, hj⟩
    obtain ⟨j, hj⟩ := hv
    rw [hok.var x j hj] at hd
    cases hd
    obtain ⟨u, hu⟩ := Option.isSome_iff_exists.1 ((match_domain hm x).2 ⟨_, hj⟩)
    exact ⟨u, hu, match_deep hm hl x _ u hj hu, hext.new x u hu⟩

/-- The text for a rule. -/
theorem rule_compiles (hD : DefOk D) {pat t : Form} (h : RuleOk D pat t) (c : Nat) :
    ∃ e c', D.expandPattern pat t c = some (e, c') ∧ ∀ U l f,
      (∀ σ out, Applies D U pat (.cons l f) σ → Inst U (IsEllipsis D) σ t out →
        Ev U [(.expr, .form (.cons l f))] e (.cons out (.bool false))) ∧
      ((∀ σ, ¬Applies D U pat (.cons l f) σ) → Ev U [(.expr, .form (.cons l f))] e (.bool false)) := by
  cases h with
  | @mk k p t hp hl ht =>
    obtain ⟨c₁, nv, wrap, _, hnv, hlp, hsem⟩ :=
      lp_compiles hD (4 * p.size) p (need_le _ p (Nat.le_refl _)) hp hl (.prim1 .cdr (.var .expr)) 0 c
    have hok := hnv.ok hl
    obtain ⟨e, he, hb⟩ := template_builds hD hok ht t.size (Nat.le_refl _)
    refine ⟨wrap (.prim2 .cons e (.const (.bool false))), c₁, ?_, ?_⟩
    · rw [Def.expandPattern, hlp, List.append_nil, Def.expandTemplate, he]
      rfl
    · intro U l f
      have hg : Good [(.expr, .form (.cons l f))] := by intro x ps b ρ₀; simp [Env.get]
      have hs := hsem U (.prim2 .cons e (.const (.bool false))) [(.expr, .form (.cons l f))] f hg
        (Ev.prim1 (Ev.varForm (get_cons_self _ _ _)) rfl)
      constructor
      · rintro σ out ⟨k', p', l', f', e1, e2, hm⟩ hin
        cases e1
        cases e2
        obtain ⟨ρ', hext, hr⟩ := hs.1 σ hm
        exact hr _ (Ev.prim2 (hb U σ ρ' out (agree_of_match hD hl ht hnv hm hext) hin) (Ev.const _) rfl)
      · intro hno
        exact hs.2 fun σ hm => hno σ ⟨_, _, _, _, rfl, rfl, hm⟩

theorem compile_ok (hD : DefOk D) : ∀ (rules : List (Form × Form)) (c : Nat),
    (∀ r ∈ rules, RuleOk D r.1 r.2) → ∃ es, D.compile rules c = some es := by
  intro rules
  induction rules with
  | nil => intro c _; exact ⟨[], rfl⟩
  | cons r rules ih =>
    intro c h
    obtain ⟨pat, t⟩ := r
    obtain ⟨e, c', he, _⟩ := rule_compiles hD (h (pat, t) (by simp)) c
    obtain ⟨es, hes⟩ := ih c' fun r hr => h r (by simp [hr])
    exact ⟨e :: es, by rw [Def.compile, he]; simp [hes]⟩

theorem rules_run (hD : DefOk D) {rules : List (Form × Form)} {form : Form} {o : Outcome}
    (h : Rewrites D U rules form o) : ∀ (c : Nat), (∀ r ∈ rules, RuleOk D r.1 r.2) →
    (∃ l f, form = .cons l f) →
    ∃ es f₀, D.compile rules c = some es ∧ ∀ f, f₀ ≤ f → runRules U f [(.expr, .form form)] es = some o := by
  induction h with
  | none => intro c _ _; exact ⟨[], 0, rfl, fun _ _ => rfl⟩
  | @here pat t rules form σ out ha hin =>
    rintro c hr ⟨l, f, rfl⟩
    obtain ⟨e, c', he, hs⟩ := rule_compiles hD (hr (pat, t) (by simp)) c
    obtain ⟨es, hes⟩ := compile_ok hD rules c' fun r h => hr r (by simp [h])
    obtain ⟨f₀, hf⟩ := (hs U l f).1 σ out ha hin
    refine ⟨e :: es, f₀, by rw [Def.compile, he]; simp [hes], ?_⟩
    intro g hg
    rw [runRules, eval_mono hf hg]
    rfl
  | @next pat t rules form o hn _ ih =>
    rintro c hr ⟨l, f, rfl⟩
    obtain ⟨e, c', he, hs⟩ := rule_compiles hD (hr (pat, t) (by simp)) c
    obtain ⟨es, f₁, hes, hrun⟩ := ih c' (fun r h => hr r (by simp [h])) ⟨l, f, rfl⟩
    obtain ⟨f₀, hf⟩ := (hs U l f).2 hn
    refine ⟨e :: es, max f₀ f₁, by rw [Def.compile, he]; simp [hes], ?_⟩
    intro g hg
    rw [runRules, eval_mono hf (by omega)]
    exact hrun g (by omega)

/-! ### Too few ellipses -/

theorem template_none (hD : DefOk D) {p : Form} {vs : Vars} (hvs : VarsOk D p vs) {dim : Nat} {t : Form}
    (h : TooFew D p dim t) : ∀ f, D.template vs f t dim = none := by
  induction h with
  | var hv hlt =>
    intro f
    cases f with
    | zero => rfl
    | succ f => rw [Def.template]; simp [hvs.var _ _ hv]; omega
  | vec _ ih =>
    intro f
    cases f with
    | zero => rfl
    | succ f => rw [Def.template, ih]; rfl
  | car h1 h2 _ ih =>
    intro f
    cases f with
    | zero => rw [Def.template]
    | succ f => rw [template_pair (isEscape_false hD h1) ((isEllipsis_false hD).2 h2), ih]; rfl
  | cdr h1 h2 _ ih =>
    intro f
    cases f with
    | zero => rw [Def.template]
    | succ f =>
      rw [template_pair (isEscape_false hD h1) ((isEllipsis_false hD).2 h2), ih]
      cases D.template vs f _ _ <;> rfl
  | @more dim a d k r h1 h2 _ ih =>
    intro f
    cases f with
    | zero => rw [Def.template]
    | succ f =>
      have hb : D.isEllipsis (.cons a d) = true := by
        cases h2 with
        | some he _ => exact (isEllipsis_iff hD).2 ⟨_, _, rfl, he⟩
      have hdep := ellipses_depth hD h2 a
      cases hfv : freeVars vs (dim + (k + 1)) a [] with
      | nil =>
        conv => lhs; unfold Def.template
        simp only [isEscape_false hD h1, hb, hdep.1, hfv, Bool.false_eq_true, if_false, if_true]
      | cons z zs =>
        by_cases hs : ∃ y e, a = .id y ∧ d = .cons e .nil
        · obtain ⟨y, e, rfl, rfl⟩ := hs
          rw [template_short (isEscape_false hD h1) hb hdep.1 hfv, ih]
        · rw [template_more (isEscape_false hD h1) hb hdep.1 hdep.2 hfv hs, ih]
          rfl
  | @tail dim a d k r h1 h2 hrn _ ih =>
    intro f
    cases f with
    | zero => rw [Def.template]
    | succ f =>
      have hb : D.isEllipsis (.cons a d) = true := by
        cases h2 with
        | some he _ => exact (isEllipsis_iff hD).2 ⟨_, _, rfl, he⟩
      have hdep := ellipses_depth hD h2 a
      cases hfv : freeVars vs (dim + (k + 1)) a [] with
      | nil =>
        conv => lhs; unfold Def.template
        simp only [isEscape_false hD h1, hb, hdep.1, hfv, Bool.false_eq_true, if_false, if_true]
      | cons z zs =>
        by_cases hs : ∃ y e, a = .id y ∧ d = .cons e .nil
        · obtain ⟨y, e, rfl, rfl⟩ := hs
          exfalso
          cases h2 with
          | some _ h2 =>
            cases h2 with
            | none _ => exact hrn rfl
        · rw [template_more (isEscape_false hD h1) hb hdep.1 hdep.2 hfv hs, ih]
          cases D.template vs f a _ with
          | none => rfl
          | some _ => simp [hrn]

theorem rule_none (hD : DefOk D) {k p t : Form} (hp : PatternOk D p) (hl : (vars D p).Nodup)
    (h : TooFew D p 0 t) (c : Nat) : D.expandPattern (.cons k p) t c = none := by
  obtain ⟨c₁, nv, wrap, _, hnv, hlp, _⟩ :=
    lp_compiles hD (4 * p.size) p (need_le _ p (Nat.le_refl _)) hp hl (.prim1 .cdr (.var .expr)) 0 c
  rw [Def.expandPattern, hlp, List.append_nil, Def.expandTemplate, template_none hD (hnv.ok hl) h]
  rfl

theorem compile_none : ∀ (rules : List (Form × Form)) (c : Nat) (r : Form × Form), r ∈ rules →
    (∀ c, D.expandPattern r.1 r.2 c = none) → D.compile rules c = none := by
  intro rules
  induction rules with
  | nil => intro c r hr; simp at hr
  | cons q rules ih =>
    intro c r hr h
    obtain ⟨pat, t⟩ := q
    rw [Def.compile]
    rcases List.mem_cons.1 hr with rfl | hr
    · rw [h c]
    · cases D.expandPattern pat t c with
      | none => rfl
      | some e => simp [ih e.2 r hr h]

/-! ### The identifiers of an expansion -/

/-- The identifiers of what a variable matches. -/
def treeIds (t : Tree) : List Nat := (leaves t).flatMap ids

theorem mem_treeIds_many {ts : List Tree} {y : Nat} : y ∈ treeIds (.many ts) ↔ ∃ t ∈ ts, y ∈ treeIds t := by
  simp only [treeIds, leaves, List.mem_flatMap, List.mem_flatten, List.mem_map]
  constructor
  · rintro ⟨f, ⟨_, ⟨t, ht, rfl⟩, hf⟩, hy⟩
    exact ⟨t, ht, f, hf, hy⟩
  · rintro ⟨t, ht, f, hf, hy⟩
    exact ⟨f, ⟨_, ⟨t, ht, rfl⟩, hf⟩, hy⟩

theorem ids_foldr (fs : List Form) (g : Form) (y : Nat) :
    y ∈ ids (fs.foldr .cons g) ↔ (∃ f ∈ fs, y ∈ ids f) ∨ y ∈ ids g := by
  induction fs with
  | nil => simp
  | cons f fs ih => simp [ids, ih, or_assoc]

mutual

theorem match_ids {p f : Form} {σ : Binds} : Match D U p f σ → ∀ x t y,
    Binds.get σ x = some t → y ∈ treeIds t → y ∈ ids f
  | .lit _ _, x, t, y, h, _ => by simp [Binds.get] at h
  | .under _, x, t, y, h, _ => by simp [Binds.get] at h
  | .var (x := z) hv, x, t, y, h, hy => by
    by_cases e : z = x
    · simp [Binds.get, e] at h
      subst h
      simpa [treeIds, leaves] using hy
    · simp [Binds.get, e] at h
  | .nil, x, t, y, h, _ => by simp [Binds.get] at h
  | .datum _, x, t, y, h, _ => by simp [Binds.get] at h
  | .vec hm, x, t, y, h, hy => match_ids hm x t y h hy
  | .pair _ h1 h2, x, t, y, h, hy => by
    rw [ids, List.mem_append]
    rcases get_append_some h with h | h
    · exact .inl (match_ids h1 x t y h hy)
    · exact .inr (match_ids h2 x t y h hy)
  | .more _ hm hc _ h2, x, t, y, h, hy => by
    rw [ids_foldr]
    rcases get_append_some h with h | h
    · obtain ⟨_, ts, rfl, hts⟩ := (hc x t).1 h
      obtain ⟨u, hu, hy⟩ := mem_treeIds_many.1 hy
      exact .inl (matchAll_ids hm x ts hts u hu y hy)
    · exact .inr (match_ids h2 x t y h hy)

theorem matchAll_ids {p : Form} {fs : List Form} {σs : List Binds} : MatchAll D U p fs σs → ∀ x ts,
    List.Forall₂ (fun σ t => Binds.get σ x = some t) σs ts → ∀ t ∈ ts, ∀ y ∈ treeIds t, ∃ f ∈ fs, y ∈ ids f
  | .nil, x, ts, hts => by cases hts; simp
  | .cons h hs, x, ts, hts => by
    cases hts with
    | cons ht hts =>
      intro t hm y hy
      rcases List.mem_cons.1 hm with rfl | hm
      · exact ⟨_, List.mem_cons_self, match_ids h x _ y ht hy⟩
      · obtain ⟨f, hf, h'⟩ := matchAll_ids hs x _ hts t hm y hy
        exact ⟨f, List.mem_cons_of_mem _ hf, h'⟩

end

/-- The identifier comes from the form, by a variable. -/
def FromForm (σ : Binds) (y : Nat) : Prop := ∃ x t, Binds.get σ x = some t ∧ y ∈ treeIds t

theorem get_slice_any {V : List Nat} {σ : Binds} {i x : Nat} :
    Binds.get (slice V σ i) x = (Binds.get σ x).map fun t => if x ∈ V then t.at i else t := by
  simp only [Binds.get, slice, List.find?_map, Option.map_map]
  cases h : List.find? ((fun b => decide (b.1 = x)) ∘ fun b : Nat × Tree => (b.1, if b.1 ∈ V then b.2.at i else b.2)) σ with
  | none =>
    have : List.find? (fun b : Nat × Tree => decide (b.1 = x)) σ = none := h
    rw [this]
    rfl
  | some b =>
    have h' : List.find? (fun b : Nat × Tree => decide (b.1 = x)) σ = some b := h
    have h1 := List.find?_some h'
    simp at h1
    rw [h']
    simp [h1]

theorem fromForm_slice {V : List Nat} {σ : Binds} {i y : Nat} (h : FromForm (slice V σ i) y) : FromForm σ y := by
  obtain ⟨x, t, ht, hy⟩ := h
  rw [get_slice_any] at ht
  obtain ⟨u, hu, rfl⟩ := Option.map_eq_some_iff.1 ht
  refine ⟨x, u, hu, ?_⟩
  split at hy
  · cases u with
    | one f => exact hy
    | many ts =>
      simp only [Tree.at] at hy
      by_cases hi : i < ts.length
      · exact mem_treeIds_many.2 ⟨_, getD_mem _ hi, hy⟩
      · simp [List.getD, List.getElem?_eq_none (Nat.le_of_not_lt hi), treeIds, leaves, ids] at hy
  · exact hy

mutual

theorem inst_ids {ell : Nat → Prop} {σ : Binds} {t f : Form} : Inst U ell σ t f → ∀ y ∈ ids f,
    FromForm σ y ∨ ∃ x ∈ ids t, y = U.rename x
  | .var (x := x) h, y, hy => .inl ⟨x, _, h, by simpa [treeIds, leaves] using hy⟩
  | .insert (x := x) _, y, hy => by simp [ids] at hy; exact .inr ⟨x, by simp [ids], hy⟩
  | .nil, y, hy => by simp [ids] at hy
  | .datum (t := t) hd, y, hy => by cases t <;> first | exact absurd hd id | simp [ids] at hy
  | .vec h, y, hy => inst_ids h y hy
  | .escape _ h, y, hy => by
    rcases inst_ids h y hy with h | ⟨x, hx, e⟩
    · exact .inl h
    · exact .inr ⟨x, by simp [ids, hx], e⟩
  | .pair _ _ h1 h2, y, hy => by
    rw [ids] at hy
    rcases List.mem_append.1 hy with hy | hy
    · rcases inst_ids h1 y hy with h | ⟨x, hx, e⟩
      · exact .inl h
      · exact .inr ⟨x, by simp [ids, hx], e⟩
    · rcases inst_ids h2 y hy with h | ⟨x, hx, e⟩
      · exact .inl h
      · exact .inr ⟨x, by simp [ids, hx], e⟩
  | .more _ he h1 h2, y, hy => by
    rcases (ids_foldr _ _ _).1 hy with ⟨f, hf, hy⟩ | hy
    · rcases expands_ids h1 f hf y hy with h | ⟨x, hx, e⟩
      · exact .inl h
      · exact .inr ⟨x, by simp [ids, hx], e⟩
    · rcases inst_ids h2 y hy with h | ⟨x, hx, e⟩
      · exact .inl h
      · exact .inr ⟨x, by rw [ids]; exact List.mem_append_right _ (ellipses_ids he x hx), e⟩

theorem expands_ids {ell : Nat → Prop} {k : Nat} {σ : Binds} {t : Form} {fs : List Form} :
    Expands U ell k σ t fs → ∀ f ∈ fs, ∀ y ∈ ids f, FromForm σ y ∨ ∃ x ∈ ids t, y = U.rename x
  | .here h, f, hf, y, hy => by
    rw [List.mem_singleton.1 hf] at hy
    exact inst_ids h y hy
  | .step _ h, f, hf, y, hy => by
    obtain ⟨fs, hfs, hf⟩ := List.mem_flatten.1 hf
    rcases expandsAll_ids h fs hfs f hf y hy with ⟨σ', hσ, h'⟩ | h'
    · obtain ⟨i, _, rfl⟩ := List.mem_map.1 hσ
      exact .inl (fromForm_slice h')
    · exact .inr h'

theorem expandsAll_ids {ell : Nat → Prop} {k : Nat} {σs : List Binds} {t : Form} {fss : List (List Form)} :
    ExpandsAll U ell k σs t fss → ∀ fs ∈ fss, ∀ f ∈ fs, ∀ y ∈ ids f,
      (∃ σ ∈ σs, FromForm σ y) ∨ ∃ x ∈ ids t, y = U.rename x
  | .nil, fs, hfs, _, _, _, _ => by simp at hfs
  | .cons h hs, fs, hfs, f, hf, y, hy => by
    rcases List.mem_cons.1 hfs with e | hfs
    · rw [e] at hf
      exact (expands_ids h f hf y hy).imp (fun h => ⟨_, List.mem_cons_self, h⟩) id
    · exact (expandsAll_ids hs fs hfs f hf y hy).imp
        (fun ⟨σ, hσ, h⟩ => ⟨σ, List.mem_cons_of_mem _ hσ, h⟩) id

end

end Meevax.Rules
