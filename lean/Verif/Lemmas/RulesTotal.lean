import Verif.Lemmas.RulesUse

/-!
The transformer ends on every use, also where variables that are repeated together have a different number of
repetitions.
-/

namespace Meevax.Rules

open Spec

variable {D : Def} {U : Use}

theorem rows_total {α : Type} (a : α) (as : List α) : ∀ (m : Nat) (g : α → List Form), (g a).length = m →
    ∃ n, (∀ b ∈ a :: as, n ≤ (g b).length) ∧ rows (.ofList (g a)) (as.map fun b => .ofList (g b)) =
      some ((List.range n).map fun i => (a :: as).map fun b => (g b).getD i .nil) := by
  intro m
  induction m with
  | zero =>
    intro g h
    rw [List.length_eq_zero_iff.1 h]
    exact ⟨0, by simp, rfl⟩
  | succ m ih =>
    intro g h
    obtain ⟨y, ys, hy⟩ : ∃ y ys, g a = y :: ys := by
      cases hg : g a with
      | nil => rw [hg] at h; simp at h
      | cons y ys => exact ⟨y, ys, rfl⟩
    by_cases hnil : ∃ b ∈ as, g b = []
    · refine ⟨0, by simp, ?_⟩
      obtain ⟨b, hb, hg⟩ := hnil
      have hany : (as.map fun b => Form.ofList (g b)).any (· = .nil) = true := by
        rw [List.any_eq_true]
        exact ⟨_, List.mem_map.2 ⟨b, hb, rfl⟩, by rw [hg]; rfl⟩
      rw [hy, Form.ofList, rows, hany]
      rfl
    · have hc : ∀ b ∈ a :: as, g b = (g b).getD 0 .nil :: (g b).tail := by
        intro b hb
        cases hg : g b with
        | nil =>
          rcases List.mem_cons.1 hb with rfl | hb
          · rw [hg] at hy; cases hy
          · exact absurd ⟨b, hb, hg⟩ hnil
        | cons x xs => simp
      have hany : (as.map fun b => Form.ofList (g b)).any (· = .nil) = false := by
        rw [List.any_eq_false]
        intro x hx
        obtain ⟨b, hb, rfl⟩ := List.mem_map.1 hx
        rw [hc b (by simp [hb]), Form.ofList]
        simp
      obtain ⟨n, hn, hrows⟩ := ih (fun b => (g b).tail) (by rw [List.length_tail, h]; rfl)
      refine ⟨n + 1, ?_, ?_⟩
      · intro b hb
        have := hn b hb
        rw [hc b hb, List.length_cons]
        omega
      · rw [hc a (by simp), Form.ofList, rows, hany, if_neg (by simp)]
        rw [mapM_map_some _ _ (fun b => (g b).getD 0 .nil) as (by
          intro b hb; rw [hc b (by simp [hb])]; rfl)]
        rw [mapM_map_some _ _ (fun b => Form.ofList (g b).tail) as (by
          intro b hb; rw [hc b (by simp [hb])]; rfl)]
        simp only [Option.bind_eq_bind, Option.bind_some]
        rw [hrows]
        simp only [Option.bind_some, List.range_succ_eq_map, List.map_cons, List.map_map]
        congr 2
        apply List.map_congr_left
        intro i _
        simp [List.getD]

theorem forall₂_exists {α β : Type} {R : α → β → Prop} : ∀ (l : List α), (∀ a ∈ l, ∃ b, R a b) →
    ∃ l', List.Forall₂ R l l' := by
  intro l
  induction l with
  | nil => intro _; exact ⟨[], .nil⟩
  | cons a l ih =>
    intro h
    obtain ⟨b, hb⟩ := h a (by simp)
    obtain ⟨l', hl⟩ := ih fun x hx => h x (by simp [hx])
    exact ⟨b :: l', .cons hb hl⟩

/-- The text for a template has a value. -/
def Ends (D : Def) (vs : Vars) (f : Nat) (t : Form) (dim : Nat) : Prop :=
  ∃ e, D.template vs f t dim = some e ∧
    ∀ U σ ρ, Agree vs dim t σ ρ → ∃ out, Ev U ρ e out ∧ (Proper t → ∃ xs, out = .ofList xs)

theorem map_ends {vs : Vars} {dim : Nat} {a : Form} {once : Exp} {x : Nat} {xs : List Nat}
    (hfv : freeVars vs (dim + 1) a [] = x :: xs)
    (honce : ∀ U σ ρ, Agree vs (dim + 1) a σ ρ → ∃ out, Ev U ρ once out)
    {σ : Binds} {ρ : Env} (hag : Agree vs dim a σ ρ) : ∃ fs,
    Ev U ρ (.map ((x :: xs).map .pat) once ((x :: xs).map fun x => .var (.pat x))) (.ofList fs) := by
  have hfree : ∀ y ∈ x :: xs, y ∈ ids a ∧ ∃ d, Vars.depth vs y = some d ∧ dim + 1 ≤ d := by
    intro y hy
    rw [← hfv, mem_freeVars] at hy
    exact hy.resolve_left (by simp)
  have hmany : ∀ y ∈ x :: xs, ∃ ts, Binds.get σ y = some (.many ts) ∧
      Env.get ρ (.pat y) = some (.form (.ofList (ts.map Tree.form))) := by
    intro y hy
    obtain ⟨hy, d, hd, hle⟩ := hfree y hy
    obtain ⟨u, hu, hdeep, hρ⟩ := (hag y hy).2 d hd
    obtain ⟨k, hk⟩ : ∃ k, d - dim = k + 1 := ⟨d - dim - 1, by omega⟩
    rw [hk] at hdeep
    obtain ⟨ts, rfl, _⟩ := hdeep.succ
    rw [form_many] at hρ
    exact ⟨ts, hu, hρ⟩
  let g : Nat → List Form := fun y => ((Binds.get σ y).map fun u => (kids u).map Tree.form).getD []
  have hg : ∀ y ts, Binds.get σ y = some (.many ts) → g y = ts.map Tree.form := by
    intro y ts h; simp [g, h, kids]
  have hargs : Evs U ρ ((x :: xs).map fun x => .var (.pat x)) ((x :: xs).map fun y => .ofList (g y)) := by
    refine evs_map _ _ _ ?_
    intro y hy
    obtain ⟨ts, h1, h2⟩ := hmany y hy
    rw [hg y ts h1]
    exact Ev.varForm h2
  obtain ⟨n, hn, hrows⟩ := rows_total x xs _ g rfl
  obtain ⟨fs, hfs⟩ : ∃ fs, List.Forall₂ (fun r x' => Ev U (ρ.bind ((x :: xs).map .pat) r) once x')
      ((List.range n).map fun i => (x :: xs).map fun b => (g b).getD i .nil) fs := by
    refine forall₂_exists _ ?_
    intro r hr
    obtain ⟨i, hi, rfl⟩ := List.mem_map.1 hr
    rw [List.mem_range] at hi
    refine honce U (slice (ids a) σ i) _ ?_
    intro y hy
    constructor
    · intro hn
      rw [get_slice hy, (hag y hy).1 hn]
      rfl
    · intro d hd
      obtain ⟨u, hu, hdeep, hρ⟩ := (hag y hy).2 d hd
      refine ⟨u.at i, by rw [get_slice hy, hu]; rfl, ?_⟩
      by_cases hle : dim + 1 ≤ d
      · have hmem : y ∈ x :: xs := by
          rw [← hfv, mem_freeVars]
          exact .inr ⟨hy, d, hd, hle⟩
        obtain ⟨ts, h1, _⟩ := hmany y hmem
        have hlen := hn y hmem
        rw [hg y ts h1, List.length_map] at hlen
        rw [hu] at h1
        cases h1
        rw [show d - dim = d - (dim + 1) + 1 by omega] at hdeep
        have hi' : i < ts.length := by omega
        refine ⟨hdeep _ (getD_mem _ hi'), ?_⟩
        have := get_bind_local ρ Var.pat (fun b => (g b).getD i .nil) (x :: xs) y hmem
          (by intro b _ hb; cases hb; rfl)
        rw [this, hg y ts hu]
        simp [Tree.at, List.getD, List.getElem?_eq_getElem hi']
      · rw [show d - dim = 0 by omega] at hdeep
        obtain ⟨f, rfl⟩ := hdeep.zero
        rw [show d - (dim + 1) = 0 by omega]
        refine ⟨trivial, ?_⟩
        rw [get_bind_notin]
        · exact hρ
        · intro hm
          obtain ⟨z, hz, e⟩ := List.mem_map.1 hm
          cases e
          obtain ⟨_, d', hd', hle'⟩ := hfree y hz
          rw [hd] at hd'
          cases hd'
          exact hle hle'
  exact ⟨fs, Ev.map hargs hrows hfs⟩

theorem template_ends (hD : DefOk D) {p : Form} {vs : Vars} (hvs : VarsOk D p vs) {dim : Nat} {t : Form}
    (ht : TemplateOk D p dim t) : ∀ f, t.size ≤ f → Ends D vs f t dim := by
  induction ht with
  | @var dim x k hv hle =>
    intro f hf
    obtain ⟨f, rfl⟩ : ∃ g, f = g + 1 := ⟨f - 1, by simp [Form.size] at hf; omega⟩
    have hd := hvs.var x k hv
    refine ⟨.var (.pat x), by rw [Def.template]; simp [hd, hle], ?_⟩
    intro U σ ρ hag
    obtain ⟨u, hu, hdeep, hρ⟩ := (hag x (by simp [ids])).2 k hd
    exact ⟨_, Ev.varForm hρ, fun h => absurd h id⟩
  | @insert dim x hx =>
    intro f hf
    obtain ⟨f, rfl⟩ : ∃ g, f = g + 1 := ⟨f - 1, by simp [Form.size] at hf; omega⟩
    have hd := hvs.other x hx
    refine ⟨.rename x, by rw [Def.template]; simp [hd], ?_⟩
    intro U σ ρ hag
    exact ⟨_, Ev.rename x, fun h => absurd h id⟩
  | nil =>
    intro f hf
    obtain ⟨f, rfl⟩ : ∃ g, f = g + 1 := ⟨f - 1, by simp [Form.size] at hf; omega⟩
    refine ⟨.const .nil, by simp [Def.template], ?_⟩
    intro U σ ρ hag
    exact ⟨_, Ev.const _, fun _ => ⟨[], rfl⟩⟩
  | @datum dim t hd =>
    intro f hf
    obtain ⟨f, rfl⟩ : ∃ g, f = g + 1 := ⟨f - 1, by have := size_pos t; omega⟩
    refine ⟨.const t, by cases t <;> first | exact absurd hd id | simp [Def.template], ?_⟩
    intro U σ ρ hag
    exact ⟨_, Ev.const _, fun h => by cases t <;> first | exact absurd h id | exact absurd hd id⟩
  | @vec dim t hp ht ih =>
    intro f hf
    obtain ⟨f, rfl⟩ : ∃ g, f = g + 1 := ⟨f - 1, by simp [Form.size] at hf; omega⟩
    obtain ⟨e, he, h⟩ := ih f (by simp [Form.size] at hf; omega)
    refine ⟨.prim1 .listToVector e, by rw [Def.template, he]; rfl, ?_⟩
    intro U σ ρ hag
    obtain ⟨out, hev, hl⟩ := h U σ ρ hag
    obtain ⟨xs, rfl⟩ := hl hp
    exact ⟨_, Ev.prim1 hev (by simp [Prim1.apply, toList_ofList]; rfl), fun h => absurd h id⟩
  | @pair dim a d h1 h2 _ _ iha ihd =>
    intro f hf
    simp only [Form.size] at hf
    obtain ⟨f, rfl⟩ : ∃ g, f = g + 1 := ⟨f - 1, by omega⟩
    obtain ⟨ea, hea, ha⟩ := iha f (by omega)
    obtain ⟨ed, hed, hd⟩ := ihd f (by omega)
    refine ⟨.prim2 .cons ea ed, ?_, ?_⟩
    · rw [template_pair (isEscape_false hD h1) ((isEllipsis_false hD).2 h2), hea, hed]
      rfl
    · intro U σ ρ hag
      obtain ⟨oa, hoa, _⟩ := ha U σ ρ (hag.mono (by intro x hx; simp [ids, hx]))
      obtain ⟨od, hod, hl⟩ := hd U σ ρ (hag.mono (by intro x hx; simp [ids, hx]))
      refine ⟨_, Ev.prim2 hoa hod rfl, ?_⟩
      intro hp
      obtain ⟨xs, rfl⟩ := hl hp
      exact ⟨oa :: xs, rfl⟩
  | @more dim a d k r x j h1 h2 hx hv hle hka hta _ iha ihr =>
    intro f hf
    simp only [Form.size] at hf
    obtain ⟨f, rfl⟩ : ∃ g, f = g + 1 := ⟨f - 1, by omega⟩
    obtain ⟨ea, hea, ha⟩ := iha f (by omega)
    obtain ⟨er, her, hr⟩ := ihr f (by have := ellipses_size h2; omega)
    have hb : D.isEllipsis (.cons a d) = true := by
      cases h2 with
      | some he _ => exact (isEllipsis_iff hD).2 ⟨_, _, rfl, he⟩
    have hdj := hvs.var x j hv
    have hmem : x ∈ freeVars vs (dim + (k + 1)) a [] := by
      rw [mem_freeVars]
      exact .inr ⟨hx, j, hdj, hle⟩
    have hid : ∀ y, a = .id y → x = y ∧ j = dim + (k + 1) ∧ ea = .var (.pat x) := by
      intro y hy
      subst hy
      simp [ids] at hx
      subst hx
      have hj : j ≤ dim + (k + 1) := by
        generalize hq : Form.id x = q at hta
        cases hta with
        | var hv' h' => cases hq; rw [hvs.var _ _ hv'] at hdj; cases hdj; exact h'
        | insert h' => cases hq; rw [hvs.other _ h'] at hdj; cases hdj
        | datum h' => subst hq; exact absurd h' id
        | nil => cases hq
        | vec _ _ => cases hq
        | pair _ _ _ _ => cases hq
        | more _ _ _ _ _ _ _ _ => cases hq
      refine ⟨rfl, by omega, ?_⟩
      obtain ⟨f, rfl⟩ : ∃ g, f = g + 1 := ⟨f - 1, by have := size_pos d; simp [Form.size] at hf; omega⟩
      rw [Def.template] at hea
      simp [hdj, hj] at hea
      exact hea.symm
    cases hfv : freeVars vs (dim + (k + 1)) a [] with
    | nil => rw [hfv] at hmem; simp at hmem
    | cons z zs =>
      by_cases hshort : ∃ y e, a = .id y ∧ d = .cons e .nil
      · obtain ⟨y, e, rfl, rfl⟩ := hshort
        obtain ⟨rfl, hj, rfl⟩ := hid y rfl
        refine ⟨.var (.pat x), ?_, ?_⟩
        · rw [template_short (isEscape_false hD h1) hb ((ellipses_depth hD h2 _).1) hfv]
          exact hea
        · intro U σ ρ hag
          obtain ⟨u, hu, hdeep, hρ⟩ := (hag x (by simp [ids])).2 j hdj
          rw [show j - dim = k + 1 by omega] at hdeep
          obtain ⟨ts, rfl, hts⟩ := hdeep.succ
          rw [form_many] at hρ
          exact ⟨_, Ev.varForm hρ, fun _ => ⟨_, rfl⟩⟩
      · have hgen : D.template vs (f + 1) (.cons a d) dim =
            if r = .nil then
              some (applyAppends k (.map ((z :: zs).map .pat) ea ((z :: zs).map fun x => .var (.pat x))))
            else some (.prim2 .append
              (applyAppends k (.map ((z :: zs).map .pat) ea ((z :: zs).map fun x => .var (.pat x)))) er) := by
          rw [template_more (isEscape_false hD h1) hb (ellipses_depth hD h2 _).1 (ellipses_depth hD h2 _).2 hfv hshort,
            hea, her]
          simp only [Option.bind_some, Nat.add_sub_cancel]
        have hmany : ∀ U σ ρ, Agree vs dim a σ ρ → ∃ fs,
            Ev U ρ (applyAppends k (.map ((z :: zs).map .pat) ea ((z :: zs).map fun x => .var (.pat x))))
              (.ofList fs) := by
          intro U σ ρ hag
          rcases hka with rfl | rfl
          · exact map_ends hfv (fun U σ ρ h => (ha U σ ρ h).imp fun _ h => h.1) hag
          · obtain ⟨_, hj, rfl⟩ := hid x rfl
            have hzs : z = x ∧ zs = [] := by
              rw [freeVars] at hfv
              simp [hdj, hle] at hfv
              exact ⟨hfv.1.symm, hfv.2⟩
            obtain ⟨rfl, rfl⟩ := hzs
            obtain ⟨u, hu, hdeep, hρ⟩ := (hag z (by simp [ids])).2 j hdj
            rw [show j - dim = k + 1 by omega] at hdeep
            obtain ⟨ts, rfl, hts⟩ := hdeep.succ
            refine ⟨_, applyAppends_leaves k ts _ hts ?_⟩
            rw [form_many] at hρ ⊢
            have hr := rows_eq z ([] : List Nat) ts.length (fun _ => ts.map Tree.form) (by simp)
            refine Ev.map (.cons (Ev.varForm hρ) .nil) hr ?_
            rw [List.forall₂_map_left_iff]
            have := forall₂_range (fun i => i) (ts.map Tree.form) .nil
              (fun i x => Ev U (Env.bind ρ (List.map Var.pat [z])
                (List.map (fun _ => (ts.map Tree.form).getD i .nil) [z])) (.var (.pat z)) x)
              (by intro i _; exact Ev.varForm (get_cons_self _ _ _))
            simpa using this
        by_cases hrn : r = .nil
        · refine ⟨_, by rw [hgen, if_pos hrn], ?_⟩
          intro U σ ρ hag
          obtain ⟨fs, hfs⟩ := hmany U σ ρ (hag.mono (by intro x hx; simp [ids, hx]))
          exact ⟨_, hfs, fun _ => ⟨fs, rfl⟩⟩
        · refine ⟨_, by rw [hgen, if_neg hrn], ?_⟩
          intro U σ ρ hag
          obtain ⟨fs, hfs⟩ := hmany U σ ρ (hag.mono (by intro x hx; simp [ids, hx]))
          obtain ⟨g, hg, hl⟩ := hr U σ ρ (hag.mono (by
            intro y hy
            rw [ids]
            exact List.mem_append_right _ (ellipses_ids h2 y hy)))
          refine ⟨fs.foldr .cons g, Ev.prim2 hfs hg (by simp [Prim2.apply, appendForm, toList_ofList]), ?_⟩
          intro hp
          obtain ⟨xs, rfl⟩ := hl (ellipses_proper h2 hp)
          exact ⟨_, foldr_ofList _ _⟩

/-- The text for a rule ends on every form. -/
theorem rule_ends (hD : DefOk D) {pat t : Form} (h : RuleOk D pat t) (c : Nat) :
    ∃ e c', D.expandPattern pat t c = some (e, c') ∧ ∀ U l f, ∃ v,
      Ev U [(.expr, .form (.cons l f))] e v ∧
        ((v = .bool false ∧ ∀ σ, ¬Applies D U pat (.cons l f) σ) ∨
          ∃ out, v = .cons out (.bool false) ∧ ∃ σ, Applies D U pat (.cons l f) σ) := by
  cases h with
  | @mk k p t hp hl ht =>
    obtain ⟨c₁, nv, wrap, _, hnv, hlp, hsem⟩ :=
      lp_compiles hD (4 * p.size) p (need_le _ p (Nat.le_refl _)) hp hl (.prim1 .cdr (.var .expr)) 0 c
    obtain ⟨e, he, hb⟩ := template_ends hD (hnv.ok hl) ht t.size (Nat.le_refl _)
    refine ⟨wrap (.prim2 .cons e (.const (.bool false))), c₁, ?_, ?_⟩
    · rw [Def.expandPattern, hlp, List.append_nil, Def.expandTemplate, he]
      rfl
    · intro U l f
      have hg : Good [(.expr, .form (.cons l f))] := by intro x ps b ρ₀; simp [Env.get]
      have hs := hsem U (.prim2 .cons e (.const (.bool false))) [(.expr, .form (.cons l f))] f hg
        (Ev.prim1 (Ev.varForm (get_cons_self _ _ _)) rfl)
      by_cases hm : ∃ σ, Match D U p f σ
      · obtain ⟨σ, hm⟩ := hm
        obtain ⟨ρ', hext, hr⟩ := hs.1 σ hm
        obtain ⟨out, hout, _⟩ := hb U σ ρ' (agree_of_match hD hl ht hnv hm hext)
        exact ⟨_, hr _ (Ev.prim2 hout (Ev.const _) rfl), .inr ⟨out, rfl, σ, _, _, _, _, rfl, rfl, hm⟩⟩
      · refine ⟨_, hs.2 fun σ h => hm ⟨σ, h⟩, .inl ⟨rfl, ?_⟩⟩
        rintro σ ⟨_, _, _, _, e1, e2, h⟩
        cases e1
        cases e2
        exact hm ⟨σ, h⟩

theorem rules_end (hD : DefOk D) (U : Use) (l f : Form) : ∀ (rules : List (Form × Form)) (c : Nat),
    (∀ r ∈ rules, RuleOk D r.1 r.2) →
    ∃ es f₀ o, D.compile rules c = some es ∧
      (∀ g, f₀ ≤ g → runRules U g [(.expr, .form (.cons l f))] es = some o) ∧
      (o = .noExpansion ↔ ∀ r ∈ rules, ∀ σ, ¬Applies D U r.1 (.cons l f) σ) := by
  intro rules
  induction rules with
  | nil => intro c _; exact ⟨[], 0, .noExpansion, rfl, fun _ _ => rfl, by simp⟩
  | cons r rules ih =>
    intro c h
    obtain ⟨pat, t⟩ := r
    obtain ⟨e, c', he, hv⟩ := rule_ends hD (h (pat, t) (by simp)) c
    obtain ⟨es, f₁, o, hes, hrun, ho⟩ := ih c' fun r hr => h r (by simp [hr])
    obtain ⟨v, ⟨f₀, hf⟩, hv⟩ := hv U l f
    rcases hv with ⟨rfl, hno⟩ | ⟨out, rfl, hyes⟩
    · refine ⟨e :: es, max f₀ f₁, o, by rw [Def.compile, he]; simp [hes], ?_, ?_⟩
      · intro g hg
        rw [runRules, eval_mono hf (by omega)]
        exact hrun g (by omega)
      · rw [ho, List.forall_mem_cons]
        exact ⟨fun h => ⟨hno, h⟩, fun h => h.2⟩
    · refine ⟨e :: es, f₀, .expansion out, by rw [Def.compile, he]; simp [hes], ?_, ?_⟩
      · intro g hg
        rw [runRules, eval_mono hf hg]
        rfl
      · constructor
        · intro h; cases h
        · intro h
          obtain ⟨σ, hσ⟩ := hyes
          exact absurd hσ (h (pat, t) (by simp) σ)

end Meevax.Rules
