import Mathlib.Data.List.Forall2
import Verif.Lemmas.RulesCompile

/-!
The text made for a template: it builds the instance of the template.
-/

namespace Meevax.Rules

open Spec

variable {D : Def} {U : Use}

/-! ### Depth of what a variable matches -/

/-- The tree has leaves at this depth only. -/
def Deep : Nat → Tree → Prop
  | 0, .one _ => True
  | k + 1, .many ts => ∀ t ∈ ts, Deep k t
  | _, _ => False

theorem Deep.zero {t : Tree} (h : Deep 0 t) : ∃ f, t = .one f := by
  cases t with
  | one f => exact ⟨f, rfl⟩
  | many ts => exact absurd h id

theorem Deep.succ {k : Nat} {t : Tree} (h : Deep (k + 1) t) : ∃ ts, t = .many ts ∧ ∀ u ∈ ts, Deep k u := by
  cases t with
  | one f => exact absurd h id
  | many ts => exact ⟨ts, rfl, h⟩

theorem vars_nodup_pair {a d : Form} (h : (vars D (.cons a d)).Nodup) :
    (vars D a).Nodup ∧ (vars D d).Nodup ∧ ∀ x, x ∈ vars D a → x ∈ vars D d → False := by
  rw [vars, List.nodup_append] at h
  exact ⟨h.1, h.2.1, fun x h1 h2 => h.2.2 x h1 x h2 rfl⟩

theorem get_append_right {σ τ : Binds} {x : Nat} (h : Binds.get σ x = none) :
    Binds.get (σ ++ τ) x = Binds.get τ x := by rw [get_append, h]

theorem get_append_left {σ τ : Binds} {x : Nat} (h : (Binds.get σ x).isSome) :
    Binds.get (σ ++ τ) x = Binds.get σ x := by
  rw [get_append]
  obtain ⟨t, ht⟩ := Option.isSome_iff_exists.1 h
  rw [ht]

mutual

/-- What a variable matches is as deep as the variable is in the pattern. -/
theorem match_deep {p f : Form} {σ : Binds} : Match D U p f σ → (vars D p).Nodup → ∀ x k t,
    VarAt D p x k → Binds.get σ x = some t → Deep k t
  | .lit _ _, _, x, k, t, _, h => by simp [Binds.get] at h
  | .under _, _, x, k, t, _, h => by simp [Binds.get] at h
  | .var (x := y) (f := f) hv, _, x, k, t, h', h => by
    by_cases e : y = x
    · simp [Binds.get, e] at h
      subst h
      cases h' with
      | id _ => trivial
    · simp [Binds.get, e] at h
  | .nil, _, x, k, t, _, h => by simp [Binds.get] at h
  | .datum _, _, x, k, t, _, h => by simp [Binds.get] at h
  | .vec hm, hl, x, k, t, hv, h => by
    cases hv with
    | vec hv => exact match_deep hm (by simpa [vars] using hl) x k t hv h
  | .pair (q := q) hn h1 h2, hl, x, k, t, hv, h => by
    obtain ⟨ha, hd, had⟩ := vars_nodup_pair hl
    generalize hq : Form.cons _ _ = r at hv
    cases hv with
    | id _ => cases hq
    | car _ h' =>
      cases hq
      rw [get_append_left ((match_domain h1 x).2 ⟨_, h'⟩)] at h
      exact match_deep h1 ha x k t h' h
    | cdr _ h' =>
      cases hq
      refine match_deep h2 hd x k t h' ?_
      rwa [get_append_right] at h
      rw [← Option.not_isSome_iff_eq_none, match_domain h1 x]
      rintro ⟨j, hj⟩
      exact had x hj.mem_vars h'.mem_vars
    | more he _ => cases hq; exact absurd he hn
    | tail he _ => cases hq; exact absurd he hn
    | vec _ => cases hq
  | .more (e := e) he hm hc _ h2, hl, x, k, t, hv, h => by
    obtain ⟨ha, hd, had⟩ := vars_nodup_pair hl
    obtain ⟨_, hd, _⟩ := vars_nodup_pair hd
    generalize hq : Form.cons _ _ = r at hv
    cases hv with
    | id _ => cases hq
    | car hn h' => cases hq; exact absurd he hn
    | cdr hn h' => cases hq; exact absurd he hn
    | more _ h' =>
      cases hq
      obtain ⟨ts, hts⟩ := matchAll_domain hm x ⟨_, h'⟩
      have hg := (hc x _).2 ⟨⟨_, h'⟩, ts, rfl, hts⟩
      rw [get_append_left (by rw [hg]; rfl), hg] at h
      cases h
      exact matchAll_deep hm ha x _ ts h' hts
    | tail _ h' =>
      cases hq
      refine match_deep h2 hd x k t h' ?_
      rwa [get_append_right] at h
      rw [← Option.not_isSome_iff_eq_none]
      intro hs
      obtain ⟨u, hu⟩ := Option.isSome_iff_exists.1 hs
      obtain ⟨⟨j, hj⟩, _⟩ := (hc x u).1 hu
      exact had x hj.mem_vars (by rw [vars]; exact List.mem_append_right _ h'.mem_vars)
    | vec _ => cases hq

theorem matchAll_deep {p : Form} {fs : List Form} {σs : List Binds} : MatchAll D U p fs σs →
    (vars D p).Nodup → ∀ x k ts, VarAt D p x k → List.Forall₂ (fun σ t => Binds.get σ x = some t) σs ts →
    ∀ t ∈ ts, Deep k t
  | .nil, _, _, _, _, _, hts => by cases hts; simp
  | .cons h hs, hl, x, k, ts, hv, hts => by
    cases hts with
    | cons ht hts =>
      intro t hm
      rcases List.mem_cons.1 hm with rfl | hm
      · exact match_deep h hl x k _ hv ht
      · exact matchAll_deep hs hl x k _ hv hts t hm

end

/-! ### The variables of the pattern -/

/-- The list of variables is that of the pattern. -/
structure VarsOk (D : Def) (p : Form) (vs : Vars) : Prop where
  var : ∀ x k, VarAt D p x k → Vars.depth vs x = some k
  other : ∀ x, (x ∈ ids p → IsLit D x) → Vars.depth vs x = none

theorem NewVars.ok {p : Form} {vs : Vars} (h : NewVars D p 0 vs) (hl : (vars D p).Nodup) : VarsOk D p vs := by
  constructor
  · intro x k hv
    have hm := h.all x k hv
    cases hf : vs.find? (fun v => v.1 = x) with
    | none => have := List.find?_eq_none.1 hf _ hm; simp at this
    | some v =>
      have h1 := List.find?_some hf
      have h2 := List.mem_of_find?_eq_some hf
      obtain ⟨y, d⟩ := v
      simp at h1
      subst h1
      obtain ⟨j, hj, e⟩ := h.depth y d h2 hv.isVar.2.1
      have := hv.unique hl hj
      simp [Vars.depth, hf]
      omega
  · intro x hx
    cases hf : vs.find? (fun v => v.1 = x) with
    | none => simp [Vars.depth, hf]
    | some v =>
      exfalso
      have h1 := List.find?_some hf
      have h2 := List.mem_of_find?_eq_some hf
      obtain ⟨y, d⟩ := v
      simp at h1
      subst h1
      have hlit := hx (h.ids y d h2)
      obtain ⟨j, hj, e⟩ := h.depth y d h2 (fun h => h.2 hlit)
      exact hj.isVar.1 hlit

/-! ### Parts of templates -/

theorem mem_freeVars {vs : Vars} {dim : Nat} : ∀ (t : Form) (free : List Nat) (x : Nat),
    x ∈ freeVars vs dim t free ↔ x ∈ free ∨ x ∈ ids t ∧ ∃ d, Vars.depth vs x = some d ∧ dim ≤ d := by
  intro t
  induction t with
  | id y =>
    intro free x
    rw [freeVars]
    by_cases hy : y ∈ free
    · rw [if_pos hy]
      constructor
      · exact .inl
      · rintro (h | ⟨h, _⟩)
        · exact h
        · simp [ids] at h; subst h; exact hy
    · rw [if_neg hy]
      cases hd : Vars.depth vs y with
      | none =>
        constructor
        · exact .inl
        · rintro (h | ⟨h, d, h2, _⟩)
          · exact h
          · simp [ids] at h; subst h; rw [hd] at h2; cases h2
      | some d =>
        by_cases hle : dim ≤ d
        · simp only [hle, if_true, List.mem_cons, ids, List.not_mem_nil, or_false]
          constructor
          · rintro (rfl | h)
            · exact .inr ⟨rfl, d, hd, hle⟩
            · exact .inl h
          · rintro (h | ⟨h, _⟩)
            · exact .inr h
            · exact .inl h
        · simp only [hle, if_false]
          constructor
          · exact .inl
          · rintro (h | ⟨h, d', h2, h3⟩)
            · exact h
            · simp [ids] at h; subst h; rw [hd] at h2; cases h2; exact absurd h3 hle
  | cons a d iha ihd =>
    intro free x
    rw [freeVars, iha, ihd, ids, List.mem_append, or_assoc, or_and_right]
    exact or_congr Iff.rfl or_comm
  | vec xs ih => intro free x; rw [freeVars, ih, ids]
  | _ => intro free x; simp [freeVars, ids]

theorem ellipses_depth (hD : DefOk D) {d r : Form} {k : Nat} (h : Ellipses (IsEllipsis D) d k r) :
    ∀ a, D.ellipsisDepth (.cons a d) = k ∧ D.ellipsisTail (.cons a d) = r := by
  induction h with
  | none hn =>
    intro a
    have := (isEllipsis_false hD (a := a)).2 hn
    simp [Def.ellipsisDepth, Def.ellipsisTail, this]
  | some he _ ih =>
    intro a
    rename_i e d k r _
    have := (isEllipsis_iff hD (a := a) (d := .cons (.id e) d)).2 ⟨_, _, rfl, he⟩
    rw [Def.ellipsisDepth, Def.ellipsisTail, if_pos this, if_pos this, (ih _).1, (ih _).2]
    exact ⟨rfl, rfl⟩

theorem ellipses_size {ell : Nat → Prop} {d r : Form} {k : Nat} (h : Ellipses ell d k r) : r.size ≤ d.size := by
  induction h with
  | none _ => exact Nat.le_refl _
  | some _ _ ih => simp only [Form.size]; omega

theorem ellipses_unique {ell : Nat → Prop} {d r s : Form} {k j : Nat} (h : Ellipses ell d k r)
    (h' : Ellipses ell d j s) : k = j ∧ r = s := by
  induction h generalizing j with
  | none hn =>
    cases h' with
    | none _ => exact ⟨rfl, rfl⟩
    | some he _ => exact absurd he hn
  | some he _ ih =>
    cases h' with
    | none hn => exact absurd he hn
    | some _ h' => obtain ⟨rfl, rfl⟩ := ih h'; exact ⟨rfl, rfl⟩

theorem get_slice {V : List Nat} {σ : Binds} {i x : Nat} (hx : x ∈ V) :
    Binds.get (slice V σ i) x = (Binds.get σ x).map (Tree.at i) := by
  simp only [Binds.get, slice, List.find?_map, Option.map_map]
  cases h : List.find? ((fun b => decide (b.1 = x)) ∘ fun b : Nat × Tree => (b.1, if b.1 ∈ V then b.2.at i else b.2)) σ with
  | none =>
    have : List.find? (fun b : Nat × Tree => decide (b.1 = x)) σ = none := h
    rw [this]
    rfl
  | some b =>
    have h' : List.find? (fun b : Nat × Tree => decide (b.1 = x)) σ = some b := h
    have h1 := List.find?_some h'
    simp at h1
    rw [h']
    simp [h1, hx]

/-! ### `map` and `append` -/

theorem mapM_map_some {α β γ : Type} (g : β → Option γ) (f : α → β) (h : α → γ) : ∀ l : List α,
    (∀ a ∈ l, g (f a) = some (h a)) → (l.map f).mapM g = some (l.map h) := by
  intro l
  induction l with
  | nil => intro _; rfl
  | cons a l ih =>
    intro H
    rw [List.map_cons, List.mapM_cons, H a (by simp), ih fun b hb => H b (by simp [hb])]
    rfl

theorem rows_eq {α : Type} (a : α) (as : List α) : ∀ (n : Nat) (g : α → List Form),
    (∀ b ∈ a :: as, (g b).length = n) →
    rows (.ofList (g a)) (as.map fun b => .ofList (g b)) =
      some ((List.range n).map fun i => (a :: as).map fun b => (g b).getD i .nil) := by
  intro n
  induction n with
  | zero =>
    intro g h
    rw [List.length_eq_zero_iff.1 (h a (by simp))]
    rfl
  | succ n ih =>
    intro g h
    have hc : ∀ b ∈ a :: as, g b = (g b).getD 0 .nil :: (g b).tail := by
      intro b hb
      have := h b hb
      cases hg : g b with
      | nil => rw [hg] at this; simp at this
      | cons x xs => simp
    have ht : ∀ b ∈ a :: as, (g b).tail.length = n := by
      intro b hb; rw [List.length_tail, h b hb]; rfl
    rw [hc a (by simp), Form.ofList, rows]
    have hany : (as.map fun b => Form.ofList (g b)).any (· = .nil) = false := by
      rw [List.any_eq_false]
      intro x hx
      obtain ⟨b, hb, rfl⟩ := List.mem_map.1 hx
      rw [hc b (by simp [hb]), Form.ofList]
      simp
    rw [hany, if_neg (by simp)]
    rw [mapM_map_some _ _ (fun b => (g b).getD 0 .nil) as (by
      intro b hb; rw [hc b (by simp [hb])]; rfl)]
    rw [mapM_map_some _ _ (fun b => Form.ofList (g b).tail) as (by
      intro b hb; rw [hc b (by simp [hb])]; rfl)]
    have := ih (fun b => (g b).tail) ht
    simp only [Option.bind_eq_bind, Option.bind_some]
    rw [this]
    simp only [Option.bind_some, List.range_succ_eq_map, List.map_cons, List.map_map]
    congr 2
    apply List.map_congr_left
    intro i _
    simp [List.getD]

theorem foldr_ofList (xs ys : List Form) : xs.foldr .cons (Form.ofList ys) = Form.ofList (xs ++ ys) := by
  induction xs with
  | nil => rfl
  | cons a xs ih => simp [Form.ofList, ih]

theorem foldlM_append : ∀ (lss : List (List Form)) (acc : List Form),
    (lss.map Form.ofList).foldlM appendForm (Form.ofList acc) = some (Form.ofList (acc ++ lss.flatten)) := by
  intro lss
  induction lss with
  | nil => intro acc; simp
  | cons l lss ih =>
    intro acc
    rw [List.map_cons, List.foldlM_cons]
    have : appendForm (.ofList acc) (.ofList l) = some (.ofList (acc ++ l)) := by
      rw [appendForm, toList_ofList, Option.map_some, foldr_ofList]
    rw [this]
    simp only [Option.bind_eq_bind, Option.bind_some]
    rw [ih, List.flatten_cons, List.append_assoc]

theorem appendAll_eq (lss : List (List Form)) :
    appendAll (.ofList (lss.map Form.ofList)) = some (.ofList lss.flatten) := by
  rw [appendAll, toList_ofList, Option.bind_some]
  have := foldlM_append lss []
  rw [Form.ofList] at this
  simpa using this

/-- The leaves of a tree. -/
def leaves : Tree → List Form
  | .one f => [f]
  | .many ts => (ts.map leaves).flatten

/-- The immediate subtrees. -/
def kids : Tree → List Tree
  | .one _ => []
  | .many ts => ts

theorem leaves_zero : ∀ {ts : List Tree}, (∀ t ∈ ts, Deep 0 t) → leaves (.many ts) = ts.map Tree.form := by
  intro ts
  induction ts with
  | nil => intro _; rw [leaves]; rfl
  | cons t ts ih =>
    intro h
    obtain ⟨f, rfl⟩ := Deep.zero (h t (by simp))
    have := ih fun u hu => h u (by simp [hu])
    rw [leaves] at this ⊢
    rw [List.map_cons, List.flatten_cons, this, List.map_cons, leaves, Tree.form]
    rfl

theorem leaves_kids : ∀ {k : Nat} {ts : List Tree}, (∀ t ∈ ts, Deep (k + 1) t) →
    leaves (.many ts) = leaves (.many (ts.map kids).flatten) := by
  intro k ts
  induction ts with
  | nil => intro _; rfl
  | cons t ts ih =>
    intro h
    obtain ⟨us, rfl, _⟩ := Deep.succ (h t (by simp))
    have := ih fun u hu => h u (by simp [hu])
    rw [leaves] at this ⊢
    rw [leaves] at this ⊢
    rw [List.map_cons, List.flatten_cons, this, List.map_cons, List.flatten_cons, List.map_append,
      List.flatten_append, leaves]
    rfl

theorem applyAppends_leaves {ρ : Env} : ∀ (k : Nat) (ts : List Tree) (e : Exp), (∀ t ∈ ts, Deep k t) →
    Ev U ρ e (Tree.form (.many ts)) → Ev U ρ (applyAppends k e) (.ofList (leaves (.many ts))) := by
  intro k
  induction k with
  | zero =>
    intro ts e h he
    rw [leaves_zero h]
    rw [Tree.form] at he
    exact he
  | succ k ih =>
    intro ts e h he
    rw [leaves_kids h, applyAppends]
    refine ih _ _ ?_ ?_
    · intro t ht
      obtain ⟨us, hus, ht⟩ := List.mem_flatten.1 ht
      obtain ⟨u, hu, rfl⟩ := List.mem_map.1 hus
      obtain ⟨vs, rfl, hvs⟩ := Deep.succ (h u hu)
      exact hvs t ht
    · refine Ev.applyAppend he ?_
      have : ts.map Tree.form = (ts.map fun t => (kids t).map Tree.form).map Form.ofList := by
        rw [List.map_map]
        apply List.map_congr_left
        intro t ht
        obtain ⟨vs, rfl, _⟩ := Deep.succ (h t ht)
        rw [Tree.form]
        rfl
      rw [Tree.form, this, appendAll_eq, Tree.form, List.map_flatten, List.map_map]
      rfl

/-! ### Instances of variables -/

theorem expandsAll_zero {ell : Nat → Prop} {t : Form} : ∀ (σs : List Binds) (fss : List (List Form)),
    ExpandsAll U ell 0 σs t fss → List.Forall₂ (fun σ f => Inst U ell σ t f) σs fss.flatten := by
  intro σs
  induction σs with
  | nil => intro fss h; cases h; exact .nil
  | cons σ σs ih =>
    intro fss h
    cases h with
    | cons h hs =>
      cases h with
      | here h => exact .cons h (ih _ hs)

theorem inst_var_inv {ell : Nat → Prop} {σ : Binds} {x : Nat} {f g : Form} (hx : Binds.get σ x = some (.one f))
    (h : Inst U ell σ (.id x) g) : g = f := by
  cases h with
  | var h => rw [hx] at h; cases h; rfl
  | insert h => rw [hx] at h; cases h
  | datum h => exact absurd h id

theorem inst_insert_inv {ell : Nat → Prop} {σ : Binds} {x : Nat} {g : Form} (hx : Binds.get σ x = none)
    (h : Inst U ell σ (.id x) g) : g = .id (U.rename x) := by
  cases h with
  | var h => rw [hx] at h; cases h
  | insert h => rfl
  | datum h => exact absurd h id

theorem expandsAll_id {ell : Nat → Prop} {x k : Nat}
    (H : ∀ σ t fs, Deep k t → Binds.get σ x = some t → Expands U ell k σ (.id x) fs → fs = leaves t) :
    ∀ (σs : List Binds) (ts : List Tree) (fss : List (List Form)),
    List.Forall₂ (fun σ t => Binds.get σ x = some t ∧ Deep k t) σs ts → ExpandsAll U ell k σs (.id x) fss →
    fss = ts.map leaves := by
  intro σs ts fss h
  induction h generalizing fss with
  | nil => intro h; cases h; rfl
  | cons h _ ih =>
    intro h'
    cases h' with
    | cons h1 h2 => rw [H _ _ _ h.2 h.1 h1, ih _ h2]; rfl

theorem forall₂_range {α β : Type} (f : Nat → α) (l : List β) (y : β) (R : α → β → Prop)
    (h : ∀ i, i < l.length → R (f i) (l.getD i y)) : List.Forall₂ R ((List.range l.length).map f) l := by
  induction l generalizing f with
  | nil => exact .nil
  | cons b l ih =>
    rw [List.length_cons, List.range_succ_eq_map, List.map_cons, List.map_map]
    refine .cons ?_ (ih _ ?_)
    · have := h 0 (by simp)
      simpa using this
    · intro i hi
      have := h (i + 1) (by simpa using hi)
      simpa using this

theorem getD_mem {α : Type} {l : List α} {i : Nat} (y : α) (h : i < l.length) : l.getD i y ∈ l := by
  simp [List.getD, List.getElem?_eq_getElem h]

theorem expands_id {ell : Nat → Prop} {x : Nat} : ∀ (k : Nat) (σ : Binds) (t : Tree) (fs : List Form),
    Deep k t → Binds.get σ x = some t → Expands U ell k σ (.id x) fs → fs = leaves t := by
  intro k
  induction k with
  | zero =>
    intro σ t fs hd hx h
    obtain ⟨f, rfl⟩ := hd.zero
    cases h with
    | here h => rw [inst_var_inv hx h, leaves]
  | succ k ih =>
    intro σ t fs hd hx h
    obtain ⟨ts, rfl, hts⟩ := hd.succ
    cases h with
    | step hr h =>
      have hn := hr.2 x (by simp [ids]) ts hx
      subst hn
      rw [expandsAll_id ih _ ts _ (forall₂_range _ ts (.one .nil) _ ?_) h, leaves]
      intro i hi
      rw [get_slice (by simp [ids]), hx]
      exact ⟨rfl, hts _ (getD_mem _ hi)⟩

/-! ### The template -/

/-- The environment agrees with the bindings on the identifiers of the template. -/
def Agree (vs : Vars) (dim : Nat) (t : Form) (σ : Binds) (ρ : Env) : Prop :=
  ∀ x ∈ ids t, (Vars.depth vs x = none → Binds.get σ x = none) ∧
    ∀ d, Vars.depth vs x = some d →
      ∃ u, Binds.get σ x = some u ∧ Deep (d - dim) u ∧ Env.get ρ (.pat x) = some (.form u.form)

theorem Agree.mono {vs : Vars} {dim : Nat} {t s : Form} {σ : Binds} {ρ : Env} (h : Agree vs dim t σ ρ)
    (hs : ∀ x ∈ ids s, x ∈ ids t) : Agree vs dim s σ ρ := fun x hx => h x (hs x hx)

theorem ellipses_ids {ell : Nat → Prop} {d r : Form} {k : Nat} (h : Ellipses ell d k r) :
    ∀ x ∈ ids r, x ∈ ids d := by
  induction h with
  | none _ => exact fun x h => h
  | some _ _ ih => intro x hx; rw [ids]; exact List.mem_append_right _ (ih x hx)

theorem isEscape_false (hD : DefOk D) {a d : Form} (h : NoEllipsis (IsEllipsis D) (.cons a d)) :
    D.isEscape (.cons a d) = false := by
  cases a with
  | id e =>
    rw [Def.isEscape, ← Bool.not_eq_true]
    intro hc
    exact h ⟨hc, hD.literals e hc⟩
  | _ => rfl

theorem ellipses_proper {ell : Nat → Prop} {d r : Form} {k : Nat} (h : Ellipses ell d k r) (hp : Proper d) :
    Proper r := by
  induction h with
  | none _ => exact hp
  | some _ _ ih => exact ih hp

theorem inst_pair_inv {ell : Nat → Prop} {σ : Binds} {a d out : Form} (h1 : NoEllipsis ell (.cons a d))
    (h2 : NoEllipsis ell d) (h : Inst U ell σ (.cons a d) out) :
    ∃ f g, out = .cons f g ∧ Inst U ell σ a f ∧ Inst U ell σ d g := by
  generalize hq : Form.cons a d = q at h
  cases h with
  | var _ => cases hq
  | insert _ => cases hq
  | nil => cases hq
  | datum hd => subst hq; exact absurd hd id
  | vec _ => cases hq
  | escape he _ => cases hq; exact absurd he h1
  | pair _ _ ha hd => cases hq; exact ⟨_, _, rfl, ha, hd⟩
  | more _ he _ _ =>
    cases hq
    have := ellipses_unique he (.none h2)
    cases this.1

theorem inst_more_inv {ell : Nat → Prop} {σ : Binds} {a d r out : Form} {k : Nat}
    (h1 : NoEllipsis ell (.cons a d)) (h2 : Ellipses ell d (k + 1) r) (h : Inst U ell σ (.cons a d) out) :
    ∃ (fs : List Form) (g : Form), out = fs.foldr .cons g ∧ Expands U ell (k + 1) σ a fs ∧ Inst U ell σ r g := by
  generalize hq : Form.cons a d = q at h
  cases h with
  | var _ => cases hq
  | insert _ => cases hq
  | nil => cases hq
  | datum hd => subst hq; exact absurd hd id
  | vec _ => cases hq
  | escape he _ => cases hq; exact absurd he h1
  | pair _ hn _ _ =>
    cases hq
    have := ellipses_unique h2 (.none hn)
    cases this.1
  | more _ he hx hr =>
    cases hq
    obtain ⟨e, rfl⟩ := ellipses_unique h2 he
    cases e
    exact ⟨_, _, rfl, hx, hr⟩

theorem inst_proper {p t : Form} {dim : Nat} (ht : TemplateOk D p dim t) : ∀ {σ : Binds} {out : Form},
    Proper t → Inst U (IsEllipsis D) σ t out → ∃ xs, out = .ofList xs := by
  induction ht with
  | var _ _ => intro σ out hp; exact absurd hp id
  | insert _ => intro σ out hp; exact absurd hp id
  | nil =>
    intro σ out _ h
    cases h with
    | nil => exact ⟨[], rfl⟩
    | datum h => exact absurd h id
  | datum hd => intro σ out hp; rename_i t; cases t <;> first | exact absurd hp id | exact absurd hd id
  | vec _ _ _ => intro σ out hp; exact absurd hp id
  | pair h1 h2 _ _ _ ih =>
    intro σ out hp h
    obtain ⟨f, g, rfl, _, hd⟩ := inst_pair_inv h1 h2 h
    obtain ⟨xs, rfl⟩ := ih hp hd
    exact ⟨f :: xs, rfl⟩
  | more h1 h2 _ _ _ _ _ _ _ ih =>
    intro σ out hp h
    obtain ⟨fs, g, rfl, _, hr⟩ := inst_more_inv h1 h2 h
    obtain ⟨xs, rfl⟩ := ih (ellipses_proper h2 hp) hr
    exact ⟨fs ++ xs, foldr_ofList _ _⟩

/-- The text for a template. -/
def Builds (D : Def) (vs : Vars) (f : Nat) (t : Form) (dim : Nat) : Prop :=
  ∃ e, D.template vs f t dim = some e ∧
    ∀ U σ ρ out, Agree vs dim t σ ρ → Inst U (IsEllipsis D) σ t out → Ev U ρ e out

theorem form_many (ts : List Tree) : Tree.form (.many ts) = .ofList (ts.map Tree.form) := by rw [Tree.form]

/-- `(map (lambda (x ...) once) x ...)`. -/
theorem map_builds {vs : Vars} {dim : Nat} {a : Form} {once : Exp} {x : Nat} {xs : List Nat}
    (hfv : freeVars vs (dim + 1) a [] = x :: xs)
    (honce : ∀ U σ ρ out, Agree vs (dim + 1) a σ ρ → Inst U (IsEllipsis D) σ a out → Ev U ρ once out)
    {σ : Binds} {ρ : Env} {fs : List Form} (hag : Agree vs dim a σ ρ)
    (h : Expands U (IsEllipsis D) 1 σ a fs) :
    Ev U ρ (.map ((x :: xs).map .pat) once ((x :: xs).map fun x => .var (.pat x))) (.ofList fs) := by
  cases h with
  | step hrep hall =>
    rename_i n fss
    have hfree : ∀ y ∈ x :: xs, y ∈ ids a ∧ ∃ d, Vars.depth vs y = some d ∧ dim + 1 ≤ d := by
      intro y hy
      rw [← hfv, mem_freeVars] at hy
      exact hy.resolve_left (by simp)
    have hmany : ∀ y ∈ x :: xs, ∃ ts, Binds.get σ y = some (.many ts) ∧
        Env.get ρ (.pat y) = some (.form (.ofList (ts.map Tree.form))) ∧ ts.length = n := by
      intro y hy
      obtain ⟨hy, d, hd, hle⟩ := hfree y hy
      obtain ⟨u, hu, hdeep, hρ⟩ := (hag y hy).2 d hd
      obtain ⟨k, hk⟩ : ∃ k, d - dim = k + 1 := ⟨d - dim - 1, by omega⟩
      rw [hk] at hdeep
      obtain ⟨ts, rfl, _⟩ := hdeep.succ
      rw [form_many] at hρ
      exact ⟨ts, hu, hρ, hrep.2 y hy ts hu⟩
    let g : Nat → List Form := fun y => ((Binds.get σ y).map fun u => (kids u).map Tree.form).getD []
    have hg : ∀ y ts, Binds.get σ y = some (.many ts) → g y = ts.map Tree.form := by
      intro y ts h; simp [g, h, kids]
    have hargs : Evs U ρ ((x :: xs).map fun x => .var (.pat x)) ((x :: xs).map fun y => .ofList (g y)) := by
      refine evs_map _ _ _ ?_
      intro y hy
      obtain ⟨ts, h1, h2, _⟩ := hmany y hy
      rw [hg y ts h1]
      exact Ev.varForm h2
    refine Ev.map hargs (rows_eq x xs n g ?_) ?_
    · intro y hy
      obtain ⟨ts, h1, _, h2⟩ := hmany y hy
      rw [hg y ts h1, List.length_map, h2]
    · have h2 := expandsAll_zero _ _ hall
      rw [List.forall₂_map_left_iff] at h2 ⊢
      have h3 : List.Forall₂ (fun i f => i < n ∧ Inst U (IsEllipsis D) (slice (ids a) σ i) a f) (List.range n)
          fss.flatten := by
        rw [List.forall₂_iff_get] at h2 ⊢
        refine ⟨h2.1, fun i h₁ h₂ => ⟨?_, h2.2 i h₁ h₂⟩⟩
        have := h₁
        simp at this ⊢
        exact this
      refine h3.imp ?_
      rintro i f ⟨hi, hin⟩
      refine honce U _ _ f ?_ hin
      intro y hy
      constructor
      · intro hn
        rw [get_slice hy, (hag y hy).1 hn]
        rfl
      · intro d hd
        obtain ⟨u, hu, hdeep, hρ⟩ := (hag y hy).2 d hd
        refine ⟨u.at i, by rw [get_slice hy, hu]; rfl, ?_⟩
        by_cases hle : dim + 1 ≤ d
        · have hmem : y ∈ x :: xs := by
            rw [← hfv, mem_freeVars]
            exact .inr ⟨hy, d, hd, hle⟩
          obtain ⟨ts, h1, _, hlen⟩ := hmany y hmem
          rw [hu] at h1
          cases h1
          rw [show d - dim = d - (dim + 1) + 1 by omega] at hdeep
          have hi' : i < ts.length := by omega
          refine ⟨hdeep _ (getD_mem _ hi'), ?_⟩
          have := get_bind_local ρ Var.pat (fun b => (g b).getD i .nil) (x :: xs) y hmem
            (by intro b _ hb; cases hb; rfl)
          rw [this, hg y ts hu]
          simp [Tree.at, List.getD, List.getElem?_eq_getElem hi']
        · rw [show d - dim = 0 by omega] at hdeep
          obtain ⟨f, rfl⟩ := hdeep.zero
          rw [show d - (dim + 1) = 0 by omega]
          refine ⟨trivial, ?_⟩
          rw [get_bind_notin]
          · exact hρ
          · intro hm
            obtain ⟨z, hz, e⟩ := List.mem_map.1 hm
            cases e
            obtain ⟨_, d', hd', hle'⟩ := hfree y hz
            rw [hd] at hd'
            cases hd'
            exact hle hle'

theorem template_pair {vs : Vars} {f dim : Nat} {a d : Form} (h1 : D.isEscape (.cons a d) = false)
    (h2 : D.isEllipsis (.cons a d) = false) :
    D.template vs (f + 1) (.cons a d) dim =
      (D.template vs f a dim).bind fun e₁ => (D.template vs f d dim).bind fun e₂ => some (.prim2 .cons e₁ e₂) := by
  conv => lhs; unfold Def.template
  simp only [h1, h2, Bool.false_eq_true, if_false]
  rfl

theorem template_short {vs : Vars} {f dim k : Nat} {x : Nat} {e : Form} {z : Nat} {zs : List Nat}
    (h1 : D.isEscape (.cons (.id x) (.cons e .nil)) = false)
    (h2 : D.isEllipsis (.cons (.id x) (.cons e .nil)) = true)
    (h3 : D.ellipsisDepth (.cons (.id x) (.cons e .nil)) = k)
    (h4 : freeVars vs (dim + k) (.id x) [] = z :: zs) :
    D.template vs (f + 1) (.cons (.id x) (.cons e .nil)) dim = D.template vs f (.id x) (dim + k) := by
  conv => lhs; unfold Def.template
  simp only [h1, h2, h3, h4, Bool.false_eq_true, if_false, if_true]

theorem template_more {vs : Vars} {f dim k : Nat} {a d r : Form} {z : Nat} {zs : List Nat}
    (h1 : D.isEscape (.cons a d) = false) (h2 : D.isEllipsis (.cons a d) = true)
    (h3 : D.ellipsisDepth (.cons a d) = k) (h5 : D.ellipsisTail (.cons a d) = r)
    (h4 : freeVars vs (dim + k) a [] = z :: zs) (h : ¬∃ y e, a = .id y ∧ d = .cons e .nil) :
    D.template vs (f + 1) (.cons a d) dim =
      (D.template vs f a (dim + k)).bind fun once =>
        let many := applyAppends (k - 1) (.map ((z :: zs).map .pat) once ((z :: zs).map fun x => .var (.pat x)))
        if r = .nil then some many
        else (D.template vs f r dim).bind fun rest => some (.prim2 .append many rest) := by
  conv => lhs; unfold Def.template
  simp only [h1, h2, h3, h4, h5, Bool.false_eq_true, if_false, if_true]
  split
  · exact absurd ⟨_, _, rfl, rfl⟩ h
  · rfl

theorem template_builds (hD : DefOk D) {p : Form} {vs : Vars} (hvs : VarsOk D p vs) {dim : Nat} {t : Form}
    (ht : TemplateOk D p dim t) : ∀ f, t.size ≤ f → Builds D vs f t dim := by
  induction ht with
  | var hv hle =>
    rename_i dim x k
    intro f hf
    obtain ⟨f, rfl⟩ : ∃ g, f = g + 1 := ⟨f - 1, by simp [Form.size] at hf; omega⟩
    have hd := hvs.var x k hv
    refine ⟨.var (.pat x), by rw [Def.template]; simp [hd, hle], ?_⟩
    intro U σ ρ out hag hin
    obtain ⟨u, hu, hdeep, hρ⟩ := (hag x (by simp [ids])).2 k hd
    rw [show k - dim = 0 by omega] at hdeep
    obtain ⟨g, rfl⟩ := hdeep.zero
    rw [inst_var_inv hu hin]
    rw [Tree.form] at hρ
    exact Ev.varForm hρ
  | insert hx =>
    rename_i dim x
    intro f hf
    obtain ⟨f, rfl⟩ : ∃ g, f = g + 1 := ⟨f - 1, by simp [Form.size] at hf; omega⟩
    have hd := hvs.other x hx
    refine ⟨.rename x, by rw [Def.template]; simp [hd], ?_⟩
    intro U σ ρ out hag hin
    rw [inst_insert_inv ((hag x (by simp [ids])).1 hd) hin]
    exact Ev.rename x
  | nil =>
    intro f hf
    obtain ⟨f, rfl⟩ : ∃ g, f = g + 1 := ⟨f - 1, by simp [Form.size] at hf; omega⟩
    refine ⟨.const .nil, by simp [Def.template], ?_⟩
    intro U σ ρ out hag hin
    have : out = .nil := by cases hin with | nil => rfl | datum _ => rfl
    rw [this]
    exact Ev.const _
  | datum hd =>
    rename_i dim t
    intro f hf
    obtain ⟨f, rfl⟩ : ∃ g, f = g + 1 := ⟨f - 1, by have := size_pos t; omega⟩
    refine ⟨.const t, by cases t <;> first | exact absurd hd id | simp [Def.template], ?_⟩
    intro U σ ρ out hag hin
    have : out = t := by
      cases hin with
      | nil => rfl
      | datum _ => rfl
      | _ => exact absurd hd id
    rw [this]
    exact Ev.const _
  | vec hp ht ih =>
    rename_i dim t
    intro f hf
    obtain ⟨f, rfl⟩ : ∃ g, f = g + 1 := ⟨f - 1, by simp [Form.size] at hf; omega⟩
    obtain ⟨e, he, h⟩ := ih f (by simp [Form.size] at hf; omega)
    refine ⟨.prim1 .listToVector e, by rw [Def.template, he]; rfl, ?_⟩
    intro U σ ρ out hag hin
    cases hin with
    | datum h => exact absurd h id
    | vec hin =>
      obtain ⟨xs, rfl⟩ := inst_proper ht hp hin
      exact Ev.prim1 (h U σ ρ _ hag hin) (by simp [Prim1.apply, toList_ofList])
  | @pair dim a d h1 h2 _ _ iha ihd =>
    intro f hf
    simp only [Form.size] at hf
    obtain ⟨f, rfl⟩ : ∃ g, f = g + 1 := ⟨f - 1, by omega⟩
    obtain ⟨ea, hea, ha⟩ := iha f (by omega)
    obtain ⟨ed, hed, hd⟩ := ihd f (by omega)
    refine ⟨.prim2 .cons ea ed, ?_, ?_⟩
    · rw [template_pair (isEscape_false hD h1) ((isEllipsis_false hD).2 h2), hea, hed]
      rfl
    · intro U σ ρ out hag hin
      obtain ⟨f, g, rfl, hia, hid⟩ := inst_pair_inv h1 h2 hin
      exact Ev.prim2 (ha U σ ρ _ (hag.mono (by intro x hx; simp [ids, hx])) hia)
        (hd U σ ρ _ (hag.mono (by intro x hx; simp [ids, hx])) hid) rfl
  | @more dim a d k r x j h1 h2 hx hv hle hka hta _ iha ihr =>
    intro f hf
    simp only [Form.size] at hf
    obtain ⟨f, rfl⟩ : ∃ g, f = g + 1 := ⟨f - 1, by omega⟩
    obtain ⟨ea, hea, ha⟩ := iha f (by omega)
    obtain ⟨er, her, hr⟩ := ihr f (by have := ellipses_size h2; omega)
    have hb : D.isEllipsis (.cons a d) = true := by
      cases h2 with
      | some he _ => exact (isEllipsis_iff hD).2 ⟨_, _, rfl, he⟩
    have hdj := hvs.var x j hv
    have hmem : x ∈ freeVars vs (dim + (k + 1)) a [] := by
      rw [mem_freeVars]
      exact .inr ⟨hx, j, hdj, hle⟩
    have hid : ∀ y, a = .id y → x = y ∧ j = dim + (k + 1) ∧ ea = .var (.pat x) := by
      intro y hy
      subst hy
      simp [ids] at hx
      subst hx
      have hj : j ≤ dim + (k + 1) := by
        generalize hq : Form.id x = q at hta
        cases hta with
        | var hv' h' => cases hq; rw [hvs.var _ _ hv'] at hdj; cases hdj; exact h'
        | insert h' => cases hq; rw [hvs.other _ h'] at hdj; cases hdj
        | datum h' => subst hq; exact absurd h' id
        | nil => cases hq
        | vec _ _ => cases hq
        | pair _ _ _ _ => cases hq
        | more _ _ _ _ _ _ _ _ => cases hq
      refine ⟨rfl, by omega, ?_⟩
      obtain ⟨f, rfl⟩ : ∃ g, f = g + 1 := ⟨f - 1, by have := size_pos d; simp [Form.size] at hf; omega⟩
      rw [Def.template] at hea
      simp [hdj, hj] at hea
      exact hea.symm
    by_cases hshort : ∃ y e, a = .id y ∧ d = .cons e .nil
    · obtain ⟨y, e, rfl, rfl⟩ := hshort
      obtain ⟨rfl, hj, rfl⟩ := hid y rfl
      have hk : k = 0 ∧ r = .nil := by
        cases h2 with
        | some _ h2 =>
          cases h2 with
          | none _ => exact ⟨rfl, rfl⟩
      obtain ⟨rfl, rfl⟩ := hk
      refine ⟨.var (.pat x), ?_, ?_⟩
      · cases hfv : freeVars vs (dim + (0 + 1)) (.id x) [] with
        | nil => rw [hfv] at hmem; simp at hmem
        | cons z zs =>
          rw [template_short (isEscape_false hD h1) hb ((ellipses_depth hD h2 _).1) hfv]
          exact hea
      · intro U σ ρ out hag hin
        obtain ⟨fs, g, rfl, hex, hin⟩ := inst_more_inv h1 h2 hin
        have hg : g = .nil := by cases hin with | nil => rfl | datum _ => rfl
        subst hg
        obtain ⟨u, hu, hdeep, hρ⟩ := (hag x (by simp [ids])).2 j hdj
        rw [show j - dim = 0 + 1 by omega] at hdeep
        rw [expands_id _ _ _ _ hdeep hu hex, foldr_nil]
        obtain ⟨ts, rfl, hts⟩ := hdeep.succ
        rw [leaves_zero hts, ← form_many]
        exact Ev.varForm hρ
    · have hgen : ∀ z zs, freeVars vs (dim + (k + 1)) a [] = z :: zs →
          D.template vs (f + 1) (.cons a d) dim =
            if r = .nil then some (applyAppends k (.map ((z :: zs).map .pat) ea ((z :: zs).map fun x => .var (.pat x))))
            else some (.prim2 .append
              (applyAppends k (.map ((z :: zs).map .pat) ea ((z :: zs).map fun x => .var (.pat x)))) er) := by
        intro z zs hfv
        rw [template_more (isEscape_false hD h1) hb (ellipses_depth hD h2 _).1 (ellipses_depth hD h2 _).2 hfv hshort,
          hea, her]
        simp only [Option.bind_some, Nat.add_sub_cancel]
      obtain ⟨z, zs, hfv⟩ : ∃ z zs, freeVars vs (dim + (k + 1)) a [] = z :: zs := by
        cases hfv : freeVars vs (dim + (k + 1)) a [] with
        | nil => rw [hfv] at hmem; simp at hmem
        | cons z zs => exact ⟨z, zs, rfl⟩
      have hmany : ∀ U σ ρ fs, Agree vs dim a σ ρ → Expands U (IsEllipsis D) (k + 1) σ a fs →
          Ev U ρ (applyAppends k (.map ((z :: zs).map .pat) ea ((z :: zs).map fun x => .var (.pat x))))
            (.ofList fs) := by
        intro U σ ρ fs hag hex
        rcases hka with rfl | rfl
        · exact map_builds hfv ha hag hex
        · obtain ⟨_, hj, rfl⟩ := hid x rfl
          have hzs : z = x ∧ zs = [] := by
            rw [freeVars] at hfv
            simp [hdj, hle] at hfv
            exact ⟨hfv.1.symm, hfv.2⟩
          obtain ⟨rfl, rfl⟩ := hzs
          obtain ⟨u, hu, hdeep, hρ⟩ := (hag z (by simp [ids])).2 j hdj
          rw [show j - dim = k + 1 by omega] at hdeep
          rw [expands_id _ _ _ _ hdeep hu hex]
          obtain ⟨ts, rfl, hts⟩ := hdeep.succ
          refine applyAppends_leaves k ts _ hts ?_
          rw [form_many] at hρ ⊢
          have hr := rows_eq z ([] : List Nat) ts.length (fun _ => ts.map Tree.form) (by simp)
          refine Ev.map (.cons (Ev.varForm hρ) .nil) hr ?_
          rw [List.forall₂_map_left_iff]
          have := forall₂_range (fun i => i) (ts.map Tree.form) .nil
            (fun i x => Ev U (Env.bind ρ (List.map Var.pat [z])
              (List.map (fun _ => (ts.map Tree.form).getD i .nil) [z])) (.var (.pat z)) x)
            (by intro i _; exact Ev.varForm (get_cons_self _ _ _))
          simpa using this
      by_cases hrn : r = .nil
      · subst hrn
        refine ⟨_, by rw [hgen z zs hfv, if_pos rfl], ?_⟩
        intro U σ ρ out hag hin
        obtain ⟨fs, g, rfl, hex, hin⟩ := inst_more_inv h1 h2 hin
        have hg : g = .nil := by cases hin with | nil => rfl | datum _ => rfl
        subst hg
        rw [foldr_nil]
        exact hmany U σ ρ fs (hag.mono (by intro x hx; simp [ids, hx])) hex
      · refine ⟨_, by rw [hgen z zs hfv, if_neg hrn], ?_⟩
        intro U σ ρ out hag hin
        obtain ⟨fs, g, rfl, hex, hin⟩ := inst_more_inv h1 h2 hin
        refine Ev.prim2 (hmany U σ ρ fs (hag.mono (by intro x hx; simp [ids, hx])) hex)
          (hr U σ ρ g (hag.mono ?_) hin) (by simp [Prim2.apply, appendForm, toList_ofList])
        intro y hy
        rw [ids]
        exact List.mem_append_right _ (ellipses_ids h2 y hy)

end Meevax.Rules
