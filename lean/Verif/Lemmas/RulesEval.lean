import Verif.Spec.SyntaxRules

/-!
Evaluation of the texts made by `syntax-rules`: more fuel changes nothing, and one lemma for each kind of
expression.
-/

namespace Meevax.Rules

theorem mapM_mono {α β} {g h : α → Option β} (H : ∀ a b, g a = some b → h a = some b) :
    ∀ (l : List α) r, l.mapM g = some r → l.mapM h = some r := by
  intro l
  induction l with
  | nil => intro r hr; simpa using hr
  | cons a l ih =>
    intro r hr
    simp only [List.mapM_cons, Option.bind_eq_bind, Option.bind_eq_some_iff] at hr ⊢
    obtain ⟨b, hb, bs, hbs, e⟩ := hr
    exact ⟨b, H a b hb, bs, ih bs hbs, e⟩

theorem eval_succ (U : Use) : ∀ (f : Nat) (ρ : Env) (e : Exp) (r : Form),
    eval U f ρ e = some r → eval U (f + 1) ρ e = some r := by
  intro f
  induction f with
  | zero => intro ρ e r h; simp [eval] at h
  | succ f ih =>
    intro ρ e r h
    have hm : ∀ {α} (ρ : Env) (g : α → Exp) (l : List α) rs,
        l.mapM (fun a => eval U f ρ (g a)) = some rs → l.mapM (fun a => eval U (f + 1) ρ (g a)) = some rs :=
      fun ρ g l rs => mapM_mono (fun a b => ih ρ (g a) b) l rs
    cases e with
    | var v => simpa [eval] using h
    | const x => simpa [eval] using h
    | rename x => simpa [eval] using h
    | bind bs body =>
      rw [eval] at h ⊢
      simp only [Option.bind_eq_bind, Option.bind_eq_some_iff] at h ⊢
      obtain ⟨xs, h1, h2⟩ := h
      exact ⟨xs, hm ρ _ _ _ h1, ih _ _ _ h2⟩
    | loop name bs body =>
      rw [eval] at h ⊢
      simp only [Option.bind_eq_bind, Option.bind_eq_some_iff] at h ⊢
      obtain ⟨xs, h1, h2⟩ := h
      exact ⟨xs, hm _ _ _ _ h1, ih _ _ _ h2⟩
    | call name args =>
      rw [eval] at h ⊢
      simp only [Option.bind_eq_bind] at h ⊢
      cases hg : ρ.get name with
      | none => simp [hg] at h
      | some v =>
        cases v with
        | form x => simp [hg] at h
        | loop ps b ρ₀ =>
          simp only [hg, Option.bind_eq_some_iff] at h ⊢
          obtain ⟨xs, h1, h2⟩ := h
          exact ⟨xs, hm _ _ _ _ h1, ih _ _ _ h2⟩
    | and a b =>
      rw [eval] at h ⊢
      simp only [Option.bind_eq_bind, Option.bind_eq_some_iff] at h ⊢
      obtain ⟨x, h1, h2⟩ := h
      refine ⟨x, ih _ _ _ h1, ?_⟩
      split at h2
      · rename_i hx; rw [if_pos hx]; exact h2
      · rename_i hx; rw [if_neg hx]; exact ih _ _ _ h2
    | ite c t e =>
      rw [eval] at h ⊢
      simp only [Option.bind_eq_bind, Option.bind_eq_some_iff] at h ⊢
      obtain ⟨x, h1, h2⟩ := h
      refine ⟨x, ih _ _ _ h1, ?_⟩
      split at h2
      · rename_i hx; rw [if_pos hx]; exact ih _ _ _ h2
      · rename_i hx; rw [if_neg hx]; exact ih _ _ _ h2
    | prim1 p a =>
      rw [eval] at h ⊢
      simp only [Option.bind_eq_bind, Option.bind_eq_some_iff] at h ⊢
      obtain ⟨x, h1, h2⟩ := h
      exact ⟨x, ih _ _ _ h1, h2⟩
    | prim2 p a b =>
      rw [eval] at h ⊢
      simp only [Option.bind_eq_bind, Option.bind_eq_some_iff] at h ⊢
      obtain ⟨x, h1, y, h2, h3⟩ := h
      exact ⟨x, ih _ _ _ h1, y, ih _ _ _ h2, h3⟩
    | applyAppend e =>
      rw [eval] at h ⊢
      simp only [Option.bind_eq_bind, Option.bind_eq_some_iff] at h ⊢
      obtain ⟨x, h1, h2⟩ := h
      exact ⟨x, ih _ _ _ h1, h2⟩
    | map params body args =>
      rw [eval] at h ⊢
      simp only [Option.bind_eq_bind, Option.bind_eq_some_iff] at h ⊢
      obtain ⟨ls, h1, h2⟩ := h
      refine ⟨ls, hm ρ _ _ _ h1, ?_⟩
      cases ls with
      | nil => simp at h2
      | cons l ls =>
        simp only [Option.bind_eq_some_iff] at h2 ⊢
        obtain ⟨rs, h3, xs, h4, h5⟩ := h2
        exact ⟨rs, h3, xs, mapM_mono (fun r b => ih _ _ b) rs xs h4, h5⟩

theorem eval_mono {U : Use} {f g : Nat} {ρ : Env} {e : Exp} {r : Form}
    (h : eval U f ρ e = some r) (hfg : f ≤ g) : eval U g ρ e = some r := by
  induction hfg with
  | refl => exact h
  | step _ ih => exact eval_succ U _ _ _ _ ih

/-- The text has this value. -/
def Ev (U : Use) (ρ : Env) (e : Exp) (r : Form) : Prop := ∃ f, eval U f ρ e = some r

/-- The texts have these values. -/
def Evs (U : Use) (ρ : Env) (es : List Exp) (rs : List Form) : Prop := List.Forall₂ (Ev U ρ) es rs

variable {U : Use} {ρ : Env}

theorem Ev.unique {e : Exp} {r s : Form} (h : Ev U ρ e r) (h' : Ev U ρ e s) : r = s := by
  obtain ⟨f, hf⟩ := h
  obtain ⟨g, hg⟩ := h'
  have h1 := eval_mono hf (Nat.le_max_left f g)
  have h2 := eval_mono hg (Nat.le_max_right f g)
  exact Option.some.inj (h1.symm.trans h2)

theorem Evs.fuel {es : List Exp} {rs : List Form} (h : Evs U ρ es rs) :
    ∃ f, es.mapM (fun e => eval U f ρ e) = some rs := by
  induction h with
  | nil => exact ⟨0, rfl⟩
  | cons h1 _ ih =>
    obtain ⟨f, hf⟩ := h1
    obtain ⟨g, hg⟩ := ih
    refine ⟨max f g, ?_⟩
    simp only [List.mapM_cons, Option.bind_eq_bind, Option.bind_eq_some_iff]
    exact ⟨_, eval_mono hf (Nat.le_max_left _ _), _,
      mapM_mono (fun a b hb => eval_mono hb (Nat.le_max_right _ _)) _ _ hg, rfl⟩

theorem Ev.varForm {v : Var} {x : Form} (h : ρ.get v = some (.form x)) : Ev U ρ (.var v) x :=
  ⟨1, by simp [eval, h]⟩

theorem Ev.varNone {v : Var} (h : ρ.get v = none) : Ev U ρ (.var v) .undefined :=
  ⟨1, by simp [eval, h]⟩

theorem Ev.const (x : Form) : Ev U ρ (.const x) x := ⟨1, by simp [eval]⟩

theorem Ev.rename (x : Nat) : Ev U ρ (.rename x) (.id (U.rename x)) := ⟨1, by simp [eval]⟩

theorem mapM_snd {bs : List (Var × Exp)} {f : Nat} {xs : List Form} :
    (bs.mapM fun b => eval U f ρ b.2) = some xs ↔ ((bs.map Prod.snd).mapM fun e => eval U f ρ e) = some xs := by
  induction bs generalizing xs with
  | nil => simp
  | cons b bs ih =>
    simp only [List.mapM_cons, List.map_cons, Option.bind_eq_bind, Option.bind_eq_some_iff, ih]

theorem Ev.bind {bs : List (Var × Exp)} {body : Exp} {xs : List Form} {r : Form}
    (h1 : Evs U ρ (bs.map Prod.snd) xs) (h2 : Ev U (ρ.bind (bs.map Prod.fst) xs) body r) :
    Ev U ρ (.bind bs body) r := by
  obtain ⟨f, hf⟩ := h1.fuel
  obtain ⟨g, hg⟩ := h2
  refine ⟨max f g + 1, ?_⟩
  rw [eval]
  simp only [Option.bind_eq_bind, Option.bind_eq_some_iff]
  exact ⟨xs, mapM_mono (fun a b hb => eval_mono hb (Nat.le_max_left f g)) _ _ (mapM_snd.2 hf),
    eval_mono hg (Nat.le_max_right _ _)⟩

theorem Ev.loop {name : Var} {bs : List (Var × Exp)} {body : Exp} {xs : List Form} {r : Form}
    (h1 : Evs U ((name, .loop (bs.map Prod.fst) body ρ) :: ρ) (bs.map Prod.snd) xs)
    (h2 : Ev U (Env.bind ((name, .loop (bs.map Prod.fst) body ρ) :: ρ) (bs.map Prod.fst) xs) body r) :
    Ev U ρ (.loop name bs body) r := by
  obtain ⟨f, hf⟩ := h1.fuel
  obtain ⟨g, hg⟩ := h2
  refine ⟨max f g + 1, ?_⟩
  rw [eval]
  simp only [Option.bind_eq_bind, Option.bind_eq_some_iff]
  exact ⟨xs, mapM_mono (fun a b hb => eval_mono hb (Nat.le_max_left f g)) _ _ (mapM_snd.2 hf),
    eval_mono hg (Nat.le_max_right _ _)⟩

theorem Ev.call {name : Var} {params : List Var} {body : Exp} {ρ₀ : Env} {args : List Exp} {xs : List Form}
    {r : Form} (hn : ρ.get name = some (.loop params body ρ₀)) (h1 : Evs U ρ args xs)
    (h2 : Ev U (Env.bind ((name, .loop params body ρ₀) :: ρ₀) params xs) body r) :
    Ev U ρ (.call name args) r := by
  obtain ⟨f, hf⟩ := h1.fuel
  obtain ⟨g, hg⟩ := h2
  refine ⟨max f g + 1, ?_⟩
  rw [eval]
  simp only [hn, Option.bind_eq_bind, Option.bind_eq_some_iff]
  exact ⟨xs, mapM_mono (fun a b hb => eval_mono hb (Nat.le_max_left f g)) _ _ hf,
    eval_mono hg (Nat.le_max_right _ _)⟩

theorem Ev.andFalse {a b : Exp} (h : Ev U ρ a (.bool false)) : Ev U ρ (.and a b) (.bool false) := by
  obtain ⟨f, hf⟩ := h
  refine ⟨f + 1, ?_⟩
  rw [eval]
  simp [hf]

theorem Ev.andTrue {a b : Exp} {r : Form} (h : Ev U ρ a (.bool true)) (h2 : Ev U ρ b r) :
    Ev U ρ (.and a b) r := by
  obtain ⟨f, hf⟩ := h
  obtain ⟨g, hg⟩ := h2
  refine ⟨max f g + 1, ?_⟩
  rw [eval]
  simp [eval_mono hf (Nat.le_max_left f g), eval_mono hg (Nat.le_max_right f g)]

theorem Ev.iteFalse {c t e : Exp} {r : Form} (h : Ev U ρ c (.bool false)) (h2 : Ev U ρ e r) :
    Ev U ρ (.ite c t e) r := by
  obtain ⟨f, hf⟩ := h
  obtain ⟨g, hg⟩ := h2
  refine ⟨max f g + 1, ?_⟩
  rw [eval]
  simp [eval_mono hf (Nat.le_max_left f g), eval_mono hg (Nat.le_max_right f g)]

theorem Ev.iteTrue {c t e : Exp} {r : Form} (h : Ev U ρ c (.bool true)) (h2 : Ev U ρ t r) :
    Ev U ρ (.ite c t e) r := by
  obtain ⟨f, hf⟩ := h
  obtain ⟨g, hg⟩ := h2
  refine ⟨max f g + 1, ?_⟩
  rw [eval]
  simp [eval_mono hf (Nat.le_max_left f g), eval_mono hg (Nat.le_max_right f g)]

theorem Ev.prim1 {p : Prim1} {a : Exp} {x y : Form} (h : Ev U ρ a x) (hy : p.apply x = some y) :
    Ev U ρ (.prim1 p a) y := by
  obtain ⟨f, hf⟩ := h
  exact ⟨f + 1, by rw [eval]; simp [hf, hy]⟩

theorem Ev.prim2 {p : Prim2} {a b : Exp} {x y z : Form} (h : Ev U ρ a x) (h2 : Ev U ρ b y)
    (hz : p.apply U x y = some z) : Ev U ρ (.prim2 p a b) z := by
  obtain ⟨f, hf⟩ := h
  obtain ⟨g, hg⟩ := h2
  exact ⟨max f g + 1, by
    rw [eval]; simp [eval_mono hf (Nat.le_max_left f g), eval_mono hg (Nat.le_max_right f g), hz]⟩

theorem Ev.applyAppend {e : Exp} {x y : Form} (h : Ev U ρ e x) (hy : appendAll x = some y) :
    Ev U ρ (.applyAppend e) y := by
  obtain ⟨f, hf⟩ := h
  exact ⟨f + 1, by rw [eval]; simp [hf, hy]⟩

theorem Ev.map {params : List Var} {body : Exp} {args : List Exp} {l : Form} {ls : List Form}
    {rs : List (List Form)} {xs : List Form} (h1 : Evs U ρ args (l :: ls)) (h2 : rows l ls = some rs)
    (h3 : List.Forall₂ (fun r x => Ev U (ρ.bind params r) body x) rs xs) :
    Ev U ρ (.map params body args) (.ofList xs) := by
  obtain ⟨f, hf⟩ := h1.fuel
  have : ∃ g, rs.mapM (fun r => eval U g (ρ.bind params r) body) = some xs := by
    clear h2
    induction h3 with
    | nil => exact ⟨0, rfl⟩
    | cons h1 _ ih =>
      obtain ⟨f, hf⟩ := h1
      obtain ⟨g, hg⟩ := ih
      refine ⟨max f g, ?_⟩
      simp only [List.mapM_cons, Option.bind_eq_bind, Option.bind_eq_some_iff]
      exact ⟨_, eval_mono hf (Nat.le_max_left _ _), _,
        mapM_mono (fun a b hb => eval_mono hb (Nat.le_max_right _ _)) _ _ hg, rfl⟩
  obtain ⟨g, hg⟩ := this
  refine ⟨max f g + 1, ?_⟩
  rw [eval]
  simp only [Option.bind_eq_bind, Option.bind_eq_some_iff]
  refine ⟨l :: ls, mapM_mono (fun a b hb => eval_mono hb (Nat.le_max_left f g)) _ _ hf, ?_⟩
  simp only [Option.bind_eq_some_iff]
  exact ⟨rs, h2, xs, mapM_mono (fun a b hb => eval_mono hb (Nat.le_max_right f g)) _ _ hg, rfl⟩

/-! ### Environments -/

theorem get_cons_self (v : Var) (x : Val) (ρ : Env) : Env.get ((v, x) :: ρ) v = some x := by simp [Env.get]

theorem get_cons_ne {v w : Var} (x : Val) (ρ : Env) (h : w ≠ v) : Env.get ((w, x) :: ρ) v = Env.get ρ v := by
  simp [Env.get, h]

theorem get_bind_notin {v : Var} : ∀ {vs : List Var} {fs : List Form} (ρ : Env), v ∉ vs →
    Env.get (Env.bind ρ vs fs) v = Env.get ρ v := by
  intro vs
  induction vs with
  | nil => intro fs ρ _; simp [Env.bind]
  | cons w vs ih =>
    intro fs ρ h
    cases fs with
    | nil => simp [Env.bind]
    | cons f fs =>
      have h1 : w ≠ v := fun e => h (by simp [e])
      have h2 : v ∉ vs := fun e => h (by simp [e])
      have := ih (fs := fs) ρ h2
      simp only [Env.bind, List.zipWith_cons_cons, List.cons_append] at this ⊢
      rw [get_cons_ne _ _ h1]; exact this

/-- Variables bound to values that depend on the variable only. -/
theorem get_bind_map {α} (ρ : Env) (g : α → Var) (h : α → Form) (hg : ∀ a b, g a = g b → h a = h b) :
    ∀ (l : List α) (a : α), a ∈ l →
    Env.get (Env.bind ρ (l.map g) (l.map h)) (g a) = some (.form (h a)) := by
  intro l
  induction l with
  | nil => intro a ha; simp at ha
  | cons b l ih =>
    intro a ha
    simp only [Env.bind, List.map_cons, List.zipWith_cons_cons, List.cons_append, Env.get]
    split
    · rename_i e; rw [hg b a e]
    · rename_i e
      rcases List.mem_cons.1 ha with rfl | ha
      · exact absurd rfl e
      · exact ih a ha

end Meevax.Rules
