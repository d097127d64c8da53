import Verif.Lemmas.Hygiene

/-!
The invariant between a scope of the specification and the frames, the dictionary and the state of
the expander.
-/

namespace Meevax.Expand

open Secd (Name Code)
open Spec

/-- A program, the expander, and what connects them: macros are defined in the environments below
`base`; `E0` is the environment of the expansion. -/
structure Setup where
  C : Ctx
  W : World
  base : Nat
  E0 : Nat

/-- The expander works on the program of the specification. -/
structure Setup.Ok (P : Setup) : Prop where
  value : P.W.value = P.C.value
  fresh : P.W.fresh = P.C.fresh
  base : 0 < P.base
  lam : (P.C.env 0 lambdaName).bind P.C.value = some (.syn .lambda)
  set : (P.C.env 0 setName).bind P.C.value = some (.syn .set)
  home : ∀ g t, P.C.value g = some (.transformer t) → P.C.home t < P.base
  template : ∀ g t, P.C.value g = some (.transformer t) → ∀ form, Src P.base form →
    SrcT P.base (P.C.template t form)

/-- The state of an expansion at one level, with the dictionary `D`. -/
structure StOk (P : Setup) (D : List (Name × Form)) (st : St) : Prop where
  alpha : st.alpha = [⟨P.E0, [], D⟩]
  env0 : st.envs P.E0 = ⟨[], P.C.globals⟩
  lt0 : P.E0 < st.nextEnv
  envs : EnvOk P.C P.base st.envs
  base : P.base ≤ st.nextEnv
  macros : ∀ g t, P.C.value g = some (.transformer t) →
    (st.macros t).2 = P.C.home t ∧ P.W.run (st.macros t).1 = erTransformer (P.C.template t)

/-- How the state grows. -/
structure Ext (st st' : St) : Prop where
  alpha : st'.alpha = st.alpha
  next : st.next ≤ st'.next
  nextEnv : st.nextEnv ≤ st'.nextEnv
  envs : ∀ e < st.nextEnv, st'.envs e = st.envs e
  macros : st'.macros = st.macros

theorem Ext.refl (st : St) : Ext st st := ⟨rfl, Nat.le_refl _, Nat.le_refl _, fun _ _ => rfl, rfl⟩

theorem Ext.trans {a b c : St} (h₁ : Ext a b) (h₂ : Ext b c) : Ext a c :=
  ⟨h₂.alpha.trans h₁.alpha, Nat.le_trans h₁.next h₂.next, Nat.le_trans h₁.nextEnv h₂.nextEnv,
    fun e he => (h₂.envs e (Nat.lt_of_lt_of_le he h₁.nextEnv)).trans (h₁.envs e he),
    h₂.macros.trans h₁.macros⟩

theorem StOk.ext {P : Setup} {D : List (Name × Form)} {st st' : St} (h : StOk P D st)
    (hx : Ext st st') : StOk P D st' where
  alpha := hx.alpha.trans h.alpha
  env0 := (hx.envs _ h.lt0).trans h.env0
  lt0 := Nat.lt_of_lt_of_le h.lt0 hx.nextEnv
  envs := fun e he => (hx.envs e (Nat.lt_of_lt_of_le he h.base)).trans (h.envs e he)
  base := Nat.le_trans h.base hx.nextEnv
  macros := fun g t hg => by rw [hx.macros]; exact h.macros g t hg

/-- The state after a counter has moved. -/
theorem Ext.bump (st : St) (k : Nat) : Ext st { st with next := st.next + k } :=
  ⟨rfl, Nat.le_add_right _ _, Nat.le_refl _, fun _ _ => rfl, rfl⟩

theorem Ext.made (st : St) (k : Nat) : Ext st { st with made := k } :=
  ⟨rfl, Nat.le_refl _, Nat.le_refl _, fun _ _ => rfl, rfl⟩

theorem Ext.newEnv (st : St) (bv : Scopes) (s : Name → Option Nat) :
    Ext st (newEnv bv s st).2 := by
  refine ⟨rfl, Nat.le_refl _, Nat.le_succ _, ?_, rfl⟩
  intro e he
  have : e ≠ st.nextEnv := by omega
  simp [Expand.newEnv, this]

/-! ## α-conversion of one frame -/

/-- The new name of a formal. -/
def ren (D : List (Name × Form)) (fs : List Form) : Form → Form
  | .sym x => if visible x fs then (D.lookup x).getD (.sym x) else .sym x
  | v => v

theorem ren_congr {D D' : List (Name × Form)} {fs : List Form} {v : Form}
    (h : ∀ x, v = .sym x → visible x fs = true → D'.lookup x = D.lookup x) :
    ren D' fs v = ren D fs v := by
  cases v with
  | sym x =>
    simp only [ren]
    by_cases hv : visible x fs = true
    · simp [hv, h x rfl hv]
    · simp [hv]
  | _ => rfl

theorem convertFormal_spec {E : Nat} {fs : List Form} {st : St} {D : List (Name × Form)}
    (hst : st.alpha = [⟨E, [], D⟩]) (v : Form) :
    ∃ D' n', convertFormal v fs st =
        (ren D' fs v, { st with next := n', alpha := [⟨E, [], D'⟩] }) ∧ st.next ≤ n' ∧
      (∀ x, (v ≠ .sym x ∨ visible x fs = false) → D'.lookup x = D.lookup x) ∧
      (∀ x, v = .sym x → visible x fs = true → ∃ n, st.next ≤ n ∧ n < n' ∧
        D'.lookup x = some (.closure (.alpha n) E [] (.sym x))) := by
  have hid : st = { st with next := st.next, alpha := [⟨E, [], D⟩] } := by
    obtain ⟨a, b, c, d, e, f, g⟩ := st
    simp only at hst
    subst hst
    rfl
  cases v with
  | sym x =>
    by_cases hv : visible x fs = true
    · refine ⟨(x, .closure (.alpha st.next) E [] (.sym x)) :: D, st.next + 1, ?_, by omega, ?_, ?_⟩
      · simp [convertFormal, hv, hst, ren]
      · intro y hy
        have : y ≠ x := by
          rintro rfl
          rcases hy with h | h
          · exact h rfl
          · simp [hv] at h
        have hb : (y == x) = false := by simpa using this
        simp [List.lookup_cons, hb]
      · intro y hy _
        simp only [Form.sym.injEq] at hy
        subst hy
        exact ⟨st.next, Nat.le_refl _, Nat.lt_succ_self _, by simp⟩
    · refine ⟨D, st.next, ?_, Nat.le_refl _, fun _ _ => rfl, ?_⟩
      · simp only [convertFormal, hv, ren]
        rw [← hid]
        simp
      · intro y hy h
        simp only [Form.sym.injEq] at hy
        subst hy
        exact absurd h hv
  | _ =>
    refine ⟨D, st.next, ?_, Nat.le_refl _, fun _ _ => rfl, ?_⟩
    · simp only [convertFormal, ren]
      rw [← hid]
    · intro y hy; simp at hy

theorem ren_ident {D : List (Name × Form)} {fs : List Form} {v : Form}
    (hD : ∀ x a, D.lookup x = some a → a.isIdentifier = true) (h : v.isIdentifier = true) :
    (ren D fs v).isIdentifier = true := by
  cases v with
  | sym x =>
    simp only [ren]
    split
    · cases hl : D.lookup x with
      | none => simp [Form.isIdentifier]
      | some a => simpa using hD x a hl
    · rfl
  | _ => simpa [ren] using h

/-- `alpha::convert_formals`: the formals that shadow a visible one get new names, which the
dictionary holds. -/
theorem convertFormals_spec {E : Nat} {fs : List Form} : ∀ {F : Form} {f : Frame} {st : St}
    {D : List (Name × Form)}, st.alpha = [⟨E, [], D⟩] →
    parse F = some f → f.ids.Nodup →
    (∀ x a, D.lookup x = some a → a.isIdentifier = true) →
    ∃ F' D' n', convertFormals F fs st = (F', { st with next := n', alpha := [⟨E, [], D'⟩] }) ∧
      parse F' = some ⟨f.fixed.map (ren D' fs), f.rest.map (ren D' fs)⟩ ∧ st.next ≤ n' ∧
      (∀ x, (Form.sym x ∉ f.ids ∨ visible x fs = false) → D'.lookup x = D.lookup x) ∧
      (∀ x, Form.sym x ∈ f.ids → visible x fs = true → ∃ n, st.next ≤ n ∧ n < n' ∧
        D'.lookup x = some (.closure (.alpha n) E [] (.sym x))) := by
  intro F
  have atomCase : ∀ (v : Form) {st : St} {D : List (Name × Form)}, v.isIdentifier = true →
      (∀ a d, v ≠ .cons a d) → v ≠ .nil → st.alpha = [⟨E, [], D⟩] →
      (∀ x a, D.lookup x = some a → a.isIdentifier = true) →
      ∃ F' D' n', convertFormals v fs st = (F', { st with next := n', alpha := [⟨E, [], D'⟩] }) ∧
      parse F' = some ⟨[], some (ren D' fs v)⟩ ∧ st.next ≤ n' ∧
      (∀ x, (Form.sym x ∉ [v] ∨ visible x fs = false) → D'.lookup x = D.lookup x) ∧
      (∀ x, Form.sym x ∈ [v] → visible x fs = true → ∃ n, st.next ≤ n ∧ n < n' ∧
        D'.lookup x = some (.closure (.alpha n) E [] (.sym x))) := by
    intro v st D hv hc hn hst hD
    obtain ⟨D', n', h₁, h₂, h₃, h₄⟩ := convertFormal_spec (fs := fs) hst v
    refine ⟨ren D' fs v, D', n', ?_, ?_, h₂, ?_, ?_⟩
    · cases v <;> simp_all [convertFormals]
    · have hD' : ∀ x a, D'.lookup x = some a → a.isIdentifier = true := by
        intro x a hx
        by_cases h : v ≠ .sym x ∨ visible x fs = false
        · exact hD x a ((h₃ x h).symm.trans hx)
        · simp only [not_or, ne_eq, Classical.not_not, Bool.not_eq_false] at h
          obtain ⟨n, _, _, hn⟩ := h₄ x h.1 h.2
          rw [hn] at hx
          simp only [Option.some.injEq] at hx
          subst hx
          rfl
      have hi := ren_ident (fs := fs) hD' hv
      generalize ren D' fs v = w at hi ⊢
      cases w <;> simp_all [parse, Form.isIdentifier]
    · intro x hx
      apply h₃
      rcases hx with hx | hx
      · left; intro h; apply hx; simp [h]
      · right; exact hx
    · intro x hx
      apply h₄
      simpa using (List.mem_singleton.mp hx).symm
  induction F with
  | nil =>
    intro f st D hst hp _ _
    simp [parse] at hp
    subst hp
    have hid : st = { st with next := st.next, alpha := [⟨E, [], D⟩] } := by
      obtain ⟨a, b, c, d, e, f, g⟩ := st
      simp only at hst
      subst hst
      rfl
    refine ⟨.nil, D, st.next, ?_, by simp [parse], Nat.le_refl _, fun _ _ => rfl, ?_⟩
    · simp only [convertFormals, convertFormal]
      rw [← hid]
    · intro x hx; simp [Frame.ids] at hx
  | cons a d _ ihd =>
    intro f st D hst hp hnd hD
    simp only [parse] at hp
    split at hp
    · rename_i ha
      simp only [Option.map_eq_some_iff] at hp
      obtain ⟨g, hg, rfl⟩ := hp
      have hids : Frame.ids ⟨a :: g.fixed, g.rest⟩ = a :: g.ids := by simp [Frame.ids]
      rw [hids] at hnd
      obtain ⟨had, hnd⟩ := List.nodup_cons.mp hnd
      obtain ⟨D₁, n₁, e₁, hn₁, hk₁, hs₁⟩ := convertFormal_spec (fs := fs) hst a
      have hD₁ : ∀ x a, D₁.lookup x = some a → a.isIdentifier = true := by
        intro x b hx
        by_cases h : a ≠ .sym x ∨ visible x fs = false
        · exact hD x b ((hk₁ x h).symm.trans hx)
        · simp only [not_or, ne_eq, Classical.not_not, Bool.not_eq_false] at h
          obtain ⟨n, _, _, hn⟩ := hs₁ x h.1 h.2
          rw [hn] at hx
          simp only [Option.some.injEq] at hx
          subst hx
          rfl
      obtain ⟨F', D', n', e₂, hp₂, hn₂, hk₂, hs₂⟩ :=
        ihd (st := { st with next := n₁, alpha := [⟨E, [], D₁⟩] }) (D := D₁) rfl hg hnd hD₁
      have hren : ren D' fs a = ren D₁ fs a := by
        apply ren_congr
        intro x hx _
        apply hk₂
        left
        rw [← hx]
        exact had
      refine ⟨.cons (ren D₁ fs a) F', D', n', ?_, ?_, by simp only at hn₂; omega, ?_, ?_⟩
      · simp only [convertFormals, e₁, e₂]
      · have := ren_ident (fs := fs) hD₁ ha
        simp [parse, this, hp₂, hren]
      · intro x hx
        rw [hids] at hx
        rw [hk₂ x, hk₁ x]
        · rcases hx with hx | hx
          · left; intro h; apply hx; simp [h]
          · right; exact hx
        · rcases hx with hx | hx
          · left; intro h; apply hx; simp [h]
          · right; exact hx
      · intro x hx hv
        rw [hids] at hx
        rcases List.mem_cons.mp hx with hx | hx
        · obtain ⟨n, h₁, h₂, h₃⟩ := hs₁ x hx.symm hv
          refine ⟨n, h₁, by simp only at hn₂; omega, ?_⟩
          rw [hk₂ x (Or.inl (by rw [hx]; exact had))]
          exact h₃
        · obtain ⟨n, h₁, h₂, h₃⟩ := hs₂ x hx hv
          exact ⟨n, by simp only at h₁; omega, h₂, h₃⟩
    · simp at hp
  | sym x =>
    intro f st D hst hp hnd hD
    simp [parse, Form.isIdentifier] at hp
    subst hp
    exact atomCase (.sym x) rfl (by simp) (by simp) hst hD
  | closure i e fr w _ =>
    intro f st D hst hp hnd hD
    simp [parse, Form.isIdentifier] at hp
    subst hp
    exact atomCase (.closure i e fr w) rfl (by simp) (by simp) hst hD
  | _ => intro f st D hst hp; simp [parse, Form.isIdentifier] at hp

/-- Formals that shadow nothing stay as they are. -/
theorem convertFormals_id {fs : List Form} : ∀ {F : Form} {st : St}, (∃ l, st.alpha = [l]) →
    (∀ f, parse F = some f → ∀ x, Form.sym x ∈ f.ids → visible x fs = false) →
    (∃ f, parse F = some f) → convertFormals F fs st = (F, st) := by
  intro F
  induction F with
  | nil => intro st _ _ _; simp [convertFormals, convertFormal]
  | cons a d _ ihd =>
    intro st hst hv hp
    obtain ⟨f, hf⟩ := hp
    have hf' := hf
    simp only [parse] at hf'
    split at hf'
    · simp only [Option.map_eq_some_iff] at hf'
      obtain ⟨g, hg, rfl⟩ := hf'
      have h₁ : convertFormal a fs st = (a, st) := by
        cases a with
        | sym x =>
          have := hv _ hf x (by simp [Frame.ids])
          simp [convertFormal, this]
        | _ => simp [convertFormal]
      have h₂ : convertFormals d fs st = (d, st) := by
        apply ihd hst _ ⟨g, hg⟩
        intro f' hf' x hx
        rw [hg] at hf'
        simp only [Option.some.injEq] at hf'
        subst hf'
        exact hv _ hf x (by simp only [Frame.ids, List.cons_append, List.mem_cons]; right; exact hx)
      simp [convertFormals, h₁, h₂]
    · simp at hf'
  | sym x =>
    intro st hst hv hp
    have := hv ⟨[], some (.sym x)⟩ (by simp [parse, Form.isIdentifier]) x (by simp [Frame.ids])
    simp [convertFormals, convertFormal, this]
  | _ => intro st hst hv hp; simp [convertFormals, convertFormal]

/-! ## The invariant -/

/-- An identifier after α-conversion. -/
def conv (D : List (Name × Form)) : Form → Form
  | .sym x => (D.lookup x).getD (.sym x)
  | v => v

/-- The frames of the expander against the scope of the specification. -/
structure RelF (P : Setup) (ρ φ : List Frame) (D : List (Name × Form)) (next : Nat) : Prop where
  look : ∀ v, Src P.base v → v.isIdentifier = true → lookup φ (conv D v) 0 = lookup ρ v 0
  ids : ∀ f ∈ φ, ∀ v ∈ f.ids, (∃ x, v = .sym x) ∨ (∃ n e fr w, v = .closure (.rename n) e fr w) ∨
    ∃ n e fr w, n < next ∧ v = .closure (.alpha n) e fr w
  bound : ∀ x, bound x φ ↔ bound x ρ
  dict : ∀ x, D.lookup x ≠ none ↔ rebound x ρ
  alias : ∀ x a, D.lookup x = some a → ∃ n < next, a = .closure (.alpha n) P.E0 [] (.sym x)
  kwSym : ∀ x, rebound x ρ → P.C.keyword (.sym x) = none
  kwAlias : ∀ f ∈ ρ, ∀ v ∈ f.ids, (∀ x, v ≠ .sym x) → P.C.keyword v = none

/-- The whole invariant. -/
structure Rel (P : Setup) (ρ : List Frame) (bv : Scopes) (D : List (Name × Form)) (st : St) : Prop where
  ok : StOk P D st
  frames : ∃ φ, Frames (frames bv) φ ∧ RelF P ρ φ D st.next

theorem RelF.mono {P : Setup} {ρ φ : List Frame} {D : List (Name × Form)} {n n' : Nat}
    (h : RelF P ρ φ D n) (hn : n ≤ n') : RelF P ρ φ D n' where
  look := h.look
  ids := fun f hf v hv => by
    rcases h.ids f hf v hv with h | h | ⟨n, e, fr, w, hlt, h⟩
    · exact .inl h
    · exact .inr (.inl h)
    · exact .inr (.inr ⟨n, e, fr, w, by omega, h⟩)
  bound := h.bound
  dict := h.dict
  alias := fun x a ha => by
    obtain ⟨n, hlt, h⟩ := h.alias x a ha
    exact ⟨n, by omega, h⟩
  kwSym := h.kwSym
  kwAlias := h.kwAlias

theorem Rel.ext {P : Setup} {ρ : List Frame} {bv : Scopes} {D : List (Name × Form)} {st st' : St}
    (h : Rel P ρ bv D st) (hx : Ext st st') : Rel P ρ bv D st' := by
  obtain ⟨φ, h₁, h₂⟩ := h.frames
  exact ⟨h.ok.ext hx, φ, h₁, h₂.mono hx.next⟩

theorem bound_mem {x : Name} {ρ : List Frame} (h : bound x ρ) : ∃ f ∈ ρ, Form.sym x ∈ f.ids := by
  obtain ⟨f, hf, hx⟩ := h
  exact ⟨f, hf, by simp [Frame.ids, hx]⟩

theorem bound_lookup {x : Name} {ρ : List Frame} (h : bound x ρ) (i : Nat) :
    lookup ρ (.sym x) i ≠ none := by
  obtain ⟨f, hf, hx⟩ := bound_mem h
  intro hn
  exact lookup_none.mp hn f hf hx

theorem rebound_bound {x : Name} : ∀ {ρ : List Frame}, rebound x ρ → bound x ρ := by
  intro ρ
  induction ρ with
  | nil => intro h; exact h.elim
  | cons f ρ ih =>
    intro h
    rcases h with ⟨_, f', hf', hx⟩ | h
    · exact ⟨f', by simp [hf'], hx⟩
    · obtain ⟨f', hf', hx⟩ := ih h
      exact ⟨f', by simp [hf'], hx⟩

theorem conv_id {P : Setup} {ρ φ : List Frame} {D : List (Name × Form)} {n : Nat}
    (h : RelF P ρ φ D n) {v : Form} (hv : ∀ x, v = .sym x → ¬ rebound x ρ) : conv D v = v := by
  cases v with
  | sym x =>
    have := hv x rfl
    rw [← h.dict x] at this
    simp only [ne_eq, Classical.not_not] at this
    simp [conv, this]
  | _ => rfl

/-- Bound identifiers of a source scope: the parse of source formals. -/
theorem parse_src {base : Nat} : ∀ {F : Form} {f : Frame}, parse F = some f → Src base F →
    ∀ v ∈ f.ids, Src base v := by
  intro F
  induction F with
  | nil => intro f h _; simp [parse] at h; subst h; simp [Frame.ids]
  | cons a d _ ihd =>
    intro f h hs v hv
    simp only [parse] at h
    split at h
    · simp only [Option.map_eq_some_iff] at h
      obtain ⟨g, hg, rfl⟩ := h
      simp only [Frame.ids, List.cons_append, List.mem_cons] at hv
      rcases hv with rfl | hv
      · exact hs.1
      · exact ihd hg hs.2 v hv
    · simp at h
  | sym x =>
    intro f h hs; simp [parse, Form.isIdentifier] at h; subst h
    simp only [Frame.ids, Option.toList, List.nil_append, List.mem_singleton, forall_eq]
    exact hs
  | closure i e fr w _ =>
    intro f h hs; simp [parse, Form.isIdentifier] at h; subst h
    simp only [Frame.ids, Option.toList, List.nil_append, List.mem_singleton, forall_eq]
    exact hs
  | _ => intro f h; simp [parse, Form.isIdentifier] at h

theorem find_map {f : Frame} {r : Form → Form} {v : Form} {i : Nat}
    (hr : ∀ w ∈ f.ids, r w = r v → w = v) :
    Frame.find ⟨f.fixed.map r, f.rest.map r⟩ (r v) i = f.find v i := by
  have h₁ : ∀ l : List Form, (∀ w ∈ l, r w = r v → w = v) →
      (l.map r).findIdx? (· = r v) = l.findIdx? (· = v) := by
    intro l
    induction l with
    | nil => intro _; rfl
    | cons a l ih =>
      intro h
      have ha : (r a = r v) ↔ a = v := ⟨h a (by simp), fun h => by rw [h]⟩
      simp only [List.map_cons, List.findIdx?_cons, ha]
      rw [ih (fun w hw => h w (by simp [hw]))]
  simp only [Frame.find, List.length_map]
  rw [h₁ f.fixed (fun w hw => hr w (by simp [Frame.ids, hw]))]
  have h₂ : (f.rest.map r = some (r v)) ↔ f.rest = some v := by
    cases hrest : f.rest with
    | none => simp
    | some w =>
      simp only [Option.map_some, Option.some.injEq]
      exact ⟨hr w (by simp [Frame.ids, hrest]), fun h => by rw [h]⟩
  simp only [h₂]

theorem ids_map {f : Frame} {r : Form → Form} :
    Frame.ids ⟨f.fixed.map r, f.rest.map r⟩ = f.ids.map r := by
  simp only [Frame.ids, List.map_append]
  cases f.rest <;> rfl

/-- Entering a `lambda`. -/
theorem RelF.enter {P : Setup} {ρ φ : List Frame} {fs : List Form} {D D' : List (Name × Form)}
    {n n' : Nat} (h : RelF P ρ φ D n) (hfs : Frames fs φ) {f : Frame} (hb : P.C.Bindable ρ f)
    (hsrc : ∀ v ∈ f.ids, Src P.base v) (hident : ∀ v ∈ f.ids, v.isIdentifier = true) (hn : n ≤ n')
    (hk : ∀ x, (Form.sym x ∉ f.ids ∨ visible x fs = false) → D'.lookup x = D.lookup x)
    (hs : ∀ x, Form.sym x ∈ f.ids → visible x fs = true → ∃ m, n ≤ m ∧ m < n' ∧
        D'.lookup x = some (.closure (.alpha m) P.E0 [] (.sym x))) :
    RelF P (f :: ρ) (⟨f.fixed.map (ren D' fs), f.rest.map (ren D' fs)⟩ :: φ) D' n' := by
  have hvis : ∀ x, visible x fs = true ↔ Spec.bound x ρ := fun x =>
    (visible_iff hfs).trans (h.bound x)
  -- the new name is the converted name
  have hconv : ∀ v ∈ f.ids, conv D' v = ren D' fs v := by
    intro v hv
    cases v with
    | sym x =>
      simp only [conv, ren]
      by_cases hx : visible x fs = true
      · simp [hx]
      · have hnone : D.lookup x = none := by
          apply Classical.byContradiction
          intro hne
          exact hx ((hvis x).mpr (rebound_bound ((h.dict x).mp hne)))
        rw [hk x (.inr (by simpa using hx)), hnone]
        simp
    | _ => rfl
  -- what a new name looks like
  have hshape : ∀ v ∈ f.ids, ren D' fs v = v ∨
      ∃ x m, v = .sym x ∧ n ≤ m ∧ m < n' ∧ ren D' fs v = .closure (.alpha m) P.E0 [] (.sym x) := by
    intro v hv
    cases v with
    | sym x =>
      by_cases hx : visible x fs = true
      · obtain ⟨m, h₁, h₂, h₃⟩ := hs x hv hx
        exact .inr ⟨x, m, rfl, h₁, h₂, by simp [ren, hx, h₃]⟩
      · left; simp [ren, hx]
    | _ => left; rfl
  have hinj : ∀ w ∈ f.ids, ∀ v ∈ f.ids, ren D' fs w = ren D' fs v → w = v := by
    intro w hw v hv heq
    have nalpha : ∀ v ∈ f.ids, ∀ m x, v ≠ .closure (.alpha m) P.E0 [] (.sym x) := by
      rintro v hv m x rfl
      obtain ⟨⟨k, hk⟩, _⟩ := hsrc _ hv
      cases hk
    rcases hshape w hw with h₁ | ⟨x, m, rfl, _, _, h₁⟩
    · rcases hshape v hv with h₂ | ⟨y, m', rfl, _, _, h₂⟩
      · rw [h₁, h₂] at heq; exact heq
      · rw [h₁, h₂] at heq; exact absurd heq (nalpha w hw _ _)
    · rcases hshape v hv with h₂ | ⟨y, m', rfl, _, _, h₂⟩
      · rw [h₁, h₂] at heq; exact absurd heq.symm (nalpha v hv _ _)
      · rw [h₁, h₂] at heq
        simp only [Form.closure.injEq] at heq
        exact heq.2.2.2
  constructor
  · -- look
    intro v hv hi
    by_cases hmem : v ∈ f.ids
    · rw [hconv v hmem]
      simp only [lookup]
      rw [find_map (fun w hw => hinj w hw v hmem)]
      cases hf : f.find v 0 with
      | some a => rfl
      | none => exact absurd hmem (find_none.mp hf)
    · have hcv : conv D' v = conv D v := by
        cases v with
        | sym x => simp only [conv]; rw [hk x (.inl hmem)]
        | _ => rfl
      rw [hcv, lookup_cons_of_not_mem hmem, lookup_cons_of_not_mem, h.look v hv hi]
      rw [ids_map]
      intro hm
      obtain ⟨w, hw, heq⟩ := List.mem_map.mp hm
      have hcase : conv D v = v ∨ ∃ x m, m < n ∧ conv D v = .closure (.alpha m) P.E0 [] (.sym x) := by
        cases v with
        | sym x =>
          cases hl : D.lookup x with
          | none => left; simp [conv, hl]
          | some a =>
            obtain ⟨m, hm, rfl⟩ := h.alias x a hl
            exact .inr ⟨x, m, hm, by simp [conv, hl]⟩
        | _ => left; rfl
      rcases hshape w hw with h₁ | ⟨x, m, rfl, hm₁, hm₂, h₁⟩
      · rcases hcase with h₂ | ⟨y, m', _, h₂⟩
        · rw [h₁, h₂] at heq; exact hmem (heq ▸ hw)
        · rw [h₁, h₂] at heq
          subst heq
          obtain ⟨⟨k, hk⟩, _⟩ := hsrc _ hw
          cases hk
      · rcases hcase with h₂ | ⟨y, m', hm', h₂⟩
        · rw [h₁, h₂] at heq
          rw [← heq] at hv
          obtain ⟨⟨k, hk⟩, _⟩ := hv
          cases hk
        · rw [h₁, h₂] at heq
          simp only [Form.closure.injEq, Stamp.alpha.injEq] at heq
          omega
  · -- ids
    intro g hg v hv
    rcases List.mem_cons.mp hg with rfl | hg
    · rw [ids_map] at hv
      obtain ⟨w, hw, rfl⟩ := List.mem_map.mp hv
      rcases hshape w hw with h₁ | ⟨x, m, rfl, hm₁, hm₂, h₁⟩
      · rw [h₁]
        have hi := hident w hw
        have hsw := hsrc w hw
        cases w with
        | sym x => exact .inl ⟨x, rfl⟩
        | closure i e fr w =>
          obtain ⟨⟨k, rfl⟩, _⟩ := hsw
          exact .inr (.inl ⟨k, e, fr, w, rfl⟩)
        | _ => simp [Form.isIdentifier] at hi
      · rw [h₁]
        exact .inr (.inr ⟨m, _, _, _, hm₂, rfl⟩)
    · exact (h.mono hn).ids g hg v hv
  · -- bound
    intro x
    simp only [Spec.bound, List.mem_cons, exists_eq_or_imp]
    have hφ := h.bound x
    simp only [Spec.bound] at hφ
    rw [hφ]
    constructor
    · rintro (hx | hx)
      · obtain ⟨w, hw, heq⟩ := List.mem_map.mp hx
        have hw' : w ∈ f.ids := by simp [Frame.ids, hw]
        rcases hshape w hw' with h₁ | ⟨y, m, rfl, _, _, h₁⟩
        · rw [h₁] at heq; subst heq; exact .inl hw
        · rw [h₁] at heq; simp at heq
      · exact .inr hx
    · rintro (hx | hx)
      · by_cases hv : visible x fs = true
        · exact .inr ((hvis x).mp hv)
        · left
          exact List.mem_map.mpr ⟨.sym x, hx, by simp [ren, hv]⟩
      · exact .inr hx
  · -- dict
    intro x
    simp only [rebound]
    by_cases hx : Form.sym x ∈ f.ids
    · by_cases hv : visible x fs = true
      · obtain ⟨m, _, _, h₃⟩ := hs x hx hv
        rw [h₃]
        simp [hx, (hvis x).mp hv]
      · rw [hk x (.inr (by simpa using hv)), h.dict x]
        have := mt (hvis x).mpr hv
        simp [this]
    · rw [hk x (.inl hx), h.dict x]
      simp [hx]
  · -- alias
    intro x a ha
    by_cases hx : Form.sym x ∈ f.ids ∧ visible x fs = true
    · obtain ⟨m, h₁, h₂, h₃⟩ := hs x hx.1 hx.2
      rw [h₃] at ha
      simp only [Option.some.injEq] at ha
      exact ⟨m, h₂, ha.symm⟩
    · rw [hk x] at ha
      · obtain ⟨m, hm, h'⟩ := h.alias x a ha
        exact ⟨m, by omega, h'⟩
      · by_cases hx' : Form.sym x ∈ f.ids
        · right
          have := fun hv => hx ⟨hx', hv⟩
          simpa using this
        · exact .inl hx'
  · -- kwSym
    intro x hx
    rcases hx with ⟨hx, hbx⟩ | hx
    · apply Classical.byContradiction
      intro hne
      obtain ⟨y, hy, hby⟩ := hb.2 _ hx hne
      simp only [Form.sym.injEq] at hy
      subst hy
      exact hby hbx
    · exact h.kwSym x hx
  · -- kwAlias
    intro g hg v hv hns
    rcases List.mem_cons.mp hg with rfl | hg
    · apply Classical.byContradiction
      intro hne
      obtain ⟨y, hy, _⟩ := hb.2 _ hv hne
      exact hns y hy
    · exact h.kwAlias g hg v hv hns

/-- Entering the scope of `letrec` or of internal definitions: nothing is renamed. -/
theorem RelF.enterDef {P : Setup} {ρ φ : List Frame} {fs : List Form} {D : List (Name × Form)}
    {n : Nat} (h : RelF P ρ φ D n) (hfs : Frames fs φ) {vs : List Form} (hd : P.C.Definable ρ vs)
    (hsrc : ∀ v ∈ vs, Src P.base v) :
    RelF P (⟨vs, none⟩ :: ρ) (⟨vs, none⟩ :: φ) D n := by
  have hvis : ∀ x, visible x fs = true ↔ Spec.bound x ρ := fun x =>
    (visible_iff hfs).trans (h.bound x)
  have hids : Frame.ids ⟨vs, none⟩ = vs := by simp [Frame.ids]
  have hno : ∀ x, Form.sym x ∈ vs → visible x fs = false := by
    intro x hx
    have := mt (hvis x).mp ((hd.2 _ hx).2.2 x rfl)
    simpa using this
  have hb : P.C.Bindable ρ ⟨vs, none⟩ := by
    refine ⟨by rw [hids]; exact hd.1, ?_⟩
    intro v hv hne
    rw [hids] at hv
    exact absurd (hd.2 v hv).2.1 hne
  have := h.enter (D' := D) hfs hb (by rw [hids]; exact hsrc)
    (by rw [hids]; exact fun v hv => (hd.2 v hv).1) (Nat.le_refl n) (fun _ _ => rfl)
    (by
      intro x hx hv
      rw [hids] at hx
      rw [hno x hx] at hv
      cases hv)
  have hmap : vs.map (ren D fs) = vs := by
    conv => rhs; rw [← List.map_id vs]
    apply List.map_congr_left
    intro v hv
    cases v with
    | sym x => simp [ren, hno x hv]
    | _ => rfl
  simp only [Option.map_none, hmap] at this
  exact this

/-! ## Heads of forms -/

/-- The global binding of an identifier, if it has one. -/
def Spec.Ctx.strict (C : Ctx) : Form → Option Nat
  | .sym x => C.globals x
  | .closure _ e _ v => C.origin e v
  | _ => none

theorem keyword_strict (C : Ctx) (v : Form) : C.keyword v = (C.strict v).bind C.value := by
  cases v <;> rfl

theorem strict_global {C : Ctx} {v : Form} {g : Nat} (h : C.strict v = some g) :
    C.global v = some g := by
  cases v <;> simp_all [Ctx.strict, Ctx.global]

/-- The identity of an unbound source identifier that has a global binding. -/
theorem identify_global {C : Ctx} {base : Nat} {H : Nat → Env} (hH : EnvOk C base H) {v : Form}
    {fs : List Form} {g : Nat} (hs : Src base v) (hsc : scan v fs 0 = none)
    (hg : C.strict v = some g) : identify H C.globals v fs = some (.absolute g) := by
  unfold identify
  rw [hsc]
  cases v with
  | sym x =>
    simp only [Ctx.strict] at hg
    simp [hg]
  | closure i e fr w =>
    obtain ⟨_, he, _, hw, hsw⟩ := hs
    have hp : ∀ k, pad k (frames []) = pad k [] := fun k => rfl
    simp only [Ctx.strict] at hg
    simp only [hw, if_true, hH e he, hp, identify_pad hH _ hw hsw, hg, Option.map_some]
  | _ => simp [Ctx.strict] at hg

/-- An unbound source identifier without global binding is no keyword. -/
theorem identify_unbound {C : Ctx} {base : Nat} {H : Nat → Env} (hH : EnvOk C base H) {W : World}
    {v : Form} {fs : List Form} {φ : List Frame} (hfs : Frames fs φ) (hs : Src base v)
    (hsc : scan v fs 0 = none) (hg : C.strict v = none) :
    keywordOf W (identify H C.globals v fs) = none := by
  unfold identify
  rw [hsc]
  cases v with
  | sym x =>
    simp only [Ctx.strict] at hg
    simp [hg, keywordOf]
  | closure i e fr w =>
    obtain ⟨_, he, _, hw, hsw⟩ := hs
    have hp : ∀ k, pad k (frames []) = pad k [] := fun k => rfl
    simp only [Ctx.strict] at hg
    simp only [hw, if_true, hH e he, hp, identify_pad hH _ hw hsw, hg, Option.map_none]
    exact identify_not_keyword hH (noMacro hfs) (scan_not_absolute hfs) hw hsw hg
  | _ => simp [keywordOf]

theorem identify_scan {H : Nat → Env} {s : Name → Option Nat} {v : Form} {fs : List Form}
    {a : Identity} (h : scan v fs 0 = some a) : identify H s v fs = some a := by
  unfold identify
  rw [h]

theorem keywordOf_scan {W : World} {H : Nat → Env} {s : Name → Option Nat} {v : Form}
    {fs : List Form} {φ : List Frame} (hfs : Frames fs φ) (h : scan v fs 0 ≠ none) :
    keywordOf W (identify H s v fs) = none := by
  cases hsc : scan v fs 0 with
  | none => exact absurd hsc h
  | some a =>
    rw [identify_scan hsc]
    cases a with
    | absolute g => exact absurd hsc (scan_not_absolute hfs _ _ _)
    | «macro» t => exact absurd hsc (noMacro hfs _ _ _)
    | _ => rfl

theorem scan_none_iff {v : Form} {fs : List Form} {φ : List Frame} (hfs : Frames fs φ) {i : Nat} :
    scan v fs i = none ↔ lookup φ v i = none := by
  rw [scan_eq v hfs]
  simp

/-- What `sweep` sees at the head of a source form. -/
theorem rawHead {P : Setup} (hP : P.Ok) {ρ φ : List Frame} {fs : List Form}
    {D : List (Name × Form)} {n : Nat} (h : RelF P ρ φ D n) (hfs : Frames fs φ) {H : Nat → Env}
    (hH : EnvOk P.C P.base H) {v : Form} (hs : Src P.base v) (hi : v.isIdentifier = true) :
    keywordOf P.W (identify H P.C.globals v fs) = P.C.head ρ v := by
  cases hl : lookup ρ v 0 with
  | some a =>
    have hsc : scan v fs 0 ≠ none := by
      intro hn
      rw [scan_none_iff hfs] at hn
      by_cases hre : ∃ x, v = .sym x ∧ rebound x ρ
      · obtain ⟨x, rfl, hre⟩ := hre
        exact bound_lookup ((h.bound x).mpr (rebound_bound hre)) 0 hn
      · have := h.look v hs hi
        rw [conv_id h (fun x hx hr => hre ⟨x, hx, hr⟩), hn, hl] at this
        cases this
    rw [keywordOf_scan hfs hsc]
    simp [Ctx.head, hl]
  | none =>
    have hre : ∀ x, v = .sym x → ¬ rebound x ρ := by
      rintro x rfl hr
      exact bound_lookup (rebound_bound hr) 0 hl
    have hsc : scan v fs 0 = none := by
      rw [scan_none_iff hfs, ← hl, ← h.look v hs hi, conv_id h hre]
    simp only [Ctx.head, hl, if_true, keyword_strict]
    cases hg : P.C.strict v with
    | some g => rw [identify_global hH hs hsc hg]; simp [keywordOf, hP.value]
    | none => rw [identify_unbound hH hfs hs hsc hg]; rfl

/-- What `expand` sees at the head of a source form. -/
theorem headKeyword_eq {P : Setup} (hP : P.Ok) {ρ : List Frame} {bv : Scopes}
    {D : List (Name × Form)} {st : St} (h : Rel P ρ bv D st) {v : Form} (hs : Src P.base v)
    (hi : v.isIdentifier = true) :
    headKeyword P.W P.C.globals v bv st = (P.C.head ρ v, st) := by
  obtain ⟨φ, hfs, hF⟩ := h.frames
  have hraw := rawHead hP hF hfs h.ok.envs hs hi
  cases v with
  | sym x =>
    have hc : convert (.sym x) st = (conv D (.sym x), st) := by
      have ha := h.ok.alpha
      obtain ⟨a, b, c, d, e, f, g⟩ := st
      simp only at ha
      subst ha
      simp only [convert, convertSym, List.contains_nil, conv]
      cases hl : D.lookup x <;> simp
    simp only [headKeyword, hc]
    cases hl : D.lookup x with
    | none =>
      simp only [conv, hl, Option.getD_none]
      rw [hraw]
    | some a =>
      obtain ⟨n, _, rfl⟩ := hF.alias x a hl
      have hre : rebound x ρ := (hF.dict x).mp (by simp [hl])
      have hhead : P.C.head ρ (.sym x) = none := by
        have := bound_lookup (rebound_bound hre) 0
        simp [Ctx.head, this]
      simp only [conv, hl, Option.getD_some, hhead, Prod.mk.injEq, and_true]
      have hp : ∀ k, pad k (frames []) = pad k [] := fun k => rfl
      have hkw := hF.kwSym x hre
      simp only [Ctx.keyword] at hkw
      have hpad : ∀ k, identify st.envs P.C.globals (.sym x) (pad k []) =
          (P.C.globals x).map .absolute := by
        intro k
        unfold identify
        rw [scan_pad _ rfl]
      simp only [identifyClosure, h.ok.env0, hp, hpad]
      cases hg : P.C.globals x with
      | some g =>
        simp only [hg, Option.bind_some] at hkw
        simp [keywordOf, hP.value, hkw]
      | none =>
        simp only [Option.map_none]
        apply keywordOf_scan hfs
        rw [ne_eq, scan_none_iff hfs]
        exact bound_lookup ((hF.bound x).mpr (rebound_bound hre)) 0
  | closure i e fr w =>
    obtain ⟨hi', he, hfr, hw, hsw⟩ := hs
    have hs : Src P.base (.closure i e fr w) := ⟨hi', he, hfr, hw, hsw⟩
    simp only [headKeyword, convert, Prod.mk.injEq, and_true]
    have hkey : keywordOf P.W (identifyClosure st.envs e w (frames bv)) =
        P.C.keyword (.closure i e fr w) := by
      simp only [Ctx.keyword]
      cases hk : (P.C.origin e w).bind P.C.value with
      | none => exact identifyClosure_not_keyword h.ok.envs hP.value hfs he hw hsw hk
      | some k =>
        obtain ⟨g, hg, hv⟩ := Option.bind_eq_some_iff.mp hk
        rw [identifyClosure_some h.ok.envs he hw hsw hg]
        simp [keywordOf, hP.value, hv]
    rw [hkey]
    cases hl : lookup ρ (.closure i e fr w) 0 with
    | none => simp [Ctx.head, hl]
    | some a =>
      have hmem : ∃ f ∈ ρ, Form.closure i e fr w ∈ f.ids := by
        apply Classical.byContradiction
        intro hn
        have : lookup ρ (.closure i e fr w) 0 = none := by
          rw [lookup_none]
          intro f hf hm
          exact hn ⟨f, hf, hm⟩
        rw [this] at hl
        cases hl
      obtain ⟨f, hf, hm⟩ := hmem
      rw [hF.kwAlias f hf _ hm (by simp)]
      simp [Ctx.head, hl]
  | _ => simp [Form.isIdentifier] at hi

end Meevax.Expand
