import Verif.Lemmas.SurfaceMain

/-! The main induction: what is read has the meaning of its translation. -/

namespace Meevax.Expand

open Secd (Name Code)
open Spec
open Surface (seqs cores)

variable {C : Ctx} {home : Nat} {ids : Macro → Nat} {t r : Name} {H : Name → Prop}
  {sc nsc : Scheme.Scopes} {ρ : List Frame} {m m' m₁ : Nat}

/-- None of the names of `H` occurs. -/
def Spec.Phrase.Avoids : Phrase → (Name → Prop) → Prop
  | .expr e, H => e.Avoids H
  | .list es, H => Surface.Avoid es H
  | .body e, H => e.Avoids H
  | .defs xs es, H => (∀ x ∈ xs, ¬ H x) ∧ Surface.Avoid es H
  | .cond e, H => e.Avoids H
  | .and e, H => e.Avoids H
  | .or e, H => e.Avoids H
  | .letStar e, H => e.Avoids H

/-- Behind any identifier that stands for the macro, the form has a meaning. -/
def GoodTail (C : Ctx) (id : Nat) (ρ : List Frame) (nsc : Scheme.Scopes) (form : Form) (m : Nat)
    (e : Scheme.Expr) : Prop :=
  ∀ q : Form, q.isIdentifier = true → C.head ρ q = some (.transformer id) →
    ∃ T m', Good C ρ nsc (.cons q form) m m' T e

/-- The form has a meaning with the code of the translation of the phrase. -/
def Spec.Phrase.Good (C : Ctx) (ids : Macro → Nat) (t r : Name) (ρ : List Frame) (nsc : Scheme.Scopes)
    (form : Form) (m : Nat) : Phrase → Prop
  | .expr e => ∃ T m', Expand.Good C ρ nsc form m m' T (e.core t r)
  | .list es => ∃ Ts m', Goods C ρ nsc form m m' Ts (cores t r es)
  | .body e => ∃ Ts m', GoodBody C ρ nsc form m m' Ts (e.core t r)
  | .defs _ es => ∃ Ts m', GoodDefs C ρ nsc form m m' Ts (cores t r es)
  | .cond e => GoodTail C (ids .cond) ρ nsc form m (e.core t r)
  | .and e => GoodTail C (ids .and) ρ nsc form m (e.core t r)
  | .or e => GoodTail C (ids .or) ρ nsc form m (e.core t r)
  | .letStar e => GoodTail C (ids .letStar) ρ nsc form m (e.core t r)

theorem cores_ne {es : List Surface.Expr} (h : es ≠ []) : cores t r es ≠ [] := by
  cases es with
  | nil => exact absurd rfl h
  | cons e es => simp [cores]

theorem Spec.Library.use (hL : Library C home ids) {k : Macro} {q d out : Form}
    {e : Scheme.Expr} (hq : C.head ρ q = some (.transformer (ids k))) (hi : q.isIdentifier = true)
    (m₁ : Nat) (ht : (instantiate home (k.template (.cons q d)) [] m).1 = out)
    (hm : (instantiate home (k.template (.cons q d)) [] m).2.2 = m₁)
    (hr : ∀ x, out = .sym x → ¬ rebound x ρ) (h : ∃ T m', Good C ρ nsc out (m₁ + 1) m' T e) :
    ∃ T m', Good C ρ nsc (.cons q d) m m' T e := by
  obtain ⟨T, m', h⟩ := h
  refine ⟨T, m', Good.use hq hi (rs := (instantiate home (k.template (.cons q d)) [] m).2.1) (m₁ := m₁) ?_ ?_ hr h⟩
  · rw [hL.place k, hL.template k, ← ht, ← hm]
  · rw [← hm]; exact instantiate_le _ _ _ _

/-- `(let ((x e) ...) body ...)`, for any keyword `let`. -/
theorem good_let (hL : Library C home ids) {q B body : Form} {F : Frame} {xs : List Name} {k : Nat}
    {es : List Scheme.Expr} {e : Scheme.Expr}
    (hq : C.head ρ q = some (.transformer (ids .let_))) (hi : q.isIdentifier = true)
    (hk : k = m) (hu : Unbound ρ (renamed home k lambdaName))
    (hB : B.isIdentifier = false) (hF : parse (cars B) = some F) (hb : C.Bindable ρ F)
    (hbody : ∃ Ts m', GoodBody C (F :: ρ) ((xs, none) :: nsc) body (m + 2) m' Ts e)
    (hes : ∀ m₁ ≥ m, ∃ Ts m', Goods C ρ nsc (cadrs B) m₁ m' Ts es) :
    ∃ T m', Good C ρ nsc (.cons q (.cons B body)) m m' T (.app (.lam xs none e) es) := by
  subst hk
  obtain ⟨Ts, m₁, hbody⟩ := hbody
  obtain ⟨Ts', m₂, hes⟩ := hes m₁ (by have := hbody.le; omega)
  refine hL.use (k := .let_)
    (out := .cons (.cons (renamed home k lambdaName) (.cons (cars B) body)) (cadrs B))
    hq hi (k + 1) ?_ ?_ (by simp) ?_
  · simp only [Macro.template, letTemplate, hB]
    rfl
  · simp only [Macro.template, letTemplate, hB]
    rfl
  · exact ⟨_, _, Good.app (by simp [Form.isIdentifier])
      (Good.lam (by rw [head_alias hu]; exact hL.lambda) rfl hF hb hbody) hes⟩

theorem good_zero {v : Form} {x : Name} (hi : v.isIdentifier = true) :
    Good C (⟨[v], none⟩ :: ρ) (([x], none) :: nsc) v m m (.ref (.loc 0 0)) (.var x) :=
  Good.temp hi (by simp [lookup, Frame.find, List.findIdx?_cons])
    (by simp [Secd.addrFrom, Secd.addrIn, addressIdentity])

/-- An expression is not a keyword. -/
theorem reads_head {a : Form} {e : Surface.Expr} (h : Reads C ids sc a (.expr e)) (hM : Match C H m sc ρ nsc) :
    a.isIdentifier = true → C.head ρ a = none := by
  intro hi
  cases h with
  | var hv =>
    rename_i x
    unfold Ctx.head
    split
    · rename_i hl
      rcases hv with hv | hv
      · obtain ⟨f, hf, h⟩ := hM.mem hv
        exact absurd h (lookup_none.1 hl f hf)
      · simp only [Ctx.keyword]
        unfold Ctx.index at hv
        cases hg : C.globals x with
        | none => rfl
        | some g => simpa [hg] using hv
    · rfl
  | const hi' => rw [hi'] at hi; cases hi
  | _ => cases hi

/-- The expression for a clause without body, a clause with `=>`, and `or`. -/
theorem good_result (hL : Library C home ids) (ht : H t) (hM : Match C H m sc ρ nsc) {a b d : Form}
    {k : Macro} {ea eb ed : Scheme.Expr}
    (ha : ∀ m₁ ≥ m, ∃ T m', Good C ρ nsc a m₁ m' T ea)
    (hb : ∃ T m', Good C (⟨[renamed home (m + 1) resultName], none⟩ :: ρ) (([t], none) :: nsc) b (m + 5) m' T eb)
    (hd : ∀ {ρ nsc m}, Match C H m sc ρ nsc → GoodTail C (ids k) ρ nsc d m ed) :
    ∃ T m', Good C ρ nsc (.ofList [.ofList [renamed home m lambdaName, .ofList [renamed home (m + 1) resultName],
      .ofList [renamed home (m + 2) ifName, renamed home (m + 1) resultName, b,
        .cons (renamed home (m + 3) k.name) d]], a]) (m + 5) m' T
      (.app (.lam [t] none (.ite (.var t) eb ed)) [ea]) := by
  have hM' : Match C H (m + 5) sc (⟨[renamed home (m + 1) resultName], none⟩ :: ρ) (([t], none) :: nsc) :=
    .temp ht (by omega) (hM.mono (fun _ h => h) (by omega))
  have hu : Unbound (⟨[renamed home (m + 1) resultName], none⟩ :: ρ) (renamed home (m + 2) ifName) :=
    (hM.unbound (by omega) _).temp (by omega)
  have hu' : Unbound (⟨[renamed home (m + 1) resultName], none⟩ :: ρ) (renamed home (m + 3) k.name) :=
    (hM.unbound (by omega) _).temp (by omega)
  exact good_test rfl hL.result
    (by rw [head_alias (hM.unbound (Nat.le_refl _) _)]; exact hL.lambda) rfl
    (by rw [head_alias hu]; exact hL.cond) rfl hb
    (fun m₁ hm₁ => hd (hM'.mono (fun _ h => h) hm₁) _ rfl (by rw [head_alias hu']; exact hL.macros k))
    (fun m₁ hm₁ => ha m₁ (by omega))

/-- `(begin command ... (rec step ...))` -/
theorem good_again (hL : Library C home ids) {kb kr : Nat} {specs : List (Name × Form × Option Form)}
    {commands : List Form} {a : Address} {ss cs : List Scheme.Expr}
    (hb : Unbound ρ (renamed home kb beginName)) (hl : lookup ρ (renamed home kr recName) 0 = some a)
    (ha : Secd.addrFrom r nsc 0 = some (addressIdentity a))
    (hc : ∃ Ts m', Goods C ρ nsc (.ofList commands) m m' Ts cs)
    (hs : ∀ m₁ ≥ m, ∃ Ts m', Goods C ρ nsc (.ofList (specs.map stepOf)) m₁ m' Ts ss) :
    ∃ T m', Good C ρ nsc (againForm home kb kr specs commands) m m' T (Surface.again r ss cs) := by
  obtain ⟨Ts, m₁, hc⟩ := hc
  obtain ⟨Ts', m₂, hs⟩ := hs m₁ hc.le
  exact ⟨_, _, Good.begin (by rw [head_alias hb]; exact hL.begin) rfl
    (hc.append (ds := [_]) (Goods.cons (Good.app (fun _ => by simp [Ctx.head, hl]) (Good.temp rfl hl ha) hs) Goods.nil))
    (by simp)⟩

theorem list_nil {fs : List Form} {es : List Surface.Expr} (h : Reads C ids sc (.ofList fs) (.list es)) :
    fs = [] ↔ es = [] := by
  cases fs with
  | nil => cases h; simp
  | cons f fs =>
    generalize hg : Form.ofList (f :: fs) = g at h
    cases h with
    | nil => cases hg
    | cons => simp

/-- An identifier that is an expression is a symbol. -/
theorem reads_symbol {a : Form} {e : Surface.Expr} (h : Reads C ids sc a (.expr e)) (hi : a.isIdentifier = true) :
    ∃ x, a = .sym x := by
  cases h with
  | var => exact ⟨_, rfl⟩
  | const hi' => rw [hi'] at hi; cases hi
  | _ => cases hi

/-- An identifier at the beginning of an expression is a symbol. -/
theorem reads_operator {a d : Form} {e : Surface.Expr} (h : Reads C ids sc (.cons a d) (.expr e))
    (hi : a.isIdentifier = true) : ∃ x, a = .sym x := by
  generalize hg : Form.cons a d = g at h
  cases h with
  | const _ hd => exact absurd hg.symm (hd a d)
  | app h _ => cases hg; exact reads_symbol h hi
  | var => cases hg
  | _ => cases hg; exact ⟨_, rfl⟩

theorem flattens_symbols (hM : Match C H m sc ρ nsc) {fs ds es : List Form} (h : C.Splices sc fs ds es) :
    C.Flattens ρ fs ds es := by
  induction h with
  | stop => exact .stop
  | form _ ih => exact .form ih
  | begin hq _ ih => exact .begin (head_symbol hM hq) rfl ih

/-- A symbol that is a keyword in the expansion is one in the program. -/
theorem is_of_head (hM : Match C H m sc ρ nsc) {q : Name} {k : Keyword} (h : C.head ρ (.sym q) = some k) :
    C.Is sc q k := by
  unfold Ctx.head at h
  split at h
  · rename_i hl
    refine ⟨fun hq => ?_, h⟩
    obtain ⟨f, hf, h'⟩ := hM.mem hq
    exact lookup_none.1 hl f hf h'
  · cases h

theorem codes_sets {xs : List Name} (hx : xs.Nodup) : ∀ {ys zs : List Name} {Ts : List Term} {es : List Scheme.Expr},
    xs = ys ++ zs → zs.length = es.length → List.Forall₂ (Codes C ((xs, none) :: nsc)) Ts es →
    List.Forall₂ (Codes C ((xs, none) :: nsc)) (sets ys.length Ts) (List.zipWith Scheme.Expr.set zs es)
  | ys, zs, [], [], hz, hl, .nil => by
    cases zs with
    | nil => exact .nil
    | cons => simp at hl
  | ys, [], T :: Ts, e :: es, hz, hl, _ => by simp at hl
  | ys, z :: zs, T :: Ts, e :: es, hz, hl, .cons h hs => by
    refine .cons ?_ ?_
    · intro k tail hk
      have ha : Secd.addr C.index z ((xs, none) :: nsc) = addressIdentity (.loc 0 ys.length) := by
        have hf : (xs.map Form.sym).findIdx? (· = Form.sym z) = some ys.length := by
          rw [List.findIdx?_eq_some_iff_getElem]
          refine ⟨by rw [hz]; simp, by simp [hz], ?_⟩
          intro j hj
          have hj' : j < ys.length := hj
          simp only [List.getElem_map, hz, List.getElem_append_left hj', decide_eq_true_eq, Form.sym.injEq]
          rintro rfl
          rw [hz, List.nodup_append] at hx
          exact hx.2.2 _ (List.getElem_mem hj') _ (by simp) rfl
        simp [Secd.addr, Secd.addrFrom, find_user, hf, addressIdentity]
      simp only [emit, Secd.comp, ha, store_readback]
      exact h _ false (by simp)
    · have := codes_sets hx (ys := ys ++ [z]) (zs := zs) (by simpa using hz) (by simpa using hl) hs
      rwa [List.length_append, List.length_singleton] at this

theorem cores_append (t r : Name) (es es' : List Surface.Expr) : cores t r (es ++ es') = cores t r es ++ cores t r es' := by
  simp [Surface.cores_eq]

theorem cores_sets (t r : Name) : ∀ (xs : List Name) (es : List Surface.Expr),
    cores t r (List.zipWith Surface.Expr.set xs es) = List.zipWith Scheme.Expr.set xs (cores t r es)
  | [], es => by simp [cores]
  | x :: xs, [] => by simp [cores]
  | x :: xs, e :: es => by simp [cores, Surface.Expr.core, cores_sets t r xs es]

theorem codes_nils (xs : List Name) : List.Forall₂ (Codes C nsc) (List.replicate xs.length (.const .nil))
    (cores t r (xs.map fun _ => .const .nil)) := by
  induction xs with
  | nil => exact .nil
  | cons x xs ih =>
    exact .cons (fun k tail _ => by simp [emit, Secd.comp, Surface.Expr.core]) ih

/-- The code of a body with definitions. -/
theorem internal_codes {xs : List Name} {es bs : List Surface.Expr} {Ts Ts' : List Term} (hx : xs.Nodup)
    (hl : xs.length = es.length) (hb : bs ≠ [])
    (h : List.Forall₂ (Codes C ((xs, none) :: nsc)) Ts (cores t r es))
    (h' : List.Forall₂ (Codes C ((xs, none) :: nsc)) Ts' (cores t r bs)) :
    emitBody [.app (.lam xs.length false (sets 0 Ts ++ Ts')) (List.replicate xs.length (.const .nil))] =
      Secd.comp C.index nsc ((internal xs es bs).core t r) [.ret] true := by
  have hs := codes_sets hx (ys := []) (zs := xs) rfl (by rw [Surface.cores_eq, List.length_map, hl]) h
  have hall := List.rel_append hs h'
  beta_reduce at hall
  rw [← cores_sets, ← cores_append] at hall
  simp only [emitBody, internal, Surface.Expr.core, Surface.core_sequence, emit, Secd.comp, if_true]
  rw [Codes.args (codes_nils (C := C) (nsc := nsc) (t := t) (r := r) xs)]
  have hbody := Codes.body hall (cores_ne (by simp [hb]))
  simp only [List.length_nil] at hbody
  rw [hbody]

/-- How many definitions there are. -/
theorem defs_length {d : Form} {xs : List Name} {es : List Surface.Expr} {p : Phrase} (h : Reads C ids sc d p)
    (hp : p = .defs xs es) : xs.length = es.length := by
  induction h generalizing xs es with
  | defsNil => cases hp; rfl
  | defsVar _ _ _ _ ih => cases hp; simp [ih rfl]
  | defsFun _ _ _ _ _ ih => cases hp; simp [ih rfl]
  | _ => cases hp

/-- What they define. -/
theorem defs_defined {xs : List Name} {es : List Surface.Expr} : ∀ {ds : List Form},
    Reads C ids sc (.ofList ds) (.defs xs es) → ds.map defined = (xs.map Form.sym).map some := by
  intro ds h
  generalize hg : Form.ofList ds = g at h
  generalize hp : Phrase.defs xs es = p at h
  induction h generalizing ds xs es with
  | defsNil =>
    cases hp
    cases ds with
    | nil => rfl
    | cons => cases hg
  | defsVar _ _ _ _ ih =>
    cases hp
    cases ds with
    | nil => cases hg
    | cons d ds =>
      cases hg
      simp [defined, Form.ofList, ih rfl rfl]
  | defsFun _ _ _ _ _ ih =>
    cases hp
    cases ds with
    | nil => cases hg
    | cons d ds =>
      cases hg
      simp [defined, ih rfl rfl]
  | _ => cases hp

theorem avoid_append {es es' : List Surface.Expr} {H : Name → Prop} :
    Surface.Avoid (es ++ es') H ↔ Surface.Avoid es H ∧ Surface.Avoid es' H := by
  simp only [Surface.avoid_iff, List.mem_append]
  exact ⟨fun h => ⟨fun e he => h e (.inl he), fun e he => h e (.inr he)⟩,
    fun h e he => he.elim (h.1 e) (h.2 e)⟩

theorem avoid_sets {H : Name → Prop} : ∀ {xs : List Name} {es : List Surface.Expr}, xs.length = es.length →
    Surface.Avoid (List.zipWith Surface.Expr.set xs es) H → Surface.Avoid es H
  | [], [], _, _ => trivial
  | x :: xs, e :: es, hl, h => by
    simp only [List.zipWith_cons_cons, Surface.Avoid, Surface.Expr.Avoids] at h ⊢
    exact ⟨h.1.2, avoid_sets (by simpa using hl) h.2⟩

theorem reads_good (hL : Library C home ids) (hne : t ≠ r) {form : Form} {p : Phrase}
    (h : Reads C ids sc form p) : ∀ {H : Name → Prop} {ρ : List Frame} {nsc : Scheme.Scopes} {m : Nat},
    H t → H r → p.Avoids H → Match C H m sc ρ nsc → p.Good C ids t r ρ nsc form m := by
  induction h with
  | @var sc x hv =>
    intro H ρ nsc m ht hr ha hM
    simp only [Phrase.Avoids, Surface.Expr.Avoids] at ha
    obtain ⟨a, h₁, h₂, h₃⟩ := Good.var hM ha hv
    refine ⟨.ref a, m, .var rfl h₁, ?_, ?_, Nat.le_refl _⟩
    · intro k tail _
      simp only [emit, Surface.Expr.core, Secd.comp, ← h₂, load_readback]
    · intro g hg
      cases hg
      exact h₃ g rfl
  | const hi hd hc =>
    intro H ρ nsc m ht hr ha hM
    exact ⟨_, _, Good.const hi hd hc⟩
  | quote hq hc =>
    intro H ρ nsc m ht hr ha hM
    exact ⟨_, m, .quote (head_symbol hM hq) rfl (.datum hc),
      fun k tail _ => by simp [emit, Secd.comp, Surface.Expr.core], by simp, Nat.le_refl _⟩
  | @lam sc q fs rest body e hq hb _ ih =>
    intro H ρ nsc m ht hr ha hM
    simp only [Phrase.Avoids, Surface.Expr.Avoids] at ha
    obtain ⟨Ts, m', hg⟩ := ih ht hr ha.2 (.user fs rest hM)
    simp only [Phrase.Good, Surface.Expr.core]
    exact ⟨_, _, Good.lam (head_symbol hM hq) rfl (parse_formals fs rest) (bindable_symbols hM hb ha.1) hg⟩
  | @app sc a d f args hf _ ih₁ ih₂ =>
    intro H ρ nsc m ht hr ha hM
    simp only [Phrase.Avoids, Surface.Expr.Avoids] at ha
    obtain ⟨T, m₁, h₁⟩ := ih₁ ht hr ha.1 hM
    obtain ⟨Ts, m₂, h₂⟩ := ih₂ ht hr ha.2 (hM.mono (fun _ h => h) h₁.le)
    exact ⟨_, _, Good.app (reads_head hf hM) h₁ h₂⟩
  | when hq _ _ ih₁ ih₂ =>
    intro H ρ nsc m ht hr ha hM
    simp only [Phrase.Avoids, Surface.Expr.Avoids] at ha
    obtain ⟨T, m₁, h₁⟩ := ih₁ ht hr ha.1 hM
    obtain ⟨Ts, m₂, h₂⟩ := ih₂ ht hr ha.2.1 (hM.mono (fun _ h => h) h₁.le)
    exact ⟨_, _, Good.when (head_symbol hM hq) rfl h₁ h₂⟩
  | ite hq _ _ _ ih₁ ih₂ ih₃ =>
    intro H ρ nsc m ht hr ha hM
    simp only [Phrase.Avoids, Surface.Expr.Avoids] at ha
    obtain ⟨T, m₁, h₁⟩ := ih₁ ht hr ha.1 hM
    obtain ⟨T₂, m₂, h₂⟩ := ih₂ ht hr ha.2.1 (hM.mono (fun _ h => h) h₁.le)
    obtain ⟨T₃, m₃, h₃⟩ := ih₃ ht hr ha.2.2 (hM.mono (fun _ h => h) (Nat.le_trans h₁.le h₂.le))
    exact ⟨_, _, Good.ite (head_symbol hM hq) rfl h₁ h₂ h₃⟩
  | @set sc q x a e hq _ ih =>
    intro H ρ nsc m ht hr ha hM
    simp only [Phrase.Avoids, Surface.Expr.Avoids] at ha
    obtain ⟨T, m₁, h₁⟩ := ih ht hr ha.2 hM
    obtain ⟨a, h₂, h₃⟩ := hM.refers ha.1
    refine ⟨_, _, .set (head_symbol hM hq) rfl rfl h₂ (.cons (.var rfl h₂) (.cons h₁.den .nil)), ?_, by simp,
      h₁.le⟩
    intro k tail hk
    simp only [emit, Surface.Expr.core, Secd.comp, ← h₃, store_readback]
    exact h₁.codes _ false (by simp)
  | begin hq _ hes ih =>
    intro H ρ nsc m ht hr ha hM
    simp only [Phrase.Avoids] at ha
    obtain ⟨Ts, m', hg⟩ := ih ht hr (avoid_of_sequence ha) hM
    simp only [Phrase.Good, Surface.core_sequence]
    exact ⟨_, _, Good.begin (head_symbol hM hq) rfl hg (cores_ne hes)⟩
  | @letrec sc q xs fs body es e hq hd hl _ _ ih₁ ih₂ =>
    intro H ρ nsc m ht hr ha hM
    simp only [Phrase.Avoids, Surface.Expr.Avoids] at ha
    obtain ⟨Ts, m₁, h₁⟩ := ih₁ ht hr ha.2.1 (.user xs none hM)
    obtain ⟨Ts₂, m₂, h₂⟩ := ih₂ ht hr ha.2.2
      (.user xs none (hM.mono (fun _ h => h) h₁.le))
    simp only [Phrase.Good, Surface.Expr.core]
    have := Good.letrec (head_symbol hM hq) rfl (definable_symbols hM hd ha.1) (by simpa using hl) h₁ h₂
    rw [List.zipWith_map_left] at this
    exact ⟨_, _, this⟩
  | cond hq _ ih =>
    intro H ρ nsc m ht hr ha hM
    exact ih ht hr ha hM _ rfl (head_symbol hM hq)
  | and hq _ ih =>
    intro H ρ nsc m ht hr ha hM
    exact ih ht hr ha hM _ rfl (head_symbol hM hq)
  | or hq _ ih =>
    intro H ρ nsc m ht hr ha hM
    exact ih ht hr ha hM _ rfl (head_symbol hM hq)
  | letStar hq _ ih =>
    intro H ρ nsc m ht hr ha hM
    exact ih ht hr ha hM _ rfl (head_symbol hM hq)
  | @let_ sc q xs fs body es e hq hb hl _ _ ih₁ ih₂ =>
    intro H ρ nsc m ht hr ha hM
    simp only [Phrase.Avoids, Surface.Expr.Avoids] at ha
    simp only [Phrase.Good, Surface.Expr.core]
    refine good_let hL (F := ⟨xs.map .sym, none⟩) (head_symbol hM hq) rfl rfl (hM.unbound (Nat.le_refl _) _)
      (ofList_not_identifier _) ?_ ?_
      (ih₂ ht hr ha.2.2 (.user xs none (hM.mono (fun _ h => h) (by omega)))) ?_
    · rw [cars_bindings xs fs hl]; exact parse_formals xs none
    · exact bindable_symbols (rest := none) hM (by simpa using hb) (by simpa using ha.1)
    · intro m₁ hm₁
      rw [cadrs_bindings xs fs hl]
      exact ih₁ ht hr ha.2.1 (hM.mono (fun _ h => h) hm₁)
  | @named sc q f xs fs body es e hq hd hf₁ hf₂ hb hl _ _ ih₁ ih₂ =>
    intro H ρ nsc m ht hr ha hM
    simp only [Phrase.Avoids, Surface.Expr.Avoids] at ha
    obtain ⟨hf, hxs, hes, hbody⟩ := ha
    simp only [Phrase.Good, Surface.Expr.core]
    have hM₁ : Match C H (m + 3) (([f], none) :: sc) (⟨[.sym f], none⟩ :: ρ) (([f], none) :: nsc) :=
      .user [f] none (hM.mono (fun _ h => h) (by omega))
    obtain ⟨Ts, m₁, h₁⟩ := ih₂ ht hr hbody (.user xs none hM₁)
    have hM₂ : Match C (fun x => H x ∨ x = f) m₁ sc (⟨[.sym f], none⟩ :: ρ) (([f], none) :: nsc) :=
      .name (.inr rfl) (hd.2 f (by simp)).1 (hM.mono (fun _ h => .inl h) (by have := h₁.le; omega))
    obtain ⟨Ts₂, m₂, h₂⟩ := ih₁ (.inl ht) (.inl hr) hes hM₂
    have hu : Unbound (⟨[.sym f], none⟩ :: ρ) (renamed home (m + 1) lambdaName) :=
      (hM.unbound (by omega) _).user [f] none
    refine hL.use (k := .let_)
      (out := .cons (renamed home m letrecName) (.cons (.ofList (List.zipWith (fun v e => Form.ofList [v, e])
        [.sym f] [.cons (renamed home (m + 1) lambdaName) (.cons (formals xs none) body)]))
        (.ofList [.cons (.sym f) (.ofList fs)])))
      (head_symbol hM hq) rfl (m + 2) ?_ rfl (by simp) ?_
    · rw [← cars_bindings xs fs hl, ← cadrs_bindings xs fs hl]
      rfl
    · refine ⟨_, _, Good.letrec (by rw [head_alias (hM.unbound (Nat.le_refl _) _)]; exact hL.letrec) rfl
        (definable_symbols (xs := [f]) hM hd (by simpa using hf)) rfl
        (Goods.cons (Good.lam (by rw [head_alias hu]; exact hL.lambda) rfl (parse_formals xs none) ?_ h₁) Goods.nil)
        (Goods.body (es := [_]) (Goods.cons (Good.app ?_ (good_zero rfl) h₂) Goods.nil) (by simp))⟩
      · exact bindable_symbols (rest := none) hM₁ (by simpa using hb) (by simpa using hxs)
      · intro _
        simp [Ctx.head, lookup, Frame.find, List.findIdx?_cons]
  | @do_ sc q specs test res commands es ss et rs cs hq hb _ _ _ hres _ ih₁ ih₂ ih₃ ih₄ ih₅ =>
    intro H ρ nsc m ht hr ha hM
    simp only [Phrase.Avoids, Surface.Expr.Avoids] at ha
    obtain ⟨hxs, hes, hss, het, hrs, hcs⟩ := ha
    simp only [Phrase.Good, Surface.Expr.core]
    generalize hX : specs.map Prod.fst = xs at *
    generalize hF : (specs.map fun s => s.2.1) = fs at *
    have hlen : xs.length = fs.length := by rw [← hX, ← hF]; simp
    have hrx : r ∉ xs := fun h => hxs r h hr
    -- after both expansions
    have key : ∀ (n k : Nat) (X : Form) (eX : Scheme.Expr), m + 4 ≤ n → k = m + 1 →
        (∀ n', n + 3 ≤ n' → ∃ T m', Good C (⟨xs.map .sym, none⟩ :: ⟨[renamed home k recName], none⟩ :: ρ)
          ((xs, none) :: ([r], none) :: nsc) X n' m' T eX) →
        ∃ T m', Good C ρ nsc (.ofList [renamed home m letName, renamed home k recName, bindings xs fs, X]) n m' T
          (.letrec [r] [.lam xs none eX] (.app (.var r) (cores t r es))) := by
      rintro n k X eX hn rfl hX
      obtain ⟨T, m₁, hX⟩ := hX (n + 3) (Nat.le_refl _)
      have hM₁ : Match C H m₁ sc (⟨[renamed home (m + 1) recName], none⟩ :: ρ) (([r], none) :: nsc) :=
        .temp hr (by have := hX.le; omega) (hM.mono (fun _ h => h) (by have := hX.le; omega))
      obtain ⟨Ts₂, m₂, h₂⟩ := ih₁ ht hr hes hM₁
      refine hL.use (k := .let_)
        (out := .cons (renamed home n letrecName) (.cons (.ofList (List.zipWith (fun v e => Form.ofList [v, e])
          [renamed home (m + 1) recName]
          [.cons (renamed home (n + 1) lambdaName) (.cons (formals xs none) (.ofList [X]))]))
          (.ofList [.cons (renamed home (m + 1) recName) (.ofList fs)])))
        (by rw [head_alias (hM.unbound (Nat.le_refl _) _)]; exact hL.macros .let_) rfl (n + 2) ?_ rfl (by simp) ?_
      · rw [← cars_bindings xs fs hlen, ← cadrs_bindings xs fs hlen]
        rfl
      · have hu : Unbound (⟨[renamed home (m + 1) recName], none⟩ :: ρ) (renamed home (n + 1) lambdaName) :=
          (hM.unbound (by omega) _).temp (by omega)
        refine ⟨_, _, Good.letrec (by rw [head_alias (hM.unbound (by omega) _)]; exact hL.letrec) rfl
          ⟨by simp, ?_⟩ rfl
          (Goods.cons (Good.lam (by rw [head_alias hu]; exact hL.lambda) rfl (parse_formals xs none) ?_
            (Goods.body (es := [_]) (Goods.cons hX Goods.nil) (by simp))) Goods.nil)
          (Goods.body (es := [_]) (Goods.cons (Good.app ?_ (good_zero rfl) h₂) Goods.nil) (by simp))⟩
        · intro v hv
          simp only [List.mem_singleton] at hv
          subst hv
          exact ⟨rfl, hL.rec_, by simp⟩
        · exact bindable_symbols (rest := none) hM₁ (by simpa using hb) (by simpa using hxs)
        · intro _
          simp [Ctx.head, lookup, Frame.find, List.findIdx?_cons]
    have hM₂ : ∀ {n k : Nat}, m + 2 ≤ n → k = m + 1 → Match C H n ((xs, none) :: sc)
        (⟨xs.map .sym, none⟩ :: ⟨[renamed home k recName], none⟩ :: ρ) ((xs, none) :: ([r], none) :: nsc) := by
      rintro n k hn rfl
      exact .user xs none (.temp hr (by omega) (hM.mono (fun _ h => h) (by omega)))
    have hun : ∀ {k : Nat} {x : Name}, m ≤ k → k ≠ m + 1 →
        Unbound (⟨xs.map .sym, none⟩ :: ⟨[renamed home (m + 1) recName], none⟩ :: ρ) (renamed home k x) :=
      fun hk hne => ((hM.unbound hk _).temp hne).user xs none
    have hfind : ∀ {i : Nat}, Frame.find ⟨xs.map .sym, none⟩ (renamed home (m + 1) recName) i = none := by
      intro i
      rw [find_none]
      simp [Frame.ids]
    have haddr : ∀ {i : Nat} (sc : Scheme.Scopes), Secd.addrFrom r ((xs, none) :: ([r], none) :: sc) i =
        some (.relative (i + 1) 0) := by
      intro i sc
      have : Secd.addrIn r i xs none 0 = none := by
        rw [find_user]
        rw [List.findIdx?_eq_none_iff.2 (by
          intro v hv
          obtain ⟨x, hx, rfl⟩ := List.mem_map.1 hv
          simp only [decide_eq_false_iff_not, Form.sym.injEq]
          rintro rfl
          exact hrx hx)]
        simp
      simp [Secd.addrFrom, this, Secd.addrIn]
    cases res with
    | nil =>
      obtain rfl : rs = [] := (list_nil hres).1 rfl
      simp only [Surface.cores, Surface.loopBody]
      refine hL.use (k := .do_) (out := .ofList [renamed home m letName, renamed home (m + 1) recName,
        bindings xs fs, .ofList [renamed home m letName, .ofList [.ofList [renamed home (m + 2) itName, test]],
          .ofList [renamed home (m + 3) ifName, renamed home (m + 2) itName, renamed home (m + 2) itName,
            againForm home (m + 4) (m + 1) specs commands]]])
        (head_symbol hM hq) rfl (m + 5) ?_ ?_ (fun x h => by cases h) ?_
      · simp only [Macro.template]
        rw [Form.ofList, inst_do_nil, hX, hF]
      · simp only [Macro.template]
        rw [Form.ofList, inst_do_nil]
      refine key _ _ _ _ (by omega) rfl ?_
      intro n hn
      have hM₃ : ∀ {n'}, n ≤ n' → Match C H n' ((xs, none) :: sc)
          (⟨[renamed home (m + 2) itName], none⟩ :: ⟨xs.map .sym, none⟩ :: ⟨[renamed home (m + 1) recName], none⟩ :: ρ)
          (([t], none) :: (xs, none) :: ([r], none) :: nsc) :=
        fun h => .temp ht (by omega) (hM₂ (by omega) rfl)
      obtain ⟨T, m', hg⟩ := good_again (m := n + 2) hL (a := .loc 2 0) (r := r) (specs := specs) (kb := m + 4) (kr := m + 1)
        (ρ := ⟨[renamed home (m + 2) itName], none⟩ :: ⟨xs.map .sym, none⟩ :: ⟨[renamed home (m + 1) recName], none⟩ :: ρ)
        (nsc := ([t], none) :: (xs, none) :: ([r], none) :: nsc)
        ((hun (by omega) (by omega)).temp (by omega))
        (by
          have h0 : Frame.find ⟨[renamed home (m + 2) itName], none⟩ (renamed home (m + 1) recName) 0 = none := by
            rw [find_none]; simp [Frame.ids]
          simp only [lookup, h0, hfind]
          simp [Frame.find, List.findIdx?_cons])
        (by
          have h0 : Secd.addrIn r 0 [t] none 0 = none := by simp [Secd.addrIn, hne]
          rw [Secd.addrFrom, h0]
          simp only [haddr]
          rfl)
        (ih₅ ht hr hcs (hM₃ (by omega))) (fun m₁ hm₁ => ih₂ ht hr hss (hM₃ (by omega)))
      exact good_let hL (B := .ofList [.ofList [renamed home (m + 2) itName, test]])
        (F := ⟨[renamed home (m + 2) itName], none⟩)
        (by rw [head_alias (hun (Nat.le_refl _) (by omega))]; exact hL.macros .let_) rfl rfl
        (hun (by omega) (by omega)) rfl rfl (bindable_temp hL.it)
        ⟨_, _, Goods.body (es := [_]) (Goods.cons (Good.ite
          (by rw [head_alias ((hun (by omega) (by omega)).temp (by omega))]; exact hL.cond) rfl
          (good_zero rfl) (good_zero rfl) hg) Goods.nil) (by simp)⟩
        (fun m₁ hm₁ => by
          obtain ⟨T, m', h⟩ := ih₃ ht hr het (hM₂ (n := m₁) (by omega) rfl)
          exact ⟨_, _, Goods.cons h Goods.nil⟩)
    | cons a res =>
      obtain ⟨e, rs, rfl⟩ : ∃ e rs', rs = e :: rs' := by
        cases rs with
        | nil => cases (list_nil hres).2 rfl
        | cons e rs => exact ⟨e, rs, rfl⟩
      simp only [Surface.cores, Surface.loopBody]
      refine hL.use (k := .do_) (out := .ofList [renamed home m letName, renamed home (m + 1) recName,
        bindings xs fs, .ofList [renamed home (m + 2) ifName, test,
          .cons (renamed home (m + 3) beginName) (.ofList (a :: res)),
          againForm home (m + 3) (m + 1) specs commands]])
        (head_symbol hM hq) rfl (m + 4) ?_ ?_ (fun x h => by cases h) ?_
      · simp only [Macro.template]
        rw [inst_do, hX, hF]
      · simp only [Macro.template]
        rw [inst_do]
      refine key _ _ _ _ (by omega) rfl ?_
      intro n hn
      obtain ⟨T₁, m₁, h₁⟩ := ih₃ ht hr het (hM₂ (n := n) (by omega) rfl)
      obtain ⟨T₂, m₂, h₂⟩ := ih₄ ht hr hrs (hM₂ (n := m₁) (by have := h₁.le; omega) rfl)
      obtain ⟨T, m', hg⟩ := good_again (m := m₂) hL (a := .loc 1 0) (r := r) (specs := specs) (kb := m + 3) (kr := m + 1)
        (ρ := ⟨xs.map .sym, none⟩ :: ⟨[renamed home (m + 1) recName], none⟩ :: ρ)
        (nsc := (xs, none) :: ([r], none) :: nsc)
        (hun (by omega) (by omega))
        (by
          simp only [lookup, hfind]
          simp [Frame.find, List.findIdx?_cons])
        (by
          simp only [haddr]
          rfl)
        (ih₅ ht hr hcs (hM₂ (by have := h₁.le; have := h₂.le; omega) rfl))
        (fun m₃ hm₃ => ih₂ ht hr hss (hM₂ (by have := h₁.le; have := h₂.le; omega) rfl))
      exact ⟨_, _, Good.ite
        (by rw [head_alias (hun (by omega) (by omega))]; exact hL.cond) rfl h₁
        (Good.begin (by rw [head_alias (hun (by omega) (by omega))]; exact hL.begin) rfl h₂ (by simp)) hg⟩
  | nil =>
    intro H ρ nsc m ht hr ha hM
    exact ⟨[], m, Goods.nil⟩
  | cons _ _ ih₁ ih₂ =>
    intro H ρ nsc m ht hr ha hM
    simp only [Phrase.Avoids, Surface.Avoid] at ha
    obtain ⟨T, m₁, h₁⟩ := ih₁ ht hr ha.1 hM
    obtain ⟨Ts, m₂, h₂⟩ := ih₂ ht hr ha.2 (hM.mono (fun _ h => h) h₁.le)
    exact ⟨_, _, Goods.cons h₁ h₂⟩
  | exprs _ hes ih =>
    intro H ρ nsc m ht hr ha hM
    simp only [Phrase.Avoids] at ha
    obtain ⟨Ts, m', hg⟩ := ih ht hr (avoid_of_sequence ha) hM
    simp only [Phrase.Good, Surface.core_sequence]
    exact ⟨_, _, hg.body (cores_ne hes)⟩
  | @internal sc xs fs ds b bs es e es' d hform hw hds hd hdefs hb hre _ ih₁ ih₂ ih₃ =>
    subst hform
    intro H ρ nsc m ht hr ha hM
    simp only [Phrase.Avoids, internal, Surface.Expr.Avoids] at ha
    obtain ⟨hxs, -, ha⟩ := ha
    obtain ⟨ha₁, ha₂, ha₃⟩ := avoid_append.1 (avoid_of_sequence ha)
    have hlen := defs_length hdefs rfl
    replace ha₁ := avoid_sets hlen ha₁
    have hM' : ∀ {n}, m ≤ n → Match C H n ((xs, none) :: sc) (⟨xs.map .sym, none⟩ :: ρ) ((xs, none) :: nsc) :=
      fun h => .user xs none (hM.mono (fun _ h => h) h)
    have hdef := definable_symbols hM hd hxs
    have hlen' : (xs.map Form.sym).length = xs.length := by simp
    by_cases hu : ∃ q d tr, b = .cons q d ∧ q.isIdentifier = true ∧
        C.head (⟨xs.map .sym, none⟩ :: ρ) q = some (.transformer tr)
    · obtain ⟨q, d, tr, rfl, hi, hq⟩ := hu
      obtain ⟨T, m₁, h₁⟩ := ih₂ ht hr ha₂ (hM' (Nat.le_refl m))
      obtain ⟨Ts, m₂, h₂⟩ := ih₁ ht hr ⟨hxs, ha₁⟩ (hM' h₁.le)
      obtain ⟨Ts', m₃, h₃⟩ := ih₃ ht hr ha₃ (hM' (Nat.le_trans h₁.le h₂.le))
      have hden := Den.defineUse (flattens_symbols (hM' (Nat.le_refl m)) hw) hds (defs_defined hdefs) hdef hi hq h₁.den h₂.den h₃.den
      rw [hlen'] at hden
      exact ⟨_, _, hden, internal_codes hd.1 hlen (by simp) h₂.codes (.cons h₁.codes h₃.codes),
        Nat.le_trans h₁.le (Nat.le_trans h₂.le h₃.le)⟩
    · obtain ⟨Ts, m₁, h₁⟩ := ih₁ ht hr ⟨hxs, ha₁⟩ (hM' (Nat.le_refl m))
      obtain ⟨T, m₂, h₂⟩ := ih₂ ht hr ha₂ (hM' h₁.le)
      obtain ⟨Ts', m₃, h₃⟩ := ih₃ ht hr ha₃ (hM' (Nat.le_trans h₁.le h₂.le))
      have hden := Den.define (es := bs) (flattens_symbols (hM' (Nat.le_refl m)) hw) hds (defs_defined hdefs) hdef (by
        rintro q d rfl hi
        refine ⟨fun hq => ?_, fun tr hq => hu ⟨q, d, tr, rfl, hi, hq⟩⟩
        obtain ⟨x, rfl⟩ := reads_operator hre hi
        exact hb x d rfl (is_of_head (hM' (Nat.le_refl m)) hq)) h₁.den (.cons h₂.den h₃.den)
      rw [hlen'] at hden
      exact ⟨_, _, hden, internal_codes hd.1 hlen (by simp) h₁.codes (.cons h₂.codes h₃.codes),
        Nat.le_trans h₁.le (Nat.le_trans h₂.le h₃.le)⟩
  | defsNil =>
    intro H ρ nsc m ht hr ha hM
    exact ⟨[], m, .defsNil, .nil, Nat.le_refl _⟩
  | defsVar hq _ _ ih₁ ih₂ =>
    intro H ρ nsc m ht hr ha hM
    simp only [Phrase.Avoids, Surface.Avoid, List.forall_mem_cons] at ha
    obtain ⟨T, m₁, h₁⟩ := ih₁ ht hr ha.2.1 hM
    obtain ⟨Ts, m₂, h₂⟩ := ih₂ ht hr ⟨ha.1.2, ha.2.2⟩ (hM.mono (fun _ h => h) h₁.le)
    exact ⟨_, _, .defsVar (head_symbol hM hq) rfl rfl h₁.den h₂.den, .cons h₁.codes h₂.codes, Nat.le_trans h₁.le h₂.le⟩
  | @defsFun sc q x fs rest body d e xs es hq hb _ _ ih₁ ih₂ =>
    intro H ρ nsc m ht hr ha hM
    simp only [Phrase.Avoids, Surface.Avoid, Surface.Expr.Avoids, List.forall_mem_cons] at ha
    obtain ⟨T, m₁, h₁⟩ := ih₁ ht hr ha.2.1.2 (.user fs rest hM)
    obtain ⟨Ts, m₂, h₂⟩ := ih₂ ht hr ⟨ha.1.2, ha.2.2⟩ (hM.mono (fun _ h => h) h₁.le)
    refine ⟨_, _, .defsFun (head_symbol hM hq) rfl (parse_formals fs rest) (bindable_symbols hM hb ha.2.1.1) h₁.den h₂.den,
      .cons ?_ h₂.codes, Nat.le_trans h₁.le h₂.le⟩
    intro k tail hk
    simp only [emit, Surface.Expr.core, Secd.comp, h₁.codes]
  | condNil =>
    intro H ρ nsc m ht hr ha hM q hi hq
    exact hL.use (k := .cond) (out := .unspecified) hq hi m rfl rfl
      (by simp) ⟨_, _, Good.const rfl (by simp) rfl⟩
  | condElse _ _ hes ih =>
    intro H ρ nsc m ht hr ha hM q hi hq
    simp only [Phrase.Avoids] at ha
    obtain ⟨Ts, m', hg⟩ := ih ht hr (avoid_of_sequence ha) (hM.mono (fun _ h => h) (show m ≤ m + 2 by omega))
    simp only [Surface.core_sequence]
    exact hL.use (k := .cond) hq hi (m + 1) rfl rfl (fun x h => by cases h)
      ⟨_, _, Good.begin (by rw [head_alias (hM.unbound (Nat.le_refl _) _)]; exact hL.begin) rfl hg (cores_ne hes)⟩
  | @condTest sc a d ea ed hne' _ _ ih₁ ih₂ =>
    intro H ρ nsc m ht hr ha hM q hi hq
    simp only [Phrase.Avoids, Surface.Expr.Avoids] at ha
    refine hL.use (k := .cond) hq hi (m + 4) ?_ ?_ (fun x h => by cases h)
      (good_result (b := renamed home (m + 1) resultName) (k := .cond) hL ht hM
        (fun m₁ hm₁ => ih₁ ht hr ha.1 (hM.mono (fun _ h => h) hm₁)) ⟨_, _, good_zero rfl⟩
        (fun hM => ih₂ ht hr ha.2 hM))
    · simp only [Macro.template, condTemplate, Form.ofList, if_neg hne']
      rfl
    · simp only [Macro.template, condTemplate, Form.ofList, if_neg hne']
      rfl
  | @condArrow sc a f d ea ef ed hne' _ _ hf _ ih₁ ih₂ ih₃ =>
    intro H ρ nsc m ht hr ha hM q hi hq
    simp only [Phrase.Avoids, Surface.Expr.Avoids] at ha
    have hM' : Match C H (m + 5) sc (⟨[renamed home (m + 1) resultName], none⟩ :: ρ) (([t], none) :: nsc) :=
      .temp ht (by omega) (hM.mono (fun _ h => h) (by omega))
    obtain ⟨Tf, m₁, hgf⟩ := ih₂ ht hr ha.2.1 hM'
    refine hL.use (k := .cond) hq hi (m + 4) ?_ ?_ (fun x h => by cases h)
      (good_result (b := .ofList [f, renamed home (m + 1) resultName]) (k := .cond) hL ht hM
        (fun m₁ hm₁ => ih₁ ht hr ha.1 (hM.mono (fun _ h => h) hm₁))
        ⟨_, _, Good.app (reads_head hf hM') hgf (Goods.cons (good_zero rfl) Goods.nil)⟩
        (fun hM => ih₃ ht hr ha.2.2 hM))
    · simp only [Macro.template, condTemplate, Form.ofList, if_neg hne', if_true]
      rfl
    · simp only [Macro.template, condTemplate, Form.ofList, if_neg hne', if_true]
      rfl
  | @condBody sc a b bs d ea es ed hne' hne₂ _ hbs _ ih₁ ih₂ ih₃ =>
    intro H ρ nsc m ht hr ha hM q hi hq
    simp only [Phrase.Avoids, Surface.Expr.Avoids] at ha
    obtain ⟨T₁, m₁, h₁⟩ := ih₁ ht hr ha.1 (hM.mono (fun _ h => h) (show m ≤ m + 4 by omega))
    obtain ⟨T₂, m₂, h₂⟩ := ih₂ ht hr (avoid_of_sequence ha.2.1)
      (hM.mono (fun _ h => h) (show m ≤ m₁ by have := h₁.le; omega))
    obtain ⟨T₃, m₃, h₃⟩ := ih₃ ht hr ha.2.2 (hM.mono (fun _ h => h) (show m ≤ m₂ by have := h₁.le; have := h₂.le; omega))
      (renamed home (m + 2) condName) rfl (by rw [head_alias (hM.unbound (by omega) _)]; exact hL.macros .cond)
    simp only [Surface.Expr.core, Surface.core_sequence]
    have hes : es ≠ [] := by rintro rfl; cases hbs
    refine hL.use (k := .cond) hq hi (m + 3) ?_ ?_ (fun x h => by cases h) ⟨_, _, Good.ite
      (q := renamed home m ifName) (b := .cons (renamed home (m + 1) beginName) (.cons b bs))
      (by rw [head_alias (hM.unbound (Nat.le_refl _) _)]; exact hL.cond) rfl h₁
      (Good.begin (by rw [head_alias (hM.unbound (by omega) _)]; exact hL.begin) rfl h₂ (cores_ne hes)) h₃⟩
    · simp only [Macro.template, condTemplate, Form.ofList, if_neg hne', if_neg hne₂]
      rfl
    · simp only [Macro.template, condTemplate, Form.ofList, if_neg hne', if_neg hne₂]
      rfl
  | andNil =>
    intro H ρ nsc m ht hr ha hM q hi hq
    exact hL.use (k := .and) (out := .bool true) hq hi m rfl rfl
      (by simp) ⟨_, _, Good.const rfl (by simp) rfl⟩
  | @andOne sc a e hb h ih =>
    intro H ρ nsc m ht hr ha hM q hi hq
    simp only [Phrase.Avoids] at ha
    refine hL.use (k := .and) hq hi m rfl rfl ?_ (ih ht hr ha (hM.mono (fun _ h => h) (by omega)))
    rintro x (rfl : a = .sym x)
    cases h with
    | var hv => exact fun h' => hb x rfl (hM.rebound ha h')
    | const hi => cases hi
  | andCons _ _ ih₁ ih₂ =>
    intro H ρ nsc m ht hr ha hM q hi hq
    simp only [Phrase.Avoids, Surface.Expr.Avoids] at ha
    obtain ⟨T₁, m₁, h₁⟩ := ih₁ ht hr ha.1 (hM.mono (fun _ h => h) (show m ≤ m + 3 by omega))
    obtain ⟨T₃, m₃, h₃⟩ := ih₂ ht hr ha.2.1 (hM.mono (fun _ h => h) (show m ≤ m₁ by have := h₁.le; omega))
      (renamed home (m + 1) andName) rfl (by rw [head_alias (hM.unbound (by omega) _)]; exact hL.macros .and)
    exact hL.use (k := .and) hq hi (m + 2) rfl rfl (fun x h => by cases h) ⟨_, _, Good.ite
      (q := renamed home m ifName) (c := .bool false)
      (by rw [head_alias (hM.unbound (Nat.le_refl _) _)]; exact hL.cond) rfl h₁ h₃
      (Good.const rfl (by simp) rfl)⟩
  | orNil =>
    intro H ρ nsc m ht hr ha hM q hi hq
    exact hL.use (k := .or) (out := .bool false) hq hi m rfl rfl
      (by simp) ⟨_, _, Good.const rfl (by simp) rfl⟩
  | @orOne sc a e hb h ih =>
    intro H ρ nsc m ht hr ha hM q hi hq
    simp only [Phrase.Avoids] at ha
    refine hL.use (k := .or) hq hi m rfl rfl ?_ (ih ht hr ha (hM.mono (fun _ h => h) (by omega)))
    rintro x (rfl : a = .sym x)
    cases h with
    | var hv => exact fun h' => hb x rfl (hM.rebound ha h')
    | const hi => cases hi
  | orCons _ _ ih₁ ih₂ =>
    intro H ρ nsc m ht hr ha hM q hi hq
    simp only [Phrase.Avoids, Surface.Expr.Avoids] at ha
    exact hL.use (k := .or) hq hi (m + 4) rfl rfl (fun x h => by cases h)
      (good_result (b := renamed home (m + 1) resultName) (k := .or) hL ht hM
        (fun m₁ hm₁ => ih₁ ht hr ha.1 (hM.mono (fun _ h => h) hm₁)) ⟨_, _, good_zero rfl⟩
        (fun hM => ih₂ ht hr ha.2 hM))
  | letStarNil _ ih =>
    intro H ρ nsc m ht hr ha hM q hi hq
    simp only [Phrase.Avoids, Surface.Expr.Avoids] at ha
    simp only [Surface.Expr.core]
    refine hL.use (k := .letStar) hq hi (m + 1) rfl rfl (fun x h => by cases h) ?_
    exact good_let hL (B := .nil) (F := ⟨[], none⟩)
      (by rw [head_alias (hM.unbound (Nat.le_refl _) _)]; exact hL.macros .let_) rfl rfl
      (hM.unbound (by omega) _) rfl rfl ⟨by simp [Frame.ids], by simp [Frame.ids]⟩
      (ih ht hr ha.2.2 (.user [] none (hM.mono (fun _ h => h) (by omega))))
      (fun m₁ hm₁ => ⟨_, _, Goods.nil⟩)
  | @letStarCons sc x a d body ea e hb _ _ ih₁ ih₂ =>
    intro H ρ nsc m ht hr ha hM q hi hq
    simp only [Phrase.Avoids, Surface.Expr.Avoids, Surface.Avoid] at ha
    simp only [Surface.Expr.core, Surface.cores]
    refine hL.use (k := .letStar) hq hi (m + 2) rfl rfl (fun x h => by cases h) ?_
    have hMx : Match C H (m + 3 + 2) (([x], none) :: sc) (⟨[.sym x], none⟩ :: ρ) (([x], none) :: nsc) :=
      .user [x] none (hM.mono (fun _ h => h) (by omega))
    obtain ⟨T, m', hg⟩ := ih₂ ht hr ha.2.2 hMx (renamed home (m + 1) letStarName) rfl
      (by
        have hu : Unbound (⟨[.sym x], none⟩ :: ρ) (renamed home (m + 1) letStarName) :=
          (hM.unbound (by omega) _).user [x] none
        rw [head_alias hu]; exact hL.macros .letStar)
    exact good_let hL (B := .ofList [.ofList [.sym x, a]]) (F := ⟨[.sym x], none⟩)
      (by rw [head_alias (hM.unbound (Nat.le_refl _) _)]; exact hL.macros .let_) rfl rfl
      (hM.unbound (by omega) _) rfl rfl
      (bindable_symbols (fs := [x]) (rest := none) hM hb (by simpa using ha.1))
      ⟨_, _, Goods.body (es := [_]) (Goods.cons hg Goods.nil) (by simp)⟩
      (fun m₁ hm₁ => by
        obtain ⟨T, m', h⟩ := ih₁ ht hr ha.2.1.1 (hM.mono (fun _ h => h) (show m ≤ m₁ by omega))
        exact ⟨_, _, Goods.cons h Goods.nil⟩)

end Meevax.Expand
