import Verif.Lemmas.HygieneTarget

/-!
The expander leaves expanded forms as they are, and `sweep` finds no definitions in them.
-/

namespace Meevax.Expand

open Secd (Name Code)
open Spec

/-! ## The expander, step by step -/

section
variable {W : World} {s : Name → Option Nat} {n : Nat} {q a d : Form} {bv : Scopes} {st st' : St}

theorem expand_syn {k : Syntax} (hq : q.isIdentifier = true)
    (h : headKeyword W s q bv st = (some (.syn k), st')) :
    expand W (n + 1) s (.cons q d) bv st = expandSyntax W n k s (.cons q d) bv st' := by
  rw [expand]; simp only [hq, if_true, h]

theorem expand_use {t : Nat} (hq : q.isIdentifier = true)
    (h : headKeyword W s q bv st = (some (.transformer t), st')) :
    expand W (n + 1) s (.cons q d) bv st =
      expand W n s (transform W t (.cons q d) (newEnv bv s st').1 (newEnv bv s st').2).1 bv
        (transform W t (.cons q d) (newEnv bv s st').1 (newEnv bv s st').2).2 := by
  rw [expand]; simp only [hq, if_true, h]

theorem expand_call (h : q.isIdentifier = true → headKeyword W s q bv st = (none, st)) :
    expand W (n + 1) s (.cons q d) bv st = call W n s (.cons q d) bv st := by
  rw [expand]
  by_cases hq : q.isIdentifier = true
  · simp only [hq, if_true, h hq]
  · simp only [hq]
    rfl

theorem expand_closure_some {i e fr w} {b : Identity}
    (h : identify st.envs s (.closure i e fr w) (frames bv) = some b) :
    expand W (n + 1) s (.closure i e fr w) bv st = some (.closure i e fr w, st) := by
  rw [expand]; simp only [h, convert]

theorem expand_closure_none {i e fr w}
    (h : identify st.envs s (.closure i e fr w) (frames bv) = none) :
    expand W (n + 1) s (.closure i e fr w) bv st =
      expandClosure W n (.closure i e fr w) bv st := by
  rw [expand]; simp only [h]

theorem expand_sym {x : Name} : expand W (n + 1) s (.sym x) bv st = some (convert (.sym x) st) := by
  rw [expand]

theorem expand_atom (h₁ : d.isIdentifier = false) (h₂ : ∀ a b, d ≠ .cons a b) :
    expand W (n + 1) s d bv st = some (d, st) := by
  rw [expand.eq_def]
  cases d <;> simp_all [Form.isIdentifier]

theorem expandClosure_same {i e fr w} (h : sameScopes (st.envs e).first bv = true) :
    expandClosure W (n + 1) (.closure i e fr w) bv st = expand W n (st.envs e).second w bv st := by
  rw [expandClosure]; simp only [h, if_true]

theorem call_eq : call W (n + 1) s (.cons a d) bv st =
    (expand W n s a bv st).bind fun p => (operand W n s d bv p.2).bind fun r =>
      some (.cons p.1 r.1, r.2) := by
  rw [call]; rfl

theorem operand_cons : operand W (n + 1) s (.cons a d) bv st =
    (expand W n s a bv st).bind fun p => (operand W n s d bv p.2).bind fun r =>
      some (.cons p.1 r.1, r.2) := by
  rw [operand]; rfl

theorem operand_nil : operand W (n + 2) s .nil bv st = some (.nil, st) := by
  rw [operand, expand_atom rfl (by simp)]
  intro a b h; cases h

theorem inits_cons {v e r : Form} : inits W (n + 1) s (.cons (.cons v (.cons e r)) d) bv st =
    (expand W n s e bv st).bind fun p => (inits W n s d bv p.2).bind fun q =>
      some (.cons (.ofList [v, p.1]) q.1, q.2) := by
  rw [inits]; rfl

theorem inits_nil : inits W (n + 1) s .nil bv st = some (.nil, st) := by
  rw [inits]

theorem sameScopes_self : ∀ bv : Scopes, sameScopes bv bv = true
  | [] => rfl
  | (i, F) :: bv => by simp [sameScopes]

theorem syntax_quote {form : Form} :
    expandSyntax W (n + 1) .quote s form bv st = some (form, st) := by
  rw [expandSyntax.eq_def]

theorem syntax_begin {form : Form} :
    expandSyntax W (n + 1) .begin s form bv st = operand W n s form bv st := by
  rw [expandSyntax.eq_def]

theorem syntax_lambda {F forms : Form} :
    expandSyntax W (n + 1) .lambda s (.cons q (.cons F forms)) bv st =
      (body W n s forms
        (((convertFormals F (frames bv) st).2.next, (convertFormals F (frames bv) st).1) :: bv)
        { (convertFormals F (frames bv) st).2 with
          next := (convertFormals F (frames bv) st).2.next + 1 }).bind fun p =>
        some (.cons (convert q (restore st.alpha p.2)).1
          (.cons (convertFormals F (frames bv) st).1 p.1), (convert q (restore st.alpha p.2)).2) := by
  rw [expandSyntax.eq_def]; rfl

theorem syntax_letrec {bs forms F : Form} (hF : mapCar bs = some F) :
    expandSyntax W (n + 1) .letrec s (.cons q (.cons bs forms)) bv st =
      (inits W n s bs
        (((convertFormals F (frames bv) st).2.next, (convertFormals F (frames bv) st).1) :: bv)
        { (convertFormals F (frames bv) st).2 with
          next := (convertFormals F (frames bv) st).2.next + 1 }).bind fun p =>
        (body W n s forms
          (((convertFormals F (frames bv) st).2.next, (convertFormals F (frames bv) st).1) :: bv)
          p.2).bind fun r => some (.cons q (.cons p.1 r.1), r.2) := by
  rw [expandSyntax.eq_def]
  simp only [hF, Option.bind_eq_bind, Option.bind_some]

theorem syntax_cond : expandSyntax W (n + 1) .cond s (.cons q d) bv st =
    (operand W n s d bv (convert q st).2).bind fun p =>
      some (.cons (convert q st).1 p.1, p.2) := by
  rw [expandSyntax.eq_def]; rfl

theorem syntax_set : expandSyntax W (n + 1) .set s (.cons q d) bv st =
    (operand W n s d bv (convert q st).2).bind fun p =>
      some (.cons (convert q st).1 p.1, p.2) := by
  rw [expandSyntax.eq_def]; rfl

/-- The end of `body`, when there are no definitions. -/
theorem body_plain {form : Form} {st₁ : St}
    (h : sweep W n s form form bv (newEnv bv s st).1 [] [] (newEnv bv s st).2 =
      some ([], [], .cons a d, st₁)) :
    body W (n + 1) s form bv st =
      (expand W n s a bv st₁).bind fun p => (body W n s d bv p.2).bind fun r =>
        some (.cons p.1 r.1, r.2) := by
  rw [body]
  simp only [h, Option.bind_eq_bind, Option.bind_some]

theorem sweep_nil {form : Form} {e : Nat} {formals specs : List Form} :
    sweep W (n + 1) s form .nil bv e formals specs st = some (specs, formals, .nil, st) := by
  rw [sweep.eq_def]

theorem body_nil : body W (n + 2) s .nil bv st = some (.nil, (newEnv bv s st).2) := by
  rw [body]
  simp only [sweep_nil, Option.bind_eq_bind, Option.bind_some]
  rw [expand_atom rfl (by simp)]

variable {form rest : Form} {env : Nat} {formals specs : List Form}

theorem sweep_closure_some {i e fr w} {b : Identity}
    (h : identify st.envs s (.closure i e fr w) (frames (st.envs env).first) = some b) :
    sweep W (n + 1) s form (.cons (.closure i e fr w) rest) bv env formals specs st =
      some (specs, formals, .cons (.closure i e fr w) rest, st) := by
  rw [sweep.eq_def]; simp only [h]

theorem sweep_closure_none {i e fr w}
    (h : identify st.envs s (.closure i e fr w) (frames (st.envs env).first) = none) :
    sweep W (n + 1) s form (.cons (.closure i e fr w) rest) bv env formals specs st =
      (expandClosure W n (.closure i e fr w) (st.envs env).first st).bind fun p =>
        sweep W n s form (.cons p.1 rest) bv env formals specs p.2 := by
  rw [sweep.eq_def]; simp only [h]; rfl

theorem sweep_atom (h₁ : ∀ a b, a' = Form.cons a b → False)
    (h₂ : ∀ i e fr w, a' = Form.closure i e fr w → False) :
    sweep W (n + 1) s form (.cons a' rest) bv env formals specs st =
      some (specs, formals, .cons a' rest, st) := by
  rw [sweep.eq_def]
  cases a' with
  | cons a b => exact (h₁ _ _ rfl).elim
  | closure i e fr w => exact (h₂ _ _ _ _ rfl).elim
  | _ => rfl

/-- The keyword `sweep` sees. -/
def sweepHead (W : World) (s : Name → Option Nat) (a : Form) (bv : Scopes) (st : St) : Option Keyword :=
  if a.isIdentifier then keywordOf W (identify st.envs s a (frames bv)) else none

theorem sweepHead_def (W : World) (s : Name → Option Nat) (a : Form) (bv : Scopes) (st : St) :
    sweepHead W s a bv st =
      if a.isIdentifier then keywordOf W (identify st.envs s a (frames bv)) else none := rfl

theorem sweep_other (h₁ : ∀ t, sweepHead W s a bv st ≠ some (.transformer t))
    (h₂ : sweepHead W s a bv st ≠ some (.syn .begin))
    (h₃ : sweepHead W s a bv st ≠ some (.syn .define))
    (h₄ : sweepHead W s a bv st ≠ some (.syn .defineSyntax)) :
    sweep W (n + 1) s form (.cons (.cons a d) rest) bv env formals specs st =
      some (specs, formals, .cons (.cons a d) rest, st) := by
  generalize hk : sweepHead W s a bv st = k at *
  rw [sweepHead_def] at hk
  rw [sweep.eq_def]
  simp only [hk]

theorem sweep_begin (h : sweepHead W s a bv st = some (.syn .begin)) :
    sweep W (n + 1) s form (.cons (.cons a d) rest) bv env formals specs st =
      sweep W n s form (append d rest) bv env formals specs st := by
  rw [sweep.eq_def]
  simp only [← sweepHead_def, h]

theorem sweep_use {t : Nat} (h : sweepHead W s a bv st = some (.transformer t)) :
    sweep W (n + 1) s form (.cons (.cons a d) rest) bv env formals specs st =
      sweep W n s form (.cons (transform W t (.cons a d) env st).1 rest) bv env formals specs
        (transform W t (.cons a d) env st).2 := by
  rw [sweep.eq_def]
  simp only [← sweepHead_def, h]

end

/-! ## Expanded forms stay as they are -/

/-- The place of an expanded form. -/
structure Place (P : Setup) (H : Nat → Env) (N : Nat) (D : List (Name × Form)) (fs : List Form)
    (bv : Scopes) (st : St) : Prop where
  eq : frames bv = fs
  parses : ∃ φ, Frames fs φ
  ok : StOk P D st
  envs : ∀ e < N, st.envs e = H e
  le : N ≤ st.nextEnv

theorem Place.ext {P : Setup} {H : Nat → Env} {N : Nat} {D : List (Name × Form)} {fs : List Form}
    {bv : Scopes} {st st' : St} (h : Place P H N D fs bv st) (hx : Ext st st') :
    Place P H N D fs bv st' :=
  ⟨h.eq, h.parses, h.ok.ext hx,
    fun e he => (hx.envs e (Nat.lt_of_lt_of_le he h.le)).trans (h.envs e he),
    Nat.le_trans h.le hx.nextEnv⟩

theorem Place.enter {P : Setup} {H : Nat → Env} {N : Nat} {D : List (Name × Form)} {fs : List Form}
    {bv : Scopes} {st : St} (h : Place P H N D fs bv st) {F : Form} {f : Frame}
    (hF : parse F = some f) (i : Nat) : Place P H N D (F :: fs) ((i, F) :: bv) st :=
  ⟨by simp only [frames, List.map_cons]; rw [← h.eq]; rfl, frames_cons h.parses hF, h.ok, h.envs, h.le⟩

theorem convert_plain {P : Setup} {D : List (Name × Form)} {st : St} (h : StOk P D st) {q : Form}
    (hq : ∀ x, q = .sym x → D.lookup x = none) : convert q st = (q, st) := by
  cases q with
  | sym x =>
    have ha := h.alpha
    obtain ⟨a, b, c, d, e, f, g⟩ := st
    simp only at ha
    subst ha
    simp [convert, convertSym, hq x rfl]
  | _ => rfl

theorem restore_same {P : Setup} {D : List (Name × Form)} {st st' : St} (h : StOk P D st)
    (hx : st'.alpha = st.alpha) : restore st.alpha st' = st' := by
  have ha := h.alpha
  rw [ha] at hx ⊢
  obtain ⟨a, b, c, d, e, f, g⟩ := st'
  simp only at hx
  subst hx
  rfl

theorem Key.head {P : Setup} (hP : P.Ok) {H : Nat → Env} {N : Nat} {D : List (Name × Form)}
    {fs : List Form} {bv : Scopes} {st : St} (h : Place P H N D fs bv st) {q : Form} {k : Syntax}
    (hk : Key P D fs q k) : headKeyword P.W P.C.globals q bv st = (some (.syn k), st) := by
  simp only [headKeyword, convert_plain h.ok hk.plain]
  have hraw := hk.raw hP h.ok.envs (SubFrames.refl P h.parses)
  have hn := hk.named
  have hkw := hk.keyword
  cases q with
  | closure i e fr w =>
    obtain ⟨he, hw, hsw⟩ := hn
    simp only [Ctx.keyword] at hkw
    obtain ⟨g, hg, hv⟩ := Option.bind_eq_some_iff.mp hkw
    simp only [identifyClosure_some h.ok.envs he hw hsw hg, keywordOf, hP.value, hv]
  | _ => simp only [h.eq, hraw]

theorem Key.expand {P : Setup} (hP : P.Ok) {H : Nat → Env} {N : Nat} {D : List (Name × Form)}
    {fs : List Form} {bv : Scopes} {st : St} (h : Place P H N D fs bv st) {q : Form} {k : Syntax}
    (hk : Key P D fs q k) (n : Nat) : expand P.W (n + 1) P.C.globals q bv st = some (q, st) := by
  have hraw := hk.raw hP h.ok.envs (SubFrames.refl P h.parses)
  have hi := hk.ident
  cases q with
  | sym x => rw [expand_sym, convert_plain h.ok hk.plain]
  | closure i e fr w =>
    rw [← h.eq] at hraw
    cases hid : identify st.envs P.C.globals (.closure i e fr w) (frames bv) with
    | none => rw [hid] at hraw; cases hraw
    | some b => exact expand_closure_some hid
  | _ => simp [Form.isIdentifier] at hi

/-- Leaves resolve against the environments of the state. -/
theorem Leaf.at {P : Setup} {H : Nat → Env} {N : Nat} {D : List (Name × Form)}
    {fs : List Form} {bv : Scopes} {st : St} (h : Place P H N D fs bv st) {v : Form} {a : Address}
    (hl : Leaf P H N D fs v a) : Leaf P st.envs st.nextEnv D fs v a :=
  hl.mono h.envs h.le (fun _ h => h)

theorem Leaf.identify {P : Setup} {H : Nat → Env} {N : Nat} {D : List (Name × Form)}
    {fs : List Form} (hH : EnvOk P.C P.base H) {v : Form} {a : Address}
    (hl : Leaf P H N D fs v a) (hv : ∀ x, v ≠ .sym x) :
    identify H P.C.globals v fs = some a.identity := by
  cases hl with
  | sym => exact absurd rfl (hv _)
  | fresh => exact absurd rfl (hv _)
  | renamed h₁ h₂ => exact h₂.identify hH h₁
  | alpha h₁ h₂ => exact identify_scan h₂
  | wrapped h₁ h₂ h₃ h₄ h₅ h₆ h₇ => exact identify_wrapped hH h₁ h₃ h₄ h₅ h₆ h₇ (Nat.le_refl _)

theorem Leaf.plain {P : Setup} {H : Nat → Env} {N : Nat} {D : List (Name × Form)}
    {fs : List Form} {v : Form} {a : Address}
    (hl : Leaf P H N D fs v a) : ∀ x, v = .sym x → D.lookup x = none := by
  intro x hx
  subst hx
  cases hl <;> assumption

theorem Leaf.expand {P : Setup} {H : Nat → Env} {N : Nat} {D : List (Name × Form)}
    {fs : List Form} {bv : Scopes} {st : St} (h : Place P H N D fs bv st) {v : Form} {a : Address}
    (hl : Leaf P H N D fs v a) (n : Nat) :
    expand P.W (n + 1) P.C.globals v bv st = some (v, st) := by
  have hi := hl.ident
  cases v with
  | sym x => rw [expand_sym, convert_plain h.ok hl.plain]
  | closure i e fr w =>
    have := (Leaf.at h hl).identify h.ok.envs (by simp)
    rw [← h.eq] at this
    exact expand_closure_some this
  | _ => simp [Form.isIdentifier] at hi

theorem appHead_head {P : Setup} (hP : P.Ok) {H : Nat → Env} {N : Nat} {D : List (Name × Form)}
    {fs : List Form} {bv : Scopes} {st : St} (h : Place P H N D fs bv st) {f : Form} {a : Address}
    (hl : Leaf P H N D fs f a) (ha : AppHead P fs f) (hg : ∀ g, a = .glob g → P.C.value g = none) :
    headKeyword P.W P.C.globals f bv st = (none, st) := by
  have hl' := Leaf.at h hl
  have hraw := appHead_raw hP hl' ha hg h.ok.env0 h.ok.envs (SubFrames.refl P h.parses)
  obtain ⟨φ, hφ⟩ := h.parses
  simp only [headKeyword, convert_plain h.ok hl.plain]
  cases hl' with
  | sym => simp only [h.eq, hraw]
  | fresh => simp only [h.eq, hraw]
  | @renamed n e w _ h₁ h₂ =>
    obtain ⟨_, he, _, hw, hsw⟩ := h₁
    have := ha.renamed _ _ _ rfl
    simp only [Ctx.keyword] at this
    simp only [h.eq, identifyClosure_not_keyword h.ok.envs hP.value hφ he hw hsw this]
  | alpha h₁ h₂ =>
    simp only [h.eq, identify_alpha hP h.ok.env0 h.ok.envs h₁ h.parses]
  | @wrapped n e w _ bv' h₁ h₂ h₃ h₄ h₅ h₆ h₇ =>
    have hlen : (frames bv).length - bv'.length = 0 := by
      rw [h.eq, ← h₃]; simp [frames]
    have hp : pad 0 fs = fs := rfl
    simp only [identifyClosure, h₁, hlen, h₃, hp, h₇.identify h.ok.envs h₅]
    cases a with
    | glob g => simp [Address.identity, keywordOf, hP.value, hg g rfl]
    | _ => rfl

/-- The form expands to itself. -/
def Fixed (P : Setup) (H : Nat → Env) (N : Nat) (D : List (Name × Form)) (fs : List Form)
    (e : Form) : Prop :=
  ∀ bv st, Place P H N D fs bv st → ∃ M st', (∀ n ≥ M,
    expand P.W n P.C.globals e bv st = some (e, st')) ∧ Ext st st' ∧ st'.made = st.made

theorem operand_fixed {P : Setup} {H : Nat → Env} {N : Nat} {D : List (Name × Form)}
    {fs : List Form} : ∀ {es : List Form}, (∀ e ∈ es, Fixed P H N D fs e) →
    ∀ bv st, Place P H N D fs bv st → ∃ M st', (∀ n ≥ M,
      operand P.W n P.C.globals (.ofList es) bv st = some (.ofList es, st')) ∧ Ext st st' ∧
      st'.made = st.made := by
  intro es
  induction es with
  | nil =>
    intro _ bv st _
    refine ⟨2, st, ?_, Ext.refl st, rfl⟩
    intro n hn
    obtain ⟨n, rfl⟩ := Nat.exists_eq_add_of_le' hn
    exact operand_nil
  | cons e es ih =>
    intro h bv st hp
    obtain ⟨M₁, st₁, h₁, x₁, m₁⟩ := h e (by simp) bv st hp
    obtain ⟨M₂, st₂, h₂, x₂, m₂⟩ := ih (fun e he => h e (by simp [he])) bv st₁ (hp.ext x₁)
    refine ⟨max M₁ M₂ + 1, st₂, ?_, x₁.trans x₂, m₂.trans m₁⟩
    intro n hn
    obtain ⟨n, rfl⟩ := Nat.exists_eq_add_of_le' (Nat.le_trans (Nat.le_add_left 1 _) hn)
    rw [Form.ofList, operand_cons, h₁ n (by omega)]
    simp only [Option.bind_some]
    rw [h₂ n (by omega)]
    rfl

theorem inits_fixed {P : Setup} {H : Nat → Env} {N : Nat} {D : List (Name × Form)}
    {fs : List Form} : ∀ {es : List Form}, (∀ e ∈ es, Fixed P H N D fs e) →
    ∀ vs : List Form, vs.length = es.length →
    ∀ bv st, Place P H N D fs bv st → ∃ M st', (∀ n ≥ M,
      inits P.W n P.C.globals (.ofList (List.zipWith (fun v e => Form.ofList [v, e]) vs es)) bv st =
        some (.ofList (List.zipWith (fun v e => Form.ofList [v, e]) vs es), st')) ∧ Ext st st' ∧
      st'.made = st.made := by
  intro es
  induction es with
  | nil =>
    intro _ vs hl bv st _
    cases vs with
    | cons v vs => simp at hl
    | nil =>
      refine ⟨1, st, ?_, Ext.refl st, rfl⟩
      intro n hn
      obtain ⟨n, rfl⟩ := Nat.exists_eq_add_of_le' hn
      exact inits_nil
  | cons e es ih =>
    intro h vs hl bv st hp
    cases vs with
    | nil => simp at hl
    | cons v vs =>
      simp only [List.length_cons, Nat.add_right_cancel_iff] at hl
      obtain ⟨M₁, st₁, h₁, x₁, m₁⟩ := h e (by simp) bv st hp
      obtain ⟨M₂, st₂, h₂, x₂, m₂⟩ := ih (fun e he => h e (by simp [he])) vs hl bv st₁ (hp.ext x₁)
      refine ⟨max M₁ M₂ + 1, st₂, ?_, x₁.trans x₂, m₂.trans m₁⟩
      intro n hn
      obtain ⟨n, rfl⟩ := Nat.exists_eq_add_of_le' (Nat.le_trans (Nat.le_add_left 1 _) hn)
      have h₂' := h₂ n (by omega)
      simp only [Form.ofList] at h₂'
      rw [List.zipWith_cons_cons, Form.ofList, Form.ofList, Form.ofList, inits_cons, h₁ n (by omega)]
      simp only [Option.bind_some, Form.ofList]
      rw [h₂']
      rfl

/-- `sweep` stops at an expanded form that is not a `begin`. -/
theorem sweep_inert {P : Setup} (hP : P.Ok) {D : List (Name × Form)} {fs : List Form}
    {bvS bvC : Scopes} {st : St} {env : Nat} {a : Form} {t : Term} (ok : StOk P D st)
    (henv : st.envs env = ⟨bvC, P.C.globals⟩) (hfs : frames bvC = fs)
    (hsub : SubFrames P (frames bvS) fs) (h : Tgt P st.envs st.nextEnv D .expr fs a [t])
    (hnb : ∀ ts, t ≠ .seq ts) (n : Nat) (form rest : Form) (formals specs : List Form) :
    sweep P.W (n + 1) P.C.globals form (.cons a rest) bvS env formals specs st =
      some (specs, formals, .cons a rest, st) := by
  have key : ∀ {q k}, Key P D fs q k → sweepHead P.W P.C.globals q bvS st = some (.syn k) := by
    intro q k hk
    simp only [sweepHead, hk.ident, if_true, hk.raw hP ok.envs hsub]
  cases h with
  | @leaf _ _ b h =>
    cases a with
    | closure i e fr w =>
      have := h.identify ok.envs (by simp)
      apply sweep_closure_some (b := b.identity)
      rw [henv, hfs, this]
    | cons a b => cases h
    | _ => exact sweep_atom (by simp) (by simp)
  | const h₁ h₂ h₃ =>
    exact sweep_atom (fun a b h => h₂ a b h) (fun i e fr w h => by subst h; simp [Form.isIdentifier] at h₁)
  | quote hk _ => exact sweep_other (by rw [key hk]; simp) (by rw [key hk]; simp) (by rw [key hk]; simp) (by rw [key hk]; simp)
  | when hk _ => exact sweep_other (by rw [key hk]; simp) (by rw [key hk]; simp) (by rw [key hk]; simp) (by rw [key hk]; simp)
  | ite hk _ => exact sweep_other (by rw [key hk]; simp) (by rw [key hk]; simp) (by rw [key hk]; simp) (by rw [key hk]; simp)
  | set hk _ _ => exact sweep_other (by rw [key hk]; simp) (by rw [key hk]; simp) (by rw [key hk]; simp) (by rw [key hk]; simp)
  | lam hk _ _ _ => exact sweep_other (by rw [key hk]; simp) (by rw [key hk]; simp) (by rw [key hk]; simp) (by rw [key hk]; simp)
  | letrec hk _ _ _ _ _ => exact sweep_other (by rw [key hk]; simp) (by rw [key hk]; simp) (by rw [key hk]; simp) (by rw [key hk]; simp)
  | seq hk _ _ => exact absurd rfl (hnb _)
  | @app _ f es tf ts ha hg h =>
    have : sweepHead P.W P.C.globals f bvS st = none := by
      by_cases hf : f.isIdentifier = true
      · simp only [sweepHead, hf, if_true]
        cases h with
        | cons hf' _ =>
          cases hf' with
          | leaf hl =>
            exact appHead_raw hP hl ha (fun g h => hg g (by rw [h])) ok.env0 ok.envs hsub
          | const h => rw [hf] at h; cases h
          | _ => simp [Form.isIdentifier] at hf
      · simp [sweepHead, hf]
    exact sweep_other (by rw [this]; simp) (by rw [this]; simp) (by rw [this]; simp) (by rw [this]; simp)

/-- The new environment of `body`. -/
theorem newEnv_env (bv : Scopes) (s : Name → Option Nat) (st : St) :
    (newEnv bv s st).2.envs (newEnv bv s st).1 = ⟨bv, s⟩ ∧
      (newEnv bv s st).1 < (newEnv bv s st).2.nextEnv := by
  simp [newEnv]

theorem body_fixed {P : Setup} (hP : P.Ok) {H : Nat → Env} {N : Nat} {D : List (Name × Form)}
    {fs : List Form} : ∀ {es : List Form} {ts : List Term},
    All2 (fun e t => Tgt P H N D .expr fs e [t] ∧ (∀ ts, t ≠ .seq ts) ∧ Fixed P H N D fs e) es ts →
    ∀ bv st, Place P H N D fs bv st → ∃ M st', (∀ n ≥ M,
      body P.W n P.C.globals (.ofList es) bv st = some (.ofList es, st')) ∧ Ext st st' ∧
      st'.made = st.made := by
  intro es ts h
  induction h with
  | nil =>
    intro bv st _
    refine ⟨2, (newEnv bv P.C.globals st).2, ?_, Ext.newEnv st bv _, rfl⟩
    intro n hn
    obtain ⟨n, rfl⟩ := Nat.exists_eq_add_of_le' hn
    exact body_nil
  | @cons e t es ts h _ ih =>
    intro bv st hp
    obtain ⟨ht, hnb, hfix⟩ := h
    have x₀ := Ext.newEnv st bv P.C.globals
    have hp₀ := hp.ext x₀
    obtain ⟨henv, _⟩ := newEnv_env bv P.C.globals st
    obtain ⟨M₁, st₁, h₁, x₁, m₁⟩ := hfix bv _ hp₀
    obtain ⟨M₂, st₂, h₂, x₂, m₂⟩ := ih bv st₁ (hp₀.ext x₁)
    refine ⟨max M₁ M₂ + 2, st₂, ?_, x₀.trans (x₁.trans x₂), m₂.trans m₁⟩
    intro n hn
    obtain ⟨n, rfl⟩ := Nat.exists_eq_add_of_le' (Nat.le_trans (Nat.le_add_left 2 _) hn)
    have hs := sweep_inert hP hp₀.ok henv hp₀.eq (bvS := bv)
      (by rw [hp₀.eq]; exact SubFrames.refl P hp₀.parses)
      (ht.mono hp₀.envs hp₀.le (fun _ h => h)) hnb n (.ofList (e :: es)) (.ofList es) [] []
    rw [show n + 2 = (n + 1) + 1 from rfl, body_plain (by rw [← hs]; rfl), h₁ (n + 1) (by omega)]
    simp only [Option.bind_some]
    rw [h₂ (n + 1) (by omega)]
    rfl

theorem fuel2 {M n : Nat} (h : M + 2 ≤ n) : ∃ k, n = k + 2 ∧ M ≤ k := ⟨n - 2, by omega, by omega⟩
theorem fuel4 {M n : Nat} (h : M + 4 ≤ n) : ∃ k, n = k + 4 ∧ M ≤ k := ⟨n - 4, by omega, by omega⟩
theorem fuel {M n : Nat} (h : M + 1 ≤ n) : ∃ k, n = k + 1 ∧ M ≤ k := ⟨n - 1, by omega, by omega⟩

/-- The expander leaves an expanded form as it is. -/
theorem Tgt.fixed {P : Setup} (hP : P.Ok) {H : Nat → Env} {N : Nat} {D : List (Name × Form)}
    {k : TKind} {fs : List Form} {v : Form} {ts : List Term} (h : Tgt P H N D k fs v ts) :
    match k with
    | .expr => Fixed P H N D fs v
    | .list => ∃ es, v = .ofList es ∧ ∀ e ∈ es, Fixed P H N D fs e
    | .body => ∃ es, v = .ofList es ∧
        All2 (fun e t => Tgt P H N D .expr fs e [t] ∧ (∀ ts, t ≠ .seq ts) ∧ Fixed P H N D fs e)
          es ts := by
  have step : ∀ {fs q k es}, Key P D fs q k → (k = .cond ∨ k = .set) →
      (∀ e ∈ es, Fixed P H N D fs e) → Fixed P H N D fs (.cons q (.ofList es)) := by
    intro fs q k es hk hks hes bv st hp
    obtain ⟨M, st', h, x, m⟩ := operand_fixed hes bv st hp
    refine ⟨M + 2, st', ?_, x, m⟩
    intro n hn
    obtain ⟨n, rfl, hm⟩ := fuel2 hn
    rw [expand_syn hk.ident (hk.head hP hp)]
    rcases hks with rfl | rfl
    · rw [syntax_cond, convert_plain hp.ok hk.plain, h n hm]; rfl
    · rw [syntax_set, convert_plain hp.ok hk.plain, h n hm]; rfl
  induction h with
  | leaf h =>
    intro bv st hp
    refine ⟨1, st, ?_, Ext.refl st, rfl⟩
    intro n hn
    obtain ⟨n, rfl, hn⟩ := fuel hn
    exact h.expand hp n
  | const h₁ h₂ _ =>
    intro bv st hp
    refine ⟨1, st, ?_, Ext.refl st, rfl⟩
    intro n hn
    obtain ⟨n, rfl, hn⟩ := fuel hn
    exact expand_atom h₁ h₂
  | quote hk _ =>
    intro bv st hp
    refine ⟨2, st, ?_, Ext.refl st, rfl⟩
    intro n hn
    obtain ⟨n, rfl, hm⟩ := fuel2 hn
    rw [expand_syn hk.ident (hk.head hP hp), syntax_quote]
  | when hk _ ih =>
    obtain ⟨es, he, hf⟩ := ih
    have := step hk (.inl rfl) hf
    rw [← he] at this
    exact this
  | ite hk _ ih =>
    obtain ⟨es, he, hf⟩ := ih
    have := step hk (.inl rfl) hf
    rw [← he] at this
    exact this
  | set hk _ _ ih =>
    obtain ⟨es, he, hf⟩ := ih
    have := step hk (.inr rfl) hf
    rw [← he] at this
    exact this
  | @seq fs q es ts hk _ h ih =>
    obtain ⟨es, rfl, hf⟩ := ih
    intro bv st hp
    obtain ⟨M, st', h, x, m⟩ := operand_fixed hf bv st hp
    refine ⟨M + 4, st', ?_, x, m⟩
    intro n hn
    obtain ⟨n, rfl, hm⟩ := fuel4 hn
    rw [expand_syn hk.ident (hk.head hP hp), syntax_begin, operand_cons, hk.expand hP hp n]
    simp only [Option.bind_some]
    rw [h (n + 1) (by omega)]
    rfl
  | lam hk hF hvis _ ih =>
    obtain ⟨es, rfl, hf⟩ := ih
    intro bv st hp
    have hid := convertFormals_id (fs := frames bv) (st := st) ⟨_, hp.ok.alpha⟩
      (F := _) (fun f' hf' x hx => by
        rw [hF] at hf'
        simp only [Option.some.injEq] at hf'
        subst hf'
        rw [hp.eq]
        exact hvis x hx) ⟨_, hF⟩
    have x₀ := Ext.bump st 1
    obtain ⟨M, st', h, x, m⟩ := body_fixed hP hf _ _ ((hp.enter hF st.next).ext x₀)
    refine ⟨M + 2, st', ?_, x₀.trans x, m⟩
    intro n hn
    obtain ⟨n, rfl, hm⟩ := fuel2 hn
    rw [expand_syn hk.ident (hk.head hP hp), syntax_lambda, hid]
    simp only
    rw [h n hm]
    simp only [Option.bind_some]
    rw [restore_same hp.ok (x₀.trans x).alpha, convert_plain (hp.ok.ext (x₀.trans x)) hk.plain]
  | letrec hk hv hvis hlen _ _ ih₁ ih₂ =>
    obtain ⟨es₁, he₁, hf₁⟩ := ih₁
    have := ofList_inj he₁
    subst this
    obtain ⟨es₂, rfl, hf₂⟩ := ih₂
    intro bv st hp
    have hF := parse_ofList hv
    have hid := convertFormals_id (fs := frames bv) (st := st) ⟨_, hp.ok.alpha⟩
      (F := _) (fun f' hf' x hx => by
        rw [hF] at hf'
        simp only [Option.some.injEq] at hf'
        subst hf'
        rw [hp.eq]
        exact hvis x (by simpa [Frame.ids] using hx)) ⟨_, hF⟩
    have x₀ := Ext.bump st 1
    obtain ⟨M₁, st₁, h₁, x₁, m₁⟩ := inits_fixed hf₁ _ hlen _ _ ((hp.enter hF st.next).ext x₀)
    obtain ⟨M₂, st₂, h₂, x₂, m₂⟩ := body_fixed hP hf₂ _ _ ((hp.enter hF st.next).ext (x₀.trans x₁))
    refine ⟨max M₁ M₂ + 2, st₂, ?_, x₀.trans (x₁.trans x₂), m₂.trans m₁⟩
    intro n hn
    obtain ⟨n, rfl, hm⟩ := fuel2 hn
    rw [expand_syn hk.ident (hk.head hP hp), syntax_letrec (mapCar_zip _ _ hlen), hid]
    simp only
    rw [h₁ n (by omega)]
    simp only [Option.bind_some]
    rw [h₂ n (by omega)]
    rfl
  | @app fs f es tf ts ha hg h ih =>
    obtain ⟨es', he, hf⟩ := ih
    intro bv st hp
    cases es' with
    | nil => cases he
    | cons f' es' =>
      simp only [Form.ofList, Form.cons.injEq] at he
      obtain ⟨rfl, rfl⟩ := he
      have hhead : f.isIdentifier = true →
          headKeyword P.W P.C.globals f bv st = (none, st) := by
        intro hi
        cases h with
        | cons hf' _ =>
          cases hf' with
          | leaf hl => exact appHead_head hP hp hl ha (fun g h => hg g (by rw [h]))
          | const h => rw [hi] at h; cases h
          | _ => simp [Form.isIdentifier] at hi
      obtain ⟨M₁, st₁, h₁, x₁, m₁⟩ := hf f (by simp) bv st hp
      obtain ⟨M₂, st₂, h₂, x₂, m₂⟩ := operand_fixed (es := es')
        (fun e he => hf e (by simp [he])) bv st₁ (hp.ext x₁)
      refine ⟨max M₁ M₂ + 2, st₂, ?_, x₁.trans x₂, m₂.trans m₁⟩
      intro n hn
      obtain ⟨n, rfl, hm⟩ := fuel2 hn
      rw [expand_call hhead, call_eq, h₁ n (by omega)]
      simp only [Option.bind_some]
      rw [h₂ n (by omega)]
      rfl
  | nil => exact ⟨[], rfl, by simp⟩
  | @cons _ a _ _ _ _ _ ih₁ ih₂ =>
    obtain ⟨es, rfl, hf⟩ := ih₂
    refine ⟨a :: es, rfl, ?_⟩
    intro e he
    rcases List.mem_cons.mp he with rfl | he
    · exact ih₁
    · exact hf e he
  | @one _ a _ h hnb ih => exact ⟨[a], rfl, .cons ⟨h, hnb, ih⟩ .nil⟩
  | @more _ a _ _ _ h hnb _ ih₁ ih₂ =>
    obtain ⟨es, rfl, hf⟩ := ih₂
    exact ⟨a :: es, rfl, .cons ⟨h, hnb, ih₁⟩ hf⟩

end Meevax.Expand
