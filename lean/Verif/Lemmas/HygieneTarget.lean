import Verif.Lemmas.HygieneRel

/-!
Expanded forms: `Tgt` says which term an expanded form stands for.  The generator turns it into the
code of the term, and the expander leaves it as it is.
-/

namespace Meevax.Expand

open Secd (Name Code)
open Spec

/-! ## The code of terms -/

mutual

theorem emit_append : ∀ (t : Term) (k k' : Code), emit t k false ++ k' = emit t (k ++ k') false
  | .const c, k, k' => by simp [emit]
  | .ref a, k, k' => by simp [emit]
  | .lam _ _ body, k, k' => by simp [emit]
  | .when t c, k, k' => by simp [emit, emit_append t]
  | .ite t c a, k, k' => by simp [emit, emit_append t]
  | .set a t, k, k' => by simp [emit, emit_append t]
  | .app f args, k, k' => by
    simp only [emit, Bool.false_eq_true, if_false]
    rw [emitArgs_append args, emit_append f]
    rfl
  | .seq ts, k, k' => by simp only [emit]; exact emitSeq_append ts k k'
  | .letrec inits body, k, k' => by
    simp only [emit, Bool.false_eq_true, if_false, List.cons_append]
    rw [emitArgs_append inits]
    rfl

theorem emitArgs_append : ∀ (ts : List Term) (k k' : Code),
    emitArgs ts k ++ k' = emitArgs ts (k ++ k')
  | [], k, k' => by simp [emitArgs]
  | t :: ts, k, k' => by
    simp only [emitArgs]
    rw [emitArgs_append ts, emit_append t]
    rfl

theorem emitSeq_append : ∀ (ts : List Term) (k k' : Code),
    emitSeq ts k false ++ k' = emitSeq ts (k ++ k') false
  | [], k, k' => by simp [emitSeq]
  | [t], k, k' => by simp only [emitSeq]; exact emit_append t k k'
  | t :: u :: ts, k, k' => by
    simp only [emitSeq]
    rw [emit_append t]
    simp only [List.cons_append]
    rw [emitSeq_append (u :: ts)]

end

theorem emitBody_eq : ∀ (ts : List Term), ts ≠ [] → emitBody ts = emitSeq ts [.ret] true
  | [], h => absurd rfl h
  | [t], _ => by simp [emitBody, emitSeq]
  | t :: u :: ts, _ => by
    have := emitBody_eq (u :: ts) (by simp)
    simp only [emitBody, emitSeq] at this ⊢
    rw [this]

/-! ## Expanded forms -/

/-- Identifiers that stand for a global binding, where they have no lexical one. -/
def Named (base : Nat) : Form → Prop
  | .sym _ => True
  | .closure _ e _ w => e < base ∧ w.isIdentifier = true ∧ Src base w
  | _ => False

theorem Src.named {base : Nat} {v : Form} (h : Src base v) (hi : v.isIdentifier = true) :
    Named base v := by
  cases v with
  | sym x => trivial
  | closure i e fr w => exact ⟨h.2.1, h.2.2.2.1, h.2.2.2.2⟩
  | _ => simp [Form.isIdentifier] at hi

/-- What an unbound identifier is as a keyword. -/
theorem identify_named {P : Setup} (hP : P.Ok) {H : Nat → Env} (hH : EnvOk P.C P.base H)
    {v : Form} {fs : List Form} {φ : List Frame} (hfs : Frames fs φ) (hv : Named P.base v)
    (hsc : scan v fs 0 = none) :
    keywordOf P.W (identify H P.C.globals v fs) = P.C.keyword v := by
  unfold identify
  rw [hsc]
  cases v with
  | sym x =>
    simp only [Ctx.keyword]
    cases P.C.globals x <;> simp [keywordOf, hP.value]
  | closure i e fr w =>
    obtain ⟨he, hw, hsw⟩ := hv
    have hp : ∀ k, pad k (frames []) = pad k [] := fun k => rfl
    simp only [Ctx.keyword]
    simp only [hw, if_true, hH e he, hp, identify_pad hH _ hw hsw]
    cases ho : P.C.origin e w with
    | some g => simp [keywordOf, hP.value]
    | none =>
      simp only [Option.map_none]
      rw [identify_not_keyword hH (noMacro hfs) (scan_not_absolute hfs) hw hsw ho]
      rfl
  | _ => exact hv.elim

/-- An identifier that stands for a core syntax. -/
structure Key (P : Setup) (D : List (Name × Form)) (fs : List Form) (q : Form) (k : Syntax) : Prop where
  ident : q.isIdentifier = true
  named : Named P.base q
  keyword : P.C.keyword q = some (.syn k)
  scan : scan q fs 0 = none
  plain : ∀ x, q = .sym x → D.lookup x = none

/-- The variable an identifier stands for, with its lexical or its global binding. -/
def Res (P : Setup) (fs : List Form) (w : Form) (a : Address) : Prop :=
  scan w fs 0 = some a.identity ∨ (scan w fs 0 = none ∧ ∃ g, P.C.strict w = some g ∧ a = .glob g)

/-- Variables of expanded forms. -/
inductive Leaf (P : Setup) (H : Nat → Env) (N : Nat) (D : List (Name × Form)) (fs : List Form) :
    Form → Address → Prop where
  | sym {x a} : D.lookup x = none → Res P fs (.sym x) a → Leaf P H N D fs (.sym x) a
  | fresh {x} : D.lookup x = none → scan (.sym x) fs 0 = none → P.C.globals x = none →
    Leaf P H N D fs (.sym x) (.glob (P.C.fresh x))
  | renamed {n e w a} : Src P.base (.closure (.rename n) e [] w) →
    Res P fs (.closure (.rename n) e [] w) a → Leaf P H N D fs (.closure (.rename n) e [] w) a
  | alpha {n x a} : P.C.keyword (.sym x) = none →
    scan (.closure (.alpha n) P.E0 [] (.sym x)) fs 0 = some a.identity →
    Leaf P H N D fs (.closure (.alpha n) P.E0 [] (.sym x)) a
  | wrapped {n e w a bv} : H e = ⟨bv, P.C.globals⟩ → e < N → frames bv = fs →
    w.isIdentifier = true → Src P.base w → scan (.closure (.other n) e [] w) fs 0 = none →
    Res P fs w a → Leaf P H N D fs (.closure (.other n) e [] w) a

/-- The operator of a call, if it is an identifier, is no keyword. -/
structure AppHead (P : Setup) (fs : List Form) (f : Form) : Prop where
  sym : ∀ x, f = .sym x → scan f fs 0 = none → P.C.keyword f = none
  renamed : ∀ n e w, f = .closure (.rename n) e [] w → P.C.keyword f = none

inductive TKind where
  | expr
  | list
  | body

/-- Expanded forms and their terms. -/
inductive Tgt (P : Setup) (H : Nat → Env) (N : Nat) (D : List (Name × Form)) :
    TKind → List Form → Form → List Term → Prop where
  | leaf {fs v a} : Leaf P H N D fs v a → Tgt P H N D .expr fs v [.ref a]
  | const {fs d c} : d.isIdentifier = false → (∀ a b, d ≠ .cons a b) → toDatum d = some c →
    Tgt P H N D .expr fs d [.const c]
  | quote {fs q d c} : Key P D fs q .quote → Quotable d c →
    Tgt P H N D .expr fs (.cons q (.cons d .nil)) [.const c]
  | when {fs q t c tt tc} : Key P D fs q .cond →
    Tgt P H N D .list fs (.ofList [t, c]) [tt, tc] →
    Tgt P H N D .expr fs (.cons q (.ofList [t, c])) [.when tt tc]
  | ite {fs q t c a tt tc ta} : Key P D fs q .cond →
    Tgt P H N D .list fs (.ofList [t, c, a]) [tt, tc, ta] →
    Tgt P H N D .expr fs (.cons q (.ofList [t, c, a])) [.ite tt tc ta]
  | set {fs q v e a t} : Key P D fs q .set → Leaf P H N D fs v a →
    Tgt P H N D .list fs (.ofList [v, e]) [.ref a, t] →
    Tgt P H N D .expr fs (.cons q (.ofList [v, e])) [.set a t]
  | seq {fs q es ts} : Key P D fs q .begin → ts ≠ [] → Tgt P H N D .list fs es ts →
    Tgt P H N D .expr fs (.cons q es) [.seq ts]
  | lam {fs q F f forms a r ts} : Key P D fs q .lambda → parse F = some f →
    (∀ x, Form.sym x ∈ f.ids → visible x fs = false) →
    Tgt P H N D .body (F :: fs) forms ts →
    Tgt P H N D .expr fs (.cons q (.cons F forms)) [.lam a r ts]
  | letrec {fs q vs es forms ts₁ ts₂} : Key P D fs q .letrec →
    (∀ v ∈ vs, v.isIdentifier = true) → (∀ x, Form.sym x ∈ vs → visible x fs = false) →
    vs.length = es.length →
    Tgt P H N D .list (.ofList vs :: fs) (.ofList es) ts₁ →
    Tgt P H N D .body (.ofList vs :: fs) forms ts₂ →
    Tgt P H N D .expr fs
      (.cons q (.cons (.ofList (List.zipWith (fun v e => Form.ofList [v, e]) vs es)) forms))
      [.letrec ts₁ ts₂]
  | app {fs f es tf ts} : AppHead P fs f → (∀ g, tf = .ref (.glob g) → P.C.value g = none) →
    Tgt P H N D .list fs (.cons f es) (tf :: ts) →
    Tgt P H N D .expr fs (.cons f es) [.app tf ts]
  | nil {fs} : Tgt P H N D .list fs .nil []
  | cons {fs a d t ts} : Tgt P H N D .expr fs a [t] → Tgt P H N D .list fs d ts →
    Tgt P H N D .list fs (.cons a d) (t :: ts)
  | one {fs a t} : Tgt P H N D .expr fs a [t] → (∀ ts, t ≠ .seq ts) →
    Tgt P H N D .body fs (.cons a .nil) [t]
  | more {fs a d t ts} : Tgt P H N D .expr fs a [t] → (∀ ts, t ≠ .seq ts) →
    Tgt P H N D .body fs d ts → Tgt P H N D .body fs (.cons a d) (t :: ts)

theorem Leaf.mono {P : Setup} {H H' : Nat → Env} {N N' : Nat} {D D' : List (Name × Form)}
    {fs : List Form} {v : Form} {a : Address} (h : Leaf P H N D fs v a)
    (hH : ∀ e < N, H' e = H e) (hN : N ≤ N') (hD : ∀ x, D.lookup x = none → D'.lookup x = none) :
    Leaf P H' N' D' fs v a := by
  cases h with
  | sym h₁ h₂ => exact .sym (hD _ h₁) h₂
  | fresh h₁ h₂ h₃ => exact .fresh (hD _ h₁) h₂ h₃
  | renamed h₁ h₂ => exact .renamed h₁ h₂
  | alpha h₁ h₂ => exact .alpha h₁ h₂
  | wrapped h₁ h₂ h₃ h₄ h₅ h₆ h₇ =>
    exact .wrapped ((hH _ h₂).trans h₁) (by omega) h₃ h₄ h₅ h₆ h₇

theorem Key.mono {P : Setup} {D D' : List (Name × Form)} {fs : List Form} {q : Form} {k : Syntax}
    (h : Key P D fs q k) (hD : ∀ x, D.lookup x = none → D'.lookup x = none) : Key P D' fs q k :=
  ⟨h.ident, h.named, h.keyword, h.scan, fun x hx => hD x (h.plain x hx)⟩

theorem Tgt.mono {P : Setup} {H H' : Nat → Env} {N N' : Nat} {D D' : List (Name × Form)}
    {k : TKind} {fs : List Form} {v : Form} {ts : List Term} (h : Tgt P H N D k fs v ts)
    (hH : ∀ e < N, H' e = H e) (hN : N ≤ N') (hD : ∀ x, D.lookup x = none → D'.lookup x = none) :
    Tgt P H' N' D' k fs v ts := by
  induction h with
  | leaf h => exact .leaf (h.mono hH hN hD)
  | const h₁ h₂ h₃ => exact .const h₁ h₂ h₃
  | quote h₁ h₂ => exact .quote (h₁.mono hD) h₂
  | when h₁ _ ih => exact .when (h₁.mono hD) ih
  | ite h₁ _ ih => exact .ite (h₁.mono hD) ih
  | set h₁ h₂ _ ih => exact .set (h₁.mono hD) (h₂.mono hH hN hD) ih
  | seq h₁ h₂ _ ih => exact .seq (h₁.mono hD) h₂ ih
  | lam h₁ h₂ h₃ _ ih => exact .lam (h₁.mono hD) h₂ h₃ ih
  | letrec h₁ h₂ h₃ h₄ _ _ ih₁ ih₂ => exact .letrec (h₁.mono hD) h₂ h₃ h₄ ih₁ ih₂
  | app h₁ h₂ _ ih => exact .app h₁ h₂ ih
  | nil => exact .nil
  | cons _ _ ih₁ ih₂ => exact .cons ih₁ ih₂
  | one _ h ih => exact .one ih h
  | more _ h _ ih₁ ih₂ => exact .more ih₁ h ih₂

theorem Tgt.ext {P : Setup} {st st' : St} {D : List (Name × Form)}
    {k : TKind} {fs : List Form} {v : Form} {ts : List Term}
    (h : Tgt P st.envs st.nextEnv D k fs v ts) (hx : Ext st st') :
    Tgt P st'.envs st'.nextEnv D k fs v ts :=
  h.mono hx.envs hx.nextEnv (fun _ h => h)

theorem Tgt.list_of_body {P : Setup} {H : Nat → Env} {N : Nat} {D : List (Name × Form)}
    {fs : List Form} {v : Form} {ts : List Term} (h : Tgt P H N D .body fs v ts) :
    ts ≠ [] ∧ Tgt P H N D .list fs v ts := by
  generalize hk : TKind.body = k at h
  induction h with
  | one h _ => exact ⟨by simp, .cons h .nil⟩
  | more h _ _ _ ih => exact ⟨by simp, .cons h (ih hk).2⟩
  | _ => cases hk

/-! ## Generating code -/

inductive All2 (R : Form → Term → Prop) : List Form → List Term → Prop where
  | nil : All2 R [] []
  | cons {e t es ts} : R e t → All2 R es ts → All2 R (e :: es) (t :: ts)

theorem ofList_inj : ∀ {as bs : List Form}, Form.ofList as = Form.ofList bs → as = bs := by
  intro as
  induction as with
  | nil => intro bs h; cases bs <;> simp_all [Form.ofList]
  | cons a as ih =>
    intro bs h
    cases bs with
    | nil => simp [Form.ofList] at h
    | cons b bs =>
      simp only [Form.ofList, Form.cons.injEq] at h
      rw [h.1, ih h.2]

theorem parse_ofList : ∀ {vs : List Form}, (∀ v ∈ vs, v.isIdentifier = true) →
    parse (.ofList vs) = some ⟨vs, none⟩ := by
  intro vs
  induction vs with
  | nil => intro _; rfl
  | cons v vs ih =>
    intro h
    have := ih (fun w hw => h w (by simp [hw]))
    simp [Form.ofList, parse, h v (by simp), this]

theorem mapCar_zip : ∀ (vs es : List Form), vs.length = es.length →
    mapCar (.ofList (List.zipWith (fun v e => Form.ofList [v, e]) vs es)) = some (.ofList vs) := by
  intro vs
  induction vs with
  | nil => intro es h; cases es <;> simp_all [mapCar, Form.ofList]
  | cons v vs ih =>
    intro es h
    cases es with
    | nil => simp at h
    | cons e es =>
      simp only [List.length_cons, Nat.add_right_cancel_iff] at h
      have := ih es h
      simp only [Form.ofList] at this
      simp [Form.ofList, mapCar, this]

theorem load_identity (a : Address) : loadInstr a.identity = some a.load := by cases a <;> rfl
theorem store_identity (a : Address) : storeInstr a.identity = some a.store := by cases a <;> rfl

theorem Res.identify {P : Setup} {H : Nat → Env} (hH : EnvOk P.C P.base H) {fs : List Form}
    {w : Form} {a : Address} (h : Res P fs w a) (hs : Src P.base w) :
    identify H P.C.globals w fs = some a.identity := by
  rcases h with h | ⟨h, g, hg, rfl⟩
  · exact identify_scan h
  · exact identify_global hH hs h hg

/-- `identify` of a wrapped identifier, in any frames that are not longer than those of use. -/
theorem identify_wrapped {P : Setup} {H : Nat → Env} (hH : EnvOk P.C P.base H)
    {fs gs : List Form} {n e : Nat} {w : Form} {a : Address} {bv : Scopes}
    (h₁ : H e = ⟨bv, P.C.globals⟩) (h₃ : frames bv = fs) (h₄ : w.isIdentifier = true)
    (h₅ : Src P.base w) (h₆ : scan (.closure (.other n) e [] w) gs 0 = none) (h₇ : Res P fs w a)
    (hlen : gs.length ≤ fs.length) :
    identify H P.C.globals (.closure (.other n) e [] w) gs = some a.identity := by
  have hl : bv.length = fs.length := by rw [← h₃]; simp [frames]
  have h0 : gs.length - bv.length = 0 := by omega
  unfold Expand.identify
  simp only [h₆, h₄, if_true, h₁, h0, h₃]
  have : pad 0 fs = fs := rfl
  rw [this, h₇.identify hH h₅]

theorem Leaf.reference {P : Setup} (hP : P.Ok) {H : Nat → Env} {N : Nat} {D : List (Name × Form)}
    {fs : List Form} {v : Form} {a : Address} (h : Leaf P H N D fs v a)
    (hH : EnvOk P.C P.base H) : reference P.W H P.C.globals v fs = some a.identity := by
  cases h with
  | sym h₁ h₂ => simp only [Expand.reference, h₂.identify hH trivial]
  | @fresh x h₁ h₂ h₃ =>
    have : identify H P.C.globals (.sym x) fs = none := by
      unfold identify
      simp [h₂, h₃]
    simp only [Expand.reference, this, hP.fresh]
    rfl
  | renamed h₁ h₂ => simp only [Expand.reference, h₂.identify hH h₁]
  | alpha h₁ h₂ => simp only [Expand.reference, identify_scan h₂]
  | wrapped h₁ h₂ h₃ h₄ h₅ h₆ h₇ =>
    simp only [Expand.reference, identify_wrapped hH h₁ h₃ h₄ h₅ h₆ h₇ (Nat.le_refl _)]

theorem Leaf.ident {P : Setup} {H : Nat → Env} {N : Nat} {D : List (Name × Form)}
    {fs : List Form} {v : Form} {a : Address} (h : Leaf P H N D fs v a) : v.isIdentifier = true := by
  cases h <;> rfl

/-- Frames for looking up the keyword of an expanded form: those of the form, or the same without
the frame of internal definitions. -/
structure SubFrames (P : Setup) (gs fs : List Form) : Prop where
  sub : ∀ v, scan v fs 0 = none → scan v gs 0 = none
  sup : ∀ x, scan (.sym x) fs 0 ≠ none → scan (.sym x) gs 0 ≠ none ∨ P.C.keyword (.sym x) = none
  len : gs.length ≤ fs.length
  frames : ∃ φ, Frames gs φ

theorem SubFrames.refl (P : Setup) {fs : List Form} (h : ∃ φ, Frames fs φ) : SubFrames P fs fs :=
  ⟨fun _ h => h, fun _ h => .inl h, Nat.le_refl _, h⟩

/-- The α-renamed name of something that is not a keyword is not a keyword. -/
theorem identify_alpha {P : Setup} (hP : P.Ok) {H : Nat → Env} (h0 : H P.E0 = ⟨[], P.C.globals⟩)
    (hH : EnvOk P.C P.base H) {x : Name} (hk : P.C.keyword (.sym x) = none) {gs : List Form}
    (hgs : ∃ φ, Frames gs φ) :
    keywordOf P.W (identifyClosure H P.E0 (.sym x) gs) = none := by
  obtain ⟨φ, hφ⟩ := hgs
  have hp : ∀ k, pad k (frames []) = pad k [] := fun k => rfl
  have hpad : ∀ k, identify H P.C.globals (.sym x) (pad k []) = (P.C.globals x).map .absolute := by
    intro k
    unfold identify
    rw [scan_pad _ rfl]
  simp only [identifyClosure, h0, hp, hpad]
  cases hg : P.C.globals x with
  | some g =>
    simp only [Ctx.keyword, hg, Option.bind_some] at hk
    simp [keywordOf, hP.value, hk]
  | none =>
    simp only [Option.map_none]
    cases hsc : scan (.sym x) gs 0 with
    | some a => exact keywordOf_scan hφ (by simp [hsc])
    | none => rw [identify_named hP hH hφ (v := .sym x) trivial hsc]; exact hk

/-- The operator of a call is no keyword for `sweep` and for the generator. -/
theorem appHead_raw {P : Setup} (hP : P.Ok) {H : Nat → Env} {N : Nat} {D : List (Name × Form)}
    {fs gs : List Form} {f : Form} {a : Address} (hl : Leaf P H N D fs f a) (ha : AppHead P fs f)
    (hg : ∀ g, a = .glob g → P.C.value g = none) (h0 : H P.E0 = ⟨[], P.C.globals⟩)
    (hH : EnvOk P.C P.base H) (hsub : SubFrames P gs fs) :
    keywordOf P.W (identify H P.C.globals f gs) = none := by
  obtain ⟨φ, hφ⟩ := hsub.frames
  by_cases hsc : scan f gs 0 = none
  · cases hl with
    | @sym x _ h₁ h₂ =>
      rw [identify_named hP hH hφ (v := .sym x) trivial hsc]
      by_cases hf : scan (.sym x) fs 0 = none
      · exact ha.sym x rfl hf
      · rcases hsub.sup x hf with h | h
        · exact absurd hsc h
        · exact h
    | @fresh x h₁ h₂ h₃ =>
      rw [identify_named hP hH hφ (v := .sym x) trivial hsc]
      exact ha.sym x rfl h₂
    | renamed h₁ h₂ =>
      rw [identify_named hP hH hφ (h₁.named rfl) hsc]
      exact ha.renamed _ _ _ rfl
    | @alpha n x _ h₁ h₂ =>
      have := identify_alpha hP h0 hH h₁ hsub.frames
      unfold identify
      rw [hsc]
      simp only [Form.isIdentifier, if_true]
      exact this
    | @wrapped n e w _ bv h₁ h₂ h₃ h₄ h₅ h₆ h₇ =>
      rw [identify_wrapped hH h₁ h₃ h₄ h₅ hsc h₇ hsub.len]
      cases a with
      | glob g => simp [Address.identity, keywordOf, hP.value, hg g rfl]
      | _ => rfl
  · exact keywordOf_scan hφ hsc

theorem Key.raw {P : Setup} (hP : P.Ok) {H : Nat → Env} (hH : EnvOk P.C P.base H)
    {D : List (Name × Form)} {fs gs : List Form} {q : Form} {k : Syntax} (h : Key P D fs q k)
    (hsub : SubFrames P gs fs) : keywordOf P.W (identify H P.C.globals q gs) = some (.syn k) := by
  obtain ⟨φ, hφ⟩ := hsub.frames
  rw [identify_named hP hH hφ h.named (hsub.sub _ h.scan)]
  exact h.keyword

theorem syntaxOf_eq {W : World} {H : Nat → Env} {s : Name → Option Nat} {q : Form} {fs : List Form}
    (hq : q.isIdentifier = true) (hm : ∀ t, identify H s q fs ≠ some (.macro t)) :
    syntaxOf W H s q fs =
      match keywordOf W (identify H s q fs) with
      | some (.syn k) => some k
      | _ => none := by
  simp only [syntaxOf, hq, if_true]
  cases hi : identify H s q fs with
  | none => rfl
  | some a =>
    cases a with
    | absolute g => rfl
    | «macro» t => exact absurd hi (hm t)
    | _ => rfl

theorem Key.syntaxOf {P : Setup} (hP : P.Ok) {H : Nat → Env} (hH : EnvOk P.C P.base H)
    {D : List (Name × Form)} {fs : List Form} {q : Form} {k : Syntax} (h : Key P D fs q k)
    (hfs : ∃ φ, Frames fs φ) : syntaxOf P.W H P.C.globals q fs = some k := by
  have hraw := h.raw hP hH (SubFrames.refl P hfs)
  rw [syntaxOf_eq h.ident, hraw]
  intro t ht
  rw [ht] at hraw
  simp [keywordOf] at hraw

theorem appHead_syntaxOf {P : Setup} (hP : P.Ok) {H : Nat → Env} {N : Nat} {D : List (Name × Form)}
    {fs : List Form} {f : Form} {tf : Term} (ht : Tgt P H N D .expr fs f [tf]) (ha : AppHead P fs f)
    (hg : ∀ g, tf = .ref (.glob g) → P.C.value g = none) (h0 : H P.E0 = ⟨[], P.C.globals⟩)
    (hH : EnvOk P.C P.base H) (hfs : ∃ φ, Frames fs φ) :
    syntaxOf P.W H P.C.globals f fs = none := by
  by_cases hf : f.isIdentifier = true
  · have : ∃ a, Leaf P H N D fs f a ∧ tf = .ref a := by
      cases ht with
      | leaf h => exact ⟨_, h, rfl⟩
      | const h => rw [hf] at h; cases h
      | _ => simp [Form.isIdentifier] at hf
    obtain ⟨a, hl, rfl⟩ := this
    have hraw := appHead_raw hP hl ha (fun g h => hg g (by rw [h])) h0 hH (SubFrames.refl P hfs)
    rw [syntaxOf_eq hf, hraw]
    intro t ht
    rw [ht] at hraw
    simp [keywordOf] at hraw
  · simp [Expand.syntaxOf, hf]

/-- The environments as the generator sees them. -/
structure GenEnv (P : Setup) (H : Nat → Env) : Prop where
  env0 : H P.E0 = ⟨[], P.C.globals⟩
  envs : EnvOk P.C P.base H

def GenOK (P : Setup) (H : Nat → Env) (fs : List Form) (e : Form) (t : Term) : Prop :=
  ∀ k tail, generate P.W H P.C.globals e fs k tail = some (emit t k tail)

theorem genOperand_all {P : Setup} {H : Nat → Env} {fs : List Form} {es : List Form} {ts : List Term}
    (h : All2 (GenOK P H fs) es ts) : ∀ k,
    genOperand P.W H P.C.globals (.ofList es) fs k = some (emitArgs ts k) := by
  induction h with
  | nil => intro k; simp [Form.ofList, genOperand, emitArgs]
  | cons h _ ih =>
    intro k
    simp only [Form.ofList, genOperand, h _ _, Option.bind_eq_bind, Option.bind_some, ih, emitArgs]

theorem genInits_all {P : Setup} {H : Nat → Env} {fs : List Form} {es : List Form} {ts : List Term}
    (h : All2 (GenOK P H fs) es ts) : ∀ (vs : List Form) k, vs.length = es.length →
    genInits P.W H P.C.globals
      (.ofList (List.zipWith (fun v e => Form.ofList [v, e]) vs es)) fs k = some (emitArgs ts k) := by
  induction h with
  | nil => intro vs k hl; cases vs <;> simp_all [Form.ofList, genInits, emitArgs]
  | cons h _ ih =>
    intro vs k hl
    cases vs with
    | nil => simp at hl
    | cons v vs =>
      simp only [List.length_cons, Nat.add_right_cancel_iff] at hl
      have := ih vs
      simp only [Form.ofList] at this
      simp only [List.zipWith_cons_cons, Form.ofList, genInits, h _ _, Option.bind_eq_bind,
        Option.bind_some, emitArgs]
      exact this _ hl

theorem genSequence_all {P : Setup} {H : Nat → Env} {fs : List Form} {es : List Form} {ts : List Term}
    (h : All2 (GenOK P H fs) es ts) : ts ≠ [] → ∀ k tail,
    genSequence P.W H P.C.globals (.ofList es) fs k tail = some (emitSeq ts k tail) := by
  induction h with
  | nil => intro h; exact absurd rfl h
  | @cons e t es ts h hs ih =>
    intro _ k tail
    cases hs with
    | nil => simp only [Form.ofList, genSequence, h _ _, emitSeq]
    | @cons e' t' es' ts' h' hs' =>
      have := ih (by simp) k tail
      simp only [Form.ofList] at this
      simp only [Form.ofList, genSequence, h _ _, Option.bind_eq_bind, Option.bind_some, this, emitSeq]
      rw [emit_append]
      rfl

theorem genBody_all {P : Setup} {H : Nat → Env} {fs : List Form} {es : List Form} {ts : List Term}
    (h : All2 (GenOK P H fs) es ts) : ts ≠ [] →
    genBody P.W H P.C.globals (.ofList es) fs [.ret] = some (emitBody ts) := by
  induction h with
  | nil => intro h; exact absurd rfl h
  | @cons e t es ts h hs ih =>
    intro _
    cases hs with
    | nil => simp only [Form.ofList, genBody, h _ _, emitBody]
    | @cons e' t' es' ts' h' hs' =>
      have := ih (by simp)
      simp only [Form.ofList] at this
      simp only [Form.ofList, genBody, h _ _, Option.bind_eq_bind, Option.bind_some, this, emitBody]

theorem frames_cons {fs : List Form} {F : Form} {f : Frame} (h : ∃ φ, Frames fs φ)
    (hF : parse F = some f) : ∃ φ, Frames (F :: fs) φ := by
  obtain ⟨φ, hφ⟩ := h
  exact ⟨f :: φ, by simp only [Frames, List.map_cons, hF]; rw [hφ]⟩

theorem generate_closure {W : World} {H : Nat → Env} {s : Name → Option Nat} {v : Form}
    {fs : List Form} {k : Code} {tail : Bool} {a : Address} (hv : v.isIdentifier = true)
    (h : reference W H s v fs = some a.identity) :
    generate W H s v fs k tail = some (emit (.ref a) k tail) := by
  cases v with
  | sym x => simp [generate, h, load_identity, emit]
  | closure i e fr w => simp [generate, h, load_identity, emit]
  | _ => simp [Form.isIdentifier] at hv

/-! ### The generator, syntax by syntax -/

section
variable {W : World} {H : Nat → Env} {s : Name → Option Nat} {q : Form} {fs : List Form} {k : Code}
  {tail : Bool}

theorem gen_quote (h : syntaxOf W H s q fs = some .quote) (d r : Form) :
    generate W H s (.cons q (.cons d r)) fs k tail =
      (toDatum (quoted d)).bind fun c => some (.loadConstant c :: k) := by
  rw [generate.eq_def]; simp only [h]; rfl

theorem gen_lambda (h : syntaxOf W H s q fs = some .lambda) (F forms : Form) :
    generate W H s (.cons q (.cons F forms)) fs k tail =
      (genBody W H s forms (F :: fs) [.ret]).bind fun c => some (.loadClosure c :: k) := by
  rw [generate.eq_def]; simp only [h]; rfl

theorem gen_when (h : syntaxOf W H s q fs = some .cond) (t c : Form) :
    generate W H s (.cons q (.ofList [t, c])) fs k tail =
      (generate W H s c fs (if tail then k else [.join]) tail).bind fun c₁ =>
        generate W H s t fs
          (if tail then [.tailSelect c₁ [.loadConstant .unspecified, if tail then .ret else .join]]
            else .select c₁ [.loadConstant .unspecified, if tail then .ret else .join] :: k) false := by
  rw [generate.eq_def]; simp only [h, Form.ofList]; rfl

theorem gen_ite (h : syntaxOf W H s q fs = some .cond) (t c a : Form) :
    generate W H s (.cons q (.ofList [t, c, a])) fs k tail =
      (generate W H s c fs (if tail then k else [.join]) tail).bind fun c₁ =>
        (generate W H s a fs (if tail then k else [.join]) tail).bind fun c₂ =>
          generate W H s t fs (if tail then [.tailSelect c₁ c₂] else .select c₁ c₂ :: k) false := by
  rw [generate.eq_def]; simp only [h, Form.ofList]; rfl

theorem gen_set (h : syntaxOf W H s q fs = some .set) (v e : Form) (hv : v.isIdentifier = true) :
    generate W H s (.cons q (.ofList [v, e])) fs k tail =
      (reference W H s v fs).bind fun a => (storeInstr a).bind fun i =>
        generate W H s e fs (i :: k) false := by
  rw [generate.eq_def]; simp only [h, Form.ofList, hv, if_true]; rfl

theorem gen_letrec (h : syntaxOf W H s q fs = some .letrec) (bs forms : Form) :
    generate W H s (.cons q (.cons bs forms)) fs k tail =
      (mapCar bs).bind fun F => (genBody W H s forms (F :: fs) [.ret]).bind fun b =>
        (genInits W H s bs (F :: fs)
          (.loadClosure b :: if tail then [.tailLetrec] else .letrec :: k)).bind fun c =>
            some (.dummy :: c) := by
  rw [generate.eq_def]; simp only [h]; rfl

theorem gen_begin (h : syntaxOf W H s q fs = some .begin) (form : Form) :
    generate W H s (.cons q form) fs k tail = genSequence W H s form fs k tail := by
  rw [generate.eq_def]; simp only [h]

theorem gen_app (h : syntaxOf W H s q fs = none) (form : Form) :
    generate W H s (.cons q form) fs k tail =
      (generate W H s q fs (if tail then [.tailCall] else .call :: k) false).bind fun c =>
        genOperand W H s form fs c := by
  rw [generate.eq_def]; simp only [h]; rfl

end

/-- The generator makes the code of the term. -/
theorem Tgt.generate {P : Setup} (hP : P.Ok) {H : Nat → Env} {N : Nat} {D : List (Name × Form)}
    {k : TKind} {fs : List Form} {v : Form} {ts : List Term} (h : Tgt P H N D k fs v ts)
    (hH : GenEnv P H) (hfs : ∃ φ, Frames fs φ) :
    match k with
    | .expr => ∀ t, ts = [t] → GenOK P H fs v t
    | .list => ∃ es, v = .ofList es ∧ All2 (GenOK P H fs) es ts
    | .body => ∃ es, ts ≠ [] ∧ v = .ofList es ∧ All2 (GenOK P H fs) es ts := by
  induction h with
  | leaf h =>
    rintro t ht k tail
    simp only [List.cons.injEq, and_true] at ht
    subst ht
    exact generate_closure h.ident (h.reference hP hH.envs)
  | @const _ d c h₁ h₂ h₃ =>
    rintro t ht k tail
    simp only [List.cons.injEq, and_true] at ht
    subst ht
    cases d <;> simp_all [Expand.generate, emit, Form.isIdentifier]
  | @quote _ q d c hk hd =>
    rintro t ht k tail
    simp only [List.cons.injEq, and_true] at ht
    subst ht
    rw [gen_quote (hk.syntaxOf hP hH.envs hfs)]
    cases hd with
    | datum h =>
      have : quoted d = d := by cases d <;> simp_all [quoted, toDatum]
      simp [this, h, emit]
    | renamed => simp [quoted, toDatum, emit]
  | when hk _ ih =>
    rintro t ht k tail
    simp only [List.cons.injEq, and_true] at ht
    subst ht
    obtain ⟨es, he, hall⟩ := ih hfs
    have := ofList_inj he
    subst this
    cases hall with
    | cons h₁ hall => cases hall with
    | cons h₂ hall =>
      rw [gen_when (hk.syntaxOf hP hH.envs hfs)]
      simp only [h₁ _ _, h₂ _ _, emit, Option.bind_some]
      cases tail <;> simp
  | ite hk _ ih =>
    rintro t ht k tail
    simp only [List.cons.injEq, and_true] at ht
    subst ht
    obtain ⟨es, he, hall⟩ := ih hfs
    have := ofList_inj he
    subst this
    cases hall with
    | cons h₁ hall => cases hall with
    | cons h₂ hall => cases hall with
    | cons h₃ hall =>
      rw [gen_ite (hk.syntaxOf hP hH.envs hfs)]
      simp only [h₁ _ _, h₂ _ _, h₃ _ _, emit, Option.bind_some]
      cases tail <;> simp
  | set hk hl _ ih =>
    rintro t ht k tail
    simp only [List.cons.injEq, and_true] at ht
    subst ht
    obtain ⟨es, he, hall⟩ := ih hfs
    have := ofList_inj he
    subst this
    cases hall with
    | cons h₁ hall => cases hall with
    | cons h₂ hall =>
      rw [gen_set (hk.syntaxOf hP hH.envs hfs) _ _ hl.ident]
      simp only [hl.reference hP hH.envs, Option.bind_some, store_identity, h₂ _ _, emit]
  | seq hk hne _ ih =>
    rintro t ht k tail
    simp only [List.cons.injEq, and_true] at ht
    subst ht
    obtain ⟨es, rfl, hall⟩ := ih hfs
    rw [gen_begin (hk.syntaxOf hP hH.envs hfs)]
    simp only [emit]
    exact genSequence_all hall hne k tail
  | lam hk hF _ _ ih =>
    rintro t ht k tail
    simp only [List.cons.injEq, and_true] at ht
    subst ht
    obtain ⟨es, hne, rfl, hall⟩ := ih (frames_cons hfs hF)
    rw [gen_lambda (hk.syntaxOf hP hH.envs hfs), genBody_all hall hne]
    simp only [emit, Option.bind_some]
  | letrec hk hv _ hlen _ _ ih₁ ih₂ =>
    rintro t ht k tail
    simp only [List.cons.injEq, and_true] at ht
    subst ht
    obtain ⟨es₁, he₁, hall₁⟩ := ih₁ (frames_cons hfs (parse_ofList hv))
    have := ofList_inj he₁
    subst this
    obtain ⟨es₂, hne₂, rfl, hall₂⟩ := ih₂ (frames_cons hfs (parse_ofList hv))
    rw [gen_letrec (hk.syntaxOf hP hH.envs hfs), mapCar_zip _ _ hlen]
    simp only [genBody_all hall₂ hne₂, Option.bind_some, genInits_all hall₁ _ _ hlen, emit]
  | @app fs' f' _ _ _ ha hg h ih =>
    rintro t ht k tail
    simp only [List.cons.injEq, and_true] at ht
    subst ht
    obtain ⟨es, he, hall⟩ := ih hfs
    cases hall with
    | cons h₁ hall =>
      simp only [Form.ofList, Form.cons.injEq] at he
      obtain ⟨rfl, rfl⟩ := he
      have hsyn : Expand.syntaxOf P.W H P.C.globals f' fs' = none := by
        cases h with
        | cons hf _ => exact appHead_syntaxOf hP hf ha hg hH.env0 hH.envs hfs
      rw [gen_app hsyn, h₁ _ _]
      simp only [Option.bind_some, genOperand_all hall, emit]
  | nil => exact ⟨[], rfl, .nil⟩
  | cons _ _ ih₁ ih₂ =>
    obtain ⟨es, rfl, hall⟩ := ih₂ hfs
    exact ⟨_ :: es, rfl, .cons (ih₁ hfs _ rfl) hall⟩
  | one _ _ ih => exact ⟨[_], by simp, rfl, .cons (ih hfs _ rfl) .nil⟩
  | more _ _ _ ih₁ ih₂ =>
    obtain ⟨es, _, rfl, hall⟩ := ih₂ hfs
    exact ⟨_ :: es, by simp, rfl, .cons (ih₁ hfs _ rfl) hall⟩

end Meevax.Expand
