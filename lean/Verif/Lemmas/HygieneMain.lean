import Verif.Lemmas.HygieneDefs

/-!
The expander yields, for every form with a meaning, a form of that meaning.
-/

namespace Meevax.Expand

open Secd (Name Code)
open Spec

/-! ## Definitions seen from outside -/

theorem head_def {C : Ctx} {ρ : List Frame} {vs : List Form} (hd : C.Definable ρ vs) (q : Form) :
    C.head ρ q = C.head (⟨vs, none⟩ :: ρ) q := by
  by_cases hm : q ∈ vs
  · simp [Ctx.head, (hd.2 q hm).2.1]
  · have hm' : q ∉ Frame.ids ⟨vs, none⟩ := by simpa [Frame.ids] using hm
    simp only [Ctx.head, lookup_cons_of_not_mem hm']
    cases lookup ρ q 0 <;> simp

theorem DefOf.outer {P : Setup} {ρ : List Frame} {vs : List Form} (hd : P.C.Definable ρ vs)
    {d v : Form} (h : DefOf P (⟨vs, none⟩ :: ρ) d v) : DefOf P ρ d v := by
  cases h with
  | var h₁ h₂ h₃ h₄ => exact .var h₁ h₂ ((head_def hd _).trans h₃) h₄
  | proc h₁ h₂ h₃ => exact .proc h₁ h₂ ((head_def hd _).trans h₃)

theorem flattens_outer {C : Ctx} {ρ : List Frame} {vs : List Form} (hd : C.Definable ρ vs) {fs ds es : List Form}
    (h : C.Flattens (⟨vs, none⟩ :: ρ) fs ds es) : C.Flattens ρ fs ds es := by
  induction h with
  | stop => exact .stop
  | form _ ih => exact .form ih
  | begin hq hi _ ih => exact .begin ((head_def hd _).trans hq) hi ih

theorem refers_def {C : Ctx} {ρ : List Frame} {vs : List Form} (hnd : vs.Nodup) {k : Nat} {v : Form}
    (h : vs[k]? = some v) : C.refers (⟨vs, none⟩ :: ρ) v = some (.loc 0 k) := by
  have hf : vs.findIdx? (· = v) = some k := by
    rw [List.findIdx?_eq_some_iff_getElem]
    obtain ⟨hk, hv⟩ := List.getElem?_eq_some_iff.mp h
    refine ⟨hk, by simpa using hv, ?_⟩
    intro j hj
    have hjl : j < vs.length := by omega
    simp only [decide_eq_true_eq]
    intro heq
    have := (List.getElem_inj (h₀ := hjl) (h₁ := hk) hnd).mp (heq.trans hv.symm)
    omega
  simp [Ctx.refers, lookup, Frame.find, hf]

/-- `sweep` stops at an expression that is neither `begin` nor a use of a macro. -/
theorem sweep_stops {P : Setup} (hP : P.Ok) {ρ : List Frame} {vs : List Form} {bv : Scopes}
    {D : List (Name × Form)} {st : St} (hr : Rel P ρ bv D st) (hd : P.C.Definable ρ vs)
    (hsv : ∀ v ∈ vs, Src P.base v) {e : Form} {m m' : Nat} {t : Term}
    (h : Den P.C .expr (⟨vs, none⟩ :: ρ) e m [t] m') (hs : Src P.base e)
    (hno : ∀ q d, e = .cons q d → q.isIdentifier = true →
      P.C.head (⟨vs, none⟩ :: ρ) q ≠ some (.syn .begin) ∧
      ∀ t, P.C.head (⟨vs, none⟩ :: ρ) q ≠ some (.transformer t)) {env i : Nat}
    (henv : st.envs env = ⟨(i, .ofList vs) :: bv, P.C.globals⟩) (n : Nat) (form rest : Form)
    (formals specs : List Form) :
    sweep P.W (n + 1) P.C.globals form (.cons e rest) bv env formals specs st =
      some (specs, formals, .cons e rest, st) := by
  cases e with
  | closure j e fr w =>
    generalize hk : Kind.expr = k at h
    generalize hts : [t] = ts at h
    generalize hfo : Form.closure j e fr w = fo at h
    cases h with
    | var hi hrf =>
      subst hfo
      have hl := leaf_of_refers (hr.enterDef hd hsv i) hs hi hrf
      have hid := hl.identify hr.ok.envs (by simp [conv])
      apply sweep_closure_some
      rw [henv]
      exact hid
    | const hi => subst hfo; simp [Form.isIdentifier] at hi
    | _ => first | (cases hfo; done) | (cases hk; done)
  | cons q d =>
    have key : sweepHead P.W P.C.globals q bv st ≠ some (.syn .begin) ∧
        (∀ t, sweepHead P.W P.C.globals q bv st ≠ some (.transformer t)) ∧
        sweepHead P.W P.C.globals q bv st ≠ some (.syn .define) ∧
        sweepHead P.W P.C.globals q bv st ≠ some (.syn .defineSyntax) := by
      by_cases hi : q.isIdentifier = true
      · have hh := sweepHead_eq hP hr hs.1 hi
        rw [head_def hd] at hh
        rw [hh]
        obtain ⟨h₁, h₂⟩ := hno q d rfl hi
        refine ⟨h₁, h₂, ?_, ?_⟩
        all_goals
          generalize hk : Kind.expr = k at h
          generalize hts : [t] = ts at h
          generalize hfo : Form.cons q d = fo at h
          cases h with
          | quote hh => cases hfo; rw [hh]; simp
          | when hh => cases hfo; rw [hh]; simp
          | ite hh => cases hfo; rw [hh]; simp
          | set hh => cases hfo; rw [hh]; simp
          | seq hh => cases hfo; rw [hh]; simp
          | lam hh => cases hfo; rw [hh]; simp
          | letrec hh => cases hfo; rw [hh]; simp
          | app hh => cases hfo; rw [hh hi]; simp
          | use hh => cases hfo; rw [hh]; simp
          | var hv => subst hfo; simp [Form.isIdentifier] at hv
          | const _ hc => exact absurd hfo.symm (hc _ _)
          | _ => cases hk
      · simp [sweepHead, hi]
    exact sweep_other key.2.1 key.1 key.2.2.1 key.2.2.2
  | _ => exact sweep_atom (by simp) (by simp)

/-! ## The statement for each kind -/

/-- An expression. -/
structure ExprOK (P : Setup) (ρ : List Frame) (form : Form) (m : Nat) (t : Term) (m' : Nat) : Prop where
  expr : ∀ bv D st, Rel P ρ bv D st → st.made = m → Expands P D bv st form t m'
  use : ∀ q d tr, form = .cons q d → q.isIdentifier = true → P.C.head ρ q = some (.transformer tr) →
    ∀ bv D st env, Rel P ρ bv D st → st.made = m → st.envs env = ⟨bv, P.C.globals⟩ →
    env < st.nextEnv → UseRuns P D bv form tr env st t m'
  elem : ∀ bv D st₀, Rel P ρ bv D st₀ → ∀ rest o m₂, RestRuns P D bv st₀ rest m' o m₂ →
    SweepRuns P D bv st₀ (.cons form rest) m (emitHead t o) m₂

/-- A list of expressions. -/
structure ListOK (P : Setup) (ρ : List Frame) (form : Form) (m : Nat) (ts : List Term) (m' : Nat) :
    Prop where
  list : ∃ es, form = .ofList es ∧ es.length = ts.length
  operands : ∀ bv D st, Rel P ρ bv D st → st.made = m → Operands P D bv st form ts m'
  inits : ∀ vs es, form = .ofList es → vs.length = es.length → ∀ bv D st, Rel P ρ bv D st →
    st.made = m → ∃ M es' ts' st', es'.length = es.length ∧ (∀ n ≥ M, inits P.W n P.C.globals
      (.ofList (List.zipWith (fun v e => Form.ofList [v, e]) vs es)) bv st =
        some (.ofList (List.zipWith (fun v e => Form.ofList [v, e]) vs es'), st')) ∧ Ext st st' ∧
      st'.made = m' ∧ Tgt P st'.envs st'.nextEnv D .list (frames bv) (.ofList es') ts' ∧ SameL ts' ts
  splice : ts ≠ [] → ∀ bv D st₀, Rel P ρ bv D st₀ → ∀ rest o m₂, RestRuns P D bv st₀ rest m' o m₂ →
    SweepRuns P D bv st₀ (append form rest) m (emitHeads ts o) m₂

/-- Internal definitions. -/
structure DefsOK (P : Setup) (ρ : List Frame) (form : Form) (m : Nat) (ts : List Term) (m' : Nat) :
    Prop where
  list : ∃ l : List (Form × Form), form = .ofList (l.map Prod.fst) ∧
    ∀ p ∈ l, DefOf P ρ p.1 p.2 ∧ defined p.1 = some p.2 ∧ Src P.base p.2
  runs : ∀ bv D st₀, Rel P ρ bv D st₀ → ∀ (ds vs ss : List Form), form = .ofList ds →
    ds.map defined = vs.map some → Specs ds ss → ∀ j, (∀ k v, vs[k]? = some v → Src P.base v ∧ v.isIdentifier = true ∧
      P.C.refers ρ v = some (.loc 0 (j + k))) →
    ∀ rest out us m₂, Assigned ss rest out → us ≠ [] →
    BodyRuns P D bv st₀ rest m' (emitBody us) m₂ →
    BodyRuns P D bv st₀ out m (emitBody (sets j ts ++ us)) m₂

def Motive (P : Setup) : Kind → List Frame → Form → Nat → List Term → Nat → Prop
  | .expr, ρ, form, m, ts, m' => Src P.base form → ∀ t, ts = [t] → ExprOK P ρ form m t m'
  | .list, ρ, form, m, ts, m' => Src P.base form → ListOK P ρ form m ts m'
  | .body, ρ, form, m, ts, m' => Src P.base form → ∀ bv D st, Rel P ρ bv D st →
    BodyRuns P D bv st form m (emitBody ts) m'
  | .defs, ρ, form, m, ts, m' => Src P.base form → DefsOK P ρ form m ts m'

/-- A form at which `sweep` stops. -/
theorem elem_of_stop {P : Setup} {ρ : List Frame} {form : Form} {m m' : Nat} {t : Term}
    (hnb : ∀ ts, t ≠ .seq ts)
    (he : ∀ bv D st, Rel P ρ bv D st → st.made = m → Expands P D bv st form t m')
    (hstop : ∀ bv D st, Rel P ρ bv D st → ∀ n fo env rest, st.envs env = ⟨bv, P.C.globals⟩ →
      sweep P.W (n + 1) P.C.globals fo (.cons form rest) bv env [] [] st =
        some ([], [], .cons form rest, st)) :
    ∀ bv D st₀, Rel P ρ bv D st₀ → ∀ rest o m₂, RestRuns P D bv st₀ rest m' o m₂ →
      SweepRuns P D bv st₀ (.cons form rest) m (emitHead t o) m₂ := by
  intro bv D st₀ hr rest o m₂ hrest st hst hm fo env henv hlt
  obtain ⟨M₁, a', t', st₁, h₁, x₁, m₁, ht, hsame⟩ := he bv D st (hr.ext hst) hm
  subst m₁
  obtain ⟨M₂, d, st₂, ts, h₂, x₂, hm₂, ht₂, hc⟩ := assemble ht (hsame.notSeq hnb) (hst.trans x₁) hrest
  refine ⟨max M₁ M₂ + 1, form, rest, st, a', st₁, d, st₂, ts, ?_, ?_, ?_, x₁.trans x₂, hm₂, ht₂,
    hc.trans (hsame.head o)⟩
  · intro n hn
    obtain ⟨n, rfl, _⟩ := fuel hn
    exact hstop bv D st (hr.ext hst) n fo env rest henv
  · exact fun n hn => h₁ n (by omega)
  · exact fun n hn => h₂ n (by omega)

/-- A form that starts with a core syntax. -/
theorem exprOK_syn {P : Setup} (hP : P.Ok) {ρ : List Frame} {q d : Form} {m m' : Nat} {t : Term}
    {k : Syntax} (hs : Src P.base (.cons q d)) (hh : P.C.head ρ q = some (.syn k))
    (hi : q.isIdentifier = true) (hnb : ∀ ts, t ≠ .seq ts)
    (hk : k ≠ .begin ∧ k ≠ .define ∧ k ≠ .defineSyntax)
    (he : ∀ bv D st, Rel P ρ bv D st → st.made = m → Expands P D bv st (.cons q d) t m') :
    ExprOK P ρ (.cons q d) m t m' := by
  refine ⟨he, ?_, elem_of_stop hnb he ?_⟩
  · intro q' d' tr hf hi' hh'
    cases hf
    rw [hh] at hh'
    cases hh'
  · intro bv D st hr n fo env rest _
    have hhead := sweepHead_eq hP hr hs.1 hi
    rw [hh] at hhead
    exact sweep_other (by rw [hhead]; simp) (by rw [hhead]; simp [hk.1]) (by rw [hhead]; simp [hk.2.1])
      (by rw [hhead]; simp [hk.2.2])

/-- `if` in its two forms. -/
theorem expands_cond {P : Setup} (hP : P.Ok) {ρ : List Frame} {bv : Scopes} {D : List (Name × Form)}
    {st : St} (h : Rel P ρ bv D st) {q d : Form} {ts : List Term} {t : Term} {m' : Nat}
    (hk : Key P D (frames bv) q .cond) (ho : Operands P D bv st d ts m')
    (ht : ∀ H N out ts', Tgt P H N D .list (frames bv) out ts' → SameL ts' ts →
      ∃ t', Tgt P H N D .expr (frames bv) (.cons q out) [t'] ∧ Same t' t) :
    Expands P D bv st (.cons q d) t m' := by
  obtain ⟨M, out, ts', st', h₁, hx, hm, hto, hs⟩ := ho
  obtain ⟨t', ht', hs'⟩ := ht _ _ _ _ hto hs
  refine ⟨M + 2, .cons q out, t', st', ?_, hx, hm, ht', hs'⟩
  intro n hn
  obtain ⟨n, rfl, hn'⟩ := fuel2 hn
  rw [expand_syn hk.ident (hk.head hP h.place), syntax_cond, convert_plain h.ok hk.plain, h₁ n hn']
  rfl

/-- `begin`. -/
theorem expands_begin {P : Setup} (hP : P.Ok) {ρ : List Frame} {bv : Scopes}
    {D : List (Name × Form)} {st : St} (h : Rel P ρ bv D st) {q d : Form} {ts : List Term} {m' : Nat}
    (hk : Key P D (frames bv) q .begin) (hne : ts ≠ []) (ho : Operands P D bv st d ts m') :
    Expands P D bv st (.cons q d) (.seq ts) m' := by
  obtain ⟨M, out, ts', st', h₁, hx, hm, hto, hs⟩ := ho
  refine ⟨M + 4, .cons q out, .seq ts', st', ?_, hx, hm, .seq hk (hs.ne hne) hto, ?_⟩
  · intro n hn
    obtain ⟨n, rfl, hn'⟩ := fuel4 hn
    rw [expand_syn hk.ident (hk.head hP h.place), syntax_begin, operand_cons,
      hk.expand hP h.place n]
    simp only [Option.bind_some]
    rw [h₁ (n + 1) (by omega)]
    rfl
  · exact ⟨fun k tail => by simp only [emit, hs.seqs], fun _ => ⟨_, rfl⟩, fun a => by simp⟩

/-- `begin` in a body. -/
theorem sweepRuns_begin {P : Setup} (hP : P.Ok) {ρ : List Frame} {bv : Scopes}
    {D : List (Name × Form)} {st₀ : St} (h : Rel P ρ bv D st₀) {q d rest : Form} {c : Code}
    {m m₂ : Nat} (hs : Src P.base q) (hi : q.isIdentifier = true)
    (hh : P.C.head ρ q = some (.syn .begin))
    (hr : SweepRuns P D bv st₀ (append d rest) m c m₂) :
    SweepRuns P D bv st₀ (.cons (.cons q d) rest) m c m₂ := by
  intro st hst hm form env henv hlt
  obtain ⟨M, a, d', st₁, a', st₂, d'', st₃, ts', h₁, h₂, h₃, hx, hm', ht, hc⟩ :=
    hr st hst hm form env henv hlt
  have hhead := sweepHead_eq hP (h.ext hst) hs hi
  rw [hh] at hhead
  refine ⟨M + 1, a, d', st₁, a', st₂, d'', st₃, ts', ?_, ?_, ?_, hx, hm', ht, hc⟩
  · intro n hn
    obtain ⟨n, rfl, hn'⟩ := fuel hn
    rw [sweep_begin hhead, h₁ n hn']
  · exact fun n hn => h₂ n (by omega)
  · exact fun n hn => h₃ n (by omega)

theorem append_list_nil (es : List Form) : append (.ofList es) .nil = .ofList es := by
  have := append_ofList es []
  simpa [Form.ofList] using this

theorem src_zip {base : Nat} : ∀ {vs es : List Form}, vs.length = es.length →
    Src base (.ofList (List.zipWith (fun v e => Form.ofList [v, e]) vs es)) →
    (∀ v ∈ vs, Src base v) ∧ Src base (.ofList es) := by
  intro vs
  induction vs with
  | nil => intro es h _; cases es <;> simp_all [Form.ofList, Src]
  | cons v vs ih =>
    intro es h hs
    cases es with
    | nil => simp at h
    | cons e es =>
      simp only [List.length_cons, Nat.add_right_cancel_iff] at h
      rw [List.zipWith_cons_cons] at hs
      obtain ⟨h₁, h₂⟩ := hs
      obtain ⟨h₃, h₄⟩ := ih h h₂
      refine ⟨?_, h₁.2.1, h₄⟩
      intro w hw
      rcases List.mem_cons.mp hw with rfl | hw
      · exact h₁.1
      · exact h₃ w hw

/-- `letrec`. -/
theorem expands_letrec {P : Setup} (hP : P.Ok) {ρ : List Frame} {bv : Scopes}
    {D : List (Name × Form)} {st : St} (h : Rel P ρ bv D st) {q forms : Form} {vs es : List Form}
    {m m₁ m₂ : Nat} {ts₁ ts₂ : List Term} (hk : Key P D (frames bv) q .letrec)
    (hd : P.C.Definable ρ vs) (hlen : vs.length = es.length) (hsv : ∀ v ∈ vs, Src P.base v)
    (hm : st.made = m) (hl : ListOK P (⟨vs, none⟩ :: ρ) (.ofList es) m ts₁ m₁)
    (hb : ∀ bv D st, Rel P (⟨vs, none⟩ :: ρ) bv D st → BodyRuns P D bv st forms m₁ (emitBody ts₂) m₂) :
    Expands P D bv st
      (.cons q (.cons (.ofList (List.zipWith (fun v e => Form.ofList [v, e]) vs es)) forms))
      (.letrec ts₁ ts₂) m₂ := by
  have hident := fun v hv => (hd.2 v hv).1
  have hp := parse_ofList hident
  have hvis := definable_invisible h hd
  have hid := convertFormals_id (fs := frames bv) (st := st) ⟨_, h.ok.alpha⟩
    (F := .ofList vs) (fun f' hf' x hx => by
      rw [hp] at hf'
      simp only [Option.some.injEq] at hf'
      subst hf'
      exact hvis x (by simpa [Frame.ids] using hx)) ⟨_, hp⟩
  have x₀ := Ext.bump st 1
  have hr₀ := (h.ext x₀).enterDef hd hsv st.next
  obtain ⟨M₁, es', ts₁', st₁, hlen', g₁, x₁, hm₁, ht₁, hs₁⟩ := hl.inits vs es rfl hlen _ D _ hr₀ hm
  obtain ⟨M₂, out, st₂, ts₂', g₂, x₂, hm₂, ht₂, hc⟩ := hb _ D _ hr₀ st₁ x₁ hm₁
  refine ⟨max M₁ M₂ + 2,
    .cons q (.cons (.ofList (List.zipWith (fun v e => Form.ofList [v, e]) vs es')) out),
    .letrec ts₁' ts₂', st₂, ?_, x₀.trans (x₁.trans x₂), hm₂,
    .letrec hk hident hvis (hlen.trans hlen'.symm) (ht₁.ext x₂) ht₂, ?_⟩
  · intro n hn
    obtain ⟨n, rfl, hn'⟩ := fuel2 hn
    rw [expand_syn hk.ident (hk.head hP h.place), syntax_letrec (mapCar_zip _ _ hlen), hid]
    simp only
    rw [g₁ n (by omega)]
    simp only [Option.bind_some]
    rw [g₂ n (by omega)]
    rfl
  · refine ⟨fun k tail => ?_, ?_, fun a => by simp⟩
    · simp only [emit, hs₁.args, hc]
    · rintro ⟨ts, h⟩
      cases h

theorem emitHeads_body {ts : List Term} (h : ts ≠ []) : emitHeads ts none = emitBody ts := by
  rw [emitBody_eq ts h]; rfl

/-- The body of a list of expressions. -/
theorem ListOK.body {P : Setup} {ρ : List Frame} {form : Form} {m m' : Nat} {ts : List Term}
    (h : ListOK P ρ form m ts m') (hne : ts ≠ []) {bv : Scopes} {D : List (Name × Form)} {st : St}
    (hr : Rel P ρ bv D st) : BodyRuns P D bv st form m (emitBody ts) m' := by
  have := (h.splice hne bv D st hr .nil none m' .last).body
  obtain ⟨es, rfl, _⟩ := h.list
  rw [append_list_nil, emitHeads_body hne] at this
  exact this

theorem ofList_nil {es : List Form} (h : es.length = 0) : Form.ofList es = .nil := by
  cases es with
  | nil => rfl
  | cons => simp at h

/-- What follows an expression of a body. -/
theorem ListOK.rest {P : Setup} {ρ : List Frame} {form : Form} {m m' : Nat} {ts : List Term}
    (h : ListOK P ρ form m ts m') (hm : ts = [] → m = m') {bv : Scopes} {D : List (Name × Form)}
    {st : St} (hr : Rel P ρ bv D st) :
    ∃ o, RestRuns P D bv st form m o m' ∧ ∀ t, emitHead t o = emitBody (t :: ts) := by
  by_cases hne : ts = []
  · subst hne
    obtain ⟨es, rfl, hl⟩ := h.list
    rw [ofList_nil hl]
    refine ⟨none, ?_, fun t => by simp [emitHead, emitBody]⟩
    rw [hm rfl]
    exact .last
  · refine ⟨some (emitBody ts), .more (h.body hne hr), ?_⟩
    intro t
    cases ts with
    | nil => exact absurd rfl hne
    | cons u ts => simp only [emitHead, emitBody]

theorem den_list_nil {C : Ctx} {ρ : List Frame} {form : Form} {m m' : Nat} {ts : List Term}
    (h : Den C .list ρ form m ts m') : ts = [] → m = m' := by
  cases h with
  | nil => intro _; rfl
  | cons => intro h; cases h

theorem sets_cons (j : Nat) (t : Term) (ts : List Term) :
    sets j (t :: ts) = .set (.loc 0 j) t :: sets (j + 1) ts := rfl

/-- One definition: the assignment, and the rest of the body. -/
theorem bodyRuns_set {P : Setup} (hP : P.Ok) {ρ : List Frame} {bv : Scopes} {D : List (Name × Form)}
    {st₀ : St} (h : Rel P ρ bv D st₀) {v e out : Form} {n j m m₁ m₂ : Nat} {t : Term}
    {us : List Term} (hs : Src P.base v) (hi : v.isIdentifier = true)
    (hr : P.C.refers ρ v = some (.loc 0 j))
    (he : ∀ st, Ext st₀ st → st.made = m → Expands P D bv st e t m₁) (hne : us ≠ [])
    (hb : BodyRuns P D bv st₀ out m₁ (emitBody us) m₂) :
    BodyRuns P D bv st₀
      (.cons (.cons (.closure (.core n) coreEnv [] (.sym setName)) (.ofList [v, e])) out) m
      (emitBody (.set (.loc 0 j) t :: us)) m₂ := by
  have hexp : ∀ st, Ext st₀ st → st.made = m → Expands P D bv st
      (.cons (.closure (.core n) coreEnv [] (.sym setName)) (.ofList [v, e]))
      (.set (.loc 0 j) t) m₁ := by
    intro st hst hm
    have hr' := h.ext hst
    apply expands_set hP hr' (key_set hP hr' n)
    have h₁ := expands_var hr' hs hi hr
    refine operands_cons h₁ ?_
    intro st' hx hm'
    refine operands_cons (he st' (hst.trans hx) (hm'.trans hm)) ?_
    intro st'' _ hm''
    rw [← hm'']
    exact operands_nil
  have hcode : emitBody (.set (.loc 0 j) t :: us) = emitHead (.set (.loc 0 j) t) (some (emitBody us)) := by
    cases us with
    | nil => exact absurd rfl hne
    | cons u us => simp only [emitHead, emitBody]
  rw [hcode]
  apply SweepRuns.body
  intro st hst hm form env henv hlt
  obtain ⟨M₁, a', t', st₁, h₁, x₁, hm₁, ht, hsame⟩ := hexp st hst hm
  subst hm₁
  obtain ⟨M₂, d, st₂, ts, h₂, x₂, hm₂, ht₂, hc⟩ := assemble ht (hsame.notSeq (by simp))
    (hst.trans x₁) (.more hb)
  refine ⟨max M₁ M₂ + 1, .cons (.closure (.core n) coreEnv [] (.sym setName)) (.ofList [v, e]), out, st,
    a', st₁, d, st₂, ts, ?_, ?_, ?_, x₁.trans x₂, hm₂, ht₂, hc.trans (hsame.head _)⟩
  · intro k hk
    obtain ⟨k, rfl, _⟩ := fuel hk
    have hr' := h.ext hst
    have hhead := sweepHead_key hP hr' (key_set hP hr' n)
    exact sweep_other (by rw [hhead]; simp) (by rw [hhead]; simp) (by rw [hhead]; simp)
      (by rw [hhead]; simp)
  · exact fun n hn => h₁ n (by omega)
  · exact fun n hn => h₂ n (by omega)

theorem pairs_of {P : Setup} {ρ : List Frame} {l : List (Form × Form)} {vs : List Form}
    (h : ∀ p ∈ l, DefOf P ρ p.1 p.2 ∧ defined p.1 = some p.2 ∧ Src P.base p.2)
    (hv : (l.map Prod.fst).map defined = vs.map some) : l.map Prod.snd = vs := by
  induction l generalizing vs with
  | nil => cases vs <;> simp_all
  | cons p l ih =>
    cases vs with
    | nil => simp at hv
    | cons v vs =>
      simp only [List.map_cons, List.cons.injEq] at hv
      have := (h p List.mem_cons_self).2.1
      rw [this] at hv
      simp only [Option.some.injEq] at hv
      rw [List.map_cons, hv.1, ih (fun p hp => h p (List.mem_cons_of_mem _ hp)) hv.2]

/-! ## The induction -/

theorem expands_den {P : Setup} (hP : P.Ok) {k : Kind} {ρ : List Frame} {form : Form} {m m' : Nat}
    {ts : List Term} (h : Den P.C k ρ form m ts m') : Motive P k ρ form m ts m' := by
  induction h with
  | @var ρ v m a hi hr =>
    intro hs t ht
    cases ht
    have he : ∀ bv D st, Rel P ρ bv D st → st.made = m → Expands P D bv st v (.ref a) m :=
      fun bv D st h hm => by have := expands_var h hs hi hr; rw [hm] at this; exact this
    refine ⟨he, ?_, elem_of_stop (by simp) he ?_⟩
    · rintro q d tr rfl
      simp [Form.isIdentifier] at hi
    · intro bv D st hrel n fo env rest henv
      cases v with
      | closure i e fr w =>
        have hl := leaf_of_refers hrel hs hi hr
        apply sweep_closure_some
        rw [henv]
        exact hl.identify hrel.ok.envs (by simp [conv])
      | cons => simp [Form.isIdentifier] at hi
      | _ => exact sweep_atom (by simp) (by simp)
  | @const ρ d m c hi hc hd =>
    intro hs t ht
    cases ht
    have he : ∀ bv D st, Rel P ρ bv D st → st.made = m → Expands P D bv st d (.const c) m := by
      intro bv D st h hm
      refine ⟨1, d, .const c, st, ?_, Ext.refl st, hm, .const hi hc hd, Same.refl _⟩
      intro n hn
      obtain ⟨n, rfl, _⟩ := fuel hn
      exact expand_atom hi hc
    refine ⟨he, fun q d' tr hf => absurd hf (hc _ _), elem_of_stop (by simp) he ?_⟩
    intro bv D st hrel n fo env rest henv
    exact sweep_atom (fun a b h => hc a b h) (fun i e fr w h => by subst h; simp [Form.isIdentifier] at hi)
  | @quote ρ q d m c hh hi hq =>
    intro hs t ht
    cases ht
    refine exprOK_syn hP hs hh hi (by simp) (by simp) ?_
    intro bv D st hr hm
    have hk := key_of_head hr hs.1 hi hh
    refine ⟨2, _, .const c, st, ?_, Ext.refl st, hm, .quote hk hq, Same.refl _⟩
    intro n hn
    obtain ⟨n, rfl⟩ := Nat.exists_eq_add_of_le' hn
    rw [expand_syn hk.ident (hk.head hP hr.place), syntax_quote]
  | @when ρ q t c m m' tt tc hh hi _ ih =>
    intro hs t' ht
    cases ht
    refine exprOK_syn hP hs hh hi (by simp) (by simp) ?_
    intro bv D st hr hm
    refine expands_cond hP hr (key_of_head hr hs.1 hi hh) ((ih hs.2).operands bv D st hr hm) ?_
    intro H N out ts' hto hsame
    cases hsame with
    | cons hs₁ hsame =>
      cases hsame with
      | cons hs₂ hsame =>
        cases hsame
        cases hto with
        | cons ht₁ hto =>
          cases hto with
          | cons ht₂ hto =>
            cases hto
            refine ⟨_, .when (key_of_head hr hs.1 hi hh) (.cons ht₁ (.cons ht₂ .nil)), ?_⟩
            refine ⟨fun k tail => ?_, ?_, fun a => by simp⟩
            · simp only [emit, hs₁.code, hs₂.code]
            · rintro ⟨ts, h⟩
              cases h
  | @ite ρ q t c a m m' tt tc ta hh hi _ ih =>
    intro hs t' ht
    cases ht
    refine exprOK_syn hP hs hh hi (by simp) (by simp) ?_
    intro bv D st hr hm
    refine expands_cond hP hr (key_of_head hr hs.1 hi hh) ((ih hs.2).operands bv D st hr hm) ?_
    intro H N out ts' hto hsame
    cases hsame with
    | cons hs₁ hsame =>
      cases hsame with
      | cons hs₂ hsame =>
        cases hsame with
        | cons hs₃ hsame =>
          cases hsame
          cases hto with
          | cons ht₁ hto =>
            cases hto with
            | cons ht₂ hto =>
              cases hto with
              | cons ht₃ hto =>
                cases hto
                refine ⟨_, .ite (key_of_head hr hs.1 hi hh) (.cons ht₁ (.cons ht₂ (.cons ht₃ .nil))), ?_⟩
                refine ⟨fun k tail => ?_, ?_, fun a => by simp⟩
                · simp only [emit, hs₁.code, hs₂.code, hs₃.code]
                · rintro ⟨ts, h⟩
                  cases h
  | @set ρ q v e m m' a t hh hi hv hrf _ ih =>
    intro hs t' ht
    cases ht
    refine exprOK_syn hP hs hh hi (by simp) (by simp) ?_
    intro bv D st hr hm
    exact expands_set hP hr (key_of_head hr hs.1 hi hh) ((ih hs.2).operands bv D st hr hm)
  | @seq ρ q es m m' ts hh hi hne _ ih =>
    intro hs t' ht
    cases ht
    have hl := ih hs.2
    refine ⟨?_, ?_, ?_⟩
    · intro bv D st hr hm
      exact expands_begin hP hr (key_of_head hr hs.1 hi hh) hne (hl.operands bv D st hr hm)
    · intro q' d' tr hf hi' hh'
      cases hf
      rw [hh] at hh'
      cases hh'
    · intro bv D st₀ hr rest o m₂ hrest
      rw [emitHead_seq]
      exact sweepRuns_begin hP hr hs.1 hi hh (hl.splice hne bv D st₀ hr rest o m₂ hrest)
  | @lam ρ q formals f forms m m' ts hh hi hF hb _ ih =>
    intro hs t' ht
    cases ht
    refine exprOK_syn hP hs hh hi (by simp) (by simp) ?_
    intro bv D st hr hm
    exact expands_lam hP hr (key_of_head hr hs.1 hi hh) hF hb hs.2.1 hm (ih hs.2.2)
  | @letrec ρ q vs es forms m m₁ m₂ ts₁ ts₂ hh hi hd hlen _ _ ih₁ ih₂ =>
    intro hs t' ht
    cases ht
    obtain ⟨hsv, hse⟩ := src_zip hlen hs.2.1
    refine exprOK_syn hP hs hh hi (by simp) (by simp) ?_
    intro bv D st hr hm
    exact expands_letrec hP hr (key_of_head hr hs.1 hi hh) hd hlen hsv hm (ih₁ hse) (ih₂ hs.2.2)
  | @app ρ f es m m' tf ts hh hg _ ih =>
    intro hs t' ht
    cases ht
    have he : ∀ bv D st, Rel P ρ bv D st → st.made = m →
        Expands P D bv st (.cons f es) (.app tf ts) m' := by
      intro bv D st hr hm
      refine expands_app hr ?_ hg ((ih hs).operands bv D st hr hm)
      intro hi
      have := headKeyword_eq hP hr hs.1 hi
      rw [hh hi] at this
      exact this
    refine ⟨he, ?_, elem_of_stop (by simp) he ?_⟩
    · intro q' d' tr hf hi' hh'
      cases hf
      rw [hh hi'] at hh'
      cases hh'
    · intro bv D st hr n fo env rest _
      have hhead : sweepHead P.W P.C.globals f bv st = none := by
        by_cases hi : f.isIdentifier = true
        · rw [sweepHead_eq hP hr hs.1 hi, hh hi]
        · simp [sweepHead, hi]
      exact sweep_other (by rw [hhead]; simp) (by rw [hhead]; simp) (by rw [hhead]; simp)
        (by rw [hhead]; simp)
  | @use ρ q d m out renames m₁ m' tr t hh hi hinst hout hden ih =>
    intro hs t' ht
    cases ht
    have hu : ∀ bv D st env, Rel P ρ bv D st → st.made = m → st.envs env = ⟨bv, P.C.globals⟩ →
        env < st.nextEnv → UseRuns P D bv (.cons q d) tr env st t m' := by
      intro bv D st env hr hm henv hlt
      subst hm
      refine useRuns hP hr hs hh hinst hout hden henv hlt ?_
      intro hsrc st' hx hm'
      exact (ih hsrc t rfl).expr bv D st' (hr.ext hx) hm'
    refine ⟨?_, ?_, ?_⟩
    · intro bv D st hr hm
      have x₀ := Ext.newEnv st bv P.C.globals
      obtain ⟨henv, hlt⟩ := newEnv_env bv P.C.globals st
      exact expands_use hP hr hs.1 hi hh (hu bv D _ _ (hr.ext x₀) hm henv hlt)
    · intro q' d' tr' hf hi' hh'
      cases hf
      rw [hh] at hh'
      cases hh'
      exact hu
    · intro bv D st₀ hr rest o m₂ hrest
      exact sweepRuns_use hP hr hs.1 hi hh
        (fun st env hst hm henv hlt => hu bv D st env (hr.ext hst) hm henv hlt) hrest
  | @nil ρ m =>
    intro _
    refine ⟨⟨[], rfl, rfl⟩, ?_, ?_, fun h => absurd rfl h⟩
    · intro bv D st hr hm
      rw [← hm]
      exact operands_nil
    · intro vs es hes hlen bv D st hr hm
      have : es = [] := by cases es with | nil => rfl | cons => simp [Form.ofList] at hes
      subst this
      refine ⟨1, [], [], st, rfl, ?_, Ext.refl st, hm, .nil, .nil⟩
      intro n hn
      obtain ⟨n, rfl, _⟩ := fuel hn
      cases vs <;> exact inits_nil
  | @cons ρ a d m m₁ m₂ t ts hda hdd ih₁ ih₂ =>
    intro hs
    have h₁ := ih₁ hs.1 t rfl
    have h₂ := ih₂ hs.2
    obtain ⟨es₂, hes₂, hlen₂⟩ := h₂.list
    refine ⟨⟨a :: es₂, by rw [hes₂]; rfl, by simp [hlen₂]⟩, ?_, ?_, ?_⟩
    · intro bv D st hr hm
      exact operands_cons (h₁.expr bv D st hr hm)
        (fun st' hx hm' => h₂.operands bv D st' (hr.ext hx) hm')
    · intro vs es hes hlen bv D st hr hm
      cases es with
      | nil => cases hes
      | cons e es =>
        simp only [Form.ofList, Form.cons.injEq] at hes
        obtain ⟨rfl, hes⟩ := hes
        cases vs with
        | nil => simp at hlen
        | cons v vs =>
          simp only [List.length_cons, Nat.add_right_cancel_iff] at hlen
          obtain ⟨M₁, e', t', st₁, g₁, x₁, hm₁, ht₁, hs₁⟩ := h₁.expr bv D st hr hm
          obtain ⟨M₂, es', ts', st₂, hl, g₂, x₂, hm₂, ht₂, hs₂⟩ :=
            h₂.inits vs es hes hlen bv D st₁ (hr.ext x₁) hm₁
          refine ⟨max M₁ M₂ + 1, e' :: es', t' :: ts', st₂, by simp [hl], ?_, x₁.trans x₂, hm₂,
            .cons (ht₁.ext x₂) ht₂, .cons hs₁ hs₂⟩
          intro n hn
          obtain ⟨n, rfl, _⟩ := fuel hn
          have g₂' := g₂ n (by omega)
          simp only [Form.ofList] at g₂'
          rw [List.zipWith_cons_cons, List.zipWith_cons_cons, Form.ofList, Form.ofList, Form.ofList,
            inits_cons, g₁ n (by omega)]
          simp only [Option.bind_some, Form.ofList]
          rw [g₂']
          rfl
    · intro _ bv D st₀ hr rest o m₃ hrest
      rw [append_cons]
      by_cases hts : ts = []
      · subst hts
        have := den_list_nil hdd rfl
        subst this
        rw [hes₂, ofList_nil hlen₂, append_nil_left, emitHeads_one]
        exact h₁.elem bv D st₀ hr rest o m₃ hrest
      · rw [emitHeads_cons t hts]
        exact h₁.elem bv D st₀ hr _ _ m₃ (.more (h₂.splice hts bv D st₀ hr rest o m₃ hrest).body)
  | @exprs ρ es m m' ts hne _ ih =>
    intro hs bv D st hr
    exact (ih hs).body hne hr
  | @define ρ fs ds vs e es m m₁ m₂ ts₁ ts₂ hw hne hdv hd hno hdefs hlist ih₁ ih₂ =>
    intro hs bv D st₀ hr
    rw [src_ofList] at hs
    obtain ⟨hsd', hse'⟩ := src_flattens hw hs
    have hsd : Src P.base (.ofList ds) := src_ofList.mpr hsd'
    have hse : Src P.base (.ofList (e :: es)) := src_ofList.mpr hse'
    have h₁ := ih₁ hsd
    have h₂ := ih₂ hse
    obtain ⟨l, hl, hp⟩ := h₁.list
    have hl' := ofList_inj hl
    subst hl'
    have hvs := pairs_of hp hdv
    subst hvs
    have hsv : ∀ v ∈ l.map Prod.snd, Src P.base v := by
      intro v hv
      obtain ⟨p, hp', rfl⟩ := List.mem_map.mp hv
      exact (hp p hp').2.2
    have hts₂ : ts₂ ≠ [] := by
      intro h
      obtain ⟨es', he, hlen⟩ := h₂.list
      rw [h] at hlen
      rw [ofList_nil hlen] at he
      cases he
    rw [List.length_map]
    refine bodyRuns_defs hP hr (flattens_outer hd hw) hs (by simpa using hne) (fun p hp' => (hp p hp').1.outer hd) hd ?_
    intro st env ss i hst hm hss henv hlt
    refine ⟨1, .ofList (e :: es), st, m, ?_, Ext.refl st, hm, ?_⟩
    · intro n hn form
      obtain ⟨n, rfl, _⟩ := fuel hn
      cases hlist with
      | cons hde _ =>
        exact sweep_stops hP (hr.ext hst) hd hsv hde hse.1 hno henv n form _ _ _
    · intro out st₂ j hass hx hm₂
      have hr₂ := ((hr.ext (hst.trans hx)).enterDef hd hsv j)
      refine h₁.runs _ D st₂ hr₂ _ _ ss rfl hdv hss 0 ?_ _ out ts₂ m₂ hass hts₂ (h₂.body hts₂ hr₂)
      intro k v hk
      have hmem := List.mem_of_getElem? hk
      refine ⟨hsv v hmem, (hd.2 v hmem).1, ?_⟩
      rw [Nat.zero_add]
      exact refers_def hd.1 hk
  | @defineUse ρ fs ds vs q d es m m₁ m₂ m₃ tr t₀ ts₁ ts₂ hw hne hdv hd hi hh hden hdefs hlist ih₀ ih₁ ih₂ =>
    intro hs bv D st₀ hr
    rw [src_ofList] at hs
    obtain ⟨hsd', hse'⟩ := src_flattens hw hs
    have hsd : Src P.base (.ofList ds) := src_ofList.mpr hsd'
    have hsq : Src P.base (.cons q d) := hse' _ (by simp)
    have hse : Src P.base (.ofList es) := src_ofList.mpr fun a ha => hse' a (by simp [ha])
    have h₀ := ih₀ hsq t₀ rfl
    have h₁ := ih₁ hsd
    have h₂ := ih₂ hse
    obtain ⟨l, hl, hp⟩ := h₁.list
    have hl' := ofList_inj hl
    subst hl'
    have hvs := pairs_of hp hdv
    subst hvs
    have hsv : ∀ v ∈ l.map Prod.snd, Src P.base v := by
      intro v hv
      obtain ⟨p, hp', rfl⟩ := List.mem_map.mp hv
      exact (hp p hp').2.2
    rw [List.length_map]
    refine bodyRuns_defs hP hr (flattens_outer hd hw) hs (by simpa using hne) (fun p hp' => (hp p hp').1.outer hd) hd ?_
    intro st env ss i hst hm hss henv hlt
    have hrO := hr.ext hst
    have hrS := hrO.enterDef hd hsv i
    have hhead := sweepHead_eq hP hrO hsq.1 hi
    rw [head_def hd, hh] at hhead
    have huse := h₀.use q d tr rfl hi hh _ D st env hrS hm henv hlt
    -- the sweep ends with the expanded use, split into a first form and more forms
    have hsweep : ∃ M e' t' st', Ext st st' ∧ st'.made = m₁ ∧
        Tgt P st'.envs st'.nextEnv D .expr (.ofList (l.map Prod.snd) :: frames bv) e' [t'] ∧
        Same t' t₀ ∧ ∀ n ≥ M, ∀ form rest, ∃ k ≥ n - M,
          sweep P.W n P.C.globals form (.cons (.cons q d) rest) bv env (l.map Prod.snd) ss.reverse st =
            sweep P.W k P.C.globals form (.cons e' rest) bv env (l.map Prod.snd) ss.reverse st' := by
      obtain ⟨ci, ce, cfr, cw, h₁, hx, hu⟩ := huse
      rcases hu with ⟨b, hb, hm', ht⟩ | ⟨hb, M, e', t', st', g, x, hm', ht, hsame⟩
      · refine ⟨1, .closure ci ce cfr cw, t₀, _, hx, hm', ht, Same.refl _, ?_⟩
        intro n hn form rest
        obtain ⟨n, rfl, _⟩ := fuel hn
        refine ⟨n, by omega, ?_⟩
        rw [sweep_use hhead, h₁]
      · have henv' := (hx.envs env hlt).trans henv
        refine ⟨M + 2, e', t', st', hx.trans x, hm', ht, hsame, ?_⟩
        intro n hn form rest
        obtain ⟨n, rfl, hn'⟩ := fuel2 hn
        refine ⟨n, by omega, ?_⟩
        rw [sweep_use hhead, h₁, sweep_closure_none (by rw [henv']; exact hb)]
        simp only [henv']
        rw [g n hn']
        rfl
    obtain ⟨M₀, e', t', st₁, x₁, hm₁, ht, hsame, hsw⟩ := hsweep
    have henv₁ := (x₁.envs env hlt).trans henv
    have hlt₁ := Nat.lt_of_lt_of_le hlt x₁.nextEnv
    have hr₁ := hrO.ext x₁
    obtain ⟨M₁, a, d', ta, tsd, g₁, g₂, g₃, g₄, g₅⟩ := ht.sweep hP hr₁.ok henv₁ rfl
      (subFrames_def hr₁ hd)
    refine ⟨M₀ + M₁, .cons a (append d' (.ofList es)), st₁, m₁, ?_, x₁, hm₁, ?_⟩
    · intro n hn form
      obtain ⟨k, hk, he⟩ := hsw n (by omega) form (.ofList es)
      rw [show Form.ofList (Form.cons q d :: es) = .cons (.cons q d) (.ofList es) from rfl, he,
        g₁ k (by omega)]
    · intro out st₂ j hass hx hm₂
      have hr₂ := (hr₁.ext hx).enterDef hd hsv j
      have hpl : Place P st₁.envs st₁.nextEnv D (.ofList (l.map Prod.snd) :: frames bv)
          ((j, .ofList (l.map Prod.snd)) :: bv) st₂ := by
        have := hr₂.place
        exact ⟨rfl, this.parses, this.ok, hx.envs, hx.nextEnv⟩
      obtain ⟨o, hrest, ho⟩ := h₂.rest (den_list_nil hlist) hr₂
      have hbody : BodyRuns P D ((j, .ofList (l.map Prod.snd)) :: bv) st₂
          (.cons a (append d' (.ofList es))) m₂ (emitBody (t₀ :: ts₂)) m₃ := by
        rw [← ho t₀, ← hsame.head, ← g₅]
        apply SweepRuns.body
        by_cases htsd : tsd = []
        · subst htsd
          have : d' = .nil := by cases g₄; rfl
          subst this
          rw [append_nil_left, emitHeads_one]
          exact (g₂.elem hP _ st₂ hpl _ o m₂ m₃ hrest).1 rfl ta rfl
        · rw [emitHeads_cons ta htsd]
          have := ((g₄.elem hP _ st₂ hpl _ o m₂ m₃ hrest).2 rfl htsd).body
          exact (g₂.elem hP _ st₂ hpl _ _ m₂ m₃ (.more this)).1 rfl ta rfl
      refine h₁.runs _ D st₂ hr₂ _ _ ss rfl hdv hss 0 ?_ _ out (t₀ :: ts₂) m₃ hass (by simp) hbody
      intro k v hk
      have hmem := List.mem_of_getElem? hk
      refine ⟨hsv v hmem, (hd.2 v hmem).1, ?_⟩
      rw [Nat.zero_add]
      exact refers_def hd.1 hk
  | @defsNil ρ m =>
    intro _
    refine ⟨⟨[], rfl, by simp⟩, ?_⟩
    intro bv D st₀ hr ds vs ss hds hdv hss j _ rest out us m₂ hass hne hb
    have : ds = [] := by cases ds with | nil => rfl | cons => simp [Form.ofList] at hds
    subst this
    cases hss
    cases hass
    exact hb
  | @defsVar ρ q v e d m m₁ m₂ t ts hh hi hv hde hdd ih₁ ih₂ =>
    intro hs
    have hs' : (Src P.base q ∧ Src P.base v ∧ Src P.base e ∧ True) ∧ Src P.base d := hs
    obtain ⟨⟨hsq, hsv, hse, _⟩, hsd⟩ := hs'
    have h₁ := ih₁ hse t rfl
    have h₂ := ih₂ hsd
    obtain ⟨l, hl, hp⟩ := h₂.list
    constructor
    · refine ⟨(.ofList [q, v, e], v) :: l, by rw [hl]; rfl, ?_⟩
      intro p hp'
      rcases List.mem_cons.mp hp' with rfl | hp'
      · refine ⟨.var hsq hi hh hv, ?_, hsv⟩
        cases v <;> simp_all [Form.isIdentifier, Form.ofList, defined]
      · exact hp p hp'
    · intro bv D st₀ hr ds vs ss hds hdv hss j hadr rest out us m₃ hass hne hb
      cases ds with
      | nil => cases hds
      | cons d₀ ds =>
        obtain ⟨hd₀, hds'⟩ := Form.cons.inj hds
        subst hd₀
        cases vs with
        | nil => simp at hdv
        | cons v₀ vs =>
          simp only [List.map_cons, List.cons.injEq] at hdv
          have hv₀ : v = v₀ := by
            have := hdv.1
            cases v <;> simp_all [Form.isIdentifier, Form.ofList, defined]
          subst hv₀
          cases hss with
          | cons hspec hss =>
            cases hass with
            | cons hass =>
              have hspec' : ∃ e', Form.ofList [q, v, e] = Form.ofList [q, v, e'] := ⟨e, rfl⟩
              have hadr₀ := hadr 0 v rfl
              have hne' : sets (j + 1) ts ++ us ≠ [] := by simp [hne]
              have hrec := h₂.runs bv D st₀ hr ds vs _ hds' hdv.2 hss (j + 1)
                (fun k w hk => by
                  have := hadr (k + 1) w (by simpa using hk)
                  rw [Nat.add_right_comm, Nat.add_assoc]
                  exact this) rest _ us m₃ hass hne hb
              rw [sets_cons, List.cons_append]
              generalize hsp : Form.ofList [q, v, e] = d₀ at hspec
              cases hspec with
              | @var q' v' e'' hv' =>
                simp only [Form.ofList, Form.cons.injEq, and_true] at hsp
                obtain ⟨rfl, rfl, rfl⟩ := hsp
                exact bodyRuns_set hP hr hadr₀.1 hadr₀.2.1 hadr₀.2.2
                  (fun st hst hm => h₁.expr bv D st (hr.ext hst) hm) hne' hrec
              | proc =>
                simp only [Form.ofList, Form.cons.injEq] at hsp
                rw [hsp.2.1] at hv
                simp [Form.isIdentifier] at hv
  | @defsFun ρ q v formals f forms d m m₁ m₂ ts₀ ts hh hi hF hb hdb hdd ih₁ ih₂ =>
    intro hs
    obtain ⟨⟨hsq, ⟨hsv, hsF⟩, hsf⟩, hsd⟩ := hs
    have h₁ := ih₁ hsf
    have h₂ := ih₂ hsd
    obtain ⟨l, hl, hp⟩ := h₂.list
    constructor
    · refine ⟨(.cons q (.cons (.cons v formals) forms), v) :: l, by rw [hl]; rfl, ?_⟩
      intro p hp'
      rcases List.mem_cons.mp hp' with rfl | hp'
      · exact ⟨.proc hsq hi hh, rfl, hsv⟩
      · exact hp p hp'
    · intro bv D st₀ hr ds vs ss hds hdv hss j hadr rest out us m₃ hass hne hbr
      cases ds with
      | nil => cases hds
      | cons d₀ ds =>
        obtain ⟨hd₀, hds'⟩ := Form.cons.inj hds
        subst hd₀
        cases vs with
        | nil => simp at hdv
        | cons v₀ vs =>
          simp only [List.map_cons, List.cons.injEq] at hdv
          have hv₀ : v = v₀ := by
            have := hdv.1
            simpa [defined] using this
          subst hv₀
          cases hss with
          | cons hspec hss =>
            cases hass with
            | cons hass =>
              have hadr₀ := hadr 0 v rfl
              have hne' : sets (j + 1) ts ++ us ≠ [] := by simp [hne]
              have hrec := h₂.runs bv D st₀ hr ds vs _ hds' hdv.2 hss (j + 1)
                (fun k w hk => by
                  have := hadr (k + 1) w (by simpa using hk)
                  rw [Nat.add_right_comm, Nat.add_assoc]
                  exact this) rest _ us m₃ hass hne hbr
              rw [sets_cons, List.cons_append]
              generalize hsp : Form.cons q (.cons (.cons v formals) forms) = d₀ at hspec
              cases hspec with
              | @var q' v' e'' hv' =>
                simp only [Form.ofList, Form.cons.injEq] at hsp
                rw [← hsp.2.1] at hv'
                simp [Form.isIdentifier] at hv'
              | @proc q' v' F' forms' n =>
                simp only [Form.cons.injEq] at hsp
                obtain ⟨rfl, ⟨rfl, rfl⟩, rfl⟩ := hsp
                refine bodyRuns_set hP hr hadr₀.1 hadr₀.2.1 hadr₀.2.2 ?_ hne' hrec
                intro st hst hm
                have hr' := hr.ext hst
                exact expands_lam hP hr' (key_lambda hP hr' n) hF hb hsF hm h₁

end Meevax.Expand
