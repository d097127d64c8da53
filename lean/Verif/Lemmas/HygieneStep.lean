import Verif.Lemmas.HygieneBody

/-!
One step of the expansion of source forms: variables, heads, `lambda`, `letrec`, uses of macros and
internal definitions.
-/

namespace Meevax.Expand

open Secd (Name Code)
open Spec

/-! ## Terms with the same code -/

/-- The terms have the same code. -/
structure Same (t' t : Term) : Prop where
  code : ∀ k tail, emit t' k tail = emit t k tail
  seq : (∃ ts, t' = .seq ts) → ∃ ts, t = .seq ts
  ref : ∀ a, t = .ref a ↔ t' = .ref a

theorem Same.refl (t : Term) : Same t t := ⟨fun _ _ => rfl, fun h => h, fun _ => Iff.rfl⟩

inductive SameL : List Term → List Term → Prop where
  | nil : SameL [] []
  | cons {t' t ts' ts} : Same t' t → SameL ts' ts → SameL (t' :: ts') (t :: ts)

theorem SameL.args {ts' ts : List Term} (h : SameL ts' ts) : ∀ k, emitArgs ts' k = emitArgs ts k := by
  induction h with
  | nil => intro k; rfl
  | cons h _ ih => intro k; simp only [emitArgs, h.code, ih]

theorem SameL.ne {ts' ts : List Term} (h : SameL ts' ts) (hn : ts ≠ []) : ts' ≠ [] := by
  cases h with
  | nil => exact absurd rfl hn
  | cons => simp

theorem SameL.seqs {ts' ts : List Term} (h : SameL ts' ts) :
    ∀ k tail, emitSeq ts' k tail = emitSeq ts k tail := by
  induction h with
  | nil => intro k tail; rfl
  | @cons t' t ts' ts h h' ih =>
    intro k tail
    cases h' with
    | nil => simp only [emitSeq, h.code]
    | @cons u' u us' us h₁ h₂ =>
      have e : ∀ (a b : Term) (cs : List Term), emitSeq (a :: b :: cs) k tail =
          emit a (.drop :: emitSeq (b :: cs) k tail) false := fun a b cs => by rw [emitSeq]; simp
      rw [e, e, h.code, ih]

theorem Same.head {t' t : Term} (h : Same t' t) (o : Option Code) : emitHead t' o = emitHead t o := by
  cases o <;> simp only [emitHead, h.code]

theorem Same.notSeq {t' t : Term} (h : Same t' t) (hn : ∀ ts, t ≠ .seq ts) : ∀ ts, t' ≠ .seq ts := by
  intro ts hts
  obtain ⟨us, hus⟩ := h.seq ⟨ts, hts⟩
  exact hn us hus

/-! ## Places and heads -/

theorem Rel.place {P : Setup} {ρ : List Frame} {bv : Scopes} {D : List (Name × Form)} {st : St}
    (h : Rel P ρ bv D st) : Place P st.envs st.nextEnv D (Expand.frames bv) bv st := by
  obtain ⟨φ, hφ, _⟩ := h.frames
  exact ⟨rfl, ⟨φ, hφ⟩, h.ok, fun _ _ => rfl, Nat.le_refl _⟩

/-- The head of a source form that is a core syntax. -/
theorem key_of_head {P : Setup} {ρ : List Frame} {bv : Scopes} {D : List (Name × Form)} {st : St}
    (h : Rel P ρ bv D st) {q : Form} {k : Syntax} (hs : Src P.base q) (hi : q.isIdentifier = true)
    (hh : P.C.head ρ q = some (.syn k)) : Key P D (frames bv) q k := by
  obtain ⟨φ, hφ, hF⟩ := h.frames
  simp only [Ctx.head] at hh
  split at hh
  · rename_i hl
    have hre : ∀ x, q = .sym x → ¬ rebound x ρ := by
      rintro x rfl hr
      exact bound_lookup (rebound_bound hr) 0 hl
    refine ⟨hi, hs.named hi, hh, ?_, ?_⟩
    · rw [scan_none_iff hφ, ← hl, ← hF.look q hs hi, conv_id hF hre]
    · intro x hx
      exact Classical.byContradiction fun hne => hre x hx ((hF.dict x).mp hne)
  · cases hh

theorem scan_core {P : Setup} {ρ : List Frame} {bv : Scopes} {D : List (Name × Form)} {st : St}
    (h : Rel P ρ bv D st) {i : Stamp} {e : Nat} {fr : List Name} {w : Form}
    (hi : (∃ n, i = .core n) ∨ ∃ n, i = .other n) : scan (.closure i e fr w) (frames bv) 0 = none := by
  obtain ⟨φ, hφ, hF⟩ := h.frames
  rw [scan_none_iff hφ, lookup_none]
  intro f hf hm
  rcases hF.ids f hf _ hm with ⟨x, hx⟩ | ⟨n, e, fr, w, hx⟩ | ⟨n, e, fr, w, _, hx⟩
  · cases hx
  · cases hx; rcases hi with ⟨n, h⟩ | ⟨n, h⟩ <;> cases h
  · cases hx; rcases hi with ⟨n, h⟩ | ⟨n, h⟩ <;> cases h

theorem key_lambda {P : Setup} (hP : P.Ok) {ρ : List Frame} {bv : Scopes} {D : List (Name × Form)}
    {st : St} (h : Rel P ρ bv D st) (n : Nat) :
    Key P D (frames bv) (.closure (.core n) coreEnv [] (.sym lambdaName)) .lambda :=
  ⟨rfl, ⟨hP.base, rfl, trivial⟩, hP.lam, scan_core h (.inl ⟨n, rfl⟩), by simp⟩

theorem key_set {P : Setup} (hP : P.Ok) {ρ : List Frame} {bv : Scopes} {D : List (Name × Form)}
    {st : St} (h : Rel P ρ bv D st) (n : Nat) :
    Key P D (frames bv) (.closure (.core n) coreEnv [] (.sym setName)) .set :=
  ⟨rfl, ⟨hP.base, rfl, trivial⟩, hP.set, scan_core h (.inl ⟨n, rfl⟩), by simp⟩

theorem sweepHead_eq {P : Setup} (hP : P.Ok) {ρ : List Frame} {bv : Scopes}
    {D : List (Name × Form)} {st : St} (h : Rel P ρ bv D st) {v : Form} (hs : Src P.base v)
    (hi : v.isIdentifier = true) : sweepHead P.W P.C.globals v bv st = P.C.head ρ v := by
  obtain ⟨φ, hφ, hF⟩ := h.frames
  simp only [sweepHead, hi, if_true]
  exact rawHead hP hF hφ h.ok.envs hs hi

theorem sweepHead_key {P : Setup} (hP : P.Ok) {ρ : List Frame} {bv : Scopes}
    {D : List (Name × Form)} {st : St} (h : Rel P ρ bv D st) {q : Form} {k : Syntax}
    (hk : Key P D (frames bv) q k) : sweepHead P.W P.C.globals q bv st = some (.syn k) := by
  simp only [sweepHead, hk.ident, if_true]
  exact hk.raw hP h.ok.envs (SubFrames.refl P h.place.parses)

/-! ## Expressions -/

/-- The form expands to a form of the term, from a state on. -/
def Expands (P : Setup) (D : List (Name × Form)) (bv : Scopes) (st : St) (form : Form) (t : Term)
    (m' : Nat) : Prop :=
  ∃ M e t' st', (∀ n ≥ M, expand P.W n P.C.globals form bv st = some (e, st')) ∧ Ext st st' ∧
    st'.made = m' ∧ Tgt P st'.envs st'.nextEnv D .expr (frames bv) e [t'] ∧ Same t' t

/-- The same for a list of operands. -/
def Operands (P : Setup) (D : List (Name × Form)) (bv : Scopes) (st : St) (form : Form)
    (ts : List Term) (m' : Nat) : Prop :=
  ∃ M out ts' st', (∀ n ≥ M, operand P.W n P.C.globals form bv st = some (out, st')) ∧ Ext st st' ∧
    st'.made = m' ∧ Tgt P st'.envs st'.nextEnv D .list (frames bv) out ts' ∧ SameL ts' ts

theorem convert_eq {P : Setup} {D : List (Name × Form)} {st : St} (h : StOk P D st) (v : Form) :
    convert v st = (conv D v, st) := by
  cases v with
  | sym x =>
    have ha := h.alpha
    obtain ⟨a, b, c, d, e, f, g⟩ := st
    simp only at ha
    subst ha
    simp only [convert, convertSym, List.contains_nil, conv]
    cases hl : D.lookup x <;> simp
  | _ => rfl

/-- The variable of a source identifier, after α-conversion. -/
theorem leaf_of_refers {P : Setup} {ρ : List Frame} {bv : Scopes} {D : List (Name × Form)} {st : St}
    (h : Rel P ρ bv D st) {v : Form} {a : Address} (hs : Src P.base v) (hi : v.isIdentifier = true)
    (hr : P.C.refers ρ v = some a) :
    Leaf P st.envs st.nextEnv D (frames bv) (conv D v) a := by
  obtain ⟨φ, hφ, hF⟩ := h.frames
  have hlook := hF.look v hs hi
  have hsc := scan_eq (conv D v) hφ 0
  rw [hlook] at hsc
  cases v with
  | sym x =>
    cases hd : D.lookup x with
    | some b =>
      obtain ⟨n, hn, rfl⟩ := hF.alias x b hd
      have hre : rebound x ρ := (hF.dict x).mp (by simp [hd])
      simp only [conv, hd, Option.getD_some] at hsc ⊢
      simp only [Ctx.refers] at hr
      cases hl : lookup ρ (.sym x) 0 with
      | none => exact absurd hl (bound_lookup (rebound_bound hre) 0)
      | some b =>
        simp only [hl, Option.some.injEq] at hr
        subst hr
        rw [hl] at hsc
        exact .alpha (hF.kwSym x hre) hsc
    | none =>
      simp only [conv, hd, Option.getD_none] at hsc ⊢
      simp only [Ctx.refers] at hr
      cases hl : lookup ρ (.sym x) 0 with
      | some b =>
        simp only [hl, Option.some.injEq] at hr
        subst hr
        rw [hl] at hsc
        exact .sym hd (.inl hsc)
      | none =>
        rw [hl] at hsc
        simp only [hl, Ctx.global, Option.map_some, Option.some.injEq] at hr
        subst hr
        cases hg : P.C.globals x with
        | some g => exact .sym hd (.inr ⟨hsc, g, hg, by simp⟩)
        | none => exact .fresh hd hsc hg
  | closure i e fr w =>
    obtain ⟨⟨n, rfl⟩, he, rfl, hw, hsw⟩ := hs
    have hs : Src P.base (.closure (.rename n) e [] w) := ⟨⟨n, rfl⟩, he, rfl, hw, hsw⟩
    simp only [conv] at hsc ⊢
    simp only [Ctx.refers] at hr
    cases hl : lookup ρ (.closure (.rename n) e [] w) 0 with
    | some b =>
      simp only [hl, Option.some.injEq] at hr
      subst hr
      rw [hl] at hsc
      exact .renamed hs (.inl hsc)
    | none =>
      rw [hl] at hsc
      simp only [hl, Option.map_eq_some_iff] at hr
      obtain ⟨g, hg, rfl⟩ := hr
      exact .renamed hs (.inr ⟨hsc, g, hg, rfl⟩)
  | _ => simp [Form.isIdentifier] at hi

theorem expands_var {P : Setup} {ρ : List Frame} {bv : Scopes} {D : List (Name × Form)}
    {st : St} (h : Rel P ρ bv D st) {v : Form} {a : Address} (hs : Src P.base v)
    (hi : v.isIdentifier = true) (hr : P.C.refers ρ v = some a) :
    Expands P D bv st v (.ref a) st.made := by
  have hl := leaf_of_refers h hs hi hr
  refine ⟨1, conv D v, .ref a, st, ?_, Ext.refl st, rfl, .leaf hl, Same.refl _⟩
  intro n hn
  obtain ⟨n, rfl, _⟩ := fuel hn
  cases v with
  | sym x => rw [expand_sym, convert_eq h.ok]
  | closure i e fr w => exact hl.expand h.place n
  | _ => simp [Form.isIdentifier] at hi

/-- The operator of an expanded call is no keyword. -/
theorem appHead_of {P : Setup} {ρ : List Frame} {bv : Scopes} {D : List (Name × Form)}
    {st : St} (h : Rel P ρ bv D st) {H : Nat → Env} {N : Nat} {e : Form} {t : Term}
    (ht : Tgt P H N D .expr (frames bv) e [t]) (hg : ∀ g, t = .ref (.glob g) → P.C.value g = none) :
    AppHead P (frames bv) e := by
  obtain ⟨φ, hφ, hF⟩ := h.frames
  constructor
  · rintro x rfl hsc
    cases ht with
    | leaf hl =>
      cases hl with
      | sym _ hr =>
        rcases hr with hr | ⟨_, g, hst, rfl⟩
        · rw [hsc] at hr; cases hr
        · rw [keyword_strict, hst]; exact hg g rfl
      | fresh _ _ hn => rw [keyword_strict]; simp [Ctx.strict, hn]
    | const hi => simp [Form.isIdentifier] at hi
  · rintro n e w rfl
    cases ht with
    | leaf hl =>
      cases hl with
      | renamed hs hr =>
        rcases hr with hr | ⟨_, g, hst, rfl⟩
        · rw [scan_eq _ hφ] at hr
          have hlook := hF.look _ hs rfl
          simp only [conv] at hlook
          rw [hlook] at hr
          cases hl : lookup ρ (.closure (.rename n) e [] w) 0 with
          | none => rw [hl] at hr; cases hr
          | some b =>
            have : ∃ f ∈ ρ, Form.closure (.rename n) e [] w ∈ f.ids := by
              apply Classical.byContradiction
              intro hn
              rw [lookup_none.mpr (fun f hf hm => hn ⟨f, hf, hm⟩)] at hl
              cases hl
            obtain ⟨f, hf, hm⟩ := this
            exact hF.kwAlias f hf _ hm (by simp)
        · rw [keyword_strict, hst]; exact hg g rfl
    | const hi => simp [Form.isIdentifier] at hi

/-- `(set! v e)` -/
theorem expands_set {P : Setup} (hP : P.Ok) {ρ : List Frame} {bv : Scopes} {D : List (Name × Form)}
    {st : St} (h : Rel P ρ bv D st) {q v e : Form} {a : Address} {t : Term} {m' : Nat}
    (hk : Key P D (frames bv) q .set)
    (ho : Operands P D bv st (.ofList [v, e]) [.ref a, t] m') :
    Expands P D bv st (.cons q (.ofList [v, e])) (.set a t) m' := by
  obtain ⟨M, out, ts', st', h₁, hx, hm, ht, hs⟩ := ho
  cases hs with
  | cons hs₁ hs =>
    cases hs with
    | cons hs₂ hs =>
      cases hs
      have := (hs₁.ref a).mp rfl
      subst this
      cases ht with
      | @cons _ v' d' _ _ ht₁ ht₂ =>
        cases ht₂ with
        | @cons _ e' d'' _ _ ht₂ ht₃ =>
          cases ht₃
          have hl : Leaf P st'.envs st'.nextEnv D (frames bv) v' a := by
            cases ht₁; assumption
          rename_i t₂
          refine ⟨M + 2, .cons q (.ofList [v', e']), .set a t₂, st', ?_, hx, hm,
            .set hk hl (.cons ht₁ (.cons ht₂ .nil)), ?_⟩
          · intro n hn
            obtain ⟨n, rfl, hn'⟩ := fuel2 hn
            rw [expand_syn hk.ident (hk.head hP h.place), syntax_set,
              convert_plain h.ok hk.plain, h₁ n hn']
            rfl
          · refine ⟨?_, ?_, ?_⟩
            · intro k tail; simp only [emit, hs₂.code]
            · rintro ⟨ts, h⟩; cases h
            · intro a; simp

theorem operands_nil {P : Setup} {bv : Scopes} {D : List (Name × Form)} {st : St} :
    Operands P D bv st .nil [] st.made := by
  refine ⟨2, .nil, [], st, ?_, Ext.refl st, rfl, .nil, .nil⟩
  intro n hn
  obtain ⟨n, rfl⟩ := Nat.exists_eq_add_of_le' hn
  exact operand_nil

theorem operands_cons {P : Setup} {bv : Scopes} {D : List (Name × Form)} {st : St} {a d : Form}
    {t : Term} {ts : List Term} {m₁ m₂ : Nat} (h₁ : Expands P D bv st a t m₁)
    (h₂ : ∀ st', Ext st st' → st'.made = m₁ → Operands P D bv st' d ts m₂) :
    Operands P D bv st (.cons a d) (t :: ts) m₂ := by
  obtain ⟨M₁, e, t', st₁, g₁, x₁, hm₁, ht₁, hs₁⟩ := h₁
  obtain ⟨M₂, out, ts', st₂, g₂, x₂, hm₂, ht₂, hs₂⟩ := h₂ st₁ x₁ hm₁
  refine ⟨max M₁ M₂ + 1, .cons e out, t' :: ts', st₂, ?_, x₁.trans x₂, hm₂, .cons (ht₁.ext x₂) ht₂,
    .cons hs₁ hs₂⟩
  intro n hn
  obtain ⟨n, rfl, hn'⟩ := fuel hn
  rw [operand_cons, g₁ n (by omega)]
  simp only [Option.bind_some]
  rw [g₂ n (by omega)]
  rfl

/-- A call. -/
theorem expands_app {P : Setup} {ρ : List Frame} {bv : Scopes} {D : List (Name × Form)}
    {st : St} (h : Rel P ρ bv D st) {f es : Form} {tf : Term} {ts : List Term} {m' : Nat}
    (hh : f.isIdentifier = true → headKeyword P.W P.C.globals f bv st = (none, st))
    (hg : ∀ g, tf = .ref (.glob g) → P.C.value g = none)
    (ho : Operands P D bv st (.cons f es) (tf :: ts) m') :
    Expands P D bv st (.cons f es) (.app tf ts) m' := by
  obtain ⟨M, out, ts', st', h₁, hx, hm, ht, hs⟩ := ho
  cases hs with
  | @cons tf' _ ts' _ hs₁ hs₂ =>
    cases ht with
    | @cons _ f' d' _ _ ht₁ ht₂ =>
      have hg' : ∀ g, tf' = .ref (.glob g) → P.C.value g = none :=
        fun g hgt => hg g ((hs₁.ref _).mpr hgt)
      refine ⟨M + 1, .cons f' d', .app tf' ts', st', ?_, hx, hm,
        .app (appHead_of h ht₁ hg') hg' (.cons ht₁ ht₂), ?_⟩
      · intro n hn
        obtain ⟨n, rfl, hn'⟩ := fuel hn
        rw [expand_call hh]
        have := h₁ (n + 1) (by omega)
        cases n with
        | zero =>
          have := h₁ 1 (by omega)
          rw [operand_cons] at this
          simp [expand] at this
        | succ n =>
          have := h₁ (n + 1) (by omega)
          rw [operand_cons, ← call_eq] at this
          exact this
      · refine ⟨?_, ?_, ?_⟩
        · intro k tail; simp only [emit, hs₁.code, hs₂.args]
        · rintro ⟨ts, h⟩; cases h
        · intro a; simp

theorem Ext.alphaBack {st st' : St} {l : List Level} {n : Nat}
    (h : Ext { st with next := n, alpha := l } st') (hn : st.next ≤ n) :
    Ext st { st' with alpha := st.alpha } :=
  ⟨rfl, Nat.le_trans hn h.next, h.nextEnv, h.envs, h.macros⟩

/-- `(lambda formals body ...)` -/
theorem expands_lam {P : Setup} (hP : P.Ok) {ρ : List Frame} {bv : Scopes} {D : List (Name × Form)}
    {st : St} (h : Rel P ρ bv D st) {q F forms : Form} {f : Frame} {ts : List Term} {m m' a : Nat} {r : Bool}
    (hk : Key P D (frames bv) q .lambda) (hF : parse F = some f) (hb : P.C.Bindable ρ f)
    (hs : Src P.base F) (hm : st.made = m)
    (hbody : ∀ bv D st, Rel P (f :: ρ) bv D st → BodyRuns P D bv st forms m (emitBody ts) m') :
    Expands P D bv st (.cons q (.cons F forms)) (.lam a r ts) m' := by
  obtain ⟨φ, hφ, hRF⟩ := h.frames
  have hident : ∀ x a, D.lookup x = some a → a.isIdentifier = true := by
    intro x a ha
    obtain ⟨n, _, rfl⟩ := hRF.alias x a ha
    rfl
  obtain ⟨F', D', n', e₁, hp, hn, hkeep, hset⟩ :=
    convertFormals_spec (fs := frames bv) h.ok.alpha hF hb.1 hident
  have hent := hRF.enter hφ hb (parse_src hF hs) (parse_ident hF) hn hkeep hset
  have hlow : ∀ x, D'.lookup x = none → D.lookup x = none := by
    intro x hx
    by_cases hc : Form.sym x ∈ f.ids ∧ visible x (frames bv) = true
    · obtain ⟨k, _, _, hk⟩ := hset x hc.1 hc.2
      rw [hk] at hx; cases hx
    · rw [← hkeep x]
      · exact hx
      · by_cases hx' : Form.sym x ∈ f.ids
        · exact .inr (by simpa using fun hv => hc ⟨hx', hv⟩)
        · exact .inl hx'
  generalize hst₁ : ({ st with next := n' + 1, alpha := [⟨P.E0, [], D'⟩] } : St) = st₁
  have ok₁ : StOk P D' st₁ := by
    subst hst₁
    exact ⟨rfl, h.ok.env0, h.ok.lt0, h.ok.envs, h.ok.base, h.ok.macros⟩
  have hrel : Rel P (f :: ρ) ((n', F') :: bv) D' st₁ := by
    refine ⟨ok₁, _, ?_, hent.mono ?_⟩
    · simp only [Frames, frames, List.map_cons, hp]
      simp only [Frames, frames] at hφ
      rw [hφ]
    · subst hst₁; exact Nat.le_succ _
  obtain ⟨M, out, st₂, ts', g, x, hm₂, ht, hc⟩ := hbody _ _ _ hrel st₁ (Ext.refl _)
    (by subst hst₁; exact hm)
  have hx : Ext st { st₂ with alpha := st.alpha } := by
    subst hst₁; exact Ext.alphaBack x (by omega)
  have hrestore : restore st.alpha st₂ = { st₂ with alpha := st.alpha } := by
    have ha := x.alpha
    subst hst₁
    simp only at ha
    rw [h.ok.alpha]
    simp only [restore, ha]
  refine ⟨M + 2, .cons q (.cons F' out), .lam a r ts', { st₂ with alpha := st.alpha }, ?_, hx, hm₂,
    .lam hk hp ?_ (ht.mono (fun _ _ => rfl) (Nat.le_refl _) hlow), ?_⟩
  · intro n hn
    obtain ⟨n, rfl, hn'⟩ := fuel2 hn
    rw [expand_syn hk.ident (hk.head hP h.place), syntax_lambda, e₁]
    simp only
    rw [hst₁, g n hn']
    simp only [Option.bind_some]
    rw [hrestore, convert_plain (h.ok.ext hx) hk.plain]
  · intro x hx
    rw [ids_map] at hx
    obtain ⟨w, hw, hr⟩ := List.mem_map.mp hx
    cases w with
    | sym y =>
      simp only [ren] at hr
      split at hr
      · rename_i hv
        obtain ⟨k, _, _, hk⟩ := hset y hw hv
        rw [hk] at hr; cases hr
      · rename_i hv
        simp only [Form.sym.injEq] at hr
        subst hr
        simpa using hv
    | _ => cases hr
  · refine ⟨?_, ?_, ?_⟩
    · intro k tail; simp only [emit, hc]
    · rintro ⟨ts, h⟩; cases h
    · intro a; simp

/-- A `lambda` whose formals stay as they are. -/
theorem expands_lamDef {P : Setup} (hP : P.Ok) {ρ : List Frame} {bv : Scopes}
    {D : List (Name × Form)} {st : St} (h : Rel P ρ bv D st) {q F forms : Form} {f : Frame}
    {ts : List Term} {m' a : Nat} {r : Bool}
    (hk : Key P D (frames bv) q .lambda) (hF : parse F = some f)
    (hvis : ∀ x, Form.sym x ∈ f.ids → visible x (frames bv) = false)
    (hbody : BodyRuns P D ((st.next, F) :: bv) { st with next := st.next + 1 } forms st.made
      (emitBody ts) m') :
    Expands P D bv st (.cons q (.cons F forms)) (.lam a r ts) m' := by
  have hid := convertFormals_id (fs := frames bv) (st := st) ⟨_, h.ok.alpha⟩
    (F := F) (fun f' hf' x hx => by
      rw [hF] at hf'
      simp only [Option.some.injEq] at hf'
      subst hf'
      exact hvis x hx) ⟨_, hF⟩
  have x₀ := Ext.bump st 1
  obtain ⟨M, out, st₂, ts', g, x, hm₂, ht, hc⟩ := hbody _ (Ext.refl _) rfl
  refine ⟨M + 2, .cons q (.cons F out), .lam a r ts', st₂, ?_, x₀.trans x, hm₂, .lam hk hF hvis ht, ?_⟩
  · intro n hn
    obtain ⟨n, rfl, hn'⟩ := fuel2 hn
    rw [expand_syn hk.ident (hk.head hP h.place), syntax_lambda, hid]
    simp only
    rw [g n hn']
    simp only [Option.bind_some]
    rw [restore_same h.ok (x₀.trans x).alpha, convert_plain (h.ok.ext (x₀.trans x)) hk.plain]
  · refine ⟨?_, ?_, ?_⟩
    · intro k tail; simp only [emit, hc]
    · rintro ⟨ts, h⟩; cases h
    · intro a; simp

/-! ## Uses of macros -/

/-- What becomes of a use of a macro, closed in the environment of use. -/
def UseRuns (P : Setup) (D : List (Name × Form)) (bv : Scopes) (form : Form) (tr : Nat) (env : Nat)
    (st : St) (t : Term) (m' : Nat) : Prop :=
  ∃ i e fr w, (transform P.W tr form env st).1 = .closure i e fr w ∧
    Ext st (transform P.W tr form env st).2 ∧
    ((∃ b, identify (transform P.W tr form env st).2.envs P.C.globals (.closure i e fr w)
        (frames bv) = some b ∧ (transform P.W tr form env st).2.made = m' ∧
        Tgt P (transform P.W tr form env st).2.envs (transform P.W tr form env st).2.nextEnv D .expr
          (frames bv) (.closure i e fr w) [t]) ∨
      (identify (transform P.W tr form env st).2.envs P.C.globals (.closure i e fr w)
        (frames bv) = none ∧ ∃ M e' t' st',
        (∀ n ≥ M, expandClosure P.W n (.closure i e fr w) bv (transform P.W tr form env st).2 =
          some (e', st')) ∧ Ext (transform P.W tr form env st).2 st' ∧ st'.made = m' ∧
        Tgt P st'.envs st'.nextEnv D .expr (frames bv) e' [t'] ∧ Same t' t))

theorem useRuns {P : Setup} (hP : P.Ok) {ρ : List Frame} {bv : Scopes} {D : List (Name × Form)}
    {st : St} (h : Rel P ρ bv D st) {q d out : Form} {tr m₁ m' env : Nat} {renames t}
    (hs : Src P.base (.cons q d))
    (hh : P.C.head ρ q = some (.transformer tr))
    (hinst : instantiate (P.C.home tr) (P.C.template tr (.cons q d)) [] st.made = (out, renames, m₁))
    (hout : ∀ x, out = .sym x → ¬ rebound x ρ)
    (hden : Den P.C .expr ρ out (m₁ + 1) [t] m')
    (henv : st.envs env = ⟨bv, P.C.globals⟩) (hlt : env < st.nextEnv)
    (hexp : Src P.base out → ∀ st', Ext st st' → st'.made = m₁ + 1 → Expands P D bv st' out t m') :
    UseRuns P D bv (.cons q d) tr env st t m' := by
  have hval : ∃ g, P.C.value g = some (.transformer tr) := by
    simp only [Ctx.head] at hh
    split at hh
    · rw [keyword_strict] at hh
      obtain ⟨g, _, hg⟩ := Option.bind_eq_some_iff.mp hh
      exact ⟨g, hg⟩
    · cases hh
  obtain ⟨g, hg⟩ := hval
  obtain ⟨hhome, hrun⟩ := h.ok.macros g tr hg
  have htr : transform P.W tr (.cons q d) env st =
      (.closure (.other m₁) env [] out, { st with made := m₁ + 1 }) := by
    simp only [transform, hrun, hhome, erTransformer, hinst]
  have hsrc : Src P.base out :=
    (instantiate_src (hP.home g tr hg) (hP.template g tr hg _ hs) (by simp) hinst).1
  have hx : Ext st { st with made := m₁ + 1 } := Ext.made st _
  have hrel := h.ext hx
  have hsc : scan (.closure (.other m₁) env [] out) (frames bv) 0 = none :=
    scan_core h (.inr ⟨m₁, rfl⟩)
  have hlen : (frames bv).length - bv.length = 0 := by simp [frames]
  have hpad : pad 0 (frames bv) = frames bv := rfl
  have hid : identify st.envs P.C.globals (.closure (.other m₁) env [] out) (frames bv) =
      if out.isIdentifier then identify st.envs P.C.globals out (frames bv) else none := by
    conv => lhs; unfold identify
    simp only [hsc, henv, hlen, hpad]
    split
    · cases identify st.envs P.C.globals out (frames bv) <;> rfl
    · rfl
  unfold UseRuns
  rw [htr]
  refine ⟨_, _, _, _, rfl, hx, ?_⟩
  simp only
  cases hcase : identify st.envs P.C.globals (.closure (.other m₁) env [] out) (frames bv) with
  | some b =>
    left
    refine ⟨b, rfl, ?_⟩
    rw [hid] at hcase
    split at hcase
    · rename_i hident
      have hinv : ∃ a, P.C.refers ρ out = some a ∧ t = .ref a ∧ m' = m₁ + 1 := by
        generalize hk : Kind.expr = k at hden
        generalize hts : [t] = ts at hden
        cases hden with
        | var _ hr => exact ⟨_, hr, by simpa using hts, rfl⟩
        | const hn => rw [hident] at hn; cases hn
        | _ => first | (cases hk; done) | (simp [Form.isIdentifier] at hident; done)
      obtain ⟨a, hr, rfl, rfl⟩ := hinv
      refine ⟨rfl, .leaf ?_⟩
      obtain ⟨φ, hφ, hF⟩ := h.frames
      have hlook := hF.look out hsrc hident
      rw [conv_id hF hout] at hlook
      have hsco := scan_eq out hφ 0
      rw [hlook] at hsco
      refine .wrapped henv hlt rfl hident hsrc hsc ?_
      simp only [Ctx.refers] at hr
      cases hl : lookup ρ out 0 with
      | some a' =>
        simp only [hl, Option.some.injEq] at hr
        subst hr
        rw [hl] at hsco
        exact .inl hsco
      | none =>
        rw [hl] at hsco
        simp only [hl, Option.map_eq_some_iff] at hr
        obtain ⟨g', hg', rfl⟩ := hr
        refine .inr ⟨hsco, g', ?_, rfl⟩
        cases hst : P.C.strict out with
        | some g'' => rw [strict_global hst] at hg'; exact hg'
        | none =>
          exfalso
          cases out with
          | sym x =>
            unfold identify at hcase
            simp only [Ctx.strict] at hst
            simp [hsco, hst] at hcase
          | closure i e fr w =>
            simp only [Ctx.strict] at hst
            simp only [Ctx.global, hst] at hg'
            cases hg'
          | _ => simp [Form.isIdentifier] at hident
    · cases hcase
  | none =>
    right
    refine ⟨rfl, ?_⟩
    obtain ⟨M, e', t', st', g₁, x₁, hm₁, ht, hsame⟩ := hexp hsrc _ hx rfl
    refine ⟨M + 1, e', t', st', ?_, x₁, hm₁, ht, hsame⟩
    intro n hn
    obtain ⟨n, rfl, hn'⟩ := fuel hn
    rw [expandClosure_same (by simp only [henv]; exact sameScopes_self bv)]
    simp only [henv]
    exact g₁ n hn'

/-- A use of a macro as an expression. -/
theorem expands_use {P : Setup} (hP : P.Ok) {ρ : List Frame} {bv : Scopes} {D : List (Name × Form)}
    {st : St} (h : Rel P ρ bv D st) {q d : Form} {tr m' : Nat} {t : Term} (hs : Src P.base q)
    (hi : q.isIdentifier = true) (hh : P.C.head ρ q = some (.transformer tr))
    (hu : UseRuns P D bv (.cons q d) tr (newEnv bv P.C.globals st).1 (newEnv bv P.C.globals st).2
      t m') : Expands P D bv st (.cons q d) t m' := by
  have x₀ := Ext.newEnv st bv P.C.globals
  have hhead := headKeyword_eq hP h hs hi
  rw [hh] at hhead
  obtain ⟨i, e, fr, w, h₁, hx, hu⟩ := hu
  rcases hu with ⟨b, hb, hm, ht⟩ | ⟨hb, M, e', t', st', g, x, hm, ht, hsame⟩
  · refine ⟨2, .closure i e fr w, t, _, ?_, x₀.trans hx, hm, ht, Same.refl _⟩
    intro n hn
    obtain ⟨n, rfl⟩ := Nat.exists_eq_add_of_le' hn
    rw [expand_use hi hhead, h₁, expand_closure_some hb]
  · refine ⟨M + 2, e', t', st', ?_, x₀.trans (hx.trans x), hm, ht, hsame⟩
    intro n hn
    obtain ⟨n, rfl, hn'⟩ := fuel2 hn
    rw [expand_use hi hhead, h₁, expand_closure_none hb, g n hn']

/-- A use of a macro in a body. -/
theorem sweepRuns_use {P : Setup} (hP : P.Ok) {ρ : List Frame} {bv : Scopes} {D : List (Name × Form)}
    {st₀ : St} (h : Rel P ρ bv D st₀) {q d rest : Form} {tr m m₁ m₂ : Nat} {t : Term}
    {o : Option Code} (hs : Src P.base q)
    (hi : q.isIdentifier = true) (hh : P.C.head ρ q = some (.transformer tr))
    (hu : ∀ st env, Ext st₀ st → st.made = m → st.envs env = ⟨bv, P.C.globals⟩ → env < st.nextEnv →
      UseRuns P D bv (.cons q d) tr env st t m₁)
    (hr : RestRuns P D bv st₀ rest m₁ o m₂) :
    SweepRuns P D bv st₀ (.cons (.cons q d) rest) m (emitHead t o) m₂ := by
  intro st hst hm form env henv hlt
  have hhead := sweepHead_eq hP (h.ext hst) hs hi
  rw [hh] at hhead
  obtain ⟨i, e, fr, w, h₁, hx, hu⟩ := hu st env hst hm henv hlt
  rcases hu with ⟨b, hb, hm', ht⟩ | ⟨hb, M, e', t', st', g, x, hm', ht, hsame⟩
  · have hrel := h.ext (hst.trans hx)
    obtain ⟨M, a, d', st₁, a', st₂, d'', st₃, ts, g₁, g₂, g₃, x₃, hm₃, ht₃, hc⟩ :=
      ((ht.elem hP bv _ hrel.place rest o m₁ m₂ (hr.later (hst.trans hx))).1 rfl t rfl)
        _ (Ext.refl _) hm' form env ((hx.envs env hlt).trans henv)
        (Nat.lt_of_lt_of_le hlt hx.nextEnv)
    refine ⟨M + 1, a, d', st₁, a', st₂, d'', st₃, ts, ?_, ?_, ?_, hx.trans x₃, hm₃, ht₃, hc⟩
    · intro n hn
      obtain ⟨n, rfl, hn'⟩ := fuel hn
      rw [sweep_use hhead, h₁, g₁ n hn']
    · exact fun n hn => g₂ n (by omega)
    · exact fun n hn => g₃ n (by omega)
  · have hrel := h.ext (hst.trans (hx.trans x))
    have henv' := (hx.envs env hlt).trans henv
    have hlt' := Nat.lt_of_lt_of_le hlt hx.nextEnv
    obtain ⟨M', a, d', st₁, a', st₂, d'', st₃, ts, g₁, g₂, g₃, x₃, hm₃, ht₃, hc⟩ :=
      ((ht.elem hP bv _ hrel.place rest o m₁ m₂ (hr.later (hst.trans (hx.trans x)))).1 rfl t' rfl)
        _ (Ext.refl _) hm' form env ((x.envs env hlt').trans henv')
        (Nat.lt_of_lt_of_le hlt' x.nextEnv)
    refine ⟨max M M' + 2, a, d', st₁, a', st₂, d'', st₃, ts, ?_, ?_, ?_, hx.trans (x.trans x₃), hm₃,
      ht₃, hc.trans (hsame.head o)⟩
    · intro n hn
      obtain ⟨n, rfl, hn'⟩ := fuel2 hn
      rw [sweep_use hhead, h₁, sweep_closure_none (by rw [henv']; exact hb)]
      simp only [henv']
      rw [g n (by omega)]
      simp only [Option.bind_some]
      rw [g₁ n (by omega)]
    · exact fun n hn => g₂ n (by omega)
    · exact fun n hn => g₃ n (by omega)

end Meevax.Expand
