import Verif.Lemmas.HygieneStable

/-!
Bodies: what `sweep` and `body` do with expanded forms and with forms that are still to be expanded.
-/

namespace Meevax.Expand

open Secd (Name Code)
open Spec

/-- `body` turns the form into a body with the code `c`, in any state from `st₀` on. -/
def BodyRuns (P : Setup) (D : List (Name × Form)) (bv : Scopes) (st₀ : St) (form : Form) (m : Nat)
    (c : Code) (m' : Nat) : Prop :=
  ∀ st, Ext st₀ st → st.made = m → ∃ M out st' ts,
    (∀ n ≥ M, body P.W n P.C.globals form bv st = some (out, st')) ∧ Ext st st' ∧ st'.made = m' ∧
    Tgt P st'.envs st'.nextEnv D .body (frames bv) out ts ∧ emitBody ts = c

/-- `sweep` finds no definitions, and the sequence it yields becomes a body with the code `c`. -/
def SweepRuns (P : Setup) (D : List (Name × Form)) (bv : Scopes) (st₀ : St) (seq : Form) (m : Nat)
    (c : Code) (m' : Nat) : Prop :=
  ∀ st, Ext st₀ st → st.made = m → ∀ form env, st.envs env = ⟨bv, P.C.globals⟩ →
    env < st.nextEnv → ∃ M a d st₁ a' st₂ d' st₃ ts,
    (∀ n ≥ M, sweep P.W n P.C.globals form seq bv env [] [] st = some ([], [], .cons a d, st₁)) ∧
    (∀ n ≥ M, expand P.W n P.C.globals a bv st₁ = some (a', st₂)) ∧
    (∀ n ≥ M, body P.W n P.C.globals d bv st₂ = some (d', st₃)) ∧ Ext st st₃ ∧ st₃.made = m' ∧
    Tgt P st₃.envs st₃.nextEnv D .body (frames bv) (.cons a' d') ts ∧ emitBody ts = c

/-- What comes after an expression of a body: nothing, or something with the code `c`. -/
inductive RestRuns (P : Setup) (D : List (Name × Form)) (bv : Scopes) (st₀ : St) :
    Form → Nat → Option Code → Nat → Prop where
  | last {m} : RestRuns P D bv st₀ .nil m none m
  | more {rest m c m'} : BodyRuns P D bv st₀ rest m c m' →
    RestRuns P D bv st₀ rest m (some c) m'

def emitHead (t : Term) : Option Code → Code
  | none => emit t [.ret] true
  | some c => emit t (.drop :: c) false

def emitHeads (ts : List Term) : Option Code → Code
  | none => emitSeq ts [.ret] true
  | some c => emitSeq ts (.drop :: c) false

theorem emitHeads_cons (t : Term) {ts : List Term} (h : ts ≠ []) (o : Option Code) :
    emitHeads (t :: ts) o = emitHead t (some (emitHeads ts o)) := by
  cases ts with
  | nil => exact absurd rfl h
  | cons u ts => cases o <;> simp [emitHeads, emitHead, emitSeq]

theorem emitHeads_one (t : Term) (o : Option Code) : emitHeads [t] o = emitHead t o := by
  cases o <;> simp [emitHeads, emitHead, emitSeq]

theorem emitHead_seq (ts : List Term) (o : Option Code) : emitHead (.seq ts) o = emitHeads ts o := by
  cases o <;> simp [emitHeads, emitHead, emit]

theorem emitHeads_append : ∀ (ts : List Term) {us : List Term}, ts ≠ [] → us ≠ [] →
    ∀ o, emitHeads (ts ++ us) o = emitHeads ts (some (emitHeads us o))
  | [], _, h, _, _ => absurd rfl h
  | [t], us, _, hu, o => by
    rw [List.singleton_append, emitHeads_cons t hu, emitHeads_one]
  | t :: u :: ts, us, _, hu, o => by
    have := emitHeads_append (u :: ts) (by simp) hu o
    rw [List.cons_append, emitHeads_cons t (by simp), this, emitHeads_cons t (by simp)]

theorem BodyRuns.later {P : Setup} {D : List (Name × Form)} {bv : Scopes} {st₀ st₁ : St} {form : Form}
    {m : Nat} {c : Code} {m' : Nat} (h : BodyRuns P D bv st₀ form m c m') (hx : Ext st₀ st₁) :
    BodyRuns P D bv st₁ form m c m' :=
  fun st hst hm => h st (hx.trans hst) hm

theorem RestRuns.later {P : Setup} {D : List (Name × Form)} {bv : Scopes} {st₀ st₁ : St} {rest : Form}
    {m : Nat} {o : Option Code} {m' : Nat} (h : RestRuns P D bv st₀ rest m o m') (hx : Ext st₀ st₁) :
    RestRuns P D bv st₁ rest m o m' := by
  cases h with
  | last => exact .last
  | more h => exact .more (h.later hx)

theorem SweepRuns.body {P : Setup} {D : List (Name × Form)} {bv : Scopes} {st₀ : St} {form : Form}
    {m : Nat} {c : Code} {m' : Nat} (h : SweepRuns P D bv st₀ form m c m') :
    BodyRuns P D bv st₀ form m c m' := by
  intro st hst hm
  have x₀ := Ext.newEnv st bv P.C.globals
  obtain ⟨henv, hlt⟩ := newEnv_env bv P.C.globals st
  obtain ⟨M, a, d, st₁, a', st₂, d', st₃, ts, h₁, h₂, h₃, hx, hm', ht, hc⟩ :=
    h _ (hst.trans x₀) hm form _ henv hlt
  refine ⟨M + 1, .cons a' d', st₃, ts, ?_, x₀.trans hx, hm', ht, hc⟩
  intro n hn
  obtain ⟨n, rfl, hn'⟩ := fuel hn
  rw [body_plain (h₁ n hn'), h₂ n hn']
  simp only [Option.bind_some]
  rw [h₃ n hn']
  rfl

/-- Put an expanded expression before the rest of a body. -/
theorem assemble {P : Setup} {D : List (Name × Form)} {bv : Scopes} {st₀ st : St} {a rest : Form}
    {t : Term} {o : Option Code} {m : Nat}
    (ht : Tgt P st.envs st.nextEnv D .expr (frames bv) a [t]) (hnb : ∀ ts, t ≠ .seq ts)
    (hx : Ext st₀ st) (hr : RestRuns P D bv st₀ rest st.made o m) :
    ∃ M d st' ts, (∀ n ≥ M, body P.W n P.C.globals rest bv st = some (d, st')) ∧ Ext st st' ∧
      st'.made = m ∧ Tgt P st'.envs st'.nextEnv D .body (frames bv) (.cons a d) ts ∧
      emitBody ts = emitHead t o := by
  generalize hmade : st.made = k at hr
  cases hr with
  | last =>
    have x₀ := Ext.newEnv st bv P.C.globals
    refine ⟨2, .nil, (newEnv bv P.C.globals st).2, [t], ?_, x₀, hmade, .one (ht.ext x₀) hnb, ?_⟩
    · intro n hn
      obtain ⟨n, rfl⟩ := Nat.exists_eq_add_of_le' hn
      exact body_nil
    · simp [emitBody, emitHead]
  | more h =>
    obtain ⟨M, out, st', ts, h₁, hx', hm', ht', hc⟩ := h st hx hmade
    refine ⟨M, out, st', t :: ts, h₁, hx', hm', .more (ht.ext hx') hnb ht', ?_⟩
    have hne := ht'.list_of_body.1
    cases ts with
    | nil => exact absurd rfl hne
    | cons u ts => simp only [emitBody, emitHead]; rw [hc]

/-- A form at which `sweep` stops and which expands. -/
theorem sweepRuns_of_expand {P : Setup} {D : List (Name × Form)} {bv : Scopes} {st₀ : St}
    {a rest : Form} {t : Term} {o : Option Code} {m m₁ m₂ : Nat} (hnb : ∀ ts, t ≠ .seq ts)
    (hstop : ∀ st, Ext st₀ st → ∀ n form env, st.envs env = ⟨bv, P.C.globals⟩ →
      sweep P.W (n + 1) P.C.globals form (.cons a rest) bv env [] [] st =
        some ([], [], .cons a rest, st))
    (hexp : ∀ st, Ext st₀ st → st.made = m → ∃ M a' st',
      (∀ n ≥ M, expand P.W n P.C.globals a bv st = some (a', st')) ∧ Ext st st' ∧ st'.made = m₁ ∧
      Tgt P st'.envs st'.nextEnv D .expr (frames bv) a' [t])
    (hr : RestRuns P D bv st₀ rest m₁ o m₂) :
    SweepRuns P D bv st₀ (.cons a rest) m (emitHead t o) m₂ := by
  intro st hst hm form env henv hlt
  obtain ⟨M₁, a', st₁, h₁, x₁, m₁, ht⟩ := hexp st hst hm
  subst m₁
  obtain ⟨M₂, d, st₂, ts, h₂, x₂, hm₂, ht₂, hc⟩ := assemble ht hnb (hst.trans x₁) hr
  refine ⟨max M₁ M₂ + 1, a, rest, st, a', st₁, d, st₂, ts, ?_, ?_, ?_, x₁.trans x₂, hm₂, ht₂, hc⟩
  · intro n hn
    obtain ⟨n, rfl, hn'⟩ := fuel hn
    exact hstop st hst n form env henv
  · exact fun n hn => h₁ n (by omega)
  · exact fun n hn => h₂ n (by omega)

theorem append_nil_left (r : Form) : append .nil r = r := rfl
theorem append_cons (a d r : Form) : append (.cons a d) r = .cons a (append d r) := rfl

theorem append_assoc : ∀ a b c : Form, append (append a b) c = append a (append b c) := by
  intro a
  induction a with
  | cons x d _ ih => intro b c; simp only [append]; rw [ih]
  | _ => intro b c; simp [append]

theorem Tgt.append {P : Setup} {H : Nat → Env} {N : Nat} {D : List (Name × Form)} {fs : List Form}
    {d e : Form} {ts us : List Term} (h : Tgt P H N D .list fs d ts) (h' : Tgt P H N D .list fs e us) :
    Tgt P H N D .list fs (append d e) (ts ++ us) := by
  generalize hk : TKind.list = k at h
  induction h with
  | nil => exact h'
  | cons h₁ _ _ ih => exact .cons h₁ (ih h' hk)
  | _ => cases hk

/-- Expanded forms in a body: the rest of the body is expanded after them. -/
theorem Tgt.elem {P : Setup} (hP : P.Ok) {H : Nat → Env} {N : Nat} {D : List (Name × Form)}
    {k : TKind} {fs : List Form} {v : Form} {ts : List Term} (h : Tgt P H N D k fs v ts) :
    ∀ bv st₀, Place P H N D fs bv st₀ → ∀ rest o m m₂, RestRuns P D bv st₀ rest m o m₂ →
    (k = .expr → ∀ t, ts = [t] → SweepRuns P D bv st₀ (.cons v rest) m (emitHead t o) m₂) ∧
    (k = .list → ts ≠ [] → SweepRuns P D bv st₀ (Expand.append v rest) m (emitHeads ts o) m₂) := by
  have inert : ∀ {fs e t}, Tgt P H N D .expr fs e [t] → (∀ ts, t ≠ .seq ts) →
      ∀ bv st₀, Place P H N D fs bv st₀ → ∀ rest o m m₂, RestRuns P D bv st₀ rest m o m₂ →
      (TKind.expr = .expr → ∀ t', [t] = [t'] → SweepRuns P D bv st₀ (.cons e rest) m (emitHead t' o) m₂) ∧
      (TKind.expr = .list → [t] ≠ [] →
        SweepRuns P D bv st₀ (Expand.append e rest) m (emitHeads [t] o) m₂) := by
    intro fs e t ht hnb bv st₀ hp rest o m m₂ hr
    refine ⟨?_, fun h => by cases h⟩
    intro _ t' ht'
    simp only [List.cons.injEq, and_true] at ht'
    subst ht'
    apply sweepRuns_of_expand (m₁ := m) hnb _ _ hr
    · intro st hst n form env henv
      have hp' := hp.ext hst
      exact sweep_inert hP hp'.ok henv hp'.eq (by rw [hp'.eq]; exact SubFrames.refl P hp'.parses)
        (ht.mono hp'.envs hp'.le (fun _ h => h)) hnb n form rest [] []
    · intro st hst hm
      have hp' := hp.ext hst
      obtain ⟨M, st', h₁, x, hm'⟩ := ht.fixed hP bv st hp'
      refine ⟨M, e, st', h₁, x, hm'.trans hm, ?_⟩
      rw [hp.eq]
      exact (ht.mono hp'.envs hp'.le (fun _ h => h)).ext x
  induction h with
  | leaf h => exact inert (.leaf h) (by simp)
  | const h₁ h₂ h₃ => exact inert (.const h₁ h₂ h₃) (by simp)
  | quote h₁ h₂ => exact inert (.quote h₁ h₂) (by simp)
  | when h₁ h₂ _ => exact inert (.when h₁ h₂) (by simp)
  | ite h₁ h₂ _ => exact inert (.ite h₁ h₂) (by simp)
  | set h₁ h₂ h₃ _ => exact inert (.set h₁ h₂ h₃) (by simp)
  | lam h₁ h₂ h₃ h₄ _ => exact inert (.lam h₁ h₂ h₃ h₄) (by simp)
  | letrec h₁ h₂ h₃ h₄ h₅ h₆ _ _ => exact inert (.letrec h₁ h₂ h₃ h₄ h₅ h₆) (by simp)
  | app h₁ h₂ h₃ _ => exact inert (.app h₁ h₂ h₃) (by simp)
  | @seq fs q es ts hk hne h ih =>
    intro bv st₀ hp rest o m m₂ hr
    refine ⟨?_, fun h => by cases h⟩
    intro _ t ht
    simp only [List.cons.injEq, and_true] at ht
    subst ht
    rw [emitHead_seq]
    intro st hst hm form env henv hlt
    have hp' := hp.ext hst
    obtain ⟨M, a, d, st₁, a', st₂, d', st₃, ts', h₁, h₂, h₃, hx, hm', ht, hc⟩ :=
      (ih bv st₀ hp rest o m m₂ hr).2 rfl hne st hst hm form env henv hlt
    refine ⟨M + 1, a, d, st₁, a', st₂, d', st₃, ts', ?_, ?_, ?_, hx, hm', ht, hc⟩
    · intro n hn
      obtain ⟨n, rfl, hn'⟩ := fuel hn
      rw [sweep_begin, h₁ n hn']
      simp only [sweepHead, hk.ident, if_true]
      rw [hp'.eq]
      exact hk.raw hP hp'.ok.envs (SubFrames.refl P hp'.parses)
    · exact fun n hn => h₂ n (by omega)
    · exact fun n hn => h₃ n (by omega)
  | nil => exact fun _ _ _ _ _ _ _ _ => ⟨fun h => by (cases h), fun _ h => absurd rfl h⟩
  | @cons fs a d t ts h₁ h₂ ih₁ ih₂ =>
    intro bv st₀ hp rest o m m₂ hr
    refine ⟨fun h => by (cases h), fun _ _ => ?_⟩
    rw [append_cons]
    by_cases hts : ts = []
    · subst hts
      have : d = .nil := by cases h₂; rfl
      subst this
      rw [append_nil_left, emitHeads_one]
      exact (ih₁ bv st₀ hp rest o m m₂ hr).1 rfl t rfl
    · rw [emitHeads_cons t hts]
      have := ((ih₂ bv st₀ hp rest o m m₂ hr).2 rfl hts).body
      exact (ih₁ bv st₀ hp _ _ m m₂ (.more this)).1 rfl t rfl
  | one => exact fun _ _ _ _ _ _ _ _ => ⟨fun h => by (cases h), fun h => by cases h⟩
  | more => exact fun _ _ _ _ _ _ _ _ => ⟨fun h => by (cases h), fun h => by cases h⟩

/-- What `sweep` makes of an expanded form at the end of the internal definitions: the `begin`s at
its head are opened. -/
theorem Tgt.sweep {P : Setup} (hP : P.Ok) {D : List (Name × Form)} {fs : List Form} {v : Form}
    {t : Term} {st : St} (h : Tgt P st.envs st.nextEnv D .expr fs v [t])
    {bvS bvC : Scopes} {env : Nat} (ok : StOk P D st)
    (henv : st.envs env = ⟨bvC, P.C.globals⟩) (hfs : frames bvC = fs)
    (hsub : SubFrames P (frames bvS) fs) :
    ∃ M a d ta ts, (∀ n ≥ M, ∀ form rest formals specs,
      sweep P.W n P.C.globals form (.cons v rest) bvS env formals specs st =
        some (specs, formals, .cons a (Expand.append d rest), st)) ∧
      Tgt P st.envs st.nextEnv D .expr fs a [ta] ∧ (∀ ts, ta ≠ .seq ts) ∧
      Tgt P st.envs st.nextEnv D .list fs d ts ∧ ∀ o, emitHeads (ta :: ts) o = emitHead t o := by
  have base : ∀ v t, Tgt P st.envs st.nextEnv D .expr fs v [t] → (∀ ts, t ≠ .seq ts) →
    ∃ M a d ta ts, (∀ n ≥ M, ∀ form rest formals specs,
      Expand.sweep P.W n P.C.globals form (.cons v rest) bvS env formals specs st =
        some (specs, formals, .cons a (Expand.append d rest), st)) ∧
      Tgt P st.envs st.nextEnv D .expr fs a [ta] ∧ (∀ ts, ta ≠ .seq ts) ∧
      Tgt P st.envs st.nextEnv D .list fs d ts ∧ ∀ o, emitHeads (ta :: ts) o = emitHead t o := by
    intro v t ht hnb
    refine ⟨1, v, .nil, t, [], ?_, ht, hnb, .nil, emitHeads_one t⟩
    intro n hn form rest formals specs
    obtain ⟨n, rfl⟩ := Nat.exists_eq_add_of_le' hn
    exact sweep_inert hP ok henv hfs hsub ht hnb n form rest formals specs
  have main : ∀ {k fs' v ts}, Tgt P st.envs st.nextEnv D k fs' v ts → fs' = fs →
      (k = .expr → ∀ t, ts = [t] → ∃ M a d ta ts, (∀ n ≥ M, ∀ form rest formals specs,
      Expand.sweep P.W n P.C.globals form (.cons v rest) bvS env formals specs st =
        some (specs, formals, .cons a (Expand.append d rest), st)) ∧
      Tgt P st.envs st.nextEnv D .expr fs a [ta] ∧ (∀ ts, ta ≠ .seq ts) ∧
      Tgt P st.envs st.nextEnv D .list fs d ts ∧ ∀ o, emitHeads (ta :: ts) o = emitHead t o) ∧
      (k = .list → ts ≠ [] → ∃ M a d ta us, (∀ n ≥ M, ∀ form rest formals specs,
      Expand.sweep P.W n P.C.globals form (Expand.append v rest) bvS env formals specs st =
        some (specs, formals, .cons a (Expand.append d rest), st)) ∧
      Tgt P st.envs st.nextEnv D .expr fs a [ta] ∧ (∀ ts, ta ≠ .seq ts) ∧
      Tgt P st.envs st.nextEnv D .list fs d us ∧ ∀ o, emitHeads (ta :: us) o = emitHeads ts o) := by
    intro k fs' v ts h hfs'
    induction h with
    | nil => exact ⟨fun h => by (cases h), fun _ h => absurd rfl h⟩
    | one => exact ⟨fun h => by (cases h), fun h => by cases h⟩
    | more => exact ⟨fun h => by (cases h), fun h => by cases h⟩
    | seq hk hne h ih =>
      subst hfs'
      refine ⟨?_, fun h => by cases h⟩
      intro _ t ht
      simp only [List.cons.injEq, and_true] at ht
      subst ht
      obtain ⟨M, a, d, ta, us, h₁, h₂, h₃, h₄, h₅⟩ := (ih rfl).2 rfl hne
      refine ⟨M + 1, a, d, ta, us, ?_, h₂, h₃, h₄, fun o => by rw [emitHead_seq, h₅]⟩
      intro n hn form rest formals specs
      obtain ⟨n, rfl, hn'⟩ := fuel hn
      rw [sweep_begin, h₁ n hn']
      simp only [sweepHead, hk.ident, if_true]
      exact hk.raw hP ok.envs hsub
    | @cons _ a₀ d₀ t₀ ts₀ h₁ h₂ ih₁ ih₂ =>
      subst hfs'
      refine ⟨fun h => by (cases h), fun _ _ => ?_⟩
      obtain ⟨M, a, d, ta, us, g₁, g₂, g₃, g₄, g₅⟩ := (ih₁ rfl).1 rfl t₀ rfl
      refine ⟨M, a, Expand.append d d₀, ta, us ++ ts₀, ?_, g₂, g₃, g₄.append h₂, ?_⟩
      · intro n hn form rest formals specs
        rw [append_cons, g₁ n hn, append_assoc]
      · intro o
        by_cases hts : ts₀ = []
        · subst hts
          rw [List.append_nil, g₅, emitHeads_one]
        · have := emitHeads_append (ta :: us) (by simp) hts o
          rw [← List.cons_append, this, g₅, emitHeads_cons _ hts]
    | leaf hl => subst hfs'; exact ⟨fun _ t ht => by cases ht; exact base _ _ (.leaf hl) (by simp), fun h => by cases h⟩
    | const h₁ h₂ h₃ => subst hfs'; exact ⟨fun _ t ht => by cases ht; exact base _ _ (.const h₁ h₂ h₃) (by simp), fun h => by cases h⟩
    | quote h₁ h₂ => subst hfs'; exact ⟨fun _ t ht => by cases ht; exact base _ _ (.quote h₁ h₂) (by simp), fun h => by cases h⟩
    | when h₁ h₂ => subst hfs'; exact ⟨fun _ t ht => by cases ht; exact base _ _ (.when h₁ h₂) (by simp), fun h => by cases h⟩
    | ite h₁ h₂ => subst hfs'; exact ⟨fun _ t ht => by cases ht; exact base _ _ (.ite h₁ h₂) (by simp), fun h => by cases h⟩
    | set h₁ h₂ h₃ => subst hfs'; exact ⟨fun _ t ht => by cases ht; exact base _ _ (.set h₁ h₂ h₃) (by simp), fun h => by cases h⟩
    | lam h₁ h₂ h₃ h₄ => subst hfs'; exact ⟨fun _ t ht => by cases ht; exact base _ _ (.lam h₁ h₂ h₃ h₄) (by simp), fun h => by cases h⟩
    | letrec h₁ h₂ h₃ h₄ h₅ h₆ => subst hfs'; exact ⟨fun _ t ht => by cases ht; exact base _ _ (.letrec h₁ h₂ h₃ h₄ h₅ h₆) (by simp), fun h => by cases h⟩
    | app h₁ h₂ h₃ => subst hfs'; exact ⟨fun _ t ht => by cases ht; exact base _ _ (.app h₁ h₂ h₃) (by simp), fun h => by cases h⟩
  exact (main h rfl).1 rfl t rfl

end Meevax.Expand
