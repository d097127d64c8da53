import Verif.Lemmas.HygieneStep

/-!
Internal definitions: what `sweep` collects, and the body that is made of it.
-/

namespace Meevax.Expand

open Secd (Name Code)
open Spec

/-! ## Definitions and binding specs -/

/-- An internal definition of `v`. -/
inductive DefOf (P : Setup) (ρ : List Frame) : Form → Form → Prop where
  | var {q v e} : Src P.base q → q.isIdentifier = true → P.C.head ρ q = some (.syn .define) →
    v.isIdentifier = true → DefOf P ρ (.ofList [q, v, e]) v
  | proc {q v F forms} : Src P.base q → q.isIdentifier = true →
    P.C.head ρ q = some (.syn .define) → DefOf P ρ (.cons q (.cons (.cons v F) forms)) v

/-- The binding spec made of an internal definition. -/
inductive SpecOf : Form → Form → Prop where
  | var {q v e} : v.isIdentifier = true → SpecOf (.ofList [q, v, e]) (.ofList [v, e])
  | proc {q v F forms n} : SpecOf (.cons q (.cons (.cons v F) forms))
    (.ofList [v, .cons (.closure (.core n) coreEnv [] (.sym lambdaName)) (.cons F forms)])

inductive Specs : List Form → List Form → Prop where
  | nil : Specs [] []
  | cons {d s ds ss} : SpecOf d s → Specs ds ss → Specs (d :: ds) (s :: ss)

/-- The sequence with the assignments for the specs in front. -/
inductive Assigned : List Form → Form → Form → Prop where
  | nil {seq} : Assigned [] seq seq
  | cons {s ss seq out n} : Assigned ss seq out →
    Assigned (s :: ss) seq (.cons (.cons (.closure (.core n) coreEnv [] (.sym setName)) s) out)

theorem assignments_append : ∀ (xs ys : List Form) (seq : Form) (st : St),
    assignments (xs ++ ys) seq st = assignments ys (assignments xs seq st).1 (assignments xs seq st).2
  | [], _, _, _ => rfl
  | x :: xs, ys, seq, st => by
    simp only [List.cons_append, assignments]
    exact assignments_append xs ys _ _

theorem assigned (seq : Form) (st : St) : ∀ ss : List Form,
    Assigned ss seq (assignments ss.reverse seq st).1 ∧ Ext st (assignments ss.reverse seq st).2 ∧
      (assignments ss.reverse seq st).2.made = st.made := by
  intro ss
  induction ss with
  | nil => exact ⟨.nil, Ext.refl _, rfl⟩
  | cons s ss ih =>
    obtain ⟨h₁, h₂, h₃⟩ := ih
    rw [List.reverse_cons, assignments_append]
    simp only [assignments, defaultRename]
    exact ⟨.cons h₁, h₂.trans (Ext.bump _ 1), h₃⟩

/-! ## What `sweep` collects -/

section
variable {W : World} {s : Name → Option Nat} {n : Nat} {q d form rest : Form} {bv : Scopes} {st : St}
  {env : Nat} {formals specs : List Form}

theorem sweep_var_in {v e : Form} (h : sweepHead W s q bv st = some (.syn .define))
    (hv : v.isIdentifier = true) (hin : v ∈ formals) :
    sweep W (n + 1) s form (.cons (.ofList [q, v, e]) rest) bv env formals specs st =
      sweep W n s form rest bv env formals (.ofList [v, e] :: specs) st := by
  rw [sweep.eq_def]
  simp only [Form.ofList, ← sweepHead_def, h]
  cases v <;> simp_all [Form.isIdentifier]

theorem sweep_proc_in {v F forms : Form} (h : sweepHead W s q bv st = some (.syn .define))
    (hin : v ∈ formals) :
    sweep W (n + 1) s form (.cons (.cons q (.cons (.cons v F) forms)) rest) bv env formals specs st =
      sweep W n s form rest bv env formals
        (.ofList [v, .cons (.closure (.core st.next) coreEnv [] (.sym lambdaName)) (.cons F forms)] ::
          specs) { st with next := st.next + 1 } := by
  rw [sweep.eq_def]
  simp only [← sweepHead_def, h]
  simp [hin, defaultRename]

theorem sweep_var_new {v e : Form} (h : sweepHead W s q bv st = some (.syn .define))
    (hv : v.isIdentifier = true) (hin : v ∉ formals) :
    sweep W (n + 1) s form (.cons (.ofList [q, v, e]) rest) bv env formals specs st =
      sweep W n s form form bv
        (newEnv ((st.next, .ofList (formals ++ [v])) :: bv) s { st with next := st.next + 1 }).1
        (formals ++ [v]) []
        (newEnv ((st.next, .ofList (formals ++ [v])) :: bv) s { st with next := st.next + 1 }).2 := by
  rw [sweep.eq_def]
  simp only [Form.ofList, ← sweepHead_def, h]
  cases v <;> simp_all [Form.isIdentifier]

theorem sweep_proc_new {v F forms : Form} (h : sweepHead W s q bv st = some (.syn .define))
    (hin : v ∉ formals) :
    sweep W (n + 1) s form (.cons (.cons q (.cons (.cons v F) forms)) rest) bv env formals specs st =
      sweep W n s form form bv
        (newEnv ((st.next, .ofList (formals ++ [v])) :: bv) s { st with next := st.next + 1 }).1
        (formals ++ [v]) []
        (newEnv ((st.next, .ofList (formals ++ [v])) :: bv) s { st with next := st.next + 1 }).2 := by
  rw [sweep.eq_def]
  simp only [← sweepHead_def, h]
  simp [hin]

end

theorem append_ofList_cons (d : Form) (ds : List Form) (r : Form) :
    append (.ofList (d :: ds)) r = .cons d (append (.ofList ds) r) := rfl

theorem append_ofList : ∀ (as bs : List Form),
    append (.ofList as) (.ofList bs) = .ofList (as ++ bs)
  | [], _ => rfl
  | a :: as, bs => by
    rw [append_ofList_cons, append_ofList as bs]; rfl

theorem src_ofList {base : Nat} : ∀ {l : List Form}, Src base (.ofList l) ↔ ∀ a ∈ l, Src base a := by
  intro l
  induction l with
  | nil => simp [Form.ofList, Src]
  | cons a l ih => simp [Form.ofList, Src, ih]

/-- What is flattened consists of forms of the source. -/
theorem src_flattens {C : Ctx} {base : Nat} {ρ : List Frame} {fs ds es : List Form} (h : C.Flattens ρ fs ds es)
    (hs : ∀ a ∈ fs, Src base a) : (∀ a ∈ ds, Src base a) ∧ ∀ a ∈ es, Src base a := by
  induction h with
  | stop => exact ⟨by simp, hs⟩
  | form _ ih =>
    obtain ⟨h₁, h₂⟩ := ih fun a ha => hs a (List.mem_cons_of_mem _ ha)
    exact ⟨List.forall_mem_cons.2 ⟨hs _ List.mem_cons_self, h₁⟩, h₂⟩
  | @begin q ys zs ds es _ _ _ ih =>
    have hq : Src base (.cons q (.ofList ys)) := hs _ (by simp)
    refine ih fun a ha => ?_
    rcases List.mem_append.1 ha with ha | ha
    · exact src_ofList.1 hq.2 a ha
    · exact hs a (by simp [ha])

/-- The forms up to one of the definitions. -/
theorem flattens_split {C : Ctx} {ρ : List Frame} {fs ds es : List Form} (h : C.Flattens ρ fs ds es)
    {ds₁ ds₂ : List Form} {d : Form} (hd : ds = ds₁ ++ d :: ds₂) : ∃ gs, C.Flattens ρ fs ds₁ (d :: gs) := by
  induction h generalizing ds₁ with
  | stop => simp at hd
  | @form d' fs ds es _ ih =>
    cases ds₁ with
    | nil =>
      simp only [List.nil_append, List.cons.injEq] at hd
      obtain ⟨rfl, -⟩ := hd
      exact ⟨fs, .stop⟩
    | cons a ds₁ =>
      simp only [List.cons_append, List.cons.injEq] at hd
      obtain ⟨rfl, hd⟩ := hd
      obtain ⟨gs, hg⟩ := ih hd
      exact ⟨gs, .form hg⟩
  | begin hq hi _ ih =>
    obtain ⟨gs, hg⟩ := ih hd
    exact ⟨gs, .begin hq hi hg⟩

/-- `sweep` passes definitions of variables it has already seen. -/
theorem sweep_pass {P : Setup} (hP : P.Ok) {ρ : List Frame} {bv : Scopes} {D : List (Name × Form)}
    {form : Form} {env : Nat} {formals : List Form} {fs ds rest : List Form} (hf : P.C.Flattens ρ fs ds rest) :
    (∀ a ∈ fs, Src P.base a) → ∀ l : List (Form × Form), l.map Prod.fst = ds →
    (∀ p ∈ l, DefOf P ρ p.1 p.2 ∧ p.2 ∈ formals) → ∀ specs st, Rel P ρ bv D st →
    ∃ k ss st', Specs (l.map Prod.fst) ss ∧ Ext st st' ∧ st'.made = st.made ∧ ∀ n,
      sweep P.W (n + k) P.C.globals form (.ofList fs) bv env formals specs st =
        sweep P.W n P.C.globals form (.ofList rest) bv env formals (ss.reverse ++ specs) st' := by
  induction hf with
  | stop =>
    intro _ l hl _ specs st _
    rw [List.map_eq_nil_iff] at hl
    subst hl
    exact ⟨0, [], st, .nil, Ext.refl _, rfl, fun n => rfl⟩
  | @begin q ys zs ds es hq hi _ ih =>
    intro hs l hl h specs st hr
    have hsq : Src P.base (.cons q (.ofList ys)) := hs _ (by simp)
    obtain ⟨k, ss, st', h₁, h₂, h₃, h₄⟩ := ih (fun a ha => by
      rcases List.mem_append.1 ha with ha | ha
      · exact src_ofList.1 hsq.2 a ha
      · exact hs a (by simp [ha])) l hl h specs st hr
    refine ⟨k + 1, ss, st', h₁, h₂, h₃, fun n => ?_⟩
    have hhead := sweepHead_eq hP hr hsq.1 hi
    rw [hq] at hhead
    rw [show Form.ofList (Form.cons q (.ofList ys) :: zs) = .cons (.cons q (.ofList ys)) (.ofList zs) from rfl,
      ← Nat.add_assoc, sweep_begin hhead, append_ofList, h₄]
  | @form d fs ds es _ ih =>
    intro hs l hl h specs st hr
    cases l with
    | nil => cases hl
    | cons p l =>
    obtain ⟨d', v⟩ := p
    simp only [List.map_cons, List.cons.injEq] at hl
    obtain ⟨rfl, hl⟩ := hl
    replace ih := ih (fun a ha => hs a (List.mem_cons_of_mem _ ha)) l hl
    obtain ⟨hd, hin⟩ := h _ List.mem_cons_self
    have hl' := fun p hp => h p (List.mem_cons_of_mem _ hp)
    simp only at hd hin
    cases hd with
    | @var q _ e hsv hi hh hv =>
      have hhead := sweepHead_eq hP hr hsv hi
      rw [hh] at hhead
      obtain ⟨k, ss, st', h₁, h₂, h₃, h₄⟩ := ih hl' (.ofList [v, e] :: specs) st hr
      refine ⟨k + 1, .ofList [v, e] :: ss, st', .cons (.var hv) h₁, h₂, h₃, ?_⟩
      intro n
      rw [show Form.ofList (Form.ofList [q, v, e] :: fs) = .cons (.ofList [q, v, e]) (.ofList fs) from rfl,
        ← Nat.add_assoc, sweep_var_in hhead hv hin, h₄]
      simp
    | @proc q _ F forms hsv hi hh =>
      have hhead := sweepHead_eq hP hr hsv hi
      rw [hh] at hhead
      have x₀ := Ext.bump st 1
      obtain ⟨k, ss, st', h₁, h₂, h₃, h₄⟩ := ih hl'
        (.ofList [v, .cons (.closure (.core st.next) coreEnv [] (.sym lambdaName)) (.cons F forms)] ::
          specs) _ (hr.ext x₀)
      refine ⟨k + 1, _ :: ss, st', .cons (.proc (n := st.next)) h₁, x₀.trans h₂, h₃, ?_⟩
      intro n
      rw [show Form.ofList (Form.cons q (.cons (.cons v F) forms) :: fs) =
          .cons (.cons q (.cons (.cons v F) forms)) (.ofList fs) from rfl,
        ← Nat.add_assoc, sweep_proc_in hhead hin, h₄]
      simp

/-- `sweep` collects the definitions at the beginning of a body. -/
theorem sweep_defs {P : Setup} (hP : P.Ok) {ρ : List Frame} {bv : Scopes} {D : List (Name × Form)}
    {fs rest : List Form} (hs : ∀ a ∈ fs, Src P.base a) : ∀ (post pre : List (Form × Form)),
    P.C.Flattens ρ fs ((pre ++ post).map Prod.fst) rest →
    (∀ p ∈ pre ++ post, DefOf P ρ p.1 p.2) → ((pre ++ post).map Prod.snd).Nodup →
    ∀ st env, Rel P ρ bv D st → ((pre = [] ∧ post ≠ []) ∨ ∃ i, st.envs env =
      ⟨(i, .ofList (pre.map Prod.snd)) :: bv, P.C.globals⟩ ∧ env < st.nextEnv) →
    ∃ N env' ss st' i, Specs ((pre ++ post).map Prod.fst) ss ∧ Ext st st' ∧ st'.made = st.made ∧
      st'.envs env' = ⟨(i, .ofList ((pre ++ post).map Prod.snd)) :: bv, P.C.globals⟩ ∧
      env' < st'.nextEnv ∧ ∀ n,
      sweep P.W (n + N) P.C.globals (.ofList fs) (.ofList fs) bv env (pre.map Prod.snd) [] st =
        sweep P.W n P.C.globals (.ofList fs) (.ofList rest) bv env'
          ((pre ++ post).map Prod.snd) ss.reverse st' := by
  intro post
  induction post with
  | nil =>
    intro pre hf hd hnd st env hr henv
    rw [List.append_nil] at hd hf ⊢
    obtain ⟨i, henv, hlt⟩ : ∃ i, st.envs env =
      ⟨(i, .ofList (pre.map Prod.snd)) :: bv, P.C.globals⟩ ∧ env < st.nextEnv := by
      rcases henv with ⟨_, h⟩ | h
      · exact absurd rfl h
      · exact h
    obtain ⟨k, ss, st', h₁, h₂, h₃, h₄⟩ := sweep_pass hP (env := env)
      (form := .ofList fs) (formals := pre.map Prod.snd) hf hs pre rfl
      (fun p hp => ⟨hd p hp, List.mem_map_of_mem hp⟩) [] st hr
    refine ⟨k, env, ss, st', i, h₁, h₂, h₃, (h₂.envs env hlt).trans henv,
      Nat.lt_of_lt_of_le hlt h₂.nextEnv, ?_⟩
    intro n
    rw [h₄]
    simp
  | cons p post ih =>
    intro pre hf hd hnd st env hr henv
    obtain ⟨d, v⟩ := p
    obtain ⟨gs, hg⟩ := flattens_split hf (ds₁ := pre.map Prod.fst) (d := d) (ds₂ := post.map Prod.fst) (by simp)
    obtain ⟨k, ss₀, st₁, _, x₁, m₁, h₄⟩ := sweep_pass hP (env := env)
      (form := .ofList fs) (formals := pre.map Prod.snd) hg hs pre rfl
      (fun p hp => ⟨hd p (List.mem_append_left _ hp), List.mem_map_of_mem hp⟩) [] st hr
    have hnot : v ∉ pre.map Prod.snd := by
      rw [List.map_append, List.map_cons, List.nodup_append] at hnd
      intro hin
      exact hnd.2.2 v hin v (by simp) rfl
    have hdv : DefOf P ρ d v := hd (d, v) (by simp)
    have hr₁ := hr.ext x₁
    have x₂ := Ext.bump st₁ 1
    have x₃ := Ext.newEnv { st₁ with next := st₁.next + 1 }
      ((st₁.next, .ofList (pre.map Prod.snd ++ [v])) :: bv) P.C.globals
    obtain ⟨henv', hlt'⟩ := newEnv_env ((st₁.next, .ofList (pre.map Prod.snd ++ [v])) :: bv)
      P.C.globals { st₁ with next := st₁.next + 1 }
    have hsplit : (pre ++ [(d, v)]) ++ post = pre ++ (d, v) :: post := by simp
    obtain ⟨N, env'', ss, st', i, g₁, g₂, g₃, g₄, g₅, g₆⟩ := ih (pre ++ [(d, v)])
      (by rw [hsplit]; exact hf) (by rw [hsplit]; exact hd) (by rw [hsplit]; exact hnd) _ _ (hr₁.ext (x₂.trans x₃))
      (.inr ⟨st₁.next, by rw [henv']; simp, hlt'⟩)
    rw [hsplit] at g₁ g₄ g₆
    refine ⟨N + 1 + k, env'', ss, st', i, g₁, x₁.trans (x₂.trans (x₃.trans g₂)),
      g₃.trans m₁, g₄, g₅, ?_⟩
    intro n
    have e₁ : n + (N + 1 + k) = (n + N + 1) + k := by omega
    rw [e₁, h₄]
    have hfin := g₆ n
    have hsnd : (pre ++ [(d, v)]).map Prod.snd = pre.map Prod.snd ++ [v] := by simp
    rw [hsnd] at hfin
    rw [show Form.ofList (d :: gs) = .cons d (.ofList gs) from rfl]
    cases hdv with
    | @var q _ e hs hi hh hv =>
      have hhead := sweepHead_eq hP hr₁ hs hi
      rw [hh] at hhead
      rw [sweep_var_new hhead hv hnot]
      exact hfin
    | @proc q _ F forms hs hi hh =>
      have hhead := sweepHead_eq hP hr₁ hs hi
      rw [hh] at hhead
      rw [sweep_proc_new hhead hnot]
      exact hfin

/-! ## The body made of definitions -/

theorem body_defs {W : World} {s : Name → Option Nat} {n : Nat} {form seq : Form} {bv : Scopes}
    {st st₁ : St} {spec : Form} {specs formals : List Form}
    (h : sweep W n s form form bv (newEnv bv s st).1 [] [] (newEnv bv s st).2 =
      some (spec :: specs, formals, seq, st₁)) :
    body W (n + 1) s form bv st =
      expand W n s
        (.cons (.cons (.cons
          (.closure (.core (assignments (spec :: specs) seq st₁).2.next) coreEnv [] (.sym lambdaName))
          (.cons (.ofList formals) (assignments (spec :: specs) seq st₁).1))
          (makeList formals.length)) .nil) bv
        { (assignments (spec :: specs) seq st₁).2 with
          next := (assignments (spec :: specs) seq st₁).2.next + 1 } := by
  rw [body]
  simp only [h, Option.bind_eq_bind, Option.bind_some]
  rfl

theorem operands_makeList {P : Setup} {bv : Scopes} {D : List (Name × Form)} :
    ∀ (k : Nat) (st : St), Operands P D bv st (makeList k)
      (List.replicate k (.const .nil)) st.made := by
  intro k
  induction k with
  | zero => intro st; exact operands_nil
  | succ k ih =>
    intro st
    rw [makeList, List.replicate_succ]
    apply operands_cons (m₁ := st.made)
    · refine ⟨1, .nil, .const .nil, st, ?_, Ext.refl st, rfl, .const rfl (by simp) rfl, Same.refl _⟩
      intro n hn
      obtain ⟨n, rfl, _⟩ := fuel hn
      exact expand_atom rfl (by simp)
    · intro st' _ hm
      have := ih st'
      rw [hm] at this
      exact this

/-- The scope of internal definitions. -/
theorem Rel.enterDef {P : Setup} {ρ : List Frame} {bv : Scopes} {D : List (Name × Form)} {st : St}
    (h : Rel P ρ bv D st) {vs : List Form} (hd : P.C.Definable ρ vs)
    (hsrc : ∀ v ∈ vs, Src P.base v) (i : Nat) :
    Rel P (⟨vs, none⟩ :: ρ) ((i, .ofList vs) :: bv) D st := by
  obtain ⟨φ, hφ, hF⟩ := h.frames
  refine ⟨h.ok, _, ?_, hF.enterDef hφ hd hsrc⟩
  have hp := parse_ofList (fun v hv => (hd.2 v hv).1)
  simp only [Frames, Expand.frames, List.map_cons, hp]
  simp only [Frames, Expand.frames] at hφ
  rw [hφ]

theorem definable_invisible {P : Setup} {ρ : List Frame} {bv : Scopes} {D : List (Name × Form)}
    {st : St} (h : Rel P ρ bv D st) {vs : List Form} (hd : P.C.Definable ρ vs) :
    ∀ x, Form.sym x ∈ vs → visible x (frames bv) = false := by
  obtain ⟨φ, hφ, hF⟩ := h.frames
  intro x hx
  have := mt ((visible_iff hφ).trans (hF.bound x)).mp ((hd.2 _ hx).2.2 x rfl)
  simpa using this

/-- The frames without the frame of internal definitions. -/
theorem subFrames_def {P : Setup} {ρ : List Frame} {bv : Scopes} {D : List (Name × Form)}
    {st : St} (h : Rel P ρ bv D st) {vs : List Form} (hd : P.C.Definable ρ vs) :
    SubFrames P (frames bv) (.ofList vs :: frames bv) := by
  obtain ⟨φ, hφ, hF⟩ := h.frames
  have hp := parse_ofList (fun v hv => (hd.2 v hv).1)
  have hφ' : Frames (.ofList vs :: frames bv) (⟨vs, none⟩ :: φ) := by
    simp only [Frames, List.map_cons, hp]
    simp only [Frames] at hφ
    rw [hφ]
  refine ⟨?_, ?_, by simp, φ, hφ⟩
  · intro v hv
    rw [scan_none_iff hφ', lookup_none] at hv
    rw [scan_none_iff hφ, lookup_none]
    exact fun f hf => hv f (List.mem_cons_of_mem _ hf)
  · intro x hx
    by_cases hm : Form.sym x ∈ vs
    · exact .inr (hd.2 _ hm).2.1
    · left
      intro hn
      apply hx
      rw [scan_none_iff hφ, lookup_none] at hn
      rw [scan_none_iff hφ', lookup_none]
      intro f hf
      rcases List.mem_cons.mp hf with rfl | hf
      · simpa [Frame.ids] using hm
      · exact hn f hf

/-- A body with definitions: the code of the application, if the sequence that `sweep` yields
becomes a body in the scope of the definitions. -/
theorem bodyRuns_defs {P : Setup} (hP : P.Ok) {ρ : List Frame} {bv : Scopes} {D : List (Name × Form)}
    {st₀ : St} (h : Rel P ρ bv D st₀) {l : List (Form × Form)} {fs rest : List Form} {m m' : Nat}
    {ts : List Term} (hf : P.C.Flattens ρ fs (l.map Prod.fst) rest) (hs : ∀ a ∈ fs, Src P.base a) (hne : l ≠ []) (hl : ∀ p ∈ l, DefOf P ρ p.1 p.2)
    (hd : P.C.Definable ρ (l.map Prod.snd))
    (hrest : ∀ st env ss i, Ext st₀ st → st.made = m → Specs (l.map Prod.fst) ss →
      st.envs env = ⟨(i, .ofList (l.map Prod.snd)) :: bv, P.C.globals⟩ → env < st.nextEnv →
      ∃ M seq st' m₁, (∀ n ≥ M, ∀ form,
        sweep P.W n P.C.globals form (.ofList rest) bv env (l.map Prod.snd) ss.reverse st =
          some (ss.reverse, l.map Prod.snd, seq, st')) ∧ Ext st st' ∧ st'.made = m₁ ∧
        ∀ out st₂ j, Assigned ss seq out → Ext st' st₂ → st₂.made = m₁ →
          BodyRuns P D ((j, .ofList (l.map Prod.snd)) :: bv) st₂ out m₁ (emitBody ts) m') :
    BodyRuns P D bv st₀ (.ofList fs) m
      (emitBody [.app (.lam l.length false ts) (List.replicate l.length (.const .nil))]) m' := by
  intro st hst hm
  have x₀ := Ext.newEnv st bv P.C.globals
  have hr := h.ext hst
  obtain ⟨N, env, ss, st₁, i, g₁, x₁, g₃, g₄, g₅, g₆⟩ := sweep_defs hP hs l []
    hf (by simpa using hl) (by simpa using hd.1) (newEnv bv P.C.globals st).2
    (newEnv bv P.C.globals st).1 (hr.ext x₀) (.inl ⟨rfl, hne⟩)
  simp only [List.nil_append, List.map_nil] at g₁ g₄ g₆
  obtain ⟨M, seq, st₂, m₁, k₁, x₂, k₃, k₄⟩ := hrest st₁ env ss i (hst.trans (x₀.trans x₁))
    (g₃.trans hm) g₁ g₄ g₅
  obtain ⟨ha, x₃, hm₃⟩ := assigned seq st₂ ss
  obtain ⟨out, sa, hass⟩ : ∃ o s, assignments ss.reverse seq st₂ = (o, s) := ⟨_, _, rfl⟩
  rw [hass] at ha x₃ hm₃
  simp only at ha x₃ hm₃
  have x₄ := Ext.bump sa 1
  have hr₄ := hr.ext (x₀.trans (x₁.trans (x₂.trans (x₃.trans x₄))))
  have hk := key_lambda hP hr₄ sa.next
  have hp := parse_ofList (fun v hv => (hd.2 v hv).1)
  have hmade : sa.made = m₁ := hm₃.trans k₃
  have hlam := expands_lamDef hP hr₄ (ts := ts) (a := l.length) (r := false) (m' := m') hk hp
    (fun x hx => definable_invisible hr₄ hd x (by simpa [Frame.ids] using hx))
    (by
      have := k₄ out { sa with next := sa.next + 1 + 1 } (sa.next + 1) ha
        (x₃.trans (Ext.bump sa 2)) hmade
      rw [← hmade] at this
      exact this)
  have hops := operands_cons hlam (d := makeList l.length)
    (ts := List.replicate l.length (.const .nil)) (m₂ := m') (by
      intro st' _ hm'
      have := operands_makeList (P := P) (D := D) (bv := bv) l.length st'
      rw [hm'] at this
      exact this)
  obtain ⟨M', e, t', st', j₁, x₆, j₃, j₄, j₅⟩ := expands_app hr₄
    (fun hf => by simp [Form.isIdentifier] at hf)
    (fun g hg => by cases hg) hops
  have hss : ss ≠ [] := by
    cases g₁' : l with
    | nil => exact absurd g₁' hne
    | cons p l => rw [g₁'] at g₁; cases g₁; simp
  have hcons : ∃ sp sps, ss.reverse = sp :: sps := by
    cases hrev : ss.reverse with
    | nil => exact absurd (List.reverse_eq_nil_iff.mp hrev) hss
    | cons a b => exact ⟨a, b, rfl⟩
  obtain ⟨sp, sps, hrev⟩ := hcons
  refine ⟨max M M' + N + 1 + 4, .cons e .nil, st', [t'], ?_,
    x₀.trans (x₁.trans (x₂.trans (x₃.trans (x₄.trans x₆)))), j₃, .one j₄ ?_, ?_⟩
  · intro n hn
    obtain ⟨n, rfl, hn'⟩ := fuel4 hn
    have hsw : sweep P.W (n + 3) P.C.globals (.ofList fs)
        (.ofList fs) bv (newEnv bv P.C.globals st).1 [] []
        (newEnv bv P.C.globals st).2 = some (sp :: sps, l.map Prod.snd, seq, st₂) := by
      have hk := k₁ (n + 3 - N) (by omega) (.ofList fs)
      have hg := g₆ (n + 3 - N)
      rw [Nat.sub_add_cancel (by omega), hk, hrev] at hg
      exact hg
    obtain ⟨n, rfl, _⟩ := fuel hn'
    rw [show n + 1 + 4 = (n + 1 + 3) + 1 from rfl, body_defs hsw, ← hrev]
    simp only [hass]
    rw [expand_call (fun hf => by simp [Form.isIdentifier] at hf), call_eq, List.length_map,
      j₁ (n + 1 + 1) (by omega)]
    simp only [Option.bind_some, operand]
    rw [expand_atom rfl (by simp)]
    rfl
  · exact j₅.notSeq (by simp)
  · simp only [emitBody, j₅.code]

end Meevax.Expand
