import Verif.Spec.Promise
import Mathlib.Tactic.ByContra

namespace Meevax.Promise

variable {C W S : Type}

/-- Every promise has a box of its own, and everything that is referred to exists. -/
structure Own (s : Config C W S) : Prop where
  len : s.objects.length = s.boxes.length
  cdr : ∀ (i : Nat) (o : Obj), s.objects[i]? = some o → o.cdr = i
  stack : ∀ p, Frame.forced p ∈ s.stack → p < s.boxes.length
  origin : ∀ (i : Nat) (t : Thunk C W), s.boxes[i]? = some (Box.pending t) → t.origin < s.boxes.length
  log : ∀ e ∈ s.log, e.2 < s.boxes.length

theorem boxOf_eq {s : Config C W S} (h : Own s) (p : Nat) : boxOf s p = s.boxes[p]? := by
  unfold boxOf
  cases hp : s.objects[p]? with
  | some o => simp only; rw [h.cdr p o hp]
  | none =>
    rw [List.getElem?_eq_none_iff] at hp
    symm
    simp only
    rw [List.getElem?_eq_none_iff]
    have := h.len
    omega

/-- What a step does: the boxes that are added or changed, what happens to the stack, to the log, to the
mode. -/
inductive Effect (pr : Program C W S) (s : Config C W S) : Config C W S → Prop
  /-- the user's code goes on, perhaps calling something; perhaps the program is stuck -/
  | plain {m u fs} : (∀ p, Frame.forced p ∉ fs) → (∀ w, s.mode ≠ .ret w) → (∀ p, s.mode ≠ .force p) →
      Effect pr s { s with mode := m, user := u, stack := fs ++ s.stack }
  /-- a promise is made -/
  | made {m u k} : (∀ w, s.mode ≠ .ret w) → (∀ p, s.mode ≠ .force p) →
      Effect pr s { s with
        mode := m, user := u, objects := s.objects ++ [⟨.tag, s.boxes.length⟩]
        boxes := s.boxes ++ [.pending ⟨s.objects.length, k⟩] }
  /-- the program is stuck -/
  | stuck : (∀ w q b, s.mode = .ret w → pr.toPromise w = some q → s.boxes[q]? ≠ some b) →
      Effect pr s { s with mode := .stuck }
  /-- a finished promise is forced -/
  | ready {p w} : s.mode = .force p → s.boxes[p]? = some (.done w) →
      Effect pr s { s with mode := .ret w }
  /-- an unfinished promise is forced: its expression is started -/
  | started {p t m fs} : s.mode = .force p → s.boxes[p]? = some (.pending t) →
      (fs = [] ∨ fs = [.wrap]) → ((∀ c, t.kind ≠ .lazy c) → fs = [.wrap]) → (∀ p, m ≠ .force p) →
      Effect pr s { s with mode := m, stack := fs ++ .forced p :: s.stack, log := (p, t.origin) :: s.log }
  /-- the program returns -/
  | returned {w} : s.mode = .ret w → s.stack = [] → Effect pr s { s with mode := .returned w }
  /-- a return to the user's code -/
  | next {w c rest} : s.mode = .ret w → s.stack = .next c :: rest →
      Effect pr s { s with mode := .run c w, stack := rest }
  /-- a return to `(promise #t …)` -/
  | wrapped {w rest} : s.mode = .ret w → s.stack = .wrap :: rest →
      Effect pr s { s with
        mode := .ret (pr.ofPromise s.objects.length), stack := rest
        objects := s.objects ++ [⟨.tag, s.boxes.length⟩], boxes := s.boxes ++ [.done w] }
  /-- a return to `force`; the promise has been finished meanwhile -/
  | again {w p rest v} : s.mode = .ret w → s.stack = .forced p :: rest → s.boxes[p]? = some (.done v) →
      Effect pr s { s with mode := .force p, stack := rest }
  /-- a return to `force` -/
  | updated {w p rest q b objects} : s.mode = .ret w → s.stack = .forced p :: rest →
      (∀ v, s.boxes[p]? ≠ some (.done v)) → pr.toPromise w = some q → s.boxes[q]? = some b →
      objects.length = s.objects.length → (∀ (i : Nat) (o : Obj), objects[i]? = some o → o.cdr = i) →
      Effect pr s { s with
        mode := .force p, stack := rest, boxes := s.boxes.set p b, objects := objects }

theorem effect_startForce {pr : Program C W S} {s : Config C W S} {u : S} (hm : ∀ w, s.mode ≠ .ret w)
    (hf : ∀ p, s.mode ≠ .force p) (w : W) (fs : List (Frame C)) (hfs : ∀ p, Frame.forced p ∉ fs) :
    Effect pr s (startForce pr w { s with user := u, stack := fs ++ s.stack }) := by
  unfold startForce
  split
  · exact .plain hfs hm hf
  · exact .plain hfs hm hf

/-- Every step is one of these. -/
theorem effect {pr : Program C W S} {s s' : Config C W S} (ho : Own s) (h : step pr s = some s') :
    Effect pr s s' := by
  unfold step at h
  split at h
  · rename_i c w hm
    simp only [Option.some.injEq] at h
    subst h
    have h1 : ∀ w, s.mode ≠ .ret w := by intro w h; rw [hm] at h; cases h
    have h2 : ∀ p, s.mode ≠ .force p := by intro w h; rw [hm] at h; cases h
    generalize (pr.step c w s.user).2 = a
    generalize (pr.step c w s.user).1 = u
    cases a with
    | ret w => exact .plain (fs := []) (by simp) h1 h2
    | goto c w => exact .plain (fs := []) (by simp) h1 h2
    | call c w next => exact .plain (fs := [.next next]) (by simp) h1 h2
    | lazy c next => exact .made h1 h2
    | delay c next => exact .made h1 h2
    | eager w next =>
      simp only [perform]
      split
      · exact .plain (fs := []) (by simp) h1 h2
      · exact .made h1 h2
    | isPromise w next => exact .plain (fs := []) (by simp) h1 h2
    | force w next => exact effect_startForce h1 h2 w [.next next] (by simp)
    | forceTail w => exact effect_startForce h1 h2 w [] (by simp)
  · rename_i w hm
    cases h
    unfold returnTo
    split
    · rename_i hs; exact .returned hm hs
    · rename_i hs; exact .next hm hs
    · rename_i hs
      exact .wrapped hm hs
    · rename_i p rest hs
      have hd : ∀ x, isDone s p = x → (x = true → ∃ v, s.boxes[p]? = some (.done v)) ∧
          (x = false → ∀ v, s.boxes[p]? ≠ some (.done v)) := by
        intro x hx
        unfold isDone at hx
        rw [boxOf_eq ho] at hx
        split at hx
        · rename_i v hv
          exact ⟨fun _ => ⟨v, hv⟩, fun h => absurd (hx.trans h) (by decide)⟩
        · rename_i hv
          exact ⟨fun h => absurd (hx.trans h) (by decide), fun _ => hv⟩
      split
      · rename_i q hq
        split
        · rename_i hdone
          obtain ⟨v, hv⟩ := (hd _ rfl).1 hdone
          exact .again hm hs hv
        · rename_i hdone
          have hnd := (hd _ rfl).2 (by simpa using hdone)
          split
          · rename_i b hb
            rw [boxOf_eq ho] at hb
            have hql : q < s.boxes.length := (List.getElem?_eq_some_iff.1 hb).1
            have hpl := ho.stack p (by rw [hs]; exact List.mem_cons_self ..)
            obtain ⟨on, hon⟩ : ∃ o, s.objects[q]? = some o :=
              ⟨_, List.getElem?_eq_getElem (by have := ho.len; omega)⟩
            obtain ⟨oo, hoo⟩ : ∃ o, s.objects[p]? = some o :=
              ⟨_, List.getElem?_eq_getElem (by have := ho.len; omega)⟩
            have hcn := ho.cdr q on hon
            have hco := ho.cdr p oo hoo
            unfold update
            simp only [hon, hoo, hcn, hco, hb]
            refine .updated hm hs hnd hq hb (by simp) ?_
            intro i o hio
            rw [List.getElem?_set] at hio
            split at hio
            · split at hio
              · rename_i h1 _
                injection hio with hio
                rw [← hio, ← h1]
              · cases hio
            · exact ho.cdr i o hio
          · rename_i hb
            refine .stuck fun w' q' b h1 h2 h3 => ?_
            rw [hm] at h1
            injection h1 with h1
            rw [← h1, hq] at h2
            injection h2 with h2
            rw [boxOf_eq ho, h2, h3] at hb
            cases hb
      · rename_i hq
        split
        · rename_i hdone
          obtain ⟨v, hv⟩ := (hd _ rfl).1 hdone
          exact .again hm hs hv
        · refine .stuck fun w' q' b h1 h2 h3 => ?_
          rw [hm] at h1
          injection h1 with h1
          rw [← h1, hq] at h2
          cases h2
  · rename_i p hm
    cases h
    unfold force
    rw [boxOf_eq ho]
    split
    · rename_i w hw
      exact .ready hm hw
    · rename_i t ht
      unfold callThunk
      split
      · rename_i c hc
        exact .started (fs := []) hm ht (.inl rfl) (fun h => absurd hc (h c)) (by intro p h; cases h)
      · exact .started (fs := [.wrap]) hm ht (.inr rfl) (fun _ => rfl) (by intro p h; cases h)
      · exact .started (fs := [.wrap]) hm ht (.inr rfl) (fun _ => rfl) (by intro p h; cases h)
    · refine .stuck fun w' q' b h1 h2 h3 => ?_
      rw [hm] at h1
      cases h1
  · cases h
  · cases h

theorem cdr_append {s : Config C W S} (ho : Own s) : ∀ (i : Nat) (o : Obj),
    (s.objects ++ [⟨.tag, s.boxes.length⟩])[i]? = some o → o.cdr = i := by
  intro i o h
  rcases Nat.lt_or_ge i s.objects.length with hlt | hge
  · rw [List.getElem?_append_left hlt] at h
    exact ho.cdr i o h
  · rw [List.getElem?_append_right hge] at h
    have : i - s.objects.length = 0 := by
      by_contra hne
      rw [List.getElem?_eq_none (by simp only [List.length_singleton]; omega)] at h
      cases h
    rw [this] at h
    injection h with h
    rw [← h]
    have := ho.len
    simp only
    omega

/-- Every step keeps `Own`. -/
theorem own_step {pr : Program C W S} {s s' : Config C W S} (ho : Own s) (h : Effect pr s s') :
    Own s' := by
  cases h with
  | plain hfs _ _ =>
    refine ⟨ho.len, ho.cdr, ?_, ho.origin, ho.log⟩
    intro p hp
    rcases List.mem_append.1 hp with h | h
    · exact absurd h (hfs p)
    · exact ho.stack p h
  | made _ _ =>
    refine ⟨by simp [ho.len], cdr_append ho, ?_, ?_, ?_⟩
    · intro p hp
      have := ho.stack p hp
      simp only [List.length_append, List.length_singleton]
      omega
    · intro i t hi
      simp only [List.length_append, List.length_singleton]
      rcases Nat.lt_or_ge i s.boxes.length with hlt | hge
      · rw [List.getElem?_append_left hlt] at hi
        have := ho.origin i t hi
        omega
      · rw [List.getElem?_append_right hge] at hi
        have hmem := List.mem_of_getElem? hi
        rw [List.mem_singleton] at hmem
        injection hmem with hmem
        rw [hmem]
        have := ho.len
        simp only
        omega
    · intro e he
      have := ho.log e he
      simp only [List.length_append, List.length_singleton]
      omega
  | stuck _ => exact ⟨ho.len, ho.cdr, ho.stack, ho.origin, ho.log⟩
  | ready _ _ => exact ⟨ho.len, ho.cdr, ho.stack, ho.origin, ho.log⟩
  | @started p t m fs _ hb hfs _ _ =>
    refine ⟨ho.len, ho.cdr, ?_, ho.origin, ?_⟩
    · intro q hq
      rcases List.mem_append.1 hq with h | h
      · rcases hfs with rfl | rfl
        · cases h
        · rw [List.mem_singleton] at h; cases h
      · rcases List.mem_cons.1 h with h | h
        · injection h with h
          rw [h]
          exact (List.getElem?_eq_some_iff.1 hb).1
        · exact ho.stack q h
    · intro e he
      rcases List.mem_cons.1 he with rfl | h
      · exact ho.origin _ _ hb
      · exact ho.log e h
  | returned _ _ => exact ⟨ho.len, ho.cdr, ho.stack, ho.origin, ho.log⟩
  | next _ hs =>
    exact ⟨ho.len, ho.cdr, fun p hp => ho.stack p (by rw [hs]; exact List.mem_cons_of_mem _ hp), ho.origin,
      ho.log⟩
  | @wrapped w rest _ hs =>
    refine ⟨by simp [ho.len], cdr_append ho, ?_, ?_, ?_⟩
    · intro p hp
      have := ho.stack p (by rw [hs]; exact List.mem_cons_of_mem _ hp)
      simp only [List.length_append, List.length_singleton]
      omega
    · intro i t hi
      simp only [List.length_append, List.length_singleton]
      rcases Nat.lt_or_ge i s.boxes.length with hlt | hge
      · rw [List.getElem?_append_left hlt] at hi
        have := ho.origin i t hi
        omega
      · rw [List.getElem?_append_right hge] at hi
        have hmem := List.mem_of_getElem? hi
        rw [List.mem_singleton] at hmem
        cases hmem
    · intro e he
      have := ho.log e he
      simp only [List.length_append, List.length_singleton]
      omega
  | again _ hs _ =>
    exact ⟨ho.len, ho.cdr, fun p hp => ho.stack p (by rw [hs]; exact List.mem_cons_of_mem _ hp), ho.origin,
      ho.log⟩
  | @updated w p rest q b objects _ hs _ _ hb hl hc =>
    refine ⟨by simp [hl, ho.len], hc, ?_, ?_, ?_⟩
    · intro r hr
      have := ho.stack r (by rw [hs]; exact List.mem_cons_of_mem _ hr)
      simpa using this
    · intro i t hi
      simp only [List.length_set]
      rw [List.getElem?_set] at hi
      split at hi
      · split at hi
        · injection hi with hi
          rw [hi] at hb
          exact ho.origin _ _ hb
        · cases hi
      · exact ho.origin i t hi
    · intro e he
      simpa using ho.log e he

theorem own_start (c : C) (w : W) (u : S) : Own (start c w u) :=
  ⟨rfl, fun i o h => (by simp [start] at h), fun p h => (by cases h), fun i t h => (by simp [start] at h),
    fun e h => (by cases h)⟩

theorem own_run {pr : Program C W S} {q : Config C W S → Prop} {s t : Config C W S} (ho : Own s)
    (h : RunThrough pr q s t) : Own t := by
  induction h with
  | refl => exact ho
  | step _ _ hst ih => exact own_step ih (effect ih hst)

/-- A finished promise stays as it is. -/
theorem done_step {pr : Program C W S} {s s' : Config C W S} (h : Effect pr s s') {p : Nat} {w : W}
    (hd : s.boxes[p]? = some (.done w)) : s'.boxes[p]? = some (.done w) := by
  have hlt : p < s.boxes.length := (List.getElem?_eq_some_iff.1 hd).1
  cases h with
  | made _ _ => simp only; rw [List.getElem?_append_left hlt]; exact hd
  | wrapped _ _ => simp only; rw [List.getElem?_append_left hlt]; exact hd
  | @updated w' p' rest q b objects _ _ hn _ _ _ _ =>
    simp only
    rw [List.getElem?_set, if_neg]
    · exact hd
    · intro he
      rw [he] at hn
      exact hn w hd
  | _ => exact hd

theorem done_run {pr : Program C W S} {q : Config C W S → Prop} {s t : Config C W S} (ho : Own s)
    (h : RunThrough pr q s t) {p : Nat} {w : W} (hd : s.boxes[p]? = some (.done w)) :
    t.boxes[p]? = some (.done w) := by
  induction h with
  | refl => exact hd
  | step h1 _ hst ih => exact done_step (effect (own_run ho h1) hst) ih

/-- The states inside of one call of `force`. -/
def Active (p : Nat) (st : List (Frame C)) (t : Config C W S) : Prop :=
  t.stack = st ∧ t.mode = .force p ∨ ∃ fs, t.stack = fs ++ .forced p :: st

/-- The states in which the call has returned. -/
def Answered (p : Nat) (st : List (Frame C)) (t : Config C W S) : Prop :=
  t.stack = st ∧ ∃ w, t.mode = .ret w ∧ boxOf t p = some (.done w)

theorem active_step {pr : Program C W S} {s s' : Config C W S} (ho : Own s) (h : Effect pr s s')
    {p : Nat} {st : List (Frame C)} (ha : Active p st s) :
    Active p st s' ∨ Answered p st s' ∨ s'.mode = .stuck := by
  have ho' := own_step ho h
  rcases ha with ⟨hst, hm⟩ | ⟨fs, hst⟩
  · cases h with
    | plain _ _ hf => exact absurd hm (hf p)
    | made _ hf => exact absurd hm (hf p)
    | stuck _ => exact .inr (.inr rfl)
    | @ready p' w hm' hb =>
      rw [hm] at hm'
      injection hm' with hm'
      subst hm'
      exact .inr (.inl ⟨hst, w, rfl, by rw [boxOf_eq ho']; exact hb⟩)
    | @started p' t m fs hm' _ _ _ _ =>
      rw [hm] at hm'
      injection hm' with hm'
      subst hm'
      exact .inl (.inr ⟨fs, by simp only [hst]⟩)
    | returned hm' _ => rw [hm] at hm'; cases hm'
    | next hm' _ => rw [hm] at hm'; cases hm'
    | wrapped hm' _ => rw [hm] at hm'; cases hm'
    | again hm' _ _ => rw [hm] at hm'; cases hm'
    | updated hm' _ _ _ _ _ _ => rw [hm] at hm'; cases hm'
  · cases h with
    | @plain m u gs _ _ _ => exact .inl (.inr ⟨gs ++ fs, by simp [hst]⟩)
    | made _ _ => exact .inl (.inr ⟨fs, hst⟩)
    | stuck _ => exact .inr (.inr rfl)
    | ready _ _ => exact .inl (.inr ⟨fs, hst⟩)
    | @started p' t m gs _ _ _ _ _ => exact .inl (.inr ⟨gs ++ .forced p' :: fs, by simp [hst]⟩)
    | returned _ hs => rw [hst] at hs; simp at hs
    | next _ hs =>
      rw [hst] at hs
      cases fs with
      | nil => simp at hs
      | cons f fs =>
        simp only [List.cons_append, List.cons.injEq] at hs
        exact .inl (.inr ⟨fs, hs.2.symm⟩)
    | wrapped _ hs =>
      rw [hst] at hs
      cases fs with
      | nil => simp at hs
      | cons f fs =>
        simp only [List.cons_append, List.cons.injEq] at hs
        exact .inl (.inr ⟨fs, hs.2.symm⟩)
    | @again _ p' rest _ _ hs _ =>
      rw [hst] at hs
      cases fs with
      | nil =>
        simp only [List.nil_append, List.cons.injEq, Frame.forced.injEq] at hs
        exact .inl (.inl ⟨hs.2.symm, by rw [hs.1]⟩)
      | cons f fs =>
        simp only [List.cons_append, List.cons.injEq] at hs
        exact .inl (.inr ⟨fs, hs.2.symm⟩)
    | @updated _ p' rest _ _ _ _ hs _ _ _ _ _ =>
      rw [hst] at hs
      cases fs with
      | nil =>
        simp only [List.nil_append, List.cons.injEq, Frame.forced.injEq] at hs
        exact .inl (.inl ⟨hs.2.symm, by rw [hs.1]⟩)
      | cons f fs =>
        simp only [List.cons_append, List.cons.injEq] at hs
        exact .inl (.inr ⟨fs, hs.2.symm⟩)

/-- Where promise `o`, whose expression is that of a `delay`, stands. -/
inductive Phase (pr : Program C W S) (o : Nat) (k : Kind C W) (s : Config C W S) : Prop
  | unstarted : s.boxes[o]? = some (.pending ⟨o, k⟩) → evaluations s o = 0 →
      Frame.forced o ∉ s.stack → Phase pr o k s
  | running {fs st} : s.boxes[o]? = some (.pending ⟨o, k⟩) → evaluations s o ≤ 1 →
      s.stack = fs ++ .wrap :: .forced o :: st → Frame.forced o ∉ fs → Frame.forced o ∉ st → Phase pr o k s
  | wrapped {st w q v} : s.boxes[o]? = some (.pending ⟨o, k⟩) →
      evaluations s o ≤ 1 → s.stack = .forced o :: st → s.mode = .ret w → pr.toPromise w = some q →
      s.boxes[q]? = some (.done v) → Frame.forced o ∉ st → Phase pr o k s
  | done {v} : s.boxes[o]? = some (.done v) → evaluations s o ≤ 1 → Phase pr o k s

theorem Phase.le {pr : Program C W S} {o : Nat} {k : Kind C W} {s : Config C W S} (h : Phase pr o k s) :
    evaluations s o ≤ 1 := by
  cases h with
  | unstarted _ h _ => omega
  | running _ h _ _ _ => exact h
  | wrapped _ h _ _ _ _ _ => exact h
  | done _ h => exact h

theorem phase_step {pr : Program C W S} {s s' : Config C W S} (ho : Own s) (h : Effect pr s s') {o : Nat}
    {k : Kind C W} (hk : ∀ c, k ≠ .lazy c) (hp : Phase pr o k s) (hn : NotReentered o s)
    (hl : OnlyForcedDirectly s' o) : Phase pr o k s' := by
  cases h with
  | @plain m u gs hgs hnr _ =>
    cases hp with
    | unstarted h1 h2 h3 =>
      refine .unstarted h1 h2 ?_
      simp only [List.mem_append]
      exact fun h => h.elim (hgs o) h3
    | @running fs st h1 h2 h3 h4 h5 =>
      refine .running (fs := gs ++ fs) h1 h2 (by simp [h3]) ?_ h5
      simp only [List.mem_append]
      exact fun h => h.elim (hgs o) h4
    | wrapped h1 h2 h3 h4 h5 h6 h7 => exact absurd h4 (hnr _)
    | done h1 h2 => exact .done h1 h2
  | made hnr _ =>
    have hlt : ∀ {b}, s.boxes[o]? = some b → o < s.boxes.length := fun h => (List.getElem?_eq_some_iff.1 h).1
    cases hp with
    | unstarted h1 h2 h3 => exact .unstarted (by simp only; rw [List.getElem?_append_left (hlt h1)]; exact h1) h2 h3
    | running h1 h2 h3 h4 h5 =>
      exact .running (by simp only; rw [List.getElem?_append_left (hlt h1)]; exact h1) h2 h3 h4 h5
    | wrapped h1 h2 h3 h4 h5 h6 h7 => exact absurd h4 (hnr _)
    | done h1 h2 => exact .done (by simp only; rw [List.getElem?_append_left (hlt h1)]; exact h1) h2
  | stuck hst =>
    cases hp with
    | unstarted h1 h2 h3 => exact .unstarted h1 h2 h3
    | running h1 h2 h3 h4 h5 => exact .running h1 h2 h3 h4 h5
    | wrapped h1 h2 h3 h4 h5 h6 h7 => exact absurd h6 (hst _ _ _ h4 h5)
    | done h1 h2 => exact .done h1 h2
  | ready hm _ =>
    cases hp with
    | unstarted h1 h2 h3 => exact .unstarted h1 h2 h3
    | running h1 h2 h3 h4 h5 => exact .running h1 h2 h3 h4 h5
    | wrapped h1 h2 h3 h4 h5 h6 h7 => rw [hm] at h4; cases h4
    | done h1 h2 => exact .done h1 h2
  | @started p t m fs hm hb hfs hfs' hmf =>
    have hcount : t.origin ≠ o → evaluations { s with mode := m, stack := fs ++ .forced p :: s.stack, log := (p, t.origin) :: s.log } o = evaluations s o := by
      intro hne
      unfold evaluations
      simp [hne]
    have hcount' : t.origin = o → evaluations { s with mode := m, stack := fs ++ .forced p :: s.stack, log := (p, t.origin) :: s.log } o = evaluations s o + 1 := by
      intro heq
      unfold evaluations
      simp [heq]
    have hown : t.origin = o → p = o := fun heq => hl (p, t.origin) (List.mem_cons_self ..) heq
    by_cases hpo : p = o
    · subst hpo
      cases hp with
      | unstarted h1 h2 h3 =>
        rw [hb] at h1
        injection h1 with h1
        injection h1 with h1
        subst h1
        have hf := hfs' hk
        subst hf
        refine .running (fs := []) hb ?_ rfl (by simp) h3
        exact Nat.le_of_eq ((hcount' rfl).trans (by rw [h2]))
      | running h1 h2 h3 h4 h5 =>
        exfalso
        have hnd : isDone s p = false := by
          unfold isDone
          rw [boxOf_eq ho, hb]
        refine hn hm hnd (.forced p) ?_ rfl
        rw [h3]; simp
      | wrapped h1 h2 h3 h4 h5 h6 h7 => rw [hm] at h4; cases h4
      | done h1 h2 => rw [hb] at h1; cases h1
    · have hne : t.origin ≠ o := fun h => hpo (hown h)
      have hnf : Frame.forced o ∉ fs ++ [Frame.forced p] := by
        intro h
        rcases List.mem_append.1 h with h | h
        · rcases hfs with rfl | rfl
          · cases h
          · rw [List.mem_singleton] at h; cases h
        · rw [List.mem_singleton] at h
          injection h with h
          exact hpo h.symm
      cases hp with
      | unstarted h1 h2 h3 =>
        refine .unstarted h1 ((hcount hne).trans h2) ?_
        show _ ∉ fs ++ .forced p :: s.stack
        rw [show fs ++ .forced p :: s.stack = (fs ++ [.forced p]) ++ s.stack by simp]
        exact fun h => (List.mem_append.1 h).elim hnf h3
      | @running gs st h1 h2 h3 h4 h5 =>
        refine .running (fs := fs ++ .forced p :: gs) h1 (Nat.le_trans (Nat.le_of_eq (hcount hne)) h2) (by simp [h3]) ?_ h5
        rw [show fs ++ .forced p :: gs = (fs ++ [.forced p]) ++ gs by simp]
        exact fun h => (List.mem_append.1 h).elim hnf h4
      | wrapped h1 h2 h3 h4 h5 h6 h7 => rw [hm] at h4; cases h4
      | done h1 h2 => exact .done h1 (Nat.le_trans (Nat.le_of_eq (hcount hne)) h2)
  | returned hm hs =>
    cases hp with
    | unstarted h1 h2 h3 => exact .unstarted h1 h2 h3
    | running h1 h2 h3 h4 h5 => rw [hs] at h3; simp at h3
    | wrapped h1 h2 h3 h4 h5 h6 h7 => rw [hs] at h3; cases h3
    | done h1 h2 => exact .done h1 h2
  | @next w c rest hm hs =>
    cases hp with
    | unstarted h1 h2 h3 =>
      exact .unstarted h1 h2 fun h => h3 (by rw [hs]; exact List.mem_cons_of_mem _ h)
    | @running fs st h1 h2 h3 h4 h5 =>
      rw [hs] at h3
      cases fs with
      | nil => simp at h3
      | cons f fs =>
        simp only [List.cons_append, List.cons.injEq] at h3
        exact .running h1 h2 h3.2 (fun h => h4 (List.mem_cons_of_mem _ h)) h5
    | wrapped h1 h2 h3 h4 h5 h6 h7 => rw [hs] at h3; cases h3
    | done h1 h2 => exact .done h1 h2
  | @wrapped w rest hm hs =>
    have hlt : ∀ {b}, s.boxes[o]? = some b → o < s.boxes.length := fun h => (List.getElem?_eq_some_iff.1 h).1
    cases hp with
    | unstarted h1 h2 h3 =>
      exact .unstarted (by simp only; rw [List.getElem?_append_left (hlt h1)]; exact h1) h2
        fun h => h3 (by rw [hs]; exact List.mem_cons_of_mem _ h)
    | @running fs st h1 h2 h3 h4 h5 =>
      rw [hs] at h3
      have h1' : (s.boxes ++ [Box.done w])[o]? = some (.pending ⟨o, k⟩) := by
        rw [List.getElem?_append_left (hlt h1)]; exact h1
      cases fs with
      | nil =>
        simp only [List.nil_append, List.cons.injEq, true_and] at h3
        refine .wrapped (q := s.objects.length) (v := w) h1' h2 h3 rfl
          (pr.toPromise_ofPromise _) ?_ h5
        show (s.boxes ++ [Box.done w])[s.objects.length]? = _
        rw [ho.len]
        simp
      | cons f fs =>
        simp only [List.cons_append, List.cons.injEq] at h3
        exact .running h1' h2 h3.2 (fun h => h4 (List.mem_cons_of_mem _ h)) h5
    | wrapped h1 h2 h3 h4 h5 h6 h7 => rw [hs] at h3; cases h3
    | done h1 h2 => exact .done (by simp only; rw [List.getElem?_append_left (hlt h1)]; exact h1) h2
  | @again w p rest v hm hs hb =>
    cases hp with
    | unstarted h1 h2 h3 =>
      exact .unstarted h1 h2 fun h => h3 (by rw [hs]; exact List.mem_cons_of_mem _ h)
    | @running fs st h1 h2 h3 h4 h5 =>
      rw [hs] at h3
      cases fs with
      | nil => simp at h3
      | cons f fs =>
        simp only [List.cons_append, List.cons.injEq] at h3
        exact .running h1 h2 h3.2 (fun h => h4 (List.mem_cons_of_mem _ h)) h5
    | wrapped h1 h2 h3 h4 h5 h6 h7 =>
      rw [hs] at h3
      injection h3 with h3 _
      injection h3 with h3
      rw [h3, h1] at hb
      cases hb
    | done h1 h2 => exact .done h1 h2
  | @updated w p rest q b objects hm hs hnd hq hb hlen hc =>
    cases hp with
    | unstarted h1 h2 h3 =>
      have hpo : p ≠ o := by
        intro h
        apply h3
        rw [hs, h]
        exact List.mem_cons_self ..
      refine .unstarted ?_ h2 fun h => h3 (by rw [hs]; exact List.mem_cons_of_mem _ h)
      show (s.boxes.set p b)[o]? = _
      rw [List.getElem?_set, if_neg hpo]
      exact h1
    | @running fs st h1 h2 h3 h4 h5 =>
      rw [hs] at h3
      cases fs with
      | nil => simp at h3
      | cons f fs =>
        simp only [List.cons_append, List.cons.injEq] at h3
        have hpo : p ≠ o := by
          intro h
          apply h4
          rw [← h3.1, h]
          exact List.mem_cons_self ..
        refine .running ?_ h2 h3.2 (fun h => h4 (List.mem_cons_of_mem _ h)) h5
        show (s.boxes.set p b)[o]? = _
        rw [List.getElem?_set, if_neg hpo]
        exact h1
    | @wrapped st w' q' v h1 h2 h3 h4 h5 h6 h7 =>
      rw [hs] at h3
      injection h3 with h3 h3'
      injection h3 with h3
      rw [hm] at h4
      injection h4 with h4
      rw [h4, h5] at hq
      injection hq with hq
      rw [← hq, h6] at hb
      injection hb with hb
      refine .done (v := v) ?_ h2
      show (s.boxes.set p b)[o]? = _
      rw [List.getElem?_set, if_pos h3, if_pos, hb]
      rw [h3]
      exact (List.getElem?_eq_some_iff.1 h1).1
    | @done v h1 h2 =>
      refine .done (v := v) ?_ h2
      show (s.boxes.set p b)[o]? = _
      rw [List.getElem?_set, if_neg]
      · exact h1
      · intro h
        rw [h] at hnd
        exact hnd _ h1

theorem log_mono {pr : Program C W S} {s s' : Config C W S} (h : Effect pr s s') :
    ∀ e ∈ s.log, e ∈ s'.log := by
  cases h with
  | started _ _ _ _ _ => intro e he; exact List.mem_cons_of_mem _ he
  | _ => exact fun e he => he

theorem phase_run {pr : Program C W S} {s t : Config C W S} (ho : Own s) {o : Nat} {k : Kind C W}
    (hk : ∀ c, k ≠ .lazy c) (h : RunThrough pr (NotReentered o) s t) (hp : Phase pr o k s)
    (hl : OnlyForcedDirectly t o) : Phase pr o k t := by
  induction h with
  | refl => exact hp
  | step h1 hq hst ih =>
    have ho' := own_run ho h1
    have he := effect ho' hst
    exact phase_step ho' he hk (ih fun e h => hl e (log_mono he e h)) hq hl

end Meevax.Promise
