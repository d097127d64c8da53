import Verif.Lemmas.Collector
/-!
# C06–C09 — garbage collection
-/
namespace Meevax.GC
open Meevax.PointerSet Meevax.PointerSet.Spec Spec

variable {g : Word}

/-! ## Every reachable state is well-formed -/

theorem wf_init : WF (init g) (fun _ => False) := by
  constructor
  · exact Repr.new
  · exact Repr.new.congr (by simp [init])
  all_goals simp [init]

theorem wf_assign {σ : State g} {D : Nat → Prop} (h : WF σ D) {s : Nat} {v : Option Nat} (hs : Address s)
    (hv : ∀ d, v = some d → D d) (hf : ∀ d, D d → Within σ s d → s ∈ σ.fields d) :
    ∃ σ', assign σ s v = some σ' ∧ WF σ' D ∧ (∀ x, σ'.ptr x = if x = s then v else σ.ptr x) ∧
      σ' = { σ with objects := σ'.objects, ptr := σ'.ptr } := by
  have main : ∀ o : Set g, Repr o (fun x => (if x = s then v else σ.ptr x) ≠ none) →
      WF { σ with objects := o, ptr := fun x => if x = s then v else σ.ptr x } D := by
    intro o ho
    constructor
    · exact h.data
    · exact ho
    · exact h.place
    · exact h.disjoint
    · intro d x hd hw hne
      by_cases hx : x = s
      · subst hx; exact hf d hd hw
      · simp only [hx, if_false] at hne
        exact h.fields d x hd hw hne
    · exact h.fieldsNodup
    · exact h.fieldsDisjoint
    · intro x d hp
      simp only at hp
      by_cases hx : x = s
      · rw [if_pos hx] at hp; exact hv d hp
      · rw [if_neg hx] at hp; exact h.target x d hp
  unfold assign
  by_cases h1 : (σ.ptr s).isSome
  · have h1' : σ.ptr s ≠ none := Option.isSome_iff_ne_none.1 h1
    rw [if_pos h1]
    by_cases h2 : v.isSome
    · rw [if_pos h2]
      refine ⟨_, rfl, main σ.objects (h.objects.congr fun x => ?_), fun x => rfl, rfl⟩
      by_cases hx : x = s
      · subst hx; simp [h1', Option.isSome_iff_ne_none.1 h2]
      · simp [hx]
    · rw [if_neg h2]
      have hv' : v = none := by simpa using h2
      obtain ⟨o, e, r⟩ := h.objects.erase (a := s) h1'
      simp only [e]
      refine ⟨_, rfl, main o (r.congr fun x => ?_), fun x => rfl, rfl⟩
      by_cases hx : x = s
      · subst hx; simp [hv']
      · simp [hx]
  · have h1' : σ.ptr s = none := by simpa using h1
    rw [if_neg h1]
    by_cases h2 : v.isSome
    · rw [if_pos h2]
      obtain ⟨o, e, r⟩ := h.objects.insert (a := s) hs (by simp [h1'])
      simp only [e]
      refine ⟨_, rfl, main o (r.congr fun x => ?_), fun x => rfl, rfl⟩
      by_cases hx : x = s
      · subst hx; simp [Option.isSome_iff_ne_none.1 h2]
      · simp [hx]
    · rw [if_neg h2]
      have hv' : v = none := by simpa using h2
      refine ⟨_, rfl, main σ.objects (h.objects.congr fun x => ?_), fun x => rfl, rfl⟩
      by_cases hx : x = s
      · subst hx; simp [hv', h1']
      · simp [hx]

theorem wf_register {σ : State g} {D : Nat → Prop} (h : WF σ D) {d base extent : Nat} {fields : List Nat}
    (hd : Address d) (hb : Address base) (he : Address (base + extent)) (h1 : base ≤ d) (h2 : d < base + extent)
    (hdis : ∀ e, D e → base + extent ≤ σ.base e ∨ σ.base e + σ.extent e ≤ base)
    (hnd : fields.Nodup) (hfd : ∀ e, D e → ∀ s ∈ fields, s ∉ σ.fields e)
    (hin : ∀ s, base ≤ s → s < base + extent → σ.ptr s ≠ none → s ∈ fields) :
    ∃ σ', insertDatum σ d base extent fields = some σ' ∧ WF σ' (fun x => x = d ∨ D x) ∧ ¬ D d ∧
      σ' = { σ with
        data := σ'.data
        base := fun x => if x = d then base else σ.base x
        extent := fun x => if x = d then extent else σ.extent x
        fields := fun x => if x = d then fields else σ.fields x } := by
  have hn : ¬ D d := by
    intro hD
    obtain ⟨a, b, _, _⟩ := h.place d hD
    have := hdis d hD
    omega
  obtain ⟨o, e, r⟩ := h.data.insert hd hn
  unfold insertDatum
  simp only [e]
  refine ⟨_, rfl, ?_, hn, rfl⟩
  have ne : ∀ x, D x → x ≠ d := fun x hx hxd => hn (hxd ▸ hx)
  constructor
  · exact r
  · exact h.objects
  · rintro x (rfl | hx)
    · simp only [if_true]; exact ⟨h1, h2, hb, he⟩
    · simp only [if_neg (ne x hx)]; exact h.place x hx
  · rintro x y (rfl | hx) (rfl | hy) hxy
    · exact absurd rfl hxy
    · simp only [if_true, if_neg (ne y hy)]; exact hdis y hy
    · simp only [if_true, if_neg (ne x hx)]; exact (hdis x hx).symm
    · simp only [if_neg (ne x hx), if_neg (ne y hy)]; exact h.disjoint x y hx hy hxy
  · rintro x s (rfl | hx) hw hne
    · simp only [Within, if_true] at hw ⊢
      exact hin s hw.1 hw.2 hne
    · simp only [Within, if_neg (ne x hx)] at hw ⊢
      exact h.fields x s hx hw hne
  · rintro x (rfl | hx)
    · simp only [if_true]; exact hnd
    · simp only [if_neg (ne x hx)]; exact h.fieldsNodup x hx
  · rintro x y s (rfl | hx) (rfl | hy) hxy
    · exact absurd rfl hxy
    · simp only [if_true, if_neg (ne y hy)]; exact fun hs => hfd y hy s hs
    · simp only [if_true, if_neg (ne x hx)]; exact fun hs hs' => hfd x hx s hs' hs
    · simp only [if_neg (ne x hx), if_neg (ne y hy)]; exact h.fieldsDisjoint x y s hx hy hxy
  · intro s x hp
    exact Or.inr (h.target s x hp)

theorem WF.congr {σ : State g} {D E : Nat → Prop} (h : WF σ D) (he : ∀ d, D d ↔ E d) : WF σ E := by
  have : D = E := funext fun d => propext (he d)
  rw [← this]; exact h

theorem wf_live {σ : State g} {D : Nat → Prop} (h : WF σ D) : WF σ (Live σ) :=
  h.congr fun d => (h.live d).symm

theorem wf_size {σ : State g} {D : Nat → Prop} (h : WF σ D) (n c : Nat) :
    WF { σ with size := n, capacity := c } D :=
  ⟨h.data, h.objects, h.place, h.disjoint, h.fields, h.fieldsNodup, h.fieldsDisjoint, h.target⟩

theorem wf_of_runs {σ : State g} {out : List Nat} (hr : Runs g σ out) : WF σ (Live σ) := by
  induction hr with
  | start => exact wf_live wf_init
  | step _ hs ih =>
    cases hs with
    | assign h1 h2 h3 h4 =>
      obtain ⟨σ', e, w, _⟩ := wf_assign ih h1 h2 h3
      rw [h4] at e
      cases e
      exact wf_live w
    | request h1 =>
      unfold request at h1
      simp only at h1
      split at h1
      · obtain ⟨σ', e, w, _⟩ := collect_spec (wf_size ih _ _)
        rw [h1] at e
        cases e
        exact wf_live w
      · cases h1
        exact wf_live (wf_size ih _ _)
    | register _ _ a b c d e f i j k l =>
      obtain ⟨σ', e', w, _⟩ := wf_register ih a b c d e f i j k
      rw [l] at e'
      cases e'
      exact wf_live w
    | collect h1 =>
      obtain ⟨σ', e, w, _⟩ := collect_spec ih
      rw [h1] at e
      cases e
      exact wf_live w
    | reserve n => exact wf_live (wf_size ih _ n)

/-! ## C09 -/

/-- **C09.** In every state a program can reach, the root test of a slot is defined and
answers yes exactly when the slot's address lies in no live heap object. -/
theorem C09_root_exact {σ : State g} {out : List Nat} (hr : Runs g σ out) (x : Nat) (hx : Address x) :
    ∃ b, isRoot σ x = some b ∧ (b = true ↔ ∀ d, Live σ d → ¬ Within σ x d) :=
  isRoot_spec (wf_of_runs hr) hx

/-! ## C06 -/

/-- **C06.** In every state a program can reach, a collection is defined, and afterwards every
heap object reachable from a root is still live, at the same place with the same fields,
and its fields hold the references they held before. -/
theorem C06_reachable_survive {σ : State g} {out : List Nat} (hr : Runs g σ out) :
    ∃ σ', collect σ = some σ' ∧
      ∀ d, Reachable σ d → Live σ' d ∧ σ'.base d = σ.base d ∧ σ'.extent d = σ.extent d ∧
        σ'.fields d = σ.fields d ∧
        (∀ s ∈ σ.fields d, σ'.ptr s = σ.ptr s) ∧ ∀ s, Within σ s d → σ'.ptr s = σ.ptr s := by
  have h := wf_of_runs hr
  obtain ⟨σ', e, w, hb, hx, hf, hp, _⟩ := collect_spec h
  refine ⟨σ', e, fun d hd => ⟨(w.live d).2 hd, by rw [hb], by rw [hx], by rw [hf], ?_, ?_⟩⟩
  · intro s hs
    rw [hp s, if_neg]
    rintro ⟨d', hd', hn, hs'⟩
    have : d ≠ d' := by rintro rfl; exact hn hd
    exact h.fieldsDisjoint d d' s (reachable_data h hd) hd' this hs hs'
  · intro s hw
    rw [hp s]
    split
    · rename_i hex
      obtain ⟨d', hd', hn, hs'⟩ := hex
      apply Classical.byContradiction
      intro hne
      have hs := h.fields d s (reachable_data h hd) hw (fun hh => hne hh.symm)
      have : d ≠ d' := by rintro rfl; exact hn hd
      exact h.fieldsDisjoint d d' s (reachable_data h hd) hd' this hs hs'
    · rfl

/-- **C06.** References held outside the freed objects (program variables, and fields of
survivors) are left alone. -/
theorem C06_references_kept {σ σ' : State g} {out : List Nat} (hr : Runs g σ out) (hc : collect σ = some σ')
    (s : Nat) (hs : ∀ d, Live σ d → ¬ Reachable σ d → s ∉ σ.fields d) : σ'.ptr s = σ.ptr s := by
  obtain ⟨σ'', e, w, hb, hx, hf, hp, _⟩ := collect_spec (wf_of_runs hr)
  rw [hc] at e
  cases e
  rw [hp s, if_neg]
  rintro ⟨d, a, b, c⟩
  exact hs d a b c

/-- **C06.** At every point of every run no reference dangles: what a slot refers to is live. -/
theorem C06_no_dangling {σ : State g} {out : List Nat} (hr : Runs g σ out) (s d : Nat) (hp : σ.ptr s = some d) :
    Live σ d :=
  (wf_of_runs hr).target s d hp

/-- References held in program variables: slots that are no heap object's field. -/
def Variable (σ : State g) (s : Nat) : Prop := (∃ d, σ.ptr s = some d) ∧ ∀ d, Live σ d → s ∉ σ.fields d

/-- Heap objects a program can get at: from its variables through fields (data members and
owned buffers) of objects. -/
inductive Accessible (σ : State g) : Nat → Prop
  | var {s d} : Variable σ s → σ.ptr s = some d → Accessible σ d
  | field {d s e} : Accessible σ d → s ∈ σ.fields d → σ.ptr s = some e → Accessible σ e

theorem accessible_reachable {σ : State g} (h : WF σ (Live σ)) {d : Nat} (ha : Accessible σ d) : Reachable σ d := by
  induction ha with
  | var hv hp =>
    refine .root ⟨hv.1, ?_⟩ hp
    intro e he hw
    exact hv.2 e he (h.fields e _ he hw (by rw [hp]; simp))
  | @field d s e _ hs hp ih =>
    by_cases hw : Within σ s d
    · exact .step ih hw hp
    · refine .root ⟨⟨e, hp⟩, ?_⟩ hp
      intro d' hd' hw'
      have hne : d ≠ d' := by rintro rfl; exact hw hw'
      exact h.fieldsDisjoint d d' s (reachable_data h ih) hd' hne hs
        (h.fields d' s hd' hw' (by rw [hp]; simp))

/-- **C06.** Everything the program can still get at — through variables, data members and
owned buffers — survives a collection. -/
theorem C06_accessible_survive {σ : State g} {out : List Nat} (hr : Runs g σ out) :
    ∃ σ', collect σ = some σ' ∧ ∀ d, Accessible σ d → Live σ' d := by
  obtain ⟨σ', e, h⟩ := C06_reachable_survive hr
  exact ⟨σ', e, fun d hd => (h d (accessible_reachable (wf_of_runs hr) hd)).1⟩

/-! ## C07 -/

/-- **C07.** After a collection exactly the objects reachable from the roots are live: every
other one has been freed, whatever cycles it was part of. -/
theorem C07_unreachable_freed {σ σ' : State g} {out : List Nat} (hr : Runs g σ out) (hc : collect σ = some σ')
    (d : Nat) : Live σ' d ↔ Reachable σ d := by
  obtain ⟨σ'', e, w, _⟩ := collect_spec (wf_of_runs hr)
  rw [hc] at e
  cases e
  exact w.live d

/-- All fields are data members: no object owns references in an out-of-line buffer. -/
def Inline (σ : State g) : Prop := ∀ d, Live σ d → ∀ s ∈ σ.fields d, Within σ s d

/-- **C07, for heaps whose objects hold their references in data members** (pairs, closures,
environments …): after a collection exactly the objects the program can get at are live. -/
theorem C07_inaccessible_freed_partial {σ σ' : State g} {out : List Nat} (hr : Runs g σ out)
    (hi : Inline σ) (hc : collect σ = some σ') (d : Nat) : Live σ' d ↔ Accessible σ d := by
  have h := wf_of_runs hr
  rw [C07_unreachable_freed hr hc]
  constructor
  · intro hd
    induction hd with
    | root hroot hp =>
      exact .var ⟨hroot.1, fun d hd hs => hroot.2 d hd (hi d hd _ hs)⟩ hp
    | step hd hw hp ih =>
      exact .field ih (h.fields _ _ (reachable_data h hd) hw (by rw [hp]; simp)) hp
  · exact accessible_reachable h

/-- **C07.** With references in data members only, a second collection frees nothing. -/
theorem C07_idempotent_partial {σ σ' σ'' : State g} {out : List Nat} (hr : Runs g σ out) (hi : Inline σ)
    (hc : collect σ = some σ') (hc' : collect σ' = some σ'') (d : Nat) : Live σ'' d ↔ Live σ' d := by
  have h := wf_of_runs hr
  have hr' : Runs g σ' out := .step hr (.collect hc)
  rw [C07_unreachable_freed hr' hc', C07_unreachable_freed hr hc]
  obtain ⟨τ, e, w, hb, hx, hf, hp, _⟩ := collect_spec h
  rw [hc] at e
  cases e
  have hw' : ∀ s d, Within σ' s d ↔ Within σ s d := by intro s d; simp only [Within, hb, hx]
  constructor
  · intro hd
    have := C07_unreachable_freed hr hc d
    rw [← this]
    exact reachable_data (wf_of_runs hr') hd
  · intro hd
    -- slots that reachability uses are not erased
    have keep : ∀ s e, σ.ptr s = some e → (Root σ s ∨ ∃ d, Reachable σ d ∧ Within σ s d) → σ'.ptr s = some e := by
      intro s e hpe hs
      rw [hp s, if_neg, hpe]
      rintro ⟨d', hd', hn, hs'⟩
      rcases hs with hroot | ⟨d, hrd, hw⟩
      · exact hroot.2 d' hd' (hi d' hd' s hs')
      · have hne : d' ≠ d := by rintro rfl; exact hn hrd
        have h1 := hi d' hd' s hs'
        have h2 := h.disjoint d' d hd' (reachable_data h hrd) hne
        unfold Within at h1 hw
        omega
    induction hd with
    | @root s d hroot hpd =>
      have hk := keep s d hpd (Or.inl hroot)
      refine .root ⟨⟨d, hk⟩, ?_⟩ hk
      intro e he hw
      exact hroot.2 e (reachable_data h ((w.live e).1 he)) ((hw' s e).1 hw)
    | @step d s e hd hw hpd ih =>
      exact .step ih ((hw' s d).2 hw) (keep s e hpd (Or.inr ⟨d, hd, hw⟩))

/-! ### The general statement of C07 is false: buffers are roots -/

/-- Existence of the states used by the witnesses: an object at 0x1000 of size 24 that owns an
out-of-line buffer (a vector) with one element at 0x2000, which refers to the object itself. -/
theorem vector_cycle_runs : ∃ σ : State g, Runs g σ [] ∧ Live σ 0x1000 ∧ σ.ptr 0x2000 = some 0x1000 ∧
    (∀ s, σ.ptr s ≠ none → s = 0x2000) ∧ σ.fields 0x1000 = [0x2000] ∧ σ.base 0x1000 = 0x1000 ∧
    σ.extent 0x1000 = 24 ∧ ∀ d, Live σ d → d = 0x1000 := by
  have r1 : Runs g { init g with size := 24 } [24] :=
    .step .start (.request (σ := init g) (n := 24) (by simp [request, init]))
  have w1 : WF { init g with size := 24 } (fun _ => False) := wf_size wf_init 24 _
  obtain ⟨σ2, e2, w2, _, q2⟩ := wf_register w1 (d := 0x1000) (base := 0x1000) (extent := 24)
    (fields := [0x2000]) (by decide) (by decide) (by decide) (by decide) (by decide)
    (by simp) (by simp) (by simp) (by simp [init])
  have r2 : Runs g σ2 [] := by
    refine .step r1 (.register (n := 24) (d := 0x1000) (base := 0x1000) (extent := 24) (fields := [0x2000])
      (by simp) (by decide) (by decide) (by decide) (by decide) (by decide) (by decide)
      ?_ (by simp) ?_ (by simp [init]) e2)
    · intro e he; exact absurd ((w1.live e).1 he) id
    · intro e he; exact absurd ((w1.live e).1 he) id
  have hbase : σ2.base 0x1000 = 0x1000 := by rw [q2]; rfl
  have hext : σ2.extent 0x1000 = 24 := by rw [q2]; rfl
  have hptr : σ2.ptr = fun _ => none := by rw [q2]; rfl
  have hfields : σ2.fields 0x1000 = [0x2000] := by rw [q2]; rfl
  obtain ⟨σ3, e3, w3, p3, q3⟩ := wf_assign w2 (s := 0x2000) (v := some 0x1000) (by decide)
    (by intro d hd; cases hd; exact Or.inl rfl) (by
      rintro d (rfl | hf) hw
      · unfold Within at hw; rw [hbase, hext] at hw; omega
      · exact hf.elim)
  have r3 : Runs g σ3 [] := by
    refine .step r2 (.assign (s := 0x2000) (v := some 0x1000) (by decide) ?_ ?_ e3)
    · intro d hd; cases hd; exact (w2.live _).2 (Or.inl rfl)
    · intro d hd hw
      rcases (w2.live d).1 hd with rfl | hf
      · unfold Within at hw; rw [hbase, hext] at hw; omega
      · exact hf.elim
  refine ⟨σ3, r3, (w3.live _).2 (Or.inl rfl), by rw [p3]; rfl, ?_, by rw [q3]; exact hfields,
    by rw [q3]; exact hbase, by rw [q3]; exact hext, ?_⟩
  · intro s hs
    rw [p3 s, hptr] at hs
    by_cases h : s = 0x2000
    · exact h
    · rw [if_neg h] at hs; exact absurd rfl hs
  · intro d hd
    rcases (w3.live d).1 hd with h | h
    · exact h
    · exact h.elim

/-- **C07 fails for vectors.** A vector that contains itself and that no program variable
refers to is never freed. -/
theorem C07_vector_cycle_fails : ∃ σ σ' : State g, Runs g σ [] ∧ collect σ = some σ' ∧
    Live σ' 0x1000 ∧ ¬ Accessible σ 0x1000 := by
  obtain ⟨σ, hr, hl, hp, hs, hf, hb, hx, hd⟩ := vector_cycle_runs (g := g)
  obtain ⟨σ', e, h⟩ := C06_reachable_survive hr
  refine ⟨σ, σ', hr, e, (h _ (.root ⟨⟨_, hp⟩, ?_⟩ hp)).1, ?_⟩
  · intro d hd' hw
    have := hd d hd'
    subst this
    unfold Within at hw
    rw [hb, hx] at hw
    omega
  · intro ha
    have : ∀ d, Accessible σ d → False := by
      intro d ha
      induction ha with
      | @var s d hv hpd =>
        have : s = 0x2000 := hs s (by rw [hpd]; simp)
        subst this
        exact hv.2 0x1000 hl (by rw [hf]; simp)
      | field _ _ _ ih => exact ih
    exact this _ ha

/-- A vector at 0x1000 with one element (buffer at 0x2000) that refers to a pair at 0x3000;
no program variable refers to either. -/
theorem vector_chain_runs : ∃ σ : State g, Runs g σ [] ∧ Live σ 0x1000 ∧ Live σ 0x3000 ∧
    σ.ptr 0x2000 = some 0x3000 ∧ (∀ s, σ.ptr s ≠ none → s = 0x2000) ∧ σ.fields 0x1000 = [0x2000] ∧
    ∀ d, Live σ d → ¬ Within σ 0x2000 d := by
  have r1 : Runs g { init g with size := 24 } [24] :=
    .step .start (.request (σ := init g) (n := 24) (by simp [request, init]))
  have w1 : WF { init g with size := 24 } (fun _ => False) := wf_size wf_init 24 _
  obtain ⟨σ2, e2, w2, _, q2⟩ := wf_register w1 (d := 0x1000) (base := 0x1000) (extent := 24)
    (fields := [0x2000]) (by decide) (by decide) (by decide) (by decide) (by decide)
    (by simp) (by simp) (by simp) (by simp [init])
  have r2 : Runs g σ2 [] := by
    refine .step r1 (.register (n := 24) (d := 0x1000) (base := 0x1000) (extent := 24) (fields := [0x2000])
      (by simp) (by decide) (by decide) (by decide) (by decide) (by decide) (by decide)
      ?_ (by simp) ?_ (by simp [init]) e2)
    · intro e he; exact absurd ((w1.live e).1 he) id
    · intro e he; exact absurd ((w1.live e).1 he) id
  have hcap : ¬ (σ2.capacity < σ2.size + 24) := by rw [q2]; simp [init]
  have r3 : Runs g { σ2 with size := σ2.size + 24 } [24] :=
    .step r2 (.request (σ := σ2) (n := 24) (by unfold request; simp only [if_neg hcap]))
  have w3 : WF { σ2 with size := σ2.size + 24 } _ := wf_size w2 (σ2.size + 24) _
  have hbase : σ2.base 0x1000 = 0x1000 := by rw [q2]; rfl
  have hext : σ2.extent 0x1000 = 24 := by rw [q2]; rfl
  have hptr : σ2.ptr = fun _ => none := by rw [q2]; rfl
  have hfields : σ2.fields 0x1000 = [0x2000] := by rw [q2]; rfl
  have hdis : ∀ e, (e = 0x1000 ∨ False) →
      0x3000 + 24 ≤ σ2.base e ∨ σ2.base e + σ2.extent e ≤ 0x3000 := by
    rintro e (rfl | hf)
    · rw [hbase, hext]; omega
    · exact hf.elim
  obtain ⟨σ4, e4, w4, _, q4⟩ := wf_register w3 (d := 0x3000) (base := 0x3000) (extent := 24)
    (fields := []) (by decide) (by decide) (by decide) (by decide) (by decide)
    hdis (by simp) (by simp) (by simp [hptr])
  have r4 : Runs g σ4 [] := by
    refine .step r3 (.register (n := 24) (d := 0x3000) (base := 0x3000) (extent := 24) (fields := [])
      (by simp) (by decide) (by decide) (by decide) (by decide) (by decide) (by decide)
      (fun e he => hdis e ((w3.live e).1 he)) (by simp) (by simp) (by simp [hptr]) e4)
  have hb4 : ∀ d, (d = 0x3000 ∨ d = 0x1000 ∨ False) → ¬ Within σ4 0x2000 d := by
    rintro d (rfl | rfl | hf) hw
    · rw [q4] at hw; simp [Within] at hw
    · rw [q4] at hw; simp [Within, hbase, hext] at hw
    · exact hf.elim
  obtain ⟨σ5, e5, w5, p5, q5⟩ := wf_assign w4 (s := 0x2000) (v := some 0x3000) (by decide)
    (by intro d hd; cases hd; exact Or.inl rfl) (fun d hd hw => absurd hw (hb4 d hd))
  have r5 : Runs g σ5 [] := by
    refine .step r4 (.assign (s := 0x2000) (v := some 0x3000) (by decide) ?_ ?_ e5)
    · intro d hd; cases hd; exact (w4.live _).2 (Or.inl rfl)
    · intro d hd hw; exact absurd hw (hb4 d ((w4.live d).1 hd))
  refine ⟨σ5, r5, (w5.live _).2 (Or.inr (Or.inl rfl)), (w5.live _).2 (Or.inl rfl), by rw [p5]; rfl, ?_, ?_, ?_⟩
  · intro s hs
    rw [p5 s, q4, hptr] at hs
    by_cases h : s = 0x2000
    · exact h
    · simp [h] at hs
  · rw [q5, q4]; simp [hfields]
  · intro d hd hw
    have := hb4 d ((w5.live d).1 hd)
    rw [q5] at hw
    exact this hw

/-- **C07 fails for vectors, second half.** Garbage that hangs on an unreachable vector is only
freed by the collection after the one that frees the vector. -/
theorem C07_second_collection_fails : ∃ σ σ' σ'' : State g, Runs g σ [] ∧ collect σ = some σ' ∧
    collect σ' = some σ'' ∧ Live σ' 0x3000 ∧ ¬ Live σ'' 0x3000 := by
  obtain ⟨σ, hr, h1, h3, hp, hs, hf, hw⟩ := vector_chain_runs (g := g)
  obtain ⟨σ', e, w, hb, hx, hf', hp', _⟩ := collect_spec (wf_of_runs hr)
  have hr' : Runs g σ' [] := .step hr (.collect e)
  obtain ⟨σ'', e', _⟩ := C06_reachable_survive hr'
  refine ⟨σ, σ', σ'', hr, e, e', ?_, ?_⟩
  · exact (C07_unreachable_freed hr e _).2 (.root ⟨⟨_, hp⟩, hw⟩ hp)
  · rw [C07_unreachable_freed hr' e']
    have hnone : ∀ s, σ'.ptr s = none := by
      intro s
      by_cases hne : s = 0x2000
      · subst hne
        rw [hp', if_pos]
        refine ⟨0x1000, h1, ?_, by rw [hf]; simp⟩
        have : ∀ d, Reachable σ d → d = 0x3000 := by
          intro d hd
          cases hd with
          | @root s _ _ hpd =>
            have := hs s (by rw [hpd]; simp)
            subst this
            rw [hp] at hpd
            cases hpd
            rfl
          | @step _ s _ _ _ hpd =>
            have := hs s (by rw [hpd]; simp)
            subst this
            rw [hp] at hpd
            cases hpd
            rfl
        intro hd
        exact absurd (this _ hd) (by decide)
      · rw [hp' s]
        split
        · rfl
        · cases hq : σ.ptr s with
          | none => rfl
          | some d => exact absurd (hs s (by rw [hq]; simp)) hne
    intro hd
    cases hd with
    | root _ hpd => rw [hnone] at hpd; cases hpd
    | step _ _ hpd => rw [hnone] at hpd; cases hpd

/-! ## C08 -/

/-- `l` lists the live objects without repetition. -/
def Lists (σ : State g) (l : List Nat) : Prop := l.Nodup ∧ ∀ d, d ∈ l ↔ Live σ d

/-- **C08.** Right after a collection the size counter is exactly the total size of the
survivors, and the capacity is the larger of the old one and one and a half times that size. -/
theorem C08_after_collection {σ σ' : State g} {out : List Nat} (hr : Runs g σ out) (hc : collect σ = some σ') :
    (∃ l, Lists σ' l ∧ σ'.size = total σ' l) ∧ σ'.capacity = max σ.capacity (σ'.size + σ'.size / 2) := by
  obtain ⟨σ'', e, w, hb, hx, hf, hp, ⟨l, l1, l2, l3⟩, hcap⟩ := collect_spec (wf_of_runs hr)
  rw [hc] at e
  cases e
  refine ⟨⟨l, ⟨l1, fun d => by rw [l2 d, w.live d]⟩, ?_⟩, hcap⟩
  rw [l3]
  simp only [total, hx]

/-- **C08.** A request collects precisely when it makes the size exceed the capacity; otherwise
it only adds to the counter. -/
theorem C08_trigger {σ : State g} {out : List Nat} (hr : Runs g σ out) (n : Nat) :
    ∃ σ', request σ n = some σ' ∧
      (σ.size + n ≤ σ.capacity → σ' = { σ with size := σ.size + n }) ∧
      (σ.capacity < σ.size + n → (∀ d, Live σ' d ↔ Reachable σ d) ∧ ∃ l, Lists σ' l ∧ σ'.size = total σ' l) := by
  have h := wf_of_runs hr
  by_cases hcap : σ.capacity < σ.size + n
  · obtain ⟨σ', e, w, hb, hx, hf, hp, ⟨l, l1, l2, l3⟩, _⟩ := collect_spec (wf_size h (σ.size + n) σ.capacity)
    have hre : ∀ d, Reachable { σ with size := σ.size + n, capacity := σ.capacity } d ↔ Reachable σ d := by
      intro d
      constructor
      · intro hd
        induction hd with
        | root a b => exact .root a b
        | step _ a b ih => exact .step ih a b
      · intro hd
        induction hd with
        | root a b => exact .root a b
        | step _ a b ih => exact .step ih a b
    refine ⟨σ', ?_, fun hh => by omega, fun _ => ⟨fun d => by rw [w.live d, hre d], l,
      ⟨l1, fun d => by rw [l2 d, w.live d]⟩, ?_⟩⟩
    · unfold request
      simp only [if_pos hcap]
      exact e
    · rw [l3]; simp only [total, hx]
  · refine ⟨{ σ with size := σ.size + n }, ?_, fun _ => rfl, fun hh => absurd hh hcap⟩
    unfold request
    simp only [if_neg hcap]

/-- **C08.** The capacity never decreases, except by an explicit `reserve`. -/
theorem C08_capacity_monotone {σ σ' : State g} {out out' : List Nat} (hr : Runs g σ out)
    (hs : Step σ out σ' out') (hres : ∀ n, σ' ≠ reserve σ n) : σ.capacity ≤ σ'.capacity := by
  have h := wf_of_runs hr
  cases hs with
  | assign h1 h2 h3 h4 =>
    obtain ⟨_, e, _, _, q⟩ := wf_assign h h1 h2 h3
    rw [h4] at e
    cases e
    rw [q]
    exact Nat.le_refl _
  | request h1 =>
    rename_i n
    unfold request at h1
    simp only at h1
    split at h1
    · obtain ⟨_, e, _, _, _, _, _, _, hcap⟩ := collect_spec (wf_size h (σ.size + n) σ.capacity)
      rw [h1] at e
      cases e
      rw [hcap]
      exact Nat.le_max_left _ _
    · cases h1
      exact Nat.le_refl _
  | register _ _ a b c d e f i j k l =>
    obtain ⟨_, e', _, _, q⟩ := wf_register h a b c d e f i j k
    rw [l] at e'
    cases e'
    rw [q]
    exact Nat.le_refl _
  | collect h1 =>
    rw [(C08_after_collection hr h1).2]
    exact Nat.le_max_left _ _
  | reserve n => exact absurd rfl (hres n)

theorem perm_sum {l l' : List Nat} (h : l.Perm l') : l.sum = l'.sum := by
  induction h with
  | nil => rfl
  | cons x _ ih => simp [ih]
  | swap x y l => simp only [List.sum_cons]; omega
  | trans _ _ ih1 ih2 => exact ih1.trans ih2

theorem lists_perm {σ : State g} {l l' : List Nat} (h : Lists σ l) (h' : Lists σ l') : total σ l = total σ l' := by
  have : l.Perm l' := (List.perm_ext_iff_of_nodup h.1 h'.1).2 fun d => (h.2 d).trans (h'.2 d).symm
  exact perm_sum (this.map _)

/-- **C08, upper bound.** At every point of every run the size counter is at most the total
size of the live objects plus the outstanding requests.  (Equality, as the property states it,
fails: see `C08_exact_fails`.) -/
theorem C08_never_overcounts_partial {σ : State g} {out : List Nat} (hr : Runs g σ out) :
    ∃ l, Lists σ l ∧ σ.size ≤ total σ l + out.sum := by
  induction hr with
  | start =>
    refine ⟨[], ⟨List.nodup_nil, fun d => ?_⟩, by simp [init]⟩
    rw [wf_init.live d]
    simp
  | @step σ out σ' out' hr hs ih =>
    have h := wf_of_runs hr
    obtain ⟨l, hl, hle⟩ := ih
    cases hs with
    | assign h1 h2 h3 h4 =>
      obtain ⟨_, e, _, _, q⟩ := wf_assign h h1 h2 h3
      rw [h4] at e
      cases e
      have e1 : ∀ d, Live σ' d ↔ Live σ d := by intro d; rw [q]; exact Iff.rfl
      refine ⟨l, ⟨hl.1, fun d => by rw [hl.2 d, e1 d]⟩, ?_⟩
      have e2 : σ'.size = σ.size := by rw [q]
      have e3 : σ'.extent = σ.extent := by rw [q]
      simp only [total, e2, e3]
      exact hle
    | request h1 =>
      rename_i n
      obtain ⟨τ, e, a, b⟩ := C08_trigger hr n
      rw [h1] at e
      cases e
      by_cases hcap : σ.capacity < σ.size + n
      · obtain ⟨_, l', hl', hs'⟩ := b hcap
        exact ⟨l', hl', by rw [hs']; omega⟩
      · have := a (by omega)
        subst this
        refine ⟨l, hl, ?_⟩
        simp only [total, List.sum_cons] at *
        omega
    | register hn hne a b c d1 d2 f i j k l1 =>
      rename_i n d base extent fields
      obtain ⟨_, e', w, hnd, q⟩ := wf_register h a b c d1 d2 f i j k
      rw [l1] at e'
      cases e'
      refine ⟨d :: l, ⟨List.nodup_cons.2 ⟨fun hh => hnd ((hl.2 d).1 hh), hl.1⟩, fun x => ?_⟩, ?_⟩
      · rw [w.live x, List.mem_cons, hl.2 x]
      · have e1 : σ'.size = σ.size := by rw [q]
        have e2 : σ'.extent = fun x => if x = d then extent else σ.extent x := by rw [q]
        have e3 : l.map σ'.extent = l.map σ.extent := by
          apply List.map_congr_left
          intro x hx
          have : x ≠ d := by rintro rfl; exact hnd ((hl.2 _).1 hx)
          rw [e2]
          simp [this]
        have e4 : σ'.extent d = extent := by rw [e2]; simp
        have e5 := perm_sum (List.perm_cons_erase hn)
        simp only [total, List.map_cons, List.sum_cons, e1, e3, e4] at *
        omega
    | collect h1 =>
      obtain ⟨⟨l', hl', hs'⟩, _⟩ := C08_after_collection hr h1
      exact ⟨l', hl', by rw [hs']; omega⟩
    | reserve n => exact ⟨l, hl, hle⟩

/-- **C08 fails as an equation.** An object created by a request that triggers a collection is
not counted: the counter was reset after the request was added.  Here one object of 24 bytes is
live, nothing is outstanding, and the counter is 0. -/
theorem C08_exact_fails : ∃ (σ : State g) (l : List Nat), Runs g σ [] ∧ Lists σ l ∧ total σ l = 24 ∧ σ.size = 0 := by
  have r0 : Runs g (reserve (init g) 0) [] := .step .start (.reserve 0)
  have w0 : WF (reserve (init g) 0) (fun _ => False) := wf_size wf_init _ 0
  obtain ⟨σ1, e1, _, h1⟩ := C08_trigger r0 24
  obtain ⟨hlive, l1, hl1, hsz⟩ := h1 (by simp [reserve, init])
  have r1 : Runs g σ1 [24] := .step r0 (.request e1)
  have none1 : ∀ d, ¬ Live σ1 d := by
    intro d hd
    have hre := (hlive d).1 hd
    exact reachable_data w0 hre
  have hsize : σ1.size = 0 := by
    rw [hsz]
    cases l1 with
    | nil => rfl
    | cons d l => exact absurd ((hl1.2 d).1 (by simp)) (none1 d)
  have w1 := wf_of_runs r1
  have hptr : ∀ s, σ1.ptr s = none := by
    intro s
    cases hp : σ1.ptr s with
    | none => rfl
    | some d => exact absurd (w1.target s d hp) (none1 d)
  obtain ⟨σ2, e2, w2, _, q2⟩ := wf_register w1 (d := 0x1000) (base := 0x1000) (extent := 24) (fields := [])
    (by decide) (by decide) (by decide) (by decide) (by decide)
    (fun e he => absurd he (none1 e)) (by simp) (fun e he => absurd he (none1 e))
    (fun s _ _ hs => absurd (hptr s) hs)
  refine ⟨σ2, [0x1000], .step r1 (.register (n := 24) (d := 0x1000) (base := 0x1000) (extent := 24)
    (fields := []) (by simp) (by decide) (by decide) (by decide) (by decide) (by decide) (by decide)
    (fun e he => absurd he (none1 e)) (by simp) (fun e he => absurd he (none1 e))
    (fun s _ _ hs => absurd (hptr s) hs) e2), ⟨by simp, fun d => ?_⟩, ?_, ?_⟩
  · rw [w2.live d]
    constructor
    · intro hd; simp only [List.mem_singleton] at hd; exact Or.inl hd
    · rintro (rfl | hd)
      · simp
      · exact absurd hd (none1 d)
  · rw [total, q2]; simp
  · rw [q2]; exact hsize

/-! ## A concrete run meeting the hypotheses -/

/-- The run of `vector_cycle_runs` allocates, registers and links an object; a collection can
follow. -/
example : ∃ σ : State g, Runs g σ [] ∧ Live σ 0x1000 ∧ ∃ σ', collect σ = some σ' := by
  obtain ⟨σ, hr, hl, _⟩ := vector_cycle_runs (g := g)
  obtain ⟨σ', e, _⟩ := C06_reachable_survive hr
  exact ⟨σ, hr, hl, σ', e⟩

end Meevax.GC
