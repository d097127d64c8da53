import Verif.Props.PointerSet
import Verif.Spec.Collector
import Mathlib.Data.List.Perm.Subperm
/-! Lemmas about the collector: representation, marking and sweeping invariants. -/
namespace Meevax.GC
open Meevax.PointerSet Meevax.PointerSet.Spec Spec

variable {g : Word}

/-- The address set `s` represents the set `P`. -/
structure Repr (s : Set g) (P : Nat → Prop) : Prop where
  inv : (canonicalCorrect g).Inv s
  mem : ∀ a, (canonicalCorrect g).mem s a ↔ P a

namespace Repr
variable {s : Set g} {P : Nat → Prop}

theorem key (h : Repr s P) {a : Nat} (ha : P a) : Address a :=
  (canonicalCorrect g).mem_key h.inv ((h.mem a).2 ha)

theorem congr (h : Repr s P) {Q : Nat → Prop} (hq : ∀ a, P a ↔ Q a) : Repr s Q :=
  ⟨h.inv, fun a => (h.mem a).trans (hq a)⟩

theorem new : Repr (canonical g).new (fun _ => False) :=
  ⟨(canonicalCorrect g).new_inv, fun a => ⟨(canonicalCorrect g).new_mem a, False.elim⟩⟩

theorem insert (h : Repr s P) {a : Nat} (ha : Address a) (hn : ¬ P a) :
    ∃ s', (canonical g).insert s a = some s' ∧ Repr s' (fun u => u = a ∨ P u) := by
  obtain ⟨s', e, i, m⟩ := (canonicalCorrect g).insert_spec h.inv ha (fun hm => hn ((h.mem a).1 hm))
  exact ⟨s', e, i, fun u => by rw [m u, h.mem u]⟩

theorem erase (h : Repr s P) {a : Nat} (ha : P a) :
    ∃ s', (canonical g).erase s a = some s' ∧ Repr s' (fun u => u ≠ a ∧ P u) := by
  obtain ⟨s', e, i, m⟩ := (canonicalCorrect g).erase_spec h.inv ((h.mem a).2 ha)
  exact ⟨s', e, i, fun u => by rw [m u, h.mem u]⟩

theorem contains (h : Repr s P) {a : Nat} (ha : Address a) :
    ∃ b, (canonical g).contains s a = some b ∧ (b = true ↔ P a) := by
  obtain ⟨b, e, hb⟩ := (canonicalCorrect g).contains_spec h.inv ha
  exact ⟨b, e, by rw [hb, h.mem]⟩

theorem contains_iff (h : Repr s P) {a : Nat} : (Address a ∧ (canonical g).contains s a = some true) ↔ P a := by
  constructor
  · rintro ⟨ha, hc⟩
    obtain ⟨b, e, hb⟩ := h.contains ha
    rw [hc] at e
    cases e
    exact hb.1 rfl
  · intro hp
    obtain ⟨b, e, hb⟩ := h.contains (h.key hp)
    exact ⟨h.key hp, by rw [e, hb.2 hp]⟩

/-- A duplicate-free list of members is no longer than the reported size. -/
theorem length_le (h : Repr s P) {l : List Nat} (hl : l.Nodup) (hm : ∀ a ∈ l, P a) :
    l.length ≤ (canonical g).size s := by
  obtain ⟨k, _, k2, k3⟩ := (canonicalCorrect g).size_spec h.inv
  rw [k3]
  exact (List.subperm_of_subset hl fun a ha => (k2 a).2 ((h.mem a).2 (hm a ha))).length_le

theorem walk_of_visits {it last : (canonical g).I} {l : List Nat} (hv : Visits (canonical g) s it last l) :
    ∀ f, l.length < f → walk s last f it = some l := by
  induction hv with
  | done h =>
    intro f hf
    cases f with
    | zero => omega
    | succ f => simp [walk, h]
  | step h1 h2 _ ih =>
    intro f hf
    cases f with
    | zero => omega
    | succ f =>
      simp only [List.length_cons] at hf
      have := ih f (by omega)
      simp [walk, h1, h2, this]

theorem elements (h : Repr s P) :
    ∃ l, elements s = some l ∧ l.Nodup ∧ ∀ a, a ∈ l ↔ P a := by
  obtain ⟨it, e, hup⟩ := (canonicalCorrect g).first_spec h.inv
  have hstop : Up (canonical g) (canonicalCorrect g).mem (canonicalCorrect g).At s (2 ^ 47) (canonical g).stop :=
    Or.inr ⟨rfl, fun u hu => ((canonicalCorrect g).mem_key h.inv hu).2⟩
  obtain ⟨l, a, b, c⟩ := visits_of_up (canonicalCorrect g) h.inv _ _ hstop (2 ^ 47) 0 it (by omega) (by omega) hup
  have hnd : l.Nodup := b.imp (fun h => Nat.ne_of_lt h)
  have hmem : ∀ a, a ∈ l ↔ P a := by
    intro u
    rw [c u, ← h.mem u]
    constructor
    · rintro ⟨x, _⟩; exact x
    · intro x; exact ⟨x, by omega, ((canonicalCorrect g).mem_key h.inv x).2⟩
  refine ⟨l, ?_, hnd, hmem⟩
  have := h.length_le hnd (fun a ha => (hmem a).1 ha)
  simp only [GC.elements, e]
  exact walk_of_visits a _ (by omega)

theorem elementsBetween (h : Repr s P) {a b : Nat} (ha : Address a) (hb : Address b) (hab : a ≤ b) :
    ∃ l, elementsBetween s a b = some l ∧ ∀ x, x ∈ l ↔ P x ∧ a ≤ x ∧ x < b := by
  obtain ⟨it, e, hup⟩ := (canonicalCorrect g).lower_spec h.inv ha
  obtain ⟨last, e', hup'⟩ := (canonicalCorrect g).lower_spec h.inv hb
  obtain ⟨l, x, y, z⟩ := visits_of_up (canonicalCorrect g) h.inv _ _ hup' (b - a) a it (Nat.le_refl _) hab hup
  have hnd : l.Nodup := y.imp (fun h => Nat.ne_of_lt h)
  have hmem : ∀ u, u ∈ l ↔ P u ∧ a ≤ u ∧ u < b := fun u => by rw [z u, h.mem u]
  refine ⟨l, ?_, hmem⟩
  have := h.length_le hnd (fun a ha => ((hmem a).1 ha).1)
  simp only [GC.elementsBetween, e, e']
  exact walk_of_visits x _ (by omega)

/-- `lower_bound` and the step back from it. -/
theorem lower (h : Repr s P) {x : Nat} (hx : Address x) :
    ∃ it prev, (canonical g).lowerBound s x = some it ∧ (canonical g).dec s it = some prev ∧
      (((canonical g).valid it = true ∧ P ((canonical g).deref it) ∧ x ≤ (canonical g).deref it ∧
          ∀ u, P u → x ≤ u → (canonical g).deref it ≤ u) ∨
        ((canonical g).valid it = false ∧ ∀ u, P u → u < x)) ∧
      (((canonical g).valid prev = true ∧ P ((canonical g).deref prev) ∧ (canonical g).deref prev < x ∧
          ∀ u, P u → u < x → u ≤ (canonical g).deref prev) ∨
        ((canonical g).valid prev = false ∧ ∀ u, P u → x ≤ u)) := by
  obtain ⟨it, e, hup⟩ := (canonicalCorrect g).lower_spec h.inv hx
  obtain ⟨prev, e', hd⟩ := step_back_of_up g h.inv hup
  refine ⟨it, prev, e, e', ?_, ?_⟩
  · rcases hup with ⟨v, a1, a2, a3⟩ | ⟨rfl, a⟩
    · obtain ⟨b1, b2, b3⟩ := (canonicalCorrect g).at_spec h.inv a1
      rw [b2]
      exact Or.inl ⟨b1, (h.mem v).1 b3, a2, fun u hu => a3 u ((h.mem u).2 hu)⟩
    · exact Or.inr ⟨(canonicalCorrect g).stop_invalid, fun u hu => a u ((h.mem u).2 hu)⟩
  · rcases hd with ⟨v, a1, a2, a3⟩ | ⟨b1, b2⟩
    · obtain ⟨b1, b2, b3⟩ := (canonicalCorrect g).at_spec h.inv a1
      rw [b2]
      exact Or.inl ⟨b1, (h.mem v).1 b3, a2, fun u hu => a3 u ((h.mem u).2 hu)⟩
    · exact Or.inr ⟨b1, fun u hu => by have := b2 u ((h.mem u).2 hu); omega⟩

end Repr

/-- Well-formed states: what holds at every point of a program run. -/
structure WF (σ : State g) (D : Nat → Prop) : Prop where
  data : Repr σ.data D
  objects : Repr σ.objects (fun s => σ.ptr s ≠ none)
  place : ∀ d, D d → σ.base d ≤ d ∧ d < σ.base d + σ.extent d ∧ Address (σ.base d) ∧ Address (σ.base d + σ.extent d)
  disjoint : ∀ d e, D d → D e → d ≠ e →
    σ.base d + σ.extent d ≤ σ.base e ∨ σ.base e + σ.extent e ≤ σ.base d
  fields : ∀ d s, D d → Within σ s d → σ.ptr s ≠ none → s ∈ σ.fields d
  fieldsNodup : ∀ d, D d → (σ.fields d).Nodup
  fieldsDisjoint : ∀ d e s, D d → D e → d ≠ e → s ∈ σ.fields d → s ∉ σ.fields e
  target : ∀ s d, σ.ptr s = some d → D d

theorem WF.live {σ : State g} {D : Nat → Prop} (h : WF σ D) (d : Nat) : Live σ d ↔ D d :=
  h.data.contains_iff

theorem contains_iff {σ : State g} {D : Nat → Prop} (h : WF σ D) {x d : Nat} (hd : D d) (hx : x < 2 ^ 47) :
    containsAddress σ x d = true ↔ Within σ x d := by
  obtain ⟨h1, h2, h3, h4⟩ := h.place d hd
  unfold containsAddress Within sub64
  rw [decide_eq_true_eq]
  have e1 := h3.2
  have e2 := h4.2
  by_cases hlt : x < σ.base d
  · have : (x + 2 ^ 64 - σ.base d) % 2 ^ 64 = x + 2 ^ 64 - σ.base d := Nat.mod_eq_of_lt (by omega)
    rw [this]
    omega
  · have : (x + 2 ^ 64 - σ.base d) % 2 ^ 64 = x - σ.base d := by
      rw [show x + 2 ^ 64 - σ.base d = (x - σ.base d) + 2 ^ 64 by omega, Nat.add_mod_right]
      exact Nat.mod_eq_of_lt (by omega)
    rw [this]
    omega

theorem isRoot_spec {σ : State g} {D : Nat → Prop} (h : WF σ D) {x : Nat} (hx : Address x) :
    ∃ b, isRoot σ x = some b ∧ (b = true ↔ ∀ d, D d → ¬ Within σ x d) := by
  obtain ⟨it, prev, e, e', hl, hp⟩ := h.data.lower hx
  unfold isRoot
  simp only [e, e']
  -- a datum containing `x` at or above `x` is the lower bound
  have upper : ∀ d, D d → Within σ x d → x ≤ d →
      (canonical g).valid it = true ∧ (canonical g).deref it = d := by
    intro d hd hw hle
    obtain ⟨d1, d2, _, _⟩ := h.place d hd
    rcases hl with ⟨v, l1, l2, l3⟩ | ⟨_, l⟩
    · refine ⟨v, ?_⟩
      apply Classical.byContradiction
      intro hne
      have := l3 d hd hle
      obtain ⟨c1, c2, _, _⟩ := h.place _ l1
      have := h.disjoint _ _ hd l1 (fun hh => hne hh.symm)
      have := hw.1
      omega
    · have := l d hd
      omega
  have lower : ∀ d, D d → Within σ x d → d < x →
      (canonical g).valid prev = true ∧ (canonical g).deref prev = d := by
    intro d hd hw hlt
    obtain ⟨d1, d2, _, _⟩ := h.place d hd
    rcases hp with ⟨v, l1, l2, l3⟩ | ⟨_, l⟩
    · refine ⟨v, ?_⟩
      apply Classical.byContradiction
      intro hne
      have := l3 d hd hlt
      obtain ⟨c1, c2, _, _⟩ := h.place _ l1
      have := h.disjoint _ _ hd l1 (fun hh => hne hh.symm)
      have := hw.2
      omega
    · have := l d hd
      omega
  by_cases hc : (canonical g).valid it && containsAddress σ x ((canonical g).deref it)
  · rw [if_pos hc]
    refine ⟨false, rfl, ?_⟩
    simp only [Bool.false_eq_true, false_iff]
    intro hn
    simp only [Bool.and_eq_true] at hc
    rcases hl with ⟨v, l1, l2, l3⟩ | ⟨l, _⟩
    · exact hn _ l1 ((contains_iff h l1 hx.2).1 hc.2)
    · rw [l] at hc; cases hc.1
  · rw [if_neg hc]
    refine ⟨_, rfl, ?_⟩
    simp only [Bool.not_eq_true', Bool.and_eq_true, not_and, Bool.not_eq_true] at hc ⊢
    constructor
    · intro hb d hd hw
      by_cases hle : x ≤ d
      · obtain ⟨a, b⟩ := upper d hd hw hle
        have := hc a
        rw [b, Bool.eq_false_iff] at this
        exact this ((contains_iff h hd hx.2).2 hw)
      · obtain ⟨a, b⟩ := lower d hd hw (by omega)
        rw [a, b, Bool.true_and, Bool.eq_false_iff] at hb
        exact hb ((contains_iff h hd hx.2).2 hw)
    · intro hn
      rcases hp with ⟨v, l1, l2, l3⟩ | ⟨l, _⟩
      · rw [v, Bool.true_and, Bool.eq_false_iff]
        intro hcc
        exact hn _ l1 ((contains_iff h l1 hx.2).1 hcc)
      · rw [l]; rfl

theorem filterRoots_spec {σ : State g} {D : Nat → Prop} (h : WF σ D) (l : List Nat)
    (hl : ∀ s ∈ l, Address s) :
    ∃ r, filterRoots σ l = some r ∧ ∀ s, s ∈ r ↔ s ∈ l ∧ ∀ d, D d → ¬ Within σ s d := by
  induction l with
  | nil => exact ⟨[], rfl, by simp⟩
  | cons x l ih =>
    obtain ⟨r, e, hr⟩ := ih (fun s hs => hl s (by simp [hs]))
    obtain ⟨b, eb, hb⟩ := isRoot_spec h (hl x (by simp))
    refine ⟨if b then x :: r else r, by simp [filterRoots, e, eb], ?_⟩
    intro s
    cases b with
    | true =>
      have hx := hb.1 rfl
      simp only [if_true, List.mem_cons, hr s]
      constructor
      · rintro (rfl | ⟨a, c⟩)
        · exact ⟨Or.inl rfl, hx⟩
        · exact ⟨Or.inr a, c⟩
      · rintro ⟨rfl | a, c⟩
        · exact Or.inl rfl
        · exact Or.inr ⟨a, c⟩
    | false =>
      simp only [Bool.false_eq_true, if_false, hr s, List.mem_cons]
      constructor
      · rintro ⟨a, c⟩; exact ⟨Or.inr a, c⟩
      · rintro ⟨rfl | a, c⟩
        · exact absurd (hb.2 c) (by simp)
        · exact ⟨a, c⟩

/-- Marking invariant: `done` are the scanned data, `m.stack` the ones still to scan. -/
structure Marking (σ : State g) (D : Nat → Prop) (done : List Nat) (m : Mark g) : Prop where
  new : Repr m.newData (fun d => d ∈ done ∨ d ∈ m.stack)
  old : Repr m.data (fun d => D d ∧ ¬ (d ∈ done ∨ d ∈ m.stack))
  nodup : (done ++ m.stack).Nodup
  reach : ∀ d, d ∈ done ∨ d ∈ m.stack → Reachable σ d
  size : m.size = total σ done

theorem reachable_data {σ : State g} {D : Nat → Prop} (h : WF σ D) {d : Nat} (hr : Reachable σ d) : D d := by
  cases hr with
  | root _ hp => exact h.target _ _ hp
  | step _ _ hp => exact h.target _ _ hp

theorem markSlot_spec {σ : State g} {D : Nat → Prop} (h : WF σ D) {done : List Nat} {m : Mark g}
    (hm : Marking σ D done m) {s d : Nat} (hp : σ.ptr s = some d) (hr : Reachable σ d) :
    ∃ m', markSlot σ m s = some m' ∧ Marking σ D done m' ∧ (d ∈ done ∨ d ∈ m'.stack) ∧
      ∀ x, x ∈ m.stack → x ∈ m'.stack := by
  have hd := reachable_data h hr
  have ha := h.data.key hd
  obtain ⟨b, e, hb⟩ := hm.new.contains ha
  unfold markSlot
  simp only [hp, e]
  cases b with
  | true => exact ⟨m, rfl, hm, hb.1 rfl, fun x hx => hx⟩
  | false =>
    have hn : ¬ (d ∈ done ∨ d ∈ m.stack) := fun hh => absurd (hb.2 hh) (by simp)
    obtain ⟨n, e1, r1⟩ := hm.new.insert ha hn
    obtain ⟨o, e2, r2⟩ := hm.old.erase (a := d) ⟨hd, hn⟩
    simp only [e1, e2]
    refine ⟨_, rfl, ?_, Or.inr (by simp), fun x hx => by simp [hx]⟩
    constructor
    · refine r1.congr fun a => ?_
      simp only [List.mem_cons]
      constructor
      · rintro (a | a | a) <;> simp [a]
      · rintro (a | a | a) <;> simp [a]
    · refine r2.congr fun a => ?_
      simp only [List.mem_cons]
      constructor
      · rintro ⟨a1, a2, a3⟩
        refine ⟨a2, ?_⟩
        rintro (b | b | b)
        · exact a3 (Or.inl b)
        · exact a1 b
        · exact a3 (Or.inr b)
      · rintro ⟨a1, a2⟩
        refine ⟨fun hh => a2 (Or.inr (Or.inl hh)), a1, ?_⟩
        rintro (b | b)
        · exact a2 (Or.inl b)
        · exact a2 (Or.inr (Or.inr b))
    · refine (List.perm_middle.nodup_iff).2 ?_
      refine List.nodup_cons.2 ⟨?_, hm.nodup⟩
      rw [List.mem_append]
      exact hn
    · intro x hx
      simp only [List.mem_cons] at hx
      rcases hx with hx | rfl | hx
      · exact hm.reach x (Or.inl hx)
      · exact hr
      · exact hm.reach x (Or.inr hx)
    · exact hm.size

theorem markSlots_spec {σ : State g} {D : Nat → Prop} (h : WF σ D) {done : List Nat} (l : List Nat) :
    ∀ {m : Mark g}, Marking σ D done m → (∀ s ∈ l, ∃ d, σ.ptr s = some d ∧ Reachable σ d) →
    ∃ m', markSlots σ m l = some m' ∧ Marking σ D done m' ∧
      (∀ s ∈ l, ∀ d, σ.ptr s = some d → d ∈ done ∨ d ∈ m'.stack) ∧
      ∀ x, x ∈ m.stack → x ∈ m'.stack := by
  induction l with
  | nil => intro m hm _; exact ⟨m, rfl, hm, by simp, fun x hx => hx⟩
  | cons s l ih =>
    intro m hm hl
    obtain ⟨d, hp, hr⟩ := hl s (by simp)
    obtain ⟨m1, e1, hm1, hd, hsub⟩ := markSlot_spec h hm hp hr
    obtain ⟨m2, e2, hm2, hall, hsub2⟩ := ih hm1 (fun s hs => hl s (by simp [hs]))
    refine ⟨m2, by simp [markSlots, e1, e2], hm2, ?_, fun x hx => hsub2 x (hsub x hx)⟩
    intro s' hs' d' hp'
    simp only [List.mem_cons] at hs'
    rcases hs' with rfl | hs'
    · rw [hp] at hp'
      cases hp'
      rcases hd with hd | hd
      · exact Or.inl hd
      · exact Or.inr (hsub2 _ hd)
    · exact hall s' hs' d' hp'

/-- Everything referenced from a scanned datum is marked. -/
def Closed (σ : State g) (done : List Nat) (m : Mark g) : Prop :=
  ∀ d ∈ done, ∀ s, Within σ s d → ∀ e, σ.ptr s = some e → e ∈ done ∨ e ∈ m.stack

theorem drain_spec {σ : State g} {D : Nat → Prop} (h : WF σ D) (f : Nat) :
    ∀ {done : List Nat} {m : Mark g}, Marking σ D done m → Closed σ done m →
    (canonical g).size σ.data < f + done.length →
    ∃ m' done', drain σ f m = some m' ∧ Marking σ D done' m' ∧ Closed σ done' m' ∧ m'.stack = [] ∧
      ∀ x, (x ∈ done ∨ x ∈ m.stack) → x ∈ done' := by
  induction f with
  | zero =>
    intro done m hm _ hlen
    have := h.data.length_le (List.nodup_append.1 hm.nodup).1
      (fun a ha => reachable_data h (hm.reach a (Or.inl ha)))
    omega
  | succ f ih =>
    intro done m hm hc hlen
    unfold drain
    cases hst : m.stack with
    | nil =>
      refine ⟨m, done, rfl, hm, hc, hst, ?_⟩
      rintro x (hx | hx)
      · exact hx
      · simp at hx
    | cons d rest =>
      have hrd := hm.reach d (Or.inr (by simp [hst]))
      have hd := reachable_data h hrd
      obtain ⟨p1, p2, p3, p4⟩ := h.place d hd
      obtain ⟨l, e, hl⟩ := h.objects.elementsBetween p3 p4 (by omega)
      simp only [e]
      have hm1 : Marking σ D (d :: done) { m with size := m.size + σ.extent d, stack := rest } := by
        have hmem : ∀ x, (x ∈ d :: done ∨ x ∈ rest) ↔ (x ∈ done ∨ x ∈ m.stack) := by
          intro x
          rw [hst]
          simp only [List.mem_cons]
          constructor
          · rintro ((a | a) | a) <;> simp [a]
          · rintro (a | a | a) <;> simp [a]
        constructor
        · exact hm.new.congr fun x => (hmem x).symm
        · exact hm.old.congr fun x => by simp only; rw [hmem x]
        · have := hm.nodup
          rw [hst] at this
          exact (List.perm_middle.nodup_iff).1 this
        · intro x hx; exact hm.reach x ((hmem x).1 hx)
        · simp only [hm.size, total, List.map_cons, List.sum_cons]; omega
      obtain ⟨m2, e2, hm2, hall, hsub⟩ := markSlots_spec h l hm1 (by
        intro s hs
        obtain ⟨a1, a2⟩ := (hl s).1 hs
        obtain ⟨t, ht⟩ := Option.ne_none_iff_exists'.1 a1
        exact ⟨t, ht, .step hrd a2 ht⟩)
      simp only [e2]
      have hc2 : Closed σ (d :: done) m2 := by
        intro x hx s hw t ht
        simp only [List.mem_cons] at hx
        rcases hx with rfl | hx
        · exact hall s ((hl s).2 ⟨by rw [ht]; simp, hw⟩) t ht
        · rcases hc x hx s hw t ht with a | a
          · exact Or.inl (by simp [a])
          · rw [hst] at a
            simp only [List.mem_cons] at a
            rcases a with rfl | a
            · exact Or.inl (by simp)
            · exact Or.inr (hsub t a)
      obtain ⟨m3, done3, e3, hm3, hc3, hs3, hmono⟩ := ih hm2 hc2 (by simp only [List.length_cons]; omega)
      refine ⟨m3, done3, e3, hm3, hc3, hs3, ?_⟩
      rintro x (hx | hx)
      · exact hmono x (Or.inl (by simp [hx]))
      · simp only [List.mem_cons] at hx
        rcases hx with rfl | hx
        · exact hmono _ (Or.inl (by simp))
        · exact hmono x (Or.inr (hsub x hx))

theorem markRoots_spec {σ : State g} {D : Nat → Prop} (h : WF σ D) (l : List Nat) :
    ∀ {done : List Nat} {m : Mark g}, Marking σ D done m → Closed σ done m → m.stack = [] →
    (∀ s ∈ l, Root σ s) →
    ∃ m' done', markRoots σ m l = some m' ∧ Marking σ D done' m' ∧ Closed σ done' m' ∧ m'.stack = [] ∧
      (∀ x ∈ done, x ∈ done') ∧ ∀ s ∈ l, ∀ d, σ.ptr s = some d → d ∈ done' := by
  induction l with
  | nil => intro done m hm hc hs _; exact ⟨m, done, rfl, hm, hc, hs, fun x hx => hx, by simp⟩
  | cons s l ih =>
    intro done m hm hc hs hl
    have hroot := hl s (by simp)
    obtain ⟨d, hp⟩ := hroot.1
    obtain ⟨m1, e1, hm1, hd, hsub⟩ := markSlot_spec h hm hp (.root hroot hp)
    have hc1 : Closed σ done m1 := by
      intro x hx s hw t ht
      rcases hc x hx s hw t ht with a | a
      · exact Or.inl a
      · exact Or.inr (hsub t a)
    obtain ⟨m2, done2, e2, hm2, hc2, hs2, hmono⟩ := drain_spec h ((canonical g).size σ.data + 1) hm1 hc1 (by omega)
    obtain ⟨m3, done3, e3, hm3, hc3, hs3, hmono3, hall⟩ := ih hm2 hc2 hs2 (fun s hs => hl s (by simp [hs]))
    refine ⟨m3, done3, by simp [markRoots, e1, e2, e3], hm3, hc3, hs3,
      fun x hx => hmono3 x (hmono x (Or.inl hx)), ?_⟩
    intro s' hs' d' hp'
    simp only [List.mem_cons] at hs'
    rcases hs' with rfl | hs'
    · rw [hp] at hp'
      cases hp'
      exact hmono3 _ (hmono _ hd)
    · exact hall s' hs' d' hp'

theorem destroySlots_spec (l : List Nat) : ∀ {σ : State g}, Repr σ.objects (fun s => σ.ptr s ≠ none) →
    ∃ σ', destroySlots σ l = some σ' ∧ Repr σ'.objects (fun s => σ'.ptr s ≠ none) ∧
      (∀ s, σ'.ptr s = if s ∈ l then none else σ.ptr s) ∧
      σ' = { σ with objects := σ'.objects, ptr := σ'.ptr } := by
  induction l with
  | nil => intro σ h; exact ⟨σ, rfl, h, by simp, rfl⟩
  | cons s l ih =>
    intro σ h
    unfold destroySlots
    cases hp : σ.ptr s with
    | none =>
      obtain ⟨σ', e, r, p, q⟩ := ih h
      refine ⟨σ', e, r, ?_, q⟩
      intro x
      rw [p x]
      by_cases hx : x = s
      · subst hx; simp [hp]
      · simp [hx]
    | some d =>
      obtain ⟨o, e1, r1⟩ := h.erase (a := s) (by rw [hp]; simp)
      simp only [e1]
      obtain ⟨σ', e, r, p, q⟩ := ih (σ := { σ with objects := o, ptr := fun x => if x = s then none else σ.ptr x })
        (r1.congr (by
          intro a
          simp only
          by_cases hx : a = s
          · simp [hx]
          · simp [hx]))
      refine ⟨σ', e, r, ?_, q⟩
      intro x
      rw [p x]
      by_cases hx : x = s
      · simp [hx]
      · simp [hx]

theorem sweep_spec (l : List Nat) : ∀ {σ : State g}, Repr σ.objects (fun s => σ.ptr s ≠ none) →
    ∃ σ', sweep σ l = some σ' ∧ Repr σ'.objects (fun s => σ'.ptr s ≠ none) ∧
      (∀ s, σ'.ptr s = if ∃ d ∈ l, s ∈ σ.fields d then none else σ.ptr s) ∧
      σ' = { σ with objects := σ'.objects, ptr := σ'.ptr } := by
  induction l with
  | nil => intro σ h; exact ⟨σ, rfl, h, by simp, rfl⟩
  | cons d l ih =>
    intro σ h
    unfold sweep
    obtain ⟨σ1, e1, r1, p1, q1⟩ := destroySlots_spec (σ.fields d) h
    simp only [e1]
    obtain ⟨σ', e, r, p, q⟩ := ih r1
    have hf : σ1.fields = σ.fields := by rw [q1]
    refine ⟨σ', e, r, ?_, ?_⟩
    · intro s
      rw [p s, p1 s, hf]
      by_cases h1 : s ∈ σ.fields d
      · simp [h1]
      · simp [h1]
    · rw [q, q1]

theorem root_iff {σ : State g} {D : Nat → Prop} (h : WF σ D) (s : Nat) :
    Root σ s ↔ σ.ptr s ≠ none ∧ ∀ d, D d → ¬ Within σ s d := by
  unfold Root
  constructor
  · rintro ⟨⟨d, hd⟩, h2⟩
    exact ⟨by rw [hd]; simp, fun e he => h2 e ((h.live e).2 he)⟩
  · rintro ⟨h1, h2⟩
    exact ⟨Option.ne_none_iff_exists'.1 h1, fun e he => h2 e ((h.live e).1 he)⟩

open scoped Classical in
/-- The effect of a collection. -/
theorem collect_spec {σ : State g} {D : Nat → Prop} (h : WF σ D) :
    ∃ σ', collect σ = some σ' ∧ WF σ' (Reachable σ) ∧
      σ'.base = σ.base ∧ σ'.extent = σ.extent ∧ σ'.fields = σ.fields ∧
      (∀ s, σ'.ptr s = if ∃ d, D d ∧ ¬ Reachable σ d ∧ s ∈ σ.fields d then none else σ.ptr s) ∧
      (∃ l : List Nat, l.Nodup ∧ (∀ d, d ∈ l ↔ Reachable σ d) ∧ σ'.size = total σ l) ∧
      σ'.capacity = max σ.capacity (σ'.size + σ'.size / 2) := by
  unfold collect
  obtain ⟨os, e1, _, hos⟩ := h.objects.elements
  obtain ⟨roots, e2, hroots⟩ := filterRoots_spec h os (fun s hs => h.objects.key ((hos s).1 hs))
  have hroots' : ∀ s, s ∈ roots ↔ Root σ s := by
    intro s; rw [hroots s, hos s, root_iff h]
  have hm0 : Marking σ D [] { data := σ.data, newData := (canonical g).new, stack := [], size := 0 } := by
    constructor
    · exact Repr.new.congr (by simp)
    · exact h.data.congr (by simp)
    · simp
    · simp
    · rfl
  obtain ⟨m, done, e3, hm, hc, hs, _, hall⟩ := markRoots_spec h roots hm0 (by intro d hd; simp at hd) rfl
    (fun s hs => (hroots' s).1 hs)
  have hdone : ∀ d, d ∈ done ↔ Reachable σ d := by
    intro d
    constructor
    · intro hd; exact hm.reach d (Or.inl hd)
    · intro hr
      induction hr with
      | root hr hp => exact hall _ ((hroots' _).2 hr) _ hp
      | step _ hw hp ih =>
        rcases hc _ ih _ hw _ hp with a | a
        · exact a
        · rw [hs] at a; simp at a
  obtain ⟨dead, e4, _, hdead⟩ := hm.old.elements
  have hdead' : ∀ d, d ∈ dead ↔ D d ∧ ¬ Reachable σ d := by
    intro d
    rw [hdead d, hs]
    simp [hdone d]
  obtain ⟨σ1, e5, r5, p5, q5⟩ := sweep_spec dead h.objects
  simp only [e1, e2, e3, e4, e5]
  have hb : σ1.base = σ.base := by rw [q5]
  have hx : σ1.extent = σ.extent := by rw [q5]
  have hf : σ1.fields = σ.fields := by rw [q5]
  have hptr : ∀ s, σ1.ptr s = if ∃ d, D d ∧ ¬ Reachable σ d ∧ s ∈ σ.fields d then none else σ.ptr s := by
    intro s
    rw [p5 s]
    have : (∃ d ∈ dead, s ∈ σ.fields d) ↔ ∃ d, D d ∧ ¬ Reachable σ d ∧ s ∈ σ.fields d := by
      constructor
      · rintro ⟨d, a, b⟩; exact ⟨d, ((hdead' d).1 a).1, ((hdead' d).1 a).2, b⟩
      · rintro ⟨d, a, b, c⟩; exact ⟨d, (hdead' d).2 ⟨a, b⟩, c⟩
    by_cases hcase : ∃ d ∈ dead, s ∈ σ.fields d
    · rw [if_pos hcase, if_pos (this.1 hcase)]
    · rw [if_neg hcase, if_neg (fun hh => hcase (this.2 hh))]
  have hsub : ∀ s, σ1.ptr s ≠ none → σ1.ptr s = σ.ptr s := by
    intro s hne
    rw [hptr s] at hne ⊢
    by_cases hcase : ∃ d, D d ∧ ¬ Reachable σ d ∧ s ∈ σ.fields d
    · rw [if_pos hcase] at hne; exact absurd rfl hne
    · rw [if_neg hcase]
  refine ⟨_, rfl, ?_, hb, hx, hf, hptr, ⟨done, ?_, hdone, ?_⟩, rfl⟩
  · constructor
    · refine hm.new.congr fun d => ?_
      rw [hs]; simp [hdone d]
    · exact r5
    · intro d hr
      simp only [hb, hx]
      exact h.place d (reachable_data h hr)
    · intro d e hr hr' hne
      simp only [hb, hx]
      exact h.disjoint d e (reachable_data h hr) (reachable_data h hr') hne
    · intro d s hr hw hne
      have hw' : Within σ s d := by simpa only [Within, hb, hx] using hw
      simp only [hf]
      simp only at hne
      exact h.fields d s (reachable_data h hr) hw' (by rw [← hsub s hne]; exact hne)
    · intro d hr
      simp only [hf]
      exact h.fieldsNodup d (reachable_data h hr)
    · intro d e s hr hr' hne
      simp only [hf]
      exact h.fieldsDisjoint d e s (reachable_data h hr) (reachable_data h hr') hne
    · intro s t ht
      simp only at ht
      have hne : σ1.ptr s ≠ none := by rw [ht]; simp
      have hold := hsub s hne
      rw [ht] at hold
      by_cases hr : Root σ s
      · exact .root hr hold.symm
      · rw [root_iff h] at hr
        simp only [not_and, not_forall] at hr
        obtain ⟨d, hd, hw⟩ := hr (by rw [← hold]; simp)
        have hw : Within σ s d := Classical.not_not.1 hw
        by_cases hrd : Reachable σ d
        · exact .step hrd hw hold.symm
        · exfalso
          apply hne
          rw [hptr s, if_pos]
          exact ⟨d, hd, hrd, h.fields d s hd hw (by rw [← hold]; simp)⟩
  · have := hm.nodup
    rw [hs, List.append_nil] at this
    exact this
  · exact hm.size

end Meevax.GC
