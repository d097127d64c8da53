import Verif.Model.Shutdown
import Verif.Props.Collector
/-! # C97: the end of the process -/
namespace Meevax.GC
open Meevax.PointerSet Meevax.PointerSet.Spec Meevax.GC.Spec

variable {g : Word}

theorem clearFrom_spec : ∀ (f : Nat) (x : Exit g) (it : (canonical g).I) (lo : Nat),
    (canonicalCorrect g).Inv x.state.data → Up (canonical g) (canonicalCorrect g).mem (canonicalCorrect g).At x.state.data lo it →
    (∀ u, (canonicalCorrect g).mem x.state.data u → lo ≤ u) → (canonical g).size x.state.data < f →
    ∃ x', clearFrom f x it = some x' ∧ (canonicalCorrect g).Inv x'.state.data ∧ x'.cleared = x.cleared ∧
      (∀ u, ¬ (canonicalCorrect g).mem x'.state.data u) ∧ x'.state.objects = x.state.objects ∧
      ∃ ds, x'.destroyed = x.destroyed ++ ds ∧ ds.Pairwise (· < ·) ∧
        ∀ u, u ∈ ds ↔ (canonicalCorrect g).mem x.state.data u := by
  intro f
  induction f with
  | zero => intro x it lo _ _ _ h; omega
  | succ f ih =>
    intro x it lo hs hup hlo hf
    rcases hup with ⟨v, h1, h2, h3⟩ | ⟨rfl, h⟩
    · obtain ⟨hv, hd, hm⟩ := (canonicalCorrect g).at_spec hs h1
      obtain ⟨s', e1, i1, m1⟩ := (canonicalCorrect g).erase_spec hs hm
      obtain ⟨it', e2, u2⟩ := (canonicalCorrect g).inc_erased hs h1 e1
      have hsame : (canonical g).same it (canonical g).stop = false := by
        rw [(canonicalCorrect g).same_right (canonicalCorrect g).stop_invalid, hv]; rfl
      have hsize : (canonical g).size s' < f := by
        obtain ⟨l, l1, l2, l3⟩ := (canonicalCorrect g).size_spec hs
        obtain ⟨l', k1, k2, k3⟩ := (canonicalCorrect g).size_spec i1
        have hn : (v :: l').Nodup := List.nodup_cons.2 ⟨fun h => ((m1 v).1 ((k2 v).1 h)).1 rfl, k1⟩
        have hsub : (v :: l') ⊆ l := by
          intro u hu
          rw [l2]
          rcases List.mem_cons.1 hu with rfl | hu
          · exact hm
          · exact ((m1 u).1 ((k2 u).1 hu)).2
        have := (List.subperm_of_subset hn hsub).length_le
        rw [List.length_cons] at this
        omega
      obtain ⟨x', e, a1, a2, a3, a4, ds, b1, b2, b3⟩ := ih
        { x with state := { forget x.state (x.state.fields v) with data := s' }, destroyed := x.destroyed ++ [v] }
        it' (v + 1) i1 u2 (by
          intro u hu
          obtain ⟨c1, c2⟩ := (m1 u).1 hu
          have := h3 u c2 (hlo u c2)
          omega) hsize
      refine ⟨x', ?_, a1, a2, a3, a4, v :: ds, ?_, ?_, ?_⟩
      · simp only [clearFrom, hsame, Bool.false_eq_true, if_false, hd]
        have e1' : (canonical g).erase (forget x.state (x.state.fields v)).data v = some s' := e1
        simp only [e1', e2]
        exact e
      · rw [b1]; simp
      · refine List.pairwise_cons.2 ⟨?_, b2⟩
        intro u hu
        obtain ⟨c1, c2⟩ := (m1 u).1 ((b3 u).1 hu)
        have := h3 u c2 (hlo u c2)
        omega
      · intro u
        rw [List.mem_cons, b3 u, m1 u]
        constructor
        · rintro (rfl | h)
          · exact hm
          · exact h.2
        · intro h
          by_cases hq : u = v
          · exact Or.inl hq
          · exact Or.inr ⟨hq, h⟩
    · refine ⟨x, ?_, hs, rfl, ?_, rfl, [], by simp, List.Pairwise.nil, ?_⟩
      · have : (canonical g).same (canonical g).stop (canonical g).stop = true := by
          rw [(canonicalCorrect g).same_right (canonicalCorrect g).stop_invalid,
            (canonicalCorrect g).stop_invalid]; rfl
        simp only [clearFrom, this, if_true]
      · intro u hu
        have := h u hu
        have := hlo u hu
        omega
      · intro u
        simp only [List.not_mem_nil, false_iff]
        intro hu
        have := h u hu
        have := hlo u hu
        omega

theorem clear_spec {σ : State g} {D : Nat → Prop} (h : WF σ D) :
    ∃ x', clearOnce { state := σ } = some x' ∧ x'.cleared = true ∧ (∀ d, ¬ Live x'.state d) ∧
      x'.destroyed.Pairwise (· < ·) ∧ ∀ d, d ∈ x'.destroyed ↔ Live σ d := by
  obtain ⟨it, e1, h1⟩ := (canonicalCorrect g).first_spec h.data.inv
  obtain ⟨x, e, a1, a2, a3, _, ds, b1, b2, b3⟩ := clearFrom_spec ((canonical g).size σ.data + 1)
    { state := σ, cleared := true } it 0 h.data.inv h1 (fun _ _ => Nat.zero_le _) (Nat.lt_succ_self _)
  have hr : Repr x.state.data fun _ => False := ⟨a1, fun a => ⟨a3 a, False.elim⟩⟩
  refine ⟨x, ?_, a2, ?_, ?_, ?_⟩
  · simp only [clearOnce, Bool.false_eq_true, if_false, clear, e1]
    exact e
  · intro d hd
    exact hr.contains_iff.1 hd
  · rw [b1]
    exact b2
  · intro d
    rw [b1, List.nil_append, b3 d, h.data.mem d, h.live d]

/-- **C97.** When the process ends in any state a program can reach, the destructors of the allocators, however
many there are, destroy every live heap object exactly once, in the order of the addresses; nothing else is
destroyed, and nothing is left. -/
theorem C97_destroyed_once {σ : State g} {out : List Nat} (hr : Runs g σ out) (n : Nat) :
    ∃ x, destroyAllocators (n + 1) { state := σ } = some x ∧
      (∀ d, d ∈ x.destroyed ↔ Live σ d) ∧ x.destroyed.Nodup ∧ x.destroyed.Pairwise (· < ·) ∧
      ∀ d, ¬ Live x.state d := by
  obtain ⟨x, e, h1, h2, h3, h4⟩ := clear_spec (wf_of_runs hr)
  have once : ∀ n, destroyAllocators n x = some x := by
    intro n
    induction n with
    | zero => rfl
    | succ n ih => simp only [destroyAllocators, clearOnce, h1, if_true, ih]
  refine ⟨x, ?_, h4, h3.imp fun h => Nat.ne_of_lt h, h3, h2⟩
  simp only [destroyAllocators, e, once]

/-- A vector that contains itself, which no collection ever frees (`C07_vector_cycle_fails`), is destroyed at the end. -/
example : ∃ σ : State g, Runs g σ [] ∧ Live σ 0x1000 ∧
    ∃ x, destroyAllocators 3 { state := σ } = some x ∧ 0x1000 ∈ x.destroyed ∧ ¬ Live x.state 0x1000 := by
  obtain ⟨σ, hr, hl, _⟩ := vector_cycle_runs (g := g)
  obtain ⟨x, e, h1, _, _, h2⟩ := C97_destroyed_once hr 2
  exact ⟨σ, hr, hl, x, e, (h1 _).2 hl, h2 _⟩

end Meevax.GC
