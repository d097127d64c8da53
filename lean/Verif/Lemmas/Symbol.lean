import Verif.Props.Collector
import Verif.Spec.Symbol

/-
Lemmas about the symbol table.
-/

namespace Meevax.Symbol
open Meevax.GC Meevax.GC.Spec Meevax.PointerSet Meevax.PointerSet.Spec Meevax.Text

variable {g : Word}

/-- A slot that is no part of an object. -/
def Outside (σ : State g) (s : Nat) : Prop := ∀ d, Live σ d → ¬ Within σ s d ∧ s ∉ σ.fields d

/-- The slot keeps its reference and stays outside of the objects. -/
def Kept (σ σ' : State g) (s : Nat) : Prop := σ'.ptr s = σ.ptr s ∧ Outside σ' s

theorem live_of_reachable {σ : State g} (h : WF σ (Live σ)) {d : Nat} (hr : Reachable σ d) : Live σ d := by
  cases hr with
  | root _ hp => exact h.target _ _ hp
  | step _ _ hp => exact h.target _ _ hp

theorem kept_collect {σ σ' : State g} (h : WF σ (Live σ)) (hc : collect σ = some σ') {s : Nat}
    (ho : Outside σ s) : Kept σ σ' s := by
  obtain ⟨σ'', e, w, hb, hx, hf, hp, _⟩ := collect_spec h
  rw [hc] at e
  cases e
  constructor
  · rw [hp s, if_neg]
    rintro ⟨d, hd, _, hs⟩
    exact (ho d hd).2 hs
  · intro d hd
    have hl := live_of_reachable h ((w.live d).1 hd)
    have := ho d hl
    rw [hf]
    refine ⟨?_, this.2⟩
    intro hw
    apply this.1
    unfold Within at hw ⊢
    rwa [hb, hx] at hw

theorem wf_request {σ σ' : State g} (h : WF σ (Live σ)) {n : Nat} (hc : request σ n = some σ') :
    WF σ' (Live σ') := by
  unfold request at hc
  simp only at hc
  split at hc
  · obtain ⟨σ', e, w, _⟩ := collect_spec (wf_size h _ _)
    rw [hc] at e
    cases e
    exact wf_live w
  · cases hc
    exact wf_live (wf_size h _ _)

theorem kept_request {σ σ' : State g} (h : WF σ (Live σ)) {n : Nat} (hc : request σ n = some σ') {s : Nat}
    (ho : Outside σ s) : Kept σ σ' s := by
  unfold request at hc
  simp only at hc
  split at hc
  · exact kept_collect (σ := { σ with size := σ.size + n }) (wf_size h _ _) hc ho
  · cases hc
    exact ⟨rfl, ho⟩

theorem register_spec {σ σ' : State g} (h : WF σ (Live σ)) {d base extent : Nat} {fields : List Nat}
    (hf : Fits σ d base extent fields) (hi : insertDatum σ d base extent fields = some σ') :
    WF σ' (Live σ') ∧ ¬ Live σ d ∧ (∀ x, Live σ' x ↔ x = d ∨ Live σ x) ∧ σ'.ptr = σ.ptr ∧
      (∀ s, Outside σ s → ¬ (base ≤ s ∧ s < base + extent) → s ∉ fields → Outside σ' s) := by
  obtain ⟨σ'', e, w, hn, hs⟩ := wf_register h hf.datum hf.start hf.stop hf.low hf.high hf.apart hf.nodup
    hf.fresh hf.inside
  rw [hi] at e
  cases e
  have hl : ∀ x, Live σ' x ↔ x = d ∨ Live σ x := w.live
  refine ⟨wf_live w, hn, hl, by rw [hs], ?_⟩
  intro s ho h1 h2 x hx
  have e1 : σ'.base x = if x = d then base else σ.base x := by rw [hs]
  have e2 : σ'.extent x = if x = d then extent else σ.extent x := by rw [hs]
  have e3 : σ'.fields x = if x = d then fields else σ.fields x := by rw [hs]
  unfold Within
  rw [e1, e2, e3]
  by_cases hxd : x = d
  · simp only [if_pos hxd]
    exact ⟨h1, h2⟩
  · simp only [if_neg hxd]
    exact ho x (((hl x).1 hx).resolve_left hxd)

theorem assign_spec {σ σ' : State g} (h : WF σ (Live σ)) {s : Nat} {v : Option Nat} (hs : Address s)
    (hv : ∀ d, v = some d → Live σ d) (hw : ∀ d, Live σ d → Within σ s d → s ∈ σ.fields d)
    (ha : assign σ s v = some σ') :
    WF σ' (Live σ') ∧ (∀ x, Live σ' x ↔ Live σ x) ∧ (∀ x, σ'.ptr x = if x = s then v else σ.ptr x) ∧
      (∀ x, Outside σ x → Outside σ' x) := by
  obtain ⟨σ'', e, w, hp, hst⟩ := wf_assign h hs hv hw
  rw [ha] at e
  cases e
  have hl : ∀ x, Live σ' x ↔ Live σ x := w.live
  refine ⟨wf_live w, hl, hp, ?_⟩
  intro x ho d hd
  have := ho d ((hl d).1 hd)
  unfold Within at this ⊢
  rw [hst]
  exact this

/-- The invariant. -/
structure Inv (w : World g) (calls : List (Name × Nat)) : Prop where
  wf : WF w.memory (Live w.memory)
  outside : ∀ e ∈ w.table, Outside w.memory e.2
  held : ∀ e ∈ w.table, ∃ d, w.memory.ptr e.2 = some d
  distinct : ∀ e1 ∈ w.table, ∀ e2 ∈ w.table, w.memory.ptr e1.2 = w.memory.ptr e2.2 → e1 = e2
  names : (w.table.map Prod.fst).Nodup
  calls : ∀ c ∈ calls, ∃ slot, (c.1, slot) ∈ w.table ∧ w.memory.ptr slot = some c.2

theorem Inv.kept {w : World g} {calls : List (Name × Nat)} (h : Inv w calls) {σ' : State g} {out : List Nat}
    (hw : WF σ' (Live σ')) (hk : ∀ e ∈ w.table, Kept w.memory σ' e.2) :
    Inv { w with memory := σ', out := out } calls where
  wf := hw
  outside e he := (hk e he).2
  held e he := by
    obtain ⟨d, hd⟩ := h.held e he
    exact ⟨d, by rw [← hd]; exact (hk e he).1⟩
  distinct e1 h1 e2 h2 he := by
    refine h.distinct e1 h1 e2 h2 ?_
    rw [← (hk e1 h1).1, ← (hk e2 h2).1]
    exact he
  names := h.names
  calls c hc := by
    obtain ⟨slot, h1, h2⟩ := h.calls c hc
    exact ⟨slot, h1, by rw [← h2]; exact (hk _ h1).1⟩

theorem find_mem {table : Table} {name : Name} {slot : Nat} (h : find table name = some slot) :
    (name, slot) ∈ table := by
  unfold find at h
  induction table with
  | nil => cases h
  | cons e t ih =>
    obtain ⟨n, s⟩ := e
    simp only [List.lookup_cons] at h
    split at h
    · rename_i hn
      cases h
      rw [beq_iff_eq] at hn
      rw [hn]
      exact List.mem_cons_self ..
    · exact List.mem_cons_of_mem _ (ih h)

theorem find_none {table : Table} {name : Name} (h : find table name = none) :
    name ∉ table.map Prod.fst := by
  unfold find at h
  intro hm
  obtain ⟨e, he, hn⟩ := List.mem_map.1 hm
  have := List.lookup_eq_none_iff.1 h e he
  simp [hn] at this

theorem inv_history {w : World g} {calls : List (Name × Nat)} (h : History g w calls) : Inv w calls := by
  induction h with
  | start =>
    exact ⟨wf_live wf_init, by simp, by simp, by simp, by simp, by simp⟩
  | @step w calls e w' _ he ih =>
    cases he with
    | @assign σ' s v h1 h2 h3 h4 h5 =>
      obtain ⟨hw, hl, hp, ho⟩ := assign_spec ih.wf h1 h2 h3 h5
      refine ih.kept hw fun e he => ⟨?_, ho _ (ih.outside e he)⟩
      rw [hp, if_neg (fun h => h4 e he h.symm)]
    | request h1 => exact ih.kept (wf_request ih.wf h1) fun e he => kept_request ih.wf h1 (ih.outside e he)
    | register _ _ h1 h2 h3 =>
      obtain ⟨hw, _, _, hp, ho⟩ := register_spec ih.wf h1 h3
      exact ih.kept hw fun e he => ⟨by rw [hp], ho _ (ih.outside e he) (h2 e he).1 (h2 e he).2⟩
    | collect h1 =>
      obtain ⟨σ', e, hw, _⟩ := collect_spec ih.wf
      rw [h1] at e
      cases e
      exact ih.kept (wf_live hw) fun e he => kept_collect ih.wf h1 (ih.outside e he)
    | reserve n => exact ih.kept (wf_size ih.wf _ n) fun e he => ⟨rfl, ih.outside e he⟩
    | @found name slot d h1 h2 =>
      refine { ih with calls := ?_ }
      intro c hc
      simp only [Option.toList_some, List.singleton_append, List.mem_cons] at hc
      rcases hc with rfl | hc
      · exact ⟨slot, find_mem h1, h2⟩
      · exact ih.calls c hc
    | @made name σ1 σ' table' size d base extent fields slot hf h1 h1' h2 h3 h4 h5 h6 h7 h8 h9 =>
      unfold intern at h9
      rw [h1] at h9
      simp only at h9
      have hw1 := wf_request ih.wf h1
      have hk1 : ∀ e ∈ w.table, Kept w.memory σ1 e.2 := fun e he => kept_request ih.wf h1 (ih.outside e he)
      cases hi : insertDatum σ1 d base extent fields with
      | none => rw [hi] at h9; cases h9
      | some σ2 =>
        rw [hi] at h9
        simp only at h9
        obtain ⟨hw2, hn2, hl2, hp2, ho2⟩ := register_spec hw1 h2 hi
        cases ha : assign σ2 slot (some d) with
        | none => rw [ha] at h9; cases h9
        | some σ3 =>
          rw [ha] at h9
          cases h9
          have hout : Outside σ2 slot := ho2 slot h6 h7 h8
          obtain ⟨hw3, hl3, hp3, ho3⟩ := assign_spec hw2 h4
            (fun x hx => by cases hx; exact (hl2 d).2 (.inl rfl))
            (fun x hx hx' => absurd hx' (hout x hx).1) ha
          have hold : ∀ e ∈ w.table, σ'.ptr e.2 = w.memory.ptr e.2 := by
            intro e he
            rw [hp3, if_neg (fun h => h5 e he h.symm), hp2]
            exact (hk1 e he).1
          have hnew : σ'.ptr slot = some d := by rw [hp3, if_pos rfl]
          have hne : ∀ e ∈ w.table, σ'.ptr e.2 ≠ some d := by
            intro e he h
            rw [hold e he] at h
            apply hn2
            refine hw1.target e.2 d ?_
            rw [(hk1 e he).1]
            exact h
          constructor
          · exact hw3
          · intro e he
            simp only [List.mem_cons] at he
            rcases he with rfl | he
            · exact ho3 _ hout
            · exact ho3 _ (ho2 _ (hk1 e he).2 (h3 e he).1 (h3 e he).2)
          · intro e he
            simp only [List.mem_cons] at he
            rcases he with rfl | he
            · exact ⟨d, hnew⟩
            · obtain ⟨x, hx⟩ := ih.held e he
              exact ⟨x, by simp only; rw [hold e he, hx]⟩
          · intro e1 he1 e2 he2 heq
            simp only [List.mem_cons] at he1 he2 heq
            rcases he1 with rfl | he1 <;> rcases he2 with rfl | he2
            · rfl
            · rw [hnew] at heq
              exact absurd heq.symm (hne e2 he2)
            · rw [hnew] at heq
              exact absurd heq (hne e1 he1)
            · rw [hold e1 he1, hold e2 he2] at heq
              exact ih.distinct e1 he1 e2 he2 heq
          · simp only [List.map_cons, List.nodup_cons]
            exact ⟨find_none hf, ih.names⟩
          · intro c hc
            simp only [Option.toList_some, List.singleton_append, List.mem_cons] at hc
            rcases hc with rfl | hc
            · exact ⟨slot, List.mem_cons_self .., hnew⟩
            · obtain ⟨s, hs1, hs2⟩ := ih.calls c hc
              exact ⟨s, List.mem_cons_of_mem _ hs1, by simp only; rw [hold _ hs1]; exact hs2⟩

end Meevax.Symbol
