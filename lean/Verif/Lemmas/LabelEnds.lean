import Verif.Lemmas.LabelCircular
import Mathlib.Data.List.Basic

/-! `write` ends on the objects of Spec/DatumRing. -/

namespace Meevax.Label

open Meevax.Shared

variable {H : Heap Obj} {B : Nat}

/-- The pairs in the table. -/
def keys (t : List (Nat × Nat)) : List Nat := t.map Prod.fst

theorem lookup_mem {n : Nat} : ∀ {t : List (Nat × Nat)}, n ∈ keys t → ∃ k, t.lookup n = some k
  | [], h => by simp [keys] at h
  | (m, k) :: t, h => by
    by_cases hn : n = m
    · subst hn; exact ⟨k, by simp [List.lookup]⟩
    · simp only [keys, List.map_cons, List.mem_cons, hn, false_or] at h
      obtain ⟨j, hj⟩ := lookup_mem (t := t) h
      exact ⟨j, by simp only [List.lookup, beq_eq_false_iff_ne.2 hn, hj]⟩

/-- What the table holds at a circular list that is being written. -/
structure Seen (H : Heap Obj) (B : Nat) (S : List Nat) (t : List (Nat × Nat)) : Prop where
  mem : ∀ n ∈ S, n ∈ keys t
  ring : ∀ n ∈ S, ∃ a d, H n = .pair a d ∧ circular H B d = some true

theorem Seen.mono {S : List Nat} {t t' : List (Nat × Nat)} (h : Seen H B S t) (ht : ∀ n ∈ keys t, n ∈ keys t') :
    Seen H B S t' := ⟨fun n hn => ht n (h.mem n hn), h.ring⟩

/-- The table only grows. -/
abbrev Grows (t t' : List (Nat × Nat)) : Prop := ∀ n ∈ keys t, n ∈ keys t'

mutual

theorem write_ends (hB : Bounded H B) {S : List Nat} {x : Obj} : Ringed H S x → Below B x → ∀ {t : List (Nat × Nat)},
    Seen H B S t → ∃ ts t' M, Grows t t' ∧ ∀ f, M ≤ f → write (circular H B) H f x (some t) = some (ts, some t')
  | .nil _, _, t, _ => ⟨[.lp, .rp], t, 1, fun _ h => h, fun f hf => by
    obtain ⟨f, rfl⟩ : ∃ g, f = g + 1 := ⟨f - 1, by omega⟩
    rw [write.eq_def]⟩
  | .atom _ a, _, t, _ => ⟨[.atom a], t, 1, fun _ h => h, fun f hf => by
    obtain ⟨f, rfl⟩ : ∃ g, f = g + 1 := ⟨f - 1, by omega⟩
    rw [write.eq_def]⟩
  | .string (s := s) h, _, t, _ => ⟨[.string s], t, 1, fun _ h => h, fun f hf => by
    obtain ⟨f, rfl⟩ : ∃ g, f = g + 1 := ⟨f - 1, by omega⟩
    rw [write.eq_def]
    simp only [h]⟩
  | .vector (n := n) (es := es) h hs, hx, t, hS => by
    obtain ⟨ts, t', M, h₁, h₂⟩ := writeVector_ends hB hs (fun e he => .part hB (hx n rfl) (by simpa [h, Node.parts] using he)) hS
    refine ⟨.vec :: (ts ++ [.rp]), t', M + 1, h₁, fun f hf => ?_⟩
    obtain ⟨f, rfl⟩ : ∃ g, f = g + 1 := ⟨f - 1, by omega⟩
    rw [write.eq_def]
    simp only [h, h₂ f (by omega), Option.map_some]
  | .pair (n := n) (a := a) (d := d) h ha hd, hx, t, hS => by
    have hda : Below B a := .part hB (hx n rfl) (by simp [h, Node.parts])
    have hdd : Below B d := .part hB (hx n rfl) (by simp [h, Node.parts])
    have hc := circular_ends hB hd hdd
    obtain ⟨ts, t₁, M₁, h₁, h₂⟩ := write_ends hB ha hda hS
    obtain ⟨us, t₂, M₂, h₃, h₄⟩ := writeList_ends hB hd hdd (hS.mono h₁)
    refine ⟨.lp :: (ts ++ us), t₂, M₁ + M₂ + 1, fun n hn => h₃ n (h₁ n hn), fun f hf => ?_⟩
    obtain ⟨f, rfl⟩ : ∃ g, f = g + 1 := ⟨f - 1, by omega⟩
    rw [write.eq_def]
    simp only [h, hc, Option.bind_some, Option.getD_some, Bool.false_eq_true, if_false, h₂ f (by omega), h₄ f (by omega),
      Option.map_some]
  | .ring (n := n) hr, hx, t, hS => by
    obtain ⟨a, d, as, hp, -⟩ := Ring.seg hB hr (hx n rfl)
    have hc := circular_ring hB hr (hx n rfl) hp
    cases hl : t.lookup n with
    | some k =>
      refine ⟨[.ref k], t, 1, fun _ h => h, fun f hf => ?_⟩
      obtain ⟨f, rfl⟩ : ∃ g, f = g + 1 := ⟨f - 1, by omega⟩
      rw [write.eq_def]
      simp only [hp, hc, Option.bind_some, Option.getD_some, if_true, hl, Option.map_some]
    | none =>
      have hS' : Seen H B (n :: S) ((n, t.length + 1) :: t) := by
        refine ⟨fun m hm => ?_, fun m hm => ?_⟩
        · rcases List.mem_cons.1 hm with rfl | hm
          · simp [keys]
          · exact List.mem_cons_of_mem _ (hS.mem m hm)
        · rcases List.mem_cons.1 hm with rfl | hm
          · exact ⟨a, d, hp, hc⟩
          · exact hS.ring m hm
      obtain ⟨ts, t', M, h₁, h₂⟩ := writeRing_ends hB hr (hx n rfl) hS'
      refine ⟨.label (t.length + 1) :: .lp :: (ts ++ [.dot, .ref (t.length + 1), .rp]), t', M + 1,
        fun m hm => h₁ m (List.mem_cons_of_mem _ hm), fun f hf => ?_⟩
      obtain ⟨f, rfl⟩ : ∃ g, f = g + 1 := ⟨f - 1, by omega⟩
      rw [write.eq_def]
      simp only [hp, hc, Option.bind_some, Option.getD_some, if_true, hl, h₂ f (by omega), Option.map_some]
  | .again (n := n) hn, hx, t, hS => by
    obtain ⟨a, d, hp, hc⟩ := hS.ring n hn
    obtain ⟨k, hl⟩ := lookup_mem (hS.mem n hn)
    refine ⟨[.ref k], t, 1, fun _ h => h, fun f hf => ?_⟩
    obtain ⟨f, rfl⟩ : ∃ g, f = g + 1 := ⟨f - 1, by omega⟩
    rw [write.eq_def]
    simp only [hp, hc, Option.bind_some, Option.getD_some, if_true, hl, Option.map_some]

theorem writeList_ends (hB : Bounded H B) {S : List Nat} {x : Obj} : Ends H S x → Below B x → ∀ {t : List (Nat × Nat)},
    Seen H B S t → ∃ ts t' M, Grows t t' ∧ ∀ f, M ≤ f → writeList (circular H B) H f x t = some (ts, t')
  | .last hx h, hb, t, hS => by
    obtain ⟨ts, t', M, h₁, h₂⟩ := write_ends hB h hb hS
    cases x with
    | nil =>
      refine ⟨[.rp], t, 1, fun _ h => h, fun f hf => ?_⟩
      obtain ⟨f, rfl⟩ : ∃ g, f = g + 1 := ⟨f - 1, by omega⟩
      rw [writeList.eq_def]
    | atom a =>
      refine ⟨.dot :: (ts ++ [.rp]), t', M + 1, h₁, fun f hf => ?_⟩
      obtain ⟨f, rfl⟩ : ∃ g, f = g + 1 := ⟨f - 1, by omega⟩
      rw [writeList.eq_def]
      simp only [h₂ f (by omega), Option.map_some, Option.getD_some]
    | ref n =>
      refine ⟨.dot :: (ts ++ [.rp]), t', M + 1, h₁, fun f hf => ?_⟩
      obtain ⟨f, rfl⟩ : ∃ g, f = g + 1 := ⟨f - 1, by omega⟩
      rw [writeList.eq_def]
      cases hn : H n with
      | pair a d => exact absurd hn (hx n a d rfl)
      | vector => simp only [hn, h₂ f (by omega), Option.map_some, Option.getD_some]
      | string => simp only [hn, h₂ f (by omega), Option.map_some, Option.getD_some]
  | .pair (n := n) (a := a) (d := d) h ha hd, hx, t, hS => by
    obtain ⟨ts, t₁, M₁, h₁, h₂⟩ := write_ends hB ha (.part hB (hx n rfl) (by simp [h, Node.parts])) hS
    obtain ⟨us, t₂, M₂, h₃, h₄⟩ := writeList_ends hB hd (.part hB (hx n rfl) (by simp [h, Node.parts])) (hS.mono h₁)
    refine ⟨.space :: (ts ++ us), t₂, M₁ + M₂ + 1, fun n hn => h₃ n (h₁ n hn), fun f hf => ?_⟩
    obtain ⟨f, rfl⟩ : ∃ g, f = g + 1 := ⟨f - 1, by omega⟩
    rw [writeList.eq_def]
    simp only [h, Option.bind_some, Option.getD_some, h₂ f (by omega), h₄ f (by omega), Option.map_some]

theorem writeRing_ends (hB : Bounded H B) {S : List Nat} {root n : Nat} : Ring H S root n → n < B → ∀ {t : List (Nat × Nat)},
    Seen H B S t → ∃ ts t' M, Grows t t' ∧ ∀ f, M ≤ f → writeRing (circular H B) H f root n t = some (ts, t')
  | .last h ha, hn, t, hS => by
    obtain ⟨ts, t₁, M₁, h₁, h₂⟩ := write_ends hB ha (.part hB hn (by simp [h, Node.parts])) hS
    refine ⟨ts, t₁, M₁ + 1, h₁, fun f hf => ?_⟩
    obtain ⟨f, rfl⟩ : ∃ g, f = g + 1 := ⟨f - 1, by omega⟩
    rw [writeRing.eq_def]
    simp only [h, Option.bind_some, Option.getD_some, h₂ f (by omega), if_true]
  | .step (m := m) h hm ha hs, hn, t, hS => by
    obtain ⟨ts, t₁, M₁, h₁, h₂⟩ := write_ends hB ha (.part hB hn (by simp [h, Node.parts])) hS
    obtain ⟨us, t₂, M₂, h₃, h₄⟩ := writeRing_ends hB hs (hB n hn m (by simp [h, Node.parts])) (hS.mono h₁)
    refine ⟨ts ++ .space :: us, t₂, M₁ + M₂ + 1, fun n hn => h₃ n (h₁ n hn), fun f hf => ?_⟩
    obtain ⟨f, rfl⟩ : ∃ g, f = g + 1 := ⟨f - 1, by omega⟩
    rw [writeRing.eq_def]
    have : Obj.ref m ≠ .ref root := fun e => hm (by cases e; rfl)
    simp only [h, Option.bind_some, Option.getD_some, h₂ f (by omega), if_neg this, h₄ f (by omega), Option.map_some]

theorem writeVector_ends (hB : Bounded H B) {S : List Nat} {es : List Obj} : Ringeds H S es → (∀ e ∈ es, Below B e) →
    ∀ {t : List (Nat × Nat)}, Seen H B S t →
    ∃ ts t' M, Grows t t' ∧ ∀ f, M ≤ f → writeVector (circular H B) H f es (some t) = some (ts, some t')
  | .nil _, _, t, hS => by
    refine ⟨[], t, 1, fun _ h => h, fun f hf => ?_⟩
    obtain ⟨f, rfl⟩ : ∃ g, f = g + 1 := ⟨f - 1, by omega⟩
    rw [writeVector.eq_def]
  | .cons (e := e) (es := es) h hs, hb, t, hS => by
    obtain ⟨ts, t₁, M₁, h₁, h₂⟩ := write_ends hB h (hb e (by simp)) hS
    obtain ⟨us, t₂, M₂, h₃, h₄⟩ := writeVector_ends hB hs (fun e he => hb e (by simp [he])) (hS.mono h₁)
    cases es with
    | nil =>
      refine ⟨ts, t₁, M₁ + 1, h₁, fun f hf => ?_⟩
      obtain ⟨f, rfl⟩ : ∃ g, f = g + 1 := ⟨f - 1, by omega⟩
      rw [writeVector.eq_def]
      exact h₂ f (by omega)
    | cons e' es =>
      refine ⟨ts ++ .space :: us, t₂, M₁ + M₂ + 1, fun n hn => h₃ n (h₁ n hn), fun f hf => ?_⟩
      obtain ⟨f, rfl⟩ : ∃ g, f = g + 1 := ⟨f - 1, by omega⟩
      rw [writeVector.eq_def]
      simp only [h₂ f (by omega), h₄ f (by omega), Option.bind_some, Option.map_some]

end

/-- The table that the outermost pair makes is gone afterwards. -/
theorem write_none {circ : Obj → Option Bool} {f n : Nat} {a d : Obj} (h : H n = .pair a d) :
    write circ H f (.ref n) none = (write circ H f (.ref n) (some [])).map fun r => (r.1, none) := by
  cases f with
  | zero => rw [write.eq_def, write.eq_def]; rfl
  | succ f =>
    rw [write.eq_def, write.eq_def]
    simp only [h, Option.getD_none, Option.getD_some, Option.map_none, Option.map_some]
    cases circ d with
    | none => rfl
    | some c =>
      cases c with
      | false =>
        simp only [Option.bind_some, Bool.false_eq_true, if_false]
        cases write circ H f a (some []) with
        | none => rfl
        | some r =>
          simp only [Option.bind_some]
          cases writeList circ H f d (r.2.getD []) <;> rfl
      | true =>
        simp only [Option.bind_some, if_true, List.lookup]
        cases writeRing circ H f n n [(n, [].length + 1)] <;> rfl

end Meevax.Label
