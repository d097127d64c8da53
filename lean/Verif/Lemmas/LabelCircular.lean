import Verif.Spec.DatumRing
import Verif.Model.DatumLabels
import Verif.Props.Lists

/-! `is_circular_list` on the objects of Spec/DatumRing. -/

namespace Meevax.Label

open Meevax.Shared

variable {H : Heap Obj} {B : Nat}

/-- The object is below `B`. -/
def Below (B : Nat) (x : Obj) : Prop := ∀ m, x = .ref m → m < B

theorem Below.part (hB : Bounded H B) {n : Nat} (hn : n < B) {x : Obj} (hx : x ∈ (H n).parts) : Below B x := by
  rintro m rfl
  exact hB n hn m hx

theorem listObj_pair {n m : Nat} (x : Obj) (h : listObj H x = .pair m) (hx : x = .ref n) : m = n := by
  subst hx
  simp only [listObj] at h
  split at h
  · cases h; rfl
  · cases h

theorem closed (hB : Bounded H B) {x : Obj} (hx : Below B x) : Lists.Closed (listHeap H B) (listObj H x) := by
  refine ⟨fun a e => ?_, fun a b ha e => ?_⟩
  · cases x with
    | nil => simp [listObj] at e
    | atom => simp [listObj] at e
    | ref n =>
      rw [listObj_pair _ e rfl]
      exact hx n rfl
  · simp only [listHeap] at e ha ⊢
    cases hn : H a with
    | pair x y =>
      rw [hn] at e
      cases y with
      | nil => simp [listObj] at e
      | atom => simp [listObj] at e
      | ref n =>
        rw [listObj_pair _ e rfl]
        exact hB a ha n (by simp [hn, Node.parts])
    | vector => rw [hn] at e; cases e
    | string => rw [hn] at e; cases e

theorem listObj_noPair {x : Obj} (hx : NoPair H x) : Lists.isPair (listObj H x) = false := by
  cases x with
  | nil => rfl
  | atom => rfl
  | ref n =>
    simp only [listObj]
    split
    · rename_i a d h
      exact absurd h (hx n a d rfl)
    · rfl

theorem Ends.seg (hB : Bounded H B) {S : List Nat} {x : Obj} (h : Ends H S x) (hx : Below B x) :
    ∃ as e, Lists.Seg (listHeap H B) (listObj H x) as e ∧ Lists.isPair e = false := by
  match h with
  | .last hx _ => exact ⟨[], _, .nil _, listObj_noPair hx⟩
  | .pair (n := n) hn _ hd =>
    obtain ⟨as, e, h₁, h₂⟩ := Ends.seg hB hd (.part hB (hx n rfl) (by simp [hn, Node.parts]))
    refine ⟨n :: as, e, ?_, h₂⟩
    have : listObj H (.ref n) = .pair n := by simp [listObj, hn]
    rw [this]
    refine .cons (hx n rfl) ?_
    simpa [listHeap, hn] using h₁

/-- A list that ends is not circular. -/
theorem circular_ends (hB : Bounded H B) {S : List Nat} {x : Obj} (h : Ends H S x) (hx : Below B x) :
    circular H B x = some false := by
  obtain ⟨as, e, h₁, h₂⟩ := Ends.seg hB h hx
  obtain ⟨p, c, d, -, h₃, -, -, h₄, -⟩ := Lists.C10_classification (closed hB hx)
  have : c = false := by
    cases c with
    | false => rfl
    | true => exact ((h₄.1 rfl).not_ends h₁ h₂).elim
  rw [circular, h₃, this]

theorem Ring.seg (hB : Bounded H B) {S : List Nat} {root n : Nat} (h : Ring H S root n) (hn : n < B) :
    ∃ a d as, H n = .pair a d ∧ Lists.Seg (listHeap H B) (listObj H d) as (listObj H (.ref root)) := by
  match h with
  | .last hp _ => exact ⟨_, _, [], hp, .nil _⟩
  | .step (m := m) hp _ _ hs =>
    have hm : m < B := hB n hn m (by simp [hp, Node.parts])
    obtain ⟨a, d, as, h₁, h₂⟩ := Ring.seg hB hs hm
    refine ⟨_, _, m :: as, hp, ?_⟩
    have : listObj H (.ref m) = .pair m := by simp [listObj, h₁]
    rw [this]
    refine .cons hm ?_
    simpa [listHeap, h₁] using h₂

theorem circular_of_cycle {h : Lists.Heap} {r : Nat} (hr : r < h.next) {as : List Nat}
    (hc : Lists.Seg h (h.cdr r) as (.pair r)) : ∀ k x bs, Lists.Seg h x bs (.pair r) →
    ∃ cs a, cs.length = k ∧ Lists.Seg h x cs (.pair a)
  | 0, x, bs, hx => by
    cases hx with
    | nil => exact ⟨[], r, rfl, .nil _⟩
    | cons => exact ⟨[], _, rfl, .nil _⟩
  | k + 1, x, bs, hx => by
    cases hx with
    | nil =>
      obtain ⟨cs, a, h₁, h₂⟩ := circular_of_cycle hr hc k _ as hc
      exact ⟨r :: cs, a, by simp [h₁], .cons hr h₂⟩
    | cons hb hs =>
      obtain ⟨cs, a, h₁, h₂⟩ := circular_of_cycle hr hc k _ _ hs
      exact ⟨_ :: cs, a, by simp [h₁], .cons hb h₂⟩

/-- The rest of a circular list is circular. -/
theorem circular_ring (hB : Bounded H B) {S : List Nat} {n : Nat} {a d : Obj} (h : Ring H S n n) (hn : n < B)
    (hp : H n = .pair a d) : circular H B d = some true := by
  obtain ⟨a', d', as, h₁, h₂⟩ := Ring.seg hB h hn
  rw [hp] at h₁
  cases h₁
  have e : listObj H (.ref n) = .pair n := by simp [listObj, hp]
  rw [e] at h₂
  have hd : Below B d := .part hB hn (by simp [hp, Node.parts])
  obtain ⟨p, c, q, -, h₃, -, -, h₄, -⟩ := Lists.C10_classification (closed hB hd)
  have : c = true := h₄.2 fun k => circular_of_cycle (r := n) hn (as := as) (by simpa [listHeap, hp] using h₂) k _ as h₂
  rw [circular, h₃, this]

end Meevax.Label
