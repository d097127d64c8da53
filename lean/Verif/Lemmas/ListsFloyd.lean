import Verif.Lemmas.Lists
import Mathlib.Data.Fintype.Pigeonhole

/-! The tortoise-and-hare walk of `list?`, `circular-list?` and `dotted-list?`. -/

namespace Meevax.Lists

/-- The object reached after `n` cdrs (staying put once outside the pairs). -/
def chainAt (h : Heap) (x : Obj) : Nat → Obj
  | 0 => x
  | n + 1 =>
    match chainAt h x n with
    | .pair a => h.cdr a
    | o => o

theorem chainAt_pair {h : Heap} {x : Obj} {n a : Nat} (e : chainAt h x n = .pair a) :
    chainAt h x (n + 1) = h.cdr a := by
  simp [chainAt, e]

theorem chainAt_stop {h : Heap} {x : Obj} {n : Nat} (e : isPair (chainAt h x n) = false) :
    ∀ k, chainAt h x (n + k) = chainAt h x n := by
  intro k
  induction k with
  | zero => rfl
  | succ k ih =>
    rw [← Nat.add_assoc]
    show (match chainAt h x (n + k) with | .pair a => h.cdr a | o => o) = _
    rw [ih]
    cases hc : chainAt h x n <;> simp_all

theorem isPair_elim {x : Obj} (e : isPair x = true) : ∃ a, x = .pair a := by
  cases x <;> simp_all

theorem chainAt_shift (h : Heap) (x : Obj) (j : Nat) :
    ∀ k, chainAt h x (j + k) = chainAt h (chainAt h x j) k := by
  intro k
  induction k with
  | zero => rfl
  | succ k ih =>
    rw [← Nat.add_assoc]
    simp only [chainAt, ih]

/-- A chain with a repetition is periodic from there on. -/
theorem chainAt_periodic {h : Heap} {x : Obj} {j p : Nat}
    (e : chainAt h x j = chainAt h x (j + p)) :
    ∀ n, j ≤ n → ∀ q, chainAt h x (n + q * p) = chainAt h x n := by
  intro n hn q
  obtain ⟨k, rfl⟩ := Nat.exists_eq_add_of_le hn
  have one : ∀ k, chainAt h x (j + k + p) = chainAt h x (j + k) := by
    intro k
    rw [show j + k + p = (j + p) + k by omega, chainAt_shift, ← e, ← chainAt_shift]
  induction q with
  | zero => simp
  | succ q ih =>
    have := one (k + q * p)
    rw [show j + k + (q + 1) * p = j + (k + q * p) + p by rw [Nat.add_mul]; omega, this,
      show j + (k + q * p) = j + k + q * p by omega, ih]

theorem chainAt_seg {h : Heap} {x : Obj} (cl : Closed h x) :
    ∀ n, (∀ m, m < n → isPair (chainAt h x m) = true) →
      ∃ as, as.length = n ∧ Seg h x as (chainAt h x n) ∧
        (∀ a, chainAt h x n = .pair a → a < h.next) := by
  intro n
  induction n with
  | zero => exact fun _ => ⟨[], rfl, .nil _, cl.object⟩
  | succ n ih =>
    intro hp
    obtain ⟨as, l, s, lt⟩ := ih (fun m hm => hp m (by omega))
    obtain ⟨a, ha⟩ := isPair_elim (hp n (by omega))
    refine ⟨as ++ [a], by simp [l], ?_, ?_⟩
    · rw [chainAt_pair ha]
      rw [ha] at s
      exact s.append (.cons (lt a ha) (.nil _))
    · rw [chainAt_pair ha]
      exact fun b hb => cl.cdr a b (lt a ha) hb

theorem seg_chainAt {h : Heap} {x t : Obj} {as : List Nat} (s : Seg h x as t) :
    chainAt h x as.length = t ∧ ∀ m, m < as.length → isPair (chainAt h x m) = true := by
  induction s with
  | nil => exact ⟨rfl, by simp⟩
  | @cons a as t ha s ih =>
    have sh : ∀ k, chainAt h (.pair a) (k + 1) = chainAt h (h.cdr a) k := by
      intro k
      rw [Nat.add_comm, chainAt_shift]
      rfl
    refine ⟨by rw [List.length_cons, sh]; exact ih.1, fun m hm => ?_⟩
    cases m with
    | zero => rfl
    | succ m => rw [sh]; exact ih.2 m (by simpa using hm)

/-- A finite heap: a chain that never leaves the pairs repeats, and the hare meets the tortoise. -/
theorem meet {h : Heap} {x : Obj} (cl : Closed h x) (hp : ∀ n, isPair (chainAt h x n) = true) :
    ∃ m, 0 < m ∧ chainAt h x (2 * m) = chainAt h x m := by
  have key : ∀ n, ∃ a, a < h.next ∧ chainAt h x n = .pair a := by
    intro n
    obtain ⟨a, ha⟩ := isPair_elim (hp n)
    obtain ⟨as, -, -, lt⟩ := chainAt_seg cl n (fun m _ => hp m)
    exact ⟨a, lt a ha, ha⟩
  choose f flt fe using key
  obtain ⟨i, j, ne, e⟩ := Fintype.exists_ne_map_eq_of_card_lt
    (fun i : Fin (h.next + 1) => (⟨f i, flt i⟩ : Fin h.next)) (by simp)
  have e' : f i = f j := by simpa using e
  have ec : chainAt h x i = chainAt h x j := by rw [fe, fe, e']
  have ne' : (i : Nat) ≠ j := fun hh => ne (Fin.ext hh)
  obtain ⟨a, b, hab, hc⟩ : ∃ a b : Nat, a < b ∧ chainAt h x a = chainAt h x b := by
    rcases Nat.lt_or_gt_of_ne ne' with hlt | hgt
    · exact ⟨i, j, hlt, ec⟩
    · exact ⟨j, i, hgt, ec.symm⟩
  have per := chainAt_periodic (p := b - a) (j := a) (by rw [hc]; congr 1; omega)
  refine ⟨(a + 1) * (b - a), ?_, ?_⟩
  · exact Nat.mul_pos (by omega) (by omega)
  · have : a ≤ (a + 1) * (b - a) := by
      calc a ≤ (a + 1) * 1 := by omega
        _ ≤ (a + 1) * (b - a) := Nat.mul_le_mul_left _ (by omega)
    rw [Nat.two_mul]
    exact per _ this (a + 1)

/-- The outcomes of the walk: `none` when the hare meets the tortoise, `some e` when it runs out of
pairs at `e`. -/
inductive Floyd (h : Heap) : Obj → Obj → Option Obj → Prop
  | stop {x y : Obj} : isPair x = false → Floyd h x y (some x)
  | stop' {a : Nat} {y : Obj} : isPair (h.cdr a) = false → Floyd h (.pair a) y (some (h.cdr a))
  | meet {a b c : Nat} : h.cdr a = .pair b → h.cdr b = h.cdr c → Floyd h (.pair a) (.pair c) none
  | step {a b c : Nat} {o : Option Obj} : h.cdr a = .pair b → h.cdr b ≠ h.cdr c →
      Floyd h (h.cdr b) (h.cdr c) o → Floyd h (.pair a) (.pair c) o

theorem Floyd.proper {h : Heap} {x y : Obj} {o : Option Obj} (w : Floyd h x y o) :
    isProperList2 h x y = some (o.elim false isNull) := by
  induction w with
  | stop e => rw [isProperList2]; simp [e]
  | stop' e => rw [isProperList2]; simp [e]
  | meet e1 e2 => rw [isProperList2]; simp [e1, e2]
  | step e1 e2 _ ih => rw [isProperList2]; simp [e1, e2, ih]

theorem Floyd.circular {h : Heap} {x y : Obj} {o : Option Obj} (w : Floyd h x y o) :
    isCircularList2 h x y = some (o.elim true fun _ => false) := by
  induction w with
  | stop e => rw [isCircularList2]; simp [e]
  | stop' e => rw [isCircularList2]; simp [e]
  | meet e1 e2 => rw [isCircularList2]; simp [e1, e2]
  | step e1 e2 _ ih => rw [isCircularList2]; simp [e1, e2, ih]

theorem Floyd.dotted {h : Heap} {x y : Obj} {o : Option Obj} (w : Floyd h x y o) :
    isDottedList2 h x y = some (o.elim false fun e => !isNull e) := by
  induction w with
  | stop e => rw [isDottedList2]; simp [e]
  | stop' e => rw [isDottedList2]; simp [e]
  | meet e1 e2 => rw [isDottedList2]; simp [e1, e2]
  | step e1 e2 _ ih => rw [isDottedList2]; simp [e1, e2, ih]

theorem floyd_ends {h : Heap} {x : Obj} {N : Nat} (hN : isPair (chainAt h x N) = false)
    (hm : ∀ m, m < N → isPair (chainAt h x m) = true) :
    ∀ k i, N - 2 * i = k → 2 * i ≤ N →
      Floyd h (chainAt h x (2 * i)) (chainAt h x i) (some (chainAt h x N)) := by
  intro k
  induction k using Nat.strongRecOn with
  | ind k ih =>
    intro i hk hi
    rcases Nat.eq_or_lt_of_le hi with e | lt
    · rw [e]; exact .stop hN
    obtain ⟨a, ha⟩ := isPair_elim (hm (2 * i) lt)
    obtain ⟨c, hc⟩ := isPair_elim (hm i (by omega))
    have h1 := chainAt_pair ha
    have hc1 := chainAt_pair hc
    rcases Nat.eq_or_lt_of_le (Nat.succ_le_of_lt lt) with e | lt1
    · have e' : chainAt h x N = h.cdr a := by rw [← e]; exact h1
      rw [ha, e']
      exact .stop' (by rw [← e']; exact hN)
    obtain ⟨b, hb⟩ := isPair_elim (hm (2 * i + 1) lt1)
    have h2 := chainAt_pair hb
    rw [ha, hc]
    refine .step (by rw [← h1, hb]) ?_ ?_
    · rw [← h2, ← hc1]
      intro e
      have per := chainAt_periodic (h := h) (x := x) (j := i + 1) (p := i + 1)
        (by rw [← e]; congr 1; omega) (i + 1) (Nat.le_refl _) N
      have st := chainAt_stop hN (i + 1 + N * (i + 1) - N)
      have le : N ≤ i + 1 + N * (i + 1) := by rw [Nat.mul_add]; omega
      rw [show N + (i + 1 + N * (i + 1) - N) = i + 1 + N * (i + 1) by omega, per] at st
      have hp := hm (i + 1) (by omega)
      rw [st, hN] at hp
      cases hp
    · rw [← h2, ← hc1]
      exact ih (N - 2 * (i + 1)) (by omega) (i + 1) rfl (by omega)

theorem floyd_meets {h : Heap} {x : Obj} (hp : ∀ n, isPair (chainAt h x n) = true) {m : Nat}
    (hm : chainAt h x (2 * m) = chainAt h x m) :
    ∀ k i, m - i = k → i < m → Floyd h (chainAt h x (2 * i)) (chainAt h x i) none := by
  intro k
  induction k using Nat.strongRecOn with
  | ind k ih =>
    intro i hk hi
    obtain ⟨a, ha⟩ := isPair_elim (hp (2 * i))
    obtain ⟨c, hc⟩ := isPair_elim (hp i)
    obtain ⟨b, hb⟩ := isPair_elim (hp (2 * i + 1))
    have h1 := chainAt_pair ha
    have hc1 := chainAt_pair hc
    have h2 := chainAt_pair hb
    rw [ha, hc]
    by_cases e : h.cdr b = h.cdr c
    · exact .meet (by rw [← h1, hb]) e
    · refine .step (by rw [← h1, hb]) e ?_
      rcases Nat.eq_or_lt_of_le (Nat.succ_le_of_lt hi) with e' | lt
      · exfalso
        apply e
        rw [← h2, ← hc1]
        rw [← e'] at hm
        rw [show 2 * i + 1 + 1 = 2 * i.succ by omega, hm]
      · rw [← h2, ← hc1]
        exact ih (m - (i + 1)) (by omega) (i + 1) rfl lt

/-- Every chain in a finite heap is either endless or ends at a definite object, and the walk finds
out which. -/
theorem floyd_total {h : Heap} {x : Obj} (cl : Closed h x) :
    (Circular h x ∧ Floyd h x x none) ∨
      ∃ as e, Seg h x as e ∧ isPair e = false ∧ Floyd h x x (some e) := by
  by_cases hp : ∀ n, isPair (chainAt h x n) = true
  · left
    refine ⟨fun n => ?_, ?_⟩
    · obtain ⟨as, l, s, -⟩ := chainAt_seg cl n (fun m _ => hp m)
      obtain ⟨a, ha⟩ := isPair_elim (hp n)
      exact ⟨as, a, l, ha ▸ s⟩
    · obtain ⟨m, hm, e⟩ := meet cl hp
      exact floyd_meets hp e _ 0 rfl hm
  · right
    have hex : ∃ n, isPair (chainAt h x n) = false := by
      simpa using hp
    classical
    have h1 := Nat.find_spec hex
    have h2 : ∀ m, m < Nat.find hex → isPair (chainAt h x m) = true := by
      intro m hm
      simpa using Nat.find_min hex hm
    obtain ⟨as, -, s, -⟩ := chainAt_seg cl _ h2
    exact ⟨as, _, s, h1, floyd_ends h1 h2 _ 0 rfl (Nat.zero_le _)⟩

end Meevax.Lists
