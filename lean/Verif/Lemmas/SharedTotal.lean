import Verif.Lemmas.SharedWrite
import Mathlib.Data.List.Perm.Subperm

/-! `write-shared` as a whole: every part is shown once, and it ends. -/

namespace Meevax.Shared

variable {H : Heap Obj}

theorem occurs_pos {ms : List Nat} {n : Nat} : 0 < occurs H ms n ↔ ∃ m ∈ ms, n ∈ kids H m := by
  induction ms with
  | nil => simp [occurs]
  | cons m ms ih =>
    rw [occurs_cons, Nat.add_pos_iff_pos_or_pos, ih, List.count_pos_iff]
    simp

theorem occurs_erase {ms : List Nat} {p : Nat} (hp : p ∈ ms) (n : Nat) :
    occurs H ms n = (kids H p).count n + occurs H (ms.erase p) n := by
  have : ms.Perm (p :: ms.erase p) := List.perm_cons_erase hp
  rw [← occurs_cons]
  exact (this.map fun m => (kids H m).count n).sum_nat

theorem occurs_single {ms : List Nat} {p n : Nat} (h : ∀ m ∈ ms, n ∈ kids H m → m = p) :
    occurs H ms n = ms.count p * (kids H p).count n := by
  induction ms with
  | nil => simp [occurs]
  | cons m ms ih =>
    rw [occurs_cons, ih fun m' hm => h m' (by simp [hm]), List.count_cons]
    by_cases hm : m = p
    · subst hm; simp [Nat.add_mul]; omega
    · have : n ∉ kids H m := fun hn => hm (h m (by simp) hn)
      simp [hm, List.count_eq_zero.2 this]

/-- What is known of the list `scan` makes. -/
structure Marked (H : Heap Obj) (root : Obj) (R : List Nat) (al : Alist) : Prop where
  nodup : R.Nodup
  keys : ∀ n, assq n al = none ↔ n ∉ R
  no : ∀ n, assq n al = some .no → met H [root] R n = 1
  met : ∀ n, 0 < met H [root] R n → n ∈ R

theorem Marked.root {root : Obj} {R : List Nat} {al : Alist} (h : Marked H root R al) {n : Nat}
    (hn : interesting H root = some n) : n ∈ R := h.met n (by simp [Shared.met, hn]; omega)

theorem Marked.kid {root : Obj} {R : List Nat} {al : Alist} (h : Marked H root R al) {n m : Nat}
    (hm : m ∈ R) (hn : n ∈ kids H m) : n ∈ R :=
  h.met n (by have := occurs_pos.2 ⟨m, hm, hn⟩; simp only [Shared.met]; omega)

/-- An unmarked node that is a part of `p` is a part of nothing else. -/
theorem Marked.unique {root : Obj} {R : List Nat} {al : Alist} (h : Marked H root R al) {n p : Nat}
    (hn : assq n al = some .no) (hp : p ∈ R) (hk : n ∈ kids H p) :
    (kids H p).count n = 1 ∧ interesting H root ≠ some n ∧ ∀ q ∈ R, n ∈ kids H q → q = p := by
  have h₁ := h.no n hn
  simp only [Shared.met] at h₁
  have h₂ := occurs_erase (H := H) hp n
  have h₃ := List.count_pos_iff.2 hk
  refine ⟨by omega, fun hi => ?_, fun q hq hkq => ?_⟩
  · simp [hi] at h₁; omega
  · by_contra hne
    have : 0 < occurs H (R.erase p) n := occurs_pos.2 ⟨q, (List.mem_erase_of_ne hne).2 hq, hkq⟩
    omega

theorem Marked.alone {root : Obj} {R : List Nat} {al : Alist} (h : Marked H root R al) {n : Nat}
    (hn : assq n al = some .no) (hi : interesting H root = some n) : ∀ q ∈ R, n ∉ kids H q := by
  intro q hq hk
  exact (h.unique hn hq hk).2.1 hi

theorem marked_scan {f : Nat} {root : Obj} {al : Alist} (h : scan H f root [] = some al) :
    ∃ R, Marked H root R ((none, .num 0) :: al) ∧ (∀ n ∈ R, Reach H root n) ∧
      (∀ n k, assq n ((none, .num 0) :: al) ≠ some (.num k)) ∧
      ∀ n, assq n ((none, .num 0) :: al) = some .yes → 2 ≤ met H [root] R n := by
  obtain ⟨R, s⟩ := scan_spec f (c := fun _ => 0) (fun n => by simp [assq]) h
  have ha : ∀ n, assq n ((none, .num 0) :: al) = assq n al := fun n => by simp [assq]
  have hc : ∀ n, 0 + ([root].filterMap (interesting H)).count n + occurs H R n = met H [root] R n := fun n => by
    simp [met]
  refine ⟨R, ⟨s.nodup, fun n => ?_, fun n hn => ?_, fun n hn => ?_⟩, fun n hn => ?_, fun n k => ?_,
    fun n hn => ?_⟩
  · rw [ha, s.keys]; simp [assq]
  · have := s.counts n
    rw [ha] at hn
    simp only [hn] at this
    rw [← hc]; exact this
  · have := s.counts n
    by_contra hR
    have hk := (s.keys n).2 ⟨by simp [assq], hR⟩
    simp only [hk] at this
    rw [← hc] at hn
    omega
  · obtain ⟨o, ho, hr⟩ := s.reach n hn
    obtain rfl := List.mem_singleton.1 ho
    exact hr
  · rw [ha]
    intro hn
    have := s.counts n
    simp only [hn] at this
  · have := s.counts n
    rw [ha] at hn
    simp only [hn] at this
    rw [← hc]; exact this

theorem twice_occurs {R : List Nat} (hR : R.Nodup) {n : Nat} (h : 2 ≤ occurs H R n) :
    (∃ p ∈ R, 2 ≤ (H p).parts.count (.ref n)) ∨
      ∃ p ∈ R, ∃ q ∈ R, p ≠ q ∧ .ref n ∈ (H p).parts ∧ .ref n ∈ (H q).parts := by
  have hk : ∀ (l : List Obj), (l.filterMap (interesting H)).count n ≤ l.count (.ref n) := by
    intro l
    induction l with
    | nil => simp
    | cons o l ih =>
      cases hi : interesting H o with
      | none => simp only [List.filterMap_cons, hi, List.count_cons]; omega
      | some m =>
        obtain ⟨rfl, -⟩ := interesting_iff.1 hi
        simp only [List.filterMap_cons, hi, List.count_cons]
        by_cases hm : m = n
        · subst hm; simp; exact ih
        · simp [hm]; exact ih
  induction R with
  | nil => simp [occurs] at h
  | cons m R ih =>
    obtain ⟨h₁, h₂⟩ := List.nodup_cons.1 hR
    rw [occurs_cons] at h
    have hm := hk (H m).parts
    change (kids H m).count n ≤ _ at hm
    by_cases h₃ : 2 ≤ (kids H m).count n
    · exact .inl ⟨m, by simp, by omega⟩
    · by_cases h₄ : 2 ≤ occurs H R n
      · rcases ih h₂ h₄ with ⟨p, hp, h⟩ | ⟨p, hp, q, hq, h⟩
        · exact .inl ⟨p, by simp [hp], h⟩
        · exact .inr ⟨p, by simp [hp], q, by simp [hq], h⟩
      · obtain ⟨q, hq, hq'⟩ := occurs_pos.1 (show 0 < occurs H R n by omega)
        have : n ∈ kids H m := List.count_pos_iff.1 (by omega)
        refine .inr ⟨m, by simp, q, by simp [hq], ?_, (mem_kids.1 this).1, (mem_kids.1 hq').1⟩
        rintro rfl
        exact h₁ hq

theorem twice_met {root : Obj} {R : List Nat} (hR : R.Nodup) (hr : ∀ n ∈ R, Reach H root n) {n : Nat}
    (h : 2 ≤ met H [root] R n) : Twice H root n := by
  simp only [met] at h
  by_cases hi : interesting H root = some n
  · obtain ⟨h₁, h₂⟩ := interesting_iff.1 hi
    have : ([root].filterMap (interesting H)).count n = 1 := by simp [hi]
    obtain ⟨q, hq, hq'⟩ := occurs_pos.1 (show 0 < occurs H R n by omega)
    exact .inl ⟨h₁, q, hr q hq, (mem_kids.1 hq').1⟩
  · have : ([root].filterMap (interesting H)).count n = 0 := by
      cases hm : interesting H root with
      | none => simp [hm]
      | some m =>
        have : m ≠ n := fun e => hi (by rw [hm, e])
        simp [hm, this]
    rcases twice_occurs hR (show 2 ≤ occurs H R n by omega) with ⟨p, hp, h⟩ | ⟨p, hp, q, hq, h₁, h₂, h₃⟩
    · exact .inr (.inl ⟨p, hr p hp, h⟩)
    · exact .inr (.inr ⟨p, q, h₁, hr p hp, hr q hq, h₂, h₃⟩)

/-- All that is written is different, and nothing is left out. -/
theorem count_wrote {root : Obj} {R N : List Nat} {al al' : Alist} (h : Marked H root R al)
    (hnum : ∀ n k, assq n al ≠ some (.num k)) (w : Wrote H [root] al al' N) {n : Nat} (hr : Reach H root n) :
    N.count n = 1 := by
  have hsub : ∀ m ∈ N, m ∈ R := fun m hm => by
    by_contra hR
    have := (w.none m ((h.keys m).2 hR)).2
    have := List.count_pos_iff.2 hm
    omega
  have finish : 0 < met H [root] N n → (assq n al = some .no → met H [root] N n = 1) → n ∈ R → N.count n = 1 := by
    intro h₁ h₂ h₃
    cases ha : assq n al with
    | none => exact absurd h₃ ((h.keys n).1 ha)
    | some x =>
      cases x with
      | no => rw [(w.no n ha).2, h₂ ha]
      | num k => exact absurd ha (hnum n k)
      | yes =>
        rcases w.yes n ha with ⟨h₄, -, -⟩ | ⟨-, h₄, -⟩
        · omega
        · exact h₄
  generalize hroot : root = o at hr
  induction hr with
  | here he =>
    rename_i n
    have hi : interesting H root = some n := interesting_iff.2 ⟨hroot, he⟩
    refine finish (by simp [met, hi]; omega) (fun ha => ?_) (h.root hi)
    have : occurs H N n = 0 := by
      by_contra h₀
      obtain ⟨q, hq, hk⟩ := occurs_pos.1 (Nat.pos_of_ne_zero h₀)
      exact h.alone ha hi q (hsub q hq) hk
    simp [met, hi, this]
  | part hp hm he ih =>
    rename_i p n _
    have hcp : N.count p = 1 := ih (by
      intro h₁ h₂ h₃
      cases ha : assq p al with
      | none => exact absurd h₃ ((h.keys p).1 ha)
      | some x =>
        cases x with
        | no => rw [(w.no p ha).2, h₂ ha]
        | num k => exact absurd ha (hnum p k)
        | yes =>
          rcases w.yes p ha with ⟨h₄, -, -⟩ | ⟨-, h₄, -⟩
          · omega
          · exact h₄) hroot
    have hpN : p ∈ N := List.count_pos_iff.1 (by omega)
    have hk : n ∈ kids H p := mem_kids.2 ⟨hm, he⟩
    have ho : 0 < occurs H N n := occurs_pos.2 ⟨p, hpN, hk⟩
    refine finish (by simp only [met]; omega) (fun ha => ?_) (h.kid (hsub p hpN) hk)
    obtain ⟨h₁, h₂, h₃⟩ := h.unique ha (hsub p hpN) hk
    have h₄ := occurs_single (H := H) (ms := N) (p := p) (n := n) fun q hq => h₃ q (hsub q hq)
    rw [hcp, h₁] at h₄
    have : ([root].filterMap (interesting H)).count n = 0 := by
      cases hi : interesting H root with
      | none => simp [hi]
      | some m =>
        have : m ≠ n := fun e => h₂ (by rw [hi, e])
        simp [hi, this]
    simp [met, this, h₄]

theorem scan_labels : ∀ {f : Nat} {o : Obj} {al al' : Alist}, labels al = [] → scan H f o al = some al' → labels al' = []
  | 0, o, al, al', _, h => by simp [scan] at h
  | f + 1, o, al, al', hl, h => by
    simp only [scan] at h
    have scans_labels : ∀ {es : List Obj} {al al' : Alist}, labels al = [] → scans (scan H f) es al = some al' →
        labels al' = [] := by
      intro es
      induction es with
      | nil => intro al al' hl h; cases h; exact hl
      | cons e es ih =>
        intro al al' hl h
        simp only [scans, Option.bind_eq_some_iff] at h
        obtain ⟨al₁, h₁, h₂⟩ := h
        exact ih (scan_labels hl h₁) h₂
    cases hi : interesting H o with
    | none => simp only [hi, Option.some.injEq] at h; subst h; exact hl
    | some n =>
      simp only [hi] at h
      cases ha : assq n al with
      | some x =>
        cases x <;> simp only [ha, Option.some.injEq] at h <;> subst h <;> simpa [labels] using hl
      | none =>
        simp only [ha] at h
        cases hH : H n with
        | pair a d =>
          simp only [hH, Option.bind_eq_some_iff] at h
          obtain ⟨al₁, h₁, h₂⟩ := h
          exact scan_labels (scan_labels (by simpa [labels] using hl) h₁) h₂
        | vector es => simp only [hH] at h; exact scans_labels (by simpa [labels] using hl) h
        | string s => simp only [hH, Option.some.injEq] at h; subst h; simpa [labels] using hl

theorem of_mem_labels {k : Nat} : ∀ {al : Alist}, k ∈ labels al → ∃ n, (some n, .num k) ∈ al
  | [], h => by cases h
  | (o, y) :: al, h => by
    have rest : k ∈ labels al → ∃ n, (some n, Mark.num k) ∈ (o, y) :: al := fun h => by
      obtain ⟨n, hn⟩ := of_mem_labels h
      exact ⟨n, by simp [hn]⟩
    cases o with
    | none => exact rest (by simpa [labels] using h)
    | some m =>
      cases y with
      | no | yes => exact rest (by simpa [labels] using h)
      | num j =>
        simp only [labels, List.mem_cons] at h
        rcases h with rfl | h
        · exact ⟨m, by simp⟩
        · exact rest h

/-- What `write-shared` writes denotes the object, and shows each of its parts in full exactly once. -/
theorem writeShared_shows {f : Nat} {o : Obj} {ts : List Tok} (h : writeShared H f o = some ts) :
    ∃ D L ks ns, Text ts D ∧ Scoped [] D ks ∧ Den H L D o ns ∧ ns.Nodup ∧ (∀ n, n ∈ ns ↔ Reach H o n) ∧
      ∀ k ∈ ks, ∃ n, L k = some (.ref n) ∧ Twice H o n := by
  simp only [writeShared, Option.bind_eq_some_iff, Option.map_eq_some_iff] at h
  obtain ⟨al, h₁, ⟨ts, al'⟩, h₂, rfl⟩ := h
  obtain ⟨R, hm, hR, hnum, hyes⟩ := marked_scan h₁
  have hl : labels al = [] := scan_labels (al := []) rfl h₁
  have hn : Numbered ((none, .num 0) :: al) := ⟨⟨_, _, _, rfl⟩, by simp [labels, hl], by simp [labels, hl]⟩
  obtain ⟨D, N, h₃, h₄, h₅, h₆⟩ := writeObj_spec f hn h₂
  simp only [labels, hl] at h₅
  have hreach : ∀ n, n ∈ N → Reach H o n := fun n hN => by
    refine hR n ?_
    by_contra hc
    have := (h₄.none n ((hm.keys n).2 hc)).2
    have := List.count_pos_iff.2 hN
    omega
  have hone := fun n hr => count_wrote (n := n) hm hnum h₄ hr
  refine ⟨D, labelled al', _, N, h₃, h₅, h₆ _ fun n k hk => labelled_of_mem h₄.numbered.nodup hk, ?_,
    fun n => ⟨hreach n, fun hr => List.count_pos_iff.1 (by have := hone n hr; omega)⟩, fun k hk => ?_⟩
  swap
  · obtain ⟨n, hn⟩ := of_mem_labels hk
    refine ⟨n, labelled_of_mem h₄.numbered.nodup hn, ?_⟩
    rcases h₄.given n k hn with hn | hn
    · have := mem_labels hn
      simp [labels, hl] at this
    · exact twice_met hm.nodup hR (hyes n hn)
  refine List.nodup_iff_count_le_one.2 fun n => ?_
  by_cases hN : n ∈ N
  · exact Nat.le_of_eq (hone n (hreach n hN))
  · rw [List.count_eq_zero.2 hN]; omega

/-- The nodes above a part, from the part on. -/
inductive Chain (H : Heap Obj) (root : Obj) : List Nat → Prop where
  | one {n : Nat} (h : interesting H root = some n) : Chain H root [n]
  | cons {n m : Nat} {ms : List Nat} (h : Chain H root (m :: ms)) (hn : n ∈ kids H m) : Chain H root (n :: m :: ms)

theorem Chain.above {root : Obj} {ms : List Nat} (h : Chain H root ms) {n : Nat} (hn : n ∈ ms) :
    interesting H root = some n ∨ ∃ q ∈ ms.tail, n ∈ kids H q := by
  induction h with
  | one h =>
    obtain rfl := List.mem_singleton.1 hn
    exact .inl h
  | cons h hk ih =>
    rcases List.mem_cons.1 hn with rfl | hn
    · exact .inr ⟨_, by simp, hk⟩
    · rcases ih hn with h | ⟨q, hq, h⟩
      · exact .inl h
      · exact .inr ⟨q, by simpa using .inr hq, h⟩

theorem Chain.mem {root : Obj} {ms R : List Nat} {al : Alist} (hm : Marked H root R al) (h : Chain H root ms) :
    ∀ n ∈ ms, n ∈ R := by
  induction h with
  | one h => simpa using hm.root h
  | cons h hk ih =>
    intro n hn
    rcases List.mem_cons.1 hn with rfl | hn
    · exact hm.kid (ih _ (by simp)) hk
    · exact ih n hn

/-- `o` is the root, or a part of the last node of the chain. -/
def Below (H : Heap Obj) (root : Obj) : List Nat → Obj → Prop
  | [], o => o = root
  | m :: ms, o => Chain H root (m :: ms) ∧ o ∈ (H m).parts

theorem Below.chain {root : Obj} {ms : List Nat} {n : Nat} (h : Below H root ms (.ref n))
    (he : (H n).isEmpty = false) : Chain H root (n :: ms) := by
  cases ms with
  | nil => exact .one (interesting_iff.2 ⟨h.symm, he⟩)
  | cons m ms => exact .cons h.1 (mem_kids.2 ⟨h.2, he⟩)

/-- The state of `write-obj`: the nodes it is in the middle of have a number, or occur once. -/
structure Inside (H : Heap Obj) (root : Obj) (R : List Nat) (al : Alist) (ms : List Nat) : Prop where
  marked : Marked H root R al
  nodup : ms.Nodup
  done : ∀ n ∈ ms, assq n al ≠ some .yes
  numbered : Numbered al

theorem Inside.after {root : Obj} {R : List Nat} {al al' : Alist} {ms new : List Nat} {os : List Obj}
    (h : Inside H root R al ms) (w : Wrote H os al al' new) : Inside H root R al' ms := by
  have back : ∀ n, assq n al' = some .no → assq n al = some .no := fun n hn => by
    cases ha : assq n al with
    | none => rw [(w.none n ha).1] at hn; cases hn
    | some x =>
      cases x with
      | no => rfl
      | num k => rw [(w.num n k ha).1] at hn; cases hn
      | yes =>
        rcases w.yes n ha with ⟨-, -, h⟩ | ⟨-, -, k, h⟩ <;> rw [h] at hn <;> cases hn
  refine ⟨⟨h.marked.nodup, fun n => ?_, fun n hn => h.marked.no n (back n hn), h.marked.met⟩, h.nodup,
    fun n hn hy => ?_, w.numbered⟩
  · rw [← h.marked.keys n]
    refine ⟨fun hn => ?_, fun hn => (w.none n hn).1⟩
    cases ha : assq n al with
    | none => rfl
    | some x =>
      exfalso
      cases x with
      | no => rw [(w.no n ha).1] at hn; cases hn
      | num k => rw [(w.num n k ha).1] at hn; cases hn
      | yes => rcases w.yes n ha with ⟨-, -, h⟩ | ⟨-, -, k, h⟩ <;> rw [h] at hn <;> cases hn
  · cases ha : assq n al with
    | none => rw [(w.none n ha).1] at hy; cases hy
    | some x =>
      cases x with
      | no => rw [(w.no n ha).1] at hy; cases hy
      | num k => rw [(w.num n k ha).1] at hy; cases hy
      | yes => exact h.done n hn ha

/-- A node that occurs once is not inside itself. -/
theorem Inside.enter {root : Obj} {R : List Nat} {al : Alist} {ms : List Nat} {n : Nat}
    (h : Inside H root R al ms) (hc : Below H root ms (.ref n)) (he : (H n).isEmpty = false)
    (hn : assq n al = some .no) : Inside H root R al (n :: ms) := by
  refine ⟨h.marked, List.nodup_cons.2 ⟨fun hm => ?_, h.nodup⟩, ?_, h.numbered⟩
  · cases ms with
    | nil => cases hm
    | cons m ms =>
      have hk : n ∈ kids H m := mem_kids.2 ⟨hc.2, he⟩
      have hmR := hc.1.mem h.marked
      obtain ⟨-, h₁, h₂⟩ := h.marked.unique hn (hmR m (by simp)) hk
      rcases hc.1.above hm with h₃ | ⟨q, hq, h₃⟩
      · exact h₁ h₃
      · simp only [List.tail_cons] at hq
        obtain rfl := h₂ q (hmR q (by simp [hq])) h₃
        exact (List.nodup_cons.1 h.nodup).1 hq
  · intro m hm
    rcases List.mem_cons.1 hm with rfl | hm
    · rw [hn]; simp
    · exact h.done m hm

theorem Inside.number {root : Obj} {R : List Nat} {al : Alist} {ms : List Nat} {n : Nat}
    (h : Inside H root R al ms) (hn : assq n al = some .yes) :
    Inside H root R ((some n, .num (nextLabel al)) :: al) (n :: ms) := by
  have hR : n ∈ R := by
    by_contra hR
    rw [(h.marked.keys n).2 hR] at hn
    cases hn
  refine ⟨⟨h.marked.nodup, fun m => ?_, fun m hm => ?_, h.marked.met⟩, List.nodup_cons.2 ⟨fun hm => h.done n hm hn, h.nodup⟩,
    fun m hm => ?_, h.numbered.push n⟩
  · rw [assq_cons]
    by_cases hmn : n = m
    · subst hmn; simp [hR]
    · simp only [hmn, if_false]; exact h.marked.keys m
  · rw [assq_cons] at hm
    split at hm
    · cases hm
    · exact h.marked.no m hm
  · rw [assq_cons]
    split
    · simp
    · rename_i hmn
      rcases List.mem_cons.1 hm with rfl | hm
      · exact absurd rfl hmn
      · exact h.done m hm

theorem Inside.length {root : Obj} {R : List Nat} {al : Alist} {ms : List Nat} {B : Nat} (hB : ∀ n ∈ R, n < B)
    (h : Inside H root R al ms) (hc : ∀ n ∈ ms, n ∈ R) : ms.length ≤ B := by
  have : ms ⊆ List.range B := fun n hn => by simpa using hB n (hc n hn)
  simpa using (h.nodup.subperm this).length_le

theorem writeVec_ends {w : Obj → Alist → Option (List Tok × Alist)} {root : Obj} {R ms : List Nat} {es : List Obj}
    (hs : ∀ {o al r}, Numbered al → w o al = some r → ObjSpec H o al r)
    (hw : ∀ {o al}, o ∈ es → Inside H root R al ms → ∃ r, w o al = some r) :
    ∀ {os : List Obj} {al : Alist}, (∀ o ∈ os, o ∈ es) → Inside H root R al ms → ∃ r, writeVec w os al = some r
  | [], al, _, _ => ⟨_, rfl⟩
  | [o], al, ho, hi => hw (ho o (by simp)) hi
  | o :: o' :: os, al, ho, hi => by
    obtain ⟨⟨ts, al₁⟩, h₁⟩ := hw (ho o (by simp)) hi
    obtain ⟨D, new, -, hwr, -⟩ := hs hi.numbered h₁
    obtain ⟨⟨us, al₂⟩, h₂⟩ := writeVec_ends hs hw (os := o' :: os) (fun x hx => ho x (by simp at hx ⊢; tauto)) (hi.after hwr)
    exact ⟨(ts ++ .space :: us, al₂), by simp only [writeVec, h₁, h₂, Option.bind_some, Option.map_some]⟩

mutual

theorem writeObj_ends {root : Obj} {R : List Nat} {B : Nat} (hB : ∀ n ∈ R, n < B) : ∀ (f : Nat) {o : Obj} {al : Alist}
    {ms : List Nat}, Inside H root R al ms → Below H root ms o → 3 * (B - ms.length) + 1 ≤ f →
    ∃ r, writeObj H f o al = some r
  | 0, o, al, ms, _, _, hf => by omega
  | f + 1, o, al, ms, hi, hb, hf => by
    simp only [writeObj]
    cases hint : interesting H o with
    | none => exact ⟨_, rfl⟩
    | some n =>
      obtain ⟨rfl, he⟩ := interesting_iff.1 hint
      have hch := hb.chain he
      have hmem := hch.mem hi.marked
      cases ha : assq n al with
      | none => exact absurd (hmem n (by simp)) ((hi.marked.keys n).1 ha)
      | some x =>
        cases x with
        | num k => exact ⟨([.ref k], al), by simp only [ha]⟩
        | no =>
          have hi' := hi.enter hb he ha
          have hl := hi'.length hB hmem
          simp only [List.length_cons] at hl
          obtain ⟨r, hr⟩ := writeInteresting_ends hB f hi' hch he (by simp only [List.length_cons]; omega)
          exact ⟨r, by simp only [ha]; exact hr⟩
        | yes =>
          have hi' := hi.number ha
          have hl := hi'.length hB hmem
          simp only [List.length_cons] at hl
          obtain ⟨r, hr⟩ := writeInteresting_ends hB f hi' hch he (by simp only [List.length_cons]; omega)
          exact ⟨(.label (nextLabel al) :: r.1, r.2), by simp only [ha, hr, Option.map_some]⟩

theorem writeInteresting_ends {root : Obj} {R : List Nat} {B : Nat} (hB : ∀ n ∈ R, n < B) : ∀ (f : Nat) {n : Nat} {al : Alist}
    {ms : List Nat}, Inside H root R al (n :: ms) → Chain H root (n :: ms) → (H n).isEmpty = false →
    3 * (B - (n :: ms).length) + 3 ≤ f → ∃ r, writeInteresting H f n al = some r
  | 0, n, al, ms, _, _, _, hf => by omega
  | f + 1, n, al, ms, hi, hc, he, hf => by
    simp only [writeInteresting]
    cases hH : H n with
    | string s => exact ⟨_, rfl⟩
    | pair a d =>
      have hpa : Below H root (n :: ms) a := ⟨hc, by simp [hH, Node.parts]⟩
      have hpd : Below H root (n :: ms) d := ⟨hc, by simp [hH, Node.parts]⟩
      obtain ⟨⟨ts, al₁⟩, h₁⟩ := writeObj_ends hB f hi hpa (by omega)
      obtain ⟨D, new, -, hw, -⟩ := writeObj_spec f hi.numbered h₁
      obtain ⟨⟨us, al₂⟩, h₂⟩ := writeCdr_ends hB f (hi.after hw) hpd (by omega)
      exact ⟨(.lp :: (ts ++ us), al₂), by simp only [h₁, h₂, Option.bind_some, Option.map_some]⟩
    | vector es =>
      obtain ⟨⟨ts, al₁⟩, h₁⟩ := writeVec_ends (H := H) (w := writeObj H f) (R := R) (ms := n :: ms) (es := es) (root := root)
        (fun hn h => writeObj_spec f hn h)
        (fun ho hi => writeObj_ends hB f hi ⟨hc, by simpa [hH, Node.parts] using ho⟩ (by omega)) (os := es) (fun _ h => h) hi
      exact ⟨(.vec :: (ts ++ [.rp]), al₁), by simp only [h₁, Option.map_some]⟩

theorem writeCdr_ends {root : Obj} {R : List Nat} {B : Nat} (hB : ∀ n ∈ R, n < B) : ∀ (f : Nat) {o : Obj} {al : Alist}
    {ms : List Nat}, Inside H root R al ms → Below H root ms o → 3 * (B - ms.length) + 2 ≤ f →
    ∃ r, writeCdr H f o al = some r
  | 0, o, al, ms, _, _, hf => by omega
  | f + 1, o, al, ms, hi, hb, hf => by
    obtain ⟨⟨ts, al₁⟩, h₁⟩ := writeObj_ends hB f hi hb (by omega)
    simp only [writeCdr]
    cases o with
    | nil => exact ⟨_, rfl⟩
    | atom a => exact ⟨_, by simp only [h₁, Option.map_some]; rfl⟩
    | ref n =>
      cases hH : H n with
      | vector | string => exact ⟨(.dot :: (ts ++ [.rp]), al₁), by simp only [hH, h₁, Option.map_some]⟩
      | pair a d =>
        have he : (H n).isEmpty = false := by simp [hH, Node.isEmpty]
        have hch := hb.chain he
        have hmem := hch.mem hi.marked
        cases ha : assq n al with
        | none => exact absurd (hmem n (by simp)) ((hi.marked.keys n).1 ha)
        | some x =>
          cases x with
          | yes | num => exact ⟨(.dot :: (ts ++ [.rp]), al₁), by simp only [hH, ha, h₁, Option.map_some]⟩
          | no =>
            have hi' := hi.enter hb he ha
            have hl := hi'.length hB hmem
            simp only [List.length_cons] at hl
            have hpa : Below H root (n :: ms) a := ⟨hch, by simp [hH, Node.parts]⟩
            have hpd : Below H root (n :: ms) d := ⟨hch, by simp [hH, Node.parts]⟩
            obtain ⟨⟨ts, al₁⟩, h₁⟩ := writeObj_ends hB f hi' hpa (by simp only [List.length_cons]; omega)
            obtain ⟨D, new, -, hw, -⟩ := writeObj_spec f hi.numbered h₁
            obtain ⟨⟨us, al₂⟩, h₂⟩ := writeCdr_ends hB f (hi'.after hw) hpd (by simp only [List.length_cons]; omega)
            exact ⟨(.space :: (ts ++ us), al₂), by simp only [hH, ha, h₁, h₂, Option.bind_some, Option.map_some]⟩

end

/-- `write-shared` ends, for every object of finitely many parts, however they refer to each other. -/
theorem writeShared_ends {B : Nat} (hB : Closed H B) {o : Obj} (ho : o.bounded B) {f : Nat} (hf : 3 * B + 1 ≤ f) :
    ∃ ts, writeShared H f o = some ts := by
  have hu := unseen_le B []
  obtain ⟨al, h₁, -⟩ := scan_ends hB f (o := o) (al := []) ho (by omega)
  obtain ⟨R, hm, hR, -, -⟩ := marked_scan h₁
  have hl : labels al = [] := scan_labels (al := []) rfl h₁
  have hn : Numbered ((none, .num 0) :: al) := ⟨⟨_, _, _, rfl⟩, by simp [labels, hl], by simp [labels, hl]⟩
  obtain ⟨r, h₂⟩ := writeObj_ends (fun n hn => reach_bounded hB ho (hR n hn)) f (ms := []) ⟨hm, .nil, by simp, hn⟩ rfl
    (by simpa using hf)
  exact ⟨r.1, by simp only [writeShared, h₁, h₂, Option.bind_some, Option.map_some]⟩

end Meevax.Shared
