import Verif.Model.SharedStructure
import Mathlib.Data.List.Basic
import Mathlib.Data.List.Nodup

/-! `scan` of SRFI 38: it ends, and counts the occurrences of every part. -/

namespace Meevax.Shared

variable {H : Heap Obj}

/-- The tracked parts of a node. -/
def kids (H : Heap Obj) (n : Nat) : List Nat := (H n).parts.filterMap (interesting H)

/-- How often `n` occurs in the nodes `ms`. -/
def occurs (H : Heap Obj) (ms : List Nat) (n : Nat) : Nat := (ms.map fun m => (kids H m).count n).sum

theorem occurs_cons (m : Nat) (ms : List Nat) (n : Nat) :
    occurs H (m :: ms) n = (kids H m).count n + occurs H ms n := by simp [occurs]

theorem occurs_append (ms ms' : List Nat) (n : Nat) :
    occurs H (ms ++ ms') n = occurs H ms n + occurs H ms' n := by simp [occurs]

theorem interesting_iff {o : Obj} {n : Nat} : interesting H o = some n ↔ o = .ref n ∧ (H n).isEmpty = false := by
  cases o with
  | nil | atom => simp [interesting]
  | ref m =>
    simp only [interesting]
    split
    · rename_i h; simp; rintro rfl; exact h
    · rename_i h; simp; rintro rfl; simpa using h

theorem mem_kids {n m : Nat} : m ∈ kids H n ↔ .ref m ∈ (H n).parts ∧ (H m).isEmpty = false := by
  simp only [kids, List.mem_filterMap, interesting_iff]
  constructor
  · rintro ⟨a, h, rfl, h'⟩; exact ⟨h, h'⟩
  · rintro ⟨h, h'⟩; exact ⟨_, h, rfl, h'⟩

theorem assq_cons {n m : Nat} {x : Mark} {al : Alist} :
    assq n ((some m, x) :: al) = if m = n then some x else assq n al := by
  simp [assq]

/-- What the marks say of the numbers of occurrences. -/
def Counts (al : Alist) (c : Nat → Nat) : Prop :=
  ∀ n, match assq n al with
  | none => c n = 0
  | some .no => c n = 1
  | some .yes => 2 ≤ c n
  | some (.num _) => False

structure Scanned (H : Heap Obj) (objs : List Obj) (al al' : Alist) (c : Nat → Nat) (new : List Nat) : Prop where
  nodup : new.Nodup
  fresh : ∀ n ∈ new, assq n al = none
  keys : ∀ n, assq n al' = none ↔ assq n al = none ∧ n ∉ new
  counts : Counts al' fun n => c n + (objs.filterMap (interesting H)).count n + occurs H new n
  reach : ∀ n ∈ new, ∃ o ∈ objs, Reach H o n

theorem Scanned.cons {o : Obj} {os : List Obj} {al al₁ al₂ : Alist} {c : Nat → Nat} {new₁ new₂ : List Nat}
    (h₁ : Scanned H [o] al al₁ c new₁)
    (h₂ : Scanned H os al₁ al₂ (fun n => c n + ([o].filterMap (interesting H)).count n + occurs H new₁ n) new₂) :
    Scanned H (o :: os) al al₂ c (new₁ ++ new₂) := by
  refine ⟨?_, ?_, ?_, ?_, ?_⟩
  · refine List.nodup_append.2 ⟨h₁.nodup, h₂.nodup, ?_⟩
    rintro a ha b hb rfl
    exact ((h₁.keys a).1 (h₂.fresh a hb)).2 ha
  · intro n hn
    rcases List.mem_append.1 hn with hn | hn
    · exact h₁.fresh n hn
    · exact ((h₁.keys n).1 (h₂.fresh n hn)).1
  · intro n
    rw [h₂.keys, h₁.keys]
    simp [and_assoc]
  · have : (fun n => c n + ((o :: os).filterMap (interesting H)).count n + occurs H (new₁ ++ new₂) n) =
        fun n => (fun n => c n + ([o].filterMap (interesting H)).count n + occurs H new₁ n) n +
          (os.filterMap (interesting H)).count n + occurs H new₂ n := by
      funext n
      simp only [occurs_append]
      rw [show o :: os = [o] ++ os from rfl, List.filterMap_append, List.count_append]
      omega
    rw [this]
    exact h₂.counts
  · intro n hn
    rcases List.mem_append.1 hn with hn | hn
    · obtain ⟨o', ho', h⟩ := h₁.reach n hn
      obtain rfl := List.mem_singleton.1 ho'
      exact ⟨o', by simp, h⟩
    · obtain ⟨o', ho', h⟩ := h₂.reach n hn
      exact ⟨o', by simp [ho'], h⟩

theorem Scanned.nil {al : Alist} {c : Nat → Nat} (hc : Counts al c) : Scanned H [] al al c [] :=
  ⟨by simp, by simp, by simp, by simpa [occurs] using hc, by simp⟩

theorem scans_spec {w : Obj → Alist → Option Alist}
    (hw : ∀ {o al al' c}, Counts al c → w o al = some al' → ∃ new, Scanned H [o] al al' c new) :
    ∀ {os : List Obj} {al al' : Alist} {c : Nat → Nat}, Counts al c → scans w os al = some al' →
      ∃ new, Scanned H os al al' c new
  | [], al, al', c, hc, h => by cases h; exact ⟨[], .nil hc⟩
  | o :: os, al, al', c, hc, h => by
    simp only [scans, Option.bind_eq_some_iff] at h
    obtain ⟨al₁, h₁, h₂⟩ := h
    obtain ⟨new₁, s₁⟩ := hw hc h₁
    obtain ⟨new₂, s₂⟩ := scans_spec hw s₁.counts h₂
    exact ⟨_, s₁.cons s₂⟩

/-- What the parts of a new node add. -/
theorem Scanned.node {n : Nat} {al al' : Alist} {c : Nat → Nat} {new : List Nat} (he : (H n).isEmpty = false)
    (hn : assq n al = none) {os : List Obj} (ho : ∀ m, (os.filterMap (interesting H)).count m = (kids H n).count m)
    (hmem : ∀ o ∈ os, o ∈ (H n).parts)
    (h : Scanned H os ((some n, .no) :: al) al' (fun m => c m + if m = n then 1 else 0) new) :
    Scanned H [.ref n] al al' c (n :: new) := by
  refine ⟨?_, ?_, ?_, ?_, ?_⟩
  · refine List.nodup_cons.2 ⟨fun hm => ?_, h.nodup⟩
    have := h.fresh n hm
    simp [assq_cons] at this
  · intro m hm
    rcases List.mem_cons.1 hm with rfl | hm
    · exact hn
    · have := h.fresh m hm
      rw [assq_cons] at this
      split at this
      · cases this
      · exact this
  · intro m
    rw [h.keys, assq_cons]
    by_cases hm : n = m
    · subst hm; simp
    · simp [hm, Ne.symm hm]
  · have := h.counts
    refine fun m => ?_
    have := this m
    have hi : ([Obj.ref n].filterMap (interesting H)).count m = if m = n then 1 else 0 := by
      have : interesting H (.ref n) = some n := interesting_iff.2 ⟨rfl, he⟩
      simp only [List.filterMap_cons, this, List.filterMap_nil]
      by_cases hm : m = n
      · simp [hm]
      · simp [hm, Ne.symm hm]
    simp only [hi, occurs_cons]
    simp only [ho] at this
    revert this
    have e : c m + (if m = n then 1 else 0) + (kids H n).count m + occurs H new m =
      c m + (if m = n then 1 else 0) + ((kids H n).count m + occurs H new m) := by omega
    rw [e]
    exact id
  · intro m hm
    refine ⟨_, List.mem_singleton.2 rfl, ?_⟩
    rcases List.mem_cons.1 hm with rfl | hm
    · exact .here he
    · obtain ⟨o, ho', hr⟩ := h.reach m hm
      exact reach_trans he (hmem o ho') hr
where
  reach_trans {n m : Nat} {o : Obj} (he : (H n).isEmpty = false) (ho : o ∈ (H n).parts) (hr : Reach H o m) :
      Reach H (.ref n) m := by
    induction hr with
    | here h => exact .part (.here he) ho h
    | part _ hm he ih => exact .part (ih ho) hm he

theorem counts_node {n : Nat} {al : Alist} {c : Nat → Nat} (hc : Counts al c) (hn : assq n al = none) :
    Counts ((some n, .no) :: al) fun m => c m + if m = n then 1 else 0 := by
  intro m
  have := hc m
  rw [assq_cons]
  by_cases hm : n = m
  · subst hm
    rw [hn] at this
    simp [this]
  · simpa [hm, Ne.symm hm] using this

theorem scan_spec : ∀ (f : Nat) {o : Obj} {al al' : Alist} {c : Nat → Nat}, Counts al c →
    scan H f o al = some al' → ∃ new, Scanned H [o] al al' c new
  | 0, o, al, al', c, _, h => by simp [scan] at h
  | f + 1, o, al, al', c, hc, h => by
    simp only [scan] at h
    cases hi : interesting H o with
    | none =>
      simp only [hi, Option.some.injEq] at h
      subst h
      exact ⟨[], by simp, by simp, by simp, by simpa [occurs, hi] using hc, by simp⟩
    | some n =>
      simp only [hi] at h
      obtain ⟨rfl, he⟩ := interesting_iff.1 hi
      have hcount : ∀ m, ([Obj.ref n].filterMap (interesting H)).count m = if m = n then 1 else 0 := by
        intro m
        simp only [List.filterMap_cons, hi, List.filterMap_nil]
        by_cases hm : m = n
        · simp [hm]
        · simp [hm, Ne.symm hm]
      cases ha : assq n al with
      | some x =>
        have hn := hc n
        cases x with
        | no =>
          simp only [ha, Option.some.injEq] at h hn
          subst h
          refine ⟨[], by simp, by simp, ?_, ?_, by simp⟩
          · intro m
            rw [assq_cons]
            by_cases hm : n = m
            · subst hm; simp [ha]
            · simp [hm]
          · intro m
            simp only [assq_cons, hcount]
            have := hc m
            by_cases hm : n = m
            · subst hm; simp [occurs, hn]
            · simpa [hm, Ne.symm hm, occurs] using this
        | yes =>
          simp only [ha, Option.some.injEq] at h hn
          subst h
          refine ⟨[], by simp, by simp, by simp, ?_, by simp⟩
          intro m
          simp only [hcount]
          have := hc m
          by_cases hm : m = n
          · subst hm; simp only [ha]; simp [occurs]; omega
          · simpa [hm, occurs] using this
        | num k => simp only [ha] at hn
      | none =>
        simp only [ha] at h
        have hc' := counts_node hc ha
        cases hH : H n with
        | pair a d =>
          simp only [hH, Option.bind_eq_some_iff] at h
          obtain ⟨al₁, h₁, h₂⟩ := h
          obtain ⟨new₁, s₁⟩ := scan_spec f hc' h₁
          obtain ⟨new₂, s₂⟩ := scan_spec f s₁.counts h₂
          refine ⟨_, Scanned.node he ha (os := [d, a]) ?_ ?_ (s₁.cons s₂)⟩
          · intro m
            simp only [kids, hH, Node.parts]
            rw [show [d, a] = [d] ++ [a] from rfl, show [a, d] = [a] ++ [d] from rfl, List.filterMap_append,
              List.filterMap_append, List.count_append, List.count_append]
            omega
          · simp [hH, Node.parts]
        | vector es =>
          simp only [hH] at h
          obtain ⟨new, s⟩ := scans_spec (fun hc h => scan_spec f hc h) hc' h
          exact ⟨_, Scanned.node he ha (by simp [kids, hH, Node.parts]) (by simp [hH, Node.parts]) s⟩
        | string s =>
          simp only [hH, Option.some.injEq] at h
          subst h
          exact ⟨_, Scanned.node he ha (os := []) (by simp [kids, hH, Node.parts]) (by simp) (.nil hc')⟩

/-- All that a node below `B` refers to is below `B`. -/
def Closed (H : Heap Obj) (B : Nat) : Prop := ∀ n m, n < B → .ref m ∈ (H n).parts → m < B

def Obj.bounded (B : Nat) : Obj → Prop
  | .ref n => n < B
  | _ => True

theorem Closed.parts {B n : Nat} (hB : Closed H B) (hn : n < B) : ∀ o ∈ (H n).parts, o.bounded B := by
  intro o ho
  cases o with
  | nil | atom => trivial
  | ref m => exact hB n m hn ho

theorem reach_bounded {B : Nat} (hB : Closed H B) {o : Obj} {n : Nat} (ho : o.bounded B) (h : Reach H o n) : n < B := by
  induction h with
  | here => exact ho
  | part _ hm _ ih => exact hB _ _ (ih ho) hm

/-- The nodes below `B` that have no mark yet. -/
def unseen (B : Nat) (al : Alist) : Nat := ((List.range B).filter fun n => (assq n al).isNone).length

theorem unseen_mono {B : Nat} {al al' : Alist} (h : ∀ n, assq n al' = none → assq n al = none) :
    unseen B al' ≤ unseen B al := by
  simp only [unseen, ← List.countP_eq_length_filter]
  refine List.countP_mono_left fun n _ hn => ?_
  simp only [Option.isNone_iff_eq_none] at hn ⊢
  exact h n hn

theorem unseen_cons {B n : Nat} {al : Alist} (hn : n < B) (ha : assq n al = none) (x : Mark) :
    unseen B ((some n, x) :: al) + 1 ≤ unseen B al := by
  have key : ∀ (l : List Nat), n ∈ l →
      l.countP (fun m => (assq m ((some n, x) :: al)).isNone) + 1 ≤ l.countP fun m => (assq m al).isNone := by
    intro l
    induction l with
    | nil => simp
    | cons m l ih =>
      intro hm
      simp only [List.countP_cons, assq_cons]
      have mono : l.countP (fun m => (if n = m then some x else assq m al).isNone) ≤
          l.countP fun m => (assq m al).isNone := by
        refine List.countP_mono_left fun k _ hk => ?_
        split at hk
        · cases hk
        · exact hk
      by_cases hnm : n = m
      · subst hnm
        simp only [if_true, Option.isNone_some, ha, Option.isNone_none, Bool.false_eq_true, if_false]
        omega
      · have := ih (by simpa [hnm] using hm)
        simp only [assq_cons] at this
        simp only [hnm, if_false]
        omega
  simp only [unseen, ← List.countP_eq_length_filter]
  exact key _ (by simp [hn])

theorem scans_ends {w : Obj → Alist → Option Alist} {B f : Nat}
    (hw : ∀ {o : Obj} {al : Alist}, o.bounded B → unseen B al < f →
      ∃ al', w o al = some al' ∧ unseen B al' ≤ unseen B al) :
    ∀ {os : List Obj} {al : Alist}, (∀ o ∈ os, o.bounded B) → unseen B al < f →
      ∃ al', scans w os al = some al' ∧ unseen B al' ≤ unseen B al
  | [], al, _, _ => ⟨al, rfl, Nat.le_refl _⟩
  | o :: os, al, ho, hf => by
    obtain ⟨al₁, h₁, h₂⟩ := hw (ho o (by simp)) hf
    obtain ⟨al₂, h₃, h₄⟩ := scans_ends hw (os := os) (al := al₁) (fun o h => ho o (by simp [h])) (by omega)
    exact ⟨al₂, by simp [scans, h₁, h₃], by omega⟩

/-- `scan` ends. -/
theorem scan_ends {B : Nat} (hB : Closed H B) : ∀ (f : Nat) {o : Obj} {al : Alist}, o.bounded B →
    unseen B al < f → ∃ al', scan H f o al = some al' ∧ unseen B al' ≤ unseen B al
  | 0, _, _, _, h => by omega
  | f + 1, o, al, ho, hf => by
    simp only [scan]
    cases hi : interesting H o with
    | none => exact ⟨al, rfl, Nat.le_refl _⟩
    | some n =>
      obtain ⟨rfl, he⟩ := interesting_iff.1 hi
      cases ha : assq n al with
      | some x =>
        cases x with
        | no =>
          refine ⟨(some n, .yes) :: al, by simp only [ha], unseen_mono fun m hm => ?_⟩
          rw [assq_cons] at hm
          split at hm
          · cases hm
          · exact hm
        | yes => exact ⟨_, by simp only [ha], Nat.le_refl _⟩
        | num => exact ⟨_, by simp only [ha], Nat.le_refl _⟩
      | none =>
        have hu := unseen_cons (x := .no) ho ha
        have hp := hB.parts ho
        cases hH : H n with
        | pair a d =>
          simp only [hH, Node.parts, List.mem_cons, List.not_mem_nil, or_false, forall_eq_or_imp, forall_eq] at hp
          obtain ⟨al₁, h₁, h₂⟩ := scan_ends hB f (o := d) (al := (some n, .no) :: al) hp.2 (by omega)
          obtain ⟨al₂, h₃, h₄⟩ := scan_ends hB f (o := a) (al := al₁) hp.1 (by omega)
          exact ⟨al₂, by simp only [ha, hH, h₁, h₃, Option.bind_some], by omega⟩
        | vector es =>
          simp only [hH, Node.parts] at hp
          obtain ⟨al₁, h₁, h₂⟩ := scans_ends (fun ho hf => scan_ends hB f ho hf) (al := (some n, .no) :: al) hp
            (by omega)
          exact ⟨al₁, by simp only [ha, hH, h₁], by omega⟩
        | string s => exact ⟨(some n, .no) :: al, by simp only [ha, hH], by omega⟩

theorem unseen_le (B : Nat) (al : Alist) : unseen B al ≤ B := by
  simp only [unseen]
  exact Nat.le_trans (List.length_filter_le _ _) (by simp)

end Meevax.Shared
