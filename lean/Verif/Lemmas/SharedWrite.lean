import Verif.Lemmas.SharedScan

/-! `write-obj` of SRFI 38: what it writes shows the object, and every part once. -/

namespace Meevax.Shared

variable {H : Heap Obj}

/-- The labels that were given. -/
def labels : Alist → List Nat
  | [] => []
  | (some _, .num k) :: al => k :: labels al
  | _ :: al => labels al

/-- The first entry has the most recent label. -/
structure Numbered (al : Alist) : Prop where
  head : ∃ o k rest, al = (o, .num k) :: rest
  lt : ∀ k ∈ labels al, k < nextLabel al
  nodup : (labels al).Nodup

theorem Numbered.push {al : Alist} (h : Numbered al) (n : Nat) : Numbered ((some n, .num (nextLabel al)) :: al) := by
  refine ⟨⟨_, _, _, rfl⟩, fun k hk => ?_, ?_⟩
  · simp only [labels, List.mem_cons] at hk
    show k < nextLabel al + 1
    rcases hk with rfl | hk
    · omega
    · have := h.lt k hk; omega
  · simp only [labels]
    exact List.nodup_cons.2 ⟨fun hk => Nat.lt_irrefl _ (h.lt _ hk), h.nodup⟩

theorem mem_of_assq {n : Nat} {x : Mark} : ∀ {al : Alist}, assq n al = some x → (some n, x) ∈ al
  | [], h => by simp [assq] at h
  | (o, y) :: al, h => by
    simp only [assq] at h
    split at h
    · rename_i ho
      cases h
      simp [ho]
    · exact List.mem_cons_of_mem _ (mem_of_assq h)

theorem mem_labels {n k : Nat} : ∀ {al : Alist}, (some n, .num k) ∈ al → k ∈ labels al
  | [], h => by cases h
  | (o, y) :: al, h => by
    rcases List.mem_cons.1 h with h | h
    · cases h; simp [labels]
    · have := mem_labels h
      cases o <;> cases y <;> simp [labels, this]

/-- What the labels of a list stand for. -/
def labelled : Alist → Nat → Option Obj
  | [], _ => none
  | (some n, .num k) :: al, j => if k = j then some (.ref n) else labelled al j
  | _ :: al, j => labelled al j

theorem labelled_of_mem {n k : Nat} : ∀ {al : Alist}, (labels al).Nodup → (some n, .num k) ∈ al →
    labelled al k = some (.ref n)
  | [], _, h => by cases h
  | (o, y) :: al, hn, h => by
    rcases List.mem_cons.1 h with h' | h'
    · cases h'; simp [labelled]
    · have hk := mem_labels h'
      cases o with
      | none => simp only [labelled, labels] at hn ⊢; exact labelled_of_mem hn h'
      | some m =>
        cases y with
        | no | yes => simp only [labelled, labels] at hn ⊢; exact labelled_of_mem hn h'
        | num j =>
          simp only [labels] at hn
          have hj := List.nodup_cons.1 hn
          simp only [labelled]
          have : j ≠ k := fun e => hj.1 (e ▸ hk)
          simp only [this, if_false]
          exact labelled_of_mem hj.2 h'

/-- `L` is what the labels of the list stand for. -/
def Gives (L : Nat → Option Obj) (al : Alist) : Prop := ∀ n k, (some n, .num k) ∈ al → L k = some (.ref n)

theorem Gives.suffix {L : Nat → Option Obj} {al al' : Alist} (h : Gives L al') (hs : al <:+ al') : Gives L al :=
  fun n k hk => h n k (hs.subset hk)

/-- How often `n` was met when writing `objs`, with the nodes `new` in full. -/
def met (H : Heap Obj) (objs : List Obj) (new : List Nat) (n : Nat) : Nat :=
  (objs.filterMap (interesting H)).count n + occurs H new n

structure Wrote (H : Heap Obj) (objs : List Obj) (al al' : Alist) (new : List Nat) : Prop where
  suffix : al <:+ al'
  numbered : Numbered al'
  no : ∀ n, assq n al = some .no → assq n al' = some .no ∧ new.count n = met H objs new n
  yes : ∀ n, assq n al = some .yes →
    (met H objs new n = 0 ∧ new.count n = 0 ∧ assq n al' = some .yes) ∨
    (0 < met H objs new n ∧ new.count n = 1 ∧ ∃ k, assq n al' = some (.num k))
  num : ∀ n k, assq n al = some (.num k) → assq n al' = some (.num k) ∧ new.count n = 0
  none : ∀ n, assq n al = none → assq n al' = none ∧ new.count n = 0
  given : ∀ n k, (some n, .num k) ∈ al' → (some n, .num k) ∈ al ∨ assq n al = some .yes

theorem met_cons (o : Obj) (os : List Obj) (new₁ new₂ : List Nat) (n : Nat) :
    met H (o :: os) (new₁ ++ new₂) n = met H [o] new₁ n + met H os new₂ n := by
  simp only [met, occurs_append]
  rw [show o :: os = [o] ++ os from rfl, List.filterMap_append, List.count_append]
  omega

theorem Wrote.nil {al : Alist} (h : Numbered al) : Wrote H [] al al [] :=
  ⟨List.suffix_refl _, h, fun n hn => ⟨hn, by simp [met, occurs]⟩, fun n hn => .inl ⟨by simp [met, occurs], by simp, hn⟩,
    fun n k hn => ⟨hn, by simp⟩, fun n hn => ⟨hn, by simp⟩, fun _ _ h => .inl h⟩

theorem Wrote.cons {o : Obj} {os : List Obj} {al al₁ al₂ : Alist} {new₁ new₂ : List Nat}
    (h₁ : Wrote H [o] al al₁ new₁) (h₂ : Wrote H os al₁ al₂ new₂) : Wrote H (o :: os) al al₂ (new₁ ++ new₂) := by
  refine ⟨h₁.suffix.trans h₂.suffix, h₂.numbered, fun n hn => ?_, fun n hn => ?_, fun n k hn => ?_, fun n hn => ?_, fun n k hn => ?_⟩
  · obtain ⟨h₃, h₄⟩ := h₁.no n hn
    obtain ⟨h₅, h₆⟩ := h₂.no n h₃
    exact ⟨h₅, by rw [List.count_append, met_cons, h₄, h₆]⟩
  · rw [List.count_append, met_cons]
    rcases h₁.yes n hn with ⟨h₃, h₄, h₅⟩ | ⟨h₃, h₄, k, h₅⟩
    · rcases h₂.yes n h₅ with ⟨h₆, h₇, h₈⟩ | ⟨h₆, h₇, h₈⟩
      · exact .inl ⟨by omega, by omega, h₈⟩
      · exact .inr ⟨by omega, by omega, h₈⟩
    · obtain ⟨h₆, h₇⟩ := h₂.num n k h₅
      exact .inr ⟨by omega, by omega, k, h₆⟩
  · obtain ⟨h₃, h₄⟩ := h₁.num n k hn
    obtain ⟨h₅, h₆⟩ := h₂.num n k h₃
    exact ⟨h₅, by rw [List.count_append]; omega⟩
  · obtain ⟨h₃, h₄⟩ := h₁.none n hn
    obtain ⟨h₅, h₆⟩ := h₂.none n h₃
    exact ⟨h₅, by rw [List.count_append]; omega⟩
  · rcases h₂.given n k hn with hn | hn
    · exact h₁.given n k hn
    · right
      cases ha : assq n al with
      | none => rw [(h₁.none n ha).1] at hn; cases hn
      | some x =>
        cases x with
        | no => rw [(h₁.no n ha).1] at hn; cases hn
        | num k => rw [(h₁.num n k ha).1] at hn; cases hn
        | yes => rfl

theorem Wrote.literal {o : Obj} {al : Alist} (h : Numbered al) (ho : interesting H o = Option.none) :
    Wrote H [o] al al [] := by
  have hm : ∀ n, met H [o] [] n = 0 := by simp [met, occurs, ho]
  exact ⟨List.suffix_refl _, h, fun n hn => ⟨hn, by simp [hm]⟩, fun n hn => .inl ⟨by simp [hm], by simp, hn⟩,
    fun n k hn => ⟨hn, by simp⟩, fun n hn => ⟨hn, by simp⟩, fun _ _ h => .inl h⟩

theorem met_node {n : Nat} (he : (H n).isEmpty = false) (new : List Nat) (m : Nat) :
    met H [.ref n] (n :: new) m = (if m = n then 1 else 0) + met H (H n).parts new m := by
  have hi : interesting H (.ref n) = some n := interesting_iff.2 ⟨rfl, he⟩
  simp only [met, occurs_cons, List.filterMap_cons, hi, List.filterMap_nil, kids]
  by_cases hm : m = n
  · subst hm; simp [Nat.add_assoc]
  · simp [hm, Ne.symm hm]

theorem Wrote.known {n k : Nat} {al : Alist} (h : Numbered al) (he : (H n).isEmpty = false)
    (hn : assq n al = some (.num k)) : Wrote H [.ref n] al al [] := by
  have hi : interesting H (.ref n) = some n := interesting_iff.2 ⟨rfl, he⟩
  have hm : ∀ m, m ≠ n → met H [.ref n] [] m = 0 := fun m hm => by simp [met, occurs, hi, Ne.symm hm]
  refine ⟨List.suffix_refl _, h, fun m h' => ⟨h', ?_⟩, fun m h' => .inl ⟨?_, by simp, h'⟩,
    fun m k hn => ⟨hn, by simp⟩, fun m hn => ⟨hn, by simp⟩, fun _ _ h => .inl h⟩
  · have : m ≠ n := by rintro rfl; rw [hn] at h'; cases h'
    simp [hm m this]
  · have : m ≠ n := by rintro rfl; rw [hn] at h'; cases h'
    exact hm m this

theorem Wrote.plain {n : Nat} {al al' : Alist} {new : List Nat} (he : (H n).isEmpty = false)
    (hn : assq n al = some .no) (h : Wrote H (H n).parts al al' new) : Wrote H [.ref n] al al' (n :: new) := by
  refine ⟨h.suffix, h.numbered, fun m hm => ?_, fun m hm => ?_, fun m k hm => ?_, fun m hm => ?_, h.given⟩
  · obtain ⟨h₁, h₂⟩ := h.no m hm
    refine ⟨h₁, ?_⟩
    rw [met_node he, List.count_cons, h₂]
    by_cases hmn : m = n
    · subst hmn; simp; omega
    · simp [hmn, Ne.symm hmn]
  · have hmn : m ≠ n := by rintro rfl; rw [hn] at hm; cases hm
    rw [met_node he, List.count_cons]
    simpa [hmn, Ne.symm hmn] using h.yes m hm
  · have hmn : m ≠ n := by rintro rfl; rw [hn] at hm; cases hm
    rw [List.count_cons]
    simpa [hmn, Ne.symm hmn] using h.num m k hm
  · have hmn : m ≠ n := by rintro rfl; rw [hn] at hm; cases hm
    rw [List.count_cons]
    simpa [hmn, Ne.symm hmn] using h.none m hm

theorem Wrote.labelled {n k : Nat} {al al' : Alist} {new : List Nat} (he : (H n).isEmpty = false)
    (hn : assq n al = some .yes) (h : Wrote H (H n).parts ((some n, .num k) :: al) al' new) :
    Wrote H [.ref n] al al' (n :: new) := by
  have hass : ∀ m, m ≠ n → assq m ((some n, .num k) :: al) = assq m al := fun m hm => by
    rw [assq_cons]; simp [Ne.symm hm]
  refine ⟨(List.suffix_cons _ _).trans h.suffix, h.numbered, fun m hm => ?_, fun m hm => ?_, fun m k hm => ?_, fun m hm => ?_,
    fun m j hm => ?_⟩
  · have hmn : m ≠ n := by rintro rfl; rw [hn] at hm; cases hm
    rw [met_node he, List.count_cons]
    simpa [hmn, Ne.symm hmn] using h.no m (by rw [hass m hmn]; exact hm)
  · by_cases hmn : m = n
    · subst hmn
      obtain ⟨h₁, h₂⟩ := h.num m k (by simp [assq_cons])
      exact .inr ⟨by rw [met_node he]; simp only [if_true]; omega, by rw [List.count_cons]; simp [h₂], k, h₁⟩
    · rw [met_node he, List.count_cons]
      simpa [hmn, Ne.symm hmn] using h.yes m (by rw [hass m hmn]; exact hm)
  · have hmn : m ≠ n := by rintro rfl; rw [hn] at hm; cases hm
    rw [List.count_cons]
    simpa [hmn, Ne.symm hmn] using h.num m k (by rw [hass m hmn]; exact hm)
  · have hmn : m ≠ n := by rintro rfl; rw [hn] at hm; cases hm
    rw [List.count_cons]
    simpa [hmn, Ne.symm hmn] using h.none m (by rw [hass m hmn]; exact hm)
  · rcases h.given m j hm with hm | hm
    · rcases List.mem_cons.1 hm with hm | hm
      · cases hm; exact .inr hn
      · exact .inl hm
    · rw [assq_cons] at hm
      split at hm
      · cases hm
      · exact .inr hm

/-- What `write-obj` has written. -/
def ObjSpec (H : Heap Obj) (o : Obj) (al : Alist) (r : List Tok × Alist) : Prop :=
  ∃ D new, Text r.1 D ∧ Wrote H [o] al r.2 new ∧ Scoped (labels al) D (labels r.2) ∧
    ∀ L, Gives L r.2 → Den H L D o new

def CdrSpec (H : Heap Obj) (o : Obj) (al : Alist) (r : List Tok × Alist) : Prop :=
  ∃ D new, Tail r.1 D ∧ Wrote H [o] al r.2 new ∧ Scoped (labels al) D (labels r.2) ∧
    ∀ L, Gives L r.2 → Den H L D o new

def NodeSpec (H : Heap Obj) (n : Nat) (al : Alist) (r : List Tok × Alist) : Prop :=
  ∃ D new, Text r.1 D ∧ D.labelled ∧ Wrote H (H n).parts al r.2 new ∧ Scoped (labels al) D (labels r.2) ∧
    ∀ L, Gives L r.2 → Den H L D (.ref n) (n :: new)

theorem writeVec_spec {w : Obj → Alist → Option (List Tok × Alist)}
    (hw : ∀ {o al r}, Numbered al → w o al = some r → ObjSpec H o al r) :
    ∀ {es : List Obj} {al : Alist} {r : List Tok × Alist}, Numbered al → writeVec w es al = some r →
      ∃ Ds new, Elements r.1 Ds ∧ Wrote H es al r.2 new ∧ Scopeds (labels al) Ds (labels r.2) ∧
        (∀ L, Gives L r.2 → Dens H L Ds es new) ∧ Ds.length = es.length
  | [], al, r, hn, h => by
    simp only [writeVec, Option.some.injEq] at h
    subst h
    exact ⟨[], [], .nil, .nil hn, .nil _, fun _ _ => .nil, rfl⟩
  | [e], al, r, hn, h => by
    simp only [writeVec] at h
    obtain ⟨D, new, h₁, h₂, h₃, h₄⟩ := hw hn h
    refine ⟨[D], new, .one h₁, h₂, .cons h₃ (.nil _), fun L hL => ?_, rfl⟩
    simpa using Dens.cons (h₄ L hL) .nil
  | e :: e' :: es, al, r, hn, h => by
    simp only [writeVec, Option.bind_eq_some_iff, Option.map_eq_some_iff] at h
    obtain ⟨⟨ts, al₁⟩, h₁, ⟨us, al₂⟩, h₂, rfl⟩ := h
    obtain ⟨D, new₁, h₃, h₄, h₅, h₆⟩ := hw hn h₁
    obtain ⟨Ds, new₂, h₇, h₈, h₉, h₁₀, hl⟩ := writeVec_spec hw (es := e' :: es) h₄.numbered h₂
    obtain ⟨D', Ds, rfl⟩ := List.exists_cons_of_length_eq_add_one hl
    exact ⟨D :: D' :: Ds, new₁ ++ new₂, .cons h₃ h₇, h₄.cons h₈, .cons h₅ h₉,
      fun L hL => .cons (h₆ L (hL.suffix h₈.suffix)) (h₁₀ L hL), by simpa using hl⟩

theorem literal_spec {o : Obj} {al : Alist} (hn : Numbered al) (ho : interesting H o = none) :
    ObjSpec H o al (literal H o, al) := by
  cases o with
  | nil => exact ⟨.nil, [], .nil, .literal hn ho, .nil _, fun _ _ => .nil⟩
  | atom a => exact ⟨.atom a, [], .atom a, .literal hn ho, .atom _ _, fun _ _ => .atom a⟩
  | ref n =>
    have he : (H n).isEmpty = true := by
      simp only [interesting] at ho
      split at ho
      · assumption
      · cases ho
    cases hH : H n with
    | pair => simp [hH, Node.isEmpty] at he
    | vector es =>
      obtain rfl : es = [] := by
        cases es with
        | nil => rfl
        | cons => simp [hH, Node.isEmpty] at he
      refine ⟨.vector [], [], ?_, .literal hn ho, .vector (.nil _), fun _ _ => .noVector hH⟩
      simp only [Shared.literal, hH]
      exact .vector .nil
    | string s =>
      obtain rfl : s = [] := by
        cases s with
        | nil => rfl
        | cons => simp [hH, Node.isEmpty] at he
      refine ⟨.string [], [], ?_, .literal hn ho, .string _ _, fun _ _ => .noString hH⟩
      simp only [Shared.literal, hH]
      exact .string _

mutual

theorem writeObj_spec : ∀ (f : Nat) {o : Obj} {al : Alist} {r : List Tok × Alist}, Numbered al →
    writeObj H f o al = some r → ObjSpec H o al r
  | 0, o, al, r, _, h => by simp [writeObj] at h
  | f + 1, o, al, r, hn, h => by
    simp only [writeObj] at h
    cases hi : interesting H o with
    | none =>
      simp only [hi, Option.some.injEq] at h
      subst h
      exact literal_spec hn hi
    | some n =>
      obtain ⟨rfl, he⟩ := interesting_iff.1 hi
      simp only [hi] at h
      cases ha : assq n al with
      | none => simp [ha] at h
      | some x =>
        cases x with
        | no =>
          simp only [ha] at h
          obtain ⟨D, new, h₁, h₂, h₃, h₄, h₅⟩ := writeInteresting_spec f hn he h
          exact ⟨D, n :: new, h₁, .plain he ha h₃, h₄, h₅⟩
        | num k =>
          simp only [ha, Option.some.injEq] at h
          subst h
          exact ⟨.ref k, [], .ref k, .known hn he ha, .ref (mem_labels (mem_of_assq ha)),
            fun L hL => .ref (hL n k (mem_of_assq ha))⟩
        | yes =>
          simp only [ha, Option.map_eq_some_iff] at h
          obtain ⟨⟨ts, al'⟩, h, rfl⟩ := h
          obtain ⟨D, new, h₁, h₂, h₃, h₄, h₅⟩ := writeInteresting_spec f (hn.push n) he h
          refine ⟨.label (nextLabel al) D, n :: new, .label _ h₁, .labelled he ha h₃, .label ?_ h₂ h₄, fun L hL => ?_⟩
          · exact fun hk => Nat.lt_irrefl _ (hn.lt _ hk)
          · exact .label (hL n _ (h₃.suffix.subset (by simp))) (h₅ L hL)

theorem writeInteresting_spec : ∀ (f : Nat) {n : Nat} {al : Alist} {r : List Tok × Alist}, Numbered al →
    (H n).isEmpty = false → writeInteresting H f n al = some r → NodeSpec H n al r
  | 0, n, al, r, _, _, h => by simp [writeInteresting] at h
  | f + 1, n, al, r, hn, he, h => by
    simp only [writeInteresting] at h
    cases hH : H n with
    | pair a d =>
      simp only [hH, Option.bind_eq_some_iff, Option.map_eq_some_iff] at h
      obtain ⟨⟨ts, al₁⟩, h₁, ⟨us, al₂⟩, h₂, rfl⟩ := h
      obtain ⟨D, new₁, h₃, h₄, h₅, h₆⟩ := writeObj_spec f hn h₁
      obtain ⟨D', new₂, h₇, h₈, h₉, h₁₀⟩ := writeCdr_spec f h₄.numbered h₂
      refine ⟨.pair D D', new₁ ++ new₂, .pair h₃ h₇, rfl, ?_, .pair h₅ h₉, fun L hL => ?_⟩
      · rw [hH]; exact h₄.cons h₈
      · exact .pair hH (h₆ L (hL.suffix h₈.suffix)) (h₁₀ L hL)
    | vector es =>
      simp only [hH, Option.map_eq_some_iff] at h
      obtain ⟨⟨ts, al'⟩, h, rfl⟩ := h
      obtain ⟨Ds, new, h₁, h₂, h₃, h₄, hl⟩ := writeVec_spec (fun hn h => writeObj_spec f hn h) hn h
      have hes : es ≠ [] := by rintro rfl; simp [hH, Node.isEmpty] at he
      refine ⟨.vector Ds, new, .vector h₁, ?_, ?_, .vector h₃, fun L hL => .vector hH hes (h₄ L hL)⟩
      · cases Ds with
        | nil => cases es <;> simp at hl hes
        | cons => rfl
      · rw [hH]; exact h₂
    | string s =>
      simp only [hH, Option.some.injEq] at h
      subst h
      have hs : s ≠ [] := by rintro rfl; simp [hH, Node.isEmpty] at he
      refine ⟨.string s, [], .string s, ?_, ?_, .string _ _, fun L hL => .string hH hs⟩
      · cases s with
        | nil => exact absurd rfl hs
        | cons => rfl
      · rw [hH]; exact .nil hn

theorem writeCdr_spec : ∀ (f : Nat) {o : Obj} {al : Alist} {r : List Tok × Alist}, Numbered al →
    writeCdr H f o al = some r → CdrSpec H o al r
  | 0, o, al, r, _, h => by simp [writeCdr] at h
  | f + 1, o, al, r, hn, h => by
    have rest : ∀ {o}, ((writeObj H f o al).map fun ts => (Tok.dot :: (ts.1 ++ [.rp]), ts.2)) = some r →
        CdrSpec H o al r := fun {o} h => by
      simp only [Option.map_eq_some_iff] at h
      obtain ⟨⟨ts, al'⟩, h', rfl⟩ := h
      obtain ⟨D, new, h₁, h₂⟩ := writeObj_spec f hn h'
      exact ⟨D, new, .dot h₁, h₂⟩
    simp only [writeCdr] at h
    cases o with
    | nil =>
      simp only [Option.some.injEq] at h
      subst h
      exact ⟨.nil, [], .nil, .literal hn rfl, .nil _, fun _ _ => .nil⟩
    | atom a => exact rest h
    | ref n =>
      cases hH : H n with
      | vector | string => simp only [hH] at h; exact rest h
      | pair a d =>
        have he : (H n).isEmpty = false := by simp [hH, Node.isEmpty]
        simp only [hH] at h
        cases ha : assq n al with
        | none => simp [ha] at h
        | some x =>
          cases x with
          | yes | num => simp only [ha] at h; exact rest h
          | no =>
            simp only [ha, Option.bind_eq_some_iff, Option.map_eq_some_iff] at h
            obtain ⟨⟨ts, al₁⟩, h₁, ⟨us, al₂⟩, h₂, rfl⟩ := h
            obtain ⟨D, new₁, h₃, h₄, h₅, h₆⟩ := writeObj_spec f hn h₁
            obtain ⟨D', new₂, h₇, h₈, h₉, h₁₀⟩ := writeCdr_spec f h₄.numbered h₂
            refine ⟨.pair D D', n :: (new₁ ++ new₂), .pair h₃ h₇, .plain he ha ?_, .pair h₅ h₉, fun L hL => ?_⟩
            · rw [hH]; exact h₄.cons h₈
            · exact .pair hH (h₆ L (hL.suffix h₈.suffix)) (h₁₀ L hL)

end

end Meevax.Shared
