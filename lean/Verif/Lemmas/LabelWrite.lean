import Verif.Lemmas.LabelEnds
import Mathlib.Data.List.Nodup

/-! What `write` writes shows the object. -/

namespace Meevax.Label

open Meevax.Shared

variable {H : Heap Obj} {B : Nat} {circ : Obj → Option Bool}

/-- The numbers in the table. -/
def nums (t : List (Nat × Nat)) : List Nat := t.map Prod.snd

/-- `L` is what the numbers of the table stand for. -/
def Gives (L : Nat → Option Obj) (t : List (Nat × Nat)) : Prop := ∀ n k, (n, k) ∈ t → L k = some (.ref n)

/-- The numbers are those up to the size of the table. -/
def Counted (t : List (Nat × Nat)) : Prop := ∀ k ∈ nums t, k ≤ t.length

mutual

theorem Flat.any {D : Datum} : Flat .plain D → ∀ p, Flat p D
  | .nil _, p => .nil p
  | .atom _ a, p => .atom p a
  | .string _ s, p => .string p s
  | .pair ha hd, p => .pair (Flat.any ha p) (Flat.any hd p)
  | .vector hs, p => .vector (Flats.any hs p.elements)

theorem Flats.any {Ds : List Datum} : Flats .plain Ds → ∀ p, Flats p Ds
  | .nil _, p => .nil p
  | .cons h hs, p => .cons (Flat.any h p) (Flats.any hs p)

end

/-- `circ` answers as it should. -/
structure Right (H : Heap Obj) (B : Nat) (circ : Obj → Option Bool) : Prop where
  bounded : Bounded H B
  ends : ∀ n a d rs, n < B → H n = .pair a d → SimpleEnds H d rs → circ d ≠ some true
  ring : ∀ n a d, n < B → H n = .pair a d → SimpleRing H n n → circ d ≠ some false

/-- The form of the text for simple objects: `S rs` says that the object is simple, with the circular lists
`rs`. -/
def Form (H : Heap Obj) (B : Nat) (circ : Obj → Option Bool) (t t' : List (Nat × Nat)) (S : List Nat → Prop) (F : Place → Prop) : Prop :=
  Right H B circ → ∀ rs, S rs → rs.Nodup → (∀ r ∈ rs, r ∉ keys t) →
    (∀ n ∈ keys t', n ∈ keys t ∨ n ∈ rs) ∧ F .top ∧ (rs = [] → F .plain)

/-- What is written for an object. -/
structure Writes (H : Heap Obj) (circ : Obj → Option Bool) (t t' : List (Nat × Nat)) (D : Datum) : Prop where
  grows : t <:+ t'
  counted : Counted t → Counted t'
  scope : Counted t → Scoped (nums t) D (nums t')

theorem mem_lookup {n k : Nat} : ∀ {t : List (Nat × Nat)}, t.lookup n = some k → (n, k) ∈ t
  | [], h => by cases h
  | (m, j) :: t, h => by
    by_cases hn : n = m
    · subst hn
      simp [List.lookup] at h
      simp [h]
    · simp only [List.lookup, beq_eq_false_iff_ne.2 hn] at h
      exact List.mem_cons_of_mem _ (mem_lookup h)

theorem Gives.before {L : Nat → Option Obj} {t t' : List (Nat × Nat)} (h : Gives L t') (hs : t <:+ t') : Gives L t :=
  fun n k hk => h n k (hs.subset hk)

theorem Form.seq {t t₁ t₂ : List (Nat × Nat)} {S S' : List Nat → Prop} {F F' G : Place → Prop} {T : List Nat → Prop}
    (h : Form H B circ t t₁ S F) (h' : Form H B circ t₁ t₂ S' F') (hT : ∀ rs, T rs → ∃ ps qs, rs = ps ++ qs ∧ S ps ∧ S' qs)
    (hG : ∀ p, F p → F' p → G p) : Form H B circ t t₂ T G := by
  intro hr rs hs hn hk
  obtain ⟨ps, qs, rfl, h₁, h₂⟩ := hT rs hs
  obtain ⟨hn₁, hn₂, hn₃⟩ := List.nodup_append.1 hn
  obtain ⟨h₃, h₄, h₅⟩ := h hr ps h₁ hn₁ fun r hr => hk r (by simp [hr])
  obtain ⟨h₆, h₇, h₈⟩ := h' hr qs h₂ hn₂ fun r hr hm => by
    rcases h₃ r hm with h | h
    · exact hk r (by simp [hr]) h
    · exact hn₃ r h r hr rfl
  refine ⟨fun n hn => ?_, hG _ h₄ h₇, fun he => ?_⟩
  · rcases h₆ n hn with h | h
    · rcases h₃ n h with h | h
      · exact .inl h
      · exact .inr (by simp [h])
    · exact .inr (by simp [h])
  · obtain ⟨rfl, rfl⟩ := List.append_eq_nil_iff.1 he
    exact hG _ (h₅ rfl) (h₈ rfl)

/-- Nothing is added to the table. -/
theorem Form.refl {t : List (Nat × Nat)} {S : List Nat → Prop} {F : Place → Prop} (h : ∀ p, F p) : Form H B circ t t S F :=
  fun _ _ _ _ _ => ⟨fun _ hn => .inl hn, h _, fun _ => h _⟩

theorem simple_pair {n : Nat} {a d : Obj} (h : H n = .pair a d) {rs : List Nat} (hs : Simple H (.ref n) rs) :
    (∃ ps qs, rs = ps ++ qs ∧ Simple H a ps ∧ SimpleEnds H d qs) ∨ (rs = [n] ∧ SimpleRing H n n) := by
  cases hs with
  | string h' => rw [h] at h'; cases h'
  | vector h' => rw [h] at h'; cases h'
  | pair h' ha hd => rw [h] at h'; cases h'; exact .inl ⟨_, _, rfl, ha, hd⟩
  | ring hr => exact .inr ⟨rfl, hr⟩

theorem simpleRing_pair {root n : Nat} {a d : Obj} (h : H n = .pair a d) (hs : SimpleRing H root n) :
    Simple H a [] ∧ (d = .ref root ∨ ∃ m, d = .ref m ∧ SimpleRing H root m) := by
  cases hs with
  | last h' ha => rw [h] at h'; cases h'; exact ⟨ha, .inl rfl⟩
  | step h' _ ha hs => rw [h] at h'; cases h'; exact ⟨ha, .inr ⟨_, rfl, hs⟩⟩

/-- The invariants, for calls up to the depth `f`. -/
structure All (H : Heap Obj) (B : Nat) (circ : Obj → Option Bool) (f : Nat) : Prop where
  write : ∀ x t ts T', write circ H f x (some t) = some (ts, T') → ∃ t' D, T' = some t' ∧ Text ts D ∧ Writes H circ t t' D ∧
    (∃ ns, ∀ L, Gives L t' → Den H L D x ns) ∧ Form H B circ t t' (fun rs => Below B x ∧ Simple H x rs) (fun p => Flat p D)
  list : ∀ x t ts t', writeList circ H f x t = some (ts, t') → ∃ D, Tail ts D ∧ Writes H circ t t' D ∧
    (∃ ns, ∀ L, Gives L t' → Den H L D x ns) ∧ Form H B circ t t' (fun rs => Below B x ∧ SimpleEnds H x rs) (fun p => Flat p D)
  ring : ∀ root n k t ts t', writeRing circ H f root n t = some (ts, t') → (root, k) ∈ t → ∃ a d us vs,
    ts ++ [.dot, .ref k, .rp] = us ++ vs ∧ Text us a ∧ Tail vs d ∧ Writes H circ t t' (.pair a d) ∧
    (∃ ns, ∀ L, Gives L t' → Den H L (.pair a d) (.ref n) ns) ∧
    (Right H B circ → n < B → SimpleRing H root n → (∀ n ∈ keys t', n ∈ keys t) ∧ Flat (.inside k) (.pair a d))
  vector : ∀ es t ts T', writeVector circ H f es (some t) = some (ts, T') → ∃ t' Ds, T' = some t' ∧ Ds.length = es.length ∧ Elements ts Ds ∧
    t <:+ t' ∧ (Counted t → Counted t') ∧ (Counted t → Scopeds (nums t) Ds (nums t')) ∧
    (∃ ns, ∀ L, Gives L t' → Dens H L Ds es ns) ∧ Form H B circ t t' (fun rs => (∀ e ∈ es, Below B e) ∧ Simples H es rs) (fun p => Flats p Ds)

theorem Writes.refl {t : List (Nat × Nat)} {D : Datum} (h : Scoped (nums t) D (nums t)) : Writes H circ t t D :=
  ⟨List.suffix_refl _, fun h => h, fun _ => h⟩

theorem Writes.pair {t t₁ t₂ : List (Nat × Nat)} {a d : Datum} (h : Writes H circ t t₁ a) (h' : Writes H circ t₁ t₂ d) :
    Writes H circ t t₂ (.pair a d) :=
  ⟨h.grows.trans h'.grows, fun hc => h'.counted (h.counted hc), fun hc => .pair (h.scope hc) (h'.scope (h.counted hc))⟩

theorem bind_some {α β : Type} {x : Option α} {g : α → Option β} {b : β} (h : x.bind g = some b) :
    ∃ a, x = some a ∧ g a = some b := by
  cases x with
  | none => cases h
  | some a => exact ⟨a, rfl, h⟩

theorem map_some {α β : Type} {x : Option α} {g : α → β} {b : β} (h : x.map g = some b) :
    ∃ a, x = some a ∧ g a = b := by
  cases x with
  | none => cases h
  | some a => exact ⟨a, rfl, by simpa using h⟩

theorem all_write {f : Nat} (ih : All H B circ f) (x : Obj) (t : List (Nat × Nat)) (ts : List Tok) (T' : Table)
    (h : write circ H (f + 1) x (some t) = some (ts, T')) : ∃ t' D, T' = some t' ∧ Text ts D ∧ Writes H circ t t' D ∧
    (∃ ns, ∀ L, Gives L t' → Den H L D x ns) ∧ Form H B circ t t' (fun rs => Below B x ∧ Simple H x rs) (fun p => Flat p D) := by
  rw [write.eq_def] at h
  cases x with
  | nil =>
    simp only at h
    cases h
    exact ⟨t, .nil, rfl, .nil, .refl (.nil _), ⟨[], fun L _ => .nil⟩, .refl fun p => .nil p⟩
  | atom a =>
    simp only at h
    cases h
    exact ⟨t, .atom a, rfl, .atom a, .refl (.atom _ a), ⟨[], fun L _ => .atom a⟩, .refl fun p => .atom p a⟩
  | ref n =>
    cases hn : H n with
    | string s =>
      simp only [hn] at h
      cases h
      refine ⟨t, .string s, rfl, .string s, .refl (.string _ s), ?_, .refl fun p => .string p s⟩
      by_cases hs : s = []
      · subst hs; exact ⟨[], fun L _ => .noString hn⟩
      · exact ⟨[n], fun L _ => .string hn hs⟩
    | vector es =>
      simp only [hn] at h
      obtain ⟨⟨us, U'⟩, h₁, h₂⟩ := map_some h
      simp only [Prod.mk.injEq] at h₂
      obtain ⟨rfl, rfl⟩ := h₂
      obtain ⟨t', Ds, rfl, -, h₃, h₄, h₅, h₆, ⟨ns, h₇⟩, h₈⟩ := ih.vector _ _ _ _ h₁
      refine ⟨t', .vector Ds, rfl, .vector h₃, ⟨h₄, h₅, fun hc => .vector (h₆ hc)⟩, ?_, fun hr rs ⟨hb, hs⟩ hd hk => ?_⟩
      · by_cases he : es = []
        · subst he
          refine ⟨[], fun L hL => ?_⟩
          cases h₇ L hL
          exact .noVector hn
        · exact ⟨n :: ns, fun L hL => .vector hn he (h₇ L hL)⟩
      · have hs' : Simples H es rs := by
          cases hs with
          | string h' => rw [hn] at h'; cases h'
          | vector h' hs => rw [hn] at h'; cases h'; exact hs
          | pair h' => rw [hn] at h'; cases h'
          | ring hr => cases hr with
            | last h' => rw [hn] at h'; cases h'
            | step h' => rw [hn] at h'; cases h'
        obtain ⟨h₉, h₁₀, h₁₁⟩ := h₈ hr rs ⟨fun e he => .part hr.bounded (hb n rfl) (by simpa [hn, Node.parts] using he), hs'⟩ hd hk
        exact ⟨h₉, .vector h₁₀, fun he => .vector (h₁₁ he)⟩
    | pair a d =>
      simp only [hn, Option.getD_some, Option.map_some] at h
      obtain ⟨c, hc, h⟩ := bind_some h
      cases c with
      | false =>
        simp only [Bool.false_eq_true, if_false] at h
        obtain ⟨⟨us, U'⟩, h₁, h⟩ := bind_some h
        obtain ⟨⟨vs, t₂⟩, h₂, h⟩ := map_some h
        simp only [Prod.mk.injEq] at h
        obtain ⟨rfl, rfl⟩ := h
        obtain ⟨t₁, A, rfl, h₃, h₄, ⟨ns, h₅⟩, h₆⟩ := ih.write _ _ _ _ h₁
        obtain ⟨D, h₇, h₈, ⟨ms, h₉⟩, h₁₀⟩ := ih.list _ _ _ _ h₂
        simp only [Option.getD_some] at h₈ h₁₀
        refine ⟨t₂, .pair A D, rfl, .pair h₃ h₇, h₄.pair h₈, ⟨n :: (ns ++ ms), fun L hL =>
          .pair hn (h₅ L (hL.before h₈.grows)) (h₉ L hL)⟩, fun hr => ?_⟩
        refine h₆.seq (T := fun rs => Below B (.ref n) ∧ Simple H (.ref n) rs) (G := fun p => Flat p (.pair A D)) h₁₀ (fun rs ⟨hb, hs⟩ => ?_) (fun p => .pair) hr
        rcases simple_pair hn hs with hs' | ⟨rfl, hs'⟩
        · obtain ⟨ps, qs, rfl, hs₁, hs₂⟩ := hs'
          exact ⟨ps, qs, rfl, ⟨.part hr.bounded (hb n rfl) (by simp [hn, Node.parts]), hs₁⟩,
            ⟨.part hr.bounded (hb n rfl) (by simp [hn, Node.parts]), hs₂⟩⟩
        · exact absurd hc (hr.ring n a d (hb n rfl) hn hs')
      | true =>
        simp only [if_true] at h
        cases hl : t.lookup n with
        | some k =>
          simp only [hl] at h
          cases h
          have hm := mem_lookup hl
          refine ⟨t, .ref k, rfl, .ref k, .refl (.ref (List.mem_map.2 ⟨_, hm, rfl⟩)), ⟨[], fun L hL => .ref (hL n k hm)⟩,
            fun hr rs ⟨hb, hs⟩ hd hk => ?_⟩
          rcases simple_pair hn hs with ⟨ps, qs, rfl, -, hs⟩ | ⟨rfl, hs⟩
          · exact absurd hc (hr.ends n a d _ (hb n rfl) hn hs)
          · exact absurd (List.mem_map.2 ⟨_, hm, rfl⟩) (hk n (by simp))
        | none =>
          simp only [hl] at h
          obtain ⟨⟨us, t₂⟩, h₁, h⟩ := map_some h
          simp only [Prod.mk.injEq] at h
          obtain ⟨rfl, rfl⟩ := h
          obtain ⟨A, D, vs, ws, h₂, h₃, h₄, h₅, ⟨ns, h₆⟩, h₇⟩ := ih.ring n n (t.length + 1) _ _ _ h₁ (by simp)
          have hcnt : Counted t → Counted ((n, t.length + 1) :: t) := fun hc k hk => by
            simp only [nums, List.map_cons, List.mem_cons] at hk
            rcases hk with rfl | hk
            · simp
            · have := hc k hk; simp only [List.length_cons]; omega
          refine ⟨t₂, .label (t.length + 1) (.pair A D), rfl, ?_, ⟨(List.suffix_cons _ _).trans h₅.grows,
            fun hc => h₅.counted (hcnt hc), fun hc => .label ?_ rfl (h₅.scope (hcnt hc))⟩, ⟨ns, fun L hL =>
              .label (hL.before h₅.grows n _ (by simp)) (h₆ L hL)⟩, fun hr rs ⟨hb, hs⟩ hd hk => ?_⟩
          · rw [h₂]
            exact .label _ (.pair h₃ h₄)
          · intro hm
            have := hc _ hm
            omega
          · rcases simple_pair hn hs with ⟨ps, qs, rfl, -, hs'⟩ | ⟨rfl, hs'⟩
            · exact absurd hc (hr.ends n a d _ (hb n rfl) hn hs')
            · obtain ⟨h₈, h₉⟩ := h₇ hr (hb n rfl) hs'
              refine ⟨fun m hm => ?_, .label h₉, fun he => by cases he⟩
              have := h₈ m hm
              simp only [keys, List.map_cons, List.mem_cons] at this
              rcases this with rfl | h
              · exact .inr (by simp)
              · exact .inl h

theorem all_list {f : Nat} (ih : All H B circ f) (x : Obj) (t : List (Nat × Nat)) (ts : List Tok) (t' : List (Nat × Nat))
    (h : writeList circ H (f + 1) x t = some (ts, t')) : ∃ D, Tail ts D ∧ Writes H circ t t' D ∧
    (∃ ns, ∀ L, Gives L t' → Den H L D x ns) ∧ Form H B circ t t' (fun rs => Below B x ∧ SimpleEnds H x rs) (fun p => Flat p D) := by
  rw [writeList.eq_def] at h
  have last : NoPair H x → (write circ H f x (some t)).map (fun (ts, t) => (Tok.dot :: (ts ++ [.rp]), t.getD [])) = some (ts, t') →
      ∃ D, Tail ts D ∧ Writes H circ t t' D ∧
        (∃ ns, ∀ L, Gives L t' → Den H L D x ns) ∧ Form H B circ t t' (fun rs => Below B x ∧ SimpleEnds H x rs) (fun p => Flat p D) := by
    intro hx h
    obtain ⟨⟨us, U'⟩, h₁, h⟩ := map_some h
    obtain ⟨t₁, D, rfl, h₂, h₃, h₄, h₅⟩ := ih.write _ _ _ _ h₁
    simp only [Prod.mk.injEq, Option.getD_some] at h
    obtain ⟨rfl, rfl⟩ := h
    refine ⟨D, .dot h₂, h₃, h₄, fun hr rs ⟨hb, hs⟩ => h₅ hr rs ⟨hb, ?_⟩⟩
    cases hs with
    | last _ hs => exact hs
    | pair h' => exact absurd h' (hx _ _ _ rfl)
  cases x with
  | nil =>
    simp only at h
    cases h
    exact ⟨.nil, .nil, .refl (.nil _), ⟨[], fun L _ => .nil⟩, .refl fun p => .nil p⟩
  | atom a => exact last (fun n _ _ h => by cases h) h
  | ref n =>
    cases hn : H n with
    | string s =>
      simp only [hn] at h
      refine last (fun m a d e => ?_) h
      cases e; rw [hn]; simp
    | vector es =>
      simp only [hn] at h
      refine last (fun m a d e => ?_) h
      cases e; rw [hn]; simp
    | pair a d =>
      simp only [hn] at h
      obtain ⟨⟨us, U'⟩, h₁, h⟩ := bind_some h
      obtain ⟨⟨vs, t₂⟩, h₂, h⟩ := map_some h
      simp only [Prod.mk.injEq] at h
      obtain ⟨rfl, rfl⟩ := h
      obtain ⟨t₁, A, rfl, h₃, h₄, ⟨ns, h₅⟩, h₆⟩ := ih.write _ _ _ _ h₁
      obtain ⟨D, h₇, h₈, ⟨ms, h₉⟩, h₁₀⟩ := ih.list _ _ _ _ h₂
      simp only [Option.getD_some] at h₈ h₁₀
      refine ⟨.pair A D, .pair h₃ h₇, h₄.pair h₈, ⟨n :: (ns ++ ms), fun L hL =>
        .pair hn (h₅ L (hL.before h₈.grows)) (h₉ L hL)⟩, ?_⟩
      intro hr
      refine h₆.seq (T := fun rs => Below B (.ref n) ∧ SimpleEnds H (.ref n) rs) (G := fun p => Flat p (.pair A D)) h₁₀
        (fun rs ⟨hb, hs⟩ => ?_) (fun p => .pair) hr
      cases hs with
      | last hx _ => exact absurd hn (hx n a d rfl)
      | pair h' ha hd =>
        rw [hn] at h'; cases h'
        exact ⟨_, _, rfl, ⟨.part hr.bounded (hb n rfl) (by simp [hn, Node.parts]), ha⟩,
          ⟨.part hr.bounded (hb n rfl) (by simp [hn, Node.parts]), hd⟩⟩

theorem all_ring {f : Nat} (ih : All H B circ f) (root n k : Nat) (t : List (Nat × Nat)) (ts : List Tok) (t' : List (Nat × Nat))
    (h : writeRing circ H (f + 1) root n t = some (ts, t')) (hk : (root, k) ∈ t) : ∃ a d us vs,
    ts ++ [.dot, .ref k, .rp] = us ++ vs ∧ Text us a ∧ Tail vs d ∧ Writes H circ t t' (.pair a d) ∧
    (∃ ns, ∀ L, Gives L t' → Den H L (.pair a d) (.ref n) ns) ∧
    (Right H B circ → n < B → SimpleRing H root n → (∀ n ∈ keys t', n ∈ keys t) ∧ Flat (.inside k) (.pair a d)) := by
  rw [writeRing.eq_def] at h
  cases hn : H n with
  | string => simp only [hn] at h; cases h
  | vector => simp only [hn] at h; cases h
  | pair a d =>
    simp only [hn] at h
    obtain ⟨⟨us, U'⟩, h₁, h⟩ := bind_some h
    obtain ⟨t₁, A, rfl, h₃, h₄, ⟨ns, h₅⟩, h₆⟩ := ih.write _ _ _ _ h₁
    simp only [Option.getD_some] at h
    by_cases hd : d = .ref root
    · simp only [hd, if_true] at h
      cases h
      have hk' : (root, k) ∈ t' := h₄.grows.subset hk
      refine ⟨A, .ref k, ts, [.dot, .ref k, .rp], rfl, h₃, .dot (.ref k), h₄.pair (.refl (.ref (List.mem_map.2 ⟨_, hk', rfl⟩))),
        ⟨n :: (ns ++ []), fun L hL => .pair hn (h₅ L hL) (.ref (hd ▸ hL root k hk'))⟩, fun hr hb hs => ?_⟩
      obtain ⟨h₇, -, h₉⟩ := h₆ hr [] ⟨.part hr.bounded hb (by simp [hn, Node.parts]), (simpleRing_pair hn hs).1⟩ List.nodup_nil (by simp)
      exact ⟨fun m hm => by simpa using h₇ m hm, .back (Flat.any (h₉ rfl) _)⟩
    · simp only [hd, if_false] at h
      cases d with
      | nil => cases h
      | atom => cases h
      | ref m =>
        simp only at h
        obtain ⟨⟨vs, t₂⟩, h₂, h⟩ := map_some h
        simp only [Prod.mk.injEq] at h
        obtain ⟨rfl, rfl⟩ := h
        obtain ⟨A', D', xs, ys, h₇, h₈, h₉, h₁₀, ⟨ms, h₁₁⟩, h₁₂⟩ := ih.ring root m k _ _ _ h₂ (h₄.grows.subset hk)
        refine ⟨A, .pair A' D', us, .space :: (xs ++ ys), ?_, h₃, .pair h₈ h₉, h₄.pair h₁₀, ⟨n :: (ns ++ ms), fun L hL =>
          .pair hn (h₅ L (hL.before h₁₀.grows)) (h₁₁ L hL)⟩, fun hr hb hs => ?_⟩
        · rw [← h₇]; simp
        · obtain ⟨hs₁, hs₂⟩ := simpleRing_pair hn hs
          have hs₃ : SimpleRing H root m := by
            rcases hs₂ with e | ⟨m', e, hs⟩
            · exact absurd e hd
            · cases e; exact hs
          obtain ⟨h₁₃, -, h₁₄⟩ := h₆ hr [] ⟨.part hr.bounded hb (by simp [hn, Node.parts]), hs₁⟩ List.nodup_nil (by simp)
          obtain ⟨h₁₅, h₁₆⟩ := h₁₂ hr (hr.bounded n hb m (by simp [hn, Node.parts])) hs₃
          exact ⟨fun m hm => by simpa using h₁₃ m (h₁₅ m hm), .pair (Flat.any (h₁₄ rfl) _) h₁₆⟩

theorem all_vector {f : Nat} (ih : All H B circ f) (es : List Obj) (t : List (Nat × Nat)) (ts : List Tok) (T' : Table)
    (h : writeVector circ H (f + 1) es (some t) = some (ts, T')) : ∃ t' Ds, T' = some t' ∧ Ds.length = es.length ∧ Elements ts Ds ∧
    t <:+ t' ∧ (Counted t → Counted t') ∧ (Counted t → Scopeds (nums t) Ds (nums t')) ∧
    (∃ ns, ∀ L, Gives L t' → Dens H L Ds es ns) ∧ Form H B circ t t' (fun rs => (∀ e ∈ es, Below B e) ∧ Simples H es rs) (fun p => Flats p Ds) := by
  rw [writeVector.eq_def] at h
  cases es with
  | nil =>
    simp only at h
    cases h
    exact ⟨t, [], rfl, rfl, .nil, List.suffix_refl _, fun h => h, fun _ => .nil _, ⟨[], fun L _ => .nil⟩, .refl fun p => .nil p⟩
  | cons e es =>
    cases es with
    | nil =>
      simp only at h
      obtain ⟨t', D, rfl, h₁, h₂, ⟨ns, h₃⟩, h₄⟩ := ih.write _ _ _ _ h
      refine ⟨t', [D], rfl, rfl, .one h₁, h₂.grows, h₂.counted, fun hc => .cons (h₂.scope hc) (.nil _),
        ⟨ns ++ [], fun L hL => .cons (h₃ L hL) .nil⟩, ?_⟩
      refine h₄.seq (T := fun rs => (∀ x ∈ [e], Below B x) ∧ Simples H [e] rs) (S' := Simples H []) (F' := fun p => Flats p [])
        (.refl fun p => .nil p) (fun rs ⟨hb, hs⟩ => ?_)
        (fun p h hs => .cons h hs)
      cases hs with
      | cons h hs => exact ⟨_, _, rfl, ⟨hb e (by simp), h⟩, hs⟩
    | cons e' es =>
      simp only at h
      obtain ⟨⟨us, U'⟩, h₁, h⟩ := bind_some h
      obtain ⟨⟨vs, V'⟩, h₂, h⟩ := map_some h
      simp only [Prod.mk.injEq] at h
      obtain ⟨rfl, rfl⟩ := h
      obtain ⟨t₁, D, rfl, h₃, h₄, ⟨ns, h₅⟩, h₆⟩ := ih.write _ _ _ _ h₁
      obtain ⟨t₂, Ds, rfl, hlen, h₇, h₈, h₉, h₁₀, ⟨ms, h₁₁⟩, h₁₂⟩ := ih.vector _ _ _ _ h₂
      have : ∃ D' Ds', Ds = D' :: Ds' := by
        cases Ds with
        | cons D' Ds' => exact ⟨D', Ds', rfl⟩
        | nil => cases hlen
      obtain ⟨D', Ds', rfl⟩ := this
      refine ⟨t₂, D :: D' :: Ds', rfl, by simpa using hlen, .cons h₃ h₇, h₄.grows.trans h₈, fun hc => h₉ (h₄.counted hc), fun hc =>
        .cons (h₄.scope hc) (h₁₀ (h₄.counted hc)), ⟨ns ++ ms, fun L hL => .cons (h₅ L (hL.before h₈)) (h₁₁ L hL)⟩, ?_⟩
      refine h₆.seq (T := fun rs => (∀ x ∈ e :: e' :: es, Below B x) ∧ Simples H (e :: e' :: es) rs) h₁₂ (fun rs ⟨hb, hs⟩ => ?_)
        (fun p h hs => .cons h hs)
      cases hs with
      | cons h hs => exact ⟨_, _, rfl, ⟨hb e (by simp), h⟩, fun x hx => hb x (List.mem_cons_of_mem _ hx), hs⟩

theorem all (f : Nat) : All H B circ f := by
  induction f with
  | zero =>
    refine ⟨fun x t ts T' h => ?_, fun x t ts T' h => ?_, fun r n k t ts t' h => ?_, fun x t ts T' h => ?_⟩
    · rw [write.eq_def] at h; cases h
    · rw [writeList.eq_def] at h; cases h
    · rw [writeRing.eq_def] at h; cases h
    · rw [writeVector.eq_def] at h; cases h
  | succ f ih => exact ⟨all_write ih, all_list ih, all_ring ih, all_vector ih⟩

end Meevax.Label
