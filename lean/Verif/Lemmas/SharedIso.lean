import Verif.Spec.DatumLabel
import Mathlib.Data.List.Basic
import Mathlib.Data.List.Nodup

/-! A text denotes one object, up to the names of nodes. -/

namespace Meevax.Shared

variable {G G' : Heap Obj} {L L' : Nat → Option Obj} {F : Nat → Nat → Prop}

/-- The labels stand for the same objects. -/
def Agree (G G' : Heap Obj) (F : Nat → Nat → Prop) (L L' : Nat → Option Obj) (ks : List Nat) : Prop :=
  ∀ k ∈ ks, ∀ u u', L k = some u → L' k = some u' → Same G G' F u u'

/-- The nodes shown by the same text, in the same order. -/
def Zipped (F : Nat → Nat → Prop) (ns ns' : List Nat) : Prop :=
  ns.length = ns'.length ∧ ∀ p ∈ ns.zip ns', F p.1 p.2

theorem Den.labelled {D : Datum} {v v' : Obj} {ns ns' : List Nat} (h : Den G L D v ns) (h' : Den G' L' D v' ns')
    (hl : D.labelled) (hF : ∀ p ∈ ns.zip ns', F p.1 p.2) : Same G G' F v v' := by
  cases h with
  | nil | atom | noString | noVector | label | ref => simp [Datum.labelled] at hl
  | string h hs =>
    cases h' with
    | noString => exact absurd rfl hs
    | string h' hs' => exact .node (hF (_, _) (List.mem_cons_self ..))
  | pair h ha hd =>
    cases h' with
    | pair h' ha' hd' => exact .node (hF (_, _) (List.mem_cons_self ..))
  | vector h hx hs =>
    cases h' with
    | noVector => simp [Datum.labelled] at hl
    | vector h' hx' hs' => exact .node (hF (_, _) (List.mem_cons_self ..))

theorem zip_append_mem {ns ns' ms ms' : List Nat} (h : ns.length = ns'.length) {p : Nat × Nat} :
    p ∈ (ns ++ ms).zip (ns' ++ ms') ↔ p ∈ ns.zip ns' ∨ p ∈ ms.zip ms' := by
  rw [List.zip_append h, List.mem_append]

mutual

theorem Den.length {ks ls : List Nat} {D : Datum} : Scoped ks D ls → ∀ {v v' : Obj} {ns ns' : List Nat},
    Den G L D v ns → Den G' L' D v' ns' → ns.length = ns'.length
  | .nil _, _, _, _, _, h, h' => by cases h; cases h'; rfl
  | .atom _ _, _, _, _, _, h, h' => by cases h; cases h'; rfl
  | .string _ _, _, _, _, _, h, h' => by
    cases h with
    | noString h => cases h' with
      | noString h' => rfl
      | string h' hs' => exact absurd rfl hs'
    | string h hs => cases h' with
      | noString h' => exact absurd rfl hs
      | string h' hs' => rfl
  | .pair ha hd, _, _, _, _, h, h' => by
    cases h with
    | pair h₁ h₂ h₃ => cases h' with
      | pair h₁' h₂' h₃' => simp [Den.length ha h₂ h₂', Den.length hd h₃ h₃']
  | .vector hs, _, _, _, _, h, h' => by
    cases h with
    | noVector h => cases h' with
      | noVector h' => rfl
      | vector h' hx' hs' => cases hs'; exact absurd rfl hx'
    | vector h hx hs₁ => cases h' with
      | noVector h' => cases hs₁; exact absurd rfl hx
      | vector h' hx' hs' => simp [Dens.length hs hs₁ hs']
  | .label _ _ hs, _, _, _, _, h, h' => by
    cases h with
    | label _ h => cases h' with
      | label _ h' => exact Den.length hs h h'
  | .ref _, _, _, _, _, h, h' => by cases h; cases h'; rfl

theorem Dens.length {ks ls : List Nat} {Ds : List Datum} : Scopeds ks Ds ls → ∀ {vs vs' : List Obj} {ns ns' : List Nat},
    Dens G L Ds vs ns → Dens G' L' Ds vs' ns' → ns.length = ns'.length
  | .nil _, _, _, _, _, h, h' => by cases h; cases h'; rfl
  | .cons hd hs, _, _, _, _, h, h' => by
    cases h with
    | cons h₁ h₂ => cases h' with
      | cons h₁' h₂' => simp [Den.length hd h₁ h₁', Dens.length hs h₂ h₂']

end

/-- What holds of two objects that the same text shows. -/
structure Match (G G' : Heap Obj) (F : Nat → Nat → Prop) (L L' : Nat → Option Obj) (ls ns ns' : List Nat) : Prop where
  agree : Agree G G' F L L' ls
  nodes : ∀ p ∈ ns.zip ns', SameNode G G' F (G p.1) (G' p.2)

mutual

theorem Den.same {ks ls : List Nat} {D : Datum} : Scoped ks D ls → ∀ {v v' : Obj} {ns ns' : List Nat},
    Den G L D v ns → Den G' L' D v' ns' → Agree G G' F L L' ks → (∀ p ∈ ns.zip ns', F p.1 p.2) →
    Same G G' F v v' ∧ Match G G' F L L' ls ns ns'
  | .nil _, _, _, _, _, h, h', ha, hF => by cases h; cases h'; exact ⟨.nil, ha, by simp⟩
  | .atom _ _, _, _, _, _, h, h', ha, hF => by cases h; cases h'; exact ⟨.atom _, ha, by simp⟩
  | .string _ _, _, _, _, _, h, h', ha, hF => by
    cases h with
    | noString h => cases h' with
      | noString h' => exact ⟨.empty (by rw [h]; rfl) (by rw [h, h']), ha, by simp⟩
      | string h' hs' => exact absurd rfl hs'
    | string h hs => cases h' with
      | noString h' => exact absurd rfl hs
      | string h' hs' =>
        refine ⟨.node (hF (_, _) (List.mem_cons_self ..)), ha, fun p hp => ?_⟩
        obtain rfl : p = _ := by simpa using hp
        rw [h, h']
        exact .string _
  | .pair hsa hsd, _, _, _, _, h, h', ha, hF => by
    cases h with
    | pair h₁ h₂ h₃ => cases h' with
      | pair h₁' h₂' h₃' =>
        have hl := Den.length hsa h₂ h₂'
        obtain ⟨hs₁, hm₁⟩ := Den.same hsa h₂ h₂' ha fun p hp => hF p (by
          simp only [List.zip_cons_cons, List.mem_cons, zip_append_mem hl]; exact .inr (.inl hp))
        obtain ⟨hs₂, hm₂⟩ := Den.same hsd h₃ h₃' hm₁.agree fun p hp => hF p (by
          simp only [List.zip_cons_cons, List.mem_cons, zip_append_mem hl]; exact .inr (.inr hp))
        refine ⟨.node (hF (_, _) (List.mem_cons_self ..)), hm₂.agree, fun p hp => ?_⟩
        simp only [List.zip_cons_cons, List.mem_cons, zip_append_mem hl] at hp
        rcases hp with rfl | hp | hp
        · rw [h₁, h₁']; exact .pair hs₁ hs₂
        · exact hm₁.nodes p hp
        · exact hm₂.nodes p hp
  | .vector hs, _, _, _, _, h, h', ha, hF => by
    cases h with
    | noVector h => cases h' with
      | noVector h' => cases hs; exact ⟨.empty (by rw [h]; rfl) (by rw [h, h']), ha, by simp⟩
      | vector h' hx' hs' => cases hs'; exact absurd rfl hx'
    | vector h hx hs₁ => cases h' with
      | noVector h' => cases hs₁; exact absurd rfl hx
      | vector h' hx' hs' =>
        obtain ⟨hs₁, hm₁⟩ := Dens.same hs hs₁ hs' ha fun p hp => hF p (by
          simp only [List.zip_cons_cons, List.mem_cons]; exact .inr hp)
        refine ⟨.node (hF (_, _) (List.mem_cons_self ..)), hm₁.agree, fun p hp => ?_⟩
        simp only [List.zip_cons_cons, List.mem_cons] at hp
        rcases hp with rfl | hp
        · rw [h, h']; exact .vector hs₁
        · exact hm₁.nodes p hp
  | .label hk hd hs, _, _, _, _, h, h', ha, hF => by
    cases h with
    | label hk₁ h => cases h' with
      | label hk₁' h' =>
        refine Den.same hs h h' (fun j hj u u' hu hu' => ?_) hF
        rcases List.mem_cons.1 hj with rfl | hj
        · rw [hk₁] at hu; rw [hk₁'] at hu'
          cases hu; cases hu'
          exact Den.labelled h h' hd hF
        · exact ha j hj u u' hu hu'
  | .ref hk, _, _, _, _, h, h', ha, hF => by
    cases h with
    | ref hk₁ => cases h' with
      | ref hk₁' => exact ⟨ha _ hk _ _ hk₁ hk₁', ha, by simp⟩

theorem Dens.same {ks ls : List Nat} {Ds : List Datum} : Scopeds ks Ds ls → ∀ {vs vs' : List Obj} {ns ns' : List Nat},
    Dens G L Ds vs ns → Dens G' L' Ds vs' ns' → Agree G G' F L L' ks → (∀ p ∈ ns.zip ns', F p.1 p.2) →
    List.Forall₂ (Same G G' F) vs vs' ∧ Match G G' F L L' ls ns ns'
  | .nil _, _, _, _, _, h, h', ha, hF => by cases h; cases h'; exact ⟨.nil, ha, by simp⟩
  | .cons hd hs, _, _, _, _, h, h', ha, hF => by
    cases h with
    | cons h₁ h₂ => cases h' with
      | cons h₁' h₂' =>
        have hl := Den.length hd h₁ h₁'
        obtain ⟨hs₁, hm₁⟩ := Den.same hd h₁ h₁' ha fun p hp => hF p (by
          simp only [zip_append_mem hl]; exact .inl hp)
        obtain ⟨hs₂, hm₂⟩ := Dens.same hs h₂ h₂' hm₁.agree fun p hp => hF p (by
          simp only [zip_append_mem hl]; exact .inr hp)
        refine ⟨.cons hs₁ hs₂, hm₂.agree, fun p hp => ?_⟩
        simp only [zip_append_mem hl] at hp
        rcases hp with hp | hp
        · exact hm₁.nodes p hp
        · exact hm₂.nodes p hp

end

theorem SameNode.part {x x' : Node Obj} (h : SameNode G G' F x x') :
    (∀ o ∈ x.parts, ∃ o' ∈ x'.parts, Same G G' F o o') ∧ ∀ o' ∈ x'.parts, ∃ o ∈ x.parts, Same G G' F o o' := by
  cases h with
  | pair ha hd =>
    constructor <;> intro o ho <;> simp only [Node.parts, List.mem_cons, List.not_mem_nil, or_false] at ho ⊢ <;>
      rcases ho with rfl | rfl
    · exact ⟨_, .inl rfl, ha⟩
    · exact ⟨_, .inr rfl, hd⟩
    · exact ⟨_, .inl rfl, ha⟩
    · exact ⟨_, .inr rfl, hd⟩
  | string => simp [Node.parts]
  | vector h =>
    simp only [Node.parts]
    induction h with
    | nil => simp
    | cons h _ ih =>
      constructor
      · intro o ho
        rcases List.mem_cons.1 ho with rfl | ho
        · exact ⟨_, by simp, h⟩
        · obtain ⟨o', h₁, h₂⟩ := ih.1 o ho
          exact ⟨o', by simp [h₁], h₂⟩
      · intro o ho
        rcases List.mem_cons.1 ho with rfl | ho
        · exact ⟨_, by simp, h⟩
        · obtain ⟨o', h₁, h₂⟩ := ih.2 o ho
          exact ⟨o', by simp [h₁], h₂⟩

theorem Same.covers {v v' : Obj} (hs : Same G G' F v v') (hn : ∀ n n', F n n' → SameNode G G' F (G n) (G' n')) :
    (∀ n, Reach G v n → ∃ n', F n n') ∧ ∀ n', Reach G' v' n' → ∃ n, F n n' := by
  have left : ∀ {v v' : Obj} {n}, Same G G' F v v' → v = .ref n → (G n).isEmpty = false → ∃ n', F n n' := by
    intro v v' n hs hv he
    cases hs with
    | nil | atom => cases hv
    | empty h => cases hv; rw [h] at he; cases he
    | node h => cases hv; exact ⟨_, h⟩
  have right : ∀ {v v' : Obj} {n'}, Same G G' F v v' → v' = .ref n' → (G' n').isEmpty = false → ∃ n, F n n' := by
    intro v v' n' hs hv he
    cases hs with
    | nil | atom => cases hv
    | empty h h' => cases hv; rw [h', h] at he; cases he
    | node h => cases hv; exact ⟨_, h⟩
  refine ⟨fun n hr => ?_, fun n' hr => ?_⟩
  · generalize hv : v = w at hr
    induction hr with
    | here he => exact left hs hv he
    | part _ hm he ih =>
      obtain ⟨p', hp⟩ := ih hv
      obtain ⟨o', -, h⟩ := (hn _ _ hp).part.1 _ hm
      exact left h rfl he
  · generalize hv : v' = w at hr
    induction hr with
    | here he => exact right hs hv he
    | part _ hm he ih =>
      obtain ⟨p', hp⟩ := ih hv
      obtain ⟨o', -, h⟩ := (hn _ _ hp).part.2 _ hm
      exact right h rfl he

theorem zip_fun : ∀ {ns ns' : List Nat}, ns.Nodup → ∀ {n a b : Nat}, (n, a) ∈ ns.zip ns' → (n, b) ∈ ns.zip ns' → a = b
  | [], _, _, _, _, _, h, _ => by simp at h
  | _ :: _, [], _, _, _, _, h, _ => by simp at h
  | m :: ns, m' :: ns', hd, n, a, b, h₁, h₂ => by
    simp only [List.zip_cons_cons, List.mem_cons, Prod.mk.injEq] at h₁ h₂
    have hd := List.nodup_cons.1 hd
    rcases h₁ with ⟨rfl, rfl⟩ | h₁
    · rcases h₂ with ⟨-, rfl⟩ | h₂
      · rfl
      · exact absurd (List.of_mem_zip h₂).1 hd.1
    · rcases h₂ with ⟨rfl, rfl⟩ | h₂
      · exact absurd (List.of_mem_zip h₁).1 hd.1
      · exact zip_fun hd.2 h₁ h₂

theorem zip_inj : ∀ {ns ns' : List Nat}, ns'.Nodup → ∀ {n a b : Nat}, (a, n) ∈ ns.zip ns' → (b, n) ∈ ns.zip ns' → a = b
  | [], _, _, _, _, _, h, _ => by simp at h
  | _ :: _, [], _, _, _, _, h, _ => by simp at h
  | m :: ns, m' :: ns', hd, n, a, b, h₁, h₂ => by
    simp only [List.zip_cons_cons, List.mem_cons, Prod.mk.injEq] at h₁ h₂
    have hd := List.nodup_cons.1 hd
    rcases h₁ with ⟨rfl, rfl⟩ | h₁
    · rcases h₂ with ⟨rfl, -⟩ | h₂
      · rfl
      · exact absurd (List.of_mem_zip h₂).2 hd.1
    · rcases h₂ with ⟨rfl, rfl⟩ | h₂
      · exact absurd (List.of_mem_zip h₁).2 hd.1
      · exact zip_inj hd.2 h₁ h₂

/-- Objects that the same text denotes are isomorphic. -/
theorem Denotes.isomorphic {D : Datum} {v v' : Obj} {ns ns' : List Nat} (h : Denotes G D v ns)
    (h' : Denotes G' D v' ns') : Isomorphic G v G' v' := by
  obtain ⟨L, ks, hs, hd, hn⟩ := h
  obtain ⟨L', ks', -, hd', hn'⟩ := h'
  obtain ⟨h₁, h₂⟩ := Den.same (F := fun n n' => (n, n') ∈ ns.zip ns') hs hd hd' (fun k hk => by cases hk) fun p hp => hp
  have h₃ : ∀ n n', (n, n') ∈ ns.zip ns' → _ := fun n n' h => h₂.nodes (n, n') h
  obtain ⟨h₄, h₅⟩ := h₁.covers h₃
  exact ⟨_, h₁, h₃, fun n n₁ n₂ => zip_fun hn, fun n₁ n₂ n' => zip_inj hn', h₄, h₅⟩

end Meevax.Shared
