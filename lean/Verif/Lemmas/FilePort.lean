import Verif.Spec.FilePort
import Verif.Lemmas.Utf8

/-
Calls of procedures on ports: what stays the same.
-/

namespace Meevax.FilePort
open Meevax.Text (Byte utf8String)

theorem overwrite_end (old bytes : List Byte) : overwrite old old.length bytes = old ++ bytes := by
  unfold overwrite
  rw [List.take_length, Nat.sub_self, List.drop_eq_nil_of_le (Nat.le_add_right _ _)]
  simp

/-! ### One port on a file -/

/-- What is known about the file of a port that was opened for writing, after other calls: the name is still its
name and no other is; no other open port writes to it; `bytes` were put into the port. With `opened = false` this
is what is known about any file that no open port writes to. -/
structure Owner (path : String) (i p : Nat) (w : World) (opened : Bool) (bytes : List Byte) : Prop where
  sound : Sound w
  name : w.disk.names path = some i
  only : ∀ q, w.disk.names q = some i → q = path
  others : ∀ (n offset : Nat) (buffer : List Byte), (opened = true → n ≠ p) → w.ports[n]? ≠ some (.output i offset buffer)
  state : if opened then ∃ buffer, w.ports[p]? = some (.output i (w.disk.data i).length buffer) ∧
      w.disk.data i ++ buffer = bytes
    else w.disk.data i = bytes

/-- What a call puts into an open port. -/
def puts (p : Nat) : Op → List Byte
  | .put q text => if q = p then utf8String text else []
  | _ => []

theorem getElem?_set_some {l : List Port} {n m : Nat} {x y : Port} (h : (l.set n x)[m]? = some y) :
    (m = n ∧ y = x) ∨ l[m]? = some y := by
  by_cases hm : m = n
  · subst hm
    rw [List.getElem?_set_self'] at h
    cases hl : l[m]? with
    | none => rw [hl] at h; cases h
    | some z => rw [hl] at h; left; exact ⟨rfl, by simpa using h.symm⟩
  · rw [List.getElem?_set_ne (Ne.symm hm)] at h
    exact .inr h

theorem getElem?_add_some {l : List Port} {m : Nat} {x y : Port} (h : (l ++ [x])[m]? = some y) :
    (m = l.length ∧ y = x) ∨ l[m]? = some y := by
  by_cases hm : m < l.length
  · rw [List.getElem?_append_left hm] at h; exact .inr h
  · rw [List.getElem?_append_right (Nat.le_of_not_lt hm)] at h
    by_cases e : m - l.length = 0
    · rw [e] at h
      exact .inl ⟨by omega, by simpa using h.symm⟩
    · rw [List.getElem?_eq_none (by simp; omega)] at h; cases h

theorem getElem?_add_left {l : List Port} {m : Nat} {x y : Port} (h : l[m]? = some y) :
    (l ++ [x])[m]? = some y := by
  obtain ⟨hl, -⟩ := List.getElem?_eq_some_iff.1 h
  rw [List.getElem?_append_left hl]; exact h

/-- The disk stays, a port gets another state that is not an open output port. -/
theorem Owner.setPort {path i p w opened bytes} (h : Owner path i p w opened bytes) {n : Nat} {x : Port}
    (hn : opened = true → n ≠ p) (hx : ∀ f o b, x ≠ .output f o b) : Owner path i p (w.setPort n x) opened bytes where
  sound := ⟨h.sound.names, fun m j o b hm => by
    rcases getElem?_set_some hm with ⟨-, e⟩ | e
    · exact absurd e.symm (hx _ _ _)
    · exact h.sound.outputs m j o b e⟩
  name := h.name
  only := h.only
  others m o b hm he := by
    rcases getElem?_set_some he with ⟨-, e⟩ | e
    · exact hx _ _ _ e.symm
    · exact h.others m o b hm e
  state := by
    have := h.state
    show if opened then ∃ buffer, (w.ports.set n x)[p]? = some (.output i (w.disk.data i).length buffer) ∧
      w.disk.data i ++ buffer = bytes
      else w.disk.data i = bytes
    cases opened with
    | true =>
      rw [List.getElem?_set_ne (hn rfl)]
      exact this
    | false => exact this

theorem Owner.addPort {path i p w opened bytes} (h : Owner path i p w opened bytes) {x : Port}
    (hx : ∀ f o b, x = .output f o b → f ≠ i ∧ f < w.disk.count) :
    Owner path i p (w.addPort x).2 opened bytes where
  sound := ⟨h.sound.names, fun m j o b hm => by
    rcases getElem?_add_some hm with ⟨-, e⟩ | e
    · exact (hx _ _ _ e.symm).2
    · exact h.sound.outputs m j o b e⟩
  name := h.name
  only := h.only
  others m o b hm he := by
    rcases getElem?_add_some he with ⟨-, e⟩ | e
    · exact (hx _ _ _ e.symm).1 rfl
    · exact h.others m o b hm e
  state := by
    have := h.state
    revert this
    show (if opened then _ else _) → if opened then ∃ buffer, (w.ports ++ [x])[p]? =
      some (.output i (w.disk.data i).length buffer) ∧ w.disk.data i ++ buffer = bytes
      else w.disk.data i = bytes
    cases opened with
    | true => exact fun ⟨b, h1, h2⟩ => ⟨b, getElem?_add_left h1, h2⟩
    | false => exact id

/-- Another file is written. -/
theorem Owner.otherFile {path i p w opened bytes} (h : Owner path i p w opened bytes) {f : Nat} (hf : f ≠ i)
    (g : List Byte) :
    Owner path i p { w with disk := { w.disk with data := fun j => if j = f then g else w.disk.data j } }
      opened bytes where
  sound := ⟨h.sound.names, h.sound.outputs⟩
  name := h.name
  only := h.only
  others := h.others
  state := by
    have := h.state
    simpa only [if_neg (Ne.symm hf)] using this

/-- The file is written by its port. -/
theorem Owner.write {path i p w bytes} (h : Owner path i p w true bytes) {buffer more : List Byte}
    (hp : w.ports[p]? = some (.output i (w.disk.data i).length buffer)) (hd : w.disk.data i ++ buffer = bytes)
    (now later : List Byte) (hb : buffer ++ more = now ++ later) :
    Owner path i p (World.setPort { w with disk := w.disk.write i (w.disk.data i).length now } p
      (.output i ((w.disk.data i).length + now.length) later)) true (bytes ++ more) where
  sound := ⟨h.sound.names, fun m j o b hm => by
    rcases getElem?_set_some hm with ⟨-, e⟩ | e
    · injection e with e
      subst e
      exact h.sound.names _ _ h.name
    · exact h.sound.outputs m j o b e⟩
  name := h.name
  only := h.only
  others m o b hm he := by
    rcases getElem?_set_some he with ⟨e, -⟩ | e
    · exact hm rfl e
    · exact h.others m o b hm e
  state := by
    show ∃ _, _ ∧ _
    refine ⟨later, ?_, ?_⟩
    · show (w.ports.set p _)[p]? = some (.output i (List.length (if i = i then _ else _)) later)
      rw [if_pos rfl, overwrite_end, List.length_append, List.getElem?_set_self']
      rw [hp]
      rfl
    · show (if i = i then _ else _) ++ later = _
      rw [if_pos rfl, overwrite_end, ← hd, List.append_assoc, List.append_assoc, hb]

theorem Owner.closed {path i p w bytes} (h : Owner path i p w true bytes) {buffer : List Byte}
    (hp : w.ports[p]? = some (.output i (w.disk.data i).length buffer)) (hd : w.disk.data i ++ buffer = bytes) :
    Owner path i p (World.setPort { w with disk := w.disk.write i (w.disk.data i).length buffer } p
      .closedOutput) false bytes where
  sound := ⟨h.sound.names, fun m j o b hm => by
    rcases getElem?_set_some hm with ⟨-, e⟩ | e
    · cases e
    · exact h.sound.outputs m j o b e⟩
  name := h.name
  only := h.only
  others m o b hm he := by
    by_cases hmp : m = p
    · subst hmp
      have : (w.ports.set m Port.closedOutput)[m]? = some (.output i o b) := he
      rw [List.getElem?_set_self', hp] at this
      cases this
    · rcases getElem?_set_some he with ⟨-, e⟩ | e
      · cases e
      · exact h.others m o b (fun _ => hmp) e
  state := by
    show (if i = i then _ else _) = _
    rw [if_pos rfl, overwrite_end, ← hd]

/-- A port that is not the port of the file, and writes. -/
theorem Owner.otherWrite {path i p w opened bytes} (h : Owner path i p w opened bytes) {n f o : Nat}
    {b : List Byte} (hn : opened = true → n ≠ p) (hp : w.ports[n]? = some (.output f o b)) (now : List Byte) (x : Port)
    (hx : ∀ f' o b, x = .output f' o b → f' = f) :
    Owner path i p (World.setPort { w with disk := w.disk.write f o now } n x) opened bytes := by
  have hf : f ≠ i := fun e => h.others n o b hn (e ▸ hp)
  have h1 := h.otherFile hf (overwrite (w.disk.data f) o now)
  refine ⟨⟨h.sound.names, fun m j o' b' hm => ?_⟩, h.name, h.only, fun m o' b' hm he => ?_, ?_⟩
  · rcases getElem?_set_some hm with ⟨-, e⟩ | e
    · rw [hx _ _ _ e.symm]; exact h.sound.outputs n f o b hp
    · exact h.sound.outputs m j o' b' e
  · rcases getElem?_set_some he with ⟨-, e⟩ | e
    · exact hf (hx _ _ _ e.symm).symm
    · exact h.others m o' b' hm e
  · have := h1.state
    revert this
    cases opened with
    | true =>
      show _ → ∃ buffer, (w.ports.set n x)[p]? = _ ∧ _
      rw [List.getElem?_set_ne (hn rfl)]
      exact id
    | false => exact id

theorem Owner.consumes {path i p w opened bytes} (h : Owner path i p w opened bytes) (pl : Platform)
    (f : Text.Port → Text.Take × Text.Port) (n : Nat) :
    Owner path i p (consume pl f n w).2 opened bytes := by
  by_cases hn : opened = true ∧ n = p
  · obtain ⟨rfl, rfl⟩ := hn
    obtain ⟨b, h1, -⟩ := h.state
    have : (consume pl f n w).2 = w := by
      unfold consume
      rw [h1]
    rw [this]; exact h
  · have hn : opened = true → n ≠ p := fun h1 h2 => hn ⟨h1, h2⟩
    unfold consume
    split
    · exact h.setPort hn fun _ _ _ e => by simp [advance] at e
    · exact h.setPort hn fun _ _ _ e => by cases e
    · exact h.setPort hn fun _ _ _ e => by cases e
    · exact h

/-- A call that neither opens the file for writing nor deletes it. -/
theorem Owner.step {path i p w opened bytes} (h : Owner path i p w opened bytes) (pl : Platform) {op : Op}
    (h1 : op ≠ .openOutput path) (h2 : op ≠ .deleteFile path) :
    Owner path i p (exec pl w op).2 (opened && op != .close p)
      (bytes ++ if opened then puts p op else []) := by
  have keep : ∀ {w' : World}, Owner path i p w' opened bytes → op ≠ .close p →
      (opened = true → puts p op = []) → Owner path i p w' (opened && op != .close p)
        (bytes ++ if opened then puts p op else []) := by
    intro w' hw hc hp
    have e1 : (opened && op != .close p) = opened := by simp [hc]
    have e2 : (if opened then puts p op else []) = [] := by
      cases opened with
      | true => exact hp rfl
      | false => rfl
    rw [e1, e2, List.append_nil]
    exact hw
  cases op with
  | openOutput q =>
    refine keep ?_ (by simp) (fun _ => rfl)
    have hq : q ≠ path := fun e => h1 (e ▸ rfl)
    show Owner path i p (openOutput pl q w).2 opened bytes
    unfold openOutput
    split
    · split
      · rename_i j hj
        have hji : j ≠ i := fun e => hq (h.only q (e ▸ hj))
        exact (h.otherFile hji []).addPort fun f o b e => by
          injection e with e
          subst e
          exact ⟨hji, h.sound.names _ _ hj⟩
      · have hi : i < w.disk.count := h.sound.names _ _ h.name
        have hd : (w.disk.count : Nat) ≠ i := Nat.ne_of_gt hi
        have h0 : Owner path i p { w with disk :=
            { names := fun q' => if q' = q then some w.disk.count else w.disk.names q'
              data := fun j => if j = w.disk.count then [] else w.disk.data j
              count := w.disk.count + 1 } } opened bytes := by
          refine ⟨⟨fun q' j hj => ?_, fun n j o b hn => ?_⟩, ?_, fun q' hq' => ?_, h.others, ?_⟩
          · by_cases e : q' = q
            · simp only [if_pos e] at hj
              injection hj with hj
              subst hj
              exact Nat.lt_succ_self _
            · simp only [if_neg e] at hj
              exact Nat.lt_succ_of_lt (h.sound.names _ _ hj)
          · exact Nat.lt_succ_of_lt (h.sound.outputs n j o b hn)
          · show (if path = q then _ else _) = _
            rw [if_neg (Ne.symm hq)]; exact h.name
          · by_cases e : q' = q
            · simp only [if_pos e] at hq'
              injection hq' with hq'
              exact absurd hq' hd
            · simp only [if_neg e] at hq'
              exact h.only _ hq'
          · have := h.state
            simpa only [if_neg (Ne.symm hd)] using this
        exact h0.addPort fun f o b e => by
          injection e with e
          subst e
          exact ⟨hd, Nat.lt_succ_self _⟩
    · exact h.addPort fun _ _ _ e => by cases e
  | openInput q =>
    refine keep ?_ (by simp) (fun _ => rfl)
    show Owner path i p (openInput q w).2 opened bytes
    unfold openInput
    split
    · exact h.addPort fun _ _ _ e => by cases e
    · exact h
  | openInputString text => exact keep (h.addPort fun _ _ _ e => by cases e) (by simp) (fun _ => rfl)
  | openOutputString => exact keep (h.addPort fun _ _ _ e => by cases e) (by simp) (fun _ => rfl)
  | getOutputString n => exact keep h (by simp) (fun _ => rfl)
  | put n text =>
    by_cases hn : opened = true ∧ n = p
    · obtain ⟨rfl, rfl⟩ := hn
      · obtain ⟨buffer, hp, hd⟩ := h.state
        have e : (exec pl w (.put n text)).2 = World.setPort { w with disk := (w.disk.write i
            (w.disk.data i).length ((buffer ++ utf8String text).take (pl.spill (buffer ++ utf8String text)))) }
            n (.output i ((w.disk.data i).length +
              ((buffer ++ utf8String text).take (pl.spill (buffer ++ utf8String text))).length)
              ((buffer ++ utf8String text).drop (pl.spill (buffer ++ utf8String text)))) := by
          simp only [exec, put, hp]
        rw [e]
        have e2 : (bytes ++ if true = true then puts n (.put n text) else []) = bytes ++ utf8String text := by
          simp [puts]
        rw [e2]
        exact h.write hp hd _ _ (List.take_append_drop _ _).symm
    · have hn : opened = true → n ≠ p := fun h1 h2 => hn ⟨h1, h2⟩
      refine keep ?_ (by simp) (fun ho => by simp [puts, hn ho])
      show Owner path i p (put pl n text w).2 opened bytes
      unfold put
      split
      · rename_i hp
        exact h.otherWrite hn hp _ _ fun f o b e => by injection e with e; exact e.symm
      · exact h
      · exact h.setPort hn fun _ _ _ e => by cases e
      · exact h
  | flush n =>
    refine keep ?_ (by simp) (fun _ => rfl)
    by_cases hn : opened = true ∧ n = p
    · obtain ⟨rfl, rfl⟩ := hn
      · obtain ⟨buffer, hp, hd⟩ := h.state
        have e : (exec pl w (.flush n)).2 = World.setPort { w with disk := (w.disk.write i
            (w.disk.data i).length buffer) } n (.output i ((w.disk.data i).length + buffer.length) []) := by
          simp only [exec, flush, hp]
        rw [e, ← List.append_nil bytes]
        exact h.write hp hd _ _ rfl
    · have hn : opened = true → n ≠ p := fun h1 h2 => hn ⟨h1, h2⟩
      show Owner path i p (flush n w).2 opened bytes
      unfold flush
      split
      · rename_i hp
        exact h.otherWrite hn hp _ _ fun f o b e => by injection e with e; exact e.symm
      · exact h
      · exact h
      · exact h
  | close n =>
    by_cases hn : opened = true ∧ n = p
    · obtain ⟨rfl, rfl⟩ := hn
      have e0 : (true && Op.close n != Op.close n) = false := by simp
      have e1 : (bytes ++ if true = true then puts n (.close n) else []) = bytes := by
        simp [puts]
      rw [e0, e1]
      · obtain ⟨buffer, hp, hd⟩ := h.state
        have e : (exec pl w (.close n)).2 = World.setPort { w with disk := (w.disk.write i
            (w.disk.data i).length buffer) } n .closedOutput := by
          simp only [exec, close, hp]
        rw [e]
        exact h.closed hp hd
    · have hn : opened = true → n ≠ p := fun h1 h2 => hn ⟨h1, h2⟩
      have e0 : (opened && Op.close n != Op.close p) = opened := by
        cases opened with
        | true => simp [hn rfl]
        | false => rfl
      have e1 : (bytes ++ if opened then puts p (.close n) else []) = bytes := by
        cases opened <;> simp [puts]
      rw [e0, e1]
      show Owner path i p (close n w).2 opened bytes
      unfold close
      split
      · rename_i hp
        exact h.otherWrite hn hp _ _ fun _ _ _ e => by cases e
      · exact h.setPort hn fun _ _ _ e => by cases e
      · exact h
      · exact h
  | isOpen n => exact keep h (by simp) (fun _ => rfl)
  | readChar n => exact keep (h.consumes pl _ n) (by simp) (fun _ => rfl)
  | peekChar n => exact keep (h.consumes pl _ n) (by simp) (fun _ => rfl)
  | fileExists q => exact keep h (by simp) (fun _ => rfl)
  | deleteFile q =>
    refine keep ?_ (by simp) (fun _ => rfl)
    have hq : q ≠ path := fun e => h2 (e ▸ rfl)
    show Owner path i p (deleteFile q w).2 opened bytes
    unfold deleteFile
    split
    · refine ⟨⟨fun q' j hj => ?_, h.sound.outputs⟩, ?_, fun q' hq' => ?_, h.others, h.state⟩
      · by_cases e : q' = q
        · simp only [if_pos e] at hj; cases hj
        · simp only [if_neg e] at hj; exact h.sound.names _ _ hj
      · show (if path = q then _ else _) = _
        rw [if_neg (Ne.symm hq)]; exact h.name
      · by_cases e : q' = q
        · simp only [if_pos e] at hq'; cases hq'
        · simp only [if_neg e] at hq'; exact h.only _ hq'
    · exact h

theorem utf8String_append (a b : List Nat) : utf8String (a ++ b) = utf8String a ++ utf8String b :=
  List.flatMap_append

theorem wrote_cons {p : Nat} {op : Op} (h : op ≠ .close p) (ops : List Op) :
    utf8String (wrote p (op :: ops)) = puts p op ++ utf8String (wrote p ops) := by
  cases op with
  | put q text =>
    by_cases hq : q = p
    · simp [wrote, puts, hq, utf8String_append]
    · simp [wrote, puts, hq]
  | close q =>
    have hq : q ≠ p := fun e => h (e ▸ rfl)
    simp [wrote, puts, hq]
  | _ => rfl

theorem wrote_close (p : Nat) (ops : List Op) : wrote p (.close p :: ops) = [] := by simp [wrote]

/-- A sequence of calls that neither opens the file for writing nor deletes it. -/
theorem Owner.execAll {path i p} (pl : Platform) : ∀ {ops : List Op} {w opened bytes},
    Owner path i p w opened bytes → Leaves path ops →
    Owner path i p (execAll pl w ops) (opened && !ops.contains (.close p))
      (bytes ++ if opened then utf8String (wrote p ops) else [])
  | [], w, opened, bytes, h, _ => by
    have e : (bytes ++ if opened then utf8String (wrote p []) else []) = bytes := by
      cases opened <;> simp [wrote, utf8String]
    rw [e]
    simpa [FilePort.execAll] using h
  | op :: ops, w, opened, bytes, h, hl => by
    have h1 := h.step pl (hl op (by simp)).1 (hl op (by simp)).2
    have h2 := Owner.execAll pl h1 (ops := ops) fun o ho => hl o (by simp [ho])
    have e : FilePort.execAll pl w (op :: ops) = FilePort.execAll pl (exec pl w op).2 ops := rfl
    rw [e]
    cases opened with
    | false => simpa using h2
    | true =>
      by_cases hc : op = .close p
      · subst hc
        simpa [wrote_close, puts, utf8String] using h2
      · have e1 : (true && !(op :: ops).contains (.close p)) =
            ((true && op != .close p) && !ops.contains (.close p)) := by
          simp [List.contains_cons, bne, Bool.not_or, Ne.symm hc, hc]
        rw [e1]
        have e2 : (true && op != .close p) = true := by simp [hc]
        rw [e2] at h2 ⊢
        rw [if_pos rfl, wrote_cons hc]
        simpa using h2

/-- Opening a file that is not shared. -/
theorem Owner.opened (pl : Platform) {path : String} {w : World} (hs : Sound w) (hu : Unshared w path)
    (hw : pl.writable path = true) :
    (exec pl w (.openOutput path)).1 = .port w.ports.length ∧
    ∃ i, Owner path i w.ports.length (exec pl w (.openOutput path)).2 true [] := by
  have new : ∀ (i : Nat) (d : Disk), d.data i = [] →
      (w.ports ++ [Port.output i 0 []])[w.ports.length]? = some (.output i (d.data i).length []) := by
    intro i d hd
    rw [hd, List.getElem?_append_right (Nat.le_refl _), Nat.sub_self]
    rfl
  simp only [exec, openOutput, hw, if_true]
  cases hn : w.disk.names path with
  | some i =>
    refine ⟨rfl, i, ⟨hs.names, fun n j o b h => ?_⟩, hn, fun q hq => hu.name q i hq hn, fun n o b hp h => ?_, ?_⟩
    · rcases getElem?_add_some h with ⟨-, e⟩ | e
      · injection e with e; subst e; exact hs.names _ _ hn
      · exact hs.outputs n j o b e
    · rcases getElem?_add_some h with ⟨e, -⟩ | e
      · exact hp rfl e
      · exact hu.writers n i o b e hn
    · refine ⟨[], new i _ (by simp [World.addPort]), by simp [World.addPort]⟩
  | none =>
    refine ⟨rfl, w.disk.count, ⟨fun q j h => ?_, fun n j o b h => ?_⟩, by simp [World.addPort], fun q hq => ?_,
      fun n o b hp h => ?_, ?_⟩
    · by_cases e : q = path
      · simp only [World.addPort, if_pos e] at h
        injection h with h; subst h; exact Nat.lt_succ_self _
      · simp only [World.addPort, if_neg e] at h
        exact Nat.lt_succ_of_lt (hs.names _ _ h)
    · rcases getElem?_add_some h with ⟨-, e⟩ | e
      · injection e with e; subst e; exact Nat.lt_succ_self _
      · exact Nat.lt_succ_of_lt (hs.outputs n j o b e)
    · by_cases e : q = path
      · exact e
      · simp only [World.addPort, if_neg e] at hq
        exact absurd (hs.names _ _ hq) (Nat.lt_irrefl _)
    · rcases getElem?_add_some h with ⟨e, -⟩ | e
      · exact hp rfl e
      · exact Nat.lt_irrefl _ (hs.outputs n _ o b e)
    · refine ⟨[], new _ _ (by simp [World.addPort]), by simp [World.addPort]⟩

/-- A file that no open port writes to. -/
theorem Owner.frozen {path : String} {w : World} (hs : Sound w) (hu : Unshared w path) {bytes : List Byte}
    (hc : contents w path = some bytes) : ∃ i, ∀ p, Owner path i p w false bytes := by
  unfold contents at hc
  cases hn : w.disk.names path with
  | none => rw [hn] at hc; cases hc
  | some i =>
    rw [hn] at hc
    injection hc with hc
    exact ⟨i, fun p => ⟨hs, hn, fun q hq => hu.name q i hq hn, fun n o b _ h => hu.writers n i o b h hn, hc⟩⟩

theorem Owner.contents {path i p w bytes} (h : Owner path i p w false bytes) :
    contents w path = some bytes := by
  unfold FilePort.contents
  rw [h.name]
  exact congrArg some h.state

theorem Owner.unshared {path i p w bytes} (h : Owner path i p w false bytes) : Unshared w path where
  name q j hq hp := by
    rw [h.name] at hp
    injection hp with hp
    exact h.only q (hp ▸ hq)
  writers n j o b hn hp := by
    rw [h.name] at hp
    injection hp with hp
    exact h.others n o b (fun e => by cases e) (hp ▸ hn)

/-! ### Closed ports -/

/-- A port that is closed. -/
def ClosedAt (p : Nat) (w : World) : Prop :=
  w.ports[p]? = some .closedOutput ∨ ∃ e f, w.ports[p]? = some (.closedInput e f)

theorem closedAt_set {p n : Nat} {w : World} {d : Disk} {x : Port} (h : ClosedAt p w) (hn : n ≠ p) :
    ClosedAt p { disk := d, ports := w.ports.set n x } := by
  unfold ClosedAt
  rw [List.getElem?_set_ne hn]
  exact h

theorem closedAt_add {p : Nat} {w : World} {d : Disk} {x : Port} (h : ClosedAt p w) :
    ClosedAt p { disk := d, ports := w.ports ++ [x] } := by
  rcases h with h | ⟨e, f, h⟩
  · exact .inl (getElem?_add_left h)
  · exact .inr ⟨e, f, getElem?_add_left h⟩

theorem closedAt_self {p : Nat} {w : World} {d : Disk} {e f : Bool} (h : ClosedAt p w) :
    ClosedAt p { disk := d, ports := w.ports.set p (.closedInput e f) } := by
  refine .inr ⟨e, f, ?_⟩
  rw [List.getElem?_set_self']
  rcases h with h | ⟨_, _, h⟩ <;> rw [h] <;> rfl

theorem ClosedAt.ne {p n : Nat} {w : World} {x : Port} (h : ClosedAt p w) (hn : w.ports[n]? = some x)
    (h1 : x ≠ .closedOutput) (h2 : ∀ e f, x ≠ .closedInput e f) : n ≠ p := by
  rintro rfl
  rcases h with h | ⟨e, f, h⟩
  · rw [hn] at h; injection h with h; exact h1 h
  · rw [hn] at h; injection h with h; exact h2 _ _ h

theorem closedAt_consume {p : Nat} {w : World} (pl : Platform) (f : Text.Port → Text.Take × Text.Port) (n : Nat)
    (h : ClosedAt p w) : ClosedAt p (consume pl f n w).2 := by
  unfold consume
  split
  · rename_i hn
    exact closedAt_set h (h.ne hn (by simp) (by simp))
  · by_cases e : n = p
    · subst e; exact closedAt_self h
    · exact closedAt_set h e
  · rename_i hn
    exact closedAt_set h (h.ne hn (by simp) (by simp))
  · exact h

theorem closedAt_exec {p : Nat} {w : World} (pl : Platform) (op : Op) (h : ClosedAt p w) :
    ClosedAt p (exec pl w op).2 := by
  cases op with
  | openOutput q =>
    show ClosedAt p (openOutput pl q w).2
    unfold openOutput
    split
    · split
      · exact closedAt_add h
      · exact closedAt_add h
    · exact closedAt_add h
  | openInput q =>
    show ClosedAt p (openInput q w).2
    unfold openInput
    split
    · exact closedAt_add h
    · exact h
  | openInputString text => exact closedAt_add h
  | openOutputString => exact closedAt_add h
  | getOutputString n => exact h
  | put n text =>
    show ClosedAt p (put pl n text w).2
    unfold put
    split
    · rename_i hn
      exact closedAt_set h (h.ne hn (by simp) (by simp))
    · exact h
    · rename_i hn
      exact closedAt_set h (h.ne hn (by simp) (by simp))
    · exact h
  | flush n =>
    show ClosedAt p (flush n w).2
    unfold flush
    split
    · rename_i hn
      exact closedAt_set h (h.ne hn (by simp) (by simp))
    · exact h
    · exact h
    · exact h
  | close n =>
    show ClosedAt p (close n w).2
    unfold close
    split
    · rename_i hn
      exact closedAt_set h (h.ne hn (by simp) (by simp))
    · rename_i hn
      exact closedAt_set h (h.ne hn (by simp) (by simp))
    · exact h
    · exact h
  | isOpen n => exact h
  | readChar n => exact closedAt_consume pl _ n h
  | peekChar n => exact closedAt_consume pl _ n h
  | fileExists q => exact h
  | deleteFile q =>
    show ClosedAt p (deleteFile q w).2
    unfold deleteFile
    split
    · exact h
    · exact h

theorem closedAt_execAll {p : Nat} (pl : Platform) : ∀ (ops : List Op) {w : World}, ClosedAt p w →
    ClosedAt p (execAll pl w ops)
  | [], _, h => h
  | op :: ops, _, h => closedAt_execAll pl ops (closedAt_exec pl op h)

theorem isOpen_of_closedAt {p : Nat} {w : World} (h : ClosedAt p w) : isOpen p w = .boolean false := by
  unfold isOpen
  rcases h with h | ⟨e, f, h⟩ <;> rw [h]

/-! ### Reading -/

/-- The text that is in front of an input file port. -/
def Front (i r : Nat) (w : World) (cs : List Char) : Prop :=
  ∃ o b e f, w.ports[r]? = some (.input i o b e f) ∧
    (w.view i o b e f = { rest := cs.flatMap String.utf8EncodeChar } ∨
      cs = [] ∧ (w.view i o b e f).rest = [] ∧ f = true)

/-- Reading leaves what is left in front of the port. -/
theorem view_advance (pl : Platform) {w : World} {i o : Nat} {b : List Byte} {e f : Bool} {after : Text.Port}
    {k : Nat} (h : after.rest = (w.view i o b e f).rest.drop k) (hk : k ≤ (w.view i o b e f).rest.length) :
    ∃ o' b', advance pl i o b (w.view i o b e f) after = .input i o' b' after.eof after.fail ∧
      w.view i o' b' after.eof after.fail = after := by
  refine ⟨_, _, rfl, ?_⟩
  have hlen : after.rest.length = (w.view i o b e f).rest.length - k := by rw [h, List.length_drop]
  have hgone : (w.view i o b e f).rest.length - after.rest.length = k := by omega
  rw [hgone]
  obtain ⟨m, hm⟩ : ∃ m, m = min after.rest.length (max (b.length - k) (pl.fetch after.rest)) := ⟨_, rfl⟩
  rw [← hm]
  have hb : b.length ≤ (w.view i o b e f).rest.length := by simp [World.view]
  have hmk : b.length ≤ k + m := by omega
  have hd : (w.disk.data i).drop (o + (k + m - b.length)) = after.rest.drop m := by
    rw [h, List.drop_drop]
    show _ = (b ++ (w.disk.data i).drop o).drop (k + m)
    rw [List.drop_append, List.drop_eq_nil_of_le hmk, List.nil_append, List.drop_drop]
  cases after with
  | mk rest eof fail =>
    simp only [World.view, Text.Port.mk.injEq, and_true]
    rw [hd]
    exact List.take_append_drop _ _

theorem input_set {r n : Nat} {w : World} {d : Disk} {x y : Port} (h : w.ports[r]? = some x) (hn : n ≠ r) :
    ({ disk := d, ports := w.ports.set n y } : World).ports[r]? = some x := by
  show (w.ports.set n y)[r]? = _
  rw [List.getElem?_set_ne hn]; exact h

theorem input_consume {r n : Nat} {w : World} {x : Port} (pl : Platform)
    (f : Text.Port → Text.Take × Text.Port) (h : w.ports[r]? = some x) (hn : n ≠ r) :
    (consume pl f n w).2.ports[r]? = some x := by
  unfold consume
  split
  · exact input_set h hn
  · exact input_set h hn
  · exact input_set h hn
  · exact h

/-- Calls on other ports leave an input port alone. -/
theorem input_exec {r : Nat} {w : World} {i o : Nat} {b : List Byte} {e f : Bool} (pl : Platform) {op : Op}
    (h : w.ports[r]? = some (.input i o b e f)) (h1 : op ≠ .close r) (h2 : op ≠ .readChar r)
    (h3 : op ≠ .peekChar r) : (exec pl w op).2.ports[r]? = some (.input i o b e f) := by
  have ne : ∀ {n : Nat} {x : Port}, w.ports[n]? = some x → (∀ i o b e f, x ≠ .input i o b e f) → n ≠ r := by
    rintro n x hn hx rfl
    rw [h] at hn
    injection hn with hn
    exact hx _ _ _ _ _ hn.symm
  cases op with
  | openOutput q =>
    show (openOutput pl q w).2.ports[r]? = _
    unfold openOutput
    split
    · split
      · exact getElem?_add_left h
      · exact getElem?_add_left h
    · exact getElem?_add_left h
  | openInput q =>
    show (openInput q w).2.ports[r]? = _
    unfold openInput
    split
    · exact getElem?_add_left h
    · exact h
  | openInputString text => exact getElem?_add_left h
  | openOutputString => exact getElem?_add_left h
  | getOutputString n => exact h
  | put n text =>
    show (put pl n text w).2.ports[r]? = _
    unfold put
    split
    · rename_i hn
      exact input_set h (ne hn (by simp))
    · exact h
    · rename_i hn
      exact input_set h (ne hn (by simp))
    · exact h
  | flush n =>
    show (flush n w).2.ports[r]? = _
    unfold flush
    split
    · rename_i hn
      exact input_set h (ne hn (by simp))
    · exact h
    · exact h
    · exact h
  | close n =>
    have hn : n ≠ r := fun e => h1 (e ▸ rfl)
    show (close n w).2.ports[r]? = _
    unfold close
    split
    · exact input_set h hn
    · exact input_set h hn
    · exact h
    · exact h
  | isOpen n => exact h
  | readChar n => exact input_consume pl _ h fun e => h2 (e ▸ rfl)
  | peekChar n => exact input_consume pl _ h fun e => h3 (e ▸ rfl)
  | fileExists q => exact h
  | deleteFile q =>
    show (deleteFile q w).2.ports[r]? = _
    unfold deleteFile
    split
    · exact h
    · exact h

theorem Front.exec {i r : Nat} {w : World} {cs : List Char} (pl : Platform) {op : Op} (h : Front i r w cs)
    (h1 : op ≠ .close r) (h2 : op ≠ .readChar r) (h3 : op ≠ .peekChar r)
    (hd : (exec pl w op).2.disk.data i = w.disk.data i) : Front i r (exec pl w op).2 cs := by
  obtain ⟨o, b, e, f, hp, hv⟩ := h
  refine ⟨o, b, e, f, input_exec pl hp h1 h2 h3, ?_⟩
  have : World.view (FilePort.exec pl w op).2 i o b e f = w.view i o b e f := by
    unfold World.view; rw [hd]
  rw [this]; exact hv

/-- `read-char` or `peek-char` on the port: what it returns on the stream, and what is left. -/
theorem front_consume {i r : Nat} {w : World} (pl : Platform) {g : Text.Port → Text.Take × Text.Port}
    {o : Nat} {b : List Byte} {e f : Bool} (hp : w.ports[r]? = some (.input i o b e f)) {k : Nat}
    (hk : k ≤ (w.view i o b e f).rest.length)
    (h : (g (w.view i o b e f)).2.rest = (w.view i o b e f).rest.drop k) :
    (consume pl g r w).1 = ofTake (g (w.view i o b e f)).1 ∧
    ∃ o' b', (consume pl g r w).2.ports[r]? =
        some (.input i o' b' (g (w.view i o b e f)).2.eof (g (w.view i o b e f)).2.fail) ∧
      (consume pl g r w).2.view i o' b' (g (w.view i o b e f)).2.eof (g (w.view i o b e f)).2.fail =
        (g (w.view i o b e f)).2 := by
  obtain ⟨o', b', h1, h2⟩ := view_advance pl h hk
  refine ⟨by simp only [consume, hp], o', b', ?_, ?_⟩
  · simp only [consume, hp, World.setPort]
    rw [List.getElem?_set_self', hp, h1]
    rfl
  · simp only [consume, hp]
    exact h2

theorem front_read {i r : Nat} {w : World} {cs : List Char} (pl : Platform) (h : Front i r w cs) :
    (exec pl w (.readChar r)).1 = (match cs with | [] => .eof | c :: _ => .char c.toNat) ∧
      Front i r (exec pl w (.readChar r)).2 cs.tail := by
  obtain ⟨o, b, e, f, hp, hv⟩ := h
  rcases hv with hv | ⟨rfl, hr, hf⟩
  · cases cs with
    | nil =>
      have hg : Text.Port.readChar (w.view i o b e f) = (.eof, { rest := [], eof := true, fail := true }) := by
        rw [hv]; exact Text.take_end
      obtain ⟨g1, o', b', g2, g3⟩ := front_consume pl (g := Text.Port.readChar) hp (k := 0) (Nat.zero_le _)
        (by rw [hg, hv]; rfl)
      rw [hg] at g1 g2 g3
      exact ⟨g1, o', b', _, _, g2, .inr ⟨rfl, congrArg Text.Port.rest g3, rfl⟩⟩
    | cons c cs =>
      have hg : Text.Port.readChar (w.view i o b e f) =
          (.char c.toNat, { rest := cs.flatMap String.utf8EncodeChar }) := by
        rw [hv, List.flatMap_cons]; exact Text.take_encoded c _
      obtain ⟨g1, o', b', g2, g3⟩ := front_consume pl (g := Text.Port.readChar) hp
        (k := (String.utf8EncodeChar c).length) (by rw [hv]; simp) (by rw [hg, hv]; simp)
      rw [hg] at g1 g2 g3
      exact ⟨g1, o', b', _, _, g2, .inl g3⟩
  · subst hf
    have hg : Text.Port.readChar (w.view i o b e true) = (.eof, w.view i o b e true) :=
      Text.take_failed rfl
    obtain ⟨g1, o', b', g2, g3⟩ := front_consume pl (g := Text.Port.readChar) hp (k := 0) (Nat.zero_le _)
      (by rw [hg]; rfl)
    rw [hg] at g1 g2 g3
    exact ⟨g1, o', b', _, _, g2, .inr ⟨rfl, (congrArg Text.Port.rest g3).trans hr, rfl⟩⟩

theorem front_peek {i r : Nat} {w : World} {cs : List Char} (pl : Platform) (h : Front i r w cs)
    (hz : ∀ c ∈ cs, c ≠ '\x00') :
    (exec pl w (.peekChar r)).1 = (match cs with | [] => .eof | c :: _ => .char c.toNat) ∧
      Front i r (exec pl w (.peekChar r)).2 cs := by
  obtain ⟨o, b, e, f, hp, hv⟩ := h
  rcases hv with hv | ⟨rfl, hr, hf⟩
  · cases cs with
    | nil =>
      have hg : Text.Port.peekChar (w.view i o b e f) = (.eof, { rest := [], eof := false, fail := true }) := by
        rw [hv]; exact Text.peek_end
      obtain ⟨g1, o', b', g2, g3⟩ := front_consume pl (g := Text.Port.peekChar) hp (k := 0) (Nat.zero_le _)
        (by rw [hg, hv]; rfl)
      rw [hg] at g1 g2 g3
      exact ⟨g1, o', b', _, _, g2, .inr ⟨rfl, congrArg Text.Port.rest g3, rfl⟩⟩
    | cons c cs =>
      have hg : Text.Port.peekChar (w.view i o b e f) =
          (.char c.toNat, { rest := (c :: cs).flatMap String.utf8EncodeChar }) := by
        rw [hv, List.flatMap_cons]; exact Text.peek_encoded (hz c (by simp)) _
      obtain ⟨g1, o', b', g2, g3⟩ := front_consume pl (g := Text.Port.peekChar) hp
        (k := 0) (Nat.zero_le _) (by rw [hg, hv]; rfl)
      rw [hg] at g1 g2 g3
      exact ⟨g1, o', b', _, _, g2, .inl g3⟩
  · subst hf
    have hg : Text.Port.peekChar (w.view i o b e true) = (.eof, { w.view i o b e true with eof := false }) :=
      Text.peek_failed rfl
    obtain ⟨g1, o', b', g2, g3⟩ := front_consume pl (g := Text.Port.peekChar) hp (k := 0) (Nat.zero_le _)
      (by rw [hg]; rfl)
    rw [hg] at g1 g2 g3
    exact ⟨g1, o', b', _, _, g2, .inr ⟨rfl, (congrArg Text.Port.rest g3).trans hr, rfl⟩⟩

/-- What a port gives, while nobody writes to the file. -/
theorem answers_expected (pl : Platform) {path : String} {i r : Nat} {bytes : List Byte} :
    ∀ {ops : List Op} {w : World} {cs : List Char}, Owner path i r w false bytes → Front i r w cs →
      (∀ c ∈ cs, c ≠ '\x00') → Leaves path ops → .close r ∉ ops → answers pl r w ops = expected r ops cs
  | [], _, _, _, _, _, _, _ => rfl
  | op :: ops, w, cs, ho, hf, hz, hl, hc => by
    have ho' : Owner path i r (exec pl w op).2 false bytes := by
      have := ho.step pl (hl op (by simp)).1 (hl op (by simp)).2
      simpa using this
    have hl' : Leaves path ops := fun o h => hl o (by simp [h])
    have hc' : Op.close r ∉ ops := fun h => hc (by simp [h])
    have hop : op ≠ .close r := fun h => hc (by simp [h])
    by_cases h1 : op = .readChar r
    · subst h1
      obtain ⟨g1, g2⟩ := front_read pl hf
      rw [answers, if_pos (.inl rfl), g1, answers_expected pl ho' g2
        (fun c h => hz c (List.mem_of_mem_tail h)) hl' hc']
      cases cs <;> simp [expected]
    · by_cases h2 : op = .peekChar r
      · subst h2
        obtain ⟨g1, g2⟩ := front_peek pl hf hz
        rw [answers, if_pos (.inr rfl), g1, answers_expected pl ho' g2 hz hl' hc']
        cases cs <;> simp [expected]
      · rw [answers, if_neg (by simp [h1, h2])]
        have he : expected r (op :: ops) cs = expected r ops cs := by
          cases cs <;> simp [expected, h1, h2]
        rw [he]
        have hd : (exec pl w op).2.disk.data i = w.disk.data i :=
          (show _ = bytes from ho'.state).trans (show _ = bytes from ho.state).symm
        exact answers_expected pl ho' (hf.exec pl hop h1 h2 hd) hz hl' hc'

end Meevax.FilePort
