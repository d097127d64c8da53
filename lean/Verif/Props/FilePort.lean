import Verif.Lemmas.FilePort
import Verif.Props.Utf8

/-
C88: text written to a file port is in the file when the port is closed or flushed, and is read back.
-/

namespace Meevax.FilePort
open Meevax.Text (Byte utf8String stringOf)

/-! ### Files and ports -/

/-- The files that have a name or are open exist, after any calls. -/
theorem sound_exec (pl : Platform) {w : World} (h : Sound w) (op : Op) : Sound (exec pl w op).2 := by
  have set : ∀ (d : Disk) (n : Nat) (x : Port), d.names = w.disk.names → d.count = w.disk.count →
      (∀ (f o : Nat) (b : List Byte), x = .output f o b → ∃ (m o' : Nat) (b' : List Byte), w.ports[m]? = some (.output f o' b')) →
      Sound { disk := d, ports := w.ports.set n x } := by
    intro d n x h1 h2 hx
    refine ⟨fun q i hi => ?_, fun m i o b hm => ?_⟩
    · simp only [h1, h2] at hi ⊢; exact h.names q i hi
    · simp only [h2]
      rcases getElem?_set_some hm with ⟨-, e⟩ | e
      · obtain ⟨m', o', b', e'⟩ := hx _ _ _ e.symm
        exact h.outputs m' i o' b' e'
      · exact h.outputs m i o b e
  have add : ∀ (d : Disk) (x : Port), (∀ q i, d.names q = some i → i < d.count) → w.disk.count ≤ d.count →
      (∀ (f o : Nat) (b : List Byte), x = .output f o b → f < d.count) → Sound { disk := d, ports := w.ports ++ [x] } := by
    intro d x h1 h2 hx
    refine ⟨h1, fun m i o b hm => ?_⟩
    rcases getElem?_add_some hm with ⟨-, e⟩ | e
    · exact hx _ _ _ e.symm
    · exact Nat.lt_of_lt_of_le (h.outputs m i o b e) h2
  have con : ∀ g n, Sound (consume pl g n w).2 := by
    intro g n
    unfold consume
    split
    · exact set _ _ _ rfl rfl fun _ _ _ e => by simp [advance] at e
    · exact set _ _ _ rfl rfl fun _ _ _ e => by cases e
    · exact set _ _ _ rfl rfl fun _ _ _ e => by cases e
    · exact h
  cases op with
  | openOutput q =>
    show Sound (openOutput pl q w).2
    unfold openOutput
    split
    · split
      · rename_i i hi
        exact add _ _ h.names (Nat.le_refl _) fun f o b e => by
          injection e with e; subst e; exact h.names _ _ hi
      · refine add _ _ (fun q' i hi => ?_) (Nat.le_succ _) fun f o b e => by
          injection e with e; subst e; exact Nat.lt_succ_self _
        by_cases e : q' = q
        · simp only [if_pos e] at hi
          injection hi with hi; subst hi; exact Nat.lt_succ_self _
        · simp only [if_neg e] at hi
          exact Nat.lt_succ_of_lt (h.names _ _ hi)
    · exact add _ _ h.names (Nat.le_refl _) fun _ _ _ e => by cases e
  | openInput q =>
    show Sound (openInput q w).2
    unfold openInput
    split
    · exact add _ _ h.names (Nat.le_refl _) fun _ _ _ e => by cases e
    · exact h
  | openInputString text => exact add _ _ h.names (Nat.le_refl _) fun _ _ _ e => by cases e
  | openOutputString => exact add _ _ h.names (Nat.le_refl _) fun _ _ _ e => by cases e
  | getOutputString n => exact h
  | put n text =>
    show Sound (put pl n text w).2
    unfold put
    split
    · rename_i hn
      exact set _ _ _ rfl rfl fun f o b e => by injection e with e; subst e; exact ⟨_, _, _, hn⟩
    · exact h
    · exact set _ _ _ rfl rfl fun _ _ _ e => by cases e
    · exact h
  | flush n =>
    show Sound (flush n w).2
    unfold flush
    split
    · rename_i hn
      exact set _ _ _ rfl rfl fun f o b e => by injection e with e; subst e; exact ⟨_, _, _, hn⟩
    · exact h
    · exact h
    · exact h
  | close n =>
    show Sound (close n w).2
    unfold close
    split
    · exact set _ _ _ rfl rfl fun _ _ _ e => by cases e
    · exact set _ _ _ rfl rfl fun _ _ _ e => by cases e
    · exact h
    · exact h
  | isOpen n => exact h
  | readChar n => exact con _ n
  | peekChar n => exact con _ n
  | fileExists q => exact h
  | deleteFile q =>
    show Sound (deleteFile q w).2
    unfold deleteFile
    split
    · refine ⟨fun q' i hi => ?_, h.outputs⟩
      by_cases e : q' = q
      · simp only [if_pos e] at hi; cases hi
      · simp only [if_neg e] at hi; exact h.names _ _ hi
    · exact h

theorem sound_execAll (pl : Platform) : ∀ (ops : List Op) {w : World}, Sound w → Sound (execAll pl w ops)
  | [], _, h => h
  | op :: ops, _, h => sound_execAll pl ops (sound_exec pl h op)

/-- C88, output: after a file was opened for writing and any calls on any ports followed, of which none opened the
file for writing again or deleted it, the file contains the text that was written to the port, if the port was
closed; a first part of it in any case. -/
theorem C88_written (pl : Platform) (w : World) (path : String) (ops : List Op) (hs : Sound w)
    (hu : Unshared w path) (hw : pl.writable path = true) (hl : Leaves path ops) :
    (exec pl w (.openOutput path)).1 = .port w.ports.length ∧
    (.close w.ports.length ∈ ops →
      contents (execAll pl w (.openOutput path :: ops)) path = some (utf8String (wrote w.ports.length ops))) ∧
    ∃ bytes, contents (execAll pl w (.openOutput path :: ops)) path = some bytes ∧
      bytes <+: utf8String (wrote w.ports.length ops) := by
  obtain ⟨h1, i, h2⟩ := Owner.opened pl hs hu hw
  have h3 := h2.execAll pl hl
  rw [if_pos rfl, List.nil_append] at h3
  refine ⟨h1, fun hc => ?_, ?_⟩
  · have e : (true && !ops.contains (.close w.ports.length)) = false := by simp [hc]
    rw [e] at h3
    exact h3.contents
  · cases hb : (true && !ops.contains (.close w.ports.length)) with
    | false =>
      rw [hb] at h3
      exact ⟨_, h3.contents, List.prefix_refl _⟩
    | true =>
      rw [hb] at h3
      obtain ⟨buffer, -, h5⟩ := h3.state
      refine ⟨_, ?_, ⟨buffer, h5⟩⟩
      show ((execAll pl (exec pl w (.openOutput path)).2 ops).disk.names path).map _ = _
      rw [h3.name]
      rfl

theorem execAll_append (pl : Platform) : ∀ (a b : List Op) (w : World),
    execAll pl w (a ++ b) = execAll pl (execAll pl w a) b
  | [], _, _ => rfl
  | op :: a, b, w => execAll_append pl a b (exec pl w op).2

/-- C88, `flush-output-port`: then the file contains all of the text that was written. -/
theorem C88_flushed (pl : Platform) (w : World) (path : String) (ops : List Op) (hs : Sound w)
    (hu : Unshared w path) (hw : pl.writable path = true) (hl : Leaves path ops) :
    contents (execAll pl w (.openOutput path :: (ops ++ [.flush w.ports.length]))) path =
      some (utf8String (wrote w.ports.length ops)) := by
  obtain ⟨-, i, h2⟩ := Owner.opened pl hs hu hw
  have h3 := h2.execAll pl hl
  rw [if_pos rfl, List.nil_append] at h3
  have e : execAll pl w (.openOutput path :: (ops ++ [.flush w.ports.length])) =
      (exec pl (execAll pl (exec pl w (.openOutput path)).2 ops) (.flush w.ports.length)).2 := by
    show execAll pl (exec pl w (.openOutput path)).2 (ops ++ [.flush w.ports.length]) = _
    rw [execAll_append]
    rfl
  rw [e]
  cases hb : (true && !ops.contains (.close w.ports.length)) with
  | false =>
    rw [hb] at h3
    have h4 := h3.step pl (op := .flush w.ports.length) (by simp) (by simp)
    simp only [Bool.false_and, Bool.false_eq_true, if_false, List.append_nil] at h4
    exact h4.contents
  | true =>
    rw [hb] at h3
    obtain ⟨buffer, h4, h5⟩ := h3.state
    have h6 := h3.name
    revert h4 h5 h6
    generalize execAll pl (exec pl w (.openOutput path)).2 ops = w'
    intro h4 h5 h6
    simp only [exec, flush, h4, contents, World.setPort, Disk.write, h6, Option.map_some,
      if_true, overwrite_end]
    rw [h5]

/-- C88, input: a port opened on a file gives the characters of the file, one after the other, and eof objects after
them; whatever other calls are made in between, if none writes to the file. `peek-char` shows the next character
and does not change anything. -/
theorem C88_read_partial (pl : Platform) (w : World) (path : String) (cs : List Char) (ops : List Op)
    (hs : Sound w) (hu : Unshared w path) (hz : ∀ c ∈ cs, c ≠ '\x00')
    (hc : contents w path = some (utf8String (cs.map Char.toNat))) (hl : Leaves path ops)
    (hn : .close w.ports.length ∉ ops) :
    (exec pl w (.openInput path)).1 = .port w.ports.length ∧
    answers pl w.ports.length (exec pl w (.openInput path)).2 ops = expected w.ports.length ops cs := by
  obtain ⟨i, h1⟩ := Owner.frozen hs hu hc
  have h2 : Owner path i w.ports.length (exec pl w (.openInput path)).2 false
      (utf8String (cs.map Char.toNat)) := by
    have := (h1 w.ports.length).step pl (op := .openInput path) (by simp) (by simp)
    simpa using this
  have hi := (h1 0).name
  refine ⟨by simp only [exec, openInput, hi]; rfl, answers_expected pl h2 ?_ hz hl hn⟩
  have hd : w.disk.data i = utf8String (cs.map Char.toNat) := (h1 0).state
  simp only [exec, openInput, hi]
  refine ⟨0, [], false, false, ?_, .inl ?_⟩
  · show (w.ports ++ [_])[w.ports.length]? = _
    rw [List.getElem?_append_right (Nat.le_refl _), Nat.sub_self]
    rfl
  · simp only [World.view, World.addPort, List.nil_append, List.drop_zero]
    rw [hd, Text.utf8String_chars hz]

/-- C88, round trip: what was written to a file is read from it. -/
theorem C88_round_trip_partial (pl : Platform) (w : World) (path : String) (ops ops' : List Op) (cs : List Char)
    (hs : Sound w) (hu : Unshared w path) (hw : pl.writable path = true) (hl : Leaves path ops)
    (hc : .close w.ports.length ∈ ops) (ht : wrote w.ports.length ops = cs.map Char.toNat)
    (hz : ∀ c ∈ cs, c ≠ '\x00') (r : Nat)
    (hr : r = (execAll pl w (.openOutput path :: ops)).ports.length) (hl' : Leaves path ops')
    (hn : .close r ∉ ops') :
    answers pl r (execAll pl w (.openOutput path :: (ops ++ [.openInput path]))) ops' = expected r ops' cs := by
  obtain ⟨-, i, h2⟩ := Owner.opened pl hs hu hw
  have h3 := h2.execAll pl hl
  have e : (true && !ops.contains (.close w.ports.length)) = false := by simp [hc]
  rw [e] at h3
  have h4 := (C88_written pl w path ops hs hu hw hl).2.1 hc
  rw [ht] at h4
  have h5 : execAll pl w (.openOutput path :: (ops ++ [.openInput path])) =
      (exec pl (execAll pl w (.openOutput path :: ops)) (.openInput path)).2 := by
    show execAll pl w ((.openOutput path :: ops) ++ [.openInput path]) = _
    rw [execAll_append]
    rfl
  subst hr
  rw [h5]
  exact (C88_read_partial pl _ path cs ops' h3.sound h3.unshared hz h4 hl' hn).2

/-- C88, closed ports: a file port that was closed is closed for ever; what is written to it is lost; nothing is
read from it. -/
theorem C88_closed (pl : Platform) (w : World) (p : Nat)
    (hp : ∃ x, w.ports[p]? = some x ∧ (∀ s, x ≠ .inputString s) ∧ ∀ b, x ≠ .outputString b) (ops : List Op) :
    let w' := execAll pl w (.close p :: ops)
    (exec pl w' (.isOpen p)).1 = .boolean false ∧
    (∀ text, (exec pl w' (.put p text)).2 = w') ∧ (exec pl w' (.flush p)).2 = w' ∧
    (exec pl w' (.close p)).2 = w' ∧ ∀ c, (exec pl w' (.readChar p)).1 ≠ .char c := by
  obtain ⟨x, hx, h1, h2⟩ := hp
  have h3 : ClosedAt p (exec pl w (.close p)).2 := by
    have self : ∀ y : Port, (w.ports.set p y)[p]? = some y := by
      intro y
      rw [List.getElem?_set_self', hx]
      rfl
    cases x with
    | output f o b => simp only [exec, close, hx]; exact .inl (self _)
    | closedOutput => simp only [exec, close, hx]; exact .inl hx
    | input i o b e f => simp only [exec, close, hx]; exact .inr ⟨_, _, self _⟩
    | closedInput e f => simp only [exec, close, hx]; exact .inr ⟨_, _, hx⟩
    | inputString s => exact absurd rfl (h1 s)
    | outputString b => exact absurd rfl (h2 b)
  have h4 := closedAt_execAll pl ops h3
  show (exec pl (execAll pl (exec pl w (.close p)).2 ops) _).1 = _ ∧ _
  generalize hw : execAll pl (exec pl w (.close p)).2 ops = w' at h4
  have hw' : execAll pl w (.close p :: ops) = w' := hw
  simp only [hw']
  refine ⟨isOpen_of_closedAt h4, fun text => ?_, ?_, ?_, fun c => ?_⟩
  · rcases h4 with h | ⟨e, f, h⟩ <;> simp only [exec, put, h]
  · rcases h4 with h | ⟨e, f, h⟩ <;> simp only [exec, flush, h]
  · rcases h4 with h | ⟨e, f, h⟩ <;> simp only [exec, close, h]
  · rcases h4 with h | ⟨e, f, h⟩
    · simp [exec, consume, h]
    · have : (Text.Port.readChar { rest := [], eof := e, fail := f }).1 = .eof := by
        cases e <;> cases f <;> rfl
      simp [exec, consume, h, this, ofTake]

/-! ### String ports -/

/-- The text written to a string port by a sequence of calls. -/
def collected (p : Nat) : List Op → List Nat
  | [] => []
  | .put q text :: ops => if q = p then text ++ collected p ops else collected p ops
  | _ :: ops => collected p ops

theorem outputString_exec (pl : Platform) {w : World} {p : Nat} {bytes : List Byte}
    (h : w.ports[p]? = some (.outputString bytes)) (op : Op) :
    (exec pl w op).2.ports[p]? = some (.outputString (bytes ++ puts p op)) := by
  have ne : ∀ {n : Nat} {x : Port}, w.ports[n]? = some x → (∀ b, x ≠ .outputString b) → n ≠ p := by
    rintro n x hn hx rfl
    rw [h] at hn
    injection hn with hn
    exact hx _ hn.symm
  have con : ∀ g n, (consume pl g n w).2.ports[p]? = some (.outputString bytes) := by
    intro g n
    unfold consume
    split
    · rename_i hn; exact input_set h (ne hn (by simp))
    · rename_i hn; exact input_set h (ne hn (by simp))
    · rename_i hn; exact input_set h (ne hn (by simp))
    · exact h
  cases op with
  | openOutput q =>
    show (openOutput pl q w).2.ports[p]? = _
    simp only [puts, List.append_nil]
    unfold openOutput
    split
    · split
      · exact getElem?_add_left h
      · exact getElem?_add_left h
    · exact getElem?_add_left h
  | openInput q =>
    show (openInput q w).2.ports[p]? = _
    simp only [puts, List.append_nil]
    unfold openInput
    split
    · exact getElem?_add_left h
    · exact h
  | openInputString text => simp only [puts, List.append_nil]; exact getElem?_add_left h
  | openOutputString => simp only [puts, List.append_nil]; exact getElem?_add_left h
  | getOutputString n => simp only [puts, List.append_nil]; exact h
  | put n text =>
    by_cases hn : n = p
    · subst hn
      simp only [exec, put, h, puts, if_true, World.setPort]
      rw [List.getElem?_set_self', h]
      rfl
    · rw [puts, if_neg hn, List.append_nil]
      show (put pl n text w).2.ports[p]? = _
      unfold put
      split
      · exact input_set h hn
      · exact h
      · exact input_set h hn
      · exact h
  | flush n =>
    simp only [puts, List.append_nil]
    show (flush n w).2.ports[p]? = _
    unfold flush
    split
    · rename_i hn; exact input_set h (ne hn (by simp))
    · exact h
    · exact h
    · exact h
  | close n =>
    simp only [puts, List.append_nil]
    show (close n w).2.ports[p]? = _
    unfold close
    split
    · rename_i hn; exact input_set h (ne hn (by simp))
    · rename_i hn; exact input_set h (ne hn (by simp))
    · exact h
    · exact h
  | isOpen n => simp only [puts, List.append_nil]; exact h
  | readChar n => simp only [puts, List.append_nil]; exact con _ n
  | peekChar n => simp only [puts, List.append_nil]; exact con _ n
  | fileExists q => simp only [puts, List.append_nil]; exact h
  | deleteFile q =>
    simp only [puts, List.append_nil]
    show (deleteFile q w).2.ports[p]? = _
    unfold deleteFile
    split
    · exact h
    · exact h

theorem puts_collected (p : Nat) (op : Op) (ops : List Op) :
    puts p op ++ utf8String (collected p ops) = utf8String (collected p (op :: ops)) := by
  cases op with
  | put q text =>
    by_cases hq : q = p
    · simp [puts, collected, hq, utf8String_append]
    · simp [puts, collected, hq]
  | _ => rfl

theorem outputString_execAll (pl : Platform) {p : Nat} : ∀ (ops : List Op) {w : World} {bytes : List Byte},
    w.ports[p]? = some (.outputString bytes) → (execAll pl w ops).ports[p]? =
      some (.outputString (bytes ++ utf8String (collected p ops)))
  | [], _, bytes, h => by simpa [execAll, collected, utf8String] using h
  | op :: ops, w, bytes, h => by
    have := outputString_execAll pl ops (outputString_exec pl h op)
    rw [List.append_assoc, puts_collected] at this
    exact this

/-- C88, string ports: `get-output-string` returns all of the text that was written to the port, whatever other calls
were made in between. -/
theorem C88_string_port_partial (pl : Platform) (w : World) (ops : List Op) (cs : List Char)
    (ht : collected w.ports.length ops = cs.map Char.toNat) (hz : ∀ c ∈ cs, c ≠ '\x00') :
    (exec pl w .openOutputString).1 = .port w.ports.length ∧
    (exec pl (execAll pl w (.openOutputString :: ops)) (.getOutputString w.ports.length)).1 =
      .string (cs.map Char.toNat) := by
  have h : (exec pl w .openOutputString).2.ports[w.ports.length]? = some (.outputString []) := by
    show (w.ports ++ [_])[w.ports.length]? = _
    rw [List.getElem?_append_right (Nat.le_refl _), Nat.sub_self]
    rfl
  have h2 := outputString_execAll pl ops h
  refine ⟨rfl, ?_⟩
  simp only [exec, getOutputString]
  rw [show (execAll pl w (.openOutputString :: ops)).ports[w.ports.length]? = _ from h2]
  rw [List.nil_append, ht]
  simp only [Text.C16_string_partial hz]

/-! ### A platform, a program, and what is false -/

namespace Example

/-- A platform that writes the buffer when it has four bytes, and reads three bytes ahead. -/
def platform : Platform where
  writable path := path != "/etc/passwd"
  spill b := if b.length < 4 then 0 else 4
  fetch _ := 3

/-- One file. -/
def world : World where
  disk := { names := fun q => if q = "old" then some 0 else none, data := fun _ => [0x61], count := 1 }
  ports := []

theorem sound : Sound world where
  names q i h := by
    by_cases e : q = "old"
    · simp only [world, if_pos e] at h
      injection h with h
      subst h
      exact Nat.one_pos
    · simp only [world, if_neg e] at h; cases h
  outputs n i o b h := by simp [world] at h

theorem unshared (path : String) : Unshared world path where
  name q i h1 h2 := by
    have h0 : ∀ r, world.disk.names r = some i → r = "old" := by
      intro r h
      by_cases e : r = "old"
      · exact e
      · simp only [world, if_neg e] at h; cases h
    rw [h0 q h1, h0 path h2]
  writers n i o b h := by simp [world] at h

/-- Writes to two ports by turns; port 0 gets "héy", port 1 "xyz12". -/
def ops : List Op :=
  [.put 0 [0x68], .openOutput "other", .put 1 [0x78, 0x79], .put 0 [0xE9], .put 1 [0x7A, 0x31, 0x32], .flush 1,
    .put 0 [0x79], .isOpen 0, .close 0, .put 0 [0x21], .close 1]

/-- The hypotheses of the theorems. -/
example : Leaves "old" ops ∧ .close world.ports.length ∈ ops ∧ wrote world.ports.length ops = [0x68, 0xE9, 0x79] ∧
    wrote world.ports.length ops = ['h', 'é', 'y'].map Char.toNat := by
  refine ⟨?_, by decide, by decide, by decide⟩
  unfold Leaves
  decide

/-- Before the port is closed, not all of the text is in the file. -/
theorem buffered : contents (execAll platform world (.openOutput "old" :: ops.take 3)) "old" = some [] ∧
    contents (execAll platform world (.openOutput "old" :: ops)) "old" = some [0x68, 0xC3, 0xA9, 0x79] ∧
    contents (execAll platform world (.openOutput "old" :: ops)) "other" =
      some [0x78, 0x79, 0x7A, 0x31, 0x32] := ⟨by decide, by decide, by decide⟩

/-- What is read back. -/
example : answers platform 2 (execAll platform world (.openOutput "old" :: (ops ++ [.openInput "old"])))
    [.peekChar 2, .readChar 2, .openInput "other", .readChar 3, .readChar 2, .readChar 2, .peekChar 2, .readChar 2] =
    [.char 0x68, .char 0x68, .char 0xE9, .char 0x79, .eof, .eof] :=
  C88_round_trip_partial platform world "old" ops _ ['h', 'é', 'y'] sound (unshared _) rfl
    (by unfold Leaves; decide) (by decide) (by decide) (by decide) 2 (by decide) (by unfold Leaves; decide)
    (by decide)

/-- The hypotheses of `C88_closed`: port 0 is the file port opened before. -/
example : ∃ x, (exec platform world (.openOutput "old")).2.ports[0]? = some x ∧ (∀ s, x ≠ .inputString s) ∧
    ∀ b, x ≠ .outputString b := ⟨.output 0 0 [], rfl, by simp, by simp⟩

/-- The hypotheses of `C88_string_port_partial`: text in between goes to another port, the port is closed. -/
example : collected world.ports.length [.put 0 [0x68], .openOutput "f", .put 1 [0x78], .close 0, .put 0 [0xE9]] =
    ['h', 'é'].map Char.toNat := by decide

/-- **False for two ports on one file**: they write over each other. -/
theorem C88_two_ports_fails :
    contents (execAll platform world [.openOutput "f", .openOutput "f", .put 0 [0x61, 0x62], .put 1 [0x63],
      .close 0, .close 1]) "f" = some [0x63, 0x62] := by decide

/-- **False for a file that changes while it is read**: what was read ahead is not what is in the file. -/
theorem C88_changed_fails :
    answers platform 0 (execAll platform { world with disk.data := fun _ => [0x61, 0x62, 0x63, 0x64, 0x65, 0x66] }
        [.openInput "old"])
      [.readChar 0, .openOutput "old", .put 1 [0x31, 0x32, 0x33, 0x34, 0x35, 0x36], .close 1, .readChar 0,
        .readChar 0, .readChar 0, .readChar 0] = [.char 0x61, .char 0x62, .char 0x63, .char 0x64, .char 0x35] := by
  decide

/-- **Closing a string port does not close it**: `output-port-open?` and `input-port-open?` still hold, text is still
collected and characters are still read. -/
theorem C88_string_close_fails :
    let w := execAll platform world [.openOutputString, .openInputString [0x61], .close 0, .close 1]
    (exec platform w (.isOpen 0)).1 = .boolean true ∧ (exec platform w (.isOpen 1)).1 = .boolean true ∧
    (exec platform w (.readChar 1)).1 = .char 0x61 ∧
    (execAll platform w [.put 0 [0x62]]).ports[0]? = some (.outputString [0x62]) :=
  ⟨rfl, rfl, rfl, rfl⟩

/-- **A file that cannot be opened for writing is no error**: `open-output-file` returns a port that is closed, and
what is written to it is lost without an error. -/
theorem C88_unwritable_fails (pl : Platform) (w : World) (path : String) (h : pl.writable path = false)
    (text : List Nat) :
    (exec pl w (.openOutput path)).1 = .port w.ports.length ∧
    (exec pl w (.openOutput path)).2.disk = w.disk ∧
    (exec pl (exec pl w (.openOutput path)).2 (.isOpen w.ports.length)).1 = .boolean false ∧
    exec pl (exec pl w (.openOutput path)).2 (.put w.ports.length text) =
      (.unspecified, (exec pl w (.openOutput path)).2) := by
  have e : exec pl w (.openOutput path) = w.addPort .closedOutput := by simp [exec, openOutput, h]
  have hp : (w.ports ++ [Port.closedOutput])[w.ports.length]? = some .closedOutput := by
    rw [List.getElem?_append_right (Nat.le_refl _), Nat.sub_self]
    rfl
  rw [e]
  refine ⟨rfl, rfl, ?_, ?_⟩
  · simp only [exec, isOpen, World.addPort, hp]
  · simp only [exec, put, World.addPort, hp]

/-- There are such files. -/
example : platform.writable "/etc/passwd" = false := rfl

/-- **A file that is not there is an error, but not a file error**: `file-error?` is false of what a handler gets when
`open-input-file` fails, though it is true of what it gets when `delete-file` fails. -/
theorem C88_missing_fails (pl : Platform) (w : World) (path : String) (h : w.disk.names path = none) :
    ∃ e e', (exec pl w (.openInput path)).1 = .error e ∧ e.isFileError = false ∧
      (exec pl w (.deleteFile path)).1 = .error e' ∧ e'.isFileError = true :=
  ⟨.system, .file, by simp [exec, openInput, h], rfl, by simp [exec, deleteFile, h], rfl⟩

example : world.disk.names "new" = none := by decide

end Example

end Meevax.FilePort
