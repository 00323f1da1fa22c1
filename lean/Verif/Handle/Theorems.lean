import Verif.Handle.Model
import Verif.Handle.Spec
import Verif.Container.CloseLemmas

/-!
# Theorems: streams over files (C94)
-/

namespace Verif.Handle
open Verif Verif.Stream Verif.Handle.Spec

/-- One operation; an exception of `Seek` is caught by the user, and the stream is as it was. -/
def step (d : Disk) (h : Handle) : Op → Outcome (Out × Handle × Disk)
  | .read n => .ok (.bytes (read d h n).1, (read d h n).2, d)
  | .write w => .ok (.count (write d h w).1, (write d h w).2)
  | .seek off =>
    match seek h off with
    | .ok h => .ok (.moved true, h, d)
    | .throw => .ok (.moved false, h, d)
    | .ub => .ub
  | .close => do
    let h ← close h
    .ok (.done, h, d)

/-- A history; the stream is destroyed at its end. What the user sees, and the disk. -/
def run (d : Disk) (h : Handle) : List Op → Outcome (List Out × Disk)
  | [] => do
    destroy h
    .ok ([], d)
  | op :: ops => do
    let (o, h, d) ← step d h op
    let (os, d) ← run d h ops
    .ok (o :: os, d)

/-! ## Closing -/

theorem reopen_own (d : Disk) (h : Handle) : (reopen d h).own = true := by
  unfold reopen
  split
  · rename_i hc
    simp only [Bool.and_eq_true] at hc
    exact hc.1
  · rfl

theorem run_ub (ops : List Op) : ∀ (d : Disk) (h : Handle),
    (closedTwice h.own ops = true → run d h ops = .ub) ∧ (closedTwice h.own ops = false → ∃ r, run d h ops = .ok r) := by
  induction ops with
  | nil =>
    intro d h
    cases ho : h.own
    · refine ⟨fun _ => ?_, fun hc => by simp [closedTwice] at hc⟩
      simp [run, destroy, close, ho]
    · refine ⟨fun hc => by simp [closedTwice] at hc, fun _ => ⟨([], d), ?_⟩⟩
      simp [run, destroy, close, ho]
  | cons op ops ih =>
    intro d h
    cases op with
    | read n =>
      have := ih d (read d h n).2
      have ho : (read d h n).2.own = true := reopen_own d h
      rw [ho] at this
      simp only [closedTwice, run, step, Outcome.ok_bind]
      refine ⟨fun hc => ?_, fun hc => ?_⟩
      · rw [this.1 hc]; rfl
      · obtain ⟨r, hr⟩ := this.2 hc
        rw [hr]; exact ⟨_, rfl⟩
    | write w =>
      have := ih (write d h w).2.2 (write d h w).2.1
      have ho : (write d h w).2.1.own = true := reopen_own d h
      rw [ho] at this
      simp only [closedTwice, run, step, Outcome.ok_bind]
      refine ⟨fun hc => ?_, fun hc => ?_⟩
      · rw [this.1 hc]; rfl
      · obtain ⟨r, hr⟩ := this.2 hc
        rw [hr]; exact ⟨_, rfl⟩
    | seek off =>
      have hs : ∃ o h', step d h (.seek off) = .ok (o, h', d) ∧ h'.own = h.own := by
        unfold step seek
        by_cases h1 : off > h.size
        · simp only [if_pos h1]
          exact ⟨_, _, rfl, rfl⟩
        · simp only [if_neg h1]
          exact ⟨_, _, rfl, rfl⟩
      obtain ⟨o, h', e, ho⟩ := hs
      have := ih d h'
      rw [ho] at this
      simp only [closedTwice, run]
      rw [e, Outcome.ok_bind]
      refine ⟨fun hc => ?_, fun hc => ?_⟩
      · simp only
        rw [this.1 hc]; rfl
      · obtain ⟨r, hr⟩ := this.2 hc
        simp only
        rw [hr]; exact ⟨_, rfl⟩
    | close =>
      cases ho : h.own
      · refine ⟨fun _ => ?_, fun hc => by simp [closedTwice] at hc⟩
        simp [run, step, close, ho]
      · have := ih d { h with own := false, isOpen := false }
        simp only [closedTwice, run, step, close, ho, if_true, Outcome.ok_bind]
        refine ⟨fun hc => ?_, fun hc => ?_⟩
        · rw [this.1 hc]; rfl
        · obtain ⟨r, hr⟩ := this.2 hc
          rw [hr]; exact ⟨_, rfl⟩

/-- **C94, negation.** Using a stream and destroying it is undefined exactly when it is closed, or destroyed, while closed already,
whatever the file and the history; otherwise the history runs to its end. -/
theorem closing_undefined_iff (d : Disk) (ops : List Op) :
    (run d (openH d) ops = .ub ↔ closedTwice true ops = true) ∧ (closedTwice true ops = false → ∃ r, run d (openH d) ops = .ok r) := by
  have h := run_ub ops d (openH d)
  have ho : (openH d).own = true := rfl
  rw [ho] at h
  refine ⟨⟨fun hu => ?_, h.1⟩, h.2⟩
  by_contra hc
  rw [Bool.not_eq_true] at hc
  obtain ⟨r, hr⟩ := h.2 hc
  rw [hr] at hu
  cases hu

/-- **C94, negation.** In particular: a stream that was closed and is then destroyed. -/
theorem closed_then_destroyed (d : Disk) (ops : List Op) (h : closedTwice true ops = false) : run d (openH d) (ops ++ [.close]) = .ub := by
  apply (closing_undefined_iff d _).1.2
  have : ∀ (o : Bool) (l : List Op), closedTwice o l = false → closedTwice o (l ++ [.close]) = true := by
    intro o l
    induction l generalizing o with
    | nil => intro h; cases o <;> simp [closedTwice] at h ⊢
    | cons x l ih =>
      intro h
      cases x with
      | close => cases o <;> simp [closedTwice] at h ⊢; exact ih _ h
      | _ => simp only [closedTwice, List.cons_append] at h ⊢; exact ih _ h
  exact this true ops h

example : closedTwice true [.write [1, 2], .close, .seek 1, .read 1, .close, .write [3]] = false := by decide

/-! ## The bytes -/

/-- The stream stands for the file and the place; `s`: the last read met the end. -/
structure Rel (d : Disk) (h : Handle) (a : Arr) (s : Bool) : Prop where
  there : d.bytes = some a.bytes
  rw : d.rw = true
  pos : h.pos = a.pos
  le : a.pos ≤ a.bytes.length
  size : h.size = a.bytes.length
  live : h.own = true → h.isOpen = true ∧ h.failed = s
  closed : h.own = false → s = false

theorem reopen_rel {d : Disk} {h : Handle} {a : Arr} {s : Bool} (r : Rel d h a s) :
    Rel d (reopen d h) a s ∧ (reopen d h).own = true := by
  refine ⟨?_, reopen_own d h⟩
  unfold reopen
  split
  · exact r
  · rename_i hc
    have hn : h.own = false := by
      cases ho : h.own
      · rfl
      · have := (r.live ho).1
        simp [ho, this] at hc
    have hco : canOpen d = true := by simp [canOpen, r.there, r.rw]
    refine ⟨r.there, r.rw, r.pos, r.le, ?_, fun _ => ⟨hco, ?_⟩, fun hf => by simp [attach] at hf⟩
    · simp [attach, hco, r.there]
    · simp [attach, hco, r.closed hn]

theorem put_length (b : Bytes) (pos : Nat) (w : Bytes) (h : pos ≤ b.length) : (put b pos w).length = max b.length (pos + w.length) := by
  simp only [put, List.length_append, List.length_take, List.length_drop]
  omega

theorem overlay_put (b : Bytes) (pos : Nat) (w : Bytes) (h : pos ≤ b.length) : overlay b pos w = put b pos w := by
  unfold overlay put
  split
  · rename_i hw
    rw [List.isEmpty_iff] at hw
    subst hw
    simp
  · have : max pos b.length = b.length := by omega
    rw [this]
    congr 2
    simp [resizeB]

/-- Whether the last read met the end, and whether the stream is open, after an operation. -/
def nextShort (s : Bool) (a : Arr) : Op → Bool
  | .read n => decide (((a.bytes.drop a.pos).take n).length < n)
  | .write _ => false
  | .seek _ => s
  | .close => false

def nextOwn (o : Bool) : Op → Bool
  | .read _ => true
  | .write _ => true
  | .seek _ => o
  | .close => false

theorem step_rel {d : Disk} {h : Handle} {a : Arr} {s : Bool} (r : Rel d h a s) (op : Op) (rest : List Op)
    (hw : noWriteAfterShort s a (op :: rest)) (hc : closedTwice h.own (op :: rest) = false) :
    ∃ h' d' s', step d h op = .ok ((Spec.step a op).1, h', d') ∧ Rel d' h' (Spec.step a op).2 s' ∧
      noWriteAfterShort s' (Spec.step a op).2 rest ∧ closedTwice h'.own rest = false ∧ s' = nextShort s a op ∧ h'.own = nextOwn h.own op := by
  cases op with
  | read n =>
    obtain ⟨r1, ho⟩ := reopen_rel r
    obtain ⟨l1, l2⟩ := r1.live ho
    have hgot : (read d h n).1 = (a.bytes.drop a.pos).take n := by
      simp [read, l1, r1.there, r1.pos]
    refine ⟨(read d h n).2, d, decide (((a.bytes.drop a.pos).take n).length < n), ?_, ?_, hw, ?_⟩
    · simp only [step, Spec.step]
      rw [hgot]
    · refine ⟨r.there, r.rw, ?_, ?_, ?_, ?_, ?_⟩
      · show (reopen d h).pos + _ = _
        rw [r1.pos]
        simp [Spec.step, l1, r1.there]
      · have := r.le
        simp only [Spec.step, List.length_take, List.length_drop]
        omega
      · exact r1.size
      · intro _
        refine ⟨l1, ?_⟩
        simp [read, l1, r1.there, r1.pos]
      · intro hf
        rw [show (read d h n).2.own = (reopen d h).own from rfl, ho] at hf
        cases hf
    · rw [show (read d h n).2.own = (reopen d h).own from rfl, ho]
      exact ⟨hc, rfl, rfl⟩
  | write w =>
    obtain ⟨hs, hw⟩ := hw
    subst hs
    obtain ⟨r1, ho⟩ := reopen_rel r
    obtain ⟨l1, l2⟩ := r1.live ho
    have hd : (write d h w).2.2 = { d with bytes := some (put a.bytes a.pos w) } := by
      simp [write, l2, r1.there, r1.pos, overlay_put _ _ _ r.le]
    have hle := r.le
    refine ⟨(write d h w).2.1, (write d h w).2.2, false, rfl, ?_, hw, ?_⟩
    · refine ⟨by rw [hd]; rfl, by rw [hd]; exact r.rw, ?_, ?_, ?_, fun _ => ⟨l1, l2⟩, fun _ => rfl⟩
      · show (reopen d h).pos + _ = _
        rw [r1.pos]; rfl
      · simp only [Spec.step]
        rw [put_length _ _ _ hle]
        omega
      · show max (reopen d h).size ((reopen d h).pos + w.length) = _
        rw [r1.size, r1.pos]
        simp only [Spec.step]
        rw [put_length _ _ _ hle]
    · rw [show (write d h w).2.1.own = (reopen d h).own from rfl, ho]
      exact ⟨hc, rfl, rfl⟩
  | seek off =>
    by_cases h1 : off ≤ a.bytes.length
    · have e : seek h off = .ok { h with pos := off } := by
        unfold seek
        rw [if_neg (by rw [r.size]; omega)]
      have e2 : Spec.step a (.seek off) = (.moved true, { a with pos := off }) := by simp [Spec.step, h1]
      simp only [noWriteAfterShort] at hw
      rw [e2] at hw ⊢
      exact ⟨{ h with pos := off }, d, s, by simp [step, e], ⟨r.there, r.rw, rfl, h1, r.size, r.live, r.closed⟩, hw, hc, rfl, rfl⟩
    · have e : seek h off = .throw := by
        unfold seek
        rw [if_pos (by rw [r.size]; omega)]
      have e2 : Spec.step a (.seek off) = (.moved false, a) := by simp [Spec.step, h1]
      simp only [noWriteAfterShort] at hw
      rw [e2] at hw ⊢
      exact ⟨h, d, s, by simp [step, e], r, hw, hc, rfl, rfl⟩
  | close =>
    have ho : h.own = true := by
      cases ho : h.own
      · rw [ho] at hc; simp [closedTwice] at hc
      · rfl
    rw [ho] at hc
    refine ⟨{ h with own := false, isOpen := false }, d, false, ?_, ?_, hw, hc, rfl, rfl⟩
    · simp [step, close, ho, Outcome.ok_bind, Spec.step]
    · exact ⟨r.there, r.rw, r.pos, r.le, r.size, fun h => by simp at h, fun _ => rfl⟩

theorem run_rel (ops : List Op) : ∀ (d : Disk) (h : Handle) (a : Arr) (s : Bool), Rel d h a s → noWriteAfterShort s a ops →
    closedTwice h.own ops = false →
    run d h ops = .ok ((Spec.run a ops).1, ⟨some (Spec.run a ops).2.bytes, true⟩) := by
  induction ops with
  | nil =>
    intro d h a s r _ hc
    have ho : h.own = true := by simpa [closedTwice] using hc
    simp only [run, destroy, close, ho, if_true, Outcome.ok_bind, Spec.run]
    have := r.there
    have h2 := r.rw
    cases d
    simp only at this h2
    rw [this, h2]
  | cons op ops ih =>
    intro d h a s r hw hc
    obtain ⟨h', d', s', e, r', hw', hc', _⟩ := step_rel r op ops hw hc
    simp only [run, Spec.run]
    rw [e, Outcome.ok_bind]
    simp only
    rw [ih d' h' _ s' r' hw' hc', Outcome.ok_bind]

/-- **C94 (partial).** A stream over a file that may be read and written: every history of reads, writes, seeks and closes gives what
a byte array with a place in it gives, and leaves the array in the file. Missing: histories that close a closed
stream or write after a read that met the end of the file, and files that cannot be written (below). -/
theorem file_is_array_partial (b : Bytes) (ops : List Op) (hc : closedTwice true ops = false) (hw : noWriteAfterShort false ⟨b, 0⟩ ops) :
    run ⟨some b, true⟩ (openH ⟨some b, true⟩) ops = .ok ((Spec.run ⟨b, 0⟩ ops).1, ⟨some (Spec.run ⟨b, 0⟩ ops).2.bytes, true⟩) :=
  run_rel ops _ _ _ false ⟨rfl, rfl, rfl, Nat.zero_le _, rfl, fun _ => ⟨rfl, rfl⟩, fun h => by simp [openH, attach] at h⟩ hw hc

/-- The same for a new file. -/
theorem new_file_is_array_partial (old : Option Bytes) (ops : List Op) (hc : closedTwice true ops = false)
    (hw : noWriteAfterShort false ⟨[], 0⟩ ops) :
    run (create ⟨old, true⟩).2 (create ⟨old, true⟩).1 ops =
      .ok ((Spec.run ⟨[], 0⟩ ops).1, ⟨some (Spec.run ⟨[], 0⟩ ops).2.bytes, true⟩) :=
  run_rel ops _ _ _ false ⟨rfl, rfl, rfl, Nat.zero_le _, rfl, fun _ => ⟨rfl, rfl⟩, fun h => by simp [create, attach] at h⟩ hw hc

/-- A history with closes in it, whose writes overwrite and lengthen the file. -/
def sample : List Op := [.write [7, 8], .close, .seek 1, .read 2, .seek 4, .close, .write [9], .read 3, .close, .write [5]]

example : closedTwice true sample = false ∧ noWriteAfterShort false ⟨[1, 2, 3, 4], 0⟩ sample := by
  simp only [sample, noWriteAfterShort]
  decide

example : Spec.run ⟨[1, 2, 3, 4], 0⟩ sample =
    ([.count 2, .done, .moved true, .bytes [8, 3], .moved true, .done, .count 1, .bytes [], .done, .count 1],
      ⟨[7, 8, 3, 4, 9, 5], 6⟩) := by decide

/-- **C94, negation.** What is written after a read that met the end of the file is not in the file, and success is reported. -/
theorem write_after_short_read_lost (b : Bytes) (n : Nat) (hn : b.length < n) (w : Bytes) :
    run ⟨some b, true⟩ (openH ⟨some b, true⟩) [.read n, .write w] = .ok ([.bytes b, .count w.length], ⟨some b, true⟩) := by
  have h1 : (read ⟨some b, true⟩ (openH ⟨some b, true⟩) n) = (b, ⟨true, true, true, b.length, b.length⟩) := by
    have h2 : b.take n = b := List.take_of_length_le (by omega)
    simp [read, openH, attach, reopen, canOpen, h2, hn]
  simp only [run, step, h1, Outcome.ok_bind]
  simp [write, reopen, destroy, close, Outcome.ok_bind]

/-! ## Files that may only be read -/

theorem stuck_step (d : Disk) (hd : canOpen d = false) (h : Handle) (hop : h.isOpen = false) (hf : h.own = true → h.failed = true) (op : Op)
    (o : Out) (h' : Handle) (d' : Disk) (e : step d h op = .ok (o, h', d')) :
    d' = d ∧ h'.isOpen = false ∧ (h'.own = true → h'.failed = true) ∧ (∀ n, op = .read n → o = .bytes []) ∧
      (∀ w, op = .write w → o = .count w.length) := by
  have hre : (reopen d h).isOpen = false ∧ (reopen d h).failed = true := by
    unfold reopen
    rw [hop]
    simp [attach, hd]
  cases op with
  | read n =>
    simp only [step] at e
    cases e
    refine ⟨rfl, hre.1, fun _ => ?_, fun _ _ => ?_, fun _ h => by cases h⟩
    · simp [read, hre.1]
    · simp [read, hre.1]
  | write w =>
    simp only [step] at e
    cases e
    refine ⟨?_, ?_, fun _ => ?_, fun _ h => (by cases h), fun _ h => by cases h; rfl⟩
    · simp [write, hre.2]
    · exact hre.1
    · exact hre.2
  | seek off =>
    simp only [step] at e
    split at e
    · rename_i h1 heq
      cases e
      unfold seek at heq
      split at heq
      · cases heq
      · cases heq
        exact ⟨rfl, hop, hf, fun _ h => (by cases h), fun _ h => by cases h⟩
    · cases e
      exact ⟨rfl, hop, hf, fun _ h => (by cases h), fun _ h => by cases h⟩
    · cases e
  | close =>
    simp only [step, close] at e
    split at e
    · cases e
      exact ⟨rfl, rfl, fun h => by simp at h, fun _ h => (by cases h), fun _ h => by cases h⟩
    · cases e

/-- What the user sees of a file that cannot be opened for writing. -/
def StuckOut : Op → Out → Prop
  | .read _, o => o = .bytes []
  | .write w, o => o = .count w.length
  | _, _ => True

theorem stuck_run (d : Disk) (hd : canOpen d = false) (ops : List Op) : ∀ (h : Handle), h.isOpen = false → (h.own = true → h.failed = true) →
    ∀ os d', run d h ops = .ok (os, d') → d' = d ∧ List.Forall₂ StuckOut ops os := by
  induction ops with
  | nil =>
    intro h _ _ os d' e
    simp only [run] at e
    obtain ⟨u, _, e⟩ := Container.bind_ok e
    cases e
    exact ⟨rfl, .nil⟩
  | cons op ops ih =>
    intro h hop hf os d' e
    simp only [run] at e
    obtain ⟨⟨o, h', d1⟩, h1, e⟩ := Container.bind_ok e
    obtain ⟨⟨os1, d2⟩, h2, e⟩ := Container.bind_ok e
    cases e
    obtain ⟨rfl, k1, k2, k3, k4⟩ := stuck_step d hd h hop hf op o h' d1 h1
    obtain ⟨r1, r2⟩ := ih h' k1 k2 _ _ h2
    refine ⟨r1, .cons ?_ r2⟩
    cases op with
    | read n => exact k3 n rfl
    | write w => exact k4 w rfl
    | _ => trivial

/-- **C94, negation.** A file that may be read but not written cannot be read: whatever the mode asked for, every read gives nothing; no error
is reported, neither for reads nor for writes. So it is with a file that does not exist. -/
theorem unwritable_file_reads_empty (d : Disk) (hd : d.rw = false ∨ d.bytes = none) (ops : List Op) (hc : closedTwice true ops = false) :
    ∃ os, run d (openH d) ops = .ok (os, d) ∧ List.Forall₂ StuckOut ops os := by
  have hco : canOpen d = false := by
    rcases hd with h | h <;> simp [canOpen, h]
  obtain ⟨⟨os, d'⟩, hr⟩ := (closing_undefined_iff d ops).2 hc
  obtain ⟨rfl, h2⟩ := stuck_run d hco ops (openH d) (by simp [openH, attach, hco]) (fun _ => by simp [openH, attach, hco]) os d' hr
  exact ⟨os, hr, h2⟩

example : run ⟨some [1, 2, 3], false⟩ (openH ⟨some [1, 2, 3], false⟩) [.read 3, .write [4], .close, .read 1] =
    .ok ([.bytes [], .count 1, .done, .bytes []], ⟨some [1, 2, 3], false⟩) := by decide

/-! ## Entries of containers -/

/-- **C94, negation.** Saving any entry of a container to a file puts its content there, and is then undefined. -/
theorem save_entry_undefined (old : Option Bytes) (b : Bytes) : saveToFile ⟨old, true⟩ b = (⟨some b, true⟩, .ub) := by
  unfold saveToFile create copyAll
  simp only [if_true]
  split
  · rename_i h
    rw [List.isEmpty_iff] at h
    subst h
    rfl
  · rename_i h
    simp [write, attach, reopen, overlay, h, resizeB, close, destroy]

/-- Saving is undefined also where the file cannot be made. -/
theorem save_entry_undefined_anywhere (d : Disk) (b : Bytes) : (saveToFile d b).2 = .ub := by
  unfold saveToFile
  have hc : (create d).1.own = true := by unfold create; split <;> rfl
  have h2 : (copyAll (create d).2 (create d).1 b).1.own = true := by
    unfold copyAll
    split
    · exact hc
    · exact reopen_own _ _
  simp only [close, h2, if_true, Outcome.ok_bind, destroy]
  rfl

/-! ## Objects of a depot -/

/-- **C94 (partial).** The stream an object of a depot is handed over in was closed (`PackDirectory::get_data`, `Packdata::get_data`,
`TableRecord::try_store_blob_data`); writing it to a container and destroying it is defined if it is not empty, whatever the pages it is
written to. -/
theorem object_stream_partial (b : Bytes) (hb : b ≠ []) (c : Nat) (cs : List Nat) :
    ∃ r, run ⟨some b, true⟩ (openH ⟨some b, true⟩) (.close :: storeOps b.length (c :: cs)) = .ok r := by
  apply (closing_undefined_iff _ _).2
  have hl : b.length ≠ 0 := fun h => hb (List.length_eq_zero_iff.1 h)
  have h1 : ∀ (n : Nat) (rest : List Op) (o : Bool), closedTwice o (copyOps b.length n ++ rest) = closedTwice true rest := by
    intro n rest o
    unfold copyOps
    split
    · rfl
    · rfl
  have h2 : ∀ (l : List Nat), closedTwice true (l.flatMap (copyOps b.length)) = false := by
    intro l
    induction l with
    | nil => rfl
    | cons x l ih => rw [List.flatMap_cons, h1]; exact ih
  show closedTwice false ((c :: cs).flatMap (copyOps b.length)) = false
  rw [List.flatMap_cons, h1]
  exact h2 cs

example : storeOps 3 [2, 1] = [.seek 0, .read 2, .read 1] := rfl

/-- **C94, negation.** An empty object is not read, so that destroying its stream is undefined. -/
theorem empty_object_undefined (d : Disk) : run d (openH d) (.close :: storeOps 0 [0]) = .ub :=
  (closing_undefined_iff d _).1.2 rfl

/-- **C94, negation.** Saving to a directory the entries of a container is undefined, if the first of them is not itself a container. `Inv` holds of
every container made by the operations of property C66, also after reopening. -/
theorem save_dir_undefined {cd : Container.Codec} {k : Container.Catalog} {s : Container.Spec.Store} {e : Container.File} {n : List Nat} {b : Bytes}
    {ls : Container.Ghost} (h : Container.Inv cd k s ((e, (n, b)) :: ls)) (hd : Container.extent k.cat < Container.LAST)
    (hb : Container.isCatalog b = .ok false) (fuel depth : Nat) (hf : Container.LAST ≤ fuel) :
    saveEntries cd fuel (depth + 2) k.cat k.ents = .ub := by
  rw [h.core.ents, List.map_cons, saveEntries]
  rw [Container.openFile_ok h.phys (h.core.ok _ (List.mem_cons_self ..)) hd fuel (by omega), Outcome.ok_bind]
  simp only [Option.getD_some]
  rw [saveEntry, hb, Outcome.ok_bind]
  simp only [Bool.false_eq_true, if_false, save_entry_undefined_anywhere]
  rfl

/-- A container with one entry, "A", holding three bytes: it can be saved to a directory only by undefined behaviour. -/
example : saveEntries Container.plainCodec Container.LAST 2
    (Container.withEnt Container.blankCatalog [0x41] (Container.newEnt 0 [0x41] 5 5 [1, 2, 3])).cat
    (Container.withEnt Container.blankCatalog [0x41] (Container.newEnt 0 [0x41] 5 5 [1, 2, 3])).ents = .ub :=
  save_dir_undefined (depth := 0) (Container.add_inv (Container.blank_inv Container.plainCodec) [0x41]
    (by intro c hc; simp at hc; subst hc; decide) [1, 2, 3] ((Container.plain_packs _).2 (by decide)) 5 5 (by decide)
    (by simp)) (by decide) (by decide) _ (Nat.le_refl _)

end Verif.Handle
