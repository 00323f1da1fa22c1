import Verif.ConfigDir.Model
import Verif.Handle.Theorems

/-!
# A storage that is a directory: theorems (property C102)
-/

namespace Verif.ConfigDir
open Verif Verif.Handle Verif.ConfigDir.Spec

/-- What is at a name that can be used. -/
theorem disk_usable {fs : Fs} {root n : Path} (h : Usable fs root n) :
    diskOf fs (at_ root n) = ⟨view fs root n, true⟩ ∧ fileexists fs root n = (view fs root n).isSome := by
  obtain ⟨_, h2, h3⟩ := h
  unfold diskOf fileexists view at_
  rcases h3 with h3 | ⟨b, h3⟩
  · rw [h3]; simp [h2]
  · rw [h3]; simp

theorem drain_ok (b : Bytes) : ∃ h', drain ⟨some b, true⟩ (openH ⟨some b, true⟩) = (b, h') ∧ h'.own = true := by
  unfold drain
  simp only [openH, attach, canOpen, Option.isSome_some, Bool.and_true, if_true, Option.getD_some]
  split
  · rename_i h
    rw [List.length_eq_zero_iff] at h
    subst h
    exact ⟨_, rfl, rfl⟩
  · refine ⟨(read ⟨some b, true⟩ ⟨true, true, false, 0, b.length⟩ b.length).2, ?_, rfl⟩
    refine Prod.ext ?_ rfl
    simp [Handle.read, reopen]

theorem contents_usable {fs : Fs} {root n : Path} (h : Usable fs root n) : contents fs root n = .ok (view fs root n) := by
  obtain ⟨e1, e2⟩ := disk_usable h
  unfold contents readfile
  rw [e1, e2]
  cases hv : view fs root n with
  | none => rfl
  | some b =>
    obtain ⟨h', a1, a2⟩ := drain_ok b
    simp only [Option.isSome_some, if_true, a1]
    unfold destroy close
    rw [a2]
    rfl

theorem copyAll_new (b : Bytes) (d : Disk) (hd : d.rw = true) :
    ∃ h', copyAll (create d).2 (create d).1 b = (h', ⟨some b, true⟩) ∧ h'.own = true := by
  obtain ⟨o, rw⟩ := d
  simp only at hd
  subst hd
  unfold create copyAll
  simp only [if_true]
  split
  · rename_i h
    rw [List.isEmpty_iff] at h
    subst h
    exact ⟨_, rfl, rfl⟩
  · simp only [write, attach, reopen, Bool.and_true, if_true, Bool.not_true, Bool.false_eq_true, if_false, Option.getD_some]
    have : Stream.overlay [] 0 b = b := by
      rw [overlay_put [] 0 b (by simp)]
      simp [Handle.Spec.put]
    rw [this]
    exact ⟨_, rfl, rfl⟩

/-- Writing a name that can be used. -/
theorem writefile_usable {fs : Fs} {root n : Path} (h : Usable fs root n) (b : Bytes) :
    writefile fs root n b = .ok (true, fun q => if q = root ++ n then some (.file b true) else fs q) := by
  obtain ⟨e1, _⟩ := disk_usable h
  unfold writefile
  obtain ⟨h', a1, a2⟩ := copyAll_new b (diskOf fs (at_ root n)) (by rw [e1])
  simp only [a1]
  unfold destroy close
  rw [a2]
  rfl

/-- The same from a file of the storage with another name. -/
theorem copyfile_usable {fs : Fs} {root s n : Path} (hs : Usable fs root s) (h : Usable fs root n) (hne : s ≠ n) :
    copyfile fs root s n = .ok (match view fs root s with
      | some b => (true, fun q => if q = root ++ n then some (.file b true) else fs q)
      | none => (false, fs)) := by
  obtain ⟨e1, e2⟩ := disk_usable hs
  obtain ⟨e3, _⟩ := disk_usable h
  unfold copyfile readfile
  rw [e1, e2]
  cases hv : view fs root s with
  | none => rfl
  | some b =>
    simp only [Option.isSome_some, if_true]
    unfold writeFrom
    have hpne : at_ root s ≠ at_ root n := fun e => hne (List.append_cancel_left e)
    have hfs : fs (at_ root s) = some (.file b true) := by
      obtain ⟨_, _, h3⟩ := hs
      unfold view at hv
      rcases h3 with h3 | ⟨c, h3⟩
      · rw [h3] at hv; cases hv
      · rw [h3] at hv
        simp only [Option.some.injEq] at hv
        subst hv
        exact h3
    have hc : create (diskOf fs (at_ root n)) = (attach ⟨some [], true⟩ true 0, ⟨some [], true⟩) := by
      rw [e3]; rfl
    dsimp only
    rw [hc]
    have hd2 : diskOf (putDisk fs (at_ root n) ⟨some [], true⟩) (at_ root s) = ⟨some b, true⟩ := by
      unfold diskOf putDisk
      simp only [if_neg hpne, hfs]
    simp only [hd2]
    obtain ⟨h', a1, a2⟩ := drain_ok b
    rw [a1]
    have hsize : (openH ⟨some b, true⟩).size = b.length := rfl
    have hput : ∀ (x y : Bytes), putDisk (putDisk fs (at_ root n) ⟨some x, true⟩) (at_ root n) ⟨some y, true⟩ =
        fun q => if q = root ++ n then some (.file y true) else fs q := by
      intro x y
      unfold putDisk at_
      funext q
      simp only
      split <;> rfl
    obtain ⟨w, b1, b2⟩ := copyAll_new b ⟨none, true⟩ rfl
    have hcr : create ⟨none, true⟩ = (attach ⟨some [], true⟩ true 0, ⟨some [], true⟩) := rfl
    rw [hcr] at b1
    have hw : (if (openH ⟨some b, true⟩).size = 0 then (attach ⟨some [], true⟩ true 0, (⟨some [], true⟩ : Disk))
        else (write ⟨some [], true⟩ (attach ⟨some [], true⟩ true 0) b).2) = (w, ⟨some b, true⟩) := by
      rw [← b1, hsize]
      unfold copyAll
      simp only [List.isEmpty_iff, List.length_eq_zero_iff]
    rw [hw]
    unfold destroy close
    rw [a2, b2]
    simp only [if_true, Outcome.ok_bind, hput]

/-- Writing one name leaves the others usable. -/
theorem usable_after {fs : Fs} {root n k : Path} (hn : Usable fs root n) (hk : Usable fs root k) (b : Bytes) :
    Usable (fun q => if q = root ++ n then some (.file b true) else fs q) root k := by
  obtain ⟨k1, k2, k3⟩ := hk
  obtain ⟨_, _, n3⟩ := hn
  refine ⟨k1, ?_, ?_⟩
  · have : (root ++ k).dropLast ≠ root ++ n := by
      intro e
      rw [e] at k2
      rcases n3 with n3 | ⟨c, n3⟩ <;> rw [n3] at k2 <;> simp at k2
    simp only [if_neg this, k2]
  · by_cases e : root ++ k = root ++ n
    · right; exact ⟨b, by simp only [if_pos e]⟩
    · simp only [if_neg e]; exact k3

theorem view_after (fs : Fs) (root n : Path) (b : Bytes) :
    view (fun q => if q = root ++ n then some (.file b true) else fs q) root = (view fs root).set n b := by
  funext k
  unfold view Store.set
  by_cases e : k = n
  · subst e; simp
  · have : root ++ k ≠ root ++ n := fun h => e (List.append_cancel_left h)
    simp only [if_neg this, if_neg e]

/-- No file is copied onto itself. -/
def Spec.noSelf (op : Op) : Prop := ∀ s n, op = .copy s n → s ≠ n

/-- One call on names that can be used does what the map does, and touches no other path. -/
theorem step_ok {fs : Fs} {root : Path} {op : Op} (h : ∀ n ∈ op.names, Usable fs root n) (hs : Spec.noSelf op) :
    ∃ fs', step root fs op = .ok ((Spec.step (view fs root) op).1, fs') ∧ view fs' root = (Spec.step (view fs root) op).2 ∧
      (∀ k, Usable fs root k → Usable fs' root k) ∧ (∀ q, (∀ n ∈ op.names, q ≠ root ++ n) → fs' q = fs q) := by
  cases op with
  | write n b =>
    have hn := h n (by simp [Op.names])
    refine ⟨_, ?_, view_after fs root n b, fun k hk => usable_after hn hk b, fun q hq => if_neg (hq n (by simp [Op.names]))⟩
    rw [step, writefile_usable hn b]
    rfl
  | copy s n =>
    have h1 := h s (by simp [Op.names])
    have h2 := h n (by simp [Op.names])
    have hc := copyfile_usable h1 h2 (hs s n rfl)
    cases hv : view fs root s with
    | none =>
      rw [hv] at hc
      refine ⟨fs, ?_, ?_, fun k hk => hk, fun q _ => rfl⟩
      · rw [step, hc]; simp only [Outcome.ok_bind, Spec.step, hv]
      · simp only [Spec.step, hv]
    | some b =>
      rw [hv] at hc
      refine ⟨fun q => if q = root ++ n then some (.file b true) else fs q, ?_, ?_, fun k hk => usable_after h2 hk b,
        fun q hq => if_neg (hq n (by simp [Op.names]))⟩
      · rw [step, hc]; simp only [Outcome.ok_bind, Spec.step, hv]
      · simp only [Spec.step, hv]; exact view_after fs root n b
  | read n =>
    refine ⟨fs, ?_, rfl, fun k hk => hk, fun q _ => rfl⟩
    rw [step, contents_usable (h n (by simp [Op.names]))]
    rfl
  | there n =>
    refine ⟨fs, ?_, rfl, fun k hk => hk, fun q _ => rfl⟩
    rw [step, (disk_usable (h n (by simp [Op.names]))).2]
    rfl

/-- **C102.** Whatever is written, copied, read and asked for, in any order, the directory behaves like a map from names to contents; what comes
out last is in the file system, and no other path is touched. Partial: the names can be used, and no file is copied onto itself. -/
theorem directory_is_map_partial (root : Path) (ops : List Op) (fs : Fs) (h : ∀ op ∈ ops, (∀ n ∈ op.names, Usable fs root n) ∧ Spec.noSelf op) :
    ∃ fs', run root fs ops = .ok ((Spec.run (view fs root) ops).1, fs') ∧ view fs' root = (Spec.run (view fs root) ops).2 ∧
      ∀ q, (∀ op ∈ ops, ∀ n ∈ op.names, q ≠ root ++ n) → fs' q = fs q := by
  induction ops generalizing fs with
  | nil => exact ⟨fs, rfl, rfl, fun q _ => rfl⟩
  | cons op ops ih =>
    obtain ⟨f1, a1, a2, a3, a4⟩ := step_ok (h op (by simp)).1 (h op (by simp)).2
    obtain ⟨f2, b1, b2, b3⟩ := ih f1 (fun o ho => ⟨fun n hn => a3 n ((h o (by simp [ho])).1 n hn), (h o (by simp [ho])).2⟩)
    refine ⟨f2, ?_, ?_, fun q hq => ?_⟩
    · rw [run, a1, Outcome.ok_bind, b1, Outcome.ok_bind, a2]
      rfl
    · rw [b2, a2]; rfl
    · rw [b3 q (fun o ho => hq o (by simp [ho])), a4 q (hq op (by simp))]

/-! ## Findings -/

theorem create_stuck (d : Disk) (h : d.rw = false) : create d = (attach d false 0, d) := by
  unfold create
  rw [h]
  rfl

/-- **C102, negation.** Where no file can be made or written, true is returned and nothing is written. -/
theorem unwritable_reported_written (fs : Fs) (root n : Path) (b : Bytes) (h : (diskOf fs (root ++ n)).rw = false) :
    writefile fs root n b = .ok (true, fs) := by
  have hput : putDisk fs (root ++ n) (diskOf fs (root ++ n)) = fs := by
    unfold putDisk diskOf
    cases hf : fs (root ++ n) with
    | none => rfl
    | some x =>
      cases x with
      | dir rw => rfl
      | file c rw =>
        simp only
        funext q
        split
        · rename_i e; rw [e, hf]
        · rfl
  have hcopy : ∃ h', copyAll (diskOf fs (root ++ n)) (attach (diskOf fs (root ++ n)) false 0) b = (h', diskOf fs (root ++ n)) ∧ h'.own = true := by
    unfold copyAll
    split
    · exact ⟨_, rfl, rfl⟩
    · have hco : canOpen (diskOf fs (root ++ n)) = false := by simp [canOpen, h]
      simp only [write, reopen, attach, hco, Bool.and_false, Bool.false_eq_true, if_false, Bool.not_false, if_true]
      exact ⟨_, rfl, rfl⟩
  obtain ⟨h', a1, a2⟩ := hcopy
  unfold writefile at_
  dsimp only
  rw [create_stuck _ h]
  simp only [a1, hput]
  unfold destroy close
  rw [a2]
  rfl

/-- In particular in a directory that is not there; and then the file is not there. -/
theorem missing_directory_reported_written (fs : Fs) (root n : Path) (b : Bytes) (h : fs (root ++ n) = none) (hd : fs (root ++ n).dropLast = none) :
    writefile fs root n b = .ok (true, fs) ∧ fileexists fs root n = false := by
  refine ⟨unwritable_reported_written fs root n b ?_, ?_⟩
  · unfold diskOf; rw [h, hd]; rfl
  · unfold fileexists at_; rw [h]; rfl

/-- **C102, negation.** A file that the user may only read is read as an empty one, and so is a directory, which counts as a file. -/
theorem read_only_is_empty (fs : Fs) (root n : Path) (h : (∃ b, fs (root ++ n) = some (.file b false)) ∨ ∃ w, fs (root ++ n) = some (.dir w)) :
    fileexists fs root n = true ∧ contents fs root n = .ok (some []) := by
  have h1 : fileexists fs root n = true := by
    unfold fileexists at_
    rcases h with ⟨b, h⟩ | ⟨w, h⟩ <;> rw [h] <;> rfl
  refine ⟨h1, ?_⟩
  have hco : canOpen (diskOf fs (at_ root n)) = false := by
    unfold canOpen diskOf at_
    rcases h with ⟨b, h⟩ | ⟨w, h⟩ <;> rw [h] <;> rfl
  unfold contents readfile
  rw [h1]
  simp only [if_true]
  unfold openH
  rw [hco]
  rfl

/-- **C102, negation.** A file of the storage that is written with its own stream is empty afterwards. -/
theorem copied_onto_itself_lost (fs : Fs) (root n : Path) (b : Bytes) (hn : fs (root ++ n) = some (.file b true)) :
    copyfile fs root n n = .ok (true, fun q => if q = root ++ n then some (.file [] true) else fs q) := by
  have hd : diskOf fs (at_ root n) = ⟨some b, true⟩ := by unfold diskOf at_; rw [hn]
  have he : fileexists fs root n = true := by unfold fileexists at_; rw [hn]; rfl
  unfold copyfile readfile
  rw [he, hd]
  simp only [if_true]
  unfold writeFrom
  dsimp only
  rw [hd]
  have hc : create ⟨some b, true⟩ = (attach ⟨some [], true⟩ true 0, ⟨some [], true⟩) := rfl
  rw [hc]
  have hd2 : diskOf (putDisk fs (at_ root n) ⟨some [], true⟩) (at_ root n) = ⟨some [], true⟩ := by
    unfold diskOf putDisk
    simp
  simp only [hd2]
  have hdr : ∃ h', drain ⟨some [], true⟩ (openH ⟨some b, true⟩) = ([], h') ∧ h'.own = true := by
    unfold drain
    simp only [openH, attach, canOpen, Option.isSome_some, Bool.and_true, if_true, Option.getD_some]
    split
    · exact ⟨_, rfl, rfl⟩
    · refine ⟨(read ⟨some [], true⟩ ⟨true, true, false, 0, b.length⟩ b.length).2, ?_, rfl⟩
      refine Prod.ext ?_ rfl
      simp [Handle.read, reopen]
  obtain ⟨h', a1, a2⟩ := hdr
  rw [a1]
  have hw : ∃ w, (if (openH ⟨some b, true⟩).size = 0 then (attach ⟨some [], true⟩ true 0, (⟨some [], true⟩ : Disk))
        else (write ⟨some [], true⟩ (attach ⟨some [], true⟩ true 0) []).2) = (w, ⟨some [], true⟩) ∧ w.own = true := by
    split
    · exact ⟨_, rfl, rfl⟩
    · simp only [write, attach, reopen, Bool.and_true, if_true, Bool.not_true, Bool.false_eq_true, if_false, Option.getD_some]
      exact ⟨_, rfl, rfl⟩
  obtain ⟨w, b1, b2⟩ := hw
  rw [b1]
  unfold destroy close
  rw [a2, b2]
  simp only [if_true, Outcome.ok_bind]
  congr 2
  unfold putDisk at_
  funext q
  simp only
  split <;> rfl

/-! ## Concrete cases -/

namespace Example

def root : Path := ["cfg".toList]
def a : Path := ["a".toList]
def b : Path := ["sub".toList, "b".toList]

/-- A directory with a subdirectory and a file in it. -/
def fs : Fs := fun q =>
  if q = root then some (.dir true)
  else if q = root ++ ["sub".toList] then some (.dir true)
  else if q = root ++ b then some (.file [1, 2, 3] true)
  else if q = root ++ ["ro".toList] then some (.file [9] false)
  else none

theorem usable_a : Usable fs root a := ⟨by decide, by decide, Or.inl (by decide)⟩
theorem usable_b : Usable fs root b := ⟨by decide, by decide, Or.inr ⟨[1, 2, 3], by decide⟩⟩

def ops : List Op := [.there a, .copy b a, .write b [7], .write b [], .read a, .read b, .there a]

example : ∃ fs', run root fs ops = .ok ((Spec.run (view fs root) ops).1, fs') ∧ view fs' root = (Spec.run (view fs root) ops).2 ∧
    ∀ q, (∀ op ∈ ops, ∀ n ∈ op.names, q ≠ root ++ n) → fs' q = fs q := by
  refine directory_is_map_partial root ops fs fun op ho => ?_
  simp only [ops, List.mem_cons, List.not_mem_nil, or_false] at ho
  rcases ho with rfl | rfl | rfl | rfl | rfl | rfl | rfl <;>
  · refine ⟨fun n hn => ?_, fun s n e => ?_⟩
    · simp only [Op.names, List.mem_cons, List.not_mem_nil, or_false] at hn
      first
        | (rcases hn with rfl | rfl <;> first | exact usable_a | exact usable_b)
        | (rcases hn with rfl; first | exact usable_a | exact usable_b)
    · first
        | (injection e with e1 e2; subst e1 e2; decide)
        | cases e

example : (Spec.run (view fs root) ops).1 =
    [.is false, .wrote true, .wrote true, .wrote true, .content (some [1, 2, 3]), .content (some []), .is true] := by decide

example : writefile fs root ["ro".toList] [5] = .ok (true, fs) := unwritable_reported_written _ _ _ _ (by decide)
example : writefile fs root ["no".toList, "x".toList] [5] = .ok (true, fs) :=
  (missing_directory_reported_written _ _ _ _ (by decide) (by decide)).1
example : contents fs root ["ro".toList] = .ok (some []) := (read_only_is_empty _ _ _ (Or.inl ⟨[9], by decide⟩)).2
example : contents fs root ["sub".toList] = .ok (some []) := (read_only_is_empty _ _ _ (Or.inr ⟨true, by decide⟩)).2
example : copyfile fs root b b = .ok (true, fun q => if q = root ++ b then some (.file [] true) else fs q) :=
  copied_onto_itself_lost _ _ _ [1, 2, 3] (by decide)

end Example

end Verif.ConfigDir
