import Verif.Stream.Model
import Verif.Stream.Spec

/-! # Property theorems: streams (C14, C15) -/

namespace Verif.Stream
open Verif Spec

/-- One call of the API on the model, with what the caller sees. -/
def call (s : Mem) : Op → Outcome (Mem × Out)
  | .write bs => do let (n, s') ← s.write bs; .ok (s', .num n)
  | .read n => do let (b, s') ← s.read n; .ok (s', .bytes b)
  | .seekBegin o => let (ok, s') := s.seek o .begin; .ok (s', if ok then .num s'.pos.toNat else .error)
  | .seekCurrent o => let (ok, s') := s.seek o .current; .ok (s', if ok then .num s'.pos.toNat else .error)
  | .seekEnd o => let (ok, s') := s.seek o .fromEnd; .ok (s', if ok then .num s'.pos.toNat else .error)
  | .setSize n => do let s' ← s.setSize n; .ok (s', .none)
  | .setPosition p => .ok (s.setPosition p, .none)

def runCalls (s : Mem) : List Op → Outcome (Mem × List Out)
  | [] => .ok (s, [])
  | op :: ops => do
    let (s', o) ← call s op
    let (s'', os) ← runCalls s' ops
    .ok (s'', o :: os)

/-- The stream shows the array. -/
def Shows (s : Mem) (a : Arr) : Prop :=
  s.data.length = a.len ∧ (∀ i, s.data.getD i 0 = a.byte i) ∧ s.pos = a.cur

/-! ## Helper lemmas -/

theorem getD_resizeB (l : Bytes) (n i : Nat) :
    (resizeB l n).getD i 0 = if i < n then l.getD i 0 else 0 := by
  unfold resizeB
  simp only [List.getD_eq_getElem?_getD, List.getElem?_append, List.length_take,
    List.getElem?_take, List.getElem?_replicate]
  by_cases h1 : i < min n l.length
  · simp [h1, show i < n by omega]
  · simp only [h1, if_false]
    by_cases h2 : i < n
    · have : l[i]? = none := List.getElem?_eq_none (by omega)
      simp only [h2, if_true, this]
      split <;> simp
    · simp only [h2, if_false]
      split <;> simp

theorem length_resizeB (l : Bytes) (n : Nat) : (resizeB l n).length = n := by
  unfold resizeB; simp; omega

theorem length_putLoop (d : Bytes) (p : Nat) (bs : Bytes) : (putLoop d p bs).length = d.length := by
  induction bs generalizing d p with
  | nil => rfl
  | cons b bs ih => simp [putLoop, ih]

theorem getD_putLoop (bs : Bytes) (d : Bytes) (p i : Nat) (h : p + bs.length ≤ d.length) :
    (putLoop d p bs).getD i 0 =
      if p ≤ i ∧ i < p + bs.length then bs.getD (i - p) 0 else d.getD i 0 := by
  induction bs generalizing d p with
  | nil => simp only [putLoop, List.length_nil]; split <;> first | omega | rfl
  | cons b bs ih =>
    simp only [List.length_cons] at h
    rw [putLoop, ih _ _ (by simp; omega)]
    simp only [List.length_cons]
    by_cases h1 : p + 1 ≤ i ∧ i < p + 1 + bs.length
    · rw [if_pos h1, if_pos (by omega)]
      rw [show i - p = (i - (p + 1)) + 1 by omega]
      simp
    · rw [if_neg h1]
      by_cases h2 : i = p
      · subst h2
        rw [if_pos (by omega)]
        simp [List.getElem?_set, show i < d.length by omega]
      · rw [if_neg (by omega)]
        simp [List.getElem?_set, Ne.symm h2]

theorem take_drop_eq_slice (s : Mem) (a : Arr) (h : Shows s a) (p n : Nat) (hn : p + n ≤ a.len) :
    (s.data.drop p).take n = a.slice p n := by
  obtain ⟨h1, h2, _⟩ := h
  apply List.ext_getElem
  · simp [Arr.slice, h1]; omega
  · intro i hi hi'
    simp only [List.length_take, List.length_drop] at hi
    have := h2 (p + i)
    rw [List.getD_eq_getElem?_getD, List.getElem?_eq_getElem (by omega)] at this
    simp [Arr.slice, ← this]

theorem read_result (s : Mem) (n : Nat) (h : 0 ≤ s.pos) :
    s.read n = .ok ((s.data.drop s.pos.toNat).take n,
      { s with pos := s.pos + ((min n (s.data.length - s.pos.toNat) : Nat) : Int) }) := by
  unfold Mem.read
  rw [if_neg (by omega)]
  simp only
  by_cases hc : (s.data.length : Int) ≤ s.pos + n
  · rw [if_pos hc]
    by_cases hg : (s.data.length : Int) - s.pos > 0
    · rw [if_pos hg]
      rw [show ((s.data.length : Int) - s.pos) = ((min n (s.data.length - s.pos.toNat) : Nat) : Int) by omega]
      simp only [Int.toNat_natCast]
      rw [List.take_of_length_le (l := s.data.drop s.pos.toNat) (i := n) (by simp; omega),
        List.take_of_length_le (l := s.data.drop s.pos.toNat) (by simp; omega)]
    · rw [if_neg hg, List.drop_of_length_le (by omega)]
      rw [show min n (s.data.length - s.pos.toNat) = 0 by omega]; simp
  · rw [if_neg hc]
    by_cases hg : (n : Int) > 0
    · rw [if_pos hg]
      simp only [Int.toNat_natCast]
      rw [show min n (s.data.length - s.pos.toNat) = n by omega]
    · rw [if_neg hg]
      have : n = 0 := by omega
      subst this
      simp

theorem step_shows (s : Mem) (a : Arr) (op : Op) (h : Shows s a)
    (hz : ∀ i, a.len ≤ i → a.byte i = 0)
    (hop : match op with | .seekEnd o => o ≤ a.len | _ => True) :
    ∃ s', call s op = .ok (s', (step a op).2) ∧ Shows s' (step a op).1 := by
  have hs := h
  obtain ⟨hl, hb, hp⟩ := h
  cases op with
  | write bs =>
    refine ⟨⟨putLoop (ensureSize s.data (s.pos.toNat + bs.length)) s.pos.toNat bs, s.pos + bs.length⟩, ?_, ?_⟩
    · simp only [call, Mem.write, step]
      rw [if_neg (by omega)]
      rfl
    · have hpn : s.pos.toNat = a.cur := by omega
      have hlen : (ensureSize s.data (s.pos.toNat + bs.length)).length = max a.len (a.cur + bs.length) := by
        unfold ensureSize
        split
        · rw [length_resizeB]; omega
        · omega
      refine ⟨?_, ?_, ?_⟩
      · simp only [step, length_putLoop, hlen]
      · intro i
        rw [getD_putLoop _ _ _ _ (by omega)]
        simp only [step, hpn]
        split
        · rfl
        · unfold ensureSize
          split
          · rw [getD_resizeB]
            split
            · exact hb i
            · rw [hz i (by omega)]
          · exact hb i
      · simp only [step]; omega
  | read n =>
    refine ⟨{ s with pos := s.pos + ((min n (s.data.length - s.pos.toNat) : Nat) : Int) }, ?_, hl, hb, ?_⟩
    · simp only [call, step, read_result s n (by omega), Outcome.ok_bind]
      have := take_drop_eq_slice s a hs a.cur (min n (a.len - a.cur))
      by_cases hc : a.cur ≤ a.len
      · rw [← this (by omega), show s.pos.toNat = a.cur by omega, List.take_eq_take_iff.mpr]
        simp; omega
      · rw [List.drop_of_length_le (by omega), show min n (a.len - a.cur) = 0 by omega]
        simp [Arr.slice]
    · simp only [step]
      show s.pos + _ = ((a.cur + _ : Nat) : Int)
      rw [show s.pos.toNat = a.cur by omega, hl]
      omega
  | seekBegin o =>
    simp only [call, Mem.seek, step, hl]
    by_cases hc : o ≤ a.len
    · rw [if_neg (by omega), if_pos hc]
      exact ⟨⟨s.data, o⟩, by simp, hl, hb, rfl⟩
    · rw [if_pos (by omega), if_neg hc]
      exact ⟨_, by simp, hs⟩
  | seekCurrent o =>
    simp only [call, Mem.seek, step, hl, hp]
    by_cases hc : 0 ≤ (a.cur : Int) + o ∧ (a.cur : Int) + o ≤ a.len
    · rw [if_neg (by omega), if_pos hc]
      exact ⟨⟨s.data, (a.cur : Int) + o⟩, by simp, hl, hb, by
        show (a.cur : Int) + o = (((a.cur : Int) + o).toNat : Int)
        omega⟩
    · rw [if_pos (by omega), if_neg hc]
      exact ⟨_, by simp, hs⟩
  | seekEnd o =>
    simp only at hop
    simp only [call, Mem.seek, step, hl]
    rw [if_neg (by omega), if_pos hop]
    exact ⟨⟨s.data, (a.len : Int) - o⟩, by simp, hl, hb, by
      show (a.len : Int) - o = (((a.len : Int) - o).toNat : Int)
      omega⟩
  | setSize n =>
    simp only [call, Mem.setSize, step]
    rw [if_neg (by omega)]
    refine ⟨_, rfl, ?_, ?_, ?_⟩
    · rw [length_resizeB]; simp
    · intro i
      rw [getD_resizeB, hb]; simp
    · simp only [hp]; split <;> omega
  | setPosition p => exact ⟨_, rfl, hl, hb, rfl⟩

theorem step_zero (a : Arr) (op : Op) (hz : ∀ i, a.len ≤ i → a.byte i = 0) :
    ∀ i, (step a op).1.len ≤ i → (step a op).1.byte i = 0 := by
  intro i hi
  cases op <;> simp only [step] at hi ⊢
  case write bs => rw [if_neg (by omega)]; exact hz i (by omega)
  case read n => exact hz i hi
  case seekBegin o => split at hi <;> split <;> exact hz i hi
  case seekCurrent o => split at hi <;> split <;> exact hz i hi
  case seekEnd o => split at hi <;> split <;> exact hz i hi
  case setSize n => rw [if_neg (by omega)]
  case setPosition p => exact hz i hi

theorem runCalls_shows (ops : List Op) (s : Mem) (a : Arr) (h : Shows s a)
    (hz : ∀ i, a.len ≤ i → a.byte i = 0) (hb : noBadSeekEnd a ops) :
    ∃ s', runCalls s ops = .ok (s', (run a ops).2) ∧ Shows s' (run a ops).1 := by
  induction ops generalizing s a with
  | nil => exact ⟨s, rfl, h⟩
  | cons op ops ih =>
    obtain ⟨s1, e1, h1⟩ := step_shows s a op h hz hb.1
    obtain ⟨s2, e2, h2⟩ := ih s1 _ h1 (step_zero a op hz) hb.2
    exact ⟨s2, by simp only [runCalls, e1, e2, Outcome.ok_bind]; rfl, h2⟩

/-! ## C14 -/

/-- **C14.** Starting from a new memory stream, every history of writes, reads, seeks,
resizes and repositionings (no `seekEnd` before the beginning) makes exactly the
observations of the abstract byte array, and ends with its contents, size and
position. -/
theorem memory_stream_is_array (ops : List Op) (h : noBadSeekEnd Spec.empty ops) :
    ∃ s, runCalls Mem.empty ops = .ok (s, (run Spec.empty ops).2) ∧
      s.data.length = (run Spec.empty ops).1.len ∧
      (∀ i, s.data.getD i 0 = (run Spec.empty ops).1.byte i) ∧
      s.pos = (run Spec.empty ops).1.cur := by
  obtain ⟨s, e, hs⟩ := runCalls_shows ops Mem.empty Spec.empty
    ⟨rfl, by intro i; rfl, rfl⟩ (by intro i _; rfl) h
  exact ⟨s, e, hs⟩

/-- Non-vacuity: a history with a gap, an overwrite and a clipped read. -/
example : noBadSeekEnd Spec.empty [.write [1, 2, 3], .setPosition 5, .write [9], .seekEnd 2, .read 10] ∧
    runCalls Mem.empty [.write [1, 2, 3], .setPosition 5, .write [9], .seekEnd 2, .read 10]
      = .ok (⟨[1, 2, 3, 0, 0, 9], 6⟩, [.num 3, .none, .num 1, .num 4, .bytes [0, 9]]) := by
  constructor
  · simp [noBadSeekEnd, step, Spec.empty]
  · decide

/-- **C14, negation.** A seek from the end that is refused still moves the position
before the beginning: the stream is not left unchanged, and the next read is
undefined behaviour. -/
theorem failed_seek_moves (s : Mem) (o : Int) (h : (s.data.length : Int) < o) :
    (s.seek o .fromEnd).1 = false ∧ (s.seek o .fromEnd).2.pos < 0 ∧
    ∀ n, (s.seek o .fromEnd).2.read n = .ub := by
  have h1 : (s.data.length : Int) - o < 0 := by omega
  refine ⟨by simp only [Mem.seek, if_pos h], by simp only [Mem.seek, if_pos h]; exact h1, ?_⟩
  intro n
  simp only [Mem.seek, if_pos h, Mem.read, if_pos h1]

example : ((⟨[1], 0⟩ : Mem).seek 2 .fromEnd) = (false, ⟨[1], -1⟩) := by decide

/-- **C14, negation.** A seek from the beginning accepts every negative offset; the
next read is undefined behaviour. -/
theorem negative_seek_accepted (s : Mem) (o : Int) (h : o < 0) :
    (s.seek o .begin).1 = true ∧ ∀ n, (s.seek o .begin).2.read n = .ub := by
  have h1 : ¬ o > (s.data.length : Int) := by omega
  refine ⟨by simp only [Mem.seek, if_neg h1], ?_⟩
  intro n
  simp only [Mem.seek, if_neg h1, Mem.read, if_pos h]

/-! ## C15 -/

theorem overlay_end (d : Bytes) (buf : Bytes) :
    putLoop (ensureSize d (d.length + buf.length)) d.length buf = d ++ buf := by
  apply List.ext_getElem?
  intro i
  have hl : (putLoop (ensureSize d (d.length + buf.length)) d.length buf).length = d.length + buf.length := by
    rw [length_putLoop]; unfold ensureSize; split
    · rw [length_resizeB]
    · omega
  by_cases hi : i < d.length + buf.length
  · have := getD_putLoop buf (ensureSize d (d.length + buf.length)) d.length i (by rw [length_putLoop] at hl; omega)
    rw [List.getElem?_eq_getElem (by omega)]
    rw [List.getD_eq_getElem?_getD, List.getElem?_eq_getElem (by omega)] at this
    simp only [Option.getD_some] at this
    rw [this]
    by_cases h2 : d.length ≤ i
    · rw [if_pos (by omega), List.getElem?_append_right h2, List.getD_eq_getElem?_getD,
        List.getElem?_eq_getElem (by omega)]
      simp
    · rw [if_neg (by omega), List.getElem?_append_left (by omega)]
      have h3 : (ensureSize d (d.length + buf.length)).getD i 0 = d.getD i 0 := by
        unfold ensureSize; split
        · rw [getD_resizeB, if_pos hi]
        · rfl
      rw [h3, List.getD_eq_getElem?_getD, List.getElem?_eq_getElem (by omega)]
      simp
  · rw [List.getElem?_eq_none (by omega), List.getElem?_eq_none (by simp; omega)]

/-- **C15 (partial).** While the source is not exhausted, copying `n > 0` bytes to the
end of a destination appends exactly the next `min n remaining` bytes of the
source, returns that number, and advances the source by it. Missing: the
exhausted source (`copy_exhausted_writes_zeros`) and `n = 0`, which copies
everything (`copy_zero_copies_all`). -/
theorem copy_appends_partial (dst src : Mem) (n : Nat) (hn : 0 < n)
    (hd : dst.pos = dst.data.length) (h0 : 0 ≤ src.pos) (hrem : src.pos < src.data.length) :
    copyFrom dst src n =
      .ok (min n (src.data.length - src.pos.toNat),
        ⟨dst.data ++ (src.data.drop src.pos.toNat).take n,
          ((dst.data.length + min n (src.data.length - src.pos.toNat) : Nat) : Int)⟩,
        { src with pos := src.pos + ((min n (src.data.length - src.pos.toNat) : Nat) : Int) }) := by
  unfold copyFrom copyCount Mem.readVec
  rw [if_neg (by omega)]
  simp only [show n ≠ 0 by omega, if_false]
  rw [read_result src n h0]
  simp only [Outcome.ok_bind]
  have hlen : ((src.data.drop src.pos.toNat).take n).length = min n (src.data.length - src.pos.toNat) := by simp
  unfold Mem.writeVec
  rw [if_neg (by rw [hlen]; omega), if_neg (by simp)]
  rw [List.take_left' rfl]
  unfold Mem.write
  rw [if_neg (by omega)]
  simp only [Outcome.ok_bind, hlen]
  rw [show dst.pos.toNat = dst.data.length by omega]
  have := overlay_end dst.data ((src.data.drop src.pos.toNat).take n)
  rw [hlen] at this
  rw [this]
  congr 4
  omega

example : copyFrom ⟨[7], 1⟩ ⟨[1, 2, 3], 1⟩ 5 = .ok (2, ⟨[7, 2, 3], 3⟩, ⟨[1, 2, 3], 3⟩) := by decide

/-- **C15.** A count of 0 copies the whole source from its beginning, wherever the
source was positioned. -/
theorem copy_zero_copies_all (dst src : Mem) (hd : dst.pos = dst.data.length) :
    copyFrom dst src 0 =
      .ok (src.data.length, ⟨dst.data ++ src.data, dst.data.length + src.data.length⟩,
        { src with pos := src.data.length }) := by
  unfold copyFrom
  have hs : (src.seek 0 .begin).2 = { src with pos := 0 } := by
    simp only [Mem.seek]; rw [if_neg (by omega)]
  simp only [if_true, hs]
  by_cases he : src.data.length = 0
  · rw [if_neg (by omega)]
    have : src.data = [] := List.length_eq_zero_iff.mp he
    simp [this, ← hd]
  · rw [if_pos he]
    have := copy_appends_partial dst { src with pos := 0 } src.data.length (by omega) hd
      (by simp) (by simp; omega)
    rw [copyFrom, if_neg he] at this
    rw [this]
    simp

/-- **C15, negation.** At the end of the source, asking for `n > 0` bytes appends `n`
zero bytes that the source does not contain, and returns `n`. -/
theorem copy_exhausted_writes_zeros (dst src : Mem) (n : Nat) (hn : 0 < n)
    (hd : dst.pos = dst.data.length) (h0 : 0 ≤ src.pos) (hrem : src.data.length ≤ src.pos) :
    copyFrom dst src n =
      .ok (n, ⟨dst.data ++ List.replicate n 0, dst.data.length + n⟩, src) := by
  unfold copyFrom copyCount Mem.readVec
  rw [if_neg (by omega)]
  simp only [show n ≠ 0 by omega, if_false]
  rw [read_result src n h0]
  have hdrop : src.data.drop src.pos.toNat = [] := List.drop_of_length_le (by omega)
  have hm : min n (src.data.length - src.pos.toNat) = 0 := by omega
  simp only [Outcome.ok_bind, hdrop, List.take_nil, List.length_nil, List.nil_append, Nat.sub_zero]
  unfold Mem.writeVec
  simp only [if_true, List.length_replicate]
  rw [if_pos (by omega)]
  unfold Mem.write
  rw [if_neg (by omega)]
  simp only [Outcome.ok_bind, List.length_replicate]
  rw [show dst.pos.toNat = dst.data.length by omega]
  have := overlay_end dst.data (List.replicate n 0)
  rw [List.length_replicate] at this
  rw [this]
  rw [hm, hd]
  simp

example : copyFrom ⟨[7], 1⟩ ⟨[1, 2], 2⟩ 3 = .ok (3, ⟨[7, 0, 0, 0], 4⟩, ⟨[1, 2], 2⟩) := by decide

/-! ## File streams -/

/-- Writing to a file stream that is not in the failed state overlays the bytes at
the position: every other byte of the file stays. -/
theorem file_write_overlays (s : FileS) (buf : Bytes) (hf : s.failed = false) (i : Nat) :
    (s.write buf).2.file.getD i 0 =
      if s.pos ≤ i ∧ i < s.pos + buf.length then buf.getD (i - s.pos) 0 else s.file.getD i 0 := by
  unfold FileS.write overlay
  simp only [hf]
  by_cases hb : buf = []
  · subst hb
    simp only [List.isEmpty_nil, if_true, List.length_nil]
    have : ¬ (s.pos ≤ i ∧ i < s.pos + 0) := by omega
    simp only [if_neg this, Bool.false_eq_true, if_false]
  · have hlt : ((resizeB s.file (max s.pos s.file.length)).take s.pos).length = s.pos := by
      rw [List.length_take, length_resizeB]; omega
    simp only [List.isEmpty_iff, hb, if_false, Bool.false_eq_true]
    rw [List.getD_eq_getElem?_getD, List.append_assoc]
    by_cases h1 : i < s.pos
    · rw [if_neg (by omega), List.getElem?_append_left (by omega), List.getElem?_take, if_pos h1,
        ← List.getD_eq_getElem?_getD, getD_resizeB, if_pos (by omega)]
    · rw [List.getElem?_append_right (by omega), hlt]
      by_cases h2 : i < s.pos + buf.length
      · rw [if_pos (by omega), List.getElem?_append_left (by omega), List.getD_eq_getElem?_getD]
      · rw [if_neg (by omega), List.getElem?_append_right (by omega), List.getElem?_drop,
          List.getD_eq_getElem?_getD]
        congr 2
        omega

/-- **Finding.** After a read that met the end of the file, a write reports success,
advances the position, and changes nothing. -/
theorem file_write_lost_after_short_read (s : FileS) (n : Nat) (buf : Bytes)
    (h : s.file.length - s.pos < n) :
    ((s.read n).2.write buf).1 = buf.length ∧ ((s.read n).2.write buf).2.file = s.file := by
  have h1 : ((s.file.drop s.pos).take n).length < n := by simp; omega
  have hf : (s.read n).2.failed = true := decide_eq_true h1
  have hs : (s.read n).2.file = s.file := rfl
  unfold FileS.write
  simp [hf, hs]

example : ((FileS.open [1, 2]).read 3).2.write [5] = (1, ⟨[1, 2], 3, 3, true⟩) := by decide

/-- A later read reports the bytes that are there: the lost write is visible. -/
theorem file_read_exact (s : FileS) (n : Nat) :
    (s.read n).1 = (s.file.drop s.pos).take n ∧ (s.read n).2.file = s.file ∧
    (s.read n).2.pos = s.pos + min n (s.file.length - s.pos) := by
  simp [FileS.read]

end Verif.Stream
