import Verif.FileStream.Model
import Verif.FileStream.Spec
import Verif.Stream.Theorems

/-! # Property theorems: streams over a file of a container (C93) -/

namespace Verif.FileStream
open Verif Stream

/-! ## The memory stream -/

theorem write_put (m : Mem) (buf : Bytes) (p : Nat) (hp : m.pos = p) (hl : p ≤ m.data.length) :
    m.write buf = .ok (buf.length, ⟨Spec.put m.data p buf, p + buf.length⟩) := by
  unfold Mem.write
  rw [if_neg (by omega)]
  simp only [hp, Int.toNat_natCast]
  congr 3
  have hlen : (ensureSize m.data (p + buf.length)).length = max m.data.length (p + buf.length) := by
    unfold ensureSize
    split
    · rw [length_resizeB]; omega
    · omega
  have hput : (Spec.put m.data p buf).length = max m.data.length (p + buf.length) := by
    unfold Spec.put
    simp only [List.length_append, List.length_take, List.length_drop]
    omega
  apply List.ext_getElem
  · rw [length_putLoop, hlen, hput]
  · intro i h1 h2
    have hg := getD_putLoop buf (ensureSize m.data (p + buf.length)) p i (by omega)
    rw [List.getD_eq_getElem?_getD, List.getElem?_eq_getElem h1, Option.getD_some] at hg
    rw [hg]
    rw [length_putLoop, hlen] at h1
    have hs : (Spec.put m.data p buf)[i]? = if i < p then m.data[i]? else if i < p + buf.length then buf[i - p]? else m.data[i]? := by
      unfold Spec.put
      simp only [List.append_assoc, List.getElem?_append, List.length_take, Nat.min_eq_left hl, List.getElem?_take, List.getElem?_drop]
      by_cases a1 : i < p
      · simp [a1]
      · rw [if_neg a1, if_neg a1]
        by_cases a2 : i - p < buf.length
        · rw [if_pos a2, if_pos (by omega)]
        · rw [if_neg a2, if_neg (by omega), show p + buf.length + (i - p - buf.length) = i by omega]
    rw [List.getElem?_eq_getElem h2] at hs
    by_cases a1 : i < p
    · rw [if_neg (by omega)]
      rw [if_pos a1, List.getElem?_eq_getElem (by omega)] at hs
      rw [Option.some.inj hs]
      unfold ensureSize
      split
      · rw [getD_resizeB, if_pos (by omega), List.getD_eq_getElem?_getD, List.getElem?_eq_getElem (by omega), Option.getD_some]
      · rw [List.getD_eq_getElem?_getD, List.getElem?_eq_getElem (by omega), Option.getD_some]
    · by_cases a2 : i < p + buf.length
      · rw [if_pos (by omega)]
        rw [if_neg a1, if_pos a2, List.getElem?_eq_getElem (by omega)] at hs
        rw [Option.some.inj hs, List.getD_eq_getElem?_getD, List.getElem?_eq_getElem (by omega), Option.getD_some]
      · rw [if_neg (by omega)]
        rw [if_neg a1, if_neg a2, List.getElem?_eq_getElem (by omega)] at hs
        rw [Option.some.inj hs]
        unfold ensureSize
        rw [if_neg (by omega), List.getD_eq_getElem?_getD, List.getElem?_eq_getElem (by omega), Option.getD_some]

theorem put_length (c : Bytes) (p : Nat) (buf : Bytes) (h : p ≤ c.length) : (Spec.put c p buf).length = max c.length (p + buf.length) := by
  unfold Spec.put
  simp only [List.length_append, List.length_take, List.length_drop]
  omega

theorem toInt_small (p : Nat) (h : p < 2 ^ 31) : toInt p = p := by
  unfold toInt
  omega

theorem goTo_ok (f : File) (p : Nat) (h : p ≤ f.data.data.length) : goTo f p = .ok { f with data := ⟨f.data.data, p⟩ } := by
  have : f.data.seek p .begin = (true, ⟨f.data.data, p⟩) := by
    unfold Mem.seek
    simp only
    rw [if_neg (by omega)]
  unfold goTo
  rw [this]
  simp

theorem goTo_beyond (f : File) (p : Int) (h : (f.data.data.length : Int) < p) : goTo f p = .throw := by
  have : f.data.seek p .begin = (false, f.data) := by
    unfold Mem.seek
    simp only
    rw [if_pos (by omega)]
  unfold goTo
  rw [this]
  simp

theorem goTo_negative (f : File) (p : Int) (h : p < 0) : goTo f p = .ok { f with data := ⟨f.data.data, p⟩ } := by
  have : f.data.seek p .begin = (true, ⟨f.data.data, p⟩) := by
    unfold Mem.seek
    simp only
    rw [if_neg (by omega)]
  unfold goTo
  rw [this]
  simp

theorem readAt_ok (f : File) (p n : Nat) (h : p ≤ f.data.data.length) :
    ∃ q : Int, readAt f p n = .ok ((f.data.data.drop p).take n, { f with data := ⟨f.data.data, q⟩ }) := by
  unfold readAt
  rw [goTo_ok f p h]
  simp only [Outcome.ok_bind]
  rw [read_result _ _ (by simp)]
  exact ⟨_, rfl⟩

theorem writeAt_ok (f : File) (p : Nat) (buf : Bytes) (h : p ≤ f.data.data.length) :
    ∃ q : Int, writeAt f p buf = .ok (buf.length, { f with data := ⟨Spec.put f.data.data p buf, q⟩, modified := true }) := by
  unfold writeAt
  rw [goTo_ok { f with modified := true } p h]
  simp only [Outcome.ok_bind]
  rw [write_put ⟨f.data.data, p⟩ buf p rfl h]
  exact ⟨_, rfl⟩

/-! ## Histories -/

/-- A call of the API, with what the caller sees. -/
def call (f : File) : Spec.Op → Outcome (File × Spec.Out)
  | .openStream => .ok ((openStream f).2, .num (openStream f).1)
  | .read i n => do let (b, f) ← read f i n; .ok (f, .bytes b)
  | .write i buf => do let (n, f) ← write f i buf; .ok (f, .num n)
  | .seekTo i o => do let (q, f) ← seek f i o .begin; .ok (f, .num q.toNat)
  | .seekBy i o => do let (q, f) ← seek f i o .current; .ok (f, .num q.toNat)
  | .seekEnd i => do let (q, f) ← seek f i 0 .fromEnd; .ok (f, .num q.toNat)
  | .readAt p n => do let (b, f) ← readAt f p n; .ok (f, .bytes b)
  | .writeAt p buf => do let (n, f) ← writeAt f p buf; .ok (f, .num n)
  | .replace buf => do let (n, f) ← replace f buf; .ok (f, .num n)

def runCalls (f : File) : List Spec.Op → Outcome (File × List Spec.Out)
  | [] => .ok (f, [])
  | op :: ops => do
    let (f, o) ← call f op
    let (f, os) ← runCalls f ops
    .ok (f, o :: os)

/-- The file shows the contents and the cursors. -/
def Shows (f : File) (s : Spec.Shared) : Prop :=
  f.data.data = s.contents ∧ f.streams = s.cursors.map (fun n : Nat => (n : Int)) ∧ s.contents.length < 2 ^ 31

theorem cursor {f : File} {s : Spec.Shared} (h : Shows f s) {i p : Nat} (hp : s.cursors[i]? = some p) : f.streams[i]? = some (p : Int) := by
  rw [h.2.1, List.getElem?_map, hp]
  rfl

theorem map_set (l : List Nat) (i v : Nat) : (l.map (fun n : Nat => (n : Int))).set i (v : Int) = (l.set i v).map (fun n : Nat => (n : Int)) :=
  (List.map_set ..).symm

theorem seek_ok {f : File} {s : Spec.Shared} (h : Shows f s) {i p : Nat} (hp : s.cursors[i]? = some p) (off : Int) (o : Origin) (q : Nat)
    (hq : seekPos s.contents.length p off o = q) :
    ∃ f', seek f i off o = .ok (q, f') ∧ Shows f' ⟨s.contents, s.cursors.set i q⟩ := by
  refine ⟨{ f with streams := f.streams.set i q }, ?_, h.1, ?_, h.2.2⟩
  · unfold seek size
    rw [cursor h hp]
    simp only
    rw [h.1, hq]
  · show f.streams.set i (q : Int) = _
    rw [h.2.1, map_set]

theorem step_shows (f : File) (s s' : Spec.Shared) (op : Spec.Op) (o : Spec.Out) (h : Shows f s) (hs : Spec.step s op = some (s', o)) :
    ∃ f', call f op = .ok (f', o) ∧ Shows f' s' := by
  obtain ⟨h1, h2, h3⟩ := id h
  cases op with
  | openStream =>
    cases hs
    refine ⟨(openStream f).2, ?_, h1, ?_, h3⟩
    · show Outcome.ok ((openStream f).2, Spec.Out.num f.streams.length) = _
      rw [h2, List.length_map]
    · show f.streams ++ [0] = _
      rw [h2]
      simp
  | read i n =>
    simp only [Spec.step, Option.bind_eq_bind, Option.bind_eq_some_iff] at hs
    obtain ⟨p, hp, hs⟩ := hs
    split at hs
    · rename_i hle
      cases hs
      obtain ⟨q, hq⟩ := readAt_ok f p n (by rw [h1]; exact hle)
      refine ⟨{ f with data := ⟨f.data.data, q⟩, streams := f.streams.set i ((p : Int) + ((f.data.data.drop p).take n).length) }, ?_, h1, ?_, h3⟩
      · simp only [call, read, cursor h hp, toInt_small p (by omega), hq, Outcome.ok_bind, h1]
      · show f.streams.set i _ = _
        rw [h2, h1, ← map_set]
        simp
    · cases hs
  | write i buf =>
    simp only [Spec.step, Option.bind_eq_bind, Option.bind_eq_some_iff] at hs
    obtain ⟨p, hp, hs⟩ := hs
    split at hs
    · rename_i hle
      cases hs
      obtain ⟨q, hq⟩ := writeAt_ok f p buf (by rw [h1]; exact hle.1)
      refine ⟨{ f with data := ⟨Spec.put f.data.data p buf, q⟩, modified := true, streams := f.streams.set i ((p : Int) + buf.length) }, ?_,
        by rw [h1], ?_, by rw [put_length _ _ _ hle.1]; omega⟩
      · simp only [call, write, cursor h hp, toInt_small p (by omega), hq, Outcome.ok_bind]
      · show f.streams.set i _ = _
        rw [h2, ← map_set]
        simp
    · cases hs
  | seekTo i o =>
    simp only [Spec.step, Option.bind_eq_bind, Option.bind_eq_some_iff] at hs
    obtain ⟨p, hp, hs⟩ := hs
    cases hs
    obtain ⟨f', e1, e2⟩ := seek_ok h hp o .begin (min o s.contents.length) (by
      unfold seekPos
      simp only
      split
      · split <;> omega
      · omega)
    exact ⟨f', by simp only [call, e1, Outcome.ok_bind, Int.toNat_natCast], e2⟩
  | seekBy i o =>
    simp only [Spec.step, Option.bind_eq_bind, Option.bind_eq_some_iff] at hs
    obtain ⟨p, hp, hs⟩ := hs
    split at hs
    · cases hs
      obtain ⟨f', e1, e2⟩ := seek_ok h hp o .current (min ((p : Int) + o).toNat s.contents.length) (by
        unfold seekPos
        simp only
        split <;> omega)
      exact ⟨f', by simp only [call, e1, Outcome.ok_bind, Int.toNat_natCast], e2⟩
    · cases hs
  | seekEnd i =>
    simp only [Spec.step, Option.bind_eq_bind, Option.bind_eq_some_iff] at hs
    obtain ⟨p, hp, hs⟩ := hs
    cases hs
    obtain ⟨f', e1, e2⟩ := seek_ok h hp 0 .fromEnd s.contents.length (by
      unfold seekPos
      simp only
      rw [if_pos (by omega), if_pos (by omega)]
      omega)
    exact ⟨f', by simp only [call, e1, Outcome.ok_bind, Int.toNat_natCast], e2⟩
  | readAt p n =>
    simp only [Spec.step] at hs
    split at hs
    · rename_i hle
      cases hs
      obtain ⟨q, hq⟩ := readAt_ok f p n (by rw [h1]; exact hle)
      exact ⟨{ f with data := ⟨f.data.data, q⟩ }, by simp only [call, hq, Outcome.ok_bind, h1], h1, h2, h3⟩
    · cases hs
  | writeAt p buf =>
    simp only [Spec.step] at hs
    split at hs
    · rename_i hle
      cases hs
      obtain ⟨q, hq⟩ := writeAt_ok f p buf (by rw [h1]; exact hle.1)
      exact ⟨{ f with data := ⟨Spec.put f.data.data p buf, q⟩, modified := true }, by simp only [call, hq, Outcome.ok_bind], by rw [h1], h2,
        by rw [put_length _ _ _ hle.1]; omega⟩
    · cases hs
  | replace buf =>
    simp only [Spec.step] at hs
    split at hs
    · rename_i hle
      cases hs
      have hm : ∃ m : Mem, shorten f.data buf.length = .ok m ∧ m.data.length ≤ buf.length := by
        unfold shorten
        split
        · exact ⟨⟨resizeB f.data.data buf.length, if f.data.pos > buf.length then buf.length else f.data.pos⟩, by
            unfold Mem.setSize
            rw [if_neg (by omega)]
            simp only [Int.toNat_natCast], Nat.le_of_eq (length_resizeB ..)⟩
        · exact ⟨f.data, rfl, by omega⟩
      obtain ⟨m, hm, hml⟩ := hm
      have hg := goTo_ok { f with data := m, modified := true } 0 (Nat.zero_le _)
      have hw := write_put ⟨m.data, (0 : Nat)⟩ buf 0 rfl (Nat.zero_le _)
      have hput : Spec.put m.data 0 buf = buf := by
        unfold Spec.put
        rw [List.drop_of_length_le (by omega)]
        simp
      refine ⟨{ f with data := ⟨buf, (0 : Nat) + buf.length⟩, modified := true }, ?_, rfl, h2, hle⟩
      simp only [call, replace, hm, Outcome.ok_bind]
      rw [show ((0 : Int)) = ((0 : Nat) : Int) from rfl, hg]
      simp only [Outcome.ok_bind]
      rw [hw, hput]
      simp only [Outcome.ok_bind]
    · cases hs

theorem run_shows (ops : List Spec.Op) (f : File) (s s' : Spec.Shared) (os : List Spec.Out) (h : Shows f s)
    (hs : Spec.run s ops = some (s', os)) : ∃ f', runCalls f ops = .ok (f', os) ∧ Shows f' s' := by
  induction ops generalizing f s os with
  | nil => cases hs; exact ⟨f, rfl, h⟩
  | cons op ops ih =>
    simp only [Spec.run, Option.bind_eq_bind, Option.bind_eq_some_iff] at hs
    obtain ⟨⟨s1, o⟩, hs1, ⟨s2, os2⟩, hs2, hs3⟩ := hs
    cases hs3
    obtain ⟨f1, e1, h1⟩ := step_shows f s s1 op o h hs1
    obtain ⟨f2, e2, h2⟩ := ih f1 s1 os2 h1 hs2
    exact ⟨f2, by simp only [runCalls, e1, e2, Outcome.ok_bind], h2⟩

/-- **C93 (partial).** A file with any contents below 2 GiB on which no stream is open yet: every history of opening streams, reading, writing and
seeking through any of them in any order, and reading, writing and replacing the contents directly, that the specification admits makes exactly its observations,
and ends with its contents and positions. Missing: seeking from the end by anything but 0, and seeking before the beginning; both go wrong. -/
theorem streams_share_file_partial (c : Bytes) (p : Int) (d : Bool) (hc : c.length < 2 ^ 31) (ops : List Spec.Op) (s' : Spec.Shared) (os : List Spec.Out)
    (hs : Spec.run ⟨c, []⟩ ops = some (s', os)) :
    ∃ f', runCalls ⟨⟨c, p⟩, d, []⟩ ops = .ok (f', os) ∧ f'.data.data = s'.contents ∧ f'.streams = s'.cursors.map (fun n : Nat => (n : Int)) := by
  obtain ⟨f', e, h⟩ := run_shows ops ⟨⟨c, p⟩, d, []⟩ ⟨c, []⟩ s' os ⟨rfl, rfl, hc⟩ hs
  exact ⟨f', e, h.1, h.2.1⟩

/-- Non-vacuity: two streams, of which one sees what the other has written. -/
example : ∃ f', runCalls ⟨⟨[1, 2, 3, 4], 9⟩, false, []⟩
      [.openStream, .openStream, .read 0 2, .write 1 [7, 8, 9], .read 0 9, .seekBy 1 (-1), .read 1 1, .seekEnd 0, .write 0 [5], .seekTo 1 0, .read 1 9] =
    .ok (f', [.num 0, .num 1, .bytes [1, 2], .num 3, .bytes [9, 4], .num 2, .bytes [9], .num 4, .num 1, .num 0, .bytes [7, 8, 9, 4, 5]]) ∧
    f'.data.data = [7, 8, 9, 4, 5] ∧ f'.streams = [5, 5] := by
  obtain ⟨f', e, h1, h2⟩ := streams_share_file_partial [1, 2, 3, 4] 9 false (by decide)
    [.openStream, .openStream, .read 0 2, .write 1 [7, 8, 9], .read 0 9, .seekBy 1 (-1), .read 1 1, .seekEnd 0, .write 0 [5], .seekTo 1 0, .read 1 9]
    ⟨[7, 8, 9, 4, 5], [5, 5]⟩
    [.num 0, .num 1, .bytes [1, 2], .num 3, .bytes [9, 4], .num 2, .bytes [9], .num 4, .num 1, .num 0, .bytes [7, 8, 9, 4, 5]] (by decide +kernel)
  exact ⟨f', e, h1, h2⟩

/-- **C93.** Copying from a stream takes the whole file, wherever the stream is. -/
theorem copy_takes_whole (f : File) (i : Nat) (p : Int) (hp : f.streams[i]? = some p) (hl : f.data.data.length < 2 ^ 31) (dst : Mem)
    (hd : dst.pos = dst.data.length) :
    ∃ f' n, copyFrom dst f i 0 = .ok (n, ⟨dst.data ++ f.data.data, dst.data.length + f.data.data.length⟩, f') ∧ n = f.data.data.length ∧
      f'.data.data = f.data.data := by
  have hi : i < f.streams.length := by
    rcases Nat.lt_or_ge i f.streams.length with h | h
    · exact h
    · rw [List.getElem?_eq_none h] at hp; cases hp
  unfold copyFrom
  rw [if_pos rfl]
  unfold seek
  rw [hp]
  have hz : seekPos (size f) p 0 .begin = 0 := by
    unfold seekPos
    simp only
    rw [if_pos (by omega), if_pos (by omega)]
  simp only [Outcome.ok_bind, hz]
  by_cases h0 : f.data.data.length = 0
  · rw [if_neg (by simp [size, h0])]
    have hn : f.data.data = [] := List.length_eq_zero_iff.mp h0
    refine ⟨{ f with streams := f.streams.set i 0 }, 0, ?_, h0.symm, rfl⟩
    rw [hn]
    simp only [List.append_nil, List.length_nil]
    congr 3
    cases dst
    simp_all
  · rw [if_pos (by simpa [size] using h0)]
    unfold copyCount read
    have hg : (f.streams.set i 0)[i]? = some (0 : Int) := by rw [List.getElem?_set]; simp [hi]
    simp only [hg]
    obtain ⟨q, hq⟩ := readAt_ok { f with streams := f.streams.set i 0 } 0 f.data.data.length (Nat.zero_le _)
    have ht : toInt 0 = ((0 : Nat) : Int) := by decide
    rw [ht]
    have hw : dst.writeVec (f.data.data ++ List.replicate (f.data.data.length - f.data.data.length) 0) f.data.data.length =
        .ok (f.data.data.length, ⟨dst.data ++ f.data.data, dst.data.length + f.data.data.length⟩) := by
      rw [Nat.sub_self, List.replicate_zero, List.append_nil]
      unfold Mem.writeVec
      rw [if_neg h0, if_neg (by omega), List.take_length, write_put dst f.data.data dst.data.length hd (Nat.le_refl _)]
      unfold Spec.put
      rw [List.drop_of_length_le (by omega), List.take_length, List.append_nil]
    have hb : (f.data.data.drop 0).take f.data.data.length = f.data.data := by rw [List.drop_zero, List.take_length]
    simp only [hb] at hq
    simp only [size, hq, Outcome.ok_bind, hw]
    exact ⟨_, _, rfl, rfl, rfl⟩

/-! ## What goes wrong -/

/-- **Finding (C93).** Seeking from the end by a negative offset goes beyond the end of the file by as much, and what is read or written
there is refused; by a positive offset it does nothing. -/
theorem seek_end_passes_end (f : File) (i : Nat) (p : Int) (hp : f.streams[i]? = some p) (o : Int) (ho : o < 0)
    (hl : (f.data.data.length : Int) - o < 2 ^ 31) :
    ∃ f', seek f i o .fromEnd = .ok ((f.data.data.length : Int) - o, f') ∧ (∀ n, read f' i n = .throw) ∧ (∀ b, write f' i b = .throw) := by
  have hi : i < f.streams.length := by
    rcases Nat.lt_or_ge i f.streams.length with h | h
    · exact h
    · rw [List.getElem?_eq_none h] at hp; cases hp
  have hs : seekPos (size f) p o .fromEnd = (f.data.data.length : Int) - o := by
    unfold seekPos size
    simp only
    rw [if_pos (by omega), if_pos (by omega)]
  have hg : (f.streams.set i ((f.data.data.length : Int) - o))[i]? = some ((f.data.data.length : Int) - o) := by rw [List.getElem?_set]; simp [hi]
  have ht : toInt ((f.data.data.length : Int) - o) = (f.data.data.length : Int) - o := by unfold toInt; omega
  refine ⟨{ f with streams := f.streams.set i ((f.data.data.length : Int) - o) }, ?_, ?_, ?_⟩
  · unfold seek
    rw [hp]
    simp only [hs]
  · intro n
    unfold read readAt
    simp only [hg, ht]
    rw [goTo_beyond { f with streams := f.streams.set i ((f.data.data.length : Int) - o) } _ (show (f.data.data.length : Int) < (f.data.data.length : Int) - o by omega)]
    rfl
  · intro b
    unfold write writeAt
    simp only [hg, ht]
    rw [goTo_beyond ⟨f.data, true, _⟩ _ (show (f.data.data.length : Int) < (f.data.data.length : Int) - o by omega)]
    rfl

theorem seek_end_ignores (f : File) (i : Nat) (p : Int) (hp : f.streams[i]? = some p) (o : Int) (ho : 0 < o) : seek f i o .fromEnd = .ok (p, f) := by
  unfold seek seekPos
  rw [hp]
  simp only
  rw [if_neg (by omega)]
  have hi : i < f.streams.length := by
    rcases Nat.lt_or_ge i f.streams.length with h | h
    · exact h
    · rw [List.getElem?_eq_none h] at hp; cases hp
  have : f.streams.set i p = f.streams := by
    rw [List.getElem?_eq_getElem hi] at hp
    rw [← Option.some.inj hp]
    exact List.set_getElem_self hi
  rw [this]

example : seek ⟨⟨[1, 2, 3], 0⟩, false, [1]⟩ 0 (-2) .fromEnd = .ok (5, ⟨⟨[1, 2, 3], 0⟩, false, [5]⟩) := by decide

/-- **Finding (C93).** Seeking back by more than the position is not refused; the next read is undefined behaviour. -/
theorem seek_before_start (f : File) (i : Nat) (p : Nat) (hp : f.streams[i]? = some (p : Int)) (o : Int) (ho : (p : Int) + o < 0)
    (hl : -(2 ^ 31) ≤ (p : Int) + o) (n : Nat) :
    ∃ f', seek f i o .current = .ok ((p : Int) + o, f') ∧ read f' i n = .ub := by
  have hi : i < f.streams.length := by
    rcases Nat.lt_or_ge i f.streams.length with h | h
    · exact h
    · rw [List.getElem?_eq_none h] at hp; cases hp
  have hg : (f.streams.set i ((p : Int) + o))[i]? = some ((p : Int) + o) := by rw [List.getElem?_set]; simp [hi]
  have ht : toInt ((p : Int) + o) = (p : Int) + o := by unfold toInt; omega
  refine ⟨{ f with streams := f.streams.set i ((p : Int) + o) }, ?_, ?_⟩
  · unfold seek seekPos size
    rw [hp]
    simp only
    rw [if_pos (by omega)]
  · unfold read readAt
    simp only [hg, ht]
    rw [goTo_negative _ _ ho]
    simp only [Outcome.ok_bind]
    unfold Mem.read
    simp only [if_pos ho]
    rfl

example : ∃ f', seek ⟨⟨[1, 2, 3], 0⟩, false, [1]⟩ 0 (-2) .current = .ok (-1, f') ∧ read f' 0 1 = .ub :=
  seek_before_start _ 0 1 rfl (-2) (by decide) (by decide) 1

/-- **Finding (C93).** After the file has been replaced by something shorter than the position of a stream, reading from that stream is an error,
not the end of the file. -/
theorem read_after_shortening (f : File) (i p n : Nat) (hp : f.streams[i]? = some (p : Int)) (hl : f.data.data.length < p) (h31 : p < 2 ^ 31) :
    read f i n = .throw := by
  unfold read readAt
  simp only [hp, toInt_small p h31]
  rw [goTo_beyond _ _ (by omega)]
  rfl

example : (runCalls ⟨⟨[1, 2, 3], 0⟩, false, []⟩ [.openStream, .read 0 3, .replace [9], .read 0 1]) = .throw := by decide

/-- **Finding (C93).** The position that is reported is 0, whatever was read. -/
theorem reported_position_is_zero (f : File) (i p : Nat) (hp : f.streams[i]? = some (p : Int)) (hl : p ≤ f.data.data.length) (h0 : 0 < p) :
    ∃ f', seek f i 0 .current = .ok (p, f') ∧ getPosition f' i = .ok 0 ∧ (p : Int) ≠ 0 := by
  have hi : i < f.streams.length := by
    rcases Nat.lt_or_ge i f.streams.length with h | h
    · exact h
    · rw [List.getElem?_eq_none h] at hp; cases hp
  have hs : seekPos (size f) p 0 .current = p := by
    unfold seekPos size
    simp only
    split <;> omega
  refine ⟨{ f with streams := f.streams.set i p }, ?_, ?_, by omega⟩
  · unfold seek
    rw [hp]
    simp only [hs]
  · unfold getPosition
    simp only [List.getElem?_set, hi]
    simp

example : ∃ f', seek ⟨⟨[1, 2, 3], 0⟩, false, [2]⟩ 0 0 .current = .ok (2, f') ∧ getPosition f' 0 = .ok 0 ∧ ((2 : Nat) : Int) ≠ 0 :=
  reported_position_is_zero _ 0 2 rfl (by decide) (by decide)

/-- **Finding (C93).** A file can be destroyed only if no stream was opened on it, or all have been closed. -/
theorem destroy_with_stream (f : File) : destroy (openStream f).2 = .ub := by
  unfold destroy openStream
  simp

end Verif.FileStream
