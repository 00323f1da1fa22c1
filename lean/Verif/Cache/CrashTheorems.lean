import Verif.Cache.Crash
import Verif.Cache.CrashSpec
import Verif.Cache.Theorems
import Verif.Db.Theorems

/-! # Property theorems: a process that dies while changes are written (C109) -/

namespace Verif.Cache
open Verif Stream Spec

/-- The loop over the first pages. -/
theorem flushLoop_prefix (page : Nat) (hpage : 0 < page) (bs : List (Option Blk)) (fs : FileS) (n : Nat)
    (hok : AllOk fs.file page n bs) (hn : n * page ≤ fs.file.length)
    (hsize : (n + bs.length) * page ≤ fs.size) (hgood : fs.failed = false) :
    ∃ fs' bs', flushLoop page fs n bs = .ok (fs', bs') ∧
      fs'.file = fs.file.take (n * page) ++ (logical fs.file page n bs).flatten ++ fs.file.drop ((n + bs.length) * page) ∧
      (n + bs.length) * page ≤ fs'.file.length ∧ fs'.size = fs.size ∧ fs'.failed = false := by
  induction bs generalizing fs n with
  | nil =>
    refine ⟨fs, [], rfl, ?_, by simpa using hn, rfl, hgood⟩
    simp [logical]
  | cons b bs ih =>
    have hn1 : (n + 1) * page = n * page + page := by rw [Nat.add_mul, Nat.one_mul]
    have hlen' : n + (b :: bs).length = (n + 1) + bs.length := by simp; omega
    rw [hlen'] at hsize ⊢
    cases b with
    | none =>
      have h1 : (n + 1) * page ≤ fs.file.length := hok.1
      obtain ⟨fs', bs', e, i1, i2, i6, i7⟩ := ih fs (n + 1) hok.2 h1 hsize hgood
      refine ⟨fs', none :: bs', by simp only [flushLoop, e, Outcome.ok_bind], ?_, i2, i6, i7⟩
      rw [i1, hn1, List.take_add]
      simp only [logical, List.flatten_cons, pageAt, List.append_assoc]
    | some b =>
      by_cases hc : b.changed = true
      · have hw : writeBlk fs page n b = .ok
            ({ file := overlay fs.file (n * page) b.data, pos := n * page + b.data.length,
               size := fs.size, failed := false }, { b with changed := false }) := by
          unfold writeBlk FileS.seek FileS.write
          have hsz : n * page + b.data.length ≤ fs.size := by
            rw [hok.1.1, ← hn1]
            exact Nat.le_trans (Nat.mul_le_mul_right _ (by omega)) hsize
          simp only [hc, Bool.not_true, Bool.false_eq_true, if_false, hgood]
          rw [if_neg (by omega)]
          simp only [Outcome.ok_bind, hgood, Bool.false_eq_true, if_false]
          rw [if_neg (by omega)]
        have hov := overlay_page fs.file page n b.data hok.1.1 hpage hn
        have hdrop : (overlay fs.file (n * page) b.data).drop ((n + 1) * page) = fs.file.drop ((n + 1) * page) := by
          rw [hov, List.drop_append_of_le_length (by simp [hok.1.1]; omega)]
          rw [List.drop_of_length_le (by simp [hok.1.1]; omega)]
          simp
        have hovl : (overlay fs.file (n * page) b.data).length = max fs.file.length ((n + 1) * page) := by
          rw [hov]; simp [hok.1.1]; omega
        obtain ⟨fs', bs', e, i1, i2, i6, i7⟩ := ih
          { file := overlay fs.file (n * page) b.data, pos := n * page + b.data.length,
            size := fs.size, failed := false } (n + 1)
          (allOk_congr _ _ _ _ _ hdrop.symm (by simp only [hovl]; omega) hok.2)
          (by simp only [hovl]; omega) hsize rfl
        simp only at i1 i6
        rw [logical_congr _ _ _ _ _ hdrop] at i1
        have htake : (overlay fs.file (n * page) b.data).take ((n + 1) * page)
            = fs.file.take (n * page) ++ b.data := by
          rw [hov, List.take_append_of_le_length (by simp [hok.1.1]; omega)]
          rw [List.take_of_length_le (by simp [hok.1.1]; omega)]
        rw [htake, drop_more _ _ _ ((n + 1 + bs.length) * page) hdrop (Nat.mul_le_mul_right _ (by omega))] at i1
        refine ⟨fs', some { b with changed := false } :: bs', by simp only [flushLoop, hw, e, Outcome.ok_bind], ?_, i2, i6,
          i7⟩
        rw [i1]; simp only [logical, List.flatten_cons, List.append_assoc]
      · have hc' : b.changed = false := by simpa using hc
        obtain ⟨h1, h2⟩ := hok.1.2 hc'
        have hw : writeBlk fs page n b = .ok (fs, b) := by simp [writeBlk, hc']
        obtain ⟨fs', bs', e, i1, i2, i6, i7⟩ := ih fs (n + 1) hok.2 h1 hsize hgood
        refine ⟨fs', some b :: bs', by simp only [flushLoop, hw, e, Outcome.ok_bind], ?_, i2, i6, i7⟩
        rw [i1, hn1, List.take_add]
        simp only [logical, List.flatten_cons, List.append_assoc]
        rw [← h2]; rfl

theorem logical_take (file : Bytes) (page n : Nat) (bs : List (Option Blk)) (k : Nat) :
    logical file page n (bs.take k) = (logical file page n bs).take k := by
  induction bs generalizing n k with
  | nil => simp [logical]
  | cons b bs ih =>
    cases k with
    | zero => simp [logical]
    | succ k => cases b <;> simp [logical, ih]

theorem allOk_take (file : Bytes) (page n : Nat) (bs : List (Option Blk)) (k : Nat) (h : AllOk file page n bs) :
    AllOk file page n (bs.take k) := by
  induction bs generalizing n k with
  | nil => simpa using h
  | cons b bs ih =>
    cases k with
    | zero => trivial
    | succ k => exact ⟨h.1, ih (n + 1) k h.2⟩

theorem logical_pages (file : Bytes) (page n : Nat) (bs : List (Option Blk)) (h : AllOk file page n bs) :
    ∀ p ∈ logical file page n bs, p.length = page := by
  induction bs generalizing n with
  | nil => intro p hp; cases hp
  | cons b bs ih =>
    intro p hp
    cases b with
    | none =>
      rcases List.mem_cons.1 hp with rfl | hp
      · exact pageAt_length file page n h.1
      · exact ih (n + 1) h.2 p hp
    | some b =>
      rcases List.mem_cons.1 hp with rfl | hp
      · exact h.1.1
      · exact ih (n + 1) h.2 p hp

theorem flatten_length (l : List Bytes) (page : Nat) (h : ∀ p ∈ l, p.length = page) :
    l.flatten.length = l.length * page := by
  induction l with
  | nil => simp
  | cons p l ih =>
    rw [List.flatten_cons, List.length_append, h p (by simp), ih fun q hq => h q (by simp [hq]), List.length_cons,
      Nat.add_mul, Nat.one_mul, Nat.add_comm]

theorem flatten_take (l : List Bytes) (page : Nat) (h : ∀ p ∈ l, p.length = page) (k : Nat) :
    (l.take k).flatten = l.flatten.take (k * page) := by
  induction l generalizing k with
  | nil => simp
  | cons p l ih =>
    cases k with
    | zero => simp
    | succ k =>
      have hp := h p (by simp)
      rw [List.take_succ_cons, List.flatten_cons, List.flatten_cons, ih (fun q hq => h q (by simp [hq])),
        Nat.add_mul, Nat.one_mul, Nat.add_comm, List.take_add, List.take_left' hp, List.drop_left' hp]

theorem flatten_page (l : List Bytes) (page : Nat) (h : ∀ p ∈ l, p.length = page) (k m : Nat) (hm : m ≤ page) :
    l.flatten.take (k * page + m) = (l.take k).flatten ++ (l[k]?.getD []).take m := by
  induction l generalizing k with
  | nil => simp
  | cons p l ih =>
    have hp := h p (by simp)
    cases k with
    | zero =>
      simp only [Nat.zero_mul, Nat.zero_add, List.take_zero, List.flatten_nil, List.nil_append, List.getElem?_cons_zero,
        Option.getD_some, List.flatten_cons]
      rw [List.take_append_of_le_length (by omega)]
    | succ k =>
      rw [List.take_succ_cons, List.flatten_cons, List.flatten_cons, List.getElem?_cons_succ, List.append_assoc,
        ← ih (fun q hq => h q (by simp [hq])),
        show (k + 1) * page + m = page + (k * page + m) by rw [Nat.add_mul, Nat.one_mul]; omega,
        List.take_add, List.take_left' hp, List.drop_left' hp]

/-- Part of a page written in place. -/
theorem overlay_part (file : Bytes) (pos : Nat) (data : Bytes) (h : pos ≤ file.length) :
    overlay file pos data = file.take pos ++ data ++ file.drop (pos + data.length) := by
  unfold overlay
  by_cases hd : data = []
  · subst hd; simp
  · simp only [List.isEmpty_iff, hd, if_false]
    rw [show max pos file.length = file.length by omega]
    unfold resizeB
    simp

/-- **C109, the crash point.** In every state: if the process dies while the changes are written, after `k` pages and `m`
bytes of the next one, the file holds the new contents up to there and what it held before from there on. -/
theorem crash_file (d : Db) (s : Spec.State) (h : Inv d s) (k m : Nat) (hk : k ≤ s.pages.length) (hm : m ≤ d.c.page) :
    crashFlush d.c k m = .ok (interrupted s.disk s.pages.flatten (k * d.c.page + m)) := by
  have h16 := h.page16
  have hpl : s.pages.length = d.c.blocks.length := by rw [← h.pages, length_logical]
  have hpg : ∀ p ∈ s.pages, p.length = d.c.page := by rw [← h.pages]; exact logical_pages _ _ _ _ h.ok
  have htl : (d.c.blocks.take k).length = k := by rw [List.length_take]; omega
  obtain ⟨fs', bs', e, i1, i2, i3, i4⟩ := flushLoop_prefix d.c.page (by omega) (d.c.blocks.take k) d.c.fs 0
    (allOk_take _ _ _ _ _ h.ok) (by simp)
    (by rw [htl, h.size]; exact Nat.mul_le_mul_right _ (by rw [← h.len]; omega)) h.good
  rw [htl, Nat.zero_add] at i1 i2
  rw [Nat.zero_mul, List.take_zero, List.nil_append, logical_take, h.pages, h.disk] at i1
  have hfl : (s.pages.take k).flatten.length = k * d.c.page := by
    rw [flatten_length _ d.c.page fun p hp => hpg p (List.mem_of_mem_take hp), List.length_take, Nat.min_eq_left hk]
  unfold crashFlush
  rw [e, Outcome.ok_bind]
  unfold interrupted
  rw [flatten_page _ _ hpg k m hm]
  -- what a page that is not written contributes
  have hkeep : (∀ p, s.pages[k]? = some p → (k + 1) * d.c.page ≤ s.disk.length ∧ pageAt s.disk d.c.page k = p) →
      fs'.file = (s.pages.take k).flatten ++ (s.pages[k]?.getD []).take m ++ s.disk.drop (k * d.c.page + m) := by
    intro hp
    rw [i1, List.append_assoc]
    congr 1
    cases hg : s.pages[k]? with
    | none =>
      have : s.pages.length ≤ k := by
        rcases Nat.lt_or_ge k s.pages.length with h' | h'
        · rw [List.getElem?_eq_getElem h'] at hg; cases hg
        · exact h'
      have hle : s.disk.length ≤ k * d.c.page := by
        rw [← h.disk]
        exact Nat.le_trans h.flen (Nat.mul_le_mul_right _ (by rw [← h.len]; omega))
      rw [List.drop_of_length_le hle, List.drop_of_length_le (by omega)]
      simp
    | some p =>
      obtain ⟨_, h2⟩ := hp p hg
      rw [Option.getD_some, ← h2]
      unfold pageAt
      rw [List.take_take, Nat.min_eq_left hm, ← List.drop_drop, List.take_append_drop]
  cases hb : d.c.blocks[k]? with
  | none =>
    simp only [tornWrite, Outcome.ok_bind]
    rw [hkeep ?_]
    intro p hp
    have := (List.getElem?_eq_some_iff.1 hp).1
    rw [List.getElem?_eq_none_iff] at hb
    omega
  | some o =>
    have hlg : s.pages[k]? = (logical d.c.fs.file d.c.page 0 d.c.blocks)[k]? := by rw [h.pages]
    have hso := allOk_get _ _ _ _ _ _ h.ok hb
    rw [logical_get, hb] at hlg
    simp only [Nat.zero_add] at hlg hso
    rw [h.disk] at hlg hso
    cases o with
    | none =>
      simp only [tornWrite, Outcome.ok_bind]
      rw [hkeep ?_]
      intro p hp
      simp only [Option.map_some] at hlg
      rw [hlg] at hp
      exact ⟨hso, Option.some.inj hp⟩
    | some b =>
      simp only [Option.map_some] at hlg
      by_cases hc : b.changed = true
      · have hbl : b.data.length = d.c.page := hso.1
        simp only [tornWrite, hc, Bool.not_true, Bool.false_eq_true, if_false]
        unfold FileS.seek
        rw [if_neg (by
          rw [i3, h.size]
          have := Nat.mul_le_mul_right d.c.page (show k ≤ d.length by rw [← h.len]; omega)
          omega)]
        simp only [Outcome.ok_bind, FileS.write, i4, Bool.false_eq_true, if_false]
        rw [overlay_part _ _ _ i2, hlg, Option.getD_some]
        have htm : (b.data.take m).length = m := by rw [List.length_take]; omega
        rw [htm]
        congr 1
        congr 1
        · congr 1
          rw [i1, List.take_left' hfl]
        · rw [i1, List.drop_append, hfl, List.drop_of_length_le (by omega), List.nil_append, List.drop_drop]
          congr 1
          omega
      · have hc' : b.changed = false := by simpa using hc
        simp only [tornWrite, hc', Bool.not_false, if_true, Outcome.ok_bind]
        rw [hkeep ?_]
        intro p hp
        rw [hlg] at hp
        cases hp
        exact hso.2 hc'

/-- **C109.** Open a database file and perform any history of page reads, modifications, replacements, appends, clean-ups and
flushes; then let the process die while the changes are written, after any number of pages and any part of the next one.
The file holds the new contents up to that point and what it held after the last flush from there on. -/
theorem crash_history (file : Bytes) (page : Nat) (h16 : 16 ≤ page) (hm : file.length % page = 0) (hne : file ≠ [])
    (ops : List (Nat × Spec.Op)) (hw : Spec.wellUsed page ⟨pagesOf file page, file⟩ (ops.map (·.2))) (k m : Nat)
    (hk : k ≤ (Spec.run ⟨pagesOf file page, file⟩ (ops.map (·.2))).1.pages.length) (hmp : m ≤ page) :
    ∃ d outs, runCalls (Db.open file page) ops = .ok (d, outs) ∧
      crashFlush d.c k m = .ok (interrupted (Spec.run ⟨pagesOf file page, file⟩ (ops.map (·.2))).1.disk
        (Spec.run ⟨pagesOf file page, file⟩ (ops.map (·.2))).1.pages.flatten (k * page + m)) := by
  obtain ⟨d, e, hp, hi⟩ := run_refines ops _ _ (open_inv file page h16 hm hne) hw
  have hpp : d.c.page = page := hp
  have := crash_file d _ hi k m hk (by omega)
  rw [hpp] at this
  exact ⟨d, _, e, this⟩

/-- A change, an append, and the process dies after 5 bytes of page 1. -/
example : (runCalls (Db.open sampleFile 16) (sampleOps.take 5)).bind (fun r => crashFlush r.1.c 1 5) =
    .ok (List.replicate 12 1 ++ [3, 0, 0, 0] ++ [9, 2, 2, 2, 2] ++ List.replicate 11 2) := by decide

/-! ## What such a file is -/

open Verif.Db Verif.Db.Spec
open Verif.Object (rd32)

theorem get_take24 (f g : Bytes) (h : f.take 24 = g.take 24) (i : Nat) (hi : i < 24) : f[i]? = g[i]? := by
  have := congrArg (·[i]?) h
  simpa [List.getElem?_take, hi] using this

theorem rd32_take24 (f g : Bytes) (h : f.take 24 = g.take 24) (off : Nat) (ho : off + 4 ≤ 24) : rd32 f off = rd32 g off := by
  unfold rd32
  rw [get_take24 f g h off (by omega), get_take24 f g h (off + 1) (by omega), get_take24 f g h (off + 2) (by omega),
    get_take24 f g h (off + 3) (by omega)]

theorem take8_take24 (f g : Bytes) (h : f.take 24 = g.take 24) : f.take 8 = g.take 8 := by
  have := congrArg (List.take 8) h
  simpa [List.take_take] using this

theorem ver_take24 (f g : Bytes) (h : f.take 24 = g.take 24) : (f.drop 8).take 4 = (g.drop 8).take 4 := by
  have := congrArg (fun l => (l.drop 8).take 4) h
  simpa [List.drop_take, List.take_take] using this

/-- Opening looks at the first 24 bytes and at the size. -/
theorem openHeader_congr (f g : Bytes) (h : f.take 24 = g.take 24) (hl : f.length = g.length) (e : Bool) :
    openHeader f e = openHeader g e := by
  unfold openHeader filePageSize
  rw [take8_take24 f g h, ver_take24 f g h, hl, rd32_take24 f g h 12 (by omega), rd32_take24 f g h 20 (by omega)]

/-- A file with the header of a consistent one and another size is refused. -/
theorem other_size_refused (f g : Bytes) (v : Ver) (ps n : Nat) (hc : Consistent g v ps n) (h : f.take 24 = g.take 24)
    (hl : f.length ≠ g.length) (e : Bool) : openHeader f e = .throw := by
  have hg := open_consistent g v ps n hc e
  have hgl : g.length = n * ps := hc.2.1
  have h24 : ¬ f.length < 24 := by
    intro hf
    have : ¬ g.length < 24 := by
      intro hh
      unfold openHeader at hg
      rw [if_pos hh] at hg
      cases hg
    have := congrArg List.length h
    simp only [List.length_take] at this
    omega
  unfold openHeader filePageSize at hg ⊢
  rw [take8_take24 f g h, ver_take24 f g h, rd32_take24 f g h 12 (by omega), rd32_take24 f g h 20 (by omega),
    if_neg h24]
  split at hg
  · cases hg
  split at hg
  · cases hg
  rename_i h8
  rw [if_neg h8]
  split at hg
  · cases hg
  rename_i v' hv'
  simp only at hg ⊢
  generalize (if v' = Ver.v8_3_8 then rd32 g 20 else Outcome.ok 4096) = q at hg ⊢
  cases q with
  | throw => rfl
  | ub => cases hg
  | ok q =>
    simp only [Outcome.ok_bind] at hg ⊢
    split at hg
    · cases hg
    rename_i hq
    rw [if_neg hq]
    split at hg
    · cases hg
    cases hr : rd32 g 12 with
    | throw => rw [hr] at hg; cases hg
    | ub => rw [hr] at hg; cases hg
    | ok l =>
      rw [hr, Outcome.ok_bind] at hg
      split at hg
      · cases hg
      rename_i hz hll
      rw [Outcome.ok_bind]
      split
      · rfl
      · rename_i hfz
        rw [if_pos]
        intro hfl
        apply hl
        have h1 : f.length / q % 2 ^ 32 * q = f.length := Classical.not_not.1 hfz
        have h2 : g.length / q % 2 ^ 32 * q = g.length := Classical.not_not.1 hz
        have h3 : g.length / q % 2 ^ 32 = l := Classical.not_not.1 hll
        rw [← h1, ← h2, hfl, h3]

theorem interrupted_length (old new : Bytes) (t : Nat) (ht : t ≤ new.length) :
    (interrupted old new t).length = max t old.length := by
  unfold interrupted
  rw [List.length_append, List.length_take, List.length_drop]
  omega

theorem interrupted_take (old new : Bytes) (t k : Nat) (ht : t ≤ new.length) (h : old.take k = new.take k) :
    (interrupted old new t).take k = new.take k := by
  unfold interrupted
  rcases Nat.lt_or_ge k t with hk | hk
  · rw [List.take_append_of_le_length (by rw [List.length_take]; omega), List.take_take, Nat.min_eq_left (by omega)]
  · rw [List.take_append, List.length_take, List.take_take, Nat.min_eq_left ht, Nat.min_eq_right hk]
    have h1 : new.take t = old.take t := by
      have := congrArg (List.take t) h
      rw [List.take_take, List.take_take, Nat.min_eq_left hk] at this
      exact this.symm
    have h2 : (old.drop t).take (k - t) = (old.take k).drop t := by rw [List.drop_take]
    rw [h2, h1, ← h]
    have := List.take_append_drop t (old.take k)
    rw [List.take_take, Nat.min_eq_left hk] at this
    exact this

/-- **C109a.** If no page was appended and the header was left alone since the last flush, then wherever the process dies
while the changes are written, the file opens as it did before. -/
theorem crash_opens (d : Db) (s : Spec.State) (h : Inv d s) (k m : Nat) (hk : k ≤ s.pages.length) (hm : m ≤ d.c.page)
    (hl : s.pages.flatten.length = s.disk.length) (h24 : s.pages.flatten.take 24 = s.disk.take 24) (exclusive : Bool) :
    ∃ f, crashFlush d.c k m = .ok f ∧ openHeader f exclusive = openHeader s.disk exclusive := by
  refine ⟨_, crash_file d s h k m hk hm, ?_⟩
  have hpg : ∀ p ∈ s.pages, p.length = d.c.page := by rw [← h.pages]; exact logical_pages _ _ _ _ h.ok
  have hfl := flatten_length _ _ hpg
  rcases Nat.lt_or_ge s.pages.flatten.length (k * d.c.page + m) with ht | ht
  · have : interrupted s.disk s.pages.flatten (k * d.c.page + m) = s.pages.flatten := by
      unfold interrupted
      rw [List.take_of_length_le (by omega), List.drop_of_length_le (by omega), List.append_nil]
    rw [this]
    exact openHeader_congr _ _ h24 hl exclusive
  · apply openHeader_congr
    · rw [interrupted_take _ _ _ _ ht h24.symm, h24]
    · rw [interrupted_length _ _ _ ht]; omega

/-- **C109b.** If a single page differs from what the file holds, and the process does not die within the write of a page,
the file is either as it was or as it should be. -/
theorem crash_one_page (d : Db) (s : Spec.State) (h : Inv d s) (k i : Nat) (hk : k ≤ s.pages.length)
    (hl : s.pages.flatten.length = s.disk.length)
    (hi : ∀ j, j ≠ i → pageAt s.disk d.c.page j = pageAt s.pages.flatten d.c.page j) :
    crashFlush d.c k 0 = .ok s.disk ∨ crashFlush d.c k 0 = .ok s.pages.flatten := by
  have h16 := h.page16
  have hpg : ∀ p ∈ s.pages, p.length = d.c.page := by rw [← h.pages]; exact logical_pages _ _ _ _ h.ok
  have hfl := flatten_length _ _ hpg
  rw [crash_file d s h k 0 hk (by omega), Nat.add_zero]
  -- bytes of two files that agree on a page
  have byte : ∀ (n : Nat), n / d.c.page ≠ i → s.disk[n]? = s.pages.flatten[n]? := by
    intro n hn
    have hp := hi _ hn
    have := congrArg (·[n % d.c.page]?) hp
    unfold pageAt at this
    have hlt : n % d.c.page < d.c.page := Nat.mod_lt _ (by omega)
    simp only [List.getElem?_take, hlt, if_true, List.getElem?_drop] at this
    have he : n / d.c.page * d.c.page + n % d.c.page = n := by
      rw [Nat.mul_comm]; exact Nat.div_add_mod n d.c.page
    rwa [he] at this
  rcases Nat.lt_or_ge i k with hik | hik
  · right
    congr 1
    unfold interrupted
    have : s.disk.drop (k * d.c.page) = s.pages.flatten.drop (k * d.c.page) := by
      apply List.ext_getElem?
      intro n
      rw [List.getElem?_drop, List.getElem?_drop]
      apply byte
      have : k ≤ (k * d.c.page + n) / d.c.page := by
        rw [Nat.le_div_iff_mul_le (by omega)]; omega
      omega
    rw [this, List.take_append_drop]
  · left
    congr 1
    unfold interrupted
    have : s.pages.flatten.take (k * d.c.page) = s.disk.take (k * d.c.page) := by
      apply List.ext_getElem?
      intro n
      rw [List.getElem?_take, List.getElem?_take]
      split
      · rename_i hn
        refine (byte n ?_).symm
        have : n / d.c.page < k := by rw [Nat.div_lt_iff_lt_mul (by omega)]; exact hn
        omega
      · rfl
    rw [this, List.take_append_drop]

/-- **C109, finding.** If pages were appended since the last flush, the file is refused wherever the process dies between the
write of the header and that of the last page. -/
theorem crash_refused (d : Db) (s : Spec.State) (h : Inv d s) (v : Ver) (n : Nat) (k m : Nat) (hk : k ≤ s.pages.length)
    (hm : m ≤ d.c.page) (hc : Consistent s.pages.flatten v d.c.page n) (hgrow : s.disk.length < s.pages.flatten.length)
    (h24 : 24 ≤ k * d.c.page + m) (hend : k * d.c.page + m < s.pages.flatten.length) (exclusive : Bool) :
    ∃ f, crashFlush d.c k m = .ok f ∧ openHeader f exclusive = .throw := by
  refine ⟨_, crash_file d s h k m hk hm, ?_⟩
  apply other_size_refused _ _ v _ n hc
  · unfold interrupted
    rw [List.take_append_of_le_length (by rw [List.length_take]; omega), List.take_take, Nat.min_eq_left h24]
  · rw [interrupted_length _ _ _ (by omega)]; omega

end Verif.Cache
