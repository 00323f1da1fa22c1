import Verif.Cache.CrashTheorems

/-! # Findings: a process that dies while changes are written (C109) -/

namespace Verif.Cache
open Verif Stream Spec Verif.Db Verif.Db.Spec

theorem pages_prefix (file : Bytes) (page n : Nat) :
    ((List.range n).map (fun i => (file.drop (i * page)).take page)).flatten = file.take (n * page) := by
  induction n with
  | zero => simp
  | succ n ih =>
    rw [List.range_succ, List.map_append, List.flatten_append, ih, Nat.add_mul, Nat.one_mul, List.take_add]
    simp

theorem pagesOf_flatten (file : Bytes) (page : Nat) (hm : file.length % page = 0) : (pagesOf file page).flatten = file := by
  unfold pagesOf
  rw [pages_prefix, Nat.div_mul_cancel (Nat.dvd_of_mod_eq_zero hm), List.take_length]

/-- The pages after one was appended, as a file. -/
theorem grown_flatten (x : Bytes) (xs : List Bytes) (p : Bytes) (n : Nat) (hx : 16 ≤ x.length) :
    ((x :: xs).modify 0 (putLength n) ++ [p]).flatten =
      (x :: xs).flatten.take 12 ++ (Db.Spec.le32 n ++ ((x :: xs).flatten.drop 16 ++ p)) := by
  have h1 : (x :: xs).modify 0 (putLength n) = putLength n x :: xs := rfl
  rw [h1, ← putLength_eq]
  unfold setLength
  simp only [List.flatten_append, List.flatten_cons, List.flatten_nil, List.append_nil, List.append_assoc]
  rw [List.take_append_of_le_length (by omega), List.drop_append_of_le_length (by omega)]
  simp only [List.append_assoc]
  rfl

/-- A database file with one more page is a consistent file again. -/
theorem grown_consistent (file : Bytes) (v : Ver) (ps n : Nat) (hc : Consistent file v ps n) (p : Bytes)
    (hp : p.length = ps) (hn : n + 1 < 2 ^ 32) :
    Consistent (file.take 12 ++ (Db.Spec.le32 (n + 1) ++ (file.drop 16 ++ p))) v ps (n + 1) := by
  obtain ⟨hps, hl, first, ih, rest, hf, hi, _, hpp, he⟩ := hc
  have hv4 : (versionBytes v).length = 4 := by cases v <;> rfl
  have h12 : file.take 12 = [0x31, 0x43, 0x44, 0x42, 0x4d, 0x53, 0x56, 0x38] ++ versionBytes v := by
    rw [he]
    simp only [List.append_assoc]
    rw [← List.append_assoc [0x31, 0x43, 0x44, 0x42, 0x4d, 0x53, 0x56, 0x38]]
    exact List.take_left' (by rw [List.length_append, hv4]; rfl)
  have h16 : file.drop 16 = Db.Spec.le32 first ++ (Db.Spec.le32 ih ++ rest) := by
    rw [he]
    simp only [List.append_assoc]
    rw [← List.append_assoc [0x31, 0x43, 0x44, 0x42, 0x4d, 0x53, 0x56, 0x38], ← List.append_assoc _ (Db.Spec.le32 n)]
    exact List.drop_left' (by simp only [List.length_append, hv4]; rfl)
  refine ⟨hps, ?_, first, ih, rest ++ p, hf, hi, hn, hpp, ?_⟩
  · have hl24 : 16 ≤ file.length := by
      rw [he]
      simp only [List.length_append, hv4, Db.Spec.le32, List.length_cons, List.length_nil]
      omega
    simp only [List.length_append, List.length_take, List.length_drop, Db.Spec.le32, List.length_cons, List.length_nil]
    rw [Nat.add_mul, Nat.one_mul]
    omega
  · rw [h12, h16]
    simp only [List.append_assoc]

/-- **C109, finding.** Take any consistent database file, append one page and let the process die while this is written, at
any point after the first 24 bytes and before the last one: the file, which opened before, is refused from then on. -/
theorem append_then_crash (file : Bytes) (v : Ver) (ps n : Nat) (hc : Consistent file v ps n) (h16 : 16 ≤ ps)
    (hn : n + 1 < 2 ^ 32) (p : Bytes) (hp : p.length = ps) (now k m : Nat) (hk : k ≤ n + 1) (hm : m ≤ ps)
    (h24 : 24 ≤ k * ps + m) (hend : k * ps + m < (n + 1) * ps) (exclusive : Bool) :
    (∃ h, openHeader file exclusive = .ok h) ∧
    ∃ d outs f, runCalls (Db.open file ps) [(now, .replace n p)] = .ok (d, outs) ∧ crashFlush d.c k m = .ok f ∧
      openHeader f exclusive = .throw := by
  refine ⟨⟨_, open_consistent file v ps n hc exclusive⟩, ?_⟩
  have hl := hc.2.1
  have hne : file ≠ [] := by
    obtain ⟨_, _, _, _, _, _, _, _, _, he⟩ := hc
    rw [he]; simp
  have hmod : file.length % ps = 0 := by rw [hl]; exact Nat.mul_mod_left _ _
  have hpl : (pagesOf file ps).length = n := by
    unfold pagesOf
    rw [List.length_map, List.length_range, hl, Nat.mul_div_cancel _ (by omega)]
  obtain ⟨d, e, hpg, hi⟩ := run_refines [(now, .replace n p)] _ _ (open_inv file ps h16 hmod hne)
    (show wellUsed ps _ _ from ⟨hp, trivial⟩)
  have hpp : d.c.page = ps := hpg
  have hs : (run ⟨pagesOf file ps, file⟩ ([(now, Op.replace n p)].map (·.2))).1 =
      ⟨(pagesOf file ps).modify 0 (putLength (n + 1)) ++ [p], file⟩ := by
    simp only [List.map_cons, List.map_nil, run, step]
    rw [if_neg (by omega), if_pos hpl.symm]
  have hi' : Inv d ⟨(pagesOf file ps).modify 0 (putLength (n + 1)) ++ [p], file⟩ := by rw [← hs]; exact hi
  have hflat : ((pagesOf file ps).modify 0 (putLength (n + 1)) ++ [p]).flatten =
      file.take 12 ++ (Db.Spec.le32 (n + 1) ++ (file.drop 16 ++ p)) := by
    have hfl := pagesOf_flatten file ps hmod
    cases hq : pagesOf file ps with
    | nil => rw [hq] at hfl; exact absurd hfl.symm hne
    | cons x xs =>
      rw [hq] at hfl
      rw [grown_flatten, hfl]
      have hinv := logical_pages _ _ _ _ (open_inv file ps h16 hmod hne).ok x
        (by rw [(open_inv file ps h16 hmod hne).pages]; simp only [hq]; exact List.mem_cons_self)
      rw [hinv]; exact h16
  have hgc := grown_consistent file v ps n hc p hp hn
  obtain ⟨f, hf, hr⟩ := crash_refused d _ hi' v (n + 1) k m
    (by simp only [List.length_append, List.length_modify, hpl, List.length_cons, List.length_nil]; omega)
    (by omega) (by simp only [hflat, hpp]; exact hgc)
    (by
      simp only [hflat]; rw [hgc.2.1, hl, Nat.add_mul]; omega)
    (by rw [hpp]; exact h24) (by simp only [hflat]; rw [hgc.2.1, hpp]; exact hend) exclusive
  exact ⟨d, _, f, e, hf, hr⟩

/-- A consistent file of two pages of 32 bytes. -/
def crashSample : Bytes :=
  [0x31, 0x43, 0x44, 0x42, 0x4d, 0x53, 0x56, 0x38] ++ [8, 3, 8, 0] ++ [2, 0, 0, 0] ++ [0, 0, 0, 0] ++ [32, 0, 0, 0] ++
    List.replicate 8 5 ++ List.replicate 32 6
/-- It is one. -/
example : Consistent crashSample .v8_3_8 32 2 :=
  ⟨by decide, by decide, 0, 32, List.replicate 8 5 ++ List.replicate 32 6, by decide, by decide, by decide, by decide,
    by decide⟩
/-- The process dies after the first page is written. -/
example : (runCalls (Db.open crashSample 32) [(7, .replace 2 (List.replicate 32 9))]).bind
    (fun r => (crashFlush r.1.c 1 0).bind (fun f => openHeader f true)) = .throw := by decide

/-- **C109, finding.** Without appending: two pages are changed and the process dies between the two writes. The file
opens, and holds neither what it held before nor what it should hold. -/
theorem crash_mixes :
    ∃ (file : Bytes) (ops : List (Nat × Spec.Op)) (d : Cache.Db) (outs : List Spec.Out) (f new : Bytes) (h : Header),
      runCalls (Db.open file 32) ops = .ok (d, outs) ∧ crashFlush d.c 2 0 = .ok f ∧ crashFlush d.c 3 0 = .ok new ∧
      openHeader f true = .ok h ∧ openHeader file true = .ok h ∧ openHeader new true = .ok h ∧ f ≠ file ∧ f ≠ new := by
  refine ⟨crashSample.set 12 3 ++ List.replicate 32 7,
    [(1, .replace 1 (List.replicate 32 8)), (2, .replace 2 (List.replicate 32 8))],
    ⟨⟨32, ⟨crashSample.set 12 3 ++ List.replicate 32 7, 0, 96, false⟩,
      [none, some ⟨List.replicate 32 8, true, 1⟩, some ⟨List.replicate 32 8, true, 2⟩]⟩, 3⟩, [.done, .done],
    (crashSample.take 32).set 12 3 ++ List.replicate 32 8 ++ List.replicate 32 7,
    (crashSample.take 32).set 12 3 ++ List.replicate 32 8 ++ List.replicate 32 8,
    ⟨.v8_3_8, false, 32, 3⟩, ?_, ?_, ?_, ?_, ?_, ?_, ?_, ?_⟩ <;> decide

/-- The hypotheses of `crash_opens` and `crash_one_page` are met: one page of the sample is changed, nothing is appended. -/
example : ∃ d, Inv d ⟨[crashSample.take 32, List.replicate 32 8], crashSample⟩ ∧
    ([crashSample.take 32, List.replicate 32 8].flatten).length = crashSample.length ∧
    [crashSample.take 32, List.replicate 32 8].flatten.take 24 = crashSample.take 24 := by
  obtain ⟨d, _, _, hi⟩ := run_refines [(1, .replace 1 (List.replicate 32 8))] _ _
    (open_inv crashSample 32 (by decide) (by decide) (by decide)) ⟨by decide, trivial⟩
  exact ⟨d, hi, by decide, by decide⟩

end Verif.Cache
