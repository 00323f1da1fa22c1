import Verif.Cache.PowerTheorems
import Verif.Cache.CrashFindings

/-! # Findings: the machine stops while changes are written (C117) -/

namespace Verif.Cache
open Verif Stream Spec Verif.Db Verif.Db.Spec

/-- **C117, finding.** If pages were appended since the last flush, and both files are consistent, the file is refused whenever one of the two has
reached the disk without the other: the header with the new number of pages, or any byte of the new pages. -/
theorem power_refused (d : Db) (s : Spec.State) (h : Inv d s) (l : List (Nat × UInt8)) (hl : ∀ p ∈ l, p ∈ givenBytes d.c.page 0 d.c.blocks)
    (v : Ver) (n n' : Nat) (hold : Consistent s.disk v d.c.page n) (hnew : Consistent s.pages.flatten v d.c.page n')
    (hbad : ((reached s.disk l).take 24 = s.pages.flatten.take 24 ∧ (reached s.disk l).length < s.pages.flatten.length) ∨
      ((reached s.disk l).take 24 = s.disk.take 24 ∧ s.disk.length < (reached s.disk l).length)) (exclusive : Bool) :
    openHeader (reached s.disk l) exclusive = .throw := by
  rcases hbad with ⟨h1, h2⟩ | ⟨h1, h2⟩
  · exact other_size_refused _ _ v _ n' hnew h1 (by omega) exclusive
  · exact other_size_refused _ _ v _ n hold h1 (by omega) exclusive

/-- The sample with one page more, and two pages changed. -/
def powerDb : Cache.Db :=
  ⟨⟨32, ⟨crashSample.set 12 3 ++ List.replicate 32 7, 0, 96, false⟩,
    [none, some ⟨List.replicate 32 8, true, 1⟩, some ⟨List.replicate 32 8, true, 2⟩]⟩, 3⟩

/-- **C117, finding.** Pages reach the disk out of order: the second changed page without the first. This is none of the files a dying process
leaves (C109): the order of writes, which is all the program has to keep the file sound, means nothing. -/
theorem power_out_of_order :
    (∃ outs, runCalls (Db.open (crashSample.set 12 3 ++ List.replicate 32 7) 32)
      [(1, .replace 1 (List.replicate 32 8)), (2, .replace 2 (List.replicate 32 8))] = .ok (powerDb, outs)) ∧
    ∃ l, (∀ p ∈ l, p ∈ givenBytes 32 0 powerDb.c.blocks) ∧
      reached powerDb.c.fs.file l = (crashSample.take 32).set 12 3 ++ List.replicate 32 6 ++ List.replicate 32 8 ∧
      ∀ k ≤ 3, ∀ m ≤ 32, crashFlush powerDb.c k m ≠ .ok (reached powerDb.c.fs.file l) := by
  refine ⟨⟨[.done, .done], by decide⟩, place 64 (List.replicate 32 8), by decide +kernel, by decide +kernel, ?_⟩
  decide +kernel

/-- Half of a page, from its end, has reached the disk, and nothing of the other. -/
example : (∀ p ∈ (place 48 (List.replicate 16 8)).reverse, p ∈ givenBytes 32 0 powerDb.c.blocks) ∧
    reached powerDb.c.fs.file (place 48 (List.replicate 16 8)).reverse =
      (crashSample.take 32).set 12 3 ++ List.replicate 16 6 ++ List.replicate 16 8 ++ List.replicate 32 7 := by decide +kernel

/-- A page is appended; its last byte alone has reached the disk: the file has its new length, the page is zeros but for this byte, and the
number of pages is the old one. -/
example : (runCalls (Db.open crashSample 32) [(7, .replace 2 (List.replicate 32 9))]).bind (fun r =>
    .ok (decide ((95, 9) ∈ givenBytes 32 0 r.1.c.blocks), reached r.1.c.fs.file [(95, 9)], openHeader (reached r.1.c.fs.file [(95, 9)]) true)) =
    .ok (true, crashSample ++ List.replicate 31 0 ++ [9], .throw) := by decide

/-- The hypotheses of `power_keeps` and `power_opens` are met: the state of the sample with page 1 changed, and page 0 as before. -/
example : ∃ d, Inv d ⟨[crashSample.take 32, List.replicate 32 8], crashSample⟩ ∧
    (0 + 1) * 32 ≤ crashSample.length ∧ pageAt crashSample 32 0 = pageAt [crashSample.take 32, List.replicate 32 8].flatten 32 0 ∧
    ([crashSample.take 32, List.replicate 32 8].flatten).length = crashSample.length ∧
    [crashSample.take 32, List.replicate 32 8].flatten.take 24 = crashSample.take 24 := by
  obtain ⟨d, _, _, hi⟩ := run_refines [(1, .replace 1 (List.replicate 32 8))] _ _
    (open_inv crashSample 32 (by decide) (by decide) (by decide)) ⟨by decide, trivial⟩
  exact ⟨d, hi, by decide, by decide, by decide, by decide⟩

end Verif.Cache
