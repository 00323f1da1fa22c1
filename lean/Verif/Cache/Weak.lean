import Verif.Cache.Theorems

/-!
# Pages handed out for writing without their old contents (C17, C19)

What `Verif.Object.touch` assumes about the cache: the page shows its old contents or
zeros, and nothing else in the database depends on which.
-/

namespace Verif.Cache
open Verif Stream

/-- **C17.** Handing out an existing page, with or without reading it: the modification applies to
the old contents of the page or to a page of zeros (the latter only if the old contents were
not asked for); no other page changes, and the file is not touched. -/
theorem put_weak (d : Db) (s : Spec.State) (h : Inv d s) (n now : Nat) (read : Bool)
    (f : Bytes → Bytes) (hn : n < d.length)
    (hf : ∀ p, p.length = d.c.page → (f p).length = d.c.page) :
    ∃ p d' b, s.pages[n]? = some p ∧ d.putBlock n read f now = .ok d' ∧ d'.c.page = d.c.page ∧ d'.length = d.length ∧
      (read = true → b = true) ∧
      Inv d' { s with pages := s.pages.set n (f (if b then p else List.replicate d.c.page 0)) } := by
  have hl := h.len
  have hg := logical_get d.c.fs.file d.c.page 0 n d.c.blocks
  rw [h.pages] at hg
  unfold Db.putBlock
  rw [if_neg (by omega), if_neg (by omega)]
  simp only [Outcome.ok_bind]
  unfold putBlock
  rw [if_neg (by omega)]
  simp only [show ¬ n = d.c.blocks.length by omega, if_false]
  have hb : d.c.blocks[n]? = some d.c.blocks[n] := List.getElem?_eq_getElem (by omega)
  generalize d.c.blocks[n] = b at hb
  rw [hb] at hg
  have hok := allOk_get _ _ 0 n _ _ h.ok hb
  cases b with
  | some b =>
    simp only [hb, Outcome.ok_bind]
    refine ⟨b.data, _, true, by simpa using hg, rfl, rfl, rfl, fun _ => rfl, ?_⟩
    refine ⟨h.page16, h.nonempty, by simpa using hl, h.size, h.good, h.flen, ?_, ?_, h.disk⟩
    · exact allOk_set _ _ 0 n _ _ h.ok ⟨hf _ hok.1, by simp⟩
    · simp only [logical_set, h.pages, if_true]
  | none =>
    simp only [Nat.zero_add] at hok
    have hpl := pageAt_length _ _ _ hok
    have hdiv : ¬ d.c.fs.size / d.c.page ≤ n := by
      have h16 := h.page16
      rw [h.size, Nat.mul_div_cancel _ (by omega)]
      omega
    simp only [hb, create, if_true, hdiv, if_false]
    cases read with
    | true =>
      simp only [if_true]
      rw [readPage_ok _ _ _ hok (mul_le_size d s h n (by omega))]
      simp only [Outcome.ok_bind]
      refine ⟨pageAt d.c.fs.file d.c.page n, _, true, by simpa using hg, rfl, rfl, rfl, fun _ => rfl, ?_⟩
      refine ⟨h.page16, h.nonempty, by simpa using hl, h.size, rfl, h.flen, ?_, ?_, h.disk⟩
      · exact allOk_set _ _ 0 n _ _ h.ok ⟨hf _ hpl, by simp⟩
      · simp only [logical_set, h.pages, if_true]
    | false =>
      simp only [Bool.false_eq_true, if_false, Outcome.ok_bind]
      refine ⟨pageAt d.c.fs.file d.c.page n, _, false, by simpa using hg, rfl, rfl, rfl, by simp, ?_⟩
      refine ⟨h.page16, h.nonempty, by simpa using hl, h.size, h.good, h.flen, ?_, ?_, h.disk⟩
      · exact allOk_set _ _ 0 n _ _ h.ok ⟨hf _ (by simp), by simp⟩
      · simp only [logical_set, h.pages, Bool.false_eq_true, if_false]

/-- **C19.** Handing out the page after the last one: the database grows by one page, of zeros
before the modification, and the header page records the new count. -/
theorem append_weak (d : Db) (s : Spec.State) (h : Inv d s) (now : Nat) (f : Bytes → Bytes)
    (hf : ∀ p, p.length = d.c.page → (f p).length = d.c.page) :
    ∃ d', d.putBlock d.length false f now = .ok d' ∧ d'.c.page = d.c.page ∧ d'.length = d.length + 1 ∧
      Inv d' { s with pages := s.pages.modify 0 (Spec.putLength (d.length + 1)) ++ [f (List.replicate d.c.page 0)] } := by
  have h16 := h.page16
  obtain ⟨p0, fs', b', hp0, e, hd', hdl, hch, hfile, hsize, hfail⟩ := header_step d s h now
  have hdiv : ¬ fs'.size / d.c.page ≤ d.length := by
    rw [hsize, Nat.mul_div_cancel _ (by omega)]; omega
  have hblk : ((d.c.blocks.set 0 (some b')) ++ [none])[d.length]? = some none := by
    rw [List.getElem?_append_right (by simp [h.len])]
    simp [h.len]
  obtain ⟨d', a1, a2, a3, a4⟩ := append_step d s h now (f (List.replicate d.c.page 0)) (hf _ (by simp))
  refine ⟨d', ?_, a2, a3, a4⟩
  rw [← a1]
  unfold Db.putBlock
  rw [if_neg (by omega)]
  simp only [if_true]
  rw [e]
  simp only [Outcome.ok_bind]
  unfold putBlock
  simp only [List.length_set, h.len, show ¬ d.length > d.length by omega, if_false, if_true, hblk,
    create, hdiv, Bool.false_eq_true, Outcome.ok_bind]

/-- Non-vacuity: page 1 of a database opened a moment ago, changed without being read: the rest of
the page is zero. -/
example : ((Db.open sampleFile 16).putBlock 1 false (fun p => 9 :: p.drop 1) 0).bind (fun d =>
    (d.getBlock 1 0).bind fun r => .ok r.1) = .ok (9 :: List.replicate 15 0) := by decide

end Verif.Cache
