import Verif.Cache.Power
import Verif.Cache.CrashTheorems

/-! # Theorems: the machine stops while changes are written (C117) -/

namespace Verif.Cache
open Verif Stream Spec Verif.Db Verif.Db.Spec

theorem overlay_get (f : Bytes) (pos : Nat) (buf : Bytes) (h : buf ≠ []) (i : Nat) :
    (overlay f pos buf)[i]? = if i < pos then some (f[i]?.getD 0) else if i < pos + buf.length then buf[i - pos]? else f[i]? := by
  unfold overlay
  rw [if_neg (by simpa using h)]
  have hl : ((resizeB f (max pos f.length)).take pos).length = pos := by
    unfold resizeB
    simp only [List.length_take, List.length_append, List.length_replicate]
    omega
  by_cases h1 : i < pos
  · rw [if_pos h1, List.append_assoc, List.getElem?_append_left (by omega), List.getElem?_take, if_pos h1]
    unfold resizeB
    by_cases h2 : i < f.length
    · rw [List.getElem?_append_left (by rw [List.length_take]; omega), List.getElem?_take, if_pos (by omega)]
      rw [List.getElem?_eq_getElem h2]
      rfl
    · have hm : max pos f.length = pos := by omega
      rw [hm, List.take_of_length_le (by omega), List.getElem?_append_right (by omega), List.getElem?_replicate, if_pos (by omega),
        List.getElem?_eq_none (by omega)]
      rfl
  · rw [if_neg h1]
    by_cases h2 : i < pos + buf.length
    · rw [if_pos h2, List.append_assoc, List.getElem?_append_right (by omega), List.getElem?_append_left (by omega), hl]
    · rw [if_neg h2, List.getElem?_append_right (by simp only [List.length_append]; omega), List.getElem?_drop]
      congr 1
      simp only [List.length_append]
      omega

theorem overlay_cons (f : Bytes) (pos : Nat) (x : UInt8) (l : Bytes) :
    overlay f pos (x :: l) = overlay (overlay f pos [x]) (pos + 1) l := by
  cases l with
  | nil => rfl
  | cons y l =>
    apply List.ext_getElem?
    intro i
    rw [overlay_get _ _ _ (by simp), overlay_get _ _ _ (by simp), overlay_get _ _ _ (by simp)]
    by_cases h1 : i < pos
    · rw [if_pos h1, if_pos (by omega), if_pos h1]
      rfl
    · rw [if_neg h1]
      by_cases h2 : i < pos + 1
      · have : i = pos := by omega
        subst this
        simp
      · rw [if_neg h2, if_neg h1]
        simp only [List.length_cons, List.length_nil, Nat.zero_add]
        rw [if_neg h2, show i - pos = (i - (pos + 1)) + 1 by omega, List.getElem?_cons_succ]
        by_cases h3 : i < pos + (l.length + 1 + 1)
        · rw [if_pos h3, if_pos (by omega)]
        · rw [if_neg h3, if_neg (by omega)]

/-- A write is the writing of its bytes. -/
theorem reached_place : ∀ (l : Bytes) (f : Bytes) (pos : Nat), reached f (place pos l) = overlay f pos l
  | [], f, pos => rfl
  | x :: l, f, pos => by
    rw [overlay_cons, ← reached_place l]
    rfl

theorem reached_append (f : Bytes) (a b : List (Nat × UInt8)) : reached f (a ++ b) = reached (reached f a) b := by
  unfold reached
  rw [List.foldl_append]

/-- What the loop leaves, whatever the state of the stream, is what the bytes given make. -/
theorem loop_reached (page : Nat) : ∀ (bs : List (Option Blk)) (fs : FileS) (n : Nat) (r : FileS × List (Option Blk)), fs.failed = false →
    flushLoop page fs n bs = .ok r → r.1.file = reached fs.file (givenBytes page n bs) ∧ r.1.failed = false
  | [], fs, n, r, hf, h => by
    cases h
    exact ⟨rfl, hf⟩
  | none :: bs, fs, n, r, hf, h => by
    rw [flushLoop] at h
    cases e : flushLoop page fs (n + 1) bs with
    | throw => rw [e] at h; cases h
    | ub => rw [e] at h; cases h
    | ok q =>
      rw [e] at h
      cases h
      exact loop_reached page bs fs (n + 1) q hf e
  | some b :: bs, fs, n, r, hf, h => by
    rw [flushLoop] at h
    cases e : writeBlk fs page n b with
    | throw => rw [e] at h; cases h
    | ub => rw [e] at h; cases h
    | ok q =>
      rw [e, Outcome.ok_bind] at h
      have hq : q.1.file = reached fs.file (if b.changed then place (n * page) b.data else []) ∧ q.1.failed = false := by
        unfold writeBlk at e
        by_cases hc : b.changed = true
        · simp only [hc, Bool.not_true, Bool.false_eq_true, if_false] at e
          unfold FileS.seek at e
          split at e
          · cases e
          · cases e
            rw [if_pos hc, reached_place]
            simp only [FileS.write]
            rw [hf]
            exact ⟨rfl, rfl⟩
        · simp only [Bool.not_eq_true] at hc
          simp only [hc, Bool.not_false, if_true] at e
          cases e
          rw [hc]
          exact ⟨rfl, hf⟩
      cases e2 : flushLoop page q.1 (n + 1) bs with
      | throw => simp only [e2] at h; cases h
      | ub => simp only [e2] at h; cases h
      | ok q2 =>
        simp only [e2] at h
        cases h
        obtain ⟨h1, h2⟩ := loop_reached page bs q.1 (n + 1) q2 hq.2 e2
        refine ⟨?_, h2⟩
        rw [h1, hq.1, givenBytes, reached_append]

/-- **C117: the bytes given to the system.** Storing the changes of any state makes the file what these bytes make of it. -/
theorem flush_reached (d : Db) (s : Spec.State) (h : Inv d s) :
    ∃ c, flush d.c = .ok c ∧ c.fs.file = reached s.disk (givenBytes d.c.page 0 d.c.blocks) ∧ c.fs.file = s.pages.flatten := by
  have h16 := h.page16
  obtain ⟨fs', bs', e, i1, i2, i3, i4⟩ := flushLoop_prefix d.c.page (by omega) d.c.blocks d.c.fs 0 h.ok (by simp)
    (by rw [h.len, h.size, Nat.zero_add]; exact Nat.le_refl _) h.good
  have hr := (loop_reached d.c.page _ _ _ _ h.good e).1
  rw [h.disk] at hr
  refine ⟨{ d.c with fs := fs', blocks := bs' }, ?_, hr, ?_⟩
  · unfold flush
    rw [e, Outcome.ok_bind]
  · simp only
    rw [i1, h.pages, Nat.zero_mul, List.take_zero, List.nil_append, Nat.zero_add, h.len,
      List.drop_of_length_le h.flen, List.append_nil]

theorem place_mem : ∀ (l : Bytes) (pos : Nat) (p : Nat × UInt8), p ∈ place pos l → pos ≤ p.1 ∧ l[p.1 - pos]? = some p.2
  | [], _, _, h => by cases h
  | x :: l, pos, p, h => by
    rcases List.mem_cons.1 h with rfl | h
    · simp
    · obtain ⟨h1, h2⟩ := place_mem l (pos + 1) p h
      refine ⟨by omega, ?_⟩
      rw [show p.1 - pos = (p.1 - (pos + 1)) + 1 by omega, List.getElem?_cons_succ]
      exact h2

theorem given_mem (file : Bytes) (page : Nat) : ∀ (bs : List (Option Blk)) (n : Nat), AllOk file page n bs → ∀ p ∈ givenBytes page n bs,
    n * page ≤ p.1 ∧ (logical file page n bs).flatten[p.1 - n * page]? = some p.2
  | [], _, _, p, h => by cases h
  | none :: bs, n, hok, p, h => by
    rw [givenBytes] at h
    obtain ⟨h1, h2⟩ := given_mem file page bs (n + 1) hok.2 p h
    have hn1 : (n + 1) * page = n * page + page := by rw [Nat.add_mul, Nat.one_mul]
    have hl := pageAt_length file page n hok.1
    refine ⟨by omega, ?_⟩
    rw [logical, List.flatten_cons, List.getElem?_append_right (by omega), hl, ← h2]
    congr 1
    omega
  | some b :: bs, n, hok, p, h => by
    have hn1 : (n + 1) * page = n * page + page := by rw [Nat.add_mul, Nat.one_mul]
    have hl : b.data.length = page := hok.1.1
    rw [givenBytes] at h
    rcases List.mem_append.1 h with h | h
    · by_cases hc : b.changed = true
      · rw [if_pos hc] at h
        obtain ⟨h1, h2⟩ := place_mem _ _ _ h
        refine ⟨h1, ?_⟩
        rw [logical, List.flatten_cons, List.getElem?_append_left ?_]
        · exact h2
        · rcases Nat.lt_or_ge (p.1 - n * page) b.data.length with h3 | h3
          · exact h3
          · rw [List.getElem?_eq_none h3] at h2; cases h2
      · rw [if_neg hc] at h; cases h
    · obtain ⟨h1, h2⟩ := given_mem file page bs (n + 1) hok.2 p h
      refine ⟨by omega, ?_⟩
      rw [logical, List.flatten_cons, List.getElem?_append_right (by omega), hl, ← h2]
      congr 1
      omega

/-- A file of which some bytes were replaced by those of another. -/
theorem mix (old new : Bytes) : ∀ (l : List (Nat × UInt8)) (f : Bytes), (∀ p ∈ l, new[p.1]? = some p.2) →
    (∀ i, f[i]? = old[i]? ∨ f[i]? = new[i]? ∨ (old.length ≤ i ∧ f[i]? = some 0)) → old.length ≤ f.length → f.length ≤ max old.length new.length →
    (∀ i, (reached f l)[i]? = old[i]? ∨ (reached f l)[i]? = new[i]? ∨ (old.length ≤ i ∧ (reached f l)[i]? = some 0)) ∧
      old.length ≤ (reached f l).length ∧ (reached f l).length ≤ max old.length new.length
  | [], f, _, h, h1, h2 => ⟨h, h1, h2⟩
  | p :: l, f, hp, h, h1, h2 => by
    have hpn := hp p (by simp)
    have hlt : p.1 < new.length := by
      rcases Nat.lt_or_ge p.1 new.length with h3 | h3
      · exact h3
      · rw [List.getElem?_eq_none h3] at hpn; cases hpn
    have hlen : (overlay f p.1 [p.2]).length = max f.length (p.1 + 1) := by
      unfold overlay resizeB
      simp
      omega
    refine mix old new l (overlay f p.1 [p.2]) (fun q hq => hp q (by simp [hq])) ?_ (by omega) (by omega)
    intro i
    rw [overlay_get _ _ _ (by simp)]
    by_cases c1 : i < p.1
    · rw [if_pos c1]
      by_cases c2 : i < f.length
      · have := h i
        rw [List.getElem?_eq_getElem c2] at this ⊢
        exact this
      · rw [List.getElem?_eq_none (by omega)]
        exact Or.inr (Or.inr ⟨by omega, rfl⟩)
    · rw [if_neg c1]
      by_cases c2 : i < p.1 + [p.2].length
      · have : i = p.1 := by simp at c2; omega
        subst this
        rw [if_pos c2]
        exact Or.inr (Or.inl (by rw [hpn]; simp))
      · rw [if_neg c2]
        exact h i

/-- **C117.** In every state: if the power fails while the changes are stored, whichever of the bytes given to the system have reached the disk and in
whatever order, every byte of the file is the old one or the new one, or, behind the old end, zero; and the file is no shorter than the
old and no longer than the longer of both. -/
theorem power_mix (d : Db) (s : Spec.State) (h : Inv d s) (l : List (Nat × UInt8)) (hl : ∀ p ∈ l, p ∈ givenBytes d.c.page 0 d.c.blocks) :
    (∀ i, (reached s.disk l)[i]? = s.disk[i]? ∨ (reached s.disk l)[i]? = s.pages.flatten[i]? ∨
      (s.disk.length ≤ i ∧ (reached s.disk l)[i]? = some 0)) ∧
    s.disk.length ≤ (reached s.disk l).length ∧ (reached s.disk l).length ≤ max s.disk.length s.pages.flatten.length := by
  refine mix s.disk s.pages.flatten l s.disk ?_ (fun i => Or.inl rfl) (Nat.le_refl _) (by omega)
  intro p hp
  have := (given_mem d.c.fs.file d.c.page d.c.blocks 0 h.ok p (hl p hp)).2
  rw [h.pages] at this
  simpa using this

/-- **C117a.** What is the same before and after stays, whatever has reached the disk: a page that was not changed is never damaged. -/
theorem power_keeps (d : Db) (s : Spec.State) (h : Inv d s) (l : List (Nat × UInt8)) (hl : ∀ p ∈ l, p ∈ givenBytes d.c.page 0 d.c.blocks)
    (i : Nat) (hi : (i + 1) * d.c.page ≤ s.disk.length) (hsame : pageAt s.disk d.c.page i = pageAt s.pages.flatten d.c.page i) :
    pageAt (reached s.disk l) d.c.page i = pageAt s.disk d.c.page i := by
  have hm := (power_mix d s h l hl).1
  have hi1 : (i + 1) * d.c.page = i * d.c.page + d.c.page := by rw [Nat.add_mul, Nat.one_mul]
  unfold pageAt at hsame ⊢
  apply List.ext_getElem?
  intro j
  have hj := congrArg (·[j]?) hsame
  simp only [List.getElem?_take, List.getElem?_drop] at hj ⊢
  by_cases hjp : j < d.c.page
  · rw [if_pos hjp] at hj ⊢
    rw [if_pos hjp] at hj
    rw [if_pos hjp]
    rcases hm (i * d.c.page + j) with h1 | h1 | h1
    · exact h1
    · rw [h1, hj]
    · omega
  · rw [if_neg hjp, if_neg hjp]

/-- **C117b.** If no page was appended and the header was left alone since the last flush, the file opens as it did before, whatever has reached the
disk. -/
theorem power_opens (d : Db) (s : Spec.State) (h : Inv d s) (l : List (Nat × UInt8)) (hl : ∀ p ∈ l, p ∈ givenBytes d.c.page 0 d.c.blocks)
    (hlen : s.pages.flatten.length = s.disk.length) (h24 : s.pages.flatten.take 24 = s.disk.take 24) (exclusive : Bool) :
    openHeader (reached s.disk l) exclusive = openHeader s.disk exclusive := by
  obtain ⟨hm, h1, h2⟩ := power_mix d s h l hl
  apply openHeader_congr
  · apply List.ext_getElem?
    intro j
    have hj := congrArg (·[j]?) h24
    simp only [List.getElem?_take] at hj ⊢
    by_cases h3 : j < 24
    · rw [if_pos h3] at hj ⊢
      rw [if_pos h3] at hj
      rw [if_pos h3]
      rcases hm j with h4 | h4 | h4
      · exact h4
      · rw [h4, hj]
      · have h5 := h4.2
        rw [List.getElem?_eq_none (by have := h4.1; omega)] at h5
        cases h5
    · rw [if_neg h3, if_neg h3]
  · omega

/-- Histories. -/
theorem power_history (file : Bytes) (page : Nat) (h16 : 16 ≤ page) (hm : file.length % page = 0) (hne : file ≠ [])
    (ops : List (Nat × Spec.Op)) (hw : Spec.wellUsed page ⟨pagesOf file page, file⟩ (ops.map (·.2))) :
    ∃ d outs, runCalls (Db.open file page) ops = .ok (d, outs) ∧
      ∀ l, (∀ p ∈ l, p ∈ givenBytes page 0 d.c.blocks) → ∀ i,
        (reached d.c.fs.file l)[i]? = (Spec.run ⟨pagesOf file page, file⟩ (ops.map (·.2))).1.disk[i]? ∨
        (reached d.c.fs.file l)[i]? = (Spec.run ⟨pagesOf file page, file⟩ (ops.map (·.2))).1.pages.flatten[i]? ∨
        ((Spec.run ⟨pagesOf file page, file⟩ (ops.map (·.2))).1.disk.length ≤ i ∧ (reached d.c.fs.file l)[i]? = some 0) := by
  obtain ⟨d, e, hp, hi⟩ := run_refines ops _ _ (open_inv file page h16 hm hne) hw
  have hpp : d.c.page = page := hp
  refine ⟨d, _, e, fun l hl i => ?_⟩
  have := (power_mix d _ hi l (by rw [hpp]; exact hl)).1 i
  rw [← hi.disk] at this ⊢
  exact this

end Verif.Cache
