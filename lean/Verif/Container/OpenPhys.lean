import Verif.Container.WriteMore
import Verif.Container.OpenSpec

/-! # Lemmas: the pages of an open container -/

namespace Verif.Container
open Verif Verif.Stream Verif.Container.Spec

/-! ## Words -/

theorem rdWord_word32 (x : UInt8) (n : Nat) (h : n < 2 ^ 32) (rest : Bytes) : rdWord x (word32 n ++ rest) 0 = n := by
  simp only [rdWord, word32, List.cons_append, List.nil_append, List.getD_cons_zero, List.getD_cons_succ,
    UInt8.toNat_ofNat', Nat.zero_add]
  omega

theorem rdWord_skip (x : UInt8) (a : Bytes) (k off : Nat) (rest : Bytes) (h : a.length = k) :
    rdWord x (a ++ rest) (k + off) = rdWord x rest off := by
  have hg : ∀ i, (a ++ rest).getD (k + i) x = rest.getD i x := by
    intro i
    rw [List.getD_eq_getElem?_getD, List.getD_eq_getElem?_getD, List.getElem?_append_right (by omega)]
    congr 2; omega
  simp only [rdWord, Nat.add_assoc, hg]

theorem rdWord_congr (x y : UInt8) (d d' : Bytes) (off : Nat) (h : off + 4 ≤ 16) (hd : 16 ≤ d.length)
    (hs : slice d' 0 16 = slice d 0 16) : rdWord x d' off = rdWord y d off := by
  have hg : ∀ i, i < 16 → d'.getD i x = d.getD i y := by
    intro i hi
    have h1 : (slice d' 0 16)[i]? = (slice d 0 16)[i]? := by rw [hs]
    simp only [slice, List.drop_zero, List.getElem?_take_of_lt hi] at h1
    rw [List.getD_eq_getElem?_getD, List.getD_eq_getElem?_getD, h1, List.getElem?_eq_getElem (by omega)]
    rfl
  simp only [rdWord]
  rw [hg off (by omega), hg (off + 1) (by omega), hg (off + 2) (by omega), hg (off + 3) (by omega)]

/-! ## Changing the file header -/

theorem layout_outside {d d' : Bytes} {next : Nat} {free : List Page} {blocks : List (List Page × Bytes)}
    (hlen : d'.length = d.length) (hs : ∀ a n, 16 ≤ a → slice d' a n = slice d a n) (h : Layout d next free blocks) :
    Layout d' next free blocks := by
  have h16 : ∀ b ∈ blocks, ∀ g ∈ b.1, 16 ≤ g.addr := fun b hb g hg => (h.inside g (pages_of_block hb hg)).1
  refine ⟨h.head, linked_congr _ _ _ (fun g hg => hs _ _ (h.inside g (by simp [hg])).1) h.freeLinked, ?_, ?_,
    fun g hg => by rw [hlen]; exact h.inside g hg, h.apart, h.roomyFree, h.roomy⟩
  · intro b hb
    exact linked_congr _ _ _ (fun g hg => hs _ _ (h16 b hb g hg)) (h.linked b hb)
  · intro b hb
    refine stores_congr (fun g hg => hs _ _ (h16 b hb g hg)) (fun g hg => hs _ _ ?_) (h.stored b hb)
    have := h16 b hb g hg
    omega

theorem rep_outside {c c' : Cat} {s : Store} (hlen : c'.data.data.length = c.data.data.length) (hn : c'.next = c.next)
    (hs : ∀ a n, 16 ≤ a → slice c'.data.data a n = slice c.data.data a n) (h : Rep c s) : Rep c' s := by
  obtain ⟨free, blocks, hl, h16, hst⟩ := h
  exact ⟨free, blocks, by rw [hn]; exact layout_outside hlen hs hl, by omega, hst⟩

theorem putWord_ok (m : Mem) (off n : Nat) (h : off + 4 ≤ m.data.length) :
    ∃ m', putWord m off n = .ok m' ∧ m'.data = m.data.take off ++ (word32 n ++ m.data.drop (off + 4)) ∧
      m'.data.length = m.data.length ∧ ∀ a k, off + 4 ≤ a → slice m'.data a k = slice m.data a k := by
  have hw := write_at m.data off (word32 n) (by omega)
  have hl4 : (word32 n).length = 4 := rfl
  refine ⟨⟨putAt m.data off (word32 n), ((off + (word32 n).length : Nat) : Int)⟩, ?_, ?_, ?_, ?_⟩
  · unfold putWord
    rw [seekB_ok m off (by omega), Outcome.ok_bind, hw]
    rfl
  · simp only [putAt, hl4]
  · simp only
    rw [putAt_length _ _ _ (by omega), hl4]
    omega
  · intro a k ha
    exact slice_putAt_apart _ _ _ _ _ (by omega) (Or.inr (by rw [hl4]; omega))

/-! ## The pages as a store -/

/-- The container is blank, or its pages hold the blocks of `s`, one of them the directory, which has room. -/
def Phys (c : Cat) (s : Store) : Prop :=
  (0 < c.pageSize ∧ c.pageSize < 2 ^ 16) ∧
  ((Blank c ∧ s = fun _ => none) ∨ (Rep c s ∧ (∃ f, s 16 = some f) ∧ HasRoom c.data.data 16))

/-- The length, or what the first write of a blank container may need. -/
def extent (c : Cat) : Nat := max (2 ^ 17) c.data.data.length

theorem phys_length {c : Cat} {s : Store} (h : Phys c s) : 16 ≤ c.data.data.length := by
  rcases h.2 with ⟨h, _⟩ | ⟨⟨_, _, _, h, _⟩, _⟩
  · have := h.size; omega
  · omega

/-- One block of an entry is written. -/
theorem phys_write (c : Cat) (s : Store) (h : Phys c s) (a : Nat) (bs : Bytes) (p0 : Int)
    (ha : a = 0 ∨ (a ≠ 16 ∧ ∃ old, s a = some old ∧ old ≠ []))
    (hd : extent c + 31 + bs.length < LAST) (fuel : Nat) (hf : extent c < fuel) :
    ∃ c' a' s', writeBlock fuel c ⟨bs, p0⟩ a false none = .ok (some (c', a')) ∧ Phys c' s' ∧ Rep c' s' ∧
      s' a' = some bs ∧ (∀ x, x ≠ a' → x ≠ 16 → s' x = s x) ∧ (∀ f, s 16 = some f → s' 16 = some f) ∧
      (a = 0 → s a' = none) ∧ (a ≠ 0 → a' = a) ∧ a' ≠ 16 ∧ 16 ≤ a' ∧ a' < LAST ∧ c'.pageSize = c.pageSize ∧
      slice c'.data.data 0 16 = slice c.data.data 0 16 ∧ Tells c c' ∧ extent c' ≤ extent c + 31 + bs.length := by
  have hLd : LAST = 2147483647 := rfl
  unfold extent at *
  rcases h.2 with ⟨hb, rfl⟩ | ⟨hr, ⟨f, hf16⟩, hroom⟩
  · have ha0 : a = 0 := by
      rcases ha with ha | ⟨_, _, ha, _⟩
      · exact ha
      · cases ha
    subst ha0
    obtain ⟨c', a', e, h1, h2, h3, h4, h5, h6, h7, h8, h9⟩ := write_blank c hb bs p0 fuel (by omega) (by omega)
    refine ⟨c', a', _, e, ⟨by rw [h5]; exact h.1, Or.inr ⟨h4, ⟨[], ?_⟩, h8⟩⟩, h4, ?_, ?_, ?_, fun _ => rfl, fun h => absurd rfl h, h1, h2, h3, h5, h7,
      (writeBlock_tells e).2, by omega⟩
    · unfold Store.set; rw [if_neg (Ne.symm h1)]; exact if_pos rfl
    · unfold Store.set; rw [if_pos rfl]
    · intro x hx hx16
      unfold Store.set
      rw [if_neg hx]
      exact if_neg hx16
    · intro f hf; cases hf
  · rcases ha with rfl | ⟨ha16, old, hold, hne⟩
    · obtain ⟨c', a', e, h1, hw, h2⟩ := write_new c s hr bs p0 (by omega) fuel (by omega)
      have h16 : a' ≠ 16 := by
        intro he; rw [he, hf16] at h1; cases h1
      have hg := hw.grows
      have hs16 : (s.set a' (some bs)) 16 = some f := by unfold Store.set; rw [if_neg (Ne.symm h16), hf16]
      refine ⟨c', a', _, e, ⟨by rw [hw.pageSize]; exact h.1, Or.inr ⟨hw.rep, ⟨f, hs16⟩, hw.others 16 f hf16 (Ne.symm h16) hroom⟩⟩,
        hw.rep, ?_, ?_, ?_, fun _ => h1, fun h => absurd rfl h, h16, hw.inRange.1, hw.inRange.2, hw.pageSize, hw.fileHeader,
        (writeBlock_tells e).2, by omega⟩
      · unfold Store.set; rw [if_pos rfl]
      · intro x hx _; unfold Store.set; rw [if_neg hx]
      · intro f' hf'; rw [hs16, ← hf16, hf']
    · obtain ⟨c', e, hw, h2⟩ := write_over c s hr a old bs p0 false hold (room_of_content c s hr (by omega) a old hold hne)
        (by simp only [newSize]; simp; omega) fuel (by omega)
      have hg := hw.grows
      simp only [newSize, Bool.false_eq_true, if_false] at hg
      have hs16 : (s.set a (some bs)) 16 = some f := by unfold Store.set; rw [if_neg (Ne.symm ha16), hf16]
      refine ⟨c', a, _, e, ⟨by rw [hw.pageSize]; exact h.1, Or.inr ⟨hw.rep, ⟨f, hs16⟩, hw.others 16 f hf16 (Ne.symm ha16) hroom⟩⟩,
        hw.rep, ?_, ?_, ?_, ?_, fun _ => rfl, ha16, hw.inRange.1, hw.inRange.2, hw.pageSize, hw.fileHeader,
        (writeBlock_tells e).2, by omega⟩
      · unfold Store.set; rw [if_pos rfl]
      · intro x hx _; unfold Store.set; rw [if_neg hx]
      · intro f' hf'; rw [hs16, ← hf16, hf']
      · intro h0
        have := hw.inRange.1
        omega

/-- The directory is written. -/
theorem phys_fat (c : Cat) (s : Store) (h : Phys c s) (bs : Bytes) (p0 : Int)
    (hd : extent c + 31 + max (2 ^ 16) bs.length < LAST) (fuel : Nat) (hf : extent c < fuel) :
    ∃ c', writeBlock fuel c ⟨bs, p0⟩ 16 true none = .ok (some (c', 16)) ∧ Phys c' (s.set 16 (some bs)) ∧
      Rep c' (s.set 16 (some bs)) ∧ c'.pageSize = c.pageSize ∧
      slice c'.data.data 0 16 = slice c.data.data 0 16 ∧ Tells c c' ∧
      c'.data.data.length ≤ extent c + 31 + max (2 ^ 16) bs.length := by
  have hLd : LAST = 2147483647 := rfl
  have hns : newSize true c.pageSize bs.length ≤ max (2 ^ 16) bs.length := by
    unfold newSize
    have := h.1.2
    simp only [if_true]
    split <;> omega
  unfold extent at *
  have h16 : (s.set 16 (some bs)) 16 = some bs := by unfold Store.set; rw [if_pos rfl]
  rcases h.2 with ⟨hb, rfl⟩ | ⟨hr, ⟨f, hf16⟩, hroom⟩
  · obtain ⟨c', e, hw, h2⟩ := blank_first c hb bs p0 fuel (by omega) (by omega)
    have hg := hw.grows
    have e' : writeBlock fuel c ⟨bs, p0⟩ 16 true none = .ok (some (c', 16)) := by
      unfold writeBlock
      rw [if_neg (by unfold fileHeaderSize; omega)]
      exact e
    exact ⟨c', e', ⟨by rw [hw.pageSize]; exact h.1, Or.inr ⟨hw.rep, ⟨_, h16⟩, h2⟩⟩, hw.rep, hw.pageSize, hw.fileHeader,
      (writeBlock_tells e').2, by omega⟩
  · obtain ⟨c', e, hw, h2⟩ := write_over c s hr 16 f bs p0 true hf16 hroom (by omega) fuel (by omega)
    have hg := hw.grows
    exact ⟨c', e, ⟨by rw [hw.pageSize]; exact h.1, Or.inr ⟨hw.rep, ⟨_, h16⟩, h2⟩⟩, hw.rep, hw.pageSize, hw.fileHeader,
      (writeBlock_tells e).2, by omega⟩

/-- A block is released; address 0 stands for none. -/
theorem phys_free (c : Cat) (s : Store) (h : Phys c s) (a : Nat)
    (ha : a = 0 ∨ (a ≠ 16 ∧ ∃ old, s a = some old ∧ old ≠ [])) (h0 : s 0 = none)
    (hd : extent c < LAST) (fuel : Nat) (hf : extent c < fuel) :
    ∃ c', freeBlock fuel c a = .ok (some c') ∧ Phys c' (s.set a none) ∧ c'.pageSize = c.pageSize ∧
      slice c'.data.data 0 16 = slice c.data.data 0 16 ∧ Tells c c' ∧ extent c' = extent c := by
  unfold extent at *
  rcases ha with rfl | ⟨ha16, old, hold, hne⟩
  · have hs : s.set 0 none = s := by
      funext x; unfold Store.set
      by_cases hx : x = 0
      · rw [if_pos hx, hx, h0]
      · rw [if_neg hx]
    rw [hs]
    refine ⟨c, ?_, h, rfl, rfl, fun h => ⟨h, rfl⟩, rfl⟩
    unfold freeBlock
    rw [if_pos (Or.inl rfl)]
  · rcases h.2 with ⟨hb, rfl⟩ | ⟨hr, ⟨f, hf16⟩, hroom⟩
    · cases hold
    · obtain ⟨c', e, hrep, hlen, hps, hem, hsl, hoth⟩ := release_more c s hr a old hold
        (room_of_content c s hr (by omega) a old hold hne) (by omega) fuel (by omega)
      refine ⟨c', e, ⟨by rw [hps]; exact h.1, Or.inr ⟨hrep, ⟨f, ?_⟩, hoth 16 f hf16 (Ne.symm ha16) hroom⟩⟩, hps, hsl, ?_, by rw [hlen]⟩
      · unfold Store.set; rw [if_neg (Ne.symm ha16), hf16]
      · intro h; rw [hem] at h; cases h

/-! ## Recognising -/

theorem isCorrect_header (a b c : Nat) : isCorrect (header a b c) = true := by
  rw [header, ← hex8_eq, ← hex8_eq, ← hex8_eq]
  rfl

/-- A container whose file header says where its free pages are is recognised. -/
theorem recognised (c : Cat) (s : Store) (h : Rep c s) (hd : c.data.data.length < LAST) (f : Bytes) (h16 : s 16 = some f)
    (hw : rdWord 0xff c.data.data 0 = c.next) : isCatalog c.data.data = .ok true := by
  have hLd : LAST = 2147483647 := rfl
  obtain ⟨free, blocks, hl, hlen, hs⟩ := h
  obtain ⟨b, hb, h1, _⟩ := (hs 16 f).1 h16
  obtain ⟨⟨g, rest, hge, eg⟩, _⟩ := hl.stored b hb
  have hg := (hl.inside g (pages_of_block hb (by rw [hge]; simp))).2
  unfold Page.stop at hg
  rw [hge] at h1
  simp only [headAddr] at h1
  unfold isCatalog
  rw [if_neg (by omega)]
  have hfree : freeTest c.data.data = .ok true := by
    unfold freeTest
    simp only
    rw [hw, hl.head]
    cases hfe : free with
    | nil => rw [headAddr, if_pos rfl]
    | cons x xs =>
      have hx := (hl.inside x (by simp [hfe])).2
      have hxs := hl.roomyFree x (by simp [hfe])
      unfold Page.stop at hx
      have hlk := hl.freeLinked
      rw [hfe] at hlk
      obtain ⟨⟨ds, _, ex⟩, _⟩ := hlk
      rw [headAddr, if_neg (by omega), Nat.mod_eq_of_lt (a := x.addr + 31) (by omega), if_neg (by omega), if_neg (by omega)]
      rw [show (c.data.data.drop x.addr).take 31 = slice c.data.data x.addr 31 from rfl, ex, isCorrect_header]
  rw [hfree, Outcome.ok_bind, if_pos rfl]
  unfold dirTest
  rw [if_neg (by omega), ← h1, show (c.data.data.drop g.addr).take 31 = slice c.data.data g.addr 31 from rfl, eg, isCorrect_header]

end Verif.Container
