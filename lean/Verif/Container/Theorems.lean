import Verif.Container.LayoutLemmas

/-! # Property theorems: container blocks (C44, C45, C46) -/

namespace Verif.Container
open Verif Verif.Stream Verif.Container.Spec

/-! ## C44: headers -/

/-- **C44.** For numbers below 2^31 the header takes exactly 31 bytes, has the
documented form, and each number reads back. -/
theorem header_roundtrip_partial (ds p n : Nat) (h1 : ds < 2 ^ 31) (h2 : p < 2 ^ 31) (h3 : n < 2 ^ 31) :
    createHdr ds p n = header ds p n ∧ (createHdr ds p n).length = 31 ∧ isCorrect (createHdr ds p n) = true ∧
      getField (createHdr ds p n) dataSizeOff = .ok ds ∧
      getField (createHdr ds p n) pageSizeOff = .ok p ∧
      getField (createHdr ds p n) nextOff = .ok n := by
  rw [createHdr_eq]
  refine ⟨rfl, header_length _ _ _, ?_, get_dataSize' _ _ _ h1, get_pageSize' _ _ _ h2, get_next' _ _ _ h3⟩
  rw [header, ← hex8_eq, ← hex8_eq, ← hex8_eq]
  rfl

/-- Setting one number leaves the other two. -/
theorem header_set (ds p n v : Nat) :
    setField (header ds p n) dataSizeOff v = header v p n ∧
    setField (header ds p n) pageSizeOff v = header ds v n ∧
    setField (header ds p n) nextOff v = header ds p v :=
  ⟨set_dataSize _ _ _ _, set_pageSize _ _ _ _, set_next _ _ _ _⟩

/-- C44 does not hold for the other half of the 32-bit range (negative `int32_t`): the
number is written, and reading it throws. -/
theorem header_large_unreadable (ds p n v : Nat) (h1 : 2 ^ 31 ≤ v) (h2 : v < 2 ^ 32) :
    getField (createHdr v p n) dataSizeOff = .throw ∧
    getField (createHdr ds v n) pageSizeOff = .throw ∧
    getField (createHdr ds p v) nextOff = .throw := by
  simp only [createHdr_eq]
  refine ⟨?_, ?_, ?_⟩
  · have := get_dataSize v p n h2 []; rw [List.append_nil, if_pos (by omega)] at this; exact this
  · have := get_pageSize ds v n h2 []; rw [List.append_nil, if_pos (by omega)] at this; exact this
  · have := get_next ds p v h2 []; rw [List.append_nil, if_pos (by omega)] at this; exact this

example : createHdr 5 512 0x7fffffff =
    "\r\n00000005 00000200 7fffffff \r\n".toList.map fun ch => UInt8.ofNat ch.toNat := by decide +kernel

/-! ## C45, C46: blocks -/

theorem count_pages (d : Bytes) (gs : List Page) (hin : ∀ g ∈ gs, g.stop ≤ d.length)
    (hap : gs.Pairwise Apart) : gs.length ≤ d.length := by
  have hnd : (gs.map Page.addr).Nodup := by
    rw [List.Nodup, List.pairwise_map]
    exact hap.imp (fun h => apart_ne h)
  have hsub : (gs.map Page.addr) ⊆ List.range d.length := by
    intro a ha
    obtain ⟨g, hg, rfl⟩ := List.mem_map.mp ha
    have := hin g hg
    unfold Page.stop at this
    exact List.mem_range.mpr (by omega)
  have := (List.subperm_of_subset hnd hsub).length_le
  simpa using this

/-- Every block of the container reads back its bytes. -/
theorem block_reads (c : Cat) (s : Store) (h : Rep c s) (hd : c.data.data.length < LAST) (a : Nat) (bs : Bytes)
    (ha : s a = some bs) (fuel : Nat) (hf : c.data.data.length < fuel) :
    ∃ p, readBlock fuel c.data a = .ok (some ⟨bs, p⟩) := by
  obtain ⟨free, blocks, hl, _, hs⟩ := h
  obtain ⟨b, hb, rfl, rfl⟩ := (hs a bs).mp ha
  have hin : ∀ g ∈ b.1, g.stop ≤ c.data.data.length := fun g hg => (hl.inside g (pages_of_block hb hg)).2
  refine readBlock_ok c.data.data hd b.1 b.2 c.data rfl (hl.stored b hb) (hl.linked b hb) hin (hl.roomy b hb) fuel ?_
  have : b.1.Sublist (free ++ (blocks.map Prod.fst).flatten) :=
    (List.sublist_flatten_of_mem (List.mem_map.mpr ⟨b, hb, rfl⟩)).trans (List.sublist_append_right _ _)
  have := count_pages c.data.data b.1 hin (hl.apart.sublist this)
  omega

theorem headAddr_inj {free : List Page} {blocks : List (List Page × Bytes)} {d : Bytes} {n : Nat}
    (hl : Layout d n free blocks) (x : List Page × Bytes) (others : List (List Page × Bytes))
    (hp : blocks.Perm (x :: others)) : ∀ b ∈ others, headAddr b.1 ≠ headAddr x.1 := by
  intro b hb he
  have hl' := layout_perm hp hl
  have h1 := hl'.apart
  obtain ⟨⟨g, rest, hg, _⟩, _⟩ := hl'.stored x (by simp)
  obtain ⟨⟨g', rest', hg', _⟩, _⟩ := hl'.stored b (by simp [hb])
  rw [List.pairwise_append] at h1
  have h2 := h1.2.1
  rw [List.map_cons, List.flatten_cons, List.pairwise_append] at h2
  have := h2.2.2 g (by rw [hg]; simp) g' (List.mem_flatten.mpr ⟨b.1, List.mem_map.mpr ⟨b, hb, rfl⟩, by rw [hg']; simp⟩)
  rw [hg, hg'] at he
  exact apart_ne this he.symm

theorem digits_inj (a b : Nat) (ha : a < 2 ^ 32) (hb : b < 2 ^ 32) (h : digits a = digits b) : a = b := by
  have h1 := stoiRun_hex8 a ha 0x20 (by decide) []
  have h2 := stoiRun_hex8 b hb 0x20 (by decide) []
  rw [hex8_eq] at h1 h2
  rw [h, h2] at h1
  exact (Option.some.inj h1).symm

theorem hasRoom_iff (d : Bytes) (g : Page) (ds n : Nat) (h : slice d g.addr 31 = header ds g.size n)
    (hs : g.size < 2 ^ 32) : HasRoom d g.addr ↔ 0 < g.size := by
  have e : slice d (g.addr + 11) 8 = digits g.size := by
    have : slice d (g.addr + 11) 8 = slice (slice d g.addr 31) 11 8 := by
      unfold slice
      rw [List.drop_take, List.take_take, List.drop_drop]
      congr 1
    rw [this, h]
    unfold slice
    rw [show header ds g.size n =
      ([0x0d, 0x0a] ++ digits ds ++ [0x20]) ++ (digits g.size ++ ([0x20] ++ digits n ++ [0x20, 0x0d, 0x0a])) by
        simp [header]]
    rw [List.drop_left' (by simp [digits_length]), List.take_left' (digits_length _)]
  unfold HasRoom
  rw [e]
  constructor
  · intro hne
    rcases Nat.eq_zero_or_pos g.size with h0 | h0
    · exact absurd (by rw [h0]) hne
    · exact h0
  · intro hpos he
    have := digits_inj _ _ hs (by omega) he
    omega

/-- Pages of a stored block whose first page has room all have room. -/
theorem room_pages {d : Bytes} {gs : List Page} {bs : Bytes} (hs : Stores d gs bs)
    (hin : ∀ g ∈ gs, g.stop ≤ d.length) (hd : d.length < LAST)
    (hr : (∀ g ∈ gs, 0 < g.size) ∨ bs = []) (h : HasRoom d (headAddr gs)) : ∀ g ∈ gs, 0 < g.size := by
  rcases hr with hr | hr
  · exact hr
  · obtain ⟨⟨g, rest, rfl, e⟩, _, _, _, h5⟩ := hs
    subst hr
    rcases h5 with h5 | h5
    · simp at h5
      subst h5
      have := hin g (by simp)
      unfold Page.stop at this
      have hLd : LAST = 2147483647 := rfl
      have hp := (hasRoom_iff d g _ _ e (by omega)).mp h
      intro x hx
      simp at hx
      rw [hx]; exact hp
    · simp at h5

/-- **C45.** Storing a stream as a new block succeeds, gives an address no block had,
and afterwards the container holds the old blocks unchanged and the new one. -/
theorem create_block (c : Cat) (s : Store) (h : Rep c s) (bs : Bytes) (p0 : Int)
    (hd : c.data.data.length + 31 + bs.length < LAST) (fuel : Nat) (hf : c.data.data.length < fuel) :
    ∃ c' a, writeBlock fuel c ⟨bs, p0⟩ 0 false none = .ok (some (c', a)) ∧ s a = none ∧
      Rep c' (s.set a (some bs)) ∧ c'.data.data.length ≤ c.data.data.length + 31 + bs.length ∧
      (bs ≠ [] → HasRoom c'.data.data a) := by
  obtain ⟨free, blocks, hl, h16, hs⟩ := h
  have hinF : ∀ g ∈ free, 16 ≤ g.addr ∧ g.stop ≤ c.data.data.length := fun g hg => hl.inside g (by simp [hg])
  have hcnt := count_pages c.data.data free (fun g hg => (hinF g hg).2) (List.pairwise_append.mp hl.apart).1
  have hLd : LAST = 2147483647 := rfl
  obtain ⟨gs', free', c', e, hh, _, hlen, hlen2, _, _, _, hroom, hlay⟩ :=
    writeCore_ok c bs p0 0 false free [] blocks fuel
      ⟨trivial, hl.freeLinked, hinF, (List.pairwise_append.mp hl.apart).1, hl.roomyFree⟩ hl.head
      (by
        unfold nextBlock
        rw [if_pos (Or.inl rfl), hl.head]
        cases hfe : free with
        | nil => simp [headAddr, startOf]
        | cons x xs =>
          have hx := (hinF x (by simp [hfe])).2
          rw [headAddr, if_neg (headAddr_ne_last _ x hx (by omega))]; rfl)
      (fun g hg => hl.inside g (by rw [List.mem_append]; exact Or.inr hg))
      (by simpa using hl.apart) hl.roomy hl.linked hl.stored (by omega) (by simpa [newSize] using hd)
      (by simp; omega)
  have hfresh : s (headAddr gs') = none := by
    cases hsa : s (headAddr gs') with
    | none => rfl
    | some old =>
      obtain ⟨b, hb, h1, h2⟩ := (hs _ _).mp hsa
      exact absurd h1 (headAddr_inj hlay (gs', bs) blocks (List.Perm.refl _) b hb)
  refine ⟨c', headAddr gs', ?_, hfresh, ⟨free', (gs', bs) :: blocks, hlay, by omega, ?_⟩, by simpa [newSize] using hlen, ?_⟩
  · unfold writeBlock
    rw [if_neg (by unfold fileHeaderSize; omega)]
    exact e
  · intro a v
    unfold Store.set
    by_cases ha : a = headAddr gs'
    · rw [if_pos ha]
      constructor
      · intro hv; exact ⟨(gs', bs), by simp, ha.symm, Option.some.inj hv⟩
      · rintro ⟨b, hb, h1, h2⟩
        rcases List.mem_cons.mp hb with rfl | hb
        · rw [← h2]
        · exact absurd (h1.trans ha) (headAddr_inj hlay (gs', bs) blocks (List.Perm.refl _) b hb)
    · rw [if_neg ha, hs]
      constructor
      · rintro ⟨b, hb, h1, h2⟩; exact ⟨b, by simp [hb], h1, h2⟩
      · rintro ⟨b, hb, h1, h2⟩
        rcases List.mem_cons.mp hb with rfl | hb
        · exact absurd h1.symm ha
        · exact ⟨b, hb, h1, h2⟩
  · intro hne
    have hp := hroom (Or.inl (List.length_pos_iff.mpr hne))
    obtain ⟨⟨g, rest, rfl, eg⟩, _⟩ := hlay.stored (gs', bs) (by simp)
    have hg := (hlay.inside g (by simp)).2
    unfold Page.stop at hg
    simp only [newSize, Bool.false_eq_true, if_false] at hlen
    exact (hasRoom_iff _ g _ _ eg (by omega)).mpr (hp g (by simp))

/-- A block of the container, and the others. -/
theorem block_split {c : Cat} {s : Store} {free : List Page} {blocks : List (List Page × Bytes)}
    (hl : Layout c.data.data c.next free blocks)
    (hs : ∀ a bs, s a = some bs ↔ ∃ b ∈ blocks, headAddr b.1 = a ∧ b.2 = bs) {a : Nat} {old : Bytes}
    (ha : s a = some old) : ∃ gs others, headAddr gs = a ∧ blocks.Perm ((gs, old) :: others) ∧
      Layout c.data.data c.next free ((gs, old) :: others) ∧
      ∀ x v, (x ≠ a → (s x = some v ↔ ∃ b ∈ others, headAddr b.1 = x ∧ b.2 = v)) := by
  obtain ⟨b, hb, h1, h2⟩ := (hs a old).mp ha
  obtain ⟨l1, l2, rfl⟩ := List.append_of_mem hb
  have hp : (l1 ++ b :: l2).Perm (b :: (l1 ++ l2)) := List.perm_middle
  have hbe : (b.1, old) = b := by rw [← h2]
  refine ⟨b.1, l1 ++ l2, h1, by rw [hbe]; exact hp, by rw [hbe]; exact layout_perm hp hl, ?_⟩
  intro x v hx
  rw [hs]
  constructor
  · rintro ⟨b', hb', k1, k2⟩
    rcases List.mem_cons.mp (hp.mem_iff.mp hb') with rfl | hb''
    · exact absurd (k1.symm.trans h1) hx
    · exact ⟨b', hb'', k1, k2⟩
  · rintro ⟨b', hb', k1, k2⟩
    exact ⟨b', hp.mem_iff.mpr (List.mem_cons_of_mem _ hb'), k1, k2⟩

/-- **C46.** Rewriting a block whose page has room, with any data, keeps its address
and every other block. -/
theorem rewrite_block_partial (c : Cat) (s : Store) (h : Rep c s) (a : Nat) (old bs : Bytes) (p0 : Int)
    (ha : s a = some old) (hroom : HasRoom c.data.data a)
    (hd : c.data.data.length + 31 + bs.length < LAST) (fuel : Nat) (hf : c.data.data.length < fuel) :
    ∃ c', writeBlock fuel c ⟨bs, p0⟩ a false none = .ok (some (c', a)) ∧
      Rep c' (s.set a (some bs)) ∧ c'.data.data.length ≤ c.data.data.length + 31 + bs.length ∧
      HasRoom c'.data.data a := by
  obtain ⟨free, blocks, hl0, h16, hs⟩ := h
  obtain ⟨gs, others, hga, hperm, hl, hoth⟩ := block_split hl0 hs ha
  have hLd : LAST = 2147483647 := rfl
  have hpages := hl.inside
  simp only [List.map_cons, List.flatten_cons] at hpages
  have hapart := hl.apart
  simp only [List.map_cons, List.flatten_cons] at hapart
  have hgin : ∀ g ∈ gs, g.stop ≤ c.data.data.length := fun g hg => (hpages g (by simp [hg])).2
  have hstored := hl.stored (gs, old) (by simp)
  have hgpos : ∀ g ∈ gs, 0 < g.size := by
    refine room_pages hstored hgin (by omega) (hl.roomy (gs, old) (by simp)) ?_
    simp only [hga]; exact hroom
  have hperm2 : (free ++ (gs ++ (others.map Prod.fst).flatten)).Perm (gs ++ free ++ (others.map Prod.fst).flatten) := by
    rw [← List.append_assoc]
    exact List.Perm.append_right _ List.perm_append_comm
  have hapart2 : (gs ++ free ++ (others.map Prod.fst).flatten).Pairwise Apart :=
    (hperm2.pairwise_iff (fun x => apart_symm x)).mp hapart
  have hav : Avail c.data.data gs free := by
    refine ⟨hl.linked (gs, old) (by simp), hl.freeLinked, ?_, (List.pairwise_append.mp hapart2).1, ?_⟩
    · intro g hg
      refine hpages g ?_
      simp only [List.mem_append] at hg ⊢
      rcases hg with h | h <;> simp [h]
    · intro g hg
      rcases List.mem_append.mp hg with h | h
      · exact hgpos g h
      · exact hl.roomyFree g h
  obtain ⟨⟨g, rest, hge, eg⟩, _⟩ := hstored
  have hcnt := count_pages c.data.data (gs ++ free) (fun x hx => (hav.inside x hx).2) hav.apart
  simp only at hge
  have haddr : g.addr = a := by rw [hge] at hga; exact hga
  have hg16 := hpages g (by rw [hge]; simp)
  obtain ⟨gs', free', c', e, hh, _, hlen, hlen2, _, _, _, hroom', hlay⟩ :=
    writeCore_ok c bs p0 a false free gs others fuel hav hl.head
      (by
        unfold nextBlock
        rw [if_neg, hge]
        · exact haddr.symm
        · rw [← haddr]
          rintro (h | h)
          · omega
          · exact headAddr_ne_last _ g hg16.2 (by omega) h)
      (fun x hx => hpages x (by simp only [List.mem_append]; exact Or.inr (Or.inr hx)))
      hapart2 (fun b hb => hl.roomy b (by simp [hb])) (fun b hb => hl.linked b (by simp [hb]))
      (fun b hb => hl.stored b (by simp [hb])) (by omega) (by simpa [newSize] using hd)
      (by simp only [List.length_append] at hcnt; omega)
  have hha : headAddr gs' = a := by rw [hh, hge]; exact haddr
  rw [hha] at e
  refine ⟨c', ?_, ⟨free', (gs', bs) :: others, hlay, by omega, ?_⟩, by simpa [newSize] using hlen, ?_⟩
  · unfold writeBlock
    rw [if_neg (by unfold fileHeaderSize; omega)]
    exact e
  · intro x v
    unfold Store.set
    by_cases hx : x = a
    · rw [if_pos hx]
      constructor
      · intro hv; exact ⟨(gs', bs), by simp, by simp only [hha, hx], Option.some.inj hv⟩
      · rintro ⟨b, hb, h1, h2⟩
        rcases List.mem_cons.mp hb with rfl | hb
        · rw [← h2]
        · exact absurd (by rw [h1, hx]; exact hha.symm) (headAddr_inj hlay (gs', bs) others (List.Perm.refl _) b hb)
    · rw [if_neg hx, hoth x v hx]
      constructor
      · rintro ⟨b, hb, h1, h2⟩; exact ⟨b, by simp [hb], h1, h2⟩
      · rintro ⟨b, hb, h1, h2⟩
        rcases List.mem_cons.mp hb with rfl | hb
        · exact absurd (h1.symm.trans hha) hx
        · exact ⟨b, hb, h1, h2⟩
  · have hp := hroom' (Or.inr (Or.inr (Or.inl (by rw [hge]; simp))))
    obtain ⟨⟨g', rest', hge', eg'⟩, _⟩ := hlay.stored (gs', bs) (by simp)
    simp only at hge'
    have hg' := (hlay.inside g' (by simp [hge'])).2
    unfold Page.stop at hg'
    simp only [newSize, Bool.false_eq_true, if_false] at hlen
    have := (hasRoom_iff _ g' _ _ eg' (by omega)).mpr (hp g' (by rw [hge']; simp))
    rw [hge'] at hha
    rw [← hha]; exact this

/-- Releasing a block whose page has room removes it and keeps every other block. -/
theorem release_block_partial (c : Cat) (s : Store) (h : Rep c s) (a : Nat) (old : Bytes)
    (ha : s a = some old) (hroom : HasRoom c.data.data a) (hd : c.data.data.length < LAST)
    (fuel : Nat) (hf : c.data.data.length < fuel) :
    ∃ c', freeBlock fuel c a = .ok (some c') ∧ Rep c' (s.set a none) ∧
      c'.data.data.length = c.data.data.length := by
  obtain ⟨free, blocks, hl0, h16, hs⟩ := h
  obtain ⟨gs, others, hga, hperm, hl, hoth⟩ := block_split hl0 hs ha
  have hLd : LAST = 2147483647 := rfl
  have hpages := hl.inside
  simp only [List.map_cons, List.flatten_cons] at hpages
  have hapart := hl.apart
  simp only [List.map_cons, List.flatten_cons] at hapart
  have hgin : ∀ g ∈ gs, g.stop ≤ c.data.data.length := fun g hg => (hpages g (by simp [hg])).2
  have hstored := hl.stored (gs, old) (by simp)
  have hgpos : ∀ g ∈ gs, 0 < g.size := by
    refine room_pages hstored hgin (by omega) (hl.roomy (gs, old) (by simp)) ?_
    simp only [hga]; exact hroom
  have hperm2 : (free ++ (gs ++ (others.map Prod.fst).flatten)).Perm (gs ++ free ++ (others.map Prod.fst).flatten) := by
    rw [← List.append_assoc]
    exact List.Perm.append_right _ List.perm_append_comm
  have hapart2 : (gs ++ free ++ (others.map Prod.fst).flatten).Pairwise Apart :=
    (hperm2.pairwise_iff (fun x => apart_symm x)).mp hapart
  have hav : Avail c.data.data gs free := by
    refine ⟨hl.linked (gs, old) (by simp), hl.freeLinked, ?_, (List.pairwise_append.mp hapart2).1, ?_⟩
    · intro g hg
      refine hpages g ?_
      simp only [List.mem_append] at hg ⊢
      rcases hg with h | h <;> simp [h]
    · intro g hg
      rcases List.mem_append.mp hg with h | h
      · exact hgpos g h
      · exact hl.roomyFree g h
  obtain ⟨⟨g, rest, hge, eg⟩, _⟩ := hstored
  simp only at hge
  have haddr : g.addr = a := by rw [hge] at hga; exact hga
  have hg16 := hpages g (by rw [hge]; simp)
  have hcnt := count_pages c.data.data (gs ++ free) (fun x hx => (hav.inside x hx).2) hav.apart
  obtain ⟨m', e1, e2, e3, e4⟩ := freeLoop_ok free gs fuel c.data defaultHdr (by rw [hge]; simp) hd hav (by decide)
    (by simp only [List.length_append] at hcnt; omega)
  have hothap : ∀ b ∈ others, ∀ g ∈ b.1, ∀ u ∈ gs, Apart g u := by
    intro b hb g hg u hu
    exact apart_symm ((List.pairwise_append.mp hapart2).2.2 u (by simp [hu]) g
      (List.mem_flatten.mpr ⟨b.1, List.mem_map.mpr ⟨b, hb, rfl⟩, hg⟩))
  have hothin : ∀ b ∈ others, ∀ g ∈ b.1, g.stop ≤ c.data.data.length := by
    intro b hb g hg
    exact (hpages g (by simp only [List.mem_append]; exact Or.inr (Or.inr (List.mem_flatten.mpr ⟨b.1, List.mem_map.mpr ⟨b, hb, rfl⟩, hg⟩)))).2
  refine ⟨{ c with data := m', next := a, emptyMod := true, modified := true }, ?_, ⟨gs ++ free, others, ?_, by simp only; omega, ?_⟩, e2⟩
  · unfold freeBlock
    rw [if_neg, hl.head, ← hga, e1]
    · rfl
    · rw [← haddr]
      rintro (h | h)
      · omega
      · exact headAddr_ne_last _ g hg16.2 (by omega) h
  · refine ⟨?_, e4, ?_, ?_, ?_, hapart2, hav.roomy, fun b hb => hl.roomy b (by simp [hb])⟩
    · rw [hge]; exact haddr.symm
    · intro b hb
      exact linked_congr _ _ _ (frame_block e3 (hothin b hb) (hothap b hb)).1 (hl.linked b (by simp [hb]))
    · intro b hb
      obtain ⟨j1, j2⟩ := frame_block e3 (hothin b hb) (hothap b hb)
      exact stores_congr j1 j2 (hl.stored b (by simp [hb]))
    · intro x hx
      have := hpages x (hperm2.mem_iff.mpr hx)
      simp only
      exact ⟨this.1, by omega⟩
  · intro x v
    unfold Store.set
    by_cases hx : x = a
    · rw [if_pos hx]
      constructor
      · intro hv; exact absurd hv (by simp)
      · rintro ⟨b, hb, h1, h2⟩
        exact absurd (by rw [h1, hx]; exact hga.symm) (headAddr_inj hl (gs, old) others (List.Perm.refl _) b hb)
    · rw [if_neg hx, hoth x v hx]

/-! ## Histories -/

/-- One operation on the container. -/
def runOp (fuel : Nat) (c : Cat) : Op → Outcome (Option (Cat × Nat))
  | .create bs => writeBlock fuel c ⟨bs, 0⟩ 0 false none
  | .rewrite a bs => writeBlock fuel c ⟨bs, 0⟩ a false none
  | .release a => do
    match ← freeBlock fuel c a with
    | none => .ok none
    | some c => .ok (some (c, a))

/-- A sequence of operations, with the store a user expects. -/
def run (fuel : Nat) : Cat → Store → List Op → Outcome (Option (Cat × Store))
  | c, s, [] => .ok (some (c, s))
  | c, s, op :: ops => do
    match ← runOp fuel c op with
    | none => .ok none
    | some (c', a) => run fuel c' (apply s a op) ops

/-- What the caller has to respect: rewrite and release only live blocks with room.
(A block has no room when it was created empty in a container without free
pages.) -/
def Legal (c : Cat) (s : Store) : Op → Prop
  | .create _ => True
  | .rewrite a _ => s a ≠ none ∧ HasRoom c.data.data a
  | .release a => s a ≠ none ∧ HasRoom c.data.data a

def LegalRun (fuel : Nat) : Cat → Store → List Op → Prop
  | _, _, [] => True
  | c, s, op :: ops => Legal c s op ∧
    ∀ c' a, runOp fuel c op = .ok (some (c', a)) → LegalRun fuel c' (apply s a op) ops

/-- Bytes an operation may add to the stream. -/
def growth : Op → Nat
  | .create bs => 31 + bs.length
  | .rewrite _ bs => 31 + bs.length
  | .release _ => 0

theorem step_rep (c : Cat) (s : Store) (h : Rep c s) (op : Op) (hl : Legal c s op)
    (hd : c.data.data.length + growth op < LAST) (fuel : Nat) (hf : c.data.data.length < fuel) :
    ∃ c' a, runOp fuel c op = .ok (some (c', a)) ∧ Rep c' (apply s a op) ∧
      c'.data.data.length ≤ c.data.data.length + growth op := by
  cases op with
  | create bs =>
    simp only [growth] at hd
    obtain ⟨c', a, e, _, hr, hlen, _⟩ := create_block c s h bs 0 (by omega) fuel hf
    exact ⟨c', a, e, hr, by simp only [growth]; omega⟩
  | rewrite a bs =>
    simp only [growth] at hd
    cases hsa : s a with
    | none => exact absurd hsa hl.1
    | some old =>
      obtain ⟨c', e, hr, hlen, _⟩ := rewrite_block_partial c s h a old bs 0 hsa hl.2 (by omega) fuel hf
      exact ⟨c', a, e, hr, by simp only [growth]; omega⟩
  | release a =>
    simp only [growth] at hd
    cases hsa : s a with
    | none => exact absurd hsa hl.1
    | some old =>
      obtain ⟨c', e, hr, hlen⟩ := release_block_partial c s h a old hsa hl.2 (by omega) fuel hf
      refine ⟨c', a, ?_, hr, by simp only [growth]; omega⟩
      simp only [runOp, e, Outcome.ok_bind]

/-- **C45/C46, histories.** However long blocks are created, rewritten and released
(within the caller's duties and 2 GiB), every operation succeeds and afterwards
every live block reads back exactly its last contents. -/
theorem container_history_partial (fuel : Nat) (hf : LAST ≤ fuel) (ops : List Op) :
    ∀ (c : Cat) (s : Store), Rep c s → c.data.data.length + (ops.map growth).sum < LAST →
      LegalRun fuel c s ops →
      ∃ c' s', run fuel c s ops = .ok (some (c', s')) ∧ Rep c' s' ∧
        ∀ a bs, s' a = some bs → ∃ p, readBlock fuel c'.data a = .ok (some ⟨bs, p⟩) := by
  induction ops with
  | nil =>
    intro c s h hd _
    simp only [List.map_nil, List.sum_nil] at hd
    exact ⟨c, s, rfl, h, fun a bs ha => block_reads c s h (by omega) a bs ha fuel (by omega)⟩
  | cons op ops ih =>
    intro c s h hd hl
    simp only [List.map_cons, List.sum_cons] at hd
    obtain ⟨c1, a, e, hr, hlen⟩ := step_rep c s h op hl.1 (by omega) fuel (by omega)
    obtain ⟨c', s', e2, hr2, hread⟩ := ih c1 (apply s a op) hr (by omega) (hl.2 c1 a e)
    refine ⟨c', s', ?_, hr2, hread⟩
    simp only [run, e, Outcome.ok_bind, e2]

/-! ## The first block of an empty container -/

/-- A container of just the file header (`_EMPTY_CATALOG_TEMPLATE`, APIcfBase.h:36). -/
def emptyCat : Cat :=
  ⟨⟨[0xff, 0xff, 0xff, 0x7f, 0, 2, 0, 0, 0, 0, 0, 0, 0, 0, 0, 0], 0⟩, LAST, 512, false, false⟩

/-- The first write into an empty container makes the directory block at 16 and then the
block itself. -/
theorem first_block (bs : Bytes) (p0 : Int) (hd : bs.length < 2 ^ 30) (fuel : Nat) (hf : 1000 < fuel) :
    ∃ c' a, writeBlock fuel emptyCat ⟨bs, p0⟩ 0 false none = .ok (some (c', a)) ∧ a ≠ 16 ∧
      Rep c' (fun x => if x = 16 then some [] else if x = a then some bs else none) := by
  have hLd : LAST = 2147483647 := rfl
  obtain ⟨gs', free', c1, e, hh, hps, hlen, hlen2, hcf, hcg, _, hroom, hlay⟩ :=
    writeCore_ok emptyCat [] 0 16 true [] [] [] fuel
      ⟨trivial, trivial, by simp, List.Pairwise.nil, by simp⟩ rfl rfl (by simp) (by simp) (by simp) (by simp) (by simp)
      (by decide) (by decide) (by simp; omega)
  have hlen' : c1.data.data.length ≤ 16 + 31 + 512 := hlen
  have hhead : headAddr gs' = 16 := hh
  have hrep1 : Rep c1 (fun x => if x = 16 then some [] else none) := by
    refine ⟨free', [(gs', [])], hlay, ?_, ?_⟩
    · obtain ⟨⟨g, rest, hge, _⟩, _⟩ := hlay.stored (gs', []) (by simp)
      simp only at hge
      have := hlay.inside g (by simp [hge])
      unfold Page.stop at this
      omega
    · intro a v
      dsimp only
      constructor
      · intro hv
        by_cases ha : a = 16
        · rw [if_pos ha] at hv
          exact ⟨_, List.mem_singleton.mpr rfl, by rw [ha]; exact hhead, Option.some.inj hv⟩
        · rw [if_neg ha] at hv; exact absurd hv (by simp)
      · rintro ⟨b, hb, h1, h2⟩
        rw [List.mem_singleton] at hb
        subst hb
        simp only at h1 h2
        rw [if_pos (h1.symm.trans hhead), h2]
  obtain ⟨c', a, e2, hfr, hr, _, _⟩ := create_block c1 _ hrep1 bs p0 (by omega) fuel (by omega)
  have ha16 : a ≠ 16 := by
    intro h; rw [h] at hfr; simp at hfr
  refine ⟨c', a, ?_, ha16, ?_⟩
  · unfold writeBlock
    rw [if_pos (by decide)]
    have e' : writeCore fuel emptyCat Mem.empty fileHeaderSize true none = .ok (some (c1, headAddr gs')) := e
    rw [e']
    simp only [Outcome.ok_bind]
    have h16 : ¬ (c1.data.data.length = fileHeaderSize ∧ 0 ≠ fileHeaderSize) := by
      obtain ⟨_, _, _, h, _⟩ := hrep1
      unfold fileHeaderSize; omega
    unfold writeBlock at e2
    rw [if_neg h16] at e2
    exact e2
  · have : (fun x => if x = 16 then some [] else if x = a then some bs else none) =
        Store.set (fun x => if x = 16 then some [] else none) a (some bs) := by
      funext x
      unfold Store.set
      dsimp only
      by_cases h1 : x = 16
      · rw [if_pos h1, if_neg (by omega), if_pos h1]
      · rw [if_neg h1]
        by_cases h2 : x = a
        · rw [if_pos h2, if_pos h2]
        · rw [if_neg h2, if_neg h2, if_neg h1]
    rw [this]; exact hr

/-! ## Concrete containers -/

/-- Results of reading addresses after some operations on an empty container with a
small default page size. -/
def demo (fuel : Nat) (ops : List Op) (reads : List Nat) : Outcome (List (Option Mem)) := do
  match ← run fuel { emptyCat with pageSize := 4 } (fun _ => none) ops with
  | none => .ok []
  | some (c, _) => reads.mapM fun a => readBlock fuel c.data a

/-- Two blocks; the first grows over two pages, the second is released and its page
reused for a longer block. -/
example : demo 10 [.create [1, 2, 3], .create [4, 5, 6, 7, 8], .rewrite 51 [9, 8, 7, 6],
      .create [11, 12], .release 85, .create [21, 22, 23, 24, 25, 26, 27]] [51, 85, 16] =
    .ok [some ⟨[9, 8, 7, 6], 4⟩, some ⟨[21, 22, 23, 24, 25, 26, 27], 7⟩, some ⟨[], 0⟩] := by
  decide +kernel

/-- C46 does not hold for a block without room: a block created empty has a page of size
zero; rewriting it copies the whole stream behind its header, over the block
that follows (`CopyFrom` with count 0 copies everything, V8Catalog.cpp:644).
Before the rewrite the neighbour at 82 reads `[1, 2, 3]`; afterwards reading it
fails or gives other bytes. -/
theorem rewrite_of_empty_block_destroys_neighbour :
    demo 10 [.create [], .create [1, 2, 3]] [82] = .ok [some ⟨[1, 2, 3], 3⟩] ∧
    demo 10 [.create [], .create [1, 2, 3], .rewrite 51 (List.replicate 5 65)] [82] ≠
      .ok [some ⟨[1, 2, 3], 3⟩] := by
  decide +kernel

end Verif.Container
