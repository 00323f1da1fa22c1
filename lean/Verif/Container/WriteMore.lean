import Verif.Container.Theorems

/-! # Writing blocks: what else stays as it was

The same results as in `Verif.Container.Theorems`, for both values of `use_page_size` and with what
is needed to follow a container through a whole session: the file header bytes, the
room of the other blocks, and the "modified" flags. -/

namespace Verif.Container
open Verif Verif.Stream Verif.Container.Spec

/-- What a successful write of `bs` as block `a` does to a container. -/
structure Written (c : Cat) (s : Store) (a : Nat) (bs : Bytes) (room : Nat) (c' : Cat) : Prop where
  rep : Rep c' (s.set a (some bs))
  pageSize : c'.pageSize = c.pageSize
  grows : c'.data.data.length ≤ c.data.data.length + 31 + room
  fileHeader : slice c'.data.data 0 16 = slice c.data.data 0 16
  others : ∀ x v, s x = some v → x ≠ a → HasRoom c.data.data x → HasRoom c'.data.data x
  inRange : 16 ≤ a ∧ a < LAST

theorem hasRoom_frame {d d' : Bytes} {used : List Page} (hf : Frame d d' used) (g : Page)
    (hin : g.stop ≤ d.length) (hap : ∀ u ∈ used, Apart g u) (h : HasRoom d g.addr) : HasRoom d' g.addr := by
  unfold HasRoom at *
  rw [hf (g.addr + 11) 8 (by unfold Page.stop at hin; omega)]
  · exact h
  · intro u hu
    have := hap u hu
    unfold Apart Page.stop at *
    omega

/-- The common part: `own` are the pages of the block so far, `others` the other blocks. -/
theorem write_core (c : Cat) (s : Store) (bs : Bytes) (p0 : Int) (start : Nat) (ups : Bool) (free own : List Page)
    (others : List (List Page × Bytes)) (fuel : Nat)
    (ha : Avail c.data.data own free) (hnext : c.next = headAddr free)
    (hstart : nextBlock c start = startOf own free c.data.data.length)
    (hin : ∀ g ∈ (others.map Prod.fst).flatten, 16 ≤ g.addr ∧ g.stop ≤ c.data.data.length)
    (hap : (own ++ free ++ (others.map Prod.fst).flatten).Pairwise Apart)
    (hro : ∀ b ∈ others, (∀ g ∈ b.1, 0 < g.size) ∨ b.2 = [])
    (hl : ∀ b ∈ others, Linked c.data.data b.1) (hs : ∀ b ∈ others, Stores c.data.data b.1 b.2)
    (h16 : 16 ≤ c.data.data.length)
    (hd : c.data.data.length + 31 + newSize ups c.pageSize bs.length < LAST)
    (hf : own.length + free.length < fuel)
    (hst : ∀ x v, x ≠ startOf own free c.data.data.length →
      (s x = some v ↔ ∃ b ∈ others, headAddr b.1 = x ∧ b.2 = v)) :
    ∃ c', writeCore fuel c ⟨bs, p0⟩ start ups none = .ok (some (c', startOf own free c.data.data.length)) ∧
      Written c s (startOf own free c.data.data.length) bs (newSize ups c.pageSize bs.length) c' ∧
      ((0 < bs.length ∨ (ups = true ∧ 0 < c.pageSize) ∨ own ≠ [] ∨ free ≠ []) →
        HasRoom c'.data.data (startOf own free c.data.data.length)) ∧
      (∀ b ∈ others, headAddr b.1 ≠ startOf own free c.data.data.length) := by
  have hLd : LAST = 2147483647 := rfl
  obtain ⟨gs', free', c', e, hh, hps, hlen, hlen2, _, _, hfr, hroom, hlay⟩ :=
    writeCore_ok c bs p0 start ups free own others fuel ha hnext hstart hin hap hro hl hs h16 hd hf
  have hne : ∀ b ∈ others, headAddr b.1 ≠ headAddr gs' := fun b hb =>
    headAddr_inj hlay (gs', bs) others (List.Perm.refl _) b hb
  obtain ⟨⟨g, rest, hge, eg⟩, _⟩ := hlay.stored (gs', bs) (by simp)
  simp only at hge
  have hg := hlay.inside g (by simp [hge])
  have hgs := hg.2
  unfold Page.stop at hgs
  rw [← hh]
  refine ⟨c', e, ⟨⟨free', (gs', bs) :: others, hlay, by omega, ?_⟩, hps, hlen, ?_, ?_, ?_⟩, ?_, hne⟩
  · intro x v
    unfold Store.set
    by_cases hx : x = headAddr gs'
    · rw [if_pos hx]
      constructor
      · intro hv; exact ⟨(gs', bs), by simp, hx.symm, Option.some.inj hv⟩
      · rintro ⟨b, hb, h1, h2⟩
        rcases List.mem_cons.mp hb with rfl | hb
        · rw [← h2]
        · exact absurd (h1.trans hx) (hne b hb)
    · rw [if_neg hx, hst x v (by rw [← hh]; exact hx)]
      constructor
      · rintro ⟨b, hb, h1, h2⟩; exact ⟨b, by simp [hb], h1, h2⟩
      · rintro ⟨b, hb, h1, h2⟩
        rcases List.mem_cons.mp hb with rfl | hb
        · exact absurd h1.symm hx
        · exact ⟨b, hb, h1, h2⟩
  · refine hfr 0 16 (by omega) ?_
    intro u hu
    exact Or.inl (ha.inside u hu).1
  · intro x v hx hxa hr
    obtain ⟨b, hb, h1, h2⟩ := (hst x v (by rw [← hh]; exact hxa)).1 hx
    obtain ⟨⟨g', rest', hge', _⟩, _⟩ := hs b hb
    have hm : g' ∈ (others.map Prod.fst).flatten :=
      List.mem_flatten.mpr ⟨b.1, List.mem_map.mpr ⟨b, hb, rfl⟩, by rw [hge']; simp⟩
    rw [hge'] at h1
    rw [← h1] at hr ⊢
    refine hasRoom_frame hfr g' (hin g' hm).2 ?_ hr
    intro u hu
    exact apart_symm ((List.pairwise_append.mp hap).2.2 u hu g' hm)
  · rw [hge]
    exact ⟨hg.1, by show g.addr < LAST; omega⟩
  · intro hc
    have hp := hroom hc
    rw [hge]
    exact (hasRoom_iff _ g _ _ eg (by omega)).mpr (hp g (by rw [hge]; simp))

/-- A new block. -/
theorem write_new (c : Cat) (s : Store) (h : Rep c s) (bs : Bytes) (p0 : Int)
    (hd : c.data.data.length + 31 + bs.length < LAST) (fuel : Nat) (hf : c.data.data.length < fuel) :
    ∃ c' a, writeBlock fuel c ⟨bs, p0⟩ 0 false none = .ok (some (c', a)) ∧ s a = none ∧
      Written c s a bs bs.length c' ∧ (bs ≠ [] → HasRoom c'.data.data a) := by
  obtain ⟨free, blocks, hl, h16, hs⟩ := h
  have hinF : ∀ g ∈ free, 16 ≤ g.addr ∧ g.stop ≤ c.data.data.length := fun g hg => hl.inside g (by simp [hg])
  have hcnt := count_pages c.data.data free (fun g hg => (hinF g hg).2) (List.pairwise_append.mp hl.apart).1
  have hLd : LAST = 2147483647 := rfl
  obtain ⟨c', e, hw, hr, hne⟩ := write_core c s bs p0 0 false free [] blocks fuel
      ⟨trivial, hl.freeLinked, hinF, (List.pairwise_append.mp hl.apart).1, hl.roomyFree⟩ hl.head
      (by
        unfold nextBlock
        rw [if_pos (Or.inl rfl), hl.head]
        cases hfe : free with
        | nil => simp [headAddr, startOf]
        | cons x xs =>
          have hx := (hinF x (by simp [hfe])).2
          rw [headAddr, if_neg (headAddr_ne_last _ x hx (by omega))]; rfl)
      (fun g hg => hl.inside g (by rw [List.mem_append]; exact Or.inr hg))
      (by simpa using hl.apart) hl.roomy hl.linked hl.stored (by omega) (by simpa [newSize] using hd)
      (by simp; omega) (fun x v _ => hs x v)
  refine ⟨c', _, ?_, ?_, hw, fun hb => hr (Or.inl (List.length_pos_iff.mpr hb))⟩
  · unfold writeBlock
    rw [if_neg (by unfold fileHeaderSize; omega)]
    exact e
  · cases hsa : s (startOf [] free c.data.data.length) with
    | none => rfl
    | some old =>
      obtain ⟨b, hb, h1, h2⟩ := (hs _ _).mp hsa
      exact absurd h1 (hne b hb)

/-- A block that is there and has room. -/
theorem write_over (c : Cat) (s : Store) (h : Rep c s) (a : Nat) (old bs : Bytes) (p0 : Int) (ups : Bool)
    (ha : s a = some old) (hroom : HasRoom c.data.data a)
    (hd : c.data.data.length + 31 + newSize ups c.pageSize bs.length < LAST) (fuel : Nat)
    (hf : c.data.data.length < fuel) :
    ∃ c', writeBlock fuel c ⟨bs, p0⟩ a ups none = .ok (some (c', a)) ∧
      Written c s a bs (newSize ups c.pageSize bs.length) c' ∧ HasRoom c'.data.data a := by
  obtain ⟨free, blocks, hl0, h16, hs⟩ := h
  obtain ⟨gs, others, hga, hperm, hl, hoth⟩ := block_split hl0 hs ha
  have hLd : LAST = 2147483647 := rfl
  have hpages := hl.inside
  simp only [List.map_cons, List.flatten_cons] at hpages
  have hapart := hl.apart
  simp only [List.map_cons, List.flatten_cons] at hapart
  have hgin : ∀ g ∈ gs, g.stop ≤ c.data.data.length := fun g hg => (hpages g (by simp [hg])).2
  have hstored := hl.stored (gs, old) (by simp)
  have hgpos : ∀ g ∈ gs, 0 < g.size := by
    refine room_pages hstored hgin (by omega) (hl.roomy (gs, old) (by simp)) ?_
    simp only [hga]; exact hroom
  have hperm2 : (free ++ (gs ++ (others.map Prod.fst).flatten)).Perm (gs ++ free ++ (others.map Prod.fst).flatten) := by
    rw [← List.append_assoc]
    exact List.Perm.append_right _ List.perm_append_comm
  have hapart2 : (gs ++ free ++ (others.map Prod.fst).flatten).Pairwise Apart :=
    (hperm2.pairwise_iff (fun x => apart_symm x)).mp hapart
  have hav : Avail c.data.data gs free := by
    refine ⟨hl.linked (gs, old) (by simp), hl.freeLinked, ?_, (List.pairwise_append.mp hapart2).1, ?_⟩
    · intro g hg
      refine hpages g ?_
      simp only [List.mem_append] at hg ⊢
      rcases hg with h | h <;> simp [h]
    · intro g hg
      rcases List.mem_append.mp hg with h | h
      · exact hgpos g h
      · exact hl.roomyFree g h
  obtain ⟨⟨g, rest, hge, eg⟩, _⟩ := hstored
  have hcnt := count_pages c.data.data (gs ++ free) (fun x hx => (hav.inside x hx).2) hav.apart
  simp only at hge
  have haddr : g.addr = a := by rw [hge] at hga; exact hga
  have hg16 := hpages g (by rw [hge]; simp)
  have hso : startOf gs free c.data.data.length = a := by rw [hge]; exact haddr
  obtain ⟨c', e, hw, hr, _⟩ := write_core c s bs p0 a ups free gs others fuel hav hl.head
      (by
        unfold nextBlock
        rw [if_neg, hso]
        rw [← haddr]
        rintro (h | h)
        · omega
        · exact headAddr_ne_last _ g hg16.2 (by omega) h)
      (fun x hx => hpages x (by simp only [List.mem_append]; exact Or.inr (Or.inr hx)))
      hapart2 (fun b hb => hl.roomy b (by simp [hb])) (fun b hb => hl.linked b (by simp [hb]))
      (fun b hb => hl.stored b (by simp [hb])) (by omega) hd
      (by simp only [List.length_append] at hcnt; omega)
      (fun x v hx => hoth x v (by rw [hso] at hx; exact hx))
  rw [hso] at e hw hr
  refine ⟨c', ?_, hw, hr (Or.inr (Or.inr (Or.inl (by rw [hge]; simp))))⟩
  unfold writeBlock
  rw [if_neg (by unfold fileHeaderSize; omega)]
  exact e

/-- A block that is not empty has room. -/
theorem room_of_content (c : Cat) (s : Store) (h : Rep c s) (hd : c.data.data.length < LAST) (a : Nat) (bs : Bytes)
    (ha : s a = some bs) (hb : bs ≠ []) : HasRoom c.data.data a := by
  have hLd : LAST = 2147483647 := rfl
  obtain ⟨free, blocks, hl, h16, hs⟩ := h
  obtain ⟨b, hb', h1, h2⟩ := (hs a bs).1 ha
  obtain ⟨⟨g, rest, hge, eg⟩, _⟩ := hl.stored b hb'
  have hg := hl.inside g (pages_of_block hb' (by rw [hge]; simp))
  have hgs := hg.2
  unfold Page.stop at hgs
  rw [← h1, hge]
  refine (hasRoom_iff _ g _ _ eg (by omega)).mpr ?_
  rcases hl.roomy b hb' with h | h
  · exact h g (by rw [hge]; simp)
  · exact absurd (h2 ▸ h) hb

/-- Releasing a block with room: the store loses it, and nothing else changes. -/
theorem release_more (c : Cat) (s : Store) (h : Rep c s) (a : Nat) (old : Bytes)
    (ha : s a = some old) (hroom : HasRoom c.data.data a) (hd : c.data.data.length < LAST)
    (fuel : Nat) (hf : c.data.data.length < fuel) :
    ∃ c', freeBlock fuel c a = .ok (some c') ∧ Rep c' (s.set a none) ∧
      c'.data.data.length = c.data.data.length ∧ c'.pageSize = c.pageSize ∧ c'.emptyMod = true ∧
      slice c'.data.data 0 16 = slice c.data.data 0 16 ∧
      (∀ x v, s x = some v → x ≠ a → HasRoom c.data.data x → HasRoom c'.data.data x) := by
  obtain ⟨c1, e, hr, hlen⟩ := release_block_partial c s h a old ha hroom hd fuel hf
  obtain ⟨free, blocks, hl0, h16, hs⟩ := h
  obtain ⟨gs, others, hga, hperm, hl, hoth⟩ := block_split hl0 hs ha
  have hLd : LAST = 2147483647 := rfl
  have hpages := hl.inside
  simp only [List.map_cons, List.flatten_cons] at hpages
  have hapart := hl.apart
  simp only [List.map_cons, List.flatten_cons] at hapart
  have hgin : ∀ g ∈ gs, g.stop ≤ c.data.data.length := fun g hg => (hpages g (by simp [hg])).2
  have hstored := hl.stored (gs, old) (by simp)
  have hgpos : ∀ g ∈ gs, 0 < g.size := by
    refine room_pages hstored hgin (by omega) (hl.roomy (gs, old) (by simp)) ?_
    simp only [hga]; exact hroom
  have hperm2 : (free ++ (gs ++ (others.map Prod.fst).flatten)).Perm (gs ++ free ++ (others.map Prod.fst).flatten) := by
    rw [← List.append_assoc]
    exact List.Perm.append_right _ List.perm_append_comm
  have hapart2 : (gs ++ free ++ (others.map Prod.fst).flatten).Pairwise Apart :=
    (hperm2.pairwise_iff (fun x => apart_symm x)).mp hapart
  have hav : Avail c.data.data gs free := by
    refine ⟨hl.linked (gs, old) (by simp), hl.freeLinked, ?_, (List.pairwise_append.mp hapart2).1, ?_⟩
    · intro g hg
      refine hpages g ?_
      simp only [List.mem_append] at hg ⊢
      rcases hg with h | h <;> simp [h]
    · intro g hg
      rcases List.mem_append.mp hg with h | h
      · exact hgpos g h
      · exact hl.roomyFree g h
  obtain ⟨⟨g, rest, hge, eg⟩, _⟩ := hstored
  simp only at hge
  have haddr : g.addr = a := by rw [hge] at hga; exact hga
  have hg16 := hpages g (by rw [hge]; simp)
  have hcnt := count_pages c.data.data (gs ++ free) (fun x hx => (hav.inside x hx).2) hav.apart
  obtain ⟨m', e1, e2, e3, e4⟩ := freeLoop_ok free gs fuel c.data defaultHdr (by rw [hge]; simp) hd hav (by decide)
    (by simp only [List.length_append] at hcnt; omega)
  have hc1 : c1 = { c with data := m', next := a, emptyMod := true, modified := true } := by
    unfold freeBlock at e
    rw [if_neg, hl.head, ← hga, e1] at e
    · cases e; rw [hga]
    · rw [← haddr]
      rintro (h | h)
      · omega
      · exact headAddr_ne_last _ g hg16.2 (by omega) h
  have hfr : Frame c.data.data c1.data.data gs := by rw [hc1]; exact e3
  refine ⟨c1, e, hr, hlen, by rw [hc1], by rw [hc1], ?_, ?_⟩
  · refine hfr 0 16 (by omega) (fun u hu => Or.inl (hpages u (by simp [hu])).1)
  · intro x v hx hxa hrx
    obtain ⟨b, hb, h1, h2⟩ := (hoth x v hxa).1 hx
    obtain ⟨⟨g', rest', hge', _⟩, _⟩ := hl.stored b (by simp [hb])
    have hm : g' ∈ (others.map Prod.fst).flatten :=
      List.mem_flatten.mpr ⟨b.1, List.mem_map.mpr ⟨b, hb, rfl⟩, by rw [hge']; simp⟩
    rw [hge'] at h1
    rw [← h1] at hrx ⊢
    refine hasRoom_frame hfr g' (hpages g' (by simp only [List.mem_append]; exact Or.inr (Or.inr hm))).2 ?_ hrx
    intro u hu
    exact apart_symm ((List.pairwise_append.mp hapart2).2.2 u (by simp [hu]) g' hm)

/-! ## The flags -/

/-- The free chain's start is unchanged, or the flag says that it has to be written. -/
def Tells (c c' : Cat) : Prop := c'.emptyMod = false → c.emptyMod = false ∧ c'.next = c.next

theorem bind_ok {α β : Type} {x : Outcome α} {f : α → Outcome β} {b : β} (h : (x >>= f) = .ok b) :
    ∃ a, x = .ok a ∧ f a = .ok b := by
  cases x with
  | ok a => exact ⟨a, rfl, h⟩
  | throw => cases h
  | ub => cases h

theorem pickPage_tells {c c' : Cat} {hdr hdr' : Bytes} {start len p n : Nat} {ups add : Bool}
    (h : pickPage c hdr start len ups = .ok (c', hdr', p, n, add)) : Tells c c' := by
  unfold pickPage at h
  split at h
  · obtain ⟨m, _, h⟩ := bind_ok h
    obtain ⟨⟨hd, m2⟩, _, h⟩ := bind_ok h
    obtain ⟨bl, _, h⟩ := bind_ok h
    obtain ⟨ns, _, h⟩ := bind_ok h
    cases h
    intro h; cases h
  · split at h
    · cases h
      exact fun h => ⟨h, rfl⟩
    · obtain ⟨m, _, h⟩ := bind_ok h
      obtain ⟨⟨hd, m2⟩, _, h⟩ := bind_ok h
      obtain ⟨bl, _, h⟩ := bind_ok h
      obtain ⟨ns, _, h⟩ := bind_ok h
      cases h
      exact fun h => ⟨h, rfl⟩

theorem putPage_tells {c c' : Cat} {blk blk' : Mem} {hdr hdr' : Bytes} {start len p n k st : Nat} {add first : Bool}
    (h : putPage c blk hdr start len p n add first = .ok (c', blk', hdr', k, st)) : Tells c c' := by
  unfold putPage at h
  obtain ⟨m, _, h⟩ := bind_ok h
  obtain ⟨⟨_, m2⟩, _, h⟩ := bind_ok h
  obtain ⟨⟨_, m3, b3⟩, _, h⟩ := bind_ok h
  obtain ⟨m4, _, h⟩ := bind_ok h
  cases h
  exact fun h => ⟨h, rfl⟩

theorem tells_trans {a b c : Cat} (h1 : Tells a b) (h2 : Tells b c) : Tells a c := by
  intro h
  obtain ⟨h3, h4⟩ := h2 h
  obtain ⟨h5, h6⟩ := h1 h3
  exact ⟨h5, h4.trans h6⟩

theorem writeLoop_tells (fuel : Nat) {c c' : Cat} {blk : Mem} {hdr : Bytes} {start len last : Nat} {ups first : Bool}
    (h : writeLoop fuel c blk hdr start len ups first = .ok (some (c', last))) : Tells c c' := by
  induction fuel generalizing c blk hdr start len first with
  | zero => cases h
  | succ fuel ih =>
    rw [writeLoop] at h
    obtain ⟨⟨c1, h1, p1, n1, a1⟩, e1, h⟩ := bind_ok h
    obtain ⟨⟨c2, b2, h2, k2, s2⟩, e2, h⟩ := bind_ok h
    have t := tells_trans (pickPage_tells e1) (putPage_tells e2)
    simp only at h
    split at h
    · exact tells_trans t (ih h)
    · cases h
      exact t

theorem writeCore_tells {fuel : Nat} {c c' : Cat} {blk : Mem} {start a : Nat} {ups : Bool} {len : Option Nat}
    (h : writeCore fuel c blk start ups len = .ok (some (c', a))) : c'.modified = true ∧ Tells c c' := by
  unfold writeCore at h
  obtain ⟨r, e1, h⟩ := bind_ok h
  cases r with
  | none => cases h
  | some r =>
    obtain ⟨c1, last⟩ := r
    have t := writeLoop_tells fuel e1
    simp only at h
    split at h
    · obtain ⟨r2, e2, h⟩ := bind_ok h
      cases r2 with
      | none => cases h
      | some c2 =>
        cases h
        refine ⟨rfl, tells_trans t ?_⟩
        unfold freeBlock at e2
        split at e2
        · cases e2; exact fun h => ⟨h, rfl⟩
        · obtain ⟨r3, e3, e2⟩ := bind_ok e2
          cases r3 with
          | none => cases e2
          | some m => cases e2; intro h; cases h
    · cases h
      exact ⟨rfl, t⟩

/-- After a write the container is marked modified, and where the free chain starts is unchanged or
marked to be written. -/
theorem writeBlock_tells {fuel : Nat} {c c' : Cat} {blk : Mem} {start a : Nat} {ups : Bool} {len : Option Nat}
    (h : writeBlock fuel c blk start ups len = .ok (some (c', a))) : c'.modified = true ∧ Tells c c' := by
  unfold writeBlock at h
  split at h
  · obtain ⟨r, e1, h⟩ := bind_ok h
    cases r with
    | none => cases h
    | some r =>
      obtain ⟨c1, last⟩ := r
      obtain ⟨h1, h2⟩ := writeCore_tells h
      exact ⟨h1, tells_trans (writeCore_tells e1).2 h2⟩
  · exact writeCore_tells h

/-! ## The first write -/

/-- The container has only its file header. -/
structure Blank (c : Cat) : Prop where
  size : c.data.data.length = 16
  next : c.next = LAST
  page : 0 < c.pageSize ∧ c.pageSize < 2 ^ 16

/-- The directory block of a blank container. -/
theorem blank_first (c : Cat) (h : Blank c) (bs : Bytes) (p0 : Int) (fuel : Nat) (hf : 0 < fuel)
    (hd : 2 ^ 17 + bs.length < LAST) :
    ∃ c', writeCore fuel c ⟨bs, p0⟩ 16 true none = .ok (some (c', 16)) ∧
      Written c (fun _ => none) 16 bs (newSize true c.pageSize bs.length) c' ∧ HasRoom c'.data.data 16 := by
  have hLd : LAST = 2147483647 := rfl
  obtain ⟨c', e, hw, hr, _⟩ := write_core c (fun _ => none) bs p0 16 true [] [] [] fuel
    ⟨trivial, trivial, by simp, List.Pairwise.nil, by simp⟩ h.next
    (by unfold nextBlock; rw [if_neg (by decide)]; simp only [startOf]; exact h.size.symm)
    (by simp) (by simp) (by simp) (by simp) (by simp) (by have := h.size; omega)
    (by rw [h.size]; unfold newSize; have := h.page; simp only [if_true]; split <;> omega)
    (by simpa using hf) (by simp)
  simp only [startOf, h.size] at e hw hr
  exact ⟨c', e, hw, hr (Or.inr (Or.inl ⟨trivial, h.page.1⟩))⟩

theorem write_blank (c : Cat) (h : Blank c) (bs : Bytes) (p0 : Int) (fuel : Nat) (hf : 2 ^ 17 < fuel)
    (hd : 2 ^ 17 + bs.length < LAST) :
    ∃ c' a, writeBlock fuel c ⟨bs, p0⟩ 0 false none = .ok (some (c', a)) ∧ a ≠ 16 ∧ 16 ≤ a ∧ a < LAST ∧
      Rep c' (Store.set (fun x => if x = 16 then some [] else none) a (some bs)) ∧ c'.pageSize = c.pageSize ∧
      c'.data.data.length ≤ 2 ^ 17 + bs.length ∧ slice c'.data.data 0 16 = slice c.data.data 0 16 ∧
      HasRoom c'.data.data 16 ∧ (bs ≠ [] → HasRoom c'.data.data a) := by
  have hLd : LAST = 2147483647 := rfl
  obtain ⟨c1, e1, hw1, hr1⟩ := blank_first c h [] 0 fuel (by omega) (by simp; omega)
  have hg := hw1.grows
  have hps := h.page
  have hns : newSize true c.pageSize ([] : Bytes).length = c.pageSize := by
    unfold newSize
    rw [if_pos rfl, if_neg (by simp)]
  rw [hns, h.size] at hg
  have hs : Store.set (fun _ => none) 16 (some []) = fun x => if x = 16 then some ([] : Bytes) else none := rfl
  have hrep := hw1.rep
  rw [hs] at hrep
  obtain ⟨c2, a, e2, hn, hw2, hr2⟩ := write_new c1 _ hrep bs p0 (by omega) fuel (by omega)
  have ha : a ≠ 16 := by
    intro he; rw [he] at hn; simp at hn
  have hlen := hw2.grows
  refine ⟨c2, a, ?_, ha, hw2.inRange.1, hw2.inRange.2, hw2.rep, by rw [hw2.pageSize, hw1.pageSize], by omega, by rw [hw2.fileHeader, hw1.fileHeader],
    hw2.others 16 [] (by simp) (Ne.symm ha) hr1, hr2⟩
  unfold writeBlock
  rw [if_pos ⟨h.size, by decide⟩]
  have e' : writeCore fuel c Mem.empty fileHeaderSize true none = .ok (some (c1, 16)) := e1
  rw [e', Outcome.ok_bind]
  unfold writeBlock at e2
  obtain ⟨_, _, _, h3, _⟩ := hrep
  rw [if_neg (by unfold fileHeaderSize; omega)] at e2
  exact e2

end Verif.Container
