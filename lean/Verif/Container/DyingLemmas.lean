import Verif.Container.Dying
import Verif.Container.CloseLemmas

/-!
# Lemmas: writing new blocks keeps the old ones, the directory and the file header
-/

namespace Verif.Container
open Verif Verif.Stream Verif.Unicode Verif.Unicode.Spec Verif.Container.Spec

/-- Blocks were added: all old ones are as they were. Where the chain of free pages started, there is still a page. -/
def Grown (c : Cat) (s : Store) (c' : Cat) (s' : Store) : Prop :=
  Phys c' s' ∧ (∀ a v, s a = some v → s' a = some v) ∧ (s 16 = none → s' 16 = none ∨ s' 16 = some []) ∧
    slice c'.data.data 0 16 = slice c.data.data 0 16 ∧
    (c.next = LAST ∨ c'.next = c.next ∨ ∃ v, v ≠ [] ∧ s' c.next = some v)

theorem grown_refl {c : Cat} {s : Store} (h : Phys c s) : Grown c s c s := ⟨h, fun _ _ h => h, Or.inl, rfl, Or.inr (Or.inl rfl)⟩

theorem grown_trans {c c1 c2 : Cat} {s s1 s2 : Store} (h1 : Grown c s c1 s1) (h2 : Grown c1 s1 c2 s2) : Grown c s c2 s2 := by
  obtain ⟨_, b1, d1, e1, f1⟩ := h1
  obtain ⟨a2, b2, d2, e2, f2⟩ := h2
  refine ⟨a2, fun a v h => b2 a v (b1 a v h), ?_, e2.trans e1, ?_⟩
  · intro h
    rcases d1 h with h | h
    · exact d2 h
    · exact Or.inr (b2 _ _ h)
  · rcases f1 with h | h | ⟨v, hv, h⟩
    · exact Or.inl h
    · rw [h] at f2; exact f2
    · exact Or.inr (Or.inr ⟨v, hv, b2 _ _ h⟩)

/-- Where a new block goes. -/
theorem writeBlock_at {fuel : Nat} {c c' : Cat} {blk : Mem} {a : Nat} (hlen : c.data.data.length ≠ 16)
    (h : writeBlock fuel c blk 0 false none = .ok (some (c', a))) : a = nextBlock c 0 := by
  unfold writeBlock at h
  rw [if_neg (by unfold fileHeaderSize; omega)] at h
  unfold writeCore at h
  obtain ⟨r, _, h⟩ := bind_ok h
  cases r with
  | none => cases h
  | some r =>
    simp only at h
    split at h
    · obtain ⟨r2, _, h⟩ := bind_ok h
      cases r2 with
      | none => cases h
      | some c2 => cases h; rfl
    · cases h; rfl

/-- One new block. -/
theorem write_grown {c c' : Cat} {s : Store} (h : Phys c s) {bs : Bytes} {p0 : Int} {a' fuel : Nat}
    (hne : bs ≠ []) (hd : extent c + 31 + bs.length < LAST) (hf : extent c < fuel)
    (hw : writeBlock fuel c ⟨bs, p0⟩ 0 false none = .ok (some (c', a'))) :
    (∃ s', Grown c s c' s') ∧ extent c' ≤ extent c + 31 + bs.length := by
  rcases h.2 with ⟨hb, rfl⟩ | ⟨hr, ⟨f, hf16⟩, _⟩
  · unfold extent at *
    obtain ⟨c1, a1, e, h1, h2, h3, h4, h5, h6, h7, h8, h9⟩ := write_blank c hb bs p0 fuel (by omega) (by omega)
    rw [e] at hw
    cases hw
    have h16 : (Store.set (fun x => if x = 16 then some [] else none) a' (some bs)) 16 = some [] := by
      unfold Store.set; rw [if_neg (Ne.symm h1)]; exact if_pos rfl
    refine ⟨⟨_, ⟨by rw [h5]; exact h.1, Or.inr ⟨h4, ⟨[], h16⟩, h8⟩⟩, ?_, fun _ => Or.inr h16, h7, Or.inl hb.next⟩, by omega⟩
    intro a v h; cases h
  · obtain ⟨c1, a1, s1, e, h1, h2, h3, h4, h5, h6, _, h8, h9, h10, h11, h12, h13, h14⟩ := phys_write c s h 0 bs p0 (Or.inl rfl) hd fuel hf
    rw [e] at hw
    cases hw
    refine ⟨⟨s1, h1, ?_, fun h => (by rw [hf16] at h; cases h), h12, ?_⟩, h14⟩
    · intro a v ha
      by_cases h16 : a = 16
      · rw [h16] at ha ⊢; exact h5 v ha
      · by_cases haa : a = a'
        · rw [haa, h6 rfl] at ha; cases ha
        · rw [h4 a haa h16]; exact ha
    · have hat := writeBlock_at (by have := rep_long hr; omega) e
      unfold nextBlock at hat
      rw [if_pos (Or.inl rfl)] at hat
      by_cases hn : c.next = LAST
      · exact Or.inl hn
      · rw [if_neg hn] at hat
        exact Or.inr (Or.inr ⟨bs, hne, by rw [← hat]; exact h3⟩)

/-- A new entry. -/
theorem createFile_new {k k0 : Catalog} {n : Bytes} {now : Nat} {e0 : File} (hg : getFile k n = .ok none)
    (h : createFile k n now = .ok (e0, k0)) :
    e0.name = n ∧ e0.data = 0 ∧ e0.header = 0 ∧ k0.cat = k.cat := by
  unfold createFile at h
  rw [hg, Outcome.ok_bind] at h
  simp only at h
  unfold addEntry at h
  simp only at h
  obtain ⟨k1, h1, h⟩ := bind_ok h
  obtain ⟨q, _, h1⟩ := bind_ok h1
  cases h1
  cases h
  exact ⟨rfl, rfl, rfl, rfl⟩

theorem openFile_same {cd : Codec} {fuel : Nat} {c : Cat} {e e' : File} (h : openFile cd fuel c e = .ok (some e')) :
    e'.name = e.name ∧ e'.data = e.data ∧ e'.header = e.header ∧ e'.created = e.created ∧ e'.modified = e.modified := by
  unfold openFile at h
  split at h
  · cases h; exact ⟨rfl, rfl, rfl, rfl, rfl⟩
  · obtain ⟨r, _, h⟩ := bind_ok h
    cases r with
    | none => cases h
    | some b => cases h; exact ⟨rfl, rfl, rfl, rfl, rfl⟩

/-- `write_and_close` of an entry that has no blocks yet. -/
theorem writeAndClose_grown {cd : Codec} {fuel : Nat} {k k' : Catalog} {e : File} {b p hb : Bytes} {s : Store} (h : Phys k.cat s)
    (he : e.data = 0 ∧ e.header = 0) (hp : cd.pack b = .ok p) (hpne : p ≠ []) (hh : Entry.headerBytes e.created e.modified e.name = .ok hb) (hhne : hb ≠ [])
    (hd : extent k.cat + (31 + p.length + (31 + hb.length)) < LAST) (hf : LAST ≤ fuel)
    (hw : writeAndClose cd fuel k e b = .ok (some k')) :
    (∃ s', Grown k.cat s k'.cat s') ∧ extent k'.cat ≤ extent k.cat + (31 + p.length + (31 + hb.length)) := by
  unfold writeAndClose at hw
  obtain ⟨r, hr, hw⟩ := bind_ok hw
  cases r with
  | none => cases hw
  | some e1 =>
    obtain ⟨h1, h2, h3, h4, h5⟩ := openFile_same hr
    simp only at hw
    rw [hp, Outcome.ok_bind] at hw
    obtain ⟨q, hq, hw⟩ := bind_ok hw
    cases q with
    | none => cases hw
    | some q =>
      obtain ⟨c1, a1⟩ := q
      simp only at hw
      rw [h2, he.1] at hq
      obtain ⟨⟨s1, hg1⟩, hx1⟩ := write_grown h hpne (by omega) (by omega) hq
      unfold writeEnd at hw
      simp only at hw
      rw [h1, h4, h5, hh, Outcome.ok_bind, h3, he.2] at hw
      obtain ⟨q2, hq2, hw⟩ := bind_ok hw
      cases q2 with
      | none => cases hw
      | some q2 =>
        obtain ⟨c2, a2⟩ := q2
        cases hw
        obtain ⟨⟨s2, hg2⟩, hx2⟩ := write_grown hg1.1 hhne (by omega) (by omega) hq2
        exact ⟨⟨s2, grown_trans hg1 hg2⟩, by simp only; omega⟩

/-- The test of the directory block. -/
theorem dirTest_ok {c : Cat} {s : Store} (h : Rep c s) {f : Bytes} (h16 : s 16 = some f) : dirTest c.data.data = true := by
  obtain ⟨free, blocks, hl, hlen, hs⟩ := h
  obtain ⟨b, hb, h1, _⟩ := (hs 16 f).1 h16
  obtain ⟨⟨g, rest, hge, eg⟩, _⟩ := hl.stored b hb
  have hg := (hl.inside g (pages_of_block hb (by rw [hge]; simp))).2
  unfold Page.stop at hg
  rw [hge] at h1
  simp only [headAddr] at h1
  unfold dirTest
  rw [if_neg (by omega), ← h1, show (c.data.data.drop g.addr).take 31 = slice c.data.data g.addr 31 from rfl, eg, isCorrect_header]

/-- Opening the stream of a container to which blocks were added since it was flushed. -/
theorem open_grown {cd : Codec} {k : Catalog} {s : Store} {ls : Ghost} (h : Inv cd k s ls) (hcl : ∀ x ∈ ls, Clean x.1)
    (hfm : k.fatMod = false) (hem : k.cat.emptyMod = false) {c : Cat} {s' : Store} (hg : Grown k.cat s c s')
    (hd : extent c < LAST) (fuel : Nat) (hf : LAST ≤ fuel) :
    ∃ o ls', openCatalog fuel c.data.data = .ok (some (.container o)) ∧ Core cd o s' ls' ∧ ls'.map Prod.snd = ls.map Prod.snd ∧
      ls'.map made = ls.map made ∧ o.cat.data = ⟨c.data.data, 16⟩ := by
  obtain ⟨hp, hkeep, hnew, hhead, hnote⟩ := hg
  have hLd : LAST = 2147483647 := rfl
  have hlen := phys_length hp
  have hlenk := phys_length h.phys
  have hlt : c.data.data.length < LAST := by unfold extent at hd; omega
  have hnil : ∀ c0 : Cat, Core cd ⟨c0, rdWord 0 c.data.data 8, [], [], false, 0⟩ s' [] := fun c0 =>
    ⟨rfl, by simp, by simp, by simp, by simp, by simp, by
      intro q id
      constructor
      · intro hq; cases hq
      · rintro ⟨x, hx, _⟩; cases hx⟩
  unfold openCatalog
  simp only
  rw [if_neg (by omega)]
  rcases hp.2 with ⟨hb, hsb⟩ | ⟨hr, ⟨f, hf16⟩, hroom⟩
  · -- nothing was written
    have hls : ls = [] ∧ k.cat.data.data = template := by
      rcases h.phys.2 with ⟨hkb, hks⟩ | ⟨_, ⟨f, hf⟩, _⟩
      · refine ⟨?_, (h.blank hkb.size).1⟩
        rcases h.fat hfm with ⟨_, hl⟩ | ⟨h16, _⟩
        · exact hl
        · rw [hks] at h16; cases h16
      · have := hkeep _ _ hf; rw [hsb] at this; cases this
    obtain ⟨rfl, ht⟩ := hls
    have hct : c.data.data = template := by
      have h1 : slice c.data.data 0 16 = c.data.data := by
        unfold slice; rw [List.drop_zero, List.take_of_length_le (by have := hb.size; omega)]
      have h2 : slice template 0 16 = template := rfl
      rw [ht, h1, h2] at hhead
      exact hhead
    rw [hct] at hnil ⊢
    exact ⟨⟨⟨⟨template, 16⟩, rdWord 0 template 0, rdWord 0 template 4, false, false⟩, rdWord 0 template 8, [], [], false, 0⟩, [], by
      have : isCatalog template = .ok true := by decide
      rw [this]; rfl, hnil _, rfl, rfl, rfl⟩
  · have hlong := rep_long hr
    have hdir : s' 16 = some (fatBytes (ls.map Prod.fst)) := by
      rcases h.fat hfm with ⟨hkb, hl⟩ | ⟨h16, _⟩
      · subst hl
        have hks : s 16 = none := by
          rcases h.phys.2 with ⟨_, hks⟩ | ⟨hkr, _⟩
          · rw [hks]
          · have := rep_long hkr; have := hkb.size; omega
        rcases hnew hks with h | h
        · rw [hf16] at h; cases h
        · exact h
      · rw [h.core.ents] at h16; exact hkeep _ _ h16
    have hcat : isCatalog c.data.data = .ok true := by
      have hword : rdWord 0xff c.data.data 0 = k.cat.next := by
        rw [rdWord_congr 0xff 0 k.cat.data.data c.data.data 0 (by omega) hlenk hhead, h.next hem]
      rcases hnote with hn | hn | ⟨v, hv, hsv⟩
      · unfold isCatalog
        rw [if_neg (by omega)]
        have : freeTest c.data.data = .ok true := by
          unfold freeTest
          simp only
          rw [hword, hn, if_pos rfl]
        rw [this, Outcome.ok_bind, if_pos rfl, dirTest_ok hr hf16]
      · exact recognised c s' hr hlt f hf16 (by rw [hword, hn])
      · unfold isCatalog
        rw [if_neg (by omega)]
        have : freeTest c.data.data = .ok true := by
          obtain ⟨free, blocks, hl, _, hs⟩ := hr
          obtain ⟨b, hb, h1, h2⟩ := (hs _ _).1 hsv
          obtain ⟨⟨g, rest, hge, eg⟩, _⟩ := hl.stored b hb
          have hg := (hl.inside g (pages_of_block hb (by rw [hge]; simp))).2
          unfold Page.stop at hg
          have hsz : 0 < g.size := by
            rcases hl.roomy b hb with h | h
            · exact h g (by rw [hge]; simp)
            · exact absurd (h2 ▸ h) hv
          rw [hge] at h1
          simp only [headAddr] at h1
          unfold freeTest
          simp only
          rw [hword, ← h1, if_neg (by omega), Nat.mod_eq_of_lt (a := g.addr + 31) (by omega), if_neg (by omega), if_neg (by omega)]
          rw [show (c.data.data.drop g.addr).take 31 = slice c.data.data g.addr 31 from rfl, eg, isCorrect_header]
        rw [this, Outcome.ok_bind, if_pos rfl, dirTest_ok hr hf16]
    rw [hcat, Outcome.ok_bind, if_pos rfl]
    unfold initCatalog
    simp only
    rw [if_pos (by omega)]
    -- the pages do not depend on where the chain of free pages is said to start
    let c1 : Cat := { c with data := ⟨c.data.data, 16⟩ }
    have hp1 : Phys c1 s' := phys_outside (c := c) rfl rfl rfl (fun _ _ _ => rfl) hp
    have hr1 : Rep c1 s' := rep_outside (c := c) rfl rfl (fun _ _ _ => rfl) hr
    obtain ⟨pp, hrd⟩ := block_reads c1 s' hr1 hlt 16 _ hdir fuel (show c.data.data.length < fuel by omega)
    have hrd' : readBlock fuel ⟨c.data.data, 16⟩ 16 = .ok (some ⟨fatBytes (ls.map Prod.fst), pp⟩) := hrd
    rw [hrd']
    simp only
    rw [fatBytes_length, Nat.mul_div_cancel_left _ (by omega), List.length_map]
    have hok : ∀ x ∈ ls, EntOk cd s' x.1 x.2 ∧ Clean x.1 := fun x hx =>
      ⟨ent_frame (h.core.ok x hx) (fun q hq => hkeep _ _ hq) (fun q hq => hkeep _ _ hq), hcl x hx⟩
    obtain ⟨k', ls', h1, h2, h3, h6, h4, h5⟩ := loadLoop_ok (cd := cd) hp1 hlt fuel hf ls [] []
      ⟨⟨⟨c.data.data, 16⟩, rdWord 0 c.data.data 0, rdWord 0 c.data.data 4, false, false⟩, rdWord 0 c.data.data 8, [], [], false, 0⟩
      (hnil _) rfl rfl hok h.core.sep h.core.names
    rw [List.nil_append] at h3 h6
    exact ⟨k', ls', h1, h2, shape_snd h3, h6, by rw [h4]⟩

/-- What is found under a name. -/
theorem content_core {cd : Codec} {k : Catalog} {c : Cat} {s : Store} {ls : Ghost} (h : Core cd k s ls) (hp : Phys c s)
    (hk : k.cat.data = ⟨c.data.data, 16⟩) (hd : extent c < LAST) (fuel : Nat) (hf : LAST ≤ fuel) (n : List Nat) (hn : Name n) :
    content cd fuel k (utf8Text n) = .ok (some (lookup (ls.map Prod.snd) n)) := by
  let c1 : Cat := { c with data := ⟨c.data.data, 16⟩ }
  have hp1 : Phys c1 s := phys_outside (c := c) rfl rfl rfl (fun _ _ _ => rfl) hp
  have hd1 : extent c1 < LAST := hd
  have ho : ∀ e, openFile cd fuel k.cat e = openFile cd fuel c1 e := by
    intro e
    unfold openFile readData
    rw [hk]
  unfold content
  rcases getFile_core h n hn with ⟨e, hno⟩ | ⟨l1, x, l2, rfl, e, hs, h1, h2⟩
  · rw [e, Outcome.ok_bind, lookup_absent]
    intro p hp
    obtain ⟨x, hx, rfl⟩ := List.mem_map.1 hp
    exact hno x hx
  · rw [e, Outcome.ok_bind]
    simp only
    rw [ho, openFile_ok (k := { k with cat := c1 }) hp1 (h.ok x (by simp)) hd1 fuel (show extent c1 < fuel by omega), Outcome.ok_bind]
    simp only
    rw [List.map_append, List.map_cons, lookup_present n _ _ x.2 _ hs]
    intro p hp
    obtain ⟨y, hy, rfl⟩ := List.mem_map.1 hp
    exact h1 y hy

/-- `store_ok`, and what it does to the pages. -/
theorem store_grown {cd : Codec} {k : Catalog} {s : Store} {ls : Ghost} (h : Inv cd k s ls) (n : List Nat) (hn : Name n) (b : Bytes)
    (hb : Packs cd b) (cr mo now : Nat) (hcr : cr < 2 ^ 64) (hno : ∀ x ∈ ls, ¬ SameText x.2.1 n) (fuel : Nat) (hf : LAST ≤ fuel)
    (hd : extent k.cat + cost cd (newEnt k.fresh n cr mo b) < LAST) :
    ∃ e0 k0 k' s' e', createFile k (utf8Text n) now = .ok (e0, k0) ∧
      writeAndClose cd fuel (setTimes k0 e0 cr mo).2 (setTimes k0 e0 cr mo).1 b = .ok (some k') ∧
      Inv cd k' s' (ls ++ [(e', (n, b))]) ∧ extent k'.cat ≤ extent k.cat + cost cd (newEnt k.fresh n cr mo b) ∧
      ∀ s0, Phys k.cat s0 → ∃ s1, Grown k.cat s0 k'.cat s1 := by
  obtain ⟨e0, k0, k', s', e', h1, h2, h3, _, _, _, h4⟩ := store_ok h n hn b hb cr mo now hcr hno fuel hf hd
  refine ⟨e0, k0, k', s', e', h1, h2, h3, h4, ?_⟩
  intro s0 hp
  obtain ⟨p, hpk, hpne, _⟩ := hb
  obtain ⟨hb, hhb, hhne, _⟩ := header_ok hn 0 cr mo
  have hpad : padded n 0 = n := by simp [padded]
  rw [hpad] at hhb
  have hg : getFile k (utf8Text n) = .ok none := by
    rcases getFile_core h.core n hn with ⟨e, _⟩ | ⟨l1, x, l2, rfl, e, hs, _, _⟩
    · exact e
    · exact absurd hs (hno x (by simp))
  obtain ⟨i1, i2, i3, i4⟩ := createFile_new hg h1
  have hcost : cost cd (newEnt k.fresh n cr mo b) = 31 + p.length + (31 + hb.length) := by
    unfold cost newEnt
    simp only [if_true, hpk, hhb]
    rfl
  rw [hcost] at hd
  have hcat : (setTimes k0 e0 cr mo).2.cat = k.cat := i4
  obtain ⟨hgr, _⟩ := writeAndClose_grown (e := (setTimes k0 e0 cr mo).1) (s := s0) (p := p) (hb := hb) (by rw [hcat]; exact hp) ⟨i2, i3⟩ hpk hpne
    (by show Entry.headerBytes cr mo e0.name = _; rw [i1]; exact hhb) hhne (by rw [hcat]; exact hd) hf h2
  rw [hcat] at hgr
  exact hgr

end Verif.Container
