import Verif.Container.LoopLemmas
import Mathlib.Data.List.Perm.Basic

/-! # Helper lemmas: freeing a chain; the container after a write -/

namespace Verif.Container
open Verif Verif.Stream Verif.Container.Spec

theorem apart_symm {g h : Page} (a : Apart g h) : Apart h g := by
  unfold Apart at *; omega

theorem freeLoop_ok (fr : List Page) : ∀ (gs : List Page) (fuel : Nat) (m : Mem) (hdr : Bytes),
    gs ≠ [] → m.data.length < LAST → Avail m.data gs fr → hdr.length = 31 → gs.length ≤ fuel →
    ∃ m', freeLoop fuel m hdr (headAddr fr) (headAddr gs) = .ok (some m') ∧
      m'.data.length = m.data.length ∧ Frame m.data m'.data gs ∧ Linked m'.data (gs ++ fr)
  | [], _, _, _, h, _, _, _, _ => absurd rfl h
  | g :: gs, fuel, m, hdr, _, hd, ha, hh, hf => by
    obtain ⟨f, rfl⟩ : ∃ f, fuel = f + 1 := ⟨fuel - 1, by simp at hf; omega⟩
    have ht : Turn (g :: gs) fr g gs fr := Or.inl ⟨rfl, rfl⟩
    have hg := ha.inside g (by simp)
    have hgst := hg.2
    unfold Page.stop at hgst
    have hap := turn_apart ht ha
    have ha1 := turn_avail ht ha
    obtain ⟨ds, hds, e⟩ := ha.ownL.1
    have hLd : LAST = 2147483647 := rfl
    have hlt1 : headAddr gs < 2 ^ 31 := headAddr_lt m.data gs (fun x hx => (ha1.inside x (by simp [hx])).2) hd
    have hlt2 : headAddr fr < 2 ^ 31 := headAddr_lt m.data fr (fun x hx => (ha1.inside x (by simp [hx])).2) hd
    rw [freeLoop, headAddr, seekB_ok _ _ (by omega)]
    simp only [Outcome.ok_bind]
    rw [readHdr_ok _ _ _ hh (by omega)]
    simp only [Outcome.ok_bind]
    rw [e, get_next' _ _ _ hlt1]
    simp only [Outcome.ok_bind]
    rw [set_dataSize]
    -- the header written
    have key : ∀ n : Nat, n < 2 ^ 31 → ∀ d', d' = putAt m.data g.addr (header LAST g.size n) →
        d'.length = m.data.length ∧ Frame m.data d' [g] ∧ slice d' g.addr 31 = header LAST g.size n ∧
        Avail d' gs fr := by
      intro n hn d' hd'
      have hl := header_length LAST g.size n
      refine ⟨?_, ?_, ?_, ?_⟩
      · rw [hd', putAt_length _ _ _ (by omega), hl]; omega
      · rw [hd']; exact frame_put _ _ _ hg.2 (by omega)
      · rw [hd', show g.addr = g.addr + 0 from rfl, slice_putAt_in _ _ _ 0 31 (by omega) (by omega)]
        unfold slice; rw [List.drop_zero, List.take_of_length_le (by omega)]
      · rw [hd']; exact avail_put ha1 hap hg.2 _ (by omega)
    cases hgs : gs with
    | nil =>
      subst hgs
      generalize hq : headAddr fr = q at *
      simp only [headAddr, if_true]
      rw [seekB_ok _ _ (by simp only; omega)]
      simp only [Outcome.ok_bind]
      rw [set_next]
      rw [show List.take hdrSize (header LAST g.size q) = header LAST g.size q from
        List.take_of_length_le (by rw [header_length]; exact Nat.le_refl _)]
      rw [write_at _ _ _ (by omega)]
      simp only [Outcome.ok_bind]
      obtain ⟨k1, k2, k3, k4⟩ := key q hlt2 _ rfl
      exact ⟨_, rfl, k1, k2, ⟨LAST, by omega, by rw [show headAddr ([].append fr) = q from hq]; exact k3⟩, k4.frL⟩
    | cons x xs =>
      have hx := ha1.inside x (by simp [hgs])
      have hxl : headAddr (x :: xs) ≠ LAST := headAddr_ne_last _ x hx.2 hd
      simp only [if_neg hxl]
      have hxa : headAddr (x :: xs) = x.addr := rfl
      rw [hxa]
      rw [seekB_ok _ _ (by simp only; omega)]
      simp only [Outcome.ok_bind]
      rw [show List.take hdrSize (header LAST g.size x.addr) = header LAST g.size x.addr from
        List.take_of_length_le (by rw [header_length]; exact Nat.le_refl _)]
      rw [write_at _ _ _ (by omega)]
      simp only [Outcome.ok_bind]
      obtain ⟨k1, k2, k3, k4⟩ := key x.addr (by have := hx.2; unfold Page.stop at this; omega) _ rfl
      rw [hgs] at k4 ha1 hap hf
      obtain ⟨m', e1, e2, e3, e4⟩ := freeLoop_ok fr (x :: xs) f
        ⟨putAt m.data g.addr (header LAST g.size x.addr), ((g.addr + (header LAST g.size x.addr).length : Nat) : Int)⟩
        (header LAST g.size x.addr) (by simp) (by simp only; omega) k4 (header_length _ _ _)
        (by simp at hf ⊢; omega)
      rw [hxa] at e1
      refine ⟨m', e1, by rw [e2]; exact k1, frame_trans (u1 := [g]) k2 e3 (Nat.le_of_eq k1.symm), ⟨LAST, by omega, ?_⟩, e4⟩
      have := e3 g.addr 31 (by simp only; omega) (by
        intro y hy
        have h1 := hap y (by simp at hy ⊢; tauto)
        unfold Apart Page.stop at h1
        unfold Page.stop
        omega)
      rw [this]
      exact k3

/-- All pages of a container. -/
def pagesOf (free : List Page) (blocks : List (List Page × Bytes)) : List Page :=
  free ++ (blocks.map Prod.fst).flatten

theorem pages_of_block {free : List Page} {blocks : List (List Page × Bytes)} {b : List Page × Bytes}
    (hb : b ∈ blocks) {g : Page} (hg : g ∈ b.1) : g ∈ pagesOf free blocks := by
  unfold pagesOf
  simp only [List.mem_append, List.mem_flatten, List.mem_map]
  exact Or.inr ⟨b.1, ⟨b, hb, rfl⟩, hg⟩

theorem stores_congr {d d' : Bytes} {gs : List Page} {bs : Bytes}
    (h1 : ∀ g ∈ gs, slice d' g.addr 31 = slice d g.addr 31)
    (h2 : ∀ g ∈ gs, slice d' (g.addr + 31) g.size = slice d (g.addr + 31) g.size)
    (h : Stores d gs bs) : Stores d' gs bs := by
  obtain ⟨⟨g, rest, rfl, e⟩, a, b, c, f⟩ := h
  exact ⟨⟨g, rest, rfl, by rw [h1 g (by simp)]; exact e⟩, a, b, by rw [body_congr d d' _ h2]; exact c, f⟩

/-- Changing bytes only inside pages apart from a block's pages leaves the block alone. -/
theorem frame_block {d d' : Bytes} {used gs : List Page} (hf : Frame d d' used)
    (hin : ∀ g ∈ gs, g.stop ≤ d.length) (hap : ∀ g ∈ gs, ∀ u ∈ used, Apart g u) :
    (∀ g ∈ gs, slice d' g.addr 31 = slice d g.addr 31) ∧
    (∀ g ∈ gs, slice d' (g.addr + 31) g.size = slice d (g.addr + 31) g.size) := by
  constructor <;> intro g hg <;> (
    have h1 := hin g hg
    unfold Page.stop at h1
    refine hf _ _ (by omega) ?_
    intro u hu
    have h2 := hap g hg u hu
    unfold Apart Page.stop at h2
    unfold Page.stop
    omega)

theorem layout_perm {d : Bytes} {n : Nat} {free : List Page} {b1 b2 : List (List Page × Bytes)}
    (hp : b1.Perm b2) (h : Layout d n free b1) : Layout d n free b2 := by
  obtain ⟨h1, h2, h3, h4, h5, h6, h7, h8⟩ := h
  have hpp : (free ++ (b1.map Prod.fst).flatten).Perm (free ++ (b2.map Prod.fst).flatten) :=
    List.Perm.append_left _ ((hp.map Prod.fst).flatten)
  refine ⟨h1, h2, fun b hb => h3 b (hp.mem_iff.mpr hb), fun b hb => h4 b (hp.mem_iff.mpr hb),
    fun g hg => h5 g (hpp.mem_iff.mpr hg), ?_, h7, fun b hb => h8 b (hp.mem_iff.mpr hb)⟩
  exact (hpp.pairwise_iff (fun a => apart_symm a)).mp h6

theorem writeCore_ok (c : Cat) (bs : Bytes) (p0 : Int) (start : Nat) (ups : Bool) (free own : List Page)
    (others : List (List Page × Bytes)) (fuel : Nat)
    (ha : Avail c.data.data own free) (hnext : c.next = headAddr free)
    (hstart : nextBlock c start = startOf own free c.data.data.length)
    (hin : ∀ g ∈ (others.map Prod.fst).flatten, 16 ≤ g.addr ∧ g.stop ≤ c.data.data.length)
    (hap : (own ++ free ++ (others.map Prod.fst).flatten).Pairwise Apart)
    (hro : ∀ b ∈ others, (∀ g ∈ b.1, 0 < g.size) ∨ b.2 = [])
    (hl : ∀ b ∈ others, Linked c.data.data b.1) (hs : ∀ b ∈ others, Stores c.data.data b.1 b.2)
    (h16 : 16 ≤ c.data.data.length)
    (hd : c.data.data.length + 31 + newSize ups c.pageSize bs.length < LAST)
    (hf : own.length + free.length < fuel) :
    ∃ gs' free' c', writeCore fuel c ⟨bs, p0⟩ start ups none = .ok (some (c', headAddr gs')) ∧
      headAddr gs' = startOf own free c.data.data.length ∧ c'.pageSize = c.pageSize ∧
      c'.data.data.length ≤ c.data.data.length + 31 + newSize ups c.pageSize bs.length ∧
      c.data.data.length ≤ c'.data.data.length ∧
      free'.length ≤ own.length + free.length ∧ gs'.length ≤ own.length + free.length + 1 ∧
      Frame c.data.data c'.data.data (own ++ free) ∧
      ((0 < bs.length ∨ (ups = true ∧ 0 < c.pageSize) ∨ own ≠ [] ∨ free ≠ []) → ∀ g ∈ gs', 0 < g.size) ∧
      Layout c'.data.data c'.next free' ((gs', bs) :: others) := by
  have hr : Ready ⟨bs, 0⟩ bs.length :=
    ⟨0, rfl, Nat.zero_le _, by simp, fun h => List.length_eq_zero_iff.mp h⟩
  have hleft : left ⟨bs, 0⟩ = bs := by simp [left]
  have hLd : LAST = 2147483647 := rfl
  obtain ⟨used, new, own', fr', c', hsp, ew, en, ep, hnew, hlen, hframe, hhead, hh1, hh2, hh3, hh4, hh5⟩ :=
    writeLoop_ok _ own free c ⟨bs, 0⟩ defaultHdr bs.length fuel ups true rfl ha hnext (by decide) hr hd hf
  rw [hleft] at hh3 hh4 hh5
  have hlb := le_newSize ups c.pageSize bs.length
  have hlen2 : c.data.data.length ≤ c'.data.data.length := by omega
  have hlen3 : c'.data.data.length ≤ c.data.data.length + 31 + newSize ups c.pageSize bs.length := by
    rcases hnew with h | ⟨sz, h1, h2, _⟩
    · rw [hlen, h]; simp; omega
    · rw [hlen, h2]; simp; omega
  -- pages of the result
  have hsp' := hsp
  obtain ⟨o1, f1, ho, hfr, hu, hc1, hc2⟩ := hsp
  have hperm : (own' ++ fr' ++ (used ++ (others.map Prod.fst).flatten)).Perm
      ((own ++ free ++ (others.map Prod.fst).flatten) ++ new) := by
    rw [ho, hfr, hu]
    simp only [List.append_assoc]
    refine List.perm_iff_count.mpr ?_
    intro a
    simp only [List.count_append]
    omega
  have hnewin : ∀ g ∈ new, 16 ≤ g.addr ∧ g.stop ≤ c'.data.data.length ∧ c.data.data.length ≤ g.addr := by
    intro g hg
    rcases hnew with h | ⟨sz, h1, h2, h3⟩
    · rw [h] at hg; simp at hg
    · rw [hlen, h2]
      rw [h2] at hg
      simp only [List.mem_singleton] at hg
      subst hg
      simp only [Page.stop, List.map_cons, List.map_nil, List.sum_cons, List.sum_nil]
      omega
  have hnewpos : (0 < bs.length ∨ (ups = true ∧ 0 < c.pageSize) ∨ own ≠ [] ∨ free ≠ []) →
      ∀ g ∈ used, 0 < g.size := by
    intro hne g hgu
    rcases split_mem hsp' g hgu with hg | hg
    · exact ha.roomy g hg
    rcases hnew with h | ⟨sz, h1, h2, h3⟩
    · rw [h] at hg; simp at hg
    · have hnn : new ≠ [] := by rw [h2]; simp
      have hpos : 0 < sz := by
        apply h3
        rcases hne with h | h | h | h
        · exact Or.inl h
        · exact Or.inr h
        · by_cases hb : 0 < bs.length
          · exact Or.inl hb
          · exfalso
            have hb0 : bs.length = 0 := by omega
            rcases hh5 with h5 | h5
            · rw [hu] at h5
              simp only [List.length_append] at h5
              have : own' ≠ [] := by
                intro h0; rw [h0, List.append_nil] at ho; rw [ho] at h
                have := List.length_pos_iff.mpr h
                have := List.length_pos_iff.mpr hnn
                omega
              exact hnn (hc1 this).2
            · omega
        · by_cases hb : 0 < bs.length
          · exact Or.inl hb
          · exfalso
            have hb0 : bs.length = 0 := by omega
            rcases hh5 with h5 | h5
            · rw [hu] at h5
              simp only [List.length_append] at h5
              have : fr' ≠ [] := by
                intro h0; rw [h0, List.append_nil] at hfr; rw [hfr] at h
                have := List.length_pos_iff.mpr h
                have := List.length_pos_iff.mpr hnn
                omega
              exact hnn (hc2 this)
            · omega
      rw [h2] at hg
      simp only [List.mem_singleton] at hg
      subst hg
      exact hpos
  have hall : ∀ g ∈ own ++ free ++ (others.map Prod.fst).flatten, 16 ≤ g.addr ∧ g.stop ≤ c.data.data.length := by
    intro g hg
    rw [List.mem_append] at hg
    rcases hg with hg | hg
    · exact ⟨(ha.inside g hg).1, (ha.inside g hg).2⟩
    · exact ⟨(hin g hg).1, (hin g hg).2⟩
  have hapn : ((own ++ free ++ (others.map Prod.fst).flatten) ++ new).Pairwise Apart := by
    rw [List.pairwise_append]
    refine ⟨hap, ?_, ?_⟩
    · rcases hnew with h | ⟨sz, h1, h2, h3⟩
      · rw [h]; exact List.Pairwise.nil
      · rw [h2]; exact List.pairwise_singleton _ _
    · intro x hx y hy
      have h1 := hall x hx
      have h2 := hnewin y hy
      left; omega
  have hapr : (own' ++ fr' ++ (used ++ (others.map Prod.fst).flatten)).Pairwise Apart :=
    (hperm.pairwise_iff (fun a => apart_symm a)).mpr hapn
  have hallr : ∀ g ∈ own' ++ fr' ++ (used ++ (others.map Prod.fst).flatten),
      16 ≤ g.addr ∧ g.stop ≤ c'.data.data.length := by
    intro g hg
    have := hperm.mem_iff.mp hg
    rw [List.mem_append] at this
    rcases this with h | h
    · have := hall g h; exact ⟨this.1, by omega⟩
    · have := hnewin g h; exact ⟨this.1, this.2.1⟩
  -- others after the loop
  have hotherap : ∀ b ∈ others, ∀ g ∈ b.1, ∀ u ∈ own' ++ fr' ++ used, Apart g u := by
    intro b hb g hg u hu'
    have hgm : g ∈ (others.map Prod.fst).flatten :=
      List.mem_flatten.mpr ⟨b.1, List.mem_map.mpr ⟨b, hb, rfl⟩, hg⟩
    rw [← List.append_assoc, List.pairwise_append] at hapr
    exact apart_symm (hapr.2.2 u hu' g hgm)
  have hotherin : ∀ b ∈ others, ∀ g ∈ b.1, g.stop ≤ c.data.data.length := by
    intro b hb g hg
    exact (hin g (List.mem_flatten.mpr ⟨b.1, List.mem_map.mpr ⟨b, hb, rfl⟩, hg⟩)).2
  have hoth : ∀ b ∈ others, Linked c'.data.data b.1 ∧ Stores c'.data.data b.1 b.2 := by
    intro b hb
    obtain ⟨k1, k2⟩ := frame_block hframe (hotherin b hb)
      (fun g hg u hu' => hotherap b hb g hg u (by simp [hu']))
    exact ⟨linked_congr _ _ _ k1 (hl b hb), stores_congr k1 k2 (hs b hb)⟩
  -- the remaining own and free pages after the loop
  have hrest : ∀ gs : List Page, (∀ g ∈ gs, g ∈ own' ++ fr') → (∀ g ∈ gs, g ∈ own ++ free) →
      ∀ g ∈ gs, slice c'.data.data g.addr 31 = slice c.data.data g.addr 31 := by
    intro gs h1 h2
    refine (frame_block hframe (fun g hg => (ha.inside g (h2 g hg)).2) ?_).1
    intro g hg u hu'
    rw [List.pairwise_append] at hapr
    exact hapr.2.2 g (h1 g hg) u (by simp [hu'])
  have linked_suffix : ∀ (a b : List Page) (d : Bytes), Linked d (a ++ b) → Linked d b := by
    intro a
    induction a with
    | nil => intro b d h; exact h
    | cons x xs ih => intro b d h; exact ih b d h.2
  have hown' : Linked c'.data.data own' :=
    linked_congr c.data.data _ _ (hrest own' (fun g hg => by simp [hg]) (fun g hg => by rw [ho]; simp [hg]))
      (linked_suffix o1 own' _ (ho ▸ ha.ownL))
  have hfr'' : Linked c'.data.data fr' :=
    linked_congr c.data.data _ _ (hrest fr' (fun g hg => by simp [hg]) (fun g hg => by rw [hfr]; simp [hg]))
      (linked_suffix f1 fr' _ (hfr ▸ ha.frL))
  have hav : Avail c'.data.data own' fr' :=
    ⟨hown', hfr'', fun g hg => ⟨(hallr g (List.mem_append_left _ hg)).1, (hallr g (List.mem_append_left _ hg)).2⟩,
      (List.pairwise_append.mp hapr).1, fun g hg => ha.roomy g (by rw [ho, hfr]; rw [List.mem_append] at hg; rcases hg with h | h <;> simp [h])⟩
  have hstored : Stores c'.data.data used bs := by
    obtain ⟨g, rest, hur, e⟩ := hh1
    refine ⟨⟨g, rest, hur, ?_⟩, by omega, hh3, hh4, hh5⟩
    simpa using e
  have hul : used.length ≤ own.length + free.length + 1 := by
    rw [hu, ho, hfr]
    have : new.length ≤ 1 := by
      rcases hnew with h | ⟨sz, h1, h2, h3⟩
      · rw [h]; simp
      · rw [h2]; simp
    simp only [List.length_append]; omega
  have hof : ∀ u ∈ own' ++ used, u ∈ own ++ free ∨ c.data.data.length ≤ u.addr := by
    intro u hu'
    rw [List.mem_append] at hu'
    rcases hu' with h | h
    · left; rw [ho]; simp [h]
    · rcases split_mem hsp' u h with h | h
      · exact Or.inl h
      · exact Or.inr (hnewin u h).2.2
  unfold writeCore
  simp only
  rw [hstart, ew]
  simp only [Outcome.ok_bind]
  by_cases hemp : own' = []
  · have hlast : ¬ (startOf own' fr' c'.data.data.length < c'.data.data.length ∧
        startOf own' fr' c'.data.data.length ≠ c'.next) := by
      rw [hemp]
      cases hfe : fr' with
      | nil => simp [startOf]
      | cons x xs => rw [en, hfe]; simp [startOf, headAddr]
    rw [if_neg hlast, ← hhead]
    refine ⟨used, fr', { c' with modified := true }, rfl, rfl, ep, hlen3, hlen2,
      by rw [hfr]; simp; omega, hul, ?_, hnewpos, ?_⟩
    · intro a n hn h
      refine hframe a n hn ?_
      intro u hu'
      rcases hof u (by simp [hu']) with h1 | h1
      · exact h u h1
      · left; omega
    · rw [hemp, List.nil_append] at hapr hallr
      refine ⟨en, hfr'', ?_, ?_, ?_, ?_, ?_, ?_⟩
      · intro b hb
        rcases List.mem_cons.mp hb with rfl | hb
        · exact hh2
        · exact (hoth b hb).1
      · intro b hb
        rcases List.mem_cons.mp hb with rfl | hb
        · exact hstored
        · exact (hoth b hb).2
      · intro g hg; exact hallr g (by simpa using hg)
      · simpa using hapr
      · intro g hg; exact hav.roomy g (by simp at hg ⊢; simp [hg])
      · intro b hb
        rcases List.mem_cons.mp hb with rfl | hb
        · by_cases hb0 : 0 < bs.length
          · exact Or.inl (hnewpos (Or.inl hb0))
          · exact Or.inr (List.length_eq_zero_iff.mp (by simpa using hb0))
        · exact hro b hb
  · have hstartown : startOf own' fr' c'.data.data.length = headAddr own' := by
      cases hoe : own' with
      | nil => exact absurd hoe hemp
      | cons x xs => rfl
    obtain ⟨x, xs, hxe⟩ : ∃ x xs, own' = x :: xs := by
      cases hoe : own' with
      | nil => exact absurd hoe hemp
      | cons x xs => exact ⟨x, xs, rfl⟩
    have hx := hallr x (by simp [hxe])
    have hxs := hx.2
    unfold Page.stop at hxs
    have hxn : x.addr ≠ c'.next := by
      rw [en]
      cases hfe : fr' with
      | nil => exact headAddr_ne_last _ x hx.2 (by omega)
      | cons y ys =>
        simp only [headAddr]
        have := hav.apart
        rw [hxe, hfe] at this
        exact apart_ne ((List.pairwise_cons.mp this).1 y (by simp))
    have hlast : startOf own' fr' c'.data.data.length < c'.data.data.length ∧
        startOf own' fr' c'.data.data.length ≠ c'.next := by
      rw [hstartown, hxe]; simp only [headAddr]; exact ⟨by omega, hxn⟩
    rw [if_pos hlast, hstartown]
    unfold freeBlock
    have h0 : ¬ (headAddr own' = 0 ∨ headAddr own' = LAST) := by
      rw [hxe]; simp only [headAddr]
      rintro (h | h)
      · omega
      · exact headAddr_ne_last _ x hx.2 (by omega) h
    rw [if_neg h0, en]
    obtain ⟨m', e1, e2, e3, e4⟩ := freeLoop_ok fr' own' fuel c'.data defaultHdr hemp (by omega) hav (by decide)
      (by rw [ho] at hf; simp at hf; omega)
    rw [e1]
    simp only [Outcome.ok_bind]
    rw [← hhead]
    have husedap : ∀ g ∈ used, ∀ u ∈ own', Apart g u := by
      intro g hg u hu'
      rw [List.pairwise_append] at hapr
      exact apart_symm (hapr.2.2 u (by simp [hu']) g (by simp [hg]))
    obtain ⟨k1, k2⟩ := frame_block e3 (fun g hg => (hallr g (by simp [hg])).2) husedap
    refine ⟨used, own' ++ fr', { c' with data := m', next := headAddr own', emptyMod := true, modified := true },
      rfl, rfl, ep, by simp only; omega, by simp only; omega,
      by rw [hfr, ho]; simp; omega, hul, ?_, hnewpos, ?_⟩
    · intro a n hn h
      rw [e3 a n (by omega) ?_, hframe a n hn ?_]
      · intro u hu'
        rcases hof u (by simp [hu']) with h1 | h1
        · exact h u h1
        · left; omega
      · intro u hu'
        rcases hof u (by simp [hu']) with h1 | h1
        · exact h u h1
        · left; omega
    · refine ⟨by rw [hxe]; rfl, e4, ?_, ?_, ?_, ?_, ?_, ?_⟩
      · intro b hb
        rcases List.mem_cons.mp hb with rfl | hb
        · exact linked_congr _ _ _ k1 hh2
        · obtain ⟨j1, j2⟩ := frame_block e3 (fun g hg => by have := hotherin b hb g hg; omega)
            (fun g hg u hu' => hotherap b hb g hg u (by simp [hu']))
          exact linked_congr _ _ _ j1 (hoth b hb).1
      · intro b hb
        rcases List.mem_cons.mp hb with rfl | hb
        · exact stores_congr k1 k2 hstored
        · obtain ⟨j1, j2⟩ := frame_block e3 (fun g hg => by have := hotherin b hb g hg; omega)
            (fun g hg u hu' => hotherap b hb g hg u (by simp [hu']))
          exact stores_congr j1 j2 (hoth b hb).2
      · intro g hg; have := hallr g (by simpa using hg); exact ⟨this.1, by simp only; omega⟩
      · simpa using hapr
      · intro g hg; exact hav.roomy g (by simp at hg ⊢; simp [hg])
      · intro b hb
        rcases List.mem_cons.mp hb with rfl | hb
        · by_cases hb0 : 0 < bs.length
          · exact Or.inl (hnewpos (Or.inl hb0))
          · exact Or.inr (List.length_eq_zero_iff.mp (by simpa using hb0))
        · exact hro b hb

end Verif.Container
