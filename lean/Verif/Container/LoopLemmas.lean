import Verif.Container.WriteLemmas
import Mathlib.Tactic.Tauto

/-! # Helper lemmas: the page loop of `write_block` -/

namespace Verif.Container
open Verif Verif.Stream Verif.Container.Spec

/-- The pages the loop may use: the rest of the block's own chain, then the free chain. -/
structure Avail (d : Bytes) (own fr : List Page) : Prop where
  ownL : Linked d own
  frL : Linked d fr
  inside : ∀ g ∈ own ++ fr, 16 ≤ g.addr ∧ g.stop ≤ d.length
  apart : (own ++ fr).Pairwise Apart
  roomy : ∀ g ∈ own ++ fr, 0 < g.size

/-- `used` is a prefix of own chain, free chain and new page. -/
def Split (own fr used new own' fr' : List Page) : Prop :=
  ∃ o1 f1, own = o1 ++ own' ∧ fr = f1 ++ fr' ∧ used = o1 ++ f1 ++ new ∧
    (own' ≠ [] → f1 = [] ∧ new = []) ∧ (fr' ≠ [] → new = [])

/-- Bytes outside the given pages are as before. -/
def Frame (d d' : Bytes) (used : List Page) : Prop :=
  ∀ a n, a + n ≤ d.length → (∀ g ∈ used, a + n ≤ g.addr ∨ g.stop ≤ a) → slice d' a n = slice d a n

/-- The chain holds `bs`, its first header saying `ds`. -/
def Holds (d : Bytes) (used : List Page) (ds : Nat) (bs : Bytes) : Prop :=
  (∃ g rest, used = g :: rest ∧ slice d g.addr 31 = header ds g.size (headAddr rest)) ∧
  Linked d used ∧ bs.length ≤ total used ∧ (body d used).take bs.length = bs ∧
  (used.length = 1 ∨ total used.dropLast < bs.length)

theorem linked_congr (d d' : Bytes) : ∀ (gs : List Page),
    (∀ g ∈ gs, slice d' g.addr 31 = slice d g.addr 31) → Linked d gs → Linked d' gs
  | [], _, _ => trivial
  | g :: gs, h, hl => by
    obtain ⟨⟨ds, hd, e⟩, hl'⟩ := hl
    exact ⟨⟨ds, hd, by rw [h g (by simp)]; exact e⟩, linked_congr d d' gs (fun x hx => h x (by simp [hx])) hl'⟩

theorem body_congr (d d' : Bytes) : ∀ (gs : List Page),
    (∀ g ∈ gs, slice d' (g.addr + 31) g.size = slice d (g.addr + 31) g.size) → body d' gs = body d gs
  | [], _ => rfl
  | g :: gs, h => by
    rw [body_cons, body_cons, h g (by simp), body_congr d d' gs (fun x hx => h x (by simp [hx]))]

theorem newSize_mono (ups : Bool) (ps a b : Nat) (h : a ≤ b) : newSize ups ps a ≤ newSize ups ps b := by
  unfold newSize
  split
  · split <;> split <;> omega
  · exact h

theorem le_newSize (ups : Bool) (ps a : Nat) : a ≤ newSize ups ps a := by
  unfold newSize
  split
  · split <;> omega
  · omega

theorem apart_ne {g h : Page} (ha : Apart g h) : g.addr ≠ h.addr := by
  unfold Apart Page.stop at ha; omega

theorem split_mem {own fr used new own' fr' : List Page} (h : Split own fr used new own' fr') :
    ∀ g ∈ used, g ∈ own ++ fr ∨ g ∈ new := by
  obtain ⟨o1, f1, rfl, rfl, rfl, _, _⟩ := h
  intro g hg
  simp only [List.mem_append] at hg ⊢
  tauto

/-- The situation at one turn of the loop: the next page and what comes after it. -/
def Turn (own fr : List Page) (g : Page) (own1 fr1 : List Page) : Prop :=
  (own = g :: own1 ∧ fr = fr1) ∨ (own = [] ∧ own1 = [] ∧ fr = g :: fr1)

theorem turn_split {own fr own1 fr1 used new own' fr' : List Page} {g : Page}
    (ht : Turn own fr g own1 fr1) (h : Split own1 fr1 used new own' fr') :
    Split own fr (g :: used) new own' fr' := by
  obtain ⟨o1, f1, e1, e2, e3, c1, c2⟩ := h
  rcases ht with ⟨rfl, rfl⟩ | ⟨rfl, rfl, rfl⟩
  · exact ⟨g :: o1, f1, by simp [e1], e2, by simp [e3], c1, c2⟩
  · have ho : o1 = [] := by
      have := congrArg List.length e1; simp at this; exact List.length_eq_zero_iff.mp (by omega)
    have ho' : own' = [] := by
      have := congrArg List.length e1; simp at this; exact List.length_eq_zero_iff.mp (by omega)
    subst ho ho'
    exact ⟨[], g :: f1, rfl, by simp [e2], by simp [e3], fun h => absurd rfl h, c2⟩

theorem turn_stop {own fr own1 fr1 : List Page} {g : Page} (ht : Turn own fr g own1 fr1) :
    Split own fr [g] [] own1 fr1 := by
  rcases ht with ⟨rfl, rfl⟩ | ⟨rfl, rfl, rfl⟩
  · exact ⟨[g], [], rfl, rfl, rfl, fun _ => ⟨rfl, rfl⟩, fun _ => rfl⟩
  · exact ⟨[], [g], rfl, rfl, rfl, fun h => absurd rfl h, fun _ => rfl⟩

theorem turn_start {own fr own1 fr1 : List Page} {g : Page} (ht : Turn own fr g own1 fr1) (n : Nat) :
    startOf own fr n = g.addr := by
  rcases ht with ⟨rfl, rfl⟩ | ⟨rfl, rfl, rfl⟩ <;> rfl

theorem turn_apart {own fr own1 fr1 : List Page} {g : Page} {d : Bytes} (ht : Turn own fr g own1 fr1)
    (ha : Avail d own fr) : ∀ h ∈ own1 ++ fr1, Apart g h := by
  have := ha.apart
  rcases ht with ⟨rfl, rfl⟩ | ⟨rfl, rfl, rfl⟩
  · exact (List.pairwise_cons.mp this).1
  · exact (List.pairwise_cons.mp this).1

theorem turn_avail {own fr own1 fr1 : List Page} {g : Page} {d : Bytes} (ht : Turn own fr g own1 fr1)
    (ha : Avail d own fr) : Avail d own1 fr1 := by
  obtain ⟨h1, h2, h3, h4, h5⟩ := ha
  rcases ht with ⟨rfl, rfl⟩ | ⟨rfl, rfl, rfl⟩
  · exact ⟨h1.2, h2, fun x hx => h3 x (by simp at hx ⊢; tauto), (List.pairwise_cons.mp h4).2,
      fun x hx => h5 x (by simp at hx ⊢; tauto)⟩
  · exact ⟨trivial, h2.2, fun x hx => h3 x (by simp at hx ⊢; tauto), (List.pairwise_cons.mp h4).2,
      fun x hx => h5 x (by simp at hx ⊢; tauto)⟩

theorem turn_mem {own fr own1 fr1 : List Page} {g : Page} (ht : Turn own fr g own1 fr1) : g ∈ own ++ fr := by
  rcases ht with ⟨rfl, rfl⟩ | ⟨rfl, rfl, rfl⟩ <;> simp

/-- After page `g` is written, the remaining pages are still available. -/
theorem avail_put {d : Bytes} {own1 fr1 : List Page} {g : Page} (ha : Avail d own1 fr1)
    (hap : ∀ h ∈ own1 ++ fr1, Apart g h) (hst : g.stop ≤ d.length) (bs : Bytes) (hb : bs.length ≤ 31 + g.size) :
    Avail (putAt d g.addr bs) own1 fr1 := by
  obtain ⟨h1, h2, h3, h4, h5⟩ := ha
  have hst' := hst
  unfold Page.stop at hst'
  have key : ∀ x ∈ own1 ++ fr1, slice (putAt d g.addr bs) x.addr 31 = slice d x.addr 31 := by
    intro x hx
    have hx1 := hap x hx
    unfold Apart Page.stop at hx1
    exact slice_putAt_apart _ _ _ _ _ (by omega) (by omega)
  refine ⟨linked_congr _ _ _ (fun x hx => key x (by simp [hx])) h1,
    linked_congr _ _ _ (fun x hx => key x (by simp [hx])) h2, ?_, h4, h5⟩
  intro x hx
  rw [putAt_length _ _ _ (by omega)]
  have := h3 x hx
  exact ⟨this.1, by omega⟩

/-- One turn on an existing page. -/
theorem turn_step {own fr own1 fr1 : List Page} {g : Page} (c : Cat) (blk : Mem) (hdr : Bytes) (len fuel : Nat)
    (ups first : Bool) (ht : Turn own fr g own1 fr1) (ha : Avail c.data.data own fr)
    (hnext : c.next = headAddr fr) (hh : hdr.length = 31) (hr : Ready blk len)
    (hd : c.data.data.length < LAST) :
    ∃ (nxt : Nat) (c1 : Cat) (blk1 : Mem), nxt = startOf own1 fr1 c.data.data.length ∧
      c1.data.data = putAt c.data.data g.addr
        (header (if first then len else 0) g.size (if len ≤ g.size then LAST else nxt) ++
          (left blk).take (min g.size len)) ∧
      c1.next = headAddr fr1 ∧ c1.pageSize = c.pageSize ∧
      (g.size < len → Ready blk1 (len - g.size) ∧ left blk1 = (left blk).drop g.size) ∧
      writeLoop (fuel + 1) c blk hdr (startOf own fr c.data.data.length) len ups first =
        if len - min g.size len > 0 then
          writeLoop fuel c1 blk1 (header (if first then len else 0) g.size (if len ≤ g.size then LAST else nxt))
            nxt (len - min g.size len) ups false
        else .ok (some (c1, nxt)) := by
  have hg := ha.inside g (turn_mem ht)
  have hsz := ha.roomy g (turn_mem ht)
  have ha1 := turn_avail ht ha
  have hlt : ∀ gs : List Page, (∀ x ∈ gs, x ∈ own1 ++ fr1) → headAddr gs < 2 ^ 31 :=
    fun gs h => headAddr_lt c.data.data gs (fun x hx => (ha1.inside x (h x hx)).2) hd
  have hne0 : ∀ gs : List Page, (∀ x ∈ gs, x ∈ own1 ++ fr1) → headAddr gs ≠ 0 := by
    intro gs h
    cases gs with
    | nil => simp [headAddr, LAST]
    | cons x xs => have := ha1.inside x (h x (by simp)); simp only [headAddr]; omega
  rw [turn_start ht]
  -- the header of g
  have hlink : ∃ ds n, slice c.data.data g.addr 31 = header ds g.size n ∧ n < 2 ^ 31 ∧ n ≠ 0 ∧
      (if g.addr = c.next then n else c.next) = headAddr fr1 ∧
      ∀ c2 : Cat, c2.next = headAddr fr1 → c2.data.data = c.data.data →
        nextBlock c2 n = startOf own1 fr1 c.data.data.length := by
    have hstart : ∀ c2 : Cat, c2.next = headAddr fr1 → c2.data.data = c.data.data →
        nextBlock c2 LAST = startOf [] fr1 c.data.data.length := by
      intro c2 h1 h2
      unfold nextBlock
      rw [if_pos (Or.inr rfl), h1, h2]
      cases hfr : fr1 with
      | nil => simp [headAddr, startOf]
      | cons x xs =>
        have hx := ha1.inside x (by simp [hfr])
        rw [headAddr, if_neg (headAddr_ne_last _ x hx.2 hd)]; rfl
    rcases ht with ⟨rfl, rfl⟩ | ⟨rfl, rfl, rfl⟩
    · obtain ⟨ds, hds, e⟩ := ha.ownL.1
      refine ⟨ds, headAddr own1, e, hlt own1 (fun x hx => by simp [hx]), hne0 own1 (fun x hx => by simp [hx]), ?_, ?_⟩
      · rw [if_neg ?_, hnext]
        rw [hnext]
        cases hfr : fr with
        | nil => exact headAddr_ne_last _ g hg.2 hd
        | cons x xs =>
          simp only [headAddr]
          exact apart_ne (turn_apart (Or.inl ⟨rfl, rfl⟩) ha x (by simp [hfr]))
      · intro c2 h1 h2
        cases ho : own1 with
        | nil => exact hstart c2 h1 h2
        | cons x xs =>
          have hx := ha1.inside x (by simp [ho])
          simp only [headAddr, startOf]
          unfold nextBlock
          rw [if_neg]
          rintro (h | h)
          · omega
          · exact headAddr_ne_last _ x hx.2 hd h
    · obtain ⟨ds, hds, e⟩ := ha.frL.1
      refine ⟨ds, headAddr fr1, e, hlt fr1 (fun x hx => by simp [hx]), hne0 fr1 (fun x hx => by simp [hx]), ?_, ?_⟩
      · rw [if_pos (by rw [hnext]; rfl)]
      · intro c2 h1 h2
        cases ho : fr1 with
        | nil => have := hstart c2 h1 h2; rw [ho] at this; exact this
        | cons x xs =>
          have hx := ha1.inside x (by simp [ho])
          simp only [headAddr, startOf]
          unfold nextBlock
          rw [if_neg]
          rintro (h | h)
          · omega
          · exact headAddr_ne_last _ x hx.2 hd h
  obtain ⟨ds, n, e, hn, hn0, hnx, hnb⟩ := hlink
  rw [writeLoop, pick_page c hdr g n ds len ups hh hd hg.2 e hn]
  simp only [Outcome.ok_bind]
  generalize hc2 : (Cat.mk ⟨c.data.data, ((g.addr + 31 : Nat) : Int)⟩ (if g.addr = c.next then n else c.next)
    c.pageSize (if g.addr = c.next then true else c.emptyMod) c.modified) = c2
  have e1 : c2.data.data = c.data.data := by rw [← hc2]
  have e2 : c2.next = headAddr fr1 := by rw [← hc2]; exact hnx
  have e3 : c2.pageSize = c.pageSize := by rw [← hc2]
  obtain ⟨p, p', ep, r1, r2⟩ := put_page c2 blk g n ds len first (by rw [e1]; exact hg.2) hn0 hsz hr
  rw [ep]
  simp only [Outcome.ok_bind]
  rw [hnb c2 e2 e1, e1]
  exact ⟨startOf own1 fr1 c.data.data.length,
    { c2 with data := ⟨putAt c.data.data g.addr
        (header (if first then len else 0) g.size
          (if len ≤ g.size then LAST else startOf own1 fr1 c.data.data.length) ++
          (left blk).take (min g.size len)), p⟩ },
    ⟨blk.data, p'⟩, rfl, rfl, e2, e3, fun h => ⟨r1 h, r2 h⟩, rfl⟩

theorem frame_put (d : Bytes) (g : Page) (bs : Bytes) (hst : g.stop ≤ d.length) (hb : bs.length ≤ 31 + g.size) :
    Frame d (putAt d g.addr bs) [g] := by
  intro a n _ h
  have := h g (by simp)
  unfold Page.stop at this hst
  exact slice_putAt_apart _ _ _ _ _ (by omega) (by omega)

theorem frame_trans {d d1 d2 : Bytes} {u1 u2 : List Page} (h1 : Frame d d1 u1) (h2 : Frame d1 d2 u2)
    (hl : d.length ≤ d1.length) : Frame d d2 (u1 ++ u2) := by
  intro a n ha h
  rw [h2 a n (by omega) (fun g hg => h g (by simp [hg])), h1 a n ha (fun g hg => h g (by simp [hg]))]

theorem writeLoop_ok : ∀ (k : Nat) (own fr : List Page) (c : Cat) (blk : Mem) (hdr : Bytes) (len fuel : Nat)
    (ups first : Bool), own.length + fr.length = k → Avail c.data.data own fr → c.next = headAddr fr →
    hdr.length = 31 → Ready blk len →
    c.data.data.length + 31 + newSize ups c.pageSize len < LAST → k < fuel →
    ∃ used new own' fr' c', Split own fr used new own' fr' ∧
      writeLoop fuel c blk hdr (startOf own fr c.data.data.length) len ups first =
        .ok (some (c', startOf own' fr' c'.data.data.length)) ∧
      c'.next = headAddr fr' ∧ c'.pageSize = c.pageSize ∧
      (new = [] ∨ ∃ sz, sz ≤ newSize ups c.pageSize len ∧ new = [⟨c.data.data.length, sz⟩] ∧
        (0 < len ∨ (ups = true ∧ 0 < c.pageSize) → 0 < sz)) ∧
      c'.data.data.length = c.data.data.length + (new.map fun g => 31 + g.size).sum ∧
      Frame c.data.data c'.data.data used ∧
      headAddr used = startOf own fr c.data.data.length ∧
      Holds c'.data.data used (if first then len else 0) (left blk) := by
  intro k
  induction k with
  | zero =>
    intro own fr c blk hdr len fuel ups first hk ha hnext hh hr hd hf
    obtain ⟨f, rfl⟩ : ∃ f, fuel = f + 1 := ⟨fuel - 1, by omega⟩
    have ho : own = [] := List.length_eq_zero_iff.mp (by omega)
    have hfr : fr = [] := List.length_eq_zero_iff.mp (by omega)
    subst ho hfr
    have hne : c.data.data.length ≠ c.next := by rw [hnext]; simp only [headAddr]; omega
    have hsz := le_newSize ups c.pageSize len
    have hll := ready_left hr
    rw [show startOf [] [] c.data.data.length = c.data.data.length from rfl]
    obtain ⟨p, p', e⟩ := put_new c blk 0 len (newSize ups c.pageSize len) first hsz hr
    rw [writeLoop, pick_new c hdr len ups hne]
    simp only [Outcome.ok_bind]
    rw [e]
    simp only [Outcome.ok_bind]
    rw [if_neg (by omega)]
    have hHl : (header (if first = true then len else 0) (newSize ups c.pageSize len) LAST).length = 31 :=
      header_length _ _ _
    refine ⟨[⟨c.data.data.length, newSize ups c.pageSize len⟩],
      [⟨c.data.data.length, newSize ups c.pageSize len⟩], [], [],
      { c with data := ⟨c.data.data ++ (header (if first then len else 0) (newSize ups c.pageSize len) LAST ++
        left blk ++ List.replicate (newSize ups c.pageSize len - len) 0), p⟩ },
      ⟨[], [], rfl, rfl, rfl, fun h => absurd rfl h, fun h => absurd rfl h⟩, ?_, hnext, rfl,
      Or.inr ⟨_, Nat.le_refl _, rfl, ?_⟩, ?_, ?_, rfl, ?_⟩
    · simp only [startOf, List.length_append, hHl, List.length_replicate, hll]
      congr 3; omega
    · intro h
      rcases h with h | ⟨h1, h2⟩
      · omega
      · unfold newSize; rw [if_pos h1]; split <;> omega
    · simp only [List.length_append, hHl, List.length_replicate, hll, List.map_cons, List.map_nil,
        List.sum_cons, List.sum_nil]
      omega
    · intro a n hn _
      simp only [slice]
      rw [List.drop_append_of_le_length (by omega), List.take_append_of_le_length (by simp; omega)]
    · simp only [Holds, List.append_assoc]
      have hh1 : slice (c.data.data ++ (header (if first = true then len else 0) (newSize ups c.pageSize len) LAST ++
          (left blk ++ List.replicate (newSize ups c.pageSize len - len) 0))) c.data.data.length 31 =
          header (if first = true then len else 0) (newSize ups c.pageSize len) LAST := by
        rw [slice_append_right _ _ _ _ rfl, List.take_left' hHl]
      refine ⟨⟨_, [], rfl, hh1⟩, ⟨⟨_, ?_, hh1⟩, trivial⟩, ?_, ?_, Or.inl rfl⟩
      · unfold LAST at hd; split <;> omega
      · simp only [total, List.map_cons, List.map_nil, List.sum_cons, List.sum_nil]; omega
      · simp only [body, List.flatMap_cons, List.flatMap_nil, List.append_nil]
        rw [← List.append_assoc, slice_append_right _ _ _ _ (by simp only [List.length_append, hHl])]
        rw [List.take_take, Nat.min_eq_left (by omega), List.take_left' rfl]
  | succ k ih =>
    intro own fr c blk hdr len fuel ups first hk ha hnext hh hr hd hf
    obtain ⟨f, rfl⟩ : ∃ f, fuel = f + 1 := ⟨fuel - 1, by omega⟩
    obtain ⟨g, own1, fr1, ht, hk1⟩ : ∃ g own1 fr1, Turn own fr g own1 fr1 ∧ own1.length + fr1.length = k := by
      cases own with
      | cons g own1 => exact ⟨g, own1, fr, Or.inl ⟨rfl, rfl⟩, by simp at hk; omega⟩
      | nil =>
        cases fr with
        | cons g fr1 => exact ⟨g, [], fr1, Or.inr ⟨rfl, rfl, rfl⟩, by simp at hk ⊢; omega⟩
        | nil => simp at hk
    have hg := ha.inside g (turn_mem ht)
    have hgs := ha.roomy g (turn_mem ht)
    have hap := turn_apart ht ha
    have hgst := hg.2
    unfold Page.stop at hgst
    have hll := ready_left hr
    obtain ⟨nxt, c1, blk1, en, ed, e2, e3, er, eq⟩ :=
      turn_step c blk hdr len f ups first ht ha hnext hh hr (by omega)
    generalize hH : header (if first = true then len else 0) g.size (if len ≤ g.size then LAST else nxt) = H at *
    have hHl : H.length = 31 := by rw [← hH]; exact header_length _ _ _
    have hbl : (H ++ (left blk).take (min g.size len)).length ≤ 31 + g.size := by
      simp only [List.length_append, List.length_take, hHl]; omega
    have hd1 : c1.data.data.length = c.data.data.length := by
      rw [ed, putAt_length _ _ _ (by omega)]; omega
    have hfr1 : Frame c.data.data c1.data.data [g] := by rw [ed]; exact frame_put _ _ _ hg.2 hbl
    have hslH : slice c1.data.data g.addr 31 = H := by
      rw [ed, show g.addr = g.addr + 0 from rfl, slice_putAt_in _ _ _ 0 31 (by omega) (by simp [hHl]),
        slice_append_left _ _ _ (by omega), List.take_of_length_le (by omega)]
    have hslB : slice c1.data.data (g.addr + 31) (min g.size len) = (left blk).take (min g.size len) := by
      rw [ed, slice_putAt_in _ _ _ 31 _ (by omega) (by simp only [List.length_append, List.length_take, hHl]; omega),
        slice_append_right _ _ _ _ hHl, List.take_of_length_le (by rw [List.length_take]; omega)]
    rw [eq]
    by_cases hfin : len ≤ g.size
    · rw [if_neg (by omega), en]
      refine ⟨[g], [], own1, fr1, c1, turn_stop ht, by rw [hd1], e2, e3, Or.inl rfl, by simp [hd1], hfr1,
        by rw [turn_start ht]; rfl, ?_⟩
      rw [if_pos hfin] at hH
      refine ⟨⟨g, [], rfl, by rw [hslH, ← hH]; rfl⟩, ⟨⟨_, ?_, by rw [hslH, ← hH]; rfl⟩, trivial⟩, ?_, ?_, Or.inl rfl⟩
      · have := le_newSize ups c.pageSize len
        unfold LAST at hd; split <;> omega
      · simp only [total, List.map_cons, List.map_nil, List.sum_cons, List.sum_nil]; omega
      · simp only [body, List.flatMap_cons, List.flatMap_nil, List.append_nil]
        rw [Nat.min_eq_right hfin] at hslB
        rw [List.take_of_length_le (by omega)] at hslB
        rw [hll]
        refine Eq.trans ?_ hslB
        unfold slice; rw [List.take_take, Nat.min_eq_left hfin]
    · rw [if_pos (by omega), en, ← hd1]
      have ha1 : Avail c1.data.data own1 fr1 := by
        rw [ed]; exact avail_put (turn_avail ht ha) hap hg.2 _ hbl
      rw [Nat.min_eq_left (by omega)] at hslB ⊢
      obtain ⟨hr1, hl1⟩ := er (by omega)
      have hmono := newSize_mono ups c.pageSize (len - g.size) len (by omega)
      obtain ⟨used, new, own', fr', c', hsp, ew, en', ep', hnew, hlen', hframe, hhead, hh1, hh2, hh3, hh4, hh5⟩ :=
        ih own1 fr1 c1 blk1 H (len - g.size) f ups false hk1 ha1 e2 hHl hr1 (by rw [hd1, e3]; omega) (by omega)
      -- g is apart from everything written later
      have hgap : ∀ x ∈ used, g.stop ≤ x.addr ∨ x.stop ≤ g.addr := by
        intro x hx
        rcases split_mem hsp x hx with h | h
        · exact hap x h
        · rcases hnew with hnew | ⟨sz, _, hnew, _⟩
          · rw [hnew] at h; simp at h
          · rw [hnew] at h
            simp only [List.mem_singleton] at h
            left; rw [h, hd1]; exact hg.2
      have hgH : slice c'.data.data g.addr 31 = H := by
        rw [hframe g.addr 31 (by omega) ?_, hslH]
        intro x hx
        have := hgap x hx
        unfold Page.stop at this ⊢
        omega
      have hgB : slice c'.data.data (g.addr + 31) g.size = (left blk).take g.size := by
        rw [hframe (g.addr + 31) g.size (by omega) ?_, hslB]
        intro x hx
        have := hgap x hx
        unfold Page.stop at this ⊢
        omega
      have hHeq : H = header (if first = true then len else 0) g.size (headAddr used) := by
        rw [← hH, if_neg hfin, hhead, en, hd1]
      refine ⟨g :: used, new, own', fr', c', turn_split ht hsp, ew, en', by rw [ep', e3], ?_, by rw [hlen', hd1],
        ?_, by rw [turn_start ht]; rfl, ?_⟩
      · rcases hnew with hnew | ⟨sz, h1, h2, h3⟩
        · exact Or.inl hnew
        · refine Or.inr ⟨sz, by rw [e3] at h1; omega, by rw [h2, hd1], fun _ => h3 (Or.inl (by omega))⟩
      · exact frame_trans (u1 := [g]) hfr1 hframe (by omega)
      · obtain ⟨g1, rest, hu, _⟩ := hh1
        refine ⟨⟨g, used, rfl, by rw [hgH, hHeq]⟩, ⟨⟨_, ?_, by rw [hgH, hHeq]⟩, hh2⟩, ?_, ?_, ?_⟩
        · have := le_newSize ups c.pageSize len
          unfold LAST at hd; split <;> omega
        · rw [total_cons]
          rw [hl1, List.length_drop] at hh3
          omega
        · rw [body_cons, hgB, hll]
          rw [hl1, List.length_drop, hll] at hh4
          rw [List.take_append, List.length_take, hll, Nat.min_eq_left (by omega : g.size ≤ len), hh4]
          rw [List.take_take, Nat.min_eq_right (by omega), List.take_append_drop]
        · right
          rw [List.dropLast_cons_of_ne_nil (by rw [hu]; simp), total_cons]
          rw [hl1, List.length_drop] at hh5 hh3
          rcases hh5 with h | h
          · have : used.dropLast = [] := by
              have := List.length_dropLast (xs := used); rw [h] at this
              exact List.length_eq_zero_iff.mp this
            rw [this]; simp [total]; omega
          · omega

end Verif.Container
