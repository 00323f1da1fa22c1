import Verif.Container.Lemmas

/-! # Helper lemmas: reading a chain, writing a chain, freeing a chain -/

namespace Verif.Container
open Verif Verif.Stream Verif.Container.Spec

theorem get_pageSize' (a b c : Nat) (hb : b < 2 ^ 31) : getField (header a b c) pageSizeOff = .ok b := by
  have := get_pageSize a b c (by omega) []
  rw [List.append_nil, if_neg (by omega)] at this; exact this

theorem get_next' (a b c : Nat) (hb : c < 2 ^ 31) : getField (header a b c) nextOff = .ok c := by
  have := get_next a b c (by omega) []
  rw [List.append_nil, if_neg (by omega)] at this; exact this

theorem get_dataSize' (a b c : Nat) (hb : a < 2 ^ 31) : getField (header a b c) dataSizeOff = .ok a := by
  have := get_dataSize a b c (by omega) []
  rw [List.append_nil, if_neg (by omega)] at this; exact this

theorem body_cons (d : Bytes) (g : Page) (gs : List Page) :
    body d (g :: gs) = slice d (g.addr + 31) g.size ++ body d gs := rfl

theorem total_cons (g : Page) (gs : List Page) : total (g :: gs) = g.size + total gs := by
  simp [total]

theorem headAddr_lt (d : Bytes) (gs : List Page) (hin : ∀ g ∈ gs, g.stop ≤ d.length)
    (hd : d.length < LAST) : headAddr gs < 2 ^ 31 := by
  unfold LAST at hd
  cases gs with
  | nil => simp [headAddr, LAST]
  | cons g gs => have := hin g (by simp); unfold Page.stop at this; simp only [headAddr]; omega

theorem headAddr_ne_last (d : Bytes) (g : Page) (h : g.stop ≤ d.length)
    (hd : d.length < LAST) : g.addr ≠ LAST := by
  unfold Page.stop at h; omega

/-! ## Reading -/

theorem readLoop_ok (d : Bytes) (hd : d.length < LAST) : ∀ (gs : List Page) (fuel : Nat) (src : Mem) (hdr : Bytes)
    (dst : Bytes) (len pos : Nat), src.data = d → hdr.length = 31 → Linked d gs →
    (∀ g ∈ gs, g.stop ≤ d.length) → (∀ g ∈ gs, 0 < g.size) →
    pos ≤ len → len - pos ≤ total gs → (gs ≠ [] → total gs.dropLast < len - pos) → gs.length < fuel →
    readLoop fuel src hdr ⟨dst, (dst.length : Int)⟩ (headAddr gs) len pos =
      .ok (some ⟨dst ++ (body d gs).take (len - pos), ((dst ++ (body d gs).take (len - pos)).length : Int)⟩)
  | [], fuel, src, hdr, dst, len, pos, hs, hh, hl, hin, hpos, hp, ht, hm, hf => by
    obtain ⟨f, rfl⟩ : ∃ f, fuel = f + 1 := ⟨fuel - 1, by simp at hf; omega⟩
    simp [readLoop, headAddr, body]
  | g :: gs, fuel, src, hdr, dst, len, pos, hs, hh, hl, hin, hpos, hp, ht, hm, hf => by
    obtain ⟨f, rfl⟩ : ∃ f, fuel = f + 1 := ⟨fuel - 1, by simp at hf; omega⟩
    obtain ⟨⟨ds, hds, hg⟩, hl'⟩ := hl
    have hst := hin g (by simp)
    have hsz := hpos g (by simp)
    have hst' := hst
    unfold Page.stop at hst'
    have hLd : LAST = 2147483647 := rfl
    rw [readLoop, headAddr, if_neg (headAddr_ne_last d g hst hd)]
    rw [seekB_ok _ _ (by rw [hs]; omega), hs]
    simp only [Outcome.ok_bind]
    rw [readHdr_ok d g.addr hdr hh (by omega)]
    simp only [Outcome.ok_bind]
    rw [hg, get_pageSize' _ _ _ (by omega), Outcome.ok_bind,
      get_next' _ _ _ (headAddr_lt d gs (fun x hx => hin x (by simp [hx])) hd), Outcome.ok_bind]
    have hrem : 0 < len - pos := by have := hm (by simp); omega
    have hr : 0 < min (len - pos) g.size := by omega
    rw [copyFrom_ok dst dst.length ⟨d, _⟩ (g.addr + 31) (min (len - pos) g.size) (Nat.le_refl _) rfl hr
      (by simp only; omega)]
    simp only [Outcome.ok_bind]
    have hput : putAt dst dst.length (slice d (g.addr + 31) (min (len - pos) g.size)) =
        dst ++ slice d (g.addr + 31) (min (len - pos) g.size) := by
      unfold putAt; rw [List.take_length, List.drop_eq_nil_of_le (by omega)]; simp
    have hsl := slice_length d (g.addr + 31) (min (len - pos) g.size) (by omega)
    rw [hput]
    have hlen2 : ((dst.length + min (len - pos) g.size : Nat) : Int) =
        ((dst ++ slice d (g.addr + 31) (min (len - pos) g.size)).length : Int) := by
      rw [List.length_append, hsl]
    rw [hlen2]
    rw [total_cons] at ht
    have hrest : len - (pos + min (len - pos) g.size) ≤ total gs := by omega
    rw [readLoop_ok d hd gs f ⟨d, _⟩ _ _ len (pos + min (len - pos) g.size) rfl (header_length _ _ _) hl'
      (fun x hx => hin x (by simp [hx])) (fun x hx => hpos x (by simp [hx])) (by omega) hrest
      (by
        intro hne
        have := hm (by simp)
        rw [List.dropLast_cons_of_ne_nil hne, total_cons] at this
        omega) (by simp at hf; omega)]
    have key : dst ++ slice d (g.addr + 31) (min (len - pos) g.size) ++
        (body d gs).take (len - (pos + min (len - pos) g.size)) =
        dst ++ (body d (g :: gs)).take (len - pos) := by
      rw [List.append_assoc]; congr 1
      have hs3 := slice_length d (g.addr + 31) g.size (by omega)
      rw [body_cons, List.take_append, hs3]
      congr 1
      · unfold slice; rw [List.take_take]
      · congr 1; omega
    rw [key]

/-- Reading a stored block yields its bytes. -/
theorem readBlock_ok (d : Bytes) (hd : d.length < LAST) (gs : List Page) (bs : Bytes) (src : Mem)
    (hs : src.data = d) (hst : Stores d gs bs) (hl : Linked d gs)
    (hin : ∀ g ∈ gs, g.stop ≤ d.length) (hpos' : (∀ g ∈ gs, 0 < g.size) ∨ bs = []) (fuel : Nat)
    (hf : gs.length < fuel) :
    ∃ p, readBlock fuel src (headAddr gs) = .ok (some ⟨bs, p⟩) := by
  obtain ⟨⟨g, rest, rfl, hg⟩, hlen, ht, hb, hm⟩ := hst
  have hstop := hin g (by simp)
  have hst' := hstop
  unfold Page.stop at hst'
  have hLd : LAST = 2147483647 := rfl
  unfold readBlock
  rw [headAddr, if_neg (by rw [hs]; omega), seekB_ok _ _ (by rw [hs]; omega), hs]
  simp only [Outcome.ok_bind]
  rw [readHdr_ok d g.addr defaultHdr (by decide) (by omega)]
  simp only [Outcome.ok_bind]
  rw [hg, get_dataSize' _ _ _ hlen, Outcome.ok_bind]
  by_cases h0 : bs.length = 0
  · rw [if_pos h0]; rw [List.length_eq_zero_iff] at h0; subst h0; exact ⟨0, rfl⟩
  have hpos : ∀ g' ∈ g :: rest, 0 < g'.size := by
    rcases hpos' with h | h
    · exact h
    · exact absurd (by rw [h]; rfl) h0
  have hsz := hpos g (by simp)
  rw [if_neg h0, get_pageSize' _ _ _ (by omega), Outcome.ok_bind,
    get_next' _ _ _ (headAddr_lt d rest (fun x hx => hin x (by simp [hx])) hd), Outcome.ok_bind]
  have hr : 0 < min bs.length g.size := by omega
  rw [show Mem.empty = ⟨[], ((0 : Nat) : Int)⟩ from rfl]
  rw [copyFrom_ok [] 0 ⟨d, _⟩ (g.addr + 31) (min bs.length g.size) (Nat.le_refl _) rfl hr
    (by simp only; omega)]
  simp only [Outcome.ok_bind]
  have hput : putAt [] 0 (slice d (g.addr + 31) (min bs.length g.size)) =
      slice d (g.addr + 31) (min bs.length g.size) := by
    unfold putAt; simp
  have hsl := slice_length d (g.addr + 31) (min bs.length g.size) (by omega)
  rw [hput, show ((0 + min bs.length g.size : Nat) : Int) =
    ((slice d (g.addr + 31) (min bs.length g.size)).length : Int) by rw [hsl]; simp]
  rw [total_cons] at ht
  rw [readLoop_ok d hd rest fuel ⟨d, _⟩ _ _ bs.length (min bs.length g.size) rfl (header_length _ _ _) hl.2
    (fun x hx => hin x (by simp [hx])) (fun x hx => hpos x (by simp [hx])) (by omega) (by omega)
    (by
      intro hne
      rcases hm with hm | hm
      · simp at hm; exact absurd hm hne
      · rw [List.dropLast_cons_of_ne_nil hne, total_cons] at hm
        omega) (by simp at hf; omega)]
  have key : slice d (g.addr + 31) (min bs.length g.size) ++
      (body d rest).take (bs.length - min bs.length g.size) = bs := by
    refine Eq.trans ?_ hb
    have hs3 := slice_length d (g.addr + 31) g.size (by omega)
    rw [body_cons, List.take_append, hs3]
    congr 1
    · unfold slice; rw [List.take_take]
    · congr 1; omega
  rw [key]
  exact ⟨_, rfl⟩

/-! ## Writing -/

/-- The address the loop of `write_block` goes to next. -/
def startOf (own fr : List Page) (size : Nat) : Nat :=
  match own, fr with
  | g :: _, _ => g.addr
  | [], g :: _ => g.addr
  | [], [] => size

theorem pick_page (c : Cat) (hdr : Bytes) (g : Page) (n ds len : Nat) (ups : Bool) (hh : hdr.length = 31)
    (hd : c.data.data.length < LAST) (hst : g.stop ≤ c.data.data.length)
    (hg : slice c.data.data g.addr 31 = header ds g.size n) (hn : n < 2 ^ 31) :
    pickPage c hdr g.addr len ups =
      .ok ({ c with data := ⟨c.data.data, ((g.addr + 31 : Nat) : Int)⟩,
                    next := if g.addr = c.next then n else c.next,
                    emptyMod := if g.addr = c.next then true else c.emptyMod },
        header ds g.size n, g.size, n, false) := by
  have hst' := hst
  unfold Page.stop at hst'
  have hLd : LAST = 2147483647 := rfl
  unfold pickPage
  rw [if_neg (show ¬ g.addr = c.data.data.length by omega), seekB_ok _ _ (by omega)]
  simp only [Outcome.ok_bind]
  rw [readHdr_ok _ g.addr hdr hh (by omega)]
  simp only [Outcome.ok_bind]
  rw [hg, get_pageSize' _ _ _ (by omega), Outcome.ok_bind, get_next' _ _ _ hn, Outcome.ok_bind]
  by_cases h : g.addr = c.next
  · simp only [if_pos h, Outcome.ok_bind]
  · simp only [if_neg h, Outcome.ok_bind]

/-- What remains of the source. -/
def left (blk : Mem) : Bytes := blk.data.drop blk.pos.toNat

/-- The source is ready to give `len` bytes. -/
def Ready (blk : Mem) (len : Nat) : Prop :=
  ∃ q : Nat, blk.pos = q ∧ q ≤ blk.data.length ∧ blk.data.length - q = len ∧ (len = 0 → blk.data = [])

theorem ready_left {blk : Mem} {len : Nat} (h : Ready blk len) : (left blk).length = len := by
  obtain ⟨q, e, h1, h2, _⟩ := h
  unfold left; rw [e]; simp; omega

/-- `CopyFrom` in `write_block`: the next `n` bytes, or nothing when nothing is left. -/
theorem copy_chunk (d : Bytes) (p : Nat) (blk : Mem) (len n : Nat) (hp : p ≤ d.length) (hr : Ready blk len)
    (hn : n ≤ len) (h0 : n = 0 → len = 0) :
    ∃ p', copyFrom ⟨d, (p : Int)⟩ blk n =
      .ok (n, ⟨putAt d p ((left blk).take n), ((p + n : Nat) : Int)⟩, ⟨blk.data, p'⟩) ∧
      (n < len → Ready ⟨blk.data, p'⟩ (len - n)) ∧ (n < len → left ⟨blk.data, p'⟩ = (left blk).drop n) := by
  obtain ⟨q, e, h1, h2, h3⟩ := hr
  by_cases hz : n = 0
  · subst hz
    have hl0 := h0 rfl
    have := h3 hl0
    refine ⟨0, ?_, fun h => absurd h (by omega), fun h => absurd h (by omega)⟩
    obtain ⟨bd, bp⟩ := blk
    simp only at this
    subst this
    rw [copyFrom_empty]
    simp [putAt]
  · refine ⟨((q + n : Nat) : Int), ?_, ?_, ?_⟩
    · rw [copyFrom_ok d p blk q n hp e (by omega) (by omega)]
      unfold left slice; rw [e]; simp
    · intro h; exact ⟨q + n, rfl, by simp only; omega, by simp only; omega, fun h' => absurd h' (by omega)⟩
    · intro h; unfold left; rw [e]; simp only [Int.toNat_natCast, List.drop_drop]

theorem put_page (c : Cat) (blk : Mem) (g : Page) (n ds len : Nat) (first : Bool)
    (hst : g.stop ≤ c.data.data.length) (hn : n ≠ 0) (hsz : 0 < g.size) (hr : Ready blk len) :
    ∃ p p', putPage c blk (header ds g.size n) g.addr len g.size n false first =
      .ok ({ c with data := ⟨putAt c.data.data g.addr
              (header (if first then len else 0) g.size (if len ≤ g.size then LAST else nextBlock c n) ++
                (left blk).take (min g.size len)), p⟩ },
        ⟨blk.data, p'⟩,
        header (if first then len else 0) g.size (if len ≤ g.size then LAST else nextBlock c n),
        min g.size len, nextBlock c n) ∧
      (g.size < len → Ready ⟨blk.data, p'⟩ (len - g.size)) ∧
      (g.size < len → left ⟨blk.data, p'⟩ = (left blk).drop g.size) := by
  unfold Page.stop at hst
  unfold putPage
  rw [set_dataSize, if_neg hn]
  simp only
  rw [set_next]
  generalize hH : header (if first = true then len else 0) g.size
    (if len ≤ g.size then LAST else nextBlock c n) = H
  have hHl : H.length = 31 := by rw [← hH]; exact header_length _ _ _
  rw [seekB_ok _ _ (by omega)]
  simp only [Outcome.ok_bind]
  rw [show List.take hdrSize H = H from List.take_of_length_le (by rw [hHl]; exact Nat.le_refl _)]
  rw [write_at _ _ _ (by omega)]
  simp only [Outcome.ok_bind]
  obtain ⟨p', e, r1, r2⟩ := copy_chunk (putAt c.data.data g.addr H) (g.addr + H.length) blk len (min g.size len)
    (by rw [putAt_length _ _ _ (by omega)]; omega) hr (by omega) (by omega)
  rw [e]
  simp only [Outcome.ok_bind, padWrite]
  rw [putAt_append _ _ _ _ (by omega)]
  refine ⟨_, p', rfl, ?_, ?_⟩
  · intro h; have := r1 (by omega); rw [Nat.min_eq_left (by omega)] at this; exact this
  · intro h; have := r2 (by omega); rw [Nat.min_eq_left (by omega)] at this; exact this

/-- Size of a page appended by `write_block`. -/
def newSize (ups : Bool) (pageSize len : Nat) : Nat :=
  if ups then (if len > pageSize then len else pageSize) else len

theorem pick_new (c : Cat) (hdr : Bytes) (len : Nat) (ups : Bool)
    (hne : c.data.data.length ≠ c.next) :
    pickPage c hdr c.data.data.length len ups =
      .ok (c, header 0 (newSize ups c.pageSize len) 0, newSize ups c.pageSize len, 0,
        decide (newSize ups c.pageSize len > len)) := by
  unfold pickPage
  rw [if_neg hne, if_pos rfl, createHdr_eq]
  simp only [set_pageSize]
  rfl

theorem put_new (c : Cat) (blk : Mem) (ds len sz : Nat) (first : Bool) (hs : len ≤ sz) (hr : Ready blk len) :
    ∃ p p', putPage c blk (header ds sz 0) c.data.data.length len sz 0 (decide (sz > len)) first =
      .ok ({ c with data := ⟨c.data.data ++ (header (if first then len else 0) sz LAST ++ (left blk) ++
                List.replicate (sz - len) 0), p⟩ },
        ⟨blk.data, p'⟩, header (if first then len else 0) sz LAST, len, c.data.data.length + 31 + sz) := by
  unfold putPage
  rw [set_dataSize, if_pos rfl]
  simp only
  rw [if_pos hs, set_next]
  generalize hH : header (if first = true then len else 0) sz LAST = H
  have hHl : H.length = 31 := by rw [← hH]; exact header_length _ _ _
  rw [seekB_ok _ _ (by omega)]
  simp only [Outcome.ok_bind]
  rw [show List.take hdrSize H = H from List.take_of_length_le (by rw [hHl]; exact Nat.le_refl _)]
  rw [write_at _ _ _ (by omega)]
  simp only [Outcome.ok_bind]
  rw [Nat.min_eq_right hs]
  have hll := ready_left hr
  obtain ⟨p', e, r1, r2⟩ := copy_chunk (putAt c.data.data c.data.data.length H) (c.data.data.length + H.length) blk len len
    (by rw [putAt_length _ _ _ (by omega)]; omega) hr (by omega) (by omega)
  rw [e]
  simp only [Outcome.ok_bind]
  rw [putAt_append _ _ _ _ (by omega), List.take_of_length_le (by omega)]
  have happ : ∀ (d x : Bytes), putAt d d.length x = d ++ x := by
    intro d x; unfold putAt; rw [List.take_length, List.drop_eq_nil_of_le (by omega)]; simp
  by_cases hz : sz > len
  · simp only [hz, decide_true, padWrite]
    have hlen : (putAt c.data.data c.data.data.length (H ++ left blk)).length =
        c.data.data.length + H.length + len := by
      rw [putAt_length _ _ _ (by omega), List.length_append, hll]; omega
    rw [write_at _ _ _ (by omega)]
    simp only [Outcome.ok_bind]
    rw [happ, show c.data.data.length + H.length + len = (c.data.data ++ (H ++ left blk)).length by
      simp only [List.length_append, hll]; omega, happ]
    simp only [List.append_assoc]
    exact ⟨_, p', rfl⟩
  · have hz0 : sz - len = 0 := by omega
    simp only [hz, decide_false, padWrite, hz0, List.replicate_zero, List.append_nil,
      Outcome.ok_bind]
    rw [happ]
    exact ⟨_, p', rfl⟩

end Verif.Container
