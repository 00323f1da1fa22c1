import Verif.Blob.WriteLemmas
import Mathlib.Data.List.Induction

/-! # Property theorems: blobs (C30, C31, C32) -/

namespace Verif.Blob
open Verif Object

/-! ## Reading -/

theorem rd16_half (p : Bytes) (off n : Nat) : rd16 p off = .ok n ↔ Spec.half p off = some n := by
  unfold rd16 Spec.half
  cases p[off]? <;> cases p[off + 1]? <;> simp

theorem readBlock_ok {A : List Bytes} (h : Full A) (h24 : A.length ≤ 2 ^ 24) {x nx : Nat} {p d : Bytes} (hx : A[x]? = some p)
    (hn : Object.Spec.word p 0 = some nx) (hd : Spec.Holds A x d) :
    readBlock A.flatten A.length x = .ok (nx, d) := by
  have hlt := getElem?_some_lt hx
  have hp := h p (List.mem_of_getElem? hx)
  obtain ⟨q, h1, h2, h3, h4⟩ := hd
  rw [hx] at h1; cases h1
  unfold readBlock
  rw [if_neg (by omega), shl8_of (by omega)]
  have := get_block h hx 0 256 (by omega)
  rw [Nat.add_zero] at this
  rw [this, List.drop_zero, List.take_of_length_le (by omega)]
  simp only [Outcome.ok_bind]
  rw [(rd32_word _ _ _).mpr hn, (rd16_half _ _ _).mpr h2]
  simp only [Outcome.ok_bind]
  rw [if_neg (by omega), h4]

theorem readLoop_ok {A : List Bytes} (h : Full A) (h24 : A.length ≤ 2 ^ 24) (length : Nat) (l : List Nat) :
    ∀ (b : Nat) (d acc : Bytes) (fuel : Nat), Spec.Chain A b l → Spec.Content A l d → acc.length + d.length ≤ length →
    l.length < fuel → readLoop A.flatten A.length length fuel b acc = .ok (some (acc ++ d)) := by
  induction l with
  | nil =>
    intro b d acc fuel hc hd _ hf
    obtain ⟨fuel, rfl⟩ := Nat.exists_eq_add_of_lt hf
    rw [show [].length + fuel + 1 = fuel + 1 by simp]
    have : b = 0 := hc
    have : d = [] := hd
    subst d; subst b
    simp [readLoop]
  | cons x xs ih =>
    intro b d acc fuel hc hd hl hf
    obtain ⟨rfl, h2, p, nx, h3, h4, h5⟩ := hc
    obtain ⟨d1, d2, rfl, h6, h7⟩ := hd
    cases fuel with
    | zero => simp at hf
    | succ fuel =>
      rw [List.length_append] at hl
      rw [readLoop, if_neg h2, readBlock_ok h h24 h3 h4 h6]
      simp only [Outcome.ok_bind]
      rw [if_neg (by rw [List.length_append]; omega), ih nx d2 _ fuel h5 h7 (by rw [List.length_append]; omega)
        (by simp only [List.length_cons] at hf; omega), List.append_assoc]

theorem readLoopBuf_ok {A : List Bytes} (h : Full A) (h24 : A.length ≤ 2 ^ 24) (length cap : Nat) (hcap : length ≤ cap) (l : List Nat) :
    ∀ (b : Nat) (d acc : Bytes) (fuel : Nat), Spec.Chain A b l → Spec.Content A l d → acc.length + d.length ≤ length →
    l.length < fuel → readLoopBuf A.flatten A.length length cap fuel b acc = .ok (some (acc ++ d)) := by
  induction l with
  | nil =>
    intro b d acc fuel hc hd _ hf
    obtain ⟨fuel, rfl⟩ := Nat.exists_eq_add_of_lt hf
    rw [show [].length + fuel + 1 = fuel + 1 by simp]
    have : b = 0 := hc
    have : d = [] := hd
    subst d; subst b
    simp [readLoopBuf]
  | cons x xs ih =>
    intro b d acc fuel hc hd hl hf
    obtain ⟨rfl, h2, p, nx, h3, h4, h5⟩ := hc
    obtain ⟨d1, d2, rfl, h6, h7⟩ := hd
    cases fuel with
    | zero => simp at hf
    | succ fuel =>
      rw [List.length_append] at hl
      rw [readLoopBuf, if_neg h2, readBlock_ok h h24 h3 h4 h6]
      simp only [Outcome.ok_bind]
      rw [if_neg (by rw [List.length_append]; omega), if_neg (by rw [List.length_append]; omega),
        ih nx d2 _ fuel h5 h7 (by rw [List.length_append]; omega)
        (by simp only [List.length_cons] at hf; omega), List.append_assoc]

theorem all_bounds {A : List Bytes} {s : Spec.State} (h : s.all.Perm (List.range' 1 (A.length - 1))) (hpos : 0 < A.length) :
    s.all.Nodup ∧ s.all.length < A.length ∧ ∀ x ∈ s.all, 0 < x ∧ x < A.length := by
  refine ⟨h.nodup_iff.mpr List.nodup_range', ?_, ?_⟩
  · rw [h.length_eq, List.length_range']; omega
  · intro x hx
    have := h.mem_iff.mp hx
    rw [List.mem_range'_1] at this
    omega

theorem chain_length_le {s : Spec.State} {b : Spec.Entry} (hb : b ∈ s.blobs) : b.chain.length ≤ s.all.length := by
  unfold Spec.State.all
  rw [List.length_append]
  have : b.chain.Sublist (s.blobs.flatMap (·.chain)) := by
    rw [List.flatMap_def]
    exact List.sublist_flatten_of_mem (List.mem_map.mpr ⟨b, hb, rfl⟩)
  have := this.length_le
  omega

/-- **C30, reading.** In a well-formed blob file smaller than 4 GiB every blob reads back
as the bytes it holds, through each of the three reading functions (the object reader
also when it is not told the length). -/
theorem read_back_partial (f : Bytes) (s : Spec.State) (hr : Spec.Represents f s) (hlen : f.length < 2 ^ 32) (b : Spec.Entry)
    (hb : b ∈ s.blobs) (fuel : Nat) (hf : f.length / 256 ≤ fuel) (hd : b.data.length < 2 ^ 32) :
    readBlobObject f fuel b.first b.data.length = .ok (some b.data) ∧
    readBlobObject f fuel b.first (2 ^ 32 - 1) = .ok (some b.data) ∧
    readBlobTable (some f) fuel b.first b.data.length = .ok (some b.data) ∧
    ∀ cap, b.data.length ≤ cap → readBlobBuf (some f) fuel b.first b.data.length cap = .ok (some b.data) := by
  obtain ⟨A, rfl, hA, hpos, hp0, hfree, hbl, hall⟩ := hr.ex
  have hfl := flatten_length hA
  obtain ⟨_, hal, _⟩ := all_bounds hall hpos
  have hcl := chain_length_le hb
  obtain ⟨b0, b1, b2⟩ := hbl b hb
  have h24 : A.length < 2 ^ 24 := by omega
  have hnb : A.flatten.length / 256 % 2 ^ 32 = A.length := by omega
  have hnb2 : A.flatten.length % 2 ^ 32 / 256 = A.length := by omega
  have hml : A.flatten.length % 2 ^ 32 = A.flatten.length := by omega
  refine ⟨?_, ?_, ?_, ?_⟩
  · unfold readBlobObject
    rw [if_neg (by simp [b0]), hnb]
    simp only
    rw [shl8_of h24, if_neg (by omega), readLoop_ok hA (by omega) _ _ _ _ [] _ b1 b2 (by simp) (by omega)]
    simp
  · unfold readBlobObject
    rw [if_neg (by simp [b0]), hnb]
    simp only
    rw [shl8_of h24, if_neg (by omega), readLoop_ok hA (by omega) _ _ _ _ [] _ b1 b2 (by rw [List.length_nil]; omega) (by omega)]
    simp
  · unfold readBlobTable
    rw [if_neg (by simp [b0])]
    simp only
    rw [hnb2, hml, shl8_of h24, if_neg (by omega), readLoop_ok hA (by omega) _ _ _ _ [] _ b1 b2 (by simp) (by omega)]
    simp
  · intro cap hcap
    unfold readBlobBuf
    rw [if_neg (by simp [b0])]
    simp only
    rw [hnb2, hml, shl8_of h24, if_neg (by omega), readLoopBuf_ok hA (by omega) _ _ hcap _ _ _ [] _ b1 b2 (by simp) (by omega)]
    simp

/-! ## Storing -/

theorem getWord_block {A : List Bytes} (h : Full A) {x v : Nat} {p : Bytes} (hx : A[x]? = some p)
    (hv : Object.Spec.word p 0 = some v) : getWord A.flatten (256 * x) = .ok v := by
  unfold getWord
  have := get_block h hx 0 4 (by omega)
  rw [Nat.add_zero] at this
  rw [this]
  simp only [Outcome.ok_bind, List.drop_zero]
  rw [rd32_word, ← hv]
  unfold Object.Spec.word
  simp

/-- Replacing the head of the free chain. -/
theorem set_head {A : List Bytes} (h : Full A) (hpos : 0 < A.length) (v : Nat) (hv : v < 2 ^ 32) :
    ∃ A', setData A.flatten 0 (le32 v) = A'.flatten ∧ Full A' ∧ A'.length = A.length ∧
      (∃ p0, A'[0]? = some p0 ∧ Object.Spec.word p0 0 = some v) ∧ ∀ x, x ≠ 0 → A'[x]? = A[x]? := by
  obtain ⟨p, hp⟩ : ∃ p, A[0]? = some p := ⟨_, List.getElem?_eq_getElem hpos⟩
  have hpl := h p (List.mem_of_getElem? hp)
  have := set_block h hp 0 (le32 v) (by rw [length_le32]; omega)
  refine ⟨A.set 0 (splice p 0 (le32 v)), this, ?_, by simp, ⟨_, get_set_eq _ _ _ hpos, ?_⟩, ?_⟩
  · exact set_lengths A 256 0 _ h (by rw [length_splice _ _ _ (by rw [length_le32]; omega)]; exact hpl)
  · exact word_splice_in _ _ _ (by omega) hv
  · intro x hx
    exact get_set_ne _ _ _ _ (Ne.symm hx)

/-- **C30 and C31, storing.** Storing non-empty data (stream variant) in a well-formed blob
file with room for it succeeds; the file is well-formed again, with one more blob
that holds exactly the data. Every other blob keeps its blocks and its bytes; the new
blob takes blocks from the free ones first and otherwise new blocks at the end. -/
theorem store_blob_partial (f : Bytes) (s : Spec.State) (hr : Spec.Represents f s) (data : Bytes) (hne : data ≠ [])
    (hroom : f.length / 256 + (data.length + 249) / 250 < 2 ^ 24) :
    ∃ f' first chain free', writeBlob packStream (some f) data = .ok (some f', first) ∧
      Spec.Represents f' ⟨free', s.blobs ++ [⟨first, chain, data⟩]⟩ ∧
      f'.length / 256 ≤ f.length / 256 + (data.length + 249) / 250 ∧
      (chain ++ free').Perm (s.free ++ List.range' (f.length / 256) (f'.length / 256 - f.length / 256)) := by
  obtain ⟨A, rfl, hA, hpos, ⟨p0, hp0, hp0w⟩, hfree, hbl, hall⟩ := hr.ex
  have hfl := flatten_length hA
  have hdiv : A.flatten.length / 256 = A.length := by omega
  rw [hdiv] at hroom ⊢
  obtain ⟨hand, hal, hav⟩ := all_bounds hall hpos
  have hfnd : s.free.Nodup := (List.nodup_append.mp hand).1
  have hfirst : (if s.free.headD 0 = 0 then A.flatten.length / 256 % 2 ^ 32 else s.free.headD 0) = nextOf A s.free := by
    unfold nextOf
    cases hfr : s.free with
    | nil => simp only [List.headD_nil, if_true]; omega
    | cons x xs =>
      rw [hfr] at hfree
      simp [(chain_valid hfree x (by simp)).1]
  obtain ⟨A', ch, fr', w1, w2, w3⟩ := writeLoop_ok data.length data A 0 (nextOf A s.free) s.free (Nat.le_refl _) hne hA rfl hfree hfnd
    (fun b hb h => absurd h (chain_valid hfree b hb).1) (by simp) hpos hroom
  have hg := w2.grows
  have hfl' := flatten_length w2.full
  have hdata : ch ≠ [] := by
    intro h
    have := w2.content
    rw [h] at this
    exact hne this
  -- the blocks of the new chain and of the new free chain
  have hmem : ∀ x ∈ ch ++ fr', x ∈ s.free ∨ A.length ≤ x := by
    intro x hx
    have := w2.blocks.mem_iff.mp hx
    simp only [List.mem_append, List.mem_range'_1] at this
    rcases this with h | h
    · exact Or.inl h
    · exact Or.inr h.1
  have hlast : ∃ A'', (if shl8 (nextOf A' fr') < A'.flatten.length then setData A'.flatten 0 (le32 (nextOf A' fr'))
        else setData A'.flatten 0 (le32 0)) = A''.flatten ∧ Full A'' ∧ A''.length = A'.length ∧
      (∃ p0, A''[0]? = some p0 ∧ Object.Spec.word p0 0 = some (fr'.headD 0)) ∧ ∀ x, x ≠ 0 → A''[x]? = A'[x]? := by
    cases hfr : fr' with
    | nil =>
      rw [show nextOf A' [] = A'.length from rfl, shl8_of (by omega), if_neg (by rw [hfl']; omega)]
      exact set_head w2.full (by omega) 0 (by decide)
    | cons x xs =>
      have hch := w2.rest
      rw [hfr] at hch
      have hx := chain_valid hch x (by simp)
      simp only [List.headD_cons]
      rw [show nextOf A' (x :: xs) = x by simp [nextOf], shl8_of (by omega), if_pos (by rw [hfl']; omega)]
      exact set_head w2.full (by omega) x (by omega)
  obtain ⟨A'', l1, l2, l3, l4, l5⟩ := hlast
  have hnz : ∀ x ∈ ch ++ fr', x ≠ 0 := by
    intro x hx
    simp only [List.mem_append] at hx
    rcases hx with hx | hx
    · exact (chain_valid w2.chain x hx).1
    · exact (chain_valid w2.rest x hx).1
  have hperm : (ch ++ fr').Perm (s.free ++ List.range' A.length (A''.flatten.length / 256 - A.length)) := by
    rw [flatten_length l2, l3, show 256 * A'.length / 256 = A'.length by omega]
    exact w2.blocks
  refine ⟨A''.flatten, nextOf A s.free, ch, fr', ?_, ⟨A'', rfl, l2, by omega, l4, ?_, ?_, ?_⟩, ?_, hperm⟩
  · unfold writeBlob
    rw [if_neg hne]
    simp only
    have hg0 : getWord A.flatten 0 = .ok (s.free.headD 0) := getWord_block hA hp0 hp0w
    rw [hg0]
    simp only [Outcome.ok_bind]
    rw [hfirst, show (0 : Nat) = 256 * 0 from rfl, w1]
    simp only [Outcome.ok_bind, Nat.mul_zero]
    rw [l1]
  · exact chain_frame (fun x hx => l5 x (hnz x (by simp [hx]))) _ w2.rest
  · intro b hb
    simp only [List.mem_append, List.mem_singleton] at hb
    rcases hb with hb | rfl
    · obtain ⟨b0, b1, b2⟩ := hbl b hb
      have hfr : ∀ x ∈ b.chain, A''[x]? = A[x]? := by
        intro x hx
        have hv := chain_valid b1 x hx
        rw [l5 x hv.1]
        refine w2.frame x hv.2 (fun h => ?_) (Or.inl hv.1)
        rcases hmem x (by simp [h]) with h | h
        · have := (List.nodup_append.mp hand).2.2 x h x (List.mem_flatMap.mpr ⟨b, hb, hx⟩)
          exact this rfl
        · omega
      exact ⟨b0, chain_frame hfr _ b1, content_frame hfr _ b2⟩
    · refine ⟨?_, chain_frame (fun x hx => l5 x (hnz x (by simp [hx]))) _ w2.chain,
        content_frame (fun x hx => l5 x (hnz x (by simp [hx]))) _ w2.content⟩
      obtain ⟨x, xs, hx⟩ := List.exists_cons_of_ne_nil hdata
      have := w2.chain
      rw [hx] at this
      rw [this.1]
      exact this.2.1
  · have e1 : (⟨fr', s.blobs ++ [⟨nextOf A s.free, ch, data⟩]⟩ : Spec.State).all.Perm ((ch ++ fr') ++ s.blobs.flatMap (·.chain)) := by
      rw [List.perm_iff_count]
      intro x
      simp only [Spec.State.all, List.flatMap_append, List.count_append, List.flatMap_cons, List.flatMap_nil, List.append_nil]
      omega
    refine e1.trans ?_
    refine (List.Perm.append_right _ w2.blocks).trans ?_
    have e2 : (s.free ++ List.range' A.length (A'.length - A.length) ++ s.blobs.flatMap (·.chain)).Perm
        (s.all ++ List.range' A.length (A'.length - A.length)) := by
      rw [List.perm_iff_count]
      intro x
      simp only [Spec.State.all, List.count_append]
      omega
    refine e2.trans ?_
    refine (List.Perm.append_right _ hall).trans ?_
    have := List.range'_append_1 (s := 1) (m := A.length - 1) (n := A'.length - A.length)
    rw [show 1 + (A.length - 1) = A.length by omega, show A.length - 1 + (A'.length - A.length) = A''.length - 1 by omega] at this
    rw [this]
  · rw [flatten_length l2, l3]; omega

/-! ## Deleting -/

theorem lastBlock_ok {A : List Bytes} (h : Full A) (h24 : A.length ≤ 2 ^ 24) (l : List Nat) :
    ∀ (b j fuel : Nat), Spec.Chain A b l → l.length < fuel → lastBlock A.flatten fuel b j = .ok (some (l.getLastD j)) := by
  induction l with
  | nil =>
    intro b j fuel hc hf
    cases fuel with
    | zero => simp at hf
    | succ fuel =>
      have : b = 0 := hc
      simp [lastBlock, this]
  | cons x xs ih =>
    intro b j fuel hc hf
    obtain ⟨rfl, h2, p, nx, h3, h4, h5⟩ := hc
    cases fuel with
    | zero => simp at hf
    | succ fuel =>
      have hlt := getElem?_some_lt h3
      rw [lastBlock, if_neg h2, shl8_of (by omega), getWord_block h h3 h4]
      simp only [Outcome.ok_bind]
      rw [ih nx _ fuel h5 (by simp only [List.length_cons] at hf; omega)]
      rw [List.getLastD_cons]

/-- A chain whose last block is linked to another chain. -/
theorem chain_link {A A' : List Bytes} (h : Full A) (l : List Nat) (g : List Nat) (fr : Nat) (hfr : fr < 2 ^ 32) (hg : Spec.Chain A' fr g) :
    ∀ (b last : Nat) (p : Bytes), Spec.Chain A b l → l ≠ [] → l.getLast? = some last → l.Nodup → A[last]? = some p →
    A'[last]? = some (splice p 0 (le32 fr)) → (∀ x ∈ l, x ≠ last → A'[x]? = A[x]?) → Spec.Chain A' b (l ++ g) := by
  induction l with
  | nil => intro b last p _ hne; exact absurd rfl hne
  | cons x xs ih =>
    intro b last p hc _ hlast hnd hp hp' hframe
    obtain ⟨rfl, h2, q, nx, h3, h4, h5⟩ := hc
    cases xs with
    | nil =>
      simp at hlast
      subst hlast
      rw [h3] at hp; cases hp
      have hl := h p (List.mem_of_getElem? h3)
      exact ⟨rfl, h2, _, fr, hp', word_splice_in _ _ _ (by omega) hfr, hg⟩
    | cons y ys =>
      rw [List.getLast?_cons_cons] at hlast
      rw [List.nodup_cons] at hnd
      have hxl : b ≠ last := fun hh => hnd.1 (hh ▸ List.mem_of_getLast? hlast)
      exact ⟨rfl, h2, q, nx, by rw [hframe b (by simp) hxl]; exact h3, h4,
        ih nx last p h5 (by simp) hlast hnd.2 hp hp' (fun z hz => hframe z (by simp [hz]))⟩

/-- **C31, deleting.** Deleting a blob of a well-formed file smaller than 4 GiB returns
exactly its blocks to the free blocks: the others keep their blocks and bytes, and
the file neither grows nor shrinks. -/
theorem delete_blob_partial (f : Bytes) (s : Spec.State) (l1 l2 : List Spec.Entry) (b : Spec.Entry) (hs : s.blobs = l1 ++ b :: l2)
    (hr : Spec.Represents f s) (hlen : f.length < 2 ^ 32) (fuel : Nat) (hf : f.length / 256 ≤ fuel) :
    ∃ f', deleteBlob (some f) fuel b.first = .ok (some f') ∧
      Spec.Represents f' ⟨b.chain ++ s.free, l1 ++ l2⟩ ∧ f'.length = f.length := by
  obtain ⟨A, rfl, hA, hpos, ⟨p0, hp0, hp0w⟩, hfree, hbl, hall⟩ := hr.ex
  have hfl := flatten_length hA
  have hb : b ∈ s.blobs := by rw [hs]; simp
  obtain ⟨hand, hal, hav⟩ := all_bounds hall hpos
  have hcl := chain_length_le hb
  obtain ⟨b0, b1, b2⟩ := hbl b hb
  have h24 : A.length < 2 ^ 24 := by omega
  have hne : b.chain ≠ [] := by
    intro h
    rw [h] at b1
    exact b0 b1
  -- what is distinct from what
  have hcount := List.nodup_iff_count_le_one.mp hand
  have hsplit : s.all.Perm (b.chain ++ (s.free ++ (l1 ++ l2).flatMap (·.chain))) := by
    rw [List.perm_iff_count]
    intro x
    simp only [Spec.State.all, hs, List.flatMap_append, List.flatMap_cons, List.count_append]
    omega
  have hdis := hsplit.nodup_iff.mp hand
  rw [List.nodup_append] at hdis
  obtain ⟨hcnd, _, hcdis⟩ := hdis
  obtain ⟨last, hlast⟩ : ∃ x, b.chain.getLast? = some x := ⟨_, List.getLast?_eq_getLast_of_ne_nil hne⟩
  have hlm : last ∈ b.chain := List.mem_of_getLast? hlast
  obtain ⟨hl0, hll⟩ := chain_valid b1 last hlm
  obtain ⟨p, hp⟩ : ∃ p, A[last]? = some p := ⟨_, List.getElem?_eq_getElem hll⟩
  have hpl := hA p (List.mem_of_getElem? hp)
  have hfr32 : s.free.headD 0 < 2 ^ 32 := by
    cases hfr : s.free with
    | nil => simp
    | cons x xs =>
      rw [hfr] at hfree
      have := (chain_valid hfree x (by simp)).2
      simp only [List.headD_cons]
      omega
  have hset := set_block hA hp 0 (le32 (s.free.headD 0)) (by rw [length_le32]; omega)
  rw [Nat.add_zero] at hset
  have hA1 : Full (A.set last (splice p 0 (le32 (s.free.headD 0)))) :=
    set_lengths A 256 last _ hA (by rw [length_splice _ _ _ (by rw [length_le32]; omega)]; exact hpl)
  have hfirst : b.first = b.chain.headD 0 := chain_head b1
  have hbv : b.first ≠ 0 ∧ b.first < A.length := by
    refine ⟨b0, ?_⟩
    obtain ⟨x, xs, hx⟩ := List.exists_cons_of_ne_nil hne
    rw [hx] at b1
    rw [b1.1]
    exact (chain_valid b1 x (by simp)).2
  obtain ⟨A', s1, s2, s3, s4, s5⟩ := set_head hA1 (by simpa using hpos) b.first (by omega)
  rw [List.length_set] at s3
  have hA'last : A'[last]? = some (splice p 0 (le32 (s.free.headD 0))) := by rw [s5 last hl0]; exact get_set_eq _ _ _ hll
  have hA'o : ∀ x, x ≠ 0 → x ≠ last → A'[x]? = A[x]? := by
    intro x hx hxl
    rw [s5 x hx]
    exact get_set_ne _ _ _ _ (Ne.symm hxl)
  have hfree' : Spec.Chain A' (s.free.headD 0) s.free := by
    refine chain_frame (fun x hx => hA'o x (chain_valid hfree x hx).1 (fun h => ?_)) _ hfree
    exact hcdis last hlm x (by simp [hx]) h.symm
  have hhead : (b.chain ++ s.free).headD 0 = b.first := by
    rw [hfirst]
    obtain ⟨x, xs, hx⟩ := List.exists_cons_of_ne_nil hne
    rw [hx]; rfl
  refine ⟨A'.flatten, ?_, ⟨A', rfl, s2, by omega, ?_, ?_, ?_, ?_⟩, ?_⟩
  · unfold deleteBlob
    simp only
    rw [shl8_of (by omega), if_neg (by omega), if_neg b0]
    have hg0 : getWord A.flatten 0 = .ok (s.free.headD 0) := getWord_block hA hp0 hp0w
    rw [hg0]
    simp only [Outcome.ok_bind]
    rw [lastBlock_ok hA (by omega) _ _ 0 fuel b1 (by omega)]
    simp only [Outcome.ok_bind]
    have : b.chain.getLastD 0 = last := by rw [List.getLastD_eq_getLast?, hlast]; rfl
    rw [this, shl8_of (by omega), hset, s1]
  · simp only [hhead]; exact s4
  · simp only [hhead]
    refine chain_link hA _ _ _ hfr32 hfree' _ last p b1 hne hlast hcnd hp hA'last ?_
    intro x hx hxl
    exact hA'o x (chain_valid b1 x hx).1 hxl
  · intro c hc
    have hcs : c ∈ s.blobs := by
      rw [hs]
      simp only [List.mem_append, List.mem_cons] at hc ⊢
      rcases hc with h | h
      · exact Or.inl h
      · exact Or.inr (Or.inr h)
    obtain ⟨c0, c1, c2⟩ := hbl c hcs
    have hfr : ∀ x ∈ c.chain, A'[x]? = A[x]? := by
      intro x hx
      refine hA'o x (chain_valid c1 x hx).1 (fun h => ?_)
      refine hcdis last hlm x ?_ h.symm
      rw [List.mem_append]
      exact Or.inr (List.mem_flatMap.mpr ⟨c, hc, hx⟩)
    exact ⟨c0, chain_frame hfr _ c1, content_frame hfr _ c2⟩
  · rw [s3]
    refine List.Perm.trans ?_ hall
    rw [List.perm_iff_count]
    intro x
    simp only [Spec.State.all, hs, List.flatMap_append, List.flatMap_cons, List.count_append]
    omega
  · rw [flatten_length s2, hfl, s3]

/-! ## Histories -/

/-- What a client does with the blobs of one file: `remove i` deletes the `i`-th of the
blobs it still has. -/
inductive Op where
  | store (d : Bytes)
  | remove (i : Nat)

/-- Running a history; `live` is what the client knows: the number it was given for each
blob and the bytes it stored. -/
def runBlobs (fuel : Nat) : Option Bytes → List (Nat × Bytes) → List Op → Outcome (Option (Option Bytes × List (Nat × Bytes)))
  | f?, live, [] => .ok (some (f?, live))
  | f?, live, .store d :: ops => do
    let (f?, b) ← writeBlob packStream f? d
    runBlobs fuel f? (live ++ [(b, d)]) ops
  | f?, live, .remove i :: ops =>
    match live[i]? with
    | none => runBlobs fuel f? live ops
    | some (b, _) => do
      match ← deleteBlob f? fuel b with
      | none => .ok none
      | some f => runBlobs fuel (some f) (live.eraseIdx i) ops

/-- The number of blocks a history can add. -/
def Op.cost : Op → Nat
  | .store d => (d.length + 249) / 250
  | .remove _ => 0

/-- **C30 and C31, histories.** After any sequence of stores of non-empty data and
deletions of blobs still present, starting from any well-formed file and staying
below 4 GiB, every blob still present reads back exactly as stored, and every block of
the file but the first belongs to exactly one blob or is free exactly once. -/
theorem blob_history_partial (fuel : Nat) (hfuel : 2 ^ 24 ≤ fuel) (ops : List Op) :
    ∀ (f : Bytes) (s : Spec.State) (live : List (Nat × Bytes)), Spec.Represents f s →
    s.blobs.map (fun b => (b.first, b.data)) = live → (∀ d, Op.store d ∈ ops → d ≠ []) → (∀ e ∈ live, e.2.length < 2 ^ 32) →
    f.length / 256 + (ops.map Op.cost).sum < 2 ^ 24 →
    ∃ f' s' live', runBlobs fuel (some f) live ops = .ok (some (some f', live')) ∧ Spec.Represents f' s' ∧
      s'.blobs.map (fun b => (b.first, b.data)) = live' ∧
      ∀ e ∈ live', readBlobObject f' fuel e.1 e.2.length = .ok (some e.2) := by
  induction ops with
  | nil =>
    intro f s live hr hl _ hd hroom
    obtain ⟨A, hA, hA2, _⟩ := hr.ex
    have hfl : f.length = 256 * A.length := by rw [hA]; exact flatten_length hA2
    simp only [List.map_nil, List.sum_nil] at hroom
    refine ⟨f, s, live, rfl, hr, hl, ?_⟩
    intro e he
    have he' := he
    rw [← hl, List.mem_map] at he'
    obtain ⟨b, hb, hbe⟩ := he'
    have := (read_back_partial f s hr (by omega) b hb fuel (by omega) (by have := hd e he; rw [← hbe] at this; exact this)).1
    rw [← hbe]
    exact this
  | cons op ops ih =>
    intro f s live hr hl hst hd hroom
    obtain ⟨A, hA, hA2, _⟩ := hr.ex
    have hfl : f.length = 256 * A.length := by rw [hA]; exact flatten_length hA2
    simp only [List.map_cons, List.sum_cons] at hroom
    cases op with
    | store d =>
      have hdne := hst d (by simp)
      have hc : Op.cost (.store d) = (d.length + 249) / 250 := rfl
      obtain ⟨f1, first, chain, free1, a1, a2, a3, a4⟩ := store_blob_partial f s hr d hdne (by omega)
      obtain ⟨f', s', live', b1, b2, b3, b4⟩ := ih f1 _ (live ++ [(first, d)]) a2 (by simp [hl]) (fun d hd => hst d (by simp [hd]))
        (by
          intro e he
          simp only [List.mem_append, List.mem_singleton] at he
          rcases he with he | rfl
          · exact hd e he
          · simp only; omega) (by omega)
      refine ⟨f', s', live', ?_, b2, b3, b4⟩
      rw [runBlobs, a1]
      exact b1
    | remove i =>
      rcases hi : live[i]? with _ | ⟨b, d⟩
      · obtain ⟨f', s', live', b1, b2, b3, b4⟩ := ih f s live hr hl (fun d hd => hst d (by simp [hd])) hd (by omega)
        refine ⟨f', s', live', ?_, b2, b3, b4⟩
        rw [runBlobs]
        simp only [hi]
        exact b1
      · have hilt := getElem?_some_lt hi
        have hill : i < s.blobs.length := by rw [← hl, List.length_map] at hilt; exact hilt
        have hent : s.blobs[i].first = b := by
          rw [← hl, List.getElem?_map, List.getElem?_eq_getElem hill] at hi
          simp at hi
          exact hi.1
        have hsp : s.blobs = s.blobs.take i ++ s.blobs[i] :: s.blobs.drop (i + 1) := by
          rw [← List.drop_eq_getElem_cons hill, List.take_append_drop]
        obtain ⟨f1, a1, a2, a3⟩ := delete_blob_partial f s _ _ _ hsp hr (by omega) fuel (by omega)
        rw [hent] at a1
        obtain ⟨f', s', live', b1, b2, b3, b4⟩ := ih f1 _ (live.eraseIdx i) a2
          (by
            simp only
            rw [← hl, List.eraseIdx_map, List.eraseIdx_eq_take_drop_succ]) (fun d hd => hst d (by simp [hd]))
          (fun e he => hd e (List.mem_of_mem_eraseIdx he)) (by omega)
        refine ⟨f', s', live', ?_, b2, b3, b4⟩
        rw [runBlobs]
        simp only [hi, a1, Outcome.ok_bind]
        exact b1

end Verif.Blob
