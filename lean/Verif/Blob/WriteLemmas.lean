import Verif.Blob.Lemmas

/-! # Lemmas: the loop that stores a blob -/

namespace Verif.Blob
open Verif Object

theorem chain_frame {A A' : List Bytes} {l : List Nat} (h : ∀ x ∈ l, A'[x]? = A[x]?) :
    ∀ b, Spec.Chain A b l → Spec.Chain A' b l := by
  induction l with
  | nil => intro b hb; exact hb
  | cons x xs ih =>
    rintro b ⟨h1, h2, p, nx, h3, h4, h5⟩
    exact ⟨h1, h2, p, nx, by rw [h x (by simp)]; exact h3, h4, ih (fun y hy => h y (by simp [hy])) nx h5⟩

theorem content_frame {A A' : List Bytes} {l : List Nat} (h : ∀ x ∈ l, A'[x]? = A[x]?) :
    ∀ d, Spec.Content A l d → Spec.Content A' l d := by
  induction l with
  | nil => intro b hb; exact hb
  | cons x xs ih =>
    rintro d ⟨d1, d2, h1, ⟨p, h2, h3⟩, h4⟩
    exact ⟨d1, d2, h1, ⟨p, by rw [h x (by simp)]; exact h2, h3⟩, ih (fun y hy => h y (by simp [hy])) d2 h4⟩

theorem chain_valid {A : List Bytes} {l : List Nat} : ∀ {b}, Spec.Chain A b l → ∀ x ∈ l, x ≠ 0 ∧ x < A.length := by
  induction l with
  | nil => simp
  | cons y ys ih =>
    rintro b ⟨h1, h2, p, nx, h3, h4, h5⟩ x hx
    rcases List.mem_cons.mp hx with rfl | hx
    · exact ⟨h2, getElem?_some_lt h3⟩
    · exact ih h5 x hx

theorem chain_head {A : List Bytes} {l : List Nat} {b : Nat} (h : Spec.Chain A b l) : b = l.headD 0 := by
  cases l with
  | nil => exact h
  | cons x xs => exact h.1

/-- Where the next piece goes: the first free block, or a new one at the end. -/
def nextOf (A : List Bytes) (fr : List Nat) : Nat := if fr = [] then A.length else fr.headD 0

theorem word_le32 (v : Nat) (t : Bytes) (h : v < 2 ^ 32) : Object.Spec.word (le32 v ++ t) 0 = some v := by
  have := word_splice_in (le32 v ++ t) 0 v (by simp [le32]) h
  rw [show splice (le32 v ++ t) 0 (le32 v) = le32 v ++ t by
    unfold splice; rw [List.take_zero, List.nil_append, Nat.zero_add, List.drop_left' rfl]] at this
  exact this

theorem half_le16 (z t : Bytes) (n : Nat) (hz : z.length = 4) (hn : n < 65536) : Spec.half (z ++ le16 n ++ t) 4 = some n := by
  have h1 : (z ++ le16 n ++ t)[4]? = some (UInt8.ofNat n) := by
    rw [List.append_assoc, List.getElem?_append_right (by omega), hz]; rfl
  have h2 : (z ++ le16 n ++ t)[5]? = some (UInt8.ofNat (n / 256)) := by
    rw [List.append_assoc, List.getElem?_append_right (by omega), hz]; rfl
  unfold Spec.half
  rw [h1, show 4 + 1 = 5 from rfl, h2]
  simp only [Option.bind_eq_bind, Option.bind_some, Option.some.injEq, UInt8.toNat_ofNat']
  omega

/-- The link word of a block is replaced; what it holds stays. -/
theorem holds_relink {A A' : List Bytes} {x v : Nat} {p d : Bytes} (hp : A[x]? = some p) (hl : p.length = 256)
    (hp' : A'[x]? = some (splice p 0 (le32 v))) (h : Spec.Holds A x d) : Spec.Holds A' x d := by
  obtain ⟨q, h1, h2, h3, h4⟩ := h
  rw [hp] at h1; cases h1
  refine ⟨_, hp', ?_, h3, ?_⟩
  · rw [← h2]
    unfold Spec.half
    rw [splice_get_out _ _ _ _ (by rw [length_le32]; omega) (by rw [length_le32]; omega),
      splice_get_out _ _ _ _ (by rw [length_le32]; omega) (by rw [length_le32]; omega)]
  · rw [← h4, h4]
    have : (splice p 0 (le32 v)).drop 6 = p.drop 6 := by
      unfold splice
      simp only [List.take_zero, List.nil_append, length_le32, Nat.zero_add]
      rw [show (6 : Nat) = 4 + 2 from rfl, ← List.drop_drop, List.drop_left' (length_le32 v), List.drop_drop]
    rw [this, h4]

/-- What the loop does, on blocks. -/
structure Written (A A' : List Bytes) (prev cur : Nat) (fr fr' ch : List Nat) (data : Bytes) : Prop where
  full : Full A'
  grows : A.length ≤ A'.length
  chain : Spec.Chain A' cur ch
  content : Spec.Content A' ch data
  rest : Spec.Chain A' (fr'.headD 0) fr'
  frame : ∀ b, b < A.length → b ∉ ch → (b ≠ prev ∨ prev = 0) → A'[b]? = A[b]?
  link : prev ≠ 0 → ∀ p, A[prev]? = some p → A'[prev]? = some (splice p 0 (le32 cur))
  blocks : (ch ++ fr').Perm (fr ++ List.range' A.length (A'.length - A.length))

theorem pack_length {data r : Bytes} (h : packStream data = .ok r) : r.length = 250 ∧ r.take (min data.length 250) = data.take 250 := by
  unfold packStream at h
  simp only [Outcome.ok.injEq] at h
  subst h
  constructor
  · simp; omega
  · rw [List.take_append, List.take_take]
    have : min data.length 250 - (data.take 250).length = 0 := by rw [List.length_take]; omega
    rw [this, List.take_zero, List.append_nil]
    rcases Nat.lt_or_ge data.length 250 with h | h
    · rw [List.take_of_length_le (by omega), List.take_of_length_le (by omega)]
    · congr 1; omega

theorem nextFree_ok {A : List Bytes} (h : Full A) {cur : Nat} (fr : List Nat) (hcur : cur = nextOf A fr)
    (hch : Spec.Chain A (fr.headD 0) fr) (h24 : A.length < 2 ^ 24) :
    nextFree A.flatten cur = .ok (fr.tail.headD 0) ∧ Spec.Chain A (fr.tail.headD 0) fr.tail := by
  cases fr with
  | nil =>
    have : cur = A.length := by rw [hcur]; rfl
    subst this
    refine ⟨?_, rfl⟩
    unfold nextFree
    rw [shl8_of h24, if_neg (by rw [flatten_length h]; omega)]
    rfl
  | cons x xs =>
    have : cur = x := by rw [hcur]; rfl
    subst this
    obtain ⟨h1, h2, p, nx, h3, h4, h5⟩ := hch
    have hlt := getElem?_some_lt h3
    have hh := chain_head h5
    simp only [List.tail_cons]
    rw [← hh]
    refine ⟨?_, h5⟩
    unfold nextFree
    rw [shl8_of (by omega), if_pos (by rw [flatten_length h]; omega)]
    unfold getWord
    have := get_block h h3 0 4 (by omega)
    rw [Nat.add_zero] at this
    rw [this]
    simp only [Outcome.ok_bind, List.drop_zero]
    rw [rd32_word, ← h4]
    unfold Object.Spec.word
    simp [List.getElem?_take]

theorem writeLoop_nil (pack : Bytes → Outcome Bytes) (n : Nat) (f : Bytes) (prev cur : Nat) :
    writeLoop pack n f prev cur [] = .ok (f, cur) := by
  cases n <;> simp [writeLoop]

/-- One turn of the loop, on blocks. -/
theorem turn_ok (A : List Bytes) (prev cur : Nat) (fr : List Nat) (n : Nat) (r : Bytes) (hn : n ≤ 250) (hr : r.length = 250) (hA : Full A)
    (hcur : cur = nextOf A fr) (hch : Spec.Chain A (fr.headD 0) fr) (hnd : fr.Nodup) (hpf : ∀ b ∈ fr, b ≠ prev)
    (hprev : prev ≠ 0 → prev < A.length) (hpos : 0 < A.length) (h24 : A.length < 2 ^ 24) :
    ∃ A1 A2 : List Bytes, (if 256 * prev ≠ 0 then setData A.flatten (256 * prev) (le32 cur) else A.flatten) = A1.flatten ∧
      nextFree A1.flatten cur = .ok (fr.tail.headD 0) ∧ putBlock A1.flatten cur n r = A2.flatten ∧
      (if fr.tail.headD 0 = 0 then A2.flatten.length / 256 % 2 ^ 32 else fr.tail.headD 0) = nextOf A2 fr.tail ∧
      Full A2 ∧ A.length ≤ A2.length ∧ A2.length ≤ A.length + 1 ∧ A2[cur]? = some (le32 0 ++ le16 n ++ r) ∧
      Spec.Chain A2 (fr.tail.headD 0) fr.tail ∧ (∀ b, b < A.length → b ≠ cur → (b ≠ prev ∨ prev = 0) → A2[b]? = A[b]?) ∧
      (prev ≠ 0 → ∀ p, A[prev]? = some p → A2[prev]? = some (splice p 0 (le32 cur))) ∧
      cur ≠ 0 ∧ (cur :: fr.tail).Perm (fr ++ List.range' A.length (A2.length - A.length)) ∧ cur ∉ fr.tail := by
  have hlen := flatten_length hA
  -- the link of the previous block
  obtain ⟨A1, e1, e2, e3, e4, e5⟩ : ∃ A1, (if 256 * prev ≠ 0 then setData A.flatten (256 * prev) (le32 cur) else A.flatten) = A1.flatten ∧
      Full A1 ∧ A1.length = A.length ∧ (∀ b, (b ≠ prev ∨ prev = 0) → A1[b]? = A[b]?) ∧
      (prev ≠ 0 → ∀ p, A[prev]? = some p → A1[prev]? = some (splice p 0 (le32 cur))) := by
    by_cases hp : prev = 0
    · exact ⟨A, by rw [if_neg (by omega)], hA, rfl, fun _ _ => rfl, fun h => absurd hp h⟩
    · have hlt := hprev hp
      obtain ⟨p, hpp⟩ : ∃ p, A[prev]? = some p := ⟨_, List.getElem?_eq_getElem hlt⟩
      have hpl := hA p (List.mem_of_getElem? hpp)
      have hs := set_block hA hpp 0 (le32 cur) (by rw [length_le32]; omega)
      rw [Nat.add_zero] at hs
      refine ⟨A.set prev (splice p 0 (le32 cur)), by rw [if_pos (by omega), hs], ?_, by simp, ?_, ?_⟩
      · exact set_lengths A 256 prev _ hA (by rw [length_splice _ _ _ (by rw [length_le32]; omega)]; exact hpl)
      · intro b hb
        exact get_set_ne _ _ _ _ (by omega)
      · intro _ q hq
        rw [hpp] at hq; cases hq
        exact get_set_eq _ _ _ hlt
  have hcur1 : cur = nextOf A1 fr := by rw [hcur]; unfold nextOf; rw [e3]
  have hch1 : Spec.Chain A1 (fr.headD 0) fr := chain_frame (fun x hx => e4 x (Or.inl (hpf x hx))) _ hch
  obtain ⟨n1, n2⟩ := nextFree_ok e2 fr hcur1 hch1 (by omega)
  have hcle : cur ≤ A.length ∧ cur ≠ 0 ∧ cur ∉ fr.tail ∧ (cur < A.length ↔ fr ≠ []) ∧ (prev ≠ 0 → cur ≠ prev) := by
    cases fr with
    | nil =>
      have : cur = A.length := by rw [hcur]; rfl
      refine ⟨by omega, by omega, by simp, by simp; omega, fun h => by have := hprev h; omega⟩
    | cons x xs =>
      have : cur = x := by rw [hcur]; rfl
      obtain ⟨v1, v2⟩ := chain_valid hch x (by simp)
      rw [List.nodup_cons] at hnd
      exact ⟨by omega, by omega, by rw [this]; exact hnd.1, by simp; omega, fun _ => by rw [this]; exact hpf x (by simp)⟩
  obtain ⟨c1, c2, c3, c4, c5⟩ := hcle
  have hput := putBlock_ok e2 (by omega : cur ≤ A1.length) (by omega) n r hr
  have hbl : (le32 0 ++ le16 n ++ r).length = 256 := by simp [hr, le16, le32]
  generalize hblk : le32 0 ++ le16 n ++ r = blk at *
  generalize hA2 : (if cur < A1.length then A1.set cur blk else A1 ++ [blk]) = A2 at *
  have g1 : Full A2 := by
    rw [← hA2]
    split
    · exact set_lengths A1 256 cur _ e2 hbl
    · intro p hp
      simp only [List.mem_append, List.mem_singleton] at hp
      rcases hp with hp | hp
      · exact e2 p hp
      · rw [hp]; exact hbl
  have g2 : A2[cur]? = some blk := by
    rw [← hA2]
    split
    · next h => exact get_set_eq _ _ _ h
    · rw [List.getElem?_append_right (by omega), show cur - A1.length = 0 by omega]; rfl
  have g3 : ∀ b, b < A.length → b ≠ cur → A2[b]? = A1[b]? := by
    intro b hb hbc
    rw [← hA2]
    split
    · exact get_set_ne _ _ _ _ (Ne.symm hbc)
    · rw [List.getElem?_append_left (by omega)]
  have g4 : A2.length = if fr = [] then A.length + 1 else A.length := by
    rw [← hA2, e3]
    by_cases h : fr = []
    · rw [if_neg (by rw [c4]; simp [h]), if_pos h]; simp [e3]
    · rw [if_pos (by rw [c4]; exact h), if_neg h]; simp [e3]
  have g5 : Spec.Chain A2 (fr.tail.headD 0) fr.tail := by
    refine chain_frame (fun x hx => ?_) _ n2
    have hv := chain_valid n2 x hx
    exact g3 x (by omega) (fun h => c3 (h ▸ hx))
  refine ⟨A1, A2, e1, n1, hput, ?_, g1, ?_, ?_, g2, g5, ?_, ?_, c2, ?_, c3⟩
  · rw [flatten_length g1]
    by_cases h : fr.tail = []
    · rw [h]
      simp only [List.headD_nil, if_true, nextOf]
      have : A2.length ≤ A.length + 1 := by rw [g4]; split <;> omega
      omega
    · unfold nextOf
      rw [if_neg h, if_neg]
      obtain ⟨y, ys, hy⟩ := List.exists_cons_of_ne_nil h
      rw [hy] at n2 ⊢
      exact (chain_valid n2 y (by simp)).1
  · rw [g4]; split <;> omega
  · rw [g4]; split <;> omega
  · intro b hb hbc hbp
    rw [g3 b hb hbc, e4 b hbp]
  · intro hp p hpp
    rw [g3 prev (hprev hp) (Ne.symm (c5 hp))]
    exact e5 hp p hpp
  · cases fr with
    | nil =>
      have : cur = A.length := by rw [hcur]; rfl
      rw [g4, this]
      simp
    | cons x xs =>
      have : cur = x := by rw [hcur]; rfl
      rw [g4, this]
      simp

theorem writeLoop_ok : ∀ (n : Nat) (data : Bytes) (A : List Bytes) (prev cur : Nat) (fr : List Nat), data.length ≤ n → data ≠ [] → Full A →
    cur = nextOf A fr → Spec.Chain A (fr.headD 0) fr → fr.Nodup → (∀ b ∈ fr, b ≠ prev) → (prev ≠ 0 → prev < A.length) → 0 < A.length →
    A.length + (data.length + 249) / 250 < 2 ^ 24 →
    ∃ A' ch fr', writeLoop packStream n A.flatten (256 * prev) cur data = .ok (A'.flatten, nextOf A' fr') ∧
      Written A A' prev cur fr fr' ch data ∧ A'.length ≤ A.length + (data.length + 249) / 250 := by
  intro n
  induction n with
  | zero =>
    intro data A prev cur fr h hne
    have := List.length_pos_iff.mpr hne
    omega
  | succ n ih =>
    intro data A prev cur fr hdn hne hA hcur hch hnd hpf hprev hpos h24
    have hdpos := List.length_pos_iff.mpr hne
    obtain ⟨r, hr⟩ : ∃ r, packStream data = .ok r := ⟨_, rfl⟩
    obtain ⟨hrl, hrt⟩ := pack_length hr
    obtain ⟨A1, A2, t1, t2, t3, t4, t5, t6, t6', t7, t8, t9, t10, t11, t12, t13⟩ :=
      turn_ok A prev cur fr (min data.length 250) r (by omega) hrl hA hcur hch hnd hpf hprev hpos (by omega)
    have hcl := getElem?_some_lt t7
    have hstep : writeLoop packStream (n + 1) A.flatten (256 * prev) cur data =
        writeLoop packStream n A2.flatten (256 * cur) (nextOf A2 fr.tail) (data.drop 250) := by
      rw [writeLoop, if_neg hne, hr]
      simp only [Outcome.ok_bind]
      rw [t1, t2]
      simp only [Outcome.ok_bind]
      rw [t3, t4, shl8_of (by omega)]
    have hdl : (data.take 250).length = min data.length 250 := by rw [List.length_take]; omega
    have hold : Spec.Holds A2 cur (data.take 250) := by
      refine ⟨_, t7, ?_, by omega, ?_⟩
      · rw [hdl]; exact half_le16 _ _ _ rfl (by omega)
      · rw [List.drop_left' (by simp [le32, le16]), hdl]
        exact hrt
    rw [hstep]
    by_cases hrest : data.drop 250 = []
    · rw [hrest, writeLoop_nil]
      have hd250 : data.length ≤ 250 := List.drop_eq_nil_iff.mp hrest
      refine ⟨A2, [cur], fr.tail, rfl, ⟨t5, t6, ?_, ?_, t8, ?_, t10, t12⟩, by omega⟩
      · exact ⟨rfl, t11, _, 0, t7, by rw [List.append_assoc]; exact word_le32 0 _ (by decide), rfl⟩
      · exact ⟨data, [], by simp, by rw [List.take_of_length_le hd250] at hold; exact hold, rfl⟩
      · intro b hb hbc hbp
        exact t9 b hb (by simpa using hbc) hbp
    · have hdl2 : (data.drop 250).length = data.length - 250 := List.length_drop
      have hgt : 250 < data.length := by
        rcases Nat.lt_or_ge 250 data.length with h | h
        · exact h
        · exact absurd (List.drop_eq_nil_of_le h) hrest
      have hnd2 : fr.tail.Nodup := hnd.sublist (List.tail_sublist fr)
      obtain ⟨A', ch, fr', i1, i2, i3⟩ := ih (data.drop 250) A2 cur (nextOf A2 fr.tail) fr.tail (by omega) hrest t5 rfl t8 hnd2
        (fun b hb h => t13 (h ▸ hb)) (fun _ => hcl) (by omega) (by omega)
      have hsub : ∀ b ∈ ch, b ∈ fr.tail ∨ A2.length ≤ b := by
        intro b hb
        have := i2.blocks.mem_iff.mp (List.mem_append_left _ hb)
        simp only [List.mem_append, List.mem_range'_1] at this
        rcases this with h | h
        · exact Or.inl h
        · exact Or.inr h.1
      have hlk := i2.link t11 _ t7
      have hcc : cur ∉ ch := fun h => by
        rcases hsub cur h with h | h
        · exact t13 h
        · omega
      have hnx : nextOf A2 fr.tail < 2 ^ 32 := by
        unfold nextOf
        split
        · omega
        · next h =>
          obtain ⟨y, ys, hy⟩ := List.exists_cons_of_ne_nil h
          rw [hy] at t8 ⊢
          have := (chain_valid t8 y (by simp)).2
          simp only [List.headD_cons]
          omega
      refine ⟨A', cur :: ch, fr', i1, ⟨i2.full, by have := i2.grows; omega, ?_, ?_, i2.rest, ?_, ?_, ?_⟩, by omega⟩
      · exact ⟨rfl, t11, _, _, hlk, word_splice_in _ _ _ (by simp [le32]) hnx, i2.chain⟩
      · refine ⟨data.take 250, data.drop 250, (List.take_append_drop _ _).symm, ?_, i2.content⟩
        exact holds_relink t7 (by simp [hrl, le32, le16]) hlk hold
      · intro b hb hbc hbp
        simp only [List.mem_cons, not_or] at hbc
        rw [i2.frame b (by omega) hbc.2 (Or.inl hbc.1), t9 b hb hbc.1 hbp]
      · intro hp p hpp
        have hpl := hprev hp
        have hpc : prev ≠ cur := by
          intro h
          have h1 : cur ∈ fr ++ List.range' A.length (A2.length - A.length) := t12.mem_iff.mp (by simp)
          simp only [List.mem_append, List.mem_range'_1] at h1
          rcases h1 with h1 | h1
          · exact hpf cur h1 h.symm
          · omega
        have hpch : prev ∉ ch := fun h => by
          rcases hsub prev h with h | h
          · exact hpf prev (List.mem_of_mem_tail h) rfl
          · omega
        rw [i2.frame prev (by omega) hpch (Or.inl hpc)]
        exact t10 hp p hpp
      · have hb := i2.blocks
        have hg := i2.grows
        refine (List.Perm.cons cur hb).trans ?_
        rw [← List.cons_append]
        refine (t12.append_right _).trans ?_
        rw [List.append_assoc]
        refine List.Perm.append_left _ ?_
        have : List.range' A.length (A'.length - A.length) =
            List.range' A.length (A2.length - A.length) ++ List.range' A2.length (A'.length - A2.length) := by
          have := List.range'_append_1 (s := A.length) (m := A2.length - A.length) (n := A'.length - A2.length)
          rw [show A.length + (A2.length - A.length) = A2.length by omega,
            show A2.length - A.length + (A'.length - A2.length) = A'.length - A.length by omega] at this
          exact this.symm
        rw [this]

end Verif.Blob
