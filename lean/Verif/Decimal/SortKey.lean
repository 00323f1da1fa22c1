import Verif.Decimal.Lemmas

/-! Helper lemmas for the numeric sort key. -/

namespace Verif.Decimal
open Verif Spec

theorem nibs_packPairs (ds : List Nat) (h : ∀ d ∈ ds, d < 10) :
    nibs (packPairs (ds.map Int.ofNat)) = ds ++ (if ds.length % 2 = 1 then [0] else []) := by
  match ds with
  | [] => rfl
  | [d] =>
    have hd := h d (by simp)
    have := pack1_toNat ⟨d, hd⟩
    simp only [List.map_cons, List.map_nil, packPairs, nibs, Int.ofNat_eq_natCast] at *
    rw [this]; simp
  | d :: e :: rest =>
    have hd := h d (by simp)
    have he := h e (by simp)
    have := pack_toNat ⟨d, hd⟩ ⟨e, he⟩
    have ih := nibs_packPairs rest (fun x hx => h x (by simp [hx]))
    simp only [List.map_cons, packPairs, nibs, Int.ofNat_eq_natCast] at *
    rw [this, ih]
    rw [show (d * 16 + e) / 16 = d by omega, show (d * 16 + e) % 16 = e by omega]
    have hp : ((rest.length + 1 + 1) % 2 = 1) = (rest.length % 2 = 1) := by
      apply propext; omega
    simp only [List.length_cons, List.cons_append, hp]

theorem nibs_set_lo (buf : List UInt8) (j : Nat) (x : UInt8) (c : Nat)
    (h1 : x.toNat / 16 = (buf.getD j 0).toNat / 16) (h2 : x.toNat % 16 = c) :
    nibs (buf.set j x) = (nibs buf).set (2 * j + 1) c := by
  induction buf generalizing j with
  | nil => simp [nibs]
  | cons b bs ih => cases j with
    | zero => simp at h1; simp [nibs, h1, h2]
    | succ j =>
      simp at h1
      rw [show 2 * (j + 1) + 1 = (2 * j + 1) + 1 + 1 by omega]
      simp only [List.set_cons_succ, nibs, ih j (by simpa using h1)]

theorem nibs_set_hi (buf : List UInt8) (j : Nat) (x : UInt8) (c : Nat)
    (h1 : x.toNat % 16 = (buf.getD j 0).toNat % 16) (h2 : x.toNat / 16 = c) :
    nibs (buf.set j x) = (nibs buf).set (2 * j) c := by
  induction buf generalizing j with
  | nil => simp [nibs]
  | cons b bs ih => cases j with
    | zero => simp at h1; simp [nibs, h1, h2]
    | succ j =>
      simp at h1
      simp only [List.set_cons_succ, nibs, ih j (by simpa using h1)]
      rw [show 2 * (j + 1) = (2 * j) + 1 + 1 by omega]
      simp

theorem nibs_get (buf : List UInt8) (j : Nat) (hj : j < buf.length) :
    (nibs buf)[2 * j]? = some ((buf.getD j 0).toNat / 16) ∧
    (nibs buf)[2 * j + 1]? = some ((buf.getD j 0).toNat % 16) := by
  induction buf generalizing j with
  | nil => simp at hj
  | cons b bs ih => cases j with
    | zero => simp [nibs]
    | succ j =>
      have := ih j (by simpa using hj)
      rw [show 2 * (j + 1) + 1 = (2 * j + 1) + 1 + 1 by omega,
        show 2 * (j + 1) = (2 * j) + 1 + 1 by omega]
      simpa [nibs] using this

theorem loNib (b : UInt8) : (b &&& 0x0f).toNat = b.toNat % 16 := by
  refine forall_byte (p := fun b => (b &&& 0x0f).toNat = b.toNat % 16) ?_ b
  decide +kernel

theorem hiNib (b : UInt8) : ((b >>> 4) &&& 0x0f).toNat = b.toNat / 16 := by
  refine forall_byte (p := fun b => ((b >>> 4) &&& 0x0f).toNat = b.toNat / 16) ?_ b
  decide +kernel

theorem setLo (b : UInt8) (c : UInt8) (hc : c.toNat < 10) :
    ((b &&& 0xf0) ||| c).toNat / 16 = b.toNat / 16 ∧ ((b &&& 0xf0) ||| c).toNat % 16 = c.toNat := by
  have H : ∀ i : Fin 256, ∀ c : Fin 10,
      ((UInt8.ofNat i.val &&& 0xf0) ||| UInt8.ofNat c.val).toNat / 16 = (UInt8.ofNat i.val).toNat / 16 ∧
      ((UInt8.ofNat i.val &&& 0xf0) ||| UInt8.ofNat c.val).toNat % 16 = c.val := by decide +kernel
  have := H ⟨b.toNat, b.toNat_lt⟩ ⟨c.toNat, hc⟩
  simpa using this

theorem setHi (b : UInt8) (c : UInt8) (hc : c.toNat < 10) :
    ((b &&& 0x0f) ||| (c <<< (4 : UInt8))).toNat % 16 = b.toNat % 16 ∧
    ((b &&& 0x0f) ||| (c <<< (4 : UInt8))).toNat / 16 = c.toNat := by
  have H : ∀ i : Fin 256, ∀ c : Fin 10,
      ((UInt8.ofNat i.val &&& 0x0f) ||| (UInt8.ofNat c.val <<< (4 : UInt8))).toNat % 16 = (UInt8.ofNat i.val).toNat % 16 ∧
      ((UInt8.ofNat i.val &&& 0x0f) ||| (UInt8.ofNat c.val <<< (4 : UInt8))).toNat / 16 = c.val := by decide +kernel
  have := H ⟨b.toNat, b.toNat_lt⟩ ⟨c.toNat, hc⟩
  simpa using this

theorem complStep_spec (c : UInt8) (hc : c.toNat < 10) (k : Bool) :
    (complStep c k).1.toNat = (if k then 9 - c.toNat else if c.toNat = 0 then 0 else 10 - c.toNat) ∧
    (complStep c k).2 = (k || decide (c.toNat ≠ 0)) := by
  have H : ∀ c : Fin 10, ∀ k : Bool,
    (complStep (UInt8.ofNat c.val) k).1.toNat = (if k then 9 - c.val else if c.val = 0 then 0 else 10 - c.val) ∧
    (complStep (UInt8.ofNat c.val) k).2 = (k || decide (c.val ≠ 0)) := by decide +kernel
  have := H ⟨c.toNat, hc⟩ k
  simpa using this

/-- Value of the ten's complement computed by the loop. -/
def complVal (n i : Nat) (k : Bool) : Nat :=
  if k then 10 ^ i - 1 - n else if n = 0 then 0 else 10 ^ i - n

theorem complLoop_spec (ds : List Nat) (s : Nat) (rest : List Nat) (buf : List UInt8) (k : Bool)
    (hd : ∀ d ∈ ds, d < 10) (hb : nibs buf = s :: ds ++ rest) :
    ∃ out, (complLoop ds.length buf k).2 = (k || decide (val 10 ds ≠ 0)) ∧
      (complLoop ds.length buf k).1.length = buf.length ∧
      nibs (complLoop ds.length buf k).1 = s :: out ++ rest ∧ out.length = ds.length ∧
      (∀ d ∈ out, d < 10) ∧ val 10 out = complVal (val 10 ds) ds.length k := by
  induction hn : ds.length generalizing ds rest buf k with
  | zero =>
    have : ds = [] := List.length_eq_zero_iff.mp hn
    subst this
    refine ⟨[], ?_, rfl, by simpa [complLoop] using hb, rfl, by simp, ?_⟩
    · simp [complLoop]
    · cases k <;> simp [complVal]
  | succ i ih =>
    obtain ⟨ds', d, rfl⟩ : ∃ ds' d, ds = ds' ++ [d] := by
      have hne : ds ≠ [] := by intro h; subst h; simp at hn
      exact ⟨ds.dropLast, ds.getLast hne, (List.dropLast_concat_getLast hne).symm⟩
    have hlen : ds'.length = i := by simpa using hn
    have hdd : d < 10 := hd d (by simp)
    have hbl : 2 * buf.length = 1 + (i + 1) + rest.length := by
      have := congrArg List.length hb
      simp [hlen] at this; omega
    have hjlt : (i + 1) / 2 < buf.length := by omega
    have hget := nibs_get buf ((i + 1) / 2) hjlt
    have hnib : (nibs buf)[i + 1]? = some d := by
      rw [hb]
      simp only [List.cons_append, List.getElem?_cons_succ, List.append_assoc]
      rw [List.getElem?_append_right (by omega)]; simp [hlen]
    have hset : ∀ c, (nibs buf).set (i + 1) c = s :: ds' ++ (c :: rest) := by
      intro c
      rw [hb]
      simp only [List.cons_append, List.set_cons_succ, List.append_assoc]
      rw [List.set_append_right _ _ (by omega)]; simp [hlen]
    -- the common conclusion once the buffer after one step is known
    have step : ∀ (c : UInt8) (buf' : List UInt8), c.toNat < 10 → c.toNat = d →
        buf'.length = buf.length →
        nibs buf' = (nibs buf).set (i + 1) (complStep c k).1.toNat →
        complLoop (i + 1) buf k = complLoop i buf' (complStep c k).2 →
        ∃ out, (complLoop (i + 1) buf k).2 = (k || decide (val 10 (ds' ++ [d]) ≠ 0)) ∧
          (complLoop (i + 1) buf k).1.length = buf.length ∧
          nibs (complLoop (i + 1) buf k).1 = s :: out ++ rest ∧ out.length = i + 1 ∧
          (∀ d ∈ out, d < 10) ∧ val 10 out = complVal (val 10 (ds' ++ [d])) (i + 1) k := by
      intro c buf' hc hcd hlen' hnib' hloop
      obtain ⟨hs1, hs2⟩ := complStep_spec c hc k
      have hb' : nibs buf' = s :: ds' ++ ((complStep c k).1.toNat :: rest) := by rw [hnib', hset]
      obtain ⟨out, h1, h2, h3, h4, h5, h6⟩ :=
        ih ds' ((complStep c k).1.toNat :: rest) buf' (complStep c k).2
          (fun x hx => hd x (by simp [hx])) hb' hlen
      have hcompl_lt : (complStep c k).1.toNat < 10 := by
        rw [hs1]; split
        · omega
        · split <;> omega
      have hval : val 10 (ds' ++ [d]) = val 10 ds' * 10 + d := by
        rw [val_append]; simp [val_cons]
      have hlt : val 10 ds' < 10 ^ i := by
        have := val_lt 10 ds' (fun x hx => hd x (by simp [hx]))
        rwa [hlen] at this
      refine ⟨out ++ [(complStep c k).1.toNat], ?_, ?_, ?_, by simp [h4], ?_, ?_⟩
      · rw [hloop, h1, hs2, hval, hcd]
        rw [Bool.eq_iff_iff]; cases k <;> simp; omega
      · rw [hloop, h2, hlen']
      · rw [hloop, h3]; simp
      · intro x hx
        simp only [List.mem_append, List.mem_singleton] at hx
        rcases hx with hx | hx
        · exact h5 x hx
        · omega
      · rw [val_append, h6, hval]
        simp only [List.length_singleton, Nat.pow_one, val_cons, List.length_nil, Nat.pow_zero,
          Nat.mul_one, val_nil, Nat.add_zero]
        rw [hs1, hs2, hcd]
        unfold complVal
        rw [Nat.pow_succ]
        generalize val 10 ds' = v at *
        generalize 10 ^ i = P at *
        cases k with
        | true => simp; omega
        | false =>
          by_cases hd0 : d = 0
          · subst hd0; simp
            by_cases hv : v = 0
            · simp [hv]
            · have h10 : ¬ (v * 10 = 0) := by omega
              simp only [hv, h10, if_false]; omega
          · have : (v * 10 + d = 0) = False := by simp; omega
            simp [hd0]; omega
    by_cases hpar : (i + 1) % 2 = 1
    · have h2 : 2 * ((i + 1) / 2) + 1 = i + 1 := by omega
      rw [h2, hnib] at hget
      have hbd : d = (buf.getD ((i + 1) / 2) 0).toNat % 16 := by
        have := hget.2; simpa using this
      have hcd : (buf.getD ((i + 1) / 2) 0 &&& 0x0f).toNat = d := by rw [loNib]; exact hbd.symm
      have hs := complStep_spec _ (by omega : (buf.getD ((i + 1) / 2) 0 &&& 0x0f).toNat < 10) k
      have hslt : (complStep (buf.getD ((i + 1) / 2) 0 &&& 0x0f) k).1.toNat < 10 := by
        rw [hs.1]; split
        · omega
        · split <;> omega
      obtain ⟨e1, e2⟩ := setLo (buf.getD ((i + 1) / 2) 0) _ hslt
      refine step (buf.getD ((i + 1) / 2) 0 &&& 0x0f) _ (by omega) hcd (List.length_set ..)
        ((nibs_set_lo buf _ _ _ e1 e2).trans (by rw [h2])) ?_
      rw [complLoop]; simp only [hpar, if_true]
    · have h2 : 2 * ((i + 1) / 2) = i + 1 := by omega
      rw [h2, hnib] at hget
      have hbd : d = (buf.getD ((i + 1) / 2) 0).toNat / 16 := by
        have := hget.1; simpa using this
      have hcd : ((buf.getD ((i + 1) / 2) 0 >>> 4) &&& 0x0f).toNat = d := by rw [hiNib]; exact hbd.symm
      have hs := complStep_spec _ (by omega : ((buf.getD ((i + 1) / 2) 0 >>> 4) &&& 0x0f).toNat < 10) k
      have hslt : (complStep ((buf.getD ((i + 1) / 2) 0 >>> 4) &&& 0x0f) k).1.toNat < 10 := by
        rw [hs.1]; split
        · omega
        · split <;> omega
      obtain ⟨e1, e2⟩ := setHi (buf.getD ((i + 1) / 2) 0) _ hslt
      refine step ((buf.getD ((i + 1) / 2) 0 >>> 4) &&& 0x0f) _ (by omega) hcd (List.length_set ..)
        ((nibs_set_hi buf _ _ _ e1 e2).trans (by rw [h2])) ?_
      rw [complLoop]; simp only [hpar, if_false]

end Verif.Decimal

namespace Verif.Decimal
open Verif Spec

/-- Padding nibble of an even-length number. -/
def pad (L : Nat) : List Nat := if (L - 1) % 2 = 1 then [0] else []

theorem writeTo_nibs (ds : List Nat) (hne : ds ≠ []) (h : ∀ d ∈ ds, d < 10) (p : Nat) (sign : Int) :
    ∃ bs, writeTo { hasSign := true, precision := p, data := ds.map Int.ofNat, sign } = .ok bs ∧
      bs.length = numericSize ds.length ∧
      nibs bs = (if sign = -1 then 0 else 1) :: ds ++ pad ds.length := by
  cases ds with
  | nil => exact absurd rfl hne
  | cons d ds =>
    have hd := h d (by simp)
    have h1 := sgn_toNat (decide (sign = -1)) ⟨d, hd⟩
    refine ⟨_, rfl, ?_, ?_⟩
    · simp [packPairs_length, numericSize]
    · rw [nibs, nibs_packPairs _ (fun x hx => h x (by simp [hx]))]
      simp only [decide_eq_true_eq] at h1
      rw [show Int.ofNat d = ((d : Nat) : Int) from rfl, h1]
      unfold pad
      by_cases hs : sign = -1
      · simp [hs]; omega
      · simp [hs]; omega

theorem lex_append_right (l m p : List Nat) (h : l.length = m.length)
    (hl : ∀ d ∈ l, d < 16) (hm : ∀ d ∈ m, d < 16) (hp : ∀ d ∈ p, d < 16) :
    l ++ p < m ++ p ↔ l < m := by
  rw [lex_iff_val_lt 16 _ _ (by simp [h]) (by simp; grind) (by simp; grind),
    lex_iff_val_lt 16 l m h hl hm, val_append, val_append]
  have : 0 < 16 ^ p.length := Nat.pow_pos (by omega)
  constructor
  · intro hh
    have : val 16 l * 16 ^ p.length < val 16 m * 16 ^ p.length := by omega
    exact Nat.lt_of_mul_lt_mul_right this
  · intro hh
    have := Nat.mul_lt_mul_of_pos_right hh this
    omega

theorem head_nib (bs : List UInt8) (s : Nat) (r : List Nat) (h : nibs bs = s :: r) :
    ((bs.getD 0 0) &&& 0xf0 = (0 : UInt8)) ↔ s = 0 := by
  cases bs with
  | nil => simp [nibs] at h
  | cons b bs =>
    simp [nibs] at h
    rw [← h.1]
    refine forall_byte (p := fun b => ((b :: bs).getD 0 0 &&& 0xf0 = (0 : UInt8)) ↔ b.toNat / 16 = 0) ?_ b
    simp only [List.getD_cons_zero]
    decide +kernel

/-- What the key of a number looks like: its nibbles after the padding are the
digits of `10^L + value`. -/
theorem sortKey_nibs (ds : List Nat) (hne : ds ≠ []) (h : ∀ d ∈ ds, d < 10) (neg : Bool)
    (bs : Bytes) (hb : bs.length = numericSize ds.length)
    (hn : nibs bs = (if neg then 0 else 1) :: ds ++ pad ds.length) (maxlen : Nat)
    (h64 : numericSize ds.length ≤ 64) (hm : numericSize ds.length ≤ maxlen) :
    ∃ k s out, numericSortKey bs ds.length maxlen = .ok k ∧ k.length = numericSize ds.length ∧
      nibs k = s :: out ++ pad ds.length ∧ out.length = ds.length ∧ s < 10 ∧ (∀ d ∈ out, d < 10) ∧
      ((s * 10 ^ ds.length + val 10 out : Nat) : Int)
        = ((10 ^ ds.length : Nat) : Int) + (if neg then -1 else 1) * (val 10 ds : Nat) := by
  have hpos : 0 < numericSize ds.length := by unfold numericSize; omega
  unfold numericSortKey
  simp only
  rw [if_neg (by omega), if_neg (by omega), List.take_of_length_le (by omega)]
  have hhead := head_nib bs _ _ hn
  cases neg with
  | false =>
    simp only [Bool.false_eq_true, if_false] at hn hhead ⊢
    rw [if_neg (show ¬ maxlen < numericSize ds.length by omega), if_neg (by rw [hhead]; decide)]
    exact ⟨bs, 1, ds, rfl, hb, hn, rfl, by omega, h, by push_cast; omega⟩
  | true =>
    simp only [if_true] at hn hhead ⊢
    rw [if_neg (show ¬ maxlen < numericSize ds.length by omega), if_pos (hhead.mpr trivial)]
    obtain ⟨out, h1, h2, h3, h4, h5, h6⟩ := complLoop_spec ds 0 (pad ds.length) bs false h hn
    have hlt := val_lt 10 ds h
    rw [h1]
    by_cases hv : val 10 ds = 0
    · simp only [hv, ne_eq, not_true_eq_false, decide_false, Bool.or_false, Bool.false_eq_true, if_false]
      refine ⟨_, 1, out, rfl, by simp [h2, hb], ?_, h4, by omega, h5, ?_⟩
      · -- the first byte is replaced by 0x10: sign nibble 1, first digit 0
        generalize (complLoop ds.length bs false).1 = nb at *
        have hout0 : ∃ r, out = 0 :: r := by
          cases out with
          | nil => exact absurd (List.length_eq_zero_iff.mp h4.symm) hne
          | cons x xs =>
            rw [val_cons, complVal, hv] at h6
            simp at h6
            have : 0 < 10 ^ xs.length := Nat.pow_pos (by omega)
            have hx0 : x = 0 := by
              rcases Nat.mul_eq_zero.mp h6.1 with h | h
              · exact h
              · omega
            exact ⟨xs, by rw [hx0]⟩
        obtain ⟨r, rfl⟩ := hout0
        cases nb with
        | nil => simp [nibs] at h3
        | cons b nb =>
          simp [nibs] at h3
          simp [nibs, h3.2.2]
      · rw [h6, complVal, hv]; simp
    · simp only [ne_eq, hv, not_false_eq_true, decide_true, Bool.false_or, if_true]
      refine ⟨_, 0, out, rfl, by rw [h2, hb], h3, h4, by omega, h5, ?_⟩
      rw [h6, complVal]
      simp only [Bool.false_eq_true, if_false, hv]
      omega

end Verif.Decimal
