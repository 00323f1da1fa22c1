import Verif.Container.Spec
import Verif.Stream.Theorems

/-! # Helper lemmas: headers, positioned reads and writes -/

namespace Verif.Container
open Verif Verif.Stream Verif.Container.Spec

/-! ## Digits and headers -/

theorem hexDigit_eq (d : Nat) :
    hexDigit d = if d < 10 then UInt8.ofNat (0x30 + d) else UInt8.ofNat (0x61 + (d - 10)) := by
  unfold hexDigit
  by_cases h : d < 10
  · rw [if_pos h, if_pos h]
  · rw [if_neg h, if_neg h]; congr 1; omega

theorem hex8_eq (v : Nat) : hex8 v = digits v := by
  unfold hex8 digits
  simp only [List.range, List.range.loop, List.map, hexDigit_eq]
  simp only [show (16:Nat)^(7-0) = 268435456 from rfl, show (16:Nat)^(7-1) = 16777216 from rfl, show (16:Nat)^(7-2) = 1048576 from rfl, show (16:Nat)^(7-3) = 65536 from rfl, show (16:Nat)^(7-4) = 4096 from rfl, show (16:Nat)^(7-5) = 256 from rfl, show (16:Nat)^(7-6) = 16 from rfl, show (16:Nat)^(7-7) = 1 from rfl, Nat.div_one]

theorem digits_length (v : Nat) : (digits v).length = 8 := by simp [digits]

theorem hex8_length (v : Nat) : (hex8 v).length = 8 := rfl

theorem header_length (a b c : Nat) : (header a b c).length = 31 := by
  simp [header, digits_length]

theorem hexVal_hexDigit (n : Nat) (h : n < 16) : hexVal (hexDigit n) = some n := by
  have : ∀ i : Fin 16, hexVal (hexDigit i.val) = some i.val := by decide
  exact this ⟨n, h⟩

theorem stoiRun_digit (acc n : Nat) (h : n < 16) (bs : Bytes) :
    stoiRun acc (hexDigit n :: bs) = stoiRun (acc * 16 + n) bs := by
  rw [stoiRun, hexVal_hexDigit n h]

theorem stoiRun_hex8 (v : Nat) (h : v < 2 ^ 32) (b : UInt8) (hb : hexVal b = none) (rest : Bytes) :
    stoiRun 0 (hex8 v ++ b :: rest) = some v := by
  unfold hex8
  simp only [List.cons_append, List.nil_append]
  repeat rw [stoiRun_digit _ _ (Nat.mod_lt _ (by omega))]
  rw [stoiRun, hb]
  simp only [Option.some.injEq]
  omega

theorem get_of_prefix (hdr pre rest : Bytes) (off v : Nat) (hv : v < 2 ^ 32)
    (h : hdr = pre ++ (hex8 v ++ 0x20 :: rest)) (hoff : pre.length = off) :
    getField hdr off = if v > 0x7fffffff then .throw else .ok v := by
  unfold getField
  rw [h, List.drop_left' hoff, stoiRun_hex8 v hv 0x20 (by decide)]

theorem get_dataSize (a b c : Nat) (ha : a < 2 ^ 32) (tail : Bytes) :
    getField (header a b c ++ tail) dataSizeOff = if a > 0x7fffffff then .throw else .ok a :=
  get_of_prefix _ [0x0d, 0x0a] (digits b ++ [0x20] ++ digits c ++ [0x20, 0x0d, 0x0a] ++ tail) _ a ha
    (by simp [header, hex8_eq]) rfl

theorem get_pageSize (a b c : Nat) (hb : b < 2 ^ 32) (tail : Bytes) :
    getField (header a b c ++ tail) pageSizeOff = if b > 0x7fffffff then .throw else .ok b :=
  get_of_prefix _ ([0x0d, 0x0a] ++ digits a ++ [0x20]) (digits c ++ [0x20, 0x0d, 0x0a] ++ tail) _ b hb
    (by simp [header, hex8_eq]) (by simp [digits_length, pageSizeOff])

theorem get_next (a b c : Nat) (hc : c < 2 ^ 32) (tail : Bytes) :
    getField (header a b c ++ tail) nextOff = if c > 0x7fffffff then .throw else .ok c :=
  get_of_prefix _ ([0x0d, 0x0a] ++ digits a ++ [0x20] ++ digits b ++ [0x20]) ([0x0d, 0x0a] ++ tail) _ c hc
    (by simp [header, hex8_eq]) (by simp [digits_length, nextOff])

theorem setField_of (hdr pre old post : Bytes) (off v : Nat) (h : hdr = pre ++ (old ++ post))
    (hp : pre.length = off) (ho : old.length = 8) : setField hdr off v = pre ++ (digits v ++ post) := by
  unfold setField
  rw [h, List.take_left' hp, hex8_eq]
  rw [show off + 8 = (pre ++ old).length by simp [hp, ho], ← List.append_assoc pre old post,
    List.drop_left]
  simp

theorem set_dataSize (a b c v : Nat) : setField (header a b c) dataSizeOff v = header v b c := by
  rw [setField_of (header a b c) [0x0d, 0x0a] (digits a)
    ([0x20] ++ digits b ++ [0x20] ++ digits c ++ [0x20, 0x0d, 0x0a]) dataSizeOff v
    (by simp [header]) rfl (digits_length a)]
  simp [header]

theorem set_pageSize (a b c v : Nat) : setField (header a b c) pageSizeOff v = header a v c := by
  rw [setField_of (header a b c) ([0x0d, 0x0a] ++ digits a ++ [0x20]) (digits b)
    ([0x20] ++ digits c ++ [0x20, 0x0d, 0x0a]) pageSizeOff v
    (by simp [header]) (by simp [digits_length, pageSizeOff]) (digits_length b)]
  simp [header]

theorem set_next (a b c v : Nat) : setField (header a b c) nextOff v = header a b v := by
  rw [setField_of (header a b c) ([0x0d, 0x0a] ++ digits a ++ [0x20] ++ digits b ++ [0x20]) (digits c)
    ([0x20, 0x0d, 0x0a]) nextOff v
    (by simp [header]) (by simp [digits_length, nextOff]) (digits_length c)]
  simp [header]

theorem createHdr_eq (a b c : Nat) : createHdr a b c = header a b c := by
  unfold createHdr
  rw [setField_of defaultHdr [0x0d, 0x0a] (List.replicate 8 0)
    ([0x20] ++ List.replicate 8 0 ++ [0x20] ++ List.replicate 8 0 ++ [0x20, 0x0d, 0x0a]) dataSizeOff a
    (by simp [defaultHdr]) rfl (by simp)]
  rw [setField_of _ ([0x0d, 0x0a] ++ digits a ++ [0x20]) (List.replicate 8 0)
    ([0x20] ++ List.replicate 8 0 ++ [0x20, 0x0d, 0x0a]) pageSizeOff b
    (by simp) (by simp [digits_length, pageSizeOff]) (by simp)]
  rw [setField_of _ ([0x0d, 0x0a] ++ digits a ++ [0x20] ++ digits b ++ [0x20]) (List.replicate 8 0)
    ([0x20, 0x0d, 0x0a]) nextOff c
    (by simp) (by simp [digits_length, nextOff]) (by simp)]
  simp [header]

/-! ## Positioned access -/

/-- `bs` written at `p`. -/
def putAt (d : Bytes) (p : Nat) (bs : Bytes) : Bytes := d.take p ++ (bs ++ d.drop (p + bs.length))

theorem putLoop_eq (bs : Bytes) : ∀ (d : Bytes) (p : Nat), p + bs.length ≤ d.length →
    putLoop d p bs = putAt d p bs := by
  induction bs with
  | nil => intro d p _; simp [putLoop, putAt]
  | cons b bs ih =>
    intro d p h
    simp only [List.length_cons] at h
    rw [putLoop, ih _ _ (by simp; omega)]
    unfold putAt
    have hp : p < d.length := by omega
    rw [List.take_succ_eq_append_getElem (by simpa using hp), List.take_set_of_le (Nat.le_refl p)]
    rw [List.drop_set_of_lt (by omega)]
    simp only [List.getElem_set_self, List.length_cons, List.append_assoc, List.cons_append,
      List.nil_append]
    rw [show p + 1 + bs.length = p + (bs.length + 1) by omega]

theorem ensure_putAt (d : Bytes) (p : Nat) (bs : Bytes) (h : p ≤ d.length) :
    putLoop (ensureSize d (p + bs.length)) p bs = putAt d p bs := by
  by_cases hc : d.length < p + bs.length
  · have e : ensureSize d (p + bs.length) = d ++ List.replicate (p + bs.length - d.length) 0 := by
      unfold ensureSize resizeB; rw [if_pos hc, List.take_of_length_le (by omega)]
    rw [e, putLoop_eq _ _ _ (by simp; omega)]
    unfold putAt
    rw [List.take_append_of_le_length h]
    rw [List.drop_eq_nil_of_le (by simp; omega), List.drop_eq_nil_of_le (by omega)]
  · unfold ensureSize; rw [if_neg hc]; exact putLoop_eq _ _ _ (by omega)

theorem write_at (d : Bytes) (p : Nat) (bs : Bytes) (h : p ≤ d.length) :
    Mem.write ⟨d, (p : Int)⟩ bs = .ok (bs.length, ⟨putAt d p bs, ((p + bs.length : Nat) : Int)⟩) := by
  unfold Mem.write
  simp only
  rw [if_neg (by omega)]
  simp only [Int.toNat_natCast]
  rw [ensure_putAt d p bs h]
  simp

theorem putAt_length (d : Bytes) (p : Nat) (bs : Bytes) (h : p ≤ d.length) :
    (putAt d p bs).length = max d.length (p + bs.length) := by
  simp [putAt]; omega

theorem putAt_append (d : Bytes) (p : Nat) (x y : Bytes) (h : p ≤ d.length) :
    putAt (putAt d p x) (p + x.length) y = putAt d p (x ++ y) := by
  unfold putAt
  have e1 : (d.take p ++ (x ++ d.drop (p + x.length))).take (p + x.length) = d.take p ++ x := by
    rw [← List.append_assoc, List.take_left' (by simp; omega)]
  have e2 : (d.take p ++ (x ++ d.drop (p + x.length))).drop (p + x.length + y.length)
      = d.drop (p + x.length + y.length) := by
    rw [← List.append_assoc, List.drop_append]
    rw [List.drop_eq_nil_of_le (by simp; omega)]
    rw [List.nil_append, List.drop_drop]
    congr 1; simp; omega
  rw [e1, e2]
  simp [Nat.add_assoc]

theorem slice_putAt_apart (d : Bytes) (p : Nat) (bs : Bytes) (a n : Nat) (h : p ≤ d.length)
    (hd : a + n ≤ p ∨ p + bs.length ≤ a) : slice (putAt d p bs) a n = slice d a n := by
  unfold slice putAt
  rcases hd with hd | hd
  · rw [List.drop_append_of_le_length (by simp; omega),
      List.take_append_of_le_length (by simp; omega), List.drop_take, List.take_take]
    congr 1; omega
  · rw [← List.append_assoc, List.drop_append, List.drop_eq_nil_of_le (by simp; omega),
      List.nil_append, List.drop_drop]
    congr 2; simp; omega

theorem slice_putAt_in (d : Bytes) (p : Nat) (bs : Bytes) (k n : Nat) (h : p ≤ d.length)
    (hk : k + n ≤ bs.length) : slice (putAt d p bs) (p + k) n = slice bs k n := by
  unfold slice putAt
  rw [List.drop_append, List.drop_eq_nil_of_le (by simp; omega), List.nil_append]
  rw [show p + k - (d.take p).length = k by simp; omega]
  rw [List.drop_append_of_le_length (by omega), List.take_append_of_le_length (by simp; omega)]

theorem slice_append_left (x y : Bytes) (n : Nat) (h : n ≤ x.length) : slice (x ++ y) 0 n = x.take n := by
  unfold slice; rw [List.drop_zero, List.take_append_of_le_length h]

theorem slice_append_right (x y : Bytes) (k n : Nat) (h : x.length = k) : slice (x ++ y) k n = y.take n := by
  unfold slice; rw [List.drop_left' h]

theorem slice_length (d : Bytes) (a n : Nat) (h : a + n ≤ d.length) : (slice d a n).length = n := by
  simp [slice]; omega

theorem seekB_ok (m : Mem) (n : Nat) (h : n ≤ m.data.length) : seekB m n = .ok ⟨m.data, (n : Int)⟩ := by
  unfold seekB Mem.seek
  simp only
  rw [if_neg (by omega)]

theorem readHdr_ok (d : Bytes) (a : Nat) (hdr : Bytes) (hh : hdr.length = 31) (h : a + 31 ≤ d.length) :
    readHdr hdr ⟨d, (a : Int)⟩ = .ok (slice d a 31, ⟨d, ((a + 31 : Nat) : Int)⟩) := by
  unfold readHdr hdrSize
  rw [read_result _ _ (by simp)]
  simp only [Outcome.ok_bind, Int.toNat_natCast]
  have hl : (slice d a 31).length = 31 := slice_length d a 31 h
  rw [show (d.drop a).take 31 = slice d a 31 from rfl, hl,
    List.drop_eq_nil_of_le (by omega), List.append_nil]
  rw [show min 31 (d.length - a) = 31 by omega]
  simp

/-- `CopyFrom` of `n > 0` available bytes. -/
theorem copyFrom_ok (d : Bytes) (p : Nat) (src : Mem) (q n : Nat) (hp : p ≤ d.length)
    (hq : src.pos = q) (hn : 0 < n) (ha : q + n ≤ src.data.length) :
    copyFrom ⟨d, (p : Int)⟩ src n = .ok (n, ⟨putAt d p (slice src.data q n), ((p + n : Nat) : Int)⟩,
      ⟨src.data, ((q + n : Nat) : Int)⟩) := by
  obtain ⟨sd, sp⟩ := src
  simp only at hq ha ⊢
  subst hq
  have hl := slice_length sd q n ha
  unfold copyFrom copyCount Mem.readVec
  rw [if_neg (by omega)]
  simp only [show n ≠ 0 by omega, if_false]
  rw [read_result _ _ (by simp)]
  simp only [Outcome.ok_bind, Int.toNat_natCast]
  rw [show (sd.drop q).take n = slice sd q n from rfl, hl, Nat.sub_self]
  simp only [List.replicate_zero, List.append_nil]
  unfold Mem.writeVec
  rw [if_neg (by omega), if_neg (by omega)]
  rw [List.take_of_length_le (by omega), write_at _ _ _ hp]
  simp only [Outcome.ok_bind]
  rw [hl, show min n (sd.length - q) = n by omega]
  simp

theorem copyFrom_empty (m : Mem) (p : Int) : copyFrom m ⟨[], p⟩ 0 = .ok (0, m, ⟨[], 0⟩) := by
  unfold copyFrom
  simp only [if_true]
  have : (Mem.seek ⟨[], p⟩ 0 .begin).2 = ⟨[], 0⟩ := by
    simp [Mem.seek]
  rw [this]
  simp

end Verif.Container
