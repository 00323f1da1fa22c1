import Verif.Index.Spec

/-! # Lemmas: index leaf pages -/

namespace Verif.Index
open Verif

theorem bind_ok {α β : Type} {x : Outcome α} {f : α → Outcome β} {b : β} (h : (x >>= f) = .ok b) : ∃ a, x = .ok a ∧ f a = .ok b := by
  cases x with
  | ok a => exact ⟨a, rfl, h⟩
  | throw => cases h
  | ub => cases h

/-! ## Numbers as bytes -/

theorem le_length (k n : Nat) : (le k n).length = k := by
  induction k generalizing n with
  | zero => rfl
  | succ k ih => simp [le, ih]

theorem ofLe_le (k n : Nat) : ofLe (le k n) = n % 256 ^ k := by
  induction k generalizing n with
  | zero => simp [le, ofLe, Nat.mod_one]
  | succ k ih =>
    rw [le, ofLe, ih, Nat.pow_succ, Nat.mul_comm (256 ^ k) 256, Nat.mod_mul]
    have : (UInt8.ofNat n).toNat = n % 256 := by simp
    rw [this]

theorem ofLe_append (a b : Bytes) : ofLe (a ++ b) = ofLe a + 256 ^ a.length * ofLe b := by
  induction a with
  | nil => simp [ofLe]
  | cons x a ih =>
    rw [List.cons_append, ofLe, ofLe, ih, List.length_cons, Nat.pow_succ]
    rw [Nat.mul_add, Nat.mul_comm (256 ^ a.length) 256, Nat.mul_assoc, Nat.add_assoc]

theorem ofLe_lt (a : Bytes) : ofLe a < 256 ^ a.length := by
  induction a with
  | nil => simp [ofLe]
  | cons x a ih =>
    rw [ofLe, List.length_cons, Nat.pow_succ]
    have := x.toNat_lt
    omega

/-- Reading 8 bytes where a packed record lies gives the record in the low bits. -/
theorem rd_word {p : Bytes} {off rb w : Nat} {more : Bytes} (hp : p.drop off = le rb w ++ more) (hrb : rb ≤ 8)
    (hoff : off ≤ p.length) (h8 : 8 ≤ rb + more.length) :
    ∃ x, rd p off 8 = .ok x ∧ x % 256 ^ rb = w % 256 ^ rb ∧ x < 2 ^ 64 := by
  have hl : (p.drop off).length = rb + more.length := by rw [hp, List.length_append, le_length]
  rw [List.length_drop] at hl
  refine ⟨ofLe ((p.drop off).take 8), ?_, ?_, ?_⟩
  · unfold rd; rw [if_pos (by omega)]
  · rw [hp, List.take_append, le_length, List.take_of_length_le (by rw [le_length]; exact hrb), ofLe_append, ofLe_le, le_length,
      Nat.add_mul_mod_self_left, Nat.mod_mod]
  · have := ofLe_lt ((p.drop off).take 8)
    have hlen : ((p.drop off).take 8).length = 8 := by rw [List.length_take, List.length_drop]; omega
    rw [hlen] at this
    exact this

theorem rd_short {p : Bytes} {off k : Nat} (h : p.length < off + k) : rd p off k = .ub := by
  unfold rd; rw [if_neg (by omega)]

theorem rd_le {p pre post : Bytes} {off k n : Nat} (hp : p = pre ++ (le k n ++ post)) (hl : pre.length = off) (hn : n < 256 ^ k) :
    rd p off k = .ok n := by
  unfold rd
  rw [if_pos (by rw [hp]; simp only [List.length_append, le_length]; omega), hp, List.drop_append_of_le_length (by omega),
    List.drop_of_length_le (by omega), List.nil_append, List.take_append_of_le_length (by rw [le_length]; omega),
    List.take_of_length_le (by rw [le_length]; omega), ofLe_le, Nat.mod_eq_of_lt hn]

/-! ## Bits -/

theorem bitLoop_spec (f n : Nat) (h : n < 2 ^ f) : n < 2 ^ bitLoop f n ∧ ∀ c, n < 2 ^ c → bitLoop f n ≤ c := by
  induction f generalizing n with
  | zero =>
    have : n = 0 := by simpa using h
    subst this
    simp [bitLoop]
  | succ f ih =>
    unfold bitLoop
    by_cases h0 : n = 0
    · subst h0; simp
    · rw [if_neg h0]
      have h1 : n / 2 < 2 ^ f := by rw [Nat.pow_succ] at h; omega
      obtain ⟨h2, h3⟩ := ih (n / 2) h1
      constructor
      · rw [Nat.pow_succ]; omega
      · intro c hc
        cases c with
        | zero => simp at hc; exact absurd hc h0
        | succ c =>
          have := h3 c (by rw [Nat.pow_succ] at hc; omega)
          omega

theorem bits_isBits {n : Nat} (h : n < 2 ^ 32) : Spec.IsBits n (bits n) := bitLoop_spec 32 n h

theorem bits_pos {n : Nat} (h : n < 2 ^ 32) (h0 : 0 < n) : 0 < bits n := by
  have := (bits_isBits h).1
  rcases Nat.eq_zero_or_pos (bits n) with h1 | h1
  · rw [h1] at this; simp at this; omega
  · exact h1

theorem bits_le {n c : Nat} (h : n < 2 ^ 32) (hc : n < 2 ^ c) : bits n ≤ c := (bits_isBits h).2 c hc

theorem mask_eq (k : Nat) (hk : k ≤ 32) : mask k = 2 ^ k - 1 := by
  induction k with
  | zero => rfl
  | succ k ih =>
    have hpos : 0 < 2 ^ k := Nat.two_pow_pos k
    rw [mask, ih (by omega), ← Nat.shiftLeft_add_eq_or_of_lt (by decide : 1 < 2 ^ 1), Nat.shiftLeft_eq, Nat.pow_succ]
    have h32 : 2 ^ k ≤ 2 ^ 31 := Nat.pow_le_pow_right (by decide) (by omega)
    rw [Nat.mod_eq_of_lt (by omega)]
    omega

theorem mask_big (k : Nat) (hk : 32 ≤ k) : mask k = 2 ^ 32 - 1 := by
  obtain ⟨d, rfl⟩ : ∃ d, k = 32 + d := ⟨k - 32, by omega⟩
  induction d with
  | zero => exact mask_eq 32 (by omega)
  | succ d ih =>
    rw [show 32 + (d + 1) = 32 + d + 1 by omega, mask, ih (by omega)]
    decide

/-- The masks read back from the header extract the low bits. -/
theorem and_mask (w k : Nat) : w &&& mask k = w % 2 ^ min k 32 := by
  by_cases h : k ≤ 32
  · rw [mask_eq k h, Nat.and_two_pow_sub_one_eq_mod, Nat.min_eq_left h]
  · rw [mask_big k (by omega), Nat.and_two_pow_sub_one_eq_mod, Nat.min_eq_right (by omega)]

theorem mask_lt (k : Nat) : mask k < 2 ^ 32 := by
  cases k with
  | zero => decide
  | succ k => exact Nat.mod_lt _ (by decide)

theorem mask_lt16 (k : Nat) (h : k ≤ 16) : mask k < 2 ^ 16 := by
  rw [mask_eq k (by omega)]
  have : 2 ^ k ≤ 2 ^ 16 := Nat.pow_le_pow_right (by decide) h
  have := Nat.two_pow_pos k
  omega

theorem sar_mod (w s k : Nat) (h : s + k ≤ 64) : sar w s % 2 ^ k = w / 2 ^ s % 2 ^ k := by
  unfold sar
  split
  · rw [Nat.add_zero]
  · have h1 : 2 ^ 64 - 2 ^ (64 - s) = 2 ^ k * (2 ^ (64 - k) - 2 ^ (64 - s - k)) := by
      rw [Nat.mul_sub, ← Nat.pow_add, ← Nat.pow_add]
      congr 2 <;> omega
    rw [h1, Nat.add_mul_mod_self_left]

theorem sar_sar_mod (w s t k : Nat) (h : s + t + k ≤ 64) : sar (sar w s) t % 2 ^ k = w / 2 ^ (s + t) % 2 ^ k := by
  rw [sar_mod _ _ _ (by omega)]
  unfold sar
  split
  · rw [Nat.add_zero, Nat.div_div_eq_div_mul, ← Nat.pow_add]
  · have h1 : 2 ^ 64 - 2 ^ (64 - s) = 2 ^ t * (2 ^ k * (2 ^ (64 - k - t) - 2 ^ (64 - s - k - t))) := by
      rw [Nat.mul_sub, Nat.mul_sub, ← Nat.pow_add, ← Nat.pow_add, ← Nat.pow_add, ← Nat.pow_add]
      congr 2 <;> omega
    rw [h1, Nat.add_mul_div_left _ _ (Nat.two_pow_pos t), Nat.add_mul_mod_self_left, Nat.div_div_eq_div_mul, ← Nat.pow_add]

theorem word_eq (lb nb : Nat) (m : Mid) (hn : m.num < 2 ^ nb) (hl : m.left < 2 ^ lb) :
    word lb nb m = (m.right * 2 ^ lb + m.left) * 2 ^ nb + m.num := by
  unfold word
  rw [← Nat.shiftLeft_add_eq_or_of_lt hl, ← Nat.shiftLeft_add_eq_or_of_lt hn, Nat.shiftLeft_eq, Nat.shiftLeft_eq]

/-- The three parts of a packed record, from any 64 bits that have it at their low end. -/
theorem word_parts (lb nb rb w : Nat) (m : Mid) (hb : nb + lb + lb = rb * 8) (hrb : rb ≤ 8)
    (hn : m.num < 2 ^ nb) (hn32 : m.num < 2 ^ 32) (hl : m.left < 2 ^ lb) (hr : m.right < 2 ^ lb) (hl16 : lb ≤ 32)
    (hwm : w % 256 ^ rb = word lb nb m % 256 ^ rb) :
    w &&& mask nb = m.num ∧ sar w nb &&& mask lb = m.left ∧ sar (sar w nb) lb &&& mask lb = m.right := by
  have e256 : (256 : Nat) ^ rb = 2 ^ (nb + lb + lb) := by
    rw [hb, show (256 : Nat) = 2 ^ 8 by decide, ← Nat.pow_mul, Nat.mul_comm]
  rw [e256] at hwm
  have hword := word_eq lb nb m hn hl
  have hlt : word lb nb m < 2 ^ (nb + lb + lb) := by
    rw [hword, Nat.pow_add, Nat.pow_add]
    have h1 : m.right * 2 ^ lb + m.left < 2 ^ lb * 2 ^ lb := by
      have : (m.right + 1) * 2 ^ lb ≤ 2 ^ lb * 2 ^ lb := Nat.mul_le_mul_right _ hr
      rw [Nat.add_mul] at this
      omega
    have h2 : (m.right * 2 ^ lb + m.left + 1) * 2 ^ nb ≤ 2 ^ lb * 2 ^ lb * 2 ^ nb := Nat.mul_le_mul_right _ h1
    rw [Nat.add_mul] at h2
    have h3 : 2 ^ nb * 2 ^ lb * 2 ^ lb = 2 ^ lb * 2 ^ lb * 2 ^ nb := by
      rw [Nat.mul_assoc, Nat.mul_comm]
    omega
  rw [Nat.mod_eq_of_lt hlt] at hwm
  have hmm : ∀ k, k ≤ nb + lb + lb → w % 2 ^ k = word lb nb m % 2 ^ k := by
    intro k hk
    rw [← hwm, Nat.mod_mod_of_dvd _ (Nat.pow_dvd_pow 2 hk)]
  have hdm : ∀ s k, s + k ≤ nb + lb + lb → w / 2 ^ s % 2 ^ k = word lb nb m / 2 ^ s % 2 ^ k := by
    intro s k hk
    have h1 := hmm (s + k) hk
    have h2 : ∀ x : Nat, x / 2 ^ s % 2 ^ k = (x % 2 ^ (s + k)) / 2 ^ s := by
      intro x
      rw [Nat.pow_add, Nat.mod_mul_right_div_self]
    rw [h2, h2, h1]
  have q1 : word lb nb m / 2 ^ nb = m.right * 2 ^ lb + m.left := by
    rw [hword, Nat.mul_comm, Nat.mul_add_div (Nat.two_pow_pos nb), Nat.div_eq_of_lt hn, Nat.add_zero]
  have q2 : word lb nb m / 2 ^ (nb + lb) = m.right := by
    rw [Nat.pow_add, ← Nat.div_div_eq_div_mul, q1, Nat.mul_comm, Nat.mul_add_div (Nat.two_pow_pos lb), Nat.div_eq_of_lt hl, Nat.add_zero]
  refine ⟨?_, ?_, ?_⟩
  · rw [and_mask, hmm _ (by omega), hword]
    have : 2 ^ min nb 32 ∣ (m.right * 2 ^ lb + m.left) * 2 ^ nb := Nat.dvd_mul_left_of_dvd (Nat.pow_dvd_pow 2 (Nat.min_le_left _ _)) _
    obtain ⟨c, hc⟩ := this
    rw [hc, Nat.mul_add_mod]
    apply Nat.mod_eq_of_lt
    rcases Nat.le_total nb 32 with h | h
    · rw [Nat.min_eq_left h]; exact hn
    · rw [Nat.min_eq_right h]; exact hn32
  · rw [and_mask, Nat.min_eq_left hl16, sar_mod _ _ _ (by omega), hdm _ _ (by omega), q1, Nat.mul_comm, Nat.mul_add_mod, Nat.mod_eq_of_lt hl]
  · rw [and_mask, Nat.min_eq_left hl16, sar_sar_mod _ _ _ _ (by omega), hdm _ _ (by omega), q2, Nat.mod_eq_of_lt hr]

/-! ## Keys -/

theorem common_le (a b : Bytes) : common a b ≤ a.length ∧ common a b ≤ b.length := by
  induction a generalizing b with
  | nil => simp [common]
  | cons x a ih =>
    cases b with
    | nil => simp [common]
    | cons y b =>
      have := ih b
      unfold common
      split
      · simp only [List.length_cons]; omega
      · simp

theorem common_take (a b : Bytes) : a.take (common a b) = b.take (common a b) := by
  induction a generalizing b with
  | nil => simp [common]
  | cons x a ih =>
    cases b with
    | nil => simp [common]
    | cons y b =>
      unfold common
      split
      · rename_i h; subst h; simp [ih b]
      · rfl

theorem common_next (a b : Bytes) (h1 : common a b < a.length) (h2 : common a b < b.length) :
    a[common a b]? ≠ b[common a b]? := by
  induction a generalizing b with
  | nil => simp [common] at h1
  | cons x a ih =>
    cases b with
    | nil => simp [common] at h2
    | cons y b =>
      unfold common at h1 h2 ⊢
      split
      · rename_i h
        rw [if_pos h] at h1 h2
        simp only [List.length_cons] at h1 h2
        simpa using ih b (by omega) (by omega)
      · rename_i h
        simpa using h

theorem zeros_le (b : Bytes) : zeros b ≤ b.length := by
  induction b with
  | nil => simp [zeros]
  | cons x b ih => unfold zeros; split <;> simp only [List.length_cons] <;> omega

theorem zeros_take (b : Bytes) : b.take (zeros b) = List.replicate (zeros b) 0 := by
  induction b with
  | nil => rfl
  | cons x b ih =>
    unfold zeros
    split
    · rename_i h
      subst h
      rw [List.take_succ_cons, ih, List.replicate_succ]
    · rfl

theorem trailing_le (k : Bytes) : trailing k ≤ k.length := by
  have := zeros_le k.reverse
  rwa [List.length_reverse] at this

theorem trailing_drop (k : Bytes) : k.drop (k.length - trailing k) = List.replicate (trailing k) 0 := by
  have h := zeros_take k.reverse
  have hl := trailing_le k
  unfold trailing at *
  rw [List.take_reverse] at h
  have := congrArg List.reverse h
  rw [List.reverse_reverse, List.reverse_replicate] at this
  exact this

/-- A key is its prefix, its middle and zeros. -/
theorem key_split (k : Bytes) (l r : Nat) (hr : r ≤ trailing k) (h : l + r ≤ k.length) :
    k.take l ++ (k.drop l).take (k.length - l - r) ++ List.replicate r 0 = k := by
  have h1 : k.drop (k.length - r) = List.replicate r 0 := by
    have ht := trailing_le k
    have := congrArg (List.drop (trailing k - r)) (trailing_drop k)
    rw [List.drop_drop, List.drop_replicate, show k.length - trailing k + (trailing k - r) = k.length - r by omega,
      show trailing k - (trailing k - r) = r by omega] at this
    exact this
  have h2 : (k.drop l).drop (k.length - l - r) = List.replicate r 0 := by
    rw [List.drop_drop, show l + (k.length - l - r) = k.length - r by omega, h1]
  rw [List.append_assoc, ← h2, List.take_append_drop, List.take_append_drop]

theorem common_eq_shared (a b : Bytes) : common a b = Spec.shared a b := by
  unfold Spec.shared
  induction a generalizing b with
  | nil => simp [common]
  | cons x a ih =>
    cases b with
    | nil => simp [common]
    | cons y b =>
      unfold common
      rw [List.zip_cons_cons, List.takeWhile_cons]
      by_cases h : x = y
      · subst h; simp [ih b]
      · have : (x == y) = false := by simpa using h
        rw [if_neg h]
        simp [this]

theorem trailing_eq (k : Bytes) : trailing k = Spec.zeroTail k := by
  unfold trailing Spec.zeroTail
  generalize k.reverse = b
  induction b with
  | nil => rfl
  | cons x b ih =>
    unfold zeros
    rw [List.takeWhile_cons]
    by_cases h : x = 0
    · subst h; simp [ih]
    · have : (x == 0) = false := by simpa using h
      rw [if_neg h, this]
      rfl

/-! ## Packing -/

/-- What is stored grows at the front. -/
theorem packKeys_tail {primary : Bool} {len ds : Nat} {rest : Bytes} {prev : Option Bytes} {es : List Entry} {plen : Nat} {tail tail' : Bytes}
    {ms : List Mid} (h : packKeys primary len ds rest prev es plen tail = .ok (some (ms, tail'))) :
    ∃ x, tail' = x ++ tail ∧ ms.length = es.length := by
  induction es generalizing prev plen tail ms tail' with
  | nil => simp only [packKeys] at h; cases h; exact ⟨[], rfl, rfl⟩
  | cons e es ih =>
    unfold packKeys at h
    split at h
    · cases h
    · split at h
      · cases h
      · split at h
        · cases h
        · obtain ⟨r, hr, h2⟩ := bind_ok h
          cases r with
          | none => cases h2
          | some x =>
            obtain ⟨ms', t'⟩ := x
            obtain ⟨y, hy, hl⟩ := ih hr
            cases h2
            exact ⟨_, by rw [hy, ← List.append_assoc], by simp [hl]⟩

theorem leftOf_le (prev : Option Bytes) (k : Bytes) : leftOf prev k ≤ k.length := by
  unfold leftOf
  cases prev with
  | none => exact Nat.zero_le _
  | some p => exact (common_le k p).1

theorem leftOf_take (prev : Option Bytes) (k : Bytes) : (prev.getD []).take (leftOf prev k) = k.take (leftOf prev k) := by
  unfold leftOf
  cases prev with
  | none => rfl
  | some p => exact (common_take k p).symm

theorem rightOf_le (len left : Nat) (k : Bytes) (h : left ≤ len) : left + rightOf len left k ≤ len := by
  unfold rightOf
  split <;> omega

theorem rightOf_trailing (len left : Nat) (k : Bytes) : rightOf len left k ≤ trailing k := by
  unfold rightOf
  split <;> omega

/-- The loop of the unpacker on a packed page. -/
theorem loop_packed {primary : Bool} {len ds lb nb rb : Nat} {rest rem page : Bytes} (hb : nb + lb + lb = rb * 8) (hrb : rb ≤ 8)
    (hlb : lb ≤ 32) (hlen : len < 2 ^ lb) (h0 : 0 < len) (es : List Entry) (prev : Option Bytes) (plen : Nat) (tail0 tail : Bytes)
    (ms : List Mid) (rpos : Nat)
    (h : packKeys primary len ds rest prev es plen tail0 = .ok (some (ms, tail)))
    (hes : ∀ e ∈ es, e.key.length = len ∧ e.num < 2 ^ 32 ∧ e.num < 2 ^ nb)
    (htl : tail.length ≤ page.length) (htail : page.drop (page.length - tail.length) = tail)
    (hrec : page.drop rpos = (ms.map (fun m => le rb (word lb nb m))).flatten ++ rem) (hrpos : rpos ≤ page.length) :
    unpackLoop len ⟨mask nb, mask lb, mask lb, nb, lb, rb⟩ page es.length rpos (page.length - tail0.length) prev =
      if es = [] ∨ 8 ≤ rb + rem.length then .ok es else .ub := by
  induction es generalizing prev plen tail0 tail ms rpos with
  | nil => rw [if_pos (.inl rfl)]; rfl
  | cons e es ih =>
    obtain ⟨hk, hn32, hn⟩ := hes e (List.mem_cons_self ..)
    unfold packKeys at h
    split at h
    · cases h
    · split at h
      · cases h
      · split at h
        · cases h
        · obtain ⟨r, hr, h2⟩ := bind_ok h
          cases r with
          | none => cases h2
          | some x =>
            obtain ⟨ms', t'⟩ := x
            cases h2
            dsimp only at hrec htl htail
            generalize hj : len - leftOf prev e.key - rightOf len (leftOf prev e.key) e.key = j at hr
            have hL : leftOf prev e.key ≤ len := by rw [← hk]; exact leftOf_le _ _
            have hR := rightOf_le len (leftOf prev e.key) e.key hL
            have hRt := rightOf_trailing len (leftOf prev e.key) e.key
            obtain ⟨x, hx, hmsl⟩ := packKeys_tail hr
            have hmid : ((e.key.drop (leftOf prev e.key)).take j).length = j := by
              rw [List.length_take, List.length_drop]; omega
            rw [List.map_cons, List.flatten_cons, List.append_assoc] at hrec
            have hl := congrArg List.length hrec
            rw [List.length_drop, List.length_append, le_length, List.length_append] at hl
            by_cases h8 : 8 ≤ rb + ((ms'.map (fun m => le rb (word lb nb m))).flatten ++ rem).length
            · obtain ⟨w, hw1, hw2, hw3⟩ := rd_word hrec hrb hrpos h8
              obtain ⟨p1, p2, p3⟩ := word_parts lb nb rb w ⟨e.num, leftOf prev e.key, rightOf len (leftOf prev e.key) e.key⟩ hb hrb
                hn hn32 (by simp only; omega) (by simp only; omega) hlb hw2
              simp only at p1 p2 p3
              have htake : (page.drop (page.length - tail0.length - j)).take j = (e.key.drop (leftOf prev e.key)).take j := by
                have := congrArg (List.drop x.length) htail
                rw [List.drop_drop, hx] at this
                simp only [List.length_append, List.drop_left'] at this
                have hlt := htl
                rw [hx] at hlt
                simp only [List.length_append] at hlt
                rw [hmid] at this hlt
                rw [show page.length - (x.length + (j + tail0.length)) + x.length = page.length - tail0.length - j by omega] at this
                rw [this, List.take_append_of_le_length (by omega), List.take_of_length_le (by omega)]
              have hip : ¬ page.length - tail0.length < j := by
                have hlt := htl
                rw [hx] at hlt
                simp only [List.length_append] at hlt
                rw [hmid] at hlt
                omega
              have hkey : (prev.getD []).take (leftOf prev e.key) ++ (page.drop (page.length - tail0.length - j)).take j ++
                  List.replicate (rightOf len (leftOf prev e.key) e.key) 0 = e.key := by
                rw [leftOf_take, htake, ← hj]
                have := key_split e.key (leftOf prev e.key) (rightOf len (leftOf prev e.key) e.key) hRt (by omega)
                rw [hk] at this
                exact this
              rw [List.length_cons]
              unfold unpackLoop
              rw [hw1, Outcome.ok_bind]
              have hnb : ¬ (nb ≥ 64 ∨ lb ≥ 64) := by
                have : lb ≠ 0 := by
                  rintro rfl
                  simp at hlen; omega
                omega
              simp only [p1, p2, p3, hj, hkey]
              rw [if_neg hnb, if_neg (by omega), if_neg (by
                rintro ⟨g1, g2⟩
                subst g2
                exact g1 rfl), if_neg hip]
              have hrec' : page.drop (rpos + rb) = (ms'.map (fun m => le rb (word lb nb m))).flatten ++ rem := by
                have := congrArg (List.drop rb) hrec
                rwa [List.drop_drop, List.drop_left' (le_length _ _)] at this
              have := ih (some e.key) _ _ _ ms' (rpos + rb) hr (fun d hd => hes d (List.mem_cons_of_mem _ hd)) htl htail hrec' (by omega)
              rw [List.length_append, hmid, show page.length - (j + tail0.length) = page.length - tail0.length - j by omega] at this
              rw [this]
              rw [List.length_append] at h8
              by_cases hc : es = []
              · subst hc
                have hm0 : ms' = [] := List.length_eq_zero_iff.mp (by rw [hmsl]; rfl)
                subst hm0
                rw [if_pos (.inl rfl), if_pos (.inr (by simpa using h8))]
                rfl
              · by_cases hc8 : 8 ≤ rb + rem.length
                · rw [if_pos (.inr hc8), if_pos (.inr hc8)]; rfl
                · rw [if_neg (fun g => g.elim hc hc8), if_neg (fun g => g.elim (List.cons_ne_nil _ _) hc8)]; rfl
            · rw [List.length_cons]
              unfold unpackLoop
              rw [List.length_append] at h8
              rw [rd_short (by omega), if_neg (fun g => g.elim (List.cons_ne_nil _ _) (fun g => h8 (by omega)))]
              rfl

end Verif.Index
