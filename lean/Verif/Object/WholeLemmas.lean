import Verif.Object.Whole
import Verif.Object.StoreTheorems

/-! # Lemmas: replacing the whole contents of an object -/

namespace Verif.Object
open Verif

/-- Page `bn` is handed out without being read and `b` is stored at its beginning. -/
theorem chunk_weak (e : Env) (s : St) (P bn : Nat) (b p : Bytes) (hP : e.P = P) (hp : s.pages[bn]? = some p)
    (hl : p.length = P) (hb : b.length ≤ P) :
    ∃ s0, touch e s bn false = .ok s0 ∧ ∃ s1 p', poke s0 bn 0 b = .ok s1 ∧ s1.fr = s.fr ∧ p'.length = P ∧
      s1.pages = (s.pages.set bn p').set bn (splice p' 0 b) := by
  have hlt := getElem?_some_lt hp
  unfold touch
  rw [if_neg (by omega), if_neg (by omega), if_neg (by simp)]
  refine ⟨_, rfl, ?_⟩
  by_cases hora : e.ora s.tick = true
  · simp only [hora, if_true]
    refine ⟨{ s with pages := s.pages.set bn (splice p 0 b), tick := s.tick + 1 }, p,
      poke_ok _ bn 0 b p hp (by omega), rfl, hl, ?_⟩
    simp only
    rw [List.set_set]
  · simp only [hora]
    have hz : (List.replicate e.P (0 : UInt8)).length = P := by rw [List.length_replicate, hP]
    generalize List.replicate e.P (0 : UInt8) = z at hz
    exact ⟨{ s with pages := (s.pages.set bn z).set bn (splice z 0 b), tick := s.tick + 1 }, z,
      poke_ok _ bn 0 b z (get_set_eq _ _ _ hlt) (by omega), rfl, hz, rfl⟩

/-- What a loop over whole pages achieves from page `k` on: `buf` is stored, the bytes
before it and the pages after the last one it needs are as before. -/
structure Filled (s s' : St) (P : Nat) (D : List Nat) (k : Nat) (buf : Bytes) : Prop where
  fr : s'.fr = s.fr
  len : s'.pages.length = s.pages.length
  full : ∀ p ∈ s'.pages, p.length = P
  frame : ∀ q, q ∉ D → s'.pages[q]? = s.pages[q]?
  bytes : ∀ i, i < buf.length → fileByte s'.pages P D (k * P + i) = buf[i]?
  before : ∀ i, i < k * P → fileByte s'.pages P D i = fileByte s.pages P D i
  after : ∀ i, k * P + (buf.length + (P - 1)) / P * P ≤ i → fileByte s'.pages P D i = fileByte s.pages P D i

theorem filled_nil (s : St) (P : Nat) (D : List Nat) (k : Nat) (hf : ∀ p ∈ s.pages, p.length = P) :
    Filled s s P D k [] := ⟨rfl, rfl, hf, fun _ _ => rfl, by simp, fun _ _ => rfl, fun _ _ => rfl⟩

/-- The effect of one page on the bytes of the file. -/
theorem weak_bytes (pages : List Bytes) (P : Nat) (hP : 0 < P) (D : List Nat) (hnd : D.Nodup) (k : Nat) (hk : k < D.length)
    (p' b : Bytes) (hlt : D[k] < pages.length) (hl : p'.length = P) (hb : b.length ≤ P) (i : Nat) :
    (k * P ≤ i → i < k * P + b.length →
      fileByte ((pages.set D[k] p').set D[k] (splice p' 0 b)) P D i = b[i - k * P]?) ∧
    (i < k * P ∨ (k + 1) * P ≤ i →
      fileByte ((pages.set D[k] p').set D[k] (splice p' 0 b)) P D i = fileByte pages P D i) := by
  have h := chunk_bytes (pages.set D[k] p') P hP D hnd k 0 hk p' b (get_set_eq _ _ _ hlt) hl (by omega) i
  have e1 : (k + 1) * P = k * P + P := by rw [Nat.add_mul, Nat.one_mul]
  rw [h]
  refine ⟨fun h1 h2 => by rw [if_pos (by omega)]; simp, fun hi => ?_⟩
  rw [if_neg (by omega)]
  unfold fileByte
  cases hd : D[i / P]? with
  | none => rfl
  | some n =>
    simp only [Option.bind_some]
    rw [get_set_ne]
    refine nodup_get_ne hnd (List.getElem?_eq_getElem hk) hd ?_
    intro hc
    have hm := Nat.div_add_mod i P
    have hml := Nat.mod_lt i hP
    rw [← hc, Nat.mul_comm P k] at hm
    omega

theorem ceil_more (n P : Nat) (hP : 0 < P) (h : P < n) : P + (n - P + (P - 1)) / P * P = (n + (P - 1)) / P * P := by
  have e : n + (P - 1) = n - P + (P - 1) + P := by omega
  have h2 := Nat.add_div_right (n - P + (P - 1)) hP
  rw [e, h2]
  rw [Nat.succ_mul]
  omega

theorem ceil_one (n P : Nat) (h0 : 0 < n) (h : n ≤ P) : (n + (P - 1)) / P * P = P := by
  have : (n + (P - 1)) / P = 1 := by
    apply Nat.div_eq_of_lt_le <;> omega
  rw [this, Nat.one_mul]

/-- One page written, the rest by the loop. -/
theorem filled_step {s s1 s2 : St} {P : Nat} (hP : 0 < P) {D : List Nat} (hnd : D.Nodup) {k : Nat} (hk : k < D.length)
    {p' buf : Bytes} {c : Nat} (hc : c = min P buf.length) (hne : buf ≠ []) (hlt : D[k] < s.pages.length) (hl : p'.length = P)
    (h1 : s1.fr = s.fr) (h2 : s1.pages = (s.pages.set D[k] p').set D[k] (splice p' 0 (buf.take c)))
    (hw : Filled s1 s2 P D (k + 1) (buf.drop c)) : Filled s s2 P D k buf := by
  have htl : (buf.take c).length = c := by simp; omega
  have hpos : 0 < buf.length := List.length_pos_iff.mpr hne
  have e : (k + 1) * P = k * P + P := by rw [Nat.add_mul, Nat.one_mul]
  have wb := fun i => weak_bytes s.pages P hP D hnd k hk p' (buf.take c) hlt hl (by omega) i
  rw [← h2, htl] at wb
  refine ⟨hw.fr.trans h1, ?_, hw.full, ?_, ?_, ?_, ?_⟩
  · rw [hw.len, h2, List.length_set, List.length_set]
  · intro q hq
    have : D[k] ≠ q := by rintro rfl; exact hq (List.getElem_mem hk)
    rw [hw.frame q hq, h2, get_set_ne _ _ _ _ this, get_set_ne _ _ _ _ this]
  · intro i hi
    by_cases hic : i < c
    · rw [hw.before _ (by omega), (wb _).1 (by omega) (by omega)]
      rw [show k * P + i - k * P = i by omega, List.getElem?_take_of_lt hic]
    · have hcP : c = P := by omega
      have := hw.bytes (i - c) (by rw [List.length_drop]; omega)
      rw [show (k + 1) * P + (i - c) = k * P + i by omega, List.getElem?_drop] at this
      rw [this]
      congr 1; omega
  · intro i hi
    rw [hw.before i (by omega), (wb i).2 (by omega)]
  · intro i hi
    by_cases hcl : buf.length ≤ P
    · rw [ceil_one _ _ hpos hcl] at hi
      have hdr : buf.drop c = [] := List.drop_eq_nil_of_le (by omega)
      rw [hw.after i (by
        rw [hdr]; simp only [List.length_nil, Nat.zero_add]
        rw [Nat.div_eq_of_lt (by omega)]; omega), (wb i).2 (by omega)]
    · have hcP : c = P := by omega
      have hce := ceil_more buf.length P hP (by omega)
      have hw' := hw.after i
      rw [List.length_drop, hcP] at hw'
      rw [hw' (by omega), (wb i).2 (by right; rw [e]; have := Nat.zero_le ((buf.length - P + (P - 1)) / P * P); omega)]

theorem filled_append {s s1 s2 : St} {P : Nat} {D : List Nat} {k n : Nat} {a b : Bytes} (hP : 0 < P) (ha : a.length = n * P)
    (h1 : Filled s s1 P D k a) (h2 : Filled s1 s2 P D (k + n) b) : Filled s s2 P D k (a ++ b) := by
  have e : (k + n) * P = k * P + a.length := by rw [Nat.add_mul, ha]
  have hce : (a.length + (P - 1)) / P * P = n * P := by
    rw [ha, Nat.mul_comm n P, Nat.mul_add_div hP, Nat.div_eq_of_lt (by omega), Nat.add_zero, Nat.mul_comm]
  have hce2 : ((a ++ b).length + (P - 1)) / P * P = n * P + (b.length + (P - 1)) / P * P := by
    rw [List.length_append, ha, Nat.add_assoc, Nat.mul_comm n P, Nat.mul_add_div hP, Nat.add_mul, Nat.mul_comm]
  refine ⟨h2.fr.trans h1.fr, h2.len.trans h1.len, h2.full, ?_, ?_, ?_, ?_⟩
  · intro q hq; rw [h2.frame q hq, h1.frame q hq]
  · intro i hi
    rw [List.length_append] at hi
    by_cases hia : i < a.length
    · rw [h2.before _ (by omega), h1.bytes i hia, List.getElem?_append_left hia]
    · have := h2.bytes (i - a.length) (by omega)
      rw [show (k + n) * P + (i - a.length) = k * P + i by omega] at this
      rw [this, List.getElem?_append_right (by omega)]
  · intro i hi
    rw [h2.before i (by omega), h1.before i hi]
  · intro i hi
    rw [hce2] at hi
    rw [h2.after i (by omega), h1.after i (by omega)]

/-! ## Format 8.0 -/

/-- The inner loop, from entry `j` (page `k` of the file) of a table that lists `count`
pages: it stores what fits in the pages listed and says whether there is more. -/
theorem wholeTab80_ok (e : Env) (hPe : e.P = 4096) (D : List Nat) (hnd : D.Nodup) (tn : Nat) (hT : tn ∉ D)
    (count : Nat) (hcount : count ≤ 1023) (fuel : Nat) :
    ∀ (s : St) (j k cl : Nat) (rest tp : Bytes), (∀ p ∈ s.pages, p.length = 4096) → (∀ q ∈ D, q < s.pages.length) →
      s.pages[tn]? = some tp → Spec.word tp 0 = some count → j ≤ count → count - j < fuel →
      (∀ m, j + m < count → ∃ h : k + m < D.length, Spec.word tp (4 + 4 * (j + m)) = some D[k + m]) → rest ≠ [] →
      (rest.length ≤ (count - j) * 4096 → ∃ s' cl' rest', wholeTab80 e tn fuel j cl rest s = .ok (s', cl', rest') ∧
        rest'.length ≤ cl' ∧ Filled s s' 4096 D k rest) ∧
      ((count - j) * 4096 < rest.length → j < count → ∃ s', wholeTab80 e tn fuel j cl rest s =
          .ok (s', 4096, rest.drop ((count - j) * 4096)) ∧ Filled s s' 4096 D k (rest.take ((count - j) * 4096))) := by
  induction fuel with
  | zero => intro s j k cl rest tp _ _ _ _ _ h; omega
  | succ fuel ih =>
    intro s j k cl rest tp hf hin ht hcw hj hfu hent hne
    have hpos : 0 < rest.length := List.length_pos_iff.mpr hne
    have hpk0 : peek s tn 0 = .ok count := by
      simp only [peek, ht]; exact (rd32_word _ _ _).mpr hcw
    unfold wholeTab80
    simp only [hpk0, Outcome.ok_bind]
    by_cases hjc : j < count
    · rw [if_neg (by omega)]
      obtain ⟨hk, hent0⟩ := hent 0 (by omega)
      simp only [Nat.add_zero] at hent0 hk
      have hpk : peek s tn (4 + 4 * j) = .ok D[k] := by
        simp only [peek, ht]; exact (rd32_word _ _ _).mpr hent0
      have hq := hin _ (List.getElem_mem hk)
      have hp := List.getElem?_eq_getElem hq
      have hl := hf _ (List.getElem_mem hq)
      generalize hc : min 4096 rest.length = c
      have htl : (rest.take c).length = c := by simp; omega
      obtain ⟨s0, h1, s1, p', h2, h3, h4, h5⟩ := chunk_weak e s 4096 D[k] (rest.take c) _ hPe hp hl (by omega)
      simp only [hpk, Outcome.ok_bind, h1, h2]
      have hf1 : ∀ q ∈ s1.pages, q.length = 4096 := by
        rw [h5]
        exact set_lengths _ _ _ _ (set_lengths _ _ _ _ hf h4) (by rw [length_splice _ _ _ (by omega)]; exact h4)
      have hlen1 : s1.pages.length = s.pages.length := by rw [h5, List.length_set, List.length_set]
      have hin1 : ∀ q ∈ D, q < s1.pages.length := by rw [hlen1]; exact hin
      have hTk : D[k] ≠ tn := fun h => hT (h ▸ List.getElem_mem hk)
      have ht1 : s1.pages[tn]? = some tp := by
        rw [h5, get_set_ne _ _ _ _ hTk, get_set_ne _ _ _ _ hTk, ht]
      have hstep : ∀ s2 r, Filled s1 s2 4096 D (k + 1) r → ∀ b : Bytes, b ≠ [] → b.take (min 4096 b.length) = rest.take c →
          b.drop (min 4096 b.length) = r → Filled s s2 4096 D k b := by
        intro s2 r hw b hb e1 e2
        refine filled_step (by decide) hnd hk (c := min 4096 b.length) rfl hb hq h4 h3 ?_ (by rw [e2]; exact hw)
        rw [e1]; exact h5
      by_cases hrl : rest.length ≤ c
      · rw [if_pos hrl]
        refine ⟨fun _ => ⟨s1, c, rest, rfl, hrl, ?_⟩, fun hmore => ?_⟩
        · refine hstep s1 [] (filled_nil s1 4096 D _ hf1) rest hne (by rw [hc]) ?_
          rw [hc]; exact List.drop_eq_nil_of_le hrl
        · exfalso
          have : 1 * 4096 ≤ (count - j) * 4096 := Nat.mul_le_mul_right _ (by omega)
          omega
      · rw [if_neg hrl]
        have hc4 : c = 4096 := by omega
        have hdne : rest.drop c ≠ [] := by
          intro h
          have := congrArg List.length h
          simp at this; omega
        have hsub : (count - j) * 4096 = 4096 + (count - (j + 1)) * 4096 := by
          rw [show count - j = count - (j + 1) + 1 by omega, Nat.add_mul]; omega
        obtain ⟨A, B⟩ := ih s1 (j + 1) (k + 1) c (rest.drop c) tp hf1 hin1 ht1 hcw (by omega) (by omega)
          (by
            intro m hm
            obtain ⟨h, hh⟩ := hent (m + 1) (by omega)
            refine ⟨by omega, ?_⟩
            rw [show j + 1 + m = j + (m + 1) by omega, hh]
            congr 2; omega) hdne
        rw [List.length_drop] at A B
        constructor
        · intro hfit
          obtain ⟨s2, cl', rest', a1, a2, a3⟩ := A (by omega)
          exact ⟨s2, cl', rest', a1, a2, hstep s2 _ a3 rest hne (by rw [hc]) (by rw [hc])⟩
        · intro hmore _
          by_cases hlast : j + 1 < count
          · have hB1 : (count - (j + 1)) * 4096 < rest.length - c := by
              rw [hc4]
              exact Nat.lt_sub_of_add_lt (by rw [Nat.add_comm, ← hsub]; exact hmore)
            obtain ⟨s2, a1, a2⟩ := B hB1 hlast
            clear A B
            refine ⟨s2, ?_, ?_⟩
            · have hsum : c + (count - (j + 1)) * 4096 = (count - j) * 4096 := by omega
              rw [a1, List.drop_drop, hsum]
            · have hne2 : rest.take ((count - j) * 4096) ≠ [] := by
                apply List.ne_nil_of_length_pos
                rw [List.length_take]; omega
              have hl2 : min 4096 (rest.take ((count - j) * 4096)).length = c := by
                rw [List.length_take]; omega
              refine hstep s2 _ a2 _ hne2 ?_ ?_
              · rw [hl2, List.take_take]; congr 1; omega
              · rw [hl2, List.drop_take]; congr 1; omega
          · clear A B
            have hje : count = j + 1 := by omega
            have hres : wholeTab80 e tn fuel (j + 1) c (rest.drop c) s1 = .ok (s1, c, rest.drop c) := by
              cases fuel with
              | zero => omega
              | succ f =>
                have hpk1 : peek s1 tn 0 = .ok count := by
                  simp only [peek, ht1]; exact (rd32_word _ _ _).mpr hcw
                unfold wholeTab80
                simp only [hpk1, Outcome.ok_bind]
                rw [if_pos (by omega)]
            have e0 : (count - j) * 4096 = 4096 := by omega
            refine ⟨s1, ?_, ?_⟩
            · rw [hres, e0, hc4]
            · rw [e0]
              have hl2 : min 4096 (rest.take 4096).length = 4096 := by rw [List.length_take]; omega
              refine hstep s1 [] (filled_nil s1 4096 D _ hf1) _ ?_ ?_ ?_
              · apply List.ne_nil_of_length_pos
                rw [List.length_take]; omega
              · rw [hl2, List.take_take, hc4]; congr 1
              · rw [hl2]; exact List.drop_eq_nil_of_le (by rw [List.length_take]; omega)
    · have hje : count - j = 0 := by omega
      refine ⟨fun h => ?_, fun _ h => absurd h hjc⟩
      rw [hje] at h; omega

/-- How many of `n` bytes the loops of format 8.0 store: if the last table of the file lists a
single page, and it is not the first table, that page is left out. -/
def Spec.stored80 (n : Nat) : Nat :=
  if 4190208 < n ∧ 1 ≤ n % 4190208 ∧ n % 4190208 ≤ 4096 then n - n % 4190208 else n

theorem wholeTabs80_ok (e : Env) (hPe : e.P = 4096) (tabs D : List Nat) (hnd : D.Nodup) (n : Nat) :
    ∀ (s : St) (i cl : Nat) (rest : Bytes), (∀ p ∈ s.pages, p.length = 4096) → (∀ q ∈ D, q < s.pages.length) →
      (∀ (k t : Nat), tabs[k]? = some t → t ∉ D ∧ ∃ tp, s.pages[t]? = some tp ∧
        Spec.word tp 0 = some (min 1023 (D.length - 1023 * k)) ∧
        ∀ j (h : 1023 * k + j < D.length), j < 1023 → Spec.word tp (4 + 4 * j) = some D[1023 * k + j]) →
      rest ≠ [] → D.length = 1023 * i + (rest.length + 4095) / 4096 → tabs.length = i + n →
      n = ((rest.length + 4095) / 4096 + 1022) / 1023 →
      ∃ s', wholeTabs80 e tabs n i cl rest s = .ok s' ∧
        Filled s s' 4096 D (1023 * i) (rest.take (Spec.stored80 rest.length)) := by
  induction n with
  | zero =>
    intro s i cl rest _ _ _ hne _ _ hn
    have hpos : 0 < rest.length := List.length_pos_iff.mpr hne
    omega
  | succ n ih =>
    intro s i cl rest hf hin htab hne hD htl hn
    have hpos : 0 < rest.length := List.length_pos_iff.mpr hne
    have hi : i < tabs.length := by omega
    have hti := List.getElem?_eq_getElem hi
    obtain ⟨hT, tp, t1, t2, t3⟩ := htab i _ hti
    generalize htn : tabs[i] = tn at hti hT t1
    have hcnt : D.length - 1023 * i = (rest.length + 4095) / 4096 := by omega
    rw [hcnt] at t2
    obtain ⟨A, B⟩ := wholeTab80_ok e hPe D hnd tn hT _ (Nat.min_le_left _ _) 1024 s 0 (1023 * i) cl rest tp hf hin t1 t2
      (Nat.zero_le _) (by omega)
      (by
        intro m hm
        have h1 : 1023 * i + m < D.length := by omega
        refine ⟨h1, ?_⟩
        rw [Nat.zero_add]
        exact t3 m h1 (by omega)) hne
    unfold wholeTabs80
    simp only [(idx_ok _ _ _).mpr hti, (getPage_ok _ _ _).mpr t1, Outcome.ok_bind]
    by_cases hsm : rest.length ≤ 4190208
    · obtain ⟨s', cl', rest', a1, a2, a3⟩ := A (by clear A B; omega)
      simp only [a1, Outcome.ok_bind]
      rw [if_pos a2]
      have hst : Spec.stored80 rest.length = rest.length := by
        unfold Spec.stored80; rw [if_neg (by omega)]
      refine ⟨s', rfl, ?_⟩
      rw [hst, List.take_length]
      exact a3
    · have hm : min 1023 ((rest.length + 4095) / 4096) = 1023 := by omega
      rw [hm] at B
      obtain ⟨s1, b1, b2⟩ := B (by clear A B; omega) (by decide)
      clear A B
      simp only [Nat.sub_zero, Nat.reduceMul] at b1 b2
      rw [hm] at t2
      simp only [b1, Outcome.ok_bind]
      rw [List.length_drop]
      by_cases hend : rest.length - 4190208 ≤ 4096
      · rw [if_pos hend]
        refine ⟨s1, rfl, ?_⟩
        have hst : Spec.stored80 rest.length = 4190208 := by
          unfold Spec.stored80; rw [if_pos (by omega)]; omega
        rw [hst]
        exact b2
      · rw [if_neg hend]
        have hl : (rest.drop 4190208).length = rest.length - 4190208 := List.length_drop
        have hlen : (rest.take 4190208).length = 1023 * 4096 := by rw [List.length_take]; omega
        obtain ⟨s2, c1, c2⟩ := ih s1 (i + 1) 4096 (rest.drop 4190208) b2.full (by rw [b2.len]; exact hin)
          (by
            intro k t hk
            obtain ⟨h1, tp, h2, h3⟩ := htab k t hk
            exact ⟨h1, tp, by rw [b2.frame t h1]; exact h2, h3⟩)
          (by apply List.ne_nil_of_length_pos; rw [hl]; omega) (by rw [hl]; omega) (by omega) (by rw [hl]; omega)
        refine ⟨s2, c1, ?_⟩
        have hst : Spec.stored80 rest.length = 4190208 + Spec.stored80 (rest.length - 4190208) := by
          unfold Spec.stored80
          split <;> split <;> omega
        rw [hst, List.take_add]
        rw [hl] at c2
        exact filled_append (n := 1023) (by decide) hlen b2 (by rw [show 1023 * i + 1023 = 1023 * (i + 1) by omega]; exact c2)

/-! ## Format 8.3.8 -/

theorem wholeOne_ok (e : Env) (hP : 0 < e.P) (D blocks : List Nat) (hnd : D.Nodup)
    (hbl : ∀ k (hk : k < D.length), blocks[k]? = some D[k]) (fuel : Nat) :
    ∀ (s : St) (k : Nat) (buf : Bytes), (∀ p ∈ s.pages, p.length = e.P) → (∀ q ∈ D, q < s.pages.length) →
      buf.length ≤ fuel → k * e.P + buf.length ≤ D.length * e.P →
      ∃ s', wholeOne e blocks fuel s k buf = .ok s' ∧ Filled s s' e.P D k buf := by
  induction fuel with
  | zero =>
    intro s k buf hf hin hfu hle
    have hbz : buf = [] := List.length_eq_zero_iff.mp (by omega)
    subst hbz
    exact ⟨s, rfl, filled_nil s _ D _ hf⟩
  | succ fuel ih =>
    intro s k buf hf hin hfu hle
    by_cases hbz : buf = []
    · subst hbz
      exact ⟨s, rfl, filled_nil s _ D _ hf⟩
    · have hpos : 0 < buf.length := List.length_pos_iff.mpr hbz
      have hk : k < D.length := by
        by_contra hc
        have : D.length * e.P ≤ k * e.P := Nat.mul_le_mul_right _ (by omega)
        omega
      have hq := hin _ (List.getElem_mem hk)
      have hp := List.getElem?_eq_getElem hq
      have hl := hf _ (List.getElem_mem hq)
      generalize hc : min e.P buf.length = c
      have htl : (buf.take c).length = c := by simp; omega
      obtain ⟨s0, h1, s1, p', h2, h3, h4, h5⟩ := chunk_weak e s e.P D[k] (buf.take c) _ rfl hp hl (by omega)
      have hf1 : ∀ q ∈ s1.pages, q.length = e.P := by
        rw [h5]
        exact set_lengths _ _ _ _ (set_lengths _ _ _ _ hf h4) (by rw [length_splice _ _ _ (by omega)]; exact h4)
      have hin1 : ∀ q ∈ D, q < s1.pages.length := by rw [h5, List.length_set, List.length_set]; exact hin
      have hek : (k + 1) * e.P = k * e.P + e.P := by rw [Nat.add_mul, Nat.one_mul]
      obtain ⟨s2, h6, h7⟩ := ih s1 (k + 1) (buf.drop c) hf1 hin1 (by rw [List.length_drop]; omega)
        (by
          rw [List.length_drop]
          by_cases hcl : c = buf.length
          · have : (k + 1) * e.P ≤ D.length * e.P := Nat.mul_le_mul_right _ hk
            omega
          · omega)
      refine ⟨s2, ?_, filled_step hP hnd hk hc.symm hbz hq h4 h3 h5 h7⟩
      simp only [wholeOne, if_neg hbz, (idx_ok blocks k D[k]).mpr (hbl k hk), Outcome.ok_bind, h1, hc, h2]
      exact h6

theorem wholeTwo_ok (e : Env) (hP : 0 < e.P) (hper : 0 < e.P / 4) (D blocks : List Nat)
    (hnd : D.Nodup) (fuel : Nat) :
    ∀ (s : St) (k tn : Nat) (buf : Bytes), (∀ p ∈ s.pages, p.length = e.P) → (∀ q ∈ D, q < s.pages.length) →
      (∀ j (hj : j < D.length), ∃ t tp, blocks[j / (e.P / 4)]? = some t ∧ t ∉ D ∧ s.pages[t]? = some tp ∧
        Spec.word tp (4 * (j % (e.P / 4))) = some D[j]) →
      buf.length ≤ fuel → k * e.P + buf.length ≤ D.length * e.P →
      (buf ≠ [] → blocks[k / (e.P / 4)]? = some tn) →
      ∃ s', wholeTwo e blocks fuel s tn (k % (e.P / 4)) (k / (e.P / 4) + 1) buf = .ok s' ∧
        Filled s s' e.P D k buf := by
  generalize hperE : e.P / 4 = per at hper
  induction fuel with
  | zero =>
    intro s k tn buf hf hin htab hfu hle htn
    have hbz : buf = [] := List.length_eq_zero_iff.mp (by omega)
    subst hbz
    exact ⟨s, rfl, filled_nil s _ D _ hf⟩
  | succ fuel ih =>
    intro s k tn buf hf hin htab hfu hle htn
    by_cases hbz : buf = []
    · subst hbz
      exact ⟨s, rfl, filled_nil s _ D _ hf⟩
    · have hpos : 0 < buf.length := List.length_pos_iff.mpr hbz
      have hk : k < D.length := by
        by_contra hc
        have : D.length * e.P ≤ k * e.P := Nat.mul_le_mul_right _ (by omega)
        omega
      obtain ⟨t, tp, ht1, ht2, ht3, ht4⟩ := htab k hk
      have htt : tn = t := by have := htn hbz; rw [ht1] at this; exact (Option.some.inj this).symm
      subst htt
      have hq := hin _ (List.getElem_mem hk)
      have hp := List.getElem?_eq_getElem hq
      have hl := hf _ (List.getElem_mem hq)
      generalize hc : min e.P buf.length = c
      have htl : (buf.take c).length = c := by simp; omega
      obtain ⟨s0, h1, s1, p', h2, h3, h4, h5⟩ := chunk_weak e s e.P D[k] (buf.take c) _ rfl hp hl (by omega)
      have hf1 : ∀ q ∈ s1.pages, q.length = e.P := by
        rw [h5]
        exact set_lengths _ _ _ _ (set_lengths _ _ _ _ hf h4) (by rw [length_splice _ _ _ (by omega)]; exact h4)
      have hin1 : ∀ q ∈ D, q < s1.pages.length := by rw [h5, List.length_set, List.length_set]; exact hin
      have htab1 : ∀ j (hj : j < D.length), ∃ t tp, blocks[j / per]? = some t ∧ t ∉ D ∧ s1.pages[t]? = some tp ∧
          Spec.word tp (4 * (j % per)) = some D[j] := by
        intro j hj
        obtain ⟨t, tp, a1, a2, a3, a4⟩ := htab j hj
        refine ⟨t, tp, a1, a2, ?_, a4⟩
        have hne : D[k] ≠ t := fun h => a2 (by rw [← h]; exact List.getElem_mem hk)
        rw [h5, get_set_ne _ _ _ _ hne, get_set_ne _ _ _ _ hne, a3]
      have hek : (k + 1) * e.P = k * e.P + e.P := by rw [Nat.add_mul, Nat.one_mul]
      have hle1 : (k + 1) * e.P + (buf.drop c).length ≤ D.length * e.P := by
        rw [List.length_drop]
        by_cases hcl : c = buf.length
        · have : (k + 1) * e.P ≤ D.length * e.P := Nat.mul_le_mul_right _ hk
          omega
        · omega
      have hpk : peek s tn (4 * (k % per)) = .ok D[k] := by
        simp only [peek, ht3]
        exact (rd32_word _ _ _).mpr ht4
      have hfin : ∀ tn', (buf.drop c ≠ [] → blocks[(k + 1) / per]? = some tn') →
          ∃ s2, wholeTwo e blocks fuel s1 tn' ((k + 1) % per) ((k + 1) / per + 1) (buf.drop c) = .ok s2 ∧
            Filled s s2 e.P D k buf := by
        intro tn' htn'
        obtain ⟨s2, h6, h7⟩ := ih s1 (k + 1) tn' (buf.drop c) hf1 hin1 htab1 (by rw [List.length_drop]; omega)
          hle1 htn'
        exact ⟨s2, h6, filled_step hP hnd hk hc.symm hbz hq h4 h3 h5 h7⟩
      by_cases hwrap : buf.drop c ≠ [] ∧ k % per + 1 ≥ per
      · obtain ⟨n1, n2⟩ := next_wrap k per hper hwrap.2
        have hk1 : k + 1 < D.length := by
          by_contra hcc
          have h0 : 0 < (buf.drop c).length := List.length_pos_iff.mpr hwrap.1
          have : D.length * e.P ≤ (k + 1) * e.P := Nat.mul_le_mul_right _ (by omega)
          omega
        obtain ⟨t', tp', b1, b2, b3, b4⟩ := htab1 (k + 1) hk1
        obtain ⟨s2, h6, h7⟩ := hfin t' (fun _ => b1)
        refine ⟨s2, ?_, h7⟩
        rw [n1] at b1 h6
        rw [n2] at h6
        simp only [wholeTwo, if_neg hbz, hpk, Outcome.ok_bind, h1, hc, h2, hperE]
        rw [if_pos hwrap]
        simp only [(idx_ok blocks (k / per + 1) t').mpr b1, (getPage_ok s1.pages t' tp').mpr b3, Outcome.ok_bind]
        exact h6
      · by_cases hd0 : buf.drop c = []
        · refine ⟨s1, ?_, filled_step hP hnd hk hc.symm hbz hq h4 h3 h5 ?_⟩
          · simp only [wholeTwo, if_neg hbz, hpk, Outcome.ok_bind, h1, hc, h2, hperE]
            rw [if_neg hwrap, hd0]
            cases fuel <;> simp [wholeTwo]
          · rw [hd0]; exact filled_nil s1 _ D _ hf1
        · have hj : k % per + 1 < per := by
            rcases Nat.lt_or_ge (k % per + 1) per with h | h
            · exact h
            · exact absurd ⟨hd0, h⟩ hwrap
          obtain ⟨n1, n2⟩ := next_same k per hper hj
          obtain ⟨s2, h6, h7⟩ := hfin tn (fun _ => by rw [n1]; exact ht1)
          refine ⟨s2, ?_, h7⟩
          rw [n1, n2] at h6
          simp only [wholeTwo, if_neg hbz, hpk, Outcome.ok_bind, h1, hc, h2, hperE]
          rw [if_neg hwrap]
          exact h6

end Verif.Object
