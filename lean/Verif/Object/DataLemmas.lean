import Verif.Object.Data
import Verif.Object.ReadTheorems
import Verif.Object.FreeTheorems
import Mathlib.Tactic.ByContra

/-! # Lemmas: writing a range of an object -/

namespace Verif.Object
open Verif

/-- Byte `i` of the file whose data pages are `D`. -/
def fileByte (pages : List Bytes) (P : Nat) (D : List Nat) (i : Nat) : Option UInt8 :=
  (D[i / P]?).bind fun n => (pages[n]?).bind fun p => p[i % P]?

theorem byteAt_own {pages : List Bytes} {s : Spec.Shape} {h : Nat} {D : List Nat} (ho : Spec.Own pages s h D)
    (P i : Nat) (hi : i / P < D.length) : Spec.byteAt pages P s h i = fileByte pages P D i := by
  unfold Spec.byteAt fileByte
  rw [ho.page _ hi, List.getElem?_eq_getElem hi]
  rfl

/-- Handing out page `bn` (without reading it if all of it will be overwritten) and
storing `b` in it. -/
theorem chunk_put (e : Env) (s : St) (P bn off : Nat) (b p : Bytes) (hP : e.P = P) (hp : s.pages[bn]? = some p)
    (hl : p.length = P) (hb : off + b.length ≤ P) :
    ∃ s0, touch e s bn (b.length != P) = .ok s0 ∧ ∃ s1, poke s0 bn off b = .ok s1 ∧ s1.fr = s.fr ∧
      s1.pages = s.pages.set bn (splice p off b) := by
  have hlt := getElem?_some_lt hp
  by_cases hc : b.length = P
  · have ho : off = 0 := by omega
    subst ho
    have hs : ∀ q : Bytes, q.length = P → splice q 0 b = b := by
      intro q hq
      simp [splice, hq, hc]
    unfold touch
    rw [if_neg (by omega), if_neg (by omega), if_neg (by simp [hc])]
    refine ⟨_, rfl, ?_⟩
    by_cases hora : e.ora s.tick = true
    · simp only [hora, if_true]
      refine ⟨{ s with pages := s.pages.set bn (splice p 0 b), tick := s.tick + 1 }, ?_, rfl, rfl⟩
      exact poke_ok _ bn 0 b p hp (by omega)
    · simp only [hora]
      have hz : (List.replicate e.P (0 : UInt8)).length = P := by rw [List.length_replicate, hP]
      generalize List.replicate e.P (0 : UInt8) = z at hz
      refine ⟨{ s with pages := (s.pages.set bn z).set bn (splice z 0 b), tick := s.tick + 1 }, ?_, rfl, ?_⟩
      · exact poke_ok _ bn 0 b z (get_set_eq _ _ _ hlt) (by omega)
      · simp only
        rw [List.set_set, hs z hz, hs p hl]
  · rw [show (b.length != P) = true by simp [hc]]
    exact ⟨s, touch_read e s bn hlt, _, poke_ok s bn off b p hp (by omega), rfl, rfl⟩

/-- The effect of one stored chunk on the bytes of the file. -/
theorem chunk_bytes (pages : List Bytes) (P : Nat) (hP : 0 < P) (D : List Nat) (hnd : D.Nodup) (k off : Nat) (hk : k < D.length)
    (p b : Bytes) (hp : pages[D[k]]? = some p) (hl : p.length = P) (hb : off + b.length ≤ P) (i : Nat) :
    fileByte (pages.set D[k] (splice p off b)) P D i =
      if k * P + off ≤ i ∧ i < k * P + off + b.length then b[i - (k * P + off)]? else fileByte pages P D i := by
  have hm := Nat.div_add_mod i P
  have hml := Nat.mod_lt i hP
  have hlt := getElem?_some_lt hp
  unfold fileByte
  by_cases hi : i / P = k
  · rw [hi, List.getElem?_eq_getElem hk]
    simp only [Option.bind_some]
    rw [get_set_eq _ _ _ hlt, hp]
    simp only [Option.bind_some]
    have e1 : i = k * P + i % P := by rw [hi] at hm; rw [Nat.mul_comm]; exact hm.symm
    by_cases hr : off ≤ i % P ∧ i % P < off + b.length
    · rw [if_pos (by omega)]
      have := splice_get_in p off b (i % P - off) (by omega) (by omega)
      rw [show off + (i % P - off) = i % P by omega] at this
      rw [this]
      congr 1
      omega
    · rw [if_neg (by omega)]
      exact splice_get_out p off b (i % P) (by omega) (by omega)
  · rw [if_neg]
    · cases hd : D[i / P]? with
      | none => rfl
      | some n =>
        simp only [Option.bind_some]
        rw [get_set_ne]
        exact nodup_get_ne hnd (List.getElem?_eq_getElem hk) hd (Ne.symm hi)
    · intro hr
      apply hi
      have h1 : k * P ≤ i := by omega
      have h2 : i < (k + 1) * P := by rw [Nat.add_mul]; omega
      exact Nat.le_antisymm (Nat.lt_succ_iff.mp ((Nat.div_lt_iff_lt_mul hP).mpr h2)) ((Nat.le_div_iff_mul_le hP).mpr h1)

/-- What the write loops achieve. -/
structure Wrote (s s' : St) (P : Nat) (D : List Nat) (at_ : Nat) (buf : Bytes) : Prop where
  fr : s'.fr = s.fr
  len : s'.pages.length = s.pages.length
  full : ∀ p ∈ s'.pages, p.length = P
  frame : ∀ q, q ∉ D → s'.pages[q]? = s.pages[q]?
  bytes : ∀ i, fileByte s'.pages P D i =
    if at_ ≤ i ∧ i < at_ + buf.length then buf[i - at_]? else fileByte s.pages P D i

theorem wrote_nil (s : St) (P : Nat) (D : List Nat) (at_ : Nat) (hf : ∀ p ∈ s.pages, p.length = P) :
    Wrote s s P D at_ [] := ⟨rfl, rfl, hf, fun _ _ => rfl, fun i => by rw [if_neg (by simp)]⟩

theorem wrote_step {s s1 s2 : St} {P : Nat} (hP : 0 < P) {D : List Nat} (hnd : D.Nodup) {k off : Nat} (hk : k < D.length)
    {p buf : Bytes} {c : Nat} (hc : c = min (P - off) buf.length) (hoff : off < P)
    (hp : s.pages[D[k]]? = some p) (hfull : ∀ p ∈ s.pages, p.length = P)
    (h1 : s1.fr = s.fr) (h2 : s1.pages = s.pages.set D[k] (splice p off (buf.take c)))
    (hw : Wrote s1 s2 P D ((k + 1) * P) (buf.drop c)) : Wrote s s2 P D (k * P + off) buf := by
  have hl : p.length = P := hfull p (List.mem_of_getElem? hp)
  have htl : (buf.take c).length = c := by simp; omega
  refine ⟨hw.fr.trans h1, ?_, hw.full, ?_, ?_⟩
  · rw [hw.len, h2, List.length_set]
  · intro q hq
    rw [hw.frame q hq, h2, get_set_ne]
    rintro rfl
    exact hq (List.getElem_mem hk)
  · intro i
    rw [hw.bytes i, h2, chunk_bytes s.pages P hP D hnd k off hk p (buf.take c) hp hl (by omega) i, htl, List.length_drop]
    have e : (k + 1) * P = k * P + P := by rw [Nat.add_mul, Nat.one_mul]
    by_cases hcl : c = buf.length
    · rw [if_neg (by omega)]
      rw [List.take_of_length_le (by omega), hcl]
    · have hcP : off + c = P := by omega
      by_cases ha : (k + 1) * P ≤ i ∧ i < (k + 1) * P + (buf.length - c)
      · rw [if_pos ha, if_pos (by omega), List.getElem?_drop]
        congr 1
        omega
      · rw [if_neg ha]
        by_cases hb : k * P + off ≤ i ∧ i < k * P + off + c
        · rw [if_pos hb, if_pos (by omega), List.getElem?_take_of_lt (by omega)]
        · rw [if_neg hb, if_neg (by omega)]

theorem putDir_ok (e : Env) (P : Nat) (hPe : e.P = P) (hP : 0 < P) (D blocks : List Nat) (hnd : D.Nodup)
    (hbl : ∀ k (hk : k < D.length), blocks[k]? = some D[k]) (fuel : Nat) :
    ∀ (s : St) (k off : Nat) (buf : Bytes), (∀ p ∈ s.pages, p.length = P) → (∀ q ∈ D, q < s.pages.length) →
      off < P → buf.length ≤ fuel → k * P + off + buf.length ≤ D.length * P →
      ∃ s', putDir e P blocks fuel s k off (min (P - off) buf.length) buf = .ok s' ∧
        Wrote s s' P D (k * P + off) buf := by
  induction fuel with
  | zero =>
    intro s k off buf hf hin hoff hfu hle
    have hbz : buf = [] := List.length_eq_zero_iff.mp (by omega)
    subst hbz
    exact ⟨s, rfl, wrote_nil s P D _ hf⟩
  | succ fuel ih =>
    intro s k off buf hf hin hoff hfu hle
    by_cases hbz : buf = []
    · subst hbz
      exact ⟨s, rfl, wrote_nil s P D _ hf⟩
    · have hpos : 0 < buf.length := List.length_pos_iff.mpr hbz
      have hk : k < D.length := by
        by_contra hc
        have : D.length * P ≤ k * P := Nat.mul_le_mul_right P (by omega)
        omega
      have hq := hin _ (List.getElem_mem hk)
      have hp := List.getElem?_eq_getElem hq
      have hl := hf _ (List.getElem_mem hq)
      generalize s.pages[D[k]] = p at hp hl
      generalize hc : min (P - off) buf.length = c
      have htl : (buf.take c).length = c := by simp; omega
      obtain ⟨s0, h1, s1, h2, h3, h4⟩ := chunk_put e s P D[k] off (buf.take c) p hPe hp hl (by omega)
      rw [htl] at h1
      have hf1 : ∀ q ∈ s1.pages, q.length = P := by
        rw [h4]; exact set_lengths _ _ _ _ hf (by rw [length_splice _ _ _ (by omega)]; exact hl)
      have hin1 : ∀ q ∈ D, q < s1.pages.length := by rw [h4, List.length_set]; exact hin
      have hek : (k + 1) * P = k * P + P := by rw [Nat.add_mul, Nat.one_mul]
      obtain ⟨s2, h5, h6⟩ := ih s1 (k + 1) 0 (buf.drop c) hf1 hin1 hP (by rw [List.length_drop]; omega)
        (by
          rw [List.length_drop]
          by_cases hcl : c = buf.length
          · have : (k + 1) * P ≤ D.length * P := Nat.mul_le_mul_right P hk
            omega
          · omega)
      refine ⟨s2, ?_, wrote_step hP hnd hk hc.symm hoff hp hf h3 h4 (by simpa using h6)⟩
      simp only [putDir, if_neg hbz, (idx_ok blocks k D[k]).mpr (hbl k hk), Outcome.ok_bind, h1, h2]
      rw [List.length_drop, Nat.sub_zero] at h5
      exact h5

theorem putTab_ok (e : Env) (P per hdr : Nat) (hPe : e.P = P) (hP : 0 < P) (hper : 0 < per) (D blocks : List Nat)
    (hnd : D.Nodup) (fuel : Nat) :
    ∀ (s : St) (k off tn : Nat) (buf : Bytes), (∀ p ∈ s.pages, p.length = P) → (∀ q ∈ D, q < s.pages.length) →
      (∀ j (hj : j < D.length), ∃ t tp, blocks[j / per]? = some t ∧ t ∉ D ∧ s.pages[t]? = some tp ∧
        Spec.word tp (hdr + 4 * (j % per)) = some D[j]) →
      off < P → buf.length ≤ fuel → k * P + off + buf.length ≤ D.length * P →
      (buf ≠ [] → blocks[k / per]? = some tn) →
      ∃ s', putTab e P per hdr blocks fuel s tn (k % per) (k / per + 1) off (min (P - off) buf.length) buf = .ok s' ∧
        Wrote s s' P D (k * P + off) buf := by
  induction fuel with
  | zero =>
    intro s k off tn buf hf hin htab hoff hfu hle htn
    have hbz : buf = [] := List.length_eq_zero_iff.mp (by omega)
    subst hbz
    exact ⟨s, rfl, wrote_nil s P D _ hf⟩
  | succ fuel ih =>
    intro s k off tn buf hf hin htab hoff hfu hle htn
    by_cases hbz : buf = []
    · subst hbz
      exact ⟨s, rfl, wrote_nil s P D _ hf⟩
    · have hpos : 0 < buf.length := List.length_pos_iff.mpr hbz
      have hk : k < D.length := by
        by_contra hc
        have : D.length * P ≤ k * P := Nat.mul_le_mul_right P (by omega)
        omega
      obtain ⟨t, tp, ht1, ht2, ht3, ht4⟩ := htab k hk
      have htt : tn = t := by have := htn hbz; rw [ht1] at this; exact (Option.some.inj this).symm
      subst htt
      have hq := hin _ (List.getElem_mem hk)
      have hp := List.getElem?_eq_getElem hq
      have hl := hf _ (List.getElem_mem hq)
      generalize s.pages[D[k]] = p at hp hl
      generalize hc : min (P - off) buf.length = c
      have htl : (buf.take c).length = c := by simp; omega
      obtain ⟨s0, h1, s1, h2, h3, h4⟩ := chunk_put e s P D[k] off (buf.take c) p hPe hp hl (by omega)
      rw [htl] at h1
      have hf1 : ∀ q ∈ s1.pages, q.length = P := by
        rw [h4]; exact set_lengths _ _ _ _ hf (by rw [length_splice _ _ _ (by omega)]; exact hl)
      have hin1 : ∀ q ∈ D, q < s1.pages.length := by rw [h4, List.length_set]; exact hin
      have htab1 : ∀ j (hj : j < D.length), ∃ t tp, blocks[j / per]? = some t ∧ t ∉ D ∧ s1.pages[t]? = some tp ∧
          Spec.word tp (hdr + 4 * (j % per)) = some D[j] := by
        intro j hj
        obtain ⟨t, tp, a1, a2, a3, a4⟩ := htab j hj
        refine ⟨t, tp, a1, a2, ?_, a4⟩
        rw [h4, get_set_ne _ _ _ _ (fun h => a2 (by rw [← h]; exact List.getElem_mem hk)), a3]
      have hek : (k + 1) * P = k * P + P := by rw [Nat.add_mul, Nat.one_mul]
      have hle1 : (k + 1) * P + 0 + (buf.drop c).length ≤ D.length * P := by
        rw [List.length_drop]
        by_cases hcl : c = buf.length
        · have : (k + 1) * P ≤ D.length * P := Nat.mul_le_mul_right P hk
          omega
        · omega
      have hpk : peek s tn (hdr + 4 * (k % per)) = .ok D[k] := by
        simp only [peek, ht3]
        exact (rd32_word _ _ _).mpr ht4
      have hfin : ∀ tn', (buf.drop c ≠ [] → blocks[(k + 1) / per]? = some tn') →
          ∃ s2, putTab e P per hdr blocks fuel s1 tn' ((k + 1) % per) ((k + 1) / per + 1) 0
            (min P (buf.drop c).length) (buf.drop c) = .ok s2 ∧ Wrote s s2 P D (k * P + off) buf := by
        intro tn' htn'
        obtain ⟨s2, h5, h6⟩ := ih s1 (k + 1) 0 tn' (buf.drop c) hf1 hin1 htab1 hP (by rw [List.length_drop]; omega)
          hle1 htn'
        rw [Nat.sub_zero] at h5
        exact ⟨s2, h5, wrote_step hP hnd hk hc.symm hoff hp hf h3 h4 (by simpa using h6)⟩
      by_cases hwrap : buf.drop c ≠ [] ∧ k % per + 1 ≥ per
      · obtain ⟨n1, n2⟩ := next_wrap k per hper hwrap.2
        have hk1 : k + 1 < D.length := by
          by_contra hcc
          have h0 : 0 < (buf.drop c).length := List.length_pos_iff.mpr hwrap.1
          have : D.length * P ≤ (k + 1) * P := Nat.mul_le_mul_right P (by omega)
          omega
        obtain ⟨t', tp', b1, b2, b3, b4⟩ := htab1 (k + 1) hk1
        obtain ⟨s2, h5, h6⟩ := hfin t' (fun _ => b1)
        refine ⟨s2, ?_, h6⟩
        rw [n1] at b1 h5
        rw [n2] at h5
        simp only [putTab, if_neg hbz, hpk, Outcome.ok_bind, h1, h2]
        rw [if_pos hwrap]
        simp only [(idx_ok blocks (k / per + 1) t').mpr b1, (getPage_ok s1.pages t' tp').mpr b3, Outcome.ok_bind]
        exact h5
      · by_cases hd0 : buf.drop c = []
        · refine ⟨s1, ?_, wrote_step hP hnd hk hc.symm hoff hp hf h3 h4 ?_⟩
          · simp only [putTab, if_neg hbz, hpk, Outcome.ok_bind, h1, h2]
            rw [if_neg hwrap, hd0]
            cases fuel <;> simp [putTab]
          · rw [hd0]; exact wrote_nil s1 P D _ hf1
        · have hj : k % per + 1 < per := by
            rcases Nat.lt_or_ge (k % per + 1) per with h | h
            · exact h
            · exact absurd ⟨hd0, h⟩ hwrap
          obtain ⟨n1, n2⟩ := next_same k per hper hj
          obtain ⟨s2, h5, h6⟩ := hfin tn (fun _ => by rw [n1]; exact ht1)
          refine ⟨s2, ?_, h6⟩
          rw [n1, n2] at h5
          simp only [putTab, if_neg hbz, hpk, Outcome.ok_bind, h1, h2]
          rw [if_neg hwrap]
          exact h5

end Verif.Object
