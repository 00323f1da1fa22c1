import Verif.Template.Lemmas

/-! # Lemmas about testing pages against templates -/

namespace Verif.Template
open Verif Record

set_option maxRecDepth 2000

theorem byteAt_ok {b : Bytes} {i : Nat} (h : i < b.length) : ∃ x, byteAt b i = .ok x ∧ b[i]? = some x := by
  refine ⟨b[i], ?_, List.getElem?_eq_getElem h⟩
  unfold byteAt
  rw [List.getElem?_eq_getElem h]

theorem zeros_ok (b : Bytes) (n : Nat) : ∀ i, i + n ≤ b.length →
    ∃ r, zeros b n i = .ok r ∧ (r = true ↔ ∀ q (x : UInt8), i ≤ q → q < i + n → b[q]? = some x → x = 0) := by
  induction n with
  | zero => intro i _; exact ⟨true, rfl, fun _ q x h1 h2 => by omega, fun _ => rfl⟩
  | succ n ih =>
    intro i h
    obtain ⟨x, e, hx⟩ := byteAt_ok (b := b) (i := i) (by omega)
    obtain ⟨r, er, hr⟩ := ih (i + 1) (by omega)
    unfold zeros
    rw [e]
    simp only [Outcome.ok_bind]
    by_cases h0 : x = 0
    · rw [if_neg (by simpa using h0)]
      refine ⟨r, er, ?_⟩
      rw [hr]
      constructor
      · intro h1 q y h2 h3 h4
        by_cases hq : q = i
        · subst hq; rw [hx] at h4; injection h4 with h4; rw [← h4]; exact h0
        · exact h1 q y (by omega) (by omega) h4
      · exact fun h1 q y h2 h3 h4 => h1 q y (by omega) (by omega) h4
    · rw [if_pos h0]
      refine ⟨false, rfl, fun h1 => by simp at h1, fun h1 => ?_⟩
      exact absurd (h1 i x (by omega) (by omega) hx) h0

theorem next_place (rlen j q : Nat) (hj : j < rlen) :
    ((if j + 1 ≥ rlen then 0 else j + 1) + q) % rlen = (j + (q + 1)) % rlen := by
  split
  · have : j + (q + 1) = rlen + q := by omega
    rw [this, Nat.zero_add, Nat.add_mod_left]
  · congr 1; omega

theorem along_ok (b : Bytes) (tt : Tmpl) (rlen : Nat) (hz : tt.size = rlen * 256) (n : Nat) : ∀ i j, i + n ≤ b.length →
    j < rlen → ∃ r, along b tt rlen n i j = .ok r ∧
      (r = true ↔ ∀ q (x : UInt8), q < n → b[i + q]? = some x → tt.at' ((j + q) % rlen * 256 + x.toNat) = true) := by
  induction n with
  | zero => intro i j _ _; exact ⟨true, rfl, fun _ q x h1 => by omega, fun _ => rfl⟩
  | succ n ih =>
    intro i j h hj
    obtain ⟨x, e, hx⟩ := byteAt_ok (b := b) (i := i) (by omega)
    obtain ⟨r, er, hr⟩ := ih (i + 1) (if j + 1 ≥ rlen then 0 else j + 1) (by omega) (by split <;> omega)
    unfold along
    rw [e]
    simp only [Outcome.ok_bind]
    have hxl : x.toNat < 256 := x.toNat_lt
    rw [if_neg (by rw [hz]; omega)]
    have hj0 : (j + 0) % rlen = j := by rw [Nat.add_zero, Nat.mod_eq_of_lt hj]
    cases h0 : tt.at' (j * 256 + x.toNat) with
    | false =>
      rw [if_pos rfl]
      refine ⟨false, rfl, fun h1 => by simp at h1, fun h1 => ?_⟩
      have := h1 0 x (by omega) hx
      rw [hj0, h0] at this
      exact this
    | true =>
      rw [if_neg (by simp)]
      refine ⟨r, er, ?_⟩
      rw [hr]
      constructor
      · intro h1 q y h2 h3
        cases q with
        | zero =>
          rw [Nat.add_zero, hx] at h3
          injection h3 with h3
          rw [hj0, ← h3]; exact h0
        | succ q =>
          have := h1 q y (by omega) (by rw [← h3]; congr 1; omega)
          rw [next_place rlen j q hj] at this
          exact this
      · intro h1 q y h2 h3
        rw [next_place rlen j q hj]
        exact h1 (q + 1) y (by omega) (by rw [← h3]; congr 1; omega)

theorem headOk_ok (b : Bytes) (h : 5 ≤ b.length) : ∃ r, headOk b = .ok r ∧ (r = true ↔ b.take 5 = [1, 0, 0, 0, 0]) := by
  obtain ⟨r, er, hr⟩ := zeros_ok b 4 1 (by omega)
  match b, h with
  | x0 :: x1 :: x2 :: x3 :: x4 :: rest, _ =>
    unfold headOk
    simp only [byteAt, List.getElem?_cons_zero, Outcome.ok_bind]
    by_cases h0 : x0 = 1
    · rw [if_neg (by simpa using h0)]
      refine ⟨r, er, ?_⟩
      rw [hr]
      constructor
      · intro h1
        have a1 := h1 1 x1 (by omega) (by omega) rfl
        have a2 := h1 2 x2 (by omega) (by omega) rfl
        have a3 := h1 3 x3 (by omega) (by omega) rfl
        have a4 := h1 4 x4 (by omega) (by omega) rfl
        simp [h0, a1, a2, a3, a4]
      · intro h1
        simp only [List.take_succ_cons, List.take_zero, List.cons.injEq, and_true] at h1
        intro q y h2 h3 h4
        have : q = 1 ∨ q = 2 ∨ q = 3 ∨ q = 4 := by omega
        rcases this with rfl | rfl | rfl | rfl <;> simp at h4 <;> rw [← h4]
        · exact h1.2.1
        · exact h1.2.2.1
        · exact h1.2.2.2.1
        · exact h1.2.2.2.2
    · rw [if_pos h0]
      refine ⟨false, rfl, fun h1 => by simp at h1, fun h1 => ?_⟩
      simp only [List.take_succ_cons, List.cons.injEq] at h1
      exact absurd h1.1 h0

/-- The template agrees with the specification. -/
def Agrees (tt : Tmpl) (fs : List Field) (rlen : Nat) : Prop :=
  tt.size = rlen * 256 ∧ ∀ k (b : UInt8), k < rlen → (tt.at' (k * 256 + b.toNat) = true ↔ Spec.RecordByteOk fs k b)

theorem testBlock_ok (file : List Bytes) (block : Nat) (page : Bytes) (tt : Tmpl) (fs : List Field) (i rlen : Nat)
    (hp : file[block]? = some page) (hl : page.length = 4096) (ht : Agrees tt fs rlen) (hr : 0 < rlen) (hi : i < 1048576) :
    ∃ r, testBlock file block tt i rlen 4096 = .ok r ∧ (r = true ↔ Spec.Fits fs rlen i page) := by
  have hb : (file.getD block []).take 4096 = page := by
    rw [List.getD_eq_getElem?_getD, hp]; exact List.take_of_length_le (by show page.length ≤ _; omega)
  have h5 : 5 ≤ page.length := by omega
  unfold testBlock
  rw [if_neg (by omega)]
  dsimp only
  rw [hb]
  obtain ⟨hh, eh, hhh⟩ : ∃ hh, headTest i page = .ok hh ∧
      (hh = true ↔ (i = 0 → page.take 5 = [1, 0, 0, 0, 0])) := by
    unfold headTest
    by_cases h0 : i = 0
    · rw [if_pos h0]
      obtain ⟨r, e, h⟩ := headOk_ok page h5
      exact ⟨r, e, by rw [h]; simp [h0]⟩
    · rw [if_neg h0]; exact ⟨true, rfl, by simp [h0]⟩
  rw [eh]
  simp only [Outcome.ok_bind]
  cases hhc : hh with
  | false =>
    rw [if_pos rfl]
    refine ⟨false, rfl, fun h1 => by simp at h1, fun h1 => ?_⟩
    have := hhh.mpr h1.1
    rw [hhc] at this; exact this
  | true =>
    rw [if_neg (by simp)]
    have hhead := hhh.mp hhc
    obtain ⟨r, er, hrr⟩ : ∃ r, along page tt rlen (4096 - (testFrom i rlen).1) (testFrom i rlen).1 (testFrom i rlen).2 = .ok r ∧
        (r = true ↔ ∀ q (b : UInt8), page[q]? = some b → (i = 0 → rlen ≤ q) → Spec.RecordByteOk fs ((i * 4096 + q) % rlen) b) := by
      by_cases h0 : i = 0
      · subst h0
        have e1 : testFrom 0 rlen = (rlen, 0) := rfl
        rw [e1]
        dsimp only
        by_cases hbig : 4096 ≤ rlen
        · rw [Nat.sub_eq_zero_of_le hbig]
          refine ⟨true, rfl, fun _ q b h1 h2 => ?_, fun _ => rfl⟩
          have h3 := h2 rfl
          have h4 : q < page.length := by
            rcases Nat.lt_or_ge q page.length with h | h
            · exact h
            · rw [List.getElem?_eq_none h] at h1; simp at h1
          omega
        · obtain ⟨r, er, h⟩ := along_ok page tt rlen ht.1 (4096 - rlen) rlen 0 (by omega) hr
          refine ⟨r, er, ?_⟩
          rw [h]
          constructor
          · intro h1 q b h2 h3
            have h3 := h3 rfl
            have h4 : q < page.length := by
              rcases Nat.lt_or_ge q page.length with h | h
              · exact h
              · rw [List.getElem?_eq_none h] at h2; simp at h2
            have := h1 (q - rlen) b (by omega) (by rw [← h2]; congr 1; omega)
            rw [ht.2 _ _ (Nat.mod_lt _ hr)] at this
            have e2 : (0 + (q - rlen)) % rlen = (0 * 4096 + q) % rlen := by
              rw [Nat.zero_mul, Nat.zero_add, Nat.zero_add, ← Nat.mod_eq_sub_mod h3]
            rw [e2] at this; exact this
          · intro h1 q b h2 h3
            rw [ht.2 _ _ (Nat.mod_lt _ hr)]
            have := h1 (rlen + q) b h3 (fun _ => by omega)
            rw [Nat.zero_mul, Nat.zero_add, Nat.add_mod_left] at this
            rw [Nat.zero_add]; exact this
      · have e1 : testFrom i rlen = (0, i * 4096 % rlen) := by
          rw [testFrom, if_neg h0, Nat.mod_eq_of_lt (a := i * 4096) (b := 2 ^ 32) (by omega)]
        rw [e1]
        dsimp only
        obtain ⟨r, er, h⟩ := along_ok page tt rlen ht.1 (4096 - 0) 0 (i * 4096 % rlen) (by omega) (Nat.mod_lt _ hr)
        refine ⟨r, er, ?_⟩
        rw [h]
        constructor
        · intro h1 q b h2 _
          have h4 : q < page.length := by
            rcases Nat.lt_or_ge q page.length with h | h
            · exact h
            · rw [List.getElem?_eq_none h] at h2; simp at h2
          have := h1 q b (by omega) (by rw [Nat.zero_add]; exact h2)
          rw [ht.2 _ _ (Nat.mod_lt _ hr), Nat.mod_add_mod] at this
          exact this
        · intro h1 q b h2 h3
          rw [ht.2 _ _ (Nat.mod_lt _ hr), Nat.mod_add_mod]
          exact h1 q b (by rw [Nat.zero_add] at h3; exact h3) (fun h => absurd h h0)
    rw [er]
    simp only [Outcome.ok_bind]
    cases hrc : r with
    | false =>
      rw [if_pos rfl]
      refine ⟨false, rfl, fun h1 => by simp at h1, fun h1 => ?_⟩
      have := hrr.mpr h1.2
      rw [hrc] at this; exact this
    | true =>
      rw [if_neg (by simp)]
      refine ⟨true, rfl, fun _ => ⟨hhead, hrr.mp hrc⟩, fun _ => rfl⟩

theorem candidates_ok (file : List Bytes) (tt : Tmpl) (fs : List Field) (i rlen : Nat) (hl : ∀ p ∈ file, p.length = 4096)
    (ht : Agrees tt fs rlen) (hr : 0 < rlen) (hi : i < 1048576) (n : Nat) : ∀ r, r + n ≤ file.length →
    ∃ bk, candidates file tt i rlen 4096 n r = .ok bk ∧ bk.Nodup ∧
      ∀ x, x ∈ bk ↔ r ≤ x ∧ x < r + n ∧ ∃ p, file[x]? = some p ∧ Spec.Fits fs rlen i p := by
  induction n with
  | zero => intro r _; exact ⟨[], rfl, List.nodup_nil, fun x => ⟨fun h => by simp at h, fun h => by omega⟩⟩
  | succ n ih =>
    intro r h
    obtain ⟨bk, e, hn, hm⟩ := ih (r + 1) (by omega)
    have hp : file[r]? = some file[r] := List.getElem?_eq_getElem (by omega)
    obtain ⟨o, eo, ho⟩ := testBlock_ok file r file[r] tt fs i rlen hp (hl _ (List.getElem_mem _)) ht hr hi
    unfold candidates
    rw [eo, Outcome.ok_bind, e, Outcome.ok_bind]
    cases o with
    | true =>
      refine ⟨r :: bk, rfl, List.nodup_cons.mpr ⟨fun h1 => by have := (hm r).mp h1; omega, hn⟩, fun x => ?_⟩
      rw [List.mem_cons, hm]
      constructor
      · rintro (rfl | ⟨h1, h2, h3⟩)
        · exact ⟨by omega, by omega, _, hp, ho.mp rfl⟩
        · exact ⟨by omega, by omega, h3⟩
      · rintro ⟨h1, h2, h3⟩
        by_cases hx : x = r
        · exact Or.inl hx
        · exact Or.inr ⟨by omega, by omega, h3⟩
    | false =>
      refine ⟨bk, rfl, hn, fun x => ?_⟩
      rw [hm]
      constructor
      · rintro ⟨h1, h2, h3⟩; exact ⟨by omega, by omega, h3⟩
      · rintro ⟨h1, h2, p, h3, h4⟩
        refine ⟨?_, by omega, p, h3, h4⟩
        by_contra hx
        have : x = r := by omega
        subst this
        rw [hp] at h3; injection h3 with h3; subst h3
        have := ho.mpr h4
        simp at this

/-- A page that is not tested to its end is never accepted. -/
theorem testBlock_short (file : List Bytes) (block : Nat) (tt : Tmpl) (i rlen len : Nat) (h : len < 4096) :
    testBlock file block tt i rlen len ≠ .ok true := by
  have hz : zeros ((file.getD block []).take len) (4096 - len) len = .ub := by
    obtain ⟨m, hm⟩ : ∃ m, 4096 - len = m + 1 := ⟨4095 - len, by omega⟩
    rw [hm]
    unfold zeros byteAt
    rw [List.getElem?_eq_none (by rw [List.length_take]; omega)]
    rfl
  unfold testBlock
  split
  · simp
  · dsimp only
    generalize headTest i ((file.getD block []).take len) = A
    cases A with
    | throw => simp
    | ub => simp
    | ok a =>
      simp only [Outcome.ok_bind]
      split
      · simp
      · generalize along _ _ _ _ _ _ = B
        cases B with
        | throw => simp
        | ub => simp
        | ok b =>
          simp only [Outcome.ok_bind]
          split
          · simp
          · rw [hz]; simp

end Verif.Template
