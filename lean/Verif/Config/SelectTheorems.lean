import Verif.Config.SelectSpec
import Verif.Guid.Theorems

/-! # Theorems about choosing variants (property C50) -/

namespace Verif.Config.SelectTheorems
open Verif Verif.Config Verif.Config.Spec Verif.Guid

/-- The stored file `(s, f)` stands for key `k` with number `d`. -/
def Stands (lower : Str → Str) (dynup : List Bytes) (k : Str) (p : Str × α) (d : Int) : Prop :=
  ∃ name, variant lower dynup p.1 = .ok (name, d) ∧ lower name = k

/-- The choice for a key after the files `done`: the first of the greatest number. -/
def Best (lower : Str → Str) (dynup : List Bytes) (k : Str) (done : List (Str × α)) : Option (Chosen α) → Prop
  | none => ∀ p ∈ done, ∀ d, ¬ Stands lower dynup k p d
  | some c => ∃ before s after, done = before ++ (s, c.file) :: after ∧ Stands lower dynup k (s, c.file) c.dynno ∧
      (∀ p ∈ before, ∀ d, Stands lower dynup k p d → d < c.dynno) ∧
      (∀ p ∈ after, ∀ d, Stands lower dynup k p d → d ≤ c.dynno)

theorem configFiles_best (lower : Str → Str) (dynup : List Bytes) (fs done : List (Str × α)) (m out : List (Str × Chosen α))
    (k : Str) (h : Best lower dynup k done (find m k)) (ho : configFiles lower dynup fs m = .ok out) :
    Best lower dynup k (done ++ fs) (find out k) := by
  induction fs generalizing done m with
  | nil =>
    cases ho
    simpa using h
  | cons p fs ih =>
    obtain ⟨s, f⟩ := p
    rw [configFiles] at ho
    cases hv : variant lower dynup s with
    | throw => rw [hv] at ho; cases ho
    | ub => rw [hv] at ho; cases ho
    | ok v =>
      rw [hv, Outcome.ok_bind] at ho
      rw [show done ++ (s, f) :: fs = (done ++ [(s, f)]) ++ fs by simp]
      refine ih (done ++ [(s, f)]) _ ?_ ho
      rw [find_upd]
      have huniq : ∀ d, Stands lower dynup k (s, f) d → d = v.2 ∧ lower v.1 = k := by
        rintro d ⟨n, h1, h2⟩
        simp only at h1
        rw [hv] at h1
        cases h1
        exact ⟨rfl, h2⟩
      by_cases hk : lower v.1 = k
      · have hst : Stands lower dynup k (s, f) v.2 := ⟨v.1, hv, hk⟩
        rw [if_pos hk, hk]
        cases hf : find m k with
        | none =>
          rw [hf] at h
          refine ⟨done, s, [], rfl, hst, fun p hp d hd => absurd hd (h p hp d), fun p hp => by cases hp⟩
        | some c =>
          rw [hf] at h
          obtain ⟨b, s', a, h1, h2, h3, h4⟩ := h
          simp only [choose]
          by_cases hd : c.dynno < v.2
          · rw [if_pos hd]
            refine ⟨done, s, [], rfl, hst, fun p hp d hpd => ?_, fun p hp => by cases hp⟩
            rw [h1] at hp
            simp only
            rcases List.mem_append.1 hp with hp | hp
            · have := h3 p hp d hpd; omega
            · rcases List.mem_cons.1 hp with rfl | hp
              · obtain ⟨n1, e1, _⟩ := hpd
                obtain ⟨n2, e2, _⟩ := h2
                rw [e1] at e2; cases e2; omega
              · have := h4 p hp d hpd; omega
          · rw [if_neg hd]
            refine ⟨b, s', a ++ [(s, f)], by rw [h1]; simp, h2, h3, fun p hp d hpd => ?_⟩
            rcases List.mem_append.1 hp with hp | hp
            · exact h4 p hp d hpd
            · rw [List.mem_singleton.1 hp] at hpd
              have := (huniq d hpd).1; omega
      · rw [if_neg hk]
        cases hf : find m k with
        | none =>
          rw [hf] at h
          intro p hp d hpd
          rcases List.mem_append.1 hp with hp | hp
          · exact h p hp d hpd
          · rw [List.mem_singleton.1 hp] at hpd; exact hk (huniq d hpd).2
        | some c =>
          rw [hf] at h
          obtain ⟨b, s', a, h1, h2, h3, h4⟩ := h
          refine ⟨b, s', a ++ [(s, f)], by rw [h1]; simp, h2, h3, fun p hp d hpd => ?_⟩
          rcases List.mem_append.1 hp with hp | hp
          · exact h4 p hp d hpd
          · rw [List.mem_singleton.1 hp] at hpd; exact absurd (huniq d hpd).2 hk

/-- For every file name the chosen stored file is one that stands for this name, no other that stands for it has a greater
number, and of several with the same number the first is taken. (The numbers are not those of the update list:
`listed_update_loses`.) -/
theorem choice_partial (lower : Str → Str) (dynup : List Bytes) (fs : List (Str × α)) (out : List (Str × Chosen α))
    (ho : configFiles lower dynup fs [] = .ok out) (name : Str) :
    match find out (lower name) with
    | none => ∀ p ∈ fs, ∀ d, ¬ Stands lower dynup (lower name) p d
    | some c => ∃ before s after, fs = before ++ (s, c.file) :: after ∧ Stands lower dynup (lower name) (s, c.file) c.dynno ∧
      (∀ p ∈ before, ∀ d, Stands lower dynup (lower name) p d → d < c.dynno) ∧
      (∀ p ∈ after, ∀ d, Stands lower dynup (lower name) p d → d ≤ c.dynno) := by
  have := configFiles_best lower dynup fs [] [] out (lower name) (fun _ h => by cases h) ho
  rw [List.nil_append] at this
  cases hf : find out (lower name) with
  | none => rw [hf] at this; exact this
  | some c => rw [hf] at this; exact this

/-! ## What a name stands for -/

theorem rfind_none (pat s : Str) (h : ∀ i, startsAt pat s i = false) : rfind pat s = none := by
  rw [rfind, List.find?_eq_none]
  intro i _
  rw [h i]; simp

theorem rfind_last (pat s : Str) (m : Nat) (hm : m ≤ s.length) (h1 : startsAt pat s m = true)
    (h2 : ∀ i, m < i → startsAt pat s i = false) : rfind pat s = some m := by
  rw [rfind, List.find?_eq_some_iff_append]
  refine ⟨h1, ((List.range (s.length - m)).map (· + (m + 1))).reverse, (List.range m).reverse, ?_, ?_⟩
  · have h3 : List.range (s.length + 1) = (List.range m ++ [m]) ++ (List.range (s.length - m)).map (· + (m + 1)) := by
      rw [← List.range_succ]
      have := List.range_add (n := m + 1) (m := s.length - m)
      rw [show m + 1 + (s.length - m) = s.length + 1 by omega] at this
      rw [this]
      congr 1
      exact List.map_congr_left (fun i _ => by omega)
    rw [h3]
    simp
  · intro i hi
    simp only [List.mem_reverse, List.mem_map] at hi
    obtain ⟨j, _, rfl⟩ := hi
    rw [h2 _ (by omega)]
    rfl

theorem startsAt_iff (pat s : Str) (i : Nat) : startsAt pat s i = true ↔ ∃ t, s.drop i = pat ++ t := by
  rw [startsAt, List.isPrefixOf_iff_prefix]
  exact ⟨fun ⟨t, h⟩ => ⟨t, h.symm⟩, fun ⟨t, h⟩ => ⟨t, h.symm⟩⟩

theorem startsAt_char (pat s : Str) (i j : Nat) (hj : j < pat.length) (h : startsAt pat s i = true) :
    s[i + j]? = pat[j]? := by
  obtain ⟨t, ht⟩ := (startsAt_iff pat s i).1 h
  rw [← List.getElem?_drop, ht, List.getElem?_append_left hj]

theorem splitExt_none (s : Str) (h : '.' ∉ s) : splitExt s = (s, []) := by
  rw [splitExt, rfind_none]
  intro i
  cases hs : startsAt ['.'] s i with
  | false => rfl
  | true =>
    have := startsAt_char ['.'] s i 0 (by decide) hs
    exact absurd (List.mem_of_getElem? this) h

/-- Lower-case hex digits. -/
def fromHexOk (c : Char) : Bool := ('0' ≤ c && c ≤ '9') || ('a' ≤ c && c ≤ 'f')

/-- The characters of the text of a GUID. -/
theorem as1C_chars (g : Bytes) : ∀ c ∈ as1C g, c = '-' ∨ (fromHexOk c = true) := by
  intro c hc
  have hb : ∀ d : UInt8, (Hex.hexByte d).all fromHexOk = true := by
    apply forall_byte; decide +kernel
  have key : ∀ is : List (Option Nat), ∀ c ∈ formatGuid g is, c = '-' ∨ fromHexOk c = true := by
    intro is
    induction is with
    | nil => intro c hc; cases hc
    | cons i is ih =>
      intro c hc
      cases i with
      | none =>
        rcases List.mem_cons.1 hc with rfl | hc
        · exact Or.inl rfl
        · exact ih c hc
      | some i =>
        rcases List.mem_append.1 hc with hc | hc
        · exact Or.inr (List.all_eq_true.1 (hb _) c hc)
        · exact ih c hc
  exact key _ c hc

theorem as1C_not (g : Bytes) (c : Char) (h1 : c ≠ '-') (h2 : fromHexOk c = false) : c ∉ as1C g := by
  intro hc
  rcases as1C_chars g c hc with h | h
  · exact h1 h
  · rw [h2] at h; cases h

theorem length_as1C (g : Bytes) (hg : g.length = 16) : (as1C g).length = 36 := (text_shape g hg).1

theorem dynMark_at (i : Nat) (h : dynMark[i]? = some '_') : i = 0 ∨ i = 10 := by
  have : i < 11 := by
    rcases Nat.lt_or_ge i 11 with h' | h'
    · exact h'
    · rw [List.getElem?_eq_none (by exact h')] at h; cases h
  have key : ∀ i : Fin 11, dynMark[i.val]? = some '_' → i.val = 0 ∨ i.val = 10 := by decide
  exact key ⟨i, this⟩ h

theorem rfind_update (base : Str) (g : Bytes) (hg : g.length = 16) :
    rfind dynMark (updateName base g) = some base.length := by
  have hu : updateName base g = base ++ dynMark ++ as1C g := rfl
  have hlen := length_as1C g hg
  have hm : dynMark.length = 11 := by decide
  apply rfind_last
  · rw [hu]; simp
  · rw [startsAt_iff, hu, List.append_assoc]
    exact ⟨as1C g, List.drop_left' rfl⟩
  · intro i hi
    cases hs : startsAt dynMark (updateName base g) i with
    | false => rfl
    | true =>
      exfalso
      have h0 := startsAt_char dynMark _ i 0 (by decide) hs
      have h2 := startsAt_char dynMark _ i 2 (by decide) hs
      have e0 : dynMark[0]? = some '_' := by decide
      have e2 : dynMark[2]? = some 'y' := by decide
      rw [e0] at h0
      rw [e2] at h2
      rw [hu, List.append_assoc, List.getElem?_append_right (by omega)] at h0 h2
      rcases Nat.lt_or_ge (i - base.length) 11 with h | h
      · rw [List.getElem?_append_left (by rw [hm]; omega), Nat.add_zero] at h0
        rcases dynMark_at _ h0 with h' | h'
        · omega
        · rw [List.getElem?_append_right (by rw [hm]; omega)] at h2
          exact as1C_not g 'y' (by decide) (by decide) (List.mem_of_getElem? h2)
      · rw [List.getElem?_append_right (by rw [hm]; omega)] at h0
        exact as1C_not g '_' (by decide) (by decide) (List.mem_of_getElem? h0)

theorem position_rank (dynup : List Bytes) (g : Bytes) : position dynup g = rankOfUpdate dynup g := by
  unfold position rankOfUpdate
  by_cases hg : g ∈ dynup
  · rw [if_pos hg, List.findIdx?_eq_some_of_exists ⟨g, hg, by simp⟩]
    simp only [List.idxOf]
  · rw [if_neg hg]
    have : dynup.findIdx? (fun x => x == g) = none := by
      rw [List.findIdx?_eq_none_iff]
      intro x hx
      simpa using fun e : x = g => hg (e ▸ hx)
    rw [this]

/-- The name of an update variant stands for its base, with the place in the list of the GUID that is read from
one character too early. -/
theorem update_variant (lower : Str → Str) (dynup : List Bytes) (base : Str) (g : Bytes)
    (hg : g.length = 16) (hb : '.' ∉ base) :
    ∃ g', ofText ('_' :: (as1C g).take 35) = .ok g' ∧
      variant lower dynup (updateName base g) = .ok (base, rankOfUpdate dynup g') := by
  simp only [← position_rank]
  have hdot : '.' ∉ updateName base g := by
    rw [show updateName base g = base ++ dynMark ++ as1C g from rfl]
    simp only [List.mem_append, not_or]
    exact ⟨⟨hb, by decide⟩, as1C_not g '.' (by decide) (by decide)⟩
  have hlen := length_as1C g hg
  have hm : dynMark.length = 11 := by decide
  have htot : (updateName base g).length = base.length + 47 := by
    rw [show updateName base g = base ++ dynMark ++ as1C g from rfl, List.length_append, List.length_append, hm, hlen]
  have hcut : ((updateName base g).drop (base.length + 11 - 1)).take ((updateName base g).length - base.length - 11) =
      '_' :: (as1C g).take 35 := by
    rw [htot, show base.length + 47 - base.length - 11 = 36 by omega, show base.length + 11 - 1 = base.length + 10 by omega]
    rw [show updateName base g = (base ++ "_dynupdate".toList) ++ ('_' :: as1C g) by
      unfold updateName
      simp [List.append_assoc]]
    rw [List.drop_left' (by rw [List.length_append]; rfl), List.take_succ_cons]
  obtain ⟨g', hg'⟩ := right_length_accepted ('_' :: (as1C g).take 35) (Or.inr (by
    rw [List.length_cons, List.length_take, hlen]; omega))
  refine ⟨g', hg'.1, ?_⟩
  unfold variant
  rw [splitExt_none _ hdot]
  simp only
  rw [splitUpdate, rfind_update base g hg]
  simp only
  rw [hcut, hg'.1, Outcome.ok_bind, Outcome.ok_bind]
  simp only [List.isEmpty_nil, or_true, if_true]
  rw [show updateName base g = base ++ (dynMark ++ as1C g) by rw [← List.append_assoc]; rfl, List.take_left' rfl]

theorem nibble_zero (a : UInt8) (h : (0 : UInt8) <<< (4 : UInt8) ||| Hex.fromHexDigit (Hex.hexChar (a >>> (4 : UInt8))) = a) :
    a = 0 := by
  have key : ∀ a : UInt8, (0 : UInt8) <<< (4 : UInt8) ||| Hex.fromHexDigit (Hex.hexChar (a >>> (4 : UInt8))) = a → a = 0 := by
    apply forall_byte; decide +kernel
  exact key a h

def hi (a : UInt8) : Char := Hex.hexChar (a >>> (4 : UInt8))
def lo (a : UInt8) : Char := Hex.hexChar (a &&& (0xf : UInt8))
def pair (x y : Char) : UInt8 := (Hex.fromHexDigit x <<< (4 : UInt8)) ||| Hex.fromHexDigit y

/-- Read from one character too early, no GUID is itself, except the zero one. -/
theorem shifted_guid (g : Bytes) (hg : g.length = 16) (h : ofText ('_' :: (as1C g).take 35) = .ok g) : g = empty := by
  obtain ⟨a0, a1, a2, a3, a4, a5, a6, a7, a8, a9, a10, a11, a12, a13, a14, a15, rfl⟩ := list16 g hg
  have h' : Outcome.ok [pair '-' (hi a0),
      pair (lo a0) (hi a1),
      pair '-' (hi a2),
      pair (lo a2) (hi a3),
      pair (lo a3) (hi a4),
      pair (lo a4) (hi a5),
      pair (lo a5) (hi a6),
      pair (lo a6) (hi a7),
      pair '-' (hi a8),
      pair (lo a8) (hi a9),
      pair '-' (hi a10),
      pair (lo a10) (hi a11),
      pair '_' (hi a12),
      pair (lo a12) (hi a13),
      pair (lo a13) (hi a14),
      pair (lo a14) (hi a15)] = Outcome.ok [a0, a1, a2, a3, a4, a5, a6, a7, a8, a9, a10, a11, a12, a13, a14, a15] := h
  simp only [Outcome.ok.injEq, List.cons.injEq, and_true] at h'
  obtain ⟨h0, h1, h2, h3, h4, h5, h6, h7, h8, h9, h10, h11, h12, h13, h14, h15⟩ := h'
  have e0 : a0 = 0 := nibble_zero a0 h0
  have e1 : a1 = 0 := nibble_zero a1 (by rw [e0] at h1; exact h1)
  have e2 : a2 = 0 := nibble_zero a2 h2
  have e3 : a3 = 0 := nibble_zero a3 (by rw [e2] at h3; exact h3)
  have e4 : a4 = 0 := nibble_zero a4 (by rw [e3] at h4; exact h4)
  have e5 : a5 = 0 := nibble_zero a5 (by rw [e4] at h5; exact h5)
  have e6 : a6 = 0 := nibble_zero a6 (by rw [e5] at h6; exact h6)
  have e7 : a7 = 0 := nibble_zero a7 (by rw [e6] at h7; exact h7)
  have e8 : a8 = 0 := nibble_zero a8 h8
  have e9 : a9 = 0 := nibble_zero a9 (by rw [e8] at h9; exact h9)
  have e10 : a10 = 0 := nibble_zero a10 h10
  have e11 : a11 = 0 := nibble_zero a11 (by rw [e10] at h11; exact h11)
  have e12 : a12 = 0 := nibble_zero a12 h12
  have e13 : a13 = 0 := nibble_zero a13 (by rw [e12] at h13; exact h13)
  have e14 : a14 = 0 := nibble_zero a14 (by rw [e13] at h14; exact h14)
  have e15 : a15 = 0 := nibble_zero a15 (by rw [e14] at h15; exact h15)
  rw [e0, e1, e2, e3, e4, e5, e6, e7, e8, e9, e10, e11, e12, e13, e14, e15]
  rfl

theorem plain_variant (lower : Str → Str) (hl : lower [] ≠ lower "new".toList) (dynup : List Bytes) (base : Str)
    (hb : '.' ∉ base) (hm : rfind dynMark base = none) : variant lower dynup base = .ok (base, -1) := by
  unfold variant
  rw [splitExt_none _ hb]
  simp only
  rw [splitUpdate, hm]
  simp only
  rw [if_neg hl, Outcome.ok_bind]
  simp

/-- **Negation of C50.** Whatever the file, and whatever the update listed as the only one, the original stored file is
chosen although the variant of the listed update is there. -/
theorem listed_update_loses (lower : Str → Str) (hl : lower [] ≠ lower "new".toList) (base : Str) (g : Bytes)
    (hg : g.length = 16) (h0 : g ≠ empty) (hb : '.' ∉ base) (hm : rfind dynMark base = none) (old new : α) :
    ∃ out c, configFiles lower [g] [(base, old), (updateName base g, new)] [] = .ok out ∧
      find out (lower base) = some c ∧ c.file = old ∧ rankOfUpdate [g] g = 0 := by
  obtain ⟨g', h1, h2⟩ := update_variant lower [g] base g hg hb
  have hne : g' ≠ g := by
    intro e
    rw [e] at h1
    exact h0 (shifted_guid g hg h1)
  rw [← position_rank] at h2
  have hpos : position [g] g' = -2 := by
    have : (g == g') = false := by simpa using fun e => hne e.symm
    simp [position, List.findIdx?_cons, this]
  rw [configFiles, plain_variant lower hl [g] base hb hm, Outcome.ok_bind, configFiles, h2, Outcome.ok_bind, configFiles, hpos]
  refine ⟨_, ⟨base, old, -1⟩, rfl, ?_, rfl, ?_⟩
  · rw [find_upd, if_pos rfl, find_upd, if_pos rfl]
    rfl
  · simp [rankOfUpdate]

def sampleLower (s : Str) : Str := s.map Char.toLower
def sampleGuid : Bytes := [0x01, 0x23, 0x45, 0x67, 0x89, 0xab, 0xcd, 0xef, 0xcd, 0xef, 0x89, 0xab, 0x01, 0x23, 0x45, 0x67]

example : sampleLower [] ≠ sampleLower "new".toList ∧ sampleGuid.length = 16 ∧ sampleGuid ≠ empty ∧ '.' ∉ "root".toList ∧
    rfind dynMark "root".toList = none := by decide

/-- What the choice does with other names: the extension is kept, `.new` is dropped and loses. -/
example : configFiles sampleLower [] [("a.new".toList, 1), ("A".toList, 2), ("b.0".toList, 3)] [] =
    .ok [("a".toList, ⟨"a".toList, 2, -1⟩), ("b.0".toList, ⟨"b.0".toList, 3, -1⟩)] := by decide

/-- A stored name with the extension `new` stands for the name without it and loses to the plain file. -/
theorem new_loses (lower : Str → Str) (hl : lower [] ≠ lower "new".toList) (dynup : List Bytes) (base : Str)
    (hm : rfind dynMark base = none) (hd : '.' ∉ base) :
    variant lower dynup (base ++ ".new".toList) = .ok (base, -2) ∧ variant lower dynup base = .ok (base, -1) := by
  refine ⟨?_, plain_variant lower hl dynup base hd hm⟩
  have hr : rfind ['.'] (base ++ ".new".toList) = some base.length := by
    apply rfind_last
    · simp
    · rw [startsAt_iff]; exact ⟨"new".toList, List.drop_left' rfl⟩
    · intro i hi
      cases hs : startsAt ['.'] (base ++ ".new".toList) i with
      | false => rfl
      | true =>
        exfalso
        have := startsAt_char ['.'] _ i 0 (by decide) hs
        rw [Nat.add_zero, List.getElem?_append_right (by omega)] at this
        have hp : 0 < i - base.length := by omega
        generalize i - base.length = j at this hp
        match j, hp with
        | 1, _ => simp at this
        | 2, _ => simp at this
        | 3, _ => simp at this
        | n + 4, _ => simp at this
  have hsp : splitExt (base ++ ".new".toList) = (base, "new".toList) := by
    rw [splitExt, hr]
    simp only
    rw [List.take_left' rfl, show (base ++ ".new".toList).drop (base.length + 1) = "new".toList by
      rw [show base ++ ".new".toList = (base ++ ['.']) ++ "new".toList by simp]
      exact List.drop_left' (by simp)]
  unfold variant
  rw [hsp]
  simp only [if_true, true_or]
  rw [splitUpdate, hm]
  rfl

end Verif.Config.SelectTheorems
