import Verif.Record.LayoutTheorems
import Verif.Record.Theorems
import Verif.Unicode.Theorems
import Verif.Object.ReadLemmas
import Verif.TableOpen.Spec

/-! # Lemmas: opening a table -/

namespace Verif.TableOpen
open Verif Record Tree
open Spec (Number IsStr IsNum IsBit FieldNode IndexFieldNode IndexNode TableNode Same WholeTail FirstNamed codes)

/-! ## Texts -/

theorem encode_char (c : Char) : String.utf8EncodeChar c = Unicode.Spec.utf8 c.toNat := by
  unfold String.utf8EncodeChar Unicode.Spec.utf8
  have hv : c.val.toNat = c.toNat := rfl
  rw [hv]
  have hc : c.toNat < 0x110000 := by
    rcases c.valid with h | h
    · have : c.toNat < 0xd800 := h
      omega
    · exact h.2
  dsimp only
  by_cases h1 : c.toNat < 0x80
  · rw [if_pos (by omega), if_pos h1]
  rw [if_neg (by omega), if_neg h1]
  by_cases h2 : c.toNat < 0x800
  · rw [if_pos (by omega), if_pos h2, show c.toNat / 64 % 32 + 192 = 0xC0 + c.toNat / 64 by omega,
      show c.toNat % 64 + 128 = 0x80 + c.toNat % 64 by omega]
  rw [if_neg (by omega), if_neg h2]
  by_cases h3 : c.toNat < 0x10000
  · rw [if_pos (by omega), if_pos h3, show c.toNat / 4096 % 16 + 224 = 0xE0 + c.toNat / 4096 by omega,
      show c.toNat / 64 % 64 + 128 = 0x80 + c.toNat / 64 % 64 by omega,
      show c.toNat % 64 + 128 = 0x80 + c.toNat % 64 by omega]
  rw [if_neg (by omega), if_neg h3, show c.toNat / 262144 % 8 + 240 = 0xF0 + c.toNat / 262144 by omega,
    show c.toNat / 4096 % 64 + 128 = 0x80 + c.toNat / 4096 % 64 by omega,
    show c.toNat / 64 % 64 + 128 = 0x80 + c.toNat / 64 % 64 by omega,
    show c.toNat % 64 + 128 = 0x80 + c.toNat % 64 by omega]

theorem utf8Of_eq (s : Str) : utf8Of s = Spec.utf8 s := by
  unfold utf8Of Spec.utf8 Unicode.Spec.utf8Text codes
  induction s with
  | nil => rfl
  | cons c s ih => rw [List.flatMap_cons, List.map_cons, List.flatMap_cons, ih, encode_char]

theorem scalar_char (c : Char) : Unicode.Spec.Scalar c.toNat := by
  unfold Unicode.Spec.Scalar
  rcases c.valid with h | h
  · exact Or.inl h
  · have h1 : 57343 < c.toNat := h.1
    exact Or.inr ⟨by omega, h.2⟩

theorem scalar_codes (s : Str) : ∀ x ∈ codes s, Unicode.Spec.Scalar x := by
  intro x hx
  obtain ⟨c, _, rfl⟩ := List.mem_map.mp hx
  exact scalar_char c

theorem name_codes {s : Str} (h : '\x00' ∉ s) : Unicode.Spec.Name (codes s) := by
  intro x hx
  refine ⟨scalar_codes s x hx, ?_⟩
  obtain ⟨c, hc, rfl⟩ := List.mem_map.mp hx
  intro e
  have : c = '\x00' := by
    apply Char.ext
    apply UInt32.toNat_inj.mp
    exact e
  exact h (this ▸ hc)

theorem equal_same {a b : Str} (ha : '\x00' ∉ a) (hb : '\x00' ∉ b) [Decidable (Same a b)] :
    Unicode.equalIC (utf8Of a) (utf8Of b) = .ok (decide (Same a b)) := by
  have h := Unicode.equalIC_iff (codes a) (codes b) (name_codes ha) (name_codes hb)
  rw [utf8Of_eq, utf8Of_eq]
  unfold Spec.utf8
  by_cases hs : Same a b
  · rw [h.1.mpr hs, decide_eq_true hs]
  · rw [h.2.mpr hs, decide_eq_false hs]

theorem getSeq_ne_ub (n : Nat) (l : UInt8) (r : Bytes) : Unicode.getSeq n l r ≠ .ub := by
  unfold Unicode.getSeq
  split <;> (try split) <;> simp

theorem decodeAll_ne_ub : ∀ (n : Nat) (s : Bytes), Unicode.decodeAll n s ≠ .ub
  | _, [] => by simp [Unicode.decodeAll]
  | 0, _ :: _ => by simp [Unicode.decodeAll]
  | n + 1, b :: bs => by
    unfold Unicode.decodeAll Unicode.next
    dsimp only
    have h := getSeq_ne_ub (Unicode.seqLen b) b bs
    cases hg : Unicode.getSeq (Unicode.seqLen b) b bs with
    | ub => exact absurd hg h
    | throw => simp
    | ok x =>
      obtain ⟨cp, rest⟩ := x
      simp only [Outcome.ok_bind]
      split
      · simp only [Outcome.ok_bind]
        have := decodeAll_ne_ub n rest
        cases hd : Unicode.decodeAll n rest with
        | ub => exact absurd hd this
        | throw => simp
        | ok _ => simp
      · simp

theorem lower_ne_ub (s : Bytes) : Unicode.lowerCase s ≠ .ub := by
  intro h
  cases hd : Unicode.decodeAll s.length s with
  | ok cps =>
    obtain ⟨h1, h2⟩ := Unicode.decodeAll_sound _ _ _ hd
    rw [h2, Unicode.lowerCase_spec cps h1] at h
    cases h
  | throw =>
    unfold Unicode.lowerCase Unicode.caseFold at h
    rw [hd] at h; cases h
  | ub => exact decodeAll_ne_ub _ _ hd

theorem equal_ne_ub (a b : Bytes) : Unicode.equalIC a b ≠ .ub := by
  unfold Unicode.equalIC
  cases h : Unicode.lowerCase a with
  | ub => exact absurd h (lower_ne_ub a)
  | throw => simp
  | ok x =>
    cases h' : Unicode.lowerCase b with
    | ub => exact absurd h' (lower_ne_ub b)
    | throw => simp
    | ok y => simp

theorem ends_ne_ub (a b : Bytes) : Unicode.endsWithIC a b ≠ .ub := by
  unfold Unicode.endsWithIC
  split
  · simp
  · split
    · simp
    · exact equal_ne_ub _ _

/-- Comparing any two texts gives an answer. -/
theorem equal_total (a b : Str) : ∃ r, Unicode.equalIC (utf8Of a) (utf8Of b) = .ok r := by
  rw [utf8Of_eq, utf8Of_eq]
  unfold Unicode.equalIC Spec.utf8
  rw [Unicode.lowerCase_spec _ (scalar_codes a), Unicode.lowerCase_spec _ (scalar_codes b)]
  exact ⟨_, rfl⟩

theorem codes_append {s : Str} {p q : List Nat} (h : codes s = p ++ q) : ∃ a b, s = a ++ b ∧ codes a = p ∧ codes b = q := by
  obtain ⟨a, b, h1, h2, h3⟩ := List.map_eq_append_iff.mp h
  exact ⟨a, b, h1, h2, h3⟩

theorem same_length {a b : Str} (h : Same a b) : (Spec.utf8 a).length = (Spec.utf8 b).length := by
  have := (Unicode.map_same Unicode.toLower Unicode.toLower_same _ _).2 h
  unfold Spec.utf8
  rw [← Unicode.utf8Text_length_map Unicode.toLower Unicode.toLower_length, this,
    Unicode.utf8Text_length_map Unicode.toLower Unicode.toLower_length]

theorem utf8_append (p q : Str) : Spec.utf8 (p ++ q) = Spec.utf8 p ++ Spec.utf8 q := by
  simp [Spec.utf8, codes, Unicode.Spec.utf8Text]

theorem utf8_ne_nil {b : Str} (h : b ≠ []) : Spec.utf8 b ≠ [] := by
  cases b with
  | nil => exact absurd rfl h
  | cons x b =>
    obtain ⟨y, r, hy⟩ := Unicode.utf8_ne x.toNat
    have : Spec.utf8 (x :: b) = Unicode.Spec.utf8 x.toNat ++ Spec.utf8 b := rfl
    rw [this, hy]; simp

/-- The test for an ending, decided in full. -/
theorem ends_same {a b : Str} (ha : '\x00' ∉ a) (hb : '\x00' ∉ b) (hne : b ≠ []) {k : Nat} (hk : (Spec.utf8 b).length = k)
    [Decidable (WholeTail k a)] [Decidable (∃ p q, a = p ++ q ∧ Same q b)] :
    Unicode.endsWithIC (utf8Of a) (utf8Of b) =
      if WholeTail k a then .ok (decide (∃ p q, a = p ++ q ∧ Same q b)) else .throw := by
  have hi := Unicode.endsWithIC_iff (codes a) (codes b) (name_codes ha) (name_codes hb) (by simpa [codes] using hne)
  rw [utf8Of_eq, utf8Of_eq]
  by_cases hex : ∃ p q, a = p ++ q ∧ Same q b
  · obtain ⟨p, q, e, hs⟩ := hex
    have hw : WholeTail k a := Or.inr ⟨p, q, e, by rw [same_length hs, hk]⟩
    rw [if_pos hw, decide_eq_true ⟨p, q, e, hs⟩]
    exact hi.mpr ⟨codes p, codes q, by rw [e]; simp [codes], hs⟩
  · rw [decide_eq_false hex]
    have hnt : Unicode.endsWithIC (Spec.utf8 a) (Spec.utf8 b) ≠ .ok true := by
      intro h
      obtain ⟨p, q, h1, h2⟩ := hi.mp h
      obtain ⟨a', b', e, e1, e2⟩ := codes_append h1
      exact hex ⟨a', b', e, by unfold Spec.Same; rw [e2]; exact h2⟩
    have hbe : (Spec.utf8 b).isEmpty = false := by simpa using utf8_ne_nil hne
    by_cases hw : WholeTail k a
    · rw [if_pos hw]
      rcases hw with hw | ⟨p, q, e, hq⟩
      · unfold Unicode.endsWithIC
        rw [if_neg (by rw [hbe]; simp), if_pos (by omega)]
      · have he : Unicode.endsWithIC (Spec.utf8 a) (Spec.utf8 b) = Unicode.equalIC (Spec.utf8 q) (Spec.utf8 b) := by
          unfold Unicode.endsWithIC
          rw [if_neg (by rw [hbe]; simp), e, utf8_append, if_neg (by simp; omega),
            show (Spec.utf8 p ++ Spec.utf8 q).length - (Spec.utf8 b).length = (Spec.utf8 p).length by simp; omega, List.drop_left]
        obtain ⟨r, hr⟩ := equal_total q b
        rw [utf8Of_eq, utf8Of_eq] at hr
        rw [he, hr] at hnt ⊢
        cases r with
        | true => exact absurd rfl hnt
        | false => rfl
    · rw [if_neg hw]
      have hnu := ends_ne_ub (Spec.utf8 a) (Spec.utf8 b)
      cases hr : Unicode.endsWithIC (Spec.utf8 a) (Spec.utf8 b) with
      | ub => exact absurd hr hnu
      | throw => rfl
      | ok r =>
        exfalso
        have hlen : ¬ (Spec.utf8 a).length < (Spec.utf8 b).length := by
          intro h; exact hw (Or.inl (by omega))
        unfold Unicode.endsWithIC at hr
        rw [if_neg (by rw [hbe]; simp), if_neg hlen] at hr
        have hd : ∃ q, (∀ c ∈ q, Unicode.Spec.Scalar c) ∧
            (Spec.utf8 a).drop ((Spec.utf8 a).length - (Spec.utf8 b).length) = Unicode.Spec.utf8Text q := by
          refine Classical.byContradiction fun hc => ?_
          have := Unicode.equalIC_invalid_throws ((Spec.utf8 a).drop ((Spec.utf8 a).length - (Spec.utf8 b).length))
            (Spec.utf8 b) (fun q hq e => hc ⟨q, hq, e⟩)
          cases r with
          | true => exact this.1 hr
          | false => exact this.2 hr
        obtain ⟨q, hq, hdq⟩ := hd
        have hql := congrArg List.length hdq
        rw [List.length_drop] at hql
        have hpos := List.length_pos_iff.mpr (utf8_ne_nil hne)
        have hqne : q ≠ [] := by
          rintro rfl
          simp only [Unicode.Spec.utf8Text, List.flatMap_nil, List.length_nil] at hql
          omega
        obtain ⟨p, hp⟩ := Unicode.suffix_aligned (codes a) q ((Spec.utf8 a).take ((Spec.utf8 a).length - (Spec.utf8 b).length))
          (scalar_codes a) hq hqne (by rw [← hdq, List.take_append_drop]; rfl)
        obtain ⟨a', b', e, _, e2⟩ := codes_append hp
        refine hw (Or.inr ⟨a', b', e, ?_⟩)
        unfold Spec.utf8
        rw [e2]
        omega

/-! ## Names -/

theorem head_utf8 (s : Str) : (utf8Of s).head? = some 95 ↔ s.head? = some '_' := by
  rw [utf8Of_eq]
  cases s with
  | nil => simp [Spec.utf8, codes, Unicode.Spec.utf8Text]
  | cons c s =>
    have e : Spec.utf8 (c :: s) = Unicode.Spec.utf8 c.toNat ++ Spec.utf8 s := rfl
    rw [e]
    simp only [List.head?_cons, Option.some.injEq]
    have hc : c = '_' ↔ c.toNat = 95 := by
      constructor
      · rintro rfl; rfl
      · intro h
        apply Char.ext
        apply UInt32.toNat_inj.mp
        exact h
    rw [hc]
    have hm : c.toNat < 0x110000 := by
      have := scalar_char c
      unfold Unicode.Spec.Scalar at this; omega
    unfold Unicode.Spec.utf8
    have key : ∀ n, n < 256 → (UInt8.ofNat n = 95 ↔ n = 95) := by
      intro n hn
      constructor
      · intro h
        have := congrArg UInt8.toNat h
        rw [UInt8.toNat_ofNat_of_lt' hn] at this
        exact this
      · rintro rfl; rfl
    split
    · simp only [List.cons_append, List.head?_cons, Option.some.injEq]
      exact key _ (by omega)
    · split
      · simp only [List.cons_append, List.head?_cons, Option.some.injEq]
        rw [key _ (by omega)]; omega
      · split
        · simp only [List.cons_append, List.head?_cons, Option.some.injEq]
          rw [key _ (by omega)]; omega
        · simp only [List.cons_append, List.head?_cons, Option.some.injEq]
          rw [key _ (by omega)]; omega

open Classical in
theorem isSystem_eq {s : Str} (h : '\x00' ∉ s) :
    isSystem (utf8Of s) = if s.head? = some '_' → WholeTail 7 s then .ok (decide (Spec.System s)) else .throw := by
  unfold isSystem
  by_cases hh : s.head? = some '_'
  · rw [if_neg (by rw [ne_eq, not_not, head_utf8]; exact hh), ends_same h (by decide) (by decide) (k := 7) (by decide)]
    by_cases hw : WholeTail 7 s
    · rw [if_pos hw, if_pos (fun _ => hw)]
      simp only [Outcome.ok_bind]
      rw [equal_same h (by decide), equal_same h (by decide), equal_same h (by decide), equal_same h (by decide),
        equal_same h (by decide), equal_same h (by decide)]
      simp only [Outcome.ok_bind, decide_eq_true_eq]
      have hsys : Spec.System s ↔ (∃ p q, s = p ++ q ∧ Same q "STORAGE".toList) ∨
          Same s "_SYSTEMSETTINGS".toList ∨ Same s "_COMMONSETTINGS".toList ∨ Same s "_REPSETTINGS".toList ∨
          Same s "_REPVARSETTINGS".toList ∨ Same s "_FRMDTSETTINGS".toList ∨ Same s "_SCHEDULEDJOBS".toList := by
        unfold Spec.System
        simp only [hh, ne_eq, not_true_eq_false, false_or, List.mem_cons, List.not_mem_nil, or_false, exists_eq_or_imp, exists_eq_left]
      rw [show decide (Spec.System s) = decide _ from decide_eq_decide.mpr hsys]
      split
      · rename_i h1; rw [decide_eq_true (Or.inl h1)]
      · rename_i h1
        split
        · rename_i h2; rw [decide_eq_true (Or.inr (Or.inl h2))]
        · rename_i h2
          split
          · rename_i h3; rw [decide_eq_true (Or.inr (Or.inr (Or.inl h3)))]
          · rename_i h3
            split
            · rename_i h4; rw [decide_eq_true (Or.inr (Or.inr (Or.inr (Or.inl h4))))]
            · rename_i h4
              split
              · rename_i h5; rw [decide_eq_true (Or.inr (Or.inr (Or.inr (Or.inr (Or.inl h5)))))]
              · rename_i h5
                split
                · rename_i h6; rw [decide_eq_true (Or.inr (Or.inr (Or.inr (Or.inr (Or.inr (Or.inl h6))))))]
                · rename_i h6
                  congr 1
                  rw [decide_eq_decide]
                  simp only [h1, h2, h3, h4, h5, h6, false_or]
    · rw [if_neg hw, if_neg (fun x => hw (x hh))]
      rfl
  · rw [if_pos (by rw [ne_eq, head_utf8]; exact hh), if_pos (fun x => absurd x hh), decide_eq_true (p := Spec.System s) (Or.inl hh)]

theorem isSystem_ne_ub (s : Bytes) : isSystem s ≠ .ub := by
  unfold isSystem
  split
  · simp
  · have key : ∀ (o : Outcome Bool) (f : Bool → Outcome Bool), o ≠ .ub → (∀ b, f b ≠ .ub) → (o >>= f) ≠ .ub := by
      intro o f ho hf
      cases o with
      | ub => exact absurd rfl ho
      | throw => simp
      | ok b => exact hf b
    have key2 : ∀ (c : Bool) (x : Outcome Bool), x ≠ .ub → (if c then Outcome.ok true else x) ≠ .ub := by
      intro c x hx; cases c <;> simp [hx]
    refine key _ _ (ends_ne_ub _ _) fun b => key2 b _ ?_
    refine key _ _ (equal_ne_ub _ _) fun b => key2 b _ ?_
    refine key _ _ (equal_ne_ub _ _) fun b => key2 b _ ?_
    refine key _ _ (equal_ne_ub _ _) fun b => key2 b _ ?_
    refine key _ _ (equal_ne_ub _ _) fun b => key2 b _ ?_
    refine key _ _ (equal_ne_ub _ _) fun b => key2 b _ ?_
    exact equal_ne_ub _ _

open Classical in
theorem canBeGuid_eq {s : Str} (h : '\x00' ∉ s) :
    Field.canBeGuid (utf8Of s) = if WholeTail 3 s ∧ WholeTail 2 s then .ok (decide (Spec.RefName s)) else .throw := by
  unfold Field.canBeGuid
  rw [show ([82, 69, 70] : Bytes) = utf8Of "REF".toList by decide, show ([73, 68] : Bytes) = utf8Of "ID".toList by decide,
    ends_same h (by decide) (by decide) (k := 3) (by decide), ends_same h (by decide) (by decide) (k := 2) (by decide)]
  by_cases h3 : WholeTail 3 s
  · rw [if_pos h3]
    simp only [Outcome.ok_bind, decide_eq_true_eq]
    by_cases hr : ∃ p q, s = p ++ q ∧ Same q "REF".toList
    · rw [if_pos hr]
      obtain ⟨p, q, e, hs⟩ := hr
      have h2 : WholeTail 2 s := by
        obtain ⟨x, y, z, hq⟩ : ∃ x y z, q = [x, y, z] := by
          match q, hs with
          | [x, y, z], _ => exact ⟨x, y, z, rfl⟩
          | [], hs => exact absurd hs (by simp [Spec.Same, codes, Unicode.Spec.SameText])
          | [_], hs => exact absurd hs (by simp [Spec.Same, codes, Unicode.Spec.SameText])
          | [_, _], hs => exact absurd hs (by simp [Spec.Same, codes, Unicode.Spec.SameText])
          | _ :: _ :: _ :: _ :: _, hs => exact absurd hs (by simp [Spec.Same, codes, Unicode.Spec.SameText])
        subst hq
        refine Or.inr ⟨p ++ [x], [y, z], by rw [e]; simp, ?_⟩
        have : Same [y, z] "EF".toList := hs.2
        rw [same_length this]; decide
      rw [if_pos ⟨h3, h2⟩, decide_eq_true ⟨p, q, e, Or.inl hs⟩]
    · rw [if_neg hr]
      by_cases h2 : WholeTail 2 s
      · rw [if_pos h2, if_pos ⟨h3, h2⟩]
        congr 1
        rw [decide_eq_decide]
        constructor
        · rintro ⟨p, q, e, hs⟩; exact ⟨p, q, e, Or.inr hs⟩
        · rintro ⟨p, q, e, hs | hs⟩
          · exact absurd ⟨p, q, e, hs⟩ hr
          · exact ⟨p, q, e, hs⟩
      · rw [if_neg h2, if_neg (fun (x : WholeTail 3 s ∧ WholeTail 2 s) => h2 x.2)]
  · rw [if_neg h3, if_neg (fun (x : WholeTail 3 s ∧ WholeTail 2 s) => h3 x.1)]
    rfl

theorem canBeGuid_ne_ub (s : Bytes) : Field.canBeGuid s ≠ .ub := by
  unfold Field.canBeGuid
  have h := ends_ne_ub s [82, 69, 70]
  cases hr : Unicode.endsWithIC s [82, 69, 70] with
  | ub => exact absurd hr h
  | throw => simp
  | ok b =>
    cases b with
    | true => simp
    | false => simpa using ends_ne_ub s [73, 68]

/-! ## Numbers -/

theorem splitSign_minus (t : Str) : splitSign ('-' :: t) = (true, t) := rfl

theorem splitSign_other {c : Char} (t : Str) (h : c ≠ '-') : splitSign (c :: t) = (false, c :: t) := by
  unfold splitSign
  split
  · rename_i e; simp at e; exact absurd e.1 h
  · rfl

theorem isDigit_iff (c : Char) : Tree.isDigit c = true ↔ '0' ≤ c ∧ c ≤ '9' := by
  unfold Tree.isDigit; exact decide_eq_true_iff

theorem digitsVal_append (ds rest : Str) : ∀ a, (∀ c ∈ ds, '0' ≤ c ∧ c ≤ '9') →
    (∀ c, rest.head? = some c → ¬ ('0' ≤ c ∧ c ≤ '9')) →
    digitsVal a (ds ++ rest) = ds.foldl (fun a c => a * 10 + (c.toNat - 48)) a := by
  induction ds with
  | nil =>
    intro a _ hr
    cases rest with
    | nil => rfl
    | cons c r =>
      have : Tree.isDigit c = false := by
        rw [Bool.eq_false_iff]; intro e; exact hr c rfl ((isDigit_iff c).mp e)
      show (if Tree.isDigit c then _ else a) = a
      rw [this]; rfl
  | cons c ds ih =>
    intro a hd hr
    have hc : Tree.isDigit c = true := (isDigit_iff c).mpr (hd c (List.mem_cons_self ..))
    rw [List.cons_append, digitsVal, if_pos hc, ih _ (fun x hx => hd x (List.mem_cons_of_mem _ hx)) hr, List.foldl_cons]
    rfl

theorem digits_split (t : Str) : ∃ ds rest, t = ds ++ rest ∧ (∀ c ∈ ds, '0' ≤ c ∧ c ≤ '9') ∧
    (∀ c, rest.head? = some c → ¬ ('0' ≤ c ∧ c ≤ '9')) := by
  refine ⟨t.takeWhile Tree.isDigit, t.dropWhile Tree.isDigit, (List.takeWhile_append_dropWhile).symm, ?_, ?_⟩
  · intro c hc
    have := List.all_takeWhile (p := Tree.isDigit) (l := t)
    rw [List.all_eq_true] at this
    exact (isDigit_iff c).mp (this c hc)
  · intro c hc h
    have := List.head?_dropWhile_not Tree.isDigit t
    rw [hc] at this
    simp [(isDigit_iff c).mpr h] at this

theorem minus_no_digit : ¬ ('0' ≤ '-' ∧ '-' ≤ '9') := by decide

theorem stoi_iff (s : Str) (z : Int) : stoi s = .ok z ↔ Number s z := by
  constructor
  · intro h
    unfold stoi at h
    dsimp only at h
    split at h
    · cases h
    · rename_i hd
      generalize hz : (if (splitSign s).1 = true then -(digitsVal 0 (splitSign s).2 : Int) else (digitsVal 0 (splitSign s).2 : Int)) = z' at h
      by_cases hb : -2147483648 ≤ z' ∧ z' < 2147483648
      · rw [if_pos hb] at h
        simp only [Outcome.ok.injEq] at h
        obtain ⟨ds, rest, e, h1, h2⟩ := digits_split (splitSign s).2
        have hne : ds ≠ [] := by
          rintro rfl
          rw [List.nil_append] at e
          rw [e] at hd
          cases rest with
          | nil => exact hd rfl
          | cons c r =>
            apply hd
            simp only [List.head?_cons, Option.map_some, Option.getD_some]
            rw [Bool.eq_false_iff]; intro x; exact h2 c rfl ((isDigit_iff c).mp x)
        have hv := digitsVal_append ds rest 0 h1 h2
        rw [e, hv] at hz
        refine ⟨(splitSign s).1, ds, rest, ?_, hne, h1, h2, ?_, ?_⟩
        · rw [List.append_assoc, ← e]
          cases s with
          | nil => rfl
          | cons c s =>
            by_cases hc : c = '-'
            · subst hc; rfl
            · rw [splitSign_other s hc]; rfl
        · rw [← h, ← hz]; split <;> simp
        · rw [h] at hb; exact hb
      · rw [if_neg hb] at h; simp at h
  · rintro ⟨neg, ds, rest, rfl, hne, h1, h2, rfl, hb⟩
    have hs : splitSign ((if neg then ['-'] else []) ++ ds ++ rest) = (neg, ds ++ rest) := by
      cases neg with
      | true => rfl
      | false =>
        cases ds with
        | nil => exact absurd rfl hne
        | cons c ds =>
          exact splitSign_other _ (by rintro rfl; exact minus_no_digit (h1 '-' (List.mem_cons_self ..)))
    unfold stoi
    rw [hs]
    dsimp only
    rw [digitsVal_append ds rest 0 h1 h2]
    rw [if_neg (by
      cases ds with
      | nil => exact absurd rfl hne
      | cons c ds =>
        simp only [List.cons_append, List.head?_cons, Option.map_some, Option.getD_some]
        rw [(isDigit_iff c).mpr (h1 c (List.mem_cons_self ..))]; simp)]
    have e : (if neg = true then -((ds.foldl (fun a c => a * 10 + (c.toNat - 48)) 0 : Nat) : Int) else (ds.foldl (fun a c => a * 10 + (c.toNat - 48)) 0 : Nat))
        = (if neg then -1 else 1) * ((ds.foldl (fun a c => a * 10 + (c.toNat - 48)) 0 : Nat) : Int) := by
      cases neg <;> simp
    rw [e, if_pos hb]

theorem stoi_ne_ub (s : Str) : stoi s ≠ .ub := by
  unfold stoi
  dsimp only
  split
  · simp
  · generalize (if (splitSign s).1 = true then -(digitsVal 0 (splitSign s).2 : Int) else (digitsVal 0 (splitSign s).2 : Int)) = z
    by_cases hz : -2147483648 ≤ z ∧ z < 2147483648
    · rw [if_pos hz]; simp
    · rw [if_neg hz]; simp

end Verif.TableOpen
