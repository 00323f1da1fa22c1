import Verif.Index.DumpTheorems
import Verif.Index.TreeFindings

/-! # What the text of an index tells, and where writing it goes wrong (C105) -/

namespace Verif.Index
open Verif Blob

theorem hexByte_inj : ∀ a b : UInt8, hexByte a = hexByte b → a = b := by
  intro a b h
  have ha := a.toNat_lt
  have hb := b.toNat_lt
  have key : ∀ n m : Nat, n < 16 → m < 16 → hexDigit n = hexDigit m → n = m := by
    have : ∀ n : Fin 16, ∀ m : Fin 16, hexDigit n.val = hexDigit m.val → n = m := by decide +kernel
    intro n m hn hm h
    exact congrArg Fin.val (this ⟨n, hn⟩ ⟨m, hm⟩ h)
  unfold hexByte at h
  injection h with h1 h2
  injection h2 with h2 _
  have e1 := key _ _ (by omega) (by omega) h1
  have e2 := key _ _ (by omega) (by omega) h2
  apply UInt8.toNat_inj.mp
  omega

theorem hexBytes_inj : ∀ (k k' : Bytes) (r r' : Bytes), k.length = k'.length → k.flatMap hexByte ++ r = k'.flatMap hexByte ++ r' → k = k' ∧ r = r' := by
  intro k
  induction k with
  | nil =>
    intro k' r r' hl h
    cases k' with
    | nil => exact ⟨rfl, h⟩
    | cons _ _ => cases hl
  | cons a k ih =>
    intro k' r r' hl h
    cases k' with
    | nil => cases hl
    | cons b k' =>
      rw [List.flatMap_cons, List.flatMap_cons, List.append_assoc, List.append_assoc] at h
      obtain ⟨h1, h2⟩ := List.append_inj h rfl
      obtain ⟨h3, h4⟩ := ih k' r r' (by simpa using hl) h2
      exact ⟨by rw [hexByte_inj a b h1, h3], h4⟩

/-- **C105.** The line of an entry tells its key, and of its depth and its record number the low
eight bits: two entries with keys of the same length have the same line exactly when these agree. -/
theorem entry_line_tells (l l' : Nat) (e e' : Entry) (hl : e.key.length = e'.key.length) :
    (Spec.Item.entry l e).text = (Spec.Item.entry l' e').text ↔ l % 256 = l' % 256 ∧ e.key = e'.key ∧ e.num % 256 = e'.num % 256 := by
  have low : ∀ n m : Nat, UInt8.ofNat n = UInt8.ofNat m ↔ n % 256 = m % 256 := by
    intro n m
    rw [← UInt8.toNat_inj, UInt8.toNat_ofNat', UInt8.toNat_ofNat']
  rw [← entry_text, ← entry_text]
  unfold entryLine chr
  constructor
  · intro h
    simp only [List.append_assoc] at h
    have h1 := (List.append_inj h rfl).2
    obtain ⟨h2, h3⟩ := List.append_inj h1 rfl
    have h4 := (List.append_inj h3 rfl).2
    obtain ⟨h5, h6⟩ := hexBytes_inj _ _ _ _ hl h4
    have h7 := (List.append_inj h6 rfl).2
    have h8 := (List.append_inj h7 rfl).1
    injection h2 with h2 _
    injection h8 with h8 _
    exact ⟨(low _ _).mp h2, h5, (low _ _).mp h8⟩
  · rintro ⟨h1, h2, h3⟩
    rw [(low _ _).mpr h1, h2, (low _ _).mpr h3]

example : (Spec.Item.entry 1 ⟨258, [5, 9]⟩).text = (Spec.Item.entry 1 ⟨2, [5, 9]⟩).text :=
  (entry_line_tells 1 1 ⟨258, [5, 9]⟩ ⟨2, [5, 9]⟩ rfl).mpr ⟨rfl, rfl, rfl⟩

/-- An index of one leaf with one entry. -/
def oneFile (num : Nat) : Bytes := firstPage 1 2 ++ setHdr (packed [⟨num, [5, 9]⟩]) 2 lastPage lastPage

/-- C105, a disagreement: numbers are written as one byte each, so indexes whose entries point to different
records give the same text. -/
theorem dump_loses_numbers : walk ⟨oneFile 516, 64, true, 16, 1000⟩ 3 = .ok (some [516]) ∧ walk ⟨oneFile 772, 64, true, 16, 1000⟩ 3 = .ok (some [772]) ∧
    ∃ t, dump ⟨oneFile 516, 64, true, 16, 1000⟩ 3 = .ok (some t) ∧ dump ⟨oneFile 772, 64, true, 16, 1000⟩ 3 = .ok (some t) := by
  refine ⟨by decide +kernel, by decide +kernel, (match dump ⟨oneFile 516, 64, true, 16, 1000⟩ 3 with
    | .ok (some t) => t
    | _ => []), by decide +kernel, by decide +kernel⟩

/-- C105, a disagreement: a branch page that names itself as the page below its first entry is
written without end. -/
theorem dump_cycle_never_ends (b : Base) (root : Nat) (page : Bytes) (h : Bytes) (l n : Nat) (hs : b.start ≠ 0)
    (h1 : getData b.file b.start 8 = .ok h) (h2 : rd h 0 4 = .ok root) (h3 : rd h 4 2 = .ok l)
    (h4 : getData b.file (b.offset root) b.pagesize = .ok page) (h5 : rd page 2 2 = .ok (n + 1)) (h6 : rd page 0 2 = .ok 1)
    (h7 : ∃ key num, peek page 12 (keyLength l) = .ok key ∧ rdBe page ((12 + keyLength l : Nat) : Int) = .ok num)
    (h8 : rdBe page ((12 + keyLength l + 4 : Nat) : Int) = .ok root) : ∀ fuel, dump b fuel = .ok none := by
  intro fuel
  obtain ⟨key, num, k1, k2⟩ := h7
  have main : ∀ fuel level, dumpAt b (keyLength l) fuel level (b.offset root) = .ok none := by
    intro fuel
    induction fuel with
    | zero => intro _; rfl
    | succ f ih =>
      intro level
      unfold dumpAt
      rw [h4, Outcome.ok_bind, h5, Outcome.ok_bind, if_neg (by simp), h6, Outcome.ok_bind, if_neg (by decide)]
      unfold dumpRefs
      rw [k1, k2, h8]
      simp only [Outcome.ok_bind]
      rw [ih]
      rfl
  unfold dump
  rw [if_neg hs, h1, Outcome.ok_bind, h2, Outcome.ok_bind, h3, Outcome.ok_bind, main]
  rfl

/-- `dump_cycle_never_ends` applies to a file. -/
example : ∀ fuel, dump ⟨firstPage 1 2 ++ branch [(⟨4, [5, 9]⟩, 1)], 64, true, 16, 10⟩ fuel = .ok none :=
  dump_cycle_never_ends ⟨firstPage 1 2 ++ branch [(⟨4, [5, 9]⟩, 1)], 64, true, 16, 10⟩ 1 (branch [(⟨4, [5, 9]⟩, 1)])
    (le 4 1 ++ le 2 2 ++ [0, 0]) 2 0 (by decide)
    (by decide +kernel) (by decide +kernel) (by decide +kernel) (by decide +kernel) (by decide +kernel) (by decide +kernel)
    ⟨[5, 9], 4, by decide +kernel, by decide +kernel⟩ (by decide +kernel)

/-- `dump_shows_index` applies to a root with two leaves. -/
example : ∃ (doc : List Spec.Item) (fuel : Nat), (∀ k, fuel ≤ k → dump ⟨smallFile, 64, true, 16, 10⟩ k =
      .ok (some (ascii "Index length " ++ ascii (toString 2) ++ ascii "\r\n" ++ doc.flatMap Spec.Item.text))) ∧
    doc.filterMap Spec.Item.entryOf = [(1, ⟨1, [5, 6]⟩), (1, ⟨4, [5, 9]⟩), (1, ⟨2, [7, 0]⟩)] ∧
    (doc.filterMap Spec.Item.refOf).filter (fun x => x.1 == 0) = [(0, ⟨4, [5, 9]⟩), (0, ⟨2, [7, 0]⟩)] := by
  obtain ⟨doc, fuel, h1, h2, h3⟩ := dump_shows_index smallConf ⟨smallFile, 64, true, 16, 10⟩ 1 _ _ small_tree rfl rfl small_header
  exact ⟨doc, fuel, h1, h2, h3 0 _ rfl⟩

/-- An index that has not been made gives an empty text. -/
theorem dump_no_index (b : Base) (h : b.start = 0) (fuel : Nat) : dump b fuel = .ok (some []) := if_pos h

/-- C105, a disagreement: a page whose masks do not agree with the length of the keys is copied
beyond the buffer. -/
theorem dump_bad_masks_ub : dump ⟨firstPage 1 0 ++ setHdr (packed [⟨4, [5, 8]⟩, ⟨6, [5, 9]⟩]) 2 lastPage lastPage, 64, true, 16, 10⟩ 3 = .ub := by
  decide +kernel

end Verif.Index
