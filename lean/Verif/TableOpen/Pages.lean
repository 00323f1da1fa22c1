import Verif.Object.ReadTheorems
import Verif.Blob.Model

/-!
# The files of a database behave as opening a table assumes (C91)

`Base.file` gives the contents of an internal file, and `get_data` on it is `Blob.getData`. Here this is proved of the pages.
-/

namespace Verif.TableOpen
open Verif Object

theorem holds_slice {pages : List Bytes} {P : Nat} {s : Object.Spec.Shape} {h : Nat} {f : Bytes}
    (hf : Object.Spec.Holds pages P s h 0 f) (a n : Nat) (hin : a + n ≤ f.length) :
    Object.Spec.Holds pages P s h a ((f.drop a).take n) := by
  intro i hi
  rw [List.length_take, List.length_drop] at hi
  have := hf (a + i) (by omega)
  rw [Nat.zero_add] at this
  rw [this]
  simp

theorem slice_length {f : Bytes} {a n : Nat} (hin : a + n ≤ f.length) : ((f.drop a).take n).length = n := by
  rw [List.length_take, List.length_drop]; omega

/-- **C91, files of format 8.0.** Reading a part of an opened file gives that part of its contents, or an exception behind its end. -/
theorem get_data_80 (pages : List Bytes) (P h : Nat) (o : Obj) (hne : h ≠ 1) (ho : init pages P false h = .ok o) (f : Bytes)
    (hlen : o.len = f.length) (hf : Object.Spec.Holds pages 4096 Object.Spec.file80 h 0 f) (a n : Nat) (hn : n ≠ 0) (h64 : a + n < 2 ^ 64) :
    getPart pages P o a n = Blob.getData f a n := by
  obtain ⟨_, _, hk, hd, _⟩ := init_80 pages P h o hne ho
  unfold Blob.getData
  split
  · rename_i hin
    have := slice_length hin
    have hr := read_range_80 pages P h o hne ho a ((f.drop a).take n) (by intro e; rw [e] at this; exact hn this.symm) (by omega)
      (holds_slice hf a n hin)
    rwa [this] at hr
  · exact read_outside_refused_partial pages P o a n (by rw [hk]; simp) hd h64 (by rw [getLen, if_neg (by rw [hk]; simp)]; omega)

/-- **C91, files of format 8.3.8** with one level or with two. -/
theorem get_data_838 (pages : List Bytes) (P h : Nat) (o : Obj) (hne : h ≠ 1) (ho : init pages P true h = .ok o) (hP : 24 ≤ P)
    (hP2 : P ≤ 65536) (hpl : ∀ p, pages[h]? = some p → p.length = P) (f : Bytes) (hlen : o.len = f.length) (hl64 : f.length < 2 ^ 64)
    (hf : Object.Spec.Holds pages P (if o.fatlevel = 0 then Object.Spec.file838one else Object.Spec.file838two P) h 0 f)
    (a n : Nat) (hn : n ≠ 0) (h64 : a + n < 2 ^ 64) : getPart pages P o a n = Blob.getData f a n := by
  obtain ⟨_, _, hk, hd, _⟩ := init_838 pages P h o hne ho
  unfold Blob.getData
  split
  · rename_i hin
    have hl := slice_length hin
    have hs := holds_slice hf a n hin
    by_cases hl0 : o.fatlevel = 0
    · rw [if_pos hl0] at hs
      have hr := read_range_838_one pages P h o hne ho hl0 hP hP2 hpl (by omega) a _ (by omega) hs
      rwa [hl] at hr
    · rw [if_neg hl0] at hs
      have hr := read_range_838_two pages P h o hne ho hl0 hP hP2 hpl (by omega) a _ (by intro e; rw [e] at hl; exact hn hl.symm) (by omega) hs
      rwa [hl] at hr
  · exact read_outside_refused_partial pages P o a n (by rw [hk]; simp) hd h64 (by rw [getLen, if_neg (by rw [hk]; simp)]; omega)

end Verif.TableOpen
