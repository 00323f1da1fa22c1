import Verif.Depot.OldTheorems
import Verif.Depot.FileExamples

/-! # Examples: the file a version of a depot of the old format is saved into (C90) -/

namespace Verif.Depot.File.Examples
open Verif Verif.Container Verif.Unicode Verif.Unicode.Spec Verif.Depot.File Verif.Depot.File.Spec Verif.Depot.File.Theorems
open Verif.Config.Whole.Spec (codes SameName)

/-- The depot of the other example, with a configuration of the old format, and external data called like the object. -/
def oldSource : Source := { exSource with
  objData := fun b r => if b then .ok (some [UInt8.ofNat r.tag, 1]) else .ok (some [0])
  extName := fun _ => "01010101-0101-0101-0101-010101010101".toList }

def oldJob : Job := { exJob with S := oldSource }
def oldRow : Row := { exRow with cver := [0, 16, 0, 3] }
def oldDepot : Depot := { exDepot with rows := [oldRow] }
def oldOut : List (Hist × List Ext) := [(⟨1, 2, false, true, 11⟩, [⟨1, 2, [77], true, 20⟩])]

def oldName : Str := "01010101-0101-0101-0101-010101010101".toList

theorem old_parts : (∀ a v b, Object oldJob a v b ↔ (a, v, b) = (oldName, List.replicate 16 11, [11, 1])) ∧
    ∀ a v b, External oldJob a v b ↔ (a, v, b) = (oldName, List.replicate 16 20, [20, 2]) := by
  have h1 : exportDepot id 2 exHist exExts = .ok oldOut := by decide
  obtain ⟨out', h3, _, h4, h5⟩ := Depot.Theorems.export_correct id 2 exHist exExts (by decide) ex_hist ex_exts
  rw [h1] at h3
  cases h3
  have o1 : objectsOf oldJob oldOut = [(oldName, List.replicate 16 11, [11, 1])] := by decide +kernel
  have o2 : extsOf oldJob oldOut = [(oldName, List.replicate 16 20, [20, 2])] := by decide +kernel
  refine ⟨fun a v b => ?_, fun a v b => ?_⟩
  · rw [← object_iff (j := oldJob) h4, o1, List.mem_singleton]
  · rw [← external_iff (j := oldJob) h4 h5, o2, List.mem_singleton]

theorem old_apart : ApartOld oldJob := by
  refine ⟨fun a v b h a' v' b' h' _ => ?_, fun a v b h => ?_⟩
  · rw [old_parts.1] at h h'
    rw [← h'] at h
    simpa using h
  · rw [old_parts.2] at h
    simp only [Prod.mk.injEq] at h
    obtain ⟨rfl, rfl, rfl⟩ := h
    refine ⟨by decide, by decide, by unfold SameName; decide +kernel, fun a' v' b' h' _ => ?_⟩
    rw [old_parts.2] at h'
    simp only [Prod.mk.injEq] at h'
    exact ⟨h'.1.symm, h'.2.1.symm, h'.2.2.symm⟩

theorem old_readable : ReadableOld oldJob :=
  ⟨fun _ _ => ⟨rfl, by simp [oldJob, exJob]⟩, fun _ _ _ _ => ⟨rfl, by simp [oldJob, exJob]⟩⟩

theorem old_roots (roots : List (Str × Str)) (hs : Sorted roots) (h : ∀ p, p ∈ roots ↔ Rooted oldJob p) :
    roots = [(oldName, Guid.asMS (List.replicate 16 11))] := by
  refine sorted_unique _ _ hs (by simp [Sorted]) (fun p => ?_)
  rw [h, List.mem_singleton]
  constructor
  · intro h
    cases h with
    | object h =>
      rw [old_parts.1] at h
      simp only [Prod.mk.injEq] at h
      obtain ⟨rfl, rfl, rfl⟩ := h
      rfl
  · rintro rfl
    exact .object (b := [11, 1]) ((old_parts.1 _ _ _).2 rfl)

/-- The file `root`. -/
def oldRoot : Bytes := [0xEF, 0xBB, 0xBF] ++ utf8Text (codes (Tree.outtext (.list [rootTreeOld (List.replicate 16 7) [(oldName, Guid.asMS (List.replicate 16 11))]])))

theorem old_room (l roots : List (Str × Str)) (ms fs : List (Str × Bytes)) (hr : Sorted roots) (hrm : ∀ p, p ∈ roots ↔ Rooted oldJob p)
    (hm : Sorted ms) (hmm : ∀ p, p ∈ ms ↔ HoldsMeta oldJob (List.replicate 16 7) roots p) (hf : Sorted fs)
    (hfm : ∀ p, p ∈ fs ↔ HoldsOld oldJob 16 3 l p) :
    Spec.room ms < 2 ^ 31 - 1 ∧ ∀ b, b.length ≤ Spec.room ms → Spec.room (("metadata".toList, oldJob.S.deflate b) :: fs) < 2 ^ 31 - 1 := by
  have hro := old_roots roots hr hrm
  subst hro
  have hms : ms = [(oldName, [11, 1]), ("root".toList, oldRoot)] := by
    refine sorted_unique _ _ hm ?_ (fun p => ?_)
    · have : [oldName, "root".toList].Pairwise (fun p q => codes p < codes q) := by decide +kernel
      unfold Sorted
      simpa [List.pairwise_cons] using this
    · rw [hmm]
      simp only [List.mem_cons, List.not_mem_nil, or_false]
      constructor
      · intro h
        cases h with
        | object h =>
          rw [old_parts.1] at h
          simp only [Prod.mk.injEq] at h
          obtain ⟨rfl, rfl, rfl⟩ := h
          exact Or.inl rfl
        | root => exact Or.inr rfl
      · rintro (rfl | rfl)
        · exact .object ((old_parts.1 _ _ _).2 rfl)
        · exact .root
  have hfs : fs = [(oldName, [20, 2]), ("version".toList, packedText oldSource (versionTree 16 3)), ("versions".toList, packedText oldSource (versionsTree l))] := by
    refine sorted_unique _ _ hf ?_ (fun p => ?_)
    · have : [oldName, "version".toList, "versions".toList].Pairwise (fun p q => codes p < codes q) := by decide +kernel
      unfold Sorted
      simpa [List.pairwise_cons] using this
    · rw [hfm]
      simp only [List.mem_cons, List.not_mem_nil, or_false]
      constructor
      · intro h
        cases h with
        | external h =>
          rw [old_parts.2] at h
          simp only [Prod.mk.injEq] at h
          obtain ⟨rfl, rfl, rfl⟩ := h
          exact Or.inl rfl
        | version => exact Or.inr (Or.inl rfl)
        | versions => exact Or.inr (Or.inr rfl)
      · rintro (rfl | rfl | rfl)
        · exact .external ((old_parts.2 _ _ _).2 rfl)
        · exact .version
        · exact .versions
  have hp : ∀ t, (packedText oldSource t).length = 4 := packed_len
  have hd : ∀ b, (oldJob.S.deflate b).length ≤ 4 := by
    intro b
    show (1 :: b.take 3).length ≤ 4
    rw [List.length_cons, List.length_take]
    omega
  rw [hms, hfs]
  refine ⟨by decide +kernel, fun b _ => ?_⟩
  have hb := hd b
  have hu : (utf16Text (codes "metadata".toList)).length = 16 ∧ (utf16Text (codes oldName)).length = 72 ∧
    (utf16Text (codes "version".toList)).length = 14 ∧ (utf16Text (codes "versions".toList)).length = 16 := by decide +kernel
  unfold Spec.room
  simp only [List.map_cons, List.map_nil, List.sum_cons, List.sum_nil, hp, hu, List.length_cons, List.length_nil]
  omega

theorem old_nosnap : ¬ ∃ b, Snapshot exCache (List.replicate 16 7) 2 oldRow b := by
  rintro ⟨b, h⟩
  rw [← snapshot_iff exCache _ 2 oldRow (by decide) (by decide)] at h
  have : (snapshot exCache (List.replicate 16 7) 2 oldRow).2 = false := by decide +kernel
  rw [h] at this
  cases this

/-- The theorem applies, whatever the file held. -/
example (old : Option Bytes) := saved_old_depot_partial exCache LAST 5 (Nat.le_refl _) (by decide) oldDepot (-1) old oldJob rfl rfl .ver5
  (List.replicate 16 7) oldRow 16 3 (by decide +kernel) (by decide) (by decide) old_nosnap (by decide) (by decide) (by decide) ex_hist ex_exts
  old_readable old_apart (by intro b; simp [oldJob, oldSource, exSource])
  (fun l roots ms fs _ _ h3 h4 h5 h6 h7 h8 => old_room l roots ms fs h3 h4 h5 h6 h7 h8)

end Verif.Depot.File.Examples
