import Verif.Depot.FileTheorems

/-! # Examples: the file a version of a depot is saved into (C90) -/

namespace Verif.Depot.File.Examples
open Verif Verif.Container Verif.Unicode Verif.Unicode.Spec Verif.Depot.File Verif.Depot.File.Spec Verif.Depot.File.Theorems
open Verif.Config.Whole.Spec (codes SameName)

/-- An object with two versions and external data, one that is removed in version 2, and one that comes in version 3. -/
def exHist : List Hist := [⟨1, 1, false, true, 10⟩, ⟨1, 2, false, true, 11⟩, ⟨2, 1, false, true, 12⟩, ⟨2, 2, true, false, 13⟩, ⟨3, 3, false, true, 14⟩]
def exExts : List Ext := [⟨1, 2, [77], true, 20⟩]

def exSource : Source where
  objId r := List.replicate 16 (UInt8.ofNat r.obj)
  objVer r := List.replicate 16 (UInt8.ofNat r.tag)
  objData _ r := .ok (some [UInt8.ofNat r.tag, 1])
  extName _ := "M".toList
  extVer e := List.replicate 16 (UInt8.ofNat e.tag)
  extData e := .ok (some [UInt8.ofNat e.tag, 2])
  deflate b := 1 :: b.take 3
  gen i := List.replicate 16 (UInt8.ofNat (100 + i))

def exJob : Job := ⟨id, 2, exHist, exExts, exSource, fun r => [UInt8.ofNat r.tag, 1], fun e => [UInt8.ofNat e.tag, 2]⟩

/-- The snapshot of version 2 is damaged. -/
def exCache : Cache := ⟨fun n => if n = "ddb00002.snp".toList then some [9, 9] else none, fun b => (b, false), List.length⟩

def exRow : Row := ⟨Cli.asc "2", maker2, 5, [0, 216, 0, 3]⟩

def exDepot : Depot where
  db := .v8_2_14
  depot := some (Cli.asc "0500000000000000", List.replicate 16 7)
  vernums := [Cli.asc "1", Cli.asc "2", Cli.asc "3"]
  rows := [⟨Cli.asc "3", maker1, 0, [0, 0, 0, 0]⟩, exRow]
  hist := exHist
  exts := exExts

/-- What is to be saved. -/
def exItems : List (Str × Bytes × Bytes) :=
  [("01010101-0101-0101-0101-010101010101".toList, List.replicate 16 11, [11, 1]), ("M".toList, List.replicate 16 20, [20, 2])]

theorem ex_header : header exDepot (-1) = .ok (.ver5, List.replicate 16 7, 2, exRow) := by decide +kernel

theorem ex_out : ∃ out, exportDepot id 2 exHist exExts = .ok out ∧ out.flatMap (itemsOf exJob) = exItems :=
  ⟨[(⟨1, 2, false, true, 11⟩, [⟨1, 2, [77], true, 20⟩])], by decide, by decide +kernel⟩

theorem ex_hist : Depot.Spec.HistOrder exHist := by unfold Depot.Spec.HistOrder; decide
theorem ex_exts : Depot.Spec.ExtOrder exExts := by unfold Depot.Spec.ExtOrder; decide

theorem ex_part (a : Str) (v b : Bytes) : Part exJob a v b ↔ (a, v, b) ∈ exItems := by
  obtain ⟨out, h1, h2⟩ := ex_out
  obtain ⟨out', h3, _, h4, h5⟩ := Depot.Theorems.export_correct id 2 exHist exExts (by decide) ex_hist ex_exts
  rw [h1] at h3
  cases h3
  rw [← part_iff (j := exJob) h4 h5, h2]

theorem ex_apart : Apart exJob := by
  have h : ∀ t ∈ exItems, t.1 ≠ [] ∧ (∀ c ∈ t.1, c.toNat ≠ 0) ∧ (∀ n ∈ fixed, ¬ SameName t.1 n) ∧
      ∀ u ∈ exItems, SameName t.1 u.1 → t = u := by
    unfold SameName
    decide +kernel
  intro a v b hp
  obtain ⟨h1, h2, h3, h4⟩ := h _ ((ex_part a v b).1 hp)
  refine ⟨h1, h2, h3, fun a' v' b' hp' hs => ?_⟩
  have := h4 _ ((ex_part a' v' b').1 hp') hs
  simp only [Prod.mk.injEq] at this
  exact this

theorem ex_readable : Readable exJob :=
  ⟨fun _ _ => ⟨rfl, by simp [exJob]⟩, fun _ _ _ _ => ⟨rfl, by simp [exJob]⟩⟩

theorem ex_nosnap : ¬ ∃ b, Snapshot exCache (List.replicate 16 7) 2 exRow b := by
  rintro ⟨b, h⟩
  rw [← snapshot_iff exCache _ 2 exRow (by decide) (by decide)] at h
  have : (snapshot exCache (List.replicate 16 7) 2 exRow).2 = false := by decide +kernel
  rw [h] at this
  cases this

theorem packed_len (t : Tree.Node) : (packedText exSource t).length = 4 := by
  unfold packedText exSource
  simp

theorem ex_room (l : List (Str × Str)) (fs : List (Str × Bytes)) (hs : Sorted fs)
    (hf : ∀ p, p ∈ fs ↔ Holds exJob 216 3 (List.replicate 16 7) l p) : Spec.room fs < 2 ^ 31 - 1 := by
  have hfs : fs = [("01010101-0101-0101-0101-010101010101".toList, [11, 1]), ("M".toList, [20, 2]),
      ("root".toList, packedText exSource (rootTree (List.replicate 16 7))), ("version".toList, packedText exSource (versionTree 216 3)),
      ("versions".toList, packedText exSource (versionsTree l))] := by
    refine sorted_unique _ _ hs ?_ (fun p => ?_)
    · have : ["01010101-0101-0101-0101-010101010101".toList, "M".toList, "root".toList, "version".toList, "versions".toList].Pairwise
        (fun p q => codes p < codes q) := by decide +kernel
      unfold Sorted
      simpa [List.pairwise_cons] using this
    · rw [hf]
      constructor
      · intro h
        cases h with
        | part h =>
          rw [ex_part] at h
          simp only [exItems, List.mem_cons, List.not_mem_nil, or_false, Prod.mk.injEq] at h
          rcases h with ⟨rfl, rfl, rfl⟩ | ⟨rfl, rfl, rfl⟩
          · exact List.mem_cons_self
          · exact List.mem_cons_of_mem _ List.mem_cons_self
        | root => simp [exJob]
        | version => simp [exJob]
        | versions => simp [exJob]
      · intro h
        simp only [List.mem_cons, List.not_mem_nil, or_false] at h
        rcases h with rfl | rfl | rfl | rfl | rfl
        · exact .part ((ex_part _ _ _).2 (List.mem_cons_self))
        · exact .part ((ex_part _ _ _).2 (List.mem_cons_of_mem _ List.mem_cons_self))
        · exact .root
        · exact .version
        · exact .versions
  rw [hfs]
  unfold Spec.room
  simp only [List.map_cons, List.map_nil, List.sum_cons, List.sum_nil, packed_len, List.length_cons, List.length_nil]
  decide +kernel

/-- The theorem applies, whatever the file held. -/
example (old : Option Bytes) := saved_depot_partial exCache LAST 5 (Nat.le_refl _) (by decide) exDepot (-1) old exJob rfl rfl .ver5
  (List.replicate 16 7) exRow 216 3 ex_header (by decide) (by decide) ex_nosnap (by decide) (by decide) (by decide) ex_hist ex_exts ex_readable
  ex_apart (by intro b; simp [exJob, exSource]) (fun l fs _ _ h3 h4 => ex_room l fs h3 h4)

/-- Contents that cannot be read: the file is lost. -/
example (old : Option Bytes) := missing_data { exSource with extData := fun _ => .ok none } exCache id LAST 5 exDepot (-1) 2 old .ver5
  (List.replicate 16 7) exRow 216 3 ex_header (by decide) (by decide) ex_nosnap (by decide) ex_hist ex_exts (fun _ _ => ⟨_, rfl⟩) (fun _ _ => ⟨_, rfl⟩)
  ⟨1, 2, false, true, 11⟩ ⟨[⟨1, 1, false, true, 10⟩], [⟨2, 1, false, true, 12⟩, ⟨2, 2, true, false, 13⟩, ⟨3, 3, false, true, 14⟩], by decide⟩
  (Or.inr ⟨⟨1, 2, [77], true, 20⟩, ⟨⟨[], [], by decide⟩, ⟨1, 2, [77], true, 20⟩, by decide⟩, rfl⟩)

/-- A snapshot in order. -/
example (old : Option Bytes) : save exSource exCache id LAST 5 { exDepot with rows := [{ exRow with crc := 2 }] } (-1) old = .ok (some [9, 9]) :=
  snapshot_saved _ _ _ _ _ _ _ 2 _ .ver5 (List.replicate 16 7) { exRow with crc := 2 } (by decide +kernel) (by decide) (by decide) [9, 9]
    ⟨by decide, [9, 9], by decide +kernel, by unfold Unpacked; decide, by decide⟩

/-- Versions 1 and 100001 share a snapshot. -/
example : snapName 1 = snapName 100001 ∧ snapName 1 = "ddb00001.snp".toList := by decide +kernel

end Verif.Depot.File.Examples
