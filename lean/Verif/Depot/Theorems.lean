import Verif.Depot.Lemmas

/-! # Theorems about exporting a version of a depot (property C52) -/

namespace Verif.Depot.Theorems
open Verif Verif.Depot Verif.Depot.Spec

/-- An exported version holds, once for each object and in the order of the objects, the newest record up
to that version, unless that is a removal, and with each exactly the external data that belongs to it. -/
theorem export_correct (fold : Bytes → Bytes) (n : Int) (hist : List Hist) (exts : List Ext) (hne : hist ≠ [])
    (ho : HistOrder hist) (he : ExtOrder exts) :
    ∃ out, exportDepot fold n hist exts = .ok out ∧
      (out.map (·.1)).Pairwise (fun a b => a.obj < b.obj) ∧
      (∀ r, r ∈ out.map (·.1) ↔ Newest n hist r) ∧
      ∀ x ∈ out, ∀ e, e ∈ x.2 ↔ Belongs fold n exts x.1 e := by
  obtain ⟨st, h1, h2⟩ := loop_done fold n exts hist [] { exts := exts } (by simpa using ho) (fun h => absurd rfl h)
    (fun _ => rfl) (init_inv fold n exts he)
  refine ⟨st.out, ?_, h2.sorted, by simpa using h2.out_, h2.belongs⟩
  rw [exportDepot, if_neg (by simpa using hne), h1]
  rfl

def sampleHist : List Hist :=
  [⟨3, 1, false, true, 10⟩, ⟨3, 2, false, false, 11⟩, ⟨3, 4, false, true, 12⟩,
   ⟨5, 1, false, true, 13⟩, ⟨5, 3, true, false, 14⟩,
   ⟨8, 2, false, true, 15⟩]

def sampleExts : List Ext :=
  [⟨3, 1, [65], true, 20⟩, ⟨3, 1, [66], true, 21⟩, ⟨5, 1, [65], true, 22⟩, ⟨8, 1, [67], true, 23⟩, ⟨8, 2, [67], false, 24⟩]

example : HistOrder sampleHist ∧ ExtOrder sampleExts := by unfold HistOrder ExtOrder; decide

example : (exportDepot id 3 sampleHist sampleExts) =
    .ok [(⟨3, 1, false, true, 10⟩, [⟨3, 1, [65], true, 20⟩, ⟨3, 1, [66], true, 21⟩]),
      (⟨8, 2, false, true, 15⟩, [⟨8, 1, [67], true, 23⟩])] := by decide

/-- An object whose newest record up to the version is a removal is not exported. -/
theorem removed_absent (fold : Bytes → Bytes) (n : Int) (hist : List Hist) (exts : List Ext)
    (ho : HistOrder hist) (he : ExtOrder exts) (before after : List Hist) (r : Hist) (hr : hist = before ++ r :: after)
    (hv : r.ver ≤ n) (hm : r.removed = true) (hl : ∀ h ∈ after, h.obj = r.obj → h.ver ≤ n → h.removed = false → h.packed = false)
    (out : List (Hist × List Ext)) (hout : exportDepot fold n hist exts = .ok out) : ∀ x ∈ out, x.1.obj ≠ r.obj := by
  obtain ⟨out', h1, _, h2, _⟩ := export_correct fold n hist exts (by rw [hr]; simp) ho he
  rw [hout] at h1
  cases h1
  intro x hx hxo
  obtain ⟨a, b, h3, h4, h5, h6, h7⟩ := (h2 x.1).1 (List.mem_map_of_mem hx)
  rw [hr] at h3
  rcases List.append_eq_append_iff.1 h3 with ⟨c, hc1, hc2⟩ | ⟨c, hc1, hc2⟩
  · cases c with
    | nil =>
      have := (List.cons.inj hc2).1
      rw [← this, hm] at h5; cases h5
    | cons y c =>
      obtain ⟨hy, hc⟩ := List.cons.inj hc2
      have := hl x.1 (by rw [hc]; simp) hxo h4 h5
      rw [h6] at this; cases this
  · cases c with
    | nil =>
      have := (List.cons.inj hc2).1
      rw [this, hm] at h5; cases h5
    | cons y c =>
      obtain ⟨hy, hc⟩ := List.cons.inj hc2
      have := (h7 r (by rw [hc]; simp) hxo.symm hv).1
      rw [hm] at this; cases this

example : ∀ out, exportDepot id 3 sampleHist sampleExts = .ok out → ∀ x ∈ out, x.1.obj ≠ 5 := fun out h =>
  removed_absent id 3 sampleHist sampleExts (by unfold HistOrder; decide) (by unfold ExtOrder; decide)
    (sampleHist.take 4) (sampleHist.drop 5) ⟨5, 3, true, false, 14⟩ rfl (by decide) rfl (by decide) out h

/-- A depot without history makes the export dereference a null pointer. -/
theorem no_history_ub (fold : Bytes → Bytes) (n : Int) (exts : List Ext) : exportDepot fold n [] exts = .ub := rfl

end Verif.Depot.Theorems
