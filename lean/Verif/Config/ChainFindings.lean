import Verif.Config.ChainTheorems
import Verif.Config.StoredFindings

/-! # C107: an example, and names that are confused -/

namespace Verif.Config.Chain
open Verif Verif.Config Verif.Unicode.Spec

/-- A block of blobs. -/
def exBlock (d : Bytes) : Bytes := [0, 0, 0, 0, UInt8.ofNat d.length, 0] ++ d ++ List.replicate (250 - d.length) 0

def exBlobs : Bytes := (List.replicate 256 0) ++ exBlock [1, 2, 3, 4] ++ exBlock [5, 6] ++ exBlock [9]

def exState : Blob.Spec.State := ⟨[], [⟨1, [1], [1, 2, 3, 4]⟩, ⟨2, [2], [5, 6]⟩, ⟨3, [3], [9]⟩]⟩

theorem ex_blobs : Blob.Spec.Represents exBlobs exState := by
  refine ⟨[List.replicate 256 0, exBlock [1, 2, 3, 4], exBlock [5, 6], exBlock [9]], by decide +kernel, by decide +kernel, by decide,
    ⟨_, rfl, by decide +kernel⟩, rfl, ?_, by decide⟩
  intro b hb
  simp only [exState, List.mem_cons, List.not_mem_nil, or_false] at hb
  rcases hb with rfl | rfl | rfl
  · exact ⟨by decide, ⟨rfl, by decide, _, 0, rfl, by decide +kernel, rfl⟩, [1, 2, 3, 4], [], rfl, ⟨_, rfl, by decide +kernel, by decide, by decide +kernel⟩, rfl⟩
  · exact ⟨by decide, ⟨rfl, by decide, _, 0, rfl, by decide +kernel, rfl⟩, [5, 6], [], rfl, ⟨_, rfl, by decide +kernel, by decide, by decide +kernel⟩, rfl⟩
  · exact ⟨by decide, ⟨rfl, by decide, _, 0, rfl, by decide +kernel, rfl⟩, [9], [], rfl, ⟨_, rfl, by decide +kernel, by decide, by decide +kernel⟩, rfl⟩

def exA : Spec.CFile := ⟨[0x61, 0x42], [((1, 4), [1, 2, 3, 4]), ((2, 2), [5, 6])]⟩
def exC : Spec.CFile := ⟨[0x63], [((3, 1), [9])]⟩

def exAround : Around := ⟨⟨false, false⟩, exLib.clock, fun b => (b, true), fun _ => .throw, fun f => f.val, 5⟩

/-- The table of C106 with its blobs: the hypotheses are met, and the container has the contents of both files. -/
example (fuel : Nat) (hf : Container.LAST ≤ fuel) (old : Option Bytes) :
    ∃ d k, exportConfig exAround fuel (some (exCols, exTable, some exBlobs)) old = .ok (some (true, some d)) ∧
      Container.openCatalog fuel d = .ok (some (.container k)) ∧ k.ents.length = 2 ∧
      Container.content Container.plainCodec fuel k (utf8Text [0x41, 0x62]) = .ok (some (some [1, 2, 3, 4, 5, 6])) := by
  have hnames : ∀ f ∈ [exA, exC], Unicode.Spec.Name f.name ∧ f.parts ≠ [] := by
    unfold Unicode.Spec.Name Unicode.Spec.Scalar
    decide
  obtain ⟨d, k, h1, h2, h3, h4, _⟩ := config_exported_partial exAround fuel hf exCols ex_named ex_columns exTable exRows
    (by unfold Record.Spec.Whole; decide +kernel) ex_rows none [exA, exC] (by unfold Config.Spec.Says; decide +kernel) hnames
    (by
      rw [show (none : Option Spec.CFile).toList ++ [exA, exC] = [exA, exC] from rfl]
      simp only [List.pairwise_cons, List.mem_singleton, List.not_mem_nil, false_implies, implies_true, List.Pairwise.nil, and_true, forall_eq]
      rw [same_iff]
      decide)
    (by
      intro r hr hc
      simp only [exRows, List.mem_cons, List.not_mem_nil, or_false] at hr
      rcases hr with rfl | rfl | rfl | rfl | rfl
      · exact ⟨[0x61, 0x62], by unfold Unicode.Spec.Name Unicode.Spec.Scalar; decide, by decide, .inl (.inl ⟨by decide, by decide +kernel⟩)⟩
      · exact absurd hc.1 (by decide)
      · exact ⟨[0x41, 0x42], by unfold Unicode.Spec.Name Unicode.Spec.Scalar; decide, by decide, .inl (.inl ⟨by decide, by decide +kernel⟩)⟩
      · exact ⟨[0x63], by unfold Unicode.Spec.Name Unicode.Spec.Scalar; decide, by decide, .inl (.inl ⟨by decide, by decide +kernel⟩)⟩
      · exact absurd rfl hc.2.1)
    exBlobs exState ex_blobs (by decide +kernel) (by
      intro f hf p hp
      simp only [Option.toList_none, List.nil_append, List.mem_cons, List.not_mem_nil, or_false] at hf
      rcases hf with rfl | rfl
      · simp only [exA, List.mem_cons, List.not_mem_nil, or_false] at hp
        rcases hp with rfl | rfl
        · exact ⟨⟨1, [1], [1, 2, 3, 4]⟩, by simp [exState], rfl, rfl, rfl⟩
        · exact ⟨⟨2, [2], [5, 6]⟩, by simp [exState], rfl, rfl, rfl⟩
      · simp only [exC, List.mem_cons, List.not_mem_nil, or_false] at hp
        subst hp
        exact ⟨⟨3, [3], [9]⟩, by simp [exState], rfl, rfl, rfl⟩)
    (by intro f hf; cases hf) (by
      intro f hf
      rw [same_iff]
      revert f
      decide) (by unfold Spec.room; decide +kernel) old
  exact ⟨d, k, h1, h2, h3, h4 exA (by simp) _ (by unfold Unicode.Spec.Name Unicode.Spec.Scalar; decide) (by rw [same_iff]; decide)⟩

/-- The order of keys is that of their bytes. -/
example : (byKey [(['b'], 1), (['a', '.'], 2), (['a'], 3)]).map Prod.snd = [3, 2, 1] := by decide

/-- Without a table nothing is done. -/
theorem no_table_no_export (a : Around) (fuel : Nat) (old : Option Bytes) : exportConfig a fuel none old = .ok (some (false, old)) := rfl

/-- **C107, counterexample.** A name that ends with a point stands for the name without it. -/
theorem last_point_lost {cps : List Nat} (hm : ¬ "_dynupdate_".toList <:+: Field.Spec.utf8Str cps)
    (ids : List Bytes) : variant lowerStr ids (Field.Spec.utf8Str (cps ++ [46])) = .ok (Field.Spec.utf8Str cps, -1) := by
  have hs : Field.Spec.utf8Str (cps ++ [46]) = Field.Spec.utf8Str cps ++ '.' :: [] := by
    unfold Field.Spec.utf8Str utf8Text
    rw [List.flatMap_append, List.map_append]
    rfl
  rw [hs]
  unfold variant
  rw [splitExt_dot _ _ (by simp)]
  simp only
  rw [splitUpdate, rfind_mark hm]
  simp only
  rw [if_neg (show ¬ lowerStr [] = lowerStr "new".toList by decide +kernel), Outcome.ok_bind]
  simp

/-- **C107, counterexample.** So of two files, one named like the other but for a point at its end, only one is in the configuration. -/
theorem point_merged (a : Around) (io : Io) :
    openConfig a io [(['a'], ⟨['a'], [(1, 4)], 0, 0⟩), (['a', '.'], ⟨['a', '.'], [(2, 2)], 0, 0⟩)] =
      .ok [(['a'], ⟨['a'], ⟨['a'], [(1, 4)], 0, 0⟩, -1⟩)] := by
  have h : guidsOf lowerStr (treeOf a io) [(['a'], ⟨['a'], [(1, 4)], 0, 0⟩), (['a', '.'], ⟨['a', '.'], [(2, 2)], 0, 0⟩)] "DynamicallyUpdated".toList = .ok [] := by
    unfold guidsOf
    rw [show getFile lowerStr [(['a'], (⟨['a'], [(1, 4)], 0, 0⟩ : TFile)), (['a', '.'], ⟨['a', '.'], [(2, 2)], 0, 0⟩)] "DynamicallyUpdated".toList = none by decide +kernel]
  unfold openConfig
  rw [h, Outcome.ok_bind]
  decide +kernel

end Verif.Config.Chain
