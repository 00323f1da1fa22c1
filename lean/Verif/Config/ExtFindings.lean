import Verif.Config.ExtTheorems
import Verif.Config.ChainFindings

/-! # C112: an example, and what is refused -/

namespace Verif.Config.Ext
open Verif Verif.Config Verif.Unicode.Spec Verif.Config.Chain

/-- A list of one file, `Module`, with the hash `ab`. -/
def exTree : Tree.Node := .mk .list [] [.leaf .number ['1'], .leaf .number ['0'], .mk .list [] (.leaf .number ['1'] :: Config.Spec.pairNodes ("Module".toList, [0xab]))]

def exExt : Around := { exAround with parse := fun b => if b = [9] then .ok exTree else .throw }

def exListing : List Spec.Listed := [⟨"Module".toList.map Char.toNat, [0xab], exA⟩]

/-- The table of C106 with its blobs, as that of an extension: the file `c` is the list, the file of two parts, `AB`, is stored under its hash. -/
theorem ex_given : Spec.Given exExt exCols exTable exRows exBlobs exState [exA, exC] [0x43] exC exListing where
  named := ex_named
  columns := ex_columns
  whole := by unfold Record.Spec.Whole; decide +kernel
  held := ex_rows
  holds := by unfold Config.Spec.Says; decide +kernel
  names := by unfold Unicode.Spec.Name Unicode.Spec.Scalar; decide
  distinct := by
    simp only [List.pairwise_cons, List.mem_singleton, List.not_mem_nil, false_implies, implies_true, List.Pairwise.nil, and_true, forall_eq]
    rw [same_iff]
    decide
  texts := by
    intro r hr hc
    simp only [exRows, List.mem_cons, List.not_mem_nil, or_false] at hr
    rcases hr with rfl | rfl | rfl | rfl | rfl
    · exact ⟨[0x61, 0x62], by unfold Unicode.Spec.Name Unicode.Spec.Scalar; decide, by decide⟩
    · exact absurd hc.1 (by decide)
    · exact ⟨[0x41, 0x42], by unfold Unicode.Spec.Name Unicode.Spec.Scalar; decide, by decide⟩
    · exact ⟨[0x63], by unfold Unicode.Spec.Name Unicode.Spec.Scalar; decide, by decide⟩
    · exact absurd rfl hc.2.1
  blobs := ex_blobs
  short := by decide +kernel
  parts := by
    intro f hf p hp
    simp only [List.mem_cons, List.not_mem_nil, or_false] at hf
    rcases hf with rfl | rfl
    · simp only [exA, List.mem_cons, List.not_mem_nil, or_false] at hp
      rcases hp with rfl | rfl
      · exact ⟨⟨1, [1], [1, 2, 3, 4]⟩, by simp [exState], rfl, rfl, rfl⟩
      · exact ⟨⟨2, [2], [5, 6]⟩, by simp [exState], rfl, rfl, rfl⟩
    · simp only [exC, List.mem_cons, List.not_mem_nil, or_false] at hp
      subst hp
      exact ⟨⟨3, [3], [9]⟩, by simp [exState], rfl, rfl, rfl⟩
  version := by unfold Unicode.Spec.Name Unicode.Spec.Scalar; decide
  isInfo := ⟨by simp, by rw [same_iff]; decide⟩
  lists := ⟨[9], exTree, rfl, rfl, _, _, _, _, _, [], [], rfl, [1], by decide, by decide, rfl, rfl⟩
  few := by decide
  growing := by simp [exListing]
  listed := by
    intro x hx
    cases List.mem_singleton.mp hx
    exact ⟨by unfold Unicode.Spec.Name Unicode.Spec.Scalar; decide, by decide, by rw [same_iff]; decide⟩
  apart := by simp [exListing]
  stored := by
    intro x hx
    cases List.mem_singleton.mp hx
    exact ⟨by simp, by rw [same_iff]; decide⟩
  fits := by unfold Spec.room; decide +kernel

/-- The hypotheses are met, and the container gives the contents of both parts for the name `MODULE`. -/
example (fuel : Nat) (hf : Container.LAST ≤ fuel) (old : Option Bytes) :
    ∃ d k, exportExtDb exExt fuel (some (exCols, exTable, some exBlobs)) ['C'] old = .ok (some (true, some d)) ∧
      Container.openCatalog fuel d = .ok (some (.container k)) ∧ k.ents.length = 2 ∧
      Container.content Container.plainCodec fuel k (utf8Text ("MODULE".toList.map Char.toNat)) = .ok (some (some [1, 2, 3, 4, 5, 6])) ∧
      Container.content Container.plainCodec fuel k (utf8Text ("configinfo".toList.map Char.toNat)) = .ok (some (some [9])) := by
  obtain ⟨d, k, h1, h2⟩ := extension_exported_partial exExt fuel hf ex_given old
  exact ⟨d, k, h1, h2.opens, h2.count, h2.files _ (List.mem_singleton.mpr rfl) _ (by unfold Unicode.Spec.Name Unicode.Spec.Scalar; decide) (by rw [same_iff]; decide), h2.list⟩

/-- **C112.** A version that the table has no file for is refused, and so is a list with a file that is not stored under its hash: nothing is written. -/
theorem extension_refused (a : Around) (fuel : Nat) (cols : List Col) (t : Record.Tab) (blob : Option Bytes) (store : List (Str × TFile)) (ver : Str)
    (old : Option Bytes) (ho : openStore ⟨a.sh, lowerStr, a.clock⟩ (some (cols, t)) = .ok (true, store))
    (h : (∀ f, ¬ Config.Spec.Stored lowerStr store ver f) ∨
      ∃ f tt entries, Config.Spec.Stored lowerStr store ver f ∧ infoTree a (blobIo blob fuel a.inflate) f = .ok tt ∧ Config.Spec.Lists tt entries ∧
        entries.length < 2147483648 ∧ Config.Spec.Growing entries ∧ ∃ e ∈ entries, ∀ g, ¬ Config.Spec.Stored lowerStr store (Hex.hexstring e.2) g) :
    exportExtDb a fuel (some (cols, t, blob)) ver old = .throw := by
  have : configCas lowerStr (infoTree a (blobIo blob fuel a.inflate)) store ver = .throw := by
    rcases h with h | ⟨f, tt, entries, h1, h2, h3, h4, h5, h6⟩
    · exact no_version_refused _ _ _ _ h
    · exact (open_by_hashes_partial lowerStr _ store ver f tt entries (by decide +kernel) h1 h2 h3 h4 h5).2 h6
  unfold exportExtDb
  dsimp only
  rw [ho, Outcome.ok_bind]
  dsimp only
  rw [this]
  rfl

/-- **C112, disagreement.** A file listed as `configinfo` takes the place of the list: the container has another file under this name. -/
theorem list_replaced (a : Around) (io : Io) (store : List (Str × TFile)) (ver : Str) (f : TFile) (tt : Tree.Node) (A B : List (Str × Bytes)) (h : Bytes)
    (hf : Config.Spec.Stored lowerStr store ver f) (hr : infoTree a io f = .ok tt) (hl : Config.Spec.Lists tt (A ++ ("configinfo".toList, h) :: B))
    (hn : (A ++ ("configinfo".toList, h) :: B).length < 2147483648) (hg : Config.Spec.Growing (A ++ ("configinfo".toList, h) :: B))
    (hB : ∀ x ∈ B, lowerStr x.1 ≠ lowerStr "configinfo".toList)
    (hall : ∀ e ∈ A ++ ("configinfo".toList, h) :: B, ∃ g, Config.Spec.Stored lowerStr store (Hex.hexstring e.2) g) :
    ∃ m g, configCas lowerStr (infoTree a io) store ver = .ok m ∧ Config.Spec.Stored lowerStr store (Hex.hexstring h) g ∧
      Config.Spec.Gives lowerStr m "configinfo".toList g := by
  obtain ⟨m, h1, h2, _⟩ := (open_by_hashes_partial lowerStr _ store ver f tt _ (by decide +kernel) hf hr hl hn hg).1 hall
  obtain ⟨g, h3, h4⟩ := h2 "configinfo".toList ("configinfo".toList, h) ⟨A, B, rfl, rfl, hB⟩
  exact ⟨m, g, h1, h3, h4⟩

/-- The theorem applies to a list that lists a file as `configinfo`. -/
example : ∃ m g, configCas lowerStr (infoTree { exAround with parse := fun _ => .ok (.mk .list [] [.leaf .number ['1'], .leaf .number ['0'],
      .mk .list [] (.leaf .number ['1'] :: Config.Spec.pairNodes ("configinfo".toList, [0xab]))]) } ⟨fun _ _ => ([9], true), fun b => (b, true)⟩)
      [(['c'], ⟨['c'], [(3, 1)], 0, 0⟩), (['a', 'b'], ⟨['a', 'b'], [(1, 4)], 0, 0⟩)] ['c'] = .ok m ∧ g.name = ['a', 'b'] ∧
    Config.Spec.Gives lowerStr m "configinfo".toList g := by
  obtain ⟨m, g, h1, h2, h3⟩ := list_replaced { exAround with parse := fun _ => .ok (.mk .list [] [.leaf .number ['1'], .leaf .number ['0'],
      .mk .list [] (.leaf .number ['1'] :: Config.Spec.pairNodes ("configinfo".toList, [0xab]))]) } ⟨fun _ _ => ([9], true), fun b => (b, true)⟩
    [(['c'], ⟨['c'], [(3, 1)], 0, 0⟩), (['a', 'b'], ⟨['a', 'b'], [(1, 4)], 0, 0⟩)] ['c'] ⟨['c'], [(3, 1)], 0, 0⟩ _ [] [] [0xab]
    (by unfold Config.Spec.Stored; decide +kernel) rfl ⟨_, _, _, _, _, [], [], rfl, [1], by decide, by decide, rfl, rfl⟩ (by decide)
    (by unfold Config.Spec.Growing; simp) (by simp) (by
      intro e he
      cases List.mem_singleton.mp he
      exact ⟨⟨['a', 'b'], [(1, 4)], 0, 0⟩, by unfold Config.Spec.Stored; decide +kernel⟩)
  refine ⟨m, g, h1, ?_, h3⟩
  have h4 : Config.Spec.Stored lowerStr [(['c'], (⟨['c'], [(3, 1)], 0, 0⟩ : TFile)), (['a', 'b'], ⟨['a', 'b'], [(1, 4)], 0, 0⟩)] (Hex.hexstring [0xab]) ⟨['a', 'b'], [(1, 4)], 0, 0⟩ := by
    unfold Config.Spec.Stored; decide +kernel
  unfold Config.Spec.Stored at h2 h4
  rw [h4] at h2
  cases h2
  rfl

end Verif.Config.Ext
