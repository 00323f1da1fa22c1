import Verif.Cli.Theorems

/-! # Theorems about the options of a run (property C57) -/

namespace Verif.Cli.OptionTheorems
open Verif Verif.Cli

/-- The value of the last command of a kind, or the default. -/
def lastOr (cmds : List Parsed) (c : Command) (f : Bytes → α) (dflt : α) : α :=
  match (cmds.filter (fun p => p.command = c)).getLast? with
  | some p => f p.param1
  | none => dflt

/-- A parameter that means yes, as text of any case: 1, y, yes, д, да. -/
def Yes (s : Bytes) : Bool :=
  match isTrueString s with
  | .ok b => b
  | _ => false

theorem lastOr_cons (p : Parsed) (cmds : List Parsed) (c : Command) (f : Bytes → α) (dflt : α) :
    lastOr (p :: cmds) c f dflt = lastOr cmds c f (if p.command = c then f p.param1 else dflt) := by
  unfold lastOr
  by_cases h : p.command = c
  · rw [List.filter_cons_of_pos (by simpa using h), if_pos h, List.getLast?_cons]
    cases (cmds.filter (fun p => p.command = c)).getLast? <;> rfl
  · rw [List.filter_cons_of_neg (by simpa using h), if_neg h]

theorem collect_from (cmds : List Parsed) (o : Options) (hh : ∀ p ∈ cmds, p.command ≠ .help)
    (ht : ∀ p ∈ cmds, p.command = .xml_blob_to_file ∨ p.command = .xml_parse_blob → ∃ b, isTrueString p.param1 = .ok b) :
    collect cmds o = .ok {
      helpShown := o.helpShown
      verbose := o.verbose && !cmds.any (fun p => p.command = .no_verbose)
      log := lastOr cmds .logfile some o.log
      notExclusively := o.notExclusively || cmds.any (fun p => p.command = .not_exclusively)
      blobToFile := lastOr cmds .xml_blob_to_file Yes o.blobToFile
      parseBlob := lastOr cmds .xml_parse_blob Yes o.parseBlob } := by
  induction cmds generalizing o with
  | nil => simp [collect, lastOr]
  | cons p cmds ih =>
    have ih' := fun o => ih o (fun q hq => hh q (by simp [hq])) (fun q hq => ht q (by simp [hq]))
    simp only [lastOr_cons, List.any_cons]
    have hp := hh p (by simp)
    have htp := ht p (by simp)
    rw [collect]
    cases hc : p.command with
    | help => exact absurd hc hp
    | xml_blob_to_file =>
      obtain ⟨b, hb⟩ := htp (Or.inl hc)
      simp [hb, ih', Yes]
    | xml_parse_blob =>
      obtain ⟨b, hb⟩ := htp (Or.inr hc)
      simp [hb, ih', Yes]
    | _ => simp [ih']

/-- Without a request for help, a run is asked to be silent if `-nv` is given, shares the file if `-ne` is given, logs to the file of the
last `-l`, and saves or parses blobs as the last `-bf` and `-pb` say. -/
theorem options_correct (cmds : List Parsed) (hh : ∀ p ∈ cmds, p.command ≠ .help)
    (ht : ∀ p ∈ cmds, p.command = .xml_blob_to_file ∨ p.command = .xml_parse_blob → ∃ b, isTrueString p.param1 = .ok b) :
    collect cmds {} = .ok {
      helpShown := false
      verbose := !cmds.any (fun p => p.command = .no_verbose)
      log := lastOr cmds .logfile some none
      notExclusively := cmds.any (fun p => p.command = .not_exclusively)
      blobToFile := lastOr cmds .xml_blob_to_file Yes false
      parseBlob := lastOr cmds .xml_parse_blob Yes true } := by
  rw [collect_from cmds {} hh ht]
  rfl

def sampleRun : List Parsed :=
  [⟨.logfile, asc "a", [], []⟩, ⟨.no_verbose, [], [], []⟩, ⟨.xml_blob_to_file, asc "Yes", [], []⟩, ⟨.logfile, asc "b", [], []⟩,
   ⟨.xml_parse_blob, asc "0", [], []⟩]

example : (∀ p ∈ sampleRun, p.command ≠ .help) ∧
    collect sampleRun {} = .ok ⟨false, false, some (asc "b"), false, true, false⟩ := by
  refine ⟨by decide, by decide +kernel⟩

/-- After help has been shown nothing else is looked at. -/
theorem help_stops (p : Parsed) (cmds : List Parsed) (o : Options) (h : p.command = .help) :
    collect (p :: cmds) o = .ok { o with helpShown := true } := by
  rw [collect, h]

end Verif.Cli.OptionTheorems
