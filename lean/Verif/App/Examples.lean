import Verif.App.Theorems

/-! # Examples for C86 -/

namespace Verif.App
open Verif Verif.Cli

/-- Write a file. -/
def exWrite (p : Path) (c : Bytes) : Step Unit Bool := fun s =>
  .ok ({ s with fs := fun q => if q = p then some (.file c) else s.fs q }, some true)

theorem exWrite_touches (p : Path) (c : Bytes) (own : Path) : Spec.Touches (exWrite p c) (fun q => q = p ∨ q = own) := by
  intro s s' r h
  cases h
  exact ⟨fun q hq => if_neg fun h => hq (Or.inl h), rfl, [], adds_nil s⟩

/-- An infobase with one vendor configuration and two tables. Its search for lost objects fails. -/
def exBase (infobase : Bool) : Base Unit where
  infobase := infobase
  depot := false
  tables := [⟨Spec.word "CONFIG", 12, some 4096, some 70000, none⟩, ⟨Spec.word "PARAMS", 0, none, none, none⟩]
  saveConfig p := exWrite p [1]
  saveConfigSave p := exWrite p [2]
  vendors := pure [⟨Spec.word "Trade", Spec.word "1.1", fun p => exWrite p [3]⟩]
  depotVersion v := pure v
  saveDepot p _ := exWrite p [4]
  savePart _ _ _ := pure true
  saveLost _ := Step.throw
  exportAll _ := pure ()
  exportXml _ _ := pure ()
  exportBinary _ _ := pure ()
  importBinary _ _ := pure ()

theorem touches_throw {σ α : Type} (P : Path → Prop) : Spec.Touches (Step.throw : Step σ α) P := by
  intro s s' r h
  cases h
  exact ⟨fun _ _ => rfl, rfl, [], adds_nil s⟩

theorem exBase_lawful (i : Bool) (own : Path) : Spec.Lawful (exBase i) own where
  config p := exWrite_touches p _ own
  configSave p := exWrite_touches p _ own
  vendors := touches_pure _ _
  vendor s s' vs h v hv p := by
    cases h
    obtain rfl : v = ⟨Spec.word "Trade", Spec.word "1.1", fun p => exWrite p [3]⟩ := by simpa using hv
    exact exWrite_touches p _ own
  version v := touches_pure _ _
  depot p v := exWrite_touches p _ own
  part _ _ _ := touches_pure _ _
  lost _ := touches_throw _
  all _ := touches_pure _ _
  xml _ _ := touches_pure _ _
  binary _ _ := touches_pure _ _
  load _ _ := touches_pure _ _

def exOpen (i : Bool) : Path → Step Unit (Option (Base Unit)) := fun _ => pure (some (exBase i))

theorem exOpen_opens (i : Bool) : Spec.Opens (exOpen i) := by
  intro p
  refine ⟨touches_pure _ _, ?_⟩
  intro s s' b h
  cases h
  exact exBase_lawful i p

def exEnv : Env where
  absolute p := if p.head? = some 47 then p else Spec.word "/w/" ++ p
  creatable _ _ := true
  makable _ _ := true

/-- The database, a directory, and an old log file. -/
def exFs : Fs := fun p =>
  if p = Spec.word "/w/a.1cd" then some (.file [7]) else if p = Spec.word "out" then some .dir
  else if p = Spec.word "/w/old.log" then some (.file [8]) else none

def exSys : Sys Unit := ⟨exFs, (), {}, [], []⟩

/-- `-dac out -slo out -sts sizes.txt -nv a.1cd`. -/
def exState : State :=
  ⟨Spec.word "a.1cd", [⟨.save_all_configs, Spec.word "out", [], []⟩, ⟨.find_and_save_lost_objects, Spec.word "out", [], []⟩,
    ⟨.save_tables_size, Spec.word "sizes.txt", [], []⟩, ⟨.no_verbose, [], [], []⟩], []⟩

/-- The hypotheses of the theorems about a run hold. -/
example := commands_in_turn exEnv (exOpen true) (exOpen_opens true) exState exSys rfl (by decide) ⟨by decide, by decide⟩ (by decide) (by decide +kernel)
  (by decide) (fun s1 => ⟨s1, exBase true, rfl⟩)

/-- **Negation of C86 on an example.** A command fails, which is reported on the console although `-nv` asks for no messages, the commands behind it are
executed, and the status is 0. -/
example : ∃ s', main exEnv (exOpen true) exState exSys = .ok (s', some 0) ∧
    s'.console = [.opened (Spec.word "/w/a.1cd"), .saved (Spec.word "out/dbcf.cf"), .saved (Spec.word "out/cf.cf"),
      .saved (Spec.word "out/Trade 1.1.cf"), .thrown] ∧ (Msg.error .thrown) = true ∧
    s'.fs (Spec.word "out/dbcf.cf") = some (.file [1]) ∧ s'.fs (Spec.word "out/cf.cf") = some (.file [2]) ∧
    s'.fs (Spec.word "out/Trade 1.1.cf") = some (.file [3]) ∧ s'.fs (Spec.word "out/other") = none ∧
    s'.fs (Spec.word "sizes.txt") = some (.file ([0xEF, 0xBB, 0xBF] ++ Spec.word
      "table_name|records_count|data_size|blob_size|index_size\r\nCONFIG|12|4096|70000|0\r\nPARAMS|0|0|0|0\r\n")) :=
  ⟨_, rfl, by decide +kernel, rfl, by decide +kernel, by decide +kernel, by decide +kernel, by decide +kernel, by decide +kernel⟩

example := not_silent exEnv (exOpen true) (exOpen_opens true) exState exSys rfl ⟨by decide, by decide⟩ (by decide) (by decide +kernel)
  ⟨⟨.no_verbose, [], [], []⟩, by decide, rfl⟩ (by decide) (fun s1 => ⟨s1, exBase true, rfl⟩)

/-- `-l old.log -h -slo out a.1cd`. -/
example := help_only exEnv (exOpen true) { exState with commands := [⟨.logfile, Spec.word "old.log", [], []⟩, ⟨.help, [], [], []⟩,
  ⟨.find_and_save_lost_objects, Spec.word "out", [], []⟩] } exSys rfl [_] [_] _ rfl rfl ⟨by decide, by decide⟩

/-- With a log file the old one is removed and the messages are in the new one. -/
example : ∃ s', main exEnv (exOpen false) { exState with commands := ⟨.logfile, Spec.word "old.log", [], []⟩ :: exState.commands } exSys =
      .ok (s', some 0) ∧ s'.console = [] ∧ s'.fs (Spec.word "/w/old.log") = none ∧
    s'.log.map Prod.snd = [.opened (Spec.word "/w/a.1cd"), .notInfobase, .thrown] :=
  ⟨_, rfl, by decide +kernel, by decide +kernel, by decide +kernel⟩

/-- `-l a.1cd`: the database is gone. -/
example := log_deletes_database exEnv (exOpen true) { exState with commands := [⟨.logfile, Spec.word "a.1cd", [], []⟩] } exSys rfl
  ⟨by decide, by decide⟩ (by decide) ⟨_, List.mem_singleton.2 rfl, rfl, rfl⟩

/-- Where a configuration goes: `Out.CF` is a file, `out` a directory, `x` nothing. -/
example : Spec.EndsCf (Spec.word "Out.CF") ∧ ¬ Spec.EndsCf (Spec.word "out") ∧ exFs (Spec.word "out") = some .dir ∧
    Spec.Target (Spec.word "out") (Spec.word "cf.cf") (Spec.word "out/cf.cf") := by
  have h : ¬ Spec.EndsCf (Spec.word "out") := by
    rw [← endsCf_iff]
    decide +kernel
  refine ⟨⟨Spec.word "Out", 67, 70, by decide +kernel, Or.inr rfl, Or.inr rfl⟩, h, by decide +kernel, Or.inr ⟨h, Or.inl ⟨by decide, by decide, by decide +kernel⟩⟩⟩

/-- A depot in which version `n` is there if `n` is not 0. Saving a part writes a file with the two versions in it. -/
def exDepot : Base Unit :=
  { exBase false with
    depot := true
    savePart := fun p v w => exWrite (p ++ asc "/part") [UInt8.ofNat v.natAbs, UInt8.ofNat w.natAbs] }

/-- (The last digit before the colon is lost, C62.) -/
example (e : Env) (s : Sys Unit) (hd : s.fs (asc "out") = some .dir) :
    ∃ s', command e exDepot ⟨.save_depot_config_part, asc "13:7", asc "out", []⟩ s = .ok (s', some ()) ∧
      s'.fs (asc "out/part") = some (.file [1, 7]) := by
  obtain ⟨s3, h1, h2, h3, h4, h5⟩ := depot_part_saved e exDepot (asc "13:7") (asc "out") [] 1 7 1 7 s s s rfl (by decide +kernel) rfl (by decide) rfl
    (by decide) (.inl hd)
  refine ⟨_, h5 _ true rfl, ?_⟩
  rw [add_fs]
  show (if asc "out/part" = asc "out" ++ asc "/part" then some (.file [1, 7]) else s3.fs (asc "out/part")) = _
  rw [if_pos (by decide)]

example (e : Env) (he : ∀ p, e.absolute p = p) (s : Sys Unit) :
    ∃ s', command e exDepot ⟨.save_depot_config, asc "5", asc "a.cf", []⟩ s = .ok (s', some ()) ∧ s'.fs (asc "a.cf") = some (.file [4]) := by
  refine ⟨_, depot_config_saved e exDepot (asc "5") (asc "a.cf") [] 5 5 s s _ true rfl (by decide +kernel) rfl (by decide) ?_ rfl, ?_⟩
  · rw [he]; exact (endsCf_iff _).1 (by decide +kernel)
  · rw [add_fs, he]
    show (if asc "a.cf" = asc "a.cf" then some (.file [4]) else s.fs (asc "a.cf")) = _
    rw [if_pos rfl]

example (e : Env) (s : Sys Unit) : command e exDepot ⟨.save_depot_config, asc "0", asc "a.cf", []⟩ s = .ok (s.add (.noVersion 0), some ()) :=
  depot_no_version e exDepot (asc "0") (asc "a.cf") [] 0 s s rfl (by decide) rfl

end Verif.App
