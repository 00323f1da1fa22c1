import Verif.App.Lemmas
import Verif.Cli.OptionTheorems

/-! # Theorems about running the program (property C86) -/

namespace Verif.App
open Verif Verif.Cli

variable {σ : Type}

theorem asc_word (s : String) : asc s = Spec.word s := rfl

theorem place_touches (e : Env) (p : Path) (name : Bytes) (P : Path → Prop) : Spec.Touches (place e p name : Step σ (Option Path)) P := by
  unfold place
  split
  · exact touches_pure _ _
  · refine touches_bind (touches_mono (touches_dir e p false) (by rintro q ⟨h, _⟩; cases h)) ?_
    intros
    exact touches_pure _ _

theorem place_target {e : Env} {p : Path} {name : Bytes} (hn : name.head? ≠ some 47) {s s' : Sys σ} {q : Path}
    (h : place e p name s = .ok (s', some (some q))) : Spec.Target p name q := by
  unfold place at h
  split at h
  · rename_i hc
    obtain ⟨_, h⟩ := pure_inv h
    cases h
    exact Or.inl ⟨(endsCf_iff _).1 hc, rfl⟩
  · rename_i hc
    rcases bind_inv h with ⟨s1, b, _, h⟩ | ⟨_, h⟩
    · obtain ⟨_, h⟩ := pure_inv h
      cases b with
      | true =>
        cases h
        exact Or.inr ⟨fun hc' => hc ((endsCf_iff _).2 hc'), slash_within hn⟩
      | false => cases h
    · cases h

theorem saveAt_touches {save : Path → Step σ Bool} {P : Path → Prop}
    (o : Option Path) (h : ∀ q, o = some q → Spec.Touches (save q) P) : Spec.Touches (saveAt save o) P := by
  cases o with
  | none => exact touches_pure _ _
  | some q =>
    refine touches_bind (h q rfl) ?_
    intro _ _ ok _
    exact touches_say _ _

theorem saveConf_touches (e : Env) (b : Base σ) (save : Path → Step σ Bool) (own : Path) (name p : Path) (hn : name.head? ≠ some 47)
    (h : ∀ q, Spec.Touches (save q) (fun r => r = q ∨ r = own)) :
    Spec.Touches (saveConf e b save name p) (fun q => Spec.Target p name q ∨ q = own) := by
  unfold saveConf
  split
  · refine touches_bind (place_touches e p name _) ?_
    intro s s' o ho
    refine saveAt_touches o ?_
    rintro q rfl
    refine touches_mono (h q) ?_
    rintro r (rfl | hr)
    · exact Or.inl (place_target hn ho)
    · exact Or.inr hr
  · exact touches_say _ _

theorem vendorList_touches (p own : Path) : ∀ (vs : List (Vendor σ)),
    (∀ v ∈ vs, ∀ q, Spec.Touches (v.save q) (fun r => r = q ∨ r = own)) →
    Spec.Touches (saveVendorList p vs) (fun q => (∃ n v, q = slash p (n ++ Spec.word " " ++ v ++ Spec.word ".cf")) ∨ q = own)
  | [], _ => touches_pure _ _
  | v :: vs, h => by
    refine touches_bind (saveAt_touches _ ?_) ?_
    · intro q hq
      cases hq
      refine touches_mono (h v (List.mem_cons_self ..) _) ?_
      rintro r (rfl | hr)
      · exact Or.inl ⟨v.name, v.version, rfl⟩
      · exact Or.inr hr
    · intro _ _ _ _
      exact vendorList_touches p own vs fun v hv => h v (List.mem_cons_of_mem _ hv)

theorem vendors_touches {b : Base σ} {own : Path} (hb : Spec.Lawful b own) (p : Path) :
    Spec.Touches (saveVendors b p) (fun q => (∃ n v, q = slash p (n ++ Spec.word " " ++ v ++ Spec.word ".cf")) ∨ q = own) := by
  unfold saveVendors
  split
  · refine touches_bind (touches_mono hb.vendors fun q hq => Or.inr hq) ?_
    intro s s' vs hvs
    exact vendorList_touches p own vs (hb.vendor _ _ _ hvs)
  · exact touches_say _ _

theorem endsCf_slash (p : Path) (x : Bytes) : Spec.EndsCf (slash p (x ++ Spec.word ".cf")) := by
  unfold slash
  split
  · exact ⟨p ++ x, 99, 102, by rw [List.append_assoc]; rfl, Or.inl rfl, Or.inl rfl⟩
  · exact ⟨p ++ 47 :: x, 99, 102, by rw [List.append_assoc]; rfl, Or.inl rfl, Or.inl rfl⟩

theorem allConfigs_touches (e : Env) {b : Base σ} {own : Path} (hb : Spec.Lawful b own) (p : Path) :
    Spec.Touches (saveAllConfigs e b p) (fun q => (Spec.Within p (Spec.word "dbcf.cf") q ∨ Spec.Within p (Spec.word "cf.cf") q ∨
      ∃ n v, q = slash p (n ++ Spec.word " " ++ v ++ Spec.word ".cf")) ∨ q = own) := by
  unfold saveAllConfigs
  split
  · refine touches_bind (touches_mono (saveConf_touches e b _ own _ _ (by decide) hb.config) ?_) ?_
    · rintro q ((⟨_, rfl⟩ | ⟨hn, _⟩) | h)
      · exact Or.inl (Or.inl (slash_within (by decide)))
      · exact absurd (endsCf_slash p (Spec.word "dbcf")) hn
      · exact Or.inr h
    · intro _ _ _ _
      refine touches_bind (touches_mono (saveConf_touches e b _ own _ _ (by decide) hb.configSave) ?_) ?_
      · rintro q ((⟨_, rfl⟩ | ⟨hn, _⟩) | h)
        · exact Or.inl (Or.inr (Or.inl (slash_within (by decide))))
        · exact absurd (endsCf_slash p (Spec.word "cf")) hn
        · exact Or.inr h
      · intro _ _ _ _
        refine touches_mono (vendors_touches hb p) ?_
        rintro q (h | h)
        · exact Or.inl (Or.inr (Or.inr h))
        · exact Or.inr h
  · exact touches_say _ _

/-- A command keeps to its own paths. -/
theorem command_touches (e : Env) {b : Base σ} {own : Path} (hb : Spec.Lawful b own) (pc : Parsed) :
    Spec.Touches (command e b pc) (fun q => Spec.Writes e pc q ∨ q = own) := by
  have dir : ∀ {rest : Step σ Unit} {P : Path → Prop} (p : Path), Spec.Touches rest P → Spec.Touches (inDir e p false rest) P := by
    intro rest P p h
    refine touches_mono (touches_inDir e p false h) ?_
    rintro q (h | ⟨h, _⟩)
    · exact h
    · cases h
  unfold command Spec.Writes
  cases pc.command with
  | help => exact touches_pure _ _
  | no_verbose => exact touches_pure _ _
  | quit => exact touches_pure _ _
  | xml_blob_to_file => exact touches_pure _ _
  | xml_parse_blob => exact touches_pure _ _
  | not_exclusively => exact touches_pure _ _
  | logfile => exact touches_pure _ _
  | export_all_to_xml => exact dir _ (hb.all _)
  | export_to_xml => exact dir _ (hb.xml _ _)
  | export_to_binary => exact dir _ (hb.binary _ _)
  | find_and_save_lost_objects => exact dir _ (hb.lost _)
  | import_from_binary => exact dir _ (touches_mono (hb.load _ _) fun q hq => Or.inr hq)
  | save_config => exact saveConf_touches e b _ own _ _ (by decide) hb.config
  | save_configsave => exact saveConf_touches e b _ own _ _ (by decide) hb.configSave
  | save_vendors_configs => exact dir _ (vendors_touches hb _)
  | save_all_configs => exact dir _ (allConfigs_touches e hb _)
  | save_depot_config =>
    show Spec.Touches (saveDepotConfig e b pc) _
    unfold saveDepotConfig
    split
    · refine touches_bind (touches_lift _ _) ?_
      intro _ _ n _
      refine touches_bind (touches_mono (hb.version _) fun q hq => Or.inr hq) ?_
      intro _ _ v _
      unfold saveDepotVersion
      split
      · exact touches_say _ _
      · refine touches_bind (place_touches _ _ _ _) ?_
        intro s s' o ho
        refine saveAt_touches o ?_
        rintro q rfl
        refine touches_mono (hb.depot q v) ?_
        rintro r (rfl | hr)
        · exact Or.inl ⟨toString v, place_target (by rw [List.append_assoc]; exact (by decide : (some 118 : Option UInt8) ≠ some 47)) ho⟩
        · exact Or.inr hr
    · exact touches_say _ _
  | save_depot_config_part =>
    show Spec.Touches (saveDepotConfigPart e b pc) _
    unfold saveDepotConfigPart
    split
    · refine touches_bind (touches_lift _ _) ?_
      intro _ _ r _
      unfold saveDepotPart
      refine touches_bind (touches_mono (hb.version _) fun q hq => Or.inr hq) ?_
      intro _ _ v _
      split
      · exact touches_say _ _
      · refine touches_bind (touches_mono (hb.version _) fun q hq => Or.inr hq) ?_
        intro _ _ w _
        split
        · exact touches_say _ _
        · refine touches_mono (touches_inDir e _ true (P := fun q => Spec.Below pc.param2 q ∨ q = own) ?_) ?_
          · refine touches_bind (hb.part _ _ _) ?_
            intro _ _ ok _
            exact touches_say _ _
          · rintro q ((h | h) | ⟨_, h⟩)
            · exact Or.inl (Or.inr h)
            · exact Or.inr h
            · exact Or.inl (Or.inl h)
    · exact touches_say _ _
  | save_tables_size =>
    intro s s' r h
    change saveSizes e b pc.param1 s = _ at h
    unfold saveSizes at h
    by_cases hcr : e.creatable s.fs pc.param1 = true
    · rw [if_pos hcr] at h
      cases h
      refine ⟨fun q hq => ?_, rfl, [], adds_nil s⟩
      show (if q = pc.param1 then _ else _) = _
      rw [if_neg fun h => hq (Or.inl h)]
    · rw [if_neg hcr] at h
      cases h
      exact ⟨fun _ _ => rfl, rfl, [], adds_nil s⟩

theorem turn_inv {e : Env} {b : Base σ} {pc : Parsed} {s s' : Sys σ} {r : Option Unit} (h : turn e b pc s = .ok (s', r)) :
    r = some () ∧ (command e b pc s = .ok (s', some ()) ∨ ∃ s1, command e b pc s = .ok (s1, none) ∧ s' = s1.add .thrown) := by
  unfold turn at h
  split at h
  · rename_i s1 hc
    cases h
    exact ⟨rfl, Or.inl hc⟩
  · rename_i s1 hc
    cases h
    exact ⟨rfl, Or.inr ⟨s1, hc, rfl⟩⟩
  · cases h
  · cases h

theorem turn_touches (e : Env) {b : Base σ} {own : Path} (hb : Spec.Lawful b own) (pc : Parsed) :
    Spec.Touches (turn e b pc) (fun q => Spec.Writes e pc q ∨ q = own) := by
  intro s s' r h
  obtain ⟨_, h' | ⟨s1, h', rfl⟩⟩ := turn_inv h
  · exact command_touches e hb pc _ _ _ h'
  · obtain ⟨h1, h2, ms, h3⟩ := command_touches e hb pc _ _ _ h'
    exact ⟨fun q hq => by rw [add_fs, h1 q hq], by rw [add_mess, h2], _, adds_trans h2 h3 (add_adds _ _)⟩

theorem turns_touches (e : Env) {b : Base σ} {own : Path} (hb : Spec.Lawful b own) :
    ∀ cs : List Parsed, Spec.Touches (turns e b cs) (fun q => (∃ pc ∈ cs, Spec.Writes e pc q) ∨ q = own)
  | [] => touches_pure _ _
  | pc :: cs => by
    refine touches_bind (touches_mono (turn_touches e hb pc) ?_) ?_
    · rintro q (h | h)
      · exact Or.inl ⟨pc, List.mem_cons_self .., h⟩
      · exact Or.inr h
    · intro _ _ _ _
      refine touches_mono (turns_touches e hb cs) ?_
      rintro q (⟨pc', h1, h2⟩ | h)
      · exact Or.inl ⟨pc', List.mem_cons_of_mem _ h1, h2⟩
      · exact Or.inr h

/-- The second loop is the commands in turn. -/
theorem turns_inTurn (e : Env) (b : Base σ) : ∀ (cs : List Parsed) (s s' : Sys σ) (r : Option Unit),
    turns e b cs s = .ok (s', r) → r = some () ∧ Spec.InTurn e b cs s s'
  | [], s, s', r, h => by
    obtain ⟨rfl, rfl⟩ := pure_inv h
    exact ⟨rfl, .done _⟩
  | pc :: cs, s, s', r, h => by
    rw [turns] at h
    rcases bind_inv h with ⟨s1, _, h1, h2⟩ | ⟨h1, _⟩
    · obtain ⟨hr, hi⟩ := turns_inTurn e b cs _ _ _ h2
      refine ⟨hr, ?_⟩
      obtain ⟨_, h | ⟨s0, h, rfl⟩⟩ := turn_inv h1
      · exact .ok h hi
      · exact .failed h (add_fs _ _) (add_db _ _) (add_mess _ _) (add_adds _ _) hi
    · cases (turn_inv h1).1

/-! ## The first loop -/

/-- No help is asked for, and the values of `-bf` and `-pb` are texts. -/
def Ready (cs : List Parsed) : Prop :=
  (∀ pc ∈ cs, pc.command ≠ .help) ∧
    ∀ pc ∈ cs, pc.command = .xml_blob_to_file ∨ pc.command = .xml_parse_blob → ∃ b, isTrueString pc.param1 = .ok b

/-- The log file the last `-l` names. -/
def logOf (e : Env) (cs : List Parsed) (dflt : Bytes) : Bytes := OptionTheorems.lastOr cs .logfile e.absolute dflt

theorem prepare_ok (e : Env) : ∀ (cs : List Parsed) (s : Sys σ), Ready cs →
    ∃ s1, prepare e cs s = .ok (s1, some true) ∧ s1.db = s.db ∧ s1.console = s.console ∧ s1.log = s.log ∧
      s1.mess.hasError = s.mess.hasError ∧ s1.mess.logfile = logOf e cs s.mess.logfile ∧
      (∀ q, (∀ pc ∈ cs, pc.command = .logfile → e.absolute pc.param1 ≠ q) → s1.fs q = s.fs q) ∧
      (∀ q, (∃ pc ∈ cs, pc.command = .logfile ∧ e.absolute pc.param1 = q) → s1.fs q = none)
  | [], s, _ => ⟨s, rfl, rfl, rfl, rfl, rfl, rfl, fun _ _ => rfl, by rintro q ⟨_, h, _⟩; cases h⟩
  | pc :: cs, s, hr => by
    have hr' : Ready cs := ⟨fun q hq => hr.1 q (List.mem_cons_of_mem _ hq), fun q hq => hr.2 q (List.mem_cons_of_mem _ hq)⟩
    have keep : ∀ s0 : Sys σ, pc.command ≠ .logfile → prepare e (pc :: cs) s = prepare e cs s0 → s0.db = s.db →
        s0.console = s.console → s0.log = s.log → s0.mess.hasError = s.mess.hasError → s0.mess.logfile = s.mess.logfile →
        s0.fs = s.fs → ∃ s1, prepare e (pc :: cs) s = .ok (s1, some true) ∧ s1.db = s.db ∧ s1.console = s.console ∧ s1.log = s.log ∧
          s1.mess.hasError = s.mess.hasError ∧ s1.mess.logfile = logOf e (pc :: cs) s.mess.logfile ∧
          (∀ q, (∀ pc' ∈ pc :: cs, pc'.command = .logfile → e.absolute pc'.param1 ≠ q) → s1.fs q = s.fs q) ∧
          (∀ q, (∃ pc' ∈ pc :: cs, pc'.command = .logfile ∧ e.absolute pc'.param1 = q) → s1.fs q = none) := by
      intro s0 hnl he h1 h2 h3 h4 h5 h6
      obtain ⟨s1, e1, a1, a2, a3, a4, a5, a6, a7⟩ := prepare_ok e cs s0 hr'
      refine ⟨s1, he.trans e1, a1.trans h1, a2.trans h2, a3.trans h3, a4.trans h4, ?_, ?_, ?_⟩
      · rw [a5, h5]
        unfold logOf
        rw [OptionTheorems.lastOr_cons, if_neg hnl]
      · intro q hq
        rw [a6 q fun pc' h => hq pc' (List.mem_cons_of_mem _ h), h6]
      · rintro q ⟨pc', h, hl, hq⟩
        rcases List.mem_cons.1 h with rfl | h
        · exact absurd hl hnl
        · exact a7 q ⟨pc', h, hl, hq⟩
    cases hc : pc.command with
    | help => exact absurd hc (hr.1 pc (List.mem_cons_self ..))
    | no_verbose =>
      refine keep { s with mess := { s.mess with noverbose := true } } (by rw [hc]; decide) (by rw [prepare, hc]) rfl rfl rfl rfl rfl rfl
    | xml_blob_to_file =>
      obtain ⟨b, hb⟩ := hr.2 pc (List.mem_cons_self ..) (Or.inl hc)
      refine keep s (by rw [hc]; decide) ?_ rfl rfl rfl rfl rfl rfl
      rw [prepare, hc]
      exact bind_some (a := b) (by unfold lift; rw [hb])
    | xml_parse_blob =>
      obtain ⟨b, hb⟩ := hr.2 pc (List.mem_cons_self ..) (Or.inr hc)
      refine keep s (by rw [hc]; decide) ?_ rfl rfl rfl rfl rfl rfl
      rw [prepare, hc]
      exact bind_some (a := b) (by unfold lift; rw [hb])
    | logfile =>
      obtain ⟨s1, e1, a1, a2, a3, a4, a5, a6, a7⟩ := prepare_ok e cs
        { s with mess := { s.mess with logfile := e.absolute pc.param1 },
                 fs := fun q => if q = e.absolute pc.param1 ∧ (s.fs q).isSome then none else s.fs q } hr'
      refine ⟨s1, ?_, a1, a2, a3, a4, ?_, ?_, ?_⟩
      · rw [prepare, hc]
        exact (bind_some (a := ()) rfl).trans e1
      · rw [a5]
        unfold logOf
        rw [OptionTheorems.lastOr_cons, if_pos hc]
      · intro q hq
        rw [a6 q fun pc' h => hq pc' (List.mem_cons_of_mem _ h)]
        have := hq pc (List.mem_cons_self ..) hc
        exact if_neg fun h => this h.1.symm
      · rintro q ⟨pc', h, hl, hq⟩
        by_cases hin : ∃ pc' ∈ cs, pc'.command = .logfile ∧ e.absolute pc'.param1 = q
        · exact a7 q hin
        · rw [a6 q fun pc'' h1 h2 h3 => hin ⟨pc'', h1, h2, h3⟩]
          rcases List.mem_cons.1 h with rfl | h
          · show (if q = _ ∧ _ then none else s.fs q) = none
            split
            · rfl
            · rename_i hn
              cases hfs : s.fs q with
              | none => rfl
              | some x => exact absurd ⟨hq.symm, by rw [hfs]; rfl⟩ hn
          · exact absurd ⟨pc', h, hl, hq⟩ hin
    | quit => exact keep s (by rw [hc]; decide) (by rw [prepare, hc]) rfl rfl rfl rfl rfl rfl
    | export_all_to_xml => exact keep s (by rw [hc]; decide) (by rw [prepare, hc]) rfl rfl rfl rfl rfl rfl
    | export_to_xml => exact keep s (by rw [hc]; decide) (by rw [prepare, hc]) rfl rfl rfl rfl rfl rfl
    | not_exclusively => exact keep s (by rw [hc]; decide) (by rw [prepare, hc]) rfl rfl rfl rfl rfl rfl
    | save_config => exact keep s (by rw [hc]; decide) (by rw [prepare, hc]) rfl rfl rfl rfl rfl rfl
    | save_configsave => exact keep s (by rw [hc]; decide) (by rw [prepare, hc]) rfl rfl rfl rfl rfl rfl
    | save_vendors_configs => exact keep s (by rw [hc]; decide) (by rw [prepare, hc]) rfl rfl rfl rfl rfl rfl
    | save_all_configs => exact keep s (by rw [hc]; decide) (by rw [prepare, hc]) rfl rfl rfl rfl rfl rfl
    | save_depot_config => exact keep s (by rw [hc]; decide) (by rw [prepare, hc]) rfl rfl rfl rfl rfl rfl
    | save_depot_config_part => exact keep s (by rw [hc]; decide) (by rw [prepare, hc]) rfl rfl rfl rfl rfl rfl
    | export_to_binary => exact keep s (by rw [hc]; decide) (by rw [prepare, hc]) rfl rfl rfl rfl rfl rfl
    | import_from_binary => exact keep s (by rw [hc]; decide) (by rw [prepare, hc]) rfl rfl rfl rfl rfl rfl
    | find_and_save_lost_objects => exact keep s (by rw [hc]; decide) (by rw [prepare, hc]) rfl rfl rfl rfl rfl rfl
    | save_tables_size => exact keep s (by rw [hc]; decide) (by rw [prepare, hc]) rfl rfl rfl rfl rfl rfl

/-! ## The whole program -/

theorem sayAll_ok : ∀ (ms : List Msg) (s : Sys σ), ∃ s1, sayAll ms s = .ok (s1, some ()) ∧ s1.fs = s.fs ∧ s1.db = s.db ∧
    s1.mess = s.mess ∧ Spec.Adds s s1 ms
  | [], s => ⟨s, rfl, rfl, rfl, rfl, adds_nil s⟩
  | m :: ms, s => by
    obtain ⟨s1, h1, h2, h3, h4, h5⟩ := sayAll_ok ms (s.add m)
    refine ⟨s1, ?_, h2.trans (add_fs _ _), h3.trans (add_db _ _), h4.trans (add_mess _ _), adds_trans (add_mess _ _) (add_adds s m) h5⟩
    rw [sayAll]
    exact (bind_some (a := ()) rfl).trans h1

theorem hasError_eq (s : Sys σ) : (hasError : Step σ Bool) s = .ok (s, some s.mess.hasError) := rfl

/-- What the program does before it looks at the database: the parser's messages go to the console, and the log files are
removed. -/
structure Prepared (e : Env) (st : State) (s s1 : Sys σ) : Prop where
  db : s1.db = s.db
  console : s1.console = s.console ++ st.notes.map .note
  log : s1.log = s.log
  noError : s1.mess.hasError = false
  logfile : s1.mess.logfile = logOf e st.commands []
  kept : ∀ q, (∀ pc ∈ st.commands, pc.command = .logfile → e.absolute pc.param1 ≠ q) → s1.fs q = s.fs q
  gone : ∀ q, (∃ pc ∈ st.commands, pc.command = .logfile ∧ e.absolute pc.param1 = q) → s1.fs q = none

/-- `main` goes on to the database. -/
theorem main_prepared (e : Env) (ob : Path → Step σ (Option (Base σ))) (st : State) (s : Sys σ) (hm : s.mess = {})
    (hc : st.commands ≠ []) (hr : Ready st.commands) :
    ∃ s1, Prepared e st s s1 ∧
      (∀ s' r, runFile e ob st.commands st.filename s1 = .ok (s', some r) → s'.mess.hasError = false → main e ob st s = .ok (s', some r)) ∧
      (∀ s' r, main e ob st s = .ok (s', r) →
        ∃ r', runFile e ob st.commands st.filename s1 = .ok (s', r') ∧ (s'.mess.hasError = false → r = r')) := by
  obtain ⟨s0, h0, a1, a2, a3, a4⟩ := sayAll_ok (st.notes.map Msg.note) s
  obtain ⟨s1, h1, b1, b2, b3, b4, b5, b6, b7⟩ := prepare_ok e st.commands s0 hr
  have hrun : run e ob st.commands st.filename s0 = runFile e ob st.commands st.filename s1 := by
    unfold run
    rw [if_neg hc, bind_some h1, if_pos rfl]
  unfold Spec.Adds at a4
  rw [hm, if_pos rfl] at a4
  refine ⟨s1, ⟨b1.trans a2, b2.trans a4.1, b3.trans a4.2, by rw [b4, a3, hm], by rw [b5, a3, hm], fun q hq => (b6 q hq).trans (by rw [a1]), b7⟩, ?_, ?_⟩
  · intro s' r h he
    unfold main
    rw [bind_some h0]
    rw [← hrun] at h
    rw [bind_some h]
    by_cases hr0 : r = 0
    · subst hr0
      rw [if_neg (by simp), bind_some (hasError_eq s'), he]
      rfl
    · rw [if_pos hr0]
      rfl
  · intro s' r h
    unfold main at h
    rw [bind_some h0] at h
    rcases bind_inv h with ⟨s2, r', h2, h3⟩ | ⟨h2, rfl⟩
    · rw [hrun] at h2
      by_cases hr0 : r' = 0
      · subst hr0
        rw [if_neg (by simp), bind_some (hasError_eq s2)] at h3
        obtain ⟨rfl, rfl⟩ := pure_inv h3
        refine ⟨some 0, h2, fun he => ?_⟩
        rw [he]
        rfl
      · rw [if_pos hr0] at h3
        obtain ⟨rfl, rfl⟩ := pure_inv h3
        exact ⟨some r', h2, fun _ => rfl⟩
    · rw [hrun] at h2
      exact ⟨none, h2, fun _ => rfl⟩

/-! ## C86: the status of the program -/

/-- Without a command the program does nothing, whatever else is on the command line but the parser's errors. -/
theorem no_commands (e : Env) (ob : Path → Step σ (Option (Base σ))) (st : State) (s : Sys σ) (hm : s.mess = {}) (hc : st.commands = []) :
    ∃ s', main e ob st s = .ok (s', some 0) ∧ s'.fs = s.fs ∧ s'.console = s.console ++ st.notes.map .note ∧ s'.log = s.log := by
  obtain ⟨s0, h0, a1, a2, a3, a4⟩ := sayAll_ok (st.notes.map Msg.note) s
  unfold Spec.Adds at a4
  rw [hm, if_pos rfl] at a4
  refine ⟨s0, ?_, a1, a4⟩
  unfold main
  rw [bind_some h0]
  have : run e ob st.commands st.filename s0 = .ok (s0, some 0) := by
    unfold run
    rw [if_pos hc]
    rfl
  rw [bind_some this, if_neg (by simp), bind_some (hasError_eq s0), a3, hm]
  rfl

/-- **C86: no database named.** Status -71, and an error message. -/
theorem no_database (e : Env) (ob : Path → Step σ (Option (Base σ))) (st : State) (s : Sys σ) (hm : s.mess = {}) (hc : st.commands ≠ [])
    (hr : Ready st.commands) (hf : st.filename = []) :
    ∃ s1 s', Prepared e st s s1 ∧ main e ob st s = .ok (s', some (-71)) ∧ s'.fs = s1.fs ∧ Spec.Adds s1 s' [.noDatabase] := by
  obtain ⟨s1, hp, h1, _⟩ := main_prepared e ob st s hm hc hr
  refine ⟨s1, s1.add .noDatabase, hp, h1 _ _ ?_ (by rw [add_mess]; exact hp.noError), add_fs _ _, add_adds _ _⟩
  unfold runFile
  rw [if_pos hf]
  rfl

/-- **C86: no such file.** Status -81, and an error message. The file may also have been there, but been named as a log
file. -/
theorem missing_database (e : Env) (ob : Path → Step σ (Option (Base σ))) (st : State) (s : Sys σ) (hm : s.mess = {}) (hc : st.commands ≠ [])
    (hr : Ready st.commands) (hf : st.filename ≠ []) (hx : s.fs (e.absolute st.filename) = none ∨
      ∃ pc ∈ st.commands, pc.command = .logfile ∧ e.absolute pc.param1 = e.absolute st.filename) :
    ∃ s1 s', Prepared e st s s1 ∧ main e ob st s = .ok (s', some (-81)) ∧ s'.fs = s1.fs ∧
      s'.fs (e.absolute st.filename) = none ∧ Spec.Adds s1 s' [.noFile (e.absolute st.filename)] := by
  obtain ⟨s1, hp, h1, _⟩ := main_prepared e ob st s hm hc hr
  have hn : s1.fs (e.absolute st.filename) = none := by
    by_cases hg : ∃ pc ∈ st.commands, pc.command = .logfile ∧ e.absolute pc.param1 = e.absolute st.filename
    · exact hp.gone _ hg
    · rcases hx with hx | hx
      · rw [hp.kept _ fun pc h1 h2 h3 => hg ⟨pc, h1, h2, h3⟩]
        exact hx
      · exact absurd hx hg
  refine ⟨s1, s1.add (.noFile (e.absolute st.filename)), hp, h1 _ _ ?_ (by rw [add_mess]; exact hp.noError), add_fs _ _,
    by rw [add_fs]; exact hn, add_adds _ _⟩
  unfold runFile
  rw [if_neg hf]
  have : (fileExists (e.absolute st.filename) : Step σ Bool) s1 = .ok (s1, some false) := by
    unfold fileExists
    rw [hn]
    rfl
  rw [bind_some this]
  rfl

/-- **Negation of C86: the log file.** A database that is also named as the log file is deleted. -/
theorem log_deletes_database (e : Env) (ob : Path → Step σ (Option (Base σ))) (st : State) (s : Sys σ) (hm : s.mess = {})
    (hr : Ready st.commands) (hf : st.filename ≠ [])
    (hl : ∃ pc ∈ st.commands, pc.command = .logfile ∧ e.absolute pc.param1 = e.absolute st.filename) :
    ∃ s', main e ob st s = .ok (s', some (-81)) ∧ s'.fs (e.absolute st.filename) = none := by
  have hc : st.commands ≠ [] := by
    rintro h
    rw [h] at hl
    obtain ⟨_, h, _⟩ := hl
    cases h
  obtain ⟨_, s', _, h1, _, h2, _⟩ := missing_database e ob st s hm hc hr hf (Or.inr hl)
  exact ⟨s', h1, h2⟩

theorem run_exists {e : Env} {ob : Path → Step σ (Option (Base σ))} {st : State} {s1 : Sys σ} (hf : st.filename ≠ [])
    (hx : (s1.fs (e.absolute st.filename)).isSome) :
    runFile e ob st.commands st.filename s1 = runOpen e ob st.commands (e.absolute st.filename) s1 := by
  unfold runFile
  rw [if_neg hf]
  have : (fileExists (e.absolute st.filename) : Step σ Bool) s1 = .ok (s1, some true) := by
    unfold fileExists
    rw [hx]
  rw [bind_some this, if_pos rfl]

/-- **C86: a file that cannot be opened.** Status -82, and an error message. -/
theorem not_opened (e : Env) (ob : Path → Step σ (Option (Base σ))) (ho : Spec.Opens ob) (st : State) (s : Sys σ) (hm : s.mess = {})
    (hc : st.commands ≠ []) (hr : Ready st.commands) (hf : st.filename ≠ []) (hx : (s.fs (e.absolute st.filename)).isSome)
    (hl : ∀ pc ∈ st.commands, pc.command = .logfile → e.absolute pc.param1 ≠ e.absolute st.filename)
    (hno : ∀ s1, ∃ s2, ob (e.absolute st.filename) s1 = .ok (s2, some none)) :
    ∃ s1 s' ms, Prepared e st s s1 ∧ main e ob st s = .ok (s', some (-82)) ∧ Spec.Adds s1 s' (ms ++ [.notOpened]) := by
  obtain ⟨s1, hp, h1, _⟩ := main_prepared e ob st s hm hc hr
  obtain ⟨s2, h2⟩ := hno s1
  obtain ⟨t1, t2, ms, t3⟩ := (ho _).1 _ _ _ h2
  refine ⟨s1, s2.add .notOpened, ms, hp, h1 _ _ ?_ (by rw [add_mess, t2]; exact hp.noError), adds_trans t2 t3 (add_adds _ _)⟩
  rw [run_exists hf (by rw [hp.kept _ hl]; exact hx)]
  unfold runOpen
  rw [bind_some h2]
  rfl

/-- **C86: the commands.** Once the database is open, the commands are executed in their order, each once, whatever happened to the
ones before. **Negation of C86: errors.** The status is 0, whatever errors were reported. -/
theorem commands_in_turn (e : Env) (ob : Path → Step σ (Option (Base σ))) (ho : Spec.Opens ob) (st : State) (s : Sys σ) (hm : s.mess = {})
    (hc : st.commands ≠ []) (hr : Ready st.commands) (hf : st.filename ≠ []) (hx : (s.fs (e.absolute st.filename)).isSome)
    (hl : ∀ pc ∈ st.commands, pc.command = .logfile → e.absolute pc.param1 ≠ e.absolute st.filename)
    (hop : ∀ s1, ∃ s2 b, ob (e.absolute st.filename) s1 = .ok (s2, some (some b)))
    (s' : Sys σ) (r : Option Int) (hrun : main e ob st s = .ok (s', r)) :
    r = some 0 ∧ ∃ s1 s2 s3 b ms ms', Prepared e st s s1 ∧ ob (e.absolute st.filename) s1 = .ok (s2, some (some b)) ∧
      s3.fs = s2.fs ∧ s3.db = s2.db ∧ s3.mess = s1.mess ∧ Spec.Adds s1 s3 (ms ++ [.opened (e.absolute st.filename)]) ∧
      Spec.InTurn e b st.commands s3 s' ∧ Spec.Adds s3 s' ms' := by
  obtain ⟨s1, hp, _, h1⟩ := main_prepared e ob st s hm hc hr
  obtain ⟨r', h2, h3⟩ := h1 _ _ hrun
  rw [run_exists hf (by rw [hp.kept _ hl]; exact hx)] at h2
  obtain ⟨s2, b, hb⟩ := hop s1
  obtain ⟨t1, t2, ms, t3⟩ := (ho _).1 _ _ _ hb
  have hlaw := (ho _).2 _ _ _ hb
  unfold runOpen at h2
  rw [bind_some hb] at h2
  simp only at h2
  rw [bind_some (show (say (.opened (e.absolute st.filename)) : Step σ Unit) s2 = .ok (s2.add (.opened (e.absolute st.filename)), some ()) from rfl)] at h2
  rcases bind_inv h2 with ⟨s4, _, h4, h5⟩ | ⟨h4, rfl⟩
  · obtain ⟨rfl, rfl⟩ := pure_inv h5
    obtain ⟨_, hi⟩ := turns_inTurn _ _ _ _ _ _ h4
    obtain ⟨u1, u2, ms', u3⟩ := turns_touches e hlaw _ _ _ _ h4
    refine ⟨h3 (by rw [u2, add_mess, t2]; exact hp.noError), s1, s2, _, b, ms, ms', hp, hb, add_fs _ _, add_db _ _, by rw [add_mess, t2],
      adds_trans t2 t3 (add_adds _ _), hi, u3⟩
  · obtain ⟨h6, _⟩ := turns_inTurn _ _ _ _ _ _ h4
    cases h6

/-- **C86: messages.** With a log file, all messages after those of the parser go there, and it holds nothing else; without, all go to the console. -/
theorem messages (e : Env) (ob : Path → Step σ (Option (Base σ))) (ho : Spec.Opens ob) (st : State) (s : Sys σ) (hm : s.mess = {})
    (hc : st.commands ≠ []) (hr : Ready st.commands) (s' : Sys σ) (r : Option Int) (hrun : main e ob st s = .ok (s', r)) :
    ∃ ms : List Msg, (logOf e st.commands [] = [] ∧ s'.console = s.console ++ st.notes.map .note ++ ms ∧ s'.log = s.log) ∨
      (logOf e st.commands [] ≠ [] ∧ s'.console = s.console ++ st.notes.map .note ∧
        s'.log = s.log ++ ms.map fun m => (logOf e st.commands [], m)) := by
  obtain ⟨s1, hp, _, h1⟩ := main_prepared e ob st s hm hc hr
  obtain ⟨r', h2, _⟩ := h1 _ _ hrun
  have key : ∃ ms, Spec.Adds s1 s' ms := by
    unfold runFile at h2
    split at h2
    · rw [bind_some (show (say .noDatabase : Step σ Unit) s1 = .ok (s1.add .noDatabase, some ()) from rfl)] at h2
      obtain ⟨rfl, _⟩ := pure_inv h2
      exact ⟨_, add_adds _ _⟩
    · rw [bind_some (show (fileExists (e.absolute st.filename) : Step σ Bool) s1 = .ok (s1, some _) from rfl)] at h2
      split at h2
      · unfold runOpen at h2
        rcases bind_inv h2 with ⟨s2, o, hb, h3⟩ | ⟨hb, _⟩
        · obtain ⟨t1, t2, ms, t3⟩ := (ho _).1 _ _ _ hb
          cases o with
          | none =>
            simp only at h3
            rw [bind_some (show (say .notOpened : Step σ Unit) s2 = .ok (s2.add .notOpened, some ()) from rfl)] at h3
            obtain ⟨rfl, _⟩ := pure_inv h3
            exact ⟨_, adds_trans t2 t3 (add_adds _ _)⟩
          | some b =>
            simp only at h3
            rw [bind_some (show (say (.opened (e.absolute st.filename)) : Step σ Unit) s2 = .ok (s2.add (.opened (e.absolute st.filename)), some ()) from rfl)] at h3
            have hlaw := (ho _).2 _ _ _ hb
            have hm3 : (s2.add (.opened (e.absolute st.filename))).mess = s1.mess := by rw [add_mess, t2]
            rcases bind_inv h3 with ⟨s4, _, h4, h5⟩ | ⟨h4, _⟩
            · obtain ⟨rfl, _⟩ := pure_inv h5
              obtain ⟨_, _, ms', u3⟩ := turns_touches e hlaw _ _ _ _ h4
              exact ⟨_, adds_trans hm3 (adds_trans t2 t3 (add_adds _ _)) u3⟩
            · obtain ⟨_, _, ms', u3⟩ := turns_touches e hlaw _ _ _ _ h4
              exact ⟨_, adds_trans hm3 (adds_trans t2 t3 (add_adds _ _)) u3⟩
        · obtain ⟨_, _, ms, t3⟩ := (ho _).1 _ _ _ hb
          exact ⟨ms, t3⟩
      · rw [bind_some (show (say (.noFile (e.absolute st.filename)) : Step σ Unit) s1 = .ok (s1.add (.noFile (e.absolute st.filename)), some ()) from rfl)] at h2
        obtain ⟨rfl, _⟩ := pure_inv h2
        exact ⟨_, add_adds _ _⟩
  obtain ⟨ms, h⟩ := key
  unfold Spec.Adds at h
  rw [hp.logfile] at h
  refine ⟨ms, ?_⟩
  split at h
  · rename_i hlg
    exact Or.inl ⟨hlg, by rw [h.1, hp.console], by rw [h.2, hp.log]⟩
  · rename_i hlg
    exact Or.inr ⟨hlg, by rw [h.1, hp.console], by rw [h.2, hp.log]⟩

/-- **Negation of C86: silence.** With `-nv` among the commands (and no log file), that the database was opened is still told on the
console. -/
theorem not_silent (e : Env) (ob : Path → Step σ (Option (Base σ))) (ho : Spec.Opens ob) (st : State) (s : Sys σ) (hm : s.mess = {})
    (hr : Ready st.commands) (hf : st.filename ≠ []) (hx : (s.fs (e.absolute st.filename)).isSome)
    (hnv : ∃ pc ∈ st.commands, pc.command = .no_verbose) (hl : ∀ pc ∈ st.commands, pc.command ≠ .logfile)
    (hop : ∀ s1, ∃ s2 b, ob (e.absolute st.filename) s1 = .ok (s2, some (some b)))
    (s' : Sys σ) (r : Option Int) (hrun : main e ob st s = .ok (s', r)) : .opened (e.absolute st.filename) ∈ s'.console := by
  have hc : st.commands ≠ [] := by
    rintro h
    obtain ⟨pc, h1, _⟩ := hnv
    rw [h] at h1
    cases h1
  obtain ⟨_, s1, s2, s3, b, ms, ms', hp, _, _, _, h3, h4, _, h5⟩ :=
    commands_in_turn e ob ho st s hm hc hr hf hx (fun pc h1 h2 => absurd h2 (hl pc h1)) hop s' r hrun
  have hlog : s1.mess.logfile = [] := by
    have : ∀ cs : List Parsed, (∀ pc ∈ cs, pc.command ≠ .logfile) → logOf e cs [] = [] := by
      intro cs
      induction cs with
      | nil => intro _; rfl
      | cons pc cs ih =>
        intro h
        have := ih fun q hq => h q (List.mem_cons_of_mem _ hq)
        unfold logOf at this ⊢
        rw [OptionTheorems.lastOr_cons, if_neg (h pc (List.mem_cons_self ..)), this]
    rw [hp.logfile, this _ hl]
  unfold Spec.Adds at h4 h5
  rw [h3, if_pos hlog] at h5
  rw [if_pos hlog] at h4
  rw [h5.1, h4.1]
  simp

/-- **C86: help.** Asked for help the program opens nothing, executes no command and gives status 0; log files named before are removed
all the same. -/
theorem help_only (e : Env) (ob : Path → Step σ (Option (Base σ))) (st : State) (s : Sys σ) (hm : s.mess = {}) (pre post : List Parsed)
    (pc : Parsed) (hc : st.commands = pre ++ pc :: post) (hh : pc.command = .help) (hr : Ready pre) :
    ∃ s', main e ob st s = .ok (s', some 0) ∧ s'.db = s.db ∧ s'.console = s.console ++ st.notes.map .note ∧ s'.log = s.log ∧
      (∀ q, (∀ pc ∈ pre, pc.command = .logfile → e.absolute pc.param1 ≠ q) → s'.fs q = s.fs q) ∧
      (∀ q, (∃ pc ∈ pre, pc.command = .logfile ∧ e.absolute pc.param1 = q) → s'.fs q = none) := by
  obtain ⟨s0, h0, a1, a2, a3, a4⟩ := sayAll_ok (st.notes.map Msg.note) s
  have happ : ∀ (cs : List Parsed) (s : Sys σ), Ready cs → ∀ s1, prepare e cs s = .ok (s1, some true) →
      prepare e (cs ++ pc :: post) s = .ok (s1, some false) := by
    intro cs
    induction cs with
    | nil =>
      intro s _ s1 h
      obtain ⟨rfl, _⟩ := pure_inv h
      rw [List.nil_append, prepare, hh]
      rfl
    | cons a cs ih =>
      intro s hr s1 h
      have hr' : Ready cs := ⟨fun q hq => hr.1 q (List.mem_cons_of_mem _ hq), fun q hq => hr.2 q (List.mem_cons_of_mem _ hq)⟩
      rw [List.cons_append]
      cases ha : a.command with
      | help => exact absurd ha (hr.1 a (List.mem_cons_self ..))
      | no_verbose =>
        rw [prepare, ha] at h ⊢
        exact ih _ hr' _ h
      | logfile =>
        rw [prepare, ha] at h ⊢
        rcases bind_inv h with ⟨s2, u, h1, h2⟩ | ⟨_, h⟩
        · exact (bind_some h1).trans (ih _ hr' _ h2)
        · cases h
      | xml_blob_to_file =>
        rw [prepare, ha] at h ⊢
        rcases bind_inv h with ⟨s2, u, h1, h2⟩ | ⟨_, h⟩
        · exact (bind_some h1).trans (ih _ hr' _ h2)
        · cases h
      | xml_parse_blob =>
        rw [prepare, ha] at h ⊢
        rcases bind_inv h with ⟨s2, u, h1, h2⟩ | ⟨_, h⟩
        · exact (bind_some h1).trans (ih _ hr' _ h2)
        · cases h
      | _ =>
        rw [prepare, ha] at h ⊢
        exact ih _ hr' _ h
  obtain ⟨s1, h1, b1, b2, b3, b4, b5, b6, b7⟩ := prepare_ok e pre s0 hr
  unfold Spec.Adds at a4
  rw [hm, if_pos rfl] at a4
  have hrun : run e ob st.commands st.filename s0 = .ok (s1, some 0) := by
    unfold run
    rw [if_neg (by rw [hc]; simp), hc, bind_some (happ pre s0 hr s1 h1)]
    rfl
  refine ⟨s1, ?_, b1.trans a2, b2.trans a4.1, b3.trans a4.2, fun q hq => (b6 q hq).trans (by rw [a1]), b7⟩
  unfold main
  rw [bind_some h0, bind_some hrun, if_neg (by simp), bind_some (hasError_eq s1), b4, a3, hm]
  rfl

/-- **C86: files.** A run changes no file but the database and those its commands name. -/
theorem only_named_files (e : Env) (ob : Path → Step σ (Option (Base σ))) (ho : Spec.Opens ob) (st : State) (s : Sys σ) (hm : s.mess = {})
    (hc : st.commands ≠ []) (hr : Ready st.commands) (s' : Sys σ) (r : Option Int) (hrun : main e ob st s = .ok (s', r)) (q : Path)
    (hq : q ≠ e.absolute st.filename) (hn : ∀ pc ∈ st.commands, ¬ Spec.Writes e pc q) : s'.fs q = s.fs q := by
  obtain ⟨s1, hp, _, h1⟩ := main_prepared e ob st s hm hc hr
  obtain ⟨r', h2, _⟩ := h1 _ _ hrun
  have h0 : s1.fs q = s.fs q := by
    apply hp.kept
    intro pc hpc hlog hab
    refine hn pc hpc ?_
    unfold Spec.Writes
    rw [hlog]
    exact hab.symm
  rw [← h0]
  unfold runFile at h2
  split at h2
  · rw [bind_some (show (say .noDatabase : Step σ Unit) s1 = .ok (s1.add .noDatabase, some ()) from rfl)] at h2
    obtain ⟨rfl, _⟩ := pure_inv h2
    rw [add_fs]
  · rw [bind_some (show (fileExists (e.absolute st.filename) : Step σ Bool) s1 = .ok (s1, some _) from rfl)] at h2
    split at h2
    · unfold runOpen at h2
      rcases bind_inv h2 with ⟨s2, o, hb, h3⟩ | ⟨hb, _⟩
      · have t1 := ((ho _).1 _ _ _ hb).1 q hq
        rw [← t1]
        cases o with
        | none =>
          simp only at h3
          rw [bind_some (show (say .notOpened : Step σ Unit) s2 = .ok (s2.add .notOpened, some ()) from rfl)] at h3
          obtain ⟨rfl, _⟩ := pure_inv h3
          rw [add_fs]
        | some b =>
          simp only at h3
          rw [bind_some (show (say (.opened (e.absolute st.filename)) : Step σ Unit) s2 = .ok (s2.add (.opened (e.absolute st.filename)), some ()) from rfl)] at h3
          have hlaw := (ho _).2 _ _ _ hb
          have hno : ¬ ((∃ pc ∈ st.commands, Spec.Writes e pc q) ∨ q = e.absolute st.filename) := by
            rintro (⟨pc, h1, h2⟩ | h)
            · exact hn pc h1 h2
            · exact hq h
          rcases bind_inv h3 with ⟨s4, _, h4, h5⟩ | ⟨h4, _⟩
          · obtain ⟨rfl, _⟩ := pure_inv h5
            rw [(turns_touches e hlaw _ _ _ _ h4).1 q hno, add_fs]
          · rw [(turns_touches e hlaw _ _ _ _ h4).1 q hno, add_fs]
      · exact ((ho _).1 _ _ _ hb).1 q hq
    · rw [bind_some (show (say (.noFile (e.absolute st.filename)) : Step σ Unit) s1 = .ok (s1.add (.noFile (e.absolute st.filename)), some ()) from rfl)] at h2
      obtain ⟨rfl, _⟩ := pure_inv h2
      rw [add_fs]

/-! ## C86: where configurations are saved -/

/-- A configuration is saved to the file named, or under the default name in the directory named. -/
theorem saved_where (e : Env) (b : Base σ) (save : Path → Step σ Bool) (p : Path) (s : Sys σ) (hi : b.infobase = true) (name : Bytes)
    (hn : name.head? ≠ some 47) (hp : Spec.EndsCf p ∨ s.fs p = some .dir) :
    ∃ q, Spec.Target p name q ∧ ∀ s1 ok, save q s = .ok (s1, some ok) →
      saveConf e b save name p s = .ok (s1.add (if ok then .saved q else .notSaved q), some ()) := by
  unfold saveConf
  rw [if_pos hi]
  by_cases hc : Spec.EndsCf p
  · refine ⟨p, Or.inl ⟨hc, rfl⟩, ?_⟩
    intro s1 ok h
    have : (place e p name : Step σ (Option Path)) s = .ok (s, some (some p)) := by
      unfold place
      rw [if_pos ((endsCf_iff p).2 hc)]
      rfl
    rw [bind_some this]
    exact bind_some h
  · have hd : s.fs p = some .dir := hp.resolve_left hc
    refine ⟨slash p name, Or.inr ⟨hc, slash_within hn⟩, ?_⟩
    intro s1 ok h
    have hdir : (directoryExists e p false : Step σ Bool) s = .ok (s, some true) := by
      unfold directoryExists
      rw [hd]
    have : (place e p name : Step σ (Option Path)) s = .ok (s, some (some (slash p name))) := by
      unfold place
      rw [if_neg fun h => hc ((endsCf_iff p).1 h), bind_some hdir]
      rfl
    rw [bind_some this]
    exact bind_some h

/-- The commands are these. -/
theorem save_commands (e : Env) (b : Base σ) (p x y : Bytes) :
    command e b ⟨.save_config, p, x, y⟩ = saveConf e b b.saveConfig (Spec.word "dbcf.cf") p ∧
    command e b ⟨.save_configsave, p, x, y⟩ = saveConf e b b.saveConfigSave (Spec.word "cf.cf") p := ⟨rfl, rfl⟩

/-- If there is no such directory nothing is saved, and an error reported. -/
theorem saved_nowhere (e : Env) (b : Base σ) (save : Path → Step σ Bool) (p : Path) (s : Sys σ) (hi : b.infobase = true) (name : Bytes)
    (hc : ¬ Spec.EndsCf p) (hd : s.fs p ≠ some .dir) :
    ∃ m, m.error = true ∧ saveConf e b save name p s = .ok (s.add m, some ()) := by
  unfold saveConf
  rw [if_pos hi]
  have step : ∀ m : Msg, (directoryExists e p false : Step σ Bool) s = .ok (s.add m, some false) →
      (do let q ← place e p name; saveAt save q : Step σ Unit) s = .ok (s.add m, some ()) := by
    intro m hdir
    have : (place e p name : Step σ (Option Path)) s = .ok (s.add m, some none) := by
      unfold place
      rw [if_neg fun h => hc ((endsCf_iff p).1 h), bind_some hdir]
      rfl
    rw [bind_some this]
    rfl
  cases hfs : s.fs p with
  | none => exact ⟨.noDir p, rfl, step _ (by unfold directoryExists; rw [hfs]; rfl)⟩
  | some x =>
    cases x with
    | dir => exact absurd hfs hd
    | file c => exact ⟨.notDir p, rfl, step _ (by unfold directoryExists; rw [hfs])⟩

/-- A database that is no infobase has no configurations. -/
theorem saved_not_infobase (e : Env) (b : Base σ) (save : Path → Step σ Bool) (p : Path) (s : Sys σ) (hi : b.infobase = false) (name : Bytes) :
    saveConf e b save name p s = .ok (s.add .notInfobase, some ()) := by
  unfold saveConf
  rw [if_neg (by rw [hi]; decide)]
  rfl

/-- **C86 (partial): vendor configurations stay in the directory** if no name or version has a slash in it. Missing: with a
slash (`vendor_escapes`). -/
theorem vendor_inside_partial (p name version : Bytes) (hn : (47 : UInt8) ∉ name) (hv : (47 : UInt8) ∉ version) :
    ∃ leaf, Spec.Within p leaf (slash p (name ++ asc " " ++ version ++ asc ".cf")) ∧ (47 : UInt8) ∉ leaf ∧ leaf ≠ [46] ∧ leaf ≠ [46, 46] := by
  have h1 : (47 : UInt8) ∉ asc " " := by decide
  have h2 : (47 : UInt8) ∉ asc ".cf" := by decide
  have h3 : (asc ".cf").length = 3 := by decide
  have hno : (47 : UInt8) ∉ name ++ asc " " ++ version ++ asc ".cf" := by
    simp only [List.mem_append]
    rintro (((h | h) | h) | h) <;> contradiction
  refine ⟨_, slash_within ?_, hno, ?_, ?_⟩
  · intro h
    exact hno (List.mem_of_head? h)
  · intro h
    have := congrArg List.length h
    simp only [List.length_append, h3, List.length_singleton] at this
    omega
  · intro h
    have := congrArg List.length h
    simp only [List.length_append, h3, List.length_cons, List.length_nil] at this
    omega

/-- **Negation of C86.** A vendor configuration named `../../x` is saved outside of the directory `out`. -/
theorem vendor_escapes :
    slash (Spec.word "out") (Spec.word "../../x" ++ asc " " ++ Spec.word "1" ++ asc ".cf") = Spec.word "out/../../x 1.cf" := by
  decide +kernel

/-! ## C86: the file of sizes -/

theorem decimal_toString (n : Nat) : Spec.Decimal (toString n) n := by
  have key : ∀ n : Nat, ∃ ds : List Nat, Nat.toDigits 10 n = ds.map Nat.digitChar ∧ (∀ d ∈ ds, d < 10) ∧
      ds.foldl (fun a d => 10 * a + d) 0 = n ∧ (ds = [0] ∨ ∃ d r, ds = d :: r ∧ d ≠ 0) := by
    intro n
    induction n using Nat.strongRecOn with
    | _ n ih =>
      by_cases h : n < 10
      · refine ⟨[n], Nat.toDigits_of_lt_base h, by simpa using h, by simp, ?_⟩
        by_cases h0 : n = 0
        · exact Or.inl (by rw [h0])
        · exact Or.inr ⟨n, [], rfl, h0⟩
      · obtain ⟨ds, h1, h2, h3, h4⟩ := ih (n / 10) (by omega)
        refine ⟨ds ++ [n % 10], ?_, ?_, ?_, ?_⟩
        · rw [Nat.toDigits_of_base_le (by omega) (by omega), h1]
          simp
        · intro d hd
          rcases List.mem_append.1 hd with hd | hd
          · exact h2 d hd
          · have : d = n % 10 := by simpa using hd
            omega
        · rw [List.foldl_append, h3]
          show 10 * (n / 10) + n % 10 = n
          omega
        · rcases h4 with rfl | ⟨d, r, rfl, hd⟩
          · simp at h3
            omega
          · exact Or.inr ⟨d, r ++ [n % 10], rfl, hd⟩
  obtain ⟨ds, h1, h2, h3, h4⟩ := key n
  refine ⟨ds, ?_, h2, h3, h4⟩
  unfold toString
  rw [if_neg (by omega), Int.natAbs_natCast, h1, List.map_map, List.nil_append]
  apply List.map_congr_left
  intro d hd
  have := h2 d hd
  show UInt8.ofNat (Nat.digitChar d).toNat = _
  have : ∀ d, d < 10 → UInt8.ofNat (Nat.digitChar d).toNat = UInt8.ofNat (48 + d) := by decide
  exact this d (h2 d hd)

theorem decimal_unique {b : Bytes} {m n : Nat} (h1 : Spec.Decimal b m) (h2 : Spec.Decimal b n) : m = n := by
  obtain ⟨d1, e1, l1, v1, _⟩ := h1
  obtain ⟨d2, e2, l2, v2, _⟩ := h2
  have : ∀ (a b : List Nat), (∀ d ∈ a, d < 10) → (∀ d ∈ b, d < 10) →
      a.map (fun d => UInt8.ofNat (48 + d)) = b.map (fun d => UInt8.ofNat (48 + d)) → a = b := by
    intro a
    induction a with
    | nil => intro b _ _ h; cases b with
      | nil => rfl
      | cons => cases h
    | cons x a ih =>
      intro b ha hb h
      cases b with
      | nil => cases h
      | cons y b =>
        simp only [List.map_cons, List.cons.injEq] at h
        have hx := ha x (List.mem_cons_self ..)
        have hy := hb y (List.mem_cons_self ..)
        have hxy := congrArg UInt8.toNat h.1
        rw [UInt8.toNat_ofNat', UInt8.toNat_ofNat'] at hxy
        rw [ih b (fun d hd => ha d (List.mem_cons_of_mem _ hd)) (fun d hd => hb d (List.mem_cons_of_mem _ hd)) h.2,
          show x = y by omega]
  rw [← v1, ← v2, this d1 d2 l1 l2 (e1.symm.trans e2)]

theorem decimal_noBar {b : Bytes} {n : Nat} (h : Spec.Decimal b n) : (124 : UInt8) ∉ b ∧ (13 : UInt8) ∉ b := by
  obtain ⟨ds, rfl, hd, _⟩ := h
  have : ∀ d, d < 10 → UInt8.ofNat (48 + d) ≠ 124 ∧ UInt8.ofNat (48 + d) ≠ 13 := by decide
  constructor
  · intro h
    obtain ⟨d, h1, h2⟩ := List.mem_map.1 h
    exact (this d (hd d h1)).1 h2
  · intro h
    obtain ⟨d, h1, h2⟩ := List.mem_map.1 h
    exact (this d (hd d h1)).2 h2

/-- Two texts divided at the first bar. -/
theorem bar_split {a b c d : Bytes} (ha : (124 : UInt8) ∉ a) (hc : (124 : UInt8) ∉ c) (h : a ++ 124 :: b = c ++ 124 :: d) : a = c ∧ b = d := by
  induction a generalizing c with
  | nil =>
    cases c with
    | nil => simpa using h
    | cons y c =>
      simp only [List.nil_append, List.cons_append, List.cons.injEq] at h
      exact absurd (by rw [h.1]; exact List.mem_cons_self ..) hc
  | cons x a ih =>
    cases c with
    | nil =>
      simp only [List.nil_append, List.cons_append, List.cons.injEq] at h
      exact absurd (by rw [h.1]; exact List.mem_cons_self ..) ha
    | cons y c =>
      simp only [List.cons_append, List.cons.injEq] at h
      obtain ⟨h1, h2⟩ := ih (fun h' => ha (List.mem_cons_of_mem _ h')) (fun h' => hc (List.mem_cons_of_mem _ h')) h.2
      exact ⟨by rw [h.1, h1], h2⟩

/-- A line of the file of sizes can be read in one way only, for names without bars. -/
theorem line_unique {l n n' : Bytes} {r d b i r' d' b' i' : Nat} (hn : (124 : UInt8) ∉ n) (hn' : (124 : UInt8) ∉ n')
    (h : Spec.Line l n r d b i) (h' : Spec.Line l n' r' d' b' i') : n = n' ∧ r = r' ∧ d = d' ∧ b = b' ∧ i = i' := by
  obtain ⟨x1, x2, x3, x4, e, a1, a2, a3, a4⟩ := h
  obtain ⟨y1, y2, y3, y4, e', b1, b2, b3, b4⟩ := h'
  rw [e] at e'
  simp only [List.append_assoc, List.cons_append, List.nil_append] at e'
  obtain ⟨h0, f1⟩ := bar_split hn hn' e'
  obtain ⟨rfl, f2⟩ := bar_split (decimal_noBar a1).1 (decimal_noBar b1).1 f1
  obtain ⟨rfl, f3⟩ := bar_split (decimal_noBar a2).1 (decimal_noBar b2).1 f2
  obtain ⟨rfl, rfl⟩ := bar_split (decimal_noBar a3).1 (decimal_noBar b3).1 f3
  exact ⟨h0, decimal_unique a1 b1, decimal_unique a2 b2, decimal_unique a3 b3, decimal_unique a4 b4⟩

theorem objectSize_small {o : Option Nat} (h : o.getD 0 < 2 ^ 31) : objectSize o = ((o.getD 0 : Nat) : Int) := by
  cases o with
  | none => rfl
  | some n =>
    have h' : n < 2 ^ 31 := h
    show int32 n = (n : Int)
    have e1 : n % 2 ^ 32 = n := Nat.mod_eq_of_lt (Nat.lt_trans h' (by decide))
    rw [int32, e1, if_pos h']

/-- **C86 (partial): sizes of tables.** If the file can be created, it holds a heading and behind it a line for each table in their
order, with its name, number of records and the lengths of its files (0 without the file), if these are below 2 gigabytes. -/
theorem sizes_partial (e : Env) (b : Base σ) (p x y : Bytes) (s : Sys σ) (hc : e.creatable s.fs p = true)
    (hs : ∀ t ∈ b.tables, t.data.getD 0 < 2 ^ 31 ∧ t.blob.getD 0 < 2 ^ 31 ∧ t.index.getD 0 < 2 ^ 31) :
    ∃ (s' : Sys σ) (head : Bytes) (line : TableSize → Bytes), command e b ⟨.save_tables_size, p, x, y⟩ s = .ok (s', some ()) ∧
      (∀ q, q ≠ p → s'.fs q = s.fs q) ∧ (10 : UInt8) ∉ head ∧
      s'.fs p = some (.file (head ++ [13, 10] ++ b.tables.flatMap fun t => line t ++ [13, 10])) ∧
      ∀ t ∈ b.tables, Spec.Line (line t) t.name t.records (t.data.getD 0) (t.blob.getD 0) (t.index.getD 0) := by
  refine ⟨_, [0xEF, 0xBB, 0xBF] ++ asc "table_name|records_count|data_size|blob_size|index_size", fun t =>
    t.name ++ asc "|" ++ toString t.records ++ asc "|" ++ toString (objectSize t.data) ++ asc "|" ++
    toString (objectSize t.blob) ++ asc "|" ++ toString (objectSize t.index), rfl, ?_, by decide +kernel, ?_, ?_⟩
  · intro q hq
    rw [if_pos hc]
    exact if_neg hq
  · rw [if_pos hc]
    show (if p = p then _ else _) = _
    rw [if_pos rfl]
    rfl
  · intro t ht
    obtain ⟨h1, h2, h3⟩ := hs t ht
    refine ⟨toString (t.records : Nat), toString (objectSize t.data), toString (objectSize t.blob), toString (objectSize t.index), rfl, ?_, ?_, ?_, ?_⟩
    · exact decimal_toString _
    · rw [objectSize_small h1]; exact decimal_toString _
    · rw [objectSize_small h2]; exact decimal_toString _
    · rw [objectSize_small h3]; exact decimal_toString _

/-- **Negation of C86: sizes.** A file of 2 gigabytes or more, up to 4, has a negative length. -/
theorem sizes_negative (n : Nat) (h1 : 2 ^ 31 ≤ n) (h2 : n < 2 ^ 32) :
    objectSize (some n) = (n : Int) - 2 ^ 32 ∧ (toString (objectSize (some n))).head? = some 45 := by
  have : objectSize (some n) = (n : Int) - 2 ^ 32 := by
    show int32 n = _
    have e1 : n % 2 ^ 32 = n := Nat.mod_eq_of_lt h2
    rw [int32, e1, if_neg (Nat.not_lt.2 h1)]
    rfl
  refine ⟨this, ?_⟩
  rw [this]
  unfold toString
  rw [if_pos (by omega)]
  rfl

/-- **Negation of C86: sizes.** If the file cannot be created, nothing is said. -/
theorem sizes_not_created (e : Env) (b : Base σ) (p x y : Bytes) (s : Sys σ) (hc : e.creatable s.fs p = false) :
    command e b ⟨.save_tables_size, p, x, y⟩ s = .ok (s, some ()) := by
  show saveSizes e b p s = _
  unfold saveSizes
  rw [if_neg (by rw [hc]; decide)]

/-- **C86: part of a depot.** With a range `a:z`, the first version is looked up for `a` and the last one for `z`; if both are there, the part
between these two is saved in the directory, which is created if it is missing, and the outcome is told. -/
theorem depot_part_saved (e : Env) (b : Base σ) (range dir y : Bytes) (a z v w : Int) (s s1 s2 : Sys σ) (hd : b.depot = true)
    (hr : versionRange range = .ok (a, z)) (h1 : b.depotVersion a s = .ok (s1, some v)) (hv : v ≠ 0)
    (h2 : b.depotVersion z s1 = .ok (s2, some w)) (hw : w ≠ 0) (hdir : s2.fs dir = some .dir ∨ s2.fs dir = none ∧ e.makable s2.fs dir = true) :
    ∃ s3 : Sys σ, s3.fs dir = some .dir ∧ (∀ q, q ≠ dir → s3.fs q = s2.fs q) ∧ s3.db = s2.db ∧ s3.mess = s2.mess ∧
      ∀ s4 ok, b.savePart dir v w s3 = .ok (s4, some ok) →
        command e b ⟨.save_depot_config_part, range, dir, y⟩ s = .ok (s4.add (if ok then .saved dir else .notSaved dir), some ()) := by
  have key : ∀ s3 : Sys σ, directoryExists e dir true s2 = .ok (s3, some true) → ∀ s4 ok, b.savePart dir v w s3 = .ok (s4, some ok) →
      command e b ⟨.save_depot_config_part, range, dir, y⟩ s = .ok (s4.add (if ok then .saved dir else .notSaved dir), some ()) := by
    intro s3 h3 s4 ok h4
    show saveDepotConfigPart e b ⟨.save_depot_config_part, range, dir, y⟩ s = _
    unfold saveDepotConfigPart
    rw [if_pos hd]
    have hl : (lift (versionRange range) : Step σ (Int × Int)) s = .ok (s, some (a, z)) := by unfold lift; rw [hr]
    rw [bind_some hl]
    unfold saveDepotPart
    rw [bind_some h1, if_neg hv, bind_some h2, if_neg hw]
    unfold inDir
    rw [bind_some h3, if_pos rfl, bind_some h4]
    rfl
  rcases hdir with h | ⟨h, hm⟩
  · refine ⟨s2, h, fun _ _ => rfl, rfl, rfl, key s2 ?_⟩
    unfold directoryExists
    rw [h]
  · refine ⟨{ s2 with fs := fun q => if q = dir then some .dir else s2.fs q }, if_pos rfl, fun q hq => if_neg hq, rfl, rfl, key _ ?_⟩
    unfold directoryExists
    rw [h]
    simp only
    rw [if_pos trivial, if_pos hm]

/-- **C86: a configuration of a depot.** The version that is there for the number given is saved, under the path given if it ends with
`.cf`. -/
theorem depot_config_saved (e : Env) (b : Base σ) (num path y : Bytes) (n v : Int) (s s1 s2 : Sys σ) (ok : Bool) (hd : b.depot = true)
    (hn : (if num = asc "0" then .ok 0 else toIntDef num 0) = .ok n) (h1 : b.depotVersion n s = .ok (s1, some v)) (hv : v ≠ 0)
    (hp : Spec.EndsCf (e.absolute path)) (h2 : b.saveDepot (e.absolute path) v s1 = .ok (s2, some ok)) :
    command e b ⟨.save_depot_config, num, path, y⟩ s =
      .ok (s2.add (if ok then .saved (e.absolute path) else .notSaved (e.absolute path)), some ()) := by
  show saveDepotConfig e b ⟨.save_depot_config, num, path, y⟩ s = _
  unfold saveDepotConfig
  rw [if_pos hd]
  have hl : (lift (if num = asc "0" then .ok 0 else toIntDef num 0) : Step σ Int) s = .ok (s, some n) := by unfold lift; rw [hn]
  rw [bind_some hl, bind_some h1]
  unfold saveDepotVersion
  rw [if_neg hv]
  have hpl : (place e (e.absolute path) (asc "v" ++ toString v ++ asc ".cf") : Step σ (Option Path)) s1 =
      .ok (s1, some (some (e.absolute path))) := by
    unfold place
    rw [if_pos ((endsCf_iff _).2 hp)]
    rfl
  rw [bind_some hpl]
  show (b.saveDepot (e.absolute path) v >>= fun ok => report (e.absolute path) ok) s1 = _
  rw [bind_some h2]
  rfl

/-- **C86: no such version.** A number for which the depot has no version is an error, and nothing is saved. -/
theorem depot_no_version (e : Env) (b : Base σ) (num path y : Bytes) (n : Int) (s s1 : Sys σ) (hd : b.depot = true)
    (hn : (if num = asc "0" then .ok 0 else toIntDef num 0) = .ok n) (h1 : b.depotVersion n s = .ok (s1, some 0)) :
    command e b ⟨.save_depot_config, num, path, y⟩ s = .ok (s1.add (.noVersion 0), some ()) := by
  show saveDepotConfig e b ⟨.save_depot_config, num, path, y⟩ s = _
  unfold saveDepotConfig
  rw [if_pos hd]
  have hl : (lift (if num = asc "0" then .ok 0 else toIntDef num 0) : Step σ Int) s = .ok (s, some n) := by unfold lift; rw [hn]
  rw [bind_some hl, bind_some h1]
  rfl

end Verif.App
