import Verif.Config.PathSpec

/-! # Theorems about paths (property C51) -/

namespace Verif.Config.PathTheorems
open Verif Verif.Config Verif.Config.Spec

theorem findSep_plain (s : Str) (h : '\\' ∉ s) : findSep s = none := by
  induction s with
  | nil => rfl
  | cons c s ih =>
    simp only [List.mem_cons, not_or] at h
    rw [findSep, if_neg (fun e => h.1 e.symm), ih h.2]
    rfl

theorem findSep_join (d rest : Str) (h : '\\' ∉ d) : findSep (d ++ '\\' :: rest) = some d.length := by
  induction d with
  | nil => rfl
  | cons c d ih =>
    simp only [List.mem_cons, not_or] at h
    rw [List.cons_append, findSep, if_neg (fun e => h.1 e.symm), ih h.2]
    rfl

theorem backslashes_plain (s : Str) (h : '/' ∉ s) : backslashes s = s := by
  induction s with
  | nil => rfl
  | cons c s ih =>
    simp only [List.mem_cons, not_or] at h
    rw [backslashes, List.map_cons, if_neg (fun e => h.1 e.symm)]
    congr 1
    exact ih h.2

theorem join_noSlash (dirs : List Str) (file : Str) (hd : ∀ d ∈ dirs, Plain d) (hf : Plain file) : '/' ∉ joinPath dirs file := by
  induction dirs with
  | nil => exact hf.2
  | cons d ds ih =>
    simp only [joinPath, List.mem_append, List.mem_cons, not_or]
    exact ⟨(hd d (by simp)).2, by decide, ih (fun x hx => hd x (by simp [hx]))⟩

theorem beforeSep_join (d rest : Str) (h : d ≠ []) : beforeSep (d ++ '\\' :: rest) d.length = d.dropLast := by
  have : d.length ≠ 0 := by simpa using h
  rw [beforeSep, if_neg this, List.dropLast_eq_take, List.take_append_of_le_length (by omega)]

theorem drop_join (d rest : Str) : (d ++ '\\' :: rest).drop (d.length + 1) = rest := by
  rw [show d ++ '\\' :: rest = (d ++ ['\\']) ++ rest by simp]
  exact List.drop_left' (by simp)

theorem walk_join (K : Cats C F) (dirs : List Str) (file : Str) (hd : ∀ d ∈ dirs, Plain d ∧ d ≠ []) (hf : Plain file)
    (fuel : Nat) (hfuel : dirs.length < fuel) (c : C) :
    walkPath K fuel c (joinPath dirs file) = entryAt K c (dirs.map List.dropLast) file := by
  induction dirs generalizing fuel c with
  | nil =>
    cases fuel with
    | zero => simp at hfuel
    | succ fuel => rw [walkPath, joinPath, findSep_plain file hf.1]; rfl
  | cons d ds ih =>
    cases fuel with
    | zero => simp at hfuel
    | succ fuel =>
      obtain ⟨hp, hne⟩ := hd d (by simp)
      rw [walkPath, joinPath, findSep_join d _ hp.1]
      simp only
      rw [beforeSep_join d _ hne, drop_join]
      simp only [List.map_cons, entryAt]
      cases K.getFile c d.dropLast with
      | none => rfl
      | some f =>
        simp only
        cases K.catalog f with
        | none => rfl
        | some c' => exact ih (fun x hx => hd x (by simp [hx])) fuel (by simp at hfuel; omega) c'

theorem length_join (dirs : List Str) (file : Str) : dirs.length ≤ (joinPath dirs file).length := by
  induction dirs with
  | nil => simp
  | cons d ds ih => simp [joinPath]; omega

/-- What a path addresses: the entry named `file` in the directories whose names are the given ones *without
their last characters*. -/
theorem read_addresses (K : Cats C F) (root : C) (dirs : List Str) (file : Str) (hd : ∀ d ∈ dirs, Plain d ∧ d ≠ []) (hf : Plain file) :
    readPath K root (joinPath dirs file) = entryAt K root (dirs.map List.dropLast) file := by
  rw [readPath, backslashes_plain _ (join_noSlash dirs file (fun d hd' => (hd d hd').1) hf)]
  exact walk_join K dirs file hd hf _ (by have := length_join dirs file; omega) root

/-- A path without directories addresses the entry of this name. -/
theorem plain_path_partial (K : Cats C F) (root : C) (file : Str) (hf : Plain file) :
    readPath K root file = K.getFile root file ∧ pathExists K root file = (K.getFile root file).isSome ∧
    writePath file = ([], file) := by
  refine ⟨read_addresses K root [] file (fun _ h => by cases h) hf, ?_, ?_⟩
  · simp only [pathExists]
    rw [backslashes_plain file hf.2, findSep_plain file hf.1]
  · simp only [writePath]
    rw [backslashes_plain file hf.2, writeTarget, findSep_plain file hf.1]

/-- Both separators mean the same. -/
theorem slash_same (K : Cats C F) (root : C) (path : Str) : readPath K root (backslashes path) = readPath K root path := by
  unfold readPath
  congr 1
  · simp [backslashes]
  · unfold backslashes
    rw [List.map_map]
    refine List.map_congr_left (fun c _ => ?_)
    simp only [Function.comp_apply]
    by_cases h : c = '/'
    · rw [if_pos h]; decide
    · rw [if_neg h, if_neg h]

/-- **Negation of C51.** A file in a directory is not found, and is reported not to exist, unless there is another directory
whose name lacks the last character. -/
theorem directory_missed (K : Cats C F) (root : C) (d file : Str) (hd : Plain d) (hne : d ≠ []) (hf : Plain file)
    (hno : K.getFile root d.dropLast = none) :
    readPath K root (joinPath [d] file) = none ∧ pathExists K root (joinPath [d] file) = false := by
  constructor
  · rw [read_addresses K root [d] file (by simpa using ⟨hd, hne⟩) hf]
    simp [entryAt, hno]
  · simp only [pathExists]
    rw [backslashes_plain _ (join_noSlash [d] file (by simpa using hd) hf)]
    simp only [joinPath]
    rw [findSep_join d file hd.1]
    simp only
    rw [beforeSep_join d file hne, hno]
    rfl

/-- **Negation of C51, writing.** A file written to a directory goes to a directory of another name. -/
theorem written_elsewhere (d file : Str) (hd : Plain d) (hne : d ≠ []) (hf : Plain file) :
    writePath (joinPath [d] file) = ([d.dropLast], file) ∧ d.dropLast ≠ d := by
  constructor
  · simp only [writePath]
    rw [backslashes_plain _ (join_noSlash [d] file (by simpa using hd) hf)]
    simp only [joinPath]
    rw [writeTarget, findSep_join d file hd.1]
    simp only
    rw [beforeSep_join d file hne, drop_join]
    have : ∀ n, writeTarget n file = ([], file) := by
      intro n
      cases n with
      | zero => rfl
      | succ n => rw [writeTarget, findSep_plain file hf.1]
    rw [this]
  · intro e
    have := congrArg List.length e
    rw [List.length_dropLast] at this
    have : d.length ≠ 0 := by simpa using hne
    omega

/-- What one path stores another does read back: both lose the same character. -/
theorem write_read_agree (d file : Str) (hd : Plain d) (hne : d ≠ []) (hf : Plain file) (K : Cats C F) (root : C) :
    readPath K root (joinPath [d] file) =
      entryAt K root (writePath (joinPath [d] file)).1 (writePath (joinPath [d] file)).2 := by
  rw [read_addresses K root [d] file (by simpa using ⟨hd, hne⟩) hf, (written_elsewhere d file hd hne hf).1]
  rfl

/-- In a table of files the same holds for the file of the table. -/
theorem table_top_level (d file : Str) (hd : Plain d) (hne : d ≠ []) (hf : Plain file) :
    topLevel (joinPath [d] file) = (d.dropLast, file) ∧ topLevel file = (file, []) := by
  constructor
  · simp only [topLevel]
    rw [backslashes_plain _ (join_noSlash [d] file (by simpa using hd) hf)]
    simp only [joinPath]
    rw [findSep_join d file hd.1]
    simp only
    rw [beforeSep_join d file hne, drop_join]
  · simp only [topLevel]
    rw [backslashes_plain file hf.2, findSep_plain file hf.1]

/-! ## All paths -/

/-- Every text is a path: directories, the names of which may be empty, and a file. -/
theorem is_path (path : Str) : ∃ dirs file, (∀ d ∈ dirs, Plain d) ∧ Plain file ∧ backslashes path = joinPath dirs file := by
  induction path with
  | nil => exact ⟨[], [], by simp, ⟨by simp, by simp⟩, rfl⟩
  | cons c path ih =>
    obtain ⟨dirs, file, hd, hf, e⟩ := ih
    have hb : backslashes (c :: path) = (if c = '/' then '\\' else c) :: joinPath dirs file := by rw [← e]; rfl
    by_cases hc : c = '/' ∨ c = '\\'
    · refine ⟨[] :: dirs, file, ?_, hf, ?_⟩
      · intro d hd'
        rcases List.mem_cons.1 hd' with rfl | hd'
        · exact ⟨by simp, by simp⟩
        · exact hd d hd'
      · rw [hb]
        rcases hc with rfl | rfl <;> rfl
    · simp only [not_or] at hc
      rw [if_neg hc.1] at hb
      have hp : ∀ s, Plain s → Plain (c :: s) := fun s hs =>
        ⟨by simp only [List.mem_cons, not_or]; exact ⟨fun e => hc.2 e.symm, hs.1⟩, by simp only [List.mem_cons, not_or]; exact ⟨fun e => hc.1 e.symm, hs.2⟩⟩
      cases dirs with
      | nil => exact ⟨[], c :: file, by simp, hp file hf, hb⟩
      | cons d ds =>
        refine ⟨(c :: d) :: ds, file, ?_, hf, hb⟩
        intro x hx
        rcases List.mem_cons.1 hx with rfl | hx
        · exact hp d (hd d (by simp))
        · exact hd x (by simp [hx])

theorem target_join (dirs : List Str) (file : Str) (hd : ∀ d ∈ dirs, Plain d) (hf : Plain file) (fuel : Nat) (hfuel : dirs.length < fuel) :
    writeTarget fuel (joinPath dirs file) = (lookedFor dirs file, file) := by
  induction dirs generalizing fuel with
  | nil =>
    cases fuel with
    | zero => simp at hfuel
    | succ fuel => rw [writeTarget, joinPath, findSep_plain file hf.1]; rfl
  | cons d ds ih =>
    cases fuel with
    | zero => simp at hfuel
    | succ fuel =>
      rw [writeTarget, joinPath, findSep_join d _ (hd d (by simp)).1]
      simp only
      rw [drop_join, ih (fun x hx => hd x (by simp [hx])) fuel (by simp at hfuel; omega), lookedFor]
      simp only
      by_cases h : d = []
      · subst h
        rfl
      · rw [if_neg h, beforeSep_join d _ h]

/-- **Where a path leads, for every path.** Whatever its directories are called, empty names among them: what is written to the path goes to
the directories looked for. -/
theorem write_addresses (path : Str) (dirs : List Str) (file : Str) (hd : ∀ d ∈ dirs, Plain d) (hf : Plain file) (h : backslashes path = joinPath dirs file) :
    writePath path = (lookedFor dirs file, file) := by
  rw [writePath, h]
  refine target_join dirs file hd hf _ ?_
  have h1 := length_join dirs file
  have h2 := congrArg List.length h
  simp only [backslashes, List.length_map] at h2
  omega

theorem walk_target (K : Cats C F) : ∀ (fuel : Nat) (c : C) (fname : Str), fname.length < fuel →
    walkPath K fuel c fname = entryAt K c (writeTarget fuel fname).1 (writeTarget fuel fname).2
  | 0, _, _, h => by omega
  | fuel + 1, c, fname, h => by
    rw [walkPath, writeTarget]
    cases e : findSep fname with
    | none => rfl
    | some i =>
      simp only [entryAt]
      cases K.getFile c (beforeSep fname i) with
      | none => rfl
      | some f =>
        simp only
        cases K.catalog f with
        | none => rfl
        | some c' =>
          simp only
          refine walk_target K fuel c' _ ?_
          have : fname ≠ [] := by rintro rfl; cases e
          have := List.length_pos_iff.2 this
          rw [List.length_drop]
          omega

/-- **Reading finds what was written, for every path**: the entry that is read is the one that writing to the same path makes, and a path is said to exist
exactly if the outermost of these entries does. -/
theorem read_write_same (K : Cats C F) (root : C) (path : Str) :
    readPath K root path = entryAt K root (writePath path).1 (writePath path).2 ∧
    pathExists K root path = (K.getFile root ((writePath path).1.headD (writePath path).2)).isSome := by
  constructor
  · exact walk_target K _ root _ (by simp [backslashes])
  · simp only [pathExists, writePath]
    rw [writeTarget]
    cases findSep (backslashes path) <;> rfl

/-- **Negation of C51, empty names.** A path that begins with a separator leads to a directory the name of which is this whole path: the file `x` beside
it is not found. -/
theorem leading_separator (K : Cats C F) (root : C) (path : Str) (h : K.getFile root ('\\' :: backslashes path) = none) :
    readPath K root ('/' :: path) = none ∧ pathExists K root ('/' :: path) = false := by
  have hb : backslashes ('/' :: path) = '\\' :: backslashes path := rfl
  constructor
  · rw [readPath, hb, walkPath]
    simp only [findSep, if_true, beforeSep]
    rw [h]
  · simp only [pathExists, hb, findSep, if_true, beforeSep]
    rw [h]
    rfl

/-- A container with the directory `ab` that holds the entry `c` and the entry `x` beside it; entries are numbered. -/
def sample : Cats Nat Nat where
  getFile := fun c n => if c = 0 ∧ n = ['a', 'b'] then some 1 else if c = 1 ∧ n = ['c'] then some 2
    else if c = 0 ∧ n = ['x'] then some 3 else none
  catalog := fun f => if f = 1 then some 1 else none

example : entryAt sample 0 [['a', 'b']] ['c'] = some 2 ∧ readPath sample 0 "ab/c".toList = none ∧
    pathExists sample 0 "ab\\c".toList = false ∧ readPath sample 0 "abz\\c".toList = some 2 ∧
    readPath sample 0 "x".toList = some 3 ∧ readPath sample 0 "/x".toList = none ∧ writePath "/a//b".toList = (["\\a\\\\b".toList, [], "\\b".toList], ['b']) := by decide

end Verif.Config.PathTheorems
