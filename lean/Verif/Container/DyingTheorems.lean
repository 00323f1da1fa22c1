import Verif.Container.DyingLemmas
import Verif.Container.DyingSpec
import Verif.Container.OpenTheorems

/-!
# C118: the process ends before a container is closed
-/

namespace Verif.Container
open Verif Verif.Unicode Verif.Unicode.Spec Verif.Container.Spec

theorem cost_needs (cd : Codec) (id : Nat) (n : List Nat) (hn : Name n) (cr mo : Nat) (b : Bytes) (hb : Packs cd b) :
    cost cd (newEnt id n cr mo b) = (match cd.pack b with | .ok p => p.length | _ => 0) + (utf16Text n).length + 86 := by
  obtain ⟨p, hp, _, _⟩ := hb
  unfold cost newEnt
  simp only [if_true]
  have h : Entry.headerBytes cr mo (utf8Text n) = .ok (Entry.le64 cr ++ Entry.le64 mo ++ [0, 0, 0, 0] ++ utf16Text n ++ [0, 0, 0, 0]) := by
    unfold Entry.headerBytes
    rw [utf8_to_utf16 _ (fun c hc => (hn c hc).1)]
    rfl
  rw [h, hp]
  simp only [sizeOf', List.length_append, Entry.le64_length, List.length_cons, List.length_nil]
  omega

theorem addFiles_ok {cd : Codec} (fuel : Nat) (hf : LAST ≤ fuel) (fs : List NewFile) : ∀ (k : Catalog) (s s0 : Store) (ls : Ghost),
    Inv cd k s ls → Phys k.cat s0 → AllNew (ls.map Prod.snd) fs →
    (∀ f ∈ fs, Name f.name ∧ Packs cd f.body ∧ f.created < 2 ^ 64) → extent k.cat + needs cd fs < LAST →
    ∃ k' s' s1 ls', addFiles cd fuel k fs = .ok (some k') ∧ Inv cd k' s' ls' ∧ ls'.map Prod.snd = withNew (ls.map Prod.snd) fs ∧
      Grown k.cat s0 k'.cat s1 ∧ extent k'.cat < LAST := by
  induction fs with
  | nil =>
    intro k s s0 ls h hp _ _ hd
    exact ⟨k, s, s0, ls, rfl, h, by simp [withNew], grown_refl hp, by simp [needs] at hd; exact hd⟩
  | cons f fs ih =>
    intro k s s0 ls h hp hnew hok hd
    obtain ⟨hn, hb, hcr⟩ := hok f (by simp)
    obtain ⟨hnw, hpw⟩ := hnew
    rw [List.pairwise_cons] at hpw
    have hcost := cost_needs cd k.fresh f.name hn f.created f.modified f.body hb
    have hneeds : needs cd (f :: fs) = cost cd (newEnt k.fresh f.name f.created f.modified f.body) + needs cd fs := by rw [hcost]; rfl
    rw [hneeds] at hd
    obtain ⟨e0, k0, k1, s1, e1, h1, h2, h3, h4, h5⟩ := store_grown h f.name hn f.body hb f.created f.modified f.now hcr
      (fun x hx => hnw f (by simp) x.2 (List.mem_map.2 ⟨x, hx, rfl⟩)) fuel hf (by omega)
    obtain ⟨t1, hg1⟩ := h5 s0 hp
    obtain ⟨k2, s2, t2, ls2, i1, i2, i3, i4, i5⟩ := ih k1 s1 t1 _ h3 hg1.1 ⟨by
        intro g hg p hp
        rw [List.map_append, List.mem_append] at hp
        rcases hp with hp | hp
        · exact hnw g (by simp [hg]) p hp
        · simp only [List.map_cons, List.map_nil, List.mem_singleton] at hp
          rw [hp]; exact hpw.1 g hg, hpw.2⟩ (fun g hg => hok g (by simp [hg])) (by omega)
    refine ⟨k2, s2, t2, ls2, ?_, i2, ?_, grown_trans hg1 i4, i5⟩
    · rw [addFiles]
      have : addFile cd fuel k f = .ok (some k1) := by
        unfold addFile
        rw [h1, Outcome.ok_bind]
        exact h2
      rw [this, Outcome.ok_bind]
      exact i1
    · rw [i3]
      unfold withNew
      simp

theorem allowed_split {cd : Codec} {fuel : Nat} {op : UserOp} (ops : List UserOp) : ∀ k, Allowed cd fuel k (ops ++ [op]) →
    Allowed cd fuel k ops ∧ ∀ k1, session cd fuel k ops = .ok (some k1) → OpOk cd k1 op := by
  induction ops with
  | nil =>
    intro k h
    refine ⟨trivial, ?_⟩
    intro k1 h1
    cases h1
    exact h.1
  | cons o ops ih =>
    intro k h
    obtain ⟨h1, h2⟩ := h
    unfold Allowed
    rw [session]
    cases hs : step cd fuel k o with
    | throw => exact ⟨⟨h1, trivial⟩, fun k1 h => (by cases h)⟩
    | ub => exact ⟨⟨h1, trivial⟩, fun k1 h => (by cases h)⟩
    | ok r =>
      rw [hs] at h2
      cases r with
      | none => exact ⟨⟨h1, trivial⟩, fun k1 h => (by cases h)⟩
      | some r =>
        cases r with
        | container k2 =>
          obtain ⟨a, b⟩ := ih k2 h2
          exact ⟨⟨h1, a⟩, b⟩
        | other => exact ⟨⟨h1, trivial⟩, fun k1 h => (by cases h)⟩
        | broken _ => exact ⟨⟨h1, trivial⟩, fun k1 h => (by cases h)⟩

theorem session_split {cd : Codec} {fuel : Nat} {op : UserOp} {k1 : Catalog} (ops : List UserOp) : ∀ k,
    session cd fuel k ops = .ok (some k1) → session cd fuel k (ops ++ [op]) = session cd fuel k1 [op] := by
  induction ops with
  | nil => intro k h; cases h; rfl
  | cons o ops ih =>
    intro k h
    rw [session] at h
    rw [List.cons_append, session]
    cases hs : step cd fuel k o with
    | throw => rw [hs] at h; cases h
    | ub => rw [hs] at h; cases h
    | ok r =>
      rw [hs] at h
      cases r with
      | none => cases h
      | some r =>
        cases r with
        | container k2 => exact ih k2 h
        | other => cases h
        | broken _ => cases h

/-- **C118 (partial).** A container has any legal history from an empty stream on, and is flushed; then new files are added, and the process
ends before it is closed. Up to then each of the files is in the container; but the file that is left opens without complaint as the
container that was flushed: every name gives what it gave then, and the added files are gone. Missing: contents that the
codec cannot give back (`Packs`, as in C66). Replaced files are C119. -/
theorem added_lost_partial (cd : Codec) (fuel : Nat) (hf : LAST ≤ fuel) (ops : List UserOp)
    (hl : Allowed cd fuel blankCatalog (ops ++ [.flush])) :
    ∃ k, session cd fuel blankCatalog (ops ++ [.flush]) = .ok (some k) ∧
      ∀ fs, AllNew (ops.foldl after []) fs →
        (∀ f ∈ fs, Name f.name ∧ Packs cd f.body ∧ f.created < 2 ^ 64) →
        max (2 ^ 17) (leftBehind k).length + needs cd fs < LAST →
        ∃ k' o, addFiles cd fuel k fs = .ok (some k') ∧
          (∀ n, Name n → content cd fuel k' (utf8Text n) = .ok (some (lookup (withNew (ops.foldl after []) fs) n))) ∧
          openCatalog fuel (leftBehind k') = .ok (some (.container o)) ∧
          (∀ n, Name n → content cd fuel o (utf8Text n) = .ok (some (lookup (ops.foldl after []) n))) ∧
          o.ents.length = (ops.foldl after []).length := by
  obtain ⟨hl1, hl2⟩ := allowed_split ops _ hl
  obtain ⟨k0, s0, ls0, e0, h0, hd0, hs0⟩ := session_ok fuel hf ops blankCatalog _ [] (blank_inv cd) (by decide) hl1
  obtain ⟨k, s, ls, e1, h1, hcl, hs1, _, hfm, hem, hx⟩ := flush_ok h0 (hl2 k0 e0) fuel hf
  have hsnd : ls.map Prod.snd = ops.foldl after [] := by rw [hs1, hs0]; rfl
  refine ⟨k, ?_, ?_⟩
  · rw [session_split ops _ e0, session]
    unfold step
    simp only
    rw [e1]
    rfl
  · intro fs hnew hok hd
    obtain ⟨k', s', t', ls', i1, i2, i3, i4, i5⟩ := addFiles_ok fuel hf fs k s s ls h1 h1.phys (by rw [hsnd]; exact hnew) hok hd
    obtain ⟨o, lo, j1, j2, j3, _, j5⟩ := open_grown h1 hcl hfm hem i4 i5 fuel hf
    refine ⟨k', o, i1, ?_, j1, ?_, ?_⟩
    · intro n hn
      rw [content_ok i2 i5 fuel hf n hn, i3, hsnd]
    · intro n hn
      rw [content_core j2 i4.1 j5 i5 fuel hf n hn, j3, hsnd]
    · rw [j2.ents, ← hsnd, ← j3]; simp

/-! ### A case that meets the hypotheses -/

/-- Two files, flushed. -/
def twoFiles : List UserOp := [.put [0x41] [1, 2, 3] 5, .put [0x42] [4] 6]

/-- Two further files. -/
def further : List NewFile := [⟨[0x43], 7, 8, 9, [5, 6]⟩, ⟨[0x44], 7, 8, 9, [7]⟩]

instance (ps : Contents) (fs : List NewFile) : Decidable (AllNew ps fs) := by unfold AllNew; infer_instance

example : Allowed plainCodec LAST blankCatalog (twoFiles ++ [.flush]) ∧ AllNew (twoFiles.foldl after []) further ∧
    (∀ f ∈ further, Name f.name ∧ Packs plainCodec f.body ∧ f.created < 2 ^ 64) ∧ needs plainCodec further = 179 := by decide +kernel

/-- A container with free pages, which the added files take. -/
def withFree : List UserOp := twoFiles ++ [.flush, .remove [0x42]]

example : Allowed plainCodec LAST blankCatalog (withFree ++ [.flush]) ∧ AllNew (withFree.foldl after []) further := by decide +kernel

example : (match session plainCodec LAST blankCatalog (withFree ++ [.flush]) with
    | .ok (some k) => decide (k.cat.next = LAST ∨ 2 ^ 17 < (leftBehind k).length)
    | _ => true) = false := by decide +kernel

/-- What the container that is left behind holds: the names and contents, in order. -/
def reopened (k : Catalog) : Option (List (Bytes × Option Bytes)) :=
  match openCatalog LAST (leftBehind k) with
  | .ok (some (.container o)) => some (o.ents.map fun e => (e.name, match content plainCodec LAST o e.name with | .ok (some c) => c | _ => none))
  | _ => none

/-- **C118, disagreement.** Files that are removed give up their pages at once, but stay in the directory until the container is flushed. If the
process ends before that, they are back: with their contents in their names, and with parts of other removed files in their contents. -/
theorem removed_comes_back : ∃ k, session plainCodec LAST blankCatalog (twoFiles ++ [.flush, .remove [0x42], .remove [0x41]]) = .ok (some k) ∧
    k.ents = [] ∧ reopened k = some
      [([65, 0, 0, 200, 129, 216, 131, 0, 0, 0, 216, 128, 0, 0, 0, 0, 0, 228, 136, 128, 0, 0, 208, 128],
          some [1, 2, 3, 6, 0, 0, 0, 0, 0, 0, 0, 6, 0, 0, 0, 0, 0, 0, 0, 0, 0, 0, 0, 66, 0, 0, 0, 0, 0, 4]),
        ([66, 0, 0], some [4])] := by
  have h : (match session plainCodec LAST blankCatalog (twoFiles ++ [.flush, .remove [0x42], .remove [0x41]]) with
      | .ok (some k) => decide (k.ents = []) && (reopened k == some
        [([65, 0, 0, 200, 129, 216, 131, 0, 0, 0, 216, 128, 0, 0, 0, 0, 0, 228, 136, 128, 0, 0, 208, 128],
            some [1, 2, 3, 6, 0, 0, 0, 0, 0, 0, 0, 6, 0, 0, 0, 0, 0, 0, 0, 0, 0, 0, 0, 66, 0, 0, 0, 0, 0, 4]),
          ([66, 0, 0], some [4])])
      | _ => false) = true := by decide +kernel
  split at h
  · next k e =>
    rw [Bool.and_eq_true, decide_eq_true_eq] at h
    exact ⟨k, e, h.1, eq_of_beq h.2⟩
  · cases h

end Verif.Container
