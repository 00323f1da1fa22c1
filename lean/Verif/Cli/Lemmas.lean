import Verif.Cli.Spec
import Verif.Unicode.Theorems

/-! # Helper lemmas: command lines -/

namespace Verif.Cli
open Verif Verif.Unicode Verif.Unicode.Spec Verif.Cli.Spec

theorem middle_eq (p : Bytes) (h : 2 ≤ p.length) : (p.drop 1).take (p.length - 2) = (p.drop 1).dropLast := by
  rw [List.dropLast_eq_take, List.length_drop]
  congr 1

/-- Removing quotes from a clean parameter returns. -/
theorem dequote_of_clean (p : Bytes) (h : Clean p) (fuel : Nat) (hf : 0 < fuel) :
    dequote fuel p = .ok (some (unquote p)) := by
  unfold dequote
  rcases h with h | ⟨hne, hl⟩
  · rw [if_pos h]
    unfold unquote
    rw [if_neg (by omega)]
  · by_cases h2 : p.length < 2
    · rw [if_pos h2]
      unfold unquote
      rw [if_neg (by omega)]
    · rw [if_neg h2]
      have hu : (if p.head? = some 34 ∧ p.getLast? = some 34 then (p.drop 1).take (p.length - 2) else p) = unquote p := by
        unfold unquote
        by_cases hq : p.head? = some 34 ∧ p.getLast? = some 34
        · rw [if_pos hq, if_pos ⟨by omega, hq⟩, middle_eq p (by omega)]
        · rw [if_neg hq, if_neg (fun h => hq h.2)]
      simp only [hu]
      obtain ⟨f, rfl⟩ : ∃ f, fuel = f + 1 := ⟨fuel - 1, by omega⟩
      unfold dequoteLoop
      rw [List.getLast?_eq_some_getLast hne]
      have : (unquote p).getLast hne ≠ 34 := by
        intro e; exact hl (by rw [List.getLast?_eq_some_getLast hne, e])
      simp only [if_neg this]

theorem unquote_ne_nil (p : Bytes) (h : Clean p) (hne : p ≠ []) : unquote p ≠ [] := by
  rcases h with h | h
  · unfold unquote; rw [if_neg (by omega)]; exact hne
  · exact h.1

theorem switches_table : ∀ s ∈ switches, (letters s.1).map toLower = letters s.1 ∧
    utf8Text (letters s.1) = asc s.1 ∧ (∀ c ∈ letters s.1, Scalar c) ∧
    definitions.find? (fun d => decide (d.key = asc s.1)) =
      some ⟨asc s.1, s.2.1, s.2.2, (Spec.default s.2.1).getD 0 []⟩ := by
  decide +kernel

theorem switches_npar : ∀ s ∈ switches, s.2.2 ≤ 2 ∧ (Spec.default s.2.1 = [] ∨
    (s.2.2 = 1 ∧ (Spec.default s.2.1 = [[48]] ∨ Spec.default s.2.1 = [[49]]))) := by
  decide +kernel

theorem definitions_listed : ∀ d ∈ definitions, ∃ s ∈ switches, asc s.1 = d.key := by
  decide +kernel

theorem lower_word (w : List Nat) (hw : Word w) : lowerCase (utf8Text w) = .ok (utf8Text (w.map toLower)) := by
  rw [lowerCase_spec w (fun c hc => (hw c hc).1), name_takeWhile w hw]

theorem find_named (w : List Nat) (s : String × Command × Nat) (hn : Names w s) :
    utf8Text (w.map toLower) = asc s.1 ∧
    definitions.find? (fun d => decide (d.key = asc s.1)) =
      some ⟨asc s.1, s.2.1, s.2.2, (Spec.default s.2.1).getD 0 []⟩ := by
  obtain ⟨h1, h2, h3, h4⟩ := switches_table s hn.1
  refine ⟨?_, h4⟩
  rw [(map_same toLower toLower_same w (letters s.1)).2 hn.2, h1, h2]

theorem find_unknown (w : List Nat) (hw : Word w) (hn : ∀ s, ¬ Names w s) :
    definitions.find? (fun d => decide (d.key = utf8Text (w.map toLower))) = none := by
  rw [List.find?_eq_none]
  intro d hd
  obtain ⟨s, hs, hk⟩ := definitions_listed d hd
  obtain ⟨h1, h2, h3, _⟩ := switches_table s hs
  simp only [decide_eq_true_eq]
  intro he
  apply hn s
  refine ⟨hs, ?_⟩
  rw [← map_same toLower toLower_same, h1]
  apply utf8Text_inj _ _ _ h3
  · rw [h2, hk, he]
  · intro c hc
    obtain ⟨a, ha, rfl⟩ := List.mem_map.1 hc
    exact toLower_scalar a (hw a ha).1

/-- Storing successive parameters. -/
def putAll (l : Nat) : List Bytes → Parsed → Parsed
  | [], pc => pc
  | v :: vs, pc => putAll (l + 1) vs (pc.put l v)

theorem takeParams_none (df : Nat) (key : Bytes) (n l : Nat) (pc : Parsed) (ns : List Note) :
    takeParams df key n l [] pc ns = .ok (some ([], pc, ns ++ List.replicate n (.missing key))) := by
  induction n generalizing l ns with
  | zero => simp [takeParams]
  | succ n ih => rw [takeParams, ih, List.append_assoc, List.replicate_succ]; rfl

theorem takeParams_full (df : Nat) (hdf : 0 < df) (key : Bytes) (ps rest : List Bytes) (l : Nat) (pc : Parsed)
    (ns : List Note) (hc : ∀ p ∈ ps, Clean p) :
    takeParams df key ps.length l (ps ++ rest) pc ns = .ok (some (rest, putAll l (ps.map unquote) pc, ns)) := by
  induction ps generalizing l pc with
  | nil => rfl
  | cons p ps ih =>
    rw [List.length_cons, List.cons_append, takeParams, dequote_of_clean p (hc p List.mem_cons_self) df hdf]
    exact ih _ _ (fun q hq => hc q (List.mem_cons_of_mem _ hq))

theorem takeParams_short (df : Nat) (hdf : 0 < df) (key : Bytes) (ps : List Bytes) (n l : Nat) (pc : Parsed)
    (ns : List Note) (hc : ∀ p ∈ ps, Clean p) (hn : ps.length ≤ n) :
    takeParams df key n l ps pc ns =
      .ok (some ([], putAll l (ps.map unquote) pc, ns ++ List.replicate (n - ps.length) (.missing key))) := by
  induction ps generalizing l pc n with
  | nil => rw [takeParams_none]; rfl
  | cons p ps ih =>
    obtain ⟨m, rfl⟩ : ∃ m, n = m + 1 := ⟨n - 1, by simp only [List.length_cons] at hn; omega⟩
    rw [takeParams, dequote_of_clean p (hc p List.mem_cons_self) df hdf, List.length_cons, Nat.add_sub_add_right]
    exact ih m _ _ (fun q hq => hc q (List.mem_cons_of_mem _ hq)) (by simpa using hn)

/-- The command recorded for a switch. -/
theorem recorded (s : String × Command × Nat) (hs : s ∈ switches) (ps : List Bytes) (hn : ps.length ≤ s.2.2) :
    putPredef ⟨asc s.1, s.2.1, s.2.2, (Spec.default s.2.1).getD 0 []⟩ (putAll 0 (ps.map unquote) ⟨s.2.1, [], [], []⟩) =
      ⟨s.2.1, (values s ps).getD 0 [], (values s ps).getD 1 [], (values s ps).getD 2 []⟩ := by
  obtain ⟨h2, hd⟩ := switches_npar s hs
  obtain ⟨name, c, n⟩ := s
  simp only at *
  unfold values putPredef
  simp only
  match n, ps, h2, hn with
  | 0, [], _, _ =>
    rcases hd with hd | ⟨h1, _⟩
    · rw [hd]; rfl
    · omega
  | 1, [], _, _ => rcases hd with hd | ⟨_, hd | hd⟩ <;> rw [hd] <;> rfl
  | 1, [a], _, _ => rcases hd with hd | ⟨_, hd | hd⟩ <;> rw [hd] <;> rfl
  | 2, [], _, _ =>
    rcases hd with hd | ⟨h1, _⟩
    · rw [hd]; rfl
    · omega
  | 2, [a], _, _ =>
    rcases hd with hd | ⟨h1, _⟩
    · rw [hd]; rfl
    · omega
  | 2, [a, b], _, _ =>
    rcases hd with hd | ⟨h1, _⟩
    · rw [hd]; rfl
    · omega
  | n + 3, _, h, _ => omega
  | 0, _ :: _, _, h => simp at h
  | 1, _ :: _ :: _, _, h => simp at h
  | 2, _ :: _ :: _ :: _, _, h => simp at h

/-- The parser from any state. -/
theorem parseLoop_spec (df : Nat) (hdf : 0 < df) (args : List Bytes) (items : List Item) (h : Reads args items)
    (fuel : Nat) (hf : args.length ≤ fuel) (st : State) :
    parseLoop df fuel args st = .ok (some
      { filename := if st.filename.isEmpty then file items else st.filename
        commands := st.commands ++ commands items
        notes := st.notes ++ reports (if st.filename.isEmpty then none else some st.filename) items }) := by
  induction h generalizing fuel st with
  | nil =>
    obtain ⟨f, c, n⟩ := st
    unfold parseLoop
    cases f <;> simp [file, commands, reports]
  | @full w s ps rest items hw hn hl hc _ ih =>
    obtain ⟨m, rfl⟩ : ∃ m, fuel = m + 1 := ⟨fuel - 1, by simp only [List.length_cons] at hf; omega⟩
    obtain ⟨hk, hfind⟩ := find_named w s hn
    unfold parseLoop
    simp only [↓reduceIte, lower_word w hw, hk, hfind]
    have ht := takeParams_full df hdf (asc s.1) ps rest 0 ⟨s.2.1, [], [], []⟩ st.notes hc
    rw [hl] at ht
    rw [ht]
    simp only [andThen]
    rw [ih m (by simp only [List.length_cons, List.length_append] at hf; omega)]
    simp only [recorded s hn.1 ps (by omega), file, commands, reports, List.append_assoc, List.singleton_append]
  | @short w s ps hw hn hl hc =>
    obtain ⟨m, rfl⟩ : ∃ m, fuel = m + 1 := ⟨fuel - 1, by simp only [List.length_cons] at hf; omega⟩
    obtain ⟨hk, hfind⟩ := find_named w s hn
    unfold parseLoop
    simp only [↓reduceIte, lower_word w hw, hk, hfind]
    rw [takeParams_short df hdf (asc s.1) ps s.2.2 0 _ _ hc (by omega)]
    simp only [andThen]
    unfold parseLoop
    simp only [recorded s hn.1 ps (by omega), file, commands, reports, List.append_nil]
    obtain ⟨f, c, n⟩ := st
    cases f <;> simp
  | @unknown w rest items hw hn _ ih =>
    obtain ⟨m, rfl⟩ : ∃ m, fuel = m + 1 := ⟨fuel - 1, by simp only [List.length_cons] at hf; omega⟩
    unfold parseLoop
    simp only [↓reduceIte, lower_word w hw, find_unknown w hw hn]
    rw [ih m (by simpa using hf)]
    simp only [file, commands, reports, List.append_assoc, List.singleton_append]
  | @other a rest items hne hd hc _ ih =>
    obtain ⟨m, rfl⟩ : ∃ m, fuel = m + 1 := ⟨fuel - 1, by simp only [List.length_cons] at hf; omega⟩
    obtain ⟨b, word, rfl⟩ := List.exists_cons_of_ne_nil hne
    have hb : b ≠ 45 := fun e => hd (by rw [e]; rfl)
    obtain ⟨f, c, n⟩ := st
    unfold parseLoop
    simp only [if_neg hb]
    cases f with
    | nil =>
      simp only [List.isEmpty_nil, Bool.not_true, Bool.false_eq_true, ↓reduceIte]
      rw [dequote_of_clean _ hc df hdf]
      simp only [andThen]
      rw [ih m (by simpa using hf)]
      have : (unquote (b :: word)).isEmpty = false := by
        have := unquote_ne_nil _ hc hne
        cases hu : unquote (b :: word) with
        | nil => exact absurd hu this
        | cons => rfl
      simp only [this, Bool.false_eq_true, ↓reduceIte, file, commands, reports]
    | cons x f =>
      simp only [List.isEmpty_cons, Bool.not_false, ↓reduceIte]
      rw [ih m (by simpa using hf)]
      simp only [List.isEmpty_cons, Bool.false_eq_true, ↓reduceIte, commands, reports, List.append_assoc, List.singleton_append]

end Verif.Cli
