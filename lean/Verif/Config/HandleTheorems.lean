import Verif.Config.HandleSpec
import Verif.Config.SelectTheorems

/-! # Property theorems: opening a file of a configuration (C80) -/

namespace Verif.Config.Opening
open Verif Verif.Config

/-! ## Which files are packed -/

theorem mem_four {a b c d : String} (P : String → Prop) : (∃ s ∈ [a, b, c, d], P s) ↔ (P a ∨ P b ∨ P c ∨ P d) := by
  simp

/-- **Which files are packed**, for every name that is not empty. -/
theorem packed_iff (lower : Str → Str) (name : Str) (hn : name ≠ []) :
    (isPacked lower name = .ok true ∨ isPacked lower name = .ok false) ∧
    (isPacked lower name = .ok false ↔
      ((∃ s ∈ ["DynamicallyUpdated", "SprScndInfo", "DBNamesVersion", "siVersions"], lower name = lower s.toList) ∨ name.head? = some '{' ∨
       "fo_version".toList <:+: lower name ∨
       ∃ base ext, name = base ++ '.' :: ext ∧ '.' ∉ ext ∧ (lower ext = lower "INF".toList ∨ lower ext = lower "PF".toList))) := by
  cases name with
  | nil => exact absurd rfl hn
  | cons c rest =>
    have hfind : (rfind "fo_version".toList (lower (c :: rest))).isSome = true ↔ "fo_version".toList <:+: lower (c :: rest) := by
      rw [rfind, List.find?_isSome]
      constructor
      · rintro ⟨i, _, h⟩
        obtain ⟨t, ht⟩ := (SelectTheorems.startsAt_iff _ _ i).mp h
        refine ⟨(lower (c :: rest)).take i, t, ?_⟩
        rw [List.append_assoc, ← ht, List.take_append_drop]
      · rintro ⟨a, t, h⟩
        refine ⟨a.length, ?_, ?_⟩
        · rw [List.mem_reverse, List.mem_range, ← h, List.length_append, List.length_append]; omega
        · rw [SelectTheorems.startsAt_iff]
          exact ⟨t, by rw [← h, List.append_assoc, List.drop_left' rfl]⟩
    have hext : ∀ P : Str → Prop, (∃ base ext, c :: rest = base ++ '.' :: ext ∧ '.' ∉ ext ∧ P ext) ↔
        ∃ i, rfind ['.'] (c :: rest) = some i ∧ P ((c :: rest).drop (i + 1)) := by
      intro P
      constructor
      · rintro ⟨base, ext, h1, h2, h3⟩
        refine ⟨base.length, ?_, ?_⟩
        · rw [h1]
          apply SelectTheorems.rfind_last
          · simp
          · rw [SelectTheorems.startsAt_iff]
            exact ⟨ext, by rw [List.drop_left' rfl]; rfl⟩
          · intro i hi
            cases hs : startsAt ['.'] (base ++ '.' :: ext) i with
            | false => rfl
            | true =>
              have := SelectTheorems.startsAt_char ['.'] _ i 0 (by decide) hs
              rw [Nat.add_zero, show base ++ '.' :: ext = (base ++ ['.']) ++ ext by simp, List.getElem?_append_right (by simp; omega)] at this
              exact absurd (List.mem_of_getElem? this) h2
        · rw [h1, show base ++ '.' :: ext = (base ++ ['.']) ++ ext by simp, List.drop_left' (by simp)]
          exact h3
      · rintro ⟨i, h1, h2⟩
        rw [rfind] at h1
        obtain ⟨h3, as, bs, h4, h5⟩ := List.find?_eq_some_iff_append.mp h1
        obtain ⟨t, ht⟩ := (SelectTheorems.startsAt_iff _ _ i).mp h3
        have hd : (c :: rest).drop (i + 1) = t := by
          rw [← List.drop_drop, ht]; rfl
        rw [hd] at h2
        refine ⟨(c :: rest).take i, t, ?_, ?_, h2⟩
        · rw [show '.' :: t = ['.'] ++ t from rfl, ← ht, List.take_append_drop]
        · intro hmem
          obtain ⟨j, hj, hj'⟩ := List.mem_iff_getElem.mp hmem
          have hlen : (c :: rest).length = i + 1 + t.length := by
            have := congrArg List.length ht
            rw [List.length_drop] at this
            simp only [List.length_append, List.length_cons, List.length_nil] at this ⊢
            omega
          have hst : startsAt ['.'] (c :: rest) (i + 1 + j) = true := by
            rw [SelectTheorems.startsAt_iff]
            refine ⟨t.drop (j + 1), ?_⟩
            rw [← List.drop_drop, hd, List.drop_eq_getElem_cons hj, hj']
            rfl
          have hin : i + 1 + j ∈ as := by
            have h6 : i + 1 + j ∈ (List.range ((c :: rest).length + 1)).reverse := by
              rw [List.mem_reverse, List.mem_range]; omega
            have h7 := List.pairwise_reverse.mpr (List.pairwise_lt_range (n := (c :: rest).length + 1))
            rw [h4] at h6 h7
            rcases List.mem_append.mp h6 with h | h
            · exact h
            · rcases List.mem_cons.mp h with h | h
              · omega
              · have := (List.pairwise_cons.mp (List.pairwise_append.mp h7).2.1).1 _ h
                omega
          have := h5 _ hin
          rw [hst] at this
          cases this
    rw [hext, ← hfind, mem_four (fun s => lower (c :: rest) = lower s.toList)]
    unfold isPacked
    by_cases h1 : lower (c :: rest) = lower "DynamicallyUpdated".toList
    · rw [if_pos h1]
      exact ⟨Or.inr rfl, ⟨fun _ => Or.inl (Or.inl h1), fun _ => rfl⟩⟩
    by_cases h2 : lower (c :: rest) = lower "SprScndInfo".toList
    · rw [if_neg h1, if_pos h2]
      exact ⟨Or.inr rfl, ⟨fun _ => Or.inl (Or.inr (Or.inl h2)), fun _ => rfl⟩⟩
    by_cases h3 : lower (c :: rest) = lower "DBNamesVersion".toList
    · rw [if_neg h1, if_neg h2, if_pos h3]
      exact ⟨Or.inr rfl, ⟨fun _ => Or.inl (Or.inr (Or.inr (Or.inl h3))), fun _ => rfl⟩⟩
    by_cases h4 : lower (c :: rest) = lower "siVersions".toList
    · rw [if_neg h1, if_neg h2, if_neg h3, if_pos h4]
      exact ⟨Or.inr rfl, ⟨fun _ => Or.inl (Or.inr (Or.inr (Or.inr h4))), fun _ => rfl⟩⟩
    rw [if_neg h1, if_neg h2, if_neg h3, if_neg h4]
    have hnot : ¬ (lower (c :: rest) = lower "DynamicallyUpdated".toList ∨ lower (c :: rest) = lower "SprScndInfo".toList ∨
        lower (c :: rest) = lower "DBNamesVersion".toList ∨ lower (c :: rest) = lower "siVersions".toList) := by
      rintro (h | h | h | h)
      · exact h1 h
      · exact h2 h
      · exact h3 h
      · exact h4 h
    dsimp only
    by_cases h5 : c = '{'
    · rw [if_pos h5]
      exact ⟨Or.inr rfl, ⟨fun _ => Or.inr (Or.inl (by rw [h5]; rfl)), fun _ => rfl⟩⟩
    rw [if_neg h5]
    by_cases h6 : (rfind "fo_version".toList (lower (c :: rest))).isSome = true
    · rw [if_pos h6]
      exact ⟨Or.inr rfl, ⟨fun _ => Or.inr (Or.inr (Or.inl h6)), fun _ => rfl⟩⟩
    rw [if_neg h6]
    have hrest : ∀ P : Prop, (P ↔ False) → (((Outcome.ok true : Outcome Bool) = .ok true ∨ (Outcome.ok true : Outcome Bool) = .ok false) ∧
        ((Outcome.ok true : Outcome Bool) = .ok false ↔ ((lower (c :: rest) = lower "DynamicallyUpdated".toList ∨ lower (c :: rest) = lower "SprScndInfo".toList ∨
        lower (c :: rest) = lower "DBNamesVersion".toList ∨ lower (c :: rest) = lower "siVersions".toList) ∨ (c :: rest).head? = some '{' ∨
        (rfind "fo_version".toList (lower (c :: rest))).isSome = true ∨ P))) := by
      intro P hP
      refine ⟨Or.inl rfl, ⟨(fun h => by cases h), ?_⟩⟩
      rintro (h | h | h | h)
      · exact absurd h hnot
      · exact absurd (Option.some.inj h) h5
      · exact absurd h h6
      · exact (hP.mp h).elim
    cases h7 : rfind ['.'] (c :: rest) with
    | none =>
      dsimp only
      exact hrest _ ⟨(fun ⟨i, h, _⟩ => by cases h), False.elim⟩
    | some i =>
      dsimp only
      by_cases h8 : lower ((c :: rest).drop (i + 1)) = lower "INF".toList
      · rw [if_pos h8]
        exact ⟨Or.inr rfl, ⟨fun _ => Or.inr (Or.inr (Or.inr ⟨i, rfl, Or.inl h8⟩)), fun _ => rfl⟩⟩
      rw [if_neg h8]
      by_cases h9 : lower ((c :: rest).drop (i + 1)) = lower "PF".toList
      · rw [if_pos h9]
        exact ⟨Or.inr rfl, ⟨fun _ => Or.inr (Or.inr (Or.inr ⟨i, rfl, Or.inr h9⟩)), fun _ => rfl⟩⟩
      rw [if_neg h9]
      refine hrest _ ⟨?_, False.elim⟩
      rintro ⟨j, hj, h | h⟩
      · cases hj; exact h8 h
      · cases hj; exact h9 h

/-- **Negation.** A file with an empty name makes the program read before the beginning of a text. -/
theorem empty_name_ub (lower : Str → Str) (h : ∀ s ∈ ["DynamicallyUpdated", "SprScndInfo", "DBNamesVersion", "siVersions"], lower [] ≠ lower s.toList) :
    isPacked lower [] = .ub := by
  unfold isPacked
  rw [if_neg (h _ (by simp)), if_neg (h _ (by simp)), if_neg (h _ (by simp)), if_neg (h _ (by simp))]

/-! ## The streams -/

theorem blobs_all (io : Io) : ∀ (parts : List (Nat × Nat)) (acc : Bytes), (∀ p ∈ parts, (io.blob p.1 p.2).2 = true) →
    blobs io parts acc = (acc ++ parts.flatMap (fun p => (io.blob p.1 p.2).1), true)
  | [], acc, _ => by simp [blobs]
  | (s, l) :: ps, acc, h => by
    have h1 := h (s, l) (List.mem_cons_self ..)
    simp only at h1
    rw [blobs, if_pos h1, blobs_all io ps _ (fun p hp => h p (List.mem_cons_of_mem _ hp))]
    simp

theorem raw_blobs {io : Io} {parts : List (Nat × Nat)} {raw : Bytes} (h : Spec.Raw io parts raw) : blobs io parts [] = (raw, true) := by
  rw [blobs_all io parts [] h.1, h.2]; rfl

/-- What every history keeps. -/
structure Inv (b : Bool) (raw plain : Bytes) (h : Handle) : Prop where
  packed : h.packed = none ∨ h.packed = some b
  stream : ∀ i, h.stream = some i → ∃ pos, h.heap[i]? = some (some ⟨plain, pos⟩)
  rstream : ∀ i, h.rstream = some i → ∃ pos, h.heap[i]? = some (some ⟨raw, pos⟩)
  leak : b = true → Spec.NoLeak h
  apart : b = true → ∀ i, h.stream = some i → h.rstream ≠ some i

theorem on_eq {h : Handle} {p : Nat} {c : Cell} (f : Cell → Cell) (hp : h.heap[p]? = some (some c)) :
    h.on p f = .ok { h with heap := h.heap.set p (some (f c)) } := by
  unfold Handle.on; rw [hp]

theorem get_set (l : List (Option Cell)) (i j : Nat) (x : Option Cell) : (l.set i x)[j]? = if i = j then (if j < l.length then some x else none) else l[j]? := by
  rw [List.getElem?_set]
  by_cases h : i = j
  · subst h; simp
  · simp [h]

theorem lt_of_get {l : List (Option Cell)} {i : Nat} {x : Option Cell} (h : l[i]? = some x) : i < l.length := by
  rcases Nat.lt_or_ge i l.length with h' | h'
  · exact h'
  · rw [List.getElem?_eq_none h'] at h; cases h

/-- Moving in a stream changes none of this. -/
theorem Inv.move {b : Bool} {raw plain : Bytes} {h : Handle} (hi : Inv b raw plain h) (p n : Nat) (c : Cell) (hp : h.heap[p]? = some (some c)) :
    Inv b raw plain { h with heap := h.heap.set p (some { c with pos := n }) } := by
  have hlt := lt_of_get hp
  have key : ∀ (i : Nat) (d : Bytes), (∃ pos, h.heap[i]? = some (some ⟨d, pos⟩)) → ∃ pos, (h.heap.set p (some { c with pos := n }))[i]? = some (some ⟨d, pos⟩) := by
    rintro i d ⟨pos, hg⟩
    rw [get_set]
    by_cases e : p = i
    · subst e
      rw [hp] at hg
      cases hg
      exact ⟨n, by rw [if_pos rfl, if_pos hlt]⟩
    · exact ⟨pos, by rw [if_neg e]; exact hg⟩
  refine ⟨hi.packed, fun i hs => key i _ (hi.stream i hs), fun i hs => key i _ (hi.rstream i hs), ?_, hi.apart⟩
  intro hb i c' hg
  simp only at hg ⊢
  rw [get_set] at hg
  by_cases e : p = i
  · subst e; exact hi.leak hb _ _ hp
  · rw [if_neg e] at hg; exact hi.leak hb _ _ hg

theorem rewind_stream {b : Bool} {raw plain : Bytes} {h : Handle} (hi : Inv b raw plain h) {p : Nat} (hs : h.stream = some p) :
    ∃ h', h.rewind p = .ok (h', true) ∧ Inv b raw plain h' ∧ Spec.Holds h' h'.stream plain := by
  obtain ⟨pos, hg⟩ := hi.stream p hs
  refine ⟨_, by rw [Handle.rewind, on_eq _ hg, Outcome.ok_bind], hi.move p 0 _ hg, p, hs, ?_⟩
  simp only
  rw [get_set, if_pos rfl, if_pos (lt_of_get hg)]

theorem rewind_rstream {b : Bool} {raw plain : Bytes} {h : Handle} (hi : Inv b raw plain h) {p : Nat} (hs : h.rstream = some p) :
    ∃ h', h.rewind p = .ok (h', true) ∧ Inv b raw plain h' ∧ Spec.Holds h' h'.rstream raw := by
  obtain ⟨pos, hg⟩ := hi.rstream p hs
  refine ⟨_, by rw [Handle.rewind, on_eq _ hg, Outcome.ok_bind], hi.move p 0 _ hg, p, hs, ?_⟩
  simp only
  rw [get_set, if_pos rfl, if_pos (lt_of_get hg)]

theorem findPacked_ok {b : Bool} {raw plain : Bytes} {h : Handle} (hi : Inv b raw plain h) {lower : Str → Str} {name : Str} (hp : isPacked lower name = .ok b) (s : Option Nat) (hp' : List (Option Cell)) :
    ({ h with heap := hp', stream := s } : Handle).findPacked lower name = .ok ({ h with heap := hp', stream := s, packed := some b }, b) := by
  unfold Handle.findPacked
  rcases hi.packed with h1 | h1
  · rw [h1]
    simp only
    rw [hp, Outcome.ok_bind]
  · rw [h1]

variable {lower : Str → Str} {io : Io} {name : Str} {parts : List (Nat × Nat)} {b : Bool} {raw plain : Bytes}

theorem open_ok {h : Handle} (hi : Inv b raw plain h) (hp : isPacked lower name = .ok b) (hr : Spec.Raw io parts raw)
    (hb : (b = true ∧ io.inflate raw = (plain, true)) ∨ (b = false ∧ plain = raw)) :
    ∃ h', h.open lower io name parts = .ok (h', true) ∧ Inv b raw plain h' ∧ Spec.Holds h' h'.stream plain := by
  unfold Handle.open
  cases hs : h.stream with
  | some p => exact rewind_stream hi hs
  | none =>
    simp only [Handle.alloc]
    rw [findPacked_ok hi hp, Outcome.ok_bind]
    simp only
    have hnew : (h.heap ++ [some ⟨[], 0⟩] : List (Option Cell))[h.heap.length]? = some (some ⟨[], 0⟩) := by simp
    have hold : ∀ i, i < h.heap.length → (h.heap ++ [some ⟨[], 0⟩] : List (Option Cell))[i]? = h.heap[i]? := fun i hl => List.getElem?_append_left hl
    cases hrs : h.rstream with
    | some r =>
      obtain ⟨pos, hg⟩ := hi.rstream r hrs
      have hlt := lt_of_get hg
      simp only
      unfold Handle.openRaw
      rcases hb with ⟨rfl, hinf⟩ | ⟨rfl, rfl⟩
      · rw [if_pos rfl]
        unfold Handle.inflateInto Handle.data
        simp only
        rw [hold r hlt, hg]
        simp only
        rw [Outcome.ok_bind, on_eq (c := ⟨raw, pos⟩) _ (by rw [hold r hlt]; exact hg), Outcome.ok_bind]
        rw [on_eq (c := ⟨[], 0⟩) _ (by simp only; rw [get_set, if_neg (by omega)]; exact hnew), Outcome.ok_bind, Outcome.ok_bind]
        simp only [hinf, if_true]
        apply rewind_stream (b := true) (raw := raw) (plain := plain) _ rfl
        refine ⟨Or.inr rfl, ?_, ?_, ?_, ?_⟩
        · intro i h1
          cases h1
          exact ⟨plain.length, by simp only; rw [get_set, if_pos rfl, if_pos (by simp)]⟩
        · intro i h1
          simp only at h1
          cases h1
          refine ⟨raw.length, ?_⟩
          simp only
          rw [get_set, if_neg (by omega), get_set, if_pos rfl, if_pos (by simp; omega)]
        · intro _ i c' h1
          simp only at h1 ⊢
          rw [get_set] at h1
          by_cases e : h.heap.length = i
          · exact Or.inl (by rw [e])
          · rw [if_neg e, get_set] at h1
            by_cases e' : r = i
            · exact Or.inr (by rw [e'])
            · rw [if_neg e'] at h1
              have hl := lt_of_get h1
              rw [List.length_append, List.length_singleton] at hl
              rw [hold i (by omega)] at h1
              rcases hi.leak rfl i c' h1 with h2 | h2
              · rw [hs] at h2; cases h2
              · rw [hrs] at h2; exact Or.inr h2
        · intro _ i h1 h2
          simp only at h1 h2
          cases h1
          cases h2
          omega
      · rw [if_neg (by simp)]
        apply rewind_stream (b := false) (raw := plain) (plain := plain) _ rfl
        refine ⟨Or.inr rfl, ?_, ?_, by simp, by simp⟩
        · intro i h1
          cases h1
          exact ⟨pos, by simp only; rw [hold r hlt]; exact hg⟩
        · intro i h1
          simp only at h1
          cases h1
          exact ⟨pos, by simp only; rw [hold r hlt]; exact hg⟩
    | none =>
      simp only
      unfold Handle.openNew
      rcases hb with ⟨rfl, hinf⟩ | ⟨rfl, rfl⟩
      · rw [if_pos rfl]
        simp only [Handle.alloc, Handle.readInto, raw_blobs hr]
        rw [on_eq (c := ⟨[], 0⟩) _ (by simp), Outcome.ok_bind, Outcome.ok_bind]
        simp only [if_true]
        unfold Handle.inflateInto Handle.data
        simp only
        have e1 : ((h.heap ++ [some ⟨[], 0⟩] ++ [some ⟨[], 0⟩] : List (Option Cell)).set (h.heap ++ [some ⟨[], 0⟩] : List (Option Cell)).length (some ⟨raw, raw.length⟩)) =
            h.heap ++ [some ⟨[], 0⟩] ++ [some ⟨raw, raw.length⟩] := by
          rw [List.set_append_right _ _ (Nat.le_refl _)]; simp
        rw [e1]
        have e2 : (h.heap ++ [some ⟨[], 0⟩] ++ [some ⟨raw, raw.length⟩] : List (Option Cell))[(h.heap ++ [some ⟨[], 0⟩] : List (Option Cell)).length]? = some (some ⟨raw, raw.length⟩) := by
          rw [List.getElem?_append_right (Nat.le_refl _)]; simp
        rw [e2]
        simp only
        rw [Outcome.ok_bind, on_eq (c := ⟨raw, raw.length⟩) _ e2, Outcome.ok_bind]
        have e3 : ((h.heap ++ [some ⟨[], 0⟩] ++ [some ⟨raw, raw.length⟩] : List (Option Cell)).set (h.heap ++ [some ⟨[], 0⟩] : List (Option Cell)).length (some ⟨raw, raw.length⟩)) =
            h.heap ++ [some ⟨[], 0⟩] ++ [some ⟨raw, raw.length⟩] := by
          rw [List.set_append_right _ _ (Nat.le_refl _)]; simp
        simp only [e3]
        have e4 : (h.heap ++ [some ⟨[], 0⟩] ++ [some ⟨raw, raw.length⟩] : List (Option Cell))[h.heap.length]? = some (some ⟨[], 0⟩) := by
          rw [List.getElem?_append_left (by simp)]; simp
        rw [on_eq (c := ⟨[], 0⟩) _ e4, Outcome.ok_bind, Outcome.ok_bind]
        simp only [hinf, if_true]
        have e5 : ((h.heap ++ [some ⟨[], 0⟩] ++ [some ⟨raw, raw.length⟩] : List (Option Cell)).set h.heap.length (some ⟨plain, plain.length⟩)) =
            h.heap ++ [some ⟨plain, plain.length⟩] ++ [some ⟨raw, raw.length⟩] := by
          rw [List.set_append_left _ _ (by simp), List.set_append_right _ _ (Nat.le_refl _)]; simp
        rw [e5]
        unfold Handle.del
        have e6 : (h.heap ++ [some ⟨plain, plain.length⟩] ++ [some ⟨raw, raw.length⟩] : List (Option Cell))[(h.heap ++ [some ⟨[], 0⟩] : List (Option Cell)).length]? = some (some ⟨raw, raw.length⟩) := by
          rw [List.getElem?_append_right (by simp)]; simp
        simp only [e6]
        rw [Outcome.ok_bind]
        have e7 : ((h.heap ++ [some ⟨plain, plain.length⟩] ++ [some ⟨raw, raw.length⟩] : List (Option Cell)).set (h.heap ++ [some ⟨[], 0⟩] : List (Option Cell)).length none) =
            h.heap ++ [some ⟨plain, plain.length⟩] ++ [none] := by
          rw [List.set_append_right _ _ (by simp)]; simp
        rw [e7]
        apply rewind_stream (b := true) (raw := raw) (plain := plain) _ rfl
        refine ⟨Or.inr rfl, ?_, ?_, ?_, ?_⟩
        · intro i h1
          cases h1
          exact ⟨plain.length, by simp⟩
        · intro i h1
          cases h1
        · intro _ i c' h1
          simp only at h1 ⊢
          rcases Nat.lt_trichotomy i h.heap.length with hl | hl | hl
          · rw [List.append_assoc, List.getElem?_append_left hl] at h1
            rcases hi.leak rfl i c' h1 with h2 | h2
            · rw [hs] at h2; cases h2
            · rw [hrs] at h2; cases h2
          · exact Or.inl (by rw [hl])
          · exfalso
            rw [List.getElem?_append_right (by simp; omega)] at h1
            have := List.mem_of_getElem? h1
            simp at this
        · intro _ i _ h2
          cases h2
      · rw [if_neg (by simp)]
        simp only [Handle.readInto, raw_blobs hr]
        rw [on_eq (c := ⟨[], 0⟩) _ hnew, Outcome.ok_bind, Outcome.ok_bind]
        simp only [if_true]
        apply rewind_stream (b := false) (raw := plain) (plain := plain) _ rfl
        refine ⟨Or.inr rfl, ?_, ?_, by simp, by simp⟩
        · intro i h1
          cases h1
          exact ⟨plain.length, by simp⟩
        · intro i h1
          cases h1

theorem ropen_ok {h : Handle} (hi : Inv b raw plain h) (hp : isPacked lower name = .ok b) (hr : Spec.Raw io parts raw)
    (hb : b = true ∨ (b = false ∧ plain = raw)) :
    ∃ h', h.ropen lower io name parts = .ok (h', true) ∧ Inv b raw plain h' ∧ Spec.Holds h' h'.rstream raw := by
  unfold Handle.ropen
  cases hrs : h.rstream with
  | some p => exact rewind_rstream hi hrs
  | none =>
    simp only
    have hf : h.findPacked lower name = .ok ({ h with packed := some b }, b) := findPacked_ok hi hp h.stream h.heap
    rw [hf, Outcome.ok_bind]
    simp only
    have hi2 : Inv b raw plain { h with packed := some b } := ⟨Or.inr rfl, hi.stream, hi.rstream, hi.leak, hi.apart⟩
    have hnew : ∃ h', ({ h with packed := some b } : Handle).ropenNew io parts = .ok (h', true) ∧ Inv b raw plain h' ∧ Spec.Holds h' h'.rstream raw := by
      unfold Handle.ropenNew
      simp only [Handle.alloc, Handle.readInto, raw_blobs hr]
      rw [on_eq (c := ⟨[], 0⟩) _ (by simp), Outcome.ok_bind, Outcome.ok_bind]
      simp only [if_true]
      have e1 : ((h.heap ++ [some ⟨[], 0⟩] : List (Option Cell)).set h.heap.length (some ⟨raw, raw.length⟩)) = h.heap ++ [some ⟨raw, raw.length⟩] := by
        rw [List.set_append_right _ _ (Nat.le_refl _)]; simp
      rw [e1]
      apply rewind_rstream (b := b) (raw := raw) (plain := plain) _ rfl
      refine ⟨Or.inr rfl, ?_, ?_, ?_, ?_⟩
      · intro i h1
        obtain ⟨pos, hg⟩ := hi.stream i h1
        exact ⟨pos, by simp only; rw [List.getElem?_append_left (lt_of_get hg)]; exact hg⟩
      · intro i h1
        cases h1
        exact ⟨raw.length, by simp⟩
      · intro hb' i c' h1
        simp only at h1 ⊢
        rcases Nat.lt_trichotomy i h.heap.length with hl | hl | hl
        · rw [List.getElem?_append_left hl] at h1
          rcases hi.leak hb' i c' h1 with h2 | h2
          · exact Or.inl h2
          · rw [hrs] at h2; cases h2
        · exact Or.inr (by rw [hl])
        · rw [List.getElem?_eq_none (by simp; omega)] at h1; cases h1
      · intro _ i h1 h2
        cases h2
        obtain ⟨pos, hg⟩ := hi.stream _ h1
        have := lt_of_get hg
        omega
    cases hs : h.stream with
    | none =>
      rw [hs] at hnew
      rcases hb with ⟨rfl, _⟩ | ⟨rfl, _⟩ <;> exact hnew
    | some p =>
      rw [hs] at hnew
      rcases hb with ⟨rfl, _⟩ | ⟨rfl, rfl⟩
      · exact hnew
      · simp only
        apply rewind_rstream (b := false) (raw := plain) (plain := plain) _ rfl
        refine ⟨Or.inr rfl, fun i h1 => hi.stream i (by rw [hs]; exact h1), ?_, by simp, by simp⟩
        intro i h1
        cases h1
        exact hi.stream _ hs

theorem close_ok {h : Handle} (hi : Inv b raw plain h) : ∃ h', h.close = .ok h' ∧ Inv b raw plain h' ∧ h'.stream = none ∧ h'.rstream = none ∧
    (b = true → ∀ (i : Nat) (c : Cell), h'.heap[i]? ≠ some (some c)) := by
  have hdel : ∀ (g : Handle) (p : Option Nat), (∀ i, p = some i → ∃ c, g.heap[i]? = some (some c)) → g.del p = .ok { g with heap := match p with | none => g.heap | some i => g.heap.set i none } := by
    intro g p hg
    cases p with
    | none => rfl
    | some i =>
      obtain ⟨c, hc⟩ := hg i rfl
      unfold Handle.del
      simp only
      rw [hc]
  have hs : ∀ i, h.stream = some i → ∃ c, h.heap[i]? = some (some c) := fun i e => (hi.stream i e).elim fun pos hg => ⟨_, hg⟩
  unfold Handle.close Handle.drop
  by_cases e : h.stream = h.rstream
  · rw [if_neg (by simpa using e), hdel h h.stream hs, Outcome.ok_bind]
    refine ⟨_, rfl, ⟨hi.packed, (fun i h1 => by cases h1), (fun i h1 => by cases h1), ?_, (fun _ i h1 => by cases h1)⟩, rfl, rfl, ?_⟩
    all_goals
      intro hb i c hc
      simp only at hc
      cases hst : h.stream with
      | none =>
        rw [hst] at hc
        rcases hi.leak hb i c hc with h1 | h1
        · rw [hst] at h1; cases h1
        · rw [← e, hst] at h1; cases h1
      | some j =>
        exact absurd (by rw [← e, hst]) (hi.apart hb j hst)
  · rw [if_pos (by simpa using e), hdel h h.stream hs, Outcome.ok_bind]
    rw [hdel]
    · rw [Outcome.ok_bind]
      refine ⟨_, rfl, ⟨hi.packed, (fun i h1 => by cases h1), (fun i h1 => by cases h1), ?_, (fun _ i h1 => by cases h1)⟩, rfl, rfl, ?_⟩
      all_goals
        intro hb i c hc
        simp only at hc
        have hgone : ∀ (l : List (Option Cell)) (p : Option Nat), (match p with | none => l | some j => l.set j none)[i]? = some (some c) →
            p ≠ some i ∧ l[i]? = some (some c) := by
          intro l p hl
          cases p with
          | none => exact ⟨by simp, hl⟩
          | some j =>
            simp only at hl
            rw [get_set] at hl
            by_cases ej : j = i
            · rw [if_pos ej] at hl
              split at hl <;> cases hl
            · rw [if_neg ej] at hl
              exact ⟨by simpa using ej, hl⟩
        obtain ⟨h1, h2⟩ := hgone _ _ hc
        obtain ⟨h3, h4⟩ := hgone _ _ h2
        rcases hi.leak hb i c h4 with h5 | h5
        · exact absurd h5 h3
        · exact absurd h5 h1
    · intro i hr
      obtain ⟨pos, hg⟩ := hi.rstream i hr
      refine ⟨⟨raw, pos⟩, ?_⟩
      · simp only
        cases hst : h.stream with
        | none => exact hg
        | some j =>
          simp only
          rw [get_set, if_neg ?_]
          · exact hg
          · intro ej
            apply e
            rw [hst, hr, ej]

theorem init_inv (b : Bool) (raw plain : Bytes) : Inv b raw plain Handle.init :=
  ⟨Or.inl rfl, (fun i h => by cases h), (fun i h => by cases h), (fun _ i c h => by simp [Handle.init] at h), (fun _ i h => by cases h)⟩

theorem run_inv (hp : isPacked lower name = .ok b) (hr : Spec.Raw io parts raw)
    (hb : (b = true ∧ io.inflate raw = (plain, true)) ∨ (b = false ∧ plain = raw)) (ops : List Spec.Op) :
    ∀ h, Inv b raw plain h → ∃ h', Spec.run lower io name parts ops h = .ok h' ∧ Inv b raw plain h' := by
  induction ops with
  | nil => exact fun h hi => ⟨h, rfl, hi⟩
  | cons op ops ih =>
    intro h hi
    rw [Spec.run]
    cases op with
    | «open» =>
      obtain ⟨h1, e1, e2, _⟩ := open_ok hi hp hr hb
      rw [Spec.step, e1, Outcome.ok_bind, Outcome.ok_bind]
      exact ih _ e2
    | ropen =>
      obtain ⟨h1, e1, e2, _⟩ := ropen_ok hi hp hr (hb.imp_left And.left)
      rw [Spec.step, e1, Outcome.ok_bind, Outcome.ok_bind]
      exact ih _ e2
    | close =>
      obtain ⟨h1, e1, e2, _⟩ := close_ok hi
      rw [Spec.step, e1, Outcome.ok_bind]
      exact ih _ e2

/-- **Whatever was done with a file before, opening it gives its contents from the beginning**, opening
it raw gives its raw contents, closing it deletes no stream twice and, for a packed file, leaves
none. What is missing: a file that could not be read once (`reopened_short`), and streams of a file
that is not packed (`unpacked_leaks`). -/
theorem opening_partial (hr : Spec.Raw io parts raw) (hpl : Spec.Plain lower io name raw plain) (ops : List Spec.Op) :
    ∃ h, Spec.run lower io name parts ops Handle.init = .ok h ∧
      (∃ h', h.open lower io name parts = .ok (h', true) ∧ Spec.Holds h' h'.stream plain) ∧
      (∃ h', h.ropen lower io name parts = .ok (h', true) ∧ Spec.Holds h' h'.rstream raw) ∧
      (∃ h', h.close = .ok h' ∧ h'.stream = none ∧ h'.rstream = none ∧ (isPacked lower name = .ok true → Spec.NoLeak h')) := by
  obtain ⟨b, hp, hb⟩ : ∃ b, isPacked lower name = .ok b ∧ ((b = true ∧ io.inflate raw = (plain, true)) ∨ (b = false ∧ plain = raw)) := by
    rcases hpl with ⟨h1, h2⟩ | ⟨h1, h2⟩
    · exact ⟨true, h1, Or.inl ⟨rfl, h2⟩⟩
    · exact ⟨false, h1, Or.inr ⟨rfl, h2⟩⟩
  obtain ⟨h, h1, hi⟩ := run_inv hp hr hb ops Handle.init (init_inv b raw plain)
  obtain ⟨a1, a2, _, a3⟩ := open_ok hi hp hr hb
  obtain ⟨b1, b2, _, b3⟩ := ropen_ok hi hp hr (hb.imp_left And.left)
  obtain ⟨c1, c2, _, c3, c4, c5⟩ := close_ok hi
  refine ⟨h, h1, ⟨a1, a2, a3⟩, ⟨b1, b2, b3⟩, c1, c2, c3, c4, ?_⟩
  intro ht i c hc
  rw [hp] at ht
  cases ht
  exact absurd hc (c5 rfl i c)

/-- **Negation of C80.** If reading the file fails, the next opening succeeds and gives as its contents
what had been read until then. -/
theorem reopened_short (hp : isPacked lower name = .ok false) (d : Bytes) (hf : blobs io parts [] = (d, false)) :
    ∃ h h', Handle.init.open lower io name parts = .ok (h, false) ∧ h.open lower io name parts = .ok (h', true) ∧ Spec.Holds h' h'.stream d := by
  refine ⟨⟨[some ⟨d, d.length⟩], some 0, none, some false⟩, ⟨[some ⟨d, 0⟩], some 0, none, some false⟩, ?_, ?_, 0, rfl, rfl⟩
  · unfold Handle.open Handle.init
    simp only [Handle.alloc, Handle.findPacked, hp, Outcome.ok_bind, Handle.openNew, Handle.readInto, hf]
    rfl
  · rfl

/-- The same when inflating a packed file fails. -/
theorem reopened_short_packed (hp : isPacked lower name = .ok true) (hr : Spec.Raw io parts raw) (d : Bytes) (hf : io.inflate raw = (d, false)) :
    ∃ h h', Handle.init.open lower io name parts = .ok (h, false) ∧ h.open lower io name parts = .ok (h', true) ∧ Spec.Holds h' h'.stream d := by
  refine ⟨⟨[some ⟨d, d.length⟩, some ⟨raw, raw.length⟩], some 0, none, some true⟩, ⟨[some ⟨d, 0⟩, some ⟨raw, raw.length⟩], some 0, none, some true⟩, ?_, ?_, 0, rfl, rfl⟩
  · unfold Handle.open Handle.init
    simp only [Handle.alloc, Handle.findPacked, hp, Outcome.ok_bind, Handle.openNew, Handle.readInto, raw_blobs hr, if_true]
    simp [Handle.on, Handle.inflateInto, Handle.data, hf, Outcome.ok_bind]
  · rfl

/-- **Negation of C80: memory.** Opening a file that is not packed after opening it raw loses a stream. -/
theorem unpacked_leaks (hp : isPacked lower name = .ok false) (hr : Spec.Raw io parts raw) :
    ∃ h, Spec.run lower io name parts [.ropen, .open, .close] Handle.init = .ok h ∧ ¬ Spec.NoLeak h := by
  have h1 : Handle.init.ropen lower io name parts = .ok (⟨[some ⟨raw, 0⟩], none, some 0, some false⟩, true) := by
    unfold Handle.ropen Handle.init
    simp only [Handle.findPacked, hp, Outcome.ok_bind, Handle.ropenNew, Handle.alloc, Handle.readInto, raw_blobs hr]
    rfl
  have h2 : (⟨[some ⟨raw, 0⟩], none, some 0, some false⟩ : Handle).open lower io name parts = .ok (⟨[some ⟨raw, 0⟩, some ⟨[], 0⟩], some 0, some 0, some false⟩, true) := rfl
  have h3 : (⟨[some ⟨raw, 0⟩, some ⟨[], 0⟩], some 0, some 0, some false⟩ : Handle).close = .ok ⟨[none, some ⟨[], 0⟩], none, none, some false⟩ := rfl
  refine ⟨⟨[none, some ⟨[], 0⟩], none, none, some false⟩, ?_, ?_⟩
  · simp only [Spec.run, Spec.step, h1, h2, h3, Outcome.ok_bind]
  · intro h
    rcases h 1 _ rfl with h | h <;> cases h

/-! ## Examples -/

def handleIo : Io := ⟨fun s l => if s = 9 then ([1], false) else ((List.range l).map UInt8.ofNat, true), fun d => (d ++ d, true)⟩

example : Spec.Raw handleIo [(3, 2), (4, 3)] [0, 1, 0, 1, 2] := by unfold Spec.Raw; decide
example : Spec.Plain (fun s => s.map Char.toLower) handleIo "root".toList [0, 1, 0, 1, 2] [0, 1, 0, 1, 2, 0, 1, 0, 1, 2] :=
  Or.inl ⟨by decide, by decide⟩
example : Spec.Plain (fun s => s.map Char.toLower) handleIo "x.inf".toList [0, 1, 0, 1, 2] [0, 1, 0, 1, 2] := Or.inr ⟨by decide, rfl⟩
/-- `reopened_short` applies: the second part of the file cannot be read. -/
example : ∃ h h', Handle.init.open (fun s => s.map Char.toLower) handleIo "x.inf".toList [(3, 2), (9, 3)] = .ok (h, false) ∧
    h.open (fun s => s.map Char.toLower) handleIo "x.inf".toList [(3, 2), (9, 3)] = .ok (h', true) ∧ Spec.Holds h' h'.stream [0, 1, 1] :=
  reopened_short (by decide) _ (by decide)
example : isPacked (fun s => s.map Char.toLower) [] = .ub := empty_name_ub _ (by decide)

end Verif.Config.Opening
