import Verif.Config.CasSpec
import Verif.Base64.Theorems
import Verif.Cli.Theorems

/-! # Property theorems: configurations stored by hashes (C77, C78) -/

namespace Verif.Config
open Verif Tree

theorem raw_hashText (h : Bytes) : raw (Spec.hashText h) = (Base64.encode [] 0 h).map UInt8.ofNat := by
  unfold raw Spec.hashText
  rw [List.map_map]
  apply List.map_congr_left
  intro u hu
  have := Base64.unit_byte [] (by simp) 0 0 h u hu
  have hv : (Char.ofNat u).toNat = u := by
    have key : ∀ u : Fin 128, (Char.ofNat u.val).toNat = u.val := by decide
    exact key ⟨u, this⟩
  simp only [Function.comp, hv]

theorem decode_hashText (h : Bytes) : Base64.decodeString (raw (Spec.hashText h)) 0 = h := by
  have := Base64.decodeString_encode [] (by simp) 0 h []
  rw [raw_hashText]
  exact this

theorem hashBytes_long (buf h : Bytes) (hl : buf.length ≤ h.length) : hashBytes buf (Spec.hashText h) = h := by
  unfold hashBytes
  simp only [decode_hashText]
  rw [List.drop_of_length_le hl, List.append_nil]

theorem number_toInt {s : Str} {n : Nat} (h : Spec.IsNumber s n) (hn : n < 2147483648) : Cli.toIntDef (raw s) 0 = .ok n := by
  obtain ⟨ds, h1, h2, rfl, h4⟩ := h
  have := Cli.toIntDef_number false ds h1 h2 hn [] (by simp) 0
  simp only [List.append_nil, Bool.false_eq_true, if_false, List.nil_append] at this
  rw [h4, this]

theorem lists_items {tt : Node} {entries : List (Str × Bytes)} (h : Spec.Lists tt entries) :
    ∃ cnt extra, infoItems tt = .ok (cnt, entries.flatMap Spec.pairNodes ++ extra) ∧ Spec.IsNumber cnt entries.length := by
  obtain ⟨a, b, t, v, cnt, extra, more, h1, h2⟩ := h
  refine ⟨cnt.value, extra, ?_, h2⟩
  unfold infoItems
  rw [h1]
  rfl

/-- One turn of the loop. -/
theorem casLoop_cons (lower : Str → Str) (tab : List (Str × TFile)) (e : Str × Bytes) (rest : List Node) (n : Nat) (buf : Bytes) (out : List (Str × Named))
    (hl : buf.length ≤ e.2.length) :
    casLoop lower tab ((n + 1 : Nat) : Int) (Spec.pairNodes e ++ rest) buf out =
      match find tab (lower (Hex.hexstring e.2)) with
      | none => .throw
      | some f => casLoop lower tab n rest e.2 (upd out (lower e.1) (fun _ => ⟨e.1, f⟩)) := by
  rw [Spec.pairNodes, List.cons_append, List.cons_append, List.nil_append, casLoop, if_neg (by omega)]
  simp only [Node.type, Node.value, ne_eq, not_true_eq_false, if_false, hashBytes_long buf e.2 hl, getFile]
  rw [show ((n + 1 : Nat) : Int) - 1 = (n : Int) by omega]
  cases find tab (lower (Hex.hexstring e.2)) <;> rfl

theorem casLoop_done (lower : Str → Str) (tab : List (Str × TFile)) (extra : List Node) (entries : List (Str × Bytes)) :
    ∀ buf out, (∀ e ∈ entries, buf.length ≤ e.2.length) → Spec.Growing entries →
    ((∀ e ∈ entries, ∃ f, Spec.Stored lower tab (Hex.hexstring e.2) f) →
      ∃ out', casLoop lower tab entries.length (entries.flatMap Spec.pairNodes ++ extra) buf out = .ok out' ∧
        (∀ k, (∀ e ∈ entries, lower e.1 ≠ k) → find out' k = find out k) ∧
        (∀ name e, Spec.LastListed lower entries name e → ∃ f, Spec.Stored lower tab (Hex.hexstring e.2) f ∧ find out' (lower name) = some ⟨e.1, f⟩)) ∧
    ((∃ e ∈ entries, ∀ f, ¬ Spec.Stored lower tab (Hex.hexstring e.2) f) →
      casLoop lower tab entries.length (entries.flatMap Spec.pairNodes ++ extra) buf out = .throw) := by
  induction entries with
  | nil =>
    intro buf out _ _
    refine ⟨fun _ => ⟨out, by rw [casLoop.eq_def]; rfl, fun _ _ => rfl, ?_⟩, fun ⟨e, he, _⟩ => absurd he List.not_mem_nil⟩
    rintro name e ⟨A, B, h, _⟩
    cases A <;> cases h
  | cons e entries ih =>
    intro buf out hb hg
    have hg' := List.pairwise_cons.mp hg
    have step := casLoop_cons lower tab e (entries.flatMap Spec.pairNodes ++ extra) entries.length buf out (hb e (List.mem_cons_self ..))
    rw [List.flatMap_cons, List.append_assoc, List.length_cons, step]
    constructor
    · intro hall
      obtain ⟨f, hf⟩ := hall e (List.mem_cons_self ..)
      rw [show find tab (lower (Hex.hexstring e.2)) = some f from hf]
      obtain ⟨out', h1, h2, h3⟩ := (ih e.2 (upd out (lower e.1) (fun _ => ⟨e.1, f⟩)) hg'.1 hg'.2).1 (fun x hx => hall x (List.mem_cons_of_mem _ hx))
      refine ⟨out', h1, ?_, ?_⟩
      · intro k hk
        rw [h2 k (fun x hx => hk x (List.mem_cons_of_mem _ hx)), find_upd, if_neg (hk e (List.mem_cons_self ..))]
      · rintro name x ⟨A, B, hAB, hx, hB⟩
        cases A with
        | nil =>
          injection hAB with e1 e2
          subst e1; subst e2
          refine ⟨f, hf, ?_⟩
          rw [h2 (lower name) hB, find_upd, if_pos hx]
        | cons a A =>
          injection hAB with e1 e2
          exact h3 name x ⟨A, B, e2, hx, hB⟩
    · rintro ⟨x, hx, hno⟩
      cases hf : find tab (lower (Hex.hexstring e.2)) with
      | none => rfl
      | some f =>
        simp only
        refine (ih e.2 _ hg'.1 hg'.2).2 ⟨x, ?_, hno⟩
        rcases List.mem_cons.mp hx with rfl | hx
        · exact absurd hf (hno f)
        · exact hx

/-- C77, the part that holds. A configuration stored by hashes is opened exactly if the table has a
file for every hash listed, and then it gives for every name, whatever its case, the file of the
hash that is listed last for it; for other names, only the list itself, as `configinfo`. Missing:
lists in which a hash is shorter than one before it. -/
theorem open_by_hashes_partial (lower : Str → Str) (read : TFile → Outcome Node) (tab : List (Str × TFile)) (configver : Str) (f : TFile) (tt : Node)
    (entries : List (Str × Bytes)) (hci : lower "configinfo".toList = "configinfo".toList) (hf : Spec.Stored lower tab configver f) (hr : read f = .ok tt)
    (hl : Spec.Lists tt entries) (hn : entries.length < 2147483648) (hg : Spec.Growing entries) :
    ((∀ e ∈ entries, ∃ g, Spec.Stored lower tab (Hex.hexstring e.2) g) →
      ∃ out, configCas lower read tab configver = .ok out ∧
        (∀ name e, Spec.LastListed lower entries name e → ∃ g, Spec.Stored lower tab (Hex.hexstring e.2) g ∧ Spec.Gives lower out name g) ∧
        (∀ name, (∀ e ∈ entries, lower e.1 ≠ lower name) → ∀ g, Spec.Gives lower out name g ↔ lower name = lower "configinfo".toList ∧ g = f)) ∧
    ((∃ e ∈ entries, ∀ g, ¬ Spec.Stored lower tab (Hex.hexstring e.2) g) → configCas lower read tab configver = .throw) := by
  obtain ⟨cnt, extra, h1, h2⟩ := lists_items hl
  have hk := number_toInt h2 hn
  have hopen : configCas lower read tab configver =
      casLoop lower tab entries.length (entries.flatMap Spec.pairNodes ++ extra) [] [("configinfo".toList, ⟨"configinfo".toList, f⟩)] := by
    unfold configCas getFile
    rw [show find tab (lower configver) = some f from hf]
    simp only [hr, Outcome.ok_bind, h1, hk]
  rw [hopen]
  obtain ⟨c1, c2⟩ := casLoop_done lower tab extra entries [] [("configinfo".toList, ⟨"configinfo".toList, f⟩)] (fun _ _ => Nat.zero_le _) hg
  refine ⟨fun hall => ?_, c2⟩
  obtain ⟨out, g1, g2, g3⟩ := c1 hall
  refine ⟨out, g1, ?_, ?_⟩
  · intro name e he
    obtain ⟨g, h3, h4⟩ := g3 name e he
    exact ⟨g, h3, e.1, h4⟩
  · intro name hno g
    unfold Spec.Gives
    rw [g2 _ hno, find, hci]
    by_cases h : "configinfo".toList = lower name
    · rw [if_pos h]
      constructor
      · rintro ⟨n, e⟩; cases e; exact ⟨h.symm, rfl⟩
      · rintro ⟨_, rfl⟩; exact ⟨_, rfl⟩
    · rw [if_neg h, find]
      constructor
      · rintro ⟨n, e⟩; cases e
      · rintro ⟨e, _⟩; exact absurd e.symm h

/-- C77, a disagreement: after a longer hash a shorter one is not looked up as such; the rest of the
longer one is taken to belong to it. If there is no file of that name the configuration is refused,
although every file it lists is there. -/
theorem shorter_hash_refused (lower : Str → Str) (read : TFile → Outcome Node) (tab : List (Str × TFile)) (configver : Str) (f : TFile) (tt : Node)
    (a b : Str × Bytes) (hf : Spec.Stored lower tab configver f) (hr : read f = .ok tt) (hl : Spec.Lists tt [a, b]) (_ : ∃ g, Spec.Stored lower tab (Hex.hexstring a.2) g)
    (_ : ∃ g, Spec.Stored lower tab (Hex.hexstring b.2) g) (hno : ∀ g, ¬ Spec.Stored lower tab (Hex.hexstring (b.2 ++ a.2.drop b.2.length)) g) :
    configCas lower read tab configver = .throw := by
  obtain ⟨cnt, extra, h1, h2⟩ := lists_items hl
  have hk := number_toInt h2 (show 2 < 2147483648 by decide)
  unfold configCas getFile
  rw [show find tab (lower configver) = some f from hf]
  simp only [hr, Outcome.ok_bind, h1, hk]
  rw [List.flatMap_cons, List.append_assoc]
  rw [show ((List.length [a, b] : Nat) : Int) = ((1 + 1 : Nat) : Int) from rfl, casLoop_cons _ _ _ _ _ _ _ (Nat.zero_le _)]
  cases hfa : find tab (lower (Hex.hexstring a.2)) with
  | none => rfl
  | some g =>
    simp only [List.flatMap_cons, List.flatMap_nil, List.append_nil]
    rw [Spec.pairNodes, List.cons_append, List.cons_append, List.nil_append, casLoop, if_neg (by omega)]
    simp only [Node.type, Node.value, ne_eq, not_true_eq_false, if_false, getFile]
    have : hashBytes a.2 (Spec.hashText b.2) = b.2 ++ a.2.drop b.2.length := by unfold hashBytes; simp only [decode_hashText]
    rw [this]
    cases hx : find tab (lower (Hex.hexstring (b.2 ++ a.2.drop b.2.length))) with
    | none => rfl
    | some g' => exact absurd hx (hno g')

/-- C77: a list of files that is one list in braces, and not three values at the top, is refused. -/
theorem one_list_refused (lower : Str → Str) (read : TFile → Outcome Node) (tab : List (Str × TFile)) (configver : Str) (f : TFile) (tt n : Node)
    (hf : Spec.Stored lower tab configver f) (hr : read f = .ok tt) (h : tt.kids = [n]) : configCas lower read tab configver = .throw := by
  unfold configCas getFile
  rw [show find tab (lower configver) = some f from hf]
  simp only [hr, Outcome.ok_bind, infoItems, h]
  rfl

/-- C77: a version that the table has no file for is refused. -/
theorem no_version_refused (lower : Str → Str) (read : TFile → Outcome Node) (tab : List (Str × TFile)) (configver : Str) (h : ∀ f, ¬ Spec.Stored lower tab configver f) :
    configCas lower read tab configver = .throw := by
  unfold configCas getFile
  cases hf : find tab (lower configver) with
  | none => rfl
  | some f => exact absurd hf (h f)

/-! ## The configuration being saved -/

/-- One turn of the loop for a name that is not there yet. -/
theorem casSaveLoop_cons (lower : Str → Str) (tab : List (Str × TFile)) (e : Str × Bytes) (rest : List Node) (n : Nat) (buf : Bytes) (out : List (Str × Named))
    (hl : buf.length ≤ e.2.length) (hno : find out (lower e.1) = none) :
    casSaveLoop lower tab ((n + 1 : Nat) : Int) (Spec.pairNodes e ++ rest) buf out =
      match find tab (lower (Hex.hexstring e.2)) with
      | none => .throw
      | some f => casSaveLoop lower tab n rest e.2 (upd out (lower e.1) (fun _ => ⟨e.1, f⟩)) := by
  rw [Spec.pairNodes, List.cons_append, List.cons_append, List.nil_append, casSaveLoop, if_neg (by omega)]
  simp only [Node.type, Node.value, ne_eq, not_true_eq_false, if_false, hashBytes_long buf e.2 hl, getFile, hno, Option.isSome_none, Bool.false_eq_true]
  rw [show ((n + 1 : Nat) : Int) - 1 = (n : Int) by omega]
  cases find tab (lower (Hex.hexstring e.2)) <;> rfl

theorem casSaveLoop_done (lower : Str → Str) (tab : List (Str × TFile)) (extra : List Node) (entries : List (Str × Bytes)) :
    ∀ buf out, (∀ e ∈ entries, buf.length ≤ e.2.length) → Spec.Growing entries → (∀ e ∈ entries, find out (lower e.1) = none) →
    (entries.map (fun e => lower e.1)).Nodup →
    ((∀ e ∈ entries, ∃ f, Spec.Stored lower tab (Hex.hexstring e.2) f) →
      ∃ out', casSaveLoop lower tab entries.length (entries.flatMap Spec.pairNodes ++ extra) buf out = .ok out' ∧
        (∀ k, (∀ e ∈ entries, lower e.1 ≠ k) → find out' k = find out k) ∧
        (∀ e ∈ entries, ∃ f, Spec.Stored lower tab (Hex.hexstring e.2) f ∧ find out' (lower e.1) = some ⟨e.1, f⟩)) ∧
    ((∃ e ∈ entries, ∀ f, ¬ Spec.Stored lower tab (Hex.hexstring e.2) f) →
      casSaveLoop lower tab entries.length (entries.flatMap Spec.pairNodes ++ extra) buf out = .throw) := by
  induction entries with
  | nil =>
    intro buf out _ _ _ _
    exact ⟨fun _ => ⟨out, by rw [casSaveLoop.eq_def]; rfl, fun _ _ => rfl, fun e he => absurd he List.not_mem_nil⟩, fun ⟨e, he, _⟩ => absurd he List.not_mem_nil⟩
  | cons e entries ih =>
    intro buf out hb hg ho hnd
    have hg' := List.pairwise_cons.mp hg
    rw [List.map_cons, List.nodup_cons] at hnd
    have hne : ∀ x ∈ entries, lower x.1 ≠ lower e.1 := fun x hx h => hnd.1 (List.mem_map.mpr ⟨x, hx, h⟩)
    have step := casSaveLoop_cons lower tab e (entries.flatMap Spec.pairNodes ++ extra) entries.length buf out (hb e (List.mem_cons_self ..)) (ho e (List.mem_cons_self ..))
    rw [List.flatMap_cons, List.append_assoc, List.length_cons, step]
    have ho' : ∀ f : TFile, ∀ x ∈ entries, find (upd out (lower e.1) (fun _ => ⟨e.1, f⟩)) (lower x.1) = none := by
      intro f x hx
      rw [find_upd, if_neg (fun h => hne x hx h.symm)]
      exact ho x (List.mem_cons_of_mem _ hx)
    constructor
    · intro hall
      obtain ⟨f, hf⟩ := hall e (List.mem_cons_self ..)
      rw [show find tab (lower (Hex.hexstring e.2)) = some f from hf]
      obtain ⟨out', h1, h2, h3⟩ := (ih e.2 (upd out (lower e.1) (fun _ => ⟨e.1, f⟩)) hg'.1 hg'.2 (ho' f) hnd.2).1 (fun x hx => hall x (List.mem_cons_of_mem _ hx))
      refine ⟨out', h1, ?_, ?_⟩
      · intro k hk
        rw [h2 k (fun x hx => hk x (List.mem_cons_of_mem _ hx)), find_upd, if_neg (hk e (List.mem_cons_self ..))]
      · intro x hx
        rcases List.mem_cons.mp hx with rfl | hx
        · exact ⟨f, hf, by rw [h2 _ hne, find_upd, if_pos rfl]⟩
        · exact h3 x hx
    · rintro ⟨x, hx, hno⟩
      cases hf : find tab (lower (Hex.hexstring e.2)) with
      | none => rfl
      | some f =>
        simp only
        refine (ih e.2 _ hg'.1 hg'.2 (ho' f) hnd.2).2 ⟨x, ?_, hno⟩
        rcases List.mem_cons.mp hx with rfl | hx
        · exact absurd hf (hno f)
        · exact hx

theorem saved_iff {lower : Str → Str} {uid : Bytes} {key : Str} {tf : TFile} : Spec.SavedFor lower uid (key, tf) ↔
    lower (key.take (Guid.as1C uid ++ "__".toList).length) = lower (Guid.as1C uid ++ "__".toList) := Iff.rfl

theorem savedLoop_none (lower : Str → Str) (uid : Bytes) (saved : List (Str × TFile)) (h : ∀ p ∈ saved, ¬ Spec.SavedFor lower uid p) (out : List (Str × Named)) (info : Option Named) :
    savedLoop lower (Guid.as1C uid ++ "__".toList) saved out info = .ok (out, info) := by
  induction saved with
  | nil => rfl
  | cons p saved ih =>
    obtain ⟨key, tf⟩ := p
    rw [savedLoop, if_neg (fun e => h (key, tf) (List.mem_cons_self ..) (saved_iff.mpr e))]
    exact ih (fun q hq => h q (List.mem_cons_of_mem _ hq))

/-- C78, the part that holds. If nothing of the configuration has been saved, the stored one is
given: it is opened exactly if the table has a file for every hash listed, and then every name listed
gives the file of its hash. Missing: configurations with saved files. -/
theorem open_unsaved_partial (lower : Str → Str) (read : TFile → Outcome Node) (tab saved : List (Str × TFile)) (uid : Bytes) (configver : Str) (f : TFile) (tt : Node)
    (entries : List (Str × Bytes)) (hci : lower "configinfo".toList = "configinfo".toList) (hs : ∀ p ∈ saved, ¬ Spec.SavedFor lower uid p)
    (hf : Spec.Stored lower tab configver f) (hr : read f = .ok tt) (hl : Spec.Lists tt entries) (hn : entries.length < 2147483648) (hg : Spec.Growing entries)
    (hd : (entries.map (fun e => lower e.1)).Nodup) (hc : ∀ e ∈ entries, lower e.1 ≠ lower "configinfo".toList) :
    ((∀ e ∈ entries, ∃ g, Spec.Stored lower tab (Hex.hexstring e.2) g) →
      ∃ out, configCasSave lower read tab saved uid configver = .ok out ∧
        (∀ e ∈ entries, ∃ g, Spec.Stored lower tab (Hex.hexstring e.2) g ∧ Spec.Gives lower out e.1 g) ∧
        (∀ name, (∀ e ∈ entries, lower e.1 ≠ lower name) → ∀ g, Spec.Gives lower out name g ↔ lower name = lower "configinfo".toList ∧ g = f)) ∧
    ((∃ e ∈ entries, ∀ g, ¬ Spec.Stored lower tab (Hex.hexstring e.2) g) → configCasSave lower read tab saved uid configver = .throw) := by
  obtain ⟨cnt, extra, h1, h2⟩ := lists_items hl
  have hk := number_toInt h2 hn
  have hopen : configCasSave lower read tab saved uid configver =
      casSaveLoop lower tab entries.length (entries.flatMap Spec.pairNodes ++ extra) [] [("configinfo".toList, ⟨"configinfo".toList, f⟩)] := by
    unfold configCasSave
    rw [savedLoop_none lower uid saved hs, Outcome.ok_bind]
    simp only [savedInfo, List.isEmpty_nil, if_true, getFile]
    rw [show find tab (lower configver) = some f from hf]
    simp only [Outcome.ok_bind, hr, h1, hk]
  rw [hopen]
  obtain ⟨c1, c2⟩ := casSaveLoop_done lower tab extra entries [] [("configinfo".toList, ⟨"configinfo".toList, f⟩)] (fun _ _ => Nat.zero_le _) hg
    (by
      intro e he
      rw [find, if_neg (by rw [← hci]; exact fun h => hc e he h.symm)]
      rfl) hd
  refine ⟨fun hall => ?_, c2⟩
  obtain ⟨out, g1, g2, g3⟩ := c1 hall
  refine ⟨out, g1, ?_, ?_⟩
  · intro e he
    obtain ⟨g, h3, h4⟩ := g3 e he
    exact ⟨g, h3, e.1, h4⟩
  · intro name hno g
    unfold Spec.Gives
    rw [g2 _ hno, find, hci]
    by_cases h : "configinfo".toList = lower name
    · rw [if_pos h]
      constructor
      · rintro ⟨n, e⟩; cases e; exact ⟨h.symm, rfl⟩
      · rintro ⟨_, rfl⟩; exact ⟨_, rfl⟩
    · rw [if_neg h, find]
      constructor
      · rintro ⟨n, e⟩; cases e
      · rintro ⟨e, _⟩; exact absurd e.symm h

theorem upd_ne_nil (m : List (Str × α)) (k : Str) (f : Option α → α) : upd m k f ≠ [] := by
  cases m with
  | nil => simp [upd]
  | cons p m => obtain ⟨a, v⟩ := p; rw [upd]; split <;> simp

theorem savedLoop_found (lower : Str → Str) (uid : Bytes) (saved : List (Str × TFile)) :
    ∀ out, (∀ p ∈ saved, Spec.SavedFor lower uid p → ∃ base, p.2.name = Guid.as1C uid ++ "__".toList ++ base ∧ lower base.dropLast ≠ lower "configinfo".toList) →
    ((∃ p ∈ saved, Spec.SavedFor lower uid p) ∨ out ≠ []) →
    ∃ out', savedLoop lower (Guid.as1C uid ++ "__".toList) saved out none = .ok (out', none) ∧ out' ≠ [] := by
  induction saved with
  | nil =>
    intro out _ h
    rcases h with ⟨p, hp, _⟩ | h
    · cases hp
    · exact ⟨out, rfl, h⟩
  | cons p saved ih =>
    obtain ⟨key, tf⟩ := p
    intro out hn h
    rw [savedLoop]
    by_cases hk : Spec.SavedFor lower uid (key, tf)
    · obtain ⟨base, h1, h2⟩ := hn (key, tf) (List.mem_cons_self ..) hk
      rw [if_pos (saved_iff.mp hk)]
      have hname : savedName (Guid.as1C uid ++ "__".toList).length tf.name = .ok base.dropLast := by
        rw [savedName, if_neg (by rw [h1, List.length_append]; omega), h1]
        congr 1
        cases base with
        | nil => rw [List.append_nil, if_pos rfl]; rfl
        | cons b bs =>
          rw [if_neg (by rw [List.length_append (as := Guid.as1C uid ++ "__".toList), List.length_cons]; omega), List.drop_left,
            List.length_append (as := Guid.as1C uid ++ "__".toList), List.dropLast_eq_take]
          congr 1
          omega
      rw [hname, Outcome.ok_bind, if_neg h2]
      exact ih _ (fun q hq => hn q (List.mem_cons_of_mem _ hq)) (.inr (upd_ne_nil _ _ _))
    · rw [if_neg (fun e => hk (saved_iff.mpr e))]
      refine ih out (fun q hq => hn q (List.mem_cons_of_mem _ hq)) ?_
      rcases h with ⟨q, hq, hq2⟩ | h
      · rcases List.mem_cons.mp hq with rfl | hq
        · exact absurd hq2 hk
        · exact .inl ⟨q, hq, hq2⟩
      · exact .inr h

/-- C78, a disagreement: names of saved files lose their last character, so that the saved list of
files, whose name is the configuration's identifier, two underscores and `configinfo`, is not
recognised. A configuration with saved files is therefore always refused (unless a file's name has
one character after `configinfo`). -/
theorem saved_refused (lower : Str → Str) (read : TFile → Outcome Node) (tab saved : List (Str × TFile)) (uid : Bytes) (configver : Str)
    (hsome : ∃ p ∈ saved, Spec.SavedFor lower uid p)
    (hn : ∀ p ∈ saved, Spec.SavedFor lower uid p → ∃ base, p.2.name = Guid.as1C uid ++ "__".toList ++ base ∧ lower base.dropLast ≠ lower "configinfo".toList) :
    configCasSave lower read tab saved uid configver = .throw := by
  obtain ⟨out, h1, h2⟩ := savedLoop_found lower uid saved [] hn (.inl hsome)
  unfold configCasSave
  rw [h1, Outcome.ok_bind]
  simp only [savedInfo]
  rw [if_neg (by cases out with | nil => exact absurd rfl h2 | cons _ _ => simp)]
  rfl

/-- C78, a disagreement: in a damaged list, a name without a hash leads to a null pointer if the name
is there already and more files are announced. -/
theorem name_without_hash_ub (lower : Str → Str) (tab : List (Str × TFile)) (m : Int) (n : Node) (buf : Bytes) (out : List (Str × Named)) (v : Named)
    (hm : m ≠ 0 ∧ m ≠ 1) (hs : n.type = .string) (hf : find out (lower n.value) = some v) : casSaveLoop lower tab m [n] buf out = .ub := by
  rw [casSaveLoop, if_neg hm.1, hs, if_neg (by simp), hf]
  simp only [Option.isSome_some, if_true]
  rw [if_neg (by omega)]

/-- C78: a saved file whose name is shorter than the mark of the configuration is refused, wherever it is. -/
theorem short_name_refused (lower : Str → Str) (read : TFile → Outcome Node) (tab saved : List (Str × TFile)) (uid : Bytes) (configver : Str)
    (h : ∃ p ∈ saved, Spec.SavedFor lower uid p ∧ p.2.name.length < (Guid.as1C uid ++ "__".toList).length) :
    configCasSave lower read tab saved uid configver = .throw := by
  have key : ∀ out info, savedLoop lower (Guid.as1C uid ++ "__".toList) saved out info = .throw := by
    induction saved with
    | nil => obtain ⟨p, hp, _⟩ := h; cases hp
    | cons q saved ih =>
      obtain ⟨key, tf⟩ := q
      intro out info
      rw [savedLoop]
      by_cases hs : lower (key.take (Guid.as1C uid ++ "__".toList).length) = lower (Guid.as1C uid ++ "__".toList)
      · rw [if_pos hs]
        unfold savedName
        by_cases hl : tf.name.length < (Guid.as1C uid ++ "__".toList).length
        · rw [if_pos hl]
          rfl
        · rw [if_neg hl, Outcome.ok_bind]
          refine ih ?_ _ _
          obtain ⟨p, hp, h1, h2⟩ := h
          rcases List.mem_cons.mp hp with rfl | hp
          · exact absurd h2 hl
          · exact ⟨p, hp, h1, h2⟩
      · rw [if_neg hs]
        refine ih ?_ _ _
        obtain ⟨p, hp, h1, h2⟩ := h
        rcases List.mem_cons.mp hp with rfl | hp
        · exact absurd h1 hs
        · exact ⟨p, hp, h1, h2⟩
  unfold configCasSave
  rw [key]
  rfl

/-- C78: a name listed although there is a file for it already changes nothing: its hash is not looked for, and the
list goes on with the next name. -/
theorem known_name_skipped (lower : Str → Str) (tab : List (Str × TFile)) (e : Str × Bytes) (entries : List (Str × Bytes)) (extra : List Node) (buf : Bytes) (out : List (Str × Named))
    (h : ∃ g, Spec.Gives lower out e.1 g) :
    casSaveLoop lower tab (e :: entries).length ((e :: entries).flatMap Spec.pairNodes ++ extra) buf out =
      casSaveLoop lower tab entries.length (entries.flatMap Spec.pairNodes ++ extra) buf out := by
  obtain ⟨g, hg⟩ := h
  have hf : (find out (lower e.1)).isSome = true := by
    obtain ⟨v, hv⟩ := hg
    rw [hv]
    rfl
  show casSaveLoop lower tab _ (Node.leaf .string e.1 :: Node.leaf .binary2 (Spec.hashText e.2) :: (entries.flatMap Spec.pairNodes ++ extra)) buf out = _
  rw [casSaveLoop, if_neg (by simp; omega)]
  have h1 : ¬ (Node.leaf .string e.1).type ≠ .string := by simp [Node.leaf, Node.type]
  have h2 : (Node.leaf .string e.1).value = e.1 := rfl
  rw [if_neg h1, h2, if_pos hf]
  congr 1
  simp

/-! ## Examples -/

/-- The ASCII part of `LowerCase`. -/
def asciiLower (s : Str) : Str := s.map Char.toLower

/-- A list of two files as text. -/
def listText : Str := "{1},{2},{2,\"root\",qrs=,\"Module\",3q2+7w==}".toList

def listFile : TFile := ⟨"v1".toList, [(3, 40)], 0, 0⟩
def fileA : TFile := ⟨"aabb".toList, [(5, 9)], 0, 0⟩
def fileB : TFile := ⟨"deadbeef".toList, [(7, 11)], 0, 0⟩
def casTable : List (Str × TFile) := [("v1".toList, listFile), ("aabb".toList, fileA), ("deadbeef".toList, fileB)]

theorem listText_lists : ∃ tt, parseText listText = .ok tt ∧ Spec.Lists tt [("root".toList, [0xaa, 0xbb]), ("Module".toList, [0xde, 0xad, 0xbe, 0xef])] := by
  refine ⟨_, rfl, ?_⟩
  refine ⟨_, _, _, _, _, [], [], rfl, [2], by decide, by decide, rfl, rfl⟩

/-- `open_by_hashes_partial` applies, and the name is found in any case. -/
example : ∃ out, configCas asciiLower (fun _ => parseText listText) casTable "V1".toList = .ok out ∧ Spec.Gives asciiLower out "module".toList fileB := by
  obtain ⟨tt, h1, h2⟩ := listText_lists
  obtain ⟨out, g1, g2, _⟩ := (open_by_hashes_partial asciiLower (fun _ => parseText listText) casTable "V1".toList listFile tt _ (by decide) (by unfold Spec.Stored; decide) h1 h2
    (by decide) (by unfold Spec.Growing; decide)).1 (by
      intro e he
      rcases List.mem_cons.mp he with rfl | he
      · exact ⟨fileA, by unfold Spec.Stored; decide⟩
      · cases List.mem_singleton.mp he
        exact ⟨fileB, by unfold Spec.Stored; decide⟩)
  obtain ⟨g, h3, h4⟩ := g2 "module".toList _ ⟨[("root".toList, [0xaa, 0xbb])], [], rfl, by decide, by simp⟩
  have : Spec.Stored asciiLower casTable (Hex.hexstring [0xde, 0xad, 0xbe, 0xef]) fileB := by unfold Spec.Stored; decide
  have e : g = fileB := by unfold Spec.Stored at h3 this; rw [h3] at this; exact Option.some.inj this
  rw [e] at h4
  exact ⟨out, g1, h4⟩

/-- `open_unsaved_partial` applies. -/
example : ∃ out, configCasSave asciiLower (fun _ => parseText listText) casTable [("x".toList, fileA)] Guid.empty "V1".toList = .ok out := by
  obtain ⟨tt, h1, h2⟩ := listText_lists
  obtain ⟨out, g1, _⟩ := (open_unsaved_partial asciiLower (fun _ => parseText listText) casTable [("x".toList, fileA)] Guid.empty "V1".toList listFile tt _ (by decide)
    (by unfold Spec.SavedFor; decide) (by unfold Spec.Stored; decide) h1 h2 (by decide) (by unfold Spec.Growing; decide) (by decide) (by decide)).1 (by
      intro e he
      rcases List.mem_cons.mp he with rfl | he
      · exact ⟨fileA, by unfold Spec.Stored; decide⟩
      · cases List.mem_singleton.mp he
        exact ⟨fileB, by unfold Spec.Stored; decide⟩)
  exact ⟨out, g1⟩

/-- The same list the other way round. -/
def turnedText : Str := "{1},{2},{2,\"Module\",3q2+7w==,\"root\",qrs=}".toList

/-- `shorter_hash_refused` applies: the same files in the other order are refused. -/
example : configCas asciiLower (fun _ => parseText turnedText) casTable "v1".toList = .throw := by
  obtain ⟨tt, h1, h2⟩ : ∃ tt, parseText turnedText = .ok tt ∧ Spec.Lists tt [("Module".toList, [0xde, 0xad, 0xbe, 0xef]), ("root".toList, [0xaa, 0xbb])] :=
    ⟨_, rfl, _, _, _, _, _, [], [], rfl, [2], by decide, by decide, rfl, rfl⟩
  refine shorter_hash_refused asciiLower _ casTable "v1".toList listFile tt _ _ (by unfold Spec.Stored; decide) h1 h2 ⟨fileB, by unfold Spec.Stored; decide⟩
    ⟨fileA, by unfold Spec.Stored; decide⟩ ?_
  intro g hg
  have : find casTable (asciiLower (Hex.hexstring ([0xaa, 0xbb] ++ [0xde, 0xad, 0xbe, 0xef].drop 2))) = none := by decide
  unfold Spec.Stored at hg
  exact absurd (this.symm.trans hg) (by simp)

/-- `saved_refused` applies to a saved configuration as it should be. -/
example : configCasSave asciiLower (fun _ => parseText listText) casTable
    [("00000000-0000-0000-0000-000000000000__configinfo".toList, ⟨"00000000-0000-0000-0000-000000000000__configinfo".toList, [(3, 40)], 0, 0⟩),
     ("00000000-0000-0000-0000-000000000000__root".toList, ⟨"00000000-0000-0000-0000-000000000000__root".toList, [(5, 9)], 0, 0⟩)] Guid.empty "v1".toList = .throw := by
  refine saved_refused _ _ _ _ _ _ ⟨_, List.mem_cons_self .., by unfold Spec.SavedFor; decide⟩ ?_
  intro p hp _
  rcases List.mem_cons.mp hp with rfl | hp
  · exact ⟨"configinfo".toList, by decide, by decide⟩
  · cases List.mem_singleton.mp hp
    exact ⟨"root".toList, by decide, by decide⟩

/-- `short_name_refused` applies to a name that is its mark less one character. -/
example : configCasSave asciiLower (fun _ => parseText listText) casTable
    [("x".toList, fileA), ("00000000-0000-0000-0000-000000000000__r".toList, ⟨"00000000-0000-0000-0000-000000000000_".toList, [(3, 40)], 0, 0⟩)] Guid.empty "v1".toList = .throw :=
  short_name_refused _ _ _ _ _ _ ⟨_, List.mem_cons_of_mem _ (List.mem_cons_self ..), by unfold Spec.SavedFor; decide, by decide⟩

/-- `known_name_skipped` applies to the list of files if it lists itself, under a hash of no file. -/
example : casSaveLoop asciiLower casTable 2 ([("ConfigInfo".toList, [1, 2, 3]), ("root".toList, [0xaa, 0xbb])].flatMap Spec.pairNodes ++ []) [] [("configinfo".toList, ⟨"configinfo".toList, listFile⟩)] =
    casSaveLoop asciiLower casTable 1 ([("root".toList, [0xaa, 0xbb])].flatMap Spec.pairNodes ++ []) [] [("configinfo".toList, ⟨"configinfo".toList, listFile⟩)] :=
  known_name_skipped asciiLower casTable ("ConfigInfo".toList, [1, 2, 3]) [("root".toList, [0xaa, 0xbb])] [] [] _ ⟨listFile, "configinfo".toList, rfl⟩

end Verif.Config
