import Verif.Config.SaveSpec
import Verif.Config.SelectTheorems
import Verif.Config.CasTheorems

/-! # Property theorems: the configuration being edited (C79) -/

namespace Verif.Config
open Verif Tree

/-! ## Lists of identifiers -/

theorem guidLoop_all (ids extra : List Node) : ∀ (gs : List Bytes), ids.map Node.value = gs.map Guid.as1C → (∀ g ∈ gs, g.length = 16) →
    guidLoop gs.length (ids ++ extra) = .ok gs := by
  induction ids with
  | nil =>
    intro gs h _
    cases gs with
    | nil => rfl
    | cons g gs => cases h
  | cons k ids ih =>
    intro gs h hl
    cases gs with
    | nil => cases h
    | cons g gs =>
      simp only [List.map_cons, List.cons.injEq] at h
      rw [List.length_cons, List.cons_append, guidLoop, h.1, Guid.parse_as1C g (hl g (List.mem_cons_self ..)), Outcome.ok_bind,
        ih gs h.2 (fun x hx => hl x (List.mem_cons_of_mem _ hx)), Outcome.ok_bind]

theorem guidList_ids {tt : Node} {gs : List Bytes} (h : Spec.ListsIds tt gs) (hl : ∀ g ∈ gs, g.length = 16) (hn : gs.length < 2147483648) :
    guidList tt = .ok gs := by
  obtain ⟨t, v, a, n, ids, extra, more, h1, h2, h3, h4⟩ := h
  unfold guidList
  rw [h1]
  simp only [Node.kids]
  rw [if_neg (by rw [h2]; simp), number_toInt h3 hn, Outcome.ok_bind, if_neg (by omega)]
  exact guidLoop_all ids extra gs h4 hl

/-- **A list of identifiers is read as it stands** (also the one of property C50). -/
theorem ids_read (lower : Str → Str) (read : TFile → Outcome Node) (tab : List (Str × TFile)) (name : Str) (gs : List Bytes)
    (h : Spec.HasIds lower read tab name gs) (hl : ∀ g ∈ gs, g.length = 16) (hn : gs.length < 2147483648) :
    guidsOf lower read tab name = .ok gs := by
  rcases h with ⟨f, tt, h1, h2, h3⟩ | ⟨h1, h2⟩
  · unfold guidsOf getFile
    rw [show find tab (lower name) = some f from h1]
    simp only
    rw [h2, Outcome.ok_bind]
    exact guidList_ids h3 hl hn
  · unfold guidsOf getFile
    cases hf : find tab (lower name) with
    | none => rw [h2]
    | some f => exact absurd hf (h1 f)

theorem guidLoop_short (ids : List Node) : ∀ n, ids.length < n → (∀ k ∈ ids, k.value.length = 36) → guidLoop n ids = .ub := by
  induction ids with
  | nil =>
    intro n h _
    cases n with
    | zero => cases h
    | succ n => rfl
  | cons k ids ih =>
    intro n h hk
    cases n with
    | zero => cases h
    | succ n =>
      obtain ⟨g, hg, _⟩ := Guid.right_length_accepted k.value (Or.inr (hk k (List.mem_cons_self ..)))
      rw [guidLoop, hg, Outcome.ok_bind, ih n (by simpa using h) (fun x hx => hk x (List.mem_cons_of_mem _ hx))]
      rfl

/-- **Negation.** A list that says it has more identifiers than it has makes the program follow a null
pointer instead of refusing the file. -/
theorem long_count_ub (tt : Node) (t : NType) (v : Str) (a n : Node) (ids more : List Node) (k : Nat)
    (h1 : tt.kids = .mk t v (a :: n :: ids) :: more) (h2 : n.type = .number) (h3 : Spec.IsNumber n.value k) (hk : k < 2147483648)
    (hlt : ids.length < k) (hid : ∀ x ∈ ids, x.value.length = 36) : guidList tt = .ub := by
  unfold guidList
  rw [h1]
  simp only [Node.kids]
  rw [if_neg (by rw [h2]; simp), number_toInt h3 hk, Outcome.ok_bind, if_neg (by omega)]
  exact guidLoop_short ids k hlt hid

/-! ## The files looked at -/

theorem mem_taken {lower : Str → Str} {list : Str} {tab : List (Str × TFile)} {f : TFile} :
    (∃ key, (key, f) ∈ tab.filter (taken lower list)) ↔ Spec.Present lower list tab f := by
  constructor
  · rintro ⟨key, h⟩
    rw [List.mem_filter] at h
    obtain ⟨h1, h2⟩ := h
    unfold taken at h2
    simp only [Bool.and_eq_true, decide_eq_true_eq] at h2
    cases ha : f.addr with
    | nil => rw [ha] at h2; exact absurd rfl h2.2
    | cons p rest =>
      obtain ⟨b, l⟩ := p
      rw [ha] at h2
      exact ⟨key, b, l, rest, h1, h2.1, ha, h2.2⟩
  · rintro ⟨key, b, l, rest, h1, h2, h3, h4⟩
    refine ⟨key, List.mem_filter.mpr ⟨h1, ?_⟩⟩
    unfold taken
    rw [h3]
    simp [h2, h4]

/-! ## The saved files -/

theorem savedFiles_ok (lower : Str → Str) (rank : Int) (fs : List (Str × TFile)) : ∀ (m : List (Str × Chosen TFile)),
    fs.Pairwise (fun a b => lower a.2.name ≠ lower b.2.name) → (∀ p ∈ fs, find m (lower p.2.name) = none) →
    ∃ out, savedFiles lower rank fs m = .ok out ∧ (∀ p ∈ fs, find out (lower p.2.name) = some ⟨p.2.name, p.2, rank⟩) ∧
      (∀ k, (∀ p ∈ fs, lower p.2.name ≠ k) → find out k = find m k) := by
  induction fs with
  | nil => exact fun m _ _ => ⟨m, rfl, by simp, fun _ _ => rfl⟩
  | cons p fs ih =>
    obtain ⟨key, f⟩ := p
    intro m hp hm
    rw [List.pairwise_cons] at hp
    obtain ⟨out, h1, h2, h3⟩ := ih (upd m (lower f.name) (fun _ => ⟨f.name, f, rank⟩)) hp.2 (by
      intro q hq
      rw [find_upd, if_neg (hp.1 q hq)]
      exact hm q (List.mem_cons_of_mem _ hq))
    refine ⟨out, ?_, ?_, ?_⟩
    · rw [savedFiles, hm (key, f) (List.mem_cons_self ..)]
      simpa using h1
    · intro q hq
      rcases List.mem_cons.mp hq with rfl | hq
      · rw [h3 _ (fun r hr => fun e => hp.1 r hr e.symm), find_upd, if_pos rfl]
      · exact h2 q hq
    · intro k hk
      rw [h3 k (fun r hr => hk r (List.mem_cons_of_mem _ hr)), find_upd, if_neg (hk (key, f) (List.mem_cons_self ..))]

theorem savedFiles_inv (lower : Str → Str) (rank : Int) (fs : List (Str × TFile)) : ∀ (m out : List (Str × Chosen TFile)),
    savedFiles lower rank fs m = .ok out →
    fs.Pairwise (fun a b => lower a.2.name ≠ lower b.2.name) ∧ (∀ p ∈ fs, find m (lower p.2.name) = none) := by
  induction fs with
  | nil => exact fun m out _ => ⟨List.Pairwise.nil, by simp⟩
  | cons p fs ih =>
    obtain ⟨key, f⟩ := p
    intro m out h
    rw [savedFiles] at h
    cases hf : find m (lower f.name) with
    | some c => rw [hf] at h; cases h
    | none =>
      rw [hf] at h
      obtain ⟨h1, h2⟩ := ih _ _ h
      have h3 : ∀ q ∈ fs, lower f.name ≠ lower q.2.name := by
        intro q hq e
        have := h2 q hq
        rw [find_upd, if_pos e] at this
        cases this
      refine ⟨List.pairwise_cons.mpr ⟨h3, h1⟩, ?_⟩
      intro q hq
      rcases List.mem_cons.mp hq with rfl | hq
      · exact hf
      · have := h2 q hq
        rwa [find_upd, if_neg (h3 q hq)] at this

/-! ## The stored files -/

theorem position_lt (dynup : List Bytes) (g : Bytes) : position dynup g < dynup.length + 2 := by
  unfold position
  split
  · rename_i i h
    obtain ⟨h, _⟩ := List.findIdx?_eq_some_iff_findIdx_eq.mp h
    omega
  · omega

theorem saveVariant_rank (lower : Str → Str) (dynup : List Bytes) (g : Bytes) (s : Str) : (saveVariant lower dynup g s).2.1 < dynup.length + 2 := by
  unfold saveVariant saveUpdate
  dsimp only
  split
  · exact position_lt _ _
  · dsimp only
    split <;> omega

/-- A file with the greatest number stays. -/
theorem storedFiles_keep (lower : Str → Str) (dynup : List Bytes) (del : List Str) (fs : List (Str × TFile)) (k : Str) (c : Chosen TFile)
    (hc : c.dynno = dynup.length + 2) : ∀ (g : Bytes) (m : List (Str × Chosen TFile)), find m k = some c →
    find (storedFiles lower dynup del fs g m) k = some c := by
  induction fs with
  | nil => exact fun g m h => h
  | cons p fs ih =>
    obtain ⟨key, f⟩ := p
    intro g m h
    rw [storedFiles]
    by_cases hd : lower f.name ∈ del
    · rw [if_pos hd]; exact ih g m h
    · rw [if_neg hd]
      apply ih
      rw [find_upd]
      by_cases hk : lower (saveVariant lower dynup g f.name).1 = k
      · rw [if_pos hk, hk, h]
        have := saveVariant_rank lower dynup g f.name
        simp only [choose]
        rw [if_neg (by omega)]
      · rw [if_neg hk]; exact h

theorem findFirst_none (s : Str) (h : ¬ "_dynupdate_".toList <:+: s) : findFirst dynMark s = none := by
  rw [findFirst, List.find?_eq_none]
  intro i _ hs
  apply h
  obtain ⟨t, ht⟩ := (SelectTheorems.startsAt_iff dynMark s i).mp hs
  refine ⟨s.take i, t, ?_⟩
  have : s = s.take i ++ s.drop i := (List.take_append_drop i s).symm
  rw [ht] at this
  rw [List.append_assoc]
  exact this.symm

theorem saveExt_plain (s : Str) (h : '.' ∉ s) : saveExt s = (s, []) := by
  rw [saveExt, SelectTheorems.rfind_none]
  intro i
  cases hs : startsAt ['.'] s i with
  | false => rfl
  | true => exact absurd (List.mem_of_getElem? (SelectTheorems.startsAt_char ['.'] s i 0 (by decide) hs)) h

theorem saveVariant_plain (lower : Str → Str) (hl : lower [] ≠ lower "new".toList) (dynup : List Bytes) (g : Bytes) (s : Str) (h : Spec.PlainName s) :
    saveVariant lower dynup g s = (s, -1, g) := by
  unfold saveVariant
  rw [saveExt_plain s h.1]
  dsimp only
  rw [saveUpdate, findFirst_none s h.2, if_neg hl]
  simp

theorem storedFiles_plain (lower : Str → Str) (hl : lower [] ≠ lower "new".toList) (dynup : List Bytes) (del : List Str) (fs : List (Str × TFile))
    (k : Str) (g : Bytes) : ∀ (m : List (Str × Chosen TFile)),
    fs.Pairwise (fun a b => lower a.2.name ≠ lower b.2.name) → (∀ p ∈ fs, Spec.PlainName p.2.name) → find m k = none →
    ∀ f, (∃ c, find (storedFiles lower dynup del fs g m) k = some c ∧ c.file = f) ↔ ∃ key, (key, f) ∈ fs ∧ lower f.name = k ∧ k ∉ del := by
  have other : ∀ (fs : List (Str × TFile)) (m : List (Str × Chosen TFile)), (∀ p ∈ fs, Spec.PlainName p.2.name) → (∀ p ∈ fs, lower p.2.name ≠ k) →
      find (storedFiles lower dynup del fs g m) k = find m k := by
    intro fs
    induction fs with
    | nil => exact fun _ _ _ => rfl
    | cons p fs ih =>
      obtain ⟨key, f⟩ := p
      intro m hp hne
      rw [storedFiles, saveVariant_plain lower hl dynup g f.name (hp (key, f) (List.mem_cons_self ..))]
      have h1 := fun m => ih m (fun q hq => hp q (List.mem_cons_of_mem _ hq)) (fun q hq => hne q (List.mem_cons_of_mem _ hq))
      split
      · exact h1 m
      · dsimp only
        rw [h1, find_upd, if_neg (hne (key, f) (List.mem_cons_self ..))]
  induction fs with
  | nil =>
    intro m _ _ hm f
    simp [storedFiles, hm]
  | cons p fs ih =>
    obtain ⟨key, f⟩ := p
    intro m hd hp hm f'
    rw [List.pairwise_cons] at hd
    have hp' : ∀ q ∈ fs, Spec.PlainName q.2.name := fun q hq => hp q (List.mem_cons_of_mem _ hq)
    rw [storedFiles, saveVariant_plain lower hl dynup g f.name (hp (key, f) (List.mem_cons_self ..))]
    dsimp only
    by_cases hk : lower f.name = k
    · have hno : ∀ q ∈ fs, lower q.2.name ≠ k := fun q hq e => hd.1 q hq (hk.trans e.symm)
      have hrest : ∀ key', (key', f') ∈ (key, f) :: fs → lower f'.name = k → f' = f := by
        intro key' hm' e
        rcases List.mem_cons.mp hm' with h | h
        · cases h; rfl
        · exact absurd e (hno _ h)
      rw [hk]
      split
      · rename_i hdel
        rw [other fs m hp' hno, hm]
        constructor
        · rintro ⟨c, h, _⟩; cases h
        · rintro ⟨_, _, _, h⟩; exact absurd hdel h
      · rename_i hdel
        rw [other fs _ hp' hno, find_upd, if_pos rfl, hm]
        constructor
        · rintro ⟨c, h, rfl⟩
          cases h
          exact ⟨key, List.mem_cons_self .., hk, hdel⟩
        · rintro ⟨key', h1, h2, _⟩
          exact ⟨_, rfl, (hrest key' h1 h2).symm⟩
    · have h1 := fun m hm => ih m hd.2 hp' hm f'
      have h2 : (∃ key', (key', f') ∈ (key, f) :: fs ∧ lower f'.name = k ∧ k ∉ del) ↔ ∃ key', (key', f') ∈ fs ∧ lower f'.name = k ∧ k ∉ del := by
        constructor
        · rintro ⟨key', h, e, hn⟩
          rcases List.mem_cons.mp h with h | h
          · cases h; exact absurd e hk
          · exact ⟨key', h, e, hn⟩
        · rintro ⟨key', h, e, hn⟩
          exact ⟨key', List.mem_cons_of_mem _ h, e, hn⟩
      rw [h2]
      split
      · exact h1 m hm
      · exact h1 _ (by rw [find_upd, if_neg hk]; exact hm)

/-! ## The whole -/

theorem filter_keyed {lower : Str → Str} {tab : List (Str × TFile)} (h : Spec.Keyed lower tab) (q : Str × TFile → Bool) :
    (tab.filter q).Pairwise (fun a b => lower a.2.name ≠ lower b.2.name) := by
  refine List.Pairwise.imp_of_mem ?_ (h.2.sublist List.filter_sublist)
  intro a b ha hb hne e
  rw [← h.1 a (List.mem_filter.mp ha).1, ← h.1 b (List.mem_filter.mp hb).1] at e
  exact hne e

/-- **A file of the configuration being edited is the saved one if there is one, whatever the stored
configuration has**: updates and files for the next start included. -/
theorem saved_wins (lower : Str → Str) (read : TFile → Outcome Node) (stored saved : List (Str × TFile)) (out : List (Str × Chosen TFile))
    (ho : configSave lower read stored saved = .ok out) (f : TFile) (hf : Spec.Present lower "deleted".toList saved f) :
    Spec.Picks lower out f.name f := by
  unfold configSave at ho
  cases h1 : guidsOf lower read saved "deleted".toList with
  | throw => rw [h1] at ho; cases ho
  | ub => rw [h1] at ho; cases ho
  | ok gone =>
    rw [h1, Outcome.ok_bind] at ho
    cases h2 : guidsOf lower read stored "DynamicallyUpdated".toList with
    | throw => rw [h2] at ho; cases ho
    | ub => rw [h2] at ho; cases ho
    | ok dynup =>
      rw [h2, Outcome.ok_bind] at ho
      cases h3 : savedFiles lower (dynup.length + 2) (saved.filter (taken lower "deleted".toList)) [] with
      | throw => rw [h3] at ho; cases ho
      | ub => rw [h3] at ho; cases ho
      | ok m =>
        rw [h3, Outcome.ok_bind] at ho
        cases ho
        obtain ⟨key, hm⟩ := mem_taken.mpr hf
        obtain ⟨g1, g2⟩ := savedFiles_inv _ _ _ _ _ h3
        obtain ⟨m', e1, e2, _⟩ := savedFiles_ok lower (dynup.length + 2) _ [] g1 g2
        rw [h3] at e1
        cases e1
        exact ⟨_, storedFiles_keep _ _ _ _ _ _ rfl _ _ (e2 _ hm), rfl⟩

/-- **The configuration being edited has the saved files and, besides, those stored files that have
no saved one and are not deleted**, if every stored name is a plain one: `saved` and `stored` are the
tables, `gone` the identifiers listed as deleted and `ups` those of updates. What is missing: names
with an extension (`extension_lost`), files for the next start and updates (`new_lost`,
`update_lost`); a deleted file is recognised by the other of the two ways to write its identifier
(`deleted_stays`). -/
theorem open_edited_partial (lower : Str → Str) (hl : lower [] ≠ lower "new".toList) (read : TFile → Outcome Node) (stored saved : List (Str × TFile))
    (gone ups : List Bytes) (hs : Spec.Keyed lower saved) (hc : Spec.Keyed lower stored)
    (hg : Spec.HasIds lower read saved "deleted".toList gone) (hu : Spec.HasIds lower read stored "DynamicallyUpdated".toList ups)
    (hgl : ∀ g ∈ gone, g.length = 16) (hul : ∀ g ∈ ups, g.length = 16) (hgn : gone.length < 2147483648) (hun : ups.length < 2147483648)
    (hplain : ∀ f, Spec.Present lower "DynamicallyUpdated".toList stored f → Spec.PlainName f.name) :
    ∃ out, configSave lower read stored saved = .ok out ∧ ∀ name f, Spec.Picks lower out name f ↔
      ((Spec.Present lower "deleted".toList saved f ∧ lower f.name = lower name) ∨
       (Spec.Present lower "DynamicallyUpdated".toList stored f ∧ lower f.name = lower name ∧ (∀ g ∈ gone, lower (Guid.asMS g) ≠ lower name) ∧
        ∀ f', Spec.Present lower "deleted".toList saved f' → lower f'.name ≠ lower name)) := by
  obtain ⟨m, h1, h2, h3⟩ := savedFiles_ok lower (ups.length + 2) _ [] (filter_keyed hs (taken lower "deleted".toList)) (fun _ _ => rfl)
  refine ⟨storedFiles lower ups (gone.map (fun g => lower (Guid.asMS g))) (stored.filter (taken lower "DynamicallyUpdated".toList)) Guid.empty m, ?_, ?_⟩
  · unfold configSave
    rw [ids_read lower read saved _ gone hg hgl hgn, Outcome.ok_bind, ids_read lower read stored _ ups hu hul hun, Outcome.ok_bind, h1, Outcome.ok_bind]
  · intro name f
    unfold Spec.Picks
    by_cases hsv : ∃ f', Spec.Present lower "deleted".toList saved f' ∧ lower f'.name = lower name
    · obtain ⟨f', hp, he⟩ := hsv
      obtain ⟨key, hm⟩ := mem_taken.mpr hp
      have hfind := h2 _ hm
      simp only at hfind
      rw [he] at hfind
      rw [storedFiles_keep _ _ _ _ _ _ rfl _ _ hfind]
      constructor
      · rintro ⟨c, e, rfl⟩
        cases e
        exact Or.inl ⟨hp, he⟩
      · rintro (⟨hp', he'⟩ | ⟨_, _, _, hno⟩)
        · obtain ⟨key', hm'⟩ := mem_taken.mpr hp'
          have hfind' := h2 _ hm'
          simp only at hfind'
          rw [he', hfind] at hfind'
          refine ⟨_, rfl, ?_⟩
          simp only [Option.some.injEq, Chosen.mk.injEq] at hfind'
          exact hfind'.2.1
        · exact absurd he (hno f' hp)
    · have hno : ∀ f', Spec.Present lower "deleted".toList saved f' → lower f'.name ≠ lower name := fun f' hp he => hsv ⟨f', hp, he⟩
      have hfind : find m (lower name) = none := by
        rw [h3]
        · rfl
        · intro p hp
          exact hno p.2 (mem_taken.mp ⟨p.1, hp⟩)
      rw [storedFiles_plain lower hl ups _ _ (lower name) Guid.empty m (filter_keyed hc _) (fun p hp => hplain p.2 (mem_taken.mp ⟨p.1, hp⟩)) hfind]
      constructor
      · rintro ⟨key, hm, he, hd⟩
        refine Or.inr ⟨mem_taken.mp ⟨key, hm⟩, he, ?_, hno⟩
        intro g hg' e
        exact hd (List.mem_map.mpr ⟨g, hg', e⟩)
      · rintro (⟨hp, he⟩ | ⟨hp, he, hd, _⟩)
        · exact absurd he (hno f hp)
        · obtain ⟨key, hm⟩ := mem_taken.mpr hp
          refine ⟨key, hm, he, ?_⟩
          intro hmem
          obtain ⟨g, hg', e⟩ := List.mem_map.mp hmem
          exact hd g hg' e

/-! ## Where the names go wrong -/

/-- One stored file, nothing saved. -/
theorem configSave_one (lower : Str → Str) (read : TFile → Outcome Node) (f : TFile) (hd : lower f.name ≠ lower "DynamicallyUpdated".toList)
    (ha : ((f.addr.head?.map (·.2)).getD 0) ≠ 0) :
    configSave lower read [(lower f.name, f)] [] =
      .ok [(lower (saveVariant lower [] Guid.empty f.name).1, ⟨(saveVariant lower [] Guid.empty f.name).1, f, (saveVariant lower [] Guid.empty f.name).2.1⟩)] := by
  have h1 : guidsOf lower read [(lower f.name, f)] "DynamicallyUpdated".toList = .ok [] := by
    unfold guidsOf getFile
    rw [find, if_neg hd, find]
  have h2 : guidsOf lower read [] "deleted".toList = .ok [] := rfl
  unfold configSave
  rw [h2, Outcome.ok_bind, h1, Outcome.ok_bind]
  have h3 : savedFiles lower (([] : List Bytes).length + 2) (([] : List (Str × TFile)).filter (taken lower "deleted".toList)) [] = .ok [] := rfl
  rw [h3, Outcome.ok_bind]
  have h4 : [(lower f.name, f)].filter (taken lower "DynamicallyUpdated".toList) = [(lower f.name, f)] := by
    rw [List.filter_eq_self]
    intro p hp
    cases List.mem_singleton.mp hp
    unfold taken
    simp only [Bool.and_eq_true, decide_eq_true_eq]
    exact ⟨hd, ha⟩
  rw [h4]
  rfl

theorem saveExt_dot (base ext : Str) (he : '.' ∉ ext) : saveExt (base ++ '.' :: ext) = (cutTo (base ++ '.' :: ext) base.length, ext) := by
  rw [saveExt, SelectTheorems.rfind_last ['.'] (base ++ '.' :: ext) base.length (by simp)]
  · simp only
    rw [show base ++ '.' :: ext = (base ++ ['.']) ++ ext by simp, List.drop_left' (by simp)]
  · rw [SelectTheorems.startsAt_iff]
    exact ⟨ext, by rw [List.drop_left' rfl]; rfl⟩
  · intro i hi
    cases hs : startsAt ['.'] (base ++ '.' :: ext) i with
    | false => rfl
    | true =>
      have := SelectTheorems.startsAt_char ['.'] _ i 0 (by decide) hs
      rw [Nat.add_zero, show base ++ '.' :: ext = (base ++ ['.']) ++ ext by simp, List.getElem?_append_right (by simp; omega)] at this
      exact absurd (List.mem_of_getElem? this) he

/-- C79: a stored name that begins with its only point is kept whole, and not cut. -/
theorem leading_point_kept (ext : Str) (he : '.' ∉ ext) : saveExt ('.' :: ext) = ('.' :: ext, ext) := saveExt_dot [] ext he

example : saveExt ".root".toList = (".root".toList, "root".toList) := leading_point_kept "root".toList (by decide)

theorem cutTo_base (base rest : Str) (hb : base ≠ []) : cutTo (base ++ rest) base.length = base.dropLast := by
  have : base.length ≠ 0 := by simpa using hb
  rw [cutTo, if_neg this, List.take_append_of_le_length (by omega), List.dropLast_eq_take]

/-- **Negation of C79: extensions.** A stored file whose name has an extension is found only under the
name without the last character before the point. -/
theorem extension_lost (lower : Str → Str) (read : TFile → Outcome Node) (f : TFile) (base ext : Str)
    (hn : f.name = base ++ '.' :: ext) (hb : base ≠ []) (he : '.' ∉ ext) (he0 : ext ≠ []) (hnew : lower ext ≠ lower "new".toList)
    (hm : ¬ "_dynupdate_".toList <:+: base.dropLast) (hd : lower f.name ≠ lower "DynamicallyUpdated".toList)
    (ha : ((f.addr.head?.map (·.2)).getD 0) ≠ 0) (hl : lower (base.dropLast ++ '.' :: ext) ≠ lower f.name) :
    ∃ out, configSave lower read [(lower f.name, f)] [] = .ok out ∧ (∀ x, ¬ Spec.Picks lower out f.name x) ∧
      Spec.Picks lower out (base.dropLast ++ '.' :: ext) f := by
  have hv : saveVariant lower [] Guid.empty f.name = (base.dropLast ++ '.' :: ext, -1, Guid.empty) := by
    unfold saveVariant
    rw [hn, saveExt_dot base ext he]
    dsimp only
    rw [cutTo_base base _ hb, saveUpdate, findFirst_none _ hm, if_neg hnew]
    rw [if_neg (by simp only [hnew, false_or, List.isEmpty_iff]; exact he0)]
  refine ⟨_, configSave_one lower read f hd ha, ?_, ?_⟩
  · rintro x ⟨c, h, _⟩
    rw [hv, find, if_neg hl, find] at h
    cases h
  · refine ⟨⟨base.dropLast ++ '.' :: ext, f, -1⟩, ?_, rfl⟩
    rw [hv, find, if_pos rfl]

/-- **Negation of C79: files for the next start.** The same with the extension `new`. -/
theorem new_lost (lower : Str → Str) (read : TFile → Outcome Node) (f : TFile) (base : Str)
    (hn : f.name = base ++ ".new".toList) (hb : base ≠ [])
    (hm : ¬ "_dynupdate_".toList <:+: base.dropLast) (hd : lower f.name ≠ lower "DynamicallyUpdated".toList)
    (ha : ((f.addr.head?.map (·.2)).getD 0) ≠ 0) (hl : lower base.dropLast ≠ lower base) :
    ∃ out, configSave lower read [(lower f.name, f)] [] = .ok out ∧ (∀ x, ¬ Spec.Picks lower out base x) ∧ Spec.Picks lower out base.dropLast f := by
  have hv : saveVariant lower [] Guid.empty f.name = (base.dropLast, 1, Guid.empty) := by
    unfold saveVariant
    rw [hn, show base ++ ".new".toList = base ++ '.' :: "new".toList from rfl, saveExt_dot base _ (by decide)]
    dsimp only
    rw [cutTo_base base _ hb, saveUpdate, findFirst_none _ hm, if_pos rfl]
    simp
  refine ⟨_, configSave_one lower read f hd ha, ?_, ?_⟩
  · rintro x ⟨c, h, _⟩
    rw [hv, find, if_neg hl, find] at h
    cases h
  · refine ⟨⟨base.dropLast, f, 1⟩, ?_, rfl⟩
    rw [hv, find, if_pos rfl]

theorem findFirst_update (base : Str) (g : Bytes) (hb : '_' ∉ base) : findFirst dynMark (Spec.updateName base g) = some base.length := by
  have hu : Spec.updateName base g = base ++ (dynMark ++ Guid.as1C g) := by rw [← List.append_assoc]; rfl
  have h1 : startsAt dynMark (Spec.updateName base g) base.length = true := by
    rw [SelectTheorems.startsAt_iff, hu]
    exact ⟨Guid.as1C g, List.drop_left' rfl⟩
  rw [findFirst, List.find?_range_eq_some]
  refine ⟨h1, ?_, ?_⟩
  · rw [List.mem_range, hu, List.length_append]; omega
  · intro i hi
    cases hs : startsAt dynMark (Spec.updateName base g) i with
    | false => rfl
    | true =>
      have := SelectTheorems.startsAt_char dynMark _ i 0 (by decide) hs
      rw [Nat.add_zero, hu, List.getElem?_append_left hi] at this
      exact absurd (List.mem_of_getElem? this) hb

/-- **Negation of C79: updates.** The same with the files of updates. -/
theorem update_lost (lower : Str → Str) (hl0 : lower [] ≠ lower "new".toList) (read : TFile → Outcome Node) (f : TFile) (base : Str) (g : Bytes) (hg : g.length = 16)
    (hn : f.name = Spec.updateName base g) (hb : base ≠ []) (hb1 : '_' ∉ base) (hb2 : '.' ∉ base) (hd : lower f.name ≠ lower "DynamicallyUpdated".toList)
    (ha : ((f.addr.head?.map (·.2)).getD 0) ≠ 0) (hl : lower base.dropLast ≠ lower base) :
    ∃ out, configSave lower read [(lower f.name, f)] [] = .ok out ∧ (∀ x, ¬ Spec.Picks lower out base x) ∧ Spec.Picks lower out base.dropLast f := by
  have hu : Spec.updateName base g = base ++ (dynMark ++ Guid.as1C g) := by rw [← List.append_assoc]; rfl
  have hdot : '.' ∉ Spec.updateName base g := by
    rw [hu]
    simp only [List.mem_append, not_or]
    exact ⟨hb2, by decide, SelectTheorems.as1C_not g '.' (by decide) (by decide)⟩
  have hv : saveVariant lower [] Guid.empty f.name = (base.dropLast, -2, g) := by
    unfold saveVariant
    rw [hn, saveExt_plain _ hdot]
    dsimp only
    rw [saveUpdate, findFirst_update base g hb1]
    dsimp only
    have h1 : (Spec.updateName base g).drop (base.length + 11) = Guid.as1C g := by
      rw [show Spec.updateName base g = (base ++ dynMark) ++ Guid.as1C g from rfl, List.drop_left' (by rw [List.length_append]; rfl)]
    rw [h1, Guid.stringToGuid, Guid.parse_as1C g hg, hu, cutTo_base base _ hb]
    simp [position]
  refine ⟨_, configSave_one lower read f hd ha, ?_, ?_⟩
  · rintro x ⟨c, h, _⟩
    rw [hv, find, if_neg hl, find] at h
    cases h
  · refine ⟨⟨base.dropLast, f, -2⟩, ?_, rfl⟩
    rw [hv, find, if_pos rfl]

/-- **Negation of C79: deleted files.** A stored file listed as deleted, named by its identifier as all
files of a configuration are, stays: the list is compared with the other way to write an identifier. -/
theorem deleted_stays (lower : Str → Str) (hl : lower [] ≠ lower "new".toList) (read : TFile → Outcome Node) (stored saved : List (Str × TFile))
    (gone ups : List Bytes) (hs : Spec.Keyed lower saved) (hc : Spec.Keyed lower stored)
    (hg : Spec.HasIds lower read saved "deleted".toList gone) (hu : Spec.HasIds lower read stored "DynamicallyUpdated".toList ups)
    (hgl : ∀ g ∈ gone, g.length = 16) (hul : ∀ g ∈ ups, g.length = 16) (hgn : gone.length < 2147483648) (hun : ups.length < 2147483648)
    (hplain : ∀ f, Spec.Present lower "DynamicallyUpdated".toList stored f → Spec.PlainName f.name)
    (f : TFile) (g : Bytes) (_ : g ∈ gone) (hf : Spec.Present lower "DynamicallyUpdated".toList stored f) (hn : f.name = Guid.as1C g)
    (hno : ∀ f', Spec.Present lower "deleted".toList saved f' → lower f'.name ≠ lower f.name)
    (hms : ∀ g' ∈ gone, lower (Guid.asMS g') ≠ lower (Guid.as1C g)) :
    ∃ out, configSave lower read stored saved = .ok out ∧ Spec.Picks lower out (Guid.as1C g) f := by
  obtain ⟨out, h1, h2⟩ := open_edited_partial lower hl read stored saved gone ups hs hc hg hu hgl hul hgn hun hplain
  refine ⟨out, h1, (h2 _ _).mpr (Or.inr ⟨hf, by rw [hn], hms, ?_⟩)⟩
  rw [← hn]
  exact hno

/-- A name saved twice is refused. -/
theorem saved_twice_refused (lower : Str → Str) (read : TFile → Outcome Node) (stored saved : List (Str × TFile)) (A B C : List (Str × TFile)) (k1 k2 : Str) (f1 f2 : TFile)
    (h : saved.filter (taken lower "deleted".toList) = A ++ (k1, f1) :: B ++ (k2, f2) :: C) (he : lower f1.name = lower f2.name) :
    ∀ out, configSave lower read stored saved ≠ .ok out := by
  intro out ho
  unfold configSave at ho
  cases h1 : guidsOf lower read saved "deleted".toList with
  | throw => rw [h1] at ho; cases ho
  | ub => rw [h1] at ho; cases ho
  | ok gone =>
    rw [h1, Outcome.ok_bind] at ho
    cases h2 : guidsOf lower read stored "DynamicallyUpdated".toList with
    | throw => rw [h2] at ho; cases ho
    | ub => rw [h2] at ho; cases ho
    | ok dynup =>
      rw [h2, Outcome.ok_bind] at ho
      cases h3 : savedFiles lower (dynup.length + 2) (saved.filter (taken lower "deleted".toList)) [] with
      | throw => rw [h3] at ho; cases ho
      | ub => rw [h3] at ho; cases ho
      | ok m =>
        have := (savedFiles_inv _ _ _ _ _ h3).1
        rw [h, List.pairwise_append] at this
        exact this.2.2 (k1, f1) (by simp) (k2, f2) (by simp) he

/-! ## Examples -/

/-- Identifier 16 bytes long. -/
def goneId : Bytes := [1, 2, 3, 4, 5, 6, 7, 8, 9, 10, 11, 12, 13, 14, 15, 16]
def goneText : Str := "{0,1,0d0e0f10-0b0c-090a-0102-030405060708}".toList
def goneList : TFile := ⟨"deleted".toList, [(3, 40)], 0, 0⟩
def rootStored : TFile := ⟨"root".toList, [(4, 10)], 0, 0⟩
def rootSaved : TFile := ⟨"ROOT".toList, [(5, 10)], 0, 0⟩
def goneStored : TFile := ⟨Guid.as1C goneId, [(6, 10)], 0, 0⟩
def storedEx : List (Str × TFile) := [(asciiLower goneStored.name, goneStored), ("root".toList, rootStored)]
def savedEx : List (Str × TFile) := [("deleted".toList, goneList), ("root".toList, rootSaved)]

theorem goneText_ids : ∃ tt, parseText goneText = .ok tt ∧ Spec.ListsIds tt [goneId] := by
  refine ⟨_, rfl, ?_⟩
  refine ⟨_, _, _, _, [Node.leaf .guid "0d0e0f10-0b0c-090a-0102-030405060708".toList], [], [], rfl, rfl, ⟨[1], by decide, by decide, rfl, rfl⟩, by decide⟩

theorem ex_conds : Spec.Keyed asciiLower savedEx ∧ Spec.Keyed asciiLower storedEx ∧
    Spec.HasIds asciiLower (fun _ => parseText goneText) savedEx "deleted".toList [goneId] ∧
    Spec.HasIds asciiLower (fun _ => parseText goneText) storedEx "DynamicallyUpdated".toList [] ∧
    (∀ f, Spec.Present asciiLower "DynamicallyUpdated".toList storedEx f → Spec.PlainName f.name) := by
  refine ⟨by unfold Spec.Keyed; decide, by unfold Spec.Keyed; decide, ?_, ?_, ?_⟩
  · obtain ⟨tt, h1, h2⟩ := goneText_ids
    exact Or.inl ⟨goneList, tt, by unfold Spec.Stored; decide, h1, h2⟩
  · refine Or.inr ⟨?_, rfl⟩
    intro f hf
    have : find storedEx (asciiLower "DynamicallyUpdated".toList) = none := by decide
    unfold Spec.Stored at hf
    exact absurd (this.symm.trans hf) (by simp)
  · rintro f ⟨key, _, _, _, h, _⟩
    have : ∀ p ∈ storedEx, '.' ∉ p.2.name ∧ ¬ "_dynupdate_".toList <:+: p.2.name := by decide
    exact this _ h

/-- `open_edited_partial` applies; the saved file is given for its name in any case. -/
example : ∃ out, configSave asciiLower (fun _ => parseText goneText) storedEx savedEx = .ok out ∧ Spec.Picks asciiLower out "Root".toList rootSaved := by
  obtain ⟨h1, h2, h3, h4, h5⟩ := ex_conds
  obtain ⟨out, g1, g2⟩ := open_edited_partial asciiLower (by decide) _ storedEx savedEx [goneId] [] h1 h2 h3 h4 (by decide) (by decide) (by decide) (by decide) h5
  exact ⟨out, g1, (g2 _ _).mpr (Or.inl ⟨⟨"root".toList, 5, 10, [], by decide, by decide, rfl, by decide⟩, by decide⟩)⟩

/-- `deleted_stays` applies: the file listed as deleted is there. -/
example : ∃ out, configSave asciiLower (fun _ => parseText goneText) storedEx savedEx = .ok out ∧ Spec.Picks asciiLower out (Guid.as1C goneId) goneStored := by
  obtain ⟨h1, h2, h3, h4, h5⟩ := ex_conds
  refine deleted_stays asciiLower (by decide) _ storedEx savedEx [goneId] [] h1 h2 h3 h4 (by decide) (by decide) (by decide) (by decide) h5 goneStored goneId (by decide)
    ⟨_, 6, 10, [], List.mem_cons_self .., by decide, rfl, by decide⟩ rfl ?_ (by decide)
  rintro f ⟨key, _, _, _, h, hk, _⟩
  rcases List.mem_cons.mp h with h | h
  · cases h; exact absurd rfl hk
  · cases List.mem_singleton.mp h; decide

/-- `extension_lost`, `new_lost` and `update_lost` apply. -/
example : ∃ out, configSave asciiLower (fun _ => .throw) [("abc.0".toList, ⟨"abc.0".toList, [(4, 10)], 0, 0⟩)] [] = .ok out ∧
    (∀ x, ¬ Spec.Picks asciiLower out "abc.0".toList x) ∧ Spec.Picks asciiLower out "ab.0".toList ⟨"abc.0".toList, [(4, 10)], 0, 0⟩ :=
  extension_lost asciiLower _ ⟨"abc.0".toList, [(4, 10)], 0, 0⟩ "abc".toList "0".toList rfl (by decide) (by decide) (by decide) (by decide) (by decide) (by decide) (by decide) (by decide)

example : ∃ out, configSave asciiLower (fun _ => .throw) [("abc.new".toList, ⟨"abc.new".toList, [(4, 10)], 0, 0⟩)] [] = .ok out ∧
    (∀ x, ¬ Spec.Picks asciiLower out "abc".toList x) ∧ Spec.Picks asciiLower out "ab".toList ⟨"abc.new".toList, [(4, 10)], 0, 0⟩ :=
  new_lost asciiLower _ ⟨"abc.new".toList, [(4, 10)], 0, 0⟩ "abc".toList rfl (by decide) (by decide) (by decide) (by decide) (by decide)

example : ∃ out, configSave asciiLower (fun _ => .throw) [(asciiLower (Spec.updateName "abc".toList goneId), ⟨Spec.updateName "abc".toList goneId, [(4, 10)], 0, 0⟩)] [] = .ok out ∧
    (∀ x, ¬ Spec.Picks asciiLower out "abc".toList x) ∧ Spec.Picks asciiLower out "ab".toList ⟨Spec.updateName "abc".toList goneId, [(4, 10)], 0, 0⟩ :=
  update_lost asciiLower (by decide) _ ⟨Spec.updateName "abc".toList goneId, [(4, 10)], 0, 0⟩ "abc".toList goneId rfl rfl (by decide) (by decide) (by decide) (by decide) (by decide) (by decide)

/-- `long_count_ub` applies: a list that says two and has one. -/
example : ∃ tt, parseText "{0,2,0d0e0f10-0b0c-090a-0102-030405060708}".toList = .ok tt ∧ guidList tt = .ub :=
  ⟨_, rfl, long_count_ub _ _ _ _ _ _ _ 2 rfl rfl ⟨[2], by decide, by decide, rfl, rfl⟩ (by decide) (by decide) (by decide)⟩

/-- `saved_twice_refused` applies. -/
example : ∀ out, configSave asciiLower (fun _ => .throw) [] [("root".toList, rootStored), ("x".toList, rootSaved)] ≠ .ok out :=
  saved_twice_refused asciiLower _ _ _ [] [] [] "root".toList "x".toList rootStored rootSaved (by decide) (by decide)

end Verif.Config
