import Verif.Cfu.Lemmas

/-!
# Theorems: update files (C96)

`Spec.effect` and `Container.Spec.lookup` say what the user expects of a history; `Spec.StopsAtEnd` is what is asked of the library beyond
property C16.
-/

namespace Verif.Cfu
open Verif Verif.Stream Verif.Container Verif.Container.Spec Verif.Zlib Verif.Handle Verif.Cfu.Spec Verif.Unicode Verif.Unicode.Spec

variable {σ τ : Type}

/-- Flushing keeps the container below 2^31 - 1 bytes, and does not give it a size that is a multiple of 16384. -/
def Fits (fuel : Nat) (k : Catalog) : Prop :=
  extent k.cat + flushCost plainCodec k < LAST ∧
    match flush plainCodec fuel k with
    | .ok (some k') => k'.cat.data.data.length % 16384 ≠ 0
    | _ => True

/-- Names are made of code points other than NUL, contents are not empty, times are 64 bits; what is written fits; and the file is not closed
before something was stored (`w`). -/
def Sensible (fuel : Nat) (w : Bool) (c : Cfu) : Act → Prop
  | .put n b now => Name n ∧ b ≠ [] ∧ now < 2 ^ 64
  | .remove n => Name n
  | .flush => Fits fuel c.k
  | .half => Fits fuel c.k
  | .reopen => Fits fuel c.k ∧ w = true

/-- Every action of the history is allowed where it happens. -/
def Allowed (L : Lib σ τ) (fuel : Nat) : Bool → Cfu → List Act → Prop
  | _, _, [] => True
  | w, c, op :: ops => Sensible fuel w c op ∧
    match step L fuel c op with
    | .ok (some c) => Allowed L fuel (written w op) c ops
    | _ => True

/-- The open update file stands for the names and contents. -/
structure Ok (D : Bytes → Option Bytes) (c : Cfu) (w : Bool) (ls : Contents) : Prop where
  inside : ∃ s g, Inv plainCodec c.k s g ∧ extent c.k.cat < LAST ∧ g.map Prod.snd = ls
  file : ∃ h b, c.cfu = some h ∧ Usable c.disk h b ∧
    (c.k.fatMod = false → c.k.cat.emptyMod = false ∧ c.k.cat.modified = false ∧ (w = true → Saved D b c.k.cat.data.data))
  fresh : w = false → ls = []

/-- Flushing, and writing the file. -/
theorem flush_save (L : Lib σ τ) {D : Bytes → Option Bytes} (hD : D [] = none) (hen : Enough L D) {fuel : Nat} (hf : LAST ≤ fuel) {c : Cfu} {w : Bool}
    {ls : Contents} (h : Ok D c w ls) (hfit : Fits fuel c.k) :
    ∃ k' h' d' b', flush plainCodec fuel c.k = .ok (some k') ∧
      saveIf L c.disk c.cfu (decide (k'.ver ≠ c.k.ver)) k'.cat.data.data = .ok (some (some h', d')) ∧
      Usable d' h' b' ∧ (w = true → Saved D b' k'.cat.data.data) ∧ k'.cat.modified = false ∧ k'.fatMod = false ∧ k'.cat.emptyMod = false ∧
      extent k'.cat < LAST ∧ k'.cat.data.data ≠ [] ∧ ∃ s' g', Inv plainCodec k' s' g' ∧ (∀ x ∈ g', Clean x.1) ∧ g'.map Prod.snd = ls := by
  obtain ⟨s, g, hi, hx, hg⟩ := h.inside
  obtain ⟨hd, b, hc, hu, hsv⟩ := h.file
  obtain ⟨k', s', g', e, hi', hcl, hs', _, hfm, hem, hx'⟩ := flush_ok hi hfit.1 fuel hf
  obtain ⟨_, hmo, hsame⟩ := Nested.flush_marks e
  have hlen := hfit.2
  rw [e] at hlen
  simp only at hlen
  have hne : k'.cat.data.data ≠ [] := by
    intro h0
    rw [h0] at hlen
    simp at hlen
  cases hm : decide (k'.ver ≠ c.k.ver) with
  | true =>
    obtain ⟨h', d', b', e', hu', hs2⟩ := save_ok L hD hen hu _ hlen
    refine ⟨k', h', d', b', e, ?_, hu', fun _ => hs2, hmo, hfm, hem, hx', hne, s', g', hi', hcl, hs'.trans hg⟩
    unfold saveIf
    rw [hc, hm]
    simp only [if_true]
    rw [e', Outcome.ok_bind]
  | false =>
    obtain ⟨hk, hsd⟩ := hsame hm
    obtain ⟨he0, _, hs0⟩ := hsv hk
    refine ⟨k', hd, c.disk, b, e, ?_, hu, fun hw => by rw [hsd he0]; exact hs0 hw, hmo, hfm, hem, hx', hne, s', g', hi', hcl, hs'.trans hg⟩
    unfold saveIf
    rw [hc, hm]
    simp only [Bool.false_eq_true, if_false]

theorem release_ok {d : Disk} {h : Handle} {b : Bytes} (hl : Live d h b) : release (some h) = .ok () := by
  unfold release Handle.destroy Handle.close
  simp only [hl.own, if_true, Outcome.ok_bind]

theorem openH_usable {d : Disk} {b : Bytes} (hb : d.bytes = some b) (hr : d.rw = true) : Usable d (openH d) b := by
  have : canOpen d = true := by simp [canOpen, hb, hr]
  unfold openH attach
  rw [this]
  exact ⟨⟨hb, rfl, rfl, by simp [hb]⟩, rfl, hr⟩

theorem openH_pos (d : Disk) : (openH d).pos = 0 := rfl

/-- Opening a file that begins with a complete stream of a container. -/
theorem open_saved (L : Lib σ τ) {D : Bytes → Option Bytes} (hi : CorrectInflater L.i D) (hst : StopsAtEnd L.i hi) (hD : D [] = none)
    (hen : Enough L D) {fuel : Nat} {d : Disk} {b x : Bytes} {k : Catalog} (hb : d.bytes = some b) (hr : d.rw = true) (hs : Saved D b x) (hx : x ≠ [])
    (hk : openCatalog fuel x = .ok (some (.container k))) :
    ∃ h, openCfu L fuel d = .ok (some (some ⟨k, some h, d⟩)) ∧ Live d h b ∧ (D b = some x → b.length % 16384 ≠ 0 → h.failed = true) := by
  obtain ⟨h1, h2, _⟩ := Nested.open_parts hx hk
  have key : ∀ c junk, b = c ++ junk → D c = some x → ∃ h, openCfu L fuel d = .ok (some (some ⟨k, some h, d⟩)) ∧ Live d h b ∧
      (junk = [] → c.length % 16384 ≠ 0 → h.failed = true) := by
    intro c junk hcj hc
    have hne : c ≠ [] := by rintro rfl; rw [hD] at hc; cases hc
    have hbd := hen.inflate b c junk x hcj hc
    have hl : c.length ≤ b.length := by rw [hcj, List.length_append]; omega
    obtain ⟨h', e, hl', hfl⟩ := infFile_spec L.i hi hst c x hc d b (L.fi b) (by omega) c.length L.i.init [] [] c junk (openH d) (L.fi b) hi.abs_init
      (by simp) List.nil_prefix hne (openH_usable hb hr).live (by rw [openH_pos]; exact hcj) (Nat.le_refl _) (by omega)
    refine ⟨h', ?_, hl', hfl⟩
    unfold openCfu
    rw [hb]
    simp only
    rw [e]
    simp only
    unfold start
    rw [h1, Outcome.ok_bind]
    simp only [if_true]
    rw [h2, Outcome.ok_bind]
  by_cases hbx : D b = some x
  · obtain ⟨h, e, hl, hfl⟩ := key b [] (by simp) hbx
    exact ⟨h, e, hl, fun _ hm => hfl rfl hm⟩
  · obtain ⟨c, junk, hcj, hc⟩ := hs
    obtain ⟨h, e, hl, _⟩ := key c junk hcj hc
    exact ⟨h, e, hl, fun h0 => absurd h0 hbx⟩

theorem flushCfu_ok (L : Lib σ τ) {D : Bytes → Option Bytes} (hD : D [] = none) (hen : Enough L D) {fuel : Nat} (hf : LAST ≤ fuel) {c : Cfu} {w : Bool}
    {ls : Contents} (h : Ok D c w ls) (hfit : Fits fuel c.k) : ∃ c', flushCfu L fuel c = .ok (some c') ∧ Ok D c' w ls := by
  obtain ⟨k', h', d', b', e, es, hu, hsv, hmo, hfm, hem, hx, hne, s', g', hi', hcl, hs'⟩ := flush_save L hD hen hf h hfit
  refine ⟨⟨k', some h', d'⟩, ?_, ⟨s', g', hi', hx, hs'⟩, ⟨h', b', rfl, hu, fun _ => ⟨hem, hmo, hsv⟩⟩, h.fresh⟩
  unfold flushCfu
  rw [e, Outcome.ok_bind]
  simp only
  rw [es, Outcome.ok_bind]

theorem halfCycle_ok (L : Lib σ τ) {D : Bytes → Option Bytes} (hD : D [] = none) (hen : Enough L D) {fuel : Nat} (hf : LAST ≤ fuel) {c : Cfu} {w : Bool}
    {ls : Contents} (h : Ok D c w ls) (hfit : Fits fuel c.k) : ∃ c', halfCycle L fuel c = .ok (some c') ∧ Ok D c' w ls := by
  obtain ⟨c', e, h'⟩ := flushCfu_ok L hD hen hf h hfit
  obtain ⟨hd, b, hc, hu, hsv⟩ := h'.file
  refine ⟨halfOpen { c' with cfu := none }, ?_, h'.inside, ⟨_, b, rfl, openH_usable hu.live.there hu.rw, hsv⟩, h.fresh⟩
  unfold halfCycle halfClose
  rw [e, Outcome.ok_bind]
  simp only
  rw [hc, release_ok hu.live, Outcome.ok_bind, Outcome.ok_bind]

theorem reopenCfu_ok (L : Lib σ τ) {D : Bytes → Option Bytes} (hi : CorrectInflater L.i D) (hst : StopsAtEnd L.i hi) (hD : D [] = none)
    (hen : Enough L D) {fuel : Nat} (hf : LAST ≤ fuel) {c : Cfu} {ls : Contents} (h : Ok D c true ls) (hfit : Fits fuel c.k) :
    ∃ c', reopenCfu L fuel c = .ok (some c') ∧ Ok D c' true ls := by
  obtain ⟨k', h', d', b', e, es, hu, hsv, hmo, hfm, hem, hx, hne, s', g', hi', hcl, hs'⟩ := flush_save L hD hen hf h hfit
  obtain ⟨k2, g2, eo, hi2, hs2, _, hx2⟩ := open_ok hi' hcl hfm hem hx fuel hf
  obtain ⟨_, hini, hem2, hmo2, hdat⟩ := Nested.open_parts hne eo
  obtain ⟨hcl2, hfm2, _, _⟩ := init_closed hini
  obtain ⟨h2, eo2, hl2, _⟩ := open_saved L hi hst hD hen hu.live.there hu.rw (hsv rfl) hne eo
  have hst2 := flush_still plainCodec fuel k2 (fun e he => Or.inl (hcl2 e he)) hfm2 hem2 hmo2
  refine ⟨⟨k2, some (openH d'), d'⟩, ?_, ⟨s', g2, hi2, by simp only; rw [hx2]; exact hx, hs2.trans hs'⟩,
    ⟨_, b', rfl, openH_usable hu.live.there hu.rw, fun _ => ⟨hem2, hmo2, fun _ => by simp only; rw [hdat]; exact hsv rfl⟩⟩, fun hw => by cases hw⟩
  unfold reopenCfu closeCfu
  rw [(Nested.flush_marks e).1, Outcome.ok_bind]
  simp only
  rw [es, Outcome.ok_bind]
  simp only
  rw [release_ok hu.live, Outcome.ok_bind, Outcome.ok_bind]
  simp only
  rw [eo2, Outcome.ok_bind]
  simp only
  unfold halfCycle halfClose flushCfu
  simp only
  rw [hst2, Outcome.ok_bind]
  unfold saveIf
  simp only [ne_eq, not_true, decide_false, Bool.false_eq_true, if_false, Outcome.ok_bind]
  rw [release_ok hl2, Outcome.ok_bind, Outcome.ok_bind]
  rfl

theorem put_new {fuel : Nat} {k k' : Catalog} {s : Store} {n : List Nat} (hn : Name n) {b : Bytes} {now : Nat} (h : Inv plainCodec k s [])
    (e : put plainCodec fuel k (utf8Text n) b now = .ok (some k')) : k'.fatMod = true := by
  cases hk : k'.fatMod with
  | true => rfl
  | false =>
    unfold put at e
    obtain ⟨⟨f, k1⟩, h1, e⟩ := bind_ok e
    have hk1 : k1.fatMod = false := by
      rw [← hk]
      unfold writeFile at e
      obtain ⟨r, _, e⟩ := bind_ok e
      cases r with
      | none => cases e
      | some f =>
        simp only at e
        obtain ⟨b', _, e⟩ := bind_ok e
        cases e
        rfl
    unfold createFile at h1
    rcases getFile_core h.core n hn with ⟨eg, _⟩ | ⟨l1, x, l2, h0, _⟩
    · rw [eg, Outcome.ok_bind] at h1
      simp only at h1
      obtain ⟨k2, _, h1⟩ := bind_ok h1
      cases h1
      cases hk1
    · cases l1 <;> cases h0

theorem step_ok (L : Lib σ τ) {D : Bytes → Option Bytes} (hi : CorrectInflater L.i D) (hst : StopsAtEnd L.i hi) (hD : D [] = none)
    (hen : Enough L D) {fuel : Nat} (hf : LAST ≤ fuel) {c : Cfu} {w : Bool} {ls : Contents} (h : Ok D c w ls) (op : Act) (hs : Sensible fuel w c op) :
    ∃ c', step L fuel c op = .ok (some c') ∧ Ok D c' (written w op) (effect ls op) := by
  cases op with
  | put n b now =>
    obtain ⟨hn, hb, hnow⟩ := hs
    obtain ⟨s, g, hinv, hx, hg⟩ := h.inside
    obtain ⟨hd, fb, hc, hu, hsv⟩ := h.file
    obtain ⟨k', g', e, hi', hs', hcat⟩ := put_ok hinv hx fuel hf n hn b ((plain_packs b).2 hb) now hnow
    refine ⟨{ c with k := k' }, ?_, ⟨s, g', hi', by simp only; rw [hcat]; exact hx, by rw [hs', hg]; rfl⟩, ⟨hd, fb, hc, hu, ?_⟩, fun hw => by cases hw⟩
    · unfold step
      simp only
      rw [e, Outcome.ok_bind]
    · intro hfm
      simp only at hfm
      obtain ⟨h1, h2, h3⟩ := hsv (Nested.put_fat e hfm)
      simp only
      rw [hcat]
      refine ⟨h1, h2, fun _ => h3 ?_⟩
      cases hw : w with
      | true => rfl
      | false =>
        have h0 := h.fresh hw
        rw [← hg] at h0
        have h0 : g = [] := List.map_eq_nil_iff.1 h0
        subst h0
        rw [put_new hn hinv e] at hfm
        cases hfm
  | remove n =>
    obtain ⟨s, g, hinv, hx, hg⟩ := h.inside
    obtain ⟨hd, fb, hc, hu, hsv⟩ := h.file
    obtain ⟨k', s', g', e, hi', hs', hcat⟩ := remove_ok hinv hx fuel hf n hs
    refine ⟨{ c with k := k' }, ?_, ⟨s', g', hi', by simp only; rw [hcat]; exact hx, by rw [hs', hg]; rfl⟩, ⟨hd, fb, hc, hu, ?_⟩, ?_⟩
    · unfold step
      simp only
      rw [e, Outcome.ok_bind]
    · intro hfm
      simp only at hfm
      unfold remove at e
      obtain ⟨r, _, e⟩ := bind_ok e
      cases r with
      | none => cases e; exact hsv hfm
      | some f =>
        rw [Nested.deleteFile_marks e] at hfm
        cases hfm
    · intro hw
      have := h.fresh hw
      subst this
      rfl
  | flush => exact flushCfu_ok L hD hen hf h hs
  | half => exact halfCycle_ok L hD hen hf h hs
  | reopen =>
    obtain ⟨hfit, hw⟩ := hs
    subst hw
    exact reopenCfu_ok L hi hst hD hen hf h hfit

theorem session_ok (L : Lib σ τ) {D : Bytes → Option Bytes} (hi : CorrectInflater L.i D) (hst : StopsAtEnd L.i hi) (hD : D [] = none)
    (hen : Enough L D) {fuel : Nat} (hf : LAST ≤ fuel) (ops : List Act) : ∀ (c : Cfu) (w : Bool) (ls : Contents), Ok D c w ls → Allowed L fuel w c ops →
    ∃ c', session L fuel c ops = .ok (some c') ∧ Ok D c' (ops.foldl written w) (ops.foldl effect ls) := by
  induction ops with
  | nil => intro c w ls h _; exact ⟨c, rfl, h⟩
  | cons op ops ih =>
    intro c w ls h ha
    obtain ⟨hs, ha⟩ := ha
    obtain ⟨c1, e1, h1⟩ := step_ok L hi hst hD hen hf h op hs
    rw [e1] at ha
    obtain ⟨c2, e2, h2⟩ := ih c1 _ _ h1 ha
    refine ⟨c2, ?_, h2⟩
    rw [session, e1]
    exact e2

/-- The bounds of the library's loops can be chosen. -/
theorem enough_exists (z : Deflater σ) (i : Inflater τ) {D : Bytes → Option Bytes} (hz : CorrectDeflater z D) :
    ∃ fd fi : Bytes → Nat, ∀ fd' fi' : Bytes → Nat, (∀ b, fd b ≤ fd' b) → (∀ b, fi b ≤ fi' b) → Enough ⟨z, i, fd', fi'⟩ D := by
  have hdef : ∀ x : Bytes, ∃ F, x.length % 16384 ≠ 0 → ∀ fuel, F ≤ fuel → ∃ c, deflateStream z fuel x = some (true, c) ∧ D c = some x := by
    intro x
    by_cases hx : x.length % 16384 ≠ 0
    · obtain ⟨F, hF⟩ := deflate_correct_partial z D hz x hx
      exact ⟨F, fun _ => hF⟩
    · exact ⟨0, fun h => absurd h hx⟩
  let len : Bytes → Nat → Nat := fun b n => ((D (b.take n)).getD []).length
  refine ⟨fun x => Classical.choose (hdef x), fun b => b.length + ((List.range (b.length + 1)).map (len b)).sum + 1, fun fd' fi' h1 h2 => ⟨?_, ?_⟩⟩
  · intro x hx
    exact Classical.choose_spec (hdef x) hx _ (h1 x)
  · intro b c junk x hcj hc
    refine Nat.le_trans ?_ (h2 b)
    have hmem : len b c.length ∈ (List.range (b.length + 1)).map (len b) := by
      refine List.mem_map.2 ⟨c.length, ?_, rfl⟩
      rw [List.mem_range, hcj, List.length_append]
      omega
    have hle : ∀ (l : List Nat) (a : Nat), a ∈ l → a ≤ l.sum := by
      intro l
      induction l with
      | nil => intro a ha; cases ha
      | cons y l ih =>
        intro a ha
        rw [List.sum_cons]
        rcases List.mem_cons.1 ha with rfl | ha
        · omega
        · have := ih a ha; omega
    have := hle _ _ hmem
    have hx : len b c.length = x.length := by
      show ((D (b.take c.length)).getD []).length = x.length
      rw [hcj, List.take_left, hc]
      rfl
    simp only
    omega

/-- The container that opening a new file gives. -/
def newCfu : Cfu := ⟨blankCatalog, some (create ⟨none, true⟩).1, ⟨some [], true⟩⟩

theorem open_new (L : Lib σ τ) (fuel : Nat) : openCfu L fuel ⟨none, true⟩ = .ok (some (some newCfu)) := rfl

theorem new_ok (D : Bytes → Option Bytes) : Ok D newCfu false [] :=
  ⟨⟨_, [], blank_inv plainCodec, by decide, rfl⟩, ⟨_, [], rfl, ⟨⟨rfl, rfl, rfl, rfl⟩, rfl, rfl⟩, fun _ => ⟨rfl, rfl, fun h => by cases h⟩⟩, fun _ => rfl⟩

/-- **C96 (partial).** With a correct compression library: after any history of storing, removing, flushing, letting go of the file and taking
it up again, and closing and opening it (and letting go of it at once), from a new update file on, the history succeeds; every name, in any case,
gives the content stored last under it, or nothing if there is none; and the entries are the stored names in the order in which they were first
stored (each possibly with NULs behind it, C48). Missing: changing a file that was opened and not let go of (`changes_to_existing_lost`),
closing a file in which nothing was stored (`unused_file_is_no_container`), containers whose size is a multiple of 16384
(`multiple_not_saved`), and empty contents (C66). -/
theorem update_file_partial (z : Deflater σ) (i : Inflater τ) (D : Bytes → Option Bytes) (hz : CorrectDeflater z D) (hi : CorrectInflater i D)
    (hst : StopsAtEnd i hi) (hD : D [] = none) :
    ∃ fd fi : Bytes → Nat, ∀ fd' fi' : Bytes → Nat, (∀ b, fd b ≤ fd' b) → (∀ b, fi b ≤ fi' b) →
      ∀ fuel, LAST ≤ fuel → ∃ c0, openCfu ⟨z, i, fd', fi'⟩ fuel ⟨none, true⟩ = .ok (some (some c0)) ∧
      ∀ ops, Allowed ⟨z, i, fd', fi'⟩ fuel false c0 ops →
      ∃ c, session ⟨z, i, fd', fi'⟩ fuel c0 ops = .ok (some c) ∧
        (∀ n, Name n → content plainCodec fuel c.k (utf8Text n) = .ok (some (lookup (ops.foldl effect []) n))) ∧
        c.k.ents.length = (ops.foldl effect []).length ∧
        ∀ (j : Nat) (e : File) (p : List Nat × Bytes), c.k.ents[j]? = some e → (ops.foldl effect [])[j]? = some p →
          ∃ m, e.name = utf8Text (p.1 ++ List.replicate m 0) := by
  obtain ⟨fd, fi, hen⟩ := enough_exists z i hz
  refine ⟨fd, fi, fun fd' fi' h1 h2 fuel hf => ⟨newCfu, open_new _ fuel, fun ops ha => ?_⟩⟩
  obtain ⟨c, e, h⟩ := session_ok ⟨z, i, fd', fi'⟩ hi hst hD (hen fd' fi' h1 h2) hf ops newCfu false [] (new_ok D) ha
  obtain ⟨s, g, hinv, hx, hg⟩ := h.inside
  refine ⟨c, e, ?_, ?_, ?_⟩
  · intro n hn
    rw [content_ok hinv hx fuel hf n hn, hg]
  · rw [hinv.core.ents, ← hg, List.length_map, List.length_map]
  · intro j f p hj hp
    rw [hinv.core.ents, List.getElem?_map] at hj
    rw [← hg, List.getElem?_map] at hp
    cases hx : g[j]? with
    | none => rw [hx] at hj; cases hj
    | some x =>
      rw [hx] at hj hp
      cases hj
      cases hp
      exact (hinv.core.ok x (List.mem_of_getElem? hx)).name

end Verif.Cfu
