import Verif.Cfu.Theorems

/-! # Update files: what goes wrong (C96) -/

namespace Verif.Cfu
open Verif Verif.Stream Verif.Container Verif.Container.Spec Verif.Zlib Verif.Handle Verif.Cfu.Spec Verif.Unicode Verif.Unicode.Spec

variable {σ τ : Type}

/-! ## A file that was there before -/

/-- The pointer to the file is set, and the stream has failed. -/
def Failed (cfu : Option Handle) : Prop := ∃ h, cfu = some h ∧ (h.own = true ∧ h.isOpen = true) ∧ h.failed = true

theorem saveIf_failed (L : Lib σ τ) {d d' : Disk} {cfu cfu' : Option Handle} {m : Bool} {x : Bytes} (hf : Failed cfu)
    (e : saveIf L d cfu m x = .ok (some (cfu', d'))) : d' = d ∧ Failed cfu' := by
  obtain ⟨h, rfl, ho, hfl⟩ := hf
  unfold saveIf at e
  cases m with
  | false => cases e; exact ⟨rfl, h, rfl, ho, hfl⟩
  | true =>
    simp only [if_true] at e
    obtain ⟨r, hr, e⟩ := bind_ok e
    cases r with
    | none => cases e
    | some r =>
      obtain ⟨h2, d2⟩ := r
      cases e
      obtain ⟨h3, h4, h5⟩ := save_failed L ho hfl x hr
      exact ⟨h3, h2, rfl, h4, h5⟩

theorem step_failed (L : Lib σ τ) {fuel : Nat} {c c' : Cfu} (hf : Failed c.cfu) {op : Act} (hk : keepsFile op) (e : step L fuel c op = .ok (some c')) :
    c'.disk = c.disk ∧ Failed c'.cfu := by
  cases op with
  | put n b now =>
    obtain ⟨r, _, e⟩ := bind_ok e
    cases r with
    | none => cases e
    | some k => cases e; exact ⟨rfl, hf⟩
  | remove n =>
    obtain ⟨r, _, e⟩ := bind_ok e
    cases r with
    | none => cases e
    | some k => cases e; exact ⟨rfl, hf⟩
  | flush =>
    unfold step flushCfu at e
    simp only at e
    obtain ⟨r, _, e⟩ := bind_ok e
    cases r with
    | none => cases e
    | some k =>
      simp only at e
      obtain ⟨r, hr, e⟩ := bind_ok e
      cases r with
      | none => cases e
      | some r =>
        obtain ⟨h2, d2⟩ := r
        cases e
        exact saveIf_failed L hf hr
  | half => exact hk.elim
  | reopen => exact hk.elim

theorem session_failed (L : Lib σ τ) {fuel : Nat} (ops : List Act) : ∀ {c c' : Cfu}, Failed c.cfu → (∀ op ∈ ops, keepsFile op) →
    session L fuel c ops = .ok (some c') → c'.disk = c.disk ∧ Failed c'.cfu := by
  induction ops with
  | nil => intro c c' hf _ e; cases e; exact ⟨rfl, hf⟩
  | cons op ops ih =>
    intro c c' hf hk e
    rw [session] at e
    obtain ⟨r, hr, e⟩ := bind_ok e
    cases r with
    | none => cases e
    | some c1 =>
      obtain ⟨h1, h2⟩ := step_failed L hf (hk op (by simp)) hr
      obtain ⟨h3, h4⟩ := ih h2 (fun o ho => hk o (by simp [ho])) e
      exact ⟨h3.trans h1, h4⟩

theorem close_failed (L : Lib σ τ) {fuel : Nat} {c : Cfu} {d : Disk} (hf : Failed c.cfu) (e : closeCfu L fuel c = .ok (some d)) : d = c.disk := by
  unfold closeCfu at e
  obtain ⟨r, _, e⟩ := bind_ok e
  cases r with
  | none => cases e
  | some r =>
    obtain ⟨x, m⟩ := r
    simp only at e
    obtain ⟨r, hr, e⟩ := bind_ok e
    cases r with
    | none => cases e
    | some r =>
      obtain ⟨h2, d2⟩ := r
      simp only at e
      obtain ⟨_, _, e⟩ := bind_ok e
      cases e
      exact (saveIf_failed L hf hr).1

/-- The container operations the actions stand for. -/
def toUser : Act → UserOp
  | .put n b now => .put n b now
  | .remove n => .remove n
  | _ => .flush

theorem after_toUser (c : Contents) (op : Act) : after c (toUser op) = effect c op := by cases op <;> rfl

/-- The loops of the library end: deflating is given enough turns for any source. -/
def DeflateEnds (L : Lib σ τ) : Prop := ∀ x, ∃ r, deflateStream L.z (L.fd x) x = some r

theorem saveIf_ends (L : Lib σ τ) (hl : DeflateEnds L) (d : Disk) (cfu : Option Handle) (m : Bool) (x : Bytes) : ∃ r, saveIf L d cfu m x = .ok (some r) := by
  unfold saveIf
  cases cfu with
  | none => exact ⟨_, rfl⟩
  | some h =>
    cases m with
    | false => exact ⟨_, rfl⟩
    | true =>
      obtain ⟨⟨f, out⟩, ho⟩ := hl x
      unfold save seek
      simp only [if_true]
      rw [if_neg (by omega), Outcome.ok_bind, ho]
      exact ⟨_, rfl⟩

theorem session_inside (L : Lib σ τ) (hl : DeflateEnds L) {fuel : Nat} (ops : List Act) : ∀ {c : Cfu} {k' : Catalog}, (∀ op ∈ ops, keepsFile op) →
    Container.session plainCodec fuel c.k (ops.map toUser) = .ok (some k') → ∃ c', session L fuel c ops = .ok (some c') ∧ c'.k = k' := by
  induction ops with
  | nil => intro c k' _ e; cases e; exact ⟨c, rfl, rfl⟩
  | cons op ops ih =>
    intro c k' hk e
    rw [List.map_cons, Container.session] at e
    obtain ⟨r, hr, e⟩ := bind_ok e
    have key : ∀ k1, r = some (.container k1) → ∃ c1, step L fuel c op = .ok (some c1) ∧ c1.k = k1 := by
      rintro k1 rfl
      cases op with
      | put n b now =>
        obtain ⟨q, hq, hr⟩ := bind_ok hr
        cases q with
        | none => cases hr
        | some k2 =>
          cases hr
          refine ⟨{ c with k := k1 }, ?_, rfl⟩
          unfold step
          simp only
          rw [hq, Outcome.ok_bind]
      | remove n =>
        obtain ⟨q, hq, hr⟩ := bind_ok hr
        cases q with
        | none => cases hr
        | some k2 =>
          cases hr
          refine ⟨{ c with k := k1 }, ?_, rfl⟩
          unfold step
          simp only
          rw [hq, Outcome.ok_bind]
      | flush =>
        obtain ⟨q, hq, hr⟩ := bind_ok hr
        cases q with
        | none => cases hr
        | some k2 =>
          cases hr
          obtain ⟨⟨h2, d2⟩, hs⟩ := saveIf_ends L hl c.disk c.cfu (decide (k1.ver ≠ c.k.ver)) k1.cat.data.data
          refine ⟨⟨k1, h2, d2⟩, ?_, rfl⟩
          unfold step flushCfu
          simp only
          rw [hq, Outcome.ok_bind]
          simp only
          rw [hs, Outcome.ok_bind]
      | half => exact (hk .half (by simp)).elim
      | reopen => exact (hk .reopen (by simp)).elim
    match r, e with
    | some (.container k1), e =>
      obtain ⟨c1, e1, hk1⟩ := key k1 rfl
      subst hk1
      obtain ⟨c2, e2, hk2⟩ := ih (fun o ho => hk o (by simp [ho])) e
      exact ⟨c2, by rw [session, e1]; exact e2, hk2⟩

theorem ends_exists (z : Deflater σ) (i : Inflater τ) {D : Bytes → Option Bytes} (hz : CorrectDeflater z D) :
    ∃ fd : Bytes → Nat, ∀ fd' fi' : Bytes → Nat, (∀ b, fd b ≤ fd' b) → DeflateEnds (⟨z, i, fd', fi'⟩ : Lib σ τ) := by
  have hdef : ∀ x : Bytes, ∃ F, ∀ fuel, F ≤ fuel → ∃ r, deflateStream z fuel x = some r := by
    intro x
    by_cases hx : x.length % 16384 = 0
    · obtain ⟨F, hF⟩ := deflate_multiple_fails z D hz x hx
      exact ⟨F, fun f hf => by obtain ⟨y, e, _⟩ := hF f hf; exact ⟨_, e⟩⟩
    · obtain ⟨F, hF⟩ := deflate_correct_partial z D hz x hx
      exact ⟨F, fun f hf => by obtain ⟨y, e, _⟩ := hF f hf; exact ⟨_, e⟩⟩
  exact ⟨fun x => Classical.choose (hdef x), fun fd' fi' h x => Classical.choose_spec (hdef x) _ (h x)⟩

/-- **C96, negation.** A file that is exactly the stream of a sound container (made by any history `ops0`), and whose size is no multiple of 16384, is
opened; any history of storing, removing and flushing follows, and the file is closed: all succeeds, what is stored is found as long as the file
is open, and the file is as it was. The end of the file was met while reading, and the stream writes nothing after that (C94). -/
theorem changes_to_existing_lost (z : Deflater σ) (i : Inflater τ) (D : Bytes → Option Bytes) (hz : CorrectDeflater z D) (hi : CorrectInflater i D)
    (hst : StopsAtEnd i hi) (hD : D [] = none) :
    ∃ fd fi : Bytes → Nat, ∀ fd' fi' : Bytes → Nat, (∀ b, fd b ≤ fd' b) → (∀ b, fi b ≤ fi' b) → ∀ fuel, LAST ≤ fuel →
    ∀ ops0, Container.Allowed plainCodec fuel blankCatalog ops0 → ∀ k k0, Container.session plainCodec fuel blankCatalog ops0 = .ok (some k) →
    extent k.cat + flushCost plainCodec k < LAST → flush plainCodec fuel k = .ok (some k0) →
    ∀ b, D b = some k0.cat.data.data → b.length % 16384 ≠ 0 →
    ∃ c1, openCfu ⟨z, i, fd', fi'⟩ fuel ⟨some b, true⟩ = .ok (some (some c1)) ∧
      ∀ ops, (∀ op ∈ ops, keepsFile op) → Container.Allowed plainCodec fuel c1.k (ops.map toUser) →
      ∃ c2, session ⟨z, i, fd', fi'⟩ fuel c1 ops = .ok (some c2) ∧
        (∀ n, Name n → content plainCodec fuel c2.k (utf8Text n) = .ok (some (lookup (ops.foldl effect (ops0.foldl after [])) n))) ∧
        (extent c2.k.cat + flushCost plainCodec c2.k < LAST → closeCfu ⟨z, i, fd', fi'⟩ fuel c2 = .ok (some ⟨some b, true⟩)) := by
  obtain ⟨fd, fi, henA⟩ := enough_exists z i hz
  obtain ⟨fd2, hends⟩ := ends_exists z i hz
  refine ⟨fun b => max (fd b) (fd2 b), fi, fun fd' fi' hb1 hb2 fuel hf ops0 ha0 k k0 hk hroom hk0 b hb hm => ?_⟩
  have hen := henA fd' fi' (fun b => Nat.le_trans (Nat.le_max_left _ _) (hb1 b)) hb2
  have hl := hends fd' fi' (fun b => Nat.le_trans (Nat.le_max_right _ _) (hb1 b))
  generalize hL : (⟨z, i, fd', fi'⟩ : Lib σ τ) = L at hen hl ⊢
  have hi' : L.i = i := by rw [← hL]
  subst hi'
  obtain ⟨k', s0, g0, e0, h0, hx0, hg0⟩ := Container.session_ok fuel hf _ blankCatalog _ [] (blank_inv plainCodec) (by decide) ha0
  rw [hk] at e0
  cases e0
  obtain ⟨k0', s1, g1, e1, h1, hcl, hg1, _, hfm, hem, hx1⟩ := flush_ok h0 hroom fuel hf
  rw [hk0] at e1
  cases e1
  have hne : k0.cat.data.data ≠ [] := by
    have := phys_length h1.phys
    intro h0
    rw [h0] at this
    simp at this
  obtain ⟨k2, g2, eo, hi2, hs2, _, hx2⟩ := open_ok h1 hcl hfm hem hx1 fuel hf
  obtain ⟨h, e, hlive, hfail⟩ := open_saved (d := ⟨some b, true⟩) L hi hst hD hen rfl rfl ⟨b, [], by simp, hb⟩ hne eo
  refine ⟨_, e, fun ops hkeep hal => ?_⟩
  have hfd : Failed (Cfu.mk k2 (some h) ⟨some b, true⟩).cfu := ⟨h, rfl, ⟨hlive.own, hlive.isOpen⟩, hfail hb hm⟩
  obtain ⟨k3, s3, g3, e3, h3, hx3, hg3⟩ := Container.session_ok fuel hf _ k2 s1 g2 hi2 (by rw [hx2]; exact hx1) hal
  obtain ⟨c2, es, hck⟩ := session_inside L hl (c := ⟨k2, some h, ⟨some b, true⟩⟩) ops hkeep e3
  obtain ⟨hd2, hf2⟩ := session_failed L ops hfd hkeep es
  subst hck
  refine ⟨c2, es, ?_, ?_⟩
  · intro n hn
    rw [content_ok h3 hx3 fuel hf n hn, hg3, hs2, hg1, hg0]
    have : ∀ (ops : List Act) (c : Contents), (ops.map toUser).foldl after c = ops.foldl effect c := by
      intro ops
      induction ops with
      | nil => intro c; rfl
      | cons op ops ih => intro c; rw [List.map_cons, List.foldl_cons, List.foldl_cons, ih, after_toUser]
    rw [this]
    rfl
  · intro hroom2
    obtain ⟨k4, s4, g4, e4, _⟩ := flush_ok h3 hroom2 fuel hf
    obtain ⟨⟨h5, d5⟩, e5⟩ := saveIf_ends L hl c2.disk c2.cfu (decide (k4.ver ≠ c2.k.ver)) k4.cat.data.data
    obtain ⟨hd5, h6, rfl, ho6, _⟩ := saveIf_failed L hf2 e5
    unfold closeCfu
    rw [(Nested.flush_marks e4).1, Outcome.ok_bind]
    simp only
    rw [e5, Outcome.ok_bind]
    simp only
    unfold release Handle.destroy Handle.close
    simp only [ho6.1, if_true, Outcome.ok_bind]
    rw [hd5, hd2]

/-! ## A file in which nothing was stored -/

/-- **C96, negation.** A new file that is closed without a change is empty, and is no container when it is opened again. -/
theorem unused_file_is_no_container (L : Lib σ τ) (fuel : Nat) (hl : 0 < L.fi []) :
    ∃ c, openCfu L fuel ⟨none, true⟩ = .ok (some (some c)) ∧ closeCfu L fuel c = .ok (some ⟨some [], true⟩) ∧
      openCfu L fuel ⟨some [], true⟩ = .ok (some none) := by
  refine ⟨newCfu, open_new L fuel, rfl, ?_⟩
  obtain ⟨m, hm⟩ : ∃ m, L.fi [] = m + 1 := ⟨L.fi [] - 1, by omega⟩
  unfold openCfu
  simp only
  rw [hm]
  rfl

/-! ## While the file is let go of -/

/-- **C96, negation.** After `HalfClose`, flushing forgets that something was changed: it is not in the file after `HalfOpen` and closing either, unless
something else is changed. Here `c` is any sound container that is let go of, with any changes made in it. -/
theorem flushed_while_let_go_lost (L : Lib σ τ) {fuel : Nat} (hf : LAST ≤ fuel) {c : Cfu} {s : Store} {g : Ghost} (h : Inv plainCodec c.k s g)
    (hroom : extent c.k.cat + flushCost plainCodec c.k < LAST) (hc : c.cfu = none) :
    ∃ c', flushCfu L fuel c = .ok (some c') ∧ closeCfu L fuel (halfOpen c') = .ok (some c.disk) := by
  obtain ⟨k', s', g', e, hi', hcl, hs', _, hfm, hem, hx'⟩ := flush_ok h hroom fuel hf
  obtain ⟨_, hmo, _⟩ := Nested.flush_marks e
  refine ⟨⟨k', none, c.disk⟩, ?_, ?_⟩
  · unfold flushCfu
    rw [e, Outcome.ok_bind]
    simp only
    rw [hc]
    rfl
  · have hst := flush_still plainCodec fuel k' (by
      intro e he
      rw [hi'.core.ents] at he
      obtain ⟨x, hx, rfl⟩ := List.mem_map.1 he
      exact Or.inr (hcl x hx)) hfm hem hmo
    unfold closeCfu halfOpen
    simp only
    rw [(Nested.flush_marks hst).1, Outcome.ok_bind]
    simp only [ne_eq, not_true, decide_false]
    rfl

/-! ## Containers whose size is a multiple of 16384 -/

/-- **C96, negation.** With any correct compression library: a container whose size after flushing is a multiple of 16384 is written as a stream that is not
finished, over the beginning of what the file held; success is reported. -/
theorem multiple_not_saved (z : Deflater σ) (D : Bytes → Option Bytes) (hz : CorrectDeflater z D) (x : Bytes)
    (hm : x.length % 16384 = 0) : ∃ F, ∀ L : Lib σ τ, L.z = z → F ≤ L.fd x → ∀ (d : Disk) (h : Handle) (b : Bytes), Usable d h b →
      ∃ h' d' y, save L d h x = .ok (some (h', d')) ∧ d'.bytes = some (y ++ b.drop y.length) ∧ ∃ s, hz.Abs s x y none := by
  obtain ⟨F, hF⟩ := deflate_multiple_fails z D hz x hm
  refine ⟨F, fun L hL hfd d h b hu => ?_⟩
  subst hL
  obtain ⟨y, e, ha⟩ := hF _ hfd
  by_cases hy : y = []
  · refine ⟨{ h with pos := 0 }, d, y, ?_, ?_, ha⟩
    · unfold save seek
      rw [if_neg (by omega), Outcome.ok_bind, e]
      simp only
      rw [if_pos hy]
    · subst hy
      simpa using hu.live.there
  · refine ⟨(Handle.write d { h with pos := 0 } y).2.1, (Handle.write d { h with pos := 0 } y).2.2, y, ?_, ?_, ha⟩
    · unfold save seek
      rw [if_neg (by omega), Outcome.ok_bind, e]
      simp only
      rw [if_neg hy]
    · have hr : Handle.reopen d { h with pos := 0 } = { h with pos := 0 } := by
        unfold Handle.reopen
        simp only [hu.live.own, hu.live.isOpen]
        rfl
      unfold Handle.write
      rw [hr]
      simp only [hu.sound, Bool.false_eq_true, if_false, hu.live.there, Option.getD_some]
      rw [overlay_put b 0 y (Nat.zero_le _)]
      unfold Handle.Spec.put
      simp

end Verif.Cfu
