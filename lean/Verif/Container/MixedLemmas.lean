import Verif.Container.DyingLemmas
import Verif.Container.DyingSpec

/-!
# Lemmas: files that are written over before the process ends
-/

namespace Verif.Container
open Verif Verif.Stream Verif.Unicode Verif.Unicode.Spec Verif.Container.Spec

/-- The length of the header of an entry. -/
def headLen (e : File) : Nat := match Entry.headerBytes 0 0 e.name with | .ok h => h.length | _ => 0

theorem headLen_eq {e : File} {cr mo : Nat} {h : Bytes} (hh : Entry.headerBytes cr mo e.name = .ok h) : h.length = headLen e := by
  unfold headLen
  unfold Entry.headerBytes at *
  cases hu : fromUtf8 e.name with
  | ok u =>
    rw [hu] at hh
    rw [Outcome.ok_bind] at hh ⊢
    cases hh
    simp [Entry.le64_length]
  | throw => rw [hu] at hh; cases hh
  | ub => rw [hu] at hh; cases hh

theorem openFile_times {cd : Codec} {fuel : Nat} {c : Cat} {e : File} {b : Bytes} (cr mo : Nat)
    (h : openFile cd fuel c e = .ok (some { e with content := some b })) :
    openFile cd fuel c { e with created := cr, modified := mo } = .ok (some { e with created := cr, modified := mo, content := some b }) := by
  unfold openFile at h ⊢
  simp only
  cases hc : e.content with
  | some b' =>
    rw [hc] at h
    simp only at h ⊢
    have : e.content = some b := by
      have := Outcome.ok.inj h
      have := Option.some.inj this
      rw [this]
    rw [hc] at this
    cases this
    congr 2
  | none =>
    rw [hc] at h
    simp only at h ⊢
    obtain ⟨r, hr, h⟩ := bind_ok h
    rw [hr, Outcome.ok_bind]
    cases r with
    | none => cases h
    | some b2 =>
      simp only at h ⊢
      have h2 := congrArg File.content (Option.some.inj (Outcome.ok.inj h))
      simp only [Option.some.injEq] at h2
      rw [h2]

/-- Two blocks are written over. -/
theorem over_two {c c1 c2 : Cat} {s : Store} (h : Phys c s) {d hd a1 a2 fuel : Nat} {p q : Bytes} {p0 q0 : Int} {od oh : Bytes}
    (hd16 : d ≠ 16 ∧ hd ≠ 16) (hne : d ≠ hd) (hd0 : d ≠ 0) (hh0 : hd ≠ 0) (h1 : s d = some od ∧ od ≠ []) (h2 : s hd = some oh ∧ oh ≠ [])
    (hx : extent c + (31 + p.length + (31 + q.length)) < LAST) (hf : LAST ≤ fuel)
    (w1 : writeBlock fuel c ⟨p, p0⟩ d false none = .ok (some (c1, a1)))
    (w2 : writeBlock fuel c1 ⟨q, q0⟩ hd false none = .ok (some (c2, a2))) :
    a1 = d ∧ a2 = hd ∧ ∃ s2, Phys c2 s2 ∧ Rep c2 s2 ∧ s2 d = some p ∧ s2 hd = some q ∧ (∀ x, x ≠ d → x ≠ hd → x ≠ 16 → s2 x = s x) ∧
      (∀ f, s 16 = some f → s2 16 = some f) ∧ slice c2.data.data 0 16 = slice c.data.data 0 16 ∧ Tells c c2 ∧
      c2.pageSize = c.pageSize ∧ extent c2 ≤ extent c + (31 + p.length + (31 + q.length)) := by
  obtain ⟨c1', a1', s1, e1, g1, _, g3, g4, g5, _, g7, _, _, _, g11, g12, g13, g14⟩ :=
    phys_write c s h d p p0 (Or.inr ⟨hd16.1, od, h1⟩) (by omega) fuel (by omega)
  rw [e1] at w1
  cases w1
  have ha1 := g7 hd0
  subst ha1
  have hs1 : s1 hd = some oh := by rw [g4 hd (Ne.symm hne) hd16.2]; exact h2.1
  obtain ⟨c2', a2', s2, e2, k1, k2, k3, k4, k5, _, k7, _, _, _, k11, k12, k13, k14⟩ :=
    phys_write c1 s1 g1 hd q q0 (Or.inr ⟨hd16.2, oh, hs1, h2.2⟩) (by omega) fuel (by omega)
  rw [e2] at w2
  cases w2
  have ha2 := k7 hh0
  subst ha2
  refine ⟨rfl, rfl, s2, k1, k2, ?_, k3, ?_, fun f hf => k5 f (g5 f hf), k12.trans g12, tells_trans g13 k13, k11.trans g11, by omega⟩
  · rw [k4 a1 hne hd16.1]; exact g3
  · intro x hx1 hx2 hx16
    rw [k4 x hx2 hx16, g4 x hx1 hx16]

/-- The same as an existence. -/
theorem over_two_runs {c : Cat} {s : Store} (h : Phys c s) {d hd fuel : Nat} {p q : Bytes} {p0 q0 : Int} {od oh : Bytes}
    (hd16 : d ≠ 16 ∧ hd ≠ 16) (hne : d ≠ hd) (h1 : s d = some od ∧ od ≠ []) (h2 : s hd = some oh ∧ oh ≠ [])
    (hx : extent c + (31 + p.length + (31 + q.length)) < LAST) (hf : LAST ≤ fuel) :
    ∃ c1 a1 c2 a2, writeBlock fuel c ⟨p, p0⟩ d false none = .ok (some (c1, a1)) ∧
      writeBlock fuel c1 ⟨q, q0⟩ hd false none = .ok (some (c2, a2)) := by
  obtain ⟨c1, a1, s1, e1, g1, _, g3, g4, g5, _, g7, _, _, _, g11, g12, g13, g14⟩ :=
    phys_write c s h d p p0 (Or.inr ⟨hd16.1, od, h1⟩) (by omega) fuel (by omega)
  have hs1 : s1 hd = some oh := by
    by_cases h0 : d = 0
    · subst h0
      have : s 0 = none := phys_zero h (by unfold extent at *; omega)
      rw [this] at h1; cases h1.1
    · have := g7 h0
      rw [g4 hd (by rw [this]; exact Ne.symm hne) hd16.2]; exact h2.1
  obtain ⟨c2, a2, s2, e2, _⟩ := phys_write c1 s1 g1 hd q q0 (Or.inr ⟨hd16.2, oh, hs1, h2.2⟩) (by omega) fuel (by omega)
  exact ⟨c1, a1, c2, a2, e1, e2⟩

/-- The entry that was written over. -/
def written (e : File) (cr mo : Nat) : File := { e with created := cr, modified := mo, content := none, dataMod := false, headerMod := false }

/-- An entry is as good after its blocks were written over. -/
theorem ent_written {cd : Codec} {s s2 : Store} {e : File} {p : List Nat × Bytes} (h : EntOk cd s e p) {b pk hb : Bytes} {cr mo : Nat}
    (hcr : cr < 2 ^ 64) (hpk : cd.pack b = .ok pk) (hpne : pk ≠ []) (hun : cd.unpack pk = .ok b)
    (hhb : Entry.headerBytes cr mo e.name = .ok hb) (hhne : hb ≠ []) (hd : s2 e.data = some pk) (hh : s2 e.header = some hb) :
    EntOk cd s2 (written e cr mo) (p.1, b) := by
  obtain ⟨z, hz⟩ := h.name
  refine ⟨⟨z, hz⟩, h.isName, hcr, fun b' hb' => by simp [written] at hb', fun _ => ⟨rfl, rfl⟩, ⟨pk, hpk, hpne, hun⟩, Or.inr ⟨pk, hd, hpne⟩,
    Or.inr ⟨hb, hh, hhne⟩, fun _ => ⟨pk, hd, hun⟩, fun _ => ⟨hb, z, mo, hh, ?_⟩, h.apart, h.notDir⟩
  rw [← hz]; exact hhb

/-- A name that is there: `createFile` finds it, the times are set, and its blocks are written over. -/
theorem over_ok {cd : Codec} {k : Catalog} {s : Store} {l1 l2 : Ghost} {x : File × (List Nat × Bytes)} (h : Inv cd k s (l1 ++ x :: l2))
    (hcl : Clean x.1) (h0 : x.1.data ≠ 0 ∧ x.1.header ≠ 0) (f : NewFile) (hn : Name f.name) (hb : Packs cd f.body) (hcr : f.created < 2 ^ 64)
    (hs : SameText x.2.1 f.name) (fuel : Nat) (hf : LAST ≤ fuel)
    (hd : extent k.cat + (31 + (match cd.pack f.body with | .ok p => p.length | _ => 0) + (31 + headLen x.1)) < LAST) :
    ∃ k' s', addFile cd fuel k f = .ok (some k') ∧ Inv cd k' s' (l1 ++ (written x.1 f.created f.modified, (x.2.1, f.body)) :: l2) ∧
      slice k'.cat.data.data 0 16 = slice k.cat.data.data 0 16 ∧
      extent k'.cat ≤ extent k.cat + (31 + (match cd.pack f.body with | .ok p => p.length | _ => 0) + (31 + headLen x.1)) ∧
      ∀ s0, Phys k.cat s0 → EntOk cd s0 x.1 x.2 → ∃ s1, Phys k'.cat s1 ∧ Rep k'.cat s1 ∧
        EntOk cd s1 (written x.1 f.created f.modified) (x.2.1, f.body) ∧
        (∀ a v, a ≠ x.1.data → a ≠ x.1.header → s0 a = some v → s1 a = some v) := by
  have hx := h.core.ok x (by simp)
  obtain ⟨pk, hpk, hpne, hun⟩ := hb
  obtain ⟨z, hz⟩ := hx.name
  obtain ⟨hb, hhb, hhne, _⟩ := header_ok hx.isName z f.created f.modified
  rw [← hz] at hhb
  have hhl := headLen_eq hhb
  rw [hpk] at hd ⊢
  simp only at hd ⊢
  rw [← hhl] at hd ⊢
  have hap : x.1.data ≠ x.1.header := hx.apart h0.1
  have live : ∀ s0, EntOk cd s0 x.1 x.2 → (∃ od, s0 x.1.data = some od ∧ od ≠ []) ∧ (∃ oh, s0 x.1.header = some oh ∧ oh ≠ []) := by
    intro s0 he
    exact ⟨he.dataLive.resolve_left h0.1, he.headLive.resolve_left h0.2⟩
  obtain ⟨⟨od, hod⟩, ⟨oh, hoh⟩⟩ := live s hx
  obtain ⟨c1, a1, c2, a2, w1, w2⟩ := over_two_runs (p := pk) (q := hb) (p0 := 0) (q0 := hb.length) h.phys hx.notDir hap hod hoh hd hf
  obtain ⟨rfl, rfl, s2, g1, g2, g3, g4, g5, g6, g7, g8, g9, g10⟩ := over_two h.phys hx.notDir hap h0.1 h0.2 hod hoh hd hf w1 w2
  -- the entries
  have hup1 := update_at h.core.ids { x.1 with created := f.created, modified := f.modified } rfl
  have hids2 : (l1 ++ (({ x.1 with created := f.created, modified := f.modified } : File), x.2) :: l2).Pairwise fun x y => x.1.id ≠ y.1.id :=
    pairwise_replace (R := fun (a b : File × (List Nat × Bytes)) => a.1.id ≠ b.1.id) (fun a b hab => Ne.symm hab) h.core.ids (by
      have hp := h.core.ids
      rw [List.pairwise_append, List.pairwise_cons] at hp
      intro z hz
      rcases hz with hz | hz
      · exact hp.2.2 z hz x (by simp)
      · exact Ne.symm (hp.2.1.1 z hz))
  have hup2 := update_at hids2 (written x.1 f.created f.modified) rfl
  have hrun : addFile cd fuel k f =
      .ok (some { k with cat := c2, ents := (l1 ++ (written x.1 f.created f.modified, (x.2.1, f.body)) :: l2).map Prod.fst }) := by
    unfold addFile createFile
    rcases getFile_core h.core f.name hn with ⟨_, hno⟩ | ⟨m1, y, m2, hls, e, hsy, h1, h2⟩
    · exact absurd hs (hno x (by simp))
    · have hxy : y = x := by
        have hy : y ∈ l1 ++ x :: l2 := by rw [hls]; simp
        rw [List.mem_append, List.mem_cons] at hy
        have hxm : x ∈ m1 ++ y :: m2 := by rw [← hls]; simp
        rw [List.mem_append, List.mem_cons] at hxm
        rcases hxm with hxm | rfl | hxm
        · exact absurd hs (h1 x hxm)
        · rfl
        · exact absurd hs (h2 x hxm)
      rw [hxy] at e
      rw [e, Outcome.ok_bind]
      simp only [Outcome.ok_bind]
      unfold setTimes
      simp only
      unfold writeAndClose
      have ho := openFile_ok h.phys hx (by omega) fuel (by omega)
      simp only
      rw [openFile_times f.created f.modified ho, Outcome.ok_bind]
      simp only
      rw [hpk, Outcome.ok_bind, w1, Outcome.ok_bind]
      simp only
      unfold writeEnd
      simp only
      rw [hhb, Outcome.ok_bind, w2, Outcome.ok_bind]
      simp only
      congr 2
      rw [h.core.ents, hup1]
      show Catalog.mk _ _ _ _ _ _ = Catalog.mk _ _ _ _ _ _
      congr 1
      have e2 : (l1 ++ (({ x.1 with created := f.created, modified := f.modified } : File), x.2) :: l2).map Prod.fst =
          l1.map Prod.fst ++ ({ x.1 with created := f.created, modified := f.modified } : File) :: l2.map Prod.fst := by simp
      rw [e2] at hup2
      rw [List.map_append, List.map_cons]
      exact hup2
  have hoth : ∀ z, z ∈ l1 ∨ z ∈ l2 → Sep z.1 x.1 := by
    have hp := h.core.sep
    rw [List.pairwise_append, List.pairwise_cons] at hp
    intro z hz
    rcases hz with hz | hz
    · exact hp.2.2 z hz x (by simp)
    · exact sep_symm (hp.2.1.1 z hz)
  have hkeep : ∀ z, z ∈ l1 ∨ z ∈ l2 → EntOk cd s2 z.1 z.2 := by
    intro z hz
    have hzo := h.core.ok z (by rcases hz with hz | hz <;> simp [hz])
    have hsp := hoth z hz
    have h00 : s 0 = none := phys_zero h.phys (by unfold extent at *; omega)
    refine ent_frame hzo ?_ ?_
    · intro q hq
      have hz0 : z.1.data ≠ 0 := by intro he; rw [he, h00] at hq; cases hq
      rw [g5 _ (fun he => hsp _ hz0 (Or.inl rfl) (Or.inl he)) (fun he => hsp _ hz0 (Or.inl rfl) (Or.inr he)) hzo.notDir.1]; exact hq
    · intro q hq
      have hz0 : z.1.header ≠ 0 := by intro he; rw [he, h00] at hq; cases hq
      rw [g5 _ (fun he => hsp _ hz0 (Or.inr rfl) (Or.inl he)) (fun he => hsp _ hz0 (Or.inr rfl) (Or.inr he)) hzo.notDir.2]; exact hq
  have hent := ent_written hx hcr hpk hpne hun hhb hhne g3 g4
  have hcore := replace_core (s' := s2) (y := (written x.1 f.created f.modified, (x.2.1, f.body))) h.core hent rfl rfl
    (fun z hz => ⟨hoth z hz, hkeep z hz⟩) c2
  refine ⟨_, s2, hrun, ⟨hcore, g1, ?_, ?_, ?_, ?_⟩, g7, g10, ?_⟩
  · intro hlen
    have := rep_long g2
    simp only at hlen
    omega
  · intro hfm
    rcases h.fat hfm with ⟨_, hl⟩ | ⟨h3, h4⟩
    · exact absurd hl (by simp)
    · right
      refine ⟨?_, ?_⟩
      · rw [g6 _ h3, h.core.ents]
        simp [fatBytes, written]
      · intro z hz
        rw [List.mem_append, List.mem_cons] at hz
        rcases hz with hz | rfl | hz
        · exact h4 z (by simp [hz])
        · exact h0
        · exact h4 z (by simp [hz])
  · show rdWord 0 c2.data.data 4 = c2.pageSize
    rw [rdWord_congr 0 0 k.cat.data.data c2.data.data 4 (by omega) (phys_length h.phys) g7, h.page, g9]
  · intro hem
    have ht := g8 hem
    show rdWord 0 c2.data.data 0 = c2.next
    rw [rdWord_congr 0 0 k.cat.data.data c2.data.data 0 (by omega) (phys_length h.phys) g7, h.next ht.1, ht.2]
  · intro s0 hp0 he0
    obtain ⟨⟨od0, hod0⟩, ⟨oh0, hoh0⟩⟩ := live s0 he0
    obtain ⟨_, _, s1, j1, j2, j3, j4, j5, j6, _⟩ := over_two hp0 hx.notDir hap h0.1 h0.2 hod0 hoh0 hd hf w1 w2
    refine ⟨s1, j1, j2, ent_written he0 hcr hpk hpne hun hhb hhne j3 j4, ?_⟩
    intro a v ha1 ha2 hav
    by_cases h16 : a = 16
    · rw [h16] at hav ⊢; exact j6 _ hav
    · rw [j5 a ha1 ha2 h16]; exact hav

/-- Opening a stream with a directory, no free pages noted. -/
theorem open_dir {cd : Codec} {c : Cat} {s' : Store} {ls : Ghost} (hp : Phys c s') (hr : Rep c s')
    (hdir : s' 16 = some (fatBytes (ls.map Prod.fst))) (hok : ∀ x ∈ ls, EntOk cd s' x.1 x.2 ∧ Clean x.1)
    (hsep : ls.Pairwise fun x y => Sep x.1 y.1) (hnames : ls.Pairwise fun x y => ¬ SameText x.2.1 y.2.1)
    (hword : rdWord 0xff c.data.data 0 = LAST) (hd : extent c < LAST) (fuel : Nat) (hf : LAST ≤ fuel) :
    ∃ o ls', openCatalog fuel c.data.data = .ok (some (.container o)) ∧ Core cd o s' ls' ∧ ls'.map Prod.snd = ls.map Prod.snd ∧
      o.cat.data = ⟨c.data.data, 16⟩ := by
  have hLd : LAST = 2147483647 := rfl
  have hlen := phys_length hp
  have hlt : c.data.data.length < LAST := by unfold extent at hd; omega
  have hnil : ∀ c0 : Cat, Core cd ⟨c0, rdWord 0 c.data.data 8, [], [], false, 0⟩ s' [] := fun c0 =>
    ⟨rfl, by simp, by simp, by simp, by simp, by simp, by
      intro q id
      constructor
      · intro hq; cases hq
      · rintro ⟨x, hx, _⟩; cases hx⟩
  have hlong := rep_long hr
  unfold openCatalog
  simp only
  rw [if_neg (by omega)]
  have hcat : isCatalog c.data.data = .ok true := by
    unfold isCatalog
    rw [if_neg (by omega)]
    have : freeTest c.data.data = .ok true := by
      unfold freeTest
      simp only
      rw [hword, if_pos rfl]
    rw [this, Outcome.ok_bind, if_pos rfl, dirTest_ok hr hdir]
  rw [hcat, Outcome.ok_bind, if_pos rfl]
  unfold initCatalog
  simp only
  rw [if_pos (by omega)]
  let c1 : Cat := { c with data := ⟨c.data.data, 16⟩ }
  have hp1 : Phys c1 s' := phys_outside (c := c) rfl rfl rfl (fun _ _ _ => rfl) hp
  have hr1 : Rep c1 s' := rep_outside (c := c) rfl rfl (fun _ _ _ => rfl) hr
  obtain ⟨pp, hrd⟩ := block_reads c1 s' hr1 hlt 16 _ hdir fuel (show c.data.data.length < fuel by omega)
  have hrd' : readBlock fuel ⟨c.data.data, 16⟩ 16 = .ok (some ⟨fatBytes (ls.map Prod.fst), pp⟩) := hrd
  rw [hrd']
  simp only
  rw [fatBytes_length, Nat.mul_div_cancel_left _ (by omega), List.length_map]
  obtain ⟨k', ls', h1, h2, h3, h6, h4, h5⟩ := loadLoop_ok (cd := cd) hp1 hlt fuel hf ls [] []
    ⟨⟨⟨c.data.data, 16⟩, rdWord 0 c.data.data 0, rdWord 0 c.data.data 4, false, false⟩, rdWord 0 c.data.data 8, [], [], false, 0⟩
    (hnil _) rfl rfl hok hsep hnames
  rw [List.nil_append] at h3 h6
  exact ⟨k', ls', h1, h2, shape_snd h3, by rw [h4]⟩

end Verif.Container
