import Verif.Container.MixedLemmas
import Verif.Container.DyingTheorems

/-!
# C118: files that are replaced before the process ends
-/

namespace Verif.Container
open Verif Verif.Unicode Verif.Unicode.Spec Verif.Container.Spec

theorem needs_cons (cd : Codec) (f : NewFile) (fs : List NewFile) : needs cd (f :: fs) =
    (match cd.pack f.body with | .ok p => p.length | _ => 0) + (utf16Text f.name).length + 86 + needs cd fs := rfl

/-- The entries of the directory on the disk. -/
structure OnDisk (cd : Codec) (s : Store) (lo : Ghost) (m : Nat) : Prop where
  dir : s 16 = some (fatBytes (lo.map Prod.fst))
  ok : ∀ x ∈ lo, EntOk cd s x.1 x.2 ∧ Clean x.1 ∧ (x.1.data ≠ 0 ∧ x.1.header ≠ 0) ∧ headLen x.1 ≤ m

theorem split_old {lo ln l1 l2 : Ghost} {x : File × (List Nat × Bytes)} (h : lo ++ ln = l1 ++ x :: l2) (hx : x ∉ ln) :
    ∃ a, lo = l1 ++ x :: a ∧ l2 = a ++ ln := by
  rcases List.append_eq_append_iff.1 h with ⟨a, ha, hb⟩ | ⟨a, ha, hb⟩
  · exact absurd (by rw [hb]; simp) hx
  · cases a with
    | nil =>
      rw [List.nil_append] at hb
      exact absurd (by rw [← hb]; simp) hx
    | cons y a =>
      rw [List.cons_append] at hb
      injection hb with h1 h2
      subst h1
      exact ⟨a, ha, h2⟩

theorem mixed_ok {cd : Codec} (fuel : Nat) (hf : LAST ≤ fuel) (m : Nat) (ns : List (List Nat)) (fs : List NewFile) : ∀ (k : Catalog) (s s0 : Store) (lo ln : Ghost),
    Inv cd k s (lo ++ ln) → Phys k.cat s0 → OnDisk cd s0 lo m → (∀ f ∈ fs, ∀ x ∈ ln, ¬ SameText x.2.1 f.name) →
    lo.map (fun x => x.2.1) = ns → (fs.Pairwise fun f g => SameText f.name g.name → ∃ n ∈ ns, SameText n f.name) →
    (∀ f ∈ fs, Name f.name ∧ Packs cd f.body ∧ f.created < 2 ^ 64) → extent k.cat + needs cd fs + fs.length * m < LAST →
    ∃ k' s' s1 lo' ln', addFiles cd fuel k fs = .ok (some k') ∧ Inv cd k' s' (lo' ++ ln') ∧
      (lo' ++ ln').map Prod.snd = withFiles ((lo ++ ln).map Prod.snd) fs ∧ lo'.map (fun x => x.2.1) = ns ∧
      Phys k'.cat s1 ∧ OnDisk cd s1 lo' m ∧ slice k'.cat.data.data 0 16 = slice k.cat.data.data 0 16 ∧ extent k'.cat < LAST := by
  induction fs with
  | nil =>
    intro k s s0 lo ln h hp ho _ hns _ _ hd
    exact ⟨k, s, s0, lo, ln, rfl, h, rfl, hns, hp, ho, rfl, by simp [needs] at hd; exact hd⟩
  | cons f fs ih =>
    intro k s s0 lo ln h hp ho hln hns hpw hok hd
    obtain ⟨hn, hb, hcr⟩ := hok f (by simp)
    rw [List.pairwise_cons] at hpw
    have hneeds := needs_cons cd f fs
    obtain ⟨pk, hpk, _⟩ := id hb
    rw [hpk] at hneeds
    simp only at hneeds
    rw [List.length_cons, Nat.add_mul, Nat.one_mul] at hd
    have hrest : ∀ k1, addFile cd fuel k f = .ok (some k1) → addFiles cd fuel k (f :: fs) = addFiles cd fuel k1 fs := by
      intro k1 h1
      rw [addFiles, h1, Outcome.ok_bind]
    rcases getFile_core h.core f.name hn with ⟨_, hno⟩ | ⟨l1, x, l2, hls, _, hs, h1, h2⟩
    · -- a new name
      have hcost := cost_needs cd k.fresh f.name hn f.created f.modified f.body hb
      rw [hpk] at hcost
      simp only at hcost
      obtain ⟨e0, k0, k1, s1, e1, g1, g2, g3, g4, g5⟩ := store_grown h f.name hn f.body hb f.created f.modified f.now hcr hno fuel hf (by omega)
      obtain ⟨t1, hg1⟩ := g5 s0 hp
      have hon : OnDisk cd t1 lo m := ⟨hg1.2.1 _ _ ho.dir, fun x hx => by
        obtain ⟨a1, a2⟩ := ho.ok x hx
        exact ⟨ent_frame a1 (fun q hq => hg1.2.1 _ _ hq) (fun q hq => hg1.2.1 _ _ hq), a2⟩⟩
      rw [List.append_assoc] at g3
      obtain ⟨k2, s2, t2, lo2, ln2, i1, i2, i3, i4, i5, i6, i7, i8⟩ := ih k1 s1 t1 lo _ g3 hg1.1 hon (by
          intro g hg x hx
          rw [List.mem_append, List.mem_singleton] at hx
          rcases hx with hx | rfl
          · exact hln g (by simp [hg]) x hx
          · intro hsame
            obtain ⟨n, hn1, hn2⟩ := hpw.1 g hg hsame
            rw [← hns] at hn1
            obtain ⟨y, hy, rfl⟩ := List.mem_map.1 hn1
            exact hno y (by simp [hy]) hn2) hns hpw.2 (fun g hg => hok g (by simp [hg])) (by omega)
      refine ⟨k2, s2, t2, lo2, ln2, ?_, i2, ?_, i4, i5, i6, i7.trans hg1.2.2.2.1, i8⟩
      · rw [hrest k1]
        · exact i1
        · unfold addFile
          rw [g1, Outcome.ok_bind]
          exact g2
      · rw [i3, ← List.append_assoc, List.map_append]
        unfold withFiles
        rw [List.foldl_cons, store_absent]
        · rfl
        · intro p hp
          obtain ⟨x, hx, rfl⟩ := List.mem_map.1 hp
          exact hno x hx
    · -- one that is there
      have hxn : x ∉ ln := fun hx => hln f (by simp) x hx hs
      obtain ⟨a, rfl, rfl⟩ := split_old hls hxn
      obtain ⟨a1, a2, a3, a4⟩ := ho.ok x (by simp)
      have h' : Inv cd k s (l1 ++ x :: (a ++ ln)) := by
        rw [← hls]; exact h
      obtain ⟨k1, s1, g1, g2, g3, g4, g5⟩ := over_ok h' a2 a3 f hn hb hcr hs fuel hf (by rw [hpk]; simp only; omega)
      rw [hpk] at g4
      simp only at g4
      obtain ⟨t1, j1, j2, j3, j4⟩ := g5 s0 hp a1
      have hsep : ∀ z, z ∈ l1 ∨ z ∈ a → Sep z.1 x.1 := by
        have hp := h'.core.sep
        rw [List.pairwise_append, List.pairwise_cons] at hp
        intro z hz
        rcases hz with hz | hz
        · exact hp.2.2 z hz x (by simp)
        · exact sep_symm (hp.2.1.1 z (by simp [hz]))
      have hon : OnDisk cd t1 (l1 ++ (written x.1 f.created f.modified, (x.2.1, f.body)) :: a) m := by
        refine ⟨?_, ?_⟩
        · rw [j4 16 _ (Ne.symm a1.notDir.1) (Ne.symm a1.notDir.2) ho.dir]
          simp [fatBytes, written]
        · intro z hz
          have hz' : (z ∈ l1 ∨ z ∈ a) ∨ z = (written x.1 f.created f.modified, (x.2.1, f.body)) := by
            rw [List.mem_append, List.mem_cons] at hz
            rcases hz with hz | hz | hz
            · exact Or.inl (Or.inl hz)
            · exact Or.inr hz
            · exact Or.inl (Or.inr hz)
          rcases hz' with hz | rfl
          · obtain ⟨b1, b2, b3, b4⟩ := ho.ok z (by rcases hz with hz | hz <;> simp [hz])
            have hsp := hsep z hz
            exact ⟨ent_frame b1 (fun q hq => j4 _ _ (fun he => hsp _ b3.1 (Or.inl rfl) (Or.inl he)) (fun he => hsp _ b3.1 (Or.inl rfl) (Or.inr he)) hq)
              (fun q hq => j4 _ _ (fun he => hsp _ b3.2 (Or.inr rfl) (Or.inl he)) (fun he => hsp _ b3.2 (Or.inr rfl) (Or.inr he)) hq), b2, b3, b4⟩
          · exact ⟨j3, ⟨rfl, rfl⟩, a3, a4⟩
      have g2' : Inv cd k1 s1 ((l1 ++ (written x.1 f.created f.modified, (x.2.1, f.body)) :: a) ++ ln) := by
        rw [List.append_assoc]; exact g2
      obtain ⟨k2, s2, t2, lo2, ln2, i1, i2, i3, i4, i5, i6, i7, i8⟩ := ih k1 s1 t1 _ ln g2' j1 hon
        (fun g hg => hln g (by simp [hg])) (by rw [← hns]; simp) hpw.2 (fun g hg => hok g (by simp [hg])) (by omega)
      refine ⟨k2, s2, t2, lo2, ln2, ?_, i2, ?_, i4, i5, i6, i7.trans g3, i8⟩
      · rw [hrest k1 g1]; exact i1
      · rw [i3]
        unfold withFiles
        rw [List.foldl_cons]
        congr 1
        have e1 : ((l1 ++ x :: a) ++ ln).map Prod.snd = l1.map Prod.snd ++ x.2 :: (a ++ ln).map Prod.snd := by simp
        rw [e1, store_present _ _ _ _ _ ?_ hs]
        · simp
        intro p hp
        obtain ⟨y, hy, rfl⟩ := List.mem_map.1 hp
        exact h1 y hy

/-- With new names only, it is the same as before. -/
theorem withFiles_new (fs : List NewFile) : ∀ ps, AllNew ps fs → withFiles ps fs = withNew ps fs := by
  induction fs with
  | nil => intro ps _; simp [withFiles, withNew]
  | cons f fs ih =>
    intro ps ⟨h1, h2⟩
    rw [List.pairwise_cons] at h2
    unfold withFiles
    rw [List.foldl_cons, store_absent _ _ _ (h1 f (by simp))]
    have := ih (ps ++ [(f.name, f.body)]) ⟨by
      intro g hg p hp
      rw [List.mem_append, List.mem_singleton] at hp
      rcases hp with hp | rfl
      · exact h1 g (by simp [hg]) p hp
      · exact h2.1 g hg, h2.2⟩
    unfold withFiles at this
    rw [this]
    simp [withNew]

theorem lookup_mixed (ps qs rs : Contents) (h : qs.map Prod.fst = ps.map Prod.fst) (n : List Nat) :
    lookup qs n = if (lookup ps n).isSome then lookup (qs ++ rs) n else none := by
  induction ps generalizing qs with
  | nil =>
    cases qs with
    | nil => rfl
    | cons _ _ => cases h
  | cons p ps ih =>
    cases qs with
    | nil => cases h
    | cons q qs =>
      rw [List.map_cons, List.map_cons] at h
      injection h with h1 h2
      have := ih qs h2
      unfold lookup at this ⊢
      rw [List.cons_append, List.find?_cons, List.find?_cons, List.find?_cons, h1]
      by_cases hs : SameText p.1 n
      · simp [hs]
      · simp only [hs, decide_false]
        exact this

theorem first_word {d : Bytes} (h : d.take 4 = [0xff, 0xff, 0xff, 0x7f]) : rdWord 0xff d 0 = LAST := by
  have hg : ∀ i, i < 4 → d.getD i 0xff = (d.take 4).getD i 0xff := by
    intro i hi
    rw [List.getD_eq_getElem?_getD, List.getD_eq_getElem?_getD, List.getElem?_take_of_lt hi]
  unfold rdWord
  rw [hg 0 (by omega), hg (0 + 1) (by omega), hg (0 + 2) (by omega), hg (0 + 3) (by omega), h]
  decide

/-- **C118 (partial).** A container has any legal history from an empty stream on, and is flushed, with no free pages; then files are written,
new ones, each once, and ones that replace others, as often as one likes, and the process ends before the container is closed. The file that is
left opens without complaint as neither the old nor the new container: the files that are replaced have their new contents, the new ones are
gone. Missing: containers with free pages, new names written twice, contents that the codec cannot give back. -/
theorem replaced_kept_partial (cd : Codec) (fuel : Nat) (hf : LAST ≤ fuel) (ops : List UserOp)
    (hl : Allowed cd fuel blankCatalog (ops ++ [.flush])) :
    ∃ k, session cd fuel blankCatalog (ops ++ [.flush]) = .ok (some k) ∧
      ∀ fs m, (leftBehind k).take 4 = [0xff, 0xff, 0xff, 0x7f] →
        (fs.Pairwise fun f g => SameText f.name g.name → ∃ p ∈ ops.foldl after [], SameText p.1 f.name) →
        (∀ f ∈ fs, Name f.name ∧ Packs cd f.body ∧ f.created < 2 ^ 64) → (∀ e ∈ k.ents, headLen e ≤ m) →
        max (2 ^ 17) (leftBehind k).length + needs cd fs + fs.length * m < LAST →
        ∃ k' o, addFiles cd fuel k fs = .ok (some k') ∧
          (∀ n, Name n → content cd fuel k' (utf8Text n) = .ok (some (lookup (withFiles (ops.foldl after []) fs) n))) ∧
          openCatalog fuel (leftBehind k') = .ok (some (.container o)) ∧
          (∀ n, Name n → content cd fuel o (utf8Text n) =
            .ok (some (if (lookup (ops.foldl after []) n).isSome then lookup (withFiles (ops.foldl after []) fs) n else none))) ∧
          o.ents.length = (ops.foldl after []).length := by
  obtain ⟨hl1, hl2⟩ := allowed_split ops _ hl
  obtain ⟨k0, s0, ls0, e0, h0, hd0, hs0⟩ := session_ok fuel hf ops blankCatalog _ [] (blank_inv cd) (by decide) hl1
  obtain ⟨k, s, ls, e1, h1, hcl, hs1, _, hfm, hem, hx⟩ := flush_ok h0 (hl2 k0 e0) fuel hf
  have hsnd : ls.map Prod.snd = ops.foldl after [] := by rw [hs1, hs0]; rfl
  have hses : session cd fuel blankCatalog (ops ++ [.flush]) = .ok (some k) := by
    rw [session_split ops _ e0, session]
    unfold step
    simp only
    rw [e1]
    rfl
  refine ⟨k, hses, ?_⟩
  intro fs m hw hpw hok hm hd
  rcases h1.fat hfm with ⟨_, rfl⟩ | ⟨hdir, hlive⟩
  · have hnil : ops.foldl after [] = [] := by rw [← hsnd]; rfl
    obtain ⟨k2, j0, j⟩ := added_lost_partial cd fuel hf ops hl
    rw [hses] at j0
    cases j0
    rw [hnil] at j ⊢
    have hnew : AllNew [] fs := ⟨fun f _ p hp => (by cases hp), hpw.imp (by
      intro f g h hs
      obtain ⟨p, hp, _⟩ := h hs
      rw [hnil] at hp
      cases hp)⟩
    obtain ⟨k', o, j1, j2, j3, j4, j5⟩ := j fs hnew hok (by omega)
    refine ⟨k', o, j1, ?_, j3, ?_, j5⟩
    · intro n hn; rw [withFiles_new fs _ hnew]; exact j2 n hn
    · intro n hn; rw [j4 n hn]; rfl
  · rw [h1.core.ents] at hdir
    obtain ⟨k', s', t', lo', ln', i1, i2, i3, i4, i5, i6, i7, i8⟩ := mixed_ok fuel hf m (ls.map fun x => x.2.1) fs k s s ls [] (by rw [List.append_nil]; exact h1) h1.phys
      ⟨hdir, fun x hx => ⟨h1.core.ok x hx, hcl x hx, hlive x hx, hm _ (by rw [h1.core.ents]; exact List.mem_map.2 ⟨x, hx, rfl⟩)⟩⟩
      (fun _ _ x hx => by cases hx) rfl (hpw.imp (by
        intro f g h hs
        obtain ⟨p, hp, hsp⟩ := h hs
        rw [← hsnd] at hp
        obtain ⟨y, hy, rfl⟩ := List.mem_map.1 hp
        exact ⟨y.2.1, List.mem_map.2 ⟨y, hy, rfl⟩, hsp⟩)) hok hd
    rw [List.append_nil, hsnd] at i3
    have hr : Rep k'.cat t' := by
      rcases i5.2 with ⟨_, hb⟩ | ⟨hr, _⟩
      · have := i6.dir; rw [hb] at this; cases this
      · exact hr
    have hsub : lo'.Sublist (lo' ++ ln') := List.sublist_append_left _ _
    obtain ⟨o, l2, j1, j2, j3, j4⟩ := open_dir (cd := cd) i5 hr i6.dir (fun x hx => ⟨(i6.ok x hx).1, (i6.ok x hx).2.1⟩)
      (i2.core.sep.sublist hsub) (i2.core.names.sublist hsub) (by
        rw [rdWord_congr 0xff 0xff k.cat.data.data k'.cat.data.data 0 (by omega) (phys_length h1.phys) i7]
        exact first_word hw) i8 fuel hf
    refine ⟨k', o, i1, ?_, j1, ?_, ?_⟩
    · intro n hn
      rw [content_ok i2 i8 fuel hf n hn, i3]
    · intro n hn
      rw [content_core j2 i5 j4 i8 fuel hf n hn, j3]
      rw [lookup_mixed (ops.foldl after []) (lo'.map Prod.snd) (ln'.map Prod.snd) ?_ n, ← List.map_append, i3]
      rw [← hsnd, List.map_map, List.map_map]
      exact i4
    · have := congrArg List.length i4
      rw [List.length_map, List.length_map] at this
      have h3 := congrArg List.length j3
      rw [List.length_map, List.length_map] at h3
      rw [j2.ents, List.length_map, ← hsnd, List.length_map, h3, this]

/-! ### A case that meets the hypotheses -/

/-- One file is replaced twice, one is new. -/
def mixed : List NewFile := [⟨[0x41], 7, 8, 9, [9]⟩, ⟨[0x43], 7, 8, 9, [5, 6]⟩, ⟨[0x41], 7, 8, 9, [9, 9, 9, 9, 9]⟩]

example : Allowed plainCodec LAST blankCatalog (twoFiles ++ [.flush]) ∧ (mixed.Pairwise fun f g => SameText f.name g.name → ∃ p ∈ twoFiles.foldl after [], SameText p.1 f.name) ∧
    (∀ f ∈ mixed, Name f.name ∧ Packs plainCodec f.body ∧ f.created < 2 ^ 64) ∧ needs plainCodec mixed = 272 := by decide +kernel

example : (match session plainCodec LAST blankCatalog (twoFiles ++ [.flush]) with
    | .ok (some k) => decide ((leftBehind k).take 4 = [0xff, 0xff, 0xff, 0x7f]) && decide (∀ e ∈ k.ents, headLen e ≤ 30)
    | _ => false) = true := by decide +kernel

/-- What such a user is left with: one file is new, one is old, one is missing. -/
example : withFiles (twoFiles.foldl after []) mixed = [([0x41], [9, 9, 9, 9, 9]), ([0x42], [4]), ([0x43], [5, 6])] := by decide +kernel

end Verif.Container
