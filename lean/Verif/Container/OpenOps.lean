import Verif.Container.OpenFlush

/-! # Lemmas: storing, removing and reopening -/

namespace Verif.Container
open Verif Verif.Stream Verif.Container.Spec Verif.Unicode Verif.Unicode.Spec

/-! ## The specification on split lists -/

theorem store_absent (n : List Nat) (b : Bytes) (ps : Contents) (h : ∀ p ∈ ps, ¬ SameText p.1 n) : store n b ps = ps ++ [(n, b)] := by
  induction ps with
  | nil => rfl
  | cons p ps ih =>
    rw [store, if_neg (h p (by simp)), ih (fun q hq => h q (by simp [hq]))]
    rfl

theorem store_present (n : List Nat) (b : Bytes) (l1 l2 : Contents) (p : List Nat × Bytes) (h : ∀ q ∈ l1, ¬ SameText q.1 n)
    (hp : SameText p.1 n) : store n b (l1 ++ p :: l2) = l1 ++ (p.1, b) :: l2 := by
  induction l1 with
  | nil => rw [List.nil_append, store, if_pos hp]; rfl
  | cons q l1 ih =>
    rw [List.cons_append, store, if_neg (h q (by simp)), ih (fun q hq => h q (by simp [hq]))]
    rfl

theorem drop_absent (n : List Nat) (ps : Contents) (h : ∀ p ∈ ps, ¬ SameText p.1 n) : Spec.drop n ps = ps := by
  unfold Spec.drop
  rw [List.filter_eq_self]
  intro p hp
  simpa using h p hp

theorem drop_present (n : List Nat) (l1 l2 : Contents) (p : List Nat × Bytes) (h1 : ∀ q ∈ l1, ¬ SameText q.1 n)
    (h2 : ∀ q ∈ l2, ¬ SameText q.1 n) (hp : SameText p.1 n) : Spec.drop n (l1 ++ p :: l2) = l1 ++ l2 := by
  have e1 := drop_absent n l1 h1
  have e2 := drop_absent n l2 h2
  unfold Spec.drop at *
  rw [List.filter_append, e1, List.filter_cons_of_neg (by simpa using hp), e2]

theorem lookup_absent (n : List Nat) (ps : Contents) (h : ∀ p ∈ ps, ¬ SameText p.1 n) : lookup ps n = none := by
  unfold lookup
  rw [List.find?_eq_none.2 (by intro p hp; simpa using h p hp)]
  rfl

theorem lookup_present (n : List Nat) (l1 l2 : Contents) (p : List Nat × Bytes) (h : ∀ q ∈ l1, ¬ SameText q.1 n)
    (hp : SameText p.1 n) : lookup (l1 ++ p :: l2) n = some p.2 := by
  unfold lookup
  rw [List.find?_append, List.find?_eq_none.2 (by intro p hp; simpa using h p hp), List.find?_cons_of_pos (by simpa using hp)]
  rfl

/-! ## Reading -/

theorem content_ok {cd : Codec} {k : Catalog} {s : Store} {ls : Ghost} (h : Inv cd k s ls) (hd : extent k.cat < LAST)
    (fuel : Nat) (hf : LAST ≤ fuel) (n : List Nat) (hn : Name n) :
    content cd fuel k (utf8Text n) = .ok (some (lookup (ls.map Prod.snd) n)) := by
  unfold content
  rcases getFile_core h.core n hn with ⟨e, hno⟩ | ⟨l1, x, l2, rfl, e, hs, h1, h2⟩
  · rw [e, Outcome.ok_bind, lookup_absent]
    intro p hp
    obtain ⟨x, hx, rfl⟩ := List.mem_map.1 hp
    exact hno x hx
  · rw [e, Outcome.ok_bind]
    simp only
    rw [openFile_ok h.phys (h.core.ok x (by simp)) hd fuel (by omega), Outcome.ok_bind]
    simp only
    rw [List.map_append, List.map_cons, lookup_present n _ _ x.2 _ hs]
    intro p hp
    obtain ⟨y, hy, rfl⟩ := List.mem_map.1 hp
    exact h1 y hy

/-! ## Storing -/

theorem update_last {es : List File} {e e' : File} (h : ∀ x ∈ es, x.id ≠ e'.id) (he : e.id = e'.id) :
    update (es ++ [e]) e' = es ++ [e'] := by
  unfold update
  rw [List.map_append, List.map_cons, List.map_nil, if_pos he]
  congr 1
  conv => rhs; rw [← List.map_id es]
  refine List.map_congr_left ?_
  intro x hx
  rw [if_neg (h x hx)]; rfl

theorem put_ok {cd : Codec} {k : Catalog} {s : Store} {ls : Ghost} (h : Inv cd k s ls) (hd : extent k.cat < LAST)
    (fuel : Nat) (hf : LAST ≤ fuel) (n : List Nat) (hn : Name n) (b : Bytes) (hb : Packs cd b) (now : Nat) (hnow : now < 2 ^ 64) :
    ∃ k' ls', put cd fuel k (utf8Text n) b now = .ok (some k') ∧ Inv cd k' s ls' ∧
      ls'.map Prod.snd = store n b (ls.map Prod.snd) ∧ k'.cat = k.cat := by
  unfold put createFile
  rcases getFile_core h.core n hn with ⟨e, hno⟩ | ⟨l1, x, l2, rfl, e, hs, h1, h2⟩
  · rw [e]
    simp only [Outcome.ok_bind]
    have hpad : padded n 0 = n := by simp [padded]
    have hok : EntOk cd s ⟨k.fresh, utf8Text n, now, now, 0, 0, some b, true, true⟩ (n, b) :=
      ⟨⟨0, by rw [hpad]⟩, hn, hnow, fun b' hb' => (Option.some.inj hb').symm, fun hc => by simp at hc, hb, Or.inl rfl, Or.inl rfl,
        fun hm => by simp at hm, fun hm => by simp at hm, fun h => absurd rfl h, ⟨by simp, by simp⟩⟩
    obtain ⟨k1, e1, hc1, hcat, _, _, _⟩ := addEntry_core h.core _ _ hok rfl
      (fun x hx a ha _ h2 => by
        rcases h2 with h2 | h2
        · exact ha h2
        · exact ha h2) hno
    have hkey : ∀ f : File, f.name = utf8Text n → addEntry k f =
        .ok { k with ents := k.ents ++ [f], files := Entry.assign k.files (key n) f.id, fresh := k.fresh + 1 } := by
      intro f hfn
      unfold addEntry
      rw [hfn, lower_name hn, Outcome.ok_bind]
    rw [hkey _ rfl] at e1 ⊢
    cases e1
    refine ⟨{ k with ents := k.ents ++ [⟨k.fresh, utf8Text n, now, now, 0, 0, some b, true, true⟩],
                     files := Entry.assign k.files (key n) k.fresh, fresh := k.fresh + 1, fatMod := true },
      ls ++ [(⟨k.fresh, utf8Text n, now, now, 0, 0, some b, true, true⟩, (n, b))], ?_, ⟨?_, ?_, ?_, ?_, ?_, ?_⟩, ?_, rfl⟩
    · simp only [Outcome.ok_bind]
      unfold writeFile openFile readData
      simp only [if_true, Outcome.ok_bind]
      have hup : update (k.ents ++ [⟨k.fresh, utf8Text n, now, now, 0, 0, none, true, true⟩])
          ⟨k.fresh, utf8Text n, now, now, 0, 0, some b, true, true⟩ =
          k.ents ++ [⟨k.fresh, utf8Text n, now, now, 0, 0, some b, true, true⟩] := by
        refine update_last ?_ rfl
        intro y hy
        rw [h.core.ents] at hy
        obtain ⟨w, hw, rfl⟩ := List.mem_map.1 hy
        have := h.core.fresh w hw
        simp only
        omega
      rw [replaceAll_ok, Outcome.ok_bind, hup]
    · exact ⟨hc1.ents, hc1.ok, hc1.sep, hc1.ids, hc1.fresh, hc1.names, hc1.files⟩
    · exact h.phys
    · exact h.blank
    · intro hm; simp at hm
    · exact h.page
    · exact h.next
    · rw [store_absent]
      · simp
      · intro p hp
        obtain ⟨x, hx, rfl⟩ := List.mem_map.1 hp
        exact hno x hx
  · have hx := h.core.ok x (by simp)
    rw [e]
    simp only [Outcome.ok_bind]
    unfold writeFile
    rw [openFile_ok h.phys hx hd fuel (by omega), Outcome.ok_bind]
    simp only
    rw [replaceAll_ok, Outcome.ok_bind]
    have hents : update k.ents { x.1 with content := some b, modified := now, headerMod := true, dataMod := true } =
        (l1 ++ ({ x.1 with content := some b, modified := now, headerMod := true, dataMod := true }, (x.2.1, b)) :: l2).map Prod.fst := by
      rw [h.core.ents]
      refine (update_at h.core.ids { x.1 with content := some b, modified := now, headerMod := true, dataMod := true } rfl).trans ?_
      simp
    have hsepx : ∀ z, z ∈ l1 ∨ z ∈ l2 → Sep z.1 x.1 := by
      have hp := h.core.sep
      rw [List.pairwise_append, List.pairwise_cons] at hp
      intro z hz
      rcases hz with hz | hz
      · exact hp.2.2 z hz x (by simp)
      · exact sep_symm (hp.2.1.1 z hz)
    have hcore := replace_core (s' := s) (y := ({ x.1 with content := some b, modified := now, headerMod := true, dataMod := true }, (x.2.1, b))) h.core
      ⟨hx.name, hx.isName, hx.created, fun b' hb' => (Option.some.inj hb').symm, fun hc => by simp at hc, hb, hx.dataLive, hx.headLive,
        fun hm => by simp at hm, fun hm => by simp at hm, hx.apart, hx.notDir⟩ rfl rfl
      (fun z hz => ⟨hsepx z hz, h.core.ok z (by rcases hz with hz | hz <;> simp [hz])⟩) k.cat
    refine ⟨{ k with ents := update k.ents { x.1 with content := some b, modified := now, headerMod := true, dataMod := true } },
      l1 ++ ({ x.1 with content := some b, modified := now, headerMod := true, dataMod := true }, (x.2.1, b)) :: l2, rfl, ⟨?_, h.phys, h.blank, ?_, h.page, h.next⟩, ?_, rfl⟩
    · rw [hents]; exact hcore
    · intro hfm
      rcases h.fat hfm with ⟨_, hl⟩ | ⟨h3, h4⟩
      · exact absurd hl (by simp)
      · right
        refine ⟨?_, ?_⟩
        · simp only
          rw [hents, h3, h.core.ents]
          simp [fatBytes]
        · intro z hz
          rw [List.mem_append, List.mem_cons] at hz
          rcases hz with hz | rfl | hz
          · exact h4 z (by simp [hz])
          · exact h4 x (by simp)
          · exact h4 z (by simp [hz])
    · rw [List.map_append, List.map_cons, List.map_append, List.map_cons, store_present n b _ _ x.2 _ hs]
      intro p hp
      obtain ⟨y, hy, rfl⟩ := List.mem_map.1 hp
      exact h1 y hy

/-! ## Removing -/

theorem filter_split {l1 l2 : Ghost} {x : File × (List Nat × Bytes)} (h : (l1 ++ x :: l2).Pairwise fun x y => x.1.id ≠ y.1.id) :
    ((l1 ++ x :: l2).map Prod.fst).filter (fun y => y.id ≠ x.1.id) = (l1 ++ l2).map Prod.fst := by
  rw [List.pairwise_append, List.pairwise_cons] at h
  rw [List.map_append, List.map_cons, List.filter_append, List.filter_cons_of_neg (by simp), List.map_append]
  congr 1
  · rw [List.filter_eq_self]
    intro y hy
    obtain ⟨z, hz, rfl⟩ := List.mem_map.1 hy
    simpa using h.2.2 z hz x (by simp)
  · rw [List.filter_eq_self]
    intro y hy
    obtain ⟨z, hz, rfl⟩ := List.mem_map.1 hy
    simpa using Ne.symm (h.2.1.1 z hz)

theorem remove_ok {cd : Codec} {k : Catalog} {s : Store} {ls : Ghost} (h : Inv cd k s ls) (hd : extent k.cat < LAST)
    (fuel : Nat) (hf : LAST ≤ fuel) (n : List Nat) (hn : Name n) :
    ∃ k' s' ls', remove fuel k (utf8Text n) = .ok (some k') ∧ Inv cd k' s' ls' ∧
      ls'.map Prod.snd = Spec.drop n (ls.map Prod.snd) ∧ extent k'.cat = extent k.cat := by
  unfold remove
  rcases getFile_core h.core n hn with ⟨e, hno⟩ | ⟨l1, x, l2, rfl, e, hs, h1, h2⟩
  · rw [e, Outcome.ok_bind]
    refine ⟨k, s, ls, rfl, h, ?_, rfl⟩
    rw [drop_absent]
    intro p hp
    obtain ⟨x, hx, rfl⟩ := List.mem_map.1 hp
    exact hno x hx
  · have hx := h.core.ok x (by simp)
    rw [e, Outcome.ok_bind]
    simp only
    unfold deleteFile
    have hlen : k.cat.data.data.length < LAST := by unfold extent at hd; omega
    have hs0 := phys_zero h.phys hlen
    obtain ⟨c1, e1, hp1, hps1, hsl1, ht1, hx1⟩ := phys_free k.cat s h.phys x.1.data (by
      rcases hx.dataLive with h0 | h0
      · exact Or.inl h0
      · exact Or.inr ⟨hx.notDir.1, h0⟩) hs0 hd fuel (by omega)
    have hs01 : (s.set x.1.data none) 0 = none := by
      unfold Store.set; split
      · rfl
      · exact hs0
    obtain ⟨c2, e2, hp2, hps2, hsl2, ht2, hx2⟩ := phys_free c1 (s.set x.1.data none) hp1 x.1.header (by
      by_cases h0 : x.1.header = 0
      · exact Or.inl h0
      · rcases hx.headLive with h3 | ⟨q, h3, h4⟩
        · exact absurd h3 h0
        · refine Or.inr ⟨hx.notDir.2, q, ?_, h4⟩
          unfold Store.set
          rw [if_neg, h3]
          intro he
          exact hx.apart (by rw [← he]; exact h0) he.symm) hs01 (by omega) fuel (by omega)
    obtain ⟨z, hz⟩ := hx.name
    refine ⟨{ k with cat := c2, ents := k.ents.filter (fun y => y.id ≠ x.1.id), files := Entry.erase k.files (key x.2.1), fatMod := true },
      (s.set x.1.data none).set x.1.header none, l1 ++ l2, ?_, ⟨⟨?_, ?_, ?_, ?_, ?_, ?_, ?_⟩, hp2, ?_, ?_, ?_, ?_⟩, ?_, hx2.trans hx1⟩
    · rw [e1, Outcome.ok_bind]
      simp only
      rw [e2, Outcome.ok_bind]
      simp only
      rw [hz, lower_padded hx.isName z, Outcome.ok_bind]
    · show k.ents.filter _ = _
      rw [h.core.ents, filter_split h.core.ids]
    · intro y hy
      have hy' : y ∈ l1 ∨ y ∈ l2 := List.mem_append.1 hy
      have hyok := h.core.ok y (by rcases hy' with hy | hy <;> simp [hy])
      have hsep : Sep y.1 x.1 := by
        have hp := h.core.sep
        rw [List.pairwise_append, List.pairwise_cons] at hp
        rcases hy' with hy | hy
        · exact hp.2.2 y hy x (by simp)
        · exact sep_symm (hp.2.1.1 y hy)
      have hkeep : ∀ a q, s a = some q → (a = y.1.data ∨ a = y.1.header) → ((s.set x.1.data none).set x.1.header none) a = some q := by
        intro a q hq ha
        have ha0 : a ≠ 0 := by intro h0; rw [h0, hs0] at hq; cases hq
        unfold Store.set
        rw [if_neg (fun he => hsep a ha0 ha (Or.inr he)), if_neg (fun he => hsep a ha0 ha (Or.inl he)), hq]
      exact ent_frame hyok (fun q hq => hkeep _ q hq (Or.inl rfl)) (fun q hq => hkeep _ q hq (Or.inr rfl))
    · exact h.core.sep.sublist (by simp)
    · exact h.core.ids.sublist (by simp)
    · intro y hy
      exact h.core.fresh y (by rcases List.mem_append.1 hy with hy | hy <;> simp [hy])
    · exact h.core.names.sublist (by simp)
    · intro q id
      show Entry.find (Entry.erase k.files (key x.2.1)) q = some id ↔ _
      rw [Entry.find_erase]
      have hkx : ∀ y, y ∈ l1 ∨ y ∈ l2 → key y.2.1 ≠ key x.2.1 := by
        intro y hy hk
        have hyok := h.core.ok y (by rcases hy with hy | hy <;> simp [hy])
        have hp := h.core.names
        rw [List.pairwise_append, List.pairwise_cons] at hp
        rcases hy with hy | hy
        · exact hp.2.2 y hy x (by simp) ((key_same hyok.isName hx.isName).1 hk)
        · exact hp.2.1.1 y hy ((key_same hx.isName hyok.isName).1 hk.symm)
      by_cases hq : q = key x.2.1
      · rw [if_pos hq]
        constructor
        · intro hi; cases hi
        · rintro ⟨y, hy, _, h4⟩
          exact absurd (h4.trans hq) (hkx y (List.mem_append.1 hy))
      · rw [if_neg hq, h.core.files]
        constructor
        · rintro ⟨y, hy, h3, h4⟩
          rw [List.mem_append, List.mem_cons] at hy
          rcases hy with hy | rfl | hy
          · exact ⟨y, by simp [hy], h3, h4⟩
          · exact absurd h4.symm hq
          · exact ⟨y, by simp [hy], h3, h4⟩
        · rintro ⟨y, hy, h3, h4⟩
          exact ⟨y, by rcases List.mem_append.1 hy with hy | hy <;> simp [hy], h3, h4⟩
    · intro h16
      simp only at h16
      rcases h.phys.2 with ⟨hb, hsb⟩ | ⟨hr, ⟨f, hf16⟩, _⟩
      · have hd0 : x.1.data = 0 := by
          rcases hx.dataLive with h0 | ⟨q, h0, _⟩
          · exact h0
          · rw [hsb] at h0; cases h0
        have hh0 : x.1.header = 0 := by
          rcases hx.headLive with h0 | ⟨q, h0, _⟩
          · exact h0
          · rw [hsb] at h0; cases h0
        rw [hd0] at e1
        rw [hh0] at e2
        unfold freeBlock at e1 e2
        rw [if_pos (Or.inl rfl)] at e1 e2
        cases e1
        cases e2
        exact h.blank h16
      · have hl := rep_long hr
        rcases hp2.2 with ⟨_, hs2⟩ | ⟨hr2, _⟩
        · have : ((s.set x.1.data none).set x.1.header none) 16 = some f := by
            unfold Store.set
            rw [if_neg (Ne.symm hx.notDir.2), if_neg (Ne.symm hx.notDir.1), hf16]
          rw [hs2] at this; cases this
        · have := rep_long hr2
          omega
    · intro hm; simp at hm
    · simp only
      rw [rdWord_congr 0 0 c1.data.data c2.data.data 4 (by omega) (phys_length hp1) hsl2,
        rdWord_congr 0 0 k.cat.data.data c1.data.data 4 (by omega) (phys_length h.phys) hsl1, h.page, hps2, hps1]
    · intro hem
      obtain ⟨h3, h4⟩ := ht2 hem
      obtain ⟨h5, h6⟩ := ht1 h3
      simp only
      rw [rdWord_congr 0 0 c1.data.data c2.data.data 0 (by omega) (phys_length hp1) hsl2,
        rdWord_congr 0 0 k.cat.data.data c1.data.data 0 (by omega) (phys_length h.phys) hsl1, h.next h5, h4, h6]
    · rw [List.map_append, List.map_append, List.map_cons, drop_present n _ _ x.2 _ _ hs]
      · intro p hp
        obtain ⟨y, hy, rfl⟩ := List.mem_map.1 hp
        exact h1 y hy
      · intro p hp
        obtain ⟨y, hy, rfl⟩ := List.mem_map.1 hp
        exact h2 y hy

/-! ## Reopening -/

/-- What reopening keeps of an entry. -/
def shape (x : File × (List Nat × Bytes)) : Nat × Nat × (List Nat × Bytes) := (x.1.data, x.1.header, x.2)

theorem shape_mem {l l' : Ghost} (h : l'.map shape = l.map shape) (x : File × (List Nat × Bytes)) (hx : x ∈ l') :
    ∃ y ∈ l, shape y = shape x := by
  have : shape x ∈ l'.map shape := List.mem_map.2 ⟨x, hx, rfl⟩
  rw [h] at this
  obtain ⟨y, hy, he⟩ := List.mem_map.1 this
  exact ⟨y, hy, he⟩

theorem sep_shape {a a' : File × (List Nat × Bytes)} {b b' : File} (h : shape a = shape a') (hd : b.data = b'.data)
    (hh : b.header = b'.header) (hs : Sep a.1 b) : Sep a'.1 b' := by
  unfold shape at h
  injection h with h1 h2
  injection h2 with h2 h3
  intro x hx hxa hxb
  exact hs x hx (by rw [h1, h2]; exact hxa) (by rw [hd, hh]; exact hxb)

theorem addr_range {c : Cat} {s : Store} (h : Phys c s) (hd : c.data.data.length < LAST) {a : Nat} {q : Bytes} (ha : s a = some q) :
    a < 2 ^ 32 ∧ a ≠ 0 ∧ Rep c s := by
  have hLd : LAST = 2147483647 := rfl
  rcases h.2 with ⟨_, rfl⟩ | ⟨hr, _⟩
  · cases ha
  · have := rep_range hr hd _ _ ha
    exact ⟨by omega, by omega, hr⟩

theorem loadLoop_ok {cd : Codec} {c : Cat} {s : Store} (hp : Phys c s) (hd : c.data.data.length < LAST) (fuel : Nat) (hf : LAST ≤ fuel)
    (rest : Ghost) : ∀ (done done' : Ghost) (k : Catalog), Core cd k s done' → done'.map shape = done.map shape → done'.map made = done.map made →
    (∀ x ∈ rest, EntOk cd s x.1 x.2 ∧ Clean x.1) → (done ++ rest).Pairwise (fun x y => Sep x.1 y.1) →
    (done ++ rest).Pairwise (fun x y => ¬ SameText x.2.1 y.2.1) →
    ∃ k' ls', loadLoop fuel c.data rest.length (fatBytes (rest.map Prod.fst)) k = .ok (some (.container k')) ∧ Core cd k' s ls' ∧
      ls'.map shape = (done ++ rest).map shape ∧ ls'.map made = (done ++ rest).map made ∧ k'.cat = k.cat ∧ k'.fatMod = k.fatMod := by
  induction rest with
  | nil =>
    intro done done' k hc hs hm _ _ _
    exact ⟨k, done', rfl, hc, by rw [List.append_nil]; exact hs, by rw [List.append_nil]; exact hm, rfl, rfl⟩
  | cons x rest ih =>
    intro done done' k hc hs hmd hok hsep hnames
    obtain ⟨hx, hcl⟩ := hok x (by simp)
    obtain ⟨q, hq, hun⟩ := hx.dataClean hcl.1
    obtain ⟨hb, z, m, hhb, hhe⟩ := hx.headClean hcl.2
    obtain ⟨hdr, hdne, _⟩ := addr_range hp hd hq
    obtain ⟨hhr, hhne, hr⟩ := addr_range hp hd hhb
    obtain ⟨pp, hrd⟩ := block_reads c s hr hd _ _ hhb fuel (by omega)
    obtain ⟨hb', hhe', _, hparse⟩ := header_ok hx.isName z x.1.created m
    rw [hhe] at hhe'
    cases hhe'
    have hparse := hparse hx.created
    have hfat : fatBytes ((x :: rest).map Prod.fst) = (word32 x.1.header ++ word32 x.1.data ++ word32 LAST) ++ fatBytes (rest.map Prod.fst) := rfl
    have h12 : (word32 x.1.header ++ word32 x.1.data ++ word32 LAST).length = 12 := rfl
    have htake : (fatBytes ((x :: rest).map Prod.fst)).take 12 = word32 x.1.header ++ word32 x.1.data ++ word32 LAST := by
      rw [hfat, List.take_append_of_le_length (by omega), List.take_of_length_le (by omega)]
    have hdrop : (fatBytes ((x :: rest).map Prod.fst)).drop 12 = fatBytes (rest.map Prod.fst) := by
      rw [hfat, List.drop_append_of_le_length (by omega), List.drop_eq_nil_of_le (by omega)]; rfl
    have hw0 : rdWord 0 (word32 x.1.header ++ word32 x.1.data ++ word32 LAST) 0 = x.1.header := by
      rw [List.append_assoc, rdWord_word32 0 _ hhr]
    have hw4 : rdWord 0 (word32 x.1.header ++ word32 x.1.data ++ word32 LAST) 4 = x.1.data := by
      rw [List.append_assoc]
      rw [show (4 : Nat) = 4 + 0 from rfl, rdWord_skip 0 (word32 x.1.header) 4 0 _ rfl, rdWord_word32 0 _ hdr]
    let e : File := ⟨k.fresh, utf8Text (padded x.2.1 (z + 2)), x.1.created, (x.1.created + 8) % 2 ^ 64, x.1.header, x.1.data, none, false, false⟩
    have hload : loadEntry fuel c.data ((fatBytes ((x :: rest).map Prod.fst)).take 12) k.fresh = .ok (some e) := by
      unfold loadEntry
      rw [htake, hw0, hw4, hrd, Outcome.ok_bind]
      simp only
      rw [hparse, Outcome.ok_bind]
      simp only [hdne, hhne, decide_false]
      rfl
    have heok : EntOk cd s e x.2 :=
      ⟨⟨z + 2, rfl⟩, hx.isName, hx.created, fun b hb => (by cases hb), fun _ => ⟨rfl, rfl⟩, hx.packs, hx.dataLive, hx.headLive,
        fun _ => ⟨q, hq, hun⟩, fun _ => ⟨hb, z, m, hhb, hhe⟩, hx.apart, hx.notDir⟩
    have hsx : ∀ y ∈ done', Sep y.1 e := by
      intro y hy
      obtain ⟨w, hw, he⟩ := shape_mem hs y hy
      exact sep_shape he rfl rfl ((List.pairwise_append.1 hsep).2.2 w hw x (by simp))
    have hnx : ∀ y ∈ done', ¬ SameText y.2.1 x.2.1 := by
      intro y hy
      obtain ⟨w, hw, he⟩ := shape_mem hs y hy
      have := (List.pairwise_append.1 hnames).2.2 w hw x (by simp)
      have hw2 : w.2 = y.2 := congrArg (fun t => t.2.2) he
      rw [← hw2]; exact this
    obtain ⟨k1, e1, hc1, hcat1, hfm1, _, _⟩ := addEntry_core hc e x.2 heok rfl hsx hnx
    have hassoc : done ++ x :: rest = (done ++ [x]) ++ rest := by simp
    rw [hassoc] at hsep hnames
    obtain ⟨k2, ls2, h1, h2, h3, h6, h4, h5⟩ := ih (done ++ [x]) (done' ++ [(e, x.2)]) k1 hc1
      (by rw [List.map_append, List.map_append, hs]; rfl) (by rw [List.map_append, List.map_append, hmd]; rfl) (fun y hy => hok y (by simp [hy])) hsep hnames
    refine ⟨k2, ls2, ?_, h2, by rw [h3, hassoc], by rw [h6, hassoc], h4.trans hcat1, h5.trans hfm1⟩
    rw [List.length_cons, loadLoop, hload]
    simp only
    rw [e1]
    simp only
    rw [hdrop]; exact h1

theorem shape_snd {l l' : Ghost} (h : l'.map shape = l.map shape) : l'.map Prod.snd = l.map Prod.snd := by
  have := congrArg (List.map (fun t : Nat × Nat × (List Nat × Bytes) => t.2.2)) h
  rw [List.map_map, List.map_map] at this
  exact this

theorem shape_fat {l l' : Ghost} (h : l'.map shape = l.map shape) : fatBytes (l'.map Prod.fst) = fatBytes (l.map Prod.fst) := by
  have := congrArg (List.flatMap (fun t : Nat × Nat × (List Nat × Bytes) => word32 t.2.1 ++ word32 t.1 ++ word32 LAST)) h
  rw [List.flatMap_map, List.flatMap_map] at this
  unfold fatBytes
  rw [List.flatMap_map, List.flatMap_map]
  exact this

/-- Opening the stream of a container that has just been flushed. -/
theorem open_ok {cd : Codec} {k : Catalog} {s : Store} {ls : Ghost} (h : Inv cd k s ls) (hcl : ∀ x ∈ ls, Clean x.1)
    (hfm : k.fatMod = false) (hem : k.cat.emptyMod = false) (hd : extent k.cat < LAST) (fuel : Nat) (hf : LAST ≤ fuel) :
    ∃ k' ls', openCatalog fuel k.cat.data.data = .ok (some (.container k')) ∧ Inv cd k' s ls' ∧
      ls'.map Prod.snd = ls.map Prod.snd ∧ ls'.map made = ls.map made ∧ extent k'.cat = extent k.cat := by
  have hlen := phys_length h.phys
  have hlt : k.cat.data.data.length < LAST := by unfold extent at hd; omega
  have hnx := h.next hem
  unfold openCatalog
  simp only
  rw [if_neg (by omega)]
  -- the container as it is before the directory is read
  have hphys : ∀ c : Cat, c.data.data = k.cat.data.data → c.next = k.cat.next → c.pageSize = k.cat.pageSize → Phys c s :=
    fun c h1 h2 h3 => phys_outside (by rw [h1]) h2 h3 (fun _ _ _ => by rw [h1]) h.phys
  rcases h.phys.2 with ⟨hb, hsb⟩ | ⟨hr, ⟨f, hf16⟩, hroom⟩
  · have ht := (h.blank hb.size).1
    have hl : ls = [] := by
      rcases h.fat hfm with ⟨_, hl⟩ | ⟨h16, _⟩
      · exact hl
      · rw [hsb] at h16; cases h16
    subst hl
    rw [ht]
    refine ⟨⟨⟨⟨template, 16⟩, rdWord 0 template 0, rdWord 0 template 4, false, false⟩, rdWord 0 template 8, [], [], false, 0⟩, [], by
        have : isCatalog template = .ok true := by decide
        rw [this]; rfl, ⟨⟨rfl, by simp, by simp, by simp, by simp, by simp, ?_⟩, ?_, ?_, ?_, rfl, fun _ => rfl⟩, rfl, rfl, ?_⟩
    · intro q id
      constructor
      · intro hq; cases hq
      · rintro ⟨x, hx, _⟩; cases hx
    · refine hphys _ ht.symm ?_ ?_
      · simp only; rw [← ht]; exact hnx
      · simp only; rw [← ht]; exact h.page
    · intro _; exact ⟨rfl, rfl, rfl⟩
    · intro _
      left
      exact ⟨⟨by rfl, by rfl, by decide⟩, rfl⟩
    · unfold extent; rw [ht]
  · have hlong := rep_long hr
    have hfat : s 16 = some (fatBytes k.ents) ∧ ∀ x ∈ ls, x.1.data ≠ 0 ∧ x.1.header ≠ 0 := by
      rcases h.fat hfm with ⟨hb, _⟩ | h16
      · have := hb.size; omega
      · exact h16
    rw [recognised k.cat s hr hlt f hf16 (by
      rw [rdWord_congr 0xff 0 k.cat.data.data k.cat.data.data 0 (by omega) (by omega) rfl]; exact hnx), Outcome.ok_bind, if_pos rfl]
    unfold initCatalog
    simp only
    rw [if_pos (by omega)]
    let c0 : Cat := ⟨⟨k.cat.data.data, 16⟩, rdWord 0 k.cat.data.data 0, rdWord 0 k.cat.data.data 4, false, false⟩
    have hp0 : Phys c0 s := hphys c0 rfl hnx h.page
    have hr0 : Rep c0 s := rep_outside (c := k.cat) rfl hnx (fun _ _ _ => rfl) hr
    obtain ⟨pp, hrd⟩ := block_reads c0 s hr0 hlt 16 _ hfat.1 fuel (show c0.data.data.length < fuel by
      show k.cat.data.data.length < fuel; omega)
    have hrd' : readBlock fuel ⟨k.cat.data.data, 16⟩ 16 = .ok (some ⟨fatBytes k.ents, pp⟩) := hrd
    rw [hrd']
    simp only
    rw [fatBytes_length, Nat.mul_div_cancel_left _ (by omega), h.core.ents, List.length_map]
    obtain ⟨k', ls', h1, h2, h3, h6, h4, h5⟩ := loadLoop_ok (cd := cd) hp0 hlt fuel hf ls [] []
      ⟨c0, rdWord 0 k.cat.data.data 8, [], [], false, 0⟩ ⟨rfl, by simp, by simp, by simp, by simp, by simp, by
        intro q id
        constructor
        · intro hq; cases hq
        · rintro ⟨x, hx, _⟩; cases hx⟩ rfl rfl (fun x hx => ⟨h.core.ok x hx, hcl x hx⟩) h.core.sep h.core.names
    rw [List.nil_append] at h3 h6
    simp only at h4 h5
    refine ⟨k', ls', h1, ⟨h2, by rw [h4]; exact hp0, ?_, ?_, by rw [h4], fun _ => by rw [h4]⟩, shape_snd h3, h6, by rw [h4]; rfl⟩
    · intro h16
      rw [h4] at h16
      have : k.cat.data.data.length = 16 := h16
      omega
    · intro _
      right
      refine ⟨by rw [hfat.1, h2.ents, shape_fat h3, h.core.ents], ?_⟩
      intro x hx
      obtain ⟨y, hy, he⟩ := shape_mem h3 x hx
      have := hfat.2 y hy
      unfold shape at he
      injection he with e1 e2
      injection e2 with e2 _
      rw [← e1, ← e2]; exact this

theorem reopen_ok {cd : Codec} {k : Catalog} {s : Store} {ls : Ghost} (h : Inv cd k s ls)
    (hd : extent k.cat + flushCost cd k < LAST) (fuel : Nat) (hf : LAST ≤ fuel) :
    ∃ k' s' ls', reopen cd fuel k = .ok (some (.container k')) ∧ Inv cd k' s' ls' ∧ ls'.map Prod.snd = ls.map Prod.snd ∧
      ls'.map made = ls.map made ∧ extent k'.cat < LAST := by
  obtain ⟨k1, s1, ls1, e1, h1, hcl, hs1, hm1, hf1, hem1, hx1⟩ := flush_ok h hd fuel hf
  obtain ⟨k2, ls2, e2, h2, hs2, hm2, hx2⟩ := open_ok h1 hcl hf1 hem1 hx1 fuel hf
  refine ⟨k2, s1, ls2, ?_, h2, hs2.trans hs1, hm2.trans hm1, by omega⟩
  unfold reopen
  rw [e1, Outcome.ok_bind]
  exact e2

end Verif.Container
