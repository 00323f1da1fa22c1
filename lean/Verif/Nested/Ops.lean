import Verif.Nested.Lemmas

/-! # Lemmas: opening, storing and reading with inner containers -/

namespace Verif.Nested
open Verif Verif.Stream Verif.Container Verif.Container.Spec Verif.Nested.Spec Verif.Unicode Verif.Unicode.Spec

/-- The open container with its inner ones is the tree. -/
def NodeOk (cd : Codec) (fuel : Nat) (n : Node) (t : Tree) : Prop :=
  ∃ s ls, Inv cd n.k s ls ∧ extent n.k.cat < LAST ∧ Rel fuel t n.subs (ls.map Prod.snd)

/-! ## One entry of the chain -/

/-- An entry is replaced by one with the same blocks. -/
theorem swap_inv {cd : Codec} {k : Catalog} {s : Store} {l1 l2 : Ghost} {x : File × (List Nat × Bytes)} (h : Inv cd k s (l1 ++ x :: l2))
    (e : File) (b : Bytes) (hid : e.id = x.1.id) (hda : e.data = x.1.data) (hhe : e.header = x.1.header) (hok : EntOk cd s e (x.2.1, b)) :
    Inv cd { k with ents := (l1 ++ (e, (x.2.1, b)) :: l2).map Prod.fst } s (l1 ++ (e, (x.2.1, b)) :: l2) := by
  have hsepx : ∀ z, z ∈ l1 ∨ z ∈ l2 → Sep z.1 x.1 := by
    have hp := h.core.sep
    rw [List.pairwise_append, List.pairwise_cons] at hp
    intro z hz
    rcases hz with hz | hz
    · exact hp.2.2 z hz x (by simp)
    · exact sep_symm (hp.2.1.1 z hz)
  have hcore := replace_core (s' := s) (y := (e, (x.2.1, b))) h.core hok hid rfl
    (fun z hz => ⟨fun a h0 h1 h2 => hsepx z hz a h0 h1 (by simp only at h2; rw [hda, hhe] at h2; exact h2),
      h.core.ok z (by rcases hz with hz | hz <;> simp [hz])⟩) k.cat
  refine ⟨hcore, h.phys, h.blank, ?_, h.page, h.next⟩
  intro hfm
  rcases h.fat hfm with ⟨_, hl⟩ | ⟨h3, h4⟩
  · exact absurd hl (by simp)
  · right
    refine ⟨?_, ?_⟩
    · simp only
      rw [h3, h.core.ents]
      simp [fatBytes, hda, hhe]
    · intro z hz
      rw [List.mem_append, List.mem_cons] at hz
      rcases hz with hz | rfl | hz
      · exact h4 z (by simp [hz])
      · simp only; rw [hda, hhe]; exact h4 x (by simp)
      · exact h4 z (by simp [hz])

theorem place_at {k : Catalog} {l1 l2 : Ghost} {x : File × (List Nat × Bytes)} (h : k.ents = (l1 ++ x :: l2).map Prod.fst)
    (hid : (l1 ++ x :: l2).Pairwise fun x y => x.1.id ≠ y.1.id) (e : File) (he : e.id = x.1.id) : place k e = l1.length := by
  unfold place
  rw [h, List.map_append, List.map_cons, List.findIdx_append]
  have h1 : (l1.map Prod.fst).findIdx (fun y => decide (y.id = e.id)) = (l1.map Prod.fst).length := by
    rw [List.findIdx_eq_length]
    intro y hy
    obtain ⟨z, hz, rfl⟩ := List.mem_map.1 hy
    rw [List.pairwise_append] at hid
    have := hid.2.2 z hz x (by simp)
    rw [he]
    simpa using this
  rw [h1, if_neg (by omega), List.findIdx_cons]
  simp [he]

/-! ## Opening the container of an entry -/

theorem loadLoop_keeps (fuel : Nat) (src : Mem) (n : Nat) : ∀ (fat : Bytes) (k k' : Catalog),
    loadLoop fuel src n fat k = .ok (some (.container k')) → k'.cat = k.cat ∧ k'.fatMod = k.fatMod := by
  induction n with
  | zero => intro fat k k' h; rw [loadLoop] at h; cases h; exact ⟨rfl, rfl⟩
  | succ n ih =>
    intro fat k k' h
    rw [loadLoop] at h
    cases hl : loadEntry fuel src (fat.take 12) k.fresh with
    | throw => rw [hl] at h; cases h
    | ub => rw [hl] at h; cases h
    | ok r =>
      rw [hl] at h
      cases r with
      | none => cases h
      | some e =>
        simp only at h
        cases ha : addEntry k e with
        | throw => rw [ha] at h; cases h
        | ub => rw [ha] at h; cases h
        | ok k1 =>
          rw [ha] at h
          simp only at h
          unfold addEntry at ha
          obtain ⟨q, _, ha⟩ := bind_ok ha
          cases ha
          obtain ⟨h1, h2⟩ := ih _ _ _ h
          exact ⟨h1, h2⟩

/-- Opening the bytes of a container. -/
theorem open_parts {fuel : Nat} {b : Bytes} {k : Catalog} (hb : b ≠ []) (h : openCatalog fuel b = .ok (some (.container k))) :
    isCatalog b = .ok true ∧ initCatalog fuel b = .ok (some (.container k)) ∧ k.cat.emptyMod = false ∧ k.cat.modified = false ∧
      k.cat.data.data = b := by
  have hl : b.length ≠ 0 := fun h0 => hb (List.length_eq_zero_iff.1 h0)
  unfold openCatalog at h
  simp only [if_neg hl] at h
  obtain ⟨r, hr, h⟩ := bind_ok h
  cases r with
  | false => cases h
  | true =>
    simp only [if_true] at h
    refine ⟨hr, h, ?_⟩
    unfold initCatalog at h
    simp only at h
    split at h
    · split at h
      · cases h
      · cases h
      · cases h
      · obtain ⟨h1, _⟩ := loadLoop_keeps _ _ _ _ _ _ h
        rw [h1]
        exact ⟨rfl, rfl, rfl⟩
    · cases h
      exact ⟨rfl, rfl, rfl⟩

theorem closed_opens {fuel : Nat} {t : Tree} {b : Bytes} (h : Closed fuel t b) :
    ∃ k, isCatalog b = .ok true ∧ initCatalog fuel b = .ok (some (.container k)) ∧ Opened fuel k (.blank k.ents.length) t b := by
  obtain ⟨hb, k, s, ls, ho, hi, hx, hr⟩ := h
  obtain ⟨h1, h2, h3, h4, h5⟩ := open_parts hb ho
  refine ⟨k, h1, h2, s, ls, hi, hx, fun _ => ⟨h3, h4, h5.symm⟩, ?_⟩
  rw [hi.core.ents, List.length_map]
  exact hr

theorem getCatalog_ok {cd : Codec} {fuel : Nat} (hf : LAST ≤ fuel) {n : Node} {t : Tree} {s : Store} {l1 l2 : Ghost} {x : File × (List Nat × Bytes)}
    {d : List Nat} (hi : Inv cd n.k s (l1 ++ x :: l2)) (hx : extent n.k.cat < LAST) (hr : Rel fuel t n.subs ((l1 ++ x :: l2).map Prod.snd))
    (hm : SameText x.2.1 d) (h1 : ∀ y ∈ l1, ¬ SameText y.2.1 d) (hnf : noFile d t) :
    hasLength cd fuel n x.1 = .ok (some true) ∧
    ∃ inner n', getCatalog cd fuel n x.1 = .ok (some (some inner, n')) ∧ n'.k.cat = n.k.cat ∧ n'.k.fatMod = n.k.fatMod ∧
      place n'.k x.1 = l1.length ∧ Opened fuel inner.k inner.subs (sub d t) x.2.2 ∧
      ∀ k' i' t', Opened fuel k' i' t' x.2.2 → NodeOk cd fuel ⟨n'.k, n'.subs.set l1.length k' i'⟩ (putDir d t' t) := by
  have hpl := place_at hi.core.ents hi.core.ids x.1 rfl
  have hxok := hi.core.ok x (by simp)
  rw [List.map_append, List.map_cons] at hr
  obtain ⟨hget, hset⟩ := rel_present (b := x.2.2) (m := x.2.1) hm t n.subs (l1.map Prod.snd) hr (by
    intro q hq
    obtain ⟨y, hy, rfl⟩ := List.mem_map.1 hq
    exact h1 y hy) hnf
  rw [List.length_map] at hget hset
  rcases hget with ⟨hg, hcl⟩ | ⟨k, i, hg, hop⟩
  · obtain ⟨ki, hic, hin, hop⟩ := closed_opens hcl
    have hne : x.2.2 ≠ [] := hcl.1
    have hopen := openFile_ok hi.phys hxok hx fuel (by omega)
    have hnode := swap_inv hi { x.1 with content := some x.2.2 } x.2.2 rfl rfl rfl
      ⟨hxok.name, hxok.isName, hxok.created, fun b' hb' => (Option.some.inj hb').symm, fun hc => by simp at hc, hxok.packs, hxok.dataLive, hxok.headLive,
        hxok.dataClean, hxok.headClean, hxok.apart, hxok.notDir⟩
    have hup : update n.k.ents { x.1 with content := some x.2.2 } = (l1 ++ ({ x.1 with content := some x.2.2 }, (x.2.1, x.2.2)) :: l2).map Prod.fst := by
      rw [hi.core.ents]
      refine (update_at hi.core.ids { x.1 with content := some x.2.2 } rfl).trans ?_
      simp
    have hpl' : ∀ e : File, e.id = x.1.id → place { n.k with ents := update n.k.ents { x.1 with content := some x.2.2 } } e = l1.length := by
      intro e he
      exact place_at (k := { n.k with ents := update n.k.ents { x.1 with content := some x.2.2 } }) hup hnode.core.ids e he
    refine ⟨?_, ⟨ki, .blank ki.ents.length⟩, ⟨{ n.k with ents := update n.k.ents { x.1 with content := some x.2.2 } }, n.subs.set l1.length ki (.blank ki.ents.length)⟩, ?_, rfl, rfl,
      hpl' _ rfl, hop, ?_⟩
    · unfold hasLength
      rw [hpl, hg]
      simp only
      rw [hopen, Outcome.ok_bind]
      simp only [Option.getD_some]
      rw [decide_eq_true (List.length_pos_iff.2 hne)]
    · unfold getCatalog
      rw [hpl, hg]
      simp only
      rw [hopen, Outcome.ok_bind]
      simp only [Option.getD_some]
      rw [hic, Outcome.ok_bind, if_pos rfl, hin, Outcome.ok_bind]
      simp only
      have hq := hpl' { x.1 with content := some x.2.2 } rfl
      simp only at hq
      rw [hq]
    · intro k' i' t' ho'
      refine ⟨s, l1 ++ ({ x.1 with content := some x.2.2 }, (x.2.1, x.2.2)) :: l2, ?_, hx, ?_⟩
      · simp only
        simp only at hup hnode
        rw [hup]
        exact hnode
      · simp only
        rw [set_set, List.map_append, List.map_cons]
        exact hset k' i' t' x.2.2 ho'
  · refine ⟨?_, ⟨k, i⟩, n, ?_, rfl, rfl, hpl, hop, ?_⟩
    · unfold hasLength
      rw [hpl, hg]
      simp only
      obtain ⟨s', ls', hi', _⟩ := hop
      have := phys_length hi'.phys
      rw [decide_eq_true (by omega)]
    · unfold getCatalog
      rw [hpl, hg]
    · intro k' i' t' ho'
      refine ⟨s, _, hi, hx, ?_⟩
      rw [List.map_append, List.map_cons]
      exact hset k' i' t' x.2.2 ho'

/-! ## `CreateCatalog` -/

theorem get_new {fuel : Nat} (t : Tree) (su : Subs) (c : Contents) (h : Rel fuel t su c) : (su.grow 1).get c.length = none := by
  induction t generalizing su c with
  | nil =>
    cases su with
    | nil => cases c with
      | nil => rfl
      | cons => exact h.elim
    | none => cases c <;> exact h.elim
    | some => cases c <;> exact h.elim
  | file n b r ih =>
    cases su with
    | nil => cases c <;> exact h.elim
    | none su => cases c with
      | nil => exact h.elim
      | cons p ps => exact ih su ps h.2
    | some => cases c <;> exact h.elim
  | dir n t r _ ih =>
    cases su with
    | nil => cases c <;> exact h.elim
    | none su => cases c with
      | nil => exact h.elim
      | cons p ps => exact ih su ps h.2.2
    | some k i su => cases c with
      | nil => exact h.elim
      | cons p ps => exact ih su ps h.2.2

theorem opened_blank (fuel : Nat) : Opened fuel blankCatalog .nil .nil template :=
  ⟨_, [], blank_inv plainCodec, by decide, fun _ => ⟨rfl, rfl, rfl⟩, trivial⟩

/-- `CreateCatalog` with a new name. -/
theorem createCatalog_new {cd : Codec} {fuel : Nat} {n : Node} {s : Store} {ls : Ghost} {d : List Nat} (hi : Inv cd n.k s ls) (hd : Name d)
    (ht : Packs cd template) (now : Nat) (hnow : now < 2 ^ 64) (e : getFile n.k (utf8Text d) = .ok none) (hno : ∀ x ∈ ls, ¬ SameText x.2.1 d)
    (hgn : (n.subs.grow 1).get ls.length = none) :
    createCatalog cd fuel n (utf8Text d) now = .ok (some (ls.length, some ⟨blankCatalog, .nil⟩,
      ⟨withEnt n.k d (newEnt n.k.fresh d now now template), (n.subs.grow 1).set ls.length blankCatalog .nil⟩)) := by
  have hadd := add_inv hi d hd template ht now now hnow hno
  have hlen : n.k.ents.length = ls.length := by rw [hi.core.ents, List.length_map]
  have hents : (withEnt n.k d (newEnt n.k.fresh d now now template)).ents = (ls ++ (newEnt n.k.fresh d now now template, (d, template)) :: []).map Prod.fst := hadd.core.ents
  have hcr : createFile n.k (utf8Text d) now = .ok (⟨n.k.fresh, utf8Text d, now, now, 0, 0, none, true, true⟩,
      withEnt n.k d ⟨n.k.fresh, utf8Text d, now, now, 0, 0, none, true, true⟩) := by
    unfold createFile
    rw [e, Outcome.ok_bind]
    simp only
    unfold addEntry
    simp only
    rw [lower_name hd, Outcome.ok_bind, Outcome.ok_bind]
    rfl
  have hfr : ∀ y ∈ n.k.ents, y.id ≠ n.k.fresh := by
    intro y hy
    rw [hi.core.ents] at hy
    obtain ⟨w, hw, rfl⟩ := List.mem_map.1 hy
    have := hi.core.fresh w hw
    omega
  have hpl0 : place (withEnt n.k d ⟨n.k.fresh, utf8Text d, now, now, 0, 0, none, true, true⟩) ⟨n.k.fresh, utf8Text d, now, now, 0, 0, none, true, true⟩ = ls.length := by
    unfold place withEnt
    simp only
    rw [List.findIdx_append, List.findIdx_eq_length.2 (by intro y hy; simpa using hfr y hy), if_neg (by omega), List.findIdx_cons]
    simp [hlen]
  have hpl : ∀ f : File, f.id = n.k.fresh → place (withEnt n.k d (newEnt n.k.fresh d now now template)) f = ls.length :=
    fun f hf => place_at hents hadd.core.ids f hf
  have hupd : update (n.k.ents ++ [⟨n.k.fresh, utf8Text d, now, now, 0, 0, none, true, true⟩]) (newEnt n.k.fresh d now now template) =
      n.k.ents ++ [newEnt n.k.fresh d now now template] := update_last hfr rfl
  have hupd2 : update (n.k.ents ++ [newEnt n.k.fresh d now now template]) (newEnt n.k.fresh d now now template) =
      n.k.ents ++ [newEnt n.k.fresh d now now template] := update_last hfr rfl
  have hw : writeFile cd fuel (withEnt n.k d ⟨n.k.fresh, utf8Text d, now, now, 0, 0, none, true, true⟩) ⟨n.k.fresh, utf8Text d, now, now, 0, 0, none, true, true⟩ template now =
      .ok (some (withEnt n.k d (newEnt n.k.fresh d now now template))) := by
    unfold writeFile openFile readData
    simp only [if_true, Outcome.ok_bind]
    rw [replaceAll_ok, Outcome.ok_bind]
    unfold withEnt
    simp only
    have : update (n.k.ents ++ [⟨n.k.fresh, utf8Text d, now, now, 0, 0, none, true, true⟩]) ⟨n.k.fresh, utf8Text d, now, now, 0, 0, some template, true, true⟩ =
      n.k.ents ++ [newEnt n.k.fresh d now now template] := hupd
    rw [this]
  have hfind : (withEnt n.k d (newEnt n.k.fresh d now now template)).ents.find? (fun x => x.id = n.k.fresh) = some (newEnt n.k.fresh d now now template) := by
    unfold withEnt
    simp only
    rw [List.find?_append, List.find?_eq_none.2 (by intro y hy; simpa using hfr y hy)]
    simp [newEnt]
  have hgc : getCatalog cd fuel ⟨withEnt n.k d (newEnt n.k.fresh d now now template), n.subs.grow 1⟩ (newEnt n.k.fresh d now now template) =
      .ok (some (some ⟨blankCatalog, .nil⟩, ⟨withEnt n.k d (newEnt n.k.fresh d now now template), (n.subs.grow 1).set ls.length blankCatalog .nil⟩)) := by
    unfold getCatalog
    simp only
    rw [hpl _ rfl, hgn]
    simp only
    unfold openFile
    simp only [newEnt, Outcome.ok_bind, Option.getD_some]
    have hic : isCatalog template = .ok true := by decide
    have hin : initCatalog fuel template = .ok (some (.container blankCatalog)) := rfl
    rw [hic, Outcome.ok_bind, if_pos rfl, hin, Outcome.ok_bind]
    simp only
    have hk : ({ withEnt n.k d (newEnt n.k.fresh d now now template) with ents := update (withEnt n.k d (newEnt n.k.fresh d now now template)).ents (newEnt n.k.fresh d now now template) } : Catalog) =
        withEnt n.k d (newEnt n.k.fresh d now now template) := by
      unfold withEnt
      simp only
      rw [hupd2]
    have hk' := hk
    have hp2 := hpl (newEnt n.k.fresh d now now template) rfl
    rw [← hk'] at hp2
    simp only [newEnt] at hk hp2
    rw [hp2, hk]
    rfl
  unfold createCatalog create
  rw [hcr, Outcome.ok_bind]
  simp only [Outcome.ok_bind]
  have hg1 : (withEnt n.k d ⟨n.k.fresh, utf8Text d, now, now, 0, 0, none, true, true⟩).ents.length - n.k.ents.length = 1 := by
    unfold withEnt
    simp
  rw [hg1]
  have hhl : hasLength cd fuel ⟨withEnt n.k d ⟨n.k.fresh, utf8Text d, now, now, 0, 0, none, true, true⟩, n.subs.grow 1⟩ ⟨n.k.fresh, utf8Text d, now, now, 0, 0, none, true, true⟩ = .ok (some false) := by
    unfold hasLength
    simp only
    rw [hpl0, hgn]
    simp [openFile, readData, Outcome.ok_bind]
  rw [hhl, Outcome.ok_bind]
  simp only
  unfold makeCatalog
  simp only [Bool.false_eq_true, if_false]
  rw [hw, Outcome.ok_bind]
  simp only
  rw [hfind]
  simp only
  rw [hgc, Outcome.ok_bind]
  simp only
  rw [hpl _ rfl]

theorem createCatalog_ok {cd : Codec} {fuel : Nat} (hf : LAST ≤ fuel) {n : Node} {t : Tree} {d : List Nat} (h : NodeOk cd fuel n t) (hd : Name d)
    (hnf : noFile d t) (ht : Packs cd template) (now : Nat) (hnow : now < 2 ^ 64) :
    ∃ i inner n' b, createCatalog cd fuel n (utf8Text d) now = .ok (some (i, some inner, n')) ∧ n'.k.cat = n.k.cat ∧
      (n'.k.fatMod = false → n.k.fatMod = false) ∧ Opened fuel inner.k inner.subs (sub d t) b ∧
      ∀ k' i' t', Opened fuel k' i' t' b → NodeOk cd fuel ⟨n'.k, n'.subs.set i k' i'⟩ (putDir d t' t) := by
  obtain ⟨s, ls, hi, hx, hr⟩ := h
  rcases getFile_core hi.core d hd with ⟨e, hno⟩ | ⟨l1, x, l2, rfl, e, hs, h1, h2⟩
  · have hno' : ∀ q ∈ ls.map Prod.snd, ¬ SameText q.1 d := by
      intro q hq
      obtain ⟨y, hy, rfl⟩ := List.mem_map.1 hq
      exact hno y hy
    obtain ⟨_, _, hsub⟩ := rel_absent t n.subs _ hr hno'
    have hadd := add_inv hi d hd template ht now now hnow hno
    have hlen : n.k.ents.length = ls.length := by rw [hi.core.ents, List.length_map]
    have hgn := get_new t n.subs _ hr
    rw [List.length_map] at hgn
    refine ⟨ls.length, ⟨blankCatalog, .nil⟩, ⟨withEnt n.k d (newEnt n.k.fresh d now now template), (n.subs.grow 1).set ls.length blankCatalog .nil⟩, template, ?_, rfl, ?_, ?_, ?_⟩
    · exact createCatalog_new hi hd ht now hnow e hno hgn
    · intro h; simp [withEnt] at h
    · rw [hsub]; exact opened_blank fuel
    · intro k' i' t' ho'
      refine ⟨s, _, hadd, hx, ?_⟩
      simp only
      rw [set_set, List.map_append]
      have := (rel_new ho' (d := d) t n.subs _ hr hno').2
      rw [List.length_map] at this
      exact this
  · obtain ⟨hlen, inner, n', hg, hc, hfm, hp, ho, hset⟩ := getCatalog_ok hf hi hx hr hs h1 hnf
    refine ⟨l1.length, inner, n', x.2.2, ?_, hc, by rw [hfm]; exact id, ho, hset⟩
    unfold createCatalog create createFile
    rw [e]
    simp only [Outcome.ok_bind, Nat.sub_self]
    rw [grow_zero]
    have : (⟨n.k, n.subs⟩ : Node) = n := rfl
    rw [this, hlen, Outcome.ok_bind]
    simp only
    unfold makeCatalog
    rw [if_pos rfl, hg, Outcome.ok_bind]
    simp only
    rw [hp]

/-! ## Storing and reading -/

theorem put_fat {cd : Codec} {fuel : Nat} {k k' : Catalog} {name b : Bytes} {now : Nat} (h : put cd fuel k name b now = .ok (some k')) :
    k'.fatMod = false → k.fatMod = false := by
  unfold put at h
  obtain ⟨⟨e, k1⟩, h1, h⟩ := bind_ok h
  have hk : k'.fatMod = k1.fatMod := by
    unfold writeFile at h
    obtain ⟨r, _, h⟩ := bind_ok h
    cases r with
    | none => cases h
    | some e =>
      simp only at h
      obtain ⟨b', _, h⟩ := bind_ok h
      cases h
      rfl
  intro h0
  rw [hk] at h0
  unfold createFile at h1
  obtain ⟨r, _, h1⟩ := bind_ok h1
  cases r with
  | some e => cases h1; exact h0
  | none =>
    simp only at h1
    obtain ⟨k2, _, h1⟩ := bind_ok h1
    cases h1
    cases h0

theorem store_length (n : List Nat) (b : Bytes) (c : Contents) : (store n b c).length = c.length ∨ (store n b c).length = c.length + 1 := by
  induction c with
  | nil => right; rfl
  | cons p ps ih =>
    rw [store]
    split
    · left; rfl
    · simp only [List.length_cons]; omega

/-- Storing at the end of a path. -/
theorem storeAt_ok {fuel : Nat} (hf : LAST ≤ fuel) (name : List Nat) (hn : Name name) (b : Bytes) (hb : b ≠ []) (now : Nat) (hnow : now < 2 ^ 64)
    (path : List (List Nat)) : ∀ (cd : Codec) (n : Node) (t : Tree), NodeOk cd fuel n t → (∀ d ∈ path, Name d) → Free t name path →
    (path = [] → Packs cd b) → (path ≠ [] → Packs cd template) →
    ∃ n', storeAt fuel (utf8Text name) b now cd n (path.map utf8Text) = .ok (some n') ∧ NodeOk cd fuel n' (putAt t name b path) ∧
      n'.k.cat = n.k.cat ∧ (n'.k.fatMod = false → n.k.fatMod = false) := by
  induction path with
  | nil =>
    intro cd n t h _ hfree hp _
    obtain ⟨s, ls, hi, hx, hr⟩ := h
    obtain ⟨k', ls', e, hi', hs', hc'⟩ := put_ok hi hx fuel hf name hn b (hp rfl) now hnow
    refine ⟨⟨k', n.subs.grow (k'.ents.length - n.k.ents.length)⟩, ?_, ⟨s, ls', hi', by simp only; rw [hc']; exact hx, ?_⟩, hc', put_fat e⟩
    · rw [List.map_nil, storeAt, putHere, e, Outcome.ok_bind]
    · rw [hs', hi'.core.ents, hi.core.ents, List.length_map, List.length_map]
      have h1 : ls'.length = (store name b (ls.map Prod.snd)).length := by rw [← hs', List.length_map]
      have h2 : ls.length = (ls.map Prod.snd).length := by rw [List.length_map]
      rw [h1, h2]
      exact rel_put t n.subs _ hr hfree
  | cons d ds ih =>
    intro cd n t h hnames hfree _ ht
    obtain ⟨i, inner, n', b0, e, hc, hfm, ho, hset⟩ := createCatalog_ok hf h (hnames d (by simp)) hfree.1 (ht (by simp)) now hnow
    obtain ⟨s, ls, hi, hx, hflag, hr⟩ := ho
    obtain ⟨inner', e', hok', hc', hfm'⟩ := ih plainCodec inner (sub d t) ⟨s, ls, hi, hx, hr⟩ (fun d' hd' => hnames d' (by simp [hd'])) hfree.2
      (fun _ => (plain_packs b).2 hb) (fun _ => (plain_packs _).2 (by decide))
    obtain ⟨s2, ls2, hi2, hx2, hr2⟩ := hok'
    refine ⟨⟨n'.k, n'.subs.set i inner'.k inner'.subs⟩, ?_, hset _ _ _ ⟨s2, ls2, hi2, hx2, ?_, hr2⟩, hc, hfm⟩
    · rw [List.map_cons, storeAt, e, Outcome.ok_bind]
      simp only
      rw [e', Outcome.ok_bind]
    · intro h0
      rw [hc']
      exact hflag (hfm' h0)

theorem getAt_nil (n : List Nat) (path : List (List Nat)) : getAt .nil n path = none := by
  induction path with
  | nil => rfl
  | cons d ds ih => exact ih

/-- Reading at the end of a path. -/
theorem readAt_ok {fuel : Nat} (hf : LAST ≤ fuel) (name : List Nat) (hn : Name name) (path : List (List Nat)) : ∀ (cd : Codec) (n : Node) (t : Tree),
    NodeOk cd fuel n t → (∀ d ∈ path, Name d) → Free t name path →
    readAt fuel (utf8Text name) cd n (path.map utf8Text) = .ok (some (getAt t name path)) := by
  induction path with
  | nil =>
    intro cd n t h _ hfree
    obtain ⟨s, ls, hi, hx, hr⟩ := h
    rw [List.map_nil, readAt, content_ok hi hx fuel hf name hn, rel_lookup t n.subs _ hr hfree]
    rfl
  | cons d ds ih =>
    intro cd n t h hnames hfree
    obtain ⟨s, ls, hi, hx, hr⟩ := h
    rw [List.map_cons, readAt]
    rcases getFile_core hi.core d (hnames d (by simp)) with ⟨e, hno⟩ | ⟨l1, x, l2, rfl, e, hs, h1, h2⟩
    · obtain ⟨_, _, hsub⟩ := rel_absent t n.subs _ hr (by
        intro q hq
        obtain ⟨y, hy, rfl⟩ := List.mem_map.1 hq
        exact hno y hy)
      rw [e, Outcome.ok_bind]
      simp only
      rw [getAt, hsub, getAt_nil]
    · obtain ⟨_, inner, n', hg, _, _, _, ho, _⟩ := getCatalog_ok hf hi hx hr hs h1 hfree.1
      rw [e, Outcome.ok_bind]
      simp only
      rw [hg, Outcome.ok_bind]
      simp only
      obtain ⟨s2, ls2, hi2, hx2, _, hr2⟩ := ho
      exact ih plainCodec inner (sub d t) ⟨s2, ls2, hi2, hx2, hr2⟩ (fun d' hd' => hnames d' (by simp [hd'])) hfree.2

theorem dir_absent {fuel : Nat} {d : List Nat} : ∀ (t : Tree) (su : Subs) (c : Contents), Rel fuel t su c → (∀ p ∈ c, ¬ SameText p.1 d) →
    dir? d t = none
  | .nil, _, _, _, _ => rfl
  | .file n b r, su, c, h, hn => by
    cases su with
    | none su =>
      cases c with
      | nil => exact h.elim
      | cons p ps => exact dir_absent r su ps h.2 (fun q hq => hn q (List.mem_cons_of_mem _ hq))
    | nil => cases c <;> exact h.elim
    | some k i su => cases c <;> exact h.elim
  | .dir n t r, su, c, h, hn => by
    have key : ∀ (su : Subs) (p : List Nat × Bytes) (ps : Contents), p.1 = n → Rel fuel r su ps → (∀ q ∈ p :: ps, ¬ SameText q.1 d) →
        dir? d (.dir n t r) = none := by
      intro su p ps hp hr hn
      have := hn p (List.mem_cons_self ..)
      rw [hp] at this
      rw [dir?, if_neg this]
      exact dir_absent r su ps hr (fun q hq => hn q (List.mem_cons_of_mem _ hq))
    cases su with
    | none su =>
      cases c with
      | nil => exact h.elim
      | cons p ps => exact key su p ps h.1 h.2.2 hn
    | nil => cases c <;> exact h.elim
    | some k i su =>
      cases c with
      | nil => exact h.elim
      | cons p ps => exact key su p ps h.1 h.2.2 hn

theorem dir_present {fuel : Nat} {d : List Nat} : ∀ (t : Tree) (su : Subs) (c : Contents), Rel fuel t su c → (∃ p ∈ c, SameText p.1 d) → noFile d t →
    dir? d t = some (sub d t)
  | .nil, su, c, h, ⟨p, hp, _⟩, _ => by
    cases su with
    | nil => cases c with
      | nil => cases hp
      | cons => exact h.elim
    | none => cases c <;> exact h.elim
    | some => cases c <;> exact h.elim
  | .file m b r, su, c, h, ⟨p, hp, hs⟩, hf => by
    cases su with
    | nil => cases c <;> exact h.elim
    | none su =>
      cases c with
      | nil => exact h.elim
      | cons q qs =>
        have hp' : p ∈ qs := by
          rcases List.mem_cons.1 hp with hp | hp
          · rw [hp, h.1] at hs; exact absurd hs hf.1
          · exact hp
        exact dir_present r su qs h.2 ⟨p, hp', hs⟩ hf.2
    | some => cases c <;> exact h.elim
  | .dir m t r, su, c, h, ⟨p, hp, hs⟩, hf => by
    have key : ∀ (su : Subs) (q : List Nat × Bytes) (qs : Contents), q.1 = m → Rel fuel r su qs → p ∈ q :: qs →
        dir? d (.dir m t r) = some (sub d (.dir m t r)) := by
      intro su q qs hq hr hp
      rw [dir?, sub]
      by_cases hm : SameText m d
      · rw [if_pos hm, if_pos hm]
      · rw [if_neg hm, if_neg hm]
        have hp' : p ∈ qs := by
          rcases List.mem_cons.1 hp with hp | hp
          · rw [hp, hq] at hs; exact absurd hs hm
          · exact hp
        exact dir_present r su qs hr ⟨p, hp', hs⟩ hf
    cases su with
    | nil => cases c <;> exact h.elim
    | none su =>
      cases c with
      | nil => exact h.elim
      | cons q qs => exact key su q qs h.1 h.2.2 hp
    | some k i su =>
      cases c with
      | nil => exact h.elim
      | cons q qs => exact key su q qs h.1 h.2.2 hp

theorem rel_names {fuel : Nat} : ∀ (t : Tree) (su : Subs) (c : Contents), Rel fuel t su c → names t = c.map Prod.fst
  | .nil, su, c, h => by
    cases su with
    | nil => cases c with
      | nil => rfl
      | cons => exact h.elim
    | none => cases c <;> exact h.elim
    | some => cases c <;> exact h.elim
  | .file n b r, su, c, h => by
    cases su with
    | none su =>
      cases c with
      | nil => exact h.elim
      | cons p ps => rw [names, List.map_cons, rel_names r su ps h.2, h.1]
    | nil => cases c <;> exact h.elim
    | some k i su => cases c <;> exact h.elim
  | .dir n t r, su, c, h => by
    cases su with
    | none su =>
      cases c with
      | nil => exact h.elim
      | cons p ps => rw [names, List.map_cons, rel_names r su ps h.2.2, h.1]
    | nil => cases c <;> exact h.elim
    | some k i su =>
      cases c with
      | nil => exact h.elim
      | cons p ps => rw [names, List.map_cons, rel_names r su ps h.2.2, h.1]

/-- A name as it comes from an entry: the same, or with NULs behind it. -/
def NamedAs (ns : Bytes) (m : List Nat) : Prop := ∃ z, ns = utf8Text (m ++ List.replicate z 0)

/-- The names at the end of a path. -/
theorem listAt_ok {fuel : Nat} (hf : LAST ≤ fuel) (path : List (List Nat)) : ∀ (cd : Codec) (n : Node) (t : Tree),
    NodeOk cd fuel n t → (∀ d ∈ path, Name d) → Through t path →
    match treeAt t path with
    | none => listAt fuel cd n (path.map utf8Text) = .ok (some none)
    | some u => ∃ ns, listAt fuel cd n (path.map utf8Text) = .ok (some (some ns)) ∧ List.Forall₂ NamedAs ns (names u) := by
  induction path with
  | nil =>
    intro cd n t h _ _
    obtain ⟨s, ls, hi, hx, hr⟩ := h
    refine ⟨n.k.ents.map (·.name), rfl, ?_⟩
    rw [rel_names t n.subs _ hr, hi.core.ents, List.map_map, List.map_map]
    have : ∀ l : Ghost, (∀ x ∈ l, EntOk cd s x.1 x.2) → List.Forall₂ NamedAs (l.map ((fun x => x.name) ∘ Prod.fst)) (l.map (Prod.fst ∘ Prod.snd)) := by
      intro l
      induction l with
      | nil => intro _; exact List.Forall₂.nil
      | cons x l ih => intro h; exact List.Forall₂.cons (h x (by simp)).name (ih (fun y hy => h y (by simp [hy])))
    exact this ls hi.core.ok
  | cons d ds ih =>
    intro cd n t h hnames hth
    obtain ⟨s, ls, hi, hx, hr⟩ := h
    rw [List.map_cons, listAt, treeAt]
    rcases getFile_core hi.core d (hnames d (by simp)) with ⟨e, hno⟩ | ⟨l1, x, l2, rfl, e, hs, h1, h2⟩
    · rw [dir_absent t n.subs _ hr (by
        intro q hq
        obtain ⟨y, hy, rfl⟩ := List.mem_map.1 hq
        exact hno y hy), e, Outcome.ok_bind]
    · obtain ⟨_, inner, n', hg, _, _, _, ho, _⟩ := getCatalog_ok hf hi hx hr hs h1 hth.1
      rw [dir_present t n.subs _ hr ⟨x.2, by simp, hs⟩ hth.1, e, Outcome.ok_bind]
      simp only
      rw [hg, Outcome.ok_bind]
      simp only
      obtain ⟨s2, ls2, hi2, hx2, _, hr2⟩ := ho
      exact ih plainCodec inner (sub d t) ⟨s2, ls2, hi2, hx2, hr2⟩ (fun d' hd' => hnames d' (by simp [hd'])) hth.2

/-! ## Removing -/

theorem drop_gone {fuel : Nat} {n : List Nat} : ∀ (t : Tree) (su : Subs) (c : Contents), Rel fuel t su c → (∀ p ∈ c, ¬ SameText p.1 n) →
    Spec.drop n t = t ∧ ∀ f, inDir n f t = t
  | .nil, _, _, _, _ => ⟨rfl, fun _ => rfl⟩
  | .file m b r, su, c, h, hn => by
    cases su with
    | nil => cases c <;> exact h.elim
    | none su =>
      cases c with
      | nil => exact h.elim
      | cons p ps =>
        obtain ⟨h1, h2⟩ := drop_gone r su ps h.2 (fun q hq => hn q (List.mem_cons_of_mem _ hq))
        have := hn p (List.mem_cons_self ..)
        rw [h.1] at this
        exact ⟨by rw [Spec.drop, if_neg this, h1], fun f => by rw [inDir, h2]⟩
    | some => cases c <;> exact h.elim
  | .dir m t r, su, c, h, hn => by
    have key : ∀ (su : Subs) (p : List Nat × Bytes) (ps : Contents), p.1 = m → Rel fuel r su ps → (∀ q ∈ p :: ps, ¬ SameText q.1 n) →
        Spec.drop n (.dir m t r) = .dir m t r ∧ ∀ f, inDir n f (.dir m t r) = .dir m t r := by
      intro su p ps hp hr hn
      obtain ⟨h1, h2⟩ := drop_gone r su ps hr (fun q hq => hn q (List.mem_cons_of_mem _ hq))
      have := hn p (List.mem_cons_self ..)
      rw [hp] at this
      exact ⟨by rw [Spec.drop, if_neg this, h1], fun f => by rw [inDir, if_neg this, h2]⟩
    cases su with
    | nil => cases c <;> exact h.elim
    | none su =>
      cases c with
      | nil => exact h.elim
      | cons p ps => exact key su p ps h.1 h.2.2 hn
    | some k i su =>
      cases c with
      | nil => exact h.elim
      | cons p ps => exact key su p ps h.1 h.2.2 hn

theorem inDir_put {fuel : Nat} {d : List Nat} {f : Tree → Tree} : ∀ (t : Tree) (su : Subs) (c : Contents), Rel fuel t su c → (∃ p ∈ c, SameText p.1 d) →
    noFile d t → inDir d f t = putDir d (f (sub d t)) t
  | .nil, su, c, h, ⟨p, hp, _⟩, _ => by
    cases su with
    | nil => cases c with
      | nil => cases hp
      | cons => exact h.elim
    | none => cases c <;> exact h.elim
    | some => cases c <;> exact h.elim
  | .file m b r, su, c, h, ⟨p, hp, hs⟩, hf => by
    cases su with
    | nil => cases c <;> exact h.elim
    | none su =>
      cases c with
      | nil => exact h.elim
      | cons q qs =>
        have hne : p ≠ q := by
          rintro rfl
          rw [h.1] at hs
          exact hf.1 hs
        have hp' : p ∈ qs := by
          rcases List.mem_cons.1 hp with hp | hp
          · exact absurd hp hne
          · exact hp
        rw [inDir, putDir, sub, inDir_put r su qs h.2 ⟨p, hp', hs⟩ hf.2]
    | some => cases c <;> exact h.elim
  | .dir m t r, su, c, h, ⟨p, hp, hs⟩, hf => by
    have key : ∀ (su : Subs) (q : List Nat × Bytes) (qs : Contents), q.1 = m → Rel fuel r su qs → p ∈ q :: qs →
        inDir d f (.dir m t r) = putDir d (f (sub d (.dir m t r))) (.dir m t r) := by
      intro su q qs hq hr hp
      rw [inDir, putDir, sub]
      by_cases hm : SameText m d
      · rw [if_pos hm, if_pos hm, if_pos hm]
      · rw [if_neg hm, if_neg hm, if_neg hm]
        have hp' : p ∈ qs := by
          rcases List.mem_cons.1 hp with hp | hp
          · rw [hp, hq] at hs; exact absurd hs hm
          · exact hp
        rw [inDir_put r su qs hr ⟨p, hp', hs⟩ hf]
    cases su with
    | nil => cases c <;> exact h.elim
    | none su =>
      cases c with
      | nil => exact h.elim
      | cons q qs => exact key su q qs h.1 h.2.2 hp
    | some k i su =>
      cases c with
      | nil => exact h.elim
      | cons q qs => exact key su q qs h.1 h.2.2 hp

theorem rel_drop {fuel : Nat} {n m : List Nat} {b : Bytes} {c2 : Contents} (hm : SameText m n) (h2 : ∀ q ∈ c2, ¬ SameText q.1 n) :
    ∀ (t : Tree) (su : Subs) (c1 : Contents), Rel fuel t su (c1 ++ (m, b) :: c2) → (∀ q ∈ c1, ¬ SameText q.1 n) →
    Rel fuel (Spec.drop n t) (su.drop c1.length) (c1 ++ c2)
  | .nil, su, c1, h, _ => by cases su <;> cases c1 <;> exact h.elim
  | .file m' b0 r, su, c1, h, hc => by
    cases su with
    | none su =>
      cases c1 with
      | nil =>
        obtain ⟨hp, hr⟩ := h
        rw [Prod.ext_iff] at hp
        simp only at hp
        rw [Spec.drop, if_pos (hp.1 ▸ hm), (drop_gone r su c2 hr h2).1]
        exact hr
      | cons p ps =>
        obtain ⟨hp, hr⟩ := h
        have := hc p (List.mem_cons_self ..)
        rw [hp] at this
        rw [Spec.drop, if_neg this]
        exact ⟨hp, rel_drop hm h2 r su ps hr (fun q hq => hc q (List.mem_cons_of_mem _ hq))⟩
    | nil => cases c1 <;> exact h.elim
    | some k i su => cases c1 <;> exact h.elim
  | .dir m' t r, su, c1, h, hc => by
    cases su with
    | nil => cases c1 <;> exact h.elim
    | none su =>
      cases c1 with
      | nil =>
        obtain ⟨hp, _, hr⟩ := h
        simp only at hp
        rw [Spec.drop, if_pos (hp ▸ hm), (drop_gone r su c2 hr h2).1]
        exact hr
      | cons p ps =>
        obtain ⟨hp, h0, hr⟩ := h
        have := hc p (List.mem_cons_self ..)
        rw [hp] at this
        rw [Spec.drop, if_neg this]
        exact ⟨hp, h0, rel_drop hm h2 r su ps hr (fun q hq => hc q (List.mem_cons_of_mem _ hq))⟩
    | some k i su =>
      cases c1 with
      | nil =>
        obtain ⟨hp, _, hr⟩ := h
        simp only at hp
        rw [Spec.drop, if_pos (hp ▸ hm), (drop_gone r su c2 hr h2).1]
        exact hr
      | cons p ps =>
        obtain ⟨hp, h0, hr⟩ := h
        have := hc p (List.mem_cons_self ..)
        rw [hp] at this
        rw [Spec.drop, if_neg this]
        exact ⟨hp, h0, rel_drop hm h2 r su ps hr (fun q hq => hc q (List.mem_cons_of_mem _ hq))⟩

theorem deleteFile_marks {fuel : Nat} {k k' : Catalog} {e : File} (h : deleteFile fuel k e = .ok (some k')) : k'.fatMod = true := by
  unfold deleteFile at h
  obtain ⟨r, _, h⟩ := bind_ok h
  cases r with
  | none => cases h
  | some c =>
    simp only at h
    obtain ⟨r2, _, h⟩ := bind_ok h
    cases r2 with
    | none => cases h
    | some c2 =>
      simp only at h
      obtain ⟨q, _, h⟩ := bind_ok h
      cases h
      rfl

/-- Removing at the end of a path. -/
theorem removeAt_ok {fuel : Nat} (hf : LAST ≤ fuel) (name : List Nat) (hn : Name name) (path : List (List Nat)) : ∀ (cd : Codec) (n : Node) (t : Tree),
    NodeOk cd fuel n t → (∀ d ∈ path, Name d) → Through t path →
    ∃ n', removeAt fuel (utf8Text name) cd n (path.map utf8Text) = .ok (some n') ∧ NodeOk cd fuel n' (dropAt name path t) ∧
      (n'.k.fatMod = false → n.k.fatMod = false ∧ n'.k.cat = n.k.cat) := by
  induction path with
  | nil =>
    intro cd n t h _ _
    obtain ⟨s, ls, hi, hx, hr⟩ := h
    rw [List.map_nil, removeAt, removeHere]
    rcases getFile_core hi.core name hn with ⟨e, hno⟩ | ⟨l1, x, l2, rfl, e, hs, h1, h2⟩
    · rw [e, Outcome.ok_bind]
      refine ⟨n, rfl, ⟨s, ls, hi, hx, ?_⟩, fun h => ⟨h, rfl⟩⟩
      rw [dropAt, (drop_gone t n.subs _ hr (by
        intro q hq
        obtain ⟨y, hy, rfl⟩ := List.mem_map.1 hq
        exact hno y hy)).1]
      exact hr
    · obtain ⟨k', s', ls', er, hi', hs', hx'⟩ := remove_ok hi hx fuel hf name hn
      unfold remove at er
      rw [e, Outcome.ok_bind] at er ⊢
      simp only at er ⊢
      have h2' : ∀ q ∈ l2.map Prod.snd, ¬ SameText q.1 name := by
        intro q hq
        obtain ⟨y, hy, rfl⟩ := List.mem_map.1 hq
        exact h2 y hy
      have h1' : ∀ q ∈ l1.map Prod.snd, ¬ SameText q.1 name := by
        intro q hq
        obtain ⟨y, hy, rfl⟩ := List.mem_map.1 hq
        exact h1 y hy
      refine ⟨⟨k', n.subs.drop (place n.k x.1)⟩, by rw [er, Outcome.ok_bind], ⟨s', ls', hi', by simp only; rw [hx']; exact hx, ?_⟩, ?_⟩
      · simp only
        rw [hs', List.map_append, List.map_cons, drop_present name _ _ x.2 h1' h2' hs, place_at hi.core.ents hi.core.ids x.1 rfl]
        rw [List.map_append, List.map_cons] at hr
        have := rel_drop (m := x.2.1) (b := x.2.2) hs h2' t n.subs (l1.map Prod.snd) hr h1'
        rw [List.length_map] at this
        exact this
      · intro h0
        rw [deleteFile_marks er] at h0
        cases h0
  | cons d ds ih =>
    intro cd n t h hnames hth
    obtain ⟨s, ls, hi, hx, hr⟩ := h
    rw [List.map_cons, removeAt]
    rcases getFile_core hi.core d (hnames d (by simp)) with ⟨e, hno⟩ | ⟨l1, x, l2, rfl, e, hs, h1, h2⟩
    · rw [e, Outcome.ok_bind]
      refine ⟨n, rfl, ⟨s, ls, hi, hx, ?_⟩, fun h => ⟨h, rfl⟩⟩
      rw [dropAt, (drop_gone t n.subs _ hr (by
        intro q hq
        obtain ⟨y, hy, rfl⟩ := List.mem_map.1 hq
        exact hno y hy)).2]
      exact hr
    · obtain ⟨_, inner, n', hg, hc, hfm, hp, ho, hset⟩ := getCatalog_ok hf hi hx hr hs h1 hth.1
      obtain ⟨s2, ls2, hi2, hx2, hflag, hr2⟩ := ho
      obtain ⟨inner', e', hok', hfm'⟩ := ih plainCodec inner (sub d t) ⟨s2, ls2, hi2, hx2, hr2⟩ (fun d' hd' => hnames d' (by simp [hd'])) hth.2
      obtain ⟨s3, ls3, hi3, hx3, hr3⟩ := hok'
      rw [e, Outcome.ok_bind]
      simp only
      rw [hg, Outcome.ok_bind]
      simp only
      rw [e', Outcome.ok_bind, hp]
      refine ⟨_, rfl, ?_, fun h => ⟨by rw [← hfm]; exact h, hc⟩⟩
      rw [dropAt, inDir_put t n.subs _ hr ⟨x.2, by simp, hs⟩ hth.1]
      refine hset _ _ _ ⟨s3, ls3, hi3, hx3, ?_, hr3⟩
      intro h0
      obtain ⟨h4, h5⟩ := hfm' h0
      rw [h5]
      exact hflag h4

end Verif.Nested
