import Verif.Container.OpenTheorems
import Verif.Container.Close

/-! # Lemmas: writing entries at once, and closing the container -/

namespace Verif.Container
open Verif Verif.Stream Verif.Container.Spec Verif.Unicode Verif.Unicode.Spec

/-- The entry without its stream. -/
def shut (e : File) : File := { e with content := none }

theorem fat_shut (es : List File) : fatBytes (es.map shut) = fatBytes es := by
  unfold fatBytes
  rw [List.flatMap_map]
  rfl

theorem close_of_flush {cd : Codec} {fuel : Nat} {c c' : Cat} {e e' : File} (h : flushFile cd fuel c e = .ok (some (c', e'))) :
    closeFile cd fuel c e = .ok (some (c', shut e')) := by
  unfold closeFile
  rw [h, Outcome.ok_bind]
  rfl

theorem closeFiles_of_flush {cd : Codec} {fuel : Nat} (rest : List File) : ∀ (c c' : Cat) (done es : List File),
    flushFiles cd fuel c done rest = .ok (some (c', es)) → closeFiles cd fuel c (done.map shut) rest = .ok (some (c', es.map shut)) := by
  induction rest with
  | nil =>
    intro c c' done es h
    rw [flushFiles] at h
    cases h
    rfl
  | cons e rest ih =>
    intro c c' done es h
    rw [flushFiles] at h
    obtain ⟨r, hr, h⟩ := bind_ok h
    cases r with
    | none => cases h
    | some r =>
      obtain ⟨c1, e1⟩ := r
      simp only at h
      have := ih c1 c' (done ++ [e1]) es h
      rw [closeFiles, close_of_flush hr, Outcome.ok_bind]
      simp only
      rw [List.map_append] at this
      exact this

/-- What closing the container leaves in the stream is what flushing it leaves. -/
theorem destroy_of_flush {cd : Codec} {fuel : Nat} {k k' : Catalog} (h : flush cd fuel k = .ok (some k')) :
    destroy cd fuel k = .ok (some k'.cat.data.data) := by
  unfold flush at h
  obtain ⟨r, hr, h⟩ := bind_ok h
  cases r with
  | none => cases h
  | some r =>
    obtain ⟨c1, es⟩ := r
    simp only at h
    obtain ⟨r2, hr2, h⟩ := bind_ok h
    cases r2 with
    | none => cases h
    | some c2 =>
      simp only at h
      obtain ⟨r3, hr3, h⟩ := bind_ok h
      obtain ⟨c3, v⟩ := r3
      cases h
      unfold destroy
      have h1 := closeFiles_of_flush k.ents _ _ [] _ hr
      rw [List.map_nil] at h1
      rw [h1, Outcome.ok_bind]
      simp only
      have h2 : flushFat fuel c1 (es.map shut) k.fatMod = .ok (some c2) := by
        unfold flushFat at hr2 ⊢
        rw [fat_shut]
        exact hr2
      rw [h2, Outcome.ok_bind]
      simp only
      rw [hr3, Outcome.ok_bind]

/-! ## A new entry -/

/-- A new entry with contents to be written. -/
def newEnt (id : Nat) (n : List Nat) (cr mo : Nat) (b : Bytes) : File := ⟨id, utf8Text n, cr, mo, 0, 0, some b, true, true⟩

/-- The container with a new entry. -/
def withEnt (k : Catalog) (n : List Nat) (e : File) : Catalog :=
  { k with ents := k.ents ++ [e], files := Entry.assign k.files (key n) k.fresh, fresh := k.fresh + 1, fatMod := true }

theorem add_inv {cd : Codec} {k : Catalog} {s : Store} {ls : Ghost} (h : Inv cd k s ls) (n : List Nat) (hn : Name n) (b : Bytes)
    (hb : Packs cd b) (cr mo : Nat) (hcr : cr < 2 ^ 64) (hno : ∀ x ∈ ls, ¬ SameText x.2.1 n) :
    Inv cd (withEnt k n (newEnt k.fresh n cr mo b)) s (ls ++ [(newEnt k.fresh n cr mo b, (n, b))]) := by
  have hpad : padded n 0 = n := by simp [padded]
  have hok : EntOk cd s (newEnt k.fresh n cr mo b) (n, b) :=
    ⟨⟨0, by rw [hpad]; rfl⟩, hn, hcr, fun b' hb' => (Option.some.inj hb').symm, fun hc => by simp [newEnt] at hc, hb, Or.inl rfl, Or.inl rfl,
      fun hm => by simp [newEnt] at hm, fun hm => by simp [newEnt] at hm, fun h => absurd rfl h, ⟨by simp [newEnt], by simp [newEnt]⟩⟩
  obtain ⟨k1, e1, hc1, hcat, _, _, _⟩ := addEntry_core h.core _ _ hok rfl
    (fun x hx a ha _ h2 => by
      rcases h2 with h2 | h2
      · exact ha h2
      · exact ha h2) hno
  unfold addEntry at e1
  rw [show (newEnt k.fresh n cr mo b).name = utf8Text n from rfl, lower_name hn, Outcome.ok_bind] at e1
  cases e1
  refine ⟨?_, h.phys, h.blank, ?_, h.page, h.next⟩
  · exact ⟨hc1.ents, hc1.ok, hc1.sep, hc1.ids, hc1.fresh, hc1.names, hc1.files⟩
  · intro hm; simp [withEnt] at hm

/-- Closing an entry that is on disk keeps everything. -/
theorem shut_inv {cd : Codec} {k : Catalog} {s : Store} {l1 l2 : Ghost} {x : File × (List Nat × Bytes)} (h : Inv cd k s (l1 ++ x :: l2))
    (hcl : Clean x.1) :
    Inv cd { k with ents := (l1 ++ (shut x.1, x.2) :: l2).map Prod.fst } s (l1 ++ (shut x.1, x.2) :: l2) := by
  have hx := h.core.ok x (by simp)
  have hsepx : ∀ z, z ∈ l1 ∨ z ∈ l2 → Sep z.1 x.1 := by
    have hp := h.core.sep
    rw [List.pairwise_append, List.pairwise_cons] at hp
    intro z hz
    rcases hz with hz | hz
    · exact hp.2.2 z hz x (by simp)
    · exact sep_symm (hp.2.1.1 z hz)
  have hcore := replace_core (s' := s) (y := (shut x.1, x.2)) h.core
    ⟨hx.name, hx.isName, hx.created, fun b' hb' => by simp [shut] at hb', fun _ => hcl, hx.packs, hx.dataLive, hx.headLive,
      hx.dataClean, hx.headClean, hx.apart, hx.notDir⟩ rfl rfl
    (fun z hz => ⟨hsepx z hz, h.core.ok z (by rcases hz with hz | hz <;> simp [hz])⟩) k.cat
  refine ⟨hcore, h.phys, h.blank, ?_, h.page, h.next⟩
  intro hfm
  rcases h.fat hfm with ⟨_, hl⟩ | ⟨h3, h4⟩
  · exact absurd hl (by simp)
  · right
    refine ⟨?_, ?_⟩
    · simp only
      rw [h3, h.core.ents]
      simp [fatBytes, shut]
    · intro z hz
      rw [List.mem_append, List.mem_cons] at hz
      rcases hz with hz | rfl | hz
      · exact h4 z (by simp [hz])
      · exact h4 x (by simp)
      · exact h4 z (by simp [hz])

/-- `write_and_close` of a new entry is flushing and closing it with its contents. -/
theorem writeAndClose_new {cd : Codec} {fuel : Nat} {k : Catalog} {id : Nat} {n : List Nat} {cr mo : Nat} {b : Bytes} {c' : Cat} {e' : File}
    (h : flushFile cd fuel k.cat (newEnt id n cr mo b) = .ok (some (c', e'))) :
    writeAndClose cd fuel k ⟨id, utf8Text n, cr, mo, 0, 0, none, true, true⟩ b = .ok (some { k with cat := c', ents := update k.ents (shut e') }) := by
  unfold flushFile newEnt at h
  simp only at h
  obtain ⟨r, hr, h⟩ := bind_ok h
  cases r with
  | none => cases h
  | some r =>
    obtain ⟨c1, e1⟩ := r
    simp only at h
    unfold flushData at hr
    simp only [if_true] at hr
    obtain ⟨p, hp, hr⟩ := bind_ok hr
    obtain ⟨q, hq, hr⟩ := bind_ok hr
    cases q with
    | none => cases hr
    | some q =>
      obtain ⟨c2, a2⟩ := q
      simp only at hr
      cases hr
      unfold flushHeader at h
      simp only [if_true] at h
      obtain ⟨hb, hhb, h⟩ := bind_ok h
      obtain ⟨q, hq2, h⟩ := bind_ok h
      cases q with
      | none => cases h
      | some q =>
        obtain ⟨c3, a3⟩ := q
        simp only at h
        cases h
        unfold writeAndClose openFile readData
        simp only [if_true, Outcome.ok_bind]
        rw [hp, Outcome.ok_bind, hq, Outcome.ok_bind]
        simp only
        unfold writeEnd
        simp only
        rw [hhb, Outcome.ok_bind, hq2, Outcome.ok_bind]
        rfl

/-- A name not yet there: `createFile`, the times, `write_and_close`. -/
theorem store_ok {cd : Codec} {k : Catalog} {s : Store} {ls : Ghost} (h : Inv cd k s ls) (n : List Nat) (hn : Name n) (b : Bytes)
    (hb : Packs cd b) (cr mo now : Nat) (hcr : cr < 2 ^ 64) (hno : ∀ x ∈ ls, ¬ SameText x.2.1 n) (fuel : Nat) (hf : LAST ≤ fuel)
    (hd : extent k.cat + cost cd (newEnt k.fresh n cr mo b) < LAST) :
    ∃ e0 k0 k' s' e', createFile k (utf8Text n) now = .ok (e0, k0) ∧
      writeAndClose cd fuel (setTimes k0 e0 cr mo).2 (setTimes k0 e0 cr mo).1 b = .ok (some k') ∧
      Inv cd k' s' (ls ++ [(e', (n, b))]) ∧ e'.created = cr ∧ e'.content = none ∧ Clean e' ∧
      extent k'.cat ≤ extent k.cat + cost cd (newEnt k.fresh n cr mo b) := by
  have hi := add_inv h n hn b hb cr mo hcr hno
  obtain ⟨c', e', s', hfl, hi2, hx, hcl, hcre⟩ := flushFile_ok (l2 := []) hi hd fuel hf
  have hsh := shut_inv hi2 hcl
  have hid : ∀ y ∈ k.ents, y.id ≠ k.fresh := by
    intro y hy
    rw [h.core.ents] at hy
    obtain ⟨w, hw, rfl⟩ := List.mem_map.1 hy
    have := h.core.fresh w hw
    omega
  have he' : e'.id = k.fresh := by
    have h1 := hfl
    unfold flushFile newEnt flushData at h1
    simp only [if_true] at h1
    obtain ⟨r, hr, h1⟩ := bind_ok h1
    cases r with
    | none => cases h1
    | some r =>
      obtain ⟨p, hp, hr⟩ := bind_ok hr
      obtain ⟨q, hq, hr⟩ := bind_ok hr
      cases q with
      | none => cases hr
      | some q =>
        cases hr
        simp only at h1
        unfold flushHeader at h1
        simp only [if_true] at h1
        obtain ⟨hb, hhb, h1⟩ := bind_ok h1
        obtain ⟨q2, hq2, h1⟩ := bind_ok h1
        cases q2 with
        | none => cases h1
        | some q2 =>
          cases h1
          rfl
  refine ⟨⟨k.fresh, utf8Text n, now, now, 0, 0, none, true, true⟩, withEnt k n ⟨k.fresh, utf8Text n, now, now, 0, 0, none, true, true⟩,
    { withEnt k n ⟨k.fresh, utf8Text n, cr, mo, 0, 0, none, true, true⟩ with cat := c', ents := k.ents ++ [shut e'] }, s', shut e', ?_, ?_, ?_, hcre, rfl, hcl, hx⟩
  · unfold createFile
    rcases getFile_core h.core n hn with ⟨e, _⟩ | ⟨l1, x, l2, rfl, e, hs, h1, h2⟩
    · rw [e, Outcome.ok_bind]
      simp only
      unfold addEntry
      simp only
      rw [lower_name hn, Outcome.ok_bind, Outcome.ok_bind]
      rfl
    · exact absurd hs (hno x (by simp))
  · have hup : (setTimes (withEnt k n ⟨k.fresh, utf8Text n, now, now, 0, 0, none, true, true⟩) ⟨k.fresh, utf8Text n, now, now, 0, 0, none, true, true⟩ cr mo).2 =
        withEnt k n ⟨k.fresh, utf8Text n, cr, mo, 0, 0, none, true, true⟩ := by
      unfold setTimes withEnt
      simp only
      rw [update_last (e := ⟨k.fresh, utf8Text n, now, now, 0, 0, none, true, true⟩) (e' := ⟨k.fresh, utf8Text n, cr, mo, 0, 0, none, true, true⟩) hid rfl]
    rw [hup]
    have := writeAndClose_new (k := withEnt k n ⟨k.fresh, utf8Text n, cr, mo, 0, 0, none, true, true⟩) hfl
    refine this.trans ?_
    congr 2
    show Catalog.mk _ _ _ _ _ _ = Catalog.mk _ _ _ _ _ _
    congr 1
    refine update_last (fun x hx => ?_) ?_
    · show x.id ≠ e'.id
      rw [he']; exact hid x hx
    · show k.fresh = e'.id
      exact he'.symm
  · refine (?_ : Inv cd _ s' _)
    have e1 : (ls ++ [(shut e', (n, b))]).map Prod.fst = k.ents ++ [shut e'] := by
      rw [List.map_append, h.core.ents]; rfl
    rw [e1] at hsh
    exact hsh

end Verif.Container
