import Verif.Container.OpenPhys
import Verif.Entry.Theorems

/-! # Lemmas: the entries of an open container -/

namespace Verif.Container
open Verif Verif.Stream Verif.Container.Spec Verif.Unicode Verif.Unicode.Spec

/-! ## Names and headers -/

/-- A name as it is after some reopenings: with NULs behind it. -/
def padded (n : List Nat) (z : Nat) : List Nat := n ++ List.replicate z 0

theorem padded_scalar {n : List Nat} (h : Name n) (z : Nat) : ∀ c ∈ padded n z, Scalar c := by
  intro c hc
  rcases List.mem_append.mp hc with hc | hc
  · exact (h c hc).1
  · rw [(List.mem_replicate.mp hc).2]; decide

theorem padded_takeWhile {n : List Nat} (h : Name n) (z : Nat) : (padded n z).takeWhile (· ≠ 0) = n := by
  have := takeWhile_append_all (fun x => decide (x ≠ 0)) n (List.replicate z 0) (by
    intro c hc; simpa using (h c hc).2)
  rw [padded, this]
  cases z with
  | zero => simp
  | succ z => simp [List.replicate_succ]

/-- The key of a name in the map. -/
def key (n : List Nat) : Bytes := utf8Text (n.map toLower)

theorem lower_padded {n : List Nat} (h : Name n) (z : Nat) : lowerCase (utf8Text (padded n z)) = .ok (key n) := by
  rw [lowerCase_spec _ (padded_scalar h z), padded_takeWhile h z]
  rfl

theorem lower_name {n : List Nat} (h : Name n) : lowerCase (utf8Text n) = .ok (key n) := Entry.key_of_name n h

theorem key_same {a b : List Nat} (ha : Name a) (hb : Name b) : key a = key b ↔ SameText a b := Entry.key_eq_iff a b ha hb

theorem header_ok {n : List Nat} (hn : Name n) (z created m : Nat) :
    ∃ h, Entry.headerBytes created m (utf8Text (padded n z)) = .ok h ∧ h ≠ [] ∧
      (created < 2 ^ 64 → Entry.parseHeader h = .ok (created, (created + 8) % 2 ^ 64, utf8Text (padded n (z + 2)))) := by
  have hsc := padded_scalar hn z
  refine ⟨Entry.le64 created ++ Entry.le64 m ++ [0, 0, 0, 0] ++ utf16Text (padded n z) ++ [0, 0, 0, 0], ?_, by simp [Entry.le64], ?_⟩
  · unfold Entry.headerBytes
    rw [utf8_to_utf16 _ hsc]; rfl
  · intro hc
    have hz : [(0 : UInt8), 0, 0, 0] = utf16Text [0, 0] := by decide
    have hcat : utf16Text (padded n z) ++ [0, 0, 0, 0] = utf16Text (padded n (z + 2)) := by
      rw [hz]
      have : padded n (z + 2) = padded n z ++ [0, 0] := by
        rw [padded, padded, List.append_assoc, List.replicate_add]
        rfl
      rw [this]; unfold utf16Text; rw [List.flatMap_append]
    have h := utf16_to_utf8 (padded n (z + 2)) (padded_scalar hn (z + 2)) (Entry.le64 created ++ Entry.le64 m ++ [0, 0, 0, 0])
    have h20 : (Entry.le64 created ++ Entry.le64 m ++ [0, 0, 0, 0]).length = 20 := by simp [Entry.le64_length]
    rw [h20] at h
    unfold Entry.parseHeader
    rw [List.append_assoc _ (utf16Text _), hcat, h]
    simp only [Outcome.ok_bind]
    rw [List.append_assoc, List.append_assoc, Entry.rd64_le64 created hc]
    rfl

/-! ## What the entries stand for -/

/-- The content can be stored: packing it gives something, from which it can be had again. -/
def Packs (cd : Codec) (b : Bytes) : Prop := ∃ p, cd.pack b = .ok p ∧ p ≠ [] ∧ cd.unpack p = .ok b

/-- The entry `e` is the user's name and content `p`. -/
structure EntOk (cd : Codec) (s : Store) (e : File) (p : List Nat × Bytes) : Prop where
  name : ∃ z, e.name = utf8Text (padded p.1 z)
  isName : Name p.1
  created : e.created < 2 ^ 64
  opened : ∀ b, e.content = some b → b = p.2
  dirty : e.content = none → e.dataMod = false ∧ e.headerMod = false
  packs : Packs cd p.2
  dataLive : e.data = 0 ∨ ∃ q, s e.data = some q ∧ q ≠ []
  headLive : e.header = 0 ∨ ∃ q, s e.header = some q ∧ q ≠ []
  dataClean : e.dataMod = false → ∃ q, s e.data = some q ∧ cd.unpack q = .ok p.2
  headClean : e.headerMod = false → ∃ q z m, s e.header = some q ∧
    Entry.headerBytes e.created m (utf8Text (padded p.1 z)) = .ok q
  apart : e.data ≠ 0 → e.data ≠ e.header
  notDir : e.data ≠ 16 ∧ e.header ≠ 16

theorem ent_frame {cd : Codec} {s s' : Store} {e : File} {p : List Nat × Bytes} (h : EntOk cd s e p)
    (hd : ∀ q, s e.data = some q → s' e.data = some q) (hh : ∀ q, s e.header = some q → s' e.header = some q) :
    EntOk cd s' e p := by
  refine ⟨h.name, h.isName, h.created, h.opened, h.dirty, h.packs, ?_, ?_, ?_, ?_, h.apart, h.notDir⟩
  · rcases h.dataLive with h | ⟨q, h1, h2⟩
    · exact Or.inl h
    · exact Or.inr ⟨q, hd q h1, h2⟩
  · rcases h.headLive with h | ⟨q, h1, h2⟩
    · exact Or.inl h
    · exact Or.inr ⟨q, hh q h1, h2⟩
  · intro hm
    obtain ⟨q, h1, h2⟩ := h.dataClean hm
    exact ⟨q, hd q h1, h2⟩
  · intro hm
    obtain ⟨q, z, m, h1, h2⟩ := h.headClean hm
    exact ⟨q, z, m, hh q h1, h2⟩

/-- Two entries share no block. -/
def Sep (e f : File) : Prop := ∀ a, a ≠ 0 → (a = e.data ∨ a = e.header) → (a = f.data ∨ a = f.header) → False

theorem sep_symm {e f : File} (h : Sep e f) : Sep f e := fun a h0 h1 h2 => h a h0 h2 h1

abbrev Ghost := List (File × (List Nat × Bytes))

/-- The entries and the map of names are those of `ls`. -/
structure Core (cd : Codec) (k : Catalog) (s : Store) (ls : Ghost) : Prop where
  ents : k.ents = ls.map Prod.fst
  ok : ∀ x ∈ ls, EntOk cd s x.1 x.2
  sep : ls.Pairwise fun x y => Sep x.1 y.1
  ids : ls.Pairwise fun x y => x.1.id ≠ y.1.id
  fresh : ∀ x ∈ ls, x.1.id < k.fresh
  names : ls.Pairwise fun x y => ¬ SameText x.2.1 y.2.1
  files : ∀ q id, Entry.find k.files q = some id ↔ ∃ x ∈ ls, x.1.id = id ∧ key x.2.1 = q

theorem find_id {ls : Ghost} (h : ls.Pairwise fun x y => x.1.id ≠ y.1.id) (x : File × (List Nat × Bytes)) (hx : x ∈ ls) :
    (ls.map Prod.fst).find? (fun e => e.id = x.1.id) = some x.1 := by
  induction ls with
  | nil => cases hx
  | cons y ls ih =>
    rw [List.pairwise_cons] at h
    rw [List.map_cons, List.find?_cons]
    rcases List.mem_cons.1 hx with rfl | hx
    · simp
    · have hne := h.1 x hx
      rw [show decide (y.1.id = x.1.id) = false by simpa using hne]
      exact ih h.2 hx

/-- Looking up a name. -/
theorem getFile_core {cd : Codec} {k : Catalog} {s : Store} {ls : Ghost} (h : Core cd k s ls) (n : List Nat) (hn : Name n) :
    (getFile k (utf8Text n) = .ok none ∧ ∀ x ∈ ls, ¬ SameText x.2.1 n) ∨
    (∃ l1 x l2, ls = l1 ++ x :: l2 ∧ getFile k (utf8Text n) = .ok (some x.1) ∧ SameText x.2.1 n ∧
      (∀ y ∈ l1, ¬ SameText y.2.1 n) ∧ (∀ y ∈ l2, ¬ SameText y.2.1 n)) := by
  unfold getFile
  rw [lower_name hn, Outcome.ok_bind]
  cases hf : Entry.find k.files (key n) with
  | none =>
    left
    refine ⟨rfl, ?_⟩
    intro x hx hs
    have := (h.files (key n) x.1.id).2 ⟨x, hx, rfl, (key_same (h.ok x hx).isName hn).2 hs⟩
    rw [hf] at this
    cases this
  | some id =>
    right
    obtain ⟨x, hx, h1, h2⟩ := (h.files _ _).1 hf
    have hs := (key_same (h.ok x hx).isName hn).1 h2
    obtain ⟨l1, l2, rfl⟩ := List.append_of_mem hx
    have hfind := find_id h.ids x hx
    have hpw := List.pairwise_append.1 h.names
    have hpw2 := List.pairwise_cons.1 hpw.2.1
    have hdiff : ∀ y : File × (List Nat × Bytes), y ∈ l1 ++ x :: l2 → SameText y.2.1 n → key y.2.1 = key x.2.1 := by
      intro y hy hsy
      rw [(key_same (h.ok y hy).isName hn).2 hsy, h2]
    refine ⟨l1, x, l2, rfl, ?_, hs, ?_, ?_⟩
    · simp only
      rw [h.ents, ← h1, hfind]
    · intro y hy hsy
      have hy' : y ∈ l1 ++ x :: l2 := by simp [hy]
      exact hpw.2.2 y hy x (by simp) ((key_same (h.ok y hy').isName (h.ok x hx).isName).1 (hdiff y hy' hsy))
    · intro y hy hsy
      have hy' : y ∈ l1 ++ x :: l2 := by simp [hy]
      exact hpw2.1 y hy ((key_same (h.ok x hx).isName (h.ok y hy').isName).1 (hdiff y hy' hsy).symm)

/-- One entry more. -/
theorem addEntry_core {cd : Codec} {k : Catalog} {s : Store} {ls : Ghost} (h : Core cd k s ls) (e : File) (p : List Nat × Bytes)
    (he : EntOk cd s e p) (hid : e.id = k.fresh) (hsep : ∀ x ∈ ls, Sep x.1 e) (hn : ∀ x ∈ ls, ¬ SameText x.2.1 p.1) :
    ∃ k', addEntry k e = .ok k' ∧ Core cd k' s (ls ++ [(e, p)]) ∧ k'.cat = k.cat ∧ k'.fatMod = k.fatMod ∧ k'.ver = k.ver ∧
      k'.fresh = k.fresh + 1 := by
  obtain ⟨z, hz⟩ := he.name
  refine ⟨{ k with ents := k.ents ++ [e], files := Entry.assign k.files (key p.1) e.id, fresh := k.fresh + 1 }, ?_, ?_, rfl, rfl, rfl, rfl⟩
  · unfold addEntry
    rw [hz, lower_padded he.isName z, Outcome.ok_bind]
  · refine ⟨by simp [h.ents], ?_, ?_, ?_, ?_, ?_, ?_⟩
    · intro x hx
      rcases List.mem_append.1 hx with hx | hx
      · exact h.ok x hx
      · rw [List.mem_singleton.1 hx]; exact he
    · rw [List.pairwise_append]
      refine ⟨h.sep, by simp, ?_⟩
      intro x hx y hy
      rw [List.mem_singleton.1 hy]; exact hsep x hx
    · rw [List.pairwise_append]
      refine ⟨h.ids, by simp, ?_⟩
      intro x hx y hy
      rw [List.mem_singleton.1 hy]
      have := h.fresh x hx
      show x.1.id ≠ e.id
      omega
    · intro x hx
      show x.1.id < k.fresh + 1
      rcases List.mem_append.1 hx with hx | hx
      · have := h.fresh x hx; omega
      · rw [List.mem_singleton.1 hx]; show e.id < _; omega
    · rw [List.pairwise_append]
      refine ⟨h.names, by simp, ?_⟩
      intro x hx y hy
      rw [List.mem_singleton.1 hy]; exact hn x hx
    · intro q id
      show Entry.find (Entry.assign k.files (key p.1) e.id) q = some id ↔ _
      rw [Entry.find_assign]
      by_cases hq : q = key p.1
      · rw [if_pos hq]
        constructor
        · intro hi; exact ⟨(e, p), by simp, Option.some.inj hi, hq.symm⟩
        · rintro ⟨x, hx, h1, h2⟩
          rcases List.mem_append.1 hx with hx | hx
          · exact absurd ((key_same (h.ok x hx).isName he.isName).1 (h2.trans hq)) (hn x hx)
          · rw [List.mem_singleton.1 hx] at h1; rw [← h1]
      · rw [if_neg hq, h.files]
        constructor
        · rintro ⟨x, hx, h1, h2⟩; exact ⟨x, by simp [hx], h1, h2⟩
        · rintro ⟨x, hx, h1, h2⟩
          rcases List.mem_append.1 hx with hx | hx
          · exact ⟨x, hx, h1, h2⟩
          · rw [List.mem_singleton.1 hx] at h2; exact absurd h2.symm hq

theorem pairwise_replace {α : Type} {R : α → α → Prop} (hsym : ∀ a b, R a b → R b a) {l1 l2 : List α} {x y : α}
    (h : (l1 ++ x :: l2).Pairwise R) (hy : ∀ z, z ∈ l1 ∨ z ∈ l2 → R z y) : (l1 ++ y :: l2).Pairwise R := by
  rw [List.pairwise_append, List.pairwise_cons] at *
  refine ⟨h.1, ⟨fun z hz => hsym _ _ (hy z (Or.inr hz)), h.2.1.2⟩, ?_⟩
  intro a ha b hb
  rcases List.mem_cons.1 hb with rfl | hb
  · exact hy a (Or.inl ha)
  · exact h.2.2 a ha b (by simp [hb])

/-- One entry is replaced by another with the same identity and name; the store may change outside the other entries. -/
theorem replace_core {cd : Codec} {k : Catalog} {s s' : Store} {l1 l2 : Ghost} {x y : File × (List Nat × Bytes)}
    (h : Core cd k s (l1 ++ x :: l2)) (hy : EntOk cd s' y.1 y.2) (hid : y.1.id = x.1.id) (hname : y.2.1 = x.2.1)
    (hoth : ∀ z, z ∈ l1 ∨ z ∈ l2 → Sep z.1 y.1 ∧ EntOk cd s' z.1 z.2) (c : Cat) :
    Core cd { k with cat := c, ents := (l1 ++ y :: l2).map Prod.fst } s' (l1 ++ y :: l2) := by
  have hx : x ∈ l1 ++ x :: l2 := by simp
  have hmem : ∀ z, z ∈ l1 ∨ z ∈ l2 → z ∈ l1 ++ x :: l2 := by
    intro z hz; rcases hz with h | h <;> simp [h]
  have hother : ∀ (R : File × (List Nat × Bytes) → File × (List Nat × Bytes) → Prop), (∀ a b, R a b → R b a) →
      (l1 ++ x :: l2).Pairwise R → ∀ z, z ∈ l1 ∨ z ∈ l2 → R z x := by
    intro R hR hp z hz
    rw [List.pairwise_append, List.pairwise_cons] at hp
    rcases hz with hz | hz
    · exact hp.2.2 z hz x (by simp)
    · exact hR _ _ (hp.2.1.1 z hz)
  refine ⟨rfl, ?_, ?_, ?_, ?_, ?_, ?_⟩
  · intro z hz
    rw [List.mem_append, List.mem_cons] at hz
    rcases hz with hz | rfl | hz
    · exact (hoth z (Or.inl hz)).2
    · exact hy
    · exact (hoth z (Or.inr hz)).2
  · exact pairwise_replace (R := fun a b => Sep a.1 b.1) (fun a b hab => sep_symm hab) h.sep (fun z hz => (hoth z hz).1)
  · refine pairwise_replace (R := fun (a b : File × (List Nat × Bytes)) => a.1.id ≠ b.1.id) (fun a b hab => Ne.symm hab) h.ids ?_
    intro z hz
    rw [hid]
    exact hother (fun a b => a.1.id ≠ b.1.id) (fun a b hab => Ne.symm hab) h.ids z hz
  · intro z hz
    rw [List.mem_append, List.mem_cons] at hz
    rcases hz with hz | rfl | hz
    · exact h.fresh z (hmem z (Or.inl hz))
    · rw [hid]; exact h.fresh x hx
    · exact h.fresh z (hmem z (Or.inr hz))
  · have hR : ∀ a b : File × (List Nat × Bytes), (¬ SameText a.2.1 b.2.1 ∧ Name a.2.1 ∧ Name b.2.1) → (¬ SameText b.2.1 a.2.1 ∧ Name b.2.1 ∧ Name a.2.1) := by
      rintro a b ⟨h1, h2, h3⟩
      refine ⟨fun hs => h1 ?_, h3, h2⟩
      exact (key_same h2 h3).1 ((key_same h3 h2).2 hs).symm
    have hp : (l1 ++ x :: l2).Pairwise fun a b => ¬ SameText a.2.1 b.2.1 ∧ Name a.2.1 ∧ Name b.2.1 := by
      refine h.names.imp_of_mem ?_
      intro a b ha hb hab
      exact ⟨hab, (h.ok a ha).isName, (h.ok b hb).isName⟩
    have := pairwise_replace (y := y) hR hp (by
      intro z hz
      rw [hname]
      exact hother (fun a b => ¬ SameText a.2.1 b.2.1 ∧ Name a.2.1 ∧ Name b.2.1) hR hp z hz)
    exact this.imp (fun h => h.1)
  · intro q id
    show Entry.find k.files q = some id ↔ _
    rw [h.files]
    constructor
    · rintro ⟨z, hz, h1, h2⟩
      rw [List.mem_append, List.mem_cons] at hz
      rcases hz with hz | rfl | hz
      · exact ⟨z, by simp [hz], h1, h2⟩
      · exact ⟨y, by simp, by rw [hid]; exact h1, by rw [hname]; exact h2⟩
      · exact ⟨z, by simp [hz], h1, h2⟩
    · rintro ⟨z, hz, h1, h2⟩
      rw [List.mem_append, List.mem_cons] at hz
      rcases hz with hz | rfl | hz
      · exact ⟨z, by simp [hz], h1, h2⟩
      · exact ⟨x, by simp, by rw [← hid]; exact h1, by rw [← hname]; exact h2⟩
      · exact ⟨z, by simp [hz], h1, h2⟩

theorem update_at {l1 l2 : Ghost} {x : File × (List Nat × Bytes)} (h : (l1 ++ x :: l2).Pairwise fun x y => x.1.id ≠ y.1.id)
    (e : File) (he : e.id = x.1.id) :
    update ((l1 ++ x :: l2).map Prod.fst) e = l1.map Prod.fst ++ e :: l2.map Prod.fst := by
  rw [List.pairwise_append, List.pairwise_cons] at h
  unfold update
  rw [List.map_append, List.map_cons, List.map_append, List.map_cons, if_pos he.symm]
  have h1 : ∀ l : Ghost, (∀ y ∈ l, y.1.id ≠ e.id) → (l.map Prod.fst).map (fun x => if x.id = e.id then e else x) = l.map Prod.fst := by
    intro l hl
    rw [List.map_map]
    refine List.map_congr_left ?_
    intro y hy
    simp only [Function.comp]
    rw [if_neg (hl y hy)]
  rw [h1 l1 (fun y hy => by rw [he]; exact h.2.2 y hy x (by simp)), h1 l2 (fun y hy => by rw [he]; exact Ne.symm (h.2.1.1 y hy))]

/-! ## The whole state -/

/-- The open container `k`, with the blocks `s`, is the user's names and contents. -/
structure Inv (cd : Codec) (k : Catalog) (s : Store) (ls : Ghost) : Prop where
  core : Core cd k s ls
  phys : Phys k.cat s
  blank : k.cat.data.data.length = 16 → k.cat.data.data = template ∧ k.cat.modified = false ∧ k.cat.emptyMod = false
  fat : k.fatMod = false → (Blank k.cat ∧ ls = []) ∨
    (s 16 = some (fatBytes k.ents) ∧ ∀ x ∈ ls, x.1.data ≠ 0 ∧ x.1.header ≠ 0)
  page : rdWord 0 k.cat.data.data 4 = k.cat.pageSize
  next : k.cat.emptyMod = false → rdWord 0 k.cat.data.data 0 = k.cat.next

theorem rep_range {c : Cat} {s : Store} (h : Rep c s) (hd : c.data.data.length < LAST) (a : Nat) (v : Bytes) (ha : s a = some v) :
    16 ≤ a ∧ a < LAST := by
  obtain ⟨free, blocks, hl, h16, hs⟩ := h
  obtain ⟨b, hb, h1, h2⟩ := (hs a v).1 ha
  obtain ⟨⟨g, rest, hge, _⟩, _⟩ := hl.stored b hb
  have hg := hl.inside g (pages_of_block hb (by rw [hge]; simp))
  have := hg.2
  unfold Page.stop at this
  rw [hge] at h1
  simp only [headAddr] at h1
  omega

theorem phys_zero {c : Cat} {s : Store} (h : Phys c s) (hd : c.data.data.length < LAST) : s 0 = none := by
  rcases h.2 with ⟨_, rfl⟩ | ⟨hr, _⟩
  · rfl
  · cases h0 : s 0 with
    | none => rfl
    | some v =>
      have := rep_range hr hd 0 v h0
      omega

/-- Reading the content of an entry. -/
theorem openFile_ok {cd : Codec} {k : Catalog} {s : Store} {e : File} {p : List Nat × Bytes} (hp : Phys k.cat s)
    (he : EntOk cd s e p) (hd : extent k.cat < LAST) (fuel : Nat) (hf : extent k.cat < fuel) :
    openFile cd fuel k.cat e = .ok (some { e with content := some p.2 }) := by
  unfold openFile
  unfold extent at *
  cases hc : e.content with
  | some b =>
    simp only
    have := he.opened b hc
    subst this
    rw [← hc]
  | none =>
    simp only
    obtain ⟨q, h1, h2⟩ := he.dataClean (he.dirty hc).1
    rcases hp.2 with ⟨_, rfl⟩ | ⟨hr, _⟩
    · cases h1
    · have hrange := rep_range hr (by omega) _ _ h1
      obtain ⟨pp, hrd⟩ := block_reads k.cat s hr (by omega) e.data q h1 fuel (by omega)
      unfold readData
      rw [if_neg (by omega), hrd]
      simp only [Outcome.ok_bind]
      rw [h2]
      rfl

theorem replaceAll_ok (old buf : Bytes) : replaceAll old buf = .ok buf := by
  unfold replaceAll
  have key : ∀ m : Mem, m.data.length ≤ buf.length →
      (do let m ← seekB m 0; let (_, m) ← m.write buf; Outcome.ok m.data : Outcome Bytes) = .ok buf := by
    intro m hm
    have hw := write_at m.data 0 buf (by omega)
    rw [seekB_ok m 0 (by omega), Outcome.ok_bind, hw]
    simp only [Outcome.ok_bind, putAt, List.take_zero, List.nil_append, Nat.zero_add]
    rw [List.drop_eq_nil_of_le hm, List.append_nil]
  split
  · rename_i h
    unfold Mem.setSize
    rw [if_neg (by omega), Outcome.ok_bind]
    refine key _ ?_
    simp only [Int.toNat_natCast]
    rw [length_resizeB]
    exact Nat.le_refl _
  · rename_i h
    rw [Outcome.ok_bind]
    exact key _ (by simp only; omega)

end Verif.Container
