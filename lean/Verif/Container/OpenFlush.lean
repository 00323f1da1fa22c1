import Verif.Container.OpenLemmas

/-! # Lemmas: flushing an open container -/

namespace Verif.Container
open Verif Verif.Stream Verif.Container.Spec Verif.Unicode Verif.Unicode.Spec

/-- What an entry that is not the one written sees. -/
theorem other_entry {cd : Codec} {s s' : Store} {a a' : Nat} {z : File} {p : List Nat × Bytes} (hz : EntOk cd s z p)
    (hoth : ∀ x, x ≠ a' → x ≠ 16 → s' x = s x) (hnew : a = 0 → s a' = none) (hold : a ≠ 0 → a' = a)
    (hsep : a ≠ 0 → a ≠ z.data ∧ a ≠ z.header) :
    EntOk cd s' z p ∧ (a' ≠ 0 → a' ≠ z.data ∧ a' ≠ z.header) := by
  have hne : ∀ x v, s x = some v → (x = z.data ∨ x = z.header) → x ≠ a' := by
    intro x v hv hx he
    by_cases h0 : a = 0
    · rw [he, hnew h0] at hv; cases hv
    · rw [hold h0] at he
      rcases hx with hx | hx
      · exact (hsep h0).1 (he.symm.trans hx)
      · exact (hsep h0).2 (he.symm.trans hx)
  refine ⟨ent_frame hz ?_ ?_, ?_⟩
  · intro q hq
    rw [hoth _ (hne _ _ hq (Or.inl rfl)) hz.notDir.1, hq]
  · intro q hq
    rw [hoth _ (hne _ _ hq (Or.inr rfl)) hz.notDir.2, hq]
  · intro ha'
    constructor
    · intro he
      rcases hz.dataLive with h | ⟨q, h, _⟩
      · exact ha' (he.trans h)
      · exact hne _ _ h (Or.inl rfl) he.symm
    · intro he
      rcases hz.headLive with h | ⟨q, h, _⟩
      · exact ha' (he.trans h)
      · exact hne _ _ h (Or.inr rfl) he.symm

theorem rep_long {c : Cat} {s : Store} (h : Rep c s) : 16 < c.data.data.length := by
  obtain ⟨_, _, _, h, _⟩ := h; exact h

/-- The entry after one of its blocks has been written. -/
def placed (sel : Bool) (e : File) (a : Nat) : File :=
  if sel then { e with data := a, dataMod := false } else { e with header := a, headerMod := false }

/-- One block of one entry is written: its content (`sel`) or its header. -/
theorem write_step {cd : Codec} {k : Catalog} {s : Store} {l1 l2 : Ghost} {x : File × (List Nat × Bytes)}
    (h : Inv cd k s (l1 ++ x :: l2)) (sel : Bool) (bs : Bytes) (p0 : Int) (hne : bs ≠ [])
    (hdata : sel = true → cd.unpack bs = .ok x.2.2)
    (hhead : sel = false → ∃ z m, Entry.headerBytes x.1.created m (utf8Text (padded x.2.1 z)) = .ok bs)
    (hd : extent k.cat + 31 + bs.length < LAST) (fuel : Nat) (hf : LAST ≤ fuel) :
    ∃ c' a' s', writeBlock fuel k.cat ⟨bs, p0⟩ (if sel then x.1.data else x.1.header) false none = .ok (some (c', a')) ∧
      Inv cd { k with cat := c', ents := (l1 ++ (placed sel x.1 a', x.2) :: l2).map Prod.fst } s' (l1 ++ (placed sel x.1 a', x.2) :: l2) ∧
      extent c' ≤ extent k.cat + 31 + bs.length ∧ a' ≠ 0 := by
  have hx := h.core.ok x (by simp)
  have ha : (if sel then x.1.data else x.1.header) = 0 ∨ ((if sel then x.1.data else x.1.header) ≠ 16 ∧
      ∃ old, s (if sel then x.1.data else x.1.header) = some old ∧ old ≠ []) := by
    cases sel
    · rcases hx.headLive with h0 | h0
      · exact Or.inl h0
      · exact Or.inr ⟨hx.notDir.2, h0⟩
    · rcases hx.dataLive with h0 | h0
      · exact Or.inl h0
      · exact Or.inr ⟨hx.notDir.1, h0⟩
  obtain ⟨c', a', s', e, hp', hrep, hs', hoth, h16, hnew, hold, ha16, hlo, hhi, hps, hsl, htell, hext⟩ :=
    phys_write k.cat s h.phys _ bs p0 ha hd fuel (by unfold extent at *; omega)
  have hsepx : ∀ z, z ∈ l1 ∨ z ∈ l2 → Sep z.1 x.1 := by
    have hp := h.core.sep
    rw [List.pairwise_append, List.pairwise_cons] at hp
    intro z hz
    rcases hz with hz | hz
    · exact hp.2.2 z hz x (by simp)
    · exact sep_symm (hp.2.1.1 z hz)
  have hothers : ∀ z, z ∈ l1 ∨ z ∈ l2 → Sep z.1 (placed sel x.1 a') ∧ EntOk cd s' z.1 z.2 := by
    intro z hz
    have hzok := h.core.ok z (by rcases hz with hz | hz <;> simp [hz])
    have hsz := hsepx z hz
    obtain ⟨h1, h2⟩ := other_entry hzok hoth hnew hold (by
      intro h0
      refine ⟨fun he => hsz _ h0 (Or.inl he) ?_, fun he => hsz _ h0 (Or.inr he) ?_⟩
      · cases sel
        · exact Or.inr rfl
        · exact Or.inl rfl
      · cases sel
        · exact Or.inr rfl
        · exact Or.inl rfl)
    refine ⟨?_, h1⟩
    intro b hb hbz hbx
    have h2 := h2 (by omega)
    unfold placed at hbx
    cases sel
    · rcases hbx with hbx | hbx
      · exact hsz b hb hbz (Or.inl hbx)
      · simp only [Bool.false_eq_true, if_false] at hbx
        rcases hbz with hbz | hbz
        · exact h2.1 (hbx.symm.trans hbz)
        · exact h2.2 (hbx.symm.trans hbz)
    · rcases hbx with hbx | hbx
      · simp only [if_true] at hbx
        rcases hbz with hbz | hbz
        · exact h2.1 (hbx.symm.trans hbz)
        · exact h2.2 (hbx.symm.trans hbz)
      · exact hsz b hb hbz (Or.inr hbx)
  -- the other block of the entry itself
  have hself : ∀ w, (w = if sel then x.1.header else x.1.data) → w ≠ a' := by
    intro w hw he
    by_cases h0 : (if sel then x.1.data else x.1.header) = 0
    · have hn := hnew h0
      have : w = 0 ∨ ∃ q, s w = some q ∧ q ≠ [] := by
        rw [hw]; cases sel
        · exact hx.dataLive
        · exact hx.headLive
      rcases this with hw0 | ⟨q, hq, _⟩
      · omega
      · rw [he, hn] at hq; cases hq
    · have := hold h0
      rw [this, hw] at he
      cases sel
      · exact hx.apart (by
          simp only [Bool.false_eq_true, if_false] at he h0 ⊢
          omega) he
      · exact hx.apart h0 he.symm
  have hy : EntOk cd s' (placed sel x.1 a') x.2 := by
    cases sel
    · have hda : x.1.data ≠ a' := hself x.1.data rfl
      have hkeep : ∀ q, s x.1.data = some q → s' x.1.data = some q := by
        intro q hq; rw [hoth _ hda hx.notDir.1, hq]
      refine ⟨hx.name, hx.isName, hx.created, hx.opened, fun hc => ⟨(hx.dirty hc).1, rfl⟩, hx.packs, ?_,
        Or.inr ⟨bs, hs', hne⟩, ?_, ?_, fun _ => hda, ⟨hx.notDir.1, ha16⟩⟩
      · rcases hx.dataLive with h0 | ⟨q, h1, h2⟩
        · exact Or.inl h0
        · exact Or.inr ⟨q, hkeep q h1, h2⟩
      · intro hm
        obtain ⟨q, h1, h2⟩ := hx.dataClean hm
        exact ⟨q, hkeep q h1, h2⟩
      · intro _
        obtain ⟨z, m, hb⟩ := hhead rfl
        exact ⟨bs, z, m, hs', hb⟩
    · have hda : x.1.header ≠ a' := hself x.1.header rfl
      have hkeep : ∀ q, s x.1.header = some q → s' x.1.header = some q := by
        intro q hq; rw [hoth _ hda hx.notDir.2, hq]
      refine ⟨hx.name, hx.isName, hx.created, hx.opened, fun hc => ⟨rfl, (hx.dirty hc).2⟩, hx.packs, Or.inr ⟨bs, hs', hne⟩, ?_,
        fun _ => ⟨bs, hs', hdata rfl⟩, ?_, fun _ => Ne.symm hda, ⟨ha16, hx.notDir.2⟩⟩
      · rcases hx.headLive with h0 | ⟨q, h1, h2⟩
        · exact Or.inl h0
        · exact Or.inr ⟨q, hkeep q h1, h2⟩
      · intro hm
        obtain ⟨q, z, m, h1, h2⟩ := hx.headClean hm
        exact ⟨q, z, m, hkeep q h1, h2⟩
  have hid : (placed sel x.1 a').id = x.1.id := by cases sel <;> rfl
  refine ⟨c', a', s', e, ⟨?_, hp', ?_, ?_, ?_, ?_⟩, hext, by omega⟩
  · exact replace_core (y := (placed sel x.1 a', x.2)) h.core hy hid rfl hothers c'
  · intro h16'
    have := rep_long hrep
    simp only at h16'
    omega
  · intro hfm
    right
    rcases h.fat hfm with ⟨_, hl⟩ | ⟨hfat, hnz⟩
    · exact absurd hl (by simp)
    · have hxn := hnz x (by simp)
      have hpl : placed sel x.1 a' = placed sel x.1 (if sel then x.1.data else x.1.header) := by
        rw [hold (by cases sel; exact hxn.2; exact hxn.1)]
      have hfb : fatBytes ((l1 ++ (placed sel x.1 a', x.2) :: l2).map Prod.fst) = fatBytes k.ents := by
        rw [h.core.ents, hpl]
        unfold fatBytes
        rw [List.map_append, List.map_append, List.map_cons, List.map_cons, List.flatMap_append, List.flatMap_append,
          List.flatMap_cons, List.flatMap_cons]
        cases sel <;> rfl
      refine ⟨by simp only; rw [hfb]; exact h16 _ hfat, ?_⟩
      intro z hz
      rw [List.mem_append, List.mem_cons] at hz
      rcases hz with hz | rfl | hz
      · exact hnz z (by simp [hz])
      · rw [hpl]; cases sel <;> exact hxn
      · exact hnz z (by simp [hz])
  · simp only
    rw [rdWord_congr 0 0 k.cat.data.data c'.data.data 4 (by omega) (phys_length h.phys) hsl, h.page, hps]
  · intro hem
    obtain ⟨h1, h2⟩ := htell hem
    simp only
    rw [rdWord_congr 0 0 k.cat.data.data c'.data.data 0 (by omega) (phys_length h.phys) hsl, h.next h1, h2]

/-! ## One entry -/

/-- The length of a byte string that may fail to come about. -/
def sizeOf' (b : Outcome Bytes) : Nat :=
  match b with
  | .ok b => b.length
  | _ => 0

/-- By how much flushing an entry may lengthen the stream. -/
def cost (cd : Codec) (e : File) : Nat :=
  match e.content with
  | none => 0
  | some b => (if e.dataMod then 31 + sizeOf' (cd.pack b) else 0) +
      (if e.headerMod then 31 + sizeOf' (Entry.headerBytes e.created e.modified e.name) else 0)

/-- An entry that is on disk. -/
def Clean (e : File) : Prop := e.dataMod = false ∧ e.headerMod = false

theorem Inv.same {cd : Codec} {k : Catalog} {s : Store} {ls : Ghost} (h : Inv cd k s ls) :
    Inv cd { k with cat := k.cat, ents := ls.map Prod.fst } s ls := by
  have : { k with cat := k.cat, ents := ls.map Prod.fst } = k := by rw [← h.core.ents]
  rw [this]; exact h

theorem flushFile_ok {cd : Codec} {k : Catalog} {s : Store} {l1 l2 : Ghost} {x : File × (List Nat × Bytes)}
    (h : Inv cd k s (l1 ++ x :: l2)) (hd : extent k.cat + cost cd x.1 < LAST) (fuel : Nat) (hf : LAST ≤ fuel) :
    ∃ c' e' s', flushFile cd fuel k.cat x.1 = .ok (some (c', e')) ∧
      Inv cd { k with cat := c', ents := (l1 ++ (e', x.2) :: l2).map Prod.fst } s' (l1 ++ (e', x.2) :: l2) ∧
      extent c' ≤ extent k.cat + cost cd x.1 ∧ Clean e' ∧ e'.created = x.1.created := by
  have hx := h.core.ok x (by simp)
  unfold flushFile
  unfold cost at hd ⊢
  cases hc : x.1.content with
  | none => exact ⟨k.cat, x.1, s, rfl, h.same, by omega, hx.dirty hc, rfl⟩
  | some b =>
    have hb := hx.opened b hc
    subst hb
    rw [hc] at hd
    simp only at hd ⊢
    obtain ⟨pk, hpk, hpkne, hun⟩ := hx.packs
    have step1 : ∃ c1 e1 s1, flushData cd fuel k.cat x.1 x.2.2 = .ok (some (c1, e1)) ∧
        Inv cd { k with cat := c1, ents := (l1 ++ (e1, x.2) :: l2).map Prod.fst } s1 (l1 ++ (e1, x.2) :: l2) ∧
        extent c1 ≤ extent k.cat + (if x.1.dataMod then 31 + sizeOf' (cd.pack x.2.2) else 0) ∧ e1.dataMod = false ∧
        e1.headerMod = x.1.headerMod ∧ e1.header = x.1.header ∧ e1.created = x.1.created ∧ e1.modified = x.1.modified ∧ e1.name = x.1.name := by
      unfold flushData
      cases hm : x.1.dataMod with
      | false => exact ⟨k.cat, x.1, s, rfl, h.same, by omega, hm, rfl, rfl, rfl, rfl, rfl⟩
      | true =>
        rw [hm, hpk] at hd
        simp only [if_true, sizeOf'] at hd ⊢
        obtain ⟨c1, a1, s1, e, h1, h2, h3⟩ := write_step h true pk 0 hpkne (fun _ => hun) (fun h => by cases h) (by omega) fuel hf
        refine ⟨c1, placed true x.1 a1, s1, ?_, h1, by rw [hpk]; simp only; omega, rfl, rfl, rfl, rfl, rfl, rfl⟩
        simp only [if_true] at e
        rw [hpk, Outcome.ok_bind, e]
        rfl
    obtain ⟨c1, e1, s1, he1, hi1, hx1, hm1, hh1, hhd, hcr, hmo, hna⟩ := step1
    rw [he1, Outcome.ok_bind]
    simp only
    unfold flushHeader
    rw [hh1]
    cases hm : x.1.headerMod with
    | false =>
      refine ⟨c1, e1, s1, rfl, hi1, ?_, ⟨hm1, by rw [hh1, hm]⟩, hcr⟩
      simp only [Bool.false_eq_true, if_false]; omega
    | true =>
      obtain ⟨z, hz⟩ := hx.name
      obtain ⟨hb, hhb, hhne, _⟩ := header_ok hx.isName z x.1.created x.1.modified
      rw [hm, hz, hhb] at hd
      simp only [if_true, sizeOf'] at hd ⊢
      obtain ⟨c2, a2, s2, e, h1, h2, h3⟩ := write_step hi1 false hb hb.length hhne (fun h => by cases h)
        (fun _ => ⟨z, x.1.modified, by simp only; rw [hcr]; exact hhb⟩) (by simp only; unfold sizeOf' at hx1; omega) fuel hf
      refine ⟨c2, placed false e1 a2, s2, ?_, h1, ?_, ⟨hm1, rfl⟩, hcr⟩
      · simp only [Bool.false_eq_true, if_false] at e
        have hhb' : Entry.headerBytes e1.created e1.modified e1.name = .ok hb := by rw [hcr, hmo, hna, hz, hhb]
        rw [hhb', Outcome.ok_bind, e]
        rfl
      · rw [hz, hhb]
        unfold sizeOf' at hx1
        simp only at h2 ⊢
        omega

/-! ## All entries -/

/-- When an entry was created. -/
def made (x : File × (List Nat × Bytes)) : Nat := x.1.created

def totalCost (cd : Codec) (es : List File) : Nat := (es.map (cost cd)).sum

theorem flushFiles_ok {cd : Codec} {k : Catalog} (fuel : Nat) (hf : LAST ≤ fuel) (rest : Ghost) : ∀ (c : Cat) (s : Store) (done : Ghost),
    Inv cd { k with cat := c, ents := (done ++ rest).map Prod.fst } s (done ++ rest) →
    extent c + totalCost cd (rest.map Prod.fst) < LAST → (∀ x ∈ done, Clean x.1) →
    ∃ c' s' ls', flushFiles cd fuel c (done.map Prod.fst) (rest.map Prod.fst) = .ok (some (c', ls'.map Prod.fst)) ∧
      Inv cd { k with cat := c', ents := ls'.map Prod.fst } s' ls' ∧ (∀ x ∈ ls', Clean x.1) ∧
      ls'.map Prod.snd = (done ++ rest).map Prod.snd ∧ ls'.map made = (done ++ rest).map made ∧
      extent c' ≤ extent c + totalCost cd (rest.map Prod.fst) := by
  induction rest with
  | nil =>
    intro c s done h hd hcl
    rw [List.append_nil] at *
    exact ⟨c, s, done, rfl, h, hcl, rfl, rfl, by omega⟩
  | cons x rest ih =>
    intro c s done h hd hcl
    unfold totalCost at hd
    simp only [List.map_cons, List.sum_cons] at hd
    obtain ⟨c1, e1, s1, he, hi, hx, hc1, hcre⟩ := flushFile_ok h (by simp only; omega) fuel hf
    simp only at he hi hx
    have hassoc : done ++ (e1, x.2) :: rest = (done ++ [(e1, x.2)]) ++ rest := by simp
    rw [hassoc] at hi
    obtain ⟨c2, s2, ls2, h1, h2, h3, h4, h6, h5⟩ := ih c1 s1 (done ++ [(e1, x.2)]) hi (by unfold totalCost; omega) (by
      intro y hy
      rcases List.mem_append.1 hy with hy | hy
      · exact hcl y hy
      · rw [List.mem_singleton.1 hy]; exact hc1)
    refine ⟨c2, s2, ls2, ?_, h2, h3, ?_, ?_, ?_⟩
    · rw [List.map_cons, flushFiles, he, Outcome.ok_bind]
      simp only
      rw [List.map_append] at h1
      exact h1
    · rw [h4]; simp
    · rw [h6]; simp [made, hcre]
    · unfold totalCost at h5 ⊢
      simp only [List.map_cons, List.sum_cons]
      omega

/-! ## The file header -/

theorem rdWord_take (x : UInt8) (d : Bytes) (off n : Nat) (rest : Bytes) (h : off + 4 ≤ n) (hn : n ≤ d.length) :
    rdWord x (d.take n ++ rest) off = rdWord x d off := by
  have hg : ∀ i, i < n → (d.take n ++ rest).getD i x = d.getD i x := by
    intro i hi
    rw [List.getD_eq_getElem?_getD, List.getD_eq_getElem?_getD, List.getElem?_append_left (by rw [List.length_take]; omega),
      List.getElem?_take_of_lt hi]
  simp only [rdWord]
  rw [hg off (by omega), hg (off + 1) (by omega), hg (off + 2) (by omega), hg (off + 3) (by omega)]

theorem rdWord_drop (x : UInt8) (d : Bytes) (n off : Nat) : rdWord x (d.drop n) off = rdWord x d (n + off) := by
  have hg : ∀ i, (d.drop n).getD i x = d.getD (n + i) x := by
    intro i
    rw [List.getD_eq_getElem?_getD, List.getD_eq_getElem?_getD, List.getElem?_drop]
  simp only [rdWord, hg, Nat.add_assoc]

theorem phys_next {c : Cat} {s : Store} (h : Phys c s) (hd : c.data.data.length < LAST) : c.next < 2 ^ 32 := by
  have hLd : LAST = 2147483647 := rfl
  rcases h.2 with ⟨hb, _⟩ | ⟨⟨free, blocks, hl, h16, hs⟩, _⟩
  · rw [hb.next]; omega
  · rw [hl.head]
    cases hfe : free with
    | nil => rw [headAddr]; omega
    | cons g gs =>
      have := (hl.inside g (by simp [hfe])).2
      unfold Page.stop at this
      rw [headAddr]; omega

theorem phys_outside {c c' : Cat} {s : Store} (hlen : c'.data.data.length = c.data.data.length) (hn : c'.next = c.next)
    (hps : c'.pageSize = c.pageSize)
    (hs : ∀ a n, 16 ≤ a → slice c'.data.data a n = slice c.data.data a n) (h : Phys c s) : Phys c' s := by
  refine ⟨by rw [hps]; exact h.1, ?_⟩
  rcases h.2 with ⟨hb, he⟩ | ⟨hr, hf, hroom⟩
  · exact Or.inl ⟨⟨by rw [hlen]; exact hb.size, by rw [hn]; exact hb.next, by rw [hps]; exact hb.page⟩, he⟩
  · refine Or.inr ⟨rep_outside hlen hn hs hr, hf, ?_⟩
    unfold HasRoom at *
    rw [hs _ _ (by omega)]; exact hroom

/-- What the file header says after flushing. -/
theorem flushHead_ok {c : Cat} {s : Store} (ver : Nat) (h : Phys c s) (hd : c.data.data.length < LAST)
    (hblank : c.data.data.length = 16 → c.data.data = template ∧ c.modified = false ∧ c.emptyMod = false)
    (hpage : rdWord 0 c.data.data 4 = c.pageSize) (hnext : c.emptyMod = false → rdWord 0 c.data.data 0 = c.next) :
    ∃ c' v, flushHead c ver = .ok (c', v) ∧ Phys c' s ∧ c'.data.data.length = c.data.data.length ∧ c'.pageSize = c.pageSize ∧
      c'.next = c.next ∧ c'.emptyMod = false ∧ c'.modified = false ∧ rdWord 0 c'.data.data 4 = c'.pageSize ∧
      rdWord 0 c'.data.data 0 = c'.next ∧ (c.data.data.length = 16 → c'.data.data = c.data.data) := by
  have hlen := phys_length h
  have hn32 := phys_next h hd
  have st1 : ∃ m1, putIf c.emptyMod c.data 0 c.next = .ok m1 ∧
      m1.data.length = c.data.data.length ∧ (∀ a k, 16 ≤ a → slice m1.data a k = slice c.data.data a k) ∧
      rdWord 0 m1.data 4 = c.pageSize ∧ rdWord 0 m1.data 0 = c.next ∧ (c.data.data.length = 16 → m1.data = c.data.data) := by
    cases hem : c.emptyMod with
    | false => exact ⟨c.data, rfl, rfl, fun _ _ _ => rfl, hpage, hnext hem, fun _ => rfl⟩
    | true =>
      obtain ⟨m1, e, hdt, hl, hsl⟩ := putWord_ok c.data 0 c.next (by omega)
      refine ⟨m1, e, hl, fun a k ha => hsl a k (by omega), ?_, ?_, ?_⟩
      · rw [hdt]
        simp only [List.take_zero, List.nil_append]
        rw [rdWord_skip 0 (word32 c.next) 4 0 _ rfl, rdWord_drop]
        exact hpage
      · rw [hdt]
        simp only [List.take_zero, List.nil_append]
        exact rdWord_word32 0 c.next hn32 _
      · intro h16
        have := (hblank h16).2.2
        rw [hem] at this; cases this
  obtain ⟨m1, e1, hl1, hsl1, hp1, hn1, hb1⟩ := st1
  have st2 : ∃ m2, putIf c.modified m1 8 (ver + 1) = .ok m2 ∧
      m2.data.length = c.data.data.length ∧ (∀ a k, 16 ≤ a → slice m2.data a k = slice c.data.data a k) ∧
      rdWord 0 m2.data 4 = c.pageSize ∧ rdWord 0 m2.data 0 = c.next ∧ (c.data.data.length = 16 → m2.data = c.data.data) := by
    cases hmo : c.modified with
    | false => exact ⟨m1, rfl, hl1, hsl1, hp1, hn1, hb1⟩
    | true =>
      obtain ⟨m2, e, hdt, hl, hsl⟩ := putWord_ok m1 8 (ver + 1) (by omega)
      refine ⟨m2, e, by omega, fun a k ha => (hsl a k (by omega)).trans (hsl1 a k ha), ?_, ?_, ?_⟩
      · rw [hdt, rdWord_take 0 m1.data 4 8 _ (by omega) (by omega), hp1]
      · rw [hdt, rdWord_take 0 m1.data 0 8 _ (by omega) (by omega), hn1]
      · intro h16
        have := (hblank h16).2.1
        rw [hmo] at this; cases this
  obtain ⟨m2, e2, hl2, hsl2, hp2, hn2, hb2⟩ := st2
  refine ⟨{ c with data := m2, emptyMod := false, modified := false }, if c.modified then ver + 1 else ver, ?_,
    phys_outside hl2 rfl rfl hsl2 h, hl2, rfl, rfl, rfl, rfl, hp2, hn2, hb2⟩
  unfold flushHead
  rw [e1, Outcome.ok_bind, e2, Outcome.ok_bind]

/-! ## The directory, and all of it -/

theorem fatBytes_length (es : List File) : (fatBytes es).length = 12 * es.length := by
  induction es with
  | nil => rfl
  | cons e es ih =>
    have : fatBytes (e :: es) = (word32 e.header ++ word32 e.data ++ word32 LAST) ++ fatBytes es := rfl
    rw [this, List.length_append, ih]
    simp [word32]; omega

/-- The bytes by which flushing may lengthen the stream. -/
def flushCost (cd : Codec) (k : Catalog) : Nat := totalCost cd k.ents + 31 + max (2 ^ 16) (12 * k.ents.length)

theorem flush_bounded {cd : Codec} {k : Catalog} {s : Store} {ls : Ghost} (h : Inv cd k s ls)
    (hd : extent k.cat + flushCost cd k < LAST) (fuel : Nat) (hf : LAST ≤ fuel) :
    ∃ k' s' ls', flush cd fuel k = .ok (some k') ∧ Inv cd k' s' ls' ∧ (∀ x ∈ ls', Clean x.1) ∧
      ls'.map Prod.snd = ls.map Prod.snd ∧ ls'.map made = ls.map made ∧ k'.fatMod = false ∧ k'.cat.emptyMod = false ∧
      extent k'.cat ≤ extent k.cat + flushCost cd k := by
  unfold flushCost at hd ⊢
  have hents := h.core.ents
  have hlenE : k.ents.length = ls.length := by rw [hents]; simp
  obtain ⟨c1, s1, ls1, e1, hi1, hcl, hsnd, hmade, hx1⟩ := flushFiles_ok (k := k) fuel hf ls k.cat s [] h.same (by
    rw [← hents]; omega) (by simp)
  simp only [List.map_nil, List.nil_append] at e1 hsnd hmade
  rw [← hents] at e1 hx1
  have hlen1 : ls1.length = ls.length := by
    have := congrArg List.length hsnd
    simpa using this
  have hext1 : c1.data.data.length < LAST := by unfold extent at *; omega
  -- every entry is on disk, so its addresses are not zero
  have hz1 : ∀ x ∈ ls1, x.1.data ≠ 0 ∧ x.1.header ≠ 0 := by
    intro x hx
    have hok := hi1.core.ok x hx
    have h0 := phys_zero hi1.phys hext1
    obtain ⟨q, h1, _⟩ := hok.dataClean (hcl x hx).1
    obtain ⟨q2, _, _, h2, _⟩ := hok.headClean (hcl x hx).2
    refine ⟨fun he => ?_, fun he => ?_⟩
    · rw [he, h0] at h1; cases h1
    · rw [he, h0] at h2; cases h2
  -- the directory
  have step2 : ∃ c2 s2, flushFat fuel c1 (ls1.map Prod.fst) k.fatMod = .ok (some c2) ∧ Phys c2 s2 ∧ c2.pageSize = c1.pageSize ∧
      slice c2.data.data 0 16 = slice c1.data.data 0 16 ∧ Tells c1 c2 ∧
      extent c2 ≤ extent k.cat + (totalCost cd k.ents + 31 + max (2 ^ 16) (12 * k.ents.length)) ∧
      (∀ a, a ≠ 16 → s2 a = s1 a) ∧
      (c2.data.data.length = 16 → c2 = c1) ∧
      ((Blank c2 ∧ ls1 = []) ∨ (s2 16 = some (fatBytes (ls1.map Prod.fst)))) := by
    unfold flushFat
    cases hfm : k.fatMod with
    | false =>
      refine ⟨c1, s1, rfl, hi1.phys, rfl, rfl, fun h => ⟨h, rfl⟩, by unfold extent at *; omega, fun _ _ => rfl, fun _ => rfl, ?_⟩
      rcases hi1.fat hfm with h1 | ⟨h1, _⟩
      · exact Or.inl h1
      · exact Or.inr h1
    | true =>
      obtain ⟨c2, e, hp, hr, hps, hsl, ht, hl⟩ := phys_fat c1 s1 hi1.phys (fatBytes (ls1.map Prod.fst))
        ((fatBytes (ls1.map Prod.fst)).length : Nat) (by rw [fatBytes_length]; simp only [List.length_map]; omega) fuel
        (by unfold extent at *; omega)
      rw [fatBytes_length, List.length_map] at hl
      refine ⟨c2, s1.set 16 (some (fatBytes (ls1.map Prod.fst))), ?_, hp, hps, hsl, ht, by unfold extent at *; omega, ?_, ?_, Or.inr ?_⟩
      · simp only [if_true]
        rw [e, Outcome.ok_bind]
      · intro a ha; unfold Store.set; rw [if_neg ha]
      · intro h16
        have := rep_long hr
        omega
      · unfold Store.set; exact if_pos rfl
  obtain ⟨c2, s2, e2, hp2, hps2, hsl2, ht2, hx2, hs2, hb2, hf2⟩ := step2
  have hlen2 : c2.data.data.length < LAST := by unfold extent at hx2 hd; omega
  have hw4 : rdWord 0 c2.data.data 4 = c2.pageSize := by
    rw [rdWord_congr 0 0 c1.data.data c2.data.data 4 (by omega) (phys_length hi1.phys) hsl2, hps2]
    exact hi1.page
  have hw0 : c2.emptyMod = false → rdWord 0 c2.data.data 0 = c2.next := by
    intro hem
    obtain ⟨h1, h2⟩ := ht2 hem
    rw [rdWord_congr 0 0 c1.data.data c2.data.data 0 (by omega) (phys_length hi1.phys) hsl2, h2]
    exact hi1.next h1
  have hbl2 : c2.data.data.length = 16 → c2.data.data = template ∧ c2.modified = false ∧ c2.emptyMod = false := by
    intro h16
    have := hb2 h16
    subst this
    exact hi1.blank h16
  obtain ⟨c3, v, e3, hp3, hl3, hps3, hn3, hem3, hmo3, hw43, hw03, hd3⟩ := flushHead_ok k.ver hp2 hlen2 hbl2 hw4 hw0
  refine ⟨{ k with cat := c3, ver := v, ents := ls1.map Prod.fst, fatMod := false }, s2, ls1, ?_, ⟨?_, hp3, ?_, ?_, hw43, fun _ => hw03⟩,
    hcl, hsnd, hmade, rfl, hem3, by unfold extent at *; simp only; omega⟩
  · unfold flush
    rw [show k.cat = { k with cat := k.cat, ents := ls.map Prod.fst }.cat from rfl] at *
    rw [e1, Outcome.ok_bind]
    simp only
    rw [e2, Outcome.ok_bind]
    simp only
    rw [e3, Outcome.ok_bind]
  · have hc := hi1.core
    refine ⟨rfl, ?_, hc.sep, hc.ids, hc.fresh, hc.names, hc.files⟩
    intro x hx
    have hok := hc.ok x hx
    refine ent_frame hok ?_ ?_
    · intro q hq; rw [hs2 _ hok.notDir.1]; exact hq
    · intro q hq; rw [hs2 _ hok.notDir.2]; exact hq
  · intro h16
    simp only at h16
    rw [hl3] at h16
    refine ⟨?_, hmo3, hem3⟩
    simp only
    rw [hd3 h16]; exact (hbl2 h16).1
  · intro _
    rcases hf2 with ⟨h1, h2⟩ | h1
    · left
      exact ⟨⟨by simp only; rw [hl3]; exact h1.size, by simp only; rw [hn3]; exact h1.next, by simp only; rw [hps3]; exact h1.page⟩, h2⟩
    · exact Or.inr ⟨h1, hz1⟩

theorem flush_ok {cd : Codec} {k : Catalog} {s : Store} {ls : Ghost} (h : Inv cd k s ls)
    (hd : extent k.cat + flushCost cd k < LAST) (fuel : Nat) (hf : LAST ≤ fuel) :
    ∃ k' s' ls', flush cd fuel k = .ok (some k') ∧ Inv cd k' s' ls' ∧ (∀ x ∈ ls', Clean x.1) ∧
      ls'.map Prod.snd = ls.map Prod.snd ∧ ls'.map made = ls.map made ∧ k'.fatMod = false ∧ k'.cat.emptyMod = false ∧
      extent k'.cat < LAST := by
  obtain ⟨k', s', ls', h1, h2, h3, h4, h5, h6, h7, h8⟩ := flush_bounded h hd fuel hf
  exact ⟨k', s', ls', h1, h2, h3, h4, h5, h6, h7, by omega⟩

end Verif.Container
