import Verif.Config.ExtSpec
import Verif.Config.ChainTheorems
import Verif.Config.CasTheorems
import Verif.Hex.Theorems

/-! # Property theorems: the configuration of an extension as a container file (C112) -/

namespace Verif.Config.Ext
open Verif Verif.Config Verif.Unicode.Spec Verif.Config.Chain

/-! ## Lemmas -/

/-- The order of the keys rearranges the list that the pairs are made of. -/
theorem byKey_map {α β : Type} (g : β → Str × α) (l : List β) : ∃ l' : List β, l'.Perm l ∧ byKey (l.map g) = l'.map g := by
  have ins : ∀ (x : β) (l : List β), ∃ l' : List β, l'.Perm (x :: l) ∧ insKey (g x) (l.map g) = l'.map g := by
    intro x l
    induction l with
    | nil => exact ⟨[x], .refl _, rfl⟩
    | cons y l ih =>
      rw [List.map_cons, insKey]
      split
      · exact ⟨x :: y :: l, .refl _, rfl⟩
      · obtain ⟨l', h1, h2⟩ := ih
        exact ⟨y :: l', (h1.cons y).trans (.swap x y l), by rw [h2]; rfl⟩
  induction l with
  | nil => exact ⟨[], .refl _, rfl⟩
  | cons x l ih =>
    obtain ⟨l', h1, h2⟩ := ih
    obtain ⟨l'', h3, h4⟩ := ins x l'
    refine ⟨l'', h3.trans (h1.cons x), ?_⟩
    show insKey (g x) (byKey (l.map g)) = _
    rw [h2, h4]

theorem hash_name (h : Bytes) : Unicode.Spec.Name (Spec.hashName h) ∧ Field.Spec.utf8Str (Spec.hashName h) = Hex.hexstring h := by
  have key : ∀ d : UInt8, (∀ c ∈ [Spec.hexDigit (d.toNat / 16), Spec.hexDigit (d.toNat % 16)], c < 128 ∧ c ≠ 0) ∧
      (utf8Text [Spec.hexDigit (d.toNat / 16), Spec.hexDigit (d.toNat % 16)]).map (fun b => Char.ofNat b.toNat) = Hex.hexByte d := by
    apply forall_byte; decide +kernel
  constructor
  · intro c hc
    obtain ⟨b, _, hb⟩ := List.mem_flatMap.mp hc
    obtain ⟨h1, h2⟩ := (key b).1 c hb
    exact ⟨by unfold Unicode.Spec.Scalar; omega, h2⟩
  · induction h with
    | nil => rfl
    | cons b h ih =>
      rw [Hex.hexstring, ← ih, ← (key b).2]
      unfold Spec.hashName Field.Spec.utf8Str utf8Text
      rw [List.flatMap_cons, List.flatMap_append, List.map_append]

theorem info_codes : Unicode.Spec.Name (Chain.Spec.codes "configinfo") := by
  intro c hc
  revert c
  unfold Unicode.Spec.Scalar
  decide

theorem info_nonempty : Chain.Spec.codes "configinfo" ≠ [] := by decide

theorem info_str : Field.Spec.utf8Str (Chain.Spec.codes "configinfo") = infoName := ascii_str _ (by decide)

theorem info_lower : lowerStr infoName = infoName := by decide +kernel

theorem info_chars : (Chain.Spec.codes "configinfo").map Char.ofNat = infoName := by decide

theorem info_packed : isPacked lowerText infoName = .ok true := by decide +kernel

/-- Opening and parsing the list. -/
theorem readInfo_ok (a : Around) (io : Io) (tf : TFile) (raw plain : Bytes) (tt : Tree.Node) (hr : Opening.Spec.Raw io tf.addr raw)
    (hi : io.inflate raw = (plain, true)) (hp : a.parse plain = .ok tt) :
    ∃ h, readInfo a io tf = .ok (h, tt) ∧ Opening.Spec.run lowerText io infoName tf.addr [.open] Handle.init = .ok h := by
  obtain ⟨h0, e0, ⟨h', e1, i, e2, e3⟩, _⟩ := Opening.opening_partial (lower := lowerText) (io := io) (name := infoName) (parts := tf.addr)
    (raw := raw) (plain := plain) hr (.inl ⟨info_packed, hi⟩) []
  cases (show Outcome.ok Handle.init = .ok h0 from e0)
  refine ⟨h', ?_, ?_⟩
  · unfold readInfo
    rw [e1, Outcome.ok_bind]
    simp only [if_true]
    have : streamData h' = .ok plain := by
      unfold streamData
      rw [e2]
      dsimp only
      unfold Handle.data
      rw [e3]
    rw [this, Outcome.ok_bind, hp, Outcome.ok_bind]
  · unfold Opening.Spec.run Opening.Spec.step
    rw [e1]
    rfl

/-- The stored file of a hash; something, if there is none. -/
def fileOf (store : List (Str × TFile)) (h : Bytes) : TFile :=
  match getFile lowerStr store (Hex.hexstring h) with
  | some f => f
  | none => ⟨[], [], 0, 0⟩

theorem casLoop_exact (store : List (Str × TFile)) (extra : List Tree.Node) (entries : List (Str × Bytes)) :
    ∀ buf out, (∀ e ∈ entries, buf.length ≤ e.2.length) → Config.Spec.Growing entries →
    (∀ e ∈ entries, ∃ f, getFile lowerStr store (Hex.hexstring e.2) = some f) →
    (out.map Prod.fst ++ entries.map (fun e => lowerStr e.1)).Nodup →
    casLoop lowerStr store entries.length (entries.flatMap Config.Spec.pairNodes ++ extra) buf out =
      .ok (out ++ entries.map (fun e => (lowerStr e.1, (⟨e.1, fileOf store e.2⟩ : Named)))) := by
  induction entries with
  | nil => intro buf out _ _ _ _; rw [casLoop.eq_def]; simp
  | cons e entries ih =>
    intro buf out hb hg hall hn
    have hg' := List.pairwise_cons.mp hg
    rw [List.flatMap_cons, List.append_assoc, List.length_cons, casLoop_cons _ _ _ _ _ _ _ (hb e (List.mem_cons_self ..))]
    obtain ⟨f, hf⟩ := hall e (List.mem_cons_self ..)
    have hf' : find store (lowerStr (Hex.hexstring e.2)) = some f := hf
    rw [hf']
    dsimp only
    have hnew : lowerStr e.1 ∉ out.map Prod.fst := by
      intro hm
      exact (List.nodup_append.mp hn).2.2 _ hm _ (List.mem_map_of_mem (f := fun e : Str × Bytes => lowerStr e.1) (List.mem_cons_self ..)) rfl
    rw [upd_new _ _ _ hnew, ih e.2 _ hg'.1 hg'.2 (fun x hx => hall x (List.mem_cons_of_mem _ hx)) (by
      rw [List.map_append, List.append_assoc]
      exact hn)]
    have : fileOf store e.2 = f := by unfold fileOf; rw [hf]
    simp [this]

theorem casSaveLoop_exact (store : List (Str × TFile)) (extra : List Tree.Node) (entries : List (Str × Bytes)) :
    ∀ buf out, (∀ e ∈ entries, buf.length ≤ e.2.length) → Config.Spec.Growing entries →
    (∀ e ∈ entries, ∃ f, getFile lowerStr store (Hex.hexstring e.2) = some f) →
    (out.map Prod.fst ++ entries.map (fun e => lowerStr e.1)).Nodup →
    casSaveLoop lowerStr store entries.length (entries.flatMap Config.Spec.pairNodes ++ extra) buf out =
      .ok (out ++ entries.map (fun e => (lowerStr e.1, (⟨e.1, fileOf store e.2⟩ : Named)))) := by
  induction entries with
  | nil => intro buf out _ _ _ _; rw [casSaveLoop.eq_def]; simp
  | cons e entries ih =>
    intro buf out hb hg hall hn
    have hg' := List.pairwise_cons.mp hg
    have hnew : lowerStr e.1 ∉ out.map Prod.fst := by
      intro hm
      exact (List.nodup_append.mp hn).2.2 _ hm _ (List.mem_map_of_mem (f := fun e : Str × Bytes => lowerStr e.1) (List.mem_cons_self ..)) rfl
    have hnone : find out (lowerStr e.1) = none := by
      cases hfi : find out (lowerStr e.1) with
      | none => rfl
      | some v => exact absurd (List.mem_map_of_mem (f := Prod.fst) (mem_of_find hfi)) hnew
    rw [List.flatMap_cons, List.append_assoc, List.length_cons, casSaveLoop_cons _ _ _ _ _ _ _ (hb e (List.mem_cons_self ..)) hnone]
    obtain ⟨f, hf⟩ := hall e (List.mem_cons_self ..)
    have hf' : find store (lowerStr (Hex.hexstring e.2)) = some f := hf
    rw [hf']
    dsimp only
    rw [upd_new _ _ _ hnew, ih e.2 _ hg'.1 hg'.2 (fun x hx => hall x (List.mem_cons_of_mem _ hx)) (by
      rw [List.map_append, List.append_assoc]
      exact hn)]
    have : fileOf store e.2 = f := by unfold fileOf; rw [hf]
    simp [this]

/-! ## Saving named files -/

/-- A file to be saved: its name, the stored file, and what the table has for it. -/
abbrev Piece := List Nat × Chain.Spec.CFile × TFile

/-- The file of the map. -/
def Piece.entry (x : Piece) : Str × Named := (lowerStr (Field.Spec.utf8Str x.1), ⟨Field.Spec.utf8Str x.1, x.2.2⟩)

def Piece.item (a : Around) (io : Io) (info : Option TFile) (x : Piece) : Item :=
  ⟨x.1.map Char.ofNat, x.2.2.addr, .ofInt x.2.2.created, .ofInt x.2.2.modified, extHandle a io ⟨Field.Spec.utf8Str x.1, x.2.2⟩ info⟩

theorem extItems_ok (a : Around) (io : Io) (info : Option TFile) (l : List Piece) (h : ∀ x ∈ l, Unicode.Spec.Name x.1) :
    extItems a io info (l.map Piece.entry) = .ok (l.map (Piece.item a io info)) := by
  induction l with
  | nil => rfl
  | cons x l ih =>
    rw [List.map_cons, extItems]
    have : nameText (Piece.entry x).2.name = .ok (x.1.map Char.ofNat) := name_text (h x (List.mem_cons_self ..))
    rw [this, Outcome.ok_bind, ih (fun y hy => h y (List.mem_cons_of_mem _ hy)), Outcome.ok_bind]
    rfl

theorem perm_room (l l' : List (Item × Bytes)) (h : l.Perm l') : Whole.Spec.room l = Whole.Spec.room l' := by
  unfold Whole.Spec.room
  rw [h.length_eq, (h.map _).sum_nat]

/-- Saving the files of the map, whose contents are read. -/
theorem save_pieces (a : Around) (io : Io) (fuel : Nat) (hf : Container.LAST ≤ fuel) (info : Option TFile) (l : List Piece)
    (hname : ∀ x ∈ l, Unicode.Spec.Name x.1 ∧ x.1 ≠ []) (hd : l.Pairwise (fun x y => ¬ SameText x.1 y.1))
    (hraw : ∀ x ∈ l, Opening.Spec.Raw io x.2.2.addr x.2.1.contents ∧ x.2.1.contents ≠ [])
    (hopen : ∀ x ∈ l, info = some x.2.2 → x.1 = Chain.Spec.codes "configinfo" → ∃ plain h tt, io.inflate x.2.1.contents = (plain, true) ∧
      readInfo a io x.2.2 = .ok (h, tt) ∧ Opening.Spec.run lowerText io infoName x.2.2.addr [.open] Handle.init = .ok h)
    (hroom : Spec.room (l.map (fun x => (x.1, x.2.1))) < 2 ^ 31 - 1) (old : Option Bytes) :
    ∃ its d its' k, extItems a io info (byKey (l.map Piece.entry)) = .ok its ∧
      saveConfig ⟨lowerText, io, a.stamp, a.now⟩ fuel true old its = .ok (some (true, some d, its')) ∧
      Container.openCatalog fuel d = .ok (some (.container k)) ∧ k.ents.length = l.length ∧
      (∀ x ∈ l, ∀ n, Unicode.Spec.Name n → SameText x.1 n →
        Container.content Container.plainCodec fuel k (utf8Text n) = .ok (some (some x.2.1.contents))) ∧
      (∀ n, Unicode.Spec.Name n → (∀ x ∈ l, ¬ SameText x.1 n) →
        Container.content Container.plainCodec fuel k (utf8Text n) = .ok (some none)) ∧
      (∀ e ∈ k.ents, ∃ x ∈ l, (∃ z, e.name = utf8Text (x.1 ++ List.replicate z 0)) ∧
        Whole.Spec.Same64 (a.stamp (.ofInt x.2.2.created)) e.created) := by
  obtain ⟨l', hp, he⟩ := byKey_map Piece.entry l
  have hm : ∀ x, x ∈ l' ↔ x ∈ l := fun x => hp.mem_iff
  have hcodes : ∀ x ∈ l, Whole.Spec.codes (x.1.map Char.ofNat) = x.1 := fun x hx => codes_chars (hname x hx).1
  generalize hL : l'.map (fun x => (Piece.item a io info x, x.2.1.contents)) = L
  have hLmem : ∀ p ∈ L, ∃ x ∈ l, p = (Piece.item a io info x, x.2.1.contents) := by
    intro p hp
    rw [← hL] at hp
    obtain ⟨x, hx, rfl⟩ := List.mem_map.mp hp
    exact ⟨x, (hm x).mp hx, rfl⟩
  obtain ⟨d, its', k, e1, _, _, e4, e5, e6, e7, e8⟩ := Whole.saved_configuration_partial ⟨lowerText, io, a.stamp, a.now⟩ fuel hf old L
    (by
      intro p hp
      obtain ⟨x, hx, rfl⟩ := hLmem p hp
      refine ⟨⟨(hraw x hx).1, ?_, ?_⟩, (hraw x hx).2⟩
      · rcases (Opening.packed_iff lowerText (x.1.map Char.ofNat) (fun e => (hname x hx).2 (List.map_eq_nil_iff.mp e))).1 with h | h
        · exact ⟨_, h⟩
        · exact ⟨_, h⟩
      · unfold Piece.item extHandle
        dsimp only
        by_cases hc : info = some x.2.2 ∧ Field.Spec.utf8Str x.1 = infoName
        · rw [if_pos hc]
          have hx1 : x.1 = Chain.Spec.codes "configinfo" := utf8Str_inj (hname x hx).1 info_codes (by rw [hc.2, info_str])
          obtain ⟨plain, h, tt, h1, h2, h3⟩ := hopen x hx hc.1 hx1
          rw [h2]
          refine .inr ⟨plain, [.open], .inl ⟨?_, h1⟩, ?_⟩
          · rw [hx1, info_chars]; exact info_packed
          · rw [hx1, info_chars]; exact h3
        · rw [if_neg hc]
          exact .inl rfl)
    (by
      constructor
      · intro p hp c hc
        obtain ⟨x, hx, rfl⟩ := hLmem p hp
        have h1 : c.toNat ∈ Whole.Spec.codes (x.1.map Char.ofNat) := List.mem_map_of_mem hc
        rw [hcodes x hx] at h1
        exact ((hname x hx).1 _ h1).2
      · rw [← hL, List.pairwise_map]
        have hd' : l'.Pairwise (fun x y => ¬ SameText x.1 y.1) :=
          (hp.pairwise_iff (fun {x y} h e => h (same_symm e))).mpr hd
        refine hd'.imp_of_mem ?_
        intro x y hx hy hno hs
        apply hno
        unfold Whole.Spec.SameName Piece.item at hs
        dsimp only at hs
        rwa [hcodes x ((hm x).mp hx), hcodes y ((hm y).mp hy)] at hs)
    (by
      rw [← hL, perm_room _ _ (hp.map _)]
      unfold Spec.room at hroom
      unfold Whole.Spec.room
      rw [List.length_map, List.map_map] at hroom ⊢
      have : l.map ((fun p : Item × Bytes => p.2.length + (utf16Text (Whole.Spec.codes p.1.name)).length + 86) ∘ fun x => (Piece.item a io info x, x.2.1.contents)) =
          l.map ((fun x : List Nat × Chain.Spec.CFile => x.2.contents.length + (utf16Text x.1).length + 86) ∘ fun x => (x.1, x.2.1)) := by
        apply List.map_congr_left
        intro x hx
        simp only [Function.comp_apply, Piece.item]
        rw [hcodes x hx]
      rw [this]
      exact hroom)
  have htext : ∀ n : List Nat, Unicode.Spec.Name n → textBytes (n.map Char.ofNat) = utf8Text n := by
    intro n hn
    unfold textBytes
    exact congrArg utf8Text (codes_chars hn)
  have hchars : ∀ n : List Nat, Unicode.Spec.Name n → ∀ c ∈ n.map Char.ofNat, c.toNat ≠ 0 := by
    intro n hn c hc
    have h1 : c.toNat ∈ Whole.Spec.codes (n.map Char.ofNat) := List.mem_map_of_mem hc
    rw [codes_chars hn] at h1
    exact (hn _ h1).2
  have hsame : ∀ x ∈ l, ∀ n, Unicode.Spec.Name n → (Whole.Spec.SameName (x.1.map Char.ofNat) (n.map Char.ofNat) ↔ SameText x.1 n) := by
    intro x hx n hn
    unfold Whole.Spec.SameName
    rw [hcodes x hx, codes_chars hn]
  refine ⟨L.map Prod.fst, d, its', k, ?_, e1, e4, ?_, ?_, ?_, ?_⟩
  · rw [he, extItems_ok a io info l' (fun x hx => (hname x ((hm x).mp hx)).1), ← hL, List.map_map]
    rfl
  · rw [e5, ← hL, List.length_map, hp.length_eq]
  · intro x hx n hn hs
    have := e7 (Piece.item a io info x, x.2.1.contents) (by rw [← hL]; exact List.mem_map.mpr ⟨x, (hm x).mpr hx, rfl⟩)
      (n.map Char.ofNat) (hchars n hn) ((hsame x hx n hn).mpr hs)
    rwa [htext n hn] at this
  · intro n hn hno
    have := e8 (n.map Char.ofNat) (hchars n hn) (by
      intro p hp hs
      obtain ⟨x, hx, rfl⟩ := hLmem p hp
      exact hno x hx ((hsame x hx n hn).mp hs))
    rwa [htext n hn] at this
  · intro e hek
    obtain ⟨i, hi, rfl⟩ := List.mem_iff_getElem.mp hek
    have hiL : i < L.length := by rw [← e5]; exact hi
    obtain ⟨x, hx, hq⟩ := hLmem L[i] (List.getElem_mem hiL)
    obtain ⟨⟨z, hz⟩, h64⟩ := e6 i _ L[i] (List.getElem?_eq_getElem hi) (List.getElem?_eq_getElem hiL)
    rw [hq] at hz h64
    refine ⟨x, hx, ⟨z, ?_⟩, h64⟩
    rw [hz]
    show utf8Text (Whole.Spec.codes (x.1.map Char.ofNat) ++ _) = _
    rw [hcodes x hx]

/-! ## The whole -/

/-- What both functions find and save. -/
theorem found_and_saved (a : Around) (fuel : Nat) (hf : Container.LAST ≤ fuel) {cols : List Col} {t : Record.Tab} {rows : List Row} {blob : Bytes}
    {st : Blob.Spec.State} {all : List Chain.Spec.CFile} {ver : List Nat} {info : Chain.Spec.CFile} {listing : List Spec.Listed}
    (g : Spec.Given a cols t rows blob st all ver info listing) (old : Option Bytes) :
    ∃ store tf m its d its' k, openStore ⟨a.sh, lowerStr, a.clock⟩ (some (cols, t)) = .ok (true, store) ∧
      getFile lowerStr store (Field.Spec.utf8Str ver) = some tf ∧
      configCas lowerStr (infoTree a (blobIo (some blob) fuel a.inflate)) store (Field.Spec.utf8Str ver) = .ok m ∧
      (∀ uid saved, (∀ p ∈ saved, ¬ Config.Spec.SavedFor lowerStr uid p) →
        configCasSave lowerStr (infoTree a (blobIo (some blob) fuel a.inflate)) store saved uid (Field.Spec.utf8Str ver) = .ok m) ∧
      extItems a (blobIo (some blob) fuel a.inflate) (some tf) (byKey m) = .ok its ∧
      saveConfig ⟨lowerText, blobIo (some blob) fuel a.inflate, a.stamp, a.now⟩ fuel true old its = .ok (some (true, some d, its')) ∧
      Spec.Exported a fuel rows info listing d k := by
  have hfuel : 2 ^ 24 ≤ fuel := by
    have : Container.LAST = 2147483647 := rfl
    omega
  obtain ⟨store, s1, s2, s3, s4, s5⟩ := store_linked g.holds (fun f hf => (g.names f hf).1) g.distinct (fun f hf => (g.names f hf).2) g.texts
  generalize hioe : blobIo (some blob) fuel a.inflate = io
  have hio : ∀ f ∈ all, ∀ p ∈ f.parts, io.blob p.1.1 p.1.2 = (p.2, true) := by
    rw [← hioe]
    exact fun f hf => blob_read g.blobs g.short fuel hfuel a.inflate f (g.parts f hf)
  have hinf : io.inflate = a.inflate := by rw [← hioe]; rfl
  have hget : ∀ f ∈ all, ∀ n, Unicode.Spec.Name n → SameText f.name n →
      ∃ p, getFile lowerStr store (Field.Spec.utf8Str n) = some p ∧ ∃ q r cps, q.2 = p ∧ Link rows f q r cps := by
    intro f hfm n hn hsame
    obtain ⟨q, hq, r, cps, hl⟩ := s4 f hfm
    refine ⟨q.2, ?_, q, r, cps, rfl, hl⟩
    unfold getFile
    have : q.1 = lowerStr (Field.Spec.utf8Str n) := by
      rw [hl.key, hl.text, lower_same hl.name hn]
      exact same_trans (same_symm hl.same) hsame
    rw [← this]
    exact find_of_mem s2 hq
  have hnz : ∀ f ∈ all, f.contents ≠ [] := by
    intro f hfa
    unfold Chain.Spec.CFile.contents
    cases hps : f.parts with
    | nil => exact absurd hps (g.names f hfa).2
    | cons q ps =>
      have h1 := says_part g.holds f hfa q (by rw [hps]; exact List.mem_cons_self ..)
      obtain ⟨b, _, _, _, h2⟩ := g.parts f hfa q (by rw [hps]; exact List.mem_cons_self ..)
      rw [List.flatMap_cons]
      intro e
      have := (List.append_eq_nil_iff.mp e).1
      rw [this] at h2
      exact h1 h2
  have hraw : ∀ f ∈ all, ∀ (q : Str × TFile) r cps, Link rows f q r cps → Opening.Spec.Raw io q.2.addr f.contents := by
    intro f hfa q r cps hl
    rw [hl.addr]
    exact raw_parts f (hio f hfa)
  -- the list
  obtain ⟨tf, ht, q0, r0, cps0, rfl, hl0⟩ := hget info g.isInfo.1 ver g.version g.isInfo.2
  obtain ⟨plain, tt, p1, p2, p3⟩ := g.lists
  obtain ⟨h0, hr1, hr2⟩ := readInfo_ok a io q0.2 info.contents plain tt (hraw info g.isInfo.1 q0 r0 cps0 hl0) (by rw [hinf]; exact p1) p2
  have htree : infoTree a io q0.2 = .ok tt := by
    unfold infoTree
    rw [hr1]
    rfl
  -- the files listed
  have hfileOf : ∀ x ∈ listing, getFile lowerStr store (Hex.hexstring x.hash) = some (fileOf store x.hash) ∧
      ∃ q r cps, q.2 = fileOf store x.hash ∧ Link rows x.file q r cps := by
    intro x hx
    obtain ⟨h1, h2⟩ := hash_name x.hash
    obtain ⟨p, e, q, r, cps, e2, hl⟩ := hget x.file (g.stored x hx).1 _ h1 (g.stored x hx).2
    rw [h2] at e
    have : fileOf store x.hash = p := by unfold fileOf; rw [e]
    rw [this]
    exact ⟨e, q, r, cps, e2, hl⟩
  generalize hL : ((Chain.Spec.codes "configinfo", info, q0.2) :: listing.map (fun x => (x.name, x.file, fileOf store x.hash)) : List Piece) = l
  have hm : ∀ y ∈ l, y = (Chain.Spec.codes "configinfo", info, q0.2) ∨ ∃ x ∈ listing, y = (x.name, x.file, fileOf store x.hash) := by
    intro y hy
    rw [← hL] at hy
    rcases List.mem_cons.mp hy with h | h
    · exact .inl h
    · obtain ⟨x, hx, e⟩ := List.mem_map.mp h
      exact .inr ⟨x, hx, e.symm⟩
  have hlink : ∀ y ∈ l, y.2.1 ∈ all ∧ ∃ q r cps, q.2 = y.2.2 ∧ Link rows y.2.1 q r cps := by
    intro y hy
    rcases hm y hy with rfl | ⟨x, hx, rfl⟩
    · exact ⟨g.isInfo.1, q0, r0, cps0, rfl, hl0⟩
    · exact ⟨(g.stored x hx).1, (hfileOf x hx).2⟩
  have hnames : ∀ y ∈ l, Unicode.Spec.Name y.1 ∧ y.1 ≠ [] := by
    intro y hy
    rcases hm y hy with rfl | ⟨x, hx, rfl⟩
    · exact ⟨info_codes, info_nonempty⟩
    · exact ⟨(g.listed x hx).1, (g.listed x hx).2.1⟩
  have hpair : l.Pairwise (fun x y => ¬ SameText x.1 y.1) := by
    rw [← hL, List.pairwise_cons]
    constructor
    · intro y hy
      obtain ⟨x, hx, rfl⟩ := List.mem_map.mp hy
      exact (g.listed x hx).2.2
    · rw [List.pairwise_map]
      exact g.apart
  -- the map
  obtain ⟨cnt, extra, i1, i2⟩ := lists_items p3
  have hk := number_toInt i2 (by rw [List.length_map]; exact g.few)
  have hentries : (infoName, (⟨infoName, q0.2⟩ : Named)) :: (listing.map Spec.Listed.entry).map (fun e => (lowerStr e.1, (⟨e.1, fileOf store e.2⟩ : Named))) =
      l.map Piece.entry := by
    rw [← hL, List.map_cons, List.map_map, List.map_map]
    congr 1
  have hkeys : ([(infoName, (⟨infoName, q0.2⟩ : Named))].map Prod.fst ++ (listing.map Spec.Listed.entry).map (fun e => lowerStr e.1)).Nodup := by
    have : (l.map (fun y : Piece => lowerStr (Field.Spec.utf8Str y.1))).Nodup := by
      rw [List.Nodup, List.pairwise_map]
      refine hpair.imp_of_mem ?_
      intro x y hx hy hno e
      exact hno ((lower_same (hnames x hx).1 (hnames y hy).1).mp e)
    rw [← hL, List.map_cons, List.map_map, info_str, info_lower] at this
    rw [List.map_map]
    exact this
  have hgrow : Config.Spec.Growing (listing.map Spec.Listed.entry) := by
    unfold Config.Spec.Growing
    rw [List.pairwise_map]
    exact g.growing
  have hstored : ∀ e ∈ listing.map Spec.Listed.entry, ∃ f, getFile lowerStr store (Hex.hexstring e.2) = some f := by
    intro e he
    obtain ⟨x, hx, rfl⟩ := List.mem_map.mp he
    exact ⟨_, (hfileOf x hx).1⟩
  have hcas : configCas lowerStr (infoTree a io) store (Field.Spec.utf8Str ver) = .ok (l.map Piece.entry) := by
    unfold configCas
    rw [ht]
    dsimp only
    rw [htree, Outcome.ok_bind, i1, Outcome.ok_bind]
    dsimp only
    rw [hk, Outcome.ok_bind]
    rw [casLoop_exact store extra _ [] [("configinfo".toList, ⟨"configinfo".toList, q0.2⟩)] (fun _ _ => Nat.zero_le _) hgrow hstored hkeys, ← hentries]
    rfl
  have hsave : ∀ uid saved, (∀ p ∈ saved, ¬ Config.Spec.SavedFor lowerStr uid p) →
      configCasSave lowerStr (infoTree a io) store saved uid (Field.Spec.utf8Str ver) = .ok (l.map Piece.entry) := by
    intro uid saved hs
    unfold configCasSave
    rw [savedLoop_none lowerStr uid saved hs, Outcome.ok_bind]
    unfold savedInfo
    dsimp only
    rw [if_pos (show ([] : List (Str × Named)).isEmpty = true from rfl), ht]
    dsimp only
    rw [Outcome.ok_bind, htree, Outcome.ok_bind, i1, Outcome.ok_bind]
    dsimp only
    rw [hk, Outcome.ok_bind]
    rw [casSaveLoop_exact store extra _ [] [("configinfo".toList, ⟨"configinfo".toList, q0.2⟩)] (fun _ _ => Nat.zero_le _) hgrow hstored hkeys, ← hentries]
    rfl
  obtain ⟨its, d, its', k, e1, e2, e3, e4, e5, e6, e7⟩ := save_pieces a io fuel hf (some q0.2) l hnames hpair (by
      intro y hy
      obtain ⟨h1, q, r, cps, h2, h3⟩ := hlink y hy
      rw [← h2]
      exact ⟨hraw _ h1 q r cps h3, hnz _ h1⟩) (by
      intro y hy h1 h2
      rcases hm y hy with rfl | ⟨x, hx, rfl⟩
      · exact ⟨plain, h0, tt, by rw [hinf]; exact p1, hr1, hr2⟩
      · exact absurd (by rw [← h2]; exact (same_iff _ _).mpr rfl) (g.listed x hx).2.2) (by
      have : l.map (fun x => (x.1, x.2.1)) = Spec.contents info listing := by
        rw [← hL, List.map_cons, List.map_map]
        rfl
      rw [this]
      exact g.fits) old
  refine ⟨store, q0.2, _, its, d, its', k, ?_, ht, hcas, hsave, e1, e2, e3, ?_, ?_, ?_, ?_, ?_⟩
  · rw [open_store_rows ⟨a.sh, lowerStr, a.clock⟩ cols g.named g.columns t rows g.whole g.held]
    dsimp only
    rw [s1, Outcome.ok_bind]
  · rw [e4, ← hL, List.length_cons, List.length_map]
  · exact e5 _ (by rw [← hL]; exact List.mem_cons_self ..) _ info_codes ((same_iff _ _).mpr rfl)
  · intro x hx n hn hs
    exact e5 (x.name, x.file, fileOf store x.hash) (by rw [← hL]; exact List.mem_cons_of_mem _ (List.mem_map.mpr ⟨x, hx, rfl⟩)) n hn hs
  · intro n hn h1 h2
    refine e6 n hn ?_
    intro y hy
    rcases hm y hy with rfl | ⟨x, hx, rfl⟩
    · exact h1
    · exact h2 x hx
  · intro e he
    obtain ⟨y, hy, ⟨z, hz⟩, h64⟩ := e7 e he
    obtain ⟨_, q, r, cps, h2, h3⟩ := hlink y hy
    rw [← h2, h3.created] at h64
    refine ⟨r, h3.row, h3.counts, h3.part, h64, y.1, z, hz, ?_⟩
    rcases hm y hy with rfl | ⟨x, hx, rfl⟩
    · exact .inl rfl
    · exact .inr ⟨x, hx, rfl⟩

/-- **C112 (partial).** Exporting the configuration of an extension as the database has it: the table of stored files holds the list of
the version asked for and the files it lists under their hashes. Then the export succeeds, whatever the file held before, and the
file is a container with the list, as `configinfo`, and the files listed: every name, in any case, gives the contents of the stored file of the
hash listed for it, and no other name gives anything. Missing: lists in which a hash is shorter than one before it, and
lists in braces (C77); containers of 2 GB; the times of modification, and the names without NULs behind them (C84). -/
theorem extension_exported_partial (a : Around) (fuel : Nat) (hf : Container.LAST ≤ fuel) {cols : List Col} {t : Record.Tab} {rows : List Row} {blob : Bytes}
    {st : Blob.Spec.State} {all : List Chain.Spec.CFile} {ver : List Nat} {info : Chain.Spec.CFile} {listing : List Spec.Listed}
    (g : Spec.Given a cols t rows blob st all ver info listing) (old : Option Bytes) :
    ∃ d k, exportExtDb a fuel (some (cols, t, some blob)) (Field.Spec.utf8Str ver) old = .ok (some (true, some d)) ∧
      Spec.Exported a fuel rows info listing d k := by
  obtain ⟨store, tf, m, its, d, its', k, h1, h2, h3, _, h4, h5, h6⟩ := found_and_saved a fuel hf g old
  refine ⟨d, k, ?_, h6⟩
  unfold exportExtDb
  dsimp only
  rw [h1, Outcome.ok_bind]
  dsimp only
  rw [h3, Outcome.ok_bind, h2, h4, Outcome.ok_bind, h5]
  rfl

/-- **C112 (partial).** The same for the extension as it is being edited, if nothing of it is saved: no file of the other table has a name that begins with
its identifier. Missing, besides: extensions with saved files (C78). -/
theorem unsaved_extension_exported_partial (a : Around) (fuel : Nat) (hf : Container.LAST ≤ fuel) {cols : List Col} {t : Record.Tab} {rows : List Row} {blob : Bytes}
    {st : Blob.Spec.State} {all : List Chain.Spec.CFile} {ver : List Nat} {info : Chain.Spec.CFile} {listing : List Spec.Listed}
    (g : Spec.Given a cols t rows blob st all ver info listing) (saved : List Col × Record.Tab) (files : List (Str × TFile)) (uid : Bytes)
    (hs : openStore ⟨a.sh, lowerStr, a.clock⟩ (some saved) = .ok (true, files)) (hu : ∀ p ∈ files, ¬ Config.Spec.SavedFor lowerStr uid p) (old : Option Bytes) :
    ∃ d k, exportExt a fuel (some (cols, t, some blob)) (some saved) uid (Field.Spec.utf8Str ver) old = .ok (some (true, some d)) ∧
      Spec.Exported a fuel rows info listing d k := by
  obtain ⟨store, tf, m, its, d, its', k, h1, h2, _, h3, h4, h5, h6⟩ := found_and_saved a fuel hf g old
  refine ⟨d, k, ?_, h6⟩
  have hu' : ∀ p ∈ byKey files, ¬ Config.Spec.SavedFor lowerStr uid p := fun p hp => hu p ((byKey_perm files).mem_iff.mp hp)
  unfold exportExt
  dsimp only
  rw [h1, Outcome.ok_bind, hs, Outcome.ok_bind]
  dsimp only
  rw [savedLoop_none lowerStr uid _ hu', Outcome.ok_bind, if_pos (show ([] : List (Str × Named)).isEmpty = true from rfl), h3 uid _ hu', Outcome.ok_bind, h2, h4, Outcome.ok_bind, h5]
  rfl

/-- **C112.** Without the tables nothing is written. -/
theorem no_extension_table (a : Around) (fuel : Nat) (ver : Str) (uid : Bytes) (saved : Option (List Col × Record.Tab)) (old : Option Bytes) :
    exportExtDb a fuel none ver old = .ok (some (false, old)) ∧ exportExt a fuel none saved uid ver old = .ok (some (false, old)) := ⟨rfl, rfl⟩

/-- **C112.** The same without the table of saved files. -/
theorem no_saved_table (a : Around) (fuel : Nat) (cols : List Col) (t : Record.Tab) (blob : Option Bytes) (ver : Str) (uid : Bytes) (old : Option Bytes)
    (o : Bool × List (Str × TFile)) (ho : openStore ⟨a.sh, lowerStr, a.clock⟩ (some (cols, t)) = .ok o) :
    exportExt a fuel (some (cols, t, blob)) none uid ver old = .ok (some (false, old)) := by
  unfold exportExt
  dsimp only
  rw [ho]
  rfl

end Verif.Config.Ext
