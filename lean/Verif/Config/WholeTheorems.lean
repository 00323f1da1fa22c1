import Verif.Config.WholeSpec
import Verif.Config.HandleTheorems
import Verif.Container.CloseLemmas

/-! # Theorems: saving a whole configuration as a container (C84) -/

namespace Verif.Config.Whole
open Verif Verif.Config Verif.Container Verif.Container.Spec Verif.Unicode Verif.Unicode.Spec

/-! ## Lemmas -/

theorem name_codes {s : Str} (h : ∀ c ∈ s, c.toNat ≠ 0) : Name (Spec.codes s) := by
  intro c hc
  obtain ⟨x, hx, rfl⟩ := List.mem_map.1 hc
  refine ⟨?_, h x hx⟩
  have := x.valid
  unfold UInt32.isValidChar Nat.isValidChar at this
  unfold Scalar
  have e : x.toNat = x.val.toNat := rfl
  omega

/-- The file is in a state opening and closing it can have left. -/
theorem ready_inv {w : World} {it : Item} {raw : Bytes} (h : Spec.Ready w it raw) :
    ∃ b plain, isPacked w.lower it.name = .ok b ∧ (b = true ∨ (b = false ∧ plain = raw)) ∧ Opening.Inv b raw plain it.handle := by
  obtain ⟨hr, ⟨b, hb⟩, hh | ⟨plain, ops, hpl, hrun⟩⟩ := h
  · refine ⟨b, raw, hb, ?_, by rw [hh]; exact Opening.init_inv b raw raw⟩
    cases b
    · exact Or.inr ⟨rfl, rfl⟩
    · exact Or.inl rfl
  · rcases hpl with ⟨h1, h2⟩ | ⟨h1, h2⟩
    · obtain ⟨h', e, hi⟩ := Opening.run_inv h1 hr (Or.inl ⟨rfl, h2⟩) ops Handle.init (Opening.init_inv _ _ _)
      rw [hrun] at e
      cases e
      exact ⟨true, plain, h1, Or.inl rfl, hi⟩
    · obtain ⟨h', e, hi⟩ := Opening.run_inv h1 hr (Or.inr ⟨rfl, h2⟩) ops Handle.init (Opening.init_inv _ _ _)
      rw [hrun] at e
      cases e
      exact ⟨false, plain, h1, Or.inr ⟨rfl, h2⟩, hi⟩

theorem pattern_lt (x : Int) : pattern x < 2 ^ 64 := by
  unfold pattern
  have h1 := Int.emod_nonneg x (by decide : (2 ^ 64 : Int) ≠ 0)
  have h2 := Int.emod_lt_of_pos x (by decide : (0 : Int) < 2 ^ 64)
  omega

theorem packs_plain {b : Bytes} (h : b ≠ []) : Packs plainCodec b := ⟨b, rfl, h, rfl⟩

theorem cost_new (id : Nat) (n : List Nat) (hn : Name n) (cr mo : Nat) (b : Bytes) :
    cost plainCodec (newEnt id n cr mo b) = b.length + (utf16Text n).length + 86 := by
  unfold cost newEnt
  simp only [if_true]
  have h : Entry.headerBytes cr mo (utf8Text n) = .ok (Entry.le64 cr ++ Entry.le64 mo ++ [0, 0, 0, 0] ++ utf16Text n ++ [0, 0, 0, 0]) := by
    unfold Entry.headerBytes
    rw [utf8_to_utf16 _ (fun c hc => (hn c hc).1)]
    rfl
  rw [h]
  simp only [sizeOf', plainCodec, List.length_append, Entry.le64_length, List.length_cons, List.length_nil]
  omega

/-- The sum in `Spec.room`. -/
def bulk (its : List (Item × Bytes)) : Nat := (its.map fun p => p.2.length + (utf16Text (Spec.codes p.1.name)).length + 86).sum

theorem saveItem_ok {w : World} {k : Catalog} {s : Store} {ls : Ghost} (h : Inv plainCodec k s ls) (fuel : Nat) (hf : LAST ≤ fuel)
    (it : Item) (raw : Bytes) (hr : Spec.Ready w it raw) (hne : raw ≠ []) (hn : ∀ c ∈ it.name, c.toNat ≠ 0)
    (hno : ∀ x ∈ ls, ¬ SameText x.2.1 (Spec.codes it.name))
    (hd : extent k.cat + (raw.length + (utf16Text (Spec.codes it.name)).length + 86) < LAST) :
    ∃ k' s' e' g, saveItem w fuel k it = .ok (some (k', { it with handle := g })) ∧ g.stream = none ∧ g.rstream = none ∧
      Inv plainCodec k' s' (ls ++ [(e', (Spec.codes it.name, raw))]) ∧ e'.created = pattern (w.stamp it.created) ∧ e'.content = none ∧
      extent k'.cat ≤ extent k.cat + (raw.length + (utf16Text (Spec.codes it.name)).length + 86) := by
  obtain ⟨b, plain, hb, hb2, hi⟩ := ready_inv hr
  obtain ⟨h1, e1, hi1, hh⟩ := Opening.ropen_ok hi hb hr.1 hb2
  obtain ⟨h2, e2, _, hs2, hr2, _⟩ := Opening.close_ok hi1
  have hcost := cost_new k.fresh _ (name_codes hn) (pattern (w.stamp it.created)) (pattern (w.stamp it.modified)) raw
  obtain ⟨e0, k0, k', s', e', hc, hw, hinv, hcr, hcn, hcl, hx⟩ := store_ok h (Spec.codes it.name) (name_codes hn) raw (packs_plain hne)
    (pattern (w.stamp it.created)) (pattern (w.stamp it.modified)) w.now (pattern_lt _) hno fuel hf (by rw [hcost]; exact hd)
  refine ⟨k', s', e', h2, ?_, hs2, hr2, hinv, hcr, hcn, by rw [hcost] at hx; exact hx⟩
  unfold saveItem
  rw [e1, Outcome.ok_bind]
  simp only [if_true]
  unfold saveOpened
  rw [show textBytes it.name = utf8Text (Spec.codes it.name) from rfl, hc, Outcome.ok_bind]
  simp only
  have hraw : h1.raw = .ok raw := by
    obtain ⟨i, hi, hg⟩ := hh
    unfold Handle.raw Handle.data
    rw [hi]
    simp only
    rw [hg]
  rw [hraw, Outcome.ok_bind, hw, Outcome.ok_bind]
  simp only
  rw [e2, Outcome.ok_bind]

theorem saveItems_ok {w : World} (fuel : Nat) (hf : LAST ≤ fuel) (its : List (Item × Bytes)) : ∀ (k : Catalog) (s : Store) (ls : Ghost),
    Inv plainCodec k s ls → (∀ p ∈ its, Spec.Ready w p.1 p.2 ∧ p.2 ≠ []) → Spec.Names its →
    (∀ x ∈ ls, ∀ p ∈ its, ¬ SameText x.2.1 (Spec.codes p.1.name)) → extent k.cat + bulk its < LAST → totalCost plainCodec k.ents = 0 →
    ∃ k' s' ls' its', saveItems w fuel k (its.map Prod.fst) = .ok (some (k', its')) ∧ Inv plainCodec k' s' ls' ∧
      ls'.map Prod.snd = ls.map Prod.snd ++ its.map (fun p => (Spec.codes p.1.name, p.2)) ∧
      ls'.map made = ls.map made ++ its.map (fun p => pattern (w.stamp p.1.created)) ∧
      extent k'.cat ≤ extent k.cat + bulk its ∧ totalCost plainCodec k'.ents = 0 ∧
      its'.map (fun it => (it.name, it.parts)) = its.map (fun p => (p.1.name, p.1.parts)) ∧
      ∀ it ∈ its', it.handle.stream = none ∧ it.handle.rstream = none := by
  induction its with
  | nil =>
    intro k s ls h _ _ _ _ ht
    exact ⟨k, s, ls, [], rfl, h, by simp, by simp, by simp [bulk], ht, rfl, by simp⟩
  | cons p its ih =>
    intro k s ls h hr hn hno hd ht
    have hb : bulk (p :: its) = (p.2.length + (utf16Text (Spec.codes p.1.name)).length + 86) + bulk its := rfl
    rw [hb] at hd
    obtain ⟨hn1, hn2⟩ := hn
    rw [List.pairwise_cons] at hn2
    obtain ⟨k1, s1, e1, g, hs1, hg1, hg2, hi1, hcr, hcn, hx1⟩ := saveItem_ok h fuel hf p.1 p.2 (hr p (by simp)).1 (hr p (by simp)).2
      (hn1 p (by simp)) (fun x hx => hno x hx p (by simp)) (by omega)
    obtain ⟨k2, s2, ls2, its2, hs2, hi2, ha, hb2, hx2, ht2, hnm, hcl⟩ := ih k1 s1 _ hi1 (fun q hq => hr q (by simp [hq]))
      ⟨fun q hq => hn1 q (by simp [hq]), hn2.2⟩ (by
        intro x hx q hq
        rcases List.mem_append.1 hx with hx | hx
        · exact hno x hx q (by simp [hq])
        · rw [List.mem_singleton.1 hx]
          exact hn2.1 q hq) (by omega) (by
        rw [hi1.core.ents, List.map_append]
        rw [h.core.ents] at ht
        unfold totalCost at ht ⊢
        rw [List.map_append, List.sum_append, ht]
        simp [cost, hcn])
    refine ⟨k2, s2, ls2, { p.1 with handle := g } :: its2, ?_, hi2, ?_, ?_, by omega, ht2, ?_, ?_⟩
    · rw [List.map_cons, saveItems, hs1, Outcome.ok_bind]
      simp only
      rw [hs2, Outcome.ok_bind]
    · rw [ha]; simp
    · rw [hb2]; simp [made, hcr]
    · rw [List.map_cons, List.map_cons, hnm]
    · intro it hit
      rcases List.mem_cons.1 hit with rfl | hit
      · exact ⟨hg1, hg2⟩
      · exact hcl it hit

/-- Opening any bytes as a container makes the modification time of every entry the creation time and eight. -/
theorem loadLoop_modified (fuel : Nat) (src : Stream.Mem) (n : Nat) : ∀ (fat : Bytes) (k k' : Catalog),
    loadLoop fuel src n fat k = .ok (some (.container k')) → (∀ e ∈ k.ents, e.modified = (e.created + 8) % 2 ^ 64) →
    ∀ e ∈ k'.ents, e.modified = (e.created + 8) % 2 ^ 64 := by
  induction n with
  | zero =>
    intro fat k k' h hk
    rw [loadLoop] at h
    cases h
    exact hk
  | succ n ih =>
    intro fat k k' h hk
    rw [loadLoop] at h
    split at h <;> try cases h
    rename_i e he
    split at h <;> try cases h
    rename_i k1 hk1
    refine ih _ _ _ h ?_
    unfold addEntry at hk1
    obtain ⟨key, _, hk1⟩ := bind_ok hk1
    cases hk1
    intro x hx
    rcases List.mem_append.1 hx with hx | hx
    · exact hk x hx
    · rw [List.mem_singleton.1 hx]
      unfold loadEntry at he
      obtain ⟨r, _, he⟩ := bind_ok he
      cases r with
      | none => cases he
      | some m =>
        simp only at he
        obtain ⟨t, ht, he⟩ := bind_ok he
        obtain ⟨a, b, c⟩ := t
        cases he
        unfold Entry.parseHeader at ht
        obtain ⟨nm, _, ht⟩ := bind_ok ht
        obtain ⟨t, _, ht⟩ := bind_ok ht
        cases ht
        rfl

theorem open_modified {fuel : Nat} {d : Bytes} {k : Catalog} (h : openCatalog fuel d = .ok (some (.container k))) :
    ∀ e ∈ k.ents, e.modified = (e.created + 8) % 2 ^ 64 := by
  unfold openCatalog at h
  simp only at h
  generalize (if d.length = 0 then template else d) = t at h
  obtain ⟨b, _, h⟩ := bind_ok h
  split at h
  · unfold initCatalog at h
    simp only at h
    split at h
    · split at h
      · cases h
      · cases h
      · cases h
      · exact loadLoop_modified _ _ _ _ _ _ h (by simp)
    · cases h
      simp
  · cases h

/-! ## C84 -/

theorem pattern_same (x : Int) : Spec.Same64 x (pattern x) := by
  refine ⟨pattern_lt x, ?_⟩
  unfold pattern
  rw [Int.toNat_of_nonneg (Int.emod_nonneg _ (by decide))]
  exact ⟨x / 2 ^ 64, by omega⟩

/-- **C84 (partial).** Saving a configuration into a file, whatever the file held before: the file is then a container, its
entries are the files of the configuration in their order, each with its name (and NULs behind it) and its time of creation, and
with nothing else; every name, in any case, gives the raw contents of the file of this name, and no
other name gives anything; the files of the configuration are closed and otherwise as before. Missing: the
times of modification (`modified_lost`) and the names as they are (`names_padded`); configurations of 2 gigabytes. -/
theorem saved_configuration_partial (w : World) (fuel : Nat) (hf : LAST ≤ fuel) (old : Option Bytes) (its : List (Item × Bytes))
    (hr : ∀ p ∈ its, Spec.Ready w p.1 p.2 ∧ p.2 ≠ []) (hn : Spec.Names its) (hroom : Spec.room its < 2 ^ 31 - 1) :
    ∃ d its' k, saveConfig w fuel true old (its.map Prod.fst) = .ok (some (true, some d, its')) ∧
      its'.map (fun it => (it.name, it.parts)) = its.map (fun p => (p.1.name, p.1.parts)) ∧
      (∀ it ∈ its', it.handle.stream = none ∧ it.handle.rstream = none) ∧
      openCatalog fuel d = .ok (some (.container k)) ∧
      k.ents.length = its.length ∧
      (∀ (i : Nat) (e : File) (p : Item × Bytes), k.ents[i]? = some e → its[i]? = some p →
        (∃ z, e.name = utf8Text (Spec.codes p.1.name ++ List.replicate z 0)) ∧ Spec.Same64 (w.stamp p.1.created) e.created) ∧
      (∀ p ∈ its, ∀ n : Str, (∀ c ∈ n, c.toNat ≠ 0) → Spec.SameName p.1.name n →
        content plainCodec fuel k (textBytes n) = .ok (some (some p.2))) ∧
      (∀ n : Str, (∀ c ∈ n, c.toNat ≠ 0) → (∀ p ∈ its, ¬ Spec.SameName p.1.name n) →
        content plainCodec fuel k (textBytes n) = .ok (some none)) := by
  have hL : LAST = 2147483647 := rfl
  have hroom' : extent blankCatalog.cat + bulk its + (31 + max (2 ^ 16) (12 * its.length)) < LAST := by
    have : extent blankCatalog.cat = 2 ^ 17 := by decide
    rw [this, hL]
    unfold Spec.room at hroom
    unfold bulk
    omega
  obtain ⟨k1, s1, ls1, its1, e1, hi1, ha, hm, hx, ht, hnm, hcl⟩ := saveItems_ok (w := w) fuel hf its blankCatalog _ [] (blank_inv _) hr hn
    (by simp) (by omega) (by rfl)
  simp only [List.map_nil, List.nil_append] at ha hm
  have hlen : k1.ents.length = its.length := by
    have := congrArg List.length ha
    rw [hi1.core.ents]
    simpa using this
  have hcost : extent k1.cat + flushCost plainCodec k1 < LAST := by
    unfold flushCost
    rw [ht, hlen]
    omega
  obtain ⟨k2, s2, ls2, e2, h2, _, _, _, _, _, _⟩ := flush_ok hi1 hcost fuel hf
  obtain ⟨k3, s3, ls3, e3, h3, hs3, hm3, hx3⟩ := reopen_ok hi1 hcost fuel hf
  have hopen : openCatalog fuel k2.cat.data.data = .ok (some (.container k3)) := by
    unfold reopen at e3
    rw [e2, Outcome.ok_bind] at e3
    exact e3
  have hcont : ∀ n : Str, (∀ c ∈ n, c.toNat ≠ 0) → content plainCodec fuel k3 (textBytes n) =
      .ok (some (lookup (its.map (fun p => (Spec.codes p.1.name, p.2))) (Spec.codes n))) := by
    intro n hn
    have := content_ok h3 hx3 fuel hf (Spec.codes n) (name_codes hn)
    rw [hs3, ha] at this
    exact this
  refine ⟨k2.cat.data.data, its1, k3, ?_, hnm, hcl, hopen, ?_, ?_, ?_, ?_⟩
  · unfold saveConfig
    rw [if_pos rfl]
    have hcur : (if old.isSome then none else old) = none := by cases old <;> rfl
    simp only
    rw [hcur]
    have hon : openNamed fuel none = .ok (some (.container blankCatalog)) := rfl
    rw [hon, Outcome.ok_bind]
    unfold saveInto
    simp only
    rw [e1, Outcome.ok_bind]
    simp only
    rw [destroy_of_flush e2, Outcome.ok_bind, Outcome.ok_bind]
  · have := congrArg List.length (hs3.trans ha)
    rw [h3.core.ents]
    simpa using this
  · intro i e p he hp
    rw [h3.core.ents, List.getElem?_map] at he
    cases hxi : ls3[i]? with
    | none => rw [hxi] at he; cases he
    | some x =>
      rw [hxi] at he
      cases he
      have h4 := congrArg (·[i]?) (hs3.trans ha)
      have h5 := congrArg (·[i]?) (hm3.trans hm)
      simp only [List.getElem?_map, hxi, hp, Option.map_some, Option.some.injEq] at h4 h5
      have hok := h3.core.ok x (List.mem_of_getElem? hxi)
      obtain ⟨z, hz⟩ := hok.name
      rw [h4] at hz
      exact ⟨⟨z, hz⟩, by rw [show x.1.created = _ from h5]; exact pattern_same _⟩
  · intro p hp n hn0 hsame
    rw [hcont n hn0]
    obtain ⟨l1, l2, rfl⟩ := List.append_of_mem hp
    rw [List.map_append, List.map_cons, lookup_present _ _ _ (Spec.codes p.1.name, p.2) _ hsame]
    intro q hq hq2
    obtain ⟨r, hr1, rfl⟩ := List.mem_map.1 hq
    have h6 := hn.2
    rw [List.pairwise_append] at h6
    refine h6.2.2 r hr1 p (by simp) ?_
    have k1 := (key_same (name_codes (hn.1 r (by simp [hr1]))) (name_codes hn0)).2 hq2
    have k2 := (key_same (name_codes (hn.1 p (by simp))) (name_codes hn0)).2 hsame
    exact (key_same (name_codes (hn.1 r (by simp [hr1]))) (name_codes (hn.1 p (by simp)))).1 (k1.trans k2.symm)
  · intro n hn0 hno
    rw [hcont n hn0, lookup_absent]
    intro q hq
    obtain ⟨r, hr1, rfl⟩ := List.mem_map.1 hq
    exact hno r hr1

/-- A configuration that is not ready is not saved, and the file is left as it is. -/
theorem not_ready (w : World) (fuel : Nat) (old : Option Bytes) (its : List Item) :
    saveConfig w fuel false old its = .ok (some (false, old, its)) := rfl

/-- **Negation of C84: times of modification.** In the container, an entry's time of modification is read as the file's time of
creation and eight ten-thousandths of a second, whatever the file's time of modification is. -/
theorem modified_lost (w : World) (fuel : Nat) (hf : LAST ≤ fuel) (old : Option Bytes) (its : List (Item × Bytes))
    (hr : ∀ p ∈ its, Spec.Ready w p.1 p.2 ∧ p.2 ≠ []) (hn : Spec.Names its) (hroom : Spec.room its < 2 ^ 31 - 1) :
    ∃ d its' k, saveConfig w fuel true old (its.map Prod.fst) = .ok (some (true, some d, its')) ∧
      openCatalog fuel d = .ok (some (.container k)) ∧ k.ents.length = its.length ∧
      ∀ (i : Nat) (e : File) (p : Item × Bytes), k.ents[i]? = some e → its[i]? = some p →
        Spec.Same64 (w.stamp p.1.created + 8) e.modified := by
  obtain ⟨d, its', k, h1, _, _, h2, h3, h4, _⟩ := saved_configuration_partial w fuel hf old its hr hn hroom
  refine ⟨d, its', k, h1, h2, h3, ?_⟩
  intro i e p he hp
  obtain ⟨_, hc1, c, hc2⟩ := h4 i e p he hp
  rw [open_modified h2 e (List.mem_of_getElem? he)]
  refine ⟨Nat.mod_lt _ (by decide), ?_⟩
  rcases Nat.lt_or_ge (e.created + 8) (2 ^ 64) with h | h
  · rw [Nat.mod_eq_of_lt h]
    exact ⟨c, by omega⟩
  · rw [Nat.mod_eq_sub_mod h, Nat.mod_eq_of_lt (by omega)]
    exact ⟨c + 1, by omega⟩

/-! ## Examples -/

/-- A world in which blobs are counted up bytes and times are the low halves. -/
def exWorld : World := ⟨fun s => s.map Char.toLower, Opening.handleIo, fun f => f.lo, 7⟩

/-- Two files: a packed one never opened, and another one that has been opened and closed. -/
def exItems : List (Item × Bytes) :=
  [(⟨"Root".toList, [(3, 2), (4, 3)], ⟨100, 0⟩, ⟨900, 0⟩, Handle.init⟩, [0, 1, 0, 1, 2]),
   (⟨"ы.inf".toList, [(3, 1)], ⟨200, 0⟩, ⟨300, 0⟩, ⟨[none], none, none, some false⟩⟩, [0])]

theorem exItems_ready : ∀ p ∈ exItems, Spec.Ready exWorld p.1 p.2 ∧ p.2 ≠ [] := by
  intro p hp
  simp only [exItems, List.mem_cons, List.not_mem_nil, or_false] at hp
  rcases hp with rfl | rfl
  · exact ⟨⟨by unfold Opening.Spec.Raw; decide, ⟨true, by decide⟩, Or.inl rfl⟩, by decide⟩
  · exact ⟨⟨by unfold Opening.Spec.Raw; decide, ⟨false, by decide +kernel⟩, Or.inr ⟨[0], [.open, .close], Or.inr ⟨by decide +kernel, rfl⟩, by decide +kernel⟩⟩, by decide⟩

theorem exItems_names : Spec.Names exItems := by unfold Spec.Names Spec.SameName; decide +kernel

/-- The theorem applies to them, whatever the file held. -/
example (old : Option Bytes) := saved_configuration_partial exWorld LAST (Nat.le_refl _) old exItems exItems_ready exItems_names (by decide +kernel)

/-- **Negation of C84: names.** The names in the container are not those of the files, and the time of modification of the
first file, 900, has become 108. -/
theorem names_padded :
    (do match ← saveConfig exWorld LAST true (some [1, 2, 3]) (exItems.map Prod.fst) with
        | some (_, some d, _) => do
          match ← openCatalog LAST d with
          | some (.container k) => .ok (some (k.ents.map fun e : File => (e.name, e.created, e.modified)))
          | _ => .ok none
        | _ => .ok none) =
      .ok (some [(textBytes "Root\x00\x00".toList, 100, 108), (textBytes "ы.inf\x00\x00".toList, 200, 208)]) := by decide +kernel

end Verif.Config.Whole
