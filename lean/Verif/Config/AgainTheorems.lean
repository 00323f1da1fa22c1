import Verif.Config.AgainSpec
import Verif.Config.WholeTheorems

/-! # Theorems: saving a configuration again and again (C116) -/

namespace Verif.Config.Again
open Verif Verif.Config Verif.Container Verif.Unicode.Spec

/-! ## Lemmas -/

/-- An entry is made and given its times: the time of day is nowhere left. -/
theorem created_now (k : Catalog) (name : Bytes) (c m : Nat) (now now' : Nat) :
    (do let x ← createFile k name now; .ok (setTimes x.2 x.1 c m) : Outcome (File × Catalog)) =
    (do let x ← createFile k name now'; .ok (setTimes x.2 x.1 c m)) := by
  unfold createFile
  cases Container.getFile k name with
  | throw => rfl
  | ub => rfl
  | ok o =>
    rw [Outcome.ok_bind, Outcome.ok_bind]
    cases o with
    | some e => rfl
    | none =>
      simp only
      unfold addEntry
      simp only
      cases Unicode.lowerCase name with
      | throw => rfl
      | ub => rfl
      | ok key =>
        simp only [Outcome.ok_bind, setTimes, update, List.map_append, List.map_cons, List.map_nil, if_true]

/-- What becomes of the catalog, without the streams of the file and the time of day. -/
def store (stamp : Time.FileTime → Int) (fuel : Nat) (k : Catalog) (it : Item) (raw : Bytes) : Outcome (Option Catalog) := do
  let y ← (do let x ← createFile k (textBytes it.name) 0; .ok (setTimes x.2 x.1 (pattern (stamp it.created)) (pattern (stamp it.modified))))
  writeAndClose plainCodec fuel y.2 y.1 raw

/-- A file of the configuration: its name, parts and times are these, and its streams are such as opening and closing leave. -/
def Good (w : World) (it0 it : Item) (raw plain : Bytes) : Prop :=
  (∃ h, it = { it0 with handle := h }) ∧ Opening.Spec.Raw w.io it0.parts raw ∧
    ∃ b, isPacked w.lower it0.name = .ok b ∧ ((b = true ∧ w.io.inflate raw = (plain, true)) ∨ (b = false ∧ plain = raw)) ∧
      Opening.Inv b raw plain it.handle

theorem fresh_good {w : World} {it : Item} {raw plain : Bytes} (h : Spec.Fresh w it raw plain) : Good w it it raw plain := by
  obtain ⟨h1, h2, h3⟩ := h
  refine ⟨⟨it.handle, rfl⟩, h2, ?_⟩
  rcases h3 with ⟨h3, h4⟩ | ⟨h3, h4⟩
  · exact ⟨true, h3, Or.inl ⟨rfl, h4⟩, by rw [h1]; exact Opening.init_inv _ _ _⟩
  · exact ⟨false, h3, Or.inr ⟨rfl, h4⟩, by rw [h1]; exact Opening.init_inv _ _ _⟩

theorem saveItem_store {w : World} {it0 it : Item} {raw plain : Bytes} (hg : Good w it0 it raw plain) (now fuel : Nat) (k : Catalog) :
    ∃ it', Good w it0 it' raw plain ∧ saveItem { w with now := now } fuel k it =
      (do match ← store w.stamp fuel k it0 raw with
          | none => .ok none
          | some k => .ok (some (k, it'))) := by
  obtain ⟨⟨h, rfl⟩, hr, b, hb, hpl, hi⟩ := hg
  simp only at hi
  obtain ⟨h1, e1, hi1, hh⟩ := Opening.ropen_ok hi hb hr (by rcases hpl with ⟨a, _⟩ | a; exact Or.inl a; exact Or.inr a)
  obtain ⟨h2, e2, hi2, _⟩ := Opening.close_ok hi1
  refine ⟨{ it0 with handle := h2 }, ⟨⟨h2, rfl⟩, hr, b, hb, hpl, hi2⟩, ?_⟩
  have hraw : h1.raw = .ok raw := by
    obtain ⟨i, hi, hg⟩ := hh
    unfold Handle.raw Handle.data
    rw [hi]
    simp only
    rw [hg]
  unfold saveItem
  simp only
  rw [e1, Outcome.ok_bind]
  simp only [if_true]
  unfold saveOpened store
  rw [created_now k _ _ _ 0 now]
  simp only
  cases createFile k (textBytes it0.name) now with
  | throw => rfl
  | ub => rfl
  | ok x =>
    simp only [Outcome.ok_bind]
    rw [hraw, Outcome.ok_bind]
    cases writeAndClose plainCodec fuel _ _ raw with
    | throw => rfl
    | ub => rfl
    | ok o =>
      cases o with
      | none => rfl
      | some k =>
        simp only [Outcome.ok_bind]
        rw [e2]
        rfl

/-- All files are as they should be. -/
def AllGood (w : World) : List (Item × Bytes × Bytes) → List Item → Prop
  | [], [] => True
  | p :: ps, it :: its => Good w p.1 it p.2.1 p.2.2 ∧ AllGood w ps its
  | _, _ => False

/-- The loop over the files, in the same way. -/
def storeAll (stamp : Time.FileTime → Int) (fuel : Nat) : Catalog → List (Item × Bytes × Bytes) → Outcome (Option Catalog)
  | k, [] => .ok (some k)
  | k, p :: ps => do
    match ← store stamp fuel k p.1 p.2.1 with
    | none => .ok none
    | some k => storeAll stamp fuel k ps

theorem saveItems_store {w : World} (now fuel : Nat) : ∀ (ps : List (Item × Bytes × Bytes)) (its : List Item) (k : Catalog), AllGood w ps its →
    ∃ its', AllGood w ps its' ∧ saveItems { w with now := now } fuel k its =
      (do match ← storeAll w.stamp fuel k ps with
          | none => .ok none
          | some k => .ok (some (k, its')))
  | [], [], k, _ => ⟨[], trivial, rfl⟩
  | [], _ :: _, _, h => h.elim
  | _ :: _, [], _, h => h.elim
  | p :: ps, it :: its, k, h => by
    obtain ⟨it', hg, e⟩ := saveItem_store h.1 now fuel k
    cases hs : store w.stamp fuel k p.1 p.2.1 with
    | throw =>
      obtain ⟨its', hg', _⟩ := saveItems_store now fuel ps its k h.2
      refine ⟨it' :: its', ⟨hg, hg'⟩, ?_⟩
      rw [saveItems, e, storeAll, hs]
      rfl
    | ub =>
      obtain ⟨its', hg', _⟩ := saveItems_store now fuel ps its k h.2
      refine ⟨it' :: its', ⟨hg, hg'⟩, ?_⟩
      rw [saveItems, e, storeAll, hs]
      rfl
    | ok o =>
      cases o with
      | none =>
        obtain ⟨its', hg', _⟩ := saveItems_store now fuel ps its k h.2
        refine ⟨it' :: its', ⟨hg, hg'⟩, ?_⟩
        rw [saveItems, e, storeAll, hs]
        rfl
      | some k1 =>
        obtain ⟨its', hg', e'⟩ := saveItems_store now fuel ps its k1 h.2
        refine ⟨it' :: its', ⟨hg, hg'⟩, ?_⟩
        rw [saveItems, e, storeAll, hs]
        simp only [Outcome.ok_bind]
        rw [e']
        cases storeAll w.stamp fuel k1 ps with
        | throw => rfl
        | ub => rfl
        | ok o => cases o <;> rfl

/-- The whole file, in the same way. -/
def storeFile (stamp : Time.FileTime → Int) (fuel : Nat) (ps : List (Item × Bytes × Bytes)) : Outcome (Option Bytes) := do
  match ← storeAll stamp fuel blankCatalog ps with
  | none => .ok none
  | some k => destroy plainCodec fuel k

theorem saveConfig_store {w : World} (now fuel : Nat) (old : Option Bytes) {ps : List (Item × Bytes × Bytes)} {its : List Item} (h : AllGood w ps its) :
    ∃ its', AllGood w ps its' ∧ saveConfig { w with now := now } fuel true old its =
      (do match ← storeFile w.stamp fuel ps with
          | none => .ok none
          | some d => .ok (some (true, some d, its'))) := by
  obtain ⟨its', hg, e⟩ := saveItems_store now fuel ps its blankCatalog h
  refine ⟨its', hg, ?_⟩
  unfold saveConfig
  rw [if_pos rfl]
  have hcur : (if old.isSome then none else old) = none := by cases old <;> rfl
  simp only
  rw [hcur, show openNamed fuel none = .ok (some (.container blankCatalog)) from rfl, Outcome.ok_bind]
  unfold saveInto storeFile
  simp only
  rw [e]
  cases storeAll w.stamp fuel blankCatalog ps with
  | throw => rfl
  | ub => rfl
  | ok o =>
    cases o with
    | none => rfl
    | some k =>
      simp only [Outcome.ok_bind]
      cases destroy plainCodec fuel k with
      | throw => rfl
      | ub => rfl
      | ok o => cases o <;> rfl

theorem AllGood.at {w : World} : ∀ {ps : List (Item × Bytes × Bytes)} {its : List Item}, AllGood w ps its → ∀ {i : Nat} {it : Item}, its[i]? = some it →
    ∃ p : Item × Bytes × Bytes, Good w p.1 it p.2.1 p.2.2 ∧ ∀ it', Good w p.1 it' p.2.1 p.2.2 → AllGood w ps (its.set i it')
  | [], [], _, i, it, h => by simp at h
  | [], _ :: _, h, _, _, _ => h.elim
  | _ :: _, [], h, _, _, _ => h.elim
  | p :: ps, a :: its, h, 0, it, e => by
    simp only [List.getElem?_cons_zero, Option.some.injEq] at e
    subst e
    exact ⟨p, h.1, fun it' h' => ⟨h', h.2⟩⟩
  | p :: ps, a :: its, h, i + 1, it, e => by
    simp only [List.getElem?_cons_succ] at e
    obtain ⟨q, h1, h2⟩ := AllGood.at h.2 e
    exact ⟨q, h1, fun it' h' => ⟨h.1, h2 it' h'⟩⟩

theorem use_good {w : World} {ps : List (Item × Bytes × Bytes)} {its : List Item} (h : AllGood w ps its) (i : Nat) (op : Opening.Spec.Op) :
    ∃ its', useFile w its i op = .ok its' ∧ AllGood w ps its' := by
  unfold useFile
  cases e : its[i]? with
  | none => exact ⟨its, rfl, h⟩
  | some it =>
    obtain ⟨p, ⟨⟨g, hit⟩, hr, b, hb, hpl, hi⟩, hset⟩ := h.at e
    obtain ⟨h', e', hi'⟩ := Opening.run_inv hb hr hpl [op] it.handle hi
    have es : Opening.Spec.step w.lower w.io it.name it.parts it.handle op = .ok h' := by
      rw [hit] at e' ⊢
      simp only at e' ⊢
      unfold Opening.Spec.run at e'
      cases hs : Opening.Spec.step w.lower w.io p.1.name p.1.parts g op with
      | throw => rw [hs] at e'; cases e'
      | ub => rw [hs] at e'; cases e'
      | ok x => rw [hs] at e'; exact e'
    refine ⟨its.set i { it with handle := h' }, ?_, hset _ ⟨⟨h', by rw [hit]⟩, hr, b, hb, hpl, hi'⟩⟩
    simp only
    rw [es, Outcome.ok_bind]

theorem session_good {w : World} (fuel : Nat) {ps : List (Item × Bytes × Bytes)} {d : Bytes} (hd : storeFile w.stamp fuel ps = .ok (some d)) :
    ∀ (acts : List Act) (its : List Item), AllGood w ps its →
      session w fuel acts its = .ok (some (List.replicate (Spec.saves acts) (true, some d)))
  | [], _, _ => rfl
  | .save now old :: acts, its, h => by
    obtain ⟨its', hg, e⟩ := saveConfig_store now fuel old h
    rw [hd, Outcome.ok_bind] at e
    rw [session, e, Outcome.ok_bind]
    simp only
    rw [session_good fuel hd acts its' hg, Outcome.ok_bind]
    rfl
  | .use i op :: acts, its, h => by
    obtain ⟨its', e, hg⟩ := use_good h i op
    rw [session, e, Outcome.ok_bind, session_good fuel hd acts its' hg]
    rfl

theorem fresh_all {w : World} : ∀ {ps : List (Item × Bytes × Bytes)}, (∀ p ∈ ps, Spec.Fresh w p.1 p.2.1 p.2.2) → AllGood w ps (ps.map Prod.fst)
  | [], _ => trivial
  | p :: _, h => ⟨fresh_good (h p (by simp)), fresh_all (fun q hq => h q (by simp [hq]))⟩

/-! ## C116 -/

/-- **C116: the same file every time.** If a configuration whose files can be read is saved once, then in every history of saving
it and of using its files, at whatever times and into whatever files, every saving succeeds and gives the same file, byte by byte. -/
theorem same_every_time (w : World) (fuel : Nat) (fs : List (Item × Bytes × Bytes)) (hf : ∀ p ∈ fs, Spec.Fresh w p.1 p.2.1 p.2.2)
    (old : Option Bytes) (d : Bytes) (its' : List Item) (h : saveConfig w fuel true old (fs.map Prod.fst) = .ok (some (true, some d, its')))
    (acts : List Act) : session w fuel acts (fs.map Prod.fst) = .ok (some (List.replicate (Spec.saves acts) (true, some d))) := by
  obtain ⟨its2, _, e⟩ := saveConfig_store w.now fuel old (fresh_all hf)
  rw [show ({ w with now := w.now } : World) = w from rfl, h] at e
  have hd : storeFile w.stamp fuel fs = .ok (some d) := by
    cases hs : storeFile w.stamp fuel fs with
    | throw => rw [hs] at e; cases e
    | ub => rw [hs] at e; cases e
    | ok o =>
      rw [hs] at e
      cases o with
      | none => cases e
      | some d2 =>
        simp only [Outcome.ok_bind] at e
        cases e
        rfl
  exact session_good fuel hd acts _ (fresh_all hf)

/-- **C116 (partial): every export is the configuration.** In every history of saving a configuration and of using its files, every
saving gives the same file, and it is a container in which every name, in any case, gives the raw contents of the file of this name, and no
other name gives anything. Missing: files that cannot be read (`second_export_truncated`), files of no bytes, configurations
of 2 gigabytes. -/
theorem every_export_partial (w : World) (fuel : Nat) (hfu : LAST ≤ fuel) (fs : List (Item × Bytes × Bytes))
    (hf : ∀ p ∈ fs, Spec.Fresh w p.1 p.2.1 p.2.2 ∧ p.2.1 ≠ []) (hn : Whole.Spec.Names (fs.map fun p => (p.1, p.2.1)))
    (hroom : Whole.Spec.room (fs.map fun p => (p.1, p.2.1)) < 2 ^ 31 - 1) :
    ∃ d k, openCatalog fuel d = .ok (some (.container k)) ∧ k.ents.length = fs.length ∧
      (∀ p ∈ fs, ∀ n : Str, (∀ c ∈ n, c.toNat ≠ 0) → Whole.Spec.SameName p.1.name n →
        content plainCodec fuel k (textBytes n) = .ok (some (some p.2.1))) ∧
      (∀ n : Str, (∀ c ∈ n, c.toNat ≠ 0) → (∀ p ∈ fs, ¬ Whole.Spec.SameName p.1.name n) →
        content plainCodec fuel k (textBytes n) = .ok (some none)) ∧
      ∀ acts, session w fuel acts (fs.map Prod.fst) = .ok (some (List.replicate (Spec.saves acts) (true, some d))) := by
  have hmap : (fs.map fun p => (p.1, p.2.1)).map Prod.fst = fs.map Prod.fst := by simp
  obtain ⟨d, its', k, h1, _, _, h2, h3, _, h4, h5⟩ := Whole.saved_configuration_partial w fuel hfu none (fs.map fun p => (p.1, p.2.1)) (by
    intro q hq
    obtain ⟨p, hp, rfl⟩ := List.mem_map.1 hq
    obtain ⟨⟨g1, g2, g3⟩, g4⟩ := hf p hp
    refine ⟨⟨g2, ?_, Or.inl g1⟩, g4⟩
    rcases g3 with ⟨g3, _⟩ | ⟨g3, _⟩
    · exact ⟨_, g3⟩
    · exact ⟨_, g3⟩) hn hroom
  rw [hmap] at h1
  refine ⟨d, k, h2, by simpa using h3, ?_, ?_, fun acts => same_every_time w fuel fs (fun p hp => (hf p hp).1) none d its' h1 acts⟩
  · intro p hp n hn0 hs
    exact h4 (p.1, p.2.1) (List.mem_map.2 ⟨p, hp, rfl⟩) n hn0 hs
  · intro n hn0 hs
    refine h5 n hn0 ?_
    intro q hq
    obtain ⟨p, hp, rfl⟩ := List.mem_map.1 hq
    exact hs p hp

/-! ## Examples and what does not hold -/

/-- Reading a blob gives its number twice, reading blob 9 gives one byte and fails; inflating drops the first byte. -/
def exW : World :=
  ⟨id, ⟨fun s _ => if s = 9 then ([9], false) else ([UInt8.ofNat s, UInt8.ofNat s], true), fun b => (b.drop 1, true)⟩, fun _ => 100, 5⟩

/-- A packed file of two parts and one that is not packed. -/
def exF : List (Item × Bytes × Bytes) :=
  [(⟨"root".toList, [(1, 2), (2, 2)], .ofInt 1, .ofInt 2, Handle.init⟩, [1, 1, 2, 2], [1, 2, 2]),
   (⟨"a.INF".toList, [(3, 2)], .ofInt 3, .ofInt 4, Handle.init⟩, [3, 3], [3, 3])]

theorem exF_fresh : ∀ p ∈ exF, Spec.Fresh exW p.1 p.2.1 p.2.2 ∧ p.2.1 ≠ [] := by
  intro p hp
  simp only [exF, List.mem_cons, List.not_mem_nil, or_false] at hp
  rcases hp with rfl | rfl
  · exact ⟨⟨rfl, by unfold Opening.Spec.Raw; decide, Or.inl ⟨by decide, by decide⟩⟩, by decide⟩
  · exact ⟨⟨rfl, by unfold Opening.Spec.Raw; decide, Or.inr ⟨by decide, rfl⟩⟩, by decide⟩

/-- The theorem applies to them. -/
example := every_export_partial exW LAST (Nat.le_refl _) exF exF_fresh (by unfold Whole.Spec.Names Whole.Spec.SameName; decide +kernel) (by decide +kernel)

/-- A file whose second part cannot be read to its end. -/
def exBad : Item := ⟨"root".toList, [(1, 2), (9, 2)], .ofInt 1, .ofInt 2, Handle.init⟩

/-- **Negation of C116: a file that cannot be read.** A file part of which cannot be read makes the export fail; but the stream it was being
read into stays, and the next export takes it for the whole file: any file whose raw reading failed once is opened raw, with
what had been read till then. -/
theorem failed_reading_stays (lower : Str → Str) (io : Io) (name : Str) (parts : List (Nat × Nat)) (b : Bool) (hb : isPacked lower name = .ok b)
    (hbad : (blobs io parts []).2 = false) :
    ∃ h1, Handle.init.ropen lower io name parts = .ok (h1, false) ∧
      ∃ h2, h1.ropen lower io name parts = .ok (h2, true) ∧ h2.raw = .ok (blobs io parts []).1 := by
  refine ⟨⟨[some ⟨(blobs io parts []).1, (blobs io parts []).1.length⟩], none, some 0, some b⟩, ?_, ?_⟩
  · unfold Handle.ropen Handle.init Handle.findPacked
    simp only
    rw [hb]
    simp only [Outcome.ok_bind]
    cases b <;> simp [Handle.ropenNew, Handle.alloc, Handle.readInto, Handle.on, Outcome.ok_bind, hbad]
  · refine ⟨⟨[some ⟨(blobs io parts []).1, 0⟩], none, some 0, some b⟩, ?_, rfl⟩
    unfold Handle.ropen
    simp [Handle.rewind, Handle.on, Outcome.ok_bind]

/-- So it is with a whole export: the first fails; after the failed reading the second succeeds, and the file in the container
ends where the reading failed. -/
theorem second_export_truncated :
    saveConfig exW LAST true none [exBad] = .throw ∧
    (do let its ← useFile exW [exBad] 0 .ropen
        match ← saveConfig exW LAST true none its with
        | some (r, some d, _) => do
          match ← openCatalog LAST d with
          | some (.container k) => do
            let c ← content plainCodec LAST k (textBytes "root".toList)
            .ok (some (r, c))
          | _ => .ok none
        | _ => .ok none) = .ok (some (true, some (some [1, 1, 9]))) := ⟨by rfl, by decide +kernel⟩

end Verif.Config.Again
