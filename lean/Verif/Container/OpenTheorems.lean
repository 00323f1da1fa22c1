import Verif.Container.OpenOps
import Verif.Zlib.Theorems
import Verif.Zlib.Example

/-!
# Theorems: a container keeps its named contents (C66) and is recognised (C67)

`Spec.after` and `Spec.lookup` (OpenSpec.lean) say what the user expects of a history of operations.
-/

namespace Verif.Container
open Verif Verif.Stream Verif.Container.Spec Verif.Unicode Verif.Unicode.Spec

/-! ## Histories -/

/-- One operation of the user. -/
def step (cd : Codec) (fuel : Nat) (k : Catalog) : UserOp → Outcome (Option Opening)
  | .put n b now => do
    match ← put cd fuel k (utf8Text n) b now with
    | none => .ok none
    | some k => .ok (some (.container k))
  | .remove n => do
    match ← remove fuel k (utf8Text n) with
    | none => .ok none
    | some k => .ok (some (.container k))
  | .flush => do
    match ← flush cd fuel k with
    | none => .ok none
    | some k => .ok (some (.container k))
  | .reopen => reopen cd fuel k

/-- A history; `ok none` if a loop did not end or a reopened stream was no sound container. -/
def session (cd : Codec) (fuel : Nat) : Catalog → List UserOp → Outcome (Option Catalog)
  | k, [] => .ok (some k)
  | k, op :: ops => do
    match ← step cd fuel k op with
    | some (.container k) => session cd fuel k ops
    | _ => .ok none

/-- Names are made of code points other than NUL, a content can be packed and unpacked, times are 64 bits,
and flushing keeps the stream below 2^31 - 1 bytes. -/
def OpOk (cd : Codec) (k : Catalog) : UserOp → Prop
  | .put n b now => Name n ∧ Packs cd b ∧ now < 2 ^ 64
  | .remove n => Name n
  | .flush => extent k.cat + flushCost cd k < LAST
  | .reopen => extent k.cat + flushCost cd k < LAST

/-- Every operation of the history is allowed where it happens. -/
def Allowed (cd : Codec) (fuel : Nat) : Catalog → List UserOp → Prop
  | _, [] => True
  | k, op :: ops => OpOk cd k op ∧
    match step cd fuel k op with
    | .ok (some (.container k)) => Allowed cd fuel k ops
    | _ => True

/-- The container that opening an empty stream gives. -/
def blankCatalog : Catalog := ⟨⟨⟨template, 16⟩, LAST, 512, false, false⟩, 0, [], [], false, 0⟩

/-- Opening an empty stream makes it a blank container. -/
theorem open_empty (fuel : Nat) : openCatalog fuel [] = .ok (some (.container blankCatalog)) := rfl

theorem blank_inv (cd : Codec) : Inv cd blankCatalog (fun _ => none) [] := by
  refine ⟨⟨rfl, by simp, by simp, by simp, by simp, by simp, ?_⟩, ⟨by decide, Or.inl ⟨⟨rfl, rfl, by decide⟩, rfl⟩⟩,
    fun _ => ⟨rfl, rfl, rfl⟩, fun _ => Or.inl ⟨⟨rfl, rfl, by decide⟩, rfl⟩, rfl, fun _ => rfl⟩
  intro q id
  constructor
  · intro hq; cases hq
  · rintro ⟨x, hx, _⟩; cases hx

theorem step_ok {cd : Codec} {k : Catalog} {s : Store} {ls : Ghost} (h : Inv cd k s ls) (hd : extent k.cat < LAST)
    (fuel : Nat) (hf : LAST ≤ fuel) (op : UserOp) (ho : OpOk cd k op) :
    ∃ k' s' ls', step cd fuel k op = .ok (some (.container k')) ∧ Inv cd k' s' ls' ∧ extent k'.cat < LAST ∧
      ls'.map Prod.snd = after (ls.map Prod.snd) op := by
  cases op with
  | put n b now =>
    obtain ⟨hn, hb, hnow⟩ := ho
    obtain ⟨k', ls', e, hi, hs, hc⟩ := put_ok h hd fuel hf n hn b hb now hnow
    refine ⟨k', s, ls', ?_, hi, by rw [hc]; exact hd, hs⟩
    unfold step
    simp only
    rw [e]
    rfl
  | remove n =>
    obtain ⟨k', s', ls', e, hi, hs, hc⟩ := remove_ok h hd fuel hf n ho
    refine ⟨k', s', ls', ?_, hi, by rw [hc]; exact hd, hs⟩
    unfold step
    simp only
    rw [e]
    rfl
  | flush =>
    obtain ⟨k', s', ls', e, hi, _, hs, _, _, _, hx⟩ := flush_ok h ho fuel hf
    refine ⟨k', s', ls', ?_, hi, hx, hs⟩
    unfold step
    simp only
    rw [e]
    rfl
  | reopen =>
    obtain ⟨k', s', ls', e, hi, hs, _, hx⟩ := reopen_ok h ho fuel hf
    exact ⟨k', s', ls', e, hi, hx, hs⟩

theorem session_ok {cd : Codec} (fuel : Nat) (hf : LAST ≤ fuel) (ops : List UserOp) : ∀ (k : Catalog) (s : Store) (ls : Ghost),
    Inv cd k s ls → extent k.cat < LAST → Allowed cd fuel k ops →
    ∃ k' s' ls', session cd fuel k ops = .ok (some k') ∧ Inv cd k' s' ls' ∧ extent k'.cat < LAST ∧
      ls'.map Prod.snd = ops.foldl after (ls.map Prod.snd) := by
  induction ops with
  | nil => intro k s ls h hd _; exact ⟨k, s, ls, rfl, h, hd, rfl⟩
  | cons op ops ih =>
    intro k s ls h hd hl
    obtain ⟨ho, hl⟩ := hl
    obtain ⟨k1, s1, ls1, e1, h1, hd1, hs1⟩ := step_ok h hd fuel hf op ho
    rw [e1] at hl
    obtain ⟨k2, s2, ls2, e2, h2, hd2, hs2⟩ := ih k1 s1 ls1 h1 hd1 hl
    refine ⟨k2, s2, ls2, ?_, h2, hd2, by rw [hs2, hs1]; rfl⟩
    rw [session, e1]
    exact e2

/-- **C66 (partial).** After any legal history of storing, removing, flushing and reopening, from an empty stream on: the
history succeeds; every name, in any case, gives the content stored last under it, or nothing if there is
none; and the entries are the stored names in the order in which they were first stored (each possibly with NULs
behind it: reopened names gain two NULs, property C48). Missing: contents that the codec cannot give back (`Packs`): plain empty
ones, and packed ones whose size is a multiple of 16384. -/
theorem named_contents_partial (cd : Codec) (fuel : Nat) (hf : LAST ≤ fuel) (ops : List UserOp) (hl : Allowed cd fuel blankCatalog ops) :
    ∃ k, session cd fuel blankCatalog ops = .ok (some k) ∧
      (∀ n, Name n → content cd fuel k (utf8Text n) = .ok (some (lookup (ops.foldl after []) n))) ∧
      k.ents.length = (ops.foldl after []).length ∧
      ∀ (i : Nat) (e : File) (p : List Nat × Bytes), k.ents[i]? = some e → (ops.foldl after [])[i]? = some p → ∃ z, e.name = utf8Text (p.1 ++ List.replicate z 0) := by
  obtain ⟨k, s, ls, e, h, hd, hs⟩ := session_ok fuel hf ops blankCatalog _ [] (blank_inv cd) (by decide) hl
  simp only [List.map_nil] at hs
  refine ⟨k, e, ?_, ?_, ?_⟩
  · intro n hn
    rw [content_ok h hd fuel hf n hn, hs]
  · rw [h.core.ents, ← hs, List.length_map, List.length_map]
  · intro i f p hi hp
    rw [h.core.ents, List.getElem?_map] at hi
    rw [← hs, List.getElem?_map] at hp
    cases hx : ls[i]? with
    | none => rw [hx] at hi; cases hi
    | some x =>
      rw [hx] at hi hp
      cases hi
      cases hp
      exact (h.core.ok x (List.mem_of_getElem? hx)).name

/-! ### A history that meets the hypotheses -/

instance (cd : Codec) (b : Bytes) : Decidable (Packs cd b) :=
  match h : cd.pack b with
  | .ok p =>
    if h2 : p ≠ [] ∧ cd.unpack p = .ok b then isTrue ⟨p, h, h2⟩
    else isFalse (by
      rintro ⟨q, h3, h4⟩
      rw [h] at h3
      cases h3
      exact h2 h4)
  | .throw => isFalse (by rintro ⟨q, h3, _⟩; rw [h] at h3; cases h3)
  | .ub => isFalse (by rintro ⟨q, h3, _⟩; rw [h] at h3; cases h3)

instance (n : List Nat) : Decidable (Name n) := by unfold Unicode.Spec.Name; infer_instance

instance (cd : Codec) (k : Catalog) (op : UserOp) : Decidable (OpOk cd k op) := by
  cases op <;> unfold OpOk <;> infer_instance

instance decLegal (cd : Codec) (fuel : Nat) : ∀ (ops : List UserOp) (k : Catalog), Decidable (Allowed cd fuel k ops)
  | [], _ => isTrue trivial
  | op :: ops, k => by
    unfold Allowed
    have : ∀ r : Outcome (Option Opening), Decidable (match r with
        | .ok (some (.container k)) => Allowed cd fuel k ops
        | _ => True) := by
      intro r
      match r with
      | .ok (some (.container k)) => exact decLegal cd fuel ops k
      | .ok (some .other) => exact isTrue trivial
      | .ok (some (.broken _)) => exact isTrue trivial
      | .ok none => exact isTrue trivial
      | .throw => exact isTrue trivial
      | .ub => exact isTrue trivial
    have := this (step cd fuel k op)
    infer_instance

/-- Two names, one written twice in different case, one removed, with two reopenings. -/
def sample : List UserOp :=
  [.put [0x41, 0x416] [1, 2, 3] 5, .put [0x42] [4] 6, .flush, .put [0x61, 0x436] [7, 8, 9, 10] 7, .reopen, .remove [0x62],
    .put [0x43] [11] 8, .reopen]

example : Allowed plainCodec LAST blankCatalog sample := by decide +kernel

example : sample.foldl after [] = [([0x41, 0x416], [7, 8, 9, 10]), ([0x43], [11])] := by decide +kernel

/-! ## The codecs -/

/-- Without packing, every content but the empty one can be stored. -/
theorem plain_packs (b : Bytes) : Packs plainCodec b ↔ b ≠ [] := by
  constructor
  · rintro ⟨p, h1, h2, h3⟩ rfl
    cases h1
    exact h2 rfl
  · intro h
    exact ⟨b, rfl, h, rfl⟩

/-- With a correct compression library, all contents whose sizes are not multiples of 16384 can be stored. -/
theorem zip_packs {σ τ : Type} (z : Zlib.Deflater σ) (i : Zlib.Inflater τ) (D : Bytes → Option Bytes)
    (hz : Zlib.CorrectDeflater z D) (hi : Zlib.CorrectInflater i D) (hD : D [] = none) (bs : List Bytes)
    (hm : ∀ b ∈ bs, b.length % 16384 ≠ 0) :
    ∃ fd fi, ∀ b ∈ bs, Packs (zipCodec z i fd fi) b := by
  have h1 : ∃ fd, ∀ b ∈ bs, ∀ f, fd ≤ f → ∃ c, Zlib.deflateStream z f b = some (true, c) ∧ D c = some b := by
    clear hi
    induction bs with
    | nil => exact ⟨0, by simp⟩
    | cons b bs ih =>
      obtain ⟨F, hF⟩ := ih (fun b hb => hm b (by simp [hb]))
      obtain ⟨G, hG⟩ := Zlib.deflate_correct_partial z D hz b (hm b (by simp))
      refine ⟨max F G, ?_⟩
      intro x hx f hf
      rcases List.mem_cons.1 hx with rfl | hx
      · exact hG f (by omega)
      · exact hF x hx f (by omega)
  obtain ⟨fd, hfd⟩ := h1
  have h2 : ∃ fi, ∀ b ∈ bs, ∀ f, fi ≤ f → ∀ c, Zlib.deflateStream z fd b = some (true, c) →
      Zlib.inflateStream i f c = some (.ok b) := by
    clear hm
    induction bs with
    | nil => exact ⟨0, by simp⟩
    | cons b bs ih =>
      obtain ⟨F, hF⟩ := ih (fun b hb => hfd b (by simp [hb]))
      obtain ⟨c, hc, hDc⟩ := hfd b (by simp) fd (Nat.le_refl _)
      obtain ⟨G, hG⟩ := Zlib.inflate_correct i D hi c b hDc (by rintro rfl; rw [hD] at hDc; cases hDc)
      refine ⟨max F G, ?_⟩
      intro x hx f hf c' hc'
      rcases List.mem_cons.1 hx with rfl | hx
      · rw [hc] at hc'
        cases hc'
        exact hG f (by omega)
      · exact hF x hx f (by omega) c' hc'
  obtain ⟨fi, hfi⟩ := h2
  refine ⟨fd, fi, ?_⟩
  intro b hb
  obtain ⟨c, hc, hDc⟩ := hfd b hb fd (Nat.le_refl _)
  refine ⟨c, ?_, ?_, ?_⟩
  · unfold zipCodec; simp only; rw [hc]
  · rintro rfl; rw [hD] at hDc; cases hDc
  · unfold zipCodec; simp only; rw [hfi b hb fi (Nat.le_refl _) c hc]

/-- **C66, negation.** With a correct compression library a content whose size is a multiple of 16384 cannot be stored: nothing is
written for it. -/
theorem zip_multiple_not_stored (b : Bytes) (hm : b.length % 16384 = 0) :
    ∃ F, ∀ fd fi, F ≤ fd → ¬ Packs (zipCodec Zlib.Example.deflater Zlib.Example.inflater fd fi) b := by
  obtain ⟨F, hF⟩ := Zlib.Example.multiple_of_chunk_is_lost b hm
  refine ⟨F, ?_⟩
  rintro fd fi hfd ⟨p, h1, h2, _⟩
  unfold zipCodec at h1
  simp only [(hF fd hfd).1] at h1
  cases h1
  exact h2 rfl

/-! ## What goes wrong -/

/-- Creating an entry without storing anything in it. -/
def create (cd : Codec) (fuel : Nat) (k : Catalog) (n : List Nat) (now : Nat) : Outcome (Option Opening) := do
  let (_, k) ← createFile k (utf8Text n) now
  reopen cd fuel k

/-- **C66, negation.** An entry that was created but in which nothing was stored is flushed with the
addresses 0; opening the container again reads the name of that entry from an empty block. -/
theorem created_entry_breaks_container : create plainCodec LAST blankCatalog [0x41] 5 = .ub := by decide +kernel

/-- **C66, negation.** An entry stored empty, without packing, has a page of size 0; what is stored in it later is lost. -/
theorem empty_content_breaks_entry :
    (do match ← session plainCodec LAST blankCatalog [.put [0x41] [] 5, .flush, .put [0x41] [1, 2, 3] 6, .reopen] with
        | none => .ok none
        | some k => content plainCodec LAST k (utf8Text [0x41])) ≠ .ok (some (some [1, 2, 3])) := by decide +kernel

/-! ## Recognising a container -/

/-- **C67 (partial).** Whatever the history, the stream of a flushed container is recognised as a container. -/
theorem written_recognised_partial (cd : Codec) (fuel : Nat) (hf : LAST ≤ fuel) (ops : List UserOp)
    (hl : Allowed cd fuel blankCatalog (ops ++ [.flush])) :
    ∃ k, session cd fuel blankCatalog (ops ++ [.flush]) = .ok (some k) ∧ isCatalog k.cat.data.data = .ok true := by
  have key : ∀ (ops : List UserOp) (k : Catalog) (s : Store) (ls : Ghost), Inv cd k s ls → extent k.cat < LAST →
      Allowed cd fuel k (ops ++ [.flush]) →
      ∃ k', session cd fuel k (ops ++ [.flush]) = .ok (some k') ∧ isCatalog k'.cat.data.data = .ok true := by
    intro ops
    induction ops with
    | nil =>
      intro k s ls h hd hl
      obtain ⟨k1, s1, ls1, e1, h1, hcl, hs1, _, hf1, hem1, hx1⟩ := flush_ok h hl.1 fuel hf
      have hstep : step cd fuel k .flush = .ok (some (.container k1)) := by
        unfold step
        simp only
        rw [e1]
        rfl
      refine ⟨k1, ?_, ?_⟩
      · rw [List.nil_append, session, hstep]; rfl
      · have hlt : k1.cat.data.data.length < LAST := by unfold extent at hx1; omega
        rcases h1.phys.2 with ⟨hb, _⟩ | ⟨hr, ⟨f, h16⟩, _⟩
        · rw [(h1.blank hb.size).1]; decide
        · refine recognised k1.cat s1 hr hlt f h16 ?_
          rw [rdWord_congr 0xff 0 k1.cat.data.data k1.cat.data.data 0 (by omega) (phys_length h1.phys) rfl]
          exact h1.next hem1
    | cons op ops ih =>
      intro k s ls h hd hl
      obtain ⟨ho, hl⟩ := hl
      obtain ⟨k1, s1, ls1, e1, h1, hd1, _⟩ := step_ok h hd fuel hf op ho
      rw [e1] at hl
      obtain ⟨k2, e2, h2⟩ := ih k1 s1 ls1 h1 hd1 hl
      refine ⟨k2, ?_, h2⟩
      rw [List.cons_append, session, e1]
      exact e2
  exact key ops blankCatalog _ [] (blank_inv cd) (by decide) hl

example : Allowed plainCodec LAST blankCatalog (sample ++ [.flush]) := by decide +kernel

/-- When the test throws: `e`, the first four bytes as a number (missing bytes being FF), is beyond the end of the stream, but
`e + 31` wraps around to a number below its length. -/
theorem recognising_throws_iff (d : Bytes) : isCatalog d = .throw ↔
    d.length ≠ 16 ∧ rdWord 0xff d 0 ≠ LAST ∧ d.length < rdWord 0xff d 0 ∧ (rdWord 0xff d 0 + 31) % 2 ^ 32 < d.length := by
  unfold isCatalog
  by_cases h16 : d.length = 16
  · rw [if_pos h16]; simp [h16]
  · rw [if_neg h16]
    unfold freeTest
    simp only
    by_cases h1 : rdWord 0xff d 0 = LAST
    · rw [if_pos h1]
      simp [h1, Outcome.ok_bind]
    · rw [if_neg h1]
      by_cases h2 : (rdWord 0xff d 0 + 31) % 2 ^ 32 ≥ d.length
      · rw [if_pos h2]
        simp only [Outcome.ok_bind, Bool.false_eq_true, if_false]
        constructor
        · intro h; cases h
        · rintro ⟨_, _, _, h⟩; omega
      · rw [if_neg h2]
        by_cases h3 : rdWord 0xff d 0 > d.length
        · rw [if_pos h3]
          constructor
          · intro _; exact ⟨h16, h1, h3, by omega⟩
          · intro _; rfl
        · rw [if_neg h3, Outcome.ok_bind]
          constructor
          · intro h
            split at h <;> cases h
          · rintro ⟨_, _, h, _⟩; omega

/-- The test never does anything undefined. -/
theorem recognising_defined (d : Bytes) : isCatalog d ≠ .ub := by
  unfold isCatalog freeTest
  split
  · intro h; cases h
  · simp only
    split
    · intro h; rw [Outcome.ok_bind] at h; cases h
    · split
      · intro h; rw [Outcome.ok_bind] at h; cases h
      · split
        · intro h; cases h
        · intro h
          rw [Outcome.ok_bind] at h
          split at h <;> cases h

/-- **C67, negation.** Asked about any file, of 31 bytes or more and below 4 GiB, that starts with four bytes FF, the test throws. -/
theorem ff_file_throws (rest : Bytes) (h : 27 ≤ rest.length) (h2 : rest.length + 4 < 2 ^ 32 - 1) :
    isCatalog ([0xff, 0xff, 0xff, 0xff] ++ rest) = .throw := by
  have hr : rdWord 0xff ([0xff, 0xff, 0xff, 0xff] ++ rest) 0 = 2 ^ 32 - 1 := by simp [rdWord]
  have hl : ([0xff, 0xff, 0xff, 0xff] ++ rest).length = rest.length + 4 := by simp
  have hLd : LAST = 2147483647 := rfl
  rw [recognising_throws_iff, hr, hl]
  refine ⟨by omega, by rw [hLd]; omega, by omega, by omega⟩

/-- **C67, negation.** So does a file of three bytes. -/
theorem short_file_throws : isCatalog [0xe2, 0xff, 0xff] = .throw := by decide

end Verif.Container
