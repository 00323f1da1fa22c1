import Verif.Format.Theorems
import Verif.Tree.ClassTheorems

/-!
# C97: what is wrong with the test of the stored streams
-/

namespace Verif.Format
open Verif Verif.Unicode.Spec Verif.Container Verif.Format.Spec
open Verif.Container.Spec (UserOp after Store)

/-! ## The result is never false -/

theorem testEntries_true {leaf : Bytes → Bytes → Outcome (Option Bool)} {inner : Catalog → Bytes → Outcome (Option (Bool × Bool))} {cd : Codec}
    {fuel : Nat} {c : Cat} {path : Bytes} (hl : ∀ p b r, leaf p b = .ok (some r) → r = true)
    (hi : ∀ k p r, inner k p = .ok (some r) → r.1 = true) :
    ∀ (es : List File) (r r' : Bool × Bool), r.1 = true → testEntries leaf inner cd fuel c path es r = .ok (some r') → r'.1 = true := by
  intro es
  induction es with
  | nil => intro r r' hr h; rw [testEntries] at h; cases h; exact hr
  | cons e es ih =>
    intro r r' hr h
    rw [testEntries] at h
    obtain ⟨o, ho, h⟩ := bind_inv h
    cases o with
    | none => cases h
    | some f =>
      simp only at h
      obtain ⟨g, hg, h⟩ := bind_inv h
      cases g with
      | true =>
        simp only [if_true] at h
        obtain ⟨o, ho, h⟩ := bind_inv h
        match o, h with
        | none, h => cases h
        | some (.container k), h =>
          simp only at h
          obtain ⟨o, ho, h⟩ := bind_inv h
          match o, ho, h with
          | none, _, h => cases h
          | some (_, true), _, h => cases h
          | some (res, false), ho, h => exact ih (res, r.2) _ (show (res, r.2).1 = true from hi _ _ (res, false) ho) h
        | some .other, h => exact ih (true, r.2) _ rfl h
        | some (.broken _), h => exact ih (true, r.2) _ rfl h
      | false =>
        simp only [Bool.false_eq_true, if_false] at h
        split at h
        · obtain ⟨o, ho, h⟩ := bind_inv h
          cases o with
          | none => cases h
          | some res => exact ih _ _ (hl _ _ _ ho) h
        · exact ih _ _ hr h

theorem stream_true (z : Unzip) (fuel : Nat) : ∀ (d : Nat),
    (∀ twice path b r, testStream z fuel d twice path b = .ok (some r) → r = true) ∧
    (∀ cd k path r, testCat z fuel d cd k path = .ok (some r) → r.1 = true) := by
  intro d
  induction d with
  | zero =>
    constructor
    · intro twice path b r h; rw [testStream] at h; cases h
    · intro cd k path r h; rw [testCat] at h; cases h
  | succ d ih =>
    constructor
    · intro twice path b r h
      rw [testStream] at h
      split at h
      · cases h; rfl
      split at h
      · cases h; rfl
      obtain ⟨⟨x, zipped⟩, hu, h⟩ := bind_inv h
      simp only at h
      obtain ⟨o, ho, h⟩ := bind_inv h
      match o, h with
      | none, h => cases h
      | some (.container k), h =>
        simp only at h
        split at h
        · obtain ⟨r', h', h⟩ := bind_inv h
          cases h
          exact (testText_true h').1
        · obtain ⟨o, ho, h⟩ := bind_inv h
          match o, ho, h with
          | none, _, h => cases h
          | some (_, true), _, h => cases h
          | some (res, false), ho, h =>
            cases h
            exact ih.2 _ _ _ _ ho
      | some .other, h =>
        obtain ⟨r', h', h⟩ := bind_inv h
        cases h
        exact (testText_true h').1
      | some (.broken _), h =>
        obtain ⟨r', h', h⟩ := bind_inv h
        cases h
        exact (testText_true h').1
    · intro cd k path r h
      rw [testCat] at h
      exact testEntries_true (fun p b r => ih.1 _ p b r) (fun k p r => ih.2 _ k p r) _ _ _ rfl h

theorem testAll_true {f : Rec → Outcome (Option Bool)} (hf : ∀ r x, f r = .ok (some x) → x = true) : ∀ (rs : List Rec) (a x : Bool), a = true →
    testAll f rs a = .ok (some x) → x = true
  | [], a, x, ha, h => by rw [testAll] at h; cases h; exact ha
  | r :: rs, a, x, ha, h => by
    rw [testAll] at h
    obtain ⟨o, ho, h⟩ := bind_inv h
    cases o with
    | none => cases h
    | some y => exact testAll_true hf rs _ x (by rw [ha, hf r y ho]; rfl) h

/-- **C97, finding.** The test returns `true` or does not return: whatever the infobase, the `false` its callers look for never comes. -/
theorem never_false (z : Unzip) (fuel d : Nat) (db : Db) (r : Bool) (h : testDb z fuel d db = .ok (some r)) : r = true := by
  have h1 : ∀ (t : Bytes) (q : Rec) (x : Bool), testRec z fuel d t q = .ok (some x) → x = true := by
    intro t q x h
    unfold testRec at h
    split at h
    · cases h; rfl
    · obtain ⟨b, _, h⟩ := bind_inv h
      obtain ⟨n, _, h⟩ := bind_inv h
      split at h
      · cases h
      · exact (stream_true z fuel d).1 _ _ _ _ h
  have h2 : ∀ (t : Bytes) (q : Rec) (x : Bool), testRec2 z fuel d t q = .ok (some x) → x = true := by
    intro t q x h
    unfold testRec2 at h
    split at h
    · cases h; rfl
    · obtain ⟨b, _, h⟩ := bind_inv h
      exact (stream_true z fuel d).1 _ _ _ _ h
  unfold testDb testNext at h
  obtain ⟨config, e1, h⟩ := bind_inv h
  obtain ⟨configsave, e2, h⟩ := bind_inv h
  obtain ⟨params, e3, h⟩ := bind_inv h
  obtain ⟨files, e4, h⟩ := bind_inv h
  obtain ⟨dbschema, e5, h⟩ := bind_inv h
  obtain ⟨o, ho, hfin⟩ := bind_inv h
  clear h
  cases o with
  | none => cases hfin
  | some r3 =>
    obtain ⟨o, ho2, ho⟩ := bind_inv ho
    cases o with
    | none => cases ho
    | some r2 =>
      obtain ⟨o, ho1, ho2⟩ := bind_inv ho2
      cases o with
      | none => cases ho2
      | some r1 =>
        have t1 := testAll_true (h1 _) _ _ _ rfl ho1
        have t2 := testAll_true (h1 _) _ _ _ t1 ho2
        have t3 := testAll_true (h1 _) _ _ _ t2 ho
        simp only at hfin
        by_cases hl : dbschema.recs.length < 2
        · rw [if_pos hl] at hfin; cases hfin
        · rw [if_neg hl] at hfin
          exact testAll_true (h2 _) _ _ _ t3 hfin

/-! ## Containers -/

theorem testEntries_opened {leaf : Bytes → Bytes → Outcome (Option Bool)} {inner : Catalog → Bytes → Outcome (Option (Bool × Bool))} {cd : Codec}
    {fuel : Nat} {c : Cat} {path : Bytes} :
    ∀ (es : List File) (r r' : Bool × Bool), (r.2 = true ∨ ∃ e ∈ es, tested e.name = true ∧
      ∀ f, openFile cd fuel c e = .ok (some f) → isCatalog (f.content.getD []) = .ok false) →
      testEntries leaf inner cd fuel c path es r = .ok (some r') → r'.2 = true := by
  intro es
  induction es with
  | nil =>
    intro r r' hr h
    rw [testEntries] at h
    cases h
    rcases hr with hr | ⟨e, he, _⟩
    · exact hr
    · cases he
  | cons e es ih =>
    intro r r' hr h
    rw [testEntries] at h
    obtain ⟨o, ho, h⟩ := bind_inv h
    cases o with
    | none => cases h
    | some f =>
      simp only at h
      obtain ⟨g, hg, h⟩ := bind_inv h
      cases g with
      | true =>
        have hr' : r.2 = true ∨ ∃ e ∈ es, tested e.name = true ∧ ∀ f, openFile cd fuel c e = .ok (some f) → isCatalog (f.content.getD []) = .ok false := by
          rcases hr with hr | ⟨e', he, ht, hc⟩
          · exact Or.inl hr
          · rcases List.mem_cons.1 he with rfl | he
            · rw [hc f ho] at hg; cases hg
            · exact Or.inr ⟨e', he, ht, hc⟩
        simp only [if_true] at h
        obtain ⟨o, ho, h⟩ := bind_inv h
        match o, h with
        | none, h => cases h
        | some (.container k), h =>
          simp only at h
          obtain ⟨o, ho, h⟩ := bind_inv h
          match o, ho, h with
          | none, _, h => cases h
          | some (_, true), _, h => cases h
          | some (res, false), ho, h => exact ih (res, r.2) _ hr' h
        | some .other, h => exact ih (true, r.2) _ hr' h
        | some (.broken _), h => exact ih (true, r.2) _ hr' h
      | false =>
        simp only [Bool.false_eq_true, if_false] at h
        split at h
        · obtain ⟨o, ho, h⟩ := bind_inv h
          cases o with
          | none => cases h
          | some res => exact ih (res, true) _ (Or.inl rfl) h
        · rename_i hnt
          refine ih r _ ?_ h
          rcases hr with hr | ⟨e', he, ht, hc⟩
          · exact Or.inl hr
          · rcases List.mem_cons.1 he with rfl | he
            · exact absurd ht hnt
            · exact Or.inr ⟨e', he, ht, hc⟩

/-- A container with an entry that is no container itself never passes, whatever is in it. -/
theorem opened_container_never_passes (z : Unzip) (fuel d : Nat) (twice : Bool) (path b x : Bytes) (k : Catalog) (zipped : Bool) (e : File)
    (hp : path ≠ USERS) (hb : b ≠ []) (hu : unpack z twice b = .ok (x, zipped)) (ho : openCatalog fuel x = .ok (some (.container k)))
    (he : e ∈ k.ents) (ht : tested e.name = true)
    (hc : ∀ f, openFile (codec z zipped) fuel k.cat e = .ok (some f) → isCatalog (f.content.getD []) = .ok false) (r : Bool) :
    testStream z fuel d twice path b ≠ .ok (some r) := by
  intro h
  cases d with
  | zero => rw [testStream] at h; cases h
  | succ d =>
    rw [testStream, if_neg hp, if_neg (by simpa using hb), hu] at h
    simp only [Outcome.ok_bind, ho] at h
    rw [if_neg (by intro hn; rw [hn] at he; cases he)] at h
    obtain ⟨o, hcat, hfin⟩ := bind_inv h
    clear h
    cases d with
    | zero => rw [testCat] at hcat; cases hcat; cases hfin
    | succ d =>
      rw [testCat] at hcat
      match o, hcat, hfin with
      | none, _, hfin => cases hfin
      | some (_, true), _, hfin => cases hfin
      | some (res, false), hcat, hfin =>
        have := testEntries_opened k.ents (true, false) _ (Or.inr ⟨e, he, ht, hc⟩) hcat
        cases this

theorem tested_padded (n : List Nat) (hn : Name n) (z : Nat) (h1 : n ≠ "module".toList.map Char.toNat) (h2 : n ≠ "text".toList.map Char.toNat) :
    tested (utf8Text (padded n z)) = true := by
  have key : ∀ w : String, Name (w.toList.map Char.toNat) → Cli.asc w = utf8Text (w.toList.map Char.toNat) → n ≠ w.toList.map Char.toNat →
      utf8Text (padded n z) ≠ Cli.asc w := by
    intro w hw ha hne e
    rw [ha] at e
    have e' := Unicode.utf8Text_inj _ _ (padded_scalar hn z) (fun c hc => (hw c hc).1) e
    cases z with
    | zero => exact hne (by simpa [padded] using e')
    | succ z =>
      have : 0 ∈ w.toList.map Char.toNat := by rw [← e']; simp [padded]
      exact (hw 0 this).2 rfl
  unfold tested
  have a := key "module" (name_ascii _ (by decide)) (asc_utf8 _ (by decide)) h1
  have b := key "text" (name_ascii _ (by decide)) (asc_utf8 _ (by decide)) h2
  simp [a, b]

theorem flushed_session {cd : Codec} (fuel : Nat) (hf : LAST ≤ fuel) (ops : List UserOp) (hl : Allowed cd fuel blankCatalog (ops ++ [.flush])) :
    ∃ k s ls, session cd fuel blankCatalog (ops ++ [.flush]) = .ok (some k) ∧ Inv cd k s ls ∧ (∀ x ∈ ls, Clean x.1) ∧ k.fatMod = false ∧
      k.cat.emptyMod = false ∧ extent k.cat < LAST ∧ ls.map Prod.snd = ops.foldl after [] := by
  have key : ∀ (ops : List UserOp) (k : Catalog) (s : Store) (ls : Ghost), Inv cd k s ls → extent k.cat < LAST →
      Allowed cd fuel k (ops ++ [.flush]) →
      ∃ k' s' ls', session cd fuel k (ops ++ [.flush]) = .ok (some k') ∧ Inv cd k' s' ls' ∧ (∀ x ∈ ls', Clean x.1) ∧ k'.fatMod = false ∧
        k'.cat.emptyMod = false ∧ extent k'.cat < LAST ∧ ls'.map Prod.snd = ops.foldl after (ls.map Prod.snd) := by
    intro ops
    induction ops with
    | nil =>
      intro k s ls h hd hl
      obtain ⟨k1, s1, ls1, e1, h1, hcl, hs1, _, hf1, hem1, hx1⟩ := flush_ok h hl.1 fuel hf
      have hstep : step cd fuel k .flush = .ok (some (.container k1)) := by
        unfold step
        simp only
        rw [e1]
        rfl
      refine ⟨k1, s1, ls1, ?_, h1, hcl, hf1, hem1, hx1, hs1⟩
      rw [List.nil_append, session, hstep]; rfl
    | cons op ops ih =>
      intro k s ls h hd hl
      obtain ⟨ho, hl⟩ := hl
      obtain ⟨k1, s1, ls1, e1, h1, hd1, hs⟩ := step_ok h hd fuel hf op ho
      rw [e1] at hl
      obtain ⟨k2, s2, ls2, e2, a1, a2, a3, a4, a5, a6⟩ := ih k1 s1 ls1 h1 hd1 hl
      refine ⟨k2, s2, ls2, ?_, a1, a2, a3, a4, a5, by rw [a6, hs]; rfl⟩
      rw [List.cons_append, session, e1]
      exact e2
  exact key ops blankCatalog _ [] (blank_inv cd) (by decide) hl

/-- **C97, finding.** The value of a container made and written by this program (any history), with an entry that is no container and is named
neither `module` nor `text`: the test never comes to an end of which its caller learns. -/
theorem container_never_passes (z : Unzip) (fuel d : Nat) (hf : LAST ≤ fuel) (twice zipped : Bool) (path b : Bytes) (ops : List UserOp) (k : Catalog)
    (hl : Allowed (codec z zipped) fuel blankCatalog (ops ++ [.flush]))
    (hk : session (codec z zipped) fuel blankCatalog (ops ++ [.flush]) = .ok (some k)) (hp : path ≠ USERS) (hb : b ≠ [])
    (hu : unpack z twice b = .ok (k.cat.data.data, zipped)) (n : List Nat) (v : Bytes) (hm : (n, v) ∈ ops.foldl after [])
    (h1 : n ≠ "module".toList.map Char.toNat) (h2 : n ≠ "text".toList.map Char.toNat) (hv : isCatalog v = .ok false) (r : Bool) :
    testStream z fuel d twice path b ≠ .ok (some r) := by
  obtain ⟨k1, s, ls, e, hi, hcl, hfm, hem, hx, hs⟩ := flushed_session fuel hf ops hl
  rw [hk] at e
  cases e
  obtain ⟨k', ls', ho, hi', hs', _, hx'⟩ := open_ok hi hcl hfm hem hx fuel hf
  rw [← hs, ← hs'] at hm
  obtain ⟨y, hy, hye⟩ := List.mem_map.1 hm
  have hok := hi'.core.ok y hy
  obtain ⟨q, hq⟩ := hok.name
  rw [hye] at hq
  refine opened_container_never_passes z fuel d twice path b _ k' zipped y.1 hp hb hu ho (by rw [hi'.core.ents]; exact List.mem_map_of_mem hy) ?_ ?_ r
  · rw [hq]
    exact tested_padded n (by have := hok.isName; rwa [hye] at this) q h1 h2
  · intro f hf'
    rw [openFile_ok hi'.phys hok (by omega) fuel (by omega)] at hf'
    cases hf'
    simp only [Option.getD_some, hye]
    exact hv

/-- A container all of whose entries are texts that pass the test: destroying the container, with streams open on its entries, is undefined. -/
theorem sound_container_undefined (z : Unzip) (fuel d : Nat) (twice : Bool) (path b x : Bytes) (k : Catalog) (zipped : Bool)
    (hp : path ≠ USERS) (hb : b ≠ []) (hu : unpack z twice b = .ok (x, zipped)) (ho : openCatalog fuel x = .ok (some (.container k)))
    (hne : k.ents ≠ []) (he : ∀ e ∈ k.ents, tested e.name = true ∧ ∃ f, openFile (codec z zipped) fuel k.cat e = .ok (some f) ∧
      isCatalog (f.content.getD []) = .ok false ∧ Sound z false (path ++ Cli.asc "/" ++ e.name) (f.content.getD [])) :
    testStream z fuel (d + 3) twice path b = .ub := by
  rw [testStream, if_neg hp, if_neg (by simpa using hb), hu]
  simp only [Outcome.ok_bind, ho]
  rw [if_neg hne, testCat]
  have key : ∀ (es : List File) (r : Bool × Bool), (∀ e ∈ es, tested e.name = true ∧ ∃ f, openFile (codec z zipped) fuel k.cat e = .ok (some f) ∧
      isCatalog (f.content.getD []) = .ok false ∧ Sound z false (path ++ Cli.asc "/" ++ e.name) (f.content.getD [])) →
      ∃ r', testEntries (testStream z fuel (d + 1) false) (testCat z fuel (d + 1) plainCodec) (codec z zipped) fuel k.cat path es r = .ok (some r') := by
    intro es
    induction es with
    | nil => intro r _; exact ⟨r, rfl⟩
    | cons e es ih =>
      intro r h
      obtain ⟨ht, f, h1, h2, h3⟩ := h e (by simp)
      rw [testEntries, h1]
      simp only [Outcome.ok_bind, h2, Bool.false_eq_true, if_false]
      rw [if_pos ht, sound_passes h3]
      exact ih _ (fun e he => h e (by simp [he]))
  obtain ⟨⟨res, o⟩, hr⟩ := key k.ents (true, false) he
  rw [hr, Outcome.ok_bind]
  have : o = true := by
    cases hk : k.ents with
    | nil => exact absurd hk hne
    | cons e es =>
      refine testEntries_opened k.ents (true, false) (res, o) (Or.inr ⟨e, by rw [hk]; simp, (he e (by rw [hk]; simp)).1, ?_⟩) hr
      intro f hf
      obtain ⟨_, f', h1, h2, _⟩ := he e (by rw [hk]; simp)
      rw [h1] at hf
      cases hf
      exact h2
  subst this
  rfl

/-- **C97, finding.** An inner container whose directory cannot be read is passed over: a value whose entries are all of this kind passes. -/
theorem broken_inner_passes (z : Unzip) (fuel d : Nat) (twice : Bool) (path b x : Bytes) (k : Catalog) (zipped : Bool)
    (hp : path ≠ USERS) (hb : b ≠ []) (hu : unpack z twice b = .ok (x, zipped)) (ho : openCatalog fuel x = .ok (some (.container k)))
    (hne : k.ents ≠ []) (he : ∀ e ∈ k.ents, ∃ f, openFile (codec z zipped) fuel k.cat e = .ok (some f) ∧
      isCatalog (f.content.getD []) = .ok true ∧ ∃ l, initCatalog fuel (f.content.getD []) = .ok (some (.broken l))) :
    testStream z fuel (d + 2) twice path b = .ok (some true) := by
  rw [testStream, if_neg hp, if_neg (by simpa using hb), hu]
  simp only [Outcome.ok_bind, ho]
  rw [if_neg hne, testCat]
  have key : ∀ (es : List File), (∀ e ∈ es, ∃ f, openFile (codec z zipped) fuel k.cat e = .ok (some f) ∧
      isCatalog (f.content.getD []) = .ok true ∧ ∃ l, initCatalog fuel (f.content.getD []) = .ok (some (.broken l))) →
      testEntries (testStream z fuel d false) (testCat z fuel d plainCodec) (codec z zipped) fuel k.cat path es (true, false) = .ok (some (true, false)) := by
    intro es
    induction es with
    | nil => intro _; rfl
    | cons e es ih =>
      intro h
      obtain ⟨f, h1, h2, l, h3⟩ := h e (by simp)
      rw [testEntries, h1]
      simp only [Outcome.ok_bind, h2, if_true, h3]
      exact ih (fun e he => h e (by simp [he]))
  rw [key k.ents he]
  rfl

/-- **C97, finding.** A value that is an empty container is reported, and so is one that is the compressed empty value. -/
theorem empty_container_reported (z : Unzip) (fuel d : Nat) (twice : Bool) (path b x : Bytes) (hp : path ≠ USERS) (hb : b ≠ [])
    (hd : Decoded z twice b x) (hx : x = template ∨ x = []) : testStream z fuel (d + 1) twice path b = .throw := by
  obtain ⟨zipped, hu⟩ := unpack_decoded hd
  rw [testStream, if_neg hp, if_neg (by simpa using hb), hu]
  have : testText template = .throw := by decide
  have e : openCatalog fuel x = .ok (some (.container blankCatalog)) := by rcases hx with rfl | rfl <;> rfl
  simp only [Outcome.ok_bind, e]
  have e2 : blankCatalog.ents = [] := rfl
  rw [if_pos e2]
  have e3 : blankCatalog.cat.data.data = template := rfl
  rw [e3, this]
  rfl

/-! ## Texts -/

theorem utf8_last (c : Nat) : ∃ l b, utf8 c = l ++ [b] ∧ b.toNat < 0xC0 := by
  have hlow : ∀ m, (UInt8.ofNat (0x80 + m % 64)).toNat < 0xC0 := by
    intro m
    rw [UInt8.toNat_ofNat']
    omega
  unfold utf8
  split
  · exact ⟨[], _, rfl, by rw [UInt8.toNat_ofNat']; omega⟩
  · split
    · exact ⟨[_], _, rfl, hlow _⟩
    · split
      · exact ⟨[_, _], _, rfl, hlow _⟩
      · exact ⟨[_, _, _], _, rfl, hlow _⟩

/-- Bytes ending with the first byte of a long character are not whole characters. -/
theorem not_whole (l : Bytes) (b : UInt8) (h : 0xC0 ≤ b.toNat) : ¬ Whole (l ++ [b]) := by
  rintro ⟨cps, _, e⟩
  rcases List.eq_nil_or_concat cps with rfl | ⟨r, c, rfl⟩
  · simp [utf8Text] at e
  · obtain ⟨u, x, hx, hl⟩ := utf8_last c
    have : utf8Text (r ++ [c]) = utf8Text r ++ u ++ [x] := by
      unfold utf8Text
      rw [List.flatMap_append, List.flatMap_cons, List.flatMap_nil, hx]
      simp
    rw [List.concat_eq_append, this] at e
    have := List.append_inj_right' e rfl
    injection this with this _
    rw [this] at h
    omega

/-- **C97, finding.** A bracket text that begins with a quoted string of seven two-byte characters (Cyrillic, for example) is reported,
whatever follows: the fifteen bytes that are compared end in the middle of the seventh. -/
theorem cyrillic_reported (cps : List Nat) (rest : Bytes) (hl : cps.length = 7) (hc : ∀ c ∈ cps, 0x80 ≤ c ∧ c < 0x800) :
    testString ([0x7B, 0x22] ++ utf8Text cps ++ rest) = .throw := by
  match cps, hl with
  | [a, b, c, d, e, f, g], _ =>
    have u : ∀ c, 0x80 ≤ c ∧ c < 0x800 → utf8 c = [UInt8.ofNat (0xC0 + c / 64), UInt8.ofNat (0x80 + c % 64)] := by
      intro c hc
      unfold utf8
      rw [if_neg (by omega), if_pos hc.2]
    have hbody : body ([0x7B, 0x22] ++ utf8Text [a, b, c, d, e, f, g] ++ rest) = [0x7B, 0x22] ++ utf8Text [a, b, c, d, e, f, g] ++ rest := by
      unfold body
      rw [List.append_assoc, List.cons_append, List.dropWhile_cons_of_neg (by decide)]
    refine testString_cut _ (by unfold Bracket; rw [hbody]; rfl) ?_
    rw [hbody]
    have hg := hc g (by simp)
    simp only [utf8Text, List.flatMap_cons, List.flatMap_nil, u a (hc a (by simp)), u b (hc b (by simp)), u c (hc c (by simp)),
      u d (hc d (by simp)), u e (hc e (by simp)), u f (hc f (by simp)), u g hg, List.cons_append, List.nil_append,
      List.take_succ_cons, List.take_zero]
    refine not_whole [0x7B, 0x22, _, _, _, _, _, _, _, _, _, _, _, _] _ ?_
    rw [UInt8.toNat_ofNat']
    omega

theorem classify_foreign (v : List Char) : Tree.classify (Char.ofNat 0xD0 :: v) = .unknown := by
  have hm : Char.ofNat 0xD0 ∈ Tree.cstr (Char.ofNat 0xD0 :: v) := by
    unfold Tree.cstr
    rw [List.takeWhile_cons_of_pos (by decide)]
    simp
  unfold Tree.classify
  rw [if_neg (by simp), Tree.excl Tree.reNumber _ _ (by decide) hm, Tree.excl Tree.reNumberExp _ _ (by decide) hm,
    Tree.excl Tree.reGuid _ _ (by decide) hm, Tree.excl Tree.reBinary _ _ (by decide) hm, Tree.excl Tree.reLink _ _ (by decide) hm,
    Tree.excl Tree.reBinary2 _ _ (by decide) hm, Tree.excl Tree.reBinaryD _ _ (by decide) hm]
  rfl

theorem run_foreign : ∀ (cs cur : List Char), Tree.run ⟨.nonstring, Char.ofNat 0xD0 :: cur, [[], []]⟩ cs = .throw ∨
    ∃ cur', Tree.run ⟨.nonstring, Char.ofNat 0xD0 :: cur, [[], []]⟩ cs = .ok ⟨.nonstring, cur', [[], []]⟩
  | [], cur => Or.inr ⟨_, rfl⟩
  | c :: cs, cur => by
    rw [Tree.run]
    unfold Tree.step
    simp only
    have : Tree.addClassified (Char.ofNat 0xD0 :: cur) [[], []] = .throw := by
      unfold Tree.addClassified
      rw [if_pos (classify_foreign cur)]
    split
    · rw [this]; exact Or.inl rfl
    · split
      · rw [this]; exact Or.inl rfl
      · rw [Outcome.ok_bind]
        exact run_foreign cs (cur ++ [c])

/-- **C97, finding.** The texts `{ХАРАКТЕРИСТИКИ…`, which are to be left out, are reported, all of them: only fifteen of the bytes of the text are
compared with the twenty-nine of the word, so they are parsed, and no bracket text begins with a letter of this kind. -/
theorem excluded_reported (rest : Bytes) : testString (EXCLUDED ++ rest) = .throw := by
  have hx : EXCLUDED = 0x7B :: 0xD0 :: EXCLUDED.drop 2 := by decide
  have hbody : body (EXCLUDED ++ rest) = EXCLUDED ++ rest := by
    unfold body
    rw [hx, List.cons_append, List.dropWhile_cons_of_neg (by decide)]
  have hb : Bracket (EXCLUDED ++ rest) := by unfold Bracket; rw [hbody, hx]; rfl
  have hw : Bracket (EXCLUDED ++ rest) → Whole ((body (EXCLUDED ++ rest)).take 15) := by
    intro _
    rw [hbody, List.take_append_of_le_length (by rw [excluded_length]; omega)]
    exact ⟨"{ХАРАКТЕ".toList.map Char.toNat, by unfold Scalar; decide, by decide⟩
  refine (testString_whole _ hw).2 ?_
  intro hp
  obtain ⟨n, hn⟩ := hp hb
  unfold Tree.parseText at hn
  obtain ⟨st, h1, h2⟩ := bind_inv hn
  have hsh : shown (EXCLUDED ++ rest) = '{' :: Char.ofNat 0xD0 :: shown (EXCLUDED.drop 2 ++ rest) := by
    conv => lhs; rw [hx]
    rfl
  rw [hsh, Tree.run] at h1
  have e1 : Tree.step Tree.start '{' = .ok ⟨.value, [], [[], []]⟩ := rfl
  rw [e1, Outcome.ok_bind, Tree.run] at h1
  have e2 : Tree.step ⟨.value, [], [[], []]⟩ (Char.ofNat 0xD0) = .ok ⟨.nonstring, [Char.ofNat 0xD0], [[], []]⟩ := rfl
  rw [e2, Outcome.ok_bind] at h1
  rcases run_foreign (shown (EXCLUDED.drop 2 ++ rest)) [] with e | ⟨cur', e⟩
  · rw [e] at h1; cases h1
  · rw [e] at h1
    cases h1
    unfold Tree.finish Tree.addChild Tree.finishTree at h2
    cases h2

/-! ## Tables -/

/-- **C97, finding.** The records of `FILES` are not tested: two infobases that differ only in them have the same outcome. -/
theorem files_not_tested (z : Unzip) (fuel d : Nat) (db : Db) (t : Tab) (rs : List Rec) (h : db.files = some t) :
    testDb z fuel d { db with files := some { t with recs := rs } } = testDb z fuel d db := by
  unfold testDb
  simp only
  rw [h]
  have : ∀ (g : Outcome (Option Bool)), (do let _ ← checkFields (some { t with recs := rs }); g) = (do let _ ← checkFields (some t); g) := by
    intro g
    unfold checkFields
    simp only
    split
    · rfl
    · split
      · rfl
      · cases checkNames t.fields ["FILENAME", "CREATION", "MODIFIED", "ATTRIBUTES", "DATASIZE", "BINARYDATA"] with
        | throw => rfl
        | ub => rfl
        | ok u =>
          simp only [Outcome.ok_bind]
          split
          · cases checkNames (t.fields.drop 6) ["PARTNO"] <;> rfl
          · rfl
  simp only [this]

/-- **C97, finding.** An empty text in UTF-16 behind the header of a spreadsheet is reported: it is too short for the header to be looked for. -/
theorem empty_sheet_reported (z : Unzip) (fuel d : Nat) (twice : Bool) (path b h : Bytes) (hp : path ≠ USERS) (hb : b ≠ [])
    (hh : Spec.sheet <+: h) (hl : h.length = 13) (hd : Decoded z twice b (h ++ mark16)) :
    testStream z fuel (d + 1) twice path b = .throw := by
  have hs : Stored (h ++ mark16) [] := .sheet hh hl (.utf16 [] (by simp))
  have hlen : (h ++ mark16).length = 15 := by rw [List.length_append, hl]; rfl
  have hn := text_no_container hs (by omega) (fun _ => by omega)
  rw [testStream_text hp hb hd (stored_ne hs) hn]
  have : testText (h ++ mark16) = .throw := by
    unfold testText skipHeader
    rw [if_neg (by omega), Outcome.ok_bind]
    obtain ⟨r, rfl⟩ := hh
    rw [if_neg, if_neg]
    · intro e
      have := congrArg List.head? e
      simp [Spec.sheet] at this
    · intro e
      have := congrArg List.head? e
      simp [Spec.sheet] at this
  rw [this]
  rfl

end Verif.Format
