import Verif.Format.Lemmas
import Verif.Container.OpenTheorems

/-!
# C97: testing the stored texts of an infobase

`recursive_test_stream_format` of a value and `test_stream_format` of the infobase, for values that are no containers (`isCatalog`,
property C67). What happens with containers is in `Findings.lean`.
-/

namespace Verif.Format
open Verif Verif.Unicode.Spec Verif.Container Verif.Format.Spec

/-! ## One value -/

theorem bind_inv {α β : Type} {o : Outcome α} {f : α → Outcome β} {b : β} (h : (o >>= f) = .ok b) : ∃ a, o = .ok a ∧ f a = .ok b := by
  cases o with
  | ok a => exact ⟨a, rfl, h⟩
  | throw => cases h
  | ub => cases h

theorem unpack_decoded {z : Unzip} {twice : Bool} {b x : Bytes} (h : Decoded z twice b x) : ∃ zipped, unpack z twice b = .ok (x, zipped) := by
  unfold unpack tryUnzip
  cases h with
  | raw h => rw [h]; exact ⟨false, rfl⟩
  | once h => rw [h]; exact ⟨false, rfl⟩
  | inner h h' => rw [h]; simp only [Outcome.ok_bind, Bool.and_self, if_true]; rw [h']; exact ⟨false, rfl⟩
  | both h h' => rw [h]; simp only [Outcome.ok_bind, Bool.and_self, if_true]; rw [h']; exact ⟨true, rfl⟩

theorem decoded_unpack {z : Unzip} {twice : Bool} {b x : Bytes} {zipped : Bool} (h : unpack z twice b = .ok (x, zipped)) :
    Decoded z twice b x := by
  unfold unpack tryUnzip at h
  cases e : z b with
  | ub => rw [e] at h; cases h
  | throw => rw [e] at h; cases h; exact .raw e
  | ok y =>
    rw [e] at h
    simp only [Outcome.ok_bind, Bool.true_and] at h
    cases twice with
    | false => simp only [Bool.false_eq_true, if_false] at h; cases h; exact .once e
    | true =>
      simp only [if_true] at h
      cases e' : z y with
      | ub => rw [e'] at h; cases h
      | throw => rw [e'] at h; cases h; exact .inner e e'
      | ok w => rw [e'] at h; cases h; exact .both e e'

theorem unpack_cases (z : Unzip) (hz : ∀ b, z b ≠ .ub) (twice : Bool) (b : Bytes) : ∃ x zipped, unpack z twice b = .ok (x, zipped) := by
  unfold unpack tryUnzip
  cases e : z b with
  | ub => exact absurd e (hz b)
  | throw => exact ⟨b, false, rfl⟩
  | ok y =>
    simp only [Outcome.ok_bind, Bool.true_and]
    cases twice with
    | false => exact ⟨y, false, rfl⟩
    | true =>
      simp only [if_true]
      cases e' : z y with
      | ub => exact absurd e' (hz y)
      | throw => exact ⟨y, false, rfl⟩
      | ok w => exact ⟨w, true, rfl⟩

theorem testStream_text {z : Unzip} {fuel d : Nat} {twice : Bool} {path b x : Bytes} (hp : path ≠ USERS) (hb : b ≠ [])
    (hd : Decoded z twice b x) (hx : x ≠ []) (hn : isCatalog x = .ok false) :
    testStream z fuel (d + 1) twice path b = (do let r ← testText x; .ok (some r)) := by
  obtain ⟨zipped, hu⟩ := unpack_decoded hd
  rw [testStream, if_neg hp, if_neg (by simpa using hb), hu, Outcome.ok_bind]
  simp only
  unfold openCatalog
  simp only
  rw [if_neg (by simpa using hx), hn]
  rfl

theorem testStream_exempt {z : Unzip} {fuel d : Nat} {twice : Bool} {path b : Bytes} (h : path = USERS ∨ b = []) :
    testStream z fuel (d + 1) twice path b = .ok (some true) := by
  rw [testStream]
  rcases h with h | h
  · rw [if_pos h]
  · split
    · rfl
    · rw [if_pos (by rw [h]; rfl)]

theorem stored_ne {x t : Bytes} (h : Stored x t) : x ≠ [] := by
  cases h with
  | plain h => cases h <;> simp [mark8, mark16]
  | sheet h hl _ => intro e; have := congrArg List.length e; simp [hl] at this
  | schema h hl _ => intro e; have := congrArg List.length e; simp [hl] at this

/-- **C97a.** A stored text that is no container: a text that can be parsed (or is no bracket text) passes, any other is reported. -/
theorem text_tested_partial (z : Unzip) (fuel d : Nat) (twice : Bool) (path b x t : Bytes) (hp : path ≠ USERS) (hb : b ≠ [])
    (hd : Decoded z twice b x) (hn : isCatalog x = .ok false) (hs : Stored x t) (ht : t = [] → x.length ≠ 15)
    (hw : Bracket t → Whole ((body t).take 15)) :
    (Parses t → testStream z fuel (d + 1) twice path b = .ok (some true)) ∧
    (¬ Parses t → testStream z fuel (d + 1) twice path b = .throw) := by
  rw [testStream_text hp hb hd (stored_ne hs) hn, testText_stored hs ht]
  obtain ⟨h1, h2⟩ := testString_whole t hw
  constructor
  · intro h; rw [h1 h]; rfl
  · intro h; rw [h2 h]; rfl

/-- **C97b.** Conversely, a value that passes and is no container is a stored text that can be parsed (one odd byte behind it is ignored). -/
theorem passed_is_text (z : Unzip) (fuel d : Nat) (twice : Bool) (path b x : Bytes) (r : Bool) (hp : path ≠ USERS) (hb : b ≠ [])
    (hd : Decoded z twice b x) (hx : x ≠ []) (hn : isCatalog x = .ok false) (h : testStream z fuel (d + 1) twice path b = .ok (some r)) :
    r = true ∧ ∃ y tail t, x = y ++ tail ∧ tail.length ≤ 1 ∧ Stored y t ∧ Parses t := by
  rw [testStream_text hp hb hd hx hn] at h
  cases e : testText x with
  | ok r' => rw [e] at h; cases h; exact testText_true e
  | throw => rw [e] at h; cases h
  | ub => rw [e] at h; cases h

/-- Stored texts are not taken for containers, as long as they have at most 10 MiB and, in UTF-16 without a header, about 64 KiB. -/
theorem text_no_container {x t : Bytes} (h : Stored x t) (hl : x.length ≤ 10 * 2 ^ 20) (h16 : mark16 <+: x → x.length ≤ 65310) :
    isCatalog x = .ok false := by
  have main : ∀ (a b : UInt8) (r : Bytes), x = a :: b :: r → (a ≠ 0xff ∨ b ≠ 0xff) →
      ((rdWord 0xff x 0 ≠ LAST ∧ x.length ≤ rdWord 0xff x 0 + 31 ∧ rdWord 0xff x 0 + 31 < 2 ^ 32) ∨
        (rdWord 0xff x 0 = 0 ∧ a ≠ 0x0d)) → isCatalog x = .ok false := by
    intro a b r hx hab hc
    unfold isCatalog
    split
    · rename_i h16'
      have : x ≠ template := by
        rw [hx]
        intro e
        unfold template at e
        injection e with e1 e2
        injection e2 with e2 _
        rcases hab with h | h
        · exact h e1
        · exact h e2
      simp [this]
    · unfold freeTest
      simp only
      rcases hc with ⟨h1, h2, h3⟩ | ⟨h1, h2⟩
      · rw [if_neg h1, if_pos (by omega)]; rfl
      · rw [if_neg (by rw [h1]; decide), h1]
        split
        · rfl
        · rw [if_neg (by omega)]
          rw [hx]
          simp [isCorrect, h2]
  cases h with
  | plain h =>
    cases h with
    | utf8 t =>
      refine main 0xEF 0xBB (0xBF :: t) rfl (by decide) (Or.inl ?_)
      have hw : rdWord 0xff (mark8 ++ t) 0 = 0xBFBBEF + 16777216 * (t.getD 0 0xff).toNat := by
        unfold rdWord mark8
        cases t with
        | nil => rfl
        | cons c t => simp; omega
      have hc := (t.getD 0 0xff).toNat_lt
      have hL : LAST = 2147483647 := rfl
      rw [hw, hL]
      omega
    | utf16 cps hs =>
      have h16' := h16 ⟨_, rfl⟩
      generalize hu : utf16Text cps = u at *
      refine main 0xFF 0xFE u rfl (by decide) (Or.inl ?_)
      have hw : rdWord 0xff (mark16 ++ u) 0 = 0xFEFF + 65536 * (u.getD 0 0xff).toNat + 16777216 * (u.getD 1 0xff).toNat := by
        unfold rdWord mark16
        match u with
        | [] => rfl
        | [c] => simp; omega
        | c :: e :: u => simp; omega
      have hc := (u.getD 0 0xff).toNat_lt
      have hc' := (u.getD 1 0xff).toNat_lt
      have hL : LAST = 2147483647 := rfl
      rw [hw, hL]
      omega
  | @sheet hd y _ hp hh hh' =>
    obtain ⟨r, rfl⟩ := hp
    refine main 0x4D 0x4F _ rfl (by decide) (Or.inl ?_)
    have hw : rdWord 0xff (Spec.sheet ++ r ++ y) 0 = 0x43584F4D := by simp [rdWord, Spec.sheet]
    have hL : LAST = 2147483647 := rfl
    rw [hw, hL]
    omega
  | @schema hd y _ hp hh hh' =>
    obtain ⟨r, rfl⟩ := hp
    exact main 0 0 _ rfl (by decide) (Or.inr ⟨rfl, by decide⟩)

/-! ## The infobase -/

/-- What is required of a value, if it is no container: it is exempt, empty, or a stored text that can be parsed. -/
def Sound (z : Unzip) (twice : Bool) (path b : Bytes) : Prop :=
  path = Cli.asc "PARAMS/users.usr" ∨ b = [] ∨
    ∃ x t, Decoded z twice b x ∧ isCatalog x = .ok false ∧ Stored x t ∧ (t = [] → x.length ≠ 15) ∧ (Bracket t → Whole ((body t).take 15)) ∧ Parses t

/-- A record of a table of files: removed, or its data can be read, have the size in `DATASIZE`, and are sound. Only the values of records
whose names have more than 72 bytes can be compressed twice. -/
def Good (z : Unzip) (table : Bytes) (r : Rec) : Prop :=
  r.removed = true ∨ ∃ b, r.data = .ok b ∧ Cli.stoi r.size = .ok (b.length : Int) ∧
    Sound z (decide (72 < r.name.length)) (table ++ Cli.asc "/" ++ r.name) b

/-- A record of `DBSCHEMA`. -/
def GoodSchema (z : Unzip) (table : Bytes) (r : Rec) : Prop :=
  r.removed = true ∨ ∃ b, r.data = .ok b ∧ Sound z false table b

/-- A table whose fields have these names. -/
def Fields (P : List (List Nat) → Prop) (t : Tab) : Prop :=
  ∃ ns, (∀ n ∈ ns, Name n) ∧ P ns ∧ t.fields = ns.map utf8Text

theorem asc_utf8 (w : String) (h : ∀ c ∈ w.toList.map Char.toNat, c < 128) : Cli.asc w = utf8Text (w.toList.map Char.toNat) := by
  unfold Cli.asc utf8Text
  generalize w.toList = l at h ⊢
  induction l with
  | nil => rfl
  | cons c l ih =>
    rw [List.map_cons, List.map_cons, List.flatMap_cons, ih (fun x hx => h x (by rw [List.map_cons]; exact List.mem_cons_of_mem _ hx))]
    have := h c.toNat (by simp)
    unfold utf8
    rw [if_pos (by omega)]
    rfl

theorem name_ascii (w : String) (h : ∀ c ∈ w.toList.map Char.toNat, 0 < c ∧ c < 128) : Name (w.toList.map Char.toNat) := by
  intro c hc
  have := h c hc
  exact ⟨Or.inl (by omega), by omega⟩

theorem checkNames_spec : ∀ (ns : List (List Nat)) (ws : List String), (∀ n ∈ ns, Name n) →
    (∀ w ∈ ws, ∀ c ∈ w.toList.map Char.toNat, 0 < c ∧ c < 128) → ws.length ≤ ns.length →
    (SameNames (ns.take ws.length) ws → checkNames (ns.map utf8Text) ws = .ok ()) ∧
    (¬ SameNames (ns.take ws.length) ws → checkNames (ns.map utf8Text) ws = .throw)
  | ns, [], _, _, _ => by simp [checkNames, SameNames]
  | [], w :: ws, _, _, h => by simp at h
  | n :: ns, w :: ws, hn, hw, hl => by
    obtain ⟨ih1, ih2⟩ := checkNames_spec ns ws (fun m hm => hn m (by simp [hm])) (fun v hv => hw v (by simp [hv])) (by simpa using hl)
    have hwn := hw w (by simp)
    obtain ⟨e1, e2⟩ := Unicode.equalIC_iff n _ (hn n (by simp)) (name_ascii w hwn)
    rw [← asc_utf8 w (fun c hc => (hwn c hc).2)] at e1 e2
    simp only [List.length_cons, List.take_succ_cons, SameNames, List.map_cons, checkNames]
    constructor
    · rintro ⟨h1, h2⟩
      rw [e1.2 h1, Outcome.ok_bind, if_pos rfl, ih1 h2]
    · intro h
      by_cases h1 : SameText n (w.toList.map Char.toNat)
      · rw [e1.2 h1, Outcome.ok_bind, if_pos rfl, ih2 (fun h2 => h ⟨h1, h2⟩)]
      · rw [e2.2 h1]; rfl

theorem sameNames_length : ∀ (ns : List (List Nat)) (ws : List String), SameNames ns ws → ns.length = ws.length
  | [], [], _ => rfl
  | _ :: ns, _ :: ws, h => by
    have := sameNames_length ns ws h.2
    simp only [List.length_cons]; omega
  | [], _ :: _, h => absurd h (by simp [SameNames])
  | _ :: _, [], h => absurd h (by simp [SameNames])

theorem sameNames_append : ∀ (ns : List (List Nat)) (ws vs : List String),
    SameNames ns (ws ++ vs) ↔ SameNames (ns.take ws.length) ws ∧ SameNames (ns.drop ws.length) vs
  | ns, [], vs => by simp [SameNames]
  | [], w :: ws, vs => by simp [SameNames]
  | n :: ns, w :: ws, vs => by
    simp only [List.cons_append, SameNames, List.length_cons, List.take_succ_cons, List.drop_succ_cons]
    rw [sameNames_append ns ws vs, and_assoc]

theorem file_ascii : ∀ w ∈ fileFields, ∀ c ∈ w.toList.map Char.toNat, 0 < c ∧ c < 128 := by decide

/-- The fields are tested as required. -/
theorem checkFields_spec (t : Tab) (ns : List (List Nat)) (hn : ∀ n ∈ ns, Name n) (ht : t.fields = ns.map utf8Text) :
    (FileFields ns → checkFields (some t) = .ok t) ∧ (¬ FileFields ns → checkFields (some t) = .throw) := by
  have hlen : t.fields.length = ns.length := by rw [ht, List.length_map]
  have h6 : fileFields.length = 6 := rfl
  unfold checkFields
  simp only
  rw [hlen]
  by_cases hl : ns.length < 6 ∨ 7 < ns.length
  · have hno : ¬ FileFields ns := by
      rintro (h | h)
      · have := sameNames_length _ _ h; omega
      · have := sameNames_length _ _ h; rw [List.length_append] at this; simp only [List.length_cons, List.length_nil] at this; omega
    refine ⟨fun h => absurd h hno, fun _ => ?_⟩
    split
    · rfl
    · rw [if_pos (by omega)]
  · rw [if_neg (by omega), if_neg (by omega)]
    obtain ⟨a1, a2⟩ := checkNames_spec ns fileFields hn file_ascii (by omega)
    rw [← ht] at a1 a2
    have hdrop : t.fields.drop 6 = (ns.drop 6).map utf8Text := by rw [ht, List.map_drop]
    by_cases hf : SameNames (ns.take 6) fileFields
    · have e1 : checkNames t.fields ["FILENAME", "CREATION", "MODIFIED", "ATTRIBUTES", "DATASIZE", "BINARYDATA"] = .ok () := a1 hf
      rw [e1, Outcome.ok_bind]
      by_cases h7 : ns.length > 6
      · rw [if_pos h7, hdrop]
        obtain ⟨b1, b2⟩ := checkNames_spec (ns.drop 6) ["PARTNO"] (fun n h => hn n (List.mem_of_mem_drop h)) (by decide) (by simp; omega)
        have htk : (ns.drop 6).take ["PARTNO"].length = ns.drop 6 := List.take_of_length_le (by simp; omega)
        rw [htk] at b1 b2
        have hiff : FileFields ns ↔ SameNames (ns.drop 6) ["PARTNO"] := by
          constructor
          · rintro (h | h)
            · have := sameNames_length _ _ h; omega
            · exact ((sameNames_append ns fileFields _).1 h).2
          · intro h; exact Or.inr ((sameNames_append ns fileFields _).2 ⟨hf, h⟩)
        rw [hiff]
        constructor
        · intro h; rw [b1 h]; rfl
        · intro h; rw [b2 h]; rfl
      · rw [if_neg h7]
        have : FileFields ns := Or.inl (by rw [List.take_of_length_le (by omega)] at hf; exact hf)
        exact ⟨fun _ => rfl, fun h => absurd this h⟩
    · have e1 : checkNames t.fields ["FILENAME", "CREATION", "MODIFIED", "ATTRIBUTES", "DATASIZE", "BINARYDATA"] = .throw := a2 hf
      rw [e1]
      refine ⟨fun h => absurd ?_ hf, fun _ => rfl⟩
      rcases h with h | h
      · have := sameNames_length _ _ h
        rw [List.take_of_length_le (by omega)]; exact h
      · exact ((sameNames_append ns fileFields _).1 h).1

theorem checkSchema_spec (t : Tab) (ns : List (List Nat)) (hn : ∀ n ∈ ns, Name n) (ht : t.fields = ns.map utf8Text) :
    (SchemaFields ns → checkSchema (some t) = .ok t) ∧ (¬ SchemaFields ns → checkSchema (some t) = .throw) := by
  have hlen : t.fields.length = ns.length := by rw [ht, List.length_map]
  unfold checkSchema
  simp only
  rw [hlen]
  by_cases hl : ns.length = 1
  · rw [if_neg (by simpa using hl)]
    obtain ⟨a1, a2⟩ := checkNames_spec ns ["SERIALIZEDDATA"] hn (by decide) (by simp [hl])
    rw [← ht, List.take_of_length_le (by simp [hl])] at a1 a2
    constructor
    · intro h; rw [a1 h]; rfl
    · intro h; rw [a2 h]; rfl
  · rw [if_pos hl]
    refine ⟨fun h => absurd (sameNames_length _ _ h) hl, fun _ => rfl⟩

theorem sound_passes {z : Unzip} {fuel d : Nat} {twice : Bool} {path b : Bytes} (h : Sound z twice path b) :
    testStream z fuel (d + 1) twice path b = .ok (some true) := by
  rcases h with h | h | ⟨x, t, h1, h2, h3, h4, h5, h6⟩
  · exact testStream_exempt (Or.inl h)
  · exact testStream_exempt (Or.inr h)
  · by_cases hp : path = USERS
    · exact testStream_exempt (Or.inl hp)
    by_cases hb : b = []
    · exact testStream_exempt (Or.inr hb)
    exact (text_tested_partial z fuel d twice path b x t hp hb h1 h2 h3 h4 h5).1 h6

theorem good_passes {z : Unzip} {fuel d : Nat} {table : Bytes} {r : Rec} (h : Good z table r) :
    testRec z fuel (d + 1) table r = .ok (some true) := by
  unfold testRec
  rcases h with h | ⟨b, h1, h2, h3⟩
  · rw [if_pos h]
  · split
    · rfl
    · rw [h1, Outcome.ok_bind, h2, Outcome.ok_bind, if_neg (by simp)]
      exact sound_passes h3

theorem schema_passes {z : Unzip} {fuel d : Nat} {table : Bytes} {r : Rec} (h : GoodSchema z table r) :
    testRec2 z fuel (d + 1) table r = .ok (some true) := by
  unfold testRec2
  rcases h with h | ⟨b, h1, h3⟩
  · rw [if_pos h]
  · split
    · rfl
    · rw [h1, Outcome.ok_bind]
      exact sound_passes h3

theorem testAll_good {f : Rec → Outcome (Option Bool)} : ∀ (rs : List Rec), (∀ r ∈ rs, f r = .ok (some true)) → testAll f rs true = .ok (some true)
  | [], _ => rfl
  | r :: rs, h => by
    rw [testAll, h r (by simp), Outcome.ok_bind]
    exact testAll_good rs (fun r hr => h r (by simp [hr]))

theorem testAll_inv {f : Rec → Outcome (Option Bool)} : ∀ (rs : List Rec) (a x : Bool), testAll f rs a = .ok (some x) →
    ∀ r ∈ rs, ∃ y, f r = .ok (some y)
  | [], _, _, _ => by simp
  | r :: rs, a, x, h => by
    rw [testAll] at h
    cases e : f r with
    | throw => rw [e] at h; cases h
    | ub => rw [e] at h; cases h
    | ok o =>
      rw [e, Outcome.ok_bind] at h
      cases o with
      | none => cases h
      | some y =>
        intro r' hr'
        rcases List.mem_cons.1 hr' with rfl | hr'
        · exact ⟨y, e⟩
        · exact testAll_inv rs _ _ h r' hr'

/-- **C97c.** An infobase whose tables have the right fields, with at least two records in `DBSCHEMA`, and all of whose records are good,
passes the test. The records of `FILES` need not be good. -/
theorem good_infobase_passes_partial (z : Unzip) (fuel d : Nat) (config configsave params files dbschema : Tab)
    (h1 : Fields FileFields config) (h2 : Fields FileFields configsave) (h3 : Fields FileFields params) (h4 : Fields FileFields files)
    (h5 : Fields SchemaFields dbschema) (hc : ∀ r ∈ config.recs, Good z config.name r) (hs : ∀ r ∈ configsave.recs, Good z configsave.name r)
    (hp : ∀ r ∈ params.recs, Good z params.name r) (hd : ∀ r ∈ dbschema.recs, GoodSchema z dbschema.name r) (hl : 2 ≤ dbschema.recs.length) :
    testDb z fuel (d + 1) ⟨some config, some configsave, some params, some files, some dbschema⟩ = .ok (some true) := by
  have ok : ∀ {t : Tab}, Fields FileFields t → checkFields (some t) = .ok t := by
    rintro t ⟨ns, hn, hf, ht⟩
    exact (checkFields_spec t ns hn ht).1 hf
  have ok5 : checkSchema (some dbschema) = .ok dbschema := by
    obtain ⟨ns, hn, hf, ht⟩ := h5
    exact (checkSchema_spec dbschema ns hn ht).1 hf
  unfold testDb testNext
  simp only
  rw [ok h1, ok h2, ok h3, ok h4, ok5]
  simp only [Outcome.ok_bind]
  rw [testAll_good config.recs (fun r hr => good_passes (hc r hr))]
  simp only [Outcome.ok_bind]
  rw [testAll_good configsave.recs (fun r hr => good_passes (hs r hr))]
  simp only [Outcome.ok_bind]
  rw [testAll_good params.recs (fun r hr => good_passes (hp r hr))]
  simp only [Outcome.ok_bind]
  rw [if_neg (by omega)]
  exact testAll_good dbschema.recs (fun r hr => schema_passes (hd r hr))

/-- What is known of a value that passed: it is exempt, empty, looks like a container, or is a stored text that can be parsed, with at most one
odd byte behind it. -/
def Passed (z : Unzip) (twice : Bool) (path b : Bytes) : Prop :=
  path = Cli.asc "PARAMS/users.usr" ∨ b = [] ∨ ∃ x, Decoded z twice b x ∧
    (isCatalog x ≠ .ok false ∨ ∃ y tail t, x = y ++ tail ∧ tail.length ≤ 1 ∧ Stored y t ∧ Parses t)

theorem isCatalog_nil : isCatalog [] = .ok false := by decide

theorem passed_stream {z : Unzip} {fuel d : Nat} {twice : Bool} {path b : Bytes} {r : Bool} (h : testStream z fuel d twice path b = .ok (some r)) :
    Passed z twice path b := by
  by_cases hp : path = USERS
  · exact Or.inl hp
  by_cases hb : b = []
  · exact Or.inr (Or.inl hb)
  cases d with
  | zero => rw [testStream] at h; cases h
  | succ d =>
    have hu : ∃ x zipped, unpack z twice b = .ok (x, zipped) := by
      cases e : unpack z twice b with
      | ok p => exact ⟨p.1, p.2, rfl⟩
      | throw => rw [testStream, if_neg hp, if_neg (by simpa using hb), e] at h; cases h
      | ub => rw [testStream, if_neg hp, if_neg (by simpa using hb), e] at h; cases h
    obtain ⟨x, zipped, hu⟩ := hu
    have hd := decoded_unpack hu
    refine Or.inr (Or.inr ⟨x, hd, ?_⟩)
    by_cases hn : isCatalog x = .ok false
    · by_cases hx : x = []
      · subst hx
        exfalso
        rw [testStream, if_neg hp, if_neg (by simpa using hb), hu] at h
        have : testText template = .throw := by decide
        have e : openCatalog fuel [] = .ok (some (.container blankCatalog)) := rfl
        simp only [Outcome.ok_bind, e] at h
        have e2 : blankCatalog.ents = [] := rfl
        rw [if_pos e2] at h
        have e3 : blankCatalog.cat.data.data = template := rfl
        rw [e3, this] at h
        cases h
      · exact Or.inr (passed_is_text z fuel d twice path b x r hp hb hd hx hn h).2
    · exact Or.inl hn

/-- **C97d.** Conversely, if the test returns at all, the tables are there with the right fields (their names being texts), and every record
that is not removed has readable data of the size in `DATASIZE` that passed. -/
theorem passed_infobase (z : Unzip) (fuel d : Nat) (db : Db) (r : Bool) (h : testDb z fuel d db = .ok (some r)) :
    ∃ config configsave params files dbschema, db = ⟨some config, some configsave, some params, some files, some dbschema⟩ ∧
      2 ≤ dbschema.recs.length ∧
      (∀ t ∈ [config, configsave, params, files], ∀ ns, (∀ n ∈ ns, Name n) → t.fields = ns.map utf8Text → FileFields ns) ∧
      (∀ ns, (∀ n ∈ ns, Name n) → dbschema.fields = ns.map utf8Text → SchemaFields ns) ∧
      (∀ t ∈ [config, configsave, params], ∀ q ∈ t.recs, q.removed = false → ∃ b, q.data = .ok b ∧ Cli.stoi q.size = .ok (b.length : Int) ∧
        Passed z (decide (72 < q.name.length)) (t.name ++ Cli.asc "/" ++ q.name) b) ∧
      (∀ q ∈ dbschema.recs, q.removed = false → ∃ b, q.data = .ok b ∧ Passed z false dbschema.name b) := by
  have inv : ∀ {o : Option Tab} {t : Tab}, checkFields o = .ok t → o = some t := by
    intro o t h
    cases o with
    | none => cases h
    | some t' =>
      unfold checkFields at h
      simp only at h
      split at h
      · cases h
      · split at h
        · cases h
        · obtain ⟨_, _, h⟩ := bind_inv h
          split at h
          · obtain ⟨_, _, h⟩ := bind_inv h
            cases h; rfl
          · cases h; rfl
  have inv' : ∀ {o : Option Tab} {t : Tab}, checkSchema o = .ok t → o = some t := by
    intro o t h
    cases o with
    | none => cases h
    | some t' =>
      unfold checkSchema at h
      simp only at h
      split at h
      · cases h
      · obtain ⟨_, _, h⟩ := bind_inv h
        cases h; rfl
  have fields : ∀ {t : Tab}, checkFields (some t) = .ok t → ∀ ns, (∀ n ∈ ns, Name n) → t.fields = ns.map utf8Text → FileFields ns := by
    intro t h ns hn ht
    by_contra hf
    rw [(checkFields_spec t ns hn ht).2 hf] at h
    cases h
  have recs : ∀ {t : Tab} {q : Rec} {y : Bool}, testRec z fuel d t.name q = .ok (some y) → q.removed = false →
      ∃ b, q.data = .ok b ∧ Cli.stoi q.size = .ok (b.length : Int) ∧ Passed z (decide (72 < q.name.length)) (t.name ++ Cli.asc "/" ++ q.name) b := by
    intro t q y h hr
    unfold testRec at h
    rw [if_neg (by simp [hr])] at h
    obtain ⟨b, hb, h⟩ := bind_inv h
    obtain ⟨n, hn, h⟩ := bind_inv h
    split at h
    · cases h
    · rename_i he
      exact ⟨b, hb, by rw [hn]; congr 1; simpa using he, passed_stream h⟩
  unfold testDb testNext at h
  obtain ⟨config, e1, h⟩ := bind_inv h
  obtain ⟨configsave, e2, h⟩ := bind_inv h
  obtain ⟨params, e3, h⟩ := bind_inv h
  obtain ⟨files, e4, h⟩ := bind_inv h
  obtain ⟨dbschema, e5, h⟩ := bind_inv h
  obtain ⟨o, ho, hfin⟩ := bind_inv h
  clear h
  cases o with
  | none => cases hfin
  | some r3 =>
    simp only at hfin
    by_cases hl : dbschema.recs.length < 2
    · rw [if_pos hl] at hfin; cases hfin
    rw [if_neg hl] at hfin
    obtain ⟨o, ho2, ho⟩ := bind_inv ho
    cases o with
    | none => cases ho
    | some r2 =>
      simp only at ho
      obtain ⟨o, ho1, ho2⟩ := bind_inv ho2
      cases o with
      | none => cases ho2
      | some r1 =>
        simp only at ho2
        have i1 := inv e1; have i2 := inv e2; have i3 := inv e3; have i4 := inv e4; have i5 := inv' e5
        cases db with
        | mk a b c d' e =>
          simp only at i1 i2 i3 i4 i5
          subst i1 i2 i3 i4 i5
          refine ⟨config, configsave, params, files, dbschema, rfl, by omega, ?_, ?_, ?_, ?_⟩
          · intro t ht
            simp only [List.mem_cons, List.not_mem_nil, or_false] at ht
            rcases ht with rfl | rfl | rfl | rfl
            · exact fields e1
            · exact fields e2
            · exact fields e3
            · exact fields e4
          · intro ns hn ht
            by_contra hf
            simp only at e5
            rw [(checkSchema_spec dbschema ns hn ht).2 hf] at e5
            cases e5
          · intro t ht q hq hr
            simp only [List.mem_cons, List.not_mem_nil, or_false] at ht
            rcases ht with rfl | rfl | rfl
            · obtain ⟨y, hy⟩ := testAll_inv _ _ _ ho1 q hq
              exact recs hy hr
            · obtain ⟨y, hy⟩ := testAll_inv _ _ _ ho2 q hq
              exact recs hy hr
            · obtain ⟨y, hy⟩ := testAll_inv _ _ _ ho q hq
              exact recs hy hr
          · intro q hq hr
            obtain ⟨y, hy⟩ := testAll_inv _ _ _ hfin q hq
            unfold testRec2 at hy
            rw [if_neg (by simp [hr])] at hy
            obtain ⟨b, hb, hy⟩ := bind_inv hy
            exact ⟨b, hb, passed_stream hy⟩

theorem checkNames_cases (fs : List Bytes) (ws : List String) (h : ws.length ≤ fs.length) : checkNames fs ws = .ok () ∨ checkNames fs ws = .throw := by
  induction ws generalizing fs with
  | nil => left; cases fs <;> rfl
  | cons w ws ih =>
    cases fs with
    | nil => simp at h
    | cons f fs =>
      rw [checkNames]
      cases e : Unicode.equalIC f (Cli.asc w) with
      | throw => right; rfl
      | ub => exact absurd e (TableOpen.equal_ne_ub _ _)
      | ok r =>
        rw [Outcome.ok_bind]
        cases r with
        | true => rw [if_pos rfl]; exact ih fs (by simpa using h)
        | false => right; rfl

theorem checkFields_cases (o : Option Tab) : (∃ t, o = some t ∧ checkFields o = .ok t) ∨ checkFields o = .throw := by
  cases o with
  | none => right; rfl
  | some t =>
    unfold checkFields
    simp only
    split
    · right; rfl
    · split
      · right; rfl
      · rcases checkNames_cases t.fields ["FILENAME", "CREATION", "MODIFIED", "ATTRIBUTES", "DATASIZE", "BINARYDATA"]
          (by simp only [List.length_cons, List.length_nil]; omega) with e | e
        · rw [e, Outcome.ok_bind]
          split
          · rcases checkNames_cases (t.fields.drop 6) ["PARTNO"] (by rw [List.length_drop]; simp only [List.length_cons, List.length_nil]; omega) with e | e
            · left; exact ⟨t, rfl, by rw [e]; rfl⟩
            · right; rw [e]; rfl
          · left; exact ⟨t, rfl, rfl⟩
        · right; rw [e]; rfl

theorem checkSchema_cases (o : Option Tab) : (∃ t, o = some t ∧ checkSchema o = .ok t) ∨ checkSchema o = .throw := by
  cases o with
  | none => right; rfl
  | some t =>
    unfold checkSchema
    simp only
    split
    · right; rfl
    · rename_i h
      rcases checkNames_cases t.fields ["SERIALIZEDDATA"] (by simp only [List.length_cons, List.length_nil]; omega) with e | e
      · left; exact ⟨t, rfl, by rw [e]; rfl⟩
      · right; rw [e]; rfl

/-- The value cannot be taken for a container. -/
def Plain (z : Unzip) (twice : Bool) (b : Bytes) : Prop := ∀ x, Decoded z twice b x → isCatalog x = .ok false

theorem stream_cases {z : Unzip} (hz : ∀ b, z b ≠ .ub) (fuel d : Nat) (twice : Bool) (path b : Bytes) (h : Plain z twice b) :
    testStream z fuel (d + 1) twice path b = .ok (some true) ∨ testStream z fuel (d + 1) twice path b = .throw := by
  by_cases hp : path = USERS
  · exact Or.inl (testStream_exempt (Or.inl hp))
  by_cases hb : b = []
  · exact Or.inl (testStream_exempt (Or.inr hb))
  obtain ⟨x, zipped, hu⟩ := unpack_cases z hz twice b
  have hd := decoded_unpack hu
  by_cases hx : x = []
  · right
    subst hx
    rw [testStream, if_neg hp, if_neg (by simpa using hb), hu]
    have : testText template = .throw := by decide
    have e : openCatalog fuel [] = .ok (some (.container blankCatalog)) := rfl
    simp only [Outcome.ok_bind, e]
    have e2 : blankCatalog.ents = [] := rfl
    rw [if_pos e2]
    have e3 : blankCatalog.cat.data.data = template := rfl
    rw [e3, this]
    rfl
  · rw [testStream_text hp hb hd hx (h x hd)]
    cases e : testText x with
    | ok r => left; rw [(testText_true e).1]; rfl
    | throw => right; rfl
    | ub => exact absurd e (testText_ne_ub x)

/-- The records of a table of files whose values can be read and are no containers. -/
def PlainRecs (z : Unzip) (t : Tab) : Prop :=
  ∀ q ∈ t.recs, q.data ≠ .ub ∧ ∀ b, q.data = .ok b → Plain z (decide (72 < q.name.length)) b

theorem testAll_cases {f : Rec → Outcome (Option Bool)} : ∀ (rs : List Rec), (∀ r ∈ rs, f r = .ok (some true) ∨ f r = .throw) →
    testAll f rs true = .ok (some true) ∨ testAll f rs true = .throw
  | [], _ => Or.inl rfl
  | r :: rs, h => by
    rw [testAll]
    rcases h r (by simp) with e | e
    · rw [e, Outcome.ok_bind]
      exact testAll_cases rs (fun r hr => h r (by simp [hr]))
    · rw [e]; exact Or.inr rfl

theorem stoi_ne_ub (s : Bytes) : Cli.stoi s ≠ .ub := by
  unfold Cli.stoi
  split
  · simp
  · split <;> simp

/-- **C97e.** Without containers, the test says that the infobase is good, or reports an error; nothing else happens. -/
theorem tested_or_reported (z : Unzip) (hz : ∀ b, z b ≠ .ub) (fuel d : Nat) (db : Db) (h1 : ∀ t, db.config = some t → PlainRecs z t)
    (h2 : ∀ t, db.configsave = some t → PlainRecs z t) (h3 : ∀ t, db.params = some t → PlainRecs z t)
    (h4 : ∀ t, db.dbschema = some t → ∀ q ∈ t.recs, q.data ≠ .ub ∧ ∀ b, q.data = .ok b → Plain z false b) :
    testDb z fuel (d + 1) db = .ok (some true) ∨ testDb z fuel (d + 1) db = .throw := by
  have recs : ∀ t, PlainRecs z t → testAll (testRec z fuel (d + 1) t.name) t.recs true = .ok (some true) ∨
      testAll (testRec z fuel (d + 1) t.name) t.recs true = .throw := by
    intro t h
    refine testAll_cases _ (fun q hq => ?_)
    obtain ⟨hu, hp⟩ := h q hq
    unfold testRec
    split
    · exact Or.inl rfl
    · cases e : q.data with
      | ub => exact absurd e hu
      | throw => exact Or.inr rfl
      | ok b =>
        rw [Outcome.ok_bind]
        cases e2 : Cli.stoi q.size with
        | ub => exact absurd e2 (stoi_ne_ub _)
        | throw => exact Or.inr rfl
        | ok n =>
          rw [Outcome.ok_bind]
          split
          · exact Or.inr rfl
          · exact stream_cases hz fuel d _ _ b (hp b e)
  unfold testDb testNext
  rcases checkFields_cases db.config with ⟨c, hc, e⟩ | e
  swap
  · right; rw [e]; rfl
  rw [e, Outcome.ok_bind]
  rcases checkFields_cases db.configsave with ⟨s, hs, e⟩ | e
  swap
  · right; rw [e]; rfl
  rw [e, Outcome.ok_bind]
  rcases checkFields_cases db.params with ⟨p, hp, e⟩ | e
  swap
  · right; rw [e]; rfl
  rw [e, Outcome.ok_bind]
  rcases checkFields_cases db.files with ⟨fl, hfl, e⟩ | e
  swap
  · right; rw [e]; rfl
  rw [e, Outcome.ok_bind]
  rcases checkSchema_cases db.dbschema with ⟨sc, hsc, e⟩ | e
  swap
  · right; rw [e]; rfl
  rw [e, Outcome.ok_bind]
  rcases recs c (h1 c hc) with e | e
  swap
  · right; rw [e]; rfl
  rw [e, Outcome.ok_bind]
  simp only
  rcases recs s (h2 s hs) with e | e
  swap
  · right; rw [e]; rfl
  rw [e, Outcome.ok_bind]
  simp only
  rcases recs p (h3 p hp) with e | e
  swap
  · right; rw [e]; rfl
  rw [e, Outcome.ok_bind]
  simp only
  split
  · exact Or.inr rfl
  · refine testAll_cases _ (fun q hq => ?_)
    obtain ⟨hu, hpl⟩ := h4 sc hsc q hq
    unfold testRec2
    split
    · exact Or.inl rfl
    · cases e : q.data with
      | ub => exact absurd e hu
      | throw => exact Or.inr rfl
      | ok b => exact stream_cases hz fuel d _ _ b (hpl b e)

end Verif.Format
