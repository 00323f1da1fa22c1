import Verif.Template.RepairLemmas

/-! # Property theorems: testing and repairing the pages of a table (C73) -/

namespace Verif.Template
open Verif Record Object

set_option maxRecDepth 2000

/-- **C73, the template.** For fields laid out in a record, the template is built and
allows at each place of the record exactly the bytes the field there allows. -/
theorem template_exact (fs : List Field) (rlen : Nat) (h : Laid fs rlen) :
    ∃ t, template fs.length fs rlen = .ok t ∧ t.size = rlen * 256 ∧
      ∀ k (b : UInt8), k < rlen → (t.at' (k * 256 + b.toNat) = true ↔ Spec.RecordByteOk fs k b) := template_ok fs rlen h

/-- Fields that `layout` has laid out are laid out. -/
theorem laid_of_layout (fs gs : List Field) (rlen : Nat) (hs : ∀ f ∈ fs, Record.Spec.Sane f.decl) (hn : ∀ f ∈ fs, Spec.Named f)
    (hb : 1 + Record.Spec.total fs < 8388608) (h : layout fs.length fs = .ok (gs, (rlen : Int))) :
    Laid gs rlen ∧ gs.length = fs.length ∧ (4 ≤ Record.Spec.total fs → Spec.Covered gs rlen) := by
  obtain ⟨gs', h1, h2, h3⟩ := layout_partition_partial fs hs (by omega)
  have hd := layout_disjoint_partial fs gs rlen hs (by omega) h
  rw [h1] at h
  simp only [Outcome.ok.injEq, Prod.mk.injEq] at h
  obtain ⟨rfl, hr⟩ := h
  have hlen : gs'.length = fs.length := by have := congrArg List.length h2; simpa using this
  refine ⟨⟨?_, hd.2.2.1, hd.1, by omega, by omega⟩, hlen, ?_⟩
  · intro f hf
    have hm : (f.name, f.decl) ∈ fs.map (fun f => (f.name, f.decl)) := by
      rw [← h2]; exact List.mem_map.mpr ⟨f, hf, rfl⟩
    obtain ⟨g, hg, e⟩ := List.mem_map.mp hm
    simp only [Prod.mk.injEq] at e
    refine ⟨by rw [← e.2]; exact hs g hg, ?_⟩
    obtain ⟨cps, h4, h5⟩ := hn g hg
    exact ⟨cps, h4, by rw [← e.1]; exact h5⟩
  · intro ht k hk1 hk2
    exact hd.2.2.2 k hk1 (by omega)

/-- **C73, testing a page.** A full page is accepted as page `i` of the records exactly
if it fits: all bytes are right at their places. -/
theorem test_page_exact (file : List Bytes) (block : Nat) (page : Bytes) (fs : List Field) (i rlen : Nat) (tt : Tmpl)
    (hl : Laid fs rlen) (ht : template fs.length fs rlen = .ok tt)
    (hp : file[block]? = some page) (hs : page.length = 4096) (hi : i < 1048576) :
    (testBlock file block tt i rlen 4096 = .ok true ↔ Spec.Fits fs rlen i page) ∧
    (testBlock file block tt i rlen 4096 = .ok false ↔ ¬ Spec.Fits fs rlen i page) := by
  obtain ⟨t, e, h1, h2⟩ := template_ok fs rlen hl
  rw [ht] at e
  injection e with e
  subst e
  have hpos := hl.pos
  obtain ⟨r, er, hr⟩ := testBlock_ok file block page tt fs i rlen hp hs ⟨h1, h2⟩ (by omega) hi
  rw [er]
  cases r with
  | true => simp [← hr]
  | false => simp [← hr]

/-! ## Valid records fit -/

theorem bcd_digits (n lo hi : Nat) (h1 : lo ≤ n) (h : n ≤ hi) (hh : hi ≤ 99) : Spec.Digits lo hi (Spec.bcd n) :=
  ⟨n, h1, h, by unfold Spec.bcd; rw [UInt8.toNat_ofNat_of_lt' (by show _ < 256; omega)]⟩

theorem bcd_ne_zero (n : Nat) (h1 : 1 ≤ n) (hh : n ≤ 99) : Spec.bcd n ≠ 0 := by
  intro e
  have := congrArg UInt8.toNat e
  unfold Spec.bcd at this
  rw [UInt8.toNat_ofNat_of_lt' (by show _ < 256; omega)] at this
  simp at this
  omega

theorem value_bytes (f : Field) (v : Bytes) (h : Spec.ValueOk f v) : ∀ k b, v[k]? = some b → Spec.ByteOk f k b := by
  unfold Spec.ValueOk at h
  unfold Spec.ByteOk
  dsimp only at h ⊢
  cases ht : f.decl.type <;> rw [ht] at h <;> dsimp only at h ⊢ <;> intro k b hk
  case bool =>
    rcases h with rfl | rfl
    all_goals
      cases k with
      | zero => simp at hk; subst hk; decide
      | succ k => simp at hk
  case numeric =>
    obtain ⟨ds, _, h2, rfl⟩ := h
    rw [List.getElem?_map] at hk
    cases hd : ds[k]? with
    | none => rw [hd] at hk; simp at hk
    | some x =>
      rw [hd] at hk
      simp at hk
      subst hk
      exact bcd_digits x 0 99 (by omega) (h2 x (List.mem_of_getElem? hd)) (by omega)
  case datetime =>
    obtain ⟨y, y', mo, d, hh, mi, s, h1, h2, h3, h4, h5, h6, h7, hr, rfl⟩ := h
    match k with
    | 0 => simp at hk; subst hk; simpa using bcd_digits y 0 39 (by omega) h1 (by omega)
    | 1 => simp at hk; subst hk; simpa using bcd_digits y' 0 99 (by omega) h2 (by omega)
    | 2 =>
      simp at hk; subst hk
      simpa using And.intro (bcd_digits mo 0 12 (by omega) h3 (by omega)) (fun hq => bcd_ne_zero mo (hr hq).1 (by omega))
    | 3 =>
      simp at hk; subst hk
      simpa using And.intro (bcd_digits d 0 31 (by omega) h4 (by omega)) (fun hq => bcd_ne_zero d (hr hq).2 (by omega))
    | 4 => simp at hk; subst hk; simpa using bcd_digits hh 0 23 (by omega) h5 (by omega)
    | 5 => simp at hk; subst hk; simpa using bcd_digits mi 0 59 (by omega) h6 (by omega)
    | 6 => simp at hk; subst hk; simpa using bcd_digits s 0 59 (by omega) h7 (by omega)
    | k + 7 => simp at hk
  case varchar =>
    obtain ⟨_, c, rest, h2, rfl⟩ := h
    constructor
    · rintro rfl
      simp at hk; subst hk
      rw [UInt8.toNat_ofNat']; omega
    · rintro rfl
      simp at hk; subst hk
      rw [UInt8.toNat_ofNat']
      have : c / 256 ≤ f.decl.length.toNat / 256 := Nat.div_le_div_right h2
      omega
  case varbinary =>
    obtain ⟨_, c, rest, h2, rfl⟩ := h
    constructor
    · rintro rfl
      simp at hk; subst hk
      rw [UInt8.toNat_ofNat']; omega
    · rintro rfl
      simp at hk; subst hk
      rw [UInt8.toNat_ofNat']
      have : c / 256 ≤ f.decl.length.toNat / 256 := Nat.div_le_div_right h2
      omega
  all_goals trivial

theorem record_bytes (fs : List Field) (rlen : Nat) (hl : Laid fs rlen) (hc : Spec.Covered fs rlen) (r : Bytes)
    (h : Spec.RecordOk fs rlen r) : ∀ k b, r[k]? = some b → Spec.RecordByteOk fs k b := by
  obtain ⟨h1, h2, h3⟩ := h
  intro k b hk
  have hkr : k < rlen := by have := getElem?_some_lt hk; omega
  by_cases h0 : k = 0
  · subst h0
    rw [h2] at hk; injection hk with hk
    exact Or.inl ⟨rfl, hk.symm⟩
  · obtain ⟨f, hf, hk1, hk2⟩ := hc k (by omega) hkr
    refine Or.inr ⟨f, hf, hk1, hk2, ?_⟩
    have hin := hl.inside f hf
    obtain ⟨o, ho⟩ : ∃ o : Nat, f.offset = (o : Int) := ⟨f.offset.toNat, by omega⟩
    obtain ⟨flag, v, e, hfl, hv⟩ := h3 f hf
    rw [ho] at hk1 hk2 hin e ⊢
    rw [Int.toNat_natCast] at e ⊢
    have hlen := congrArg List.length e
    simp only [List.length_append, List.length_drop] at hlen
    have hk' : (r.drop o)[k - o]? = some b := by rw [List.getElem?_drop, ← hk]; congr 1; omega
    rw [e, List.getElem?_append_left (by simp only [List.length_append]; omega)] at hk'
    unfold Spec.FieldByteOk
    cases hnull : f.decl.nullExists with
    | false =>
      simp only [hnull, Bool.false_eq_true, if_false, List.nil_append] at hk' ⊢
      exact value_bytes f v hv _ _ hk'
    | true =>
      simp only [hnull, if_true] at hk' ⊢
      split
      · rename_i hz
        rw [hz] at hk'
        simp at hk'
        subst hk'; exact hfl
      · rename_i hz
        refine value_bytes f v hv _ _ ?_
        obtain ⟨q, hq⟩ : ∃ q, k - o = q + 1 := ⟨k - o - 1, by omega⟩
        rw [hq] at hk' ⊢
        simpa using hk'

theorem flatten_get (rlen : Nat) (recs : List Bytes) (h : ∀ r ∈ recs, r.length = rlen) : ∀ p b, recs.flatten[p]? = some b →
    ∃ r ∈ recs, r[p % rlen]? = some b := by
  induction recs with
  | nil => intro p b hp; simp at hp
  | cons r recs ih =>
    intro p b hp
    have hrl := h r (List.mem_cons_self ..)
    rw [List.flatten_cons] at hp
    by_cases hlt : p < rlen
    · rw [List.getElem?_append_left (by omega)] at hp
      exact ⟨r, List.mem_cons_self .., by rw [Nat.mod_eq_of_lt hlt]; exact hp⟩
    · rw [List.getElem?_append_right (by omega), hrl] at hp
      obtain ⟨r', hr', e⟩ := ih (fun x hx => h x (List.mem_cons_of_mem _ hx)) _ _ hp
      exact ⟨r', List.mem_cons_of_mem _ hr', by rw [Nat.mod_eq_sub_mod (by omega)]; exact e⟩

/-- **C73, valid records are accepted.** If a table has no removed records and its records
hold valid values, each of its full pages fits in its place. -/
theorem valid_table_fits (fs : List Field) (rlen : Nat) (hl : Laid fs rlen) (hc : Spec.Covered fs rlen) (hr : rlen ≤ 4096)
    (data : Bytes) (h : Spec.TableOk fs rlen data) (i : Nat) (hi : (i + 1) * 4096 ≤ data.length) :
    Spec.Fits fs rlen i (Spec.pageOf data i) := by
  obtain ⟨first, recs, h1, h2, h3, rfl⟩ := h
  have hpos := hl.pos
  constructor
  · rintro rfl
    unfold Spec.pageOf
    rw [Nat.zero_mul, List.drop_zero, List.take_take, List.take_append_of_le_length (by omega)]
    exact h2
  · intro q b hq hq0
    unfold Spec.pageOf at hq
    have hq4 : q < 4096 := by have := getElem?_some_lt hq; rw [List.length_take] at this; omega
    rw [List.getElem?_take_of_lt hq4, List.getElem?_drop] at hq
    have hge : rlen ≤ i * 4096 + q := by
      by_cases h0 : i = 0
      · have := hq0 h0; omega
      · omega
    rw [List.getElem?_append_right (by omega), h1] at hq
    obtain ⟨r, hr', e⟩ := flatten_get rlen recs (fun r hr => (h3 r hr).1) _ _ hq
    rw [Nat.mod_eq_sub_mod hge]
    exact record_bytes fs rlen hl hc r (h3 r hr') _ _ e

/-! ## Repairing -/

theorem number_wordOf {file pages : List Bytes} {block n : Nat} {tab : Nat → Nat} (hpl : Spec.Placed file block n tab)
    (hb : pages[block]? = file[block]?) (i : Nat) (hi : i < n) :
    Spec.number pages block i = wordOf pages (tab (i / 1023)) (4 + 4 * (i % 1023)) := by
  obtain ⟨hp, hroot, _, _, htab⟩ := hpl.root
  unfold Spec.number Object.Spec.dataPage Object.Spec.file80 wordOf
  rw [hb, hroot]
  have := htab (i / 1023) (Nat.lt_of_le_of_lt (Nat.div_mul_le_self ..) hi)
  simp only [Option.bind_eq_bind, Option.bind_some, this]

theorem number_some {file : List Bytes} {block n : Nat} {tab : Nat → Nat} (hpl : Spec.Placed file block n tab) (i : Nat)
    (hi : i < n) : ∃ v, Spec.number file block i = some v := by
  have hk : i / 1023 * 1023 < n := Nat.lt_of_le_of_lt (Nat.div_mul_le_self ..) hi
  have hT := hpl.tabs _ hk
  rw [number_wordOf hpl rfl i hi]
  unfold wordOf
  rw [List.getElem?_eq_getElem hT.2.1]
  exact word_some _ _ (by rw [hpl.size _ (List.getElem_mem _)]; omega)

/-- **C73, what a repair does.** For records on full pages whose placement pages are in
order: either some page of the records is damaged and no page of the file fits in its
place, and the call throws; or it returns, and each page number is as it should be: kept
where the page fits, the only fitting page where it does not, kept where several fit.
The numbers of entries in the placement pages are right then, and no other page changes. -/
theorem repair_partial (e : Env) (s : St) (block n rlen : Nat) (tab : Nat → Nat) (fs : List Field)
    (hl : Laid fs rlen) (hpl : Spec.Placed s.pages block n tab) (hlen : s.pages.length < 2 ^ 32) (hmul : n * 4096 % rlen = 0) :
    (restore e s.pages s block fs.length fs rlen = .throw ∧ ∃ i, i < n ∧ ∀ r, ¬ Spec.Good s.pages fs rlen i r) ∨
    ∃ s', restore e s.pages s block fs.length fs rlen = .ok s' ∧ s'.pages.length = s.pages.length ∧
      (∀ i, i < n → ∃ d d', Spec.number s.pages block i = some d ∧ Spec.number s'.pages block i = some d' ∧
        Spec.Repaired s.pages fs rlen i d d') ∧
      (∀ k, k * 1023 < n → Object.Spec.tableCount s'.pages block k = some (min (n - k * 1023) 1023)) ∧
      ∀ m, (∀ k, k * 1023 < n → m ≠ tab k) → s'.pages[m]? = s.pages[m]? := by
  obtain ⟨t, et, hz, hb⟩ := template_ok fs rlen hl
  have hpos := hl.pos
  obtain ⟨hp, hroot, hsig, hword, htab⟩ := hpl.root
  have hsig : hp.take 8 = sigObj := hsig
  have hbl := getElem?_some_lt hroot
  have hstart := hpl.start
  have hpk : peek s block 8 = .ok (n * 4096) := by
    unfold peek; rw [hroot]; exact (rd32_word _ _ _).mpr hword
  have hdiv : n * 4096 / rlen * rlen = n * 4096 := by
    have := Nat.div_add_mod (n * 4096) rlen
    rw [hmul, Nat.add_zero, Nat.mul_comm] at this
    exact this
  have hres : restore e s.pages s block fs.length fs rlen = fixLoop e s.pages t rlen block (n * 4096) s 0 0 0 0 (n * 4096) := by
    unfold restore
    rw [if_neg (by omega), touch_read e s _ hbl]
    simp only [Outcome.ok_bind, hroot]
    rw [if_neg (not_not_intro hsig), hpk]
    simp only [Outcome.ok_bind]
    rw [if_neg (by omega), if_neg (by omega), et]
    rfl
  have hd : ∀ i, ∃ v, i < n → Spec.number s.pages block i = some v := by
    intro i
    by_cases hi : i < n
    · obtain ⟨v, hv⟩ := number_some hpl i hi; exact ⟨v, fun _ => hv⟩
    · exact ⟨0, fun h => absurd h hi⟩
  obtain ⟨d, hd⟩ := Classical.axiomOfChoice hd
  have hmid : Mid s.pages fs rlen block n tab d s 0 d :=
    ⟨rfl, hpl.size, fun _ _ => rfl, fun m hm => by rw [← number_wordOf hpl rfl m hm]; exact hd m hm,
      fun m hm => absurd hm (Nat.not_lt_zero m), fun _ _ _ => rfl, fun k hk => absurd hk (Nat.not_lt_zero _)⟩
  have hloop := fixLoop_ok e hpl ⟨hz, hb⟩ (by omega) hlen (n * 4096) s 0 0 0 d (Nat.zero_le _) (by omega) rfl
    (fun h => absurd rfl h) hmid
  rw [Nat.zero_mod, Nat.sub_zero] at hloop
  rw [hres]
  rcases hloop with h | ⟨s', D, h1, h2⟩
  · exact Or.inl h
  · refine Or.inr ⟨s', h1, h2.len, ?_, ?_, h2.other⟩
    · intro i hi
      have hbk : s'.pages[block]? = s.pages[block]? := h2.other block (fun k hk e => (hpl.tabs k hk).2.2 e.symm)
      exact ⟨d i, D i, hd i hi, by rw [number_wordOf hpl hbk i hi]; exact h2.words i hi, h2.done i hi⟩
    · intro k hk
      have hbk : s'.pages[block]? = s.pages[block]? := h2.other block (fun k hk e => (hpl.tabs k hk).2.2 e.symm)
      have := h2.counts k hk
      unfold wordOf at this
      unfold Object.Spec.tableCount
      rw [hbk, hroot]
      simp only [Option.bind_eq_bind, Option.bind_some, htab k hk]
      exact this

/-- The pages of the file hold the records `data`: page `i` of them has the number `num i`. -/
def Spec.Stored (file : List Bytes) (data : Bytes) (n : Nat) (num : Nat → Nat) : Prop :=
  data.length = n * 4096 ∧ ∀ i, i < n → 5 ≤ num i ∧ file[num i]? = some (Spec.pageOf data i)

/-- **C73, lost numbers are found.** Let a table without removed records consist of valid
records on full pages that are all still in the file, and let some of its page numbers be
wrong. If no other page of the file fits where a number is wrong, repairing gives back
all numbers. -/
theorem repair_restores_partial (e : Env) (s : St) (block n rlen : Nat) (tab : Nat → Nat) (fs : List Field)
    (hl : Laid fs rlen) (hc : Spec.Covered fs rlen) (hr : rlen ≤ 4096)
    (hpl : Spec.Placed s.pages block n tab) (hlen : s.pages.length < 2 ^ 32)
    (data : Bytes) (num : Nat → Nat) (hok : Spec.TableOk fs rlen data) (hst : Spec.Stored s.pages data n num)
    (hw : ∀ i, i < n → Spec.number s.pages block i = some (num i) ∨ ∀ r, Spec.Good s.pages fs rlen i r → r = num i) :
    ∃ s', restore e s.pages s block fs.length fs rlen = .ok s' ∧ ∀ i, i < n → Spec.number s'.pages block i = some (num i) := by
  have hpos := hl.pos
  have hgood : ∀ i, i < n → Spec.Good s.pages fs rlen i (num i) := by
    intro i hi
    obtain ⟨h1, h2⟩ := hst.2 i hi
    exact ⟨h1, _, h2, valid_table_fits fs rlen hl hc hr data hok i (by rw [hst.1]; omega)⟩
  have hmul : n * 4096 % rlen = 0 := by
    rw [← hst.1]
    obtain ⟨first, recs, h1, _, h3, rfl⟩ := hok
    have : ∀ recs : List Bytes, (∀ r ∈ recs, r.length = rlen) → recs.flatten.length % rlen = 0 := by
      intro recs
      induction recs with
      | nil => intro _; simp
      | cons r recs ih =>
        intro h
        rw [List.flatten_cons, List.length_append, h r (List.mem_cons_self ..), Nat.add_mod_left]
        exact ih (fun x hx => h x (List.mem_cons_of_mem _ hx))
    rw [List.length_append, h1, Nat.add_mod_left]
    exact this recs (fun r hr => (h3 r hr).1)
  rcases repair_partial e s block n rlen tab fs hl hpl hlen hmul with ⟨_, i, hi, h⟩ | ⟨s', h1, _, h2, _, _⟩
  · exact absurd (hgood i hi) (h _)
  · refine ⟨s', h1, fun i hi => ?_⟩
    obtain ⟨d, d', e1, e2, h3⟩ := h2 i hi
    rw [e2]
    congr 1
    rcases hw i hi with h | h
    · rw [e1] at h; injection h with h
      subst h
      rcases h3 with ⟨_, h⟩ | ⟨h, _⟩ | ⟨h, _⟩
      · exact h
      · exact absurd (hgood i hi) h
      · exact absurd (hgood i hi) h
    · rcases h3 with ⟨h4, h5⟩ | ⟨_, h4, _⟩ | ⟨_, ⟨r, r', h4, h5, h6⟩, _⟩
      · rw [h5]; exact h d h4
      · exact h d' h4
      · exact absurd ((h r h5).trans (h r' h6).symm) h4

/-! ## Tables that are in order but refused -/

/-- **C73, negation: removed records.** A page on which a record begins with the mark of
removed records never fits (record 0 apart). -/
theorem removed_never_fits (fs : List Field) (rlen : Nat) (hl : Laid fs rlen) (i q : Nat) (page : Bytes)
    (hq : page[q]? = some 1) (h0 : i = 0 → rlen ≤ q) (hs : (i * 4096 + q) % rlen = 0) : ¬ Spec.Fits fs rlen i page := by
  intro h
  rcases h.2 q 1 hq h0 with ⟨_, h⟩ | ⟨f, hf, h1, _, _⟩
  · exact absurd h (by decide)
  · rw [hs] at h1
    have := (hl.inside f hf).1
    simp at h1
    omega

/-- **C73, negation: the list of removed records.** Neither does the first page if record 0
says that there are removed records. -/
theorem free_list_never_fits (fs : List Field) (rlen : Nat) (page : Bytes) (h : page.take 5 ≠ [1, 0, 0, 0, 0]) :
    ¬ Spec.Fits fs rlen 0 page := fun h1 => h (h1.1 rfl)

/-- **C73, negation: short records.** If the fields of a table have less than four bytes,
records are five bytes long, and no page at all fits: every such table is reported as
damaged beyond repair. -/
theorem short_records_never_fit (fs : List Field) (k : Nat) (hk : k < 5) (hk1 : 1 ≤ k)
    (hu : ∀ f ∈ fs, f.offset + Record.Spec.fieldBytes f.decl ≤ k) (i : Nat) (page : Bytes) (hp : page.length = 4096) :
    ¬ Spec.Fits fs 5 i page := by
  intro h
  obtain ⟨q, h1, h2, h3⟩ : ∃ q, 5 ≤ q ∧ q < 10 ∧ (i * 4096 + q) % 5 = k := by
    refine ⟨5 + (k + 4 * i) % 5, by omega, by omega, by omega⟩
  have hq : page[q]? = some (page[q]'(by omega)) := List.getElem?_eq_getElem (by omega)
  have := h.2 q _ hq (fun _ => h1)
  rw [h3] at this
  rcases this with ⟨h4, _⟩ | ⟨f, hf, _, h4, _⟩
  · omega
  · have := hu f hf; omega

/-- **C73, negation: files of other lengths.** If the records do not fill their last page
the repair never returns: the rest of the last page is compared without having been read. -/
theorem repair_never_returns (e : Env) (file : List Bytes) (s : St) (block num rlen : Nat) (fs : List Field) (l : Nat)
    (hl : wordOf s.pages block 8 = some l) (hr : l % 4096 ≠ 0) (s' : St) :
    restore e file s block num fs rlen ≠ .ok s' := by
  have cand : ∀ tt i len, len < 4096 → ∀ n r bk, candidates file tt i rlen len n r = .ok bk → bk = [] := by
    intro tt i len hlen n
    induction n with
    | zero => intro r bk h; simp only [candidates, Outcome.ok.injEq] at h; exact h.symm
    | succ n ih =>
      intro r bk h
      unfold candidates at h
      cases ht : testBlock file r tt i rlen len with
      | throw => rw [ht] at h; simp at h
      | ub => rw [ht] at h; simp at h
      | ok o =>
        rw [ht] at h
        simp only [Outcome.ok_bind] at h
        cases hc : candidates file tt i rlen len n (r + 1) with
        | throw => rw [hc] at h; simp at h
        | ub => rw [hc] at h; simp at h
        | ok rest =>
          rw [hc] at h
          have ho : o = false := by
            cases o with
            | false => rfl
            | true => exact absurd ht (testBlock_short file r tt i rlen len hlen)
          subst ho
          simp only [Outcome.ok_bind, Bool.false_eq_true, if_false, Outcome.ok.injEq] at h
          rw [← h]; exact ih _ _ hc
  have page : ∀ tt (s : St) ca i j len s', len < 4096 → fixPage file tt rlen s ca i j len ≠ .ok s' := by
    intro tt s ca i j len s' hlen
    unfold fixPage
    cases peek s ca (4 + 4 * j) with
    | throw => simp
    | ub => simp
    | ok d =>
      simp only [Outcome.ok_bind]
      have hin : inPlace file tt rlen s d i len ≠ .ok true := by
        unfold inPlace
        split
        · simp
        · exact testBlock_short file d tt i rlen len hlen
      cases hi : inPlace file tt rlen s d i len with
      | throw => simp
      | ub => simp
      | ok o =>
        cases o with
        | true => exact absurd hi hin
        | false =>
          simp only [Outcome.ok_bind, Bool.false_eq_true, if_false]
          cases hc : candidates file tt i rlen len (s.pages.length - 5) 5 with
          | throw => simp
          | ub => simp
          | ok bk =>
            have := cand tt i len hlen _ _ _ hc
            subst this
            simp
  have loop : ∀ tt fuel (s : St) i j k ca l s', l % 4096 ≠ 0 → l ≤ fuel →
      fixLoop e file tt rlen block fuel s i j k ca l ≠ .ok s' := by
    intro tt fuel
    induction fuel with
    | zero => intro s i j k ca l s' h1 h2; omega
    | succ fuel ih =>
      intro s i j k ca l s' h1 h2
      unfold fixLoop
      rw [if_neg (by omega)]
      cases nextTab e s block j k ca l with
      | throw => simp
      | ub => simp
      | ok x =>
        obtain ⟨s1, ca1, k1⟩ := x
        simp only [Outcome.ok_bind]
        cases hf : fixPage file tt rlen s1 ca1 i j (min 4096 l) with
        | throw => simp
        | ub => simp
        | ok s2 =>
          simp only [Outcome.ok_bind]
          by_cases hs : l < 4096
          · exact absurd hf (page tt s1 ca1 i j _ s2 (by omega))
          · exact ih _ _ _ _ _ _ _ (by omega) (by omega)
  unfold restore
  split
  · simp
  · rename_i hblk
    rw [touch_read e s _ (by omega)]
    simp only [Outcome.ok_bind]
    cases hp : s.pages[block]? with
    | none => simp
    | some p =>
      dsimp only
      split
      · simp
      · rw [peek_of hl]
        simp only [Outcome.ok_bind]
        split
        · simp
        · split
          · simp
          · cases template num fs rlen with
            | throw => simp
            | ub => simp
            | ok tt =>
              simp only [Outcome.ok_bind]
              exact loop tt l s 0 0 0 0 l s' hr (Nat.le_refl _)

theorem byteAt_no_throw (b : Bytes) (i : Nat) : byteAt b i ≠ .throw := by
  unfold byteAt; split <;> simp

theorem zeros_no_throw (b : Bytes) (n : Nat) : ∀ i, zeros b n i ≠ .throw := by
  induction n with
  | zero => intro i; simp [zeros]
  | succ n ih =>
    intro i
    unfold zeros
    cases h : byteAt b i with
    | throw => exact absurd h (byteAt_no_throw b i)
    | ub => simp
    | ok x =>
      simp only [Outcome.ok_bind]
      split
      · simp
      · exact ih _

theorem along_no_throw (b : Bytes) (tt : Tmpl) (rlen n : Nat) : ∀ i j, along b tt rlen n i j ≠ .throw := by
  induction n with
  | zero => intro i j; simp [along]
  | succ n ih =>
    intro i j
    unfold along
    cases h : byteAt b i with
    | throw => exact absurd h (byteAt_no_throw b i)
    | ub => simp
    | ok x =>
      simp only [Outcome.ok_bind]
      split
      · simp
      · split
        · simp
        · exact ih _ _

theorem testBlock_no_throw (file : List Bytes) (block : Nat) (tt : Tmpl) (i rlen len : Nat) :
    testBlock file block tt i rlen len ≠ .throw := by
  unfold testBlock
  split
  · simp
  · dsimp only
    have hh : ∀ b, headTest i b ≠ .throw := by
      intro b
      unfold headTest headOk
      split
      · cases h : byteAt b 0 with
        | throw => exact absurd h (byteAt_no_throw b 0)
        | ub => simp
        | ok x =>
          simp only [Outcome.ok_bind]
          split
          · simp
          · exact zeros_no_throw _ _ _
      · simp
    cases h : headTest i ((file.getD block []).take len) with
    | throw => exact absurd h (hh _)
    | ub => simp
    | ok a =>
      simp only [Outcome.ok_bind]
      split
      · simp
      · cases h : along ((file.getD block []).take len) tt rlen (len - (testFrom i rlen).1) (testFrom i rlen).1 (testFrom i rlen).2 with
        | throw => exact absurd h (along_no_throw _ _ _ _ _ _)
        | ub => simp
        | ok b =>
          simp only [Outcome.ok_bind]
          split
          · simp
          · exact zeros_no_throw _ _ _

theorem candidates_ub (file : List Bytes) (tt : Tmpl) (i rlen len : Nat) (n : Nat) : ∀ r x, r ≤ x → x < r + n →
    testBlock file x tt i rlen len = .ub → candidates file tt i rlen len n r = .ub := by
  induction n with
  | zero => intro r x h1 h2; omega
  | succ n ih =>
    intro r x h1 h2 hx
    unfold candidates
    cases h : testBlock file r tt i rlen len with
    | throw => exact absurd h (testBlock_no_throw _ _ _ _ _ _)
    | ub => simp
    | ok o =>
      simp only [Outcome.ok_bind]
      by_cases hxr : x = r
      · subst hxr; rw [hx] at h; simp at h
      · rw [ih (r + 1) x (by omega) (by omega) hx]; rfl

/-- **C73, negation: lost placement pages.** If the number of the first placement page is
wrong, a new page is made for it, and the search that follows reads this page, which is
not in the file yet: undefined behaviour. Nothing is ever repaired in this case. -/
theorem lost_placement_page_ub (e : Env) (he : e.P = 4096) (s : St) (block rlen l a : Nat) (fs : List Field) (hl : Laid fs rlen)
    (hb : 5 ≤ block) (hs : ∀ p ∈ s.pages, p.length = 4096)
    (hsig : ∃ p, s.pages[block]? = some p ∧ p.take 8 = sigObj) (hlen : wordOf s.pages block 8 = some l)
    (hpos : 0 < l) (hmul : l % rlen = 0) (ha : wordOf s.pages block 24 = some a) (hbad : a < 5 ∨ s.pages.length ≤ a) :
    restore e s.pages s block fs.length fs rlen = .ub := by
  obtain ⟨t, et, hz, htb⟩ := template_ok fs rlen hl
  have hrp := hl.pos
  obtain ⟨hp, hroot, hsig⟩ := hsig
  have hbl := getElem?_some_lt hroot
  have hdiv : l / rlen * rlen = l := by
    have := Nat.div_add_mod l rlen
    rw [hmul, Nat.add_zero, Nat.mul_comm] at this
    exact this
  unfold restore
  rw [if_neg (by omega), touch_read e s _ hbl]
  simp only [Outcome.ok_bind, hroot]
  rw [if_neg (not_not_intro hsig), peek_of hlen]
  simp only [Outcome.ok_bind]
  rw [if_neg (by omega), if_neg (by omega), et]
  simp only [Outcome.ok_bind]
  obtain ⟨l', rfl⟩ : ∃ l', l = l' + 1 := ⟨l - 1, by omega⟩
  unfold fixLoop
  rw [if_neg (by omega)]
  have hbad' : decide (a < 5 ∨ a ≥ s.pages.length) = true := decide_eq_true hbad
  have htouch : touch e s s.pages.length false =
      .ok { s with pages := s.pages.modify 0 (fun p => splice p 12 (le32 (s.pages.length + 1))) ++ [List.replicate e.P 0] } := by
    unfold touch
    rw [if_neg (by omega), if_pos rfl]
    simp
  obtain ⟨s1, hs1⟩ : ∃ s1 : St, s1 = { s with pages := s.pages.modify 0 (fun p => splice p 12 (le32 (s.pages.length + 1))) ++ [List.replicate e.P 0] } := ⟨_, rfl⟩
  have hl1 : s1.pages.length = s.pages.length + 1 := by rw [hs1]; simp
  have hz1 : ∀ p ∈ s1.pages, p.length = 4096 := by
    rw [hs1]
    intro p h
    rcases List.mem_append.mp h with h | h
    · rw [List.mem_iff_getElem?] at h
      obtain ⟨m, h⟩ := h
      rw [List.getElem?_modify] at h
      cases hm : s.pages[m]? with
      | none => rw [hm] at h; simp at h
      | some q =>
        rw [hm] at h
        have hq := hs q (List.mem_of_getElem? hm)
        simp at h
        subst h
        split
        · rw [length_splice _ _ _ (by rw [length_le32]; omega)]; exact hq
        · exact hq
    · simp at h; rw [h, List.length_replicate]; exact he
  have hlast : s1.pages[s.pages.length]? = some (List.replicate 4096 0) := by
    rw [hs1]
    show (_ ++ _)[_]? = _
    rw [List.getElem?_append_right (by simp), List.length_modify, Nat.sub_self, he]
    rfl
  have hzero : ∀ off, off + 4 ≤ 4096 → wordOf s1.pages s.pages.length off = some 0 := by
    intro off ho
    unfold wordOf
    rw [hlast]
    simp only [Option.bind_some, Object.Spec.word, List.getElem?_replicate]
    rw [if_pos (by omega), if_pos (by omega), if_pos (by omega), if_pos (by omega)]
    rfl
  obtain ⟨s2, e2, h2l, h2z, _, _, h2w⟩ := poke_word s1 s.pages.length 0 (min ((l' + 1 + 4095) / 4096) 1023) (by omega) hz1 (by omega) (by omega)
  have hopen : nextTab e s block 0 0 0 (l' + 1) = .ok (s2, s.pages.length, 1) := by
    unfold nextTab openTab
    rw [if_pos rfl, if_neg (by omega), peek_of (by simpa using ha)]
    simp only [Outcome.ok_bind, hbad', if_true, Bool.not_true]
    rw [htouch, ← hs1]
    simp only [Outcome.ok_bind]
    unfold setCount
    rw [peek_of (hzero 0 (by omega))]
    simp only [Outcome.ok_bind]
    rw [if_pos (by omega), e2]
    rfl
  rw [hopen]
  simp only [Outcome.ok_bind]
  have hw0 : wordOf s2.pages s.pages.length (4 + 4 * 0) = some 0 := by
    rw [h2w _ (by omega)]; exact hzero _ (by omega)
  have hfix : fixPage s.pages t rlen s2 s.pages.length 0 0 (min 4096 (l' + 1)) = .ub := by
    unfold fixPage
    rw [peek_of hw0]
    simp only [Outcome.ok_bind]
    unfold inPlace
    rw [if_pos (by omega)]
    simp only [Outcome.ok_bind, Bool.false_eq_true, if_false]
    rw [candidates_ub s.pages t 0 rlen _ _ 5 s.pages.length (by omega) (by omega) ?_]
    · rfl
    · unfold testBlock headTest headOk
      rw [if_neg (by omega)]
      rw [List.getD_eq_getElem?_getD, List.getElem?_eq_none (Nat.le_refl _), Option.getD_none, List.take_nil]
      rfl
  rw [hfix]
  rfl

/-! ## A concrete table -/

/-- A table with one field, a date; records of eight bytes. -/
def exFields : List Field := [⟨[68], ⟨.datetime, false, 0, 0, false⟩, 1⟩]
def exRecord : Bytes := [0, 0x20, 0x24, 0x02, 0x29, 0x12, 0x30, 0x59]
def exData : Bytes := [1, 0, 0, 0, 0, 7, 7, 7] ++ (List.replicate 511 exRecord).flatten
def exPages : List Bytes := List.replicate 5 (List.replicate 4096 0) ++
  [sigObj ++ (le32 4096 ++ (List.replicate 12 0 ++ (le32 6 ++ List.replicate 4068 0))),
   le32 1 ++ (le32 9 ++ List.replicate 4088 0), exData]
def exState : St := ⟨exPages, ⟨.free80, 1, 0, 0, 0, 0, [], none, 0, 0, 0, 0, false⟩, 0⟩

theorem ex_laid : Laid exFields 8 := by
  refine ⟨?_, ?_, List.pairwise_singleton .., by omega, by omega⟩
  · intro f hf
    simp only [exFields, List.mem_singleton] at hf
    subst hf
    exact ⟨⟨by decide, by decide⟩, [68], by intro c hc; simp at hc; subst hc; decide, by decide⟩
  · intro f hf
    simp only [exFields, List.mem_singleton] at hf
    subst hf
    decide

theorem ex_covered : Spec.Covered exFields 8 := by
  intro k h1 h2
  refine ⟨_, List.mem_singleton_self _, ?_, ?_⟩
  · show (1 : Int) ≤ k; omega
  · show (k : Int) < 1 + 7; omega

theorem ex_recordOk : Spec.RecordOk exFields 8 exRecord := by
  refine ⟨rfl, rfl, ?_⟩
  intro f hf
  simp only [exFields, List.mem_singleton] at hf
  subst hf
  refine ⟨0, [0x20, 0x24, 0x02, 0x29, 0x12, 0x30, 0x59], rfl, by decide, 20, 24, 2, 29, 12, 30, 59, by omega, by omega, by omega,
    by omega, by omega, by omega, by omega, fun _ => by omega, by decide⟩

theorem ex_tableOk : Spec.TableOk exFields 8 exData :=
  ⟨[1, 0, 0, 0, 0, 7, 7, 7], List.replicate 511 exRecord, rfl, rfl, fun r hr => by
    rw [List.eq_of_mem_replicate hr]; exact ex_recordOk, rfl⟩

theorem ex_data_length : exData.length = 4096 := by
  unfold exData
  rw [List.length_append, List.length_flatten, List.map_replicate, List.sum_replicate_nat]
  rfl

theorem ex_placed : Spec.Placed exState.pages 5 1 (fun _ => 6) := by
  refine ⟨?_, ⟨_, rfl, rfl, rfl, ?_⟩, by omega, ?_, ?_, by omega⟩
  · intro p hp
    simp only [exState, exPages, List.mem_append, List.mem_cons, List.not_mem_nil, or_false] at hp
    rcases hp with hp | rfl | rfl | rfl
    · rw [List.eq_of_mem_replicate hp, List.length_replicate]
    · simp only [List.length_append, List.length_replicate, length_le32]; rfl
    · simp only [List.length_append, List.length_replicate, length_le32]
    · exact ex_data_length
  · intro k hk
    have : k = 0 := by omega
    subst this; rfl
  · intro k _
    exact ⟨by omega, by show 6 < 8; omega, by omega⟩
  · intro k k' h1 h2 _
    omega

theorem ex_stored : Spec.Stored exState.pages exData 1 (fun _ => 7) := by
  refine ⟨ex_data_length, fun i hi => ⟨by show 5 ≤ 7; omega, ?_⟩⟩
  have : i = 0 := by omega
  subst this
  show some exData = _
  unfold Spec.pageOf
  rw [Nat.zero_mul, List.drop_zero, List.take_of_length_le (Nat.le_of_eq ex_data_length)]

/-- The only page number of the example is 9, which is not in the file; repairing finds
page 7. -/
example (e : Env) : Spec.number exState.pages 5 0 = some 9 ∧
    ∃ s', restore e exState.pages exState 5 1 exFields 8 = .ok s' ∧ Spec.number s'.pages 5 0 = some 7 := by
  refine ⟨rfl, ?_⟩
  obtain ⟨s', h1, h2⟩ := repair_restores_partial e exState 5 1 8 (fun _ => 6) exFields ex_laid ex_covered (by omega) ex_placed
    (by show 8 < _; omega) exData (fun _ => 7) ex_tableOk ex_stored (by
      intro i hi
      have : i = 0 := by omega
      subst this
      right
      rintro r ⟨h5, p, hp, hf⟩
      have hr : r < 8 := getElem?_some_lt hp
      have h0 := hf.1 rfl
      by_contra hne
      have : r = 5 ∨ r = 6 := by omega
      rcases this with rfl | rfl
      · injection hp with hp
        rw [← hp] at h0
        have := congrArg List.head? h0
        revert this
        decide
      · injection hp with hp
        rw [← hp] at h0
        have := congrArg (fun l => l[4]?) h0
        revert this
        decide)
  exact ⟨s', h1, h2 0 (by omega)⟩

/-- A record of this table that has been removed is not recognised. -/
example (page : Bytes) (h : page[8]? = some 1) : ¬ Spec.Fits exFields 8 3 page :=
  removed_never_fits exFields 8 ex_laid 3 8 page h (by omega) (by decide)

/-- A table with one logical field: records of five bytes, byte 2 belongs to no field. -/
example (i : Nat) (page : Bytes) (h : page.length = 4096) :
    ¬ Spec.Fits [⟨[65], ⟨.bool, false, 0, 0, false⟩, 1⟩] 5 i page :=
  short_records_never_fit _ 2 (by omega) (by omega) (by intro f hf; simp at hf; subst hf; decide) i page h

/-- The same table with the number of its placement page lost. -/
def exLost : St := { exState with pages := exPages.set 5 (sigObj ++ (le32 4096 ++ (List.replicate 12 0 ++ (le32 0 ++ List.replicate 4068 0)))) }

example : restore ⟨4096, fun _ => true, 0⟩ exLost.pages exLost 5 1 exFields 8 = .ub := by
  refine lost_placement_page_ub _ rfl exLost 5 8 4096 0 exFields ex_laid (by omega) ?_ ⟨_, rfl, rfl⟩ rfl (by omega) rfl rfl
    (by omega)
  intro p hp
  rcases List.mem_or_eq_of_mem_set hp with h | rfl
  · exact ex_placed.size p h
  · simp only [List.length_append, List.length_replicate, length_le32]; rfl

/-- Records that do not fill their last page. -/
def exShort : St := { exState with pages := exPages.set 5 (sigObj ++ (le32 4088 ++ (List.replicate 12 0 ++ (le32 6 ++ List.replicate 4068 0)))) }

example (e : Env) (s' : St) : restore e exShort.pages exShort 5 1 exFields 8 ≠ .ok s' :=
  repair_never_returns e _ exShort 5 1 8 exFields 4088 rfl (by decide) s'

end Verif.Template
