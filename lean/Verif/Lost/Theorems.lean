import Verif.Lost.Spec
import Verif.Object.ReadTheorems
import Verif.App.Theorems

/-! # Theorems about objects no table refers to (property C87) -/

namespace Verif.Lost
open Verif Object

theorem word_sig : App.Spec.word "1CDBOBV8" = sigObj := by decide

theorem isLost_iff {pages : List Bytes} {live : List Live} {i : Nat} (hi : i < pages.length) :
    ∃ b, isLost pages (some live) i = .ok b ∧ (b = true ↔ Spec.Marked pages i ∧ ∀ o ∈ live, o.block ≠ i) := by
  have hp : pages[i]? = some pages[i] := List.getElem?_eq_getElem hi
  unfold isLost getPage
  rw [hp]
  simp only [Outcome.ok_bind]
  by_cases hs : (pages[i]).take 8 = sigObj
  · rw [if_pos hs]
    simp only [isOpen, Outcome.ok_bind]
    refine ⟨_, rfl, ?_⟩
    have hm : Spec.Marked pages i := ⟨(pages[i]).drop 8, by
      rw [hp]
      congr 1
      rw [word_sig, ← hs, List.take_append_drop]⟩
    simp [hm]
  · rw [if_neg hs]
    refine ⟨_, rfl, ?_⟩
    constructor
    · intro h; cases h
    · rintro ⟨⟨rest, h⟩, _⟩
      rw [hp] at h
      refine absurd ?_ hs
      rw [Option.some.inj h, word_sig]
      rfl

theorem findLoop_spec (pages : List Bytes) (live : List Live) : ∀ is : List Nat, (∀ i ∈ is, i < pages.length) →
    ∃ r, findLoop pages (some live) is = .ok r ∧ r.Sublist is ∧
      ∀ i ∈ is, (i ∈ r ↔ Spec.Marked pages i ∧ ∀ o ∈ live, o.block ≠ i)
  | [], _ => ⟨[], rfl, List.Sublist.refl _, by simp⟩
  | i :: is, h => by
    obtain ⟨b, hb, hbi⟩ := isLost_iff (live := live) (h i (List.mem_cons_self ..))
    obtain ⟨r, hr, hs, hri⟩ := findLoop_spec pages live is fun j hj => h j (List.mem_cons_of_mem _ hj)
    refine ⟨if b then i :: r else r, by rw [findLoop, hb, hr]; rfl, ?_, ?_⟩
    · cases b with
      | true => exact hs.cons_cons i
      | false => exact hs.cons i
    · intro j hj
      cases b with
      | true =>
        simp only [if_true]
        rcases List.mem_cons.1 hj with rfl | hj
        · simp [hbi.1 rfl]
          exact (hbi.1 rfl).2
        · by_cases e : j = i
          · subst e
            simp [hbi.1 rfl]
            exact (hbi.1 rfl).2
          · simp [e, hri j hj]
      | false =>
        have hf : ¬ (Spec.Marked pages i ∧ ∀ o ∈ live, o.block ≠ i) := fun h => by cases hbi.2 h
        simp only [Bool.false_eq_true, if_false]
        rcases List.mem_cons.1 hj with rfl | hj
        · by_cases e : j ∈ is
          · exact hri j e
          · constructor
            · intro h
              exact absurd (hs.subset h) e
            · intro h
              exact absurd h hf
        · exact hri j hj

theorem mem_candidates {pages : List Bytes} {i : Nat} : i ∈ candidates pages ↔ 0 < i ∧ i < pages.length := by
  unfold candidates
  rw [List.mem_range'_1]
  omega

/-- **C87: what is reported.** In a process with one database open exactly the lost objects are reported, each once and in the order of their
pages. Partial: format 8.0, one database. -/
theorem find_partial (b : Nat) (pages : List Bytes) (live : List Live) (hb : ∀ o ∈ live, o.base = b) :
    ∃ r, find pages (some live) = .ok r ∧ r.Pairwise (· < ·) ∧ ∀ i, i ∈ r ↔ Spec.Lost b pages live i := by
  obtain ⟨r, hr, hs, hi⟩ := findLoop_spec pages live (candidates pages) fun i h => (mem_candidates.1 h).2
  refine ⟨r, hr, ?_, ?_⟩
  · refine List.Pairwise.sublist hs ?_
    unfold candidates
    exact List.pairwise_lt_range' 1
  · intro i
    have key : (∀ o ∈ live, o.block ≠ i) ↔ (⟨b, i⟩ : Live) ∉ live := by
      constructor
      · intro h hm
        exact h _ hm rfl
      · rintro h o ho rfl
        have := hb o ho
        subst this
        exact h ho
    constructor
    · intro h
      have hc := hs.subset h
      obtain ⟨h1, h2⟩ := (hi i hc).1 h
      exact ⟨(mem_candidates.1 hc).1, h1, key.1 h2⟩
    · rintro ⟨h1, h2, h3⟩
      have hlt : i < pages.length := by
        obtain ⟨rest, h⟩ := h2
        rcases Nat.lt_or_ge i pages.length with h' | h'
        · exact h'
        · rw [List.getElem?_eq_none h'] at h
          cases h
      exact (hi i (mem_candidates.2 ⟨h1, hlt⟩)).2 ⟨h2, key.2 h3⟩

/-- **Negation of C87: another database.** A lost object is not reported while any other open database has an open object with the same page
number. -/
theorem foreign_hides (pages : List Bytes) (live : List Live) (i c : Nat) (hc : ⟨c, i⟩ ∈ live) :
    ∃ r, find pages (some live) = .ok r ∧ i ∉ r := by
  obtain ⟨r, hr, hs, hi⟩ := findLoop_spec pages live (candidates pages) fun i h => (mem_candidates.1 h).2
  refine ⟨r, hr, fun h => ?_⟩
  exact ((hi i (hs.subset h)).1 h).2 _ hc rfl

/-! ## Saving -/

theorem copyRoot_ok (p : Bytes) : ∀ (n off : Nat), off + 4 * n ≤ p.length → ∃ l, copyRoot p off n = .ok l
  | 0, _, _ => ⟨[], rfl⟩
  | n + 1, off, h => by
    obtain ⟨l, hl⟩ := copyRoot_ok p n (off + 4) (by omega)
    have : ∃ v, rd32 p off = .ok v := by
      unfold rd32
      rw [List.getElem?_eq_getElem (show off < p.length by omega), List.getElem?_eq_getElem (show off + 1 < p.length by omega),
        List.getElem?_eq_getElem (show off + 2 < p.length by omega), List.getElem?_eq_getElem (show off + 3 < p.length by omega)]
      exact ⟨_, rfl⟩
    obtain ⟨v, hv⟩ := this
    exact ⟨v :: l, by rw [copyRoot, hv]; simp only [Outcome.ok_bind]; rw [hl]; rfl⟩

theorem rd32_word (p : Bytes) (off v : Nat) (h : Object.Spec.word p off = some v) : rd32 p off = .ok v := by
  unfold Object.Spec.word at h
  simp only [Option.bind_eq_bind, Option.bind_eq_some_iff] at h
  obtain ⟨a, ha, b, hb, c, hc, d, hd, h⟩ := h
  unfold rd32
  rw [ha, hb, hc, hd]
  simp at h
  exact congrArg _ h

theorem init_contents {pages : List Bytes} {i : Nat} {bs : Bytes} (hi : i ≠ 1) (hm : Spec.Marked pages i) (hc : Spec.Contents80 pages i bs) :
    ∃ o, init pages 4096 false i = .ok o ∧ o.len = bs.length ∧ o.kind = .data80 := by
  obtain ⟨⟨p, hp, hl, hw⟩, hb, _⟩ := hc
  have hs : p.take 8 = sigObj := by
    obtain ⟨rest, h⟩ := hm
    rw [hp] at h
    rw [Option.some.inj h, word_sig]
    rfl
  have rd : ∀ off, off + 4 ≤ p.length → ∃ v, rd32 p off = .ok v := by
    intro off h
    unfold rd32
    rw [List.getElem?_eq_getElem (show off < p.length by omega), List.getElem?_eq_getElem (show off + 1 < p.length by omega),
      List.getElem?_eq_getElem (show off + 2 < p.length by omega), List.getElem?_eq_getElem (show off + 3 < p.length by omega)]
    exact ⟨_, rfl⟩
  obtain ⟨v1, h1⟩ := rd 12 (by omega)
  obtain ⟨v2, h2⟩ := rd 16 (by omega)
  have hnb : roundUp bs.length 0x3ff000 ≤ 1018 := by
    unfold roundUp
    split
    · omega
    · have : (bs.length - 1) / 0x3ff000 < 1018 := Nat.div_lt_of_lt_mul (by omega)
      omega
  obtain ⟨l, hl'⟩ := copyRoot_ok p (roundUp bs.length 0x3ff000) 24 (by omega)
  refine ⟨_, by
    unfold init getPage
    rw [hp]
    simp only [Outcome.ok_bind]
    rw [if_pos trivial, if_neg (fun h => h hs), rd32_word _ _ _ hw]
    simp only [Outcome.ok_bind]
    rw [h1]
    simp only [Outcome.ok_bind]
    rw [h2]
    simp only [Outcome.ok_bind]
    rw [if_neg hi, hl']
    rfl, rfl, rfl⟩

theorem writeLoop_save {pages : List Bytes} {P : Nat} {o : Obj} : ∀ {n off rem : Nat} {bs : Bytes},
    Object.saveLoop pages P o n off rem = .ok bs → writeLoop pages P o n off rem = (bs, .ok ())
  | 0, _, _, bs, h => by
    cases h
    rfl
  | n + 1, off, rem, bs, h => by
    rw [Object.saveLoop] at h
    cases hg : getPart pages P o off (min rem P) with
    | throw => rw [hg] at h; cases h
    | ub => rw [hg] at h; cases h
    | ok b =>
      rw [hg] at h
      simp only [Outcome.ok_bind] at h
      cases hr : Object.saveLoop pages P o n (off + P) (rem - P) with
      | throw => rw [hr] at h; cases h
      | ub => rw [hr] at h; cases h
      | ok r =>
        rw [hr] at h
        cases h
        rw [writeLoop, hg]
        simp only
        rw [writeLoop_save hr]

theorem fileName_inj {dir : Bytes} {i j : Nat} (h : fileName dir i = fileName dir j) : i = j := by
  unfold fileName at h
  have := List.append_cancel_left h
  have hj := App.decimal_toString j
  rw [← this] at hj
  exact App.decimal_unique (App.decimal_toString i) hj

theorem saveOne_80 {creatable : Bytes → Bool} {pages : List Bytes} {dir : Bytes} {i : Nat} {bs : Bytes} (s : State) (hi : i ≠ 1)
    (hm : Spec.Marked pages i) (hc : Spec.Contents80 pages i bs) :
    saveOne creatable pages 4096 false dir i s =
      ({ s with disk := if creatable (fileName dir i) then fun q => if q = fileName dir i then some bs else s.disk q else s.disk }, .ok ()) := by
  obtain ⟨o, ho, hl, hk⟩ := init_contents hi hm hc
  have hs := save_to_file_80 pages i o hi ho bs hl.symm hc.2.2
  unfold saveOne
  rw [ho]
  simp only [writeTo]
  unfold saveToFile at hs
  rw [writeLoop_save hs]

theorem saveLoop_80 (creatable : Bytes → Bool) (pages : List Bytes) (dir : Bytes) (live : List Live)
    (content : Nat → Bytes) : ∀ (is : List Nat) (d : Disk), is.Nodup → (∀ i ∈ is, i < pages.length) →
      (∀ i ∈ is, Spec.Marked pages i → (∀ o ∈ live, o.block ≠ i) → i ≠ 1 ∧ Spec.Contents80 pages i (content i)) →
    ∃ d', saveLoop creatable pages 4096 false dir is ⟨d, some live⟩ = (⟨d', some live⟩, .ok ()) ∧
      (∀ i ∈ is, Spec.Marked pages i → (∀ o ∈ live, o.block ≠ i) → creatable (fileName dir i) = true →
        d' (fileName dir i) = some (content i)) ∧
      (∀ q, (∀ i ∈ is, Spec.Marked pages i → (∀ o ∈ live, o.block ≠ i) → creatable q = true → q ≠ fileName dir i) → d' q = d q)
  | [], d, _, _, _ => ⟨d, rfl, by simp, fun _ _ => rfl⟩
  | i :: is, d, hnd, hlt, hc => by
    obtain ⟨hni, hnd⟩ := List.nodup_cons.1 hnd
    obtain ⟨b, hb, hbi⟩ := isLost_iff (live := live) (hlt i (List.mem_cons_self ..))
    rw [saveLoop, hb]
    cases b with
    | false =>
      simp only
      obtain ⟨d', e, h1, h2⟩ := saveLoop_80 creatable pages dir live content is d hnd (fun j hj => hlt j (List.mem_cons_of_mem _ hj))
        fun j hj => hc j (List.mem_cons_of_mem _ hj)
      refine ⟨d', e, ?_, fun q hq => h2 q fun j hj => hq j (List.mem_cons_of_mem _ hj)⟩
      intro j hj hm ho
      rcases List.mem_cons.1 hj with rfl | hj
      · cases hbi.2 ⟨hm, ho⟩
      · exact h1 j hj hm ho
    | true =>
      obtain ⟨hm, ho⟩ := hbi.1 rfl
      obtain ⟨h1i, hci⟩ := hc i (List.mem_cons_self ..) hm ho
      simp only
      rw [saveOne_80 _ h1i hm hci]
      simp only
      obtain ⟨d', e, h1, h2⟩ := saveLoop_80 creatable pages dir live content is
        (if creatable (fileName dir i) then fun q => if q = fileName dir i then some (content i) else d q else d) hnd
        (fun j hj => hlt j (List.mem_cons_of_mem _ hj)) fun j hj => hc j (List.mem_cons_of_mem _ hj)
      refine ⟨d', e, ?_, ?_⟩
      · intro j hj hmj hoj hcr
        rcases List.mem_cons.1 hj with rfl | hj
        · rw [h2 _ fun k hk _ _ _ h => hni (by rw [fileName_inj h]; exact hk), if_pos hcr, if_pos rfl]
        · exact h1 j hj hmj hoj hcr
      · intro q hq
        rw [h2 q fun j hj => hq j (List.mem_cons_of_mem _ hj)]
        split
        · rename_i hcr
          by_cases e : q = fileName dir i
          · subst e
            exact absurd rfl (hq i (List.mem_cons_self ..) hm ho hcr)
          · exact if_neg e
        · rfl

theorem range'_nodup (s n : Nat) : (List.range' s n).Nodup := List.nodup_range'

/-- **C87: what is saved.** Every lost object that can be read is in its file, under the number of its page, and no other file is changed.
Partial: format 8.0, one database, all lost objects can be read, the page of the free list is not among them (it is always open). -/
theorem save_partial (creatable : Bytes → Bool) (b : Nat) (pages : List Bytes) (dir : Bytes) (live : List Live) (d : Disk) (content : Nat → Bytes)
    (hb : ∀ o ∈ live, o.base = b) (hfree : ⟨b, 1⟩ ∈ live)
    (hc : ∀ i, Spec.Lost b pages live i → Spec.Contents80 pages i (content i) ∧ creatable (fileName dir i) = true) :
    ∃ d', save creatable pages 4096 false dir ⟨d, some live⟩ = (⟨d', some live⟩, .ok ()) ∧
      (∀ i, Spec.Lost b pages live i → d' (fileName dir i) = some (content i)) ∧
      (∀ q, (∀ i, Spec.Lost b pages live i → q ≠ fileName dir i) → d' q = d q) := by
  have key : ∀ i, (∀ o ∈ live, o.block ≠ i) ↔ (⟨b, i⟩ : Live) ∉ live := by
    intro i
    constructor
    · intro h hm
      exact h _ hm rfl
    · rintro h o ho rfl
      have := hb o ho
      subst this
      exact h ho
  obtain ⟨d', e, h1, h2⟩ := saveLoop_80 creatable pages dir live content (candidates pages) d
    (by unfold candidates; exact range'_nodup _ _) (fun i h => (mem_candidates.1 h).2) (by
      intro i hi hm ho
      refine ⟨?_, (hc i ⟨(mem_candidates.1 hi).1, hm, (key i).1 ho⟩).1⟩
      rintro rfl
      exact ho _ hfree rfl)
  refine ⟨d', e, ?_, ?_⟩
  · intro i hi
    obtain ⟨p1, hm, ho⟩ := hi
    have hlt : i < pages.length := by
      obtain ⟨rest, h⟩ := hm
      rcases Nat.lt_or_ge i pages.length with h' | h'
      · exact h'
      · rw [List.getElem?_eq_none h'] at h
        cases h
    exact h1 i (mem_candidates.2 ⟨p1, hlt⟩) hm ((key i).2 ho) (hc i ⟨p1, hm, ho⟩).2
  · intro q hq
    exact h2 q fun i hi hm ho _ => hq i ⟨(mem_candidates.1 hi).1, hm, (key i).1 ho⟩

/-- The name of the file of an object: the directory's name, `block`, and the decimal number of the page. -/
theorem fileName_eq (dir : Bytes) (i : Nat) : ∃ n, fileName dir i = dir ++ App.Spec.word "block" ++ n ∧ App.Spec.Decimal n i :=
  ⟨_, rfl, App.decimal_toString i⟩

/-- **Negation of C87: the directory.** Unless the name of the directory ends with a slash, no file is in it. -/
theorem beside (dir : Bytes) (i : Nat) (hd : dir ≠ []) (h : dir.getLast? ≠ some 47) : ¬ Spec.InDir dir (fileName dir i) := by
  rintro ⟨leaf, (⟨_, _, h1⟩ | ⟨h1 | h1, _⟩), _⟩
  · unfold fileName at h1
    rw [List.append_assoc, List.append_assoc] at h1
    have := List.append_cancel_left h1
    have h2 := congrArg List.head? this
    exact absurd h2 (by rw [List.singleton_append]; exact (by decide : (some 98 : Option UInt8) ≠ some 47))
  · exact hd h1
  · exact h h1

/-- **Negation of C87: damage.** An object that cannot be read ends the search: what lies behind it is not saved, and an exception leaves the
function. -/
theorem damaged_stops (creatable : Bytes → Bool) (pages : List Bytes) (P : Nat) (is838 : Bool) (dir : Bytes) (pre post : List Nat) (i : Nat)
    (s s1 s2 : State) (hpre : saveLoop creatable pages P is838 dir pre s = (s1, .ok ())) (hi : isLost pages s1.registry i = .ok true)
    (hd : saveOne creatable pages P is838 dir i s1 = (s2, .throw)) :
    saveLoop creatable pages P is838 dir (pre ++ i :: post) s = (s2, .throw) := by
  induction pre generalizing s with
  | nil =>
    cases hpre
    rw [List.nil_append, saveLoop, hi]
    simp only [hd]
  | cons a pre ih =>
    rw [List.cons_append, saveLoop]
    rw [saveLoop] at hpre
    cases ha : isLost pages s.registry a with
    | throw => rw [ha] at hpre; cases hpre
    | ub => rw [ha] at hpre; cases hpre
    | ok c =>
      rw [ha] at hpre
      cases c with
      | false =>
        simp only at hpre ⊢
        exact ih _ hpre
      | true =>
        simp only at hpre ⊢
        generalize hso : saveOne creatable pages P is838 dir a s = r at hpre ⊢
        obtain ⟨s', r⟩ := r
        cases r with
        | ok u => exact ih _ hpre
        | throw => cases hpre
        | ub => cases hpre

/-! ## Format 8.3.8 -/

theorem init_838_throw {pages : List Bytes} {P i : Nat} (hm : Spec.Marked pages i) : init pages P true i = .throw := by
  obtain ⟨rest, h⟩ := hm
  rw [word_sig] at h
  unfold init getPage
  rw [h]
  simp only [Outcome.ok_bind]
  rw [if_neg (by simp)]
  by_cases h1 : i = 1
  · rw [if_pos h1, if_pos (by simp [sigObj])]
  · rw [if_neg h1, if_pos (by simp [sigObj])]

/-- **Negation of C87: format 8.3.8.** No object of format 8.3.8 is ever reported: their headers begin otherwise. -/
theorem none_838 (pages : List Bytes) (live : List Live) (i : Nat) (rest : Bytes) (h : pages[i]? = some (0x1c :: 0xfd :: rest)) :
    ∃ r, find pages (some live) = .ok r ∧ i ∉ r := by
  obtain ⟨r, hr, hs, hi⟩ := findLoop_spec pages live (candidates pages) fun i h => (mem_candidates.1 h).2
  refine ⟨r, hr, fun hm => ?_⟩
  obtain ⟨⟨rest', h'⟩, _⟩ := (hi i (hs.subset hm)).1 hm
  rw [h, word_sig] at h'
  have := congrArg List.head? (Option.some.inj h')
  exact absurd this (by simp [sigObj])

/-- **Negation of C87: format 8.3.8.** Nothing is saved, whatever the database holds. -/
theorem nothing_saved_838 (creatable : Bytes → Bool) (pages : List Bytes) (P : Nat) (dir : Bytes) (s : State) :
    (save creatable pages P true dir s).1.disk = s.disk := by
  unfold save
  generalize candidates pages = is
  induction is generalizing s with
  | nil => rfl
  | cons i is ih =>
    rw [saveLoop]
    cases ha : isLost pages s.registry i with
    | throw => rfl
    | ub => rfl
    | ok c =>
      cases c with
      | false => exact ih s
      | true =>
        have hm : Spec.Marked pages i := by
          unfold isLost at ha
          cases hp : getPage pages i with
          | throw => rw [hp] at ha; cases ha
          | ub => rw [hp] at ha; cases ha
          | ok p =>
            rw [hp] at ha
            simp only [Outcome.ok_bind] at ha
            split at ha
            · rename_i hs
              unfold getPage at hp
              split at hp
              · rename_i q hq
                cases hp
                exact ⟨p.drop 8, by rw [hq, word_sig, ← hs, List.take_append_drop]⟩
              · cases hp
            · cases ha
        simp only
        unfold saveOne
        rw [init_838_throw hm]

/-- **Negation of C87: format 8.3.8.** A page of data that begins with the mark of the older format ends the search with an exception, and the next
search runs through memory given back. -/
theorem mark_838_ub (creatable : Bytes → Bool) (pages : List Bytes) (P : Nat) (dir : Bytes) (live : List Live) (d : Disk) (i : Nat)
    (hi : 0 < i) (hm : Spec.Marked pages i) (ho : ∀ o ∈ live, o.block ≠ i) :
    ∃ s, save creatable pages P true dir ⟨d, some live⟩ = (s, .throw) ∧ (save creatable pages P true dir s).2 = .ub := by
  have hlt : i < pages.length := by
    obtain ⟨rest, h⟩ := hm
    rcases Nat.lt_or_ge i pages.length with h' | h'
    · exact h'
    · rw [List.getElem?_eq_none h'] at h
      cases h
  have first : ∀ is : List Nat, i ∈ is → (∀ j ∈ is, j < pages.length) →
      saveLoop creatable pages P true dir is ⟨d, some live⟩ = (⟨d, none⟩, .throw) := by
    intro is
    induction is with
    | nil => intro h; cases h
    | cons a is ih =>
      intro hin hl
      obtain ⟨b, hb, hbi⟩ := isLost_iff (live := live) (hl a (List.mem_cons_self ..))
      rw [saveLoop, hb]
      cases b with
      | true =>
        simp only
        unfold saveOne
        rw [init_838_throw (hbi.1 rfl).1]
      | false =>
        simp only
        refine ih ?_ fun j hj => hl j (List.mem_cons_of_mem _ hj)
        rcases List.mem_cons.1 hin with rfl | h
        · cases hbi.2 ⟨hm, ho⟩
        · exact h
  have second : ∀ is : List Nat, i ∈ is → (∀ j ∈ is, j < pages.length) →
      (saveLoop creatable pages P true dir is ⟨d, none⟩).2 = .ub := by
    intro is
    induction is with
    | nil => intro h; cases h
    | cons a is ih =>
      intro hin hl
      have hal := hl a (List.mem_cons_self ..)
      have hp : getPage pages a = .ok pages[a] := by
        unfold getPage
        rw [List.getElem?_eq_getElem hal]
      rw [saveLoop]
      unfold isLost
      rw [hp]
      simp only [Outcome.ok_bind]
      by_cases hs : (pages[a]).take 8 = sigObj
      · rw [if_pos hs]
        rfl
      · rw [if_neg hs]
        simp only
        refine ih ?_ fun j hj => hl j (List.mem_cons_of_mem _ hj)
        rcases List.mem_cons.1 hin with rfl | h
        · obtain ⟨rest, h⟩ := hm
          rw [List.getElem?_eq_getElem hlt] at h
          rw [Option.some.inj h, word_sig] at hs
          exact absurd rfl hs
        · exact h
  exact ⟨⟨d, none⟩, first _ (mem_candidates.2 ⟨hi, hlt⟩) fun j hj => (mem_candidates.1 hj).2,
    second _ (mem_candidates.2 ⟨hi, hlt⟩) fun j hj => (mem_candidates.1 hj).2⟩

/-! ## Non-vacuity -/

/-- Pages 0 and 1, an open object on page 2, lost ones on pages 4 (with contents `7 8 9`) and 7 (empty). -/
def exPages : List Bytes :=
  [[], sigObj, sigObj, [],
   sigObj ++ [3, 0, 0, 0] ++ List.replicate 12 0 ++ [5, 0, 0, 0] ++ List.replicate 4068 0,
   [1, 0, 0, 0, 6, 0, 0, 0], [7, 8, 9, 0], sigObj ++ List.replicate 4088 0]

def exLive : List Live := [⟨0, 1⟩, ⟨0, 2⟩]

def exContent : Nat → Bytes := fun i => if i = 4 then [7, 8, 9] else []

theorem exLost {i : Nat} (h : Spec.Lost 0 exPages exLive i) : i = 4 ∨ i = 7 := by
  obtain ⟨h0, ⟨rest, hm⟩, ho⟩ := h
  match i, h0, hm, ho with
  | 1, _, _, ho => exact absurd (by decide) ho
  | 2, _, _, ho => exact absurd (by decide) ho
  | 3, _, hm, _ => cases hm
  | 4, _, _, _ => exact Or.inl rfl
  | 5, _, hm, _ => rw [word_sig] at hm; cases hm
  | 6, _, hm, _ => rw [word_sig] at hm; cases hm
  | 7, _, _, _ => exact Or.inr rfl
  | n + 8, _, hm, _ => cases hm

example : Spec.Lost 0 exPages exLive 4 := ⟨by decide, ⟨_, by rw [word_sig]; rfl⟩, by decide⟩

theorem exContents (i : Nat) (h : i = 4 ∨ i = 7) : Spec.Contents80 exPages i (exContent i) := by
  rcases h with rfl | rfl
  · refine ⟨⟨_, rfl, by decide +kernel, by decide +kernel⟩, by decide, ?_⟩
    unfold Object.Spec.Holds
    decide +kernel
  · exact ⟨⟨_, rfl, by decide +kernel, by decide +kernel⟩, by decide, fun i hi => absurd hi (by simp [exContent])⟩

/-- Both are saved, beside the directory `out`. -/
example : ∃ d', save (fun _ => true) exPages 4096 false (App.Spec.word "out") ⟨fun _ => none, some exLive⟩ = (⟨d', some exLive⟩, .ok ()) ∧
    d' (App.Spec.word "outblock4") = some [7, 8, 9] ∧ d' (App.Spec.word "outblock7") = some [] := by
  obtain ⟨d', e, h1, _⟩ := save_partial (fun _ => true) 0 exPages (App.Spec.word "out") exLive (fun _ => none) exContent (by decide) (by decide)
    fun i hi => ⟨exContents i (exLost hi), rfl⟩
  refine ⟨d', e, ?_, ?_⟩
  · have := h1 4 ⟨by decide, ⟨_, by rw [word_sig]; rfl⟩, by decide⟩
    exact this
  · have := h1 7 ⟨by decide, ⟨_, by rw [word_sig]; rfl⟩, by decide⟩
    exact this

example : find exPages (some exLive) = .ok [4, 7] := by decide +kernel
example : find exPages (some (⟨1, 4⟩ :: exLive)) = .ok [7] := by decide +kernel

/-- The table of the object on page 4 names a page that is not there: page 7 is not saved. -/
example : ∃ s, save (fun _ => true) (exPages.set 5 [1, 0, 0, 0, 99, 0, 0, 0]) 4096 false (App.Spec.word "out") ⟨fun _ => none, some exLive⟩ =
    (s, .throw) ∧ s.disk (App.Spec.word "outblock4") = some [] ∧ s.disk (App.Spec.word "outblock7") = none := by
  refine ⟨_, Prod.ext rfl (by decide +kernel), by decide +kernel, by decide +kernel⟩

end Verif.Lost
