import Verif.Depot.PartLemmas

/-! # C82: exporting what changed between two versions of a depot -/

namespace Verif.Depot.Part
open Verif Verif.Depot.Part.Spec

/-! ## Helper lemmas -/

theorem objectFile_spec (E : Env) (text : Bytes → Option Bytes → Bytes) (b : Option Hist) (r : Hist) (o : Out) (hr : r.removed = false) (dt : Option Hist) (hd1 : r.packed = true → dt = some r) (hd2 : r.packed = false → dt = none)
    (hf : Fresh E b (some r)) (ht : r.packed = true → ∃ d, Stored E r.data r.hash d ∧ E.inflate d = (text r.hash r.data, true)) :
    ∃ bf, objectFile E b r o = .ok { o with items := o.items ++ objectItems text b (some r) dt, buf := bf } := by
  unfold objectFile objectItems
  by_cases hp : r.packed = true
  · rw [if_pos hp]
    rw [hd1 hp]
    simp only [hr]
    obtain ⟨d, hd, hi⟩ := ht hp
    obtain ⟨bf, hb⟩ := dataOf_stored E o.buf r.data r.hash d hd
    have written : ∀ c : Bool × Bool, c = (true, false) → changed E o.buf b r = .ok c →
        (do
          let c ← changed E o.buf b r
          if c.1 then do
            let d ← if c.2 then .ok (o.buf, o.buf) else dataOf E o.buf r.data r.hash
            let r' := E.inflate d.1
            if r'.2 then .ok { o with items := o.items ++ [.object r.obj r'.1], buf := d.2 } else .throw
          else .ok o : Outcome Out) = .ok { o with items := o.items ++ [.object r.obj (text r.hash r.data)], buf := bf } := by
      intro c hc e
      rw [e, hc]
      show (dataOf E o.buf r.data r.hash >>= _) = _
      rw [hb]
      show (if (E.inflate d).2 = true then _ else _) = _
      rw [hi]
      rfl
    cases b with
    | none =>
      refine ⟨bf, ?_⟩
      rw [written _ rfl rfl]
      simp
    | some r1 =>
      by_cases h1 : r1.packed = true
      · cases h2 : r1.data with
        | none =>
          refine ⟨bf, ?_⟩
          rw [written (true, false) rfl (by unfold changed; simp [h1, h2])]
          simp [h2]
        | some d1 =>
          obtain ⟨h3, h4⟩ := hf r1 r rfl rfl hr hp h1 (by simp [h2])
          refine ⟨o.buf, ?_⟩
          have : ∃ x, changed E o.buf (some r1) r = .ok (false, x) := by
            unfold changed
            simp only [h1, h2, h3, h4, if_true]
            exact ⟨_, rfl⟩
          obtain ⟨x, hx⟩ := this
          rw [hx]
          simp [h1, h2, h4]
      · refine ⟨bf, ?_⟩
        rw [written (true, false) rfl (by unfold changed; simp [h1])]
        simp [h1]
  · rw [if_neg hp]
    rw [hd2 (by simpa using hp)]
    exact ⟨o.buf, by simp⟩

/-- What one object adds, given its records. -/
def groupItems (text textOf : Bytes → Option Bytes → Bytes) (fold : Bytes → Bytes) (vb ve : Int) (exts : List Ext) (H : List Hist) (o : Nat) : List Item :=
  objectItems text (before vb H o) (within vb ve H o) (dataIn vb ve H o) ++
    match within vb ve H o with
    | none => []
    | some r => if r.removed then [] else fileItems textOf fold vb exts o r.ver

def groupGone (vb ve : Int) (exts : List Ext) (H : List Hist) (o : Nat) : List Gone :=
  match within vb ve H o, before vb H o with
  | some r, some _ => if r.removed then .object o :: (exts.filter (fun e => e.obj = o ∧ e.ver = r.ver)).map (fun e => .file e.name) else []
  | _, _ => []

theorem within_mem {vb ve : Int} {H : List Hist} {o : Nat} {r : Hist} (h : within vb ve H o = some r) : r ∈ H ∧ r.obj = o ∧ vb ≤ r.ver ∧ r.ver ≤ ve := by
  unfold within at h
  have := List.mem_of_getLast? h
  rw [List.mem_filter] at this
  simpa using this

theorem files_all (E : Env) (text : Bytes → Option Bytes → Bytes) (vb v : Int) (cur : Nat) (exts seen rest : List Ext) (hex : exts = seen.reverse ++ rest) (hs : ∀ x ∈ seen, x.obj < cur) :
    (rest.zipIdx seen.length).flatMap (extSpec text E vb exts cur v) = fileItems text E.fold vb exts cur v := by
  have e : fileItems text E.fold vb exts cur v = exts.zipIdx.flatMap (extSpec text E vb exts cur v) := rfl
  have h2 : exts.zipIdx = seen.reverse.zipIdx ++ rest.zipIdx seen.length := by
    rw [hex, List.zipIdx_append]
    simp
  rw [e, h2, List.flatMap_append]
  have : seen.reverse.zipIdx.flatMap (extSpec text E vb exts cur v) = [] := by
    rw [List.flatMap_eq_nil_iff]
    intro p hp
    have hp1 : p.1 ∈ seen.reverse := by
      have := List.mem_map_of_mem (f := Prod.fst) hp
      rwa [List.zipIdx_map_fst] at this
    have := hs p.1 (List.mem_reverse.1 hp1)
    unfold extSpec
    rw [if_neg]
    rintro ⟨h, _⟩
    omega
  rw [this, List.nil_append]

theorem dataIn_last {vb ve : Int} {H : List Hist} {o : Nat} {r : Hist} (h : within vb ve H o = some r) (hp : r.packed = true) : dataIn vb ve H o = some r := by
  unfold within at h
  unfold dataIn
  have e : H.filter (fun h => h.obj = o ∧ (vb ≤ h.ver ∧ h.ver ≤ ve) ∧ h.packed = true) =
      (H.filter (fun h => h.obj = o ∧ vb ≤ h.ver ∧ h.ver ≤ ve)).filter (fun h => h.packed) := by
    rw [List.filter_filter]
    congr 1
    funext h
    simp [and_assoc, Bool.and_comm, Bool.and_left_comm]
  rw [e]
  obtain ⟨l, hl⟩ := List.getLast?_eq_some_iff.1 h
  rw [hl, List.filter_append]
  simp [hp]

theorem dataIn_local (vb ve : Int) (H : List Hist) (o : Nat) : dataIn vb ve (H.filter (fun h => h.obj = o)) o = dataIn vb ve H o := by
  unfold dataIn
  rw [List.filter_filter]
  congr 2
  funext h
  by_cases e : h.obj = o <;> simp [e]

/-- The end of an object: `p` are its records. -/
theorem emit_spec (E : Env) (text textOf : Bytes → Option Bytes → Bytes) (vb ve : Int) (hist p : List Hist) (exts : List Ext) (hg : Good E text textOf hist exts)
    (st : St) (hp : ∀ h ∈ p, h ∈ hist) (h1 : st.rech1 = before vb p st.cur) (h2 : st.rech2 = within vb ve p st.cur) (hf : Fresh E st.rech1 st.rech2)
    (hse : Settled st.rech2 (dataIn vb ve p st.cur))
    (hex : exts = st.seen.reverse ++ st.rest) (hs : ∀ x ∈ st.seen, x.obj < st.cur) :
    ∃ st', emit E vb st = .ok st' ∧ st'.out.items = st.out.items ++ groupItems text textOf E.fold vb ve exts p st.cur ∧
      st'.out.gone = st.out.gone ++ groupGone vb ve exts p st.cur ∧ exts = st'.seen.reverse ++ st'.rest ∧ ∀ x ∈ st'.seen, x.obj ≤ st.cur := by
  unfold emit groupItems groupGone
  rw [← h1, ← h2]
  cases hw : st.rech2 with
  | none => exact ⟨st, rfl, by simp [objectItems], by simp, hex, fun x hx => Nat.le_of_lt (hs x hx)⟩
  | some r =>
    rw [hw] at h2
    obtain ⟨hm, ho, hv1, hv2⟩ := within_mem h2.symm
    dsimp only
    by_cases hr : r.removed = true
    · rw [if_pos hr]
      cases hb : st.rech1 with
      | none =>
        refine ⟨st, by rw [if_neg (by simp)], ?_, ?_, hex, fun x hx => Nat.le_of_lt (hs x hx)⟩
        · cases dataIn vb ve p st.cur <;> simp [objectItems, hr]
        · simp
      | some b =>
        rw [if_pos (by simp)]
        obtain ⟨s', r', h3, h4, h5⟩ := takeExts_gone E vb r.ver st.cur exts hg.order st.rest st.seen { st.out with gone := st.out.gone ++ [.object r.obj] } hex (fun x hx => Nat.le_of_lt (hs x hx))
        rw [h3]
        refine ⟨_, rfl, ?_, ?_, h4, h5⟩
        · cases dataIn vb ve p st.cur <;> simp [objectItems, hr]
        · simp only [hr, if_true, ho]
          have : exts.filter (fun e => e.obj = st.cur ∧ e.ver = r.ver) = st.rest.filter (fun e => e.obj = st.cur ∧ e.ver = r.ver) := by
            rw [hex, List.filter_append]
            have : st.seen.reverse.filter (fun e => e.obj = st.cur ∧ e.ver = r.ver) = [] := by
              rw [List.filter_eq_nil_iff]
              intro x hx
              have := hs x (List.mem_reverse.1 hx)
              simp
              omega
            rw [this, List.nil_append]
          rw [this]
          simp
    · rw [if_neg hr]
      have hr' : r.removed = false := by simpa using hr
      rw [hw] at hf hse
      obtain ⟨bf, h3⟩ := objectFile_spec E text st.rech1 r st.out hr' (dataIn vb ve p st.cur) (fun h => dataIn_last h2.symm h) (fun h => hse r rfl hr' h) hf (hg.objects r (hp r hm) hr')
      rw [h3]
      obtain ⟨s', r', b', h4, h5, h6⟩ := takeExts_files E textOf vb r.ver st.cur exts hg.order hv1 hg.files st.rest st.seen
        { st.out with items := st.out.items ++ objectItems text st.rech1 (some r) (dataIn vb ve p st.cur), buf := bf } hex (fun x hx => Nat.le_of_lt (hs x hx))
      rw [files_all E textOf vb r.ver st.cur exts st.seen st.rest hex hs] at h4
      dsimp only at h4
      refine ⟨⟨st.cur, st.rech1, some r, s', r', ⟨st.out.items ++ objectItems text st.rech1 (some r) (dataIn vb ve p st.cur) ++ fileItems textOf E.fold vb exts st.cur r.ver, st.out.gone, b'⟩⟩, ?_, ?_, ?_, h5, h6⟩
      · show (takeExts E vb r.ver st.cur false st.seen st.rest _ >>= _) = _
        rw [h4]
        rfl
      · show _ ++ _ = _
        rw [hr', List.append_assoc]
        rfl
      · show st.out.gone = _
        cases st.rech1 <;> simp [hr']

theorem before_snoc (vb : Int) (p : List Hist) (h : Hist) : before vb (p ++ [h]) h.obj = if h.ver < vb then some h else before vb p h.obj := by
  unfold before
  rw [List.filter_append]
  by_cases e : h.ver < vb <;> simp [e]

theorem within_snoc (vb ve : Int) (p : List Hist) (h : Hist) : within vb ve (p ++ [h]) h.obj = if vb ≤ h.ver ∧ h.ver ≤ ve then some h else within vb ve p h.obj := by
  unfold within
  rw [List.filter_append]
  by_cases e : vb ≤ h.ver ∧ h.ver ≤ ve
  · simp [e]
  · simp [e]

theorem look_spec (vb ve : Int) (p : List Hist) (h : Hist) (st : St) (hc : h.obj = st.cur) (h1 : st.rech1 = before vb p st.cur) (h2 : st.rech2 = within vb ve p st.cur) :
    (look vb ve h st).rech1 = before vb (p ++ [h]) st.cur ∧ (look vb ve h st).rech2 = within vb ve (p ++ [h]) st.cur ∧
      (look vb ve h st).cur = st.cur ∧ (look vb ve h st).seen = st.seen ∧ (look vb ve h st).rest = st.rest ∧ (look vb ve h st).out = st.out := by
  rw [← hc] at h1 h2 ⊢
  rw [before_snoc, within_snoc]
  unfold look
  by_cases a : h.ver < vb
  · rw [if_pos a, if_pos a, if_neg (by omega)]
    exact ⟨rfl, h2, hc.symm, rfl, rfl, rfl⟩
  · rw [if_neg a, if_neg a]
    by_cases b : h.ver ≤ ve
    · rw [if_pos b, if_pos ⟨by omega, b⟩]
      exact ⟨h1, rfl, hc.symm, rfl, rfl, rfl⟩
    · rw [if_neg b, if_neg (by omega)]
      exact ⟨h1, h2, hc.symm, rfl, rfl, rfl⟩

theorem groupItems_local (text textOf : Bytes → Option Bytes → Bytes) (fold : Bytes → Bytes) (vb ve : Int) (exts : List Ext) (H : List Hist) (o : Nat) :
    groupItems text textOf fold vb ve exts H o = groupItems text textOf fold vb ve exts (H.filter (fun h => h.obj = o)) o := by
  unfold groupItems
  rw [before_local, within_local, dataIn_local]

theorem groupGone_local (vb ve : Int) (exts : List Ext) (H : List Hist) (o : Nat) :
    groupGone vb ve exts H o = groupGone vb ve exts (H.filter (fun h => h.obj = o)) o := by
  unfold groupGone
  rw [before_local, within_local]

theorem loop_spec (E : Env) (text textOf : Bytes → Option Bytes → Bytes) (vb ve : Int) (hist : List Hist) (exts : List Ext) (hg : Good E text textOf hist exts)
    (hf : ∀ o, Fresh E (before vb hist o) (within vb ve hist o)) (hst : ∀ o, Settled (within vb ve hist o) (dataIn vb ve hist o)) : ∀ (todo don p : List Hist) (st : St), hist = don ++ p ++ todo →
      HistOrder todo → (∀ h ∈ todo, st.cur ≤ h.obj) → (∀ h ∈ p, h.obj = st.cur) → (p ≠ [] → ∀ h ∈ don, h.obj < st.cur) → (p = [] → don = []) →
      st.rech1 = before vb p st.cur → st.rech2 = within vb ve p st.cur →
      exts = st.seen.reverse ++ st.rest → (∀ x ∈ st.seen, x.obj < st.cur) →
      ∃ st', loop E vb ve todo st = .ok st' ∧ st'.out.items = st.out.items ++ total (groupItems text textOf E.fold vb ve exts) (p ++ todo) ∧
        st'.out.gone = st.out.gone ++ total (groupGone vb ve exts) (p ++ todo) := by
  intro todo
  induction todo with
  | nil =>
    intro don p st hh _ _ hp hd hd0 h1 h2 hex hs
    have hmem : ∀ h ∈ p, h ∈ hist := fun h hh' => by rw [hh]; simp [hh']
    have hfr : Fresh E st.rech1 st.rech2 ∧ Settled st.rech2 (dataIn vb ve p st.cur) := by
      by_cases hpe : p = []
      · subst hpe
        rw [h2]
        exact ⟨(fun a b _ hb => by cases hb), fun a ha => by cases ha⟩
      · have e1 : before vb hist st.cur = before vb p st.cur ∧ within vb ve hist st.cur = within vb ve p st.cur ∧ dataIn vb ve hist st.cur = dataIn vb ve p st.cur := by
          have : hist.filter (fun h => h.obj = st.cur) = p.filter (fun h => h.obj = st.cur) := by
            rw [hh, List.append_nil, List.filter_append]
            have : don.filter (fun h => h.obj = st.cur) = [] := by
              rw [List.filter_eq_nil_iff]
              intro x hx
              have := hd hpe x hx
              simp
              omega
            rw [this, List.nil_append]
          rw [← before_local, ← within_local, ← dataIn_local, this, before_local, within_local, dataIn_local]
          exact ⟨rfl, rfl, rfl⟩
        rw [h1, h2, ← e1.1, ← e1.2.1, ← e1.2.2]
        exact ⟨hf st.cur, hst st.cur⟩
    obtain ⟨st', e1, e2, e3, _, _⟩ := emit_spec E text textOf vb ve hist p exts hg st hmem h1 h2 hfr.1 hfr.2 hex hs
    refine ⟨st', e1, ?_, ?_⟩
    · rw [e2, total_split _ (groupItems_local text textOf E.fold vb ve exts) (fun o => rfl) st.cur p [] hp (by simp)]
      simp [total]
    · rw [e3, total_split _ (groupGone_local vb ve exts) (fun o => rfl) st.cur p [] hp (by simp)]
      simp [total]
  | cons h todo ih =>
    intro don p st hh hord hge hp hd hd0 h1 h2 hex hs
    have hord' : HistOrder todo := hord.of_cons
    have hrel : ∀ x ∈ todo, h.obj ≤ x.obj := fun x hx => List.rel_of_pairwise_cons hord hx
    rw [loop, step]
    by_cases hc : h.obj ≠ st.cur
    · rw [if_pos hc]
      have hgt : st.cur < h.obj := by
        have := hge h (by simp)
        omega
      have hmem : ∀ h ∈ p, h ∈ hist := fun h hh' => by rw [hh]; simp [hh']
      have hgt' : ∀ x ∈ h :: todo, x.obj ≠ st.cur := by
        intro x hx
        rcases List.mem_cons.1 hx with rfl | hx
        · exact hc
        · have := hrel x hx
          omega
      have hfr : Fresh E st.rech1 st.rech2 ∧ Settled st.rech2 (dataIn vb ve p st.cur) := by
        by_cases hpe : p = []
        · subst hpe
          rw [h2]
          exact ⟨(fun a b _ hb => by cases hb), fun a ha => by cases ha⟩
        · have e1 : before vb hist st.cur = before vb p st.cur ∧ within vb ve hist st.cur = within vb ve p st.cur ∧ dataIn vb ve hist st.cur = dataIn vb ve p st.cur := by
            have : hist.filter (fun h => h.obj = st.cur) = p.filter (fun h => h.obj = st.cur) := by
              rw [hh, List.filter_append, List.filter_append]
              have a1 : don.filter (fun h => h.obj = st.cur) = [] := by
                rw [List.filter_eq_nil_iff]
                intro x hx
                have := hd hpe x hx
                simp
                omega
              have a2 : (h :: todo).filter (fun h => h.obj = st.cur) = [] := by
                rw [List.filter_eq_nil_iff]
                intro x hx
                simpa using hgt' x hx
              rw [a1, a2, List.nil_append, List.append_nil]
            rw [← before_local, ← within_local, ← dataIn_local, this, before_local, within_local, dataIn_local]
            exact ⟨rfl, rfl, rfl⟩
          rw [h1, h2, ← e1.1, ← e1.2.1, ← e1.2.2]
          exact ⟨hf st.cur, hst st.cur⟩
      obtain ⟨st1, e1, e2, e3, e4, e5⟩ := emit_spec E text textOf vb ve hist p exts hg st hmem h1 h2 hfr.1 hfr.2 hex hs
      rw [e1]
      obtain ⟨l1, l2, l3, l4, l5, l6⟩ := look_spec vb ve [] h { st1 with cur := h.obj, rech1 := none, rech2 := none } rfl rfl rfl
      show ∃ st', loop E vb ve todo (look vb ve h { st1 with cur := h.obj, rech1 := none, rech2 := none }) = _ ∧ _
      have hdon : ∀ x ∈ don ++ p, x.obj < h.obj := by
        intro x hx
        rcases List.mem_append.1 hx with hx | hx
        · by_cases hpe : p = []
          · rw [hd0 hpe] at hx
            simp at hx
          · have := hd hpe x hx
            omega
        · rw [hp x hx]
          exact hgt
      obtain ⟨st', f1, f2, f3⟩ := ih (don ++ p) [h] _ (by rw [hh]; simp) hord' (by rw [l3]; exact hrel) (by rw [l3]; simp)
        (fun _ => by rw [l3]; exact hdon) (fun h => by simp at h) (by rw [l1, l3]; rfl) (by rw [l2, l3]; rfl) (by rw [l4, l5]; exact e4)
        (by
          rw [l3, l4]
          intro x hx
          exact Nat.lt_of_le_of_lt (e5 x hx) hgt)
      refine ⟨st', f1, ?_, ?_⟩
      · rw [f2, l6]
        show st1.out.items ++ _ = _
        rw [e2, total_split _ (groupItems_local text textOf E.fold vb ve exts) (fun o => rfl) st.cur p (h :: todo) hp hgt', List.append_assoc]
        rfl
      · rw [f3, l6]
        show st1.out.gone ++ _ = _
        rw [e3, total_split _ (groupGone_local vb ve exts) (fun o => rfl) st.cur p (h :: todo) hp hgt', List.append_assoc]
        rfl
    · rw [if_neg hc]
      have hc' : h.obj = st.cur := by simpa using hc
      obtain ⟨l1, l2, l3, l4, l5, l6⟩ := look_spec vb ve p h st hc' h1 h2
      show ∃ st', loop E vb ve todo (look vb ve h st) = _ ∧ _
      obtain ⟨st', f1, f2, f3⟩ := ih don (p ++ [h]) (look vb ve h st) (by rw [hh]; simp) hord' (by rw [l3, ← hc']; exact hrel)
        (by
          rw [l3]
          intro x hx
          rcases List.mem_append.1 hx with hx | hx
          · exact hp x hx
          · rw [List.mem_singleton] at hx
            rw [hx, hc'])
        (by
          intro _ x hx
          rw [l3]
          by_cases hpe : p = []
          · rw [hd0 hpe] at hx
            simp at hx
          · exact hd hpe x hx)
        (fun h => by simp at h) (by rw [l1, l3]) (by rw [l2, l3]) (by rw [l4, l5]; exact hex) (by rw [l3, l4]; exact hs)
      refine ⟨st', f1, ?_, ?_⟩
      · rw [f2, l6]; simp
      · rw [f3, l6]; simp

/-! ## The rows of the versions -/

theorem findRow_one (vb ve : Int) (rows : List (Int × Nat)) : findRow vb ve 1 rows = rows.find? (fun r => decide (r.1 = vb ∨ r.1 = ve)) := by
  induction rows with
  | nil => rfl
  | cons r rows ih =>
    rw [findRow, List.find?_cons]
    by_cases h1 : r.1 = vb
    · rw [if_pos h1, if_pos (by split <;> omega)]
      simp [h1]
    · rw [if_neg h1]
      by_cases h2 : r.1 = ve
      · rw [if_pos h2, if_pos (by omega)]
        simp [h2]
      · rw [if_neg h2, if_neg (by omega)]
        simp only [Nat.add_zero, ih]
        simp [h1, h2]

theorem findRow_zero (vb ve : Int) (rows : List (Int × Nat)) (hn : (rows.map (·.1)).Nodup) :
    ((findRow vb ve 0 rows).isSome = true ↔ vb ∈ rows.map (·.1) ∧ ve ∈ rows.map (·.1)) ∧
    ∀ r, findRow vb ve 0 rows = some r → r ∈ rows ∧ (r.1 = vb ∨ r.1 = ve) := by
  induction rows with
  | nil => simp [findRow]
  | cons r rows ih =>
    rw [List.map_cons, List.nodup_cons] at hn
    obtain ⟨i1, i2⟩ := ih hn.2
    rw [findRow]
    by_cases h1 : r.1 = vb
    · rw [if_pos h1]
      by_cases h2 : r.1 = ve
      · rw [if_pos h2, if_pos (by omega)]
        refine ⟨by simp [← h1, ← h2], ?_⟩
        intro x hx
        cases hx
        exact ⟨by simp, .inl h1⟩
      · rw [if_neg h2, if_neg (by omega)]
        show ((findRow vb ve 1 rows).isSome = true ↔ _) ∧ _
        rw [findRow_one]
        constructor
        · rw [List.find?_isSome]
          constructor
          · rintro ⟨x, hx, hp⟩
            simp only [decide_eq_true_eq] at hp
            have : x.1 = ve := by
              rcases hp with hp | hp
              · exact absurd (List.mem_map_of_mem (f := Prod.fst) hx) (by rw [hp, ← h1]; exact hn.1)
              · exact hp
            refine ⟨by simp [h1], ?_⟩
            rw [List.map_cons]
            exact List.mem_cons_of_mem _ (List.mem_map.2 ⟨x, hx, this⟩)
          · rintro ⟨_, h⟩
            rw [List.map_cons] at h
            rcases List.mem_cons.1 h with h | h
            · exact absurd h.symm h2
            · obtain ⟨x, hx, e⟩ := List.mem_map.1 h
              exact ⟨x, hx, by simp [e]⟩
        · intro x hx
          have a := List.mem_of_find?_eq_some hx
          have b := List.find?_some hx
          exact ⟨List.mem_cons_of_mem _ a, by simpa using b⟩
    · rw [if_neg h1]
      by_cases h2 : r.1 = ve
      · rw [if_pos h2, if_neg (by omega)]
        show ((findRow vb ve 1 rows).isSome = true ↔ _) ∧ _
        rw [findRow_one]
        constructor
        · rw [List.find?_isSome]
          constructor
          · rintro ⟨x, hx, hp⟩
            simp only [decide_eq_true_eq] at hp
            have : x.1 = vb := by
              rcases hp with hp | hp
              · exact hp
              · exact absurd (List.mem_map_of_mem (f := Prod.fst) hx) (by rw [hp, ← h2]; exact hn.1)
            refine ⟨?_, by simp [h2]⟩
            rw [List.map_cons]
            exact List.mem_cons_of_mem _ (List.mem_map.2 ⟨x, hx, this⟩)
          · rintro ⟨h, _⟩
            rw [List.map_cons] at h
            rcases List.mem_cons.1 h with h | h
            · exact absurd h.symm h1
            · obtain ⟨x, hx, e⟩ := List.mem_map.1 h
              exact ⟨x, hx, by simp [e]⟩
        · intro x hx
          have a := List.mem_of_find?_eq_some hx
          have b := List.find?_some hx
          exact ⟨List.mem_cons_of_mem _ a, by simpa using b⟩
      · rw [if_neg h2, if_neg (by omega)]
        show ((findRow vb ve 0 rows).isSome = true ↔ _) ∧ _
        constructor
        · rw [i1, List.map_cons]
          simp [Ne.symm h1, Ne.symm h2]
        · intro x hx
          obtain ⟨a, b⟩ := i2 x hx
          exact ⟨List.mem_cons_of_mem _ a, b⟩

/-! ## The property -/

/-- C82 (partial): exporting from one version to another, in either order, both being in the depot, writes exactly the files of the
objects changed in between and their external files, and the list of what was deleted. Missing: objects of
which an older version has data in the table and whose hash is now another (`Fresh`; `changed_object_ub`,
`changed_object_empty`, `changed_object_of_another`); objects whose last record has no data although an earlier one
in between has (`Settled`; `later_record_hides_data`); where the list is written (`list_below_database`); which version decides about
the layout (`layout_of_later_row`). -/
theorem save_part_partial (E : Env) (text textOf : Bytes → Option Bytes → Bytes) (rows : List (Int × Nat)) (a b : Int) (dir db : List Str) (hist : List Hist) (exts : List Ext)
    (hrows : (rows.map (·.1)).Nodup) (ha : a ∈ rows.map (·.1)) (hb : b ∈ rows.map (·.1)) (hne : hist ≠ []) (hord : HistOrder hist)
    (hg : Good E text textOf hist exts) (hf : ∀ o, Fresh E (before (min a b) hist o) (within (min a b) (max a b) hist o))
    (hst : ∀ o, Settled (within (min a b) (max a b) hist o) (dataIn (min a b) (max a b) hist o)) :
    ∃ row ∈ rows, (row.1 = a ∨ row.1 = b) ∧
      savePart E rows a b dir db hist exts = .ok (if row.2 < 100 then dir ++ ["metadata".toList] else dir,
        items text textOf E.fold (min a b) (max a b) hist exts,
        if gone (min a b) (max a b) hist exts = [] then none else some (db ++ ["deleted".toList], gone (min a b) (max a b) hist exts)) := by
  have e1 : (if b < a then b else a) = min a b := by
    rw [Int.min_def]
    split <;> split <;> omega
  have e2 : (if b < a then a else b) = max a b := by
    rw [Int.max_def]
    split <;> split <;> omega
  have hab : min a b ∈ rows.map (·.1) ∧ max a b ∈ rows.map (·.1) := by
    constructor
    · rw [Int.min_def]; split <;> assumption
    · rw [Int.max_def]; split <;> assumption
  obtain ⟨f1, f2⟩ := findRow_zero (min a b) (max a b) rows hrows
  obtain ⟨row, hrow⟩ := Option.isSome_iff_exists.1 (f1.2 hab)
  obtain ⟨f3, f4⟩ := f2 row hrow
  refine ⟨row, f3, by omega, ?_⟩
  unfold savePart
  simp only [e1, e2]
  rw [hrow]
  dsimp only
  rw [if_neg (by simpa using hne)]
  obtain ⟨st, g1, g2, g3⟩ := loop_spec E text textOf (min a b) (max a b) hist exts hg hf hst hist [] [] { rest := exts } (by simp) hord (by simp) (by simp) (by simp) (by simp) rfl rfl (by simp) (by simp)
  rw [g1]
  have g2' : st.out.items = items text textOf E.fold (min a b) (max a b) hist exts := by rw [g2]; rfl
  have g3' : st.out.gone = gone (min a b) (max a b) hist exts := by rw [g3]; rfl
  show Outcome.ok (_, st.out.items, _) = _
  rw [g2', g3']
  cases gone (min a b) (max a b) hist exts <;> rfl

/-- A version that is not in the depot is refused. -/
theorem missing_version_refused (E : Env) (rows : List (Int × Nat)) (a b : Int) (dir db : List Str) (hist : List Hist) (exts : List Ext)
    (hrows : (rows.map (·.1)).Nodup) (h : a ∉ rows.map (·.1) ∨ b ∉ rows.map (·.1)) : savePart E rows a b dir db hist exts = .throw := by
  unfold savePart
  dsimp only
  have key : ∀ x y : Int, (x ∉ rows.map (·.1) ∨ y ∉ rows.map (·.1)) → findRow x y 0 rows = none := by
    intro x y h
    have := (findRow_zero x y rows hrows).1
    cases e : findRow x y 0 rows with
    | none => rfl
    | some r =>
      rw [e] at this
      obtain ⟨p, q⟩ := this.1 rfl
      rcases h with h | h
      · exact absurd p h
      · exact absurd q h
  rw [key]
  by_cases hc : b < a
  · rw [if_pos hc, if_pos hc]; exact h.symm
  · rw [if_neg hc, if_neg hc]; exact h

/-- Which of the two is given first does not matter. -/
theorem either_order (E : Env) (rows : List (Int × Nat)) (a b : Int) (dir db : List Str) (hist : List Hist) (exts : List Ext) :
    savePart E rows a b dir db hist exts = savePart E rows b a dir db hist exts := by
  have : (if b < a then b else a) = (if a < b then a else b) ∧ (if b < a then a else b) = (if a < b then b else a) := by
    split <;> split <;> constructor <;> omega
  unfold savePart
  rw [this.1, this.2]

/-! ## Disagreements -/

/-- An object changed in a depot without hashes, of which an older version has data in the table: undefined. -/
theorem changed_object_ub (E : Env) (r1 r2 : Hist) (o : Out) (hE : E.hashes = false) (h1 : r1.packed = true) (h2 : r1.data ≠ none) (h3 : r2.packed = true) :
    objectFile E (some r1) r2 o = .ub := by
  unfold objectFile changed
  rw [if_pos h3]
  dsimp only
  rw [if_pos h1]
  cases hd : r1.data with
  | none => exact absurd hd h2
  | some d =>
    dsimp only
    rw [if_neg (by simp [hE])]
    rfl

/-- With hashes: what is written is what was read last for another file, or nothing if there was none, and not the data of the object. -/
theorem changed_object_of_another (E : Env) (r1 r2 : Hist) (o : Out) (d : Bytes) (hE : E.hashes = true) (h1 : r1.packed = true) (h2 : r1.data ≠ none) (h3 : r2.packed = true)
    (hd : r2.data = some d) (hh : r1.hash ≠ r2.hash) (hb : o.buf ≠ d) (hi : (E.inflate o.buf).2 = true) :
    objectFile E (some r1) r2 o = .ok { o with items := o.items ++ [.object r2.obj (E.inflate o.buf).1] } := by
  unfold objectFile changed
  rw [if_pos h3]
  dsimp only
  rw [if_pos h1]
  cases hd1 : r1.data with
  | none => exact absurd hd1 h2
  | some d1 =>
    dsimp only
    rw [if_pos hE, hd, if_neg hh]
    show (if decide (o.buf ≠ d) = true then _ else _) = _
    rw [if_pos (by simpa using hb)]
    show (if (E.inflate o.buf).2 = true then _ else _) = _
    rw [if_pos hi]

/-- The only object of a depot: its file becomes what nothing inflates to. -/
theorem changed_object_empty (E : Env) (r1 r2 : Hist) (d : Bytes) (rows : List (Int × Nat)) (a b : Int) (dir db : List Str) (hab : a ≤ b) (hv1 : r1.ver < a) (hv2 : a ≤ r2.ver ∧ r2.ver ≤ b)
    (ho : r1.obj = r2.obj) (hrows : (rows.map (·.1)).Nodup) (ha : a ∈ rows.map (·.1)) (hb : b ∈ rows.map (·.1))
    (hE : E.hashes = true) (h0 : E.inflate [] = ([], true)) (h1 : r1.packed = true) (h2 : r1.data ≠ none) (h3 : r2.packed = true) (hr : r2.removed = false)
    (hd : r2.data = some d) (hne : d ≠ []) (hh : r1.hash ≠ r2.hash) :
    ∃ p, savePart E rows a b dir db [r1, r2] [] = .ok (p, [.object r2.obj []], none) := by
  obtain ⟨row, hrow⟩ := Option.isSome_iff_exists.1 ((findRow_zero a b rows hrows).1.2 ⟨ha, hb⟩)
  refine ⟨if row.2 < 100 then dir ++ ["metadata".toList] else dir, ?_⟩
  unfold savePart
  simp only [if_neg (show ¬ b < a by omega)]
  rw [hrow]
  dsimp only
  rw [if_neg (by simp)]
  have hl : loop E a b [r1, r2] { rest := [] } = emit E a { cur := r2.obj, rech1 := some r1, rech2 := some r2, rest := [] } := by
    have s1 : step E a b r1 { rest := [] } = .ok { cur := r2.obj, rech1 := some r1, rest := [] } := by
      unfold step look emit
      by_cases hc : r1.obj ≠ 0
      · rw [if_pos hc]
        show Outcome.ok _ = _
        rw [if_pos hv1, ho]
      · rw [if_neg hc, if_pos hv1]
        have : r2.obj = 0 := by omega
        rw [this]
    have s2 : step E a b r2 { cur := r2.obj, rech1 := some r1, rest := [] } = .ok { cur := r2.obj, rech1 := some r1, rech2 := some r2, rest := [] } := by
      unfold step look
      rw [if_neg (by simp), if_neg (by omega), if_pos hv2.2]
    rw [loop, s1]
    show loop E a b [r2] _ = _
    rw [loop, s2]
    rfl
  rw [hl]
  unfold emit
  dsimp only
  rw [hr, if_neg (by simp), changed_object_of_another E r1 r2 {} d hE h1 h2 h3 hd hh (fun e => hne e.symm) (by rw [show ({} : Out).buf = [] from rfl, h0]), show ({} : Out).buf = [] from rfl, h0]
  rfl

/-- The list of what was deleted is not written where the files are: it is to be a file below the file of the database. -/
theorem list_below_database (E : Env) (rows : List (Int × Nat)) (a b : Int) (dir db : List Str) (hist : List Hist) (exts : List Ext) (p q : List Str) (is : List Item) (g : List Gone)
    (h : savePart E rows a b dir db hist exts = .ok (p, is, some (q, g))) : q = db ++ ["deleted".toList] := by
  unfold savePart at h
  dsimp only at h
  generalize hl : loop E _ _ hist { rest := exts } = l at h
  split at h
  · cases h
  · split at h
    · cases h
    · cases l with
      | throw => cases h
      | ub => cases h
      | ok st =>
        have h' := h
        simp only [Bind.bind, Outcome.bind, Outcome.ok.injEq, Prod.mk.injEq] at h'
        obtain ⟨_, _, h3⟩ := h'
        split at h3
        · cases h3
        · cases h3
          rfl

/-- The layout of the directory is that of the version whose row comes later in the table, be it the older one. -/
theorem layout_of_later_row (E : Env) (r1 r2 : Int × Nat) (dir db : List Str) (hist : List Hist) (exts : List Ext) (hr : r1.1 ≠ r2.1) (x : List Str × List Item × Option (List Str × List Gone))
    (h : savePart E [r1, r2] r1.1 r2.1 dir db hist exts = .ok x) : x.1 = if r2.2 < 100 then dir ++ ["metadata".toList] else dir := by
  have hf : ∀ a b : Int, (a = r1.1 ∧ b = r2.1 ∨ a = r2.1 ∧ b = r1.1) → findRow a b 0 [r1, r2] = some r2 := by
    rintro a b (⟨rfl, rfl⟩ | ⟨rfl, rfl⟩)
    · simp [findRow, hr, Ne.symm hr]
    · simp [findRow, hr, Ne.symm hr]
  unfold savePart at h
  dsimp only at h
  rw [hf _ _ (by split <;> simp)] at h
  dsimp only at h
  split at h
  · cases h
  · generalize hl : loop E _ _ hist { rest := exts } = l at h
    cases l with
    | throw => cases h
    | ub => cases h
    | ok st =>
      cases h
      rfl

theorem no_history_ub (E : Env) (rows : List (Int × Nat)) (a b : Int) (dir db : List Str) (exts : List Ext) (hrows : (rows.map (·.1)).Nodup)
    (ha : a ∈ rows.map (·.1)) (hb : b ∈ rows.map (·.1)) : savePart E rows a b dir db [] exts = .ub := by
  unfold savePart
  dsimp only
  have key : ∀ x y : Int, x ∈ rows.map (·.1) → y ∈ rows.map (·.1) → ∃ r, findRow x y 0 rows = some r := fun x y hx hy =>
    Option.isSome_iff_exists.1 ((findRow_zero x y rows hrows).1.2 ⟨hx, hy⟩)
  obtain ⟨r, hr⟩ := key (if b < a then b else a) (if b < a then a else b) (by split <;> assumption) (by split <;> assumption)
  rw [hr]
  rfl

/-- An object with data in one version and a record without data in a later one, both in between: its file is not written. -/
theorem later_record_hides_data (E : Env) (r1 r2 : Hist) (rows : List (Int × Nat)) (a b : Int) (dir db : List Str) (hab : a ≤ b) (hv1 : a ≤ r1.ver ∧ r1.ver ≤ b)
    (hv2 : a ≤ r2.ver ∧ r2.ver ≤ b) (ho : r1.obj = r2.obj) (hrows : (rows.map (·.1)).Nodup) (ha : a ∈ rows.map (·.1)) (hb : b ∈ rows.map (·.1))
    (h2 : r2.packed = false) (hr : r2.removed = false) : ∃ p, savePart E rows a b dir db [r1, r2] [] = .ok (p, [], none) := by
  obtain ⟨row, hrow⟩ := Option.isSome_iff_exists.1 ((findRow_zero a b rows hrows).1.2 ⟨ha, hb⟩)
  refine ⟨if row.2 < 100 then dir ++ ["metadata".toList] else dir, ?_⟩
  unfold savePart
  simp only [if_neg (show ¬ b < a by omega)]
  rw [hrow]
  dsimp only
  rw [if_neg (by simp)]
  have hl : loop E a b [r1, r2] { rest := [] } = emit E a { cur := r2.obj, rech2 := some r2, rest := [] } := by
    have s1 : step E a b r1 { rest := [] } = .ok { cur := r2.obj, rech2 := some r1, rest := [] } := by
      unfold step look emit
      by_cases hc : r1.obj ≠ 0
      · rw [if_pos hc]
        show Outcome.ok _ = _
        rw [if_neg (by omega), if_pos hv1.2, ho]
      · rw [if_neg hc, if_neg (by omega), if_pos hv1.2]
        have : r2.obj = 0 := by omega
        rw [this]
    have s2 : step E a b r2 { cur := r2.obj, rech2 := some r1, rest := [] } = .ok { cur := r2.obj, rech2 := some r2, rest := [] } := by
      unfold step look
      rw [if_neg (by simp), if_neg (by omega), if_pos hv2.2]
    rw [loop, s1]
    show loop E a b [r2] _ = _
    rw [loop, s2]
    rfl
  rw [hl]
  unfold emit objectFile
  dsimp only
  rw [hr, if_neg (by simp), if_neg (by simp [h2])]
  rfl

/-! ## Cases -/

/-- Inflating adds one to every byte; data beginning with 9 is no deflated data. -/
def demoEnv : Env := ⟨true, fun d => if d.head? = some 9 then ([], false) else (d.map (· + 1), true), fun h => .ok (if h = [7] then some [70] else none), fun n => n.map (· &&& 0xDF)⟩

/-- Object 3 is removed, object 5 is new with its data in the pack directory, object 6 is not changed and object 8
comes later. -/
def demoHist : List Hist :=
  [⟨3, 1, false, true, some [30], [1]⟩, ⟨3, 3, true, false, none, []⟩, ⟨5, 2, false, true, some [50], [2]⟩, ⟨5, 3, false, true, none, [7]⟩,
   ⟨6, 1, false, true, some [60], [3]⟩, ⟨6, 3, false, true, some [60], [3]⟩, ⟨8, 5, false, true, some [80], [4]⟩]
def demoExts : List Ext :=
  [⟨3, 1, [65], 1, true, some [31], []⟩, ⟨3, 3, [65], 1, false, none, []⟩, ⟨5, 2, [97], 2, true, some [51], []⟩, ⟨5, 2, [98], 3, true, some [52], []⟩,
   ⟨5, 3, [65], 2, false, none, []⟩, ⟨5, 3, [66], 4, true, some [9, 9], []⟩]
def demoText (h : Bytes) (d : Option Bytes) : Bytes :=
  let d := d.getD (if h = [7] then [70] else [])
  if d.head? = some 9 then d else d.map (· + 1)

example : ∃ row ∈ [((3 : Int), 216), (2, 216), (1, 6)], (row.1 = 3 ∨ row.1 = 2) ∧
    savePart demoEnv [(3, 216), (2, 216), (1, 6)] 3 2 ["out".toList] ["x.1CD".toList] demoHist demoExts =
      .ok (if row.2 < 100 then ["out".toList] ++ ["metadata".toList] else ["out".toList],
        [.object 5 [71], .file 5 [65] [52], .file 5 [66] [9, 9]], some (["x.1CD".toList, "deleted".toList], [.object 3, .file [65]])) := by
  have h := save_part_partial demoEnv demoText demoText [(3, 216), (2, 216), (1, 6)] 3 2 ["out".toList] ["x.1CD".toList] demoHist demoExts (by decide) (by decide) (by decide)
    (by decide) (by unfold HistOrder demoHist; decide)
    ⟨by unfold ExtOrder demoExts demoEnv; decide,
     by
      intro r hr h1 h2
      simp only [demoHist, List.mem_cons, List.not_mem_nil, or_false] at hr
      rcases hr with rfl | rfl | rfl | rfl | rfl | rfl | rfl
      · exact ⟨[30], .inl rfl, by decide⟩
      · cases h2
      · exact ⟨[50], .inl rfl, by decide⟩
      · exact ⟨[70], .inr ⟨rfl, rfl, rfl⟩, by decide⟩
      · exact ⟨[60], .inl rfl, by decide⟩
      · exact ⟨[60], .inl rfl, by decide⟩
      · exact ⟨[80], .inl rfl, by decide⟩,
     by
      intro x hx h1
      simp only [demoExts, List.mem_cons, List.not_mem_nil, or_false] at hx
      rcases hx with rfl | rfl | rfl | rfl | rfl | rfl
      · exact ⟨[31], .inl rfl, by decide⟩
      · cases h1
      · exact ⟨[51], .inl rfl, by decide⟩
      · exact ⟨[52], .inl rfl, by decide⟩
      · cases h1
      · exact ⟨[9, 9], .inl rfl, by decide⟩⟩
    (by
      have : ∀ o, o ∈ [3, 5, 6, 8] ∨ o ∉ [3, 5, 6, 8] := fun o => Decidable.em _
      intro o
      rcases this o with h | h
      · simp only [List.mem_cons, List.not_mem_nil, or_false] at h
        rcases h with rfl | rfl | rfl | rfl
        · intro a b ha hb h; cases hb; cases h
        · intro a b ha; cases ha
        · intro a b ha hb _ _ _ _; cases ha; cases hb; exact ⟨rfl, rfl⟩
        · intro a b ha; cases ha
      · intro a b ha hb
        have hm := within_mem hb
        have : b.obj ∈ [3, 5, 6, 8] := by
          have := hm.1
          simp only [demoHist, List.mem_cons, List.not_mem_nil, or_false] at this
          rcases this with rfl | rfl | rfl | rfl | rfl | rfl | rfl <;> decide
        rw [hm.2.1] at this
        exact absurd this h)
    (by
      intro o r hr h1 h2
      have := (within_mem hr).1
      simp only [demoHist, List.mem_cons, List.not_mem_nil, or_false] at this
      rcases this with rfl | rfl | rfl | rfl | rfl | rfl | rfl <;> first | (cases h2; done) | (cases h1; done))
  exact h

/-- The second of two changed objects gets the contents of the first. -/
example : savePart demoEnv [(2, 216)] 2 2 [] [] [⟨5, 2, false, true, some [50], [2]⟩, ⟨6, 1, false, true, some [60], [3]⟩, ⟨6, 2, false, true, some [61], [4]⟩] [] =
    .ok ([], [.object 5 [51], .object 6 [51]], none) := rfl

example : ∃ p, savePart demoEnv [(2, 216)] 2 2 [] [] [⟨6, 1, false, true, some [60], [3]⟩, ⟨6, 2, false, true, some [61], [4]⟩] [] = .ok (p, [.object 6 []], none) :=
  changed_object_empty demoEnv ⟨6, 1, false, true, some [60], [3]⟩ ⟨6, 2, false, true, some [61], [4]⟩ [61] _ 2 2 _ _ (by decide) (by decide) (by decide) rfl (by decide) (by decide) (by decide)
    rfl rfl rfl (by decide) rfl rfl rfl (by decide) (by decide)

/-- The same in a depot without hashes. -/
example : savePart { demoEnv with hashes := false } [(2, 216)] 2 2 [] [] [⟨6, 1, false, true, some [60], []⟩, ⟨6, 2, false, true, some [61], []⟩] [] = .ub := rfl

example : ∃ p, savePart demoEnv [(4, 216), (2, 216)] 2 4 [] [] [⟨6, 2, false, true, some [60], [3]⟩, ⟨6, 4, false, false, none, []⟩] [] = .ok (p, [], none) :=
  later_record_hides_data demoEnv ⟨6, 2, false, true, some [60], [3]⟩ ⟨6, 4, false, false, none, []⟩ _ 2 4 _ _ (by decide) (by decide) (by decide) rfl (by decide) (by decide) (by decide) rfl rfl

/-- The newer version has the old layout but its row comes first. -/
example : (savePart demoEnv [(4, 6), (2, 216)] 4 2 ["out".toList] [] demoHist demoExts) = .ok (["out".toList],
    [.object 5 [71], .file 5 [65] [52], .file 5 [66] [9, 9]], some (["deleted".toList], [.object 3, .file [65]])) := rfl

end Verif.Depot.Part
