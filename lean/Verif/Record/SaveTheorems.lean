import Verif.Record.SaveLemmas

/-! # Property theorems: what the end of a session does to the files (C74) -/

namespace Verif.Record
open Verif

variable {X : Type}

theorem flatMap_filter_nodup {α β : Type} (l : List α) (p : α → Bool) (g : α → List β) (h : (l.flatMap g).Nodup) :
    ((l.filter p).flatMap g).Nodup := by
  refine List.Nodup.sublist ?_ h
  rw [List.flatMap_def, List.flatMap_def]
  exact (List.filter_sublist.map g).flatten

/-- **C74, deleting one record.** In a table in good order, whose indexes follow, deleting a
record removes that record from the table and nothing else, frees its blobs and no others,
and leaves the table in good order. What is missing: fields with blobs that can be null,
and, unless it is the last one, records longer than a record object in memory. -/
theorem delete_record_partial (ops : IxOps X) (I : X → List (Nat × Bytes) → Prop) (ht : Spec.Tracks ops I) (fields : List SField)
    (fuel : Nat) (s : DSt X) (b : Blob.Spec.State) (hs : Spec.Sound fields s b) (hi : I s.ix (Spec.rows s))
    (hf : ∀ g, s.blob = some g → g.length / 256 ≤ fuel) (k : Nat) (r mem : Bytes) (hk : (k, r) ∈ Spec.rows s)
    (hm : k + 1 = s.phys ∨ s.reclen ≤ mem.length) :
    ∃ s' b', deleteRecord ops fields fuel s k mem = .ok (some s') ∧ Spec.Sound fields s' b' ∧
      Spec.rows s' = (Spec.rows s).filter (fun x => x.1 ≠ k) ∧ I s'.ix (Spec.rows s') ∧
      b'.blobs = b.blobs.filter (fun e => decide (e.first ∉ Spec.blobsOf fields r)) ∧
      (∀ g, s'.blob = some g → g.length / 256 ≤ fuel) ∧ s'.reclen = s.reclen := by
  obtain ⟨he, ⟨f, hd, hw, hz⟩, h5, hb, hown, hkn, hin⟩ := hs
  have hrows : Spec.rows s = Spec.liveOf ⟨f, s.reclen⟩ (List.range s.phys) := by unfold Spec.rows; rw [hd]
  have hk' := hk
  rw [hrows, mem_liveOf] at hk'
  obtain ⟨k1, k2, k3⟩ := hk'
  simp only [List.mem_range] at k1 k2 k3
  have hz := hz (by omega)
  have h0 : 0 < k := by
    rcases Nat.eq_zero_or_pos k with h | h
    · subst h; exact absurd k2 hz
    · exact h
  have hrl : r.length = s.reclen := by rw [k3]; exact record_length hw k1
  obtain ⟨ix', hx1, hx2⟩ := ht _ _ _ hi hk
  have hbn : (Spec.blobsOf fields r).Nodup := by
    refine List.Nodup.sublist ?_ hown
    rw [List.flatMap_def]
    exact List.sublist_flatten_of_mem (List.mem_map.mpr ⟨(k, r), hk, rfl⟩)
  obtain ⟨fb, b', d1, d2, d3, d4⟩ := dropBlobs_ok fuel r fields { s with ix := ix' } b he hb (by
    intro g hg hgb
    obtain ⟨i1, i2⟩ := hin g hg hgb
    exact ⟨i1, by omega⟩) hbn (hkn _ hk) hf
  obtain ⟨f', n', e1, e2, e3, e4, _, e5⟩ := deleteData_ok (s := { s with ix := ix', blob := fb }) (mem := mem) he hd hw hz h0 k1 h5 hm
  have hrows' : Spec.rows { s with ix := ix', blob := fb, data := some f', phys := n' } = (Spec.rows s).filter (fun x => x.1 ≠ k) := by
    rw [hrows, ← e5]; rfl
  have hmem : ∀ x ∈ (Spec.rows s).filter (fun x => x.1 ≠ k), x ∈ Spec.rows s ∧ x.1 ≠ k := by
    intro x hx
    have := List.mem_filter.mp hx
    exact ⟨this.1, by simpa using this.2⟩
  refine ⟨{ s with ix := ix', blob := fb, data := some f', phys := n' }, b', ?_, ?_, hrows', ?_, d3, d4, rfl⟩
  · unfold deleteRecord readRecord
    rw [hd]
    dsimp only
    rw [getRecord_ok hw k1, ← k3]
    simp only [Outcome.ok_bind]
    unfold dropIndexed isRemoved
    have hrem : load r 0 1 = .ok [0] := by
      rw [load_ok (by omega), List.drop_zero]
      unfold Spec.Live at k2
      rw [← k3] at k2
      cases r with
      | nil => cases k2
      | cons a r => cases k2; rfl
    rw [hrem]
    simp only [Outcome.ok_bind, ne_eq, not_true, decide_false, Bool.false_eq_true, if_false]
    rw [hx1]
    simp only [Outcome.ok_bind]
    rw [d1]
    simp only [Outcome.ok_bind]
    rw [e1]
    rfl
  · refine ⟨he, ⟨f', rfl, e2, fun _ => e4⟩, h5, d2, ?_, ?_, hin⟩
    · rw [hrows']
      exact flatMap_filter_nodup _ _ _ hown
    · rw [hrows']
      intro x hx n hn
      obtain ⟨x1, x2⟩ := hmem x hx
      rw [d3]
      obtain ⟨e, g1, g2⟩ := List.mem_map.mp (hkn x x1 n hn)
      refine List.mem_map.mpr ⟨e, List.mem_filter.mpr ⟨g1, ?_⟩, g2⟩
      simp only [decide_eq_true_eq]
      rw [g2]
      intro hcon
      -- a blob shared by two records
      obtain ⟨l1, l2, hl⟩ := List.append_of_mem hk
      rw [hl] at hown x1
      rw [List.flatMap_append, List.flatMap_cons] at hown
      have hn1 := List.nodup_append.mp hown
      have hn2 := List.nodup_append.mp hn1.2.1
      rcases List.mem_append.mp x1 with h | h
      · exact hn1.2.2 n (List.mem_flatMap.mpr ⟨x, h, hn⟩) n (List.mem_append_left _ hcon) rfl
      · rcases List.mem_cons.mp h with h | h
        · rw [h] at x2; exact x2 rfl
        · exact hn2.2.2 n hcon n (List.mem_flatMap.mpr ⟨x, h, hn⟩) rfl
  · rw [hrows']
    exact hx2

/-- The first loop over a list of deletions. -/
theorem endDeleted_ok (e : SEnv X) (I : X → List (Nat × Bytes) → Prop) (ht : Spec.Tracks e.ops I) :
    ∀ (chs : List ChRec) (s : DSt X) (b : Blob.Spec.State), Spec.Sound e.fields s b → I s.ix (Spec.rows s) →
    (∀ g, s.blob = some g → g.length / 256 ≤ e.fuel) → (∀ c ∈ chs, c.kind = .deleted) → (chs.map ChRec.num).Nodup →
    (∀ c ∈ chs, c.num ∈ (Spec.rows s).map Prod.fst) → (∀ c, s.reclen ≤ (e.mem c).length) →
    ∃ s' b', endDeleted e chs s = .ok (some s') ∧ Spec.Sound e.fields s' b' ∧ I s'.ix (Spec.rows s') ∧
      Spec.rows s' = (Spec.rows s).filter (fun x => decide (x.1 ∉ chs.map ChRec.num)) ∧ s'.reclen = s.reclen ∧
      ∀ x, (∀ y ∈ Spec.rows s, y.1 ∈ chs.map ChRec.num → x.first ∉ Spec.blobsOf e.fields y.2) → (x ∈ b'.blobs ↔ x ∈ b.blobs) := by
  intro chs
  induction chs with
  | nil =>
    intro s b hs hi _ _ _ _ _
    refine ⟨s, b, rfl, hs, hi, ?_, rfl, fun _ _ => Iff.rfl⟩
    simp
  | cons c cs ih =>
    intro s b hs hi hf hkind hnd hin hmem
    rw [List.map_cons, List.nodup_cons] at hnd
    obtain ⟨⟨k, r⟩, hx, hxe⟩ := List.mem_map.mp (hin c (List.mem_cons_self ..))
    simp only at hxe
    subst hxe
    obtain ⟨s1, b1, d1, d2, d3, d4, d5, d6, d7⟩ := delete_record_partial e.ops I ht e.fields e.fuel s b hs hi hf c.num r (e.mem c) hx
      (.inr (hmem c))
    obtain ⟨s2, b2, f1, f2, f3, f4, f5, f6⟩ := ih s1 b1 d2 d4 d6 (fun c' hc' => hkind c' (List.mem_cons_of_mem _ hc')) hnd.2 (by
        intro c' hc'
        obtain ⟨x, g1, g2⟩ := List.mem_map.mp (hin c' (List.mem_cons_of_mem _ hc'))
        rw [d3]
        refine List.mem_map.mpr ⟨x, List.mem_filter.mpr ⟨g1, ?_⟩, g2⟩
        have : x.1 ≠ c.num := by
          rw [g2]; exact fun hh => hnd.1 (hh ▸ List.mem_map_of_mem hc')
        simpa using this) (by intro c'; rw [d7]; exact hmem c')
    refine ⟨s2, b2, ?_, f2, f3, ?_, by rw [f5, d7], ?_⟩
    · unfold endDeleted
      rw [if_pos (hkind c (List.mem_cons_self ..)), d1]
      simp only [Outcome.ok_bind]
      exact f1
    · rw [f4, d3, List.filter_filter]
      apply List.filter_congr
      intro x _
      simp only [List.map_cons, List.mem_cons, not_or, ne_eq, decide_not, Bool.decide_and]
      exact Bool.and_comm _ _
    · intro x hx'
      rw [f6 x, d5, List.mem_filter]
      · have := hx' _ hx (by simp)
        simp [this]
      · intro y hy hy2
        rw [d3] at hy
        exact hx' y (List.mem_filter.mp hy).1 (List.mem_cons_of_mem _ hy2)

theorem endChanged_skip (e : SEnv X) (chs : List ChRec) (s : DSt X) (h : ∀ c ∈ chs, c.kind ≠ .changed) :
    endChanged e chs s = .ok (some s) := by
  induction chs with
  | nil => rfl
  | cons c cs ih =>
    unfold endChanged
    rw [if_neg (h c (List.mem_cons_self ..)), ih (fun c' hc' => h c' (List.mem_cons_of_mem _ hc'))]

theorem endInserted_skip (e : SEnv X) (chs : List ChRec) (s : DSt X) (h : ∀ c ∈ chs, c.kind ≠ .inserted) :
    endInserted e chs s = .ok s := by
  induction chs with
  | nil => rfl
  | cons c cs ih =>
    unfold endInserted
    rw [if_neg (h c (List.mem_cons_self ..)), ih (fun c' hc' => h c' (List.mem_cons_of_mem _ hc'))]

/-- **C74, a session of deletions.** After any session in which records were marked for
deletion (and marks taken back) but none was added, ending it removes exactly the marked
records: a scan then shows the others, unchanged; the table is in good order, no blob of
another record was touched, and the session is closed. What is missing: added and changed
records, blob fields that can be null, records longer than a record object. -/
theorem end_of_deletions_partial (e : SEnv X) (I : X → List (Nat × Bytes) → Prop) (ht : Spec.Tracks e.ops I) (env : EEnv)
    (ho : Spec.Open env) (hist : List EOp) (hops : ∀ op ∈ hist, Spec.OpFits env op) (t : ESt)
    (hrun : erun env hist ⟨false, [], 0⟩ = .ok t)
    (s : DSt X) (b : Blob.Spec.State) (hs : Spec.Sound e.fields s b) (hd : s.data = some env.tab.file)
    (hl : s.reclen = env.tab.reclen) (hp : s.phys = env.phys) (hi : I s.ix (Spec.rows s))
    (hf : ∀ g, s.blob = some g → g.length / 256 ≤ e.fuel) (hm : ∀ c, s.reclen ≤ (e.mem c).length)
    (hnew : ∀ n, (hist.foldl (Spec.eff env) .idle).new n = none)
    (hlive : ∀ n, (hist.foldl (Spec.eff env) .idle).del n = true → Spec.Live env.tab n) :
    ∃ s' b' t', endEdit e t s = .ok (some (s', t')) ∧
      Spec.rows s' = (Spec.rows s).filter (fun x => !(hist.foldl (Spec.eff env) .idle).del x.1) ∧
      Spec.Sound e.fields { s' with edit := true } b' ∧ I s'.ix (Spec.rows s') ∧
      (∀ x, (∀ y ∈ Spec.rows s, (hist.foldl (Spec.eff env) .idle).del y.1 = true → x.first ∉ Spec.blobsOf e.fields y.2) →
        (x ∈ b'.blobs ↔ x ∈ b.blobs)) ∧
      s'.edit = false ∧ t' = ⟨false, [], 0⟩ := by
  obtain ⟨t1, h1, h2, _⟩ : ∃ t1, erun env hist ⟨false, [], 0⟩ = .ok t1 ∧ Rel env t1 (hist.foldl (Spec.eff env) .idle) ∧ True := by
    rcases run_refines env ho hist hops _ _ (idle_rel env) with ⟨t1, h1, h2, _⟩ | ⟨h, _⟩
    · exact ⟨t1, h1, h2, trivial⟩
    · rw [hrun] at h; cases h
  rw [hrun] at h1
  cases h1
  generalize hist.foldl (Spec.eff env) .idle = v at *
  have hdel : ∀ c ∈ t.chs, c.kind = .deleted ∧ c.num < env.phys := by
    intro c hc
    rcases Nat.lt_or_ge c.num env.phys with h | h
    · exact ⟨((h2.good c hc).1 h).1, h⟩
    · exfalso
      have hn := hnew c.num
      have := rel_new_isSome h2 h
      rw [hn] at this
      cases hlk : lookup t.chs c.num with
      | none => exact (lookup_none_iff _ _).mp hlk (List.mem_map_of_mem hc)
      | some c' => rw [hlk] at this; cases this
  have hiff : ∀ n, v.del n = true ↔ n ∈ t.chs.map ChRec.num := by
    intro n
    rw [h2.del, decide_eq_true_eq]
    constructor
    · rintro ⟨_, h⟩
      by_contra hh
      rw [(lookup_none_iff _ _).mpr hh] at h
      cases h
    · intro h
      obtain ⟨c, hc, hcn⟩ := List.mem_map.mp h
      refine ⟨hcn ▸ (hdel c hc).2, ?_⟩
      cases hlk : lookup t.chs n with
      | none => exact absurd h ((lookup_none_iff _ _).mp hlk)
      | some _ => rfl
  have hrows : Spec.rows s = Spec.liveOf env.tab (List.range env.phys) := by
    unfold Spec.rows; rw [hd, hl, hp]
  obtain ⟨s1, b1, g1, g2, g3, g4, g5, g6⟩ := endDeleted_ok e I ht t.chs s b hs hi hf (fun c hc => (hdel c hc).1) h2.nodup (by
    intro c hc
    rw [hrows]
    exact List.mem_map.mpr ⟨(c.num, Spec.record env.tab c.num), mem_liveOf.mpr ⟨List.mem_range.mpr (hdel c hc).2,
      hlive _ ((hiff _).mpr (List.mem_map_of_mem hc)), rfl⟩, rfl⟩) hm
  refine ⟨{ s1 with edit := false }, b1, ⟨false, [], 0⟩, ?_, ?_, ?_, g3, ?_, rfl, rfl⟩
  · unfold endEdit
    rw [g1]
    simp only [Outcome.ok_bind]
    rw [endChanged_skip e _ _ (fun c hc => by rw [(hdel c hc).1]; decide)]
    simp only [Outcome.ok_bind]
    rw [endInserted_skip e _ _ (fun c hc => by rw [(hdel c hc).1]; decide)]
    simp only [Outcome.ok_bind]
    unfold cancelEdit
    rw [destroyAll_ok env _ h2.good]
    rfl
  · have : Spec.rows { s1 with edit := false } = Spec.rows s1 := rfl
    rw [this, g4]
    apply List.filter_congr
    intro x _
    have := hiff x.1
    by_cases h : x.1 ∈ t.chs.map ChRec.num
    · rw [this.mpr h]; simpa using h
    · have hv : v.del x.1 = false := by
        cases hv : v.del x.1 with
        | false => rfl
        | true => exact absurd (this.mp hv) h
      rw [hv]; simpa using h
  · have : ({ ({ s1 with edit := false } : DSt X) with edit := true }) = s1 := by
      have := g2.editing
      cases s1
      simp only at this
      subst this
      rfl
    rw [this]; exact g2
  · intro x hx
    refine g6 x (fun y hy hyc => hx y hy ((hiff _).mpr hyc))

end Verif.Record
