import Verif.Pool.Inv

/-!
# C108: objects in memory

Whatever objects are made, used, locked, written and destroyed, in any order and at any times: the list has each of them
once; the contents served are those last written; a pointer to contents stays good while nothing takes them away; a table
locks its files as long as one lock is held. Failed constructions break the list.
-/

namespace Verif.Pool
open Verif

theorem old_false {t u : Nat} : old t u = false ↔ (t % 2 ^ 32 + 2 ^ 32 - u % 2 ^ 32) % 2 ^ 32 ≤ 300000 := by
  unfold old
  rw [decide_eq_false_iff_not]
  omega

/-- The data pointer of the object. -/
def Points (h : Heap) (i p : Nat) : Prop := ∃ c, h.cell i = some c ∧ c.data = some p

theorem step_inv {h : Heap} {s : Spec.State} (hi : Inv h s) (o : Op) (hl : ∀ i, Spec.about o = some i → i ∈ s.objs.map Spec.Obj.id) :
    ∃ h', step h o = .ok (some h') ∧ Inv h' (s.step o) ∧ ∀ i p, Points h i p → Spec.Spares s i o → Points h' i p := by
  cases o with
  | create base block bytes =>
    obtain ⟨h', e, i', _, k⟩ := create_inv hi base block bytes
    refine ⟨h', by simp [step, e], i', fun i p hp _ => ?_⟩
    obtain ⟨c, h1, h2⟩ := hp
    obtain ⟨c', g1, g2⟩ := k i c h1
    exact ⟨c', g1, g2.trans h2⟩
  | destroy i =>
    obtain ⟨h', e, i', k⟩ := destroy_inv hi (hl i rfl)
    refine ⟨h', by simp [step, e], i', fun j p hp hs => ?_⟩
    obtain ⟨c, h1, h2⟩ := hp
    obtain ⟨c', g1, g2⟩ := k j c (fun e => hs e.symm) h1
    exact ⟨c', g1, g2.trans h2⟩
  | get i t =>
    obtain ⟨h', p, e, i', _, k, _⟩ := get_inv hi (hl i rfl) t
    refine ⟨h', by simp [step, e], i', fun j p hp _ => ?_⟩
    obtain ⟨c, h1, h2⟩ := hp
    obtain ⟨c', g1, g2⟩ := k j c h1
    exact ⟨c', g1, g2 _ h2⟩
  | write i t b =>
    obtain ⟨h', e, i', k⟩ := write_inv hi (hl i rfl) t b
    refine ⟨h', by simp [step, e], i', fun j p hp hs => ?_⟩
    obtain ⟨c, h1, h2⟩ := hp
    exact ⟨c, by rw [k j (fun e => hs e.symm)]; exact h1, h2⟩
  | lock i t b =>
    obtain ⟨h', e, i', _, k⟩ := setLock_inv hi (hl i rfl) t b
    refine ⟨h', by simp [step, e], i', fun j p hp _ => ?_⟩
    obtain ⟨c, h1, h2⟩ := hp
    obtain ⟨c', g1, g2, _⟩ := k j c h1
    exact ⟨c', g1, g2.trans h2⟩
  | garbage t =>
    obtain ⟨h', e, i', k⟩ := garbage_inv hi t
    refine ⟨h', by simp [step, e], i', fun j p hp hs => ?_⟩
    obtain ⟨c, h1, h2⟩ := hp
    obtain ⟨o, ho, rfl⟩ := List.mem_map.1 (hi.dead j c h1)
    refine ⟨c, ?_, h2⟩
    rw [k o ho]
    · exact h1
    · rcases hs o ho rfl with e | ⟨u, e1, e2⟩
      · exact .inl e
      · exact .inr ⟨u, e1, old_false.2 e2⟩

theorem run_inv : ∀ (ops : List Op) (h : Heap) (s : Spec.State), Inv h s → Spec.Legal s ops →
    ∃ h', run h ops = .ok (some h') ∧ Inv h' (s.run ops) ∧ ∀ i p, Points h i p → Spec.AllSpare i s ops → Points h' i p
  | [], h, s, hi, _ => ⟨h, rfl, hi, fun _ _ hp _ => hp⟩
  | o :: ops, h, s, hi, hl => by
    obtain ⟨h1, e1, i1, p1⟩ := step_inv hi o hl.1
    obtain ⟨h2, e2, i2, p2⟩ := run_inv ops h1 _ i1 hl.2
    refine ⟨h2, by rw [run, e1, Outcome.ok_bind]; exact e2, i2, fun i p hp hs => p2 i p (p1 i p hp hs.1) hs.2⟩

theorem walk_spec {h : Heap} {l : List Nat} (hl : Linked h l) : ∀ (n k : Nat), l.length ≤ n + k → walk h n l[k]? = .ok (some (l.drop k))
  | n, k, hn => by
    rcases hk : l[k]? with _ | i
    · rw [List.drop_eq_nil_of_le (List.getElem?_eq_none_iff.1 hk)]
      unfold walk
      rfl
    · have hkl := (List.getElem?_eq_some_iff.1 hk).1
      cases n with
      | zero => omega
      | succ n =>
        obtain ⟨c, hc, _, hnx⟩ := hl.at_ k i hk
        rw [walk, show deref h i = .ok c by simp [deref, hc], Outcome.ok_bind, hnx, walk_spec hl n (k + 1) (by omega), Outcome.ok_bind]
        rw [List.drop_eq_getElem_cons hkl, (List.getElem?_eq_some_iff.1 hk).2]

theorem known_spec {h : Heap} {s : Spec.State} (hi : Inv h s) (b : Nat) : ∀ (n k : Nat), s.objs.length ≤ n + k →
    known h b n ((s.objs.map Spec.Obj.id)[k]?) = .ok (some ((s.objs.drop k).any (fun o => o.block = b)))
  | n, k, hn => by
    rcases hk : s.objs[k]? with _ | o
    · rw [List.getElem?_map, hk, List.drop_eq_nil_of_le (List.getElem?_eq_none_iff.1 hk)]
      unfold known
      rfl
    · have hkl := (List.getElem?_eq_some_iff.1 hk).1
      cases n with
      | zero => omega
      | succ n =>
        have hk' : (s.objs.map Spec.Obj.id)[k]? = some o.id := by simp [hk]
        obtain ⟨c, hc, _, hnx⟩ := hi.linked.at_ k o.id hk'
        obtain ⟨c', hc', ha⟩ := hi.agrees o (List.mem_of_getElem? hk)
        rw [hc] at hc'
        cases hc'
        rw [hk', known, show deref h o.id = .ok c by simp [deref, hc], Outcome.ok_bind, hnx, known_spec hi b n (k + 1) (by omega)]
        rw [List.drop_eq_getElem_cons hkl, (List.getElem?_eq_some_iff.1 hk).2, List.any_cons, ha.block]
        by_cases hb : o.block = b
        · simp [hb]
        · simp [hb]

/-- **C108.** After any history in which only objects in existence are used, the list goes through the objects in existence, once each and
in the order of their creation. -/
theorem objects_listed_partial (ops : List Op) (hl : Spec.Legal .init ops) :
    ∃ h, run empty ops = .ok (some h) ∧ walk h h.fresh h.first = .ok (some ((Spec.State.init.run ops).objs.map Spec.Obj.id)) := by
  obtain ⟨h, e, hi, _⟩ := run_inv ops empty .init inv_empty hl
  refine ⟨h, e, ?_⟩
  have := walk_spec hi.linked h.fresh 0 (by rw [List.length_map]; have := hi.few; have := hi.fresh; omega)
  rw [hi.linked.first, List.head?_eq_getElem?, this]
  rfl

/-- **C108.** The contents served for an object are those last given to it, whether they were kept or read again; there are
none for an empty object. -/
theorem contents_served (ops : List Op) (hl : Spec.Legal .init ops) (o : Spec.Obj) (ho : o ∈ (Spec.State.init.run ops).objs) (t : Nat) :
    ∃ h h' p, run empty ops = .ok (some h) ∧ get h o.id t = .ok (h', p) ∧
      (o.bytes = [] ∧ p = none ∨ o.bytes ≠ [] ∧ ∃ q, p = some q ∧ h'.buf q = some o.bytes) := by
  obtain ⟨h, e, hi, _⟩ := run_inv ops empty .init inv_empty hl
  obtain ⟨h', p, g1, _, _, _, o', ho', hid, hn, hq⟩ := get_inv hi (List.mem_map_of_mem ho) t
  have : o' = o := mem_unique hi.linked.nodup ho' ho hid
  subst this
  refine ⟨h, h', p, e, g1, ?_⟩
  cases p with
  | none => exact .inl ⟨hn.1 rfl, rfl⟩
  | some q => exact .inr ⟨fun e => (by have := hn.2 e; cases this), q, rfl, (hq q rfl).1⟩

/-- What an operation that spares the object leaves of it. -/
theorem bytes_kept {i : Nat} : ∀ (ops : List Op) (s : Spec.State) (o : Spec.Obj), o ∈ s.objs → o.id = i → Spec.AllSpare i s ops →
    ∃ o' ∈ (s.run ops).objs, o'.id = i ∧ o'.bytes = o.bytes
  | [], _, o, ho, hid, _ => ⟨o, ho, hid, rfl⟩
  | op :: ops, s, o, ho, hid, hs => by
    have on : ∀ j (f : Spec.Obj → Spec.Obj), (∀ x, (f x).id = x.id) → (∀ x, x.id = i → j = i → (f x).bytes = x.bytes) →
        ∃ o' ∈ (s.on j f).objs, o'.id = i ∧ o'.bytes = o.bytes := by
      intro j f hf hfb
      refine ⟨_, List.mem_map_of_mem ho, ?_, ?_⟩
      · split
        · rw [hf, hid]
        · exact hid
      · split
        · next e => exact hfb o hid (e.symm.trans hid)
        · rfl
    have key : ∃ o' ∈ (s.step op).objs, o'.id = i ∧ o'.bytes = o.bytes := by
      cases op with
      | create base block bytes => exact ⟨o, List.mem_append_left _ ho, hid, rfl⟩
      | destroy j =>
        refine ⟨o, ?_, hid, rfl⟩
        simp only [Spec.State.step, List.mem_filter, decide_eq_true_eq]
        exact ⟨ho, fun e => hs.1 (e.symm.trans hid)⟩
      | get j t => exact on j _ (fun _ => rfl) (fun _ _ _ => rfl)
      | write j t b => exact on j _ (fun _ => rfl) (fun _ _ e => absurd e hs.1)
      | lock j t b => exact on j _ (fun _ => rfl) (fun _ _ _ => rfl)
      | garbage t => exact ⟨o, ho, hid, rfl⟩
    obtain ⟨o1, h1, h2, h3⟩ := key
    obtain ⟨o2, g1, g2, g3⟩ := bytes_kept ops _ o1 h1 h2 hs.2
    exact ⟨o2, g1, g2, g3.trans h3⟩

/-- **C108.** A pointer to contents stays good as long as nothing writes to the object or destroys it, and garbage is collected only while the
object is locked or was used in the last five minutes. -/
theorem pointer_stays (ops more : List Op) (hl : Spec.Legal .init ops) (o : Spec.Obj) (ho : o ∈ (Spec.State.init.run ops).objs) (t : Nat)
    (hm : Spec.Legal ((Spec.State.init.run ops).step (.get o.id t)) more)
    (hs : Spec.AllSpare o.id ((Spec.State.init.run ops).step (.get o.id t)) more) :
    ∃ h h1 p h2, run empty ops = .ok (some h) ∧ get h o.id t = .ok (h1, p) ∧ run h1 more = .ok (some h2) ∧
      ∀ q, p = some q → h2.buf q = some o.bytes := by
  obtain ⟨h, e, hi, _⟩ := run_inv ops empty .init inv_empty hl
  obtain ⟨h1, p, g1, i1, _, _, o', ho', hid, hn, hq⟩ := get_inv hi (List.mem_map_of_mem ho) t
  have : o' = o := mem_unique hi.linked.nodup ho' ho hid
  subst this
  obtain ⟨h2, e2, i2, k2⟩ := run_inv more h1 _ i1 hm
  refine ⟨h, h1, p, h2, e, g1, e2, fun q hpq => ?_⟩
  obtain ⟨c, c1, c2⟩ := k2 o'.id q (hq q hpq).2 hs
  have hmem : ({ o' with used := some t } : Spec.Obj) ∈ ((Spec.State.init.run ops).step (.get o'.id t)).objs := by
    simp only [Spec.State.step, Spec.State.on, List.mem_map]
    exact ⟨o', ho, by simp⟩
  obtain ⟨o2, m1, m2, m3⟩ := bytes_kept (i := o'.id) more _ _ hmem rfl hs
  obtain ⟨c', c1', ha⟩ := i2.agrees o2 m1
  rw [m2, c1] at c1'
  cases c1'
  rw [(ha.buf q c2).1, m3]

/-- **C108.** The search for the object of a page finds any object with that page number, of whatever database. -/
theorem known_whatever_database (ops : List Op) (hl : Spec.Legal .init ops) (block : Nat) :
    ∃ h, run empty ops = .ok (some h) ∧
      known h block h.fresh h.first = .ok (some ((Spec.State.init.run ops).objs.any (fun o => o.block = block))) := by
  obtain ⟨h, e, hi, _⟩ := run_inv ops empty .init inv_empty hl
  refine ⟨h, e, ?_⟩
  rw [hi.linked.first, List.head?_eq_getElem?, known_spec hi block h.fresh 0 (by have := hi.few; have := hi.fresh; omega)]
  rfl

/-! ## A table locks its files -/

theorem lockFiles_inv (t : Nat) (b : Bool) : ∀ (fs : List (Option Nat)) (h : Heap) (s : Spec.State), Inv h s →
    (∀ i, some i ∈ fs → i ∈ s.objs.map Spec.Obj.id) →
    ∃ h' s', lockFiles h t b fs = .ok h' ∧ Inv h' s' ∧ s'.objs.map Spec.Obj.id = s.objs.map Spec.Obj.id ∧
      (∀ o ∈ s'.objs, some o.id ∈ fs → o.locked = b) ∧ (∀ o ∈ s'.objs, some o.id ∉ fs → o ∈ s.objs) ∧ ∀ i p, Points h i p → Points h' i p
  | [], h, s, hi, _ => ⟨h, s, rfl, hi, rfl, fun _ _ h => (by cases h), fun _ h _ => h, fun _ _ h => h⟩
  | none :: fs, h, s, hi, hm => by
    obtain ⟨h', s', e, a1, a2, a3, a4, a5⟩ := lockFiles_inv t b fs h s hi (fun i hi => hm i (List.mem_cons_of_mem _ hi))
    exact ⟨h', s', e, a1, a2, fun o ho hf => a3 o ho (by simpa using hf), fun o ho hf => a4 o ho (fun e => hf (List.mem_cons_of_mem _ e)), a5⟩
  | some i :: fs, h, s, hi, hm => by
    obtain ⟨h1, e1, i1, _, k1⟩ := setLock_inv hi (hm i (by simp)) t b
    have hids : (s.step (.lock i t b)).objs.map Spec.Obj.id = s.objs.map Spec.Obj.id := on_ids _ _ _ (fun _ => rfl)
    obtain ⟨h', s', e, a1, a2, a3, a4, a5⟩ := lockFiles_inv t b fs h1 _ i1 (fun j hj => by rw [hids]; exact hm j (List.mem_cons_of_mem _ hj))
    refine ⟨h', s', by rw [lockFiles, e1, Outcome.ok_bind, e], a1, a2.trans hids, fun o ho hf => ?_, fun o ho hf => ?_, fun j p hp => a5 j p ?_⟩
    · by_cases hof : some o.id ∈ fs
      · exact a3 o ho hof
      · have hoi : o.id = i := by
          rcases List.mem_cons.1 hf with e | e
          · exact Option.some.inj e
          · exact absurd e hof
        have := a4 o ho hof
        simp only [Spec.State.step, Spec.State.on, List.mem_map] at this
        obtain ⟨y, hy, hyo⟩ := this
        by_cases hyi : y.id = i
        · rw [if_pos hyi] at hyo
          rw [← hyo]
        · rw [if_neg hyi] at hyo
          exact absurd (hyo ▸ hoi) hyi
    · have := a4 o ho (fun e => hf (List.mem_cons_of_mem _ e))
      simp only [Spec.State.step, Spec.State.on, List.mem_map] at this
      obtain ⟨y, hy, hyo⟩ := this
      by_cases hyi : y.id = i
      · rw [if_pos hyi] at hyo
        exfalso
        apply hf
        rw [← hyo]
        simp [hyi]
      · rw [if_neg hyi] at hyo
        exact hyo ▸ hy
    · obtain ⟨c, c1, c2⟩ := hp
      obtain ⟨c', d1, d2, _⟩ := k1 j c c1
      exact ⟨c', d1, d2.trans c2⟩

theorem tableLocks_inv (files : List (Option Nat)) : ∀ (calls : List (Nat × Bool)) (n : Nat) (h : Heap) (s : Spec.State), Inv h s →
    (∀ i, some i ∈ files → i ∈ s.objs.map Spec.Obj.id) → (∀ o ∈ s.objs, some o.id ∈ files → o.locked = decide (0 < n)) →
    ∃ h' s', tableLocks h ⟨n, files⟩ calls = .ok (h', ⟨(calls.map (·.2)).foldl (fun n b => if b then n + 1 else n - 1) n, files⟩) ∧ Inv h' s' ∧
      s'.objs.map Spec.Obj.id = s.objs.map Spec.Obj.id ∧
      (∀ o ∈ s'.objs, some o.id ∈ files → o.locked = decide (0 < (calls.map (·.2)).foldl (fun n b => if b then n + 1 else n - 1) n)) ∧
      (∀ o ∈ s'.objs, some o.id ∉ files → o ∈ s.objs) ∧ ∀ i p, Points h i p → Points h' i p
  | [], n, h, s, hi, _, hlk => ⟨h, s, rfl, hi, rfl, hlk, fun _ h _ => h, fun _ _ h => h⟩
  | (t, b) :: calls, n, h, s, hi, hm, hlk => by
    have key : ∃ h1 s1, tableLock h ⟨n, files⟩ t b = .ok (h1, ⟨if b then n + 1 else n - 1, files⟩) ∧ Inv h1 s1 ∧
        s1.objs.map Spec.Obj.id = s.objs.map Spec.Obj.id ∧
        (∀ o ∈ s1.objs, some o.id ∈ files → o.locked = decide (0 < (if b then n + 1 else n - 1))) ∧
        (∀ o ∈ s1.objs, some o.id ∉ files → o ∈ s.objs) ∧ ∀ i p, Points h i p → Points h1 i p := by
      cases b with
      | true =>
        obtain ⟨h1, s1, e, a1, a2, a3, a4, a5⟩ := lockFiles_inv t true files h s hi hm
        exact ⟨h1, s1, by simp [tableLock, e], a1, a2, fun o ho hf => by rw [a3 o ho hf]; simp, a4, a5⟩
      | false =>
        by_cases hn : n - 1 = 0
        · obtain ⟨h1, s1, e, a1, a2, a3, a4, a5⟩ := lockFiles_inv t false files h s hi hm
          exact ⟨h1, s1, by simp [tableLock, e, hn], a1, a2, fun o ho hf => by rw [a3 o ho hf]; simp [hn], a4, a5⟩
        · refine ⟨h, s, by simp [tableLock, hn], hi, rfl, fun o ho hf => ?_, fun _ h _ => h, fun _ _ h => h⟩
          rw [hlk o ho hf]
          simp only [Bool.false_eq_true, if_false, decide_eq_decide]
          omega
    obtain ⟨h1, s1, e1, a1, a2, a3, a4, a5⟩ := key
    obtain ⟨h2, s2, e2, b1, b2, b3, b4, b5⟩ := tableLocks_inv files calls _ h1 s1 a1 (fun i hif => by rw [a2]; exact hm i hif) a3
    refine ⟨h2, s2, ?_, b1, b2.trans a2, b3, fun o ho hf => a4 o (b4 o ho hf) hf, fun i p hp => b5 i p (a5 i p hp)⟩
    rw [tableLocks, e1, Outcome.ok_bind]
    exact e2

/-- **C108.** However often a table is locked and unlocked, its files are locked exactly as long as a lock is held (unlocking without a lock
counts for nothing), and no other object is affected. Kept contents of the files then survive any collection of garbage. -/
theorem table_locks (ops : List Op) (hl : Spec.Legal .init ops) (files : List (Option Nat))
    (hf : ∀ i, some i ∈ files → ∃ o ∈ (Spec.State.init.run ops).objs, o.id = i ∧ o.locked = false) (calls : List (Nat × Bool)) :
    ∃ h h' x, run empty ops = .ok (some h) ∧ tableLocks h ⟨0, files⟩ calls = .ok (h', x) ∧ x.count = Spec.pending (calls.map (·.2)) ∧
      (∀ i, some i ∈ files → ∃ c, h'.cell i = some c ∧ c.locked = decide (0 < Spec.pending (calls.map (·.2)))) ∧
      (∀ o ∈ (Spec.State.init.run ops).objs, some o.id ∉ files → ∃ c, h'.cell o.id = some c ∧ c.locked = o.locked) ∧
      (0 < Spec.pending (calls.map (·.2)) → ∀ i, some i ∈ files → ∀ p, Points h i p → ∀ t, ∃ h2, garbage h' h'.fresh t = .ok (some h2) ∧ Points h2 i p) := by
  obtain ⟨h, e, hi, _⟩ := run_inv ops empty .init inv_empty hl
  obtain ⟨h', s', e', i', b2, b3, b4, b5⟩ := tableLocks_inv files calls 0 h _ hi
    (fun i hif => by obtain ⟨o, ho, rfl, _⟩ := hf i hif; exact List.mem_map_of_mem ho)
    (fun o ho hof => by
      obtain ⟨o', ho', hid, hlk⟩ := hf _ hof
      rw [mem_unique hi.linked.nodup ho ho' hid.symm, hlk]
      rfl)
  have at_ : ∀ i, some i ∈ files → ∃ o ∈ s'.objs, o.id = i := by
    intro i hif
    obtain ⟨o, ho, rfl, _⟩ := hf i hif
    have : o.id ∈ s'.objs.map Spec.Obj.id := by rw [b2]; exact List.mem_map_of_mem ho
    obtain ⟨o', ho', hid⟩ := List.mem_map.1 this
    exact ⟨o', ho', hid⟩
  refine ⟨h, h', _, e, e', rfl, fun i hif => ?_, fun o ho hof => ?_, fun hp i hif p hpt t => ?_⟩
  · obtain ⟨o, ho, rfl⟩ := at_ i hif
    obtain ⟨c, hc, ha⟩ := i'.agrees o ho
    exact ⟨c, hc, ha.locked.trans (b3 o ho hif)⟩
  · have : o.id ∈ s'.objs.map Spec.Obj.id := by rw [b2]; exact List.mem_map_of_mem ho
    obtain ⟨o', ho', hid⟩ := List.mem_map.1 this
    have h1 := b4 o' ho' (by rw [hid]; exact hof)
    have h2 := mem_unique hi.linked.nodup h1 ho hid
    subst h2
    obtain ⟨c, hc, ha⟩ := i'.agrees o' ho'
    exact ⟨c, hc, ha.locked⟩
  · obtain ⟨o, ho, rfl⟩ := at_ i hif
    obtain ⟨h2, g1, g2, g3⟩ := garbage_inv i' t
    refine ⟨h2, g1, ?_⟩
    obtain ⟨c, c1, c2⟩ := b5 _ p hpt
    exact ⟨c, by rw [g3 o ho (.inl (by rw [b3 o ho hif]; exact decide_eq_true hp))]; exact c1, c2⟩

/-! ## What goes wrong -/

/-- The list after a failed construction. -/
theorem createBad_list {h : Heap} {s : Spec.State} (hi : Inv h s) (base block : Nat) :
    ∃ h', createBad h base block = .ok h' ∧ h'.last = some s.made ∧ h'.cell s.made = none ∧ h'.fresh = s.made + 1 := by
  obtain ⟨h1, e1, i1, _⟩ := create_inv hi base block []
  refine ⟨put h1 s.made none, ?_, ?_, put_same _ _ _, i1.fresh⟩
  · unfold createBad
    unfold create at e1
    rw [e1]
    rfl
  · show h1.last = _
    rw [i1.linked.last]
    simp [Spec.State.step]

/-- **C108, counterexample.** After a construction that failed (a page that is no object) the next construction, of whatever object of
whatever database, writes to released memory. -/
theorem failed_creation_undefined (ops : List Op) (hl : Spec.Legal .init ops) (base block base' block' : Nat) (bytes : Bytes) :
    ∃ h h', run empty ops = .ok (some h) ∧ createBad h base block = .ok h' ∧ create h' base' block' bytes = .ub := by
  obtain ⟨h, e, hi, _⟩ := run_inv ops empty .init inv_empty hl
  obtain ⟨h', e', h1, h2, h3⟩ := createBad_list hi base block
  refine ⟨h, h', e, e', ?_⟩
  unfold create link append
  simp only [put, h1, h3]
  unfold modify deref
  simp [h2]

end Verif.Pool
