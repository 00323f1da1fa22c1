import Verif.Pool.Spec

/-! # The list of objects and their buffers: invariants -/

namespace Verif.Pool
open Verif

/-- The pointers link exactly these objects, in this order. -/
structure Linked (h : Heap) (l : List Nat) : Prop where
  nodup : l.Nodup
  first : h.first = l.head?
  last : h.last = l.getLast?
  at_ : ∀ (k i : Nat), l[k]? = some i → ∃ c, h.cell i = some c ∧ c.prev = (if k = 0 then none else l[k - 1]?) ∧ c.next = l[k + 1]?

/-- Members of the object as the specification has them, and its buffer holds its contents. -/
structure Agrees (h : Heap) (o : Spec.Obj) (c : Cell) : Prop where
  base : c.base = o.base
  block : c.block = o.block
  bytes : c.bytes = o.bytes
  locked : c.locked = o.locked
  used : c.lastget = o.used
  buf : ∀ p, c.data = some p → h.buf p = some o.bytes ∧ p < h.bufs ∧ c.lastget ≠ none

structure Inv (h : Heap) (s : Spec.State) : Prop where
  fresh : h.fresh = s.made
  below : ∀ o ∈ s.objs, o.id < s.made
  few : s.objs.length ≤ s.made
  linked : Linked h (s.objs.map Spec.Obj.id)
  agrees : ∀ o ∈ s.objs, ∃ c, h.cell o.id = some c ∧ Agrees h o c
  apart : ∀ i j ci cj p, h.cell i = some ci → h.cell j = some cj → ci.data = some p → cj.data = some p → i = j
  dead : ∀ i c, h.cell i = some c → i ∈ s.objs.map Spec.Obj.id

theorem inv_empty : Inv empty Spec.State.init :=
  ⟨rfl, fun _ h => by simp [Spec.State.init] at h, Nat.le_refl _, ⟨List.nodup_nil, rfl, rfl, fun _ _ h => by simp [Spec.State.init] at h⟩,
    fun _ h => by simp [Spec.State.init] at h, fun _ _ _ _ _ h => by simp [empty] at h, fun _ _ h => by simp [empty] at h⟩

/-! ## Steps that leave the links alone -/

/-- Same links. -/
structure Keeps (h h' : Heap) : Prop where
  fresh : h'.fresh = h.fresh
  first : h'.first = h.first
  last : h'.last = h.last
  links : ∀ i c, h.cell i = some c → ∃ c', h'.cell i = some c' ∧ c'.prev = c.prev ∧ c'.next = c.next

theorem Keeps.trans {a b c : Heap} (h : Keeps a b) (g : Keeps b c) : Keeps a c :=
  ⟨g.fresh.trans h.fresh, g.first.trans h.first, g.last.trans h.last, fun i x hx => by
    obtain ⟨y, y1, y2, y3⟩ := h.links i x hx
    obtain ⟨z, z1, z2, z3⟩ := g.links i y y1
    exact ⟨z, z1, z2.trans y2, z3.trans y3⟩⟩

theorem Linked.keeps {h h' : Heap} {l : List Nat} (hl : Linked h l) (hk : Keeps h h') : Linked h' l :=
  ⟨hl.nodup, hk.first.trans hl.first, hk.last.trans hl.last, fun k i hi => by
    obtain ⟨c, h1, h2, h3⟩ := hl.at_ k i hi
    obtain ⟨c', g1, g2, g3⟩ := hk.links i c h1
    exact ⟨c', g1, g2.trans h2, g3.trans h3⟩⟩

theorem modify_eq {h : Heap} {i : Nat} {c : Cell} (hc : h.cell i = some c) (f : Cell → Cell) :
    modify h i f = .ok (put h i (some (f c))) := by
  simp [modify, deref, hc]

theorem put_same (h : Heap) (i : Nat) (c : Option Cell) : (put h i c).cell i = c := by simp [put]
theorem put_other (h : Heap) {i j : Nat} (hj : j ≠ i) (c : Option Cell) : (put h i c).cell j = h.cell j := by simp [put, hj]

/-- The result of `drop`. -/
def dropped (h : Heap) (i : Nat) (c : Cell) : Heap :=
  { h with cell := fun j => if j = i then some { c with data := none } else h.cell j,
           buf := fun q => if c.data = some q then none else h.buf q }

theorem drop_eq {h : Heap} {i : Nat} {c : Cell} (hc : h.cell i = some c) : drop h i = .ok (dropped h i c) := by
  unfold drop
  rw [show deref h i = .ok c by simp [deref, hc], Outcome.ok_bind]
  cases hd : c.data with
  | none =>
    simp only
    rw [modify_eq hc]
    simp [dropped, put, hd]
  | some p =>
    simp only
    rw [modify_eq (c := c) (by simp [freeBuf, hc])]
    simp only [dropped, put, freeBuf, hd, Option.some.injEq, Outcome.ok.injEq, Heap.mk.injEq, and_true, true_and]
    funext q
    by_cases hq : q = p
    · subst hq; simp
    · rw [if_neg hq, if_neg (fun e => hq e.symm)]

theorem dropped_keeps {h : Heap} {i : Nat} {c : Cell} (hc : h.cell i = some c) : Keeps h (dropped h i c) :=
  ⟨rfl, rfl, rfl, fun j d hd => by
    by_cases hj : j = i
    · subst hj
      rw [hc] at hd
      cases hd
      exact ⟨{ c with data := none }, by simp [dropped], rfl, rfl⟩
    · exact ⟨d, by simp only [dropped, if_neg hj]; exact hd, rfl, rfl⟩⟩

theorem mem_unique {s : Spec.State} (hn : (s.objs.map Spec.Obj.id).Nodup) {o o' : Spec.Obj} (h : o ∈ s.objs) (h' : o' ∈ s.objs)
    (he : o.id = o'.id) : o = o' := by
  obtain ⟨k, hk⟩ := List.getElem?_of_mem h
  obtain ⟨j, hj⟩ := List.getElem?_of_mem h'
  have h1 : (s.objs.map Spec.Obj.id)[k]? = some o.id := by simp [hk]
  have h2 : (s.objs.map Spec.Obj.id)[j]? = some o.id := by simp [hj, he]
  have hkl : k < (s.objs.map Spec.Obj.id).length := (List.getElem?_eq_some_iff.1 h1).1
  have hkj := (List.getElem?_inj hkl hn).1 (h1.trans h2.symm)
  subst hkj
  rw [hk] at hj
  exact Option.some.inj hj

theorem on_ids (s : Spec.State) (i : Nat) (f : Spec.Obj → Spec.Obj) (hf : ∀ o, (f o).id = o.id) :
    (s.on i f).objs.map Spec.Obj.id = s.objs.map Spec.Obj.id := by
  simp only [Spec.State.on, List.map_map]
  apply List.map_congr_left
  intro o _
  simp only [Function.comp]
  split
  · exact hf o
  · rfl

/-- A step that changes one object only: the cell, and buffers that are the object's or new. -/
theorem inv_on {h h' : Heap} {s : Spec.State} (hi : Inv h s) {i : Nat} {c c' : Cell} {o : Spec.Obj} (ho : o ∈ s.objs) (hid : o.id = i)
    (hc : h.cell i = some c) (f : Spec.Obj → Spec.Obj) (hf : ∀ o, (f o).id = o.id)
    (hcell : ∀ j, h'.cell j = if j = i then some c' else h.cell j) (hfr : h'.fresh = h.fresh) (hfi : h'.first = h.first)
    (hla : h'.last = h.last) (hp : c'.prev = c.prev) (hnx : c'.next = c.next) (ha : Agrees h' (f o) c')
    (hb : ∀ q x, h.buf q = some x → c.data ≠ some q → q < h.bufs → h'.buf q = some x ∧ q < h'.bufs)
    (hd : ∀ p, c'.data = some p → c.data = some p ∨ p = h.bufs) : Inv h' (s.on i f) := by
  refine ⟨hfr.trans hi.fresh, ?_, ?_, ?_, ?_, ?_, ?_⟩
  · intro x hx
    simp only [Spec.State.on, List.mem_map] at hx
    obtain ⟨y, hy, rfl⟩ := hx
    have := hi.below y hy
    split
    · rw [hf]; exact this
    · exact this
  · simpa [Spec.State.on] using hi.few
  · rw [on_ids _ _ _ hf]
    apply hi.linked.keeps
    refine ⟨hfr, hfi, hla, fun j d hd => ?_⟩
    by_cases hj : j = i
    · subst hj
      rw [hc] at hd
      cases hd
      exact ⟨c', by rw [hcell, if_pos rfl], hp, hnx⟩
    · exact ⟨d, by rw [hcell, if_neg hj]; exact hd, rfl, rfl⟩
  · intro x hx
    simp only [Spec.State.on, List.mem_map] at hx
    obtain ⟨y, hy, rfl⟩ := hx
    by_cases hyi : y.id = i
    · rw [if_pos hyi]
      have : y = o := mem_unique hi.linked.nodup hy ho (hyi.trans hid.symm)
      subst this
      refine ⟨c', ?_, ha⟩
      rw [hf, hcell, if_pos hyi]
    · rw [if_neg hyi]
      obtain ⟨d, hd1, hd2⟩ := hi.agrees y hy
      refine ⟨d, by rw [hcell, if_neg hyi]; exact hd1, hd2.base, hd2.block, hd2.bytes, hd2.locked, hd2.used, fun p hp' => ?_⟩
      obtain ⟨b1, b2, b3⟩ := hd2.buf p hp'
      have hne : c.data ≠ some p := fun e => hyi (hi.apart _ _ _ _ _ hd1 hc hp' e)
      exact ⟨(hb p _ b1 hne b2).1, (hb p _ b1 hne b2).2, b3⟩
  · intro j k cj ck p h1 h2 h3 h4
    rw [hcell] at h1 h2
    have key : ∀ j cj, j ≠ i → h.cell j = some cj → cj.data = some p → c'.data = some p → False := by
      intro j cj hj g1 g2 g3
      rcases hd p g3 with e | e
      · exact hj (hi.apart _ _ _ _ _ g1 hc g2 e)
      · have hm := hi.dead j cj g1
        obtain ⟨y, hy, hyj⟩ := List.mem_map.1 hm
        obtain ⟨d, d1, d2⟩ := hi.agrees y hy
        rw [hyj, g1] at d1
        cases d1
        have := (d2.buf p g2).2.1
        omega
    by_cases hj : j = i <;> by_cases hk : k = i
    · rw [hj, hk]
    · rw [if_pos hj] at h1; rw [if_neg hk] at h2
      cases h1
      exact (key k ck hk h2 h4 h3).elim
    · rw [if_neg hj] at h1; rw [if_pos hk] at h2
      cases h2
      exact (key j cj hj h1 h3 h4).elim
    · rw [if_neg hj] at h1; rw [if_neg hk] at h2
      exact hi.apart _ _ _ _ _ h1 h2 h3 h4
  · intro j d hd'
    rw [on_ids _ _ _ hf]
    rw [hcell] at hd'
    by_cases hj : j = i
    · rw [hj, ← hid]; exact List.mem_map_of_mem ho
    · rw [if_neg hj] at hd'
      exact hi.dead j d hd'

theorem Inv.obj {h : Heap} {s : Spec.State} (hi : Inv h s) {i : Nat} (hm : i ∈ s.objs.map Spec.Obj.id) :
    ∃ o ∈ s.objs, o.id = i ∧ ∃ c, h.cell i = some c ∧ Agrees h o c := by
  obtain ⟨o, ho, rfl⟩ := List.mem_map.1 hm
  exact ⟨o, ho, rfl, hi.agrees o ho⟩

theorem setLock_inv {h : Heap} {s : Spec.State} (hi : Inv h s) {i : Nat} (hm : i ∈ s.objs.map Spec.Obj.id) (t : Nat) (b : Bool) :
    ∃ h', setLock h i t b = .ok h' ∧ Inv h' (s.step (.lock i t b)) ∧ h'.buf = h.buf ∧
      (∀ j c, h.cell j = some c → ∃ c', h'.cell j = some c' ∧ c'.data = c.data ∧ (j ≠ i → c' = c)) := by
  obtain ⟨o, ho, hid, c, hc, ha⟩ := hi.obj hm
  refine ⟨_, modify_eq hc _, inv_on hi ho hid hc _ (fun _ => rfl) (c' := { c with locked := b, lastget := some t }) (fun j => ?_) rfl rfl rfl rfl rfl
    ⟨ha.base, ha.block, ha.bytes, rfl, rfl, fun p hp => ⟨(ha.buf p hp).1, (ha.buf p hp).2.1, by simp⟩⟩ (fun q x h1 _ h2 => ⟨h1, h2⟩) (fun p hp => .inl hp), rfl, ?_⟩
  · simp [put]
  · intro j d hd
    by_cases hj : j = i
    · subst hj
      rw [hc] at hd; cases hd
      exact ⟨_, put_same _ _ _, rfl, fun e => absurd rfl e⟩
    · exact ⟨d, by rw [put_other _ hj]; exact hd, rfl, fun _ => rfl⟩

theorem write_inv {h : Heap} {s : Spec.State} (hi : Inv h s) {i : Nat} (hm : i ∈ s.objs.map Spec.Obj.id) (t : Nat) (b : Bytes) :
    ∃ h', write h i t b = .ok h' ∧ Inv h' (s.step (.write i t b)) ∧ (∀ j, j ≠ i → h'.cell j = h.cell j) := by
  obtain ⟨o, ho, hid, c, hc, ha⟩ := hi.obj hm
  have e : write h i t b = .ok (put (dropped h i c) i (some { c with data := none, bytes := b, lastget := some t })) := by
    unfold write
    rw [drop_eq hc, Outcome.ok_bind, modify_eq (c := { c with data := none }) (by simp [dropped])]
  refine ⟨_, e, inv_on hi ho hid hc _ (fun _ => rfl) (c' := { c with data := none, bytes := b, lastget := some t }) (fun j => ?_) rfl rfl rfl rfl rfl
    ⟨ha.base, ha.block, rfl, ha.locked, rfl, fun p hp => (by cases hp)⟩ (fun q x h1 h2 h3 => ⟨?_, h3⟩) (fun p hp => (by cases hp)), fun j hj => ?_⟩
  · by_cases hj : j = i
    · subst hj; simp [put]
    · simp [put, dropped, hj]
  · simp only [put, dropped, if_neg h2, h1]
  · simp [put, dropped, hj]

theorem get_inv {h : Heap} {s : Spec.State} (hi : Inv h s) {i : Nat} (hm : i ∈ s.objs.map Spec.Obj.id) (t : Nat) :
    ∃ h' p, get h i t = .ok (h', p) ∧ Inv h' (s.step (.get i t)) ∧ (∀ q x, h.buf q = some x → q < h.bufs → h'.buf q = some x) ∧
      (∀ j c, h.cell j = some c → ∃ c', h'.cell j = some c' ∧ (∀ q, c.data = some q → c'.data = some q)) ∧
      ∃ o ∈ s.objs, o.id = i ∧ (p = none ↔ o.bytes = []) ∧ ∀ q, p = some q → h'.buf q = some o.bytes ∧ ∃ c', h'.cell i = some c' ∧ c'.data = some q := by
  obtain ⟨o, ho, hid, c, hc, ha⟩ := hi.obj hm
  unfold get
  rw [modify_eq hc, Outcome.ok_bind, show deref (put h i (some { c with lastget := some t })) i = .ok { c with lastget := some t } by simp [deref, put], Outcome.ok_bind]
  by_cases he : c.bytes.isEmpty
  · rw [if_pos he]
    refine ⟨_, _, rfl, inv_on hi ho hid hc _ (fun _ => rfl) (c' := { c with lastget := some t }) (fun j => by simp [put]) rfl rfl rfl rfl rfl
      ⟨ha.base, ha.block, ha.bytes, ha.locked, rfl, fun p hp => ⟨(ha.buf p hp).1, (ha.buf p hp).2.1, by simp⟩⟩ (fun q x h1 _ h2 => ⟨h1, h2⟩) (fun p hp => .inl hp),
      fun _ _ h _ => h, fun j d hd => ?_, o, ho, hid, ⟨fun _ => ?_, fun _ => rfl⟩, fun q hq => (by cases hq)⟩
    · by_cases hj : j = i
      · subst hj
        rw [hc] at hd; cases hd
        exact ⟨_, put_same _ _ _, fun _ hq => hq⟩
      · exact ⟨d, by rw [put_other _ hj]; exact hd, fun _ hq => hq⟩
    · rw [← ha.bytes]; exact List.isEmpty_iff.1 he
  · rw [if_neg he]
    have hne : o.bytes ≠ [] := fun e => he (by rw [ha.bytes, e]; rfl)
    cases hd : c.data with
    | some p =>
      simp only
      refine ⟨_, _, rfl, inv_on hi ho hid hc _ (fun _ => rfl) (c' := { c with data := some p, lastget := some t }) (fun j => by simp [put]) rfl rfl rfl rfl rfl
        ⟨ha.base, ha.block, ha.bytes, ha.locked, rfl, fun q hp => ⟨(ha.buf q (hd.trans hp)).1, (ha.buf q (hd.trans hp)).2.1, by simp⟩⟩ (fun q x h1 _ h2 => ⟨h1, h2⟩) (fun q hp => .inl (hd.trans hp)),
        fun _ _ h _ => h, fun j d hd' => ?_, o, ho, hid, ⟨fun e => (by cases e), fun e => absurd e hne⟩, fun q hq => ?_⟩
      · by_cases hj : j = i
        · subst hj
          rw [hc] at hd'; cases hd'
          exact ⟨_, put_same _ _ _, fun _ hq => hd.symm.trans hq⟩
        · exact ⟨d, by rw [put_other _ hj]; exact hd', fun _ hq => hq⟩
      · cases hq
        exact ⟨(ha.buf p hd).1, _, put_same _ _ _, rfl⟩
    | none =>
      simp only
      rw [modify_eq (c := { c with data := none, lastget := some t }) (by simp [put, ← hd]), Outcome.ok_bind]
      refine ⟨_, _, rfl, inv_on hi ho hid hc _ (fun _ => rfl) (c' := { c with lastget := some t, data := some h.bufs }) (fun j => ?_) rfl rfl rfl rfl rfl
        ⟨ha.base, ha.block, ha.bytes, ha.locked, rfl, fun p hp => ?_⟩ (fun q x h1 _ h2 => ?_) (fun p hp => .inr (Option.some.inj hp).symm),
        fun q x h1 h2 => ?_, fun j d hd' => ?_, o, ho, hid, ⟨fun e => (by cases e), fun e => absurd e hne⟩, fun q hq => ?_⟩
      · by_cases hj : j = i
        · subst hj; simp [put]
        · simp [put, hj]
      · cases hp
        refine ⟨?_, ?_, by simp⟩
        · show (if h.bufs = h.bufs then some c.bytes else _) = _
          rw [if_pos rfl, ha.bytes]
        · exact Nat.lt_succ_self _
      · refine ⟨?_, Nat.lt_succ_of_lt h2⟩
        show (if q = h.bufs then some c.bytes else h.buf q) = _
        rw [if_neg (by omega)]; exact h1
      · show (if q = h.bufs then some c.bytes else h.buf q) = _
        rw [if_neg (by omega)]; exact h1
      · by_cases hj : j = i
        · subst hj
          rw [hc] at hd'; cases hd'
          exact ⟨_, put_same _ _ _, fun q hq => (by rw [hd] at hq; cases hq)⟩
        · refine ⟨d, ?_, fun _ hq => hq⟩
          rw [put_other _ hj]
          show (put h i _).cell j = _
          rw [put_other _ hj]; exact hd'
      · cases hq
        refine ⟨?_, _, put_same _ _ _, rfl⟩
        show (if h.bufs = h.bufs then some c.bytes else _) = _
        rw [if_pos rfl, ha.bytes]

/-! ## Collecting garbage -/

theorem on_id (s : Spec.State) (i : Nat) : s.on i (fun o => o) = s := by
  cases s
  simp [Spec.State.on]

theorem dropped_inv {h : Heap} {s : Spec.State} (hi : Inv h s) {i : Nat} (hm : i ∈ s.objs.map Spec.Obj.id) {c : Cell} (hc : h.cell i = some c) :
    Inv (dropped h i c) s := by
  obtain ⟨o, ho, hid, c', hc', ha⟩ := hi.obj hm
  rw [hc] at hc'
  cases hc'
  have := inv_on (h' := dropped h i c) hi ho hid hc (fun o => o) (fun _ => rfl) (c' := { c with data := none }) (fun j => rfl) rfl rfl rfl rfl rfl
    ⟨ha.base, ha.block, ha.bytes, ha.locked, ha.used, fun p hp => (by cases hp)⟩ (fun q x h1 h2 h3 => ⟨by simp only [dropped, if_neg h2, h1], h3⟩)
    (fun p hp => (by cases hp))
  rwa [on_id] at this

theorem sweepOne_inv {h : Heap} {s : Spec.State} (hi : Inv h s) {i : Nat} (hm : i ∈ s.objs.map Spec.Obj.id) (t : Nat) :
    ∃ h', sweepOne h i t = .ok h' ∧ Inv h' s ∧ (∀ j, j ≠ i → h'.cell j = h.cell j) ∧
      ∀ o ∈ s.objs, o.id = i → (o.locked = true ∨ ∃ u, o.used = some u ∧ old t u = false) → h' = h := by
  obtain ⟨o, ho, hid, c, hc, ha⟩ := hi.obj hm
  unfold sweepOne
  rw [show deref h i = .ok c by simp [deref, hc], Outcome.ok_bind]
  have same : ∀ x ∈ s.objs, x.id = i → x = o := fun x hx hxi => mem_unique hi.linked.nodup hx ho (hxi.trans hid.symm)
  by_cases hl : c.locked = true
  · rw [if_pos hl]
    exact ⟨h, rfl, hi, fun _ _ => rfl, fun _ _ _ _ => rfl⟩
  · rw [if_neg hl]
    cases hd : c.data with
    | none => exact ⟨h, rfl, hi, fun _ _ => rfl, fun _ _ _ _ => rfl⟩
    | some p =>
      simp only
      cases hu : c.lastget with
      | none => exact absurd hu (ha.buf p hd).2.2
      | some u =>
        simp only
        by_cases hold : old t u = true
        · rw [if_pos hold, drop_eq hc]
          refine ⟨_, rfl, dropped_inv hi hm hc, fun j hj => by simp [dropped, hj], fun x hx hxi hor => ?_⟩
          rw [same x hx hxi] at hor
          rcases hor with e | ⟨v, e1, e2⟩
          · rw [← ha.locked] at e; exact absurd e hl
          · rw [← ha.used, hu] at e1
            cases e1
            rw [hold] at e2; cases e2
        · rw [if_neg hold]
          exact ⟨h, rfl, hi, fun _ _ => rfl, fun _ _ _ _ => rfl⟩

theorem sweep_inv (t : Nat) : ∀ (n k : Nat) (h : Heap) (s : Spec.State), Inv h s → s.objs.length ≤ n + k →
    ∃ h', sweep t n h ((s.objs.map Spec.Obj.id)[k]?) = .ok (some h') ∧ Inv h' s ∧
      ∀ o ∈ s.objs, (o.locked = true ∨ ∃ u, o.used = some u ∧ old t u = false) → h'.cell o.id = h.cell o.id
  | n, k, h, s, hi, hn => by
    rcases hk : (s.objs.map Spec.Obj.id)[k]? with _ | i
    · exact ⟨h, by unfold sweep; rfl, hi, fun _ _ _ => rfl⟩
    · cases n with
      | zero =>
        have := (List.getElem?_eq_some_iff.1 hk).1
        rw [List.length_map] at this
        omega
      | succ n =>
        have hm : i ∈ s.objs.map Spec.Obj.id := List.mem_of_getElem? hk
        obtain ⟨h1, e1, i1, o1, p1⟩ := sweepOne_inv hi hm t
        obtain ⟨c, hc, _, hnx⟩ := i1.linked.at_ k i hk
        obtain ⟨h2, e2, i2, p2⟩ := sweep_inv t n (k + 1) h1 s i1 (by omega)
        refine ⟨h2, ?_, i2, fun o ho hor => ?_⟩
        · rw [sweep, e1, Outcome.ok_bind, show deref h1 i = .ok c by simp [deref, hc], Outcome.ok_bind, hnx, e2]
        · rw [p2 o ho hor]
          by_cases hoi : o.id = i
          · rw [p1 o ho hoi hor]
          · exact o1 _ hoi

theorem garbage_inv {h : Heap} {s : Spec.State} (hi : Inv h s) (t : Nat) :
    ∃ h', garbage h h.fresh t = .ok (some h') ∧ Inv h' s ∧
      ∀ o ∈ s.objs, (o.locked = true ∨ ∃ u, o.used = some u ∧ old t u = false) → h'.cell o.id = h.cell o.id := by
  have := sweep_inv t h.fresh 0 h s hi (by have := hi.few; have := hi.fresh; omega)
  unfold garbage
  rw [hi.linked.first, List.head?_eq_getElem?]
  exact this

/-! ## Creation and destruction -/

theorem create_inv {h : Heap} {s : Spec.State} (hi : Inv h s) (base block : Nat) (bytes : Bytes) :
    ∃ h', create h base block bytes = .ok (h', s.made) ∧ Inv h' (s.step (.create base block bytes)) ∧ h'.buf = h.buf ∧
      (∀ j c, h.cell j = some c → ∃ c', h'.cell j = some c' ∧ c'.data = c.data) := by
  generalize hl : s.objs.map Spec.Obj.id = l
  have L := hi.linked
  rw [hl] at L
  have hlt : ∀ i ∈ l, i < s.made := by
    rw [← hl]
    intro i him
    obtain ⟨o, ho, rfl⟩ := List.mem_map.1 him
    exact hi.below o ho
  have hfr := hi.fresh
  -- the heap after the call
  have key : ∃ h', create h base block bytes = .ok (h', s.made) ∧ h'.fresh = s.made + 1 ∧ h'.first = (l ++ [s.made]).head? ∧ h'.last = some s.made ∧
      h'.buf = h.buf ∧ h'.bufs = h.bufs ∧ h'.cell s.made = some ⟨base, block, bytes, none, false, none, none, l.getLast?⟩ ∧
      (∀ i c, i ≠ s.made → h.cell i = some c → h'.cell i = some { c with next := if l.getLast? = some i then some s.made else c.next }) ∧
      (∀ i, i ≠ s.made → h.cell i = none → h'.cell i = none) := by
    unfold create link append
    dsimp only
    rcases hg : l.getLast? with _ | q
    · have hnil : l = [] := List.getLast?_eq_none_iff.1 hg
      have e : h.last = none := by rw [L.last, hg]
      simp only [put, e, hfr, Outcome.ok_bind]
      refine ⟨_, rfl, rfl, by simp [hnil], rfl, rfl, rfl, by simp, fun i c hic hc => ?_, fun i hic hc => by simp [hic, hc]⟩
      simp [hic, hc]
    · have e : h.last = some q := by rw [L.last, hg]
      have hq : q ∈ l := List.mem_of_getLast? hg
      have hqm := hlt q hq
      obtain ⟨kq, hkq⟩ := List.getElem?_of_mem hq
      obtain ⟨cq, hcq, _, _⟩ := L.at_ kq q hkq
      have hqn : q ≠ s.made := by omega
      simp only [put, e, hfr]
      rw [modify_eq (c := cq) (by simp [hqn, hcq]), Outcome.ok_bind]
      refine ⟨_, rfl, rfl, ?_, rfl, rfl, rfl, ?_, fun i c hic hc => ?_, fun i hic hc => ?_⟩
      · show h.first = _
        rw [L.first]
        cases l with
        | nil => simp at hq
        | cons a b => simp
      · show (put _ q _).cell s.made = _
        rw [put_other _ (fun e => hqn e.symm)]
        simp
      · by_cases hiq : i = q
        · subst hiq
          rw [hcq] at hc
          cases hc
          simp [put]
        · have : ¬ (some q = some i) := fun e => hiq (Option.some.inj e).symm
          simp [put, hiq, hic, hc, this]
      · have hiq : i ≠ q := fun e => by rw [e, hcq] at hc; cases hc
        simp [put, hiq, hic, hc]
  obtain ⟨h', e, f1, f2, f3, f4, f5, f6, f7, f8⟩ := key
  refine ⟨h', e, ⟨f1, ?_, ?_, ?_, ?_, ?_, ?_⟩, f4, ?_⟩
  · intro o ho
    simp only [Spec.State.step, List.mem_append, List.mem_singleton] at ho
    show o.id < s.made + 1
    rcases ho with ho | rfl
    · have := hi.below o ho
      omega
    · exact Nat.lt_succ_self _
  · simp only [Spec.State.step, List.length_append, List.length_singleton]
    have := hi.few
    omega
  · have hids : (s.step (.create base block bytes)).objs.map Spec.Obj.id = l ++ [s.made] := by simp [Spec.State.step, hl]
    rw [hids]
    refine ⟨?_, f2, by rw [f3]; simp, fun k i hk => ?_⟩
    · rw [List.nodup_append]
      refine ⟨L.nodup, by simp, ?_⟩
      intro a ha b hb
      rw [List.mem_singleton] at hb
      have := hlt a ha
      omega
    · rcases Nat.lt_or_ge k l.length with hkl | hkl
      · rw [List.getElem?_append_left hkl] at hk
        have him := List.mem_of_getElem? hk
        obtain ⟨c, hc, h2, h3⟩ := L.at_ k i hk
        refine ⟨_, f7 i c (by have := hlt i him; omega) hc, ?_, ?_⟩
        · rw [h2]
          split
          · rfl
          · rw [List.getElem?_append_left (by omega)]
        · dsimp only
          rcases Nat.lt_or_ge (k + 1) l.length with hk1 | hk1
          · rw [List.getElem?_append_left hk1, if_neg, h3]
            intro hg
            rw [List.getLast?_eq_getElem?, ← hk] at hg
            have := (List.getElem?_inj (by omega) L.nodup).1 hg
            omega
          · rw [if_pos (by rw [List.getLast?_eq_getElem?, ← hk]; congr 1; omega), List.getElem?_append_right hk1]
            rw [show k + 1 - l.length = 0 by omega]
            rfl
      · rw [List.getElem?_append_right hkl] at hk
        have hk0 : k - l.length = 0 := by
          have := (List.getElem?_eq_some_iff.1 hk).1
          simp at this
          omega
        rw [hk0] at hk
        simp at hk
        subst hk
        refine ⟨_, f6, ?_, ?_⟩
        · dsimp only
          by_cases hk1 : k = 0
          · rw [if_pos hk1]
            have : l = [] := List.length_eq_zero_iff.1 (by omega)
            rw [this]; rfl
          · rw [if_neg hk1, List.getElem?_append_left (by omega), List.getLast?_eq_getElem?]
            congr 1
            omega
        · dsimp only
          rw [List.getElem?_eq_none (by simp; omega)]
  · intro o ho
    simp only [Spec.State.step, List.mem_append, List.mem_singleton] at ho
    rcases ho with ho | rfl
    · obtain ⟨c, hc, ha⟩ := hi.agrees o ho
      have := hi.below o ho
      refine ⟨_, f7 o.id c (by omega) hc, ha.base, ha.block, ha.bytes, ha.locked, ha.used, fun p hp => ?_⟩
      rw [f4, f5]
      exact ha.buf p hp
    · exact ⟨_, f6, rfl, rfl, rfl, rfl, rfl, fun p hp => (by cases hp)⟩
  · have back : ∀ i ci p, h'.cell i = some ci → ci.data = some p → ∃ c, h.cell i = some c ∧ c.data = some p := by
      intro i ci p h1 h2
      by_cases him : i = s.made
      · rw [him, f6] at h1
        cases h1
        cases h2
      · rcases hc : h.cell i with _ | c
        · rw [f8 i him hc] at h1; cases h1
        · rw [f7 i c him hc] at h1
          cases h1
          exact ⟨c, rfl, h2⟩
    intro i j ci cj p h1 h2 h3 h4
    obtain ⟨c, a1, a2⟩ := back i ci p h1 h3
    obtain ⟨d, b1, b2⟩ := back j cj p h2 h4
    exact hi.apart _ _ _ _ _ a1 b1 a2 b2
  · intro i c hc
    simp only [Spec.State.step, List.map_append, List.mem_append]
    by_cases him : i = s.made
    · right; simp [him]
    · left
      rcases hd : h.cell i with _ | d
      · rw [f8 i him hd] at hc; cases hc
      · exact hi.dead i d hd
  · intro j c hc
    have hjm : j ≠ s.made := by
      have := hi.dead j c hc
      rw [hl] at this
      have := hlt j this
      omega
    exact ⟨_, f7 j c hjm hc, rfl⟩

theorem destroy_inv {h : Heap} {s : Spec.State} (hi : Inv h s) {i : Nat} (hm : i ∈ s.objs.map Spec.Obj.id) :
    ∃ h', destroy h i = .ok h' ∧ Inv h' (s.step (.destroy i)) ∧
      (∀ j c, j ≠ i → h.cell j = some c → ∃ c', h'.cell j = some c' ∧ c'.data = c.data) := by
  generalize hl : s.objs.map Spec.Obj.id = l at hm
  have L := hi.linked
  rw [hl] at L
  obtain ⟨k, hk⟩ := List.getElem?_of_mem hm
  obtain ⟨c, hc, hprev, hnext⟩ := L.at_ k i hk
  have hkl : k < l.length := (List.getElem?_eq_some_iff.1 hk).1
  -- where the others are
  have uniq : ∀ (m : Nat), l[m]? = some i → m = k := fun m hmk =>
    ((List.getElem?_inj (List.getElem?_eq_some_iff.1 hmk).1 L.nodup).1 (hmk.trans hk.symm))
  have hids : (s.step (.destroy i)).objs.map Spec.Obj.id = l.eraseIdx k := by
    have h1 : (s.step (.destroy i)).objs.map Spec.Obj.id = l.filter (fun x => x ≠ i) := by
      simp only [Spec.State.step, ← hl, List.filter_map]
      rfl
    rw [h1]
    have h2 : l = l.take k ++ i :: l.drop (k + 1) := by
      have h3 := (List.getElem?_eq_some_iff.1 hk).2
      rw [← h3, List.getElem_cons_drop, List.take_append_drop]
    rw [List.eraseIdx_eq_take_drop_succ]
    conv => lhs; rw [h2]
    have hnd : (l.take k ++ i :: l.drop (k + 1)).Nodup := h2 ▸ L.nodup
    rw [List.nodup_append] at hnd
    obtain ⟨_, n2, n3⟩ := hnd
    rw [List.nodup_cons] at n2
    rw [List.filter_append, List.filter_cons, if_neg (by simp)]
    rw [List.filter_eq_self.2, List.filter_eq_self.2]
    · intro x hx
      simp only [decide_eq_true_eq]
      intro e
      exact n2.1 (e ▸ hx)
    · intro x hx
      simp only [decide_eq_true_eq]
      exact n3 x hx i (by simp)
  -- the heap after the call
  have key : ∃ h', destroy h i = .ok h' ∧ h'.fresh = h.fresh ∧ h'.first = (if k = 0 then l[1]? else h.first) ∧
      h'.last = (if k + 1 = l.length then (if k = 0 then none else l[k - 1]?) else h.last) ∧
      h'.buf = (fun q => if c.data = some q then none else h.buf q) ∧ h'.bufs = h.bufs ∧ h'.cell i = none ∧
      (∀ j d, j ≠ i → h.cell j = some d → h'.cell j = some { d with
          next := if k ≠ 0 ∧ l[k - 1]? = some j then l[k + 1]? else d.next,
          prev := if l[k + 1]? = some j then (if k = 0 then none else l[k - 1]?) else d.prev }) ∧
      (∀ j, j ≠ i → h.cell j = none → h'.cell j = none) := by
    unfold destroy
    rw [drop_eq hc, Outcome.ok_bind, show deref (dropped h i c) i = .ok { c with data := none } by simp [deref, dropped], Outcome.ok_bind]
    -- before
    have before : ∃ h1, bypassPrev (dropped h i c) { c with data := none } = .ok h1 ∧ h1.fresh = h.fresh ∧
        h1.first = (if k = 0 then l[1]? else h.first) ∧ h1.last = h.last ∧ h1.buf = (dropped h i c).buf ∧ h1.bufs = h.bufs ∧
        (∀ j d, j ≠ i → h.cell j = some d → h1.cell j = some { d with next := if k ≠ 0 ∧ l[k - 1]? = some j then l[k + 1]? else d.next }) ∧
        (∀ j, j ≠ i → h.cell j = none → h1.cell j = none) := by
      unfold bypassPrev
      dsimp only
      rw [hprev, hnext]
      by_cases hk0 : k = 0
      · subst hk0
        rw [if_pos rfl]
        refine ⟨_, rfl, rfl, by simp, rfl, rfl, rfl, fun j d hj hd => by simp [dropped, hj, hd], fun j hj hd => by simp [dropped, hj, hd]⟩
      · rw [if_neg hk0]
        have hlt : k - 1 < l.length := by omega
        obtain ⟨q, hq⟩ : ∃ q, l[k - 1]? = some q := ⟨_, List.getElem?_eq_getElem hlt⟩
        have hqi : q ≠ i := fun e => by
          have := uniq _ (e ▸ hq)
          omega
        obtain ⟨cq, hcq, _⟩ := L.at_ _ _ hq
        rw [hq]
        dsimp only
        rw [modify_eq (c := cq) (by simp [dropped, hqi, hcq])]
        refine ⟨_, rfl, rfl, by rw [if_neg hk0]; rfl, rfl, rfl, rfl, fun j d hj hd => ?_, fun j hj hd => ?_⟩
        · by_cases hjq : j = q
          · subst hjq
            rw [hcq] at hd
            cases hd
            simp [put, hk0]
          · have : ¬ some q = some j := fun e => hjq (Option.some.inj e).symm
            simp [put, hjq, dropped, hj, hd, this]
        · have hjq : j ≠ q := fun e => by rw [e, hcq] at hd; cases hd
          simp [put, hjq, dropped, hj, hd]
    obtain ⟨h1, e1, a1, a2, a3, a4, a5, a6, a7⟩ := before
    rw [e1, Outcome.ok_bind]
    unfold bypassNext
    dsimp only
    rw [hprev, hnext]
    rcases hn : l[k + 1]? with _ | q
    · have hlen : k + 1 = l.length := by
        have := List.getElem?_eq_none_iff.1 hn
        omega
      simp only [Outcome.ok_bind]
      refine ⟨_, rfl, a1, ?_, by rw [if_pos hlen]; rfl, ?_, a5, put_same _ _ _, fun j d hj hd => ?_, fun j hj hd => ?_⟩
      · exact a2
      · show h1.buf = _
        rw [a4]; rfl
      · rw [put_other _ hj]
        show h1.cell j = _
        rw [a6 j d hj hd, hn]
        simp
      · rw [put_other _ hj]
        exact a7 j hj hd
    · have hqi : q ≠ i := fun e => by
        have := uniq _ (e ▸ hn)
        omega
      have hlen : ¬ k + 1 = l.length := by
        have := (List.getElem?_eq_some_iff.1 hn).1
        omega
      obtain ⟨cq, hcq, _⟩ := L.at_ _ _ hn
      dsimp only
      rw [modify_eq (a6 q cq hqi hcq), Outcome.ok_bind]
      refine ⟨_, rfl, a1, a2, by rw [if_neg hlen]; exact a3, ?_, a5, put_same _ _ _, fun j d hj hd => ?_, fun j hj hd => ?_⟩
      · show h1.buf = _
        rw [a4]; rfl
      · rw [put_other _ hj]
        by_cases hjq : j = q
        · subst hjq
          rw [hcq] at hd
          cases hd
          rw [put_same]
          simp [hn]
        · have : ¬ some q = some j := fun e => hjq (Option.some.inj e).symm
          rw [put_other _ hjq, a6 j d hj hd, hn, if_neg this]
      · have hjq : j ≠ q := fun e => by rw [e, hcq] at hd; cases hd
        rw [put_other _ hj, put_other _ hjq]
        exact a7 j hj hd
  obtain ⟨h', e, f1, f2, f3, f4, f5, f6, f7, f8⟩ := key
  have hmem : ∀ o, o ∈ (s.step (.destroy i)).objs ↔ o ∈ s.objs ∧ o.id ≠ i := by
    intro o
    simp [Spec.State.step]
  refine ⟨h', e, ⟨f1.trans hi.fresh, ?_, ?_, ?_, ?_, ?_, ?_⟩, fun j d hj hd => ⟨_, f7 j d hj hd, rfl⟩⟩
  · intro o ho
    exact hi.below o ((hmem o).1 ho).1
  · exact Nat.le_trans (List.length_filter_le _ _) hi.few
  · rw [hids]
    refine ⟨L.nodup.sublist (List.eraseIdx_sublist _ _), ?_, ?_, fun m j hmj => ?_⟩
    · rw [f2, L.first, List.head?_eq_getElem?, List.head?_eq_getElem?, List.getElem?_eraseIdx]
      by_cases hk0 : k = 0
      · rw [if_pos hk0, if_neg (by omega)]
      · rw [if_neg hk0, if_pos (by omega)]
    · rw [f3, L.last, List.getLast?_eq_getElem?, List.getLast?_eq_getElem?, List.getElem?_eraseIdx, List.length_eraseIdx, if_pos hkl]
      by_cases hk1 : k + 1 = l.length
      · rw [if_pos hk1]
        by_cases hk0 : k = 0
        · subst hk0
          rw [if_pos rfl, if_neg (by omega), List.getElem?_eq_none (by omega)]
        · rw [if_neg hk0, if_pos (by omega)]
          congr 1
          omega
      · rw [if_neg hk1, if_neg (by omega)]
        congr 1
        omega
    · rw [List.getElem?_eraseIdx] at hmj
      by_cases hmk : m < k
      · rw [if_pos hmk] at hmj
        have hji : j ≠ i := fun e => by
          have := uniq m (e ▸ hmj)
          omega
        obtain ⟨d, hd, d1, d2⟩ := L.at_ m j hmj
        have hmlt : m < l.length := by omega
        refine ⟨_, f7 j d hji hd, ?_, ?_⟩
        · dsimp only
          rw [if_neg, d1]
          · split
            · rfl
            · rw [List.getElem?_eraseIdx, if_pos (by omega)]
          · intro e
            have := (List.getElem?_inj hmlt L.nodup).1 (hmj.trans e.symm)
            omega
        · dsimp only
          rw [List.getElem?_eraseIdx]
          by_cases hm1 : m + 1 < k
          · rw [if_pos hm1, if_neg, d2]
            rintro ⟨_, e⟩
            have := (List.getElem?_inj hmlt L.nodup).1 (hmj.trans e.symm)
            omega
          · rw [if_neg hm1, if_pos ⟨by omega, by rw [← hmj]; congr 1; omega⟩]
            congr 1
            omega
      · rw [if_neg hmk] at hmj
        have hji : j ≠ i := fun e => by
          have := uniq (m + 1) (e ▸ hmj)
          omega
        obtain ⟨d, hd, d1, d2⟩ := L.at_ (m + 1) j hmj
        have hmlt : m + 1 < l.length := (List.getElem?_eq_some_iff.1 hmj).1
        refine ⟨_, f7 j d hji hd, ?_, ?_⟩
        · dsimp only
          by_cases hmk' : m = k
          · subst hmk'
            rw [if_pos hmj]
            by_cases h0 : m = 0
            · simp [h0]
            · rw [if_neg h0, if_neg h0, List.getElem?_eraseIdx, if_pos (by omega)]
          · rw [if_neg, d1, if_neg (by omega), if_neg (by omega), List.getElem?_eraseIdx, if_neg (by omega)]
            · congr 1
              omega
            · intro e
              have := (List.getElem?_inj hmlt L.nodup).1 (hmj.trans e.symm)
              omega
        · dsimp only
          rw [if_neg, d2, List.getElem?_eraseIdx, if_neg (by omega)]
          rintro ⟨_, e⟩
          have := (List.getElem?_inj hmlt L.nodup).1 (hmj.trans e.symm)
          omega
  · intro o ho
    obtain ⟨ho1, ho2⟩ := (hmem o).1 ho
    obtain ⟨d, hd, ha⟩ := hi.agrees o ho1
    refine ⟨_, f7 o.id d ho2 hd, ha.base, ha.block, ha.bytes, ha.locked, ha.used, fun p hp => ?_⟩
    obtain ⟨b1, b2, b3⟩ := ha.buf p hp
    refine ⟨?_, by rw [f5]; exact b2, b3⟩
    rw [f4]
    dsimp only
    rw [if_neg (fun e' => ho2 (hi.apart _ _ _ _ _ hd hc hp e'))]
    exact b1
  · have back : ∀ j cj p, h'.cell j = some cj → cj.data = some p → ∃ d, h.cell j = some d ∧ d.data = some p := by
      intro j cj p h1 h2
      by_cases hji : j = i
      · rw [hji, f6] at h1; cases h1
      · rcases hd : h.cell j with _ | d
        · rw [f8 j hji hd] at h1; cases h1
        · rw [f7 j d hji hd] at h1
          cases h1
          exact ⟨d, rfl, h2⟩
    intro a b ca cb p h1 h2 h3 h4
    obtain ⟨d1, x1, x2⟩ := back a ca p h1 h3
    obtain ⟨d2, y1, y2⟩ := back b cb p h2 h4
    exact hi.apart _ _ _ _ _ x1 y1 x2 y2
  · intro j d hd
    by_cases hji : j = i
    · rw [hji, f6] at hd; cases hd
    · rcases hx : h.cell j with _ | x
      · rw [f8 j hji hx] at hd; cases hd
      · obtain ⟨o, ho, hoj⟩ := List.mem_map.1 (hi.dead j x hx)
        exact List.mem_map.2 ⟨o, (hmem o).2 ⟨ho, by rw [hoj]; exact hji⟩, hoj⟩

end Verif.Pool
