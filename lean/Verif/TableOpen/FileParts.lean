import Verif.TableOpen.IndexParts

/-! # Lemmas: locks, files and the index file -/

namespace Verif.TableOpen
open Verif Record Tree
open Spec (Number IsStr IsNum IsBit FieldNode IndexFieldNode IndexNode TableNode Same WholeTail FirstNamed codes)

/-! ## Locks and page numbers -/

theorem lockPart_ne_ub (n : Node) : lockPart n ≠ .ub := by
  unfold lockPart
  split
  · refine bind_ne_ub (word_ne_ub _ _) fun _ _ => ?_
    split
    · simp
    · exact oneOf_ne_ub _ _ _
  · simp

theorem lockPart_inv {n : Node} {b : Bool} (h : lockPart n = .ok b) :
    ∃ f v, n.kids = [f, v] ∧ IsStr f "Recordlock".toList ∧ IsStr v (if b then ['1'] else ['0']) := by
  unfold lockPart at h
  split at h
  · rename_i f v hk
    obtain ⟨_, hw, h⟩ := bind_inv h
    split at h
    · cases h
    · rename_i hv
      exact ⟨f, v, hk, word_ok.mp hw, by simpa using hv, oneOf_bit h⟩
  · cases h

theorem lockPart_eq {n f v : Node} {b : Bool} (hk : n.kids = [f, v]) (hf : IsStr f "Recordlock".toList)
    (hv : IsStr v (if b then ['1'] else ['0'])) : lockPart n = .ok b := by
  unfold lockPart
  rw [hk]
  dsimp only
  rw [word_ok.mpr hf]
  simp only [Outcome.ok_bind]
  rw [if_neg (by simpa using hv.1), hv.2, bit_ok]

theorem blockNumber_ne_ub (n : Node) : blockNumber n ≠ .ub := by
  unfold blockNumber; split
  · simp
  · exact stoi_ne_ub _

theorem blockNumber_iff {n : Node} {z : Int} : blockNumber n = .ok z ↔ IsNum n z := by
  unfold blockNumber IsNum
  by_cases h : n.type = .number
  · rw [if_neg (by simpa using h), stoi_iff]; simp [h]
  · rw [if_pos h]; simp [h]

theorem filePart_ne_ub (n : Node) : filePart n ≠ .ub := by
  unfold filePart
  split
  · exact bind_ne_ub (word_ne_ub _ _) fun _ _ => bind_ne_ub (blockNumber_ne_ub _) fun _ _ =>
      bind_ne_ub (blockNumber_ne_ub _) fun _ _ => bind_ne_ub (blockNumber_ne_ub _) fun _ _ => by simp
  · simp

theorem filePart_inv {n : Node} {r} (h : filePart n = .ok r) :
    ∃ f x y z, n.kids = [f, x, y, z] ∧ IsStr f "Files".toList ∧ IsNum x r.1 ∧ IsNum y r.2.1 ∧ IsNum z r.2.2 := by
  unfold filePart at h
  split at h
  · rename_i f x y z hk
    obtain ⟨_, hw, h⟩ := bind_inv h
    obtain ⟨a, ha, h⟩ := bind_inv h
    obtain ⟨b, hb, h⟩ := bind_inv h
    obtain ⟨c, hc, h⟩ := bind_inv h
    simp only [Outcome.ok.injEq] at h
    subst h
    exact ⟨f, x, y, z, hk, word_ok.mp hw, blockNumber_iff.mp ha, blockNumber_iff.mp hb, blockNumber_iff.mp hc⟩
  · cases h

theorem filePart_eq {n f x y z : Node} {a b c : Int} (hk : n.kids = [f, x, y, z]) (hf : IsStr f "Files".toList)
    (hx : IsNum x a) (hy : IsNum y b) (hz : IsNum z c) : filePart n = .ok (a, b, c) := by
  unfold filePart
  rw [hk]
  dsimp only
  rw [word_ok.mpr hf, blockNumber_iff.mpr hx, blockNumber_iff.mpr hy, blockNumber_iff.mpr hz]
  rfl

/-! ## The index file -/

theorem word_take {b : Bytes} {n off : Nat} (h : off + 4 ≤ n) : Object.Spec.word (b.take n) off = Object.Spec.word b off := by
  unfold Object.Spec.word
  rw [List.getElem?_take_of_lt (by omega), List.getElem?_take_of_lt (by omega), List.getElem?_take_of_lt (by omega),
    List.getElem?_take_of_lt (by omega)]

theorem word_some {b : Bytes} {off : Nat} (h : off + 4 ≤ b.length) : ∃ w, Object.Spec.word b off = some w := by
  unfold Object.Spec.word
  rw [List.getElem?_eq_getElem (by omega), List.getElem?_eq_getElem (by omega), List.getElem?_eq_getElem (by omega),
    List.getElem?_eq_getElem (by omega)]
  exact ⟨_, rfl⟩

theorem whole_pages {len P : Nat} (hP : 0 < P) : len = len / P % 2 ^ 32 * P % 2 ^ 32 ↔ len < 2 ^ 32 ∧ P ∣ len := by
  constructor
  · intro h
    have h1 : len < 2 ^ 32 := by
      have : len / P % 2 ^ 32 * P % 2 ^ 32 < 2 ^ 32 := Nat.mod_lt _ (by decide)
      omega
    have h2 : len / P < 2 ^ 32 := Nat.lt_of_le_of_lt (Nat.div_le_self ..) h1
    rw [Nat.mod_eq_of_lt h2, Nat.mod_eq_of_lt (Nat.lt_of_le_of_lt (Nat.div_mul_le_self ..) h1)] at h
    exact ⟨h1, ⟨len / P, by rw [Nat.mul_comm]; exact h⟩⟩
  · rintro ⟨h1, h2⟩
    have h3 : len / P < 2 ^ 32 := Nat.lt_of_le_of_lt (Nat.div_le_self ..) h1
    rw [Nat.mod_eq_of_lt h3, Nat.div_mul_cancel h2, Nat.mod_eq_of_lt h1]

theorem startOf_eq (base : Base) (len w : Nat) :
    startOf base len w = if (if base.is838 then w * base.pageSize else w) < len ∧
      (base.is838 = false → 4096 ∣ (if base.is838 then w * base.pageSize else w))
      then .ok (if base.is838 then w * base.pageSize else w) else .throw := by
  unfold startOf
  cases base.is838 with
  | false =>
    simp only [if_true, Bool.false_eq_true, if_false, forall_const]
    by_cases h1 : len ≤ w
    · rw [if_pos h1, if_neg (by omega)]
    · rw [if_neg h1]
      by_cases h2 : w % 4096 = 0
      · rw [if_neg (by omega), if_pos ⟨by omega, Nat.dvd_of_mod_eq_zero h2⟩]
      · rw [if_pos h2, if_neg (by rintro ⟨_, h⟩; exact h2 (Nat.mod_eq_zero_of_dvd h))]
  | true =>
    simp only [Bool.true_eq_false, if_false, if_true, false_implies, and_true]
    by_cases h1 : len ≤ w * base.pageSize
    · rw [if_pos h1, if_neg (by omega)]
    · rw [if_neg h1, if_pos (by omega)]

/-- The places of the indexes from number `i` on are acceptable. -/
def StartsOk (base : Base) (f : Bytes) (i n : Nat) : Prop :=
  ∀ k < n, ∃ s, Spec.startOf base f (i + k) = some s ∧ s < f.length ∧ (base.is838 = false → 4096 ∣ s)

theorem starts_eq (base : Base) (f : Bytes) (m : Nat) : ∀ (xs : List Ix) (i : Nat), 4 * (i + xs.length) + 4 ≤ m → m ≤ f.length →
    (StartsOk base f i xs.length → ∃ ys, starts base f.length (f.take m) (i + 1) xs = .ok ys ∧
      List.length ys = xs.length ∧
      ∀ k x, xs[k]? = some x → ∃ s, Spec.startOf base f (i + k) = some s ∧ ys[k]? = some { x with start := s }) ∧
    (¬ StartsOk base f i xs.length → starts base f.length (f.take m) (i + 1) xs = .throw) := by
  intro xs
  induction xs with
  | nil => intro i _ _; exact ⟨fun _ => ⟨[], rfl, rfl, by simp⟩, fun h => absurd (by intro k hk; simp at hk) h⟩
  | cons x xs ih =>
    intro i hm hf
    simp only [List.length_cons] at hm
    obtain ⟨w, hw⟩ := word_some (b := f) (off := 4 * (i + 1)) (by omega)
    have hr : Object.rd32 (f.take m) (4 * (i + 1)) = .ok w := by
      rw [Object.rd32_word, word_take (by omega)]; exact hw
    have hs : Spec.startOf base f i = some (if base.is838 then w * base.pageSize else w) := by
      unfold Spec.startOf; rw [hw]; rfl
    obtain ⟨ih1, ih2⟩ := ih (i + 1) (by omega) hf
    unfold starts
    rw [hr]
    simp only [Outcome.ok_bind]
    rw [startOf_eq]
    generalize hsv : (if base.is838 then w * base.pageSize else w) = s at hs ⊢
    have hsplit : StartsOk base f i (x :: xs).length ↔ (s < f.length ∧ (base.is838 = false → 4096 ∣ s)) ∧ StartsOk base f (i + 1) xs.length := by
      constructor
      · intro h
        refine ⟨?_, ?_⟩
        · obtain ⟨s', e, h1, h2⟩ := h 0 (by simp)
          rw [Nat.add_zero, hs] at e
          simp only [Option.some.injEq] at e
          subst e; exact ⟨h1, h2⟩
        · intro k hk
          have := h (k + 1) (by simpa using hk)
          rwa [show i + (k + 1) = i + 1 + k by omega] at this
      · rintro ⟨h1, h2⟩ k hk
        cases k with
        | zero => exact ⟨s, hs, h1⟩
        | succ k =>
          have := h2 k (by simpa using hk)
          rwa [show i + 1 + k = i + (k + 1) by omega] at this
    by_cases hc : s < f.length ∧ (base.is838 = false → 4096 ∣ s)
    · rw [if_pos hc]
      simp only [Outcome.ok_bind]
      constructor
      · intro h
        obtain ⟨ys, e, hl, hy⟩ := ih1 (hsplit.mp h).2
        refine ⟨{ x with start := s } :: ys, ?_, by simp [hl], ?_⟩
        · rw [e]; rfl
        · intro k x' hk
          cases k with
          | zero =>
            simp only [List.getElem?_cons_zero, Option.some.injEq] at hk
            subst hk
            exact ⟨s, hs, rfl⟩
          | succ k =>
            obtain ⟨s', e1, e2⟩ := hy k x' (by simpa using hk)
            refine ⟨s', ?_, by simpa using e2⟩
            rw [show i + (k + 1) = i + 1 + k by omega]; exact e1
      · intro h
        rw [ih2 (fun x => h (hsplit.mpr ⟨hc, x⟩))]; rfl
    · rw [if_neg hc]
      exact ⟨fun h => absurd (hsplit.mp h).1 hc, fun _ => rfl⟩

theorem getData_eq (f : Bytes) (a n : Nat) : Blob.getData f a n = if a + n ≤ f.length then .ok ((f.drop a).take n) else .throw := rfl

theorem startPart_eq (base : Base) (hP : 0 < base.pageSize) (f : Bytes) (xs : List Ix) :
    (Spec.IndexFileOk base xs.length f → ∃ ys, startPart base f xs = .ok ys ∧ List.length ys = xs.length ∧
      ∀ k x, xs[k]? = some x → ∃ s, Spec.startOf base f k = some s ∧ ys[k]? = some { x with start := s }) ∧
    (¬ Spec.IndexFileOk base xs.length f → startPart base f xs = .throw) := by
  have hstart : ∀ h : StartsOk base f 0 xs.length, ∀ k < xs.length, ∃ s, Spec.startOf base f k = some s ∧ s < f.length ∧
      (base.is838 = false → 4096 ∣ s) := by
    intro h k hk; have := h k hk; rwa [Nat.zero_add] at this
  unfold startPart
  rw [if_neg (by omega)]
  dsimp only
  by_cases h1 : f.length < 2 ^ 32 ∧ base.pageSize ∣ f.length
  · rw [if_neg (by rw [ne_eq, not_not]; exact (whole_pages hP).mpr h1), getData_eq]
    by_cases h2 : 0 + (xs.length * 4 + 4) ≤ f.length
    · rw [if_pos h2]
      simp only [Outcome.ok_bind]
      rw [List.drop_zero]
      obtain ⟨w, hw⟩ := word_some (b := f) (off := 0) (by omega)
      rw [(Object.rd32_word _ _ _).mpr (show Object.Spec.word (f.take (xs.length * 4 + 4)) 0 = some w by
        rw [word_take (by omega)]; exact hw)]
      simp only [Outcome.ok_bind]
      obtain ⟨s1, s2⟩ := starts_eq base f (xs.length * 4 + 4) xs 0 (by omega) (by omega)
      by_cases h3 : f.length ≤ w * base.pageSize % 2 ^ 32
      · rw [if_pos h3]
        refine ⟨?_, fun _ => rfl⟩
        rintro ⟨_, _, _, ⟨w', e, hlt⟩, _⟩
        rw [hw] at e
        simp only [Option.some.injEq] at e
        subst e; omega
      · rw [if_neg h3]
        constructor
        · rintro ⟨_, _, _, _, h⟩
          obtain ⟨ys, e, hl, hy⟩ := s1 (by intro k hk; rw [Nat.zero_add]; exact h k hk)
          refine ⟨ys, e, hl, ?_⟩
          intro k x hk
          have := hy k x hk
          rwa [Nat.zero_add] at this
        · intro h
          apply s2
          intro hs
          exact h ⟨h1.1, h1.2, by omega, ⟨w, hw, by omega⟩, hstart hs⟩
    · rw [if_neg h2]
      exact ⟨fun h => absurd h.2.2.1 (by omega), fun _ => rfl⟩
  · rw [if_pos (fun e => h1 ((whole_pages hP).mp e))]
    exact ⟨fun h => absurd ⟨h.1, h.2.1⟩ h1, fun _ => rfl⟩

/-- An index behind its place in the file has been looked up. -/
def Looked (base : Base) (f : Bytes) (x y : Ix) : Prop :=
  y.name = x.name ∧ y.primary = x.primary ∧ y.fields = x.fields ∧ y.start = x.start ∧
  (x.start = 0 → y.rootblock = x.rootblock ∧ y.length = x.length) ∧
  (x.start ≠ 0 → ∃ r, Object.Spec.word f x.start = some r ∧
    y.rootblock = (if base.is838 then r * base.pageSize % 2 ^ 32 else r)) ∧
  (x.start ≠ 0 → ∃ l, Spec.word16 f (x.start + 4) = some l ∧ y.length = (if l < 32768 then l else l + 4294901760))

theorem rd16_word16 (p : Bytes) (off v : Nat) : Blob.rd16 p off = .ok v ↔ Spec.word16 p off = some v := by
  unfold Blob.rd16 Spec.word16
  cases p[off]? <;> cases p[off + 1]? <;> simp

theorem lengthOf_ok (base : Base) (f : Bytes) (x : Ix) (h : x.start + 8 ≤ f.length) :
    ∃ y, lengthOf base f x = .ok y ∧ Looked base f x y := by
  unfold lengthOf
  by_cases h0 : x.start = 0
  · rw [if_pos h0]
    exact ⟨x, rfl, rfl, rfl, rfl, rfl, fun _ => ⟨rfl, rfl⟩, fun e => absurd h0 e, fun e => absurd h0 e⟩
  · rw [if_neg h0, getData_eq, if_pos h]
    simp only [Outcome.ok_bind]
    obtain ⟨r, hr⟩ := word_some (b := f) (off := x.start) (by omega)
    have hg : ∀ i, i < 8 → ((f.drop x.start).take 8)[i]? = f[x.start + i]? := by
      intro i hi; rw [List.getElem?_take_of_lt hi, List.getElem?_drop]
    have e1 : Object.rd32 ((f.drop x.start).take 8) 0 = .ok r := by
      rw [Object.rd32_word, ← hr]
      unfold Object.Spec.word
      rw [hg 0 (by omega), hg (0 + 1) (by omega), hg (0 + 2) (by omega), hg (0 + 3) (by omega)]
      rfl
    have e2 : ∃ l, Spec.word16 f (x.start + 4) = some l := by
      unfold Spec.word16
      rw [List.getElem?_eq_getElem (by omega), List.getElem?_eq_getElem (by omega)]
      exact ⟨_, rfl⟩
    obtain ⟨l, hl⟩ := e2
    have e3 : Blob.rd16 ((f.drop x.start).take 8) 4 = .ok l := by
      rw [rd16_word16, ← hl]
      unfold Spec.word16
      rw [hg 4 (by omega), hg (4 + 1) (by omega)]
    rw [e1, e3]
    exact ⟨_, rfl, rfl, rfl, rfl, rfl, fun e => absurd e h0, fun _ => ⟨r, hr, rfl⟩, fun _ => ⟨l, hl, rfl⟩⟩

theorem lengths_ok (base : Base) (f : Bytes) : ∀ (xs : List Ix), (∀ x ∈ xs, x.start + 8 ≤ f.length) →
    ∃ ys, lengths base f xs = .ok ys ∧ List.Forall₂ (Looked base f) xs ys := by
  intro xs
  induction xs with
  | nil => intro _; exact ⟨[], rfl, .nil⟩
  | cons x xs ih =>
    intro h
    obtain ⟨y, e1, h1⟩ := lengthOf_ok base f x (h x (List.mem_cons_self ..))
    obtain ⟨ys, e2, h2⟩ := ih (fun z hz => h z (List.mem_cons_of_mem _ hz))
    unfold lengths
    rw [e1, e2]
    exact ⟨_, rfl, .cons h1 h2⟩

/-- A place that is acceptable leaves room for the eight bytes read there. -/
theorem room {base : Base} (hP : 8 ≤ base.pageSize) (hold : base.is838 = false → base.pageSize = 4096) {f : Bytes} {k s : Nat}
    (hd : base.pageSize ∣ f.length) (hs : Spec.startOf base f k = some s) (hlt : s < f.length)
    (h4 : base.is838 = false → 4096 ∣ s) : s + 8 ≤ f.length := by
  have hdiv : base.pageSize ∣ s := by
    cases hb : base.is838 with
    | false => rw [hold hb]; exact h4 hb
    | true =>
      unfold Spec.startOf at hs
      rw [hb] at hs
      obtain ⟨w, _, rfl⟩ := Option.map_eq_some_iff.mp hs
      exact ⟨w, by simp [Nat.mul_comm]⟩
  obtain ⟨a, ha⟩ := hd
  obtain ⟨b, hb⟩ := hdiv
  have hlt' : b < a := by
    rw [ha, hb] at hlt
    exact Nat.lt_of_mul_lt_mul_left hlt
  have : base.pageSize * (b + 1) ≤ base.pageSize * a := Nat.mul_le_mul_left _ hlt'
  rw [Nat.mul_add, Nat.mul_one, ← hb, ← ha] at this
  omega

/-! ## Records -/

theorem phys_iff {len r : Nat} (hr : 0 < r) : len / r % 2 ^ 32 * r % 2 ^ 32 = len ↔ len < 2 ^ 32 ∧ r ∣ len := by
  rw [eq_comm]; exact whole_pages hr

theorem layoutPart_ok (ds : List (Str × Decl)) (rest : List FieldInfo) (hs : ∀ f ∈ ds, Record.Spec.Sane f.2)
    (hb : 1 + (ds.map (fun f => Record.Spec.fieldBytes f.2)).sum < 2147483648) :
    ∃ gs : List FieldInfo, layoutPart (ds.map infoOf).length (ds.map infoOf ++ rest) = .ok (gs ++ rest,
        ((max 5 (1 + (ds.map (fun f => Record.Spec.fieldBytes f.2)).sum) : Nat) : Int)) ∧
      List.Forall₂ (fun f g => g.field.name = utf8Of f.1 ∧ g.field.decl = f.2 ∧ g.isGuid = (infoOf f).isGuid) ds gs ∧
      Record.Spec.Tiles 1 (Record.Spec.inOrder (gs.map FieldInfo.field)) (1 + (ds.map (fun f => Record.Spec.fieldBytes f.2)).sum) := by
  have ht : Record.Spec.total ((ds.map infoOf).map FieldInfo.field) = (ds.map (fun f => Record.Spec.fieldBytes f.2)).sum := by
    unfold Record.Spec.total
    rw [List.map_map, List.map_map]
    rfl
  obtain ⟨gs, h1, h2, h3⟩ := layout_ok ((ds.map infoOf).map FieldInfo.field) (rest.map FieldInfo.field) (by
    intro f hf
    rw [List.map_map] at hf
    obtain ⟨d, hd, rfl⟩ := List.mem_map.mp hf
    exact hs d hd) (by rw [ht]; exact hb)
  rw [ht] at h1 h3
  have hl : gs.length = ds.length := by
    have := congrArg List.length h2
    simpa using this
  refine ⟨List.zipWith (fun f g => { f with field := g }) (ds.map infoOf) gs, ?_, ?_, ?_⟩
  · unfold layoutPart
    rw [List.map_append, show (ds.map infoOf).length = ((ds.map infoOf).map FieldInfo.field).length by simp, h1]
    simp only [Outcome.ok_bind]
    rw [List.zipWith_append (by simp [hl])]
    congr 3
    clear h1
    induction rest with
    | nil => rfl
    | cons r rest ih => simp [ih]
  · clear h1 h3 ht hs hb
    induction ds generalizing gs with
    | nil => simp
    | cons d ds ih =>
      cases gs with
      | nil => simp at hl
      | cons g gs =>
        simp only [List.map_cons, List.cons.injEq, Prod.mk.injEq] at h2
        simp only [List.map_cons, List.zipWith_cons_cons]
        exact .cons ⟨h2.1.1, h2.1.2, rfl⟩ (ih gs (by simpa using h2.2) (by simpa using hl))
  · have e : (List.zipWith (fun (f : FieldInfo) g => { f with field := g }) (ds.map infoOf) gs).map FieldInfo.field = gs := by
      clear h1 h2 h3 ht hs hb
      induction ds generalizing gs with
      | nil => cases gs with
        | nil => rfl
        | cons g gs => simp at hl
      | cons d ds ih =>
        cases gs with
        | nil => simp at hl
        | cons g gs => simp [ih gs (by simpa using hl)]
    rw [e]; exact h3

end Verif.TableOpen
