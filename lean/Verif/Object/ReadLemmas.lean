import Verif.Object.Read
import Verif.Object.Spec

/-! # Helper lemmas for reading objects -/

namespace Verif.Object
open Verif

/-- The common shape of all partial read loops: `pg k` fetches data page `k`. -/
def absLoop (pg : Nat → Outcome Bytes) (P : Nat) : Nat → Nat → Nat → Nat → Nat → Outcome Bytes
  | 0, _, _, _, length => if length = 0 then .ok [] else .ub
  | fuel + 1, k, off, curlen, length =>
    if length = 0 then .ok []
    else do
      let p ← pg k
      let rest ← absLoop pg P fuel (k + 1) 0 (min P (length - curlen)) (length - curlen)
      .ok ((p.drop off).take curlen ++ rest)

def dirPg (pages : List Bytes) (blocks : List Nat) (k : Nat) : Outcome Bytes := do
  let bn ← idx blocks k
  getPage pages bn

def tabOf (pages : List Bytes) (blocks : List Nat) (t : Nat) : Outcome Bytes := do
  let tn ← idx blocks t
  getPage pages tn

def tabPg (pages : List Bytes) (per hdr : Nat) (blocks : List Nat) (k : Nat) : Outcome Bytes := do
  let tab ← tabOf pages blocks (k / per)
  let bn ← rd32 tab (hdr + 4 * (k % per))
  getPage pages bn

theorem dirLoop_eq (pages : List Bytes) (P : Nat) (blocks : List Nat) (fuel k off curlen length : Nat) :
    dirLoop pages P blocks fuel k off curlen length
      = absLoop (dirPg pages blocks) P fuel k off curlen length := by
  induction fuel generalizing k off curlen length with
  | zero => rfl
  | succ f ih =>
    simp only [dirLoop, absLoop, dirPg, ih]
    split
    · rfl
    · cases idx blocks k <;> simp

theorem absLoop_zero (pg : Nat → Outcome Bytes) (P fuel k off curlen : Nat) :
    absLoop pg P fuel k off curlen 0 = .ok [] := by
  cases fuel <;> simp [absLoop]

theorem tabLoop_zero (pages : List Bytes) (P per hdr : Nat) (blocks : List Nat) (fuel : Nat)
    (tab : Bytes) (j oi off curlen : Nat) :
    tabLoop pages P per hdr blocks fuel tab j oi off curlen 0 = .ok [] := by
  cases fuel <;> simp [tabLoop]

theorem bind_ok {α β} {x : Outcome α} {f : α → Outcome β} {b : β} (h : x.bind f = .ok b) :
    ∃ a, x = .ok a ∧ f a = .ok b := by
  cases x with
  | ok a => exact ⟨a, rfl, h⟩
  | throw => cases h
  | ub => cases h

theorem bind_ok' {α β} {x : Outcome α} {f : α → Outcome β} {b : β} (h : (x >>= f) = .ok b) :
    ∃ a, x = .ok a ∧ f a = .ok b := bind_ok h

theorem next_same (k per : Nat) (hper : 0 < per) (hj : k % per + 1 < per) :
    (k + 1) / per = k / per ∧ (k + 1) % per = k % per + 1 := by
  have e := Nat.div_add_mod k per
  have : k + 1 = (k % per + 1) + per * (k / per) := by omega
  rw [this, Nat.add_mul_div_left _ _ hper, Nat.add_mul_mod_self_left]
  rw [Nat.div_eq_of_lt (by omega), Nat.mod_eq_of_lt (by omega)]
  simp

theorem next_wrap (k per : Nat) (hper : 0 < per) (hj : per ≤ k % per + 1) :
    (k + 1) / per = k / per + 1 ∧ (k + 1) % per = 0 := by
  have hjk : k % per + 1 = per := by
    have := Nat.mod_lt k hper
    omega
  have e := Nat.div_add_mod k per
  have : k + 1 = per * (k / per + 1) := by
    rw [Nat.mul_add, Nat.mul_one]; omega
  rw [this]
  exact ⟨Nat.mul_div_cancel_left _ hper, Nat.mul_mod_right _ _⟩

theorem tabLoop_of_abs (pages : List Bytes) (P per hdr : Nat) (blocks : List Nat) (hper : 0 < per)
    (fuel : Nat) (tab : Bytes) (k off curlen length : Nat) (bs : Bytes)
    (htab : tabOf pages blocks (k / per) = .ok tab)
    (h : absLoop (tabPg pages per hdr blocks) P fuel k off curlen length = .ok bs) :
    tabLoop pages P per hdr blocks fuel tab (k % per) (k / per + 1) off curlen length = .ok bs := by
  induction fuel generalizing tab k off curlen length bs with
  | zero => exact h
  | succ f ih =>
    simp only [tabLoop, absLoop] at h ⊢
    split
    · rename_i h0; rwa [if_pos h0] at h
    · rename_i h0
      rw [if_neg h0] at h
      obtain ⟨p, hp, h⟩ := bind_ok' h
      obtain ⟨rest, hr, h⟩ := bind_ok' h
      simp only [tabPg, htab, Outcome.ok_bind] at hp
      obtain ⟨bn, hbn, hp⟩ := bind_ok' hp
      simp only [hbn, hp, Outcome.ok_bind]
      by_cases hl : length - curlen = 0
      · rw [hl] at hr ⊢
        rw [absLoop_zero] at hr
        simp only [tabLoop_zero]
        simpa [hr] using h
      · by_cases hj : k % per + 1 ≥ per
        · obtain ⟨e1, e2⟩ := next_wrap k per hper hj
          rw [if_pos ⟨by omega, hj⟩]
          have ht : ∃ tab', tabOf pages blocks ((k + 1) / per) = .ok tab' := by
            cases f with
            | zero => simp [absLoop, hl] at hr
            | succ f =>
              simp only [absLoop, if_neg hl] at hr
              obtain ⟨p', hp', _⟩ := bind_ok' hr
              simp only [tabPg] at hp'
              obtain ⟨tab', ht', _⟩ := bind_ok' hp'
              exact ⟨tab', ht'⟩
          obtain ⟨tab', ht'⟩ := ht
          have hi := ih tab' (k + 1) 0 (min P (length - curlen)) (length - curlen) rest ht' hr
          rw [e1, e2] at hi
          rw [e1] at ht'
          simp only [tabOf] at ht'
          obtain ⟨tn, hn, ht'⟩ := bind_ok' ht'
          simp only [hn, ht', hi, Outcome.ok_bind, h]
        · obtain ⟨e1, e2⟩ := next_same k per hper (by omega)
          rw [if_neg (by omega)]
          have hi := ih tab (k + 1) 0 (min P (length - curlen)) (length - curlen) rest
            (by rw [e1]; exact htab) hr
          rw [e1, e2] at hi
          simp only [hi, Outcome.ok_bind, h]

/-- `pg` delivers the byte `x` at position `i`. -/
def Gives (pg : Nat → Outcome Bytes) (P i : Nat) (x : UInt8) : Prop :=
  ∃ p, pg (i / P) = .ok p ∧ p[i % P]? = some x

theorem div_off (P k r : Nat) (h : r < P) : (k * P + r) / P = k ∧ (k * P + r) % P = r := by
  constructor
  · rw [Nat.mul_comm, Nat.mul_add_div (by omega), Nat.div_eq_of_lt h, Nat.add_zero]
  · rw [Nat.mul_comm, Nat.mul_add_mod, Nat.mod_eq_of_lt h]

/-- One page's worth: the chunk equals the expected bytes. -/
theorem chunk_eq (pg : Nat → Outcome Bytes) (P k off n : Nat) (p : Bytes) (bs : Bytes)
    (hp : pg k = .ok p) (hn : off + n ≤ P) (hb : n ≤ bs.length)
    (hg : ∀ i (hi : i < bs.length), Gives pg P (k * P + off + i) bs[i]) :
    (p.drop off).take n = bs.take n := by
  apply List.ext_getElem?
  intro i
  by_cases hi : i < n
  · rw [List.getElem?_take_of_lt hi, List.getElem?_take_of_lt hi, List.getElem?_drop]
    obtain ⟨q, hq, hx⟩ := hg i (by omega)
    obtain ⟨e1, e2⟩ := div_off P k (off + i) (by omega)
    rw [show k * P + off + i = k * P + (off + i) by omega] at hq hx
    rw [e1, hp] at hq
    rw [e2] at hx
    cases hq
    rw [hx, List.getElem?_eq_getElem]
  · rw [List.getElem?_eq_none (by simp; omega), List.getElem?_eq_none (by simp; omega)]

theorem absLoop_spec (pg : Nat → Outcome Bytes) (P : Nat) (hP : 0 < P) (fuel k off : Nat) (bs : Bytes)
    (hoff : off < P) (hfuel : bs.length ≤ fuel)
    (hg : ∀ i (hi : i < bs.length), Gives pg P (k * P + off + i) bs[i]) :
    absLoop pg P fuel k off (min (P - off) bs.length) bs.length = .ok bs := by
  induction fuel generalizing k off bs with
  | zero =>
    have : bs = [] := List.length_eq_zero_iff.mp (by omega)
    subst this; rfl
  | succ f ih =>
    simp only [absLoop]
    by_cases h0 : bs.length = 0
    · rw [if_pos h0, List.length_eq_zero_iff.mp h0]
    · rw [if_neg h0]
      obtain ⟨p, hp, _⟩ := hg 0 (by omega)
      obtain ⟨e1, _⟩ := div_off P k off hoff
      rw [Nat.add_zero, e1] at hp
      simp only [hp, Outcome.ok_bind]
      have hc := chunk_eq pg P k off (min (P - off) bs.length) p bs hp (by omega) (by omega) hg
      generalize hn : min (P - off) bs.length = n at hc ⊢
      have hrest := ih (k + 1) 0 (bs.drop n) hP (by simp; omega) (by
        intro i hi
        simp at hi
        have := hg (n + i) (by omega)
        have hnP : n = P - off := by omega
        rw [show k * P + off + (n + i) = (k + 1) * P + 0 + i by rw [Nat.add_mul]; omega] at this
        simpa using this)
      simp only [List.length_drop, Nat.sub_zero] at hrest
      rw [hrest]
      simp only [Outcome.ok_bind]
      rw [hc, List.take_append_drop]

/-! ## From the page array to the spec -/

theorem rd32_word (p : Bytes) (off : Nat) (v : Nat) : rd32 p off = .ok v ↔ Spec.word p off = some v := by
  unfold rd32 Spec.word
  cases p[off]? <;> cases p[off + 1]? <;> cases p[off + 2]? <;> cases p[off + 3]? <;> simp

theorem copyRoot_spec (p : Bytes) (n off : Nat) (bs : List Nat) (h : copyRoot p off n = .ok bs) :
    bs.length = n ∧ ∀ k, k < n → bs[k]? = Spec.word p (off + 4 * k) := by
  induction n generalizing off bs with
  | zero => simp only [copyRoot] at h; cases h; simp
  | succ n ih =>
    simp only [copyRoot] at h
    obtain ⟨v, hv, h⟩ := bind_ok' h
    obtain ⟨vs, hvs, h⟩ := bind_ok' h
    cases h
    obtain ⟨i1, i2⟩ := ih _ _ hvs
    refine ⟨by simp [i1], ?_⟩
    intro k hk
    cases k with
    | zero => simp [(rd32_word p off v).mp hv]
    | succ k =>
      rw [List.getElem?_cons_succ, i2 k (by omega)]
      congr 1; omega

theorem countRoot_spec (p : Bytes) (fuel off n : Nat) (h : countRoot p fuel off = .ok n) :
    (∀ k, k < n → ∃ v, Spec.word p (off + 4 * k) = some v ∧ v ≠ 0) ∧
      Spec.word p (off + 4 * n) = some 0 := by
  induction fuel generalizing off n with
  | zero => simp [countRoot] at h
  | succ f ih =>
    simp only [countRoot] at h
    obtain ⟨v, hv, h⟩ := bind_ok' h
    rw [rd32_word] at hv
    split at h
    · cases h
      rename_i hv0
      subst hv0
      exact ⟨by intro k hk; omega, by simpa using hv⟩
    · rename_i hv0
      obtain ⟨m, hm, h⟩ := bind_ok' h
      cases h
      obtain ⟨i1, i2⟩ := ih _ _ hm
      refine ⟨?_, by rw [show off + 4 * (m + 1) = off + 4 + 4 * m by omega]; exact i2⟩
      intro k hk
      cases k with
      | zero => exact ⟨v, by simpa using hv, hv0⟩
      | succ k =>
        obtain ⟨w, hw⟩ := i1 k (by omega)
        exact ⟨w, by rwa [show off + 4 * (k + 1) = off + 4 + 4 * k by omega]⟩

theorem getPage_ok (pages : List Bytes) (n : Nat) (p : Bytes) :
    getPage pages n = .ok p ↔ pages[n]? = some p := by
  unfold getPage; cases pages[n]? <;> simp

theorem idx_ok (v : List Nat) (i x : Nat) : idx v i = .ok x ↔ v[i]? = some x := by
  unfold idx; cases v[i]? <;> simp

/-- Byte of the specification through the tables of an opened object. -/
theorem tabPg_gives (pages : List Bytes) (P per hdr h : Nat) (hp : Bytes) (blocks : List Nat)
    (off i : Nat) (x : UInt8) (hhp : pages[h]? = some hp)
    (hb : blocks[i / P / per]? = Spec.word hp (off + 4 * (i / P / per)))
    (hx : Spec.byteAt pages P (.tables off per hdr) h i = some x) :
    Gives (tabPg pages per hdr blocks) P i x := by
  unfold Spec.byteAt at hx
  simp only [Option.bind_eq_bind, Option.bind_eq_some_iff, Spec.dataPage] at hx
  obtain ⟨n, ⟨hp', h1, t, h2, tp, h3, h4⟩, p, h5, h6⟩ := hx
  rw [hhp] at h1
  cases h1
  refine ⟨p, ?_, h6⟩
  have e1 : idx blocks (i / P / per) = .ok t := by rw [idx_ok, hb, h2]
  have e2 : getPage pages t = .ok tp := (getPage_ok _ _ _).mpr h3
  have e3 : rd32 tp (hdr + 4 * (i / P % per)) = .ok n := (rd32_word _ _ _).mpr h4
  have e4 : getPage pages n = .ok p := (getPage_ok _ _ _).mpr h5
  simp only [tabPg, tabOf, e1, e2, e3, e4, Outcome.ok_bind]

theorem dirPg_gives (pages : List Bytes) (P h : Nat) (hp : Bytes) (blocks : List Nat)
    (off i : Nat) (x : UInt8) (hhp : pages[h]? = some hp)
    (hb : blocks[i / P]? = Spec.word hp (off + 4 * (i / P)))
    (hx : Spec.byteAt pages P (.direct off) h i = some x) :
    Gives (dirPg pages blocks) P i x := by
  unfold Spec.byteAt at hx
  simp only [Option.bind_eq_bind, Option.bind_eq_some_iff, Spec.dataPage] at hx
  obtain ⟨n, ⟨hp', h1, h2⟩, p, h5, h6⟩ := hx
  rw [hhp] at h1
  cases h1
  refine ⟨p, ?_, h6⟩
  have e1 : idx blocks (i / P) = .ok n := by rw [idx_ok, hb, h2]
  have e4 : getPage pages n = .ok p := (getPage_ok _ _ _).mpr h5
  simp only [dirPg, e1, e4, Outcome.ok_bind]

theorem tabRead_spec (pages : List Bytes) (P per hdr : Nat) (blocks : List Nat) (start : Nat) (bs : Bytes)
    (hP : 0 < P) (hper : 0 < per) (hne : bs ≠ []) (hs : start / P < 2 ^ 32)
    (hg : ∀ i (hi : i < bs.length), Gives (tabPg pages per hdr blocks) P (start + i) bs[i]) :
    tabRead pages P per hdr blocks start bs.length = .ok bs := by
  have hlen : 0 < bs.length := List.length_pos_iff.mpr hne
  have hsp : start / P * P + start % P = start := by rw [Nat.mul_comm]; exact Nat.div_add_mod start P
  have habs := absLoop_spec (tabPg pages per hdr blocks) P hP bs.length (start / P) (start % P) bs
    (Nat.mod_lt _ hP) (Nat.le_refl _) (by rw [hsp]; exact hg)
  obtain ⟨p, hp, _⟩ := hg 0 hlen
  rw [Nat.add_zero] at hp
  simp only [tabPg] at hp
  obtain ⟨tab, ht, _⟩ := bind_ok' hp
  have := tabLoop_of_abs pages P per hdr blocks hper bs.length tab (start / P) (start % P) _ _ bs ht habs
  simp only [tabOf] at ht
  obtain ⟨tn, hn, ht⟩ := bind_ok' ht
  simp only [tabRead, Nat.mod_eq_of_lt hs, hn, ht, Outcome.ok_bind, this]

theorem dirRead_spec (pages : List Bytes) (P : Nat) (blocks : List Nat) (start : Nat) (bs : Bytes)
    (hP : 0 < P) (hs : start / P < 2 ^ 32)
    (hg : ∀ i (hi : i < bs.length), Gives (dirPg pages blocks) P (start + i) bs[i]) :
    dirRead pages P blocks start bs.length = .ok bs := by
  have hsp : start / P * P + start % P = start := by rw [Nat.mul_comm]; exact Nat.div_add_mod start P
  have habs := absLoop_spec (dirPg pages blocks) P hP bs.length (start / P) (start % P) bs
    (Nat.mod_lt _ hP) (Nat.le_refl _) (by rw [hsp]; exact hg)
  simp only [dirRead, Nat.mod_eq_of_lt hs, dirLoop_eq, habs]

/-! ## Whole reads -/

theorem wholeDir_spec (pages : List Bytes) (P : Nat) (hP : 0 < P) (blocks : List Nat) (k : Nat) (bs : Bytes)
    (hg : ∀ i (hi : i < bs.length), Gives (dirPg pages blocks) P (k * P + i) bs[i])
    (hne : bs ≠ []) :
    wholeDir pages P (blocks.drop k) bs.length = .ok bs := by
  induction hm : bs.length using Nat.strongRecOn generalizing k bs with
  | _ m ih =>
    subst hm
    have hlen : 0 < bs.length := List.length_pos_iff.mpr hne
    obtain ⟨p, hp, _⟩ := hg 0 hlen
    obtain ⟨e1, _⟩ := div_off P k 0 hP
    rw [e1] at hp
    have hp0 := hp
    simp only [dirPg] at hp
    obtain ⟨bn, hbn, hp⟩ := bind_ok' hp
    rw [idx_ok] at hbn
    have hk : k < blocks.length := by
      rcases Nat.lt_or_ge k blocks.length with h | h
      · exact h
      · rw [List.getElem?_eq_none h] at hbn; simp at hbn
    have hd : blocks.drop k = bn :: blocks.drop (k + 1) := by
      rw [List.drop_eq_getElem_cons hk]
      rw [List.getElem?_eq_getElem hk] at hbn
      simp at hbn
      rw [hbn]
    rw [hd]
    simp only [wholeDir, hp, Outcome.ok_bind]
    have hc := chunk_eq (dirPg pages blocks) P k 0 (min P bs.length) p bs hp0 (by omega) (by omega) (by simpa using hg)
    rw [List.drop_zero] at hc
    by_cases hl : bs.length ≤ min P bs.length
    · rw [if_pos hl, hc, List.take_of_length_le hl]
    · rw [if_neg hl, hc]
      have hmin : min P bs.length = P := by omega
      rw [hmin]
      have := ih (bs.length - P) (by omega) (k + 1) (bs.drop P) (by
        intro i hi
        simp at hi
        have := hg (P + i) (by omega)
        rw [show k * P + (P + i) = (k + 1) * P + i by rw [Nat.add_mul]; omega] at this
        simpa using this)
        (by intro h; have := congrArg List.length h; simp at this; omega) (by simp)
      rw [this]
      simp only [Outcome.ok_bind, List.take_append_drop]

theorem wholeTab_spec (pages : List Bytes) (P per hdr : Nat) (hP : 0 < P) (hper : 0 < per)
    (blocks : List Nat) (t : Nat) (tab : Bytes) (htab : tabOf pages blocks t = .ok tab)
    (count j : Nat) (hj : j + count ≤ per) (bs : Bytes) (hne : bs ≠ [])
    (hg : ∀ i (hi : i < bs.length), Gives (tabPg pages per hdr blocks) P ((t * per + j) * P + i) bs[i]) :
    wholeTab pages P hdr tab count j bs.length =
      if bs.length ≤ count * P then .ok (bs, 0, true)
      else .ok (bs.take (count * P), bs.length - count * P, false) := by
  induction count generalizing j bs with
  | zero =>
    have hlen : 0 < bs.length := List.length_pos_iff.mpr hne
    simp only [wholeTab, Nat.zero_mul]
    rw [if_neg (by omega)]
    simp
  | succ c ih =>
    have hlen : 0 < bs.length := List.length_pos_iff.mpr hne
    obtain ⟨p, hp, _⟩ := hg 0 hlen
    obtain ⟨e1, _⟩ := div_off P (t * per + j) 0 hP
    rw [e1] at hp
    have hp0 := hp
    obtain ⟨d1, d2⟩ := div_off per t j (by omega)
    simp only [tabPg, d1, d2, htab, Outcome.ok_bind] at hp
    obtain ⟨bn, hbn, hp⟩ := bind_ok' hp
    simp only [wholeTab, hbn, hp, Outcome.ok_bind]
    have hc := chunk_eq (tabPg pages per hdr blocks) P (t * per + j) 0 (min P bs.length) p bs hp0
      (by omega) (by omega) (by simpa using hg)
    rw [List.drop_zero] at hc
    rw [hc]
    have hcp : (c + 1) * P = c * P + P := by rw [Nat.add_mul, Nat.one_mul]
    by_cases hl : bs.length ≤ min P bs.length
    · rw [if_pos hl, if_pos (by
        have := Nat.zero_le (c * P)
        omega)]
      rw [List.take_of_length_le hl, Nat.sub_eq_zero_of_le hl]
    · rw [if_neg hl]
      have hmin : min P bs.length = P := by omega
      rw [hmin]
      have := ih (j + 1) (by omega) (bs.drop P)
        (by intro h; have := congrArg List.length h; simp at this; omega) (by
        intro i hi
        simp at hi
        have := hg (P + i) (by omega)
        rw [show (t * per + j) * P + (P + i) = (t * per + (j + 1)) * P + i by
          rw [show t * per + (j + 1) = (t * per + j) + 1 by omega, Nat.add_mul (t * per + j) 1]; omega] at this
        simpa using this)
      rw [List.length_drop] at this
      rw [this]
      by_cases hc2 : bs.length ≤ (c + 1) * P
      · rw [if_pos (by omega), if_pos hc2]
        simp only [Outcome.ok_bind, List.take_append_drop]
      · rw [if_neg (by omega), if_neg hc2]
        simp only [Outcome.ok_bind]
        rw [show bs.length - P - c * P = bs.length - (c + 1) * P by omega]
        rw [show (c + 1) * P = P + c * P by omega, List.take_add]

theorem wholeLoop_spec (pages : List Bytes) (P per hdr : Nat) (counted : Bool) (hP : 0 < P) (hper : 0 < per)
    (hper31 : per < 2 ^ 31)
    (blocks : List Nat) (t : Nat) (bs : Bytes) (hne : bs ≠ [])
    (hg : ∀ i (hi : i < bs.length), Gives (tabPg pages per hdr blocks) P (t * per * P + i) bs[i])
    (hc : counted = true → ∀ u tab, t ≤ u → u * per * P < t * per * P + bs.length →
      tabOf pages blocks u = .ok tab →
      ∃ c, Spec.word tab 0 = some c ∧ c ≤ per ∧ min (u * per * P + per * P) (t * per * P + bs.length) ≤ u * per * P + c * P ∧
        ((u + 1) * per * P < t * per * P + bs.length → c = per)) :
    wholeLoop pages P per hdr counted (blocks.drop t) bs.length = .ok bs := by
  induction hm : bs.length using Nat.strongRecOn generalizing t bs with
  | _ m ih =>
    subst hm
    have hlen : 0 < bs.length := List.length_pos_iff.mpr hne
    obtain ⟨p, hp, _⟩ := hg 0 hlen
    obtain ⟨e1, _⟩ := div_off P (t * per) 0 hP
    rw [e1] at hp
    simp only [tabPg] at hp
    obtain ⟨tab, htab, _⟩ := bind_ok' hp
    rw [Nat.mul_div_cancel _ hper] at htab
    have htab0 := htab
    simp only [tabOf] at htab
    obtain ⟨tn, htn, htp⟩ := bind_ok' htab
    rw [idx_ok] at htn
    have hk : t < blocks.length := by
      rcases Nat.lt_or_ge t blocks.length with h | h
      · exact h
      · rw [List.getElem?_eq_none h] at htn; simp at htn
    have hd : blocks.drop t = tn :: blocks.drop (t + 1) := by
      rw [List.drop_eq_getElem_cons hk]
      rw [List.getElem?_eq_getElem hk] at htn
      simp at htn
      rw [htn]
    rw [hd]
    simp only [wholeLoop, htp, Outcome.ok_bind]
    -- the entry count
    have hcount : ∃ c, tabCount counted per tab = Outcome.ok c ∧ c ≤ per ∧ min (per * P) bs.length ≤ c * P ∧
          (per * P < bs.length → c = per) := by
      cases counted with
      | false => exact ⟨per, rfl, Nat.le_refl _, by omega, fun _ => rfl⟩
      | true =>
        obtain ⟨c, h1, h2, h3, h4⟩ := hc rfl t tab (Nat.le_refl _) (by omega) htab0
        refine ⟨c, ?_, h2, by omega, ?_⟩
        · simp only [tabCount, if_true, (rd32_word _ _ _).mpr h1, Outcome.ok_bind]
          rw [if_pos (by omega)]
        · intro hlt
          apply h4
          rw [Nat.add_mul, Nat.add_mul, Nat.one_mul]
          omega
    obtain ⟨c, hce, hcp, hcm, hcf⟩ := hcount
    rw [hce]
    simp only [Outcome.ok_bind]
    have hw := wholeTab_spec pages P per hdr hP hper blocks t tab htab0 c 0 (by omega) bs hne (by
      simpa using hg)
    rw [hw]
    by_cases hl : bs.length ≤ c * P
    · rw [if_pos hl]; simp
    · rw [if_neg hl]
      simp only [Outcome.ok_bind, Bool.false_eq_true, if_false]
      have hmin : per * P < bs.length := by
        rcases Nat.lt_or_ge (per * P) bs.length with h | h
        · exact h
        · rw [Nat.min_eq_right h] at hcm; omega
      have hcper := hcf hmin
      subst hcper
      have hnext : (t + 1) * c * P = t * c * P + c * P := by
        rw [Nat.add_mul, Nat.add_mul, Nat.one_mul]
      have := ih (bs.length - c * P) (by
          have : 0 < c * P := Nat.mul_pos hper hP
          omega) (t + 1) (bs.drop (c * P))
        (by intro h; have := congrArg List.length h; simp at this; omega)
        (by
          intro i hi
          simp at hi
          have := hg (c * P + i) (by omega)
          rw [show t * c * P + (c * P + i) = (t + 1) * c * P + i by omega] at this
          simpa using this)
        (by
          intro hct u tab' hu h1 h2
          rw [hnext, List.length_drop] at h1 ⊢
          have := hc hct u tab' (by omega) (by omega) h2
          rwa [show t * c * P + c * P + (bs.length - c * P) = t * c * P + bs.length by omega])
        (by simp)
      rw [this]
      simp only [Outcome.ok_bind, List.take_append_drop]

end Verif.Object
