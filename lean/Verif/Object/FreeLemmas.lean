import Verif.Object.Write
import Verif.Object.FreeSpec
import Verif.Object.ReadTheorems

/-! # Helper lemmas for page updates and the free-page list -/

namespace Verif.Object
open Verif

/-! ## Words in pages -/

theorem length_splice (p : Bytes) (off : Nat) (b : Bytes) (h : off + b.length ≤ p.length) :
    (splice p off b).length = p.length := by
  simp [splice]; omega

theorem splice_get_out (p : Bytes) (off : Nat) (b : Bytes) (i : Nat) (h : off + b.length ≤ p.length)
    (hi : i < off ∨ off + b.length ≤ i) : (splice p off b)[i]? = p[i]? := by
  unfold splice
  rcases hi with hi | hi
  · rw [List.append_assoc, List.getElem?_append_left (by simp; omega), List.getElem?_take_of_lt hi]
  · rw [List.getElem?_append_right (by simp; omega)]
    rw [List.getElem?_drop]
    congr 1
    simp
    omega

theorem splice_get_in (p : Bytes) (off : Nat) (b : Bytes) (i : Nat) (h : off + b.length ≤ p.length)
    (hi : i < b.length) : (splice p off b)[off + i]? = b[i]? := by
  unfold splice
  rw [List.getElem?_append_left (by simp; omega), List.getElem?_append_right (by simp; omega)]
  congr 1
  simp
  omega

theorem length_le32 (v : Nat) : (le32 v).length = 4 := rfl

theorem word_splice_in (p : Bytes) (off v : Nat) (h : off + 4 ≤ p.length) (hv : v < 2 ^ 32) :
    Spec.word (splice p off (le32 v)) off = some v := by
  have e : ∀ i, i < 4 → (splice p off (le32 v))[off + i]? = (le32 v)[i]? :=
    fun i hi => splice_get_in p off (le32 v) i (by rw [length_le32]; exact h) (by rw [length_le32]; exact hi)
  have e0 := e 0 (by decide)
  have e1 := e 1 (by decide)
  have e2 := e 2 (by decide)
  have e3 := e 3 (by decide)
  simp only [Nat.add_zero] at e0
  unfold Spec.word
  rw [e0, e1, e2, e3]
  simp [le32]
  omega

theorem word_splice_out (p : Bytes) (off : Nat) (b : Bytes) (off' : Nat) (h : off + b.length ≤ p.length)
    (hd : off' + 4 ≤ off ∨ off + b.length ≤ off') : Spec.word (splice p off b) off' = Spec.word p off' := by
  unfold Spec.word
  rw [splice_get_out p off b off' h (by omega), splice_get_out p off b (off' + 1) h (by omega),
    splice_get_out p off b (off' + 2) h (by omega), splice_get_out p off b (off' + 3) h (by omega)]

theorem word_some (p : Bytes) (off : Nat) (h : off + 4 ≤ p.length) : ∃ v, Spec.word p off = some v := by
  unfold Spec.word
  rw [List.getElem?_eq_getElem (show off < p.length by omega),
    List.getElem?_eq_getElem (show off + 1 < p.length by omega),
    List.getElem?_eq_getElem (show off + 2 < p.length by omega),
    List.getElem?_eq_getElem (show off + 3 < p.length by omega)]
  exact ⟨_, rfl⟩

theorem take_splice (p : Bytes) (off : Nat) (b : Bytes) (n : Nat) (h : off + b.length ≤ p.length)
    (hn : n ≤ off) : (splice p off b).take n = p.take n := by
  unfold splice
  rw [List.append_assoc, List.take_append_of_le_length (by simp; omega), List.take_take]
  congr 1; omega

theorem copyRoot_of_words (p : Bytes) (n off : Nat) (bs : List Nat) (hl : bs.length = n)
    (h : ∀ k, k < n → Spec.word p (off + 4 * k) = bs[k]?) : copyRoot p off n = .ok bs := by
  induction n generalizing off bs with
  | zero => rw [List.length_eq_zero_iff.mp hl]; rfl
  | succ n ih =>
    obtain ⟨b, bs, rfl⟩ := List.exists_cons_of_length_eq_add_one hl
    have h0 := h 0 (by omega)
    simp only [Nat.mul_zero, Nat.add_zero, List.getElem?_cons_zero] at h0
    simp only [copyRoot, (rd32_word _ _ _).mpr h0, Outcome.ok_bind]
    rw [ih (off + 4) bs (by simpa using hl) (by
      intro k hk
      have := h (k + 1) (by omega)
      rw [List.getElem?_cons_succ] at this
      rw [← this]; congr 1; omega)]
    rfl

theorem countRoot_of_words (p : Bytes) (fuel off : Nat) (bs : List Nat) (hf : bs.length < fuel)
    (h : ∀ k (hk : k < bs.length), Spec.word p (off + 4 * k) = some bs[k]) (hnz : ∀ b ∈ bs, b ≠ 0)
    (h0 : Spec.word p (off + 4 * bs.length) = some 0) : countRoot p fuel off = .ok bs.length := by
  induction bs generalizing fuel off with
  | nil =>
    cases fuel with
    | zero => simp at hf
    | succ f =>
      simp only [List.length_nil, Nat.mul_zero, Nat.add_zero] at h0
      simp [countRoot, (rd32_word _ _ _).mpr h0]
  | cons b bs ih =>
    cases fuel with
    | zero => simp at hf
    | succ f =>
      have hb := h 0 (by simp)
      simp only [Nat.mul_zero, Nat.add_zero, List.getElem_cons_zero] at hb
      simp only [countRoot, (rd32_word _ _ _).mpr hb, Outcome.ok_bind]
      rw [if_neg (hnz b (by simp))]
      rw [ih f (off + 4) (by simp at hf; omega) (by
        intro k hk
        have := h (k + 1) (by simp; omega)
        rw [List.getElem_cons_succ] at this
        rw [← this]; congr 1; omega) (fun c hc => hnz c (by simp [hc])) (by
        rw [← h0]; congr 1; simp; omega)]
      simp

/-! ## Page updates -/

theorem touch_read (e : Env) (s : St) (n : Nat) (h : n < s.pages.length) : touch e s n true = .ok s := by
  unfold touch
  rw [if_neg (by omega), if_neg (by omega), if_pos rfl]

theorem poke_ok (s : St) (n off : Nat) (b p : Bytes) (h : s.pages[n]? = some p)
    (hb : off + b.length ≤ p.length) :
    poke s n off b = .ok { s with pages := s.pages.set n (splice p off b) } := by
  simp only [poke, h]
  rw [if_pos hb]

theorem getElem?_some_lt {α} {l : List α} {i : Nat} {x : α} (h : l[i]? = some x) : i < l.length := by
  rcases Nat.lt_or_ge i l.length with h' | h'
  · exact h'
  · rw [List.getElem?_eq_none h'] at h; simp at h

theorem get_set_eq {α} (l : List α) (i : Nat) (x : α) (h : i < l.length) : (l.set i x)[i]? = some x := by
  rw [List.getElem?_set, if_pos rfl, if_pos h]

theorem get_set_ne {α} (l : List α) (i j : Nat) (x : α) (h : i ≠ j) : (l.set i x)[j]? = l[j]? := by
  rw [List.getElem?_set, if_neg h]

theorem set_lengths (pages : List Bytes) (P n : Nat) (p : Bytes) (h : ∀ q ∈ pages, q.length = P)
    (hp : p.length = P) : ∀ q ∈ pages.set n p, q.length = P := by
  intro q hq
  rcases List.mem_or_eq_of_mem_set hq with h1 | h1
  · exact h q h1
  · rw [h1]; exact hp

/-! ## The specification on its own -/

namespace FreeSpec

theorem alloc_sound (s : State) (h : Sound s) : Sound (alloc s).2 := by
  unfold alloc
  split
  · rename_i p hp
    have hf : s.free = s.free.dropLast ++ [p] := by
      rcases List.eq_nil_or_concat s.free with h0 | ⟨l, a, h0⟩
      · rw [h0] at hp; simp at hp
      · rw [h0] at hp ⊢
        simp at hp
        subst hp
        simp
    unfold Sound at h ⊢
    refine List.Perm.trans ?_ h
    simp only
    conv => rhs; rw [hf]
    simp only [List.append_assoc, List.cons_append, List.nil_append]
    refine List.Perm.cons _ (List.Perm.cons _ (List.Perm.append_left _ ?_))
    exact List.perm_middle
  · unfold Sound at h ⊢
    simp only
    rw [List.range_succ]
    refine List.Perm.trans ?_ (List.Perm.append_right _ h)
    simp only [List.cons_append]
    refine List.Perm.cons _ (List.Perm.cons _ ?_)
    have := @List.perm_append_comm _ (s.free ++ s.own ++ s.used) [s.total]
    refine List.Perm.trans ?_ this.symm
    exact List.perm_middle

theorem release_sound (s : State) (h : Sound s) (p : Nat) (hp : p ∈ s.used) : Sound (release s p) := by
  have he : s.used.Perm (p :: s.used.erase p) := List.perm_cons_erase hp
  unfold release
  split
  · unfold Sound at h ⊢
    refine List.Perm.trans ?_ h
    simp only [List.append_assoc, List.cons_append, List.nil_append]
    refine List.Perm.cons _ (List.Perm.cons _ (List.Perm.append_left _ ?_))
    refine List.Perm.trans ?_ (List.Perm.append_left _ he.symm)
    exact (List.perm_middle).symm
  · unfold Sound at h ⊢
    refine List.Perm.trans ?_ h
    simp only [List.append_assoc, List.cons_append, List.nil_append]
    refine List.Perm.cons _ (List.Perm.cons _ (List.Perm.append_left _ (List.Perm.append_left _ ?_)))
    exact he.symm

theorem sound_nodup (s : State) (h : Sound s) : (0 :: 1 :: (s.free ++ s.own ++ s.used)).Nodup :=
  h.nodup_iff.mpr List.nodup_range

theorem sound_mem (s : State) (h : Sound s) (p : Nat) :
    p ∈ (0 :: 1 :: (s.free ++ s.own ++ s.used)) ↔ p < s.total := by
  rw [h.mem_iff, List.mem_range]

end FreeSpec

/-! ## The representation of the list in pages -/

/-- The free-page object `s.fr` and its pages represent the abstract list. -/
structure Rep (e : Env) (s : St) (sp : FreeSpec.State) : Prop where
  P : e.P = 4096
  block : s.fr.block = 1
  kind : s.fr.kind = .free80
  nodata : s.fr.data = none
  len : s.fr.len = sp.free.length
  blocks : s.fr.blocks = sp.own
  real : s.fr.realNumblocks = sp.own.length
  total : s.pages.length = sp.total
  small : sp.total ≤ 2 ^ 32
  full : ∀ p ∈ s.pages, p.length = 4096
  sound : FreeSpec.Sound sp
  room : sp.free.length ≤ 1024 * sp.own.length
  root : sp.own.length ≤ 253
  hdr : ∃ p1, s.pages[1]? = some p1 ∧ p1.take 8 = sigObj ∧ Spec.word p1 8 = some sp.free.length ∧
    (∀ k (hk : k < sp.own.length), Spec.word p1 (24 + 4 * k) = some sp.own[k]) ∧
    (∀ k, sp.own.length ≤ k → k < 1018 → Spec.word p1 (24 + 4 * k) = some 0)
  entries : ∀ m (hm : m < sp.free.length) t, sp.own[m / 1024]? = some t →
    ∃ tp, s.pages[t]? = some tp ∧ Spec.word tp (4 * (m % 1024)) = some sp.free[m]

theorem rep_bounds (e : Env) (s : St) (sp : FreeSpec.State) (h : Rep e s sp) :
    1 < s.pages.length ∧ (∀ t ∈ sp.own, t < s.pages.length ∧ t ≠ 0 ∧ t ≠ 1) ∧
    (∀ t ∈ sp.free, t < s.pages.length) ∧ sp.own.Nodup ∧ sp.free.length < 2 ^ 32 := by
  have hnd := FreeSpec.sound_nodup sp h.sound
  have hm := FreeSpec.sound_mem sp h.sound
  simp only [List.nodup_cons, List.mem_cons, List.mem_append, not_or] at hnd
  have hlen := h.sound.length_eq
  simp at hlen
  have htot := h.total
  have hsm := h.small
  refine ⟨?_, ?_, ?_, ?_, ?_⟩
  · have := (hm 1).mp (by simp)
    omega
  · intro t ht
    have := (hm t).mp (by simp [ht])
    refine ⟨by omega, ?_, ?_⟩
    · rintro rfl; exact hnd.1.2.1.2 ht
    · rintro rfl; exact hnd.2.1.1.2 ht
  · intro t ht
    have := (hm t).mp (by simp [ht])
    omega
  · have h1 := hnd.2.2
    rw [List.nodup_append] at h1
    have h2 := h1.1
    rw [List.nodup_append] at h2
    exact h2.2.1
  · omega

end Verif.Object
