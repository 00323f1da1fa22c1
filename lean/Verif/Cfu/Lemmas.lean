import Verif.Cfu.Model
import Verif.Nested.Flush
import Verif.Handle.Theorems
import Verif.Zlib.Theorems

/-! # Lemmas: update files -/

namespace Verif.Cfu
open Verif Verif.Stream Verif.Container Verif.Container.Spec Verif.Zlib Verif.Handle Verif.Cfu.Spec Verif.Unicode Verif.Unicode.Spec

variable {σ τ : Type}

/-! ## Inflating -/

theorem infInner_tail (z : Inflater τ) {D} (hz : CorrectInflater z D) (hs : StopsAtEnd z hz) (c x : Bytes) (hD : D c = some x)
    (n : Nat) (t : τ) (u y rest junk : Bytes) (ha : hz.Abs t u y) (hc : c = u ++ rest) (hp : y <+: x)
    (hn : x.length - y.length ≤ n) (f : Nat) (hf : n + 1 ≤ f) :
    ∃ t', infInner z f t (rest ++ junk) y = some (.ok (.streamEnd, t', x)) := by
  induction n generalizing t u y rest f with
  | zero =>
    obtain ⟨f, rfl⟩ : ∃ k, f = k + 1 := ⟨f - 1, by omega⟩
    obtain ⟨herr, hp', _⟩ := hs.keeps t u y rest junk CHUNK c x ha hD hc hp
    have hlen := hp'.length_le
    rw [List.length_append] at hlen
    have hlt : (z.call t (rest ++ junk) CHUNK).2.2.2.length < CHUNK := by
      have : 0 < CHUNK := by decide
      omega
    obtain ⟨he1, he2⟩ := hs.ends t u y rest junk CHUNK c x ha hD hc hp hlt
    refine ⟨(z.call t (rest ++ junk) CHUNK).2.1, ?_⟩
    simp only [infInner]
    rw [if_neg herr, if_neg (by omega), he1, he2]
  | succ n ih =>
    obtain ⟨f, rfl⟩ : ∃ k, f = k + 1 := ⟨f - 1, by omega⟩
    obtain ⟨herr, hp', hfu⟩ := hs.keeps t u y rest junk CHUNK c x ha hD hc hp
    by_cases hfull : (z.call t (rest ++ junk) CHUNK).2.2.2.length = CHUNK
    · obtain ⟨used, left, hu, hl, ha'⟩ := hfu hfull
      have hpos : 0 < CHUNK := by decide
      have hlen := hp'.length_le
      rw [List.length_append] at hlen
      obtain ⟨t', e⟩ := ih _ (u ++ used) _ left ha' (by rw [List.append_assoc, ← hu]; exact hc) hp'
        (by rw [List.length_append]; omega) f (by omega)
      refine ⟨t', ?_⟩
      simp only [infInner]
      rw [if_neg herr, if_pos hfull, hl]
      exact e
    · have hlt : (z.call t (rest ++ junk) CHUNK).2.2.2.length < CHUNK := by
        have := hz.room t (rest ++ junk) CHUNK; omega
      obtain ⟨he1, he2⟩ := hs.ends t u y rest junk CHUNK c x ha hD hc hp hlt
      refine ⟨(z.call t (rest ++ junk) CHUNK).2.1, ?_⟩
      simp only [infInner]
      rw [if_neg herr, if_neg hfull, he1, he2]

/-- The stream is open on the file. -/
structure Live (d : Disk) (h : Handle) (b : Bytes) : Prop where
  there : d.bytes = some b
  own : h.own = true
  isOpen : h.isOpen = true
  size : h.size = b.length

theorem read_live {d : Disk} {h : Handle} {b : Bytes} (hl : Live d h b) (n : Nat) :
    (Handle.read d h n).1 = (b.drop h.pos).take n ∧ Live d (Handle.read d h n).2 b ∧
      (Handle.read d h n).2.pos = h.pos + ((b.drop h.pos).take n).length ∧
      (Handle.read d h n).2.failed = decide (((b.drop h.pos).take n).length < n) := by
  have hr : Handle.reopen d h = h := by unfold Handle.reopen; rw [hl.own, hl.isOpen]; rfl
  unfold Handle.read
  simp only [hr, hl.isOpen, hl.there, if_true, Option.getD_some, Bool.not_true, Bool.false_or, true_and]
  exact ⟨⟨hl.there, hl.own, rfl, hl.size⟩, trivial⟩

/-- Reading a complete stream, with or without bytes behind it, from a file. -/
theorem infFile_spec (z : Inflater τ) {D} (hz : CorrectInflater z D) (hs : StopsAtEnd z hz) (c x : Bytes) (hD : D c = some x) (d : Disk) (b : Bytes)
    (inner : Nat) (hi : x.length + 1 ≤ inner) (n : Nat) : ∀ (t : τ) (u y rest junk : Bytes) (h : Handle) (fuel : Nat), hz.Abs t u y → c = u ++ rest →
    y <+: x → rest ≠ [] → Live d h b → b.drop h.pos = rest ++ junk → rest.length ≤ n → n + 1 ≤ fuel →
    ∃ h', infFile z inner d fuel h t y = some (.ok (h', x)) ∧ Live d h' b ∧ (junk = [] → rest.length % 16384 ≠ 0 → h'.failed = true) := by
  have hpos : CHUNK = 16384 := rfl
  induction n with
  | zero =>
    intro t u y rest junk h fuel _ _ _ hne _ _ hn _
    exact absurd (List.length_eq_zero_iff.mp (by omega)) hne
  | succ n ih =>
    intro t u y rest junk h fuel ha hc hp hne hl hdrop hn hf
    obtain ⟨fuel, rfl⟩ : ∃ k, fuel = k + 1 := ⟨fuel - 1, by omega⟩
    obtain ⟨hr1, hr2, hr3, hr4⟩ := read_live hl CHUNK
    rw [hdrop] at hr1 hr3 hr4
    have hlr : 0 < rest.length := List.length_pos_iff.mpr hne
    have hch : ((rest ++ junk).take CHUNK).length ≠ 0 := by
      rw [List.length_take, List.length_append]
      omega
    rw [infFile]
    simp only [hr1]
    rw [if_neg hch]
    by_cases hlong : CHUNK < rest.length
    · have htake : (rest ++ junk).take CHUNK = rest.take CHUNK := by
        rw [List.take_append_of_le_length (by omega)]
      rw [htake] at hr3 hr4 ⊢
      obtain ⟨ret, t', y', e, h1, h2, h3, _⟩ := infInner_spec z hz c x hD x.length t u y (rest.take CHUNK)
        (rest.drop CHUNK) ha (by rw [hc, List.append_assoc, List.take_append_drop]) hp (by omega) inner hi
      have hdne : rest.drop CHUNK ≠ [] := by
        intro h0
        have := congrArg List.length h0
        rw [List.length_drop, List.length_nil] at this
        omega
      have hret : ret ≠ .streamEnd := fun h0 => hdne (h3.1 h0)
      rw [e]
      simp only
      rw [if_neg hret]
      have hpc : (Handle.read d h CHUNK).2.pos = h.pos + CHUNK := by
        rw [hr3, List.length_take]
        omega
      obtain ⟨h', e', hl', hfl⟩ := ih t' (u ++ rest.take CHUNK) y' (rest.drop CHUNK) junk _ fuel h1
        (by rw [hc, List.append_assoc, List.take_append_drop]) h2 hdne hr2
        (by rw [hpc, ← List.drop_drop, hdrop, List.drop_append_of_le_length (by omega)]) (by rw [List.length_drop]; omega) (by omega)
      refine ⟨h', e', hl', fun hj hm => hfl hj ?_⟩
      rw [List.length_drop]
      omega
    · have htake : (rest ++ junk).take CHUNK = rest ++ junk.take (CHUNK - rest.length) := by
        rw [List.take_append, List.take_of_length_le (by omega)]
      rw [htake] at hr3 hr4 ⊢
      obtain ⟨t', e⟩ := infInner_tail z hz hs c x hD x.length t u y rest (junk.take (CHUNK - rest.length)) ha hc hp (by omega) inner hi
      rw [e]
      simp only [if_true]
      refine ⟨_, rfl, hr2, fun hj hm => ?_⟩
      rw [hr4, decide_eq_true_eq, hj]
      simp only [List.take_nil, List.append_nil]
      omega

/-! ## Saving -/

/-- Two writes, one behind the other, are one. -/
theorem write_append (d : Disk) (h : Handle) (b : Bytes) (hl : Live d h b) (hp : h.pos ≤ b.length) (v w : Bytes) :
    Handle.write (Handle.write d h v).2.2 (Handle.write d h v).2.1 w =
      (w.length, (Handle.write d h (v ++ w)).2) := by
  have hr : Handle.reopen d h = h := by unfold Handle.reopen; rw [hl.own, hl.isOpen]; rfl
  unfold Handle.write
  simp only [hr]
  have hr2 : ∀ d' : Disk, ∀ p s : Nat, Handle.reopen d' { h with pos := p, size := s } = { h with pos := p, size := s } := by
    intro d' p s
    unfold Handle.reopen
    simp only [hl.own, hl.isOpen]
    rfl
  rw [hr2]
  simp only
  have hmax : max (max h.size (h.pos + v.length)) (h.pos + v.length + w.length) = max h.size (h.pos + (v ++ w).length) := by
    rw [List.length_append]
    omega
  rw [hmax]
  cases hfl : h.failed with
  | true => simp [Nat.add_assoc]
  | false =>
    simp only [Bool.false_eq_true, if_false, hl.there, Option.getD_some, Prod.mk.injEq, true_and]
    refine ⟨by rw [List.length_append, Nat.add_assoc], ?_⟩
    congr 2
    rw [overlay_put b h.pos v hp, overlay_put _ _ w (by rw [put_length b _ v hp]; omega), overlay_put b h.pos (v ++ w) hp]
    have h1 : (Handle.Spec.put b h.pos v).take (h.pos + v.length) = b.take h.pos ++ v := by
      unfold Handle.Spec.put
      rw [List.take_append_of_le_length (by simp; omega), List.take_of_length_le (by simp; omega)]
    have h2 : (Handle.Spec.put b h.pos v).drop (h.pos + v.length + w.length) = b.drop (h.pos + (v ++ w).length) := by
      unfold Handle.Spec.put
      have hlen : (b.take h.pos ++ v).length = h.pos + v.length := by simp; omega
      rw [← hlen, ← List.drop_drop, List.drop_left, List.drop_drop, hlen]
      congr 1
      rw [List.length_append, Nat.add_assoc]
    show (Handle.Spec.put b h.pos v).take (h.pos + v.length) ++ w ++ (Handle.Spec.put b h.pos v).drop (h.pos + v.length + w.length) = _
    rw [h1, h2]
    unfold Handle.Spec.put
    simp only [List.append_assoc]

/-- The file begins with a complete stream that stands for the bytes. -/
def Saved (D : Bytes → Option Bytes) (b x : Bytes) : Prop := ∃ c junk, b = c ++ junk ∧ D c = some x

/-- The bounds suffice. -/
structure Enough (L : Lib σ τ) (D : Bytes → Option Bytes) : Prop where
  deflate : ∀ x, x.length % 16384 ≠ 0 → ∃ c, deflateStream L.z (L.fd x) x = some (true, c) ∧ D c = some x
  inflate : ∀ b c junk x, b = c ++ junk → D c = some x → b.length + x.length + 1 ≤ L.fi b

/-- A usable stream: nothing has failed. -/
structure Usable (d : Disk) (h : Handle) (b : Bytes) : Prop where
  live : Live d h b
  sound : h.failed = false
  rw : d.rw = true

theorem save_ok (L : Lib σ τ) {D : Bytes → Option Bytes} (hD : D [] = none) (hen : Enough L D) {d : Disk} {h : Handle} {b : Bytes} (hu : Usable d h b)
    (x : Bytes) (hx : x.length % 16384 ≠ 0) :
    ∃ h' d' b', save L d h x = .ok (some (h', d')) ∧ Usable d' h' b' ∧ Saved D b' x := by
  obtain ⟨c, e, hc⟩ := hen.deflate x hx
  have hne : c ≠ [] := by rintro rfl; rw [hD] at hc; cases hc
  have hr : ∀ h2 : Handle, h2 = { h with pos := 0 } → Handle.reopen d h2 = h2 := by
    rintro h2 rfl
    unfold Handle.reopen
    simp only [hu.live.own, hu.live.isOpen]
    rfl
  have hov : overlay b 0 c = c ++ b.drop c.length := by
    rw [overlay_put b 0 c (Nat.zero_le _)]
    unfold Handle.Spec.put
    simp
  refine ⟨(Handle.write d { h with pos := 0 } c).2.1, (Handle.write d { h with pos := 0 } c).2.2, c ++ b.drop c.length, ?_, ?_, c, _, rfl, hc⟩
  · unfold save seek
    rw [if_neg (by omega), Outcome.ok_bind, e]
    simp only
    rw [if_neg hne]
  · unfold Handle.write
    rw [hr _ rfl]
    simp only [hu.sound, Bool.false_eq_true, if_false, hu.live.there, Option.getD_some, hov]
    refine ⟨⟨rfl, hu.live.own, hu.live.isOpen, ?_⟩, rfl, hu.rw⟩
    simp only [hu.live.size, List.length_append, List.length_drop]
    omega

/-- A stream that failed: nothing is written any more, and no error is reported. -/
theorem save_failed (L : Lib σ τ) {d d' : Disk} {h h' : Handle} (ho : h.own = true ∧ h.isOpen = true) (hf : h.failed = true) (x : Bytes)
    (e : save L d h x = .ok (some (h', d'))) : d' = d ∧ (h'.own = true ∧ h'.isOpen = true) ∧ h'.failed = true := by
  unfold save seek at e
  rw [if_neg (by omega), Outcome.ok_bind] at e
  cases he : deflateStream L.z (L.fd x) x with
  | none => rw [he] at e; cases e
  | some r =>
    obtain ⟨f, out⟩ := r
    rw [he] at e
    simp only at e
    split at e
    · cases e; exact ⟨rfl, ho, hf⟩
    · have hr : Handle.reopen d { h with pos := 0 } = { h with pos := 0 } := by
        unfold Handle.reopen
        simp only [ho.1, ho.2]
        rfl
      unfold Handle.write at e
      rw [hr] at e
      simp only [hf, if_true] at e
      cases e
      exact ⟨rfl, ho, rfl⟩

/-! ## A container that has not changed -/

theorem loadLoop_closed (fuel : Nat) (src : Mem) (n : Nat) : ∀ (fat : Bytes) (k k' : Catalog), (∀ e ∈ k.ents, e.content = none) →
    loadLoop fuel src n fat k = .ok (some (.container k')) → ∀ e ∈ k'.ents, e.content = none := by
  induction n with
  | zero => intro fat k k' h0 h; rw [loadLoop] at h; cases h; exact h0
  | succ n ih =>
    intro fat k k' h0 h
    rw [loadLoop] at h
    cases hl : loadEntry fuel src (fat.take 12) k.fresh with
    | throw => rw [hl] at h; cases h
    | ub => rw [hl] at h; cases h
    | ok r =>
      rw [hl] at h
      cases r with
      | none => cases h
      | some e =>
        simp only at h
        cases ha : addEntry k e with
        | throw => rw [ha] at h; cases h
        | ub => rw [ha] at h; cases h
        | ok k1 =>
          rw [ha] at h
          simp only at h
          unfold addEntry at ha
          obtain ⟨q, _, ha⟩ := bind_ok ha
          cases ha
          refine ih _ _ _ ?_ h
          intro y hy
          rcases List.mem_append.1 hy with hy | hy
          · exact h0 y hy
          · rw [List.mem_singleton.1 hy]
            unfold loadEntry at hl
            obtain ⟨r, _, hl⟩ := bind_ok hl
            cases r with
            | none => cases hl
            | some m =>
              simp only at hl
              obtain ⟨⟨p1, p2, p3⟩, _, hl⟩ := bind_ok hl
              cases hl
              rfl

theorem init_closed {fuel : Nat} {b : Bytes} {k : Catalog} (h : initCatalog fuel b = .ok (some (.container k))) :
    (∀ e ∈ k.ents, e.content = none) ∧ k.fatMod = false ∧ k.cat.emptyMod = false ∧ k.cat.modified = false := by
  unfold initCatalog at h
  simp only at h
  split at h
  · cases hr : readBlock fuel ⟨b, 16⟩ 16 with
    | throw => rw [hr] at h; cases h
    | ub => rw [hr] at h; cases h
    | ok r =>
      rw [hr] at h
      cases r with
      | none => cases h
      | some fat =>
        simp only at h
        obtain ⟨h1, h2⟩ := Nested.loadLoop_keeps _ _ _ _ _ _ h
        refine ⟨loadLoop_closed _ _ _ _ _ _ (by simp) h, h2, ?_, ?_⟩ <;> rw [h1]
  · cases h
    exact ⟨by simp, rfl, rfl, rfl⟩

theorem flushFiles_still (cd : Codec) (fuel : Nat) (c : Cat) (rest : List File) : ∀ done, (∀ e ∈ rest, e.content = none ∨ Clean e) →
    flushFiles cd fuel c done rest = .ok (some (c, done ++ rest)) := by
  induction rest with
  | nil => intro done _; rw [flushFiles, List.append_nil]
  | cons e rest ih =>
    intro done h
    rw [flushFiles]
    have he : flushFile cd fuel c e = .ok (some (c, e)) := by
      unfold flushFile
      rcases h e (by simp) with h0 | h0
      · rw [h0]
      · cases hc : e.content with
        | none => rfl
        | some b =>
          simp only
          unfold flushData flushHeader
          simp [h0.1, h0.2]
    rw [he, Outcome.ok_bind]
    simp only
    rw [ih (done ++ [e]) (fun x hx => h x (by simp [hx]))]
    simp

/-- Flushing a container in which nothing has changed. -/
theorem flush_still (cd : Codec) (fuel : Nat) (k : Catalog) (h1 : ∀ e ∈ k.ents, e.content = none ∨ Clean e) (h2 : k.fatMod = false)
    (h3 : k.cat.emptyMod = false) (h4 : k.cat.modified = false) : flush cd fuel k = .ok (some k) := by
  unfold flush
  rw [flushFiles_still cd fuel k.cat k.ents [] h1, Outcome.ok_bind]
  simp only [List.nil_append]
  unfold flushFat flushHead putIf
  simp only [h2, h3, h4, Bool.false_eq_true, if_false, Outcome.ok_bind]
  obtain ⟨⟨m, n, p, e, o⟩, v, es, fs, fm, fr⟩ := k
  simp only at h2 h3 h4
  subst h2 h3 h4
  rfl

end Verif.Cfu
