import Verif.Object.FreeLemmas
import Mathlib.Data.List.Nodup
import Mathlib.Tactic.ByContra

/-! # Property theorems: allocation and release of pages (C26) -/

namespace Verif.Object
open Verif

/-- Same list as `Rep`, but for pages only: what is not part of the list may differ. -/
theorem own_get (sp : FreeSpec.State) (m t : Nat) (h : sp.own[m]? = some t) : t ∈ sp.own :=
  List.mem_of_getElem? h

theorem nodup_get_ne {l : List Nat} (h : l.Nodup) {i j a b : Nat} (hi : l[i]? = some a) (hj : l[j]? = some b)
    (hij : i ≠ j) : a ≠ b := by
  intro hab
  subst hab
  have h1 := getElem?_some_lt hi
  have h2 := getElem?_some_lt hj
  rw [List.getElem?_eq_getElem h1] at hi
  rw [List.getElem?_eq_getElem h2] at hj
  simp at hi hj
  exact hij ((List.Nodup.getElem_inj_iff h).mp (hi.trans hj.symm))

theorem getFree_refines (e : Env) (s : St) (sp : FreeSpec.State) (h : Rep e s sp) (hsm : sp.total < 2 ^ 32) :
    ∃ s', getFree e s = .ok ((FreeSpec.alloc sp).1, s') ∧ Rep e s' (FreeSpec.alloc sp).2 ∧
      (∀ q ∈ sp.used, s'.pages[q]? = s.pages[q]?) ∧
      s'.pages.length = (FreeSpec.alloc sp).2.total ∧ s'.tick = s.tick ∧
      s'.fr.block = 1 ∧ s'.pages[(FreeSpec.alloc sp).1]? = (if sp.free = [] then some (List.replicate 4096 0) else s.pages[(FreeSpec.alloc sp).1]?) := by
  obtain ⟨hb1, hb2, hb3, hb4, hb5⟩ := rep_bounds e s sp h
  have hsound := FreeSpec.alloc_sound sp h.sound
  have hnd := FreeSpec.sound_nodup sp h.sound
  simp only [List.nodup_cons, List.mem_cons, List.mem_append, not_or] at hnd
  obtain ⟨p1, hp1, hsig, hl8, hroot, hzero⟩ := h.hdr
  have hp1l : p1.length = 4096 := h.full p1 (List.mem_of_getElem? hp1)
  have hzl : (List.replicate 4096 (0 : UInt8)).length = 4096 := List.length_replicate
  generalize hz : List.replicate 4096 (0 : UInt8) = z at hzl ⊢
  unfold getFree
  rw [if_neg (by simp [h.block])]
  rcases List.eq_nil_or_concat sp.free with hnil | ⟨l, a, hfree⟩
  · -- empty list: a new page
    have hlen0 : s.fr.len = 0 := by rw [h.len, hnil]; rfl
    have halloc : FreeSpec.alloc sp = (sp.total, { sp with used := sp.total :: sp.used, total := sp.total + 1 }) := by
      simp [FreeSpec.alloc, hnil]
    rw [if_neg (by simp [hlen0])]
    have hne0 : s.pages[0]? = some (s.pages[0]'(by omega)) := List.getElem?_eq_getElem _
    generalize s.pages[0]'(by omega) = p0 at hne0
    have hp0l : p0.length = 4096 := h.full p0 (List.mem_of_getElem? hne0)
    have hmod : s.pages.modify 0 (fun p => splice p 12 (le32 (s.pages.length + 1)))
        = s.pages.set 0 (splice p0 12 (le32 (s.pages.length + 1))) := by
      cases hs : s.pages with
      | nil => rw [hs] at hb1; simp at hb1
      | cons x xs => rw [hs] at hne0; simp at hne0; subst hne0; simp [List.modify]
    have ht : touch e s s.pages.length false = .ok { s with
        pages := s.pages.set 0 (splice p0 12 (le32 (s.pages.length + 1))) ++ [z] } := by
      unfold touch
      rw [if_neg (by omega), if_pos rfl, if_neg (by decide), hmod, h.P, ← hz]
    simp only [ht, Outcome.ok_bind]
    have hget : ∀ q, q ≠ 0 → q < s.pages.length →
        (s.pages.set 0 (splice p0 12 (le32 (s.pages.length + 1))) ++ [z])[q]? = s.pages[q]? := by
      intro q hq hql
      rw [List.getElem?_append_left (by simpa using hql), get_set_ne _ _ _ _ (by omega)]
    refine ⟨{ s with
        pages := s.pages.set 0 (splice p0 12 (le32 (s.pages.length + 1))) ++ [z] },
        by rw [halloc, ← h.total], ?_, ?_, ?_, rfl, h.block, ?_⟩
    · rw [halloc]
      rw [halloc] at hsound
      refine ⟨h.P, h.block, h.kind, h.nodata, h.len, h.blocks, h.real, ?_, by simp; omega, ?_, hsound, h.room, h.root, ?_, ?_⟩
      · simp [h.total]
      · intro p hp
        simp only [List.mem_append, List.mem_singleton] at hp
        rcases hp with hp | hp
        · exact set_lengths _ _ _ _ h.full (by rw [length_splice _ _ _ (by rw [length_le32]; omega), hp0l]) p hp
        · rw [hp]; exact hzl
      · exact ⟨p1, by simp only; rw [hget 1 (by decide) hb1]; exact hp1, hsig, hl8, hroot, hzero⟩
      · intro m hm
        simp only at hm
        rw [hnil] at hm; simp at hm
    · intro q hq
      have hq0 : q ≠ 0 := by
        rintro rfl
        exact hnd.1.2.2 hq
      have hql : q < sp.total := (FreeSpec.sound_mem sp h.sound q).mp (by simp [hq])
      exact hget q hq0 (by rw [h.total]; exact hql)
    · rw [halloc]; simp [h.total]
    · rw [halloc, if_pos hnil, ← h.total]
      simp only
      rw [List.getElem?_append_right (by simp)]
      simp
  · -- reuse the last entry
    have hlen : sp.free.length = l.length + 1 := by simp [hfree]
    have halloc : FreeSpec.alloc sp = (a, { sp with free := l, used := a :: sp.used }) := by
      simp [FreeSpec.alloc, hfree]
    rw [if_pos (by rw [h.len]; omega)]
    have hln : s.fr.len - 1 = l.length := by rw [h.len]; omega
    simp only [hln]
    have hown : ∃ t, sp.own[l.length / 1024]? = some t := by
      have hroom := h.room
      exact ⟨_, List.getElem?_eq_getElem (show l.length / 1024 < sp.own.length by omega)⟩
    obtain ⟨t, ht⟩ := hown
    obtain ⟨tp, htp, hw⟩ := h.entries l.length (by omega) t ht
    have hwa : Spec.word tp (4 * (l.length % 1024)) = some a := by
      rw [hw]; congr 1; simp [hfree]
    obtain ⟨htl, ht0, ht1⟩ := hb2 t (own_get sp _ t ht)
    have htpl : tp.length = 4096 := h.full tp (List.mem_of_getElem? htp)
    have hidx : idx s.fr.blocks (l.length / 1024) = .ok t := by rw [idx_ok, h.blocks]; exact ht
    have hpeek : peek s t (4 * (l.length % 1024)) = .ok a := by
      simp only [peek, htp]; exact (rd32_word _ _ _).mpr hwa
    have hoff : 4 * (l.length % 1024) + 4 ≤ 4096 := by omega
    have hpoke := poke_ok s t (4 * (l.length % 1024)) (le32 0) tp htp (by rw [length_le32]; omega)
    have htouch1 : touch e { s with pages := s.pages.set t (splice tp (4 * (l.length % 1024)) (le32 0)) } 1 true
        = .ok { s with pages := s.pages.set t (splice tp (4 * (l.length % 1024)) (le32 0)) } :=
      touch_read e _ 1 (by simpa using hb1)
    have hp1' : (s.pages.set t (splice tp (4 * (l.length % 1024)) (le32 0)))[1]? = some p1 := by
      rw [get_set_ne _ _ _ _ ht1, hp1]
    have hpoke1 := poke_ok { s with pages := s.pages.set t (splice tp (4 * (l.length % 1024)) (le32 0)) } 1 8
      (le32 l.length) p1 hp1' (by rw [length_le32, hp1l]; decide)
    simp only [hidx, touch_read e s t htl, hpeek, hpoke, htouch1, hpoke1, Outcome.ok_bind]
    have hal : a ∈ sp.free := by rw [hfree]; simp
    refine ⟨{ s with
        pages := (s.pages.set t (splice tp (4 * (l.length % 1024)) (le32 0))).set 1 (splice p1 8 (le32 l.length)),
        fr := { s.fr with len := l.length } }, by rw [halloc], ?_, ?_, ?_, rfl, h.block, ?_⟩
    · rw [halloc]
      rw [halloc] at hsound
      refine ⟨h.P, h.block, h.kind, h.nodata, rfl, h.blocks, h.real, ?_, h.small, ?_, hsound, ?_, h.root, ?_, ?_⟩
      · simp [h.total]
      · apply set_lengths
        · exact set_lengths _ _ _ _ h.full (by rw [length_splice _ _ _ (by rw [length_le32]; omega), htpl])
        · rw [length_splice _ _ _ (by rw [length_le32]; omega), hp1l]
      · have := h.room; simp only; omega
      · refine ⟨splice p1 8 (le32 l.length), ?_, ?_, ?_, ?_, ?_⟩
        · simp only; rw [get_set_eq _ _ _ (by simpa using hb1)]
        · rw [take_splice _ _ _ _ (by rw [length_le32]; omega) (by decide)]; exact hsig
        · exact word_splice_in _ _ _ (by omega) (by omega)
        · intro k hk
          rw [word_splice_out _ _ _ _ (by rw [length_le32]; omega) (by rw [length_le32]; omega)]
          exact hroot k hk
        · intro k hk1 hk2
          rw [word_splice_out _ _ _ _ (by rw [length_le32]; omega) (by rw [length_le32]; omega)]
          exact hzero k hk1 hk2
      · intro m hm t' ht'
        simp only at hm ht' ⊢
        have hm' : m < sp.free.length := by omega
        obtain ⟨tp', htp', hw'⟩ := h.entries m hm' t' ht'
        obtain ⟨_, _, ht1'⟩ := hb2 t' (own_get sp _ t' ht')
        rw [get_set_ne _ _ _ _ (by omega)]
        have hfm : sp.free[m] = l[m] := by simp [hfree, List.getElem_append_left hm]
        by_cases htt : t = t'
        · subst htt
          rw [htp] at htp'
          cases htp'
          refine ⟨_, get_set_eq _ _ _ htl, ?_⟩
          have hdiv : m / 1024 = l.length / 1024 := by
            by_contra hne
            exact nodup_get_ne hb4 ht' ht hne rfl
          rw [word_splice_out _ _ _ _ (by rw [length_le32]; omega) (by rw [length_le32]; omega), hw', hfm]
        · exact ⟨tp', by rw [get_set_ne _ _ _ _ htt]; exact htp', by rw [hw', hfm]⟩
    · intro q hq
      have hq1 : q ≠ 1 := by rintro rfl; exact hnd.2.1.2 hq
      have hqt : t ≠ q := by
        rintro rfl
        have h1 := hnd.2.2
        rw [List.nodup_append] at h1
        exact h1.2.2 t (by simp [own_get sp _ t ht]) t hq rfl
      simp only
      rw [get_set_ne _ _ _ _ (by omega), get_set_ne _ _ _ _ hqt]
    · rw [halloc]; simp [h.total]
    · rw [halloc, if_neg (by rw [hfree]; simp)]
      simp only
      have ha1 : a ≠ 1 := by
        rintro rfl
        exact hnd.2.1.1.1 hal
      have hta : t ≠ a := by
        rintro rfl
        have h1 := hnd.2.2
        rw [List.nodup_append] at h1
        have h2 := h1.1
        rw [List.nodup_append] at h2
        exact h2.2.2 t hal t (own_get sp _ t ht) rfl
      rw [get_set_ne _ _ _ _ (by omega), get_set_ne _ _ _ _ hta]

theorem setFree_refines (e : Env) (s : St) (sp : FreeSpec.State) (h : Rep e s sp) (p : Nat)
    (hp : p ∈ sp.used) (hroot : sp.own.length < 253) (hslack : 3 * 254 ≤ e.slack) :
    ∃ s', setFree e s p = .ok s' ∧ Rep e s' (FreeSpec.release sp p) ∧
      (∀ q ∈ sp.used, s'.pages[q]? = s.pages[q]?) ∧ s'.tick = s.tick ∧
      s'.pages.length = s.pages.length := by
  obtain ⟨hb1, hb2, hb3, hb4, hb5⟩ := rep_bounds e s sp h
  have hsound := FreeSpec.release_sound sp h.sound p hp
  have hnd := FreeSpec.sound_nodup sp h.sound
  simp only [List.nodup_cons, List.mem_cons, List.mem_append, not_or] at hnd
  have hpt : p < sp.total := (FreeSpec.sound_mem sp h.sound p).mp (by simp [hp])
  have hsm := h.small
  obtain ⟨p1, hp1, hsig, hl8, hroots, hzero⟩ := h.hdr
  have hp1l : p1.length = 4096 := h.full p1 (List.mem_of_getElem? hp1)
  have hused_own : ∀ q ∈ sp.used, q ∉ sp.own := by
    intro q hq hq'
    have h1 := hnd.2.2
    rw [List.nodup_append] at h1
    exact h1.2.2 q (by simp [hq']) q hq rfl
  have hused1 : ∀ q ∈ sp.used, q ≠ 1 := by rintro q hq rfl; exact hnd.2.1.2 hq
  have hcount : sp.free.length + 1 < 2 ^ 32 := by
    have hlen := h.sound.length_eq
    have : 0 < sp.used.length := List.length_pos_of_mem hp
    simp at hlen
    omega
  unfold setFree
  rw [if_neg (by simp [h.block])]
  simp only [touch_read e s 1 hb1, Outcome.ok_bind]
  by_cases hj : sp.free.length / 1024 < sp.own.length
  · have hrel : FreeSpec.release sp p = { sp with free := sp.free ++ [p], used := sp.used.erase p } := by
      simp only [FreeSpec.release]; rw [if_pos hj]
    rw [if_pos (by rw [h.real, h.len]; omega)]
    have hown : ∃ t, sp.own[sp.free.length / 1024]? = some t := ⟨_, List.getElem?_eq_getElem hj⟩
    obtain ⟨t, ht⟩ := hown
    obtain ⟨htl, ht0, ht1⟩ := hb2 t (own_get sp _ t ht)
    have htp : ∃ tp, s.pages[t]? = some tp := ⟨_, List.getElem?_eq_getElem htl⟩
    obtain ⟨tp, htp⟩ := htp
    have htpl : tp.length = 4096 := h.full tp (List.mem_of_getElem? htp)
    have hpoke1 := poke_ok s 1 8 (le32 (s.fr.len + 1)) p1 hp1 (by rw [length_le32, hp1l]; decide)
    have hidx : idx s.fr.blocks (s.fr.len / 1024) = .ok t := by rw [idx_ok, h.blocks, h.len]; exact ht
    have htouch : touch e { s with pages := s.pages.set 1 (splice p1 8 (le32 (s.fr.len + 1))) } t true
        = .ok { s with pages := s.pages.set 1 (splice p1 8 (le32 (s.fr.len + 1))) } :=
      touch_read e _ t (by simpa using htl)
    have hpoke2 := poke_ok { s with pages := s.pages.set 1 (splice p1 8 (le32 (s.fr.len + 1))) } t
      (4 * (s.fr.len % 1024)) (le32 p) tp (by simp only; rw [get_set_ne _ _ _ _ (by omega)]; exact htp)
      (by rw [length_le32, htpl]; omega)
    simp only [hpoke1, hidx, htouch, hpoke2, Outcome.ok_bind]
    refine ⟨_, rfl, ?_, ?_, rfl, by simp⟩
    · rw [hrel]
      rw [hrel] at hsound
      refine ⟨h.P, h.block, h.kind, h.nodata, by simp [h.len], h.blocks, h.real, by simp [h.total], h.small, ?_, hsound, ?_, h.root, ?_, ?_⟩
      · apply set_lengths
        · exact set_lengths _ _ _ _ h.full (by rw [length_splice _ _ _ (by rw [length_le32]; omega), hp1l])
        · rw [length_splice _ _ _ (by rw [length_le32]; omega), htpl]
      · simp; omega
      · refine ⟨splice p1 8 (le32 (s.fr.len + 1)), ?_, ?_, ?_, ?_, ?_⟩
        · simp only
          rw [get_set_ne _ _ _ _ (by omega), get_set_eq _ _ _ hb1]
        · rw [take_splice _ _ _ _ (by rw [length_le32]; omega) (by decide)]; exact hsig
        · rw [word_splice_in _ _ _ (by omega) (by rw [h.len]; omega), h.len]; simp
        · intro k hk
          rw [word_splice_out _ _ _ _ (by rw [length_le32]; omega) (by rw [length_le32]; omega)]
          exact hroots k hk
        · intro k hk1 hk2
          rw [word_splice_out _ _ _ _ (by rw [length_le32]; omega) (by rw [length_le32]; omega)]
          exact hzero k hk1 hk2
      · intro m hm t' ht'
        simp only [List.length_append, List.length_singleton] at hm
        simp only at ht' ⊢
        obtain ⟨htl', _, ht1'⟩ := hb2 t' (own_get sp _ t' ht')
        by_cases hmn : m < sp.free.length
        · obtain ⟨tp', htp', hw'⟩ := h.entries m hmn t' ht'
          have hfm : (sp.free ++ [p])[m]'(by simp; omega) = sp.free[m] := List.getElem_append_left hmn
          rw [hfm]
          by_cases htt : t = t'
          · subst htt
            rw [htp] at htp'
            cases htp'
            refine ⟨_, get_set_eq _ _ _ (by simpa using htl), ?_⟩
            have hdiv : m / 1024 = sp.free.length / 1024 := by
              by_contra hne
              exact nodup_get_ne hb4 ht' ht hne rfl
            rw [h.len, word_splice_out _ _ _ _ (by rw [length_le32]; omega) (by rw [length_le32]; omega), hw']
          · exact ⟨tp', by rw [get_set_ne _ _ _ _ htt, get_set_ne _ _ _ _ (by omega)]; exact htp', hw'⟩
        · have hmeq : m = sp.free.length := by omega
          subst hmeq
          rw [ht] at ht'
          cases ht'
          refine ⟨_, get_set_eq _ _ _ (by simpa using htl), ?_⟩
          rw [h.len, word_splice_in _ _ _ (by omega) (by omega)]
          simp
    · intro q hq
      have hq1 := hused1 q hq
      have hqt : t ≠ q := by rintro rfl; exact hused_own t hq (own_get sp _ t ht)
      simp only
      rw [get_set_ne _ _ _ _ hqt, get_set_ne _ _ _ _ (by omega)]
  · have hrel : FreeSpec.release sp p = { sp with own := sp.own ++ [p], used := sp.used.erase p } := by
      simp only [FreeSpec.release]; rw [if_neg hj]
    rw [if_neg (by rw [h.real, h.len]; omega)]
    have hpoke := poke_ok s 1 (24 + 4 * s.fr.realNumblocks) (le32 p) p1 hp1
      (by rw [length_le32, hp1l, h.real]; omega)
    -- the new root
    have hnew : ∀ k, k < 1018 → Spec.word (splice p1 (24 + 4 * s.fr.realNumblocks) (le32 p)) (24 + 4 * k)
        = some (if k = sp.own.length then p else if h : k < sp.own.length then sp.own[k] else 0) := by
      intro k hk
      by_cases hkn : k = sp.own.length
      · rw [if_pos hkn, hkn, h.real]
        exact word_splice_in _ _ _ (by omega) (by omega)
      · rw [if_neg hkn]
        rw [word_splice_out _ _ _ _ (by rw [length_le32, h.real]; omega) (by rw [length_le32, h.real]; omega)]
        by_cases hkl : k < sp.own.length
        · rw [dif_pos hkl]; exact hroots k hkl
        · rw [dif_neg hkl]; exact hzero k (by omega) hk
    have hcopy : ∃ ws, peekMany { s with pages := s.pages.set 1 (splice p1 (24 + 4 * s.fr.realNumblocks) (le32 p)) } 1 24
        ((s.fr.realNumblocks + 1) * 4) = .ok ws ∧ ws.take (s.fr.realNumblocks + 1) = sp.own ++ [p] := by
      refine ⟨(List.range ((s.fr.realNumblocks + 1) * 4)).map (fun k =>
        if k = sp.own.length then p else if h : k < sp.own.length then sp.own[k] else 0), ?_, ?_⟩
      · simp only [peekMany]
        rw [get_set_eq _ _ _ hb1]
        apply copyRoot_of_words
        · simp
        · intro k hk
          rw [hnew k (by rw [h.real] at hk; omega)]
          simp [hk]
      · rw [h.real]
        apply List.ext_getElem?
        intro k
        by_cases hk : k < sp.own.length + 1
        · rw [List.getElem?_take_of_lt hk]
          rw [List.getElem?_map, List.getElem?_range (by omega)]
          by_cases hkn : k = sp.own.length
          · subst hkn; simp
          · have hkl : k < sp.own.length := by omega
            rw [List.getElem?_append_left hkl]
            simp [hkn, hkl]
        · rw [List.getElem?_eq_none (by simp; omega), List.getElem?_eq_none (by simp; omega)]
    obtain ⟨ws, hws, hwt⟩ := hcopy
    simp only [hpoke, hws, Outcome.ok_bind]
    rw [if_neg (by rw [h.real]; omega)]
    refine ⟨_, rfl, ?_, ?_, rfl, by simp⟩
    · rw [hrel]
      rw [hrel] at hsound
      refine ⟨h.P, h.block, h.kind, h.nodata, h.len, hwt, by simp [h.real], by simp [h.total], h.small, ?_, hsound, ?_, ?_, ?_, ?_⟩
      · exact set_lengths _ _ _ _ h.full (by rw [length_splice _ _ _ (by rw [length_le32, h.real]; omega), hp1l])
      · have := h.room; simp; omega
      · simp; omega
      · refine ⟨splice p1 (24 + 4 * s.fr.realNumblocks) (le32 p), get_set_eq _ _ _ hb1, ?_, ?_, ?_, ?_⟩
        · rw [take_splice _ _ _ _ (by rw [length_le32, h.real]; omega) (by omega)]; exact hsig
        · rw [word_splice_out _ _ _ _ (by rw [length_le32, h.real]; omega) (by omega)]
          exact hl8
        · intro k hk
          simp only [List.length_append, List.length_singleton] at hk
          rw [hnew k (by omega)]
          by_cases hkn : k = sp.own.length
          · subst hkn; simp
          · have hkl : k < sp.own.length := by omega
            rw [if_neg hkn, dif_pos hkl]
            simp [List.getElem_append_left hkl]
        · intro k hk1 hk2
          simp only [List.length_append, List.length_singleton] at hk1
          rw [hnew k hk2, if_neg (by omega), dif_neg (by omega)]
      · intro m hm t' ht'
        simp only at hm ht' ⊢
        have hroom := h.room
        have hlt : m / 1024 < sp.own.length := by omega
        rw [List.getElem?_append_left hlt] at ht'
        obtain ⟨tp', htp', hw'⟩ := h.entries m hm t' ht'
        obtain ⟨_, _, ht1'⟩ := hb2 t' (own_get sp _ t' ht')
        exact ⟨tp', by rw [get_set_ne _ _ _ _ (by omega)]; exact htp', hw'⟩
    · intro q hq
      have hq1 := hused1 q hq
      simp only
      rw [get_set_ne _ _ _ _ (by omega)]

/-! ## Property theorems -/

/-- A history of allocations and releases on the real structures. -/
def runFree (e : Env) (s : St) : List FreeSpec.Op → Outcome (St × List (Option Nat))
  | [] => .ok (s, [])
  | .alloc :: os => do
    let (p, s) ← getFree e s
    let (s, rs) ← runFree e s os
    .ok (s, some p :: rs)
  | .release p :: os => do
    let s ← setFree e s p
    let (s, rs) ← runFree e s os
    .ok (s, none :: rs)

/-- Room for `k` more releases in the root of the free-page file. -/
def Budget (sp : FreeSpec.State) (k : Nat) : Prop := sp.own.length < 253 ∧ sp.free.length + k ≤ 252 * 1024

theorem budget_release {e : Env} {s : St} {sp : FreeSpec.State} (h : Rep e s sp) {k : Nat} (hb : Budget sp (k + 1)) (p : Nat) :
    Budget (FreeSpec.release sp p) k := by
  have hr := h.room
  obtain ⟨h1, h2⟩ := hb
  unfold FreeSpec.release
  split
  · refine ⟨h1, ?_⟩
    simp only [List.length_append, List.length_singleton]
    omega
  · refine ⟨?_, ?_⟩
    · simp only [List.length_append, List.length_singleton]; omega
    · show sp.free.length + k ≤ _; omega

theorem budget_mono {sp : FreeSpec.State} {k l : Nat} (h : Budget sp k) (hl : l ≤ k) : Budget sp l :=
  ⟨h.1, by have := h.2; omega⟩

theorem budget_alloc {sp : FreeSpec.State} {k : Nat} (h : Budget sp (k + 1)) : Budget (FreeSpec.alloc sp).2 k := by
  obtain ⟨h1, h2⟩ := h
  unfold FreeSpec.alloc
  split
  · exact ⟨h1, by simp; omega⟩
  · exact ⟨h1, by show sp.free.length + k ≤ _; omega⟩

/-- **C26.** From any consistent database of format 8.0, every history of
allocations and releases of pages in use behaves like the abstract allocator:
the most recently released page is handed out first, a new page at the end of the
file when there is none; the pages in use keep their contents when pages are
released; and the state stays consistent. It assumes that the write past the end of
a vector in the release path does no harm (`slack`), and that the list does not
grow beyond 253 pages of its own. -/
theorem free_list_history_partial (e : Env) (hslack : 3 * 254 ≤ e.slack) (ops : List FreeSpec.Op)
    (s : St) (sp : FreeSpec.State) (h : Rep e s sp) (hl : FreeSpec.Legal sp ops)
    (hsm : sp.total + ops.length ≤ 2 ^ 32) (hroot : Budget sp ops.length) :
    ∃ s', runFree e s ops = .ok (s', (FreeSpec.run sp ops).2) ∧ Rep e s' (FreeSpec.run sp ops).1 := by
  induction ops generalizing s sp with
  | nil => exact ⟨s, rfl, h⟩
  | cons op ops ih =>
    simp only [List.length_cons] at hsm hroot
    cases op with
    | alloc =>
      obtain ⟨s1, e1, r1, _⟩ := getFree_refines e s sp h (by omega)
      have htot : (FreeSpec.alloc sp).2.total ≤ sp.total + 1 ∧ (FreeSpec.alloc sp).2.own = sp.own := by
        unfold FreeSpec.alloc; split <;> simp
      obtain ⟨s2, e2, r2⟩ := ih s1 _ r1 hl.2 (by omega) (budget_alloc hroot)
      exact ⟨s2, by simp only [runFree, e1, Outcome.ok_bind, e2]; rfl, r2⟩
    | release p =>
      obtain ⟨s1, e1, r1, _⟩ := setFree_refines e s sp h p hl.1 hroot.1 hslack
      have htot : (FreeSpec.release sp p).total = sp.total := by
        unfold FreeSpec.release; split <;> simp
      obtain ⟨s2, e2, r2⟩ := ih s1 _ r1 hl.2 (by omega) (budget_release h hroot p)
      exact ⟨s2, by simp only [runFree, e1, Outcome.ok_bind, e2]; rfl, r2⟩

/-- **C26.** What consistency buys: a page handed out is a page of the database (the
new last one included), is not in use, is not one of the pages that hold the list,
and is neither of the two header pages. -/
theorem alloc_is_fresh (sp : FreeSpec.State) (h : FreeSpec.Sound sp) :
    (FreeSpec.alloc sp).1 ∉ sp.used ∧ (FreeSpec.alloc sp).1 ∉ sp.own ∧ (FreeSpec.alloc sp).1 ≠ 0 ∧
    (FreeSpec.alloc sp).1 ≠ 1 ∧ (FreeSpec.alloc sp).1 < (FreeSpec.alloc sp).2.total := by
  have hs := FreeSpec.alloc_sound sp h
  have hnd := FreeSpec.sound_nodup _ hs
  have hin : (FreeSpec.alloc sp).1 ∈ (FreeSpec.alloc sp).2.used ∧
      (FreeSpec.alloc sp).2.used = (FreeSpec.alloc sp).1 :: sp.used ∧ (FreeSpec.alloc sp).2.own = sp.own := by
    unfold FreeSpec.alloc; split <;> simp
  obtain ⟨h1, h2, h3⟩ := hin
  have hlt := (FreeSpec.sound_mem _ hs (FreeSpec.alloc sp).1).mp (by simp [h1])
  simp only [List.nodup_cons, List.mem_cons, List.mem_append, not_or] at hnd
  have hn := hnd.2.2
  rw [List.nodup_append] at hn
  refine ⟨?_, ?_, ?_, ?_, hlt⟩
  · have := hn.2.1
    rw [h2, List.nodup_cons] at this
    exact this.1
  · intro ho
    exact hn.2.2 _ (by rw [h3]; simp [ho]) _ h1 rfl
  · intro h0
    rw [h0] at h1
    exact hnd.1.2.2 h1
  · intro h0
    rw [h0] at h1
    exact hnd.2.1.2 h1

/-- **C26.** Releasing a page and allocating again gives the same page back, unless it
has become a page of the list. -/
theorem release_then_alloc (sp : FreeSpec.State) (p : Nat) (hr : sp.free.length / 1024 < sp.own.length) :
    (FreeSpec.alloc (FreeSpec.release sp p)).1 = p := by
  simp only [FreeSpec.release]
  rw [if_pos hr]
  simp [FreeSpec.alloc]

/-- **C26, persistence.** In a consistent database, opening the free-page file again
from the pages gives back the same list. -/
theorem free_list_reopens (e : Env) (s : St) (sp : FreeSpec.State) (h : Rep e s sp) :
    ∃ o, init s.pages e.P false 1 = .ok o ∧ o.kind = .free80 ∧ o.block = 1 ∧ o.len = s.fr.len ∧
      o.blocks = s.fr.blocks ∧ o.realNumblocks = s.fr.realNumblocks := by
  obtain ⟨hb1, hb2, hb3, hb4, hb5⟩ := rep_bounds e s sp h
  obtain ⟨p1, hp1, hsig, hl8, hroots, hzero⟩ := h.hdr
  have hp1l : p1.length = 4096 := h.full p1 (List.mem_of_getElem? hp1)
  have hr := h.root
  have hc : countRoot p1 1019 24 = .ok sp.own.length :=
    countRoot_of_words p1 1019 24 sp.own (by omega) hroots
      (fun b hb => (hb2 b hb).2.1) (hzero _ (Nat.le_refl _) (by omega))
  have hcp : copyRoot p1 24 sp.own.length = .ok sp.own :=
    copyRoot_of_words p1 _ 24 sp.own rfl (by
      intro k hk
      rw [hroots k hk, List.getElem?_eq_getElem hk])
  obtain ⟨v1, hv1⟩ := word_some p1 12 (by omega)
  obtain ⟨v2, hv2⟩ := word_some p1 16 (by omega)
  refine ⟨⟨.free80, 1, sp.free.length, 1, roundUp sp.free.length 0x400, sp.own.length, sp.own, none, v1, v2,
    (v1 + 1) % 2 ^ 32, 0, false⟩, ?_, rfl, rfl, ?_, ?_, ?_⟩
  · unfold init
    simp only [(getPage_ok _ _ _).mpr hp1, Outcome.ok_bind, if_true, hsig, ne_eq, not_true_eq_false, if_false,
      (rd32_word _ _ _).mpr hl8, (rd32_word _ _ _).mpr hv1, (rd32_word _ _ _).mpr hv2, hc, hcp]
  · rw [h.len]
  · rw [h.blocks]
  · rw [h.real]

/-- **C26 fails under a strict reading**: when the list has to take a page for itself,
the release path always writes past the end of its vector of page numbers. -/
theorem release_overflows_vector (e : Env) (s : St) (sp : FreeSpec.State) (h : Rep e s sp) (p : Nat)
    (hslack : e.slack = 0) (hfull : ¬ sp.free.length / 1024 < sp.own.length) (hroot : sp.own.length < 253) :
    setFree e s p = .ub := by
  obtain ⟨hb1, hb2, hb3, hb4, hb5⟩ := rep_bounds e s sp h
  obtain ⟨p1, hp1, hsig, hl8, hroots, hzero⟩ := h.hdr
  have hp1l : p1.length = 4096 := h.full p1 (List.mem_of_getElem? hp1)
  unfold setFree
  rw [if_neg (by simp [h.block])]
  simp only [touch_read e s 1 hb1, Outcome.ok_bind]
  rw [if_neg (by rw [h.real, h.len]; omega)]
  have hpoke := poke_ok s 1 (24 + 4 * s.fr.realNumblocks) (le32 p) p1 hp1
    (by rw [length_le32, hp1l, h.real]; omega)
  simp only [hpoke, Outcome.ok_bind]
  cases hpm : peekMany { s with pages := s.pages.set 1 (splice p1 (24 + 4 * s.fr.realNumblocks) (le32 p)) } 1 24
      ((s.fr.realNumblocks + 1) * 4) with
  | ok ws => simp only [Outcome.ok_bind]; rw [if_pos (by omega)]
  | throw =>
    exfalso
    simp only [peekMany] at hpm
    rw [get_set_eq _ _ _ hb1] at hpm
    have : ∀ n off (p : Bytes), copyRoot p off n ≠ .throw := by
      intro n
      induction n with
      | zero => intro off p; simp [copyRoot]
      | succ n ih =>
        intro off p
        simp only [copyRoot]
        cases hr : rd32 p off with
        | ok v =>
          simp only [Outcome.ok_bind]
          cases hc : copyRoot p (off + 4) n with
          | ok _ => simp
          | throw => exact absurd hc (ih _ _)
          | ub => simp
        | throw => unfold rd32 at hr; split at hr <;> simp at hr
        | ub => simp
    exact this _ _ _ hpm
  | ub => simp

/-! ## Non-vacuity: a database with an empty list -/

theorem word_zeros (n off : Nat) (h : off + 4 ≤ n) : Spec.word (List.replicate n 0) off = some 0 := by
  simp only [Spec.word]
  rw [List.getElem?_replicate_of_lt (by omega), List.getElem?_replicate_of_lt (by omega),
    List.getElem?_replicate_of_lt (by omega), List.getElem?_replicate_of_lt (by omega)]
  rfl

def freshHeader : Bytes := splice (List.replicate 4096 0) 0 sigObj

/-- A database of `n + 2` pages, all of them in use except the two headers. -/
def freshDb (n : Nat) : St :=
  ⟨List.replicate 4096 0 :: freshHeader :: List.replicate n (List.replicate 4096 0),
   ⟨.free80, 1, 0, 0, 0, 0, [], none, 0, 0, 1, 0, false⟩, 0⟩

def freshSpec (n : Nat) : FreeSpec.State := ⟨[], [], (List.range n).map (· + 2), n + 2⟩

theorem freshHeader_word (off : Nat) (h8 : 8 ≤ off) (h : off + 4 ≤ 4096) : Spec.word freshHeader off = some 0 := by
  rw [freshHeader, word_splice_out _ _ _ _ (by rw [List.length_replicate]; decide) (by right; exact h8)]
  exact word_zeros _ _ h

theorem fresh_rep (e : Env) (hP : e.P = 4096) (n : Nat) (hn : n + 2 ≤ 2 ^ 32) : Rep e (freshDb n) (freshSpec n) := by
  refine ⟨hP, rfl, rfl, rfl, rfl, rfl, rfl, ?_, hn, ?_, ?_, by simp [freshSpec], by simp [freshSpec], ?_, ?_⟩
  · show (freshDb n).pages.length = n + 2
    unfold freshDb
    rw [List.length_cons, List.length_cons, List.length_replicate]
  · intro p hp
    simp only [freshDb, List.mem_cons, List.mem_replicate] at hp
    rcases hp with rfl | rfl | ⟨_, rfl⟩
    · exact List.length_replicate
    · rw [freshHeader, length_splice _ _ _ (by rw [List.length_replicate]; decide)]; exact List.length_replicate
    · exact List.length_replicate
  · simp only [FreeSpec.Sound, freshSpec, List.nil_append]
    rw [List.range_succ_eq_map, List.range_succ_eq_map]
    simp [List.map_map, Function.comp_def]
  · refine ⟨freshHeader, rfl, ?_, freshHeader_word 8 (by omega) (by omega), ?_, ?_⟩
    · rfl
    · intro k hk; simp [freshSpec] at hk
    · intro k _ hk; exact freshHeader_word _ (by omega) (by omega)
  · intro m hm; simp [freshSpec] at hm

/-- Three pages in use; the first release makes page 2 a page of the list, the second
puts page 3 on it; the next allocation returns page 3 and the one after that page 5,
which is appended to the file. -/
example (ora : Nat → Bool) : ∃ s', runFree ⟨4096, ora, 762⟩ (freshDb 3)
    [.release 2, .release 3, .alloc, .alloc] = .ok (s', [none, none, some 3, some 5]) := by
  obtain ⟨s', h, _⟩ := free_list_history_partial ⟨4096, ora, 762⟩ (Nat.le_refl 762)
    [.release 2, .release 3, .alloc, .alloc] (freshDb 3) (freshSpec 3) (fresh_rep _ rfl 3 (by decide))
    (by simp [FreeSpec.Legal, FreeSpec.step, FreeSpec.release, freshSpec]) (by decide) ⟨by decide, by decide⟩
  exact ⟨s', h⟩

/-- The strict reading: the very first release on an empty list is out of bounds. -/
example (ora : Nat → Bool) : setFree ⟨4096, ora, 0⟩ (freshDb 3) 2 = .ub :=
  release_overflows_vector _ _ (freshSpec 3) (fresh_rep _ rfl 3 (by decide)) 2 rfl (by decide) (by decide)

end Verif.Object
