import Verif.Container.DyingLemmas
import Verif.Config.WholeTheorems

/-!
# C118: the process ends while a configuration is exported
-/

namespace Verif.Config.Whole
open Verif Verif.Container Verif.Unicode Verif.Unicode.Spec Verif.Container.Spec

theorem saveItems_grown {w : World} (fuel : Nat) (hf : LAST ≤ fuel) (its : List (Item × Bytes)) : ∀ (k : Catalog) (s s0 : Store) (ls : Ghost),
    Inv plainCodec k s ls → Phys k.cat s0 → (∀ p ∈ its, Spec.Ready w p.1 p.2 ∧ p.2 ≠ []) → Spec.Names its →
    (∀ x ∈ ls, ∀ p ∈ its, ¬ SameText x.2.1 (Spec.codes p.1.name)) → extent k.cat + bulk its < LAST →
    ∃ k' its' s1, saveItems w fuel k (its.map Prod.fst) = .ok (some (k', its')) ∧ Grown k.cat s0 k'.cat s1 ∧ extent k'.cat < LAST := by
  induction its with
  | nil =>
    intro k s s0 ls h hp _ _ _ hd
    exact ⟨k, [], s0, rfl, grown_refl hp, by simp [bulk] at hd; exact hd⟩
  | cons p its ih =>
    intro k s s0 ls h hp hr hn hno hd
    have hb : bulk (p :: its) = (p.2.length + (utf16Text (Spec.codes p.1.name)).length + 86) + bulk its := rfl
    rw [hb] at hd
    obtain ⟨hn1, hn2⟩ := hn
    rw [List.pairwise_cons] at hn2
    have hname := name_codes (hn1 p (by simp))
    obtain ⟨hrd, hne⟩ := hr p (by simp)
    obtain ⟨b, plain, hb, hb2, hi⟩ := ready_inv hrd
    obtain ⟨g1, e1, hi1, hh⟩ := Opening.ropen_ok hi hb hrd.1 hb2
    obtain ⟨g2, e2, _, _, _, _⟩ := Opening.close_ok hi1
    have hcost := cost_new k.fresh _ hname (pattern (w.stamp p.1.created)) (pattern (w.stamp p.1.modified)) p.2
    obtain ⟨e0, k0, k1, s1, e', hc, hw, hinv, hx, hgr⟩ := store_grown h (Spec.codes p.1.name) hname p.2 (packs_plain hne)
      (pattern (w.stamp p.1.created)) (pattern (w.stamp p.1.modified)) w.now (pattern_lt _) (fun x hx => hno x hx p (by simp)) fuel hf
      (by rw [hcost]; omega)
    rw [hcost] at hx
    obtain ⟨t1, hg1⟩ := hgr s0 hp
    obtain ⟨k2, its2, t2, i1, i2, i3⟩ := ih k1 s1 t1 _ hinv hg1.1 (fun q hq => hr q (by simp [hq]))
      ⟨fun q hq => hn1 q (by simp [hq]), hn2.2⟩ (by
        intro x hx q hq
        rcases List.mem_append.1 hx with hx | hx
        · exact hno x hx q (by simp [hq])
        · rw [List.mem_singleton.1 hx]
          exact hn2.1 q hq) (by omega)
    have hsave : saveItem w fuel k p.1 = .ok (some (k1, { p.1 with handle := g2 })) := by
      unfold saveItem
      rw [e1, Outcome.ok_bind]
      simp only [if_true]
      unfold saveOpened
      rw [show textBytes p.1.name = utf8Text (Spec.codes p.1.name) from rfl, hc, Outcome.ok_bind]
      simp only
      have hraw : g1.raw = .ok p.2 := by
        obtain ⟨i, hi, hg⟩ := hh
        unfold Handle.raw Handle.data
        rw [hi]
        simp only
        rw [hg]
      rw [hraw, Outcome.ok_bind, hw, Outcome.ok_bind]
      simp only
      rw [e2, Outcome.ok_bind]
    refine ⟨k2, { p.1 with handle := g2 } :: its2, t2, ?_, grown_trans hg1 i2, i3⟩
    rw [List.map_cons, saveItems, hsave, Outcome.ok_bind]
    simp only
    rw [i1]
    rfl

/-- **C118.** A configuration is being exported to a new file, and the process ends after some of the files, however many, before the container is
closed: what is left opens without complaint as a container without any files. -/
theorem export_cut_short (w : World) (fuel : Nat) (hf : LAST ≤ fuel) (its : List (Item × Bytes))
    (hr : ∀ p ∈ its, Spec.Ready w p.1 p.2 ∧ p.2 ≠ []) (hn : Spec.Names its) (hroom : Spec.room its < 2 ^ 31 - 1) (n : Nat) :
    ∃ k its' o, saveItems w fuel blankCatalog ((its.map Prod.fst).take n) = .ok (some (k, its')) ∧
      openCatalog fuel (leftBehind k) = .ok (some (.container o)) ∧ o.ents = [] := by
  have hb := blank_inv plainCodec
  have hbulk : ∀ m, bulk (its.take m) ≤ bulk its := by
    intro m
    conv => rhs; rw [← List.take_append_drop m its]
    unfold bulk
    rw [List.map_append, List.sum_append]
    omega
  have hd : extent blankCatalog.cat + bulk (its.take n) < LAST := by
    have h1 : extent blankCatalog.cat = 2 ^ 17 := by decide
    have h2 := hbulk n
    have hL : LAST = 2 ^ 31 - 1 := rfl
    rw [h1, hL]
    unfold Spec.room at hroom
    unfold bulk at *
    omega
  obtain ⟨k, its', s1, h1, h2, h3⟩ := saveItems_grown fuel hf (its.take n) blankCatalog _ _ [] hb hb.phys
    (fun p hp => hr p (List.mem_of_mem_take hp)) ⟨fun p hp => hn.1 p (List.mem_of_mem_take hp), hn.2.sublist (List.take_sublist n its)⟩ (by simp) hd
  rw [List.map_take] at h1
  obtain ⟨o, lo, j1, j2, j3, _, _⟩ := open_grown hb (by simp) rfl rfl h2 h3 fuel hf
  refine ⟨k, its', o, h1, j1, ?_⟩
  rw [j2.ents]
  cases lo with
  | nil => rfl
  | cons _ _ => cases j3

/-- The theorem applies to the two files of the examples, after the first of them. -/
example := export_cut_short exWorld LAST (Nat.le_refl _) exItems exItems_ready exItems_names (by decide +kernel) 1

end Verif.Config.Whole
