import Verif.Links.Lemmas

/-! # The operations keep the invariant -/

namespace Verif.Links
open Verif Tree Spec

theorem wf_root {f : Forest} (w : WF f) (t : NType) (v : Str) : WF (root f t v) := by
  have hn : f.node f.fresh = none := w.fresh _ (Nat.le_refl _)
  refine ⟨?_, ?_, ?_, ?_⟩
  · intro j hj
    simp only [root] at hj ⊢
    rw [if_neg (by omega)]; exact w.fresh j (by omega)
  · intro p e he
    simp only [root] at he
    split at he
    · cases he; exact List.nodup_nil
    · exact w.nodup p e he
  · intro p e x he hx
    simp only [root] at he ⊢
    split at he
    · cases he; simp at hx
    · obtain ⟨ex, h1, h2⟩ := w.kid p e x he hx
      refine ⟨ex, ?_, h2⟩
      rw [if_neg (by rintro rfl; rw [hn] at h1; cases h1), h1]
  · intro x ex p hx hp
    simp only [root] at hx ⊢
    split at hx
    · cases hx; cases hp
    · obtain ⟨h1, e, h2, h3⟩ := w.par x ex p hx hp
      refine ⟨h1, e, ?_, h3⟩
      rw [if_neg (by rintro rfl; rw [hn] at h2; cases h2), h2]

theorem idx_of {h : Heap} {x : Nat} {c : Cell} (e : h.cell x = some c) : idx h x = c.index := by
  simp [idx, e]

theorem inv_root {h : Heap} {f : Forest} (I : Inv h f) (v : Str) (t : NType) :
    ∃ h', create h v t none = .ok (h', f.fresh) ∧ Inv h' (root f t v) ∧ ∀ j d, f.node j = some d → idx h' j = idx h j := by
  obtain ⟨h', e1, e2, e3⟩ := create_root h v t
  have w := I.wf
  have hn : f.node f.fresh = none := w.fresh _ (Nat.le_refl _)
  rw [I.link.fresh] at e1 e2 e3
  have old : ∀ j e, f.node j = some e → h'.cell j = h.cell j := by
    intro j e he
    rw [e3, if_neg (by rintro rfl; rw [hn] at he; cases he)]
  refine ⟨h', e1, ⟨wf_root w t v, ?_⟩, fun j d hd => by simp only [idx, old j d hd]⟩
  refine ⟨e2, ?_, ?_, ?_, ?_, ?_⟩
  · intro j hj
    simp only [root] at hj
    split at hj
    · cases hj
    · rename_i hjn
      rw [e3, if_neg hjn]; exact I.link.dead j hj
  · intro j e he
    simp only [root] at he
    split at he
    · rename_i hjn
      cases he
      exact ⟨_, by rw [e3, if_pos hjn], rfl, rfl, rfl, rfl, rfl, rfl⟩
    · rw [old j e he]; exact I.link.cell j e he
  · intro p e a x b he hk
    simp only [root] at he
    split at he
    · cases he; simp at hk
    · obtain ⟨ex, hx, _⟩ := w.kid p e x he (by rw [hk]; simp)
      rw [old x ex hx]
      exact I.link.sib p e a x b he hk
  · intro j e he hp
    simp only [root] at he
    split at he
    · rename_i hjn
      exact ⟨_, by rw [e3, if_pos hjn], rfl, rfl⟩
    · rw [old j e he]; exact I.link.top j e he hp
  · intro p e he
    simp only [root] at he
    split at he
    · cases he; exact List.Pairwise.nil
    · refine (I.link.sorted p e he).imp_of_mem ?_
      intro x y hx hy hlt
      obtain ⟨ex, hx', _⟩ := w.kid p e x he hx
      obtain ⟨ey, hy', _⟩ := w.kid p e y he hy
      simp only [idx, old x ex hx', old y ey hy']
      exact hlt

theorem wf_child {f : Forest} (w : WF f) {p : Nat} {e : Entry} (hp : f.node p = some e) (t : NType) (v : Str) :
    WF (child f p t v) := by
  have hn : f.node f.fresh = none := w.fresh _ (Nat.le_refl _)
  have hpn : p < f.fresh := w.lt hp
  refine ⟨?_, ?_, ?_, ?_⟩
  · intro j hj
    simp only [child] at hj ⊢
    rw [if_neg (by omega), if_neg (by omega)]; exact w.fresh j (by omega)
  · intro q d hd
    simp only [child] at hd
    split at hd
    · cases hd; exact List.nodup_nil
    · split at hd
      · rw [hp] at hd; cases hd
        rw [List.nodup_append]
        refine ⟨w.nodup p e hp, by simp, ?_⟩
        intro a ha b hb
        simp only [List.mem_singleton] at hb
        subst hb
        obtain ⟨ea, hea, _⟩ := w.kid p e a hp ha
        exact Nat.ne_of_lt (w.lt hea)
      · exact w.nodup q d hd
  · have key : ∀ x ex, f.node x = some ex → ∃ ex', (child f p t v).node x = some ex' ∧ ex'.parent = ex.parent := by
      intro x ex hx
      simp only [child]
      rw [if_neg (Nat.ne_of_lt (w.lt hx))]
      by_cases hxp : x = p
      · subst hxp; rw [if_pos rfl, hx]; exact ⟨_, rfl, rfl⟩
      · rw [if_neg hxp]; exact ⟨ex, hx, rfl⟩
    intro q d x hd hx
    have hd' := hd
    simp only [child] at hd
    split at hd
    · cases hd; simp at hx
    · split at hd
      · rename_i hqp
        subst hqp
        rw [hp] at hd; cases hd
        simp only [List.mem_append, List.mem_singleton] at hx
        rcases hx with hx | rfl
        · obtain ⟨ex, h1, h2⟩ := w.kid q e x hp hx
          obtain ⟨ex', h3, h4⟩ := key x ex h1
          exact ⟨ex', h3, by rw [h4, h2]⟩
        · exact ⟨⟨t, v, some q, []⟩, by simp [child], rfl⟩
      · obtain ⟨ex, h1, h2⟩ := w.kid q d x hd hx
        obtain ⟨ex', h3, h4⟩ := key x ex h1
        exact ⟨ex', h3, by rw [h4, h2]⟩
  · have key : ∀ q d x, f.node q = some d → x ∈ d.kids → ∃ d', (child f p t v).node q = some d' ∧ x ∈ d'.kids := by
      intro q d x hq hx
      simp only [child]
      rw [if_neg (Nat.ne_of_lt (w.lt hq))]
      by_cases hqp : q = p
      · subst hqp; rw [if_pos rfl, hq]; exact ⟨_, rfl, by simp [hx]⟩
      · rw [if_neg hqp]; exact ⟨d, hq, hx⟩
    intro x ex q hx hq
    simp only [child] at hx
    split at hx
    · rename_i hxn
      cases hx; cases hq
      subst hxn
      refine ⟨hpn, { e with kids := e.kids ++ [f.fresh] }, ?_, by simp⟩
      show (if p = f.fresh then _ else if p = p then _ else _) = _
      rw [if_neg (Nat.ne_of_lt hpn), if_pos rfl, hp]; rfl
    · split at hx
      · rename_i hxp
        subst hxp
        rw [hp] at hx; cases hx
        obtain ⟨h1, d, h2, h3⟩ := w.par x e q hp hq
        exact ⟨h1, key q d x h2 h3⟩
      · obtain ⟨h1, d, h2, h3⟩ := w.par x ex q hx hq
        exact ⟨h1, key q d x h2 h3⟩

theorem last_split {l : List Nat} {q : Nat} (h : l.getLast? = some q) : ∃ a, l = a ++ [q] := by
  rw [List.getLast?_eq_some_iff] at h
  exact h

theorem inv_child {h : Heap} {f : Forest} (I : Inv h f) {p : Nat} {e : Entry} (hp : f.node p = some e)
    (v : Str) (t : NType) :
    ∃ h', create h v t (some p) = .ok (h', f.fresh) ∧ Inv h' (child f p t v) ∧
      (∀ j d, f.node j = some d → idx h' j = idx h j) ∧ (e.kids = [] → idx h' f.fresh = 0) ∧
      ∀ q, e.kids.getLast? = some q → idx h' f.fresh = idx h q + 1 := by
  have w := I.wf
  have hn : f.node f.fresh = none := w.fresh _ (Nat.le_refl _)
  obtain ⟨pc, hpc, pt, pv, pp, pf, pl, pn⟩ := I.link.cell p e hp
  have hlast : ∀ q, pc.last = some q → ∃ a, e.kids = a ++ [q] := by
    intro q hq; rw [pl] at hq; exact last_split hq
  obtain ⟨h', k, e1, e2, ek0, ek, e3⟩ := create_child h v t p pc hpc (by rw [I.link.fresh]; exact Nat.ne_of_lt (w.lt hp))
    (by
      intro q hq
      obtain ⟨a, ha⟩ := hlast q hq
      obtain ⟨eq, hq1, hq2⟩ := w.kid p e q hp (by rw [ha]; simp)
      obtain ⟨c, hc, _⟩ := I.link.cell q eq hq1
      exact ⟨by rw [I.link.fresh]; exact Nat.ne_of_lt (w.lt hq1),
        Nat.ne_of_gt (w.par q eq p hq1 hq2).1, c, hc⟩)
  rw [I.link.fresh] at e1 e2 e3
  have old : ∀ j d, f.node j = some d → h'.cell j = (h.cell j).map (adopt f.fresh p pc.last j) := by
    intro j d hd
    rw [e3, if_neg (Nat.ne_of_lt (w.lt hd))]
  have oldc : ∀ j d c, f.node j = some d → h.cell j = some c → h'.cell j = some (adopt f.fresh p pc.last j c) := by
    intro j d c hd hc
    rw [old j d hd, hc]; rfl
  have idxold : ∀ j d, f.node j = some d → idx h' j = idx h j := by
    intro j d hd
    obtain ⟨c, hc, _⟩ := I.link.cell j d hd
    rw [idx_of hc, idx_of (c := adopt f.fresh p pc.last j c) (by rw [old j d hd, hc]; rfl)]
    rfl
  have hnew : h'.cell f.fresh = some (bare v t (some p) pc.last k) := by rw [e3, if_pos rfl]
  refine ⟨h', e1, ⟨wf_child w hp t v, ?_⟩, idxold, ?_, ?_⟩
  rotate_left
  · intro hk
    rw [idx_of hnew, ek0 (by rw [pl, hk]; rfl)]
  · intro q hq
    obtain ⟨a, ha⟩ := last_split hq
    obtain ⟨eq, hq1, _⟩ := w.kid p e q hp (by rw [ha]; simp)
    obtain ⟨c, hc, _⟩ := I.link.cell q eq hq1
    rw [idx_of hnew, idx_of hc]
    exact ek q c (by rw [pl, hq]) hc
  refine ⟨e2, ?_, ?_, ?_, ?_, ?_⟩
  · intro j hj
    simp only [child] at hj
    split at hj
    · cases hj
    · rename_i hjn
      split at hj
      · rw [hp] at hj; cases hj
      · rw [e3, if_neg hjn, I.link.dead j hj]; rfl
  · intro j d hd
    simp only [child] at hd
    split at hd
    · rename_i hjn
      subst hjn
      cases hd
      exact ⟨_, hnew, rfl, rfl, rfl, rfl, rfl, rfl⟩
    · split at hd
      · rename_i hjp
        subst hjp
        rw [hp] at hd; cases hd
        refine ⟨_, oldc j e pc hp hpc, pt, pv, pp, ?_, ?_, ?_⟩
        · simp only [adopt, true_and]
          rw [pl, pf]
          cases hk : e.kids with
          | nil => simp
          | cons a l => simp
        · simp [adopt]
        · simp [adopt, pn]
      · rename_i hjp
        obtain ⟨c, hc, a1, a2, a3, a4, a5, a6⟩ := I.link.cell j d hd
        refine ⟨_, oldc j d c hd hc, a1, a2, a3, ?_, ?_, ?_⟩
        · simp [adopt, hjp, a4]
        · simp [adopt, hjp, a5]
        · simp [adopt, hjp, a6]
  · intro q d a x b hd hk
    simp only [child] at hd
    split at hd
    · cases hd; simp at hk
    · split at hd
      · rename_i hqp
        subst hqp
        rw [hp] at hd; cases hd
        simp only at hk
        rcases List.eq_nil_or_concat b with rfl | ⟨b', z, rfl⟩
        · obtain ⟨rfl, hx⟩ := List.append_inj' hk rfl
          cases hx
          exact ⟨_, hnew, rfl, pl⟩
        · have hk' : e.kids ++ [f.fresh] = (a ++ x :: b') ++ [z] := by rw [hk]; simp
          obtain ⟨h1, h2⟩ := List.append_inj' hk' rfl
          cases h2
          obtain ⟨c, hc, c1, c2⟩ := I.link.sib q e a x b' hp h1
          obtain ⟨ex, hx, _⟩ := w.kid q e x hp (by rw [h1]; simp)
          refine ⟨_, oldc x ex c hx hc, ?_, by exact c2⟩
          simp only [adopt]
          cases b' with
          | nil =>
            rw [if_pos (by rw [pl, h1]; simp)]; rfl
          | cons y b'' =>
            rw [if_neg]
            · rw [c1]; rfl
            · rw [pl, h1]
              intro hc2
              obtain ⟨a', ha'⟩ := last_split hc2
              have hnd := w.nodup q e hp
              rw [h1] at hnd
              rw [List.nodup_append] at hnd
              have hnd2 := hnd.2.1
              rw [List.nodup_cons] at hnd2
              apply hnd2.1
              have : (y :: b'').getLast? = some x := by
                rw [List.getLast?_append] at hc2
                simpa using hc2
              exact List.mem_of_getLast? this
      · rename_i hqn hqp
        obtain ⟨c, hc, c1, c2⟩ := I.link.sib q d a x b hd hk
        obtain ⟨ex, hx, hxq⟩ := w.kid q d x hd (by rw [hk]; simp)
        refine ⟨_, oldc x ex c hx hc, ?_, by exact c2⟩
        simp only [adopt]
        rw [if_neg, c1]
        intro hl
        obtain ⟨a', ha'⟩ := hlast x hl
        obtain ⟨ex', hx', hxp⟩ := w.kid p e x hp (by rw [ha']; simp)
        rw [hx] at hx'; cases hx'
        rw [hxq] at hxp; cases hxp
        exact hqp rfl
  · intro j d hd hpar
    simp only [child] at hd
    split at hd
    · cases hd; cases hpar
    · have main : ∀ d, f.node j = some d → d.parent = none → ∃ c, h'.cell j = some c ∧ c.next = none ∧ c.prev = none := by
        intro d hd hpar
        obtain ⟨c, hc, c1, c2⟩ := I.link.top j d hd hpar
        refine ⟨_, oldc j d c hd hc, ?_, by exact c2⟩
        simp only [adopt]
        rw [if_neg, c1]
        intro hl
        obtain ⟨a', ha'⟩ := hlast j hl
        obtain ⟨ex', hx', hxp⟩ := w.kid p e j hp (by rw [ha']; simp)
        rw [hd] at hx'; cases hx'
        rw [hpar] at hxp; cases hxp
      split at hd
      · rename_i hjp
        subst hjp
        rw [hp] at hd; cases hd
        exact main e hp hpar
      · exact main d hd hpar
  · intro q d hd
    simp only [child] at hd
    split at hd
    · cases hd; exact List.Pairwise.nil
    · have main : ∀ d, f.node q = some d → d.kids.Pairwise (fun x y => idx h' x < idx h' y) := by
        intro d hd
        refine (I.link.sorted q d hd).imp_of_mem ?_
        intro x y hx hy hlt
        obtain ⟨ex, hx', _⟩ := w.kid q d x hd hx
        obtain ⟨ey, hy', _⟩ := w.kid q d y hd hy
        rw [idxold x ex hx', idxold y ey hy']
        exact hlt
      split at hd
      · rename_i hqp
        subst hqp
        rw [hp] at hd; cases hd
        simp only
        rw [List.pairwise_append]
        refine ⟨main e hp, List.pairwise_singleton _ _, ?_⟩
        intro x hx y hy
        simp only [List.mem_singleton] at hy
        subst hy
        rw [idx_of hnew]
        obtain ⟨ex, hx', _⟩ := w.kid q e x hp hx
        rw [idxold x ex hx']
        cases hl : e.kids.getLast? with
        | none => rw [List.getLast?_eq_none_iff] at hl; rw [hl] at hx; simp at hx
        | some z =>
          obtain ⟨a, ha⟩ := last_split hl
          obtain ⟨ez, hz, _⟩ := w.kid q e z hp (by rw [ha]; simp)
          obtain ⟨cz, hcz, _⟩ := I.link.cell z ez hz
          have hk := ek z cz (by rw [pl, hl]) hcz
          have hs := I.link.sorted q e hp
          rw [ha, List.pairwise_append] at hs
          rw [ha] at hx
          simp only [List.mem_append, List.mem_singleton] at hx
          rcases hx with hx | rfl
          · have := hs.2.2 x hx z (by simp)
            rw [idx_of hcz] at this
            show _ < k
            omega
          · rw [idx_of hcz]
            show _ < k
            omega
      · exact main d hd

end Verif.Links
