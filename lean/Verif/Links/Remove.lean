import Verif.Links.Inv

/-! # Destroying nodes -/

namespace Verif.Links
open Verif Tree Spec

theorem inv_relabel {h : Heap} {f : Forest} (I : Inv h f) {i : Nat} {e : Entry} (hi : f.node i = some e)
    (v : Str) (t : NType) : ∃ h', setValue h i v t = .ok h' ∧ Inv h' (relabel f i t v) ∧ ∀ j d, f.node j = some d → idx h' j = idx h j := by
  have w := I.wf
  obtain ⟨c, hc, c1, c2, c3, c4, c5, c6⟩ := I.link.cell i e hi
  refine ⟨_, modify_ok hc _, ?_⟩
  have node : ∀ j d, (relabel f i t v).node j = some d → ∃ d0, f.node j = some d0 ∧ d.parent = d0.parent ∧ d.kids = d0.kids ∧
      (j ≠ i → d = d0) ∧ (j = i → d.type = t ∧ d.value = v) := by
    intro j d hd
    simp only [relabel] at hd
    split at hd
    · rename_i e1
      subst e1
      rw [hi] at hd; cases hd
      exact ⟨e, hi, rfl, rfl, fun h => absurd rfl h, fun _ => ⟨rfl, rfl⟩⟩
    · rename_i e1
      exact ⟨d, hd, rfl, rfl, fun _ => rfl, fun h => absurd h e1⟩
  have back : ∀ j d, f.node j = some d → ∃ d', (relabel f i t v).node j = some d' ∧ d'.parent = d.parent ∧ d'.kids = d.kids := by
    intro j d hd
    simp only [relabel]
    by_cases e1 : j = i
    · subst e1; rw [if_pos rfl, hd]; exact ⟨_, rfl, rfl, rfl⟩
    · rw [if_neg e1]; exact ⟨d, hd, rfl, rfl⟩
  have cells : ∀ j d, h.cell j = some d → ∃ d', (put h i (some { c with value := v, type := t })).cell j = some d' ∧
      d'.next = d.next ∧ d'.prev = d.prev ∧ d'.index = d.index := by
    intro j d hd
    by_cases e1 : j = i
    · subst e1; rw [hc] at hd; cases hd; exact ⟨_, put_same _ _ _, rfl, rfl, rfl⟩
    · exact ⟨d, by rw [put_other _ _ e1, hd], rfl, rfl, rfl⟩
  refine ⟨⟨⟨?_, ?_, ?_, ?_⟩, ⟨?_, ?_, ?_, ?_, ?_, ?_⟩⟩, ?_⟩
  rotate_right
  · intro j d hd
    obtain ⟨x, hx, _⟩ := I.link.cell j d hd
    obtain ⟨x', k1, _, _, k4⟩ := cells j x hx
    rw [idx_of k1, idx_of hx, k4]
  · intro j hj
    simp only [relabel] at hj ⊢
    have := w.lt hi
    rw [if_neg (by omega)]; exact w.fresh j hj
  · intro p d hd
    obtain ⟨d0, h1, _, h3, _⟩ := node p d hd
    rw [h3]; exact w.nodup p d0 h1
  · intro p d x hd hx
    obtain ⟨d0, h1, _, h3, _⟩ := node p d hd
    rw [h3] at hx
    obtain ⟨ex, h5, h6⟩ := w.kid p d0 x h1 hx
    obtain ⟨ex', h7, h8, _⟩ := back x ex h5
    exact ⟨ex', h7, by rw [h8, h6]⟩
  · intro x ex p hx hp
    obtain ⟨d0, h1, h2, _⟩ := node x ex hx
    rw [h2] at hp
    obtain ⟨h5, d, h6, h7⟩ := w.par x d0 p h1 hp
    obtain ⟨d', h8, _, h9⟩ := back p d h6
    exact ⟨h5, d', h8, by rw [h9]; exact h7⟩
  · exact I.link.fresh
  · intro j hj
    simp only [relabel] at hj
    split at hj
    · rw [hi] at hj; cases hj
    · rename_i e1
      rw [put_other _ _ e1]; exact I.link.dead j hj
  · intro j d hd
    obtain ⟨d0, h1, h2, h3, h4, h5⟩ := node j d hd
    by_cases e1 : j = i
    · subst e1
      rw [hi] at h1; cases h1
      exact ⟨_, put_same _ _ _, (h5 rfl).1.symm, (h5 rfl).2.symm, by rw [h2, ← c3], by rw [h3, ← c4], by rw [h3, ← c5], by rw [h3, ← c6]⟩
    · rw [h4 e1, put_other _ _ e1]
      exact I.link.cell j d0 h1
  · intro p d a x b hd hk
    obtain ⟨d0, h1, _, h3, _⟩ := node p d hd
    rw [h3] at hk
    obtain ⟨cx, g1, g2, g3⟩ := I.link.sib p d0 a x b h1 hk
    obtain ⟨cx', g4, g5, g6, _⟩ := cells x cx g1
    exact ⟨cx', g4, by rw [g5, g2], by rw [g6, g3]⟩
  · intro j d hd hp
    obtain ⟨d0, h1, h2, _⟩ := node j d hd
    rw [h2] at hp
    obtain ⟨cx, g1, g2, g3⟩ := I.link.top j d0 h1 hp
    obtain ⟨cx', g4, g5, g6, _⟩ := cells j cx g1
    exact ⟨cx', g4, by rw [g5, g2], by rw [g6, g3]⟩
  · intro p d hd
    obtain ⟨d0, h1, _, h3, _⟩ := node p d hd
    rw [h3]
    refine (I.link.sorted p d0 h1).imp_of_mem ?_
    intro x y hx hy hlt
    obtain ⟨ex, hx', _⟩ := w.kid p d0 x h1 hx
    obtain ⟨ey, hy', _⟩ := w.kid p d0 y h1 hy
    obtain ⟨cx, gx, _⟩ := I.link.cell x ex hx'
    obtain ⟨cy, gy, _⟩ := I.link.cell y ey hy'
    obtain ⟨cx', kx, _, _, kx'⟩ := cells x cx gx
    obtain ⟨cy', ky, _, _, ky'⟩ := cells y cy gy
    rw [idx_of kx, idx_of ky, kx', ky', ← idx_of gx, ← idx_of gy]
    exact hlt

/-! ## Removal, abstractly -/

theorem below_ge {f : Forest} (w : WF f) {i j : Nat} (h : Below f i j) : i ≤ j := by
  induction h with
  | self => exact Nat.le_refl _
  | step h1 h2 _ ih => have := (w.par _ _ _ h1 h2).1; omega

theorem below_trans {f : Forest} {i j k : Nat} (h1 : Below f i j) (h2 : Below f j k) : Below f i k := by
  induction h2 with
  | self => exact h1
  | step a b _ ih => exact .step a b ih

theorem filter_notin {l : List Nat} {i : Nat} (h : i ∉ l) : l.filter (fun k => decide (k ≠ i)) = l := by
  rw [List.filter_eq_self]
  intro a ha
  simp only [decide_eq_true_eq]
  rintro rfl; exact h ha

theorem filter_split {a b : List Nat} {i : Nat} (h : (a ++ i :: b).Nodup) :
    (a ++ i :: b).filter (fun k => decide (k ≠ i)) = a ++ b := by
  rw [List.nodup_append] at h
  obtain ⟨_, h2, h3⟩ := h
  rw [List.nodup_cons] at h2
  rw [List.filter_append, List.filter_cons_of_neg (by simp), filter_notin h2.1,
    filter_notin (fun hc => h3 i hc i (by simp) rfl)]

theorem wf_removed {f : Forest} (w : WF f) {i : Nat} {f' : Forest} (r : Removed f i f') : WF f' := by
  have node : ∀ j d, f'.node j = some d → ¬ Below f i j ∧ ∃ d0, f.node j = some d0 ∧ d.parent = d0.parent ∧
      d.kids = d0.kids.filter (fun k => decide (k ≠ i)) := by
    intro j d hd
    have hb : ¬ Below f i j := by intro hb; rw [r.gone j hb] at hd; cases hd
    refine ⟨hb, ?_⟩
    rw [r.kept j hb] at hd
    cases hf : f.node j with
    | none => rw [hf] at hd; cases hd
    | some d0 => rw [hf] at hd; cases hd; exact ⟨d0, rfl, rfl, rfl⟩
  have back : ∀ j d, f.node j = some d → ¬ Below f i j → ∃ d', f'.node j = some d' ∧ d'.parent = d.parent ∧
      d'.kids = d.kids.filter (fun k => decide (k ≠ i)) := by
    intro j d hd hb
    rw [r.kept j hb, hd]
    exact ⟨_, rfl, rfl, rfl⟩
  refine ⟨?_, ?_, ?_, ?_⟩
  · intro j hj
    cases hf : f'.node j with
    | none => rfl
    | some d =>
      obtain ⟨_, d0, h1, _⟩ := node j d hf
      rw [w.fresh j (by rw [r.fresh] at hj; exact hj)] at h1; cases h1
  · intro p d hd
    obtain ⟨_, d0, h1, _, h3⟩ := node p d hd
    rw [h3]
    exact (w.nodup p d0 h1).filter _
  · intro p d x hd hx
    obtain ⟨hb, d0, h1, _, h3⟩ := node p d hd
    rw [h3, List.mem_filter] at hx
    obtain ⟨hx1, hx2⟩ := hx
    simp only [decide_eq_true_eq] at hx2
    obtain ⟨ex, h5, h6⟩ := w.kid p d0 x h1 hx1
    have hbx : ¬ Below f i x := by
      intro hbx
      cases hbx with
      | self => exact hx2 rfl
      | step a b c => rw [h5] at a; cases a; rw [h6] at b; cases b; exact hb c
    obtain ⟨ex', h7, h8, _⟩ := back x ex h5 hbx
    exact ⟨ex', h7, by rw [h8, h6]⟩
  · intro x ex p hx hp
    obtain ⟨hb, d0, h1, h2, _⟩ := node x ex hx
    rw [h2] at hp
    obtain ⟨h5, d, h6, h7⟩ := w.par x d0 p h1 hp
    have hbp : ¬ Below f i p := fun hc => hb (.step h1 hp hc)
    obtain ⟨d', h8, _, h9⟩ := back p d h6 hbp
    refine ⟨h5, d', h8, ?_⟩
    rw [h9, List.mem_filter]
    refine ⟨h7, ?_⟩
    simp only [decide_eq_true_eq]
    rintro rfl; exact hb .self

/-- Only the node itself is below a node without children. -/
theorem below_leaf {f : Forest} (w : WF f) {i : Nat} {e : Entry} (hi : f.node i = some e) (hk : e.kids = []) {j : Nat}
    (h : Below f i j) : j = i := by
  induction h with
  | self => rfl
  | step h1 h2 _ ih =>
    subst ih
    obtain ⟨_, d, h5, h6⟩ := w.par _ _ _ h1 h2
    rw [hi] at h5; cases h5
    rw [hk] at h6; simp at h6

/-! ## A node without children -/

theorem inv_unlink {h : Heap} {f : Forest} (I : Inv h f) {i : Nat} {e : Entry} (hi : f.node i = some e)
    (hk : e.kids = []) {c : Cell} (hc : h.cell i = some c) :
    ∃ h' f', unlink h i c = .ok h' ∧ Removed f i f' ∧ Inv h' f' := by
  have w := I.wf
  have hcp : c.parent = e.parent := by
    obtain ⟨c0, h0, _, _, h3, _⟩ := I.link.cell i e hi
    rw [hc] at h0; cases h0; exact h3
  -- where the node stands among its siblings
  have place : (e.parent = none ∧ c.next = none ∧ c.prev = none) ∨
      ∃ p d a b, e.parent = some p ∧ f.node p = some d ∧ d.kids = a ++ i :: b ∧ c.next = b.head? ∧ c.prev = a.getLast? := by
    cases hp : e.parent with
    | none =>
      obtain ⟨c0, h0, h1, h2⟩ := I.link.top i e hi hp
      rw [hc] at h0; cases h0; exact .inl ⟨rfl, h1, h2⟩
    | some p =>
      obtain ⟨_, d, h1, h2⟩ := w.par i e p hi hp
      obtain ⟨a, b, hab⟩ := List.append_of_mem h2
      obtain ⟨c0, h0, h3, h4⟩ := I.link.sib p d a i b h1 hab
      rw [hc] at h0; cases h0
      exact .inr ⟨p, d, a, b, rfl, h1, hab, h3, h4⟩
  have live : ∀ j d, f.node j = some d → ∃ x, h.cell j = some x := by
    intro j d hd
    obtain ⟨x, hx, _⟩ := I.link.cell j d hd
    exact ⟨x, hx⟩
  -- neighbours are siblings
  have nb : ∀ q, (c.prev = some q ∨ c.next = some q) →
      ∃ p d x, e.parent = some p ∧ f.node p = some d ∧ q ∈ d.kids ∧ q ≠ i ∧ f.node q = some x ∧ x.parent = some p := by
    intro q hq
    rcases place with ⟨_, h1, h2⟩ | ⟨p, d, a, b, h1, h2, h3, h4, h5⟩
    · rw [h1, h2] at hq; simp at hq
    · have hnd := w.nodup p d h2
      rw [h3, List.nodup_append] at hnd
      obtain ⟨_, n2, n3⟩ := hnd
      rw [List.nodup_cons] at n2
      have hm : q ∈ d.kids ∧ q ≠ i := by
        rw [h4, h5] at hq
        rcases hq with hq | hq
        · have := List.mem_of_getLast? hq
          exact ⟨by rw [h3]; simp [this], n3 q this i (by simp)⟩
        · have := List.mem_of_head? hq
          refine ⟨by rw [h3]; simp [this], ?_⟩
          rintro rfl; exact n2.1 this
      obtain ⟨x, h6, h7⟩ := w.kid p d q h2 hm.1
      exact ⟨p, d, x, h1, h2, hm.1, hm.2, h6, h7⟩
  obtain ⟨h', u1, u2, u3⟩ := unlink_ok h i c
    (by intro q hq; obtain ⟨_, _, x, _, _, _, _, hx, _⟩ := nb q (.inl hq); exact live q x hx)
    (by intro q hq; obtain ⟨_, _, x, _, _, _, _, hx, _⟩ := nb q (.inr hq); exact live q x hx)
    (by intro q hq; rw [hcp] at hq; obtain ⟨_, d, hd, _⟩ := w.par i e q hi hq; exact live q d hd)
  have r : Removed f i ⟨fun j => if j = i then none else (f.node j).map (fun e => { e with kids := e.kids.filter (fun k => decide (k ≠ i)) }), f.fresh⟩ := by
    refine ⟨rfl, ?_, ?_⟩
    · intro j hb; simp [below_leaf w hi hk hb]
    · intro j hb; simp only; rw [if_neg (by rintro rfl; exact hb .self)]
  refine ⟨h', _, u1, r, wf_removed w r, ?_⟩
  have node : ∀ (j : Nat) (d : Entry), (if j = i then none else (f.node j).map (fun e => { e with kids := e.kids.filter (fun k => decide (k ≠ i)) })) = some d →
      j ≠ i ∧ ∃ d0, f.node j = some d0 ∧ d = { d0 with kids := d0.kids.filter (fun k => decide (k ≠ i)) } := by
    intro j d hd
    split at hd
    · cases hd
    · rename_i hj
      refine ⟨hj, ?_⟩
      cases hf : f.node j with
      | none => rw [hf] at hd; cases hd
      | some d0 => rw [hf] at hd; cases hd; exact ⟨d0, rfl, rfl⟩
  have cells : ∀ j d, j ≠ i → h.cell j = some d → h'.cell j = some (orphan i c j d) := by
    intro j d hj hd; rw [u3, if_neg hj, hd]; rfl
  refine ⟨by rw [u2]; exact I.link.fresh, ?_, ?_, ?_, ?_, ?_⟩
  · intro j hj
    simp only at hj
    split at hj
    · rename_i e1; rw [u3, if_pos e1]
    · rename_i e1
      cases hf : f.node j with
      | none => rw [u3, if_neg e1, I.link.dead j hf]; rfl
      | some d0 => rw [hf] at hj; cases hj
  · intro j d hd
    obtain ⟨hj, d0, hd0, rfl⟩ := node j d hd
    obtain ⟨x, hx, x1, x2, x3, x4, x5, x6⟩ := I.link.cell j d0 hd0
    refine ⟨_, cells j x hj hx, x1, x2, x3, ?_⟩
    simp only [orphan]
    by_cases hpj : c.parent = some j
    · rw [hcp] at hpj
      rcases place with ⟨h1, _⟩ | ⟨p, d, a, b, h1, h2, h3, h4, h5⟩
      · rw [h1] at hpj; cases hpj
      · rw [h1] at hpj; cases hpj
        rw [hd0] at h2; cases h2
        have hnd := w.nodup j d0 hd0
        rw [h3] at hnd
        have hnd' := hnd
        rw [List.nodup_append] at hnd'
        obtain ⟨_, n2, n3⟩ := hnd'
        rw [List.nodup_cons] at n2
        rw [hcp, h1, h3, filter_split hnd, h4, h5, x4, x5, x6, h3]
        refine ⟨?_, ?_, ?_⟩
        · cases a with
          | nil => simp
          | cons a0 a => simp [n3 a0 (by simp) i (by simp)]
        · rcases List.eq_nil_or_concat b with rfl | ⟨b', z, rfl⟩
          · simp
          · rw [List.concat_eq_append] at *
            have hz : z ≠ i := by rintro rfl; exact n2.1 (by simp)
            have e1 : (a ++ i :: (b' ++ [z])).getLast? = some z := by
              rw [show a ++ i :: (b' ++ [z]) = (a ++ i :: b') ++ [z] by simp, List.getLast?_append]; simp
            have e2 : (a ++ (b' ++ [z])).getLast? = some z := by
              rw [← List.append_assoc, List.getLast?_append]; simp
            rw [e1, e2, if_neg]
            rintro ⟨_, h9⟩; cases h9; exact hz rfl
        · simp
          omega
    · have hni : i ∉ d0.kids := by
        intro hm
        obtain ⟨e', h1, h2⟩ := w.kid j d0 i hd0 hm
        rw [hi] at h1; cases h1
        exact hpj (by rw [hcp, h2])
      rw [filter_notin hni, if_neg (by rintro ⟨h1, _⟩; exact hpj h1), if_neg (by rintro ⟨h1, _⟩; exact hpj h1), if_neg hpj]
      exact ⟨x4, x5, x6⟩
  · intro p d a x b hd hkk
    obtain ⟨hj, d0, hd0, rfl⟩ := node p d hd
    simp only at hkk
    by_cases hpj : e.parent = some p
    · rcases place with ⟨h1, _⟩ | ⟨p', d, A, B, h1, h2, h3, h4, h5⟩
      · rw [h1] at hpj; cases hpj
      · rw [h1] at hpj; cases hpj
        rw [hd0] at h2; cases h2
        have hnd := w.nodup p d0 hd0
        rw [h3] at hnd
        rw [h3, filter_split hnd] at hkk
        have hnd' := hnd
        rw [List.nodup_append] at hnd'
        obtain ⟨n1, n2, n3⟩ := hnd'
        rw [List.nodup_cons] at n2
        rw [List.append_eq_append_iff] at hkk
        rcases hkk with ⟨a', ha, hb⟩ | ⟨b', ha, hb⟩
        · -- the sibling is after the node
          obtain ⟨cx, g1, g2, g3⟩ := I.link.sib p d0 (A ++ i :: a') x b hd0 (by rw [h3, hb]; simp)
          have hxi : x ≠ i := by rintro rfl; exact n2.1 (by rw [hb]; simp)
          refine ⟨_, cells x cx hxi g1, ?_, ?_⟩
          · simp only [orphan]
            rw [if_neg, g2]
            rw [h5]
            intro hx
            have hm := List.mem_of_getLast? hx
            exact n3 x hm x (by rw [hb]; simp) rfl
          · simp only [orphan]
            rw [h4, h5, hb, ha, g3]
            cases a' with
            | nil => simp
            | cons y a'' =>
              rw [if_neg]
              · rw [List.getLast?_append, List.getLast?_append]
                simp [List.getLast?_cons_cons]
              · simp only [List.cons_append, List.head?_cons]
                intro hy; cases hy
                have := n2.2
                rw [hb] at this
                simp at this
        · rcases b' with _ | ⟨y, b''⟩
          · -- the sibling is the next one
            simp only [List.append_nil, List.nil_append] at ha hb
            subst ha
            obtain ⟨cx, g1, g2, g3⟩ := I.link.sib p d0 (A ++ [i]) x b hd0 (by rw [h3, ← hb]; simp)
            have hxi : x ≠ i := by rintro rfl; exact n2.1 (by rw [← hb]; simp)
            refine ⟨_, cells x cx hxi g1, ?_, ?_⟩
            · simp only [orphan]
              rw [if_neg, g2]
              rw [h5]
              intro hx
              have hm := List.mem_of_getLast? hx
              exact n3 x hm x (by rw [← hb]; simp) rfl
            · simp only [orphan]
              rw [h4, h5, ← hb]
              simp
          · -- the sibling is before the node
            simp only [List.cons_append] at hb
            obtain ⟨rfl, hb2⟩ := List.cons.inj hb
            obtain ⟨cx, g1, g2, g3⟩ := I.link.sib p d0 a x (b'' ++ i :: B) hd0 (by rw [h3, ha]; simp)
            have hxA : x ∈ A := by rw [ha]; simp
            have hxi : x ≠ i := n3 x hxA i (by simp)
            refine ⟨_, cells x cx hxi g1, ?_, ?_⟩
            · simp only [orphan]
              rw [h4, h5, ha, hb2, g2]
              cases b'' with
              | nil => simp
              | cons z b3 =>
                rw [if_neg]
                · simp
                · intro hx
                  rw [List.getLast?_append] at hx
                  simp only [List.getLast?_cons_cons] at hx
                  have hm : x ∈ z :: b3 := by
                    apply List.mem_of_getLast?
                    simpa using hx
                  rw [ha, List.nodup_append] at n1
                  have := n1.2.1
                  rw [List.nodup_cons] at this
                  exact this.1 hm
            · simp only [orphan]
              rw [if_neg, g3]
              rw [h4]
              intro hx
              have hm := List.mem_of_head? hx
              exact n3 x hxA x (by simp [hm]) rfl
    · have hni : i ∉ d0.kids := by
        intro hm
        obtain ⟨e', h1, h2⟩ := w.kid p d0 i hd0 hm
        rw [hi] at h1; cases h1
        exact hpj h2
      rw [filter_notin hni] at hkk
      obtain ⟨cx, g1, g2, g3⟩ := I.link.sib p d0 a x b hd0 hkk
      have hxm : x ∈ d0.kids := by rw [hkk]; simp
      obtain ⟨ex, k1, k2⟩ := w.kid p d0 x hd0 hxm
      have hxi : x ≠ i := by rintro rfl; exact hni hxm
      have nn : ¬ (c.prev = some x ∨ c.next = some x) := by
        intro hq
        obtain ⟨p', d', x', m1, m2, m3, m4, m5, m6⟩ := nb x hq
        rw [k1] at m5; cases m5
        rw [k2] at m6; cases m6
        exact hpj m1
      refine ⟨_, cells x cx hxi g1, ?_, ?_⟩
      · simp only [orphan]; rw [if_neg (fun hh => nn (.inl hh)), g2]
      · simp only [orphan]; rw [if_neg (fun hh => nn (.inr hh)), g3]
  · intro j d hd hpar
    obtain ⟨hj, d0, hd0, rfl⟩ := node j d hd
    obtain ⟨cx, g1, g2, g3⟩ := I.link.top j d0 hd0 hpar
    have nn : ¬ (c.prev = some j ∨ c.next = some j) := by
      intro hq
      obtain ⟨p', d', x', m1, m2, m3, m4, m5, m6⟩ := nb j hq
      rw [hd0] at m5; cases m5
      have : d0.parent = none := hpar
      rw [this] at m6; cases m6
    refine ⟨_, cells j cx hj g1, ?_, ?_⟩
    · simp only [orphan]; rw [if_neg (fun hh => nn (.inl hh)), g2]
    · simp only [orphan]; rw [if_neg (fun hh => nn (.inr hh)), g3]
  · intro p d hd
    obtain ⟨hj, d0, hd0, rfl⟩ := node p d hd
    simp only
    have hs := (I.link.sorted p d0 hd0).sublist (List.filter_sublist (p := fun k => decide (k ≠ i)) (l := d0.kids))
    refine hs.imp_of_mem ?_
    intro x y hx hy hlt
    rw [List.mem_filter] at hx hy
    have hxi : x ≠ i := by simpa using hx.2
    have hyi : y ≠ i := by simpa using hy.2
    obtain ⟨ex, hx', _⟩ := w.kid p d0 x hd0 hx.1
    obtain ⟨ey, hy', _⟩ := w.kid p d0 y hd0 hy.1
    obtain ⟨cx, gx, _⟩ := I.link.cell x ex hx'
    obtain ⟨cy, gy, _⟩ := I.link.cell y ey hy'
    rw [idx_of (cells x cx hxi gx), idx_of (cells y cy hyi gy)]
    rw [idx_of gx, idx_of gy] at hlt
    exact hlt

/-! ## A node and everything below it -/

/-- The number of nodes from `i` on. -/
def count (f : Forest) (i : Nat) : Nat :=
  ((List.range f.fresh).filter (fun j => decide (i ≤ j) && (f.node j).isSome)).length

theorem length_filter_lt {l : List Nat} {p q : Nat → Bool} (hpq : ∀ x ∈ l, p x = true → q x = true) {a : Nat}
    (ha : a ∈ l) (h1 : q a = true) (h2 : p a = false) : (l.filter p).length < (l.filter q).length := by
  induction l with
  | nil => simp at ha
  | cons x l ih =>
    have hle : (l.filter p).length ≤ (l.filter q).length := by
      clear ih ha
      induction l with
      | nil => simp
      | cons y l ih2 =>
        have h3 := ih2 (by intro z hz; apply hpq; simp only [List.mem_cons] at hz ⊢; rcases hz with h | h; exact .inl h; exact .inr (.inr h))
        by_cases hy : p y = true
        · have := hpq y (by simp) hy
          simp [hy, this, h3]
        · by_cases hy2 : q y = true
          · simp [hy, hy2]; omega
          · simp [hy, hy2, h3]
    by_cases hx : p x = true
    · have hqx := hpq x (by simp) hx
      have hne : x ≠ a := by rintro rfl; rw [h2] at hx; cases hx
      have := ih (fun z hz => hpq z (by simp [hz])) (by simp only [List.mem_cons] at ha; rcases ha with h | h; exact absurd h.symm hne; exact h)
      simp [hx, hqx, this]
    · by_cases hqx : q x = true
      · simp [hx, hqx]; omega
      · have hne : x ≠ a := by rintro rfl; exact hqx h1
        have := ih (fun z hz => hpq z (by simp [hz])) (by simp only [List.mem_cons] at ha; rcases ha with h | h; exact absurd h.symm hne; exact h)
        simp [hx, hqx, this]

theorem count_pos {f : Forest} (w : WF f) {i : Nat} {e : Entry} (hi : f.node i = some e) : 0 < count f i := by
  unfold count
  apply List.length_pos_of_mem (a := i)
  rw [List.mem_filter]
  exact ⟨List.mem_range.mpr (w.lt hi), by simp [hi]⟩

theorem count_le {f : Forest} (i : Nat) : count f i ≤ f.fresh := by
  unfold count
  have := List.length_filter_le (fun j => decide (i ≤ j) && (f.node j).isSome) (List.range f.fresh)
  rwa [List.length_range] at this

theorem inv_destroy (n : Nat) : ∀ {h : Heap} {f : Forest}, Inv h f → ∀ {i : Nat} {e : Entry}, f.node i = some e →
    count f i ≤ n → ∃ h' f', destroy n h i = .ok (some h') ∧ Removed f i f' ∧ Inv h' f' := by
  induction n with
  | zero =>
    intro h f I i e hi hn
    have := count_pos I.wf hi
    omega
  | succ n ih =>
    intro h f I i e hi hn
    have w := I.wf
    obtain ⟨c, hc, c1, c2, c3, c4, c5, c6⟩ := I.link.cell i e hi
    unfold destroy
    rw [deref_ok hc]
    simp only [Outcome.ok_bind]
    cases hl : e.kids.getLast? with
    | none =>
      rw [c5, hl]
      simp only
      rw [List.getLast?_eq_none_iff] at hl
      obtain ⟨h', f', u1, u2, u3⟩ := inv_unlink I hi hl hc
      rw [u1]
      exact ⟨h', f', rfl, u2, u3⟩
    | some k =>
      rw [c5, hl]
      simp only
      have hkm : k ∈ e.kids := List.mem_of_getLast? hl
      obtain ⟨ek, hk1, hk2⟩ := w.kid i e k hi hkm
      have hik : i < k := (w.par k ek i hk1 hk2).1
      have hnb : ¬ Below f k i := fun hb => by have := below_ge w hb; omega
      obtain ⟨h1, f1, d1, r1, I1⟩ := ih I hk1 (by
        have : count f k < count f i := by
          apply length_filter_lt (a := i)
          · intro x _ hx
            simp only [Bool.and_eq_true, decide_eq_true_eq] at hx ⊢
            exact ⟨by omega, hx.2⟩
          · exact List.mem_range.mpr (w.lt hi)
          · simp [hi]
          · simp; omega
        omega)
      rw [d1]
      simp only [Outcome.ok_bind]
      have hi1 : f1.node i = some { e with kids := e.kids.filter (fun j => decide (j ≠ k)) } := by
        rw [r1.kept i hnb, hi]; rfl
      obtain ⟨h2, f2, d2, r2, I2⟩ := ih I1 hi1 (by
        have : count f1 i < count f i := by
          unfold count
          rw [r1.fresh]
          apply length_filter_lt (a := k)
          · intro x _ hx
            simp only [Bool.and_eq_true, decide_eq_true_eq] at hx ⊢
            refine ⟨hx.1, ?_⟩
            by_cases hb : Below f k x
            · rw [r1.gone x hb] at hx; simp at hx
            · rw [r1.kept x hb] at hx; simpa using hx.2
          · exact List.mem_range.mpr (w.lt hk1)
          · simp [hk1]; omega
          · simp [r1.gone k .self]
        omega)
      refine ⟨h2, f2, d2, ?_, I2⟩
      -- below `i` means below its last child, or still below `i` afterwards
      have node1 : ∀ j d, f1.node j = some d → ∃ d0, f.node j = some d0 ∧ d.parent = d0.parent := by
        intro j d hd
        have hb : ¬ Below f k j := by intro hb; rw [r1.gone j hb] at hd; cases hd
        rw [r1.kept j hb] at hd
        cases hf : f.node j with
        | none => rw [hf] at hd; cases hd
        | some d0 => rw [hf] at hd; cases hd; exact ⟨d0, rfl, rfl⟩
      have up : ∀ j, Below f1 i j → Below f i j := by
        intro j hb
        induction hb with
        | self => exact .self
        | step a b _ ihb =>
          obtain ⟨d0, g1, g2⟩ := node1 _ _ a
          exact .step g1 (by rw [← g2]; exact b) ihb
      have down : ∀ j, Below f i j → Below f k j ∨ Below f1 i j := by
        intro j hb
        induction hb with
        | self => exact .inr .self
        | @step j q d a b _ ihb =>
          rcases ihb with hb | hb
          · exact .inl (.step a b hb)
          · by_cases hbj : Below f k j
            · exact .inl hbj
            · refine .inr (.step (e := { d with kids := d.kids.filter (fun x => decide (x ≠ k)) }) ?_ b hb)
              rw [r1.kept j hbj, a]; rfl
      refine ⟨by rw [r2.fresh, r1.fresh], ?_, ?_⟩
      · intro j hb
        by_cases hb1 : Below f1 i j
        · exact r2.gone j hb1
        · rcases down j hb with hb2 | hb2
          · rw [r2.kept j hb1, r1.gone j hb2]; rfl
          · exact absurd hb2 hb1
      · intro j hb
        have hbk : ¬ Below f k j := fun hc => hb (below_trans (.step hk1 hk2 .self) hc)
        rw [r2.kept j (fun hc => hb (up j hc)), r1.kept j hbk]
        cases hf : f.node j with
        | none => rfl
        | some d =>
          simp only [Option.map_some]
          rw [filter_notin (i := k) (l := d.kids)]
          intro hm
          obtain ⟨x, g1, g2⟩ := w.kid j d k hf hm
          rw [hk1] at g1; cases g1
          rw [hk2] at g2; cases g2
          exact hb .self

end Verif.Links
