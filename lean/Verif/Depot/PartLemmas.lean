import Verif.Depot.PartSpec

/-! # Helper lemmas about `Verif.Depot.Part` -/

namespace Verif.Depot.Part
open Verif Verif.Depot.Part.Spec

/-! ## Lists -/

theorem eraseDups_const (c : Nat) : ∀ l : List Nat, l ≠ [] → (∀ x ∈ l, x = c) → ∀ q : List Nat, (∀ x ∈ q, x ≠ c) → (l ++ q).eraseDups = c :: q.eraseDups := by
  intro l hl h q hq
  cases l with
  | nil => exact absurd rfl hl
  | cons a l =>
    have ha : a = c := h a (by simp)
    subst ha
    rw [List.cons_append, List.eraseDups_cons]
    congr 2
    rw [List.filter_append]
    have h1 : l.filter (fun b => !b == a) = [] := by
      rw [List.filter_eq_nil_iff]
      intro x hx
      simp [h x (by simp [hx])]
    have h2 : q.filter (fun b => !b == a) = q := by
      rw [List.filter_eq_self]
      intro x hx
      simpa using hq x hx
    rw [h1, h2]
    rfl

/-- A list over the objects of a history, made from the records of each. -/
def total (G : List Hist → Nat → List α) (H : List Hist) : List α := (H.map (·.obj)).eraseDups.flatMap (G H)

theorem total_split (G : List Hist → Nat → List α) (hl : ∀ H o, G H o = G (H.filter (fun h => h.obj = o)) o) (h0 : ∀ o, G [] o = [])
    (c : Nat) (p q : List Hist) (hp : ∀ h ∈ p, h.obj = c) (hq : ∀ h ∈ q, h.obj ≠ c) : total G (p ++ q) = G p c ++ total G q := by
  have hqc : q.filter (fun h => h.obj = c) = [] := by
    rw [List.filter_eq_nil_iff]
    intro h hh
    simpa using hq h hh
  have e1 : G (p ++ q) c = G p c := by
    rw [hl (p ++ q), hl p, List.filter_append, hqc, List.append_nil]
  have e2 : ∀ o ∈ (q.map (·.obj)).eraseDups, G (p ++ q) o = G q o := by
    intro o ho
    rw [List.mem_eraseDups, List.mem_map] at ho
    obtain ⟨h, hh, rfl⟩ := ho
    have : p.filter (fun x => x.obj = h.obj) = [] := by
      rw [List.filter_eq_nil_iff]
      intro x hx
      have := hq h hh
      simp [hp x hx, Ne.symm this]
    rw [hl (p ++ q), hl q, List.filter_append, this, List.nil_append]
  unfold total
  by_cases hpe : p = []
  · subst hpe
    rw [List.nil_append, h0, List.nil_append]
  · rw [List.map_append, eraseDups_const c (p.map (·.obj)) (by simpa using hpe) (by simpa using hp) _ (by simpa using hq), List.flatMap_cons, e1]
    congr 1
    simp only [List.flatMap_def]
    rw [List.map_congr_left e2]

theorem before_local (vb : Int) (H : List Hist) (o : Nat) : before vb (H.filter (fun h => h.obj = o)) o = before vb H o := by
  unfold before
  rw [List.filter_filter]
  congr 2
  funext h
  by_cases e : h.obj = o <;> simp [e]

theorem within_local (vb ve : Int) (H : List Hist) (o : Nat) : within vb ve (H.filter (fun h => h.obj = o)) o = within vb ve H o := by
  unfold within
  rw [List.filter_filter]
  congr 2
  funext h
  by_cases e : h.obj = o <;> simp [e]

/-! ## The search for the data of an external file -/

theorem getLast_filter (p : α → Bool) (l : List α) : (l.filter p).getLast? = l.reverse.find? p := by
  rw [List.getLast?_eq_head?_reverse, ← List.filter_reverse, List.head?_filter]

/-- The record looked for. -/
def wanted (E : Env) (vb : Int) (e : Ext) (x : Ext) : Bool :=
  decide (x.obj = e.obj ∧ E.fold x.name = E.fold e.name ∧ x.verid = e.verid ∧ x.packed = true ∧ vb ≤ x.ver)

/-- Records before another, backwards. -/
def Down (fold : Bytes → Bytes) (l : List Ext) : Prop :=
  l.Pairwise (fun b a => a.obj < b.obj ∨ a.obj = b.obj ∧ (a.ver < b.ver ∨ a.ver = b.ver ∧ fold a.name ≠ fold b.name))

theorem searchBack_find (E : Env) (vb : Int) (e : Ext) : ∀ (l : List Ext) (v : Int) (r : Ext), Down E.fold l → (∀ x ∈ l, x.obj ≤ e.obj) →
    (v ≤ vb → l.find? (wanted E vb e) = none) →
    match l.find? (wanted E vb e) with
    | some x => searchBack E vb e.obj e.name e.verid l v false r = (x, true)
    | none => (searchBack E vb e.obj e.name e.verid l v false r).2 = false := by
  intro l
  induction l with
  | nil => intro v r _ _ _; rfl
  | cons x l ih =>
    intro v r hd ho hv
    have hd' : Down E.fold l := hd.of_cons
    have hx : ∀ {y}, y ∈ l → _ := fun h => List.rel_of_pairwise_cons hd h
    have ho' : ∀ x ∈ l, x.obj ≤ e.obj := fun y hy => ho y (by simp [hy])
    rw [searchBack]
    by_cases hc : v > vb
    · rw [if_pos ⟨rfl, hc⟩]
      by_cases h1 : x.obj ≠ e.obj
      · rw [if_pos h1]
        have hn : (x :: l).find? (wanted E vb e) = none := by
          rw [List.find?_eq_none]
          intro y hy
          have hxo := ho x (by simp)
          have : y.obj ≠ e.obj := by
            rcases List.mem_cons.1 hy with rfl | hy
            · exact h1
            · have := hx hy
              omega
          simp [wanted, this]
        rw [hn]
      · rw [if_neg h1]
        have h1' : x.obj = e.obj := by simpa using h1
        by_cases h2 : E.fold x.name ≠ E.fold e.name
        · rw [if_pos h2]
          have hw : wanted E vb e x = false := by simp [wanted, h2]
          rw [List.find?_cons, hw]
          exact ih v x hd' ho' (fun h => absurd hc (by omega))
        · rw [if_neg h2]
          have h2' : E.fold x.name = E.fold e.name := by simpa using h2
          by_cases h3 : e.verid = x.verid
          · rw [if_pos h3]
            -- every earlier record of this object and name is older
            have older : ∀ y ∈ l, y.obj = e.obj → E.fold y.name = E.fold e.name → y.ver < x.ver := by
              intro y hy hyo hyn
              rcases hx hy with h | ⟨_, h | ⟨_, h⟩⟩
              · omega
              · exact h
              · exact absurd (by rw [hyn, h2']) h
            have old_none : x.ver ≤ vb → l.find? (wanted E vb e) = none := by
              intro hle
              rw [List.find?_eq_none]
              intro y hy hw
              simp only [wanted, decide_eq_true_eq] at hw
              have := older y hy hw.1 hw.2.1
              omega
            by_cases h4 : x.ver < vb
            · rw [if_pos h4]
              have hw : wanted E vb e x = false := by
                simp only [wanted, decide_eq_false_iff_not]
                intro h
                omega
              rw [List.find?_cons, hw]
              simp only [old_none (by omega)]
            · rw [if_neg h4]
              by_cases h5 : x.packed = true
              · have hw : wanted E vb e x = true := by
                  simp only [wanted, decide_eq_true_eq]
                  exact ⟨h1', h2', h3.symm, h5, by omega⟩
                rw [List.find?_cons, hw, h5]
                cases l with
                | nil => rfl
                | cons y l => simp [searchBack]
              · have h5' : x.packed = false := by simpa using h5
                have hw : wanted E vb e x = false := by simp [wanted, h5']
                rw [List.find?_cons, hw, h5']
                exact ih x.ver x hd' ho' old_none
          · rw [if_neg h3]
            have hw : wanted E vb e x = false := by simp [wanted, Ne.symm h3]
            rw [List.find?_cons, hw]
            exact ih v x hd' ho' (fun h => absurd hc (by omega))
    · rw [if_neg (by simp [hc])]
      rw [hv (by omega)]

/-! ## External files -/

/-- One record of external files, as the specification has it. -/
def extSpec (text : Bytes → Option Bytes → Bytes) (E : Env) (vb : Int) (exts : List Ext) (o : Nat) (v : Int) (p : Ext × Nat) : List Item :=
  if p.1.obj = o ∧ p.1.ver = v then
    match source E.fold vb exts p.2 p.1 with
    | none => []
    | some x => [.file o p.1.name (text x.hash x.data)]
  else []

theorem dataOf_stored (E : Env) (buf : Bytes) (data : Option Bytes) (hash d : Bytes) (h : Stored E data hash d) : ∃ b, dataOf E buf data hash = .ok (d, b) := by
  unfold dataOf
  rcases h with rfl | ⟨rfl, h1, h2⟩
  · exact ⟨d, rfl⟩
  · refine ⟨buf, ?_⟩
    dsimp only
    rw [if_pos h1, h2]
    rfl

theorem extOne_spec (E : Env) (text : Bytes → Option Bytes → Bytes) (vb v : Int) (exts seen es : List Ext) (e : Ext) (o : Out)
    (hex : exts = seen.reverse ++ e :: es) (hord : ExtOrder E.fold exts) (hv : vb ≤ v)
    (ht : ∀ x ∈ exts, x.packed = true → ∃ d, Stored E x.data x.hash d ∧
      text x.hash x.data = if (E.inflate d).2 then (E.inflate d).1 else (E.inflate d).1 ++ d) :
    ∃ b, extOne E vb v false (e :: seen) e o = .ok { o with items := o.items ++ extSpec text E vb exts e.obj v (e, seen.length), buf := b } := by
  unfold extOne extSpec
  by_cases hev : e.ver = v
  · rw [if_pos hev]
    simp only [hev, and_self, if_true]
    rw [if_neg (by simp)]
    have hsrc : source E.fold vb exts seen.length e = (e :: seen).find? (wanted E vb e) := by
      unfold source
      rw [getLast_filter]
      have : exts.take (seen.length + 1) = seen.reverse ++ [e] := by
        rw [hex, List.take_append, List.take_of_length_le (by simp)]
        simp
      rw [this, List.reverse_append, List.reverse_reverse]
      rfl
    have hdown : Down E.fold (e :: seen) := by
      unfold Down
      have : List.Pairwise (fun a b => a.obj < b.obj ∨ a.obj = b.obj ∧ (a.ver < b.ver ∨ a.ver = b.ver ∧ E.fold a.name ≠ E.fold b.name)) (e :: seen).reverse := by
        have h1 : List.Sublist (e :: seen).reverse exts := by
          rw [hex, List.reverse_cons]
          exact List.Sublist.append (List.Sublist.refl _) (by simp)
        exact List.Pairwise.sublist h1 hord
      exact List.pairwise_reverse.1 this
    have hle : ∀ x ∈ e :: seen, x.obj ≤ e.obj := by
      intro x hx
      rcases List.mem_cons.1 hx with rfl | hx
      · exact Nat.le_refl _
      · have := List.rel_of_pairwise_cons hdown hx
        omega
    rw [hsrc]
    by_cases hp : e.packed = true
    · have hw : wanted E vb e e = true := by
        simp only [wanted, decide_eq_true_eq]
        exact ⟨trivial, trivial, trivial, hp, by omega⟩
      have hs : searchBack E vb e.obj e.name e.verid (e :: seen) v e.packed e = (e, true) := by
        rw [hp, searchBack, if_neg (by simp)]
      rw [hs, List.find?_cons, hw]
      dsimp only
      rw [if_pos rfl]
      obtain ⟨d, hd, htx⟩ := ht e (by rw [hex]; simp) hp
      obtain ⟨b, hb⟩ := dataOf_stored E o.buf e.data e.hash d hd
      refine ⟨b, ?_⟩
      rw [hb, htx]
      rfl
    · have hp' : e.packed = false := by simpa using hp
      have key := searchBack_find E vb e (e :: seen) v e hdown hle (by
        intro h
        rw [List.find?_eq_none]
        intro y hy hw
        simp only [wanted, decide_eq_true_eq] at hw
        rcases List.mem_cons.1 hy with rfl | hy
        · rw [hp'] at hw
          exact absurd hw.2.2.2.1 (by simp)
        · rcases List.rel_of_pairwise_cons hdown hy with h | ⟨_, h | ⟨_, h⟩⟩
          · omega
          · omega
          · exact absurd hw.2.1 h)
      rw [hp']
      cases hf : (e :: seen).find? (wanted E vb e) with
      | none =>
        rw [hf] at key
        dsimp only at key ⊢
        rw [key]
        exact ⟨o.buf, by simp⟩
      | some x =>
        rw [hf] at key
        dsimp only at key ⊢
        rw [key]
        dsimp only
        rw [if_pos rfl]
        have hxm : x ∈ exts := by
          have := List.mem_of_find?_eq_some hf
          rw [hex]
          simp only [List.mem_cons] at this
          rcases this with rfl | h
          · simp
          · simp [h]
        have hxp : x.packed = true := by
          have := List.find?_some hf
          simp only [wanted, decide_eq_true_eq] at this
          exact this.2.2.2.1
        obtain ⟨d, hd, htx⟩ := ht x hxm hxp
        obtain ⟨b, hb⟩ := dataOf_stored E o.buf x.data x.hash d hd
        refine ⟨b, ?_⟩
        rw [hb, htx]
        rfl
  · rw [if_neg hev]
    exact ⟨o.buf, by simp [hev]⟩

theorem ext_greater {fold : Bytes → Bytes} {e : Ext} {es : List Ext} {cur : Nat} (h : ExtOrder fold (e :: es)) (he : e.obj > cur) : ∀ x ∈ e :: es, x.obj > cur := by
  intro x hx
  rcases List.mem_cons.1 hx with rfl | hx
  · exact he
  · have := List.rel_of_pairwise_cons h hx
    omega

theorem order_rest {fold : Bytes → Bytes} {exts seen rest : List Ext} (hex : exts = seen.reverse ++ rest) (h : ExtOrder fold exts) : ExtOrder fold rest := by
  rw [hex] at h
  exact (List.pairwise_append.1 h).2.1

/-- Files not removed. -/
theorem takeExts_files (E : Env) (text : Bytes → Option Bytes → Bytes) (vb v : Int) (cur : Nat) (exts : List Ext) (hord : ExtOrder E.fold exts) (hv : vb ≤ v)
    (ht : ∀ x ∈ exts, x.packed = true → ∃ d, Stored E x.data x.hash d ∧
      text x.hash x.data = if (E.inflate d).2 then (E.inflate d).1 else (E.inflate d).1 ++ d) :
    ∀ (rest seen : List Ext) (o : Out), exts = seen.reverse ++ rest → (∀ x ∈ seen, x.obj ≤ cur) →
      ∃ seen' rest' b, takeExts E vb v cur false seen rest o =
          .ok ((seen', rest'), { o with items := o.items ++ (rest.zipIdx seen.length).flatMap (extSpec text E vb exts cur v), buf := b }) ∧
        exts = seen'.reverse ++ rest' ∧ ∀ x ∈ seen', x.obj ≤ cur := by
  intro rest
  induction rest with
  | nil =>
    intro seen o hex hs
    exact ⟨seen, [], o.buf, by simp [takeExts], hex, hs⟩
  | cons e es ih =>
    intro seen o hex hs
    rw [takeExts]
    by_cases h1 : e.obj > cur
    · rw [if_pos h1]
      refine ⟨seen, e :: es, o.buf, ?_, hex, hs⟩
      have hg := ext_greater (order_rest hex hord) h1
      have : ((e :: es).zipIdx seen.length).flatMap (extSpec text E vb exts cur v) = [] := by
        rw [List.flatMap_eq_nil_iff]
        intro p hp
        have hp1 : p.1 ∈ e :: es := by
          have := List.mem_map_of_mem (f := Prod.fst) hp
          rwa [List.zipIdx_map_fst] at this
        have := hg p.1 hp1
        unfold extSpec
        rw [if_neg]
        rintro ⟨h, _⟩
        omega
      rw [this]
      simp
    · rw [if_neg h1]
      have hex' : exts = (e :: seen).reverse ++ es := by rw [hex]; simp
      have hs' : ∀ x ∈ e :: seen, x.obj ≤ cur := by
        intro x hx
        rcases List.mem_cons.1 hx with rfl | hx
        · omega
        · exact hs x hx
      by_cases h2 : e.obj = cur
      · rw [if_pos h2]
        obtain ⟨b, hb⟩ := extOne_spec E text vb v exts seen es e o hex hord hv ht
        rw [hb]
        obtain ⟨s', r', b', h3, h4, h5⟩ := ih (e :: seen) { o with items := o.items ++ extSpec text E vb exts e.obj v (e, seen.length), buf := b } hex' hs'
        refine ⟨s', r', b', ?_, h4, h5⟩
        show takeExts E vb v cur false (e :: seen) es _ = _
        rw [h3]
        simp [List.zipIdx_cons, h2]
      · rw [if_neg h2]
        obtain ⟨s', r', b', h3, h4, h5⟩ := ih (e :: seen) o hex' hs'
        refine ⟨s', r', b', ?_, h4, h5⟩
        rw [h3]
        have : extSpec text E vb exts cur v (e, seen.length) = [] := by
          unfold extSpec
          rw [if_neg]
          rintro ⟨h, _⟩
          exact h2 h
        simp [List.zipIdx_cons, this]

/-- Files removed. -/
theorem takeExts_gone (E : Env) (vb v : Int) (cur : Nat) (exts : List Ext) (hord : ExtOrder E.fold exts) :
    ∀ (rest seen : List Ext) (o : Out), exts = seen.reverse ++ rest → (∀ x ∈ seen, x.obj ≤ cur) →
      ∃ seen' rest', takeExts E vb v cur true seen rest o =
          .ok ((seen', rest'), { o with gone := o.gone ++ (rest.filter (fun e => e.obj = cur ∧ e.ver = v)).map (fun e => .file e.name) }) ∧
        exts = seen'.reverse ++ rest' ∧ ∀ x ∈ seen', x.obj ≤ cur := by
  intro rest
  induction rest with
  | nil =>
    intro seen o hex hs
    exact ⟨seen, [], by simp [takeExts], hex, hs⟩
  | cons e es ih =>
    intro seen o hex hs
    rw [takeExts]
    by_cases h1 : e.obj > cur
    · rw [if_pos h1]
      refine ⟨seen, e :: es, ?_, hex, hs⟩
      have hg := ext_greater (order_rest hex hord) h1
      have : (e :: es).filter (fun e => e.obj = cur ∧ e.ver = v) = [] := by
        rw [List.filter_eq_nil_iff]
        intro x hx
        have := hg x hx
        simp
        omega
      rw [this]
      simp
    · rw [if_neg h1]
      have hex' : exts = (e :: seen).reverse ++ es := by rw [hex]; simp
      have hs' : ∀ x ∈ e :: seen, x.obj ≤ cur := by
        intro x hx
        rcases List.mem_cons.1 hx with rfl | hx
        · omega
        · exact hs x hx
      by_cases h2 : e.obj = cur
      · rw [if_pos h2]
        unfold extOne
        by_cases h6 : e.ver = v
        · rw [if_pos h6, if_pos rfl]
          obtain ⟨s', r', h3, h4, h5⟩ := ih (e :: seen) { o with gone := o.gone ++ [.file e.name] } hex' hs'
          refine ⟨s', r', ?_, h4, h5⟩
          show takeExts E vb v cur true (e :: seen) es _ = _
          rw [h3]
          simp [h2, h6]
        · rw [if_neg h6]
          obtain ⟨s', r', h3, h4, h5⟩ := ih (e :: seen) o hex' hs'
          refine ⟨s', r', ?_, h4, h5⟩
          show takeExts E vb v cur true (e :: seen) es o = _
          rw [h3]
          simp [h6]
      · rw [if_neg h2]
        obtain ⟨s', r', h3, h4, h5⟩ := ih (e :: seen) o hex' hs'
        refine ⟨s', r', ?_, h4, h5⟩
        rw [h3]
        simp [h2]

end Verif.Depot.Part
