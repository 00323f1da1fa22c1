import Verif.Temp.Model

/-! # C99: temporary streams of several processes -/

namespace Verif.Temp
open Verif Verif.Handle Verif.Handle.Spec Verif.Temp.Spec

/-! ## Uses -/

/-- A stream of the process stands for what its user should see; its file is in the directory. -/
structure Good (files : List Nat) (t : TStream) (s : Stream) : Prop where
  rel : Rel t.disk t.h s.arr s.short
  own : t.h.own = s.opened
  named : t.name ∈ files

theorem seen_good {w : World} {t : TStream} {s : Stream} (g : Good w.files t s) : seen w t = t.disk := by
  unfold seen
  split
  · rfl
  · rw [if_pos g.named]

theorem act_eq {s s' : Stream} {o : Out} {op : Op} (h : act s op = some (o, s')) :
    o = (Handle.Spec.step s.arr op).1 ∧ s'.arr = (Handle.Spec.step s.arr op).2 ∧ s'.short = nextShort s.short s.arr op ∧
    s'.opened = nextOwn s.opened op ∧ (∀ w, op = .write w → s.short = false) ∧ (op = .close → s.opened = true) := by
  cases op with
  | read n =>
    simp only [act, Option.some.injEq, Prod.mk.injEq] at h
    obtain ⟨rfl, rfl⟩ := h
    exact ⟨rfl, rfl, rfl, rfl, by simp, by simp⟩
  | write w =>
    simp only [act] at h
    split at h
    · cases h
    · rename_i hs
      simp only [Option.some.injEq, Prod.mk.injEq] at h
      obtain ⟨rfl, rfl⟩ := h
      exact ⟨rfl, rfl, rfl, rfl, fun _ _ => by simpa using hs, by simp⟩
  | seek off =>
    simp only [act, Option.some.injEq, Prod.mk.injEq] at h
    obtain ⟨rfl, rfl⟩ := h
    exact ⟨rfl, rfl, rfl, rfl, by simp, by simp⟩
  | close =>
    simp only [act] at h
    split at h
    · rename_i hs
      simp only [Option.some.injEq, Prod.mk.injEq] at h
      obtain ⟨rfl, rfl⟩ := h
      exact ⟨rfl, rfl, rfl, rfl, by simp, fun _ => hs⟩
    · cases h

theorem act_good {w : World} {t : TStream} {s s' : Stream} {o : Out} (g : Good w.files t s) (op : Op) (h : act s op = some (o, s')) :
    ∃ h' d', Handle.step (seen w t) t.h op = .ok (o, h', d') ∧ Good w.files { t with disk := d', h := h' } s' := by
  rw [seen_good g]
  obtain ⟨rfl, e2, e3, e4, e5, e6⟩ := act_eq h
  have hw : noWriteAfterShort s.short s.arr [op, .read 0] := by
    cases op with
    | write w' => exact ⟨e5 w' rfl, trivial⟩
    | _ => exact trivial
  have hc : closedTwice t.h.own [op, .read 0] = false := by
    rw [g.own]
    cases op with
    | close => rw [e6 rfl]; rfl
    | _ => rfl
  obtain ⟨h', d', s'', e, r, _, _, rfl, ho⟩ := step_rel g.rel op [.read 0] hw hc
  refine ⟨h', d', e, ?_, ?_, g.named⟩
  · rw [e2, e3]; exact r
  · rw [e4, ← g.own]; exact ho

/-! ## The invariant -/

def GoodOpt (files : List Nat) : Option TStream → Option Stream → Prop
  | some t, some s => Good files t s
  | none, none => True
  | _, _ => False

structure Inv (p : Nat) (w : World) (u : Nat → Bool) (ss : List (Option Stream)) : Prop where
  track : ∀ q, (w.procs q).dead = false → (w.procs q).init = u q
  off : ∀ q, u q = false → (w.procs q).init = false
  alive : (w.procs p).dead = false
  dir : (w.procs p).init = true → w.dir = true
  start : (w.procs p).init = false → ss = []
  streams : List.Forall₂ (GoodOpt w.files) (w.procs p).streams ss

theorem good_mono {f g : List Nat} (h : ∀ x ∈ f, x ∈ g) {t : Option TStream} {s : Option Stream} (a : GoodOpt f t s) : GoodOpt g t s := by
  cases t <;> cases s <;> simp only [GoodOpt] at a ⊢
  exact ⟨a.rel, a.own, h _ a.named⟩

theorem goods_mono {f g : List Nat} (h : ∀ x ∈ f, x ∈ g) {ts : List (Option TStream)} {ss : List (Option Stream)} (a : List.Forall₂ (GoodOpt f) ts ss) :
    List.Forall₂ (GoodOpt g) ts ss := a.imp fun _ _ => good_mono h

theorem forall₂_get {α β : Type} {R : α → β → Prop} {l : List α} {m : List β} (h : List.Forall₂ R l m) (i : Nat) (b : β) (hb : m[i]? = some b) :
    ∃ a, l[i]? = some a ∧ R a b := by
  induction h generalizing i with
  | nil => simp at hb
  | @cons a b' l m hr _ ih =>
    cases i with
    | zero => simp only [List.getElem?_cons_zero, Option.some.injEq] at hb; subst hb; exact ⟨a, rfl, hr⟩
    | succ i => simpa using ih i (by simpa using hb)

theorem forall₂_set {α β : Type} {R : α → β → Prop} {l : List α} {m : List β} (h : List.Forall₂ R l m) (i : Nat) (a : α) (b : β) (hr : R a b) :
    List.Forall₂ R (l.set i a) (m.set i b) := by
  induction h generalizing i with
  | nil => exact .nil
  | cons h0 h1 ih =>
    cases i with
    | zero => exact .cons hr h1
    | succ i => exact .cons h0 (ih i)

theorem setProc_self (w : World) (p : Nat) (x : Proc) : (w.setProc p x).procs p = x := by simp [World.setProc]
theorem setProc_other (w : World) (p q : Nat) (x : Proc) (h : q ≠ p) : (w.setProc p x).procs q = w.procs q := by simp [World.setProc, h]

/-- A change of another process that leaves the files there keeps the invariant. -/
theorem inv_other {p q : Nat} {w : World} {u u' : Nat → Bool} {ss : List (Option Stream)} (hi : Inv p w u ss) (hq : q ≠ p) (w' : World)
    (hp : ∀ r, r ≠ q → w'.procs r = w.procs r) (hu : ∀ r, r ≠ q → u' r = u r) (hf : ∀ x ∈ w.files, x ∈ w'.files) (hd : w'.dir = w.dir)
    (h1 : (w'.procs q).dead = false → (w'.procs q).init = u' q) (h2 : u' q = false → (w'.procs q).init = false) : Inv p w' u' ss := by
  have hpp := hp p (fun e => hq e.symm)
  refine ⟨fun r => ?_, fun r => ?_, by rw [hpp]; exact hi.alive, by rw [hpp, hd]; exact hi.dir, by rw [hpp]; exact hi.start, ?_⟩
  · by_cases e : r = q
    · subst e; exact h1
    · rw [hp r e, hu r e]; exact hi.track r
  · by_cases e : r = q
    · subst e; exact h2
    · rw [hp r e, hu r e]; exact hi.off r
  · rw [hpp]; exact goods_mono hf hi.streams

/-- An event of another process. -/
theorem event_other {p : Nat} {w : World} {u : Nat → Bool} {ss : List (Option Stream)} (hi : Inv p w u ss) (e : Event) (hp : e.proc ≠ p)
    (hq : match e.what with | .new => u e.proc = true | .exit => u e.proc = false | _ => True) :
    Inv p (event w e).1 (users u [e]) ss := by
  obtain ⟨q, what⟩ := e
  simp only at hp hq
  have hsame : ∀ (w' : World) (x : Proc), (w'.setProc q x).dir = w'.dir ∧ (w'.setProc q x).files = w'.files := fun _ _ => ⟨rfl, rfl⟩
  cases what with
  | new =>
    simp only [event, users]
    split
    · rename_i hd
      exact inv_other hi hp w (fun _ _ => rfl) (fun r hr => by simp [hr]) (fun _ h => h) rfl (fun h => by rw [hd] at h; cases h) (by simp)
    · rename_i hd
      have hinit : (w.procs q).init = true := by rw [hi.track q (by simpa using hd)]; exact hq
      have hI : initTemp w q = w := by unfold initTemp; rw [if_pos hinit]
      refine inv_other hi hp (newStream w q) ?_ (fun r hr => by simp [hr]) ?_ ?_ ?_ (by simp)
      · intro r hr
        unfold newStream
        simp only
        rw [setProc_other _ _ _ _ hr, hI]
      · intro x hx
        unfold newStream
        simp only [World.setProc, hI]
        split
        · exact List.mem_cons_of_mem _ hx
        · exact hx
      · unfold newStream
        simp only [World.setProc, hI]
      · intro _
        unfold newStream
        simp only [hI]
        rw [setProc_self]
        simp [hinit]
  | use i op =>
    simp only [event, users]
    split
    · rename_i hd
      exact inv_other hi hp w (fun _ _ => rfl) (fun r hr => by simp [hr]) (fun _ h => h) rfl (fun h => by rw [hd] at h; cases h)
        (by simpa using hi.off q)
    · rename_i hd
      have hh : Inv p (hang w q) (fun r => if r = q then u r else u r) ss := by
        refine inv_other hi hp _ (fun r hr => setProc_other _ _ _ _ hr) (fun r hr => by simp) (fun _ h => h) rfl ?_ ?_
        · intro h; unfold hang at h; rw [setProc_self] at h; cases h
        · intro h; unfold hang; rw [setProc_self]; exact hi.off q (by simpa using h)
      unfold useStream
      split
      · split
        · refine inv_other hi hp _ (fun r hr => setProc_other _ _ _ _ hr) (fun r hr => by simp) (fun _ h => h) rfl ?_ ?_
          · intro h; rw [setProc_self] at h ⊢; simpa using hi.track q h
          · intro h; rw [setProc_self]; exact hi.off q (by simpa using h)
        · exact inv_other hi hp w (fun _ _ => rfl) (fun r hr => by simp) (fun _ h => h) rfl (by simpa using hi.track q) (by simpa using hi.off q)
        · exact hh
      · exact hh
  | drop i =>
    simp only [event, users]
    split
    · rename_i hd
      exact inv_other hi hp w (fun _ _ => rfl) (fun r hr => by simp [hr]) (fun _ h => h) rfl (fun h => by rw [hd] at h; cases h)
        (by simpa using hi.off q)
    · rename_i hd
      have hh : Inv p (hang w q) (fun r => if r = q then u r else u r) ss := by
        refine inv_other hi hp _ (fun r hr => setProc_other _ _ _ _ hr) (fun r hr => by simp) (fun _ h => h) rfl ?_ ?_
        · intro h; unfold hang at h; rw [setProc_self] at h; cases h
        · intro h; unfold hang; rw [setProc_self]; exact hi.off q (by simpa using h)
      unfold dropStream
      split
      · split
        · refine inv_other hi hp _ (fun r hr => setProc_other _ _ _ _ hr) (fun r hr => by simp) (fun _ h => h) rfl ?_ ?_
          · intro h; rw [setProc_self] at h ⊢; simpa using hi.track q h
          · intro h; rw [setProc_self]; exact hi.off q (by simpa using h)
        · exact inv_other hi hp w (fun _ _ => rfl) (fun r hr => by simp) (fun _ h => h) rfl (by simpa using hi.track q) (by simpa using hi.off q)
        · exact hh
      · exact hh
  | exit =>
    simp only [event, users]
    have hinit := hi.off q hq
    have hE : exitProc w q = w.setProc q .fresh := by unfold exitProc; rw [if_neg (by simp [hinit])]
    rw [hE]
    exact inv_other hi hp _ (fun r hr => setProc_other _ _ _ _ hr) (fun r hr => by simp [hr]) (fun _ h => h) rfl
      (fun _ => by rw [setProc_self]; simp [Proc.fresh]) (fun _ => by rw [setProc_self]; rfl)
  | crash =>
    simp only [event, users]
    exact inv_other hi hp _ (fun r hr => setProc_other _ _ _ _ hr) (fun r hr => by simp [hr]) (fun _ h => h) rfl
      (fun _ => by rw [setProc_self]; simp [Proc.fresh]) (fun _ => by rw [setProc_self]; rfl)

/-- A change of the streams of the process. -/
theorem inv_self {p : Nat} {w : World} {u : Nat → Bool} {ss ss' : List (Option Stream)} (hi : Inv p w u ss) (ts : List (Option TStream))
    (h : List.Forall₂ (GoodOpt w.files) ts ss') (hs : ss = [] → ss' = []) : Inv p (w.setProc p { w.procs p with streams := ts }) u ss' := by
  refine ⟨fun r => ?_, fun r => ?_, ?_, ?_, ?_, ?_⟩
  · by_cases e : r = p
    · subst e; rw [setProc_self]; exact hi.track r
    · rw [setProc_other _ _ _ _ e]; exact hi.track r
  · by_cases e : r = p
    · subst e; rw [setProc_self]; exact hi.off r
    · rw [setProc_other _ _ _ _ e]; exact hi.off r
  · rw [setProc_self]; exact hi.alive
  · rw [setProc_self]; exact hi.dir
  · rw [setProc_self]; exact fun h => hs (hi.start h)
  · rw [setProc_self]; exact h

theorem users_use (u : Nat → Bool) (q : Nat) (i : Nat) (op : Op) : users u [⟨q, .use i op⟩] = u := by
  funext r; simp [users]

theorem users_drop (u : Nat → Bool) (q : Nat) (i : Nat) : users u [⟨q, .drop i⟩] = u := by
  funext r; simp [users]

theorem new_good (n : Nat) (files : List Nat) (h : n ∈ files) :
    GoodOpt files (some ⟨n, (create ⟨none, true⟩).2, (create ⟨none, true⟩).1⟩) (some ⟨⟨[], 0⟩, false, true⟩) :=
  ⟨⟨rfl, rfl, rfl, Nat.zero_le _, rfl, fun _ => ⟨rfl, rfl⟩, fun h => by simp [create, attach] at h⟩, rfl, h⟩

/-- A new stream of the process. -/
theorem new_self {p : Nat} {w : World} {u : Nat → Bool} {ss : List (Option Stream)} (hi : Inv p w u ss) :
    Inv p (newStream w p) (users u [⟨p, .new⟩]) (ss ++ [some ⟨⟨[], 0⟩, false, true⟩]) := by
  have key : ∀ w1 : World, (w1.procs p).init = true → w1.dir = true → (w1.procs p).dead = false →
      (∀ r, r ≠ p → w1.procs r = w.procs r) → List.Forall₂ (GoodOpt w1.files) (w1.procs p).streams ss → initTemp w p = w1 →
      Inv p (newStream w p) (users u [⟨p, .new⟩]) (ss ++ [some ⟨⟨[], 0⟩, false, true⟩]) := by
    intro w1 h1 h2 h3 h4 h5 h6
    unfold newStream
    simp only [h6, h2, if_true]
    refine ⟨fun r => ?_, fun r => ?_, ?_, ?_, ?_, ?_⟩
    · by_cases e : r = p
      · subst e; rw [setProc_self]; simp [users, h1]
      · rw [setProc_other _ _ _ _ e]
        simp only [users, e, if_false]
        rw [h4 r e]; exact hi.track r
    · by_cases e : r = p
      · subst e; simp [users]
      · rw [setProc_other _ _ _ _ e]
        simp only [users, e, if_false]
        rw [h4 r e]; exact hi.off r
    · rw [setProc_self]; exact h3
    · intro _; rfl
    · rw [setProc_self]; intro h; rw [show ({ w1.procs p with streams := _ } : Proc).init = (w1.procs p).init from rfl, h1] at h; cases h
    · rw [setProc_self]
      refine List.rel_append (goods_mono (fun x hx => List.mem_cons_of_mem _ hx) h5) (.cons (new_good _ _ (by simp [World.setProc])) .nil)
  cases hin : (w.procs p).init with
  | true =>
    exact key w hin (hi.dir hin) hi.alive (fun _ _ => rfl) hi.streams (by unfold initTemp; rw [if_pos hin])
  | false =>
    have hss := hi.start hin
    have hst : (w.procs p).streams = [] := by
      have := hi.streams
      rw [hss] at this
      cases h : (w.procs p).streams with
      | nil => rfl
      | cons a l => rw [h] at this; cases this
    refine key ({ w with dir := true, files := [] }.setProc p { w.procs p with init := true }) ?_ rfl ?_ ?_ ?_ ?_
    · rw [setProc_self]
    · rw [setProc_self]; exact hi.alive
    · intro r hr; rw [setProc_other _ _ _ _ hr]
    · rw [setProc_self, hss]; simp only [hst]; exact .nil
    · unfold initTemp; rw [if_neg (by simp [hin])]

theorem view_good (p : Nat) : ∀ (es : List Event) (w : World) (u : Nat → Bool) (ss : List (Option Stream)) (outs : List Out), Inv p w u ss →
    Quiet p u es → expect p ss es = some outs → view p w es = outs.map .ok
  | [], w, u, ss, outs, hi, hq, he => by
    simp only [expect, Option.some.injEq] at he
    subst he
    rfl
  | e :: es, w, u, ss, outs, hi, hq, he => by
    obtain ⟨hq0, hq⟩ := hq
    rw [expect] at he
    rw [view]
    by_cases hp : e.proc = p
    · rw [if_neg (by simpa using hp)] at he
      rw [if_pos hp]
      obtain ⟨q, what⟩ := e
      simp only at hp
      subst hp
      cases what with
      | new =>
        simp only at he
        obtain ⟨os, he', rfl⟩ := Option.map_eq_some_iff.1 he
        simp only [event, hi.alive, Bool.false_eq_true, if_false, List.map_cons]
        rw [view_good q es _ _ _ os (new_self hi) hq he']
      | use i op =>
        simp only at he
        split at he
        · rename_i s hs
          split at he
          · rename_i o s' ha
            obtain ⟨os, he', rfl⟩ := Option.map_eq_some_iff.1 he
            obtain ⟨t, ht, hg⟩ := forall₂_get hi.streams i _ hs
            cases t with
            | none => exact absurd hg (by simp [GoodOpt])
            | some t =>
              obtain ⟨h', d', e1, g1⟩ := act_good hg op ha
              simp only [event, hi.alive, Bool.false_eq_true, if_false, List.map_cons]
              unfold useStream
              rw [ht]
              simp only
              rw [e1]
              simp only
              rw [users_use] at hq
              have hi' := inv_self hi _ (forall₂_set hi.streams i (some { t with disk := d', h := h' }) (some s') g1) (by rintro rfl; simp at hs)
              rw [view_good q es _ _ _ os hi' hq he']
          · cases he
        · cases he
      | drop i =>
        simp only at he
        split at he
        · rename_i s hs
          split at he
          · rename_i ho
            obtain ⟨os, he', rfl⟩ := Option.map_eq_some_iff.1 he
            obtain ⟨t, ht, hg⟩ := forall₂_get hi.streams i _ hs
            cases t with
            | none => exact absurd hg (by simp [GoodOpt])
            | some t =>
              have e1 : destroy t.h = .ok () := by
                have : t.h.own = true := by rw [Good.own hg]; exact ho
                simp [destroy, close, this]
              simp only [event, hi.alive, Bool.false_eq_true, if_false, List.map_cons]
              unfold dropStream
              rw [ht]
              simp only
              rw [e1]
              simp only
              rw [users_drop] at hq
              have hi' := inv_self hi _ (forall₂_set hi.streams i none none (by trivial)) (by rintro rfl; simp at hs)
              rw [view_good q es _ _ _ os hi' hq he']
          · cases he
        · cases he
      | exit => cases he
      | crash => cases he
    · rw [if_pos hp] at he
      rw [if_neg hp]
      exact view_good p es _ _ ss outs (event_other hi e hp (hq0 hp)) hq he

/-- Before the process does anything. -/
theorem before_inv (p : Nat) : ∀ (es : List Event) (w : World) (u : Nat → Bool), (∀ e ∈ es, e.proc ≠ p) →
    (∀ q, (w.procs q).dead = false → (w.procs q).init = u q) → (∀ q, u q = false → (w.procs q).init = false) → w.procs p = .fresh →
    Inv p (run w es) (users u es) []
  | [], w, u, _, h1, h2, h3 => ⟨h1, h2, by rw [run, h3]; rfl, by rw [run, h3]; simp [Proc.fresh], fun _ => rfl, by rw [run, h3]; exact .nil⟩
  | e :: es, w, u, hp, h1, h2, h3 => by
    rw [run]
    have hu : users u (e :: es) = users (users u [e]) es := rfl
    rw [hu]
    have hpe := hp e (by simp)
    obtain ⟨q, what⟩ := e
    simp only at hpe
    have hne : p ≠ q := fun e => hpe e.symm
    have key : ∀ w' : World, (∀ r, r ≠ q → w'.procs r = w.procs r) → ((w'.procs q).dead = false → (w'.procs q).init = users u [⟨q, what⟩] q) →
        (users u [⟨q, what⟩] q = false → (w'.procs q).init = false) → Inv p (run w' es) (users (users u [⟨q, what⟩]) es) [] := by
      intro w' k1 k2 k3
      refine before_inv p es w' _ (fun e he => hp e (by simp [he])) ?_ ?_ (by rw [k1 p hne, h3])
      · intro r
        by_cases e : r = q
        · subst e; exact k2
        · rw [k1 r e]
          have : users u [⟨q, what⟩] r = u r := by simp [users, e]
          rw [this]; exact h1 r
      · intro r
        by_cases e : r = q
        · subst e; exact k3
        · rw [k1 r e]
          have : users u [⟨q, what⟩] r = u r := by simp [users, e]
          rw [this]; exact h2 r
    have hdead : (w.procs q).dead = true → what = .new ∨ (∃ i op, what = .use i op) ∨ (∃ i, what = .drop i) →
        Inv p (run w es) (users (users u [⟨q, what⟩]) es) [] := by
      intro hd hw
      refine key w (fun _ _ => rfl) (fun h => by rw [hd] at h; cases h) ?_
      rcases hw with rfl | ⟨i, op, rfl⟩ | ⟨i, rfl⟩
      · simp [users]
      · rw [users_use]; exact h2 q
      · rw [users_drop]; exact h2 q
    have hhang : (∃ i op, what = .use i op) ∨ (∃ i, what = .drop i) → Inv p (run (hang w q) es) (users (users u [⟨q, what⟩]) es) [] := by
      intro hw
      refine key (hang w q) (fun r hr => setProc_other _ _ _ _ hr) (fun h => ?_) ?_
      · unfold hang at h; rw [setProc_self] at h; cases h
      · have : users u [⟨q, what⟩] = u := by
          rcases hw with ⟨i, op, rfl⟩ | ⟨i, rfl⟩
          · exact users_use ..
          · exact users_drop ..
        rw [this]; unfold hang; rw [setProc_self]; exact h2 q
    have hset : (∃ i op, what = .use i op) ∨ (∃ i, what = .drop i) → ∀ ts, Inv p (run (w.setProc q { w.procs q with streams := ts }) es)
        (users (users u [⟨q, what⟩]) es) [] := by
      intro hw ts
      have : users u [⟨q, what⟩] = u := by
        rcases hw with ⟨i, op, rfl⟩ | ⟨i, rfl⟩
        · exact users_use ..
        · exact users_drop ..
      refine key _ (fun r hr => setProc_other _ _ _ _ hr) ?_ ?_
      · rw [this, setProc_self]; exact h1 q
      · rw [this, setProc_self]; exact h2 q
    have hid : (∃ i op, what = .use i op) ∨ (∃ i, what = .drop i) → Inv p (run w es) (users (users u [⟨q, what⟩]) es) [] := by
      intro hw
      have : users u [⟨q, what⟩] = u := by
        rcases hw with ⟨i, op, rfl⟩ | ⟨i, rfl⟩
        · exact users_use ..
        · exact users_drop ..
      exact key w (fun _ _ => rfl) (by rw [this]; exact h1 q) (by rw [this]; exact h2 q)
    cases what with
    | new =>
      simp only [event]
      split
      · rename_i hd; exact hdead hd (Or.inl rfl)
      · rename_i hd
        have hI : ∀ r, r ≠ q → (initTemp w q).procs r = w.procs r := by
          intro r hr
          unfold initTemp
          split
          · rfl
          · exact setProc_other _ _ _ _ hr
        have hI' : ((initTemp w q).procs q).init = true := by
          unfold initTemp
          split
          · assumption
          · rw [setProc_self]
        refine key (newStream w q) ?_ ?_ ?_
        · intro r hr
          unfold newStream
          simp only
          rw [setProc_other _ _ _ _ hr]; exact hI r hr
        · intro _
          unfold newStream
          simp only
          rw [setProc_self]
          simp [users, hI']
        · intro h; simp [users] at h
    | use i op =>
      simp only [event]
      split
      · rename_i hd; exact hdead hd (Or.inr (Or.inl ⟨_, _, rfl⟩))
      · unfold useStream
        split
        · split
          · exact hset (Or.inl ⟨_, _, rfl⟩) _
          · exact hid (Or.inl ⟨_, _, rfl⟩)
          · exact hhang (Or.inl ⟨_, _, rfl⟩)
        · exact hhang (Or.inl ⟨_, _, rfl⟩)
    | drop i =>
      simp only [event]
      split
      · rename_i hd; exact hdead hd (Or.inr (Or.inr ⟨_, rfl⟩))
      · unfold dropStream
        split
        · split
          · exact hset (Or.inr ⟨_, rfl⟩) _
          · exact hid (Or.inr ⟨_, rfl⟩)
          · exact hhang (Or.inr ⟨_, rfl⟩)
        · exact hhang (Or.inr ⟨_, rfl⟩)
    | exit =>
      simp only [event]
      refine key (exitProc w q) ?_ ?_ ?_
      · intro r hr
        unfold exitProc
        rw [setProc_other _ _ _ _ hr]
        split <;> rfl
      · intro _; unfold exitProc; rw [setProc_self]; simp [users, Proc.fresh]
      · intro _; unfold exitProc; rw [setProc_self]; rfl
    | crash =>
      simp only [event]
      exact key _ (fun r hr => setProc_other _ _ _ _ hr) (fun _ => by rw [setProc_self]; simp [users, Proc.fresh]) (fun _ => by rw [setProc_self]; rfl)

theorem view_append (p : Nat) (before during : List Event) (h : ∀ e ∈ before, e.proc ≠ p) : ∀ w, view p w (before ++ during) = view p (run w before) during := by
  induction before with
  | nil => intro w; rfl
  | cons e es ih =>
    intro w
    rw [List.cons_append, view, if_neg (h e (by simp)), run]
    exact ih (fun e he => h e (by simp [he])) _

/-- **C99a.** Whatever the other processes did before the process began, and in all schedules in which, from then on, none of them makes its first
temporary stream and none that has made one ends normally, the process sees its temporary streams as byte arrays. -/
theorem undisturbed_streams_partial (p : Nat) (before during : List Event) (hb : ∀ e ∈ before, e.proc ≠ p)
    (hq : Quiet p (users (fun _ => false) before) during) (outs : List Out) (he : expect p [] during = some outs) :
    view p World.empty (before ++ during) = outs.map .ok := by
  rw [view_append p before during hb]
  exact view_good p during _ _ [] outs (before_inv p before World.empty (fun _ => false) hb (fun _ _ => rfl) (fun _ _ => rfl) rfl) hq he

/-- **C99b.** When a process that made a temporary stream ends, no temporary file is left. -/
theorem exit_removes_all (w : World) (p : Nat) (h : (w.procs p).init = true) : (event w ⟨p, .exit⟩).1.dir = false ∧ (event w ⟨p, .exit⟩).1.files = [] := by
  simp only [event, exitProc, h, if_true]
  exact ⟨rfl, rfl⟩

/-- **C99c.** What killed processes left is removed when a new process makes its first temporary stream. -/
theorem leftovers_removed (w : World) (p : Nat) (h : w.procs p = .fresh) : (event w ⟨p, .new⟩).1.files = [w.next] ∧ (event w ⟨p, .new⟩).1.dir = true := by
  simp only [event, h, Proc.fresh, Bool.false_eq_true, if_false]
  unfold newStream initTemp
  simp [h, Proc.fresh, World.setProc]

/-! ## Findings -/

/-- **C99, finding.** A process that ends takes the directory from all the others: a stream they make then accepts everything, says so, and has
nothing. -/
theorem lost_after_exit (b : Bytes) (n : Nat) :
    view 1 World.empty [⟨1, .new⟩, ⟨2, .new⟩, ⟨2, .exit⟩, ⟨1, .new⟩, ⟨1, .use 1 (.write b)⟩, ⟨1, .use 1 (.seek 0)⟩, ⟨1, .use 1 (.read n)⟩] =
      [.ok .done, .ok .done, .ok (.count b.length), .ok (.moved true), .ok (.bytes [])] := by
  rfl

/-- **C99, finding.** A process that makes its first temporary stream removes the files of all the others: what they wrote into streams they closed
is lost. -/
theorem closed_lost_after_start (b : Bytes) (n : Nat) :
    view 1 World.empty [⟨1, .new⟩, ⟨1, .use 0 (.write b)⟩, ⟨1, .use 0 .close⟩, ⟨2, .new⟩, ⟨1, .use 0 (.seek 0)⟩, ⟨1, .use 0 (.read n)⟩] =
      [.ok .done, .ok (.count b.length), .ok .done, .ok (.moved true), .ok (.bytes [])] := by
  rfl

/-- Without the other process it is not. -/
theorem closed_kept_alone (b : Bytes) :
    view 1 World.empty [⟨1, .new⟩, ⟨1, .use 0 (.write b)⟩, ⟨1, .use 0 .close⟩, ⟨1, .use 0 (.seek 0)⟩, ⟨1, .use 0 (.read b.length)⟩] =
      [.ok .done, .ok (.count b.length), .ok .done, .ok (.moved true), .ok (.bytes b)] := by
  have h := undisturbed_streams_partial 1 [] [⟨1, .new⟩, ⟨1, .use 0 (.write b)⟩, ⟨1, .use 0 .close⟩, ⟨1, .use 0 (.seek 0)⟩, ⟨1, .use 0 (.read b.length)⟩]
    (by simp) (by simp [Quiet]) [.done, .count b.length, .done, .moved true, .bytes b] (by
      simp [expect, act, Handle.Spec.step, put])
  exact h

/-- **C99, finding.** Destroying a stream does not remove its file: as long as the process runs, there is a file for every stream it ever made. -/
theorem files_stay (p : Nat) (n : Nat) : ∀ w : World, (w.procs p).dead = false → (w.procs p).init = true → w.dir = true →
    (run w ((List.range' (w.procs p).streams.length n).flatMap fun i => [⟨p, .new⟩, ⟨p, .drop i⟩])).files.length = w.files.length + n := by
  induction n with
  | zero => intro w _ _ _; rfl
  | succ n ih =>
    intro w hd hi hw
    rw [List.range'_succ, List.flatMap_cons, List.cons_append, List.cons_append, List.nil_append, run, run]
    have e1 : (event w ⟨p, .new⟩).1 = newStream w p := by simp [event, hd]
    have hI : initTemp w p = w := by unfold initTemp; rw [if_pos hi]
    have hn : newStream w p = { w with files := w.next :: w.files, next := w.next + 1 }.setProc p
        { w.procs p with streams := (w.procs p).streams ++ [some (TStream.mk w.next (create ⟨none, true⟩).2 (create ⟨none, true⟩).1)] } := by
      unfold newStream
      simp only [hI, hw, if_true]
    rw [e1, hn]
    generalize hw1 : ({ w with files := w.next :: w.files, next := w.next + 1 } : World).setProc p
        { w.procs p with streams := (w.procs p).streams ++ [some (TStream.mk w.next (create ⟨none, true⟩).2 (create ⟨none, true⟩).1)] } = w1
    have p1 : w1.procs p = { w.procs p with streams := (w.procs p).streams ++ [some (TStream.mk w.next (create ⟨none, true⟩).2 (create ⟨none, true⟩).1)] } := by
      rw [← hw1, setProc_self]
    have f1 : w1.files.length = w.files.length + 1 := by rw [← hw1]; rfl
    have d1 : w1.dir = true := by rw [← hw1]; exact hw
    have e2 : (event w1 ⟨p, .drop (w.procs p).streams.length⟩).1 =
        w1.setProc p { w1.procs p with streams := (w1.procs p).streams.set (w.procs p).streams.length none } := by
      have hdd : (w1.procs p).dead = false := by rw [p1]; exact hd
      have hg : (w1.procs p).streams[(w.procs p).streams.length]? = some (some ⟨w.next, (create ⟨none, true⟩).2, (create ⟨none, true⟩).1⟩) := by
        rw [p1]; simp
      simp only [event, hdd, Bool.false_eq_true, if_false]
      unfold dropStream
      rw [hg]
      have hde : destroy (create ⟨none, true⟩).1 = .ok () := rfl
      simp only [hde, hdd]
    rw [e2]
    have := ih (w1.setProc p { w1.procs p with streams := (w1.procs p).streams.set (w.procs p).streams.length none })
      (by rw [setProc_self, p1]; exact hd) (by rw [setProc_self, p1]; exact hi) d1
    rw [setProc_self] at this
    simp only [p1, List.length_set, List.length_append, List.length_cons, List.length_nil] at this
    rw [← Nat.add_comm 1 (w.procs p).streams.length, Nat.add_comm 1] 
    simp only [p1]
    rw [this]
    show w1.files.length + n = _
    omega

/-- The hypothesis of `files_stay` is met after the first stream. -/
example : (run (run World.empty [⟨1, .new⟩]) ((List.range' 1 100).flatMap fun i => [⟨1, .new⟩, ⟨1, .drop i⟩])).files.length = 101 :=
  files_stay 1 100 (run World.empty [⟨1, .new⟩]) rfl rfl rfl

/-! ## A concrete case -/

/-- Three processes: one has ended and one was killed before; one that made a stream goes on making and using some. -/
def sampleBefore : List Event := [⟨2, .new⟩, ⟨3, .new⟩, ⟨2, .exit⟩, ⟨4, .new⟩, ⟨4, .crash⟩, ⟨3, .use 0 (.write [9])⟩]
def sampleDuring : List Event :=
  [⟨1, .new⟩, ⟨1, .use 0 (.write [1, 2, 3])⟩, ⟨3, .new⟩, ⟨3, .drop 1⟩, ⟨1, .new⟩, ⟨1, .use 1 (.write [7])⟩, ⟨1, .use 0 .close⟩, ⟨5, .exit⟩, ⟨3, .crash⟩,
    ⟨1, .use 0 (.seek 1)⟩, ⟨1, .use 0 (.read 5)⟩, ⟨1, .drop 1⟩]

example : view 1 World.empty (sampleBefore ++ sampleDuring) =
    [.done, .count 3, .done, .count 1, .done, .moved true, .bytes [2, 3], .done].map .ok :=
  undisturbed_streams_partial 1 sampleBefore sampleDuring (by decide) (by simp [Quiet, sampleDuring, users, sampleBefore]) _ (by decide +kernel)

end Verif.Temp
