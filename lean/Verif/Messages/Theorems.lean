import Verif.Messages.Model
import Verif.Tref.Theorems

/-!
# Messages: theorems (property C103)
-/

namespace Verif.Messages
open Verif Verif.Messages.Spec

theorem written_eq (m : Msg) : written m.text (m.details.map fun d => detail d.1 d.2) = Spec.text [m] := by
  unfold written Spec.text lines
  simp only [List.flatMap_cons, List.flatMap_nil, List.append_nil, List.map_cons, List.flatten_cons, List.map_map]
  congr 1
  congr 1
  apply List.map_congr_left
  intro d _
  simp [detail, line]

theorem text_append (a b : List Msg) : Spec.text (a ++ b) = Spec.text a ++ Spec.text b := by
  simp [Spec.text]

theorem text_cons (m : Msg) (ms : List Msg) : Spec.text (m :: ms) = Spec.text [m] ++ Spec.text ms := text_append [m] ms

theorem text_ne_nil (m : Msg) (ms : List Msg) : Spec.text (m :: ms) ≠ [] := by
  unfold Spec.text lines
  simp

/-- One message is added where the log is. -/
def grown (s : State) (ms : List Msg) : State :=
  if s.logfile = [] then { s with console := s.console ++ Spec.text ms }
  else { s with fs := fun q => if q = s.logfile ∧ ms ≠ [] then some ((s.fs q).getD [] ++ Spec.text ms) else s.fs q }

theorem grown_nil (s : State) : grown s [] = s := by
  unfold grown
  split
  · simp [Spec.text]
  · simp

theorem grown_append (s : State) (a b : List Msg) : grown (grown s a) b = grown s (a ++ b) := by
  unfold grown
  by_cases h : s.logfile = []
  · simp only [if_pos h, text_append, List.append_assoc]
  · simp only [if_neg h]
    congr 1
    funext q
    by_cases hq : q = s.logfile
    · subst hq
      cases a with
      | nil => simp
      | cons m a =>
        cases b with
        | nil => simp
        | cons n b =>
          have := text_append (m :: a) (n :: b)
          simp only [List.cons_append] at this
          simp [this]
    · simp [hq]

/-- What one event does to the log, if it can be written, no copies are made and the log file is not changed. -/
theorem register_grown (e : Env) (s : State) (hw : s.logfile = [] ∨ e.rw s.logfile = true) (m : Msg) :
    register e s m.text m.level (m.details.map fun d => detail d.1 d.2) =
      grown s (if s.on ∧ s.least.rank ≤ m.level.rank then [m] else []) := by
  unfold register
  by_cases hon : s.on = true
  · rw [if_pos hon]
    unfold add
    by_cases hl : m.level.rank < s.least.rank
    · rw [if_pos hl, if_neg (by omega), grown_nil]
    · have hsel : (if s.on = true ∧ s.least.rank ≤ m.level.rank then [m] else []) = [m] := if_pos ⟨hon, by omega⟩
      rw [if_neg hl, hsel, written_eq]
      unfold grown
      by_cases hf : s.logfile = []
      · rw [if_pos (by rw [hf]; rfl), if_pos hf]
      · rw [if_neg (by simpa using hf), if_neg hf, if_pos (hw.resolve_left hf)]
        simp
  · rw [if_neg hon, if_neg (by simp [hon]), grown_nil]

/-- No event of these changes the log file. -/
def Spec.steady (es : List Event) : Prop := ∀ p, Event.logTo p ∉ es

theorem run_grown (e : Env) (he : e.copies = 0) (es : List Event) (hs : Spec.steady es) : ∀ (s : State), (s.logfile = [] ∨ e.rw s.logfile = true) →
    ∃ on l, run e s es = { grown s (seen s.on s.least es) with on := on, least := l } := by
  induction es with
  | nil =>
    intro s _
    exact ⟨s.on, s.least, by rw [run, List.foldl_nil, seen, grown_nil]⟩
  | cons x es ih =>
    intro s hw
    have ih := ih (fun p hp => hs p (List.mem_cons_of_mem _ hp))
    have hone : ∀ m : Msg, step e s x = register e s m.text m.level (m.details.map fun d => detail d.1 d.2) →
        seen s.on s.least (x :: es) = (if s.on ∧ s.least.rank ≤ m.level.rank then [m] else []) ++ seen s.on s.least es →
        ∃ on l, run e s (x :: es) = { grown s (seen s.on s.least (x :: es)) with on := on, least := l } := by
      intro m h1 h2
      rw [register_grown e s hw m] at h1
      have hg : ∀ ms, (grown s ms).on = s.on ∧ (grown s ms).least = s.least ∧ (grown s ms).logfile = s.logfile := by
        intro ms; unfold grown; split <;> exact ⟨rfl, rfl, rfl⟩
      obtain ⟨on, l, h3⟩ := ih (grown s (if s.on ∧ s.least.rank ≤ m.level.rank then [m] else [])) (by rw [(hg _).2.2]; exact hw)
      refine ⟨on, l, ?_⟩
      rw [run, List.foldl_cons, h1]
      rw [run] at h3
      rw [h3, (hg _).1, (hg _).2.1, grown_append, h2]
    have hset : ∀ (on : Bool) (l : Level), step e s x = { s with on := on, least := l } → seen s.on s.least (x :: es) = seen on l es →
        ∃ on l, run e s (x :: es) = { grown s (seen s.on s.least (x :: es)) with on := on, least := l } := by
      intro on l h1 h2
      obtain ⟨on', l', h3⟩ := ih { s with on := on, least := l } hw
      refine ⟨on', l', ?_⟩
      rw [run, List.foldl_cons, h1]
      rw [run] at h3
      rw [h3, h2]
      unfold grown
      simp only
      split <;> rfl
    cases x with
    | message m =>
      refine hone m ?_ ?_
      · rw [step, addMessage, he, destroyCopies]
      · rw [seen]; split <;> rfl
    | exception t d =>
      refine hone ⟨t, .error, d⟩ rfl ?_
      rw [seen]
      have : s.least.rank ≤ Level.rank .error := by cases s.least <;> decide
      simp only [this, and_true]
      split <;> rfl
    | progress t => exact hset s.on s.least rfl rfl
    | logTo p => exact absurd (List.mem_cons_self ..) (hs p)
    | least l => exact hset s.on l rfl rfl
    | listen => exact hset true s.least rfl rfl
    | ignore => exact hset false s.least rfl rfl

/-- **C103.** After the user has named a log file that may be written, it holds, after any number of events, exactly the messages that were to be seen
since, in their order, each with its details; if there was none there is no file. Nothing goes to the console, and no other file is touched. -/
theorem log_holds_messages (e : Env) (he : e.copies = 0) (s : State) (p : Bytes) (hp : e.absolute p ≠ []) (hw : e.rw (e.absolute p) = true)
    (es : List Event) (hs : Spec.steady es) :
    (run e s (.logTo p :: es)).fs (e.absolute p) =
        (if seen s.on s.least es = [] then none else some (Spec.text (seen s.on s.least es))) ∧
      (run e s (.logTo p :: es)).console = s.console ∧
      ∀ q, q ≠ e.absolute p → (run e s (.logTo p :: es)).fs q = s.fs q := by
  obtain ⟨on, l, h⟩ := run_grown e he es hs (setLog e s p) (Or.inr hw)
  have h' : run e s (.logTo p :: es) = { grown (setLog e s p) (seen s.on s.least es) with on := on, least := l } := h
  rw [h']
  unfold grown
  have hl : (setLog e s p).logfile = e.absolute p := rfl
  rw [hl, if_neg hp]
  refine ⟨?_, rfl, fun q hq => ?_⟩
  · by_cases hn : seen s.on s.least es = []
    · simp [hn, setLog, hw]
    · simp [hn, setLog, hw]
  · simp [hq, setLog]

/-- **C103.** Without a log file the same goes to the console, and no file is touched. -/
theorem console_holds_messages (e : Env) (he : e.copies = 0) (s : State) (hl : s.logfile = []) (es : List Event) (hs : Spec.steady es) :
    (run e s es).console = s.console ++ Spec.text (seen s.on s.least es) ∧ (run e s es).fs = s.fs := by
  obtain ⟨on, l, h⟩ := run_grown e he es hs s (Or.inl hl)
  rw [h]
  unfold grown
  rw [if_pos hl]
  exact ⟨rfl, rfl⟩

/-! ## The log can be read back -/

theorem lines_grouped (ms ms' : List Msg) (h : ∀ m ∈ ms, Plain m) (h' : ∀ m ∈ ms', Plain m) (e : ms.flatMap lines = ms'.flatMap lines) :
    ms.map (fun m => (m.text, m.details)) = ms'.map (fun m => (m.text, m.details)) := by
  have hsplit : ∀ (a b : Bytes) (c d : Bytes), 61 ∉ a → 61 ∉ c → a ++ 61 :: b = c ++ 61 :: d → a = c ∧ b = d := by
    intro a
    induction a with
    | nil =>
      intro b c d _ hc e
      cases c with
      | nil => simpa using e
      | cons x c =>
        simp only [List.nil_append, List.cons_append, List.cons.injEq] at e
        exact absurd (by rw [e.1]; simp) hc
    | cons x a ih =>
      intro b c d ha hc e
      cases c with
      | nil =>
        simp only [List.nil_append, List.cons_append, List.cons.injEq] at e
        exact absurd (by rw [← e.1]; simp) ha
      | cons y c =>
        simp only [List.cons_append, List.cons.injEq] at e
        obtain ⟨r1, r2⟩ := ih b c d (fun hh => ha (by simp [hh])) (fun hh => hc (by simp [hh])) e.2
        exact ⟨by rw [e.1, r1], r2⟩
  -- the details of one message end where the next one begins
  have hhead : ∀ (ms : List Msg), (∀ m ∈ ms, Plain m) → ∀ l, (ms.flatMap lines).head? = some l → l.head? ≠ some 9 := by
    intro ms hm l hl
    cases ms with
    | nil => cases hl
    | cons m ms =>
      simp only [List.flatMap_cons, lines, List.cons_append, List.head?_cons, Option.some.injEq] at hl
      subst hl
      exact (hm m (by simp)).2.1
  have hdet : ∀ (ds ds' : List (Bytes × Bytes)) (ms ms' : List Msg), (∀ d ∈ ds, 61 ∉ d.1) → (∀ d ∈ ds', 61 ∉ d.1) → (∀ m ∈ ms, Plain m) → (∀ m ∈ ms', Plain m) →
      (ds.map fun d => (9 :: (d.1 ++ 61 :: d.2) : Bytes)) ++ ms.flatMap lines = (ds'.map fun d => (9 :: (d.1 ++ 61 :: d.2) : Bytes)) ++ ms'.flatMap lines →
      ds = ds' ∧ ms.flatMap lines = ms'.flatMap lines := by
    intro ds
    induction ds with
    | nil =>
      intro ds' ms ms' _ _ hm _ e
      cases ds' with
      | nil => exact ⟨rfl, e⟩
      | cons d ds' =>
        simp only [List.map_nil, List.nil_append, List.map_cons, List.cons_append] at e
        exact absurd rfl (hhead ms hm (9 :: (d.1 ++ 61 :: d.2)) (by rw [e]; rfl))
    | cons d ds ih =>
      intro ds' ms ms' hd hd' hm hm' e
      cases ds' with
      | nil =>
        simp only [List.map_nil, List.nil_append, List.map_cons, List.cons_append] at e
        exact absurd rfl (hhead ms' hm' (9 :: (d.1 ++ 61 :: d.2)) (by rw [← e]; rfl))
      | cons d' ds' =>
        simp only [List.map_cons, List.cons_append, List.cons.injEq, true_and] at e
        obtain ⟨r1, r2⟩ := hsplit _ _ _ _ (hd d (by simp)) (hd' d' (by simp)) e.1
        obtain ⟨r3, r4⟩ := ih ds' ms ms' (fun z hz => hd z (by simp [hz])) (fun z hz => hd' z (by simp [hz])) hm hm' e.2
        exact ⟨by rw [r3, Prod.ext r1 r2], r4⟩
  induction ms generalizing ms' with
  | nil =>
    cases ms' with
    | nil => rfl
    | cons m ms' => simp [lines] at e
  | cons m ms ih =>
    cases ms' with
    | nil => simp [lines] at e
    | cons m' ms' =>
      simp only [List.flatMap_cons, lines, List.cons_append, List.cons.injEq] at e
      obtain ⟨r1, r2⟩ := hdet m.details m'.details ms ms' (fun d hd => ((h m (by simp)).2.2 d hd).2.2) (fun d hd => ((h' m' (by simp)).2.2 d hd).2.2)
        (fun z hz => h z (by simp [hz])) (fun z hz => h' z (by simp [hz])) e.2
      rw [List.map_cons, List.map_cons, ih ms' (fun z hz => h z (by simp [hz])) (fun z hz => h' z (by simp [hz])) r2, e.1, r1]

theorem plain_lines (ms : List Msg) (h : ∀ m ∈ ms, Plain m) : ∀ l ∈ ms.flatMap lines, ∀ c ∈ l, c ≠ (10 : UInt8) := by
  intro l hl c hc
  obtain ⟨m, hm, hl⟩ := List.mem_flatMap.1 hl
  obtain ⟨p1, _, p3⟩ := h m hm
  unfold lines at hl
  rcases List.mem_cons.1 hl with rfl | hl
  · rintro rfl; exact p1 hc
  · obtain ⟨d, hd, rfl⟩ := List.mem_map.1 hl
    obtain ⟨q1, q2, _⟩ := p3 d hd
    simp only [List.mem_cons, List.mem_append] at hc
    rcases hc with rfl | hc | rfl | hc
    · decide
    · rintro rfl; exact q1 hc
    · decide
    · rintro rfl; exact q2 hc

/-- **C103.** The log tells the texts and the details of the messages, in order: two logs with the same bytes are of the same messages. Partial: no newlines in the texts, no tab before
them, no `=` in names of details. -/
theorem log_readable_partial (ms ms' : List Msg) (h : ∀ m ∈ ms, Plain m) (h' : ∀ m ∈ ms', Plain m) (e : Spec.text ms = Spec.text ms') :
    ms.map (fun m => (m.text, m.details)) = ms'.map (fun m => (m.text, m.details)) := by
  apply lines_grouped ms ms' h h'
  have h1 := Tref.linesOf_file (ms.flatMap lines) (plain_lines ms h)
  have h2 := Tref.linesOf_file (ms'.flatMap lines) (plain_lines ms' h')
  rw [← h1, ← h2]
  exact congrArg Tref.linesOf e

/-! ## Findings -/

/-- **C103, negation.** A text with a newline is taken for a message of its own: two different lists with the same log. -/
theorem newline_ambiguous (a b : Bytes) (l : Level) : Spec.text [⟨a ++ 10 :: b, l, []⟩] = Spec.text [⟨a, l, []⟩, ⟨b, l, []⟩] := by
  simp [Spec.text, lines]

/-- **C103, negation.** If the log file cannot be written the messages are lost: they are not on the console either. -/
theorem unwritable_lost (e : Env) (s : State) (p : Bytes) (hp : e.absolute p ≠ []) (hw : e.rw (e.absolute p) = false) (es : List Event) (hs : Spec.steady es) :
    (run e s (.logTo p :: es)).fs = s.fs ∧ (run e s (.logTo p :: es)).console = s.console := by
  have hadd : ∀ (s : State) (t : Bytes) (l : Level) (ps : List Bytes), s.logfile = e.absolute p → register e s t l ps = s := by
    intro s t l ps hl
    unfold register add
    rw [hl, hw]
    have : (e.absolute p).isEmpty = false := by simpa using hp
    rw [this]
    simp
  have hcop : ∀ (n : Nat) (s : State) (t : Bytes) (l : Level), s.logfile = e.absolute p → destroyCopies e t l n s = s := by
    intro n
    induction n with
    | zero => intro s t l _; rfl
    | succ n ih => intro s t l hl; rw [destroyCopies, hadd s t l [] hl]; exact ih s t l hl
  have hrun : ∀ (es : List Event), Spec.steady es → ∀ s : State, s.logfile = e.absolute p → (run e s es).fs = s.fs ∧ (run e s es).console = s.console := by
    intro es
    induction es with
    | nil => intro _ s _; exact ⟨rfl, rfl⟩
    | cons x es ih =>
      intro hs s hl
      have ih := ih (fun p hp => hs p (List.mem_cons_of_mem _ hp))
      rw [run, List.foldl_cons]
      cases x with
      | message m =>
        rw [step, addMessage, hcop _ _ _ _ hl, hadd s _ _ _ hl]; exact ih s hl
      | exception t d =>
        rw [step, «show», hadd s _ _ _ hl]; exact ih s hl
      | progress t => exact ih s hl
      | logTo q => exact absurd (List.mem_cons_self ..) (hs q)
      | least l => exact ih { s with least := l } hl
      | listen => exact ih { s with on := true } hl
      | ignore => exact ih { s with on := false } hl
  have := hrun es hs (setLog e s p) rfl
  rw [run, List.foldl_cons]
  refine ⟨this.1.trans ?_, this.2⟩
  unfold setLog
  funext q
  simp only
  split
  · rename_i hq
    rw [hq.1, hw] at hq
    cases hq.2
  · rfl

/-- **C103, negation.** Each copy that the compiler makes of the object on its way out writes the text of the message once more, without details. -/
theorem copies_repeat (e : Env) (s : State) (hl : s.logfile = []) (hon : s.on = true) (m : Msg) (hm : s.least.rank ≤ m.level.rank) :
    (step e s (.message m)).console =
      s.console ++ Spec.text (List.replicate e.copies ⟨m.text, m.level, []⟩ ++ [m]) := by
  have hreg : ∀ (s : State) (m : Msg), s.logfile = [] → s.on = true → s.least.rank ≤ m.level.rank →
      register e s m.text m.level (m.details.map fun d => detail d.1 d.2) = { s with console := s.console ++ Spec.text [m] } := by
    intro s m h1 h2 h3
    rw [register_grown e s (Or.inl h1), if_pos ⟨h2, h3⟩]
    unfold grown
    rw [if_pos h1]
  have hcop : ∀ (n : Nat) (s : State), s.logfile = [] → s.on = true → s.least.rank ≤ m.level.rank →
      destroyCopies e m.text m.level n s = { s with console := s.console ++ Spec.text (List.replicate n ⟨m.text, m.level, []⟩) } := by
    intro n
    induction n with
    | zero => intro s _ _ _; simp [destroyCopies, Spec.text]
    | succ n ih =>
      intro s h1 h2 h3
      have := hreg s ⟨m.text, m.level, []⟩ h1 h2 h3
      simp only [List.map_nil] at this
      rw [destroyCopies, this, ih { s with console := s.console ++ Spec.text [⟨m.text, m.level, []⟩] } h1 h2 h3, List.replicate_succ,
        text_cons ⟨m.text, m.level, []⟩ (List.replicate n ⟨m.text, m.level, []⟩)]
      simp only [List.append_assoc]
  rw [step, addMessage, hcop e.copies s hl hon hm,
    hreg { s with console := s.console ++ Spec.text (List.replicate e.copies ⟨m.text, m.level, []⟩) } m hl hon hm, text_append]
  simp only [List.append_assoc]

/-- **C103, negation.** Progress reported by the library is seen nowhere. -/
theorem progress_unseen (e : Env) (s : State) (t : Bytes) : step e s (.progress t) = s := rfl

/-! ## Concrete cases -/

namespace Example

def env : Env := ⟨fun p => 47 :: p, fun p => decide (p ≠ [47, 110]), 0⟩
def m1 : Msg := ⟨[65], .error, [([66], [67]), ([68], [])]⟩
def m2 : Msg := ⟨[69], .hint, []⟩
def es : List Event := [.message m2, .listen, .message m1, .least .warning, .message m2, .exception [70] [([71], [61])], .ignore, .message m1]
def s0 : State := start fun _ => some [1]

theorem es_steady : Spec.steady es := by intro p hp; simp [es] at hp

example : (run env s0 (.logTo [108] :: es)).fs [47, 108] = some (Spec.text [m1, ⟨[70], .error, [([71], [61])]⟩]) ∧
    (run env s0 (.logTo [108] :: es)).fs [47, 109] = some [1] := by
  have := log_holds_messages env rfl s0 [108] (by decide) (by decide) es es_steady
  have hs : seen s0.on s0.least es = [m1, ⟨[70], .error, [([71], [61])]⟩] := by decide
  rw [hs] at this
  exact ⟨this.1, this.2.2 _ (by decide)⟩
example : (run env s0 es).console = Spec.text [m1, ⟨[70], .error, [([71], [61])]⟩] :=
  (console_holds_messages env rfl s0 rfl es es_steady).1
example : Spec.text [m1] = [65, 10, 9, 66, 61, 67, 10, 9, 68, 61, 10] := by decide
example : Plain m1 ∧ Plain m2 := by
  constructor
  · refine ⟨by decide, by decide, ?_⟩
    intro d hd
    simp only [m1, List.mem_cons, List.not_mem_nil, or_false] at hd
    rcases hd with rfl | rfl <;> decide
  · exact ⟨by decide, by decide, by simp [m2]⟩
example : (run env s0 (.logTo [110] :: es)).console = [] := (unwritable_lost env s0 [110] (by decide) (by decide) es es_steady).2
example : (step { env with copies := 1 } { s0 with on := true } (.message m1)).console = Spec.text [⟨[65], .error, []⟩, m1] :=
  copies_repeat { env with copies := 1 } { s0 with on := true } rfl rfl m1 (by decide)

end Example

end Verif.Messages
