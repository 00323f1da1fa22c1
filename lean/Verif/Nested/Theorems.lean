import Verif.Nested.Flush

/-!
# Theorems: containers inside the entries of containers (C95)

`Spec.effect` and `Spec.getAt` (Spec.lean) say what the user expects of a history.
-/

namespace Verif.Nested
open Verif Verif.Stream Verif.Container Verif.Container.Spec Verif.Nested.Spec Verif.Unicode Verif.Unicode.Spec

/-- One operation of the user. -/
def step (cd : Codec) (fuel : Nat) (n : Node) : Act → Outcome (Option Node)
  | .put path m b now => storeAt fuel (utf8Text m) b now cd n (path.map utf8Text)
  | .remove path m => removeAt fuel (utf8Text m) cd n (path.map utf8Text)
  | .flush => flushNode cd fuel n
  | .reopen => reopenNode cd fuel n

/-- A history; `ok none` if a loop did not end, a path led through an entry that is no container, or a stream was no sound container. -/
def session (cd : Codec) (fuel : Nat) : Node → List Act → Outcome (Option Node)
  | n, [] => .ok (some n)
  | n, op :: ops => do
    match ← step cd fuel n op with
    | some n => session cd fuel n ops
    | none => .ok none

/-- The outermost container right after an empty stream was opened. -/
def blankNode : Node := ⟨blankCatalog, .nil⟩

/-- The operation makes sense for a user who has the tree `t`: names are made of code points other than NUL, contents are not empty,
times are 64 bits, and paths lead through trees, to where no tree has the name. What is stored directly in the outermost
container can be packed and unpacked, and so can an empty container. -/
def Sensible (cd : Codec) (t : Tree) : Act → Prop
  | .put path n b now => Name n ∧ (∀ d ∈ path, Name d) ∧ b ≠ [] ∧ now < 2 ^ 64 ∧ Free t n path ∧
      (path = [] → Packs cd b) ∧ (path ≠ [] → Packs cd template)
  | .remove path n => Name n ∧ (∀ d ∈ path, Name d) ∧ Through t path
  | .flush => True
  | .reopen => True

/-- Flushing keeps every stream below 2^31 - 1 bytes, and what inner containers leave in the outermost one can be packed and unpacked. -/
def Roomy (cd : Codec) (fuel : Nat) (n : Node) : Act → Prop
  | .flush => Fits cd fuel n
  | .reopen => Fits cd fuel n
  | _ => True

/-- Every operation of the history is allowed where it happens. -/
def Allowed (cd : Codec) (fuel : Nat) : Node → Tree → List Act → Prop
  | _, _, [] => True
  | n, t, op :: ops => Sensible cd t op ∧ Roomy cd fuel n op ∧
    match step cd fuel n op with
    | .ok (some n) => Allowed cd fuel n (effect t op) ops
    | _ => True

theorem step_ok {cd : Codec} {fuel : Nat} (hf : LAST ≤ fuel) {n : Node} {t : Tree} (h : NodeOk cd fuel n t) (op : Act)
    (hs : Sensible cd t op) (hr : Roomy cd fuel n op) : ∃ n', step cd fuel n op = .ok (some n') ∧ NodeOk cd fuel n' (effect t op) := by
  cases op with
  | put path m b now =>
    obtain ⟨h1, h2, h3, h4, h5, h6, h7⟩ := hs
    obtain ⟨n', e, hok, _⟩ := storeAt_ok hf m h1 b h3 now h4 path cd n t h h2 h5 h6 h7
    exact ⟨n', e, hok⟩
  | remove path m =>
    obtain ⟨h1, h2, h3⟩ := hs
    obtain ⟨n', e, hok, _⟩ := removeAt_ok hf m h1 path cd n t h h2 h3
    exact ⟨n', e, hok⟩
  | flush => exact (flushNode_ok hf h hr).1
  | reopen => exact (flushNode_ok hf h hr).2

theorem session_ok {cd : Codec} {fuel : Nat} (hf : LAST ≤ fuel) (ops : List Act) : ∀ (n : Node) (t : Tree), NodeOk cd fuel n t → Allowed cd fuel n t ops →
    ∃ n', session cd fuel n ops = .ok (some n') ∧ NodeOk cd fuel n' (ops.foldl effect t) := by
  induction ops with
  | nil => intro n t h _; exact ⟨n, rfl, h⟩
  | cons op ops ih =>
    intro n t h ha
    obtain ⟨hs, hr, ha⟩ := ha
    obtain ⟨n1, e1, h1⟩ := step_ok hf h op hs hr
    rw [e1] at ha
    obtain ⟨n2, e2, h2⟩ := ih n1 _ h1 ha
    refine ⟨n2, ?_, h2⟩
    rw [session, e1]
    exact e2

theorem blank_ok (cd : Codec) (fuel : Nat) : NodeOk cd fuel blankNode .nil := ⟨_, [], blank_inv cd, by decide, trivial⟩

/-- **C95 (partial).** After any history of storing and removing at the ends of paths, flushing, and closing and opening everything, from an
empty stream on: the history succeeds; at the end of every path there is the content stored last there, or nothing; and every container
has the names that are in it, in the order in which they came in (each possibly with NULs behind it, C48). Missing: empty contents
(C66), contents the outermost codec cannot give back, and streams of 2^31 - 1 bytes and more. -/
theorem nested_contents_partial (cd : Codec) (fuel : Nat) (hf : LAST ≤ fuel) (ops : List Act) (ha : Allowed cd fuel blankNode .nil ops) :
    ∃ n, session cd fuel blankNode ops = .ok (some n) ∧
      (∀ path m, Name m → (∀ d ∈ path, Name d) → Free (ops.foldl effect .nil) m path →
        readAt fuel (utf8Text m) cd n (path.map utf8Text) = .ok (some (getAt (ops.foldl effect .nil) m path))) ∧
      ∀ path, (∀ d ∈ path, Name d) → Through (ops.foldl effect .nil) path →
        match treeAt (ops.foldl effect .nil) path with
        | none => listAt fuel cd n (path.map utf8Text) = .ok (some none)
        | some u => ∃ ns, listAt fuel cd n (path.map utf8Text) = .ok (some (some ns)) ∧
            List.Forall₂ (fun nm m => ∃ z, nm = utf8Text (m ++ List.replicate z 0)) ns (names u) := by
  obtain ⟨n, e, h⟩ := session_ok hf ops blankNode .nil (blank_ok cd fuel) ha
  exact ⟨n, e, fun path m hm hp hfree => readAt_ok hf m hm path cd n _ h hp hfree, fun path hp hth => listAt_ok hf path cd n _ h hp hth⟩

end Verif.Nested
