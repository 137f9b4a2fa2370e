/-!
# Interleavings

Concurrent code is modelled as a transition system over sequentially consistent memory: one atomic
access (or one call into the operating system) per step, any number of threads, any interleaving.
Weaker memory orders are not modelled.
-/
namespace Verif.Conc

/-- Thread identifiers. -/
abbrev Tid := Nat

/-- Change one thread's entry. -/
def upd {α : Type} (f : Tid → α) (t : Tid) (v : α) : Tid → α := fun u => if u = t then v else f u

theorem upd_same {α : Type} (f : Tid → α) (t : Tid) (v : α) : upd f t v t = v := by simp [upd]

theorem upd_other {α : Type} (f : Tid → α) {t u : Tid} (v : α) (h : u ≠ t) : upd f t v u = f u := by
  simp [upd, h]

/-- States that can be reached. -/
inductive Reachable {S : Type} (init : S) (step : S → S → Prop) : S → Prop
  | init : Reachable init step init
  | step {s s'} : Reachable init step s → step s s' → Reachable init step s'

theorem Reachable.invariant {S : Type} {init : S} {step : S → S → Prop} {I : S → Prop}
    (h0 : I init) (hs : ∀ s s', I s → step s s' → I s') {s : S} (h : Reachable init step s) : I s := by
  induction h with
  | init => exact h0
  | step _ h ih => exact hs _ _ ih h

/-- `n` steps in a row. -/
inductive Chain {S : Type} (step : S → S → Prop) : Nat → S → S → Prop
  | nil {s} : Chain step 0 s s
  | cons {n s s1 s2} : step s s1 → Chain step n s1 s2 → Chain step (n + 1) s s2

theorem Reachable.chain {S : Type} {init : S} {step : S → S → Prop} {s s' : S} {n : Nat}
    (h : Reachable init step s) (hc : Chain step n s s') : Reachable init step s' := by
  induction hc with
  | nil => exact h
  | cons h1 _ ih => exact ih (h.step h1)

theorem Chain.trans {S : Type} {step : S → S → Prop} {n m : Nat} {a b c : S}
    (h1 : Chain step n a b) (h2 : Chain step m b c) : Chain step (n + m) a c := by
  induction h1 with
  | nil => simpa using h2
  | cons h _ ih => rw [Nat.add_right_comm]; exact .cons h (ih h2)

theorem Chain.invariant {S : Type} {step : S → S → Prop} {I : S → Prop}
    (hs : ∀ s s', I s → step s s' → I s') {n : Nat} {s s' : S} (h : Chain step n s s') (h0 : I s) :
    I s' := by
  induction h with
  | nil => exact h0
  | cons h _ ih => exact ih (hs _ _ h0 h)

end Verif.Conc
