import Verif.Own.LemmasRun

namespace Verif.Own

open Spec

/-! Two objects in a chain: the variable 0 owns object 0, which owns object 1. -/

/-- `a = create; a->next = create`. -/
def chain : List Op := [.create (.var 0) 1, .create (.member 0 0) 1]

/-- The state after it. -/
def chained : State := (run start chain).getD start

theorem chained_eq : run start chain = some chained := rfl

theorem chained_slot (k : Loc) : chained.slot k =
    match k with
    | .var v => if v = 0 then some 0 else none
    | .member o i => if o = 0 ∧ i = 0 then some 1 else none := by
  cases k with
  | var v => by_cases h : v = 0 <;> simp [chained, run, step, chain, create, new, assignRaw, State.read, State.write, State.valid, destroyPtr, start, h]
  | member o i =>
    by_cases h : o = 0 <;> by_cases k : i = 0 <;> by_cases j : o = 1 <;>
      simp_all [chained, run, step, chain, create, new, assignRaw, State.read, State.write, State.valid, destroyPtr, start]

theorem chained_account : Account chained := account_run chained_eq account_start

theorem chained_valid (o i : Nat) : chained.valid (.member o i) = true ↔ (o = 0 ∨ o = 1) ∧ i = 0 := by
  have e : chained.live = [1, 0] := rfl
  have z : chained.size = fun o => if o = 1 then 1 else if o = 0 then 1 else 0 := rfl
  simp only [State.valid, e, z]
  by_cases h : o = 0 <;> by_cases k : o = 1 <;> simp_all

theorem chained_good : Good chained := by
  refine ⟨?_, ?_⟩
  · intro l p _ e
    rw [chained_slot] at e
    have : chained.live = [1, 0] := rfl
    rw [this]
    cases l <;> simp only at e <;> split at e <;> simp_all
  · intro l k p _ _ e e'
    rw [chained_slot] at e e'
    cases l <;> cases k <;> simp only at e e' <;> split at e <;> split at e' <;>
      first
        | cases e; done
        | cases e'; done
        | (cases e; cases e'; done)
        | simp_all

theorem chained_reach {z : Id} : Reach chained 1 z → z = 1 := by
  intro r
  induction r with
  | refl => rfl
  | step _ o ih =>
    subst ih
    obtain ⟨i, _, e⟩ := o
    rw [chained_slot] at e
    simp at e

theorem chained_apart : ∀ l, Apart chained l := by
  intro l p e ins
  rw [chained_slot] at e
  cases l with
  | var v => exact ins
  | member o i =>
    simp only at e
    split at e
    · next h =>
      cases e
      have := chained_reach (show Reach chained 1 o from ins)
      exact absurd (h.1.symm.trans this) (by decide)
    · cases e

theorem chain_tidy : Throughout (fun s op => Proper s op ∧ Tidy s op) start chain := by
  refine ⟨⟨⟨rfl, ?_⟩, trivial⟩, ?_⟩
  · intro p e
    cases e
  · intro s h
    cases h
    refine ⟨⟨⟨by decide, ?_⟩, trivial⟩, fun _ _ => trivial⟩
    intro p e
    cases e

theorem throughout_mono {p q : State → Op → Prop} (h : ∀ s op, p s op → q s op) :
    ∀ (ops : List Op) (s : State), Throughout p s ops → Throughout q s ops
  | [], _, _ => trivial
  | _ :: ops, _, t => ⟨h _ _ t.1, fun s' e => throughout_mono h ops s' (t.2 s' e)⟩

/-- `a = create; a->next = std::move(a)`. -/
def cycle : List Op := [.create (.var 0) 1, .move (.member 0 0) (.var 0)]

/-- The state after it. -/
def cycled : State := (run start cycle).getD start

theorem cycled_eq : run start cycle = some cycled := rfl

theorem cycled_var (v : Nat) : cycled.slot (.var v) = none := by
  by_cases h : v = 0 <;>
    simp [cycled, run, step, cycle, create, new, assignRaw, moveAssign, release, State.read, State.write, State.valid, destroyPtr, start, h]

theorem cycle_proper : Throughout Proper start cycle := by
  refine ⟨⟨rfl, ?_⟩, ?_⟩
  · intro p e
    cases e
  · intro s h
    cases h
    refine ⟨⟨by decide, by decide, ?_, ?_⟩, fun _ _ => trivial⟩
    · intro p e
      cases e
    · intro p e
      cases e

end Verif.Own
