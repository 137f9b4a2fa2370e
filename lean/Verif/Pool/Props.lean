import Verif.Pool.Lemmas
/-!
# C19: pools
-/
namespace Verif.Pool
open Verif Spec

variable {α : Type _}

/-- A request against the model. -/
def implStep (isz : Nat) (p : Pool α) : Op α → Option (Out α × Pool α)
  | .new x => (newItem isz x p).map fun r => (.id r.1, r.2)
  | .del i => (delItem isz i p).map fun p => (.done, p)
  | .get i => (get i p).map fun x => (.item x, p)
  | .iterate => (iterate isz p).map fun r => (.visited r.1, r.2)
  | .clear => (clear isz p).map fun r => (.destructed r.1, r.2)

/-- Requests against the model, one after another. -/
def implRun (isz : Nat) (p : Pool α) : List (Op α) → Option (List (Out α) × Pool α)
  | [] => some ([], p)
  | op :: ops =>
    match implStep isz p op with
    | none => none
    | some (out, p) => (implRun isz p ops).map fun r => (out :: r.1, r.2)

/-- The map a pool stands for. -/
def abs (p : Pool α) : Nat → Option α := fun i => get i p

/-- **C19**, one request.  A consistent pool answers every legal request as the finite map would,
without a fault, and stays consistent. -/
theorem C19_step (isz k : Nat) (hk : 3 ≤ k) (hz : 4 ≤ isz) (hb : isz * 2 ^ k < 2 ^ 32) (p : Pool α)
    (chain : List Nat) (h : Inv p chain) (hs : p.cells.length + 1 ≤ 2 ^ k) (op : Op α)
    (hl : Legal (abs p) op) :
    ∃ out p' chain', implStep isz p op = some (out, p') ∧ Inv p' chain' ∧
      Step (abs p) op (abs p') out ∧ p'.cells.length ≤ p.cells.length + 1 := by
  have hbl : isz * p.cells.length < 2 ^ 32 :=
    Nat.lt_of_le_of_lt (Nat.mul_le_mul_left _ (by omega)) hb
  have hlen : p.cells.length < noFree := by
    have : 4 * p.cells.length ≤ isz * p.cells.length := Nat.mul_le_mul_right _ hz
    unfold noFree; omega
  cases op with
  | new x =>
    obtain ⟨i, p', c', e1, e2, e3, e4, e5⟩ := newItem_ok isz k x p chain h hk hb hz hs
    refine ⟨.id i, p', c', by simp only [implStep, e1]; rfl, e2, ⟨e3, funext e4⟩, e5⟩
  | del i =>
    obtain ⟨p', c', e1, e2, e3, e4⟩ := delItem_ok isz i p chain h hz hbl hl
    exact ⟨.done, p', c', by simp only [implStep, e1]; rfl, e2, funext e3, by omega⟩
  | get i =>
    cases hg : get i p with
    | none => exact absurd hg hl
    | some x => exact ⟨.item x, p, chain, by simp only [implStep, hg]; rfl, h, ⟨rfl, hg⟩, by omega⟩
  | iterate =>
    obtain ⟨p', c', l, e1, e2, e3, e4, e5⟩ := iterate_ok isz p chain h hbl hlen
    exact ⟨.visited l, p', c', by simp only [implStep, e1]; rfl, e2, ⟨funext e3, e5⟩, by omega⟩
  | clear =>
    obtain ⟨l, e1, e2⟩ := clear_ok isz p chain h hbl hlen
    refine ⟨.destructed (l.map (·.2)), Pool.empty, [], by simp only [implStep, e1]; rfl, Inv.empty,
      ⟨?_, l, e2, rfl⟩, by simp [Pool.empty]⟩
    funext i
    simp [abs, get, Pool.empty]

/-- **C19.** Run any requests on an empty pool: as long as the client only names ids in use, there is
no fault and every answer is one the finite map allows; the first request that can fail is one that
names an id not in use.  The number of requests is limited only by the 32-bit offsets. -/
theorem C19_history (isz k : Nat) (hk : 3 ≤ k) (hz : 4 ≤ isz) (hb : isz * 2 ^ k < 2 ^ 32)
    (ops : List (Op α)) (hn : ops.length ≤ 2 ^ k) :
    (∃ outs p m, implRun isz Pool.empty ops = some (outs, p) ∧
      History (fun _ => none) ops outs m ∧ ∀ i, get i p = m i) ∨
    ∃ ops1 op ops2 outs p m, ops = ops1 ++ op :: ops2 ∧
      implRun isz Pool.empty ops1 = some (outs, p) ∧ History (fun _ => none) ops1 outs m ∧
      ¬ Legal m op := by
  have key : ∀ (ops : List (Op α)) (p : Pool α) (chain : List Nat), Inv p chain →
      p.cells.length + ops.length ≤ 2 ^ k →
      (∃ outs p' m, implRun isz p ops = some (outs, p') ∧ History (abs p) ops outs m ∧
        ∀ i, get i p' = m i) ∨
      ∃ ops1 op ops2 outs p' m, ops = ops1 ++ op :: ops2 ∧ implRun isz p ops1 = some (outs, p') ∧
        History (abs p) ops1 outs m ∧ ¬ Legal m op := by
    intro ops
    induction ops with
    | nil => intro p chain h _; exact Or.inl ⟨[], p, abs p, rfl, History.nil _, fun _ => rfl⟩
    | cons op ops ih =>
      intro p chain h hlen
      rw [List.length_cons] at hlen
      by_cases hl : Legal (abs p) op
      · obtain ⟨out, p', c', e1, e2, e3, e4⟩ := C19_step isz k hk hz hb p chain h (by omega) op hl
        rcases ih p' c' e2 (by omega) with ⟨outs, p2, m, f1, f2, f3⟩ |
          ⟨ops1, op2, ops2, outs, p2, m, f0, f1, f2, f3⟩
        · exact Or.inl ⟨out :: outs, p2, m, by simp only [implRun, e1, f1]; rfl,
            History.cons e3 f2, f3⟩
        · refine Or.inr ⟨op :: ops1, op2, ops2, out :: outs, p2, m, by rw [f0]; rfl,
            by simp only [implRun, e1, f1]; rfl, History.cons e3 f2, f3⟩
      · exact Or.inr ⟨[], op, ops, [], p, abs p, rfl, rfl, History.nil _, hl⟩
  have he : (abs (Pool.empty : Pool α)) = fun _ => none := by
    funext i; simp [abs, get, Pool.empty]
  have := key ops Pool.empty [] Inv.empty (by simpa [Pool.empty] using hn)
  rw [he] at this
  exact this

example : (implRun 8 Pool.empty [.new 'a', .new 'b', .new 'c', .del 0, .del 2, .iterate, .new 'd']).map
    (fun r => (r.2.cells, r.2.firstFree)) =
    some ([.live 'd', .live 'b', .free noFree], 2) := by decide +kernel

example : (implRun 8 Pool.empty [.new 'a', .new 'b', .new 'c', .del 1, .iterate]).map (·.1) =
    some [.id 0, .id 1, .id 2, .done, .visited [(0, 'a'), (2, 'c')]] := by decide +kernel

/-- **C19**: ids are reused before the pool grows, so that a pool never has more slots than the
greatest number of items it held at a time. -/
theorem C19_reuse (isz k : Nat) (hk : 3 ≤ k) (hz : 4 ≤ isz) (hb : isz * 2 ^ k < 2 ^ 32) (x : α)
    (p : Pool α) (chain : List Nat) (h : Inv p chain) (hs : p.cells.length + 1 ≤ 2 ^ k)
    (j : Nat) (hj : j < p.cells.length) (hf : get j p = none) :
    ∃ i p', newItem isz x p = some (i, p') ∧ i < p.cells.length ∧
      p'.cells.length = p.cells.length := by
  have hbl : isz * p.cells.length < 2 ^ 32 :=
    Nat.lt_of_le_of_lt (Nat.mul_le_mul_left _ (by omega)) hb
  have hlen : p.cells.length < noFree := by
    have : 4 * p.cells.length ≤ isz * p.cells.length := Nat.mul_le_mul_right _ hz
    unfold noFree; omega
  have hm : j ∈ chain := by
    rcases (get_eq_none h j).mp hf with e | e
    · omega
    · exact e
  obtain ⟨i, p', c', e1, e2, e3, e4, e5⟩ := newItem_ok isz k x p chain h hk hb hz hs
  refine ⟨i, p', e1, ?_⟩
  cases chain with
  | nil => cases hm
  | cons c r =>
    obtain ⟨f1, f2, f3⟩ := h.firstFree_ne hlen
    obtain ⟨_, n, h4, _⟩ := h.links
    unfold newItem baseAlloc at e1
    rw [if_pos f1, f2, readLink_eq h4 hbl] at e1
    dsimp only at e1
    split at e1
    · cases e1
    · next hsome =>
      split at hsome
      · simp only [Option.some.injEq, Prod.mk.injEq] at hsome
        obtain ⟨g1, g2⟩ := hsome
        subst g1 g2
        dsimp only at e1
        rw [h4] at e1
        simp only [Option.some.injEq, Prod.mk.injEq] at e1
        obtain ⟨g3, g4⟩ := e1
        subst g3 g4
        exact ⟨f3, by dsimp only; rw [List.length_set]⟩
      · cases hsome

example : (newItem 8 'z' (⟨[.live 'a', .free noFree], 8, 1, true, 1⟩ : Pool Char)).map (·.1) =
    some 1 := by decide +kernel

/-- **C19**, limit: growing a pool whose block would need 2^32 bytes or more is not possible. -/
theorem C19_growth_limit (isz : Nat) (x : α) (p : Pool α) (h1 : p.firstFree = noFree)
    (h2 : p.allocated ≤ p.cells.length) (h3 : 1 ≤ p.cells.length) (h4 : p.cells.length < 2 ^ 31)
    (h5 : 2 ^ 32 ≤ isz * (p.cells.length + 1)) : newItem isz x p = none := by
  have hr : baseReserve isz (p.cells.length + 1) p = none := by
    obtain ⟨_, r2, _⟩ := Bits.C29_roundUp32_least (max (p.cells.length + 1) 8) (by omega) (by omega)
    unfold baseReserve
    rw [u32_of_lt (n := p.cells.length + 1) (by omega)]
    generalize Bits.roundUpPowerOf2_32 (max (p.cells.length + 1) 8) = a at r2 ⊢
    have : isz * (p.cells.length + 1) ≤ isz * a := Nat.mul_le_mul_left _ (by omega)
    exact if_neg (by omega)
  have ha : baseAlloc isz p = none := by
    unfold baseAlloc
    rw [if_neg (by simp [h1]), if_pos h2, hr]
  unfold newItem
  rw [ha]

example : newItem (2 ^ 31) 'b' ⟨[.live 'a'], 1, noFree, true, 0⟩ = none := by decide +kernel

end Verif.Pool
