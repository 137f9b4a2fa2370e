import Verif.Markdown.LemmasTest
import Verif.Markdown.ModelBlock

/-!
# Testing blocks for equality, for the concrete cases
-/

namespace Verif.Markdown

open Verif

mutual
/-- Are two blocks the same? -/
def Block.same : Block → Block → Bool
  | .list s l cs, .list s' l' cs' => s == s' && l == l' && Block.sames cs cs'
  | .item cs, .item cs' => Block.sames cs cs'
  | .quote cs, .quote cs' => Block.sames cs cs'
  | .heading k i es, .heading k' i' es' => k == k' && i == i' && Inline.sames es es'
  | .para es, .para es' => Inline.sames es es'
  | .code ls, .code ls' => ls == ls'
  | _, _ => false
/-- The same for lists. -/
def Block.sames : List Block → List Block → Bool
  | [], [] => true
  | e :: es, e' :: es' => e.same e' && Block.sames es es'
  | _, _ => false
end

mutual
theorem Block.eq_of_same : ∀ {a b : Block}, a.same b = true → a = b
  | .list s l cs, b, h => by
    cases b <;> simp only [Block.same, Bool.and_eq_true, beq_iff_eq, Bool.false_eq_true] at h
    rw [h.1.1, h.1.2, Block.eq_of_sames h.2]
  | .item cs, b, h => by
    cases b <;> simp only [Block.same, Bool.false_eq_true] at h
    rw [Block.eq_of_sames h]
  | .quote cs, b, h => by
    cases b <;> simp only [Block.same, Bool.false_eq_true] at h
    rw [Block.eq_of_sames h]
  | .heading k i es, b, h => by
    cases b <;> simp only [Block.same, Bool.and_eq_true, beq_iff_eq, Bool.false_eq_true] at h
    rw [h.1.1, h.1.2, Inline.eq_of_sames h.2]
  | .para es, b, h => by
    cases b <;> simp only [Block.same, Bool.false_eq_true] at h
    rw [Inline.eq_of_sames h]
  | .code ls, b, h => by
    cases b <;> simp only [Block.same, beq_iff_eq, Bool.false_eq_true] at h
    rw [h]
theorem Block.eq_of_sames : ∀ {a b : List Block}, Block.sames a b = true → a = b
  | [], [], _ => rfl
  | [], _ :: _, h => by simp [Block.sames] at h
  | _ :: _, [], h => by simp [Block.sames] at h
  | e :: es, e' :: es', h => by
    simp only [Block.sames, Bool.and_eq_true] at h
    rw [Block.eq_of_same h.1, Block.eq_of_sames h.2]
end

/-- Is the result of a parse this document? -/
def parsedAsBlocks (r : Option (List Block)) (bs : List Block) : Bool :=
  match r with
  | none => false
  | some bs' => Block.sames bs' bs

theorem eq_of_parsedAsBlocks {r : Option (List Block)} {bs : List Block}
    (h : parsedAsBlocks r bs = true) : r = some bs := by
  cases r with
  | none => cases h
  | some bs' => rw [Block.eq_of_sames h]

end Verif.Markdown
