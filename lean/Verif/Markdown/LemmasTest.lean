import Verif.Markdown.ModelInline

/-!
# Testing inline elements for equality, for the concrete cases
-/

namespace Verif.Markdown

open Verif

mutual
/-- Are two elements the same? -/
def Inline.same : Inline → Inline → Bool
  | .text s, .text t => s == t
  | .link d cs, .link d' cs' => d == d' && Inline.sames cs cs'
  | .code s, .code t => s == t
  | .soft, .soft => true
  | .emph cs, .emph cs' => Inline.sames cs cs'
  | .strong cs, .strong cs' => Inline.sames cs cs'
  | _, _ => false
/-- The same for lists. -/
def Inline.sames : List Inline → List Inline → Bool
  | [], [] => true
  | e :: es, e' :: es' => e.same e' && Inline.sames es es'
  | _, _ => false
end

mutual
theorem Inline.eq_of_same : ∀ {a b : Inline}, a.same b = true → a = b
  | .text s, b, h => by cases b <;> simp_all [Inline.same]
  | .link d cs, b, h => by
    cases b <;> simp only [Inline.same, Bool.and_eq_true, beq_iff_eq, Bool.false_eq_true] at h
    rw [h.1, Inline.eq_of_sames h.2]
  | .code s, b, h => by cases b <;> simp_all [Inline.same]
  | .soft, b, h => by cases b <;> simp_all [Inline.same]
  | .emph cs, b, h => by
    cases b <;> simp only [Inline.same, Bool.false_eq_true] at h
    rw [Inline.eq_of_sames h]
  | .strong cs, b, h => by
    cases b <;> simp only [Inline.same, Bool.false_eq_true] at h
    rw [Inline.eq_of_sames h]
theorem Inline.eq_of_sames : ∀ {a b : List Inline}, Inline.sames a b = true → a = b
  | [], [], _ => rfl
  | [], _ :: _, h => by simp [Inline.sames] at h
  | _ :: _, [], h => by simp [Inline.sames] at h
  | e :: es, e' :: es', h => by
    simp only [Inline.sames, Bool.and_eq_true] at h
    rw [Inline.eq_of_same h.1, Inline.eq_of_sames h.2]
end

/-- Is the result of a parse this list? -/
def parsedAs (r : Option (List Inline)) (es : List Inline) : Bool :=
  match r with
  | none => false
  | some es' => Inline.sames es' es

theorem eq_of_parsedAs {r : Option (List Inline)} {es : List Inline} (h : parsedAs r es = true) :
    r = some es := by
  cases r with
  | none => cases h
  | some es' => rw [Inline.eq_of_sames h]

end Verif.Markdown
