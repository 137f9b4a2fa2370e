import Verif.Crowbar.LemmasTri
import Verif.Crowbar.PropsFile

/-!
# No error reported, nothing missing — properties
-/

namespace Verif.Crowbar
open Verif

/-- **C65**: whatever the source, when parsing it reports no error then nothing is missing in the tree: every
statement has its expressions and blocks, every operator its operands, every name is a word, every number has 32
bits and every piece of a string has an expression or some text. -/
theorem C65_no_error_complete (n : Nat) (src : List Byte) (prog : List Stmt) (h : parseFile n src = .ok (prog, [])) :
    ∀ f ∈ prog, FuncWhole f := by
  unfold parseFile at h
  split at h
  · rename_i b s e
    injection h with h
    injection h with h1 h2
    subst h1
    rcases (tri_file n [] (by simp)).at' _ _ _ e ⟨rfl, rfl, fun t ht => by cases ht⟩ with h | ⟨-, h⟩
    · exact absurd h2 h
    · exact h
  · cases h
  · cases h

/-- **C65**: conversely, the error that is reported when something is missing is not taken back by what follows:
a hole in the tree always comes with an error. -/
theorem C65_hole_reported (n : Nat) (src : List Byte) (prog : List Stmt) (errs : List (Nat × ErrKind))
    (h : parseFile n src = .ok (prog, errs)) (f : Stmt) (hf : f ∈ prog) (hw : ¬ FuncWhole f) : errs ≠ [] := by
  intro he
  subst he
  exact hw (C65_no_error_complete n src prog h f hf)

/-- `fn f(a) { return a }` is parsed without errors. -/
example : (match parseFile 12 [102, 110, 32, 102, 40, 97, 41, 32, 123, 32, 114, 101, 116, 117, 114, 110, 32, 97, 32, 125] with
    | .ok ([.func [102] [[97]] (some [.ret (.name [97])])], []) => true
    | _ => false) = true := by decide +kernel

/-- `fn f() { a = }` gives an assignment without right side, and an error at the brace. -/
example : (match parseFile 12 [102, 110, 32, 102, 40, 41, 32, 123, 32, 97, 32, 61, 32, 125] with
    | .ok ([.func [102] [] (some [.assign (.name [97]) .null])], [(13, .expression)]) => true
    | _ => false) = true := by decide +kernel

end Verif.Crowbar
