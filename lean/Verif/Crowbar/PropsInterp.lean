import Verif.Crowbar.LemmasInterpSim
import Verif.Crowbar.LemmasInterpFuel
import Verif.Crowbar.LemmasInterpCare
import Verif.Crowbar.PropsFile

/-! # Running Crowbar programs (C67) -/

namespace Verif.Crowbar
open Verif

theorem callScript_sim (strict : Bool) (n : Nat) (file : List Stmt) (name : List Byte) :
    functionsOf file name = none ∧ callScript n file name = .done [] ∧ vscript strict n file name = .done [] ∨
    ∃ f, functionsOf file name = some f ∧
      Sim strict (fun p s' g => CPost strict (fun _ => False) ⟨[], 0, []⟩ 0 s' p g)
        (callFunc (outerOf file) n [] f [] ⟨[], 0, []⟩) (vcall strict (outerOf file) n [] f [] []) := by
  unfold callScript vscript
  cases functionsOf file name with
  | none => exact .inl ⟨rfl, rfl, rfl⟩
  | some f =>
    exact .inr ⟨f, rfl, (interp_sim strict (outerOf file) n).2.2.2.1 [] f (fun _ => False) 0 [] [] ⟨[], 0, []⟩ []
      ⟨List.nodup_nil, fun o h => by cases h⟩ .nil (Nat.le_refl _) rfl⟩

/-- How a run of the interpreter may relate to the meaning of the program. -/
inductive Agree (strict : Bool) : Outcome → VOutcome → Prop
  | same (out : List Event) : Agree strict (.done out) (.done out)
  | wrong : Agree strict (.stop .ub) (.stop .wrong)
  | fuel : Agree strict (.stop .fuel) (.stop .fuel)
  | outside (v : VOutcome) : Agree strict (.stop .outside) v
  | unspec (o : Outcome) : Agree strict o (.stop .unspec)
  | ub (v : VOutcome) : strict = false → Agree strict (.stop .ub) v

theorem script_agree (strict : Bool) (n : Nat) (file : List Stmt) (name : List Byte) :
    Agree strict (callScript n file name) (vscript strict n file name) := by
  rcases callScript_sim strict n file name with ⟨_, h1, h2⟩ | ⟨f, hf, h⟩
  · rw [h1, h2]; exact .same []
  · unfold callScript vscript
    rw [hf]
    dsimp only
    generalize callFunc (outerOf file) n [] f [] ⟨[], 0, []⟩ = r at h ⊢
    generalize vcall strict (outerOf file) n [] f [] [] = w at h ⊢
    cases h with
    | unspec => exact .unspec _
    | outside => exact .outside _
    | ub h => exact .ub _ h
    | wrong => exact .wrong
    | fuel => exact .fuel
    | ok e h => rw [← e]; exact .same _
    | err e => rw [← e]; exact .same _

/-- **C67**: whatever a run writes — text, and an error with the functions it happened in — is what the program means,
if the program has a meaning; for every program, whether or not it hands on borrowed values. -/
theorem C67_output_is_meaning (n : Nat) (file : List Stmt) (name : List Byte) (out : List Event)
    (h : callScript n file name = .done out) :
    vscript false n file name = .done out ∨ vscript false n file name = .stop .unspec := by
  have k := script_agree false n file name
  rw [h] at k
  generalize vscript false n file name = v at k
  cases k with
  | same => exact .inl rfl
  | unspec => exact .inr rfl

/-- **C67**: a program with a strict meaning is run to the end without undefined behaviour, unless it needs more room
than one block of the stack of objects, and writes what it means. -/
theorem C67_safe (n : Nat) (file : List Stmt) (name : List Byte) (out : List Event)
    (h : vscript true n file name = .done out) :
    callScript n file name = .done out ∨ callScript n file name = .stop .outside := by
  have k := script_agree true n file name
  rw [h] at k
  generalize callScript n file name = v at k
  cases k with
  | same => exact .inl rfl
  | outside => exact .inr rfl
  | ub _ h => cases h

/-- **C67**: careful programs are run without undefined behaviour unless they are wrong by themselves — dividing by
zero, operands of different types, a wrong number of arguments. -/
theorem C67_careful (n : Nat) (file : List Stmt) (name : List Byte) (hc : carefulFile file = true) :
    callScript n file name = .stop .outside ∨
    (∃ out, callScript n file name = .done out ∧ vscript true n file name = .done out) ∨
    (callScript n file name = .stop .ub ∧ vscript true n file name = .stop .wrong) ∨
    (callScript n file name = .stop .fuel ∧ vscript true n file name = .stop .fuel) := by
  have hu : vscript true n file name ≠ .stop .unspec := by
    unfold vscript
    cases hf : functionsOf file name with
    | none => exact fun h => by cases h
    | some f =>
      have hm := functionsOf_mem hf
      have := List.all_eq_true.1 hc _ hm.2
      have : (!isTruth f.name && f.params.all (fun x => !isTruth x) && optCareful (functionNames file) f.body) = true :=
        this
      rw [Bool.and_eq_true, Bool.and_eq_true] at this
      have h := (care (outer_care hc) n).2.2.2.1 [] f [] [] this.1.2 this.2 (fun p hp => by cases hp)
      dsimp only
      cases hr : vcall true (outerOf file) n [] f [] [] with
      | ok g out => exact fun h => by cases h
      | err out => exact fun h => by cases h
      | stop w =>
        rw [hr] at h
        intro e
        cases e
        exact h rfl
  have k := script_agree true n file name
  generalize callScript n file name = o at k
  generalize vscript true n file name = v at k hu
  cases k with
  | same out => exact .inr (.inl ⟨out, rfl, rfl⟩)
  | wrong => exact .inr (.inr (.inl ⟨rfl, rfl⟩))
  | fuel => exact .inr (.inr (.inr ⟨rfl, rfl⟩))
  | outside => exact .inl rfl
  | unspec => exact absurd rfl hu
  | ub _ h => cases h

/-- **C67**: a strict meaning is a meaning. -/
theorem C67_strict_meaning (n : Nat) (file : List Stmt) (name : List Byte) (out : List Event)
    (h : vscript true n file name = .done out) : vscript false n file name = .done out := by
  unfold vscript at h ⊢
  cases hf : functionsOf file name with
  | none => rw [hf] at h; exact (VOutcome.done.injEq _ _ ▸ h) ▸ rfl
  | some f =>
    rw [hf] at h
    dsimp only at h ⊢
    rcases (spec_mono (.inr rfl) (outerOf file) n n (Nat.le_refl _)).2.2.2.1 [] f [] [] with e | ⟨_, e⟩ | e
    · rw [e] at h; cases h
    · rw [e] at h; cases h
    · rw [e]; exact h

/-- **C67**: the meaning does not depend on the bound on nesting. -/
theorem C67_meaning_unique (n m : Nat) (file : List Stmt) (name : List Byte) (out : List Event)
    (h : vscript false n file name = .done out) (hm : n ≤ m) : vscript false m file name = .done out := by
  unfold vscript at h ⊢
  cases hf : functionsOf file name with
  | none => rw [hf] at h; exact (VOutcome.done.injEq _ _ ▸ h) ▸ rfl
  | some f =>
    rw [hf] at h
    dsimp only at h ⊢
    rcases (spec_mono (strict := false) (.inl rfl) (outerOf file) n m hm).2.2.2.1 [] f [] [] with e | ⟨e, _⟩ | e
    · rw [e] at h; cases h
    · cases e
    · rw [e]; exact h

/-- **C67**: neither does the run, so a program either stops with one output or never. -/
theorem C67_run_unique (n m : Nat) (file : List Stmt) (name : List Byte) (h : callScript n file name ≠ .stop .fuel)
    (hm : n ≤ m) : callScript m file name = callScript n file name := by
  unfold callScript at h ⊢
  cases hf : functionsOf file name with
  | none => rfl
  | some f =>
    rw [hf] at h
    dsimp only at h ⊢
    rcases callFunc_mono (outer := outerOf file) hm [] f [] ⟨[], 0, []⟩ with e | e
    · rw [e] at h; exact absurd rfl h
    · rw [e]

/-- **C67**, of every program: when a function returns, everything it put on the stack of objects is gone but its
result; when it fails, everything is gone.  The objects that were there before stay in their places. -/
theorem C67_stack (outer : List Byte → Option Val) (n : Nat) (trace : List (List Byte)) (f : Func) (ids : List Nat)
    (s s' : St) :
    (∀ p, callFunc outer n trace f ids s = .ok p s' →
      s'.objs.map Prod.fst = s.objs.map Prod.fst ∨ ∃ id, s'.objs.map Prod.fst = s.objs.map Prod.fst ++ [id]) ∧
    (callFunc outer n trace f ids s = .err s' → s'.objs.map Prod.fst = s.objs.map Prod.fst) := by
  have h := (stack_stays outer n).2.2.2.1 trace f ids s
  constructor
  · intro p e
    rw [e] at h
    exact h
  · intro e
    rw [e] at h
    exact h

/-- **C67** from the text of a program on: a careful program is read and run as meant. -/
theorem C67_from_text (prog : List Stmt) (h : ∀ f ∈ prog, FuncOk f) (n : Nat) (name : List Byte) (out : List Event)
    (hm : vscript true n prog name = .done out) :
    ∃ k, ∀ m, k ≤ m → ∃ file, parseFile m (textStmts levelBelow prog) = .ok (file, []) ∧
      (callScript n file name = .done out ∨ callScript n file name = .stop .outside) := by
  obtain ⟨k, hk⟩ := C65_roundtrip prog h
  exact ⟨k, fun m hm' => ⟨prog, hk m hm', C67_safe n prog name out hm⟩⟩

/-! ### Programs -/

private def nm (s : String) : List Byte := s.toUTF8.toList
private def v (s : String) : Expr := .name (nm s)
private def lit (s : String) : Expr := .str [.mk (nm s) .null]
private def callOf (f : String) (args : List Expr) : Expr := .call (v f) args
private def fn (name : String) (params : List String) (body : List Stmt) : Stmt :=
  .func (nm name) (params.map nm) (some body)
private def pr (e : Expr) : Stmt := .eval (callOf "print" [e])
private def txt (s : String) : Event := .text (nm s)

/-- `fn gcd(a, b) { if a % b == 0 return b + 0 else return gcd(b + 0, a % b) }`,
`fn test() { print(gcd(36, 96)) }`, and a loop that builds a string. -/
def sampleCareful : List Stmt :=
  [fn "gcd" ["a", "b"]
     [.if_ (.bin .doubleEqual (.bin .modulo (v "a") (v "b")) (.int 0)) (some [.ret (.bin .add (v "b") (.int 0))])
       (some [.ret (callOf "gcd" [.bin .add (v "b") (.int 0), .bin .modulo (v "a") (v "b")])])],
   fn "test" []
     [pr (callOf "gcd" [.int 36, .int 96]),
      .assign (v "i") (.int 0), .assign (v "s") (lit "<"),
      .while_ (.bin .lessThan (v "i") (.int 3))
        (some [.assign (v "s") (.str [.mk [] (v "s"), .mk [] (v "i")]), .assign (v "i") (.bin .add (v "i") (.int 1))]),
      pr (.bin .add (v "s") (lit ">")),
      pr (v "true"), .eval (callOf "nowhere" [])]]

example : carefulFile sampleCareful = true := by decide +kernel

example : callScript 40 sampleCareful (nm "test") =
    .done [txt "12\n", txt "<012>\n", txt "true\n", .error (.unresolved (nm "nowhere")) [nm "test"]] := by
  decide +kernel

example : vscript true 40 sampleCareful (nm "test") =
    .done [txt "12\n", txt "<012>\n", txt "true\n", .error (.unresolved (nm "nowhere")) [nm "test"]] := by
  decide +kernel

/-- The Fibonacci numbers of tests/crowbar: `t = a` hands on a borrowed number, so there is no strict meaning. -/
def sampleBorrow : List Stmt :=
  [fn "test" []
    [.assign (v "a") (.int 1), .assign (v "b") (.int 1),
     .while_ (.bin .lessThan (v "a") (.int 9))
       (some [pr (v "a"), .assign (v "t") (v "a"), .assign (v "a") (v "b"),
              .assign (v "b") (.bin .add (v "b") (v "t"))])]]

example : callScript 60 sampleBorrow (nm "test") =
    .done [txt "1\n", txt "1\n", txt "2\n", txt "3\n", txt "5\n", txt "8\n"] := by decide +kernel
example : vscript false 60 sampleBorrow (nm "test") =
    .done [txt "1\n", txt "1\n", txt "2\n", txt "3\n", txt "5\n", txt "8\n"] := by decide +kernel
example : vscript true 60 sampleBorrow (nm "test") = .stop .unspec := by decide +kernel

/-- An error inside of a nested call, with the functions it happened in: tests/crowbar. -/
def sampleTrace : List Stmt :=
  [fn "foo" ["x"]
     [.if_ (.bin .greaterThan (v "x") (.int 0)) (some [.eval (callOf "foo" [.bin .subtract (v "x") (.int 1)])])
       (some [.eval (callOf "bar" [])])],
   fn "test" [] [.eval (callOf "foo" [.int 2])]]

example : callScript 40 sampleTrace (nm "test") =
    .done [.error (.unresolved (nm "bar")) [nm "foo", nm "foo", nm "foo", nm "test"]] := by decide +kernel

example : (match callFunc (fun _ => none) 9 [] ⟨nm "f", [], some [.assign (v "a") (.int 1), .assign (v "b") (.int 2),
    .ret (.bin .add (v "a") (v "b"))]⟩ [] ⟨[(4, .bool true)], 5, []⟩ with
  | .ok (some (.obj id)) s => s.objs.length == 2 && s.objs.map Prod.fst == [4, id]
  | _ => false) = true := by decide +kernel

/-! ### Where the code departs from the meaning -/

/-- **C67**, where the code departs from it: giving a new variable the value of the variable made last is undefined
behaviour, for any names, any number and whatever follows.  The stack is cut back to where that variable is and its
object is then looked for above. -/
theorem C67_copy_of_newest_undefined (x y name : List Byte) (k n : Nat) (rest : List Stmt) (h : x ≠ y) :
    callScript (n + 5) [.func name [] (some (.assign (.name x) (.int k) :: .assign (.name y) (.name x) :: rest))] name
      = .stop .ub := by
  have hf : functionsOf [Stmt.func name [] (some (.assign (.name x) (.int k) :: .assign (.name y) (.name x) :: rest))] name
      = some ⟨name, [], some (.assign (.name x) (.int k) :: .assign (.name y) (.name x) :: rest)⟩ := by
    simp [functionsOf]
  unfold callScript
  rw [hf]
  simp [callFunc, execBlock, eval, Expr.asName, Run.bind, assignVar, bindParams, St.onTop, St.cut, St.read, push,
    Val.ty, Ty.size, St.bytes, lookupName, cutBelowTop, leaveErr, Ne.symm h]

example : callScript 20 [fn "test" [] [.assign (v "a") (.int 1), .assign (v "b") (v "a"), pr (v "b")]] (nm "test")
    = .stop .ub := by decide +kernel
example : vscript false 20 [fn "test" [] [.assign (v "a") (.int 1), .assign (v "b") (v "a"), pr (v "b")]] (nm "test")
    = .done [txt "1\n"] := by decide +kernel

/-- **C67**, where the code departs from it: assigning a string variable to another one empties it. -/
theorem C67_string_assignment_empties_source :
    callScript 20 [fn "test" [] [.assign (v "s") (lit "x"), .assign (v "t") (lit "y"), .assign (v "t") (v "s"),
      pr (v "s"), pr (v "t")]] (nm "test") = .done [txt "\n", txt "x\n"] := by decide +kernel

/-- **C67**, where the code departs from it: a function that assigns to its parameter changes the variable of its
caller if that is the newest one, and not if it is not. -/
theorem C67_parameter_aliases_newest :
    let f := fn "f" ["n"] [.assign (v "n") (.bin .add (v "n") (.int 1)), .ret (.bin .multiply (v "n") (.int 2))]
    callScript 30 [f, fn "test" [] [.assign (v "x") (.int 3), pr (callOf "f" [v "x"]), pr (v "x")]] (nm "test")
      = .done [txt "8\n", txt "4\n"] ∧
    callScript 30 [f, fn "test" [] [.assign (v "x") (.int 3), .assign (v "y") (.int 0), pr (callOf "f" [v "x"]),
      pr (v "x")]] (nm "test") = .done [txt "8\n", txt "3\n"] := by decide +kernel

/-- **C67**, where the code departs from it: returning the first of two parameters is undefined behaviour once the
result is used, and so is returning a local variable that is not the newest. -/
theorem C67_returned_variable_undefined :
    callScript 30 [fn "first" ["a", "b"] [.ret (v "a")],
      fn "test" [] [.assign (v "a") (callOf "first" [.int 1, .int 2]), pr (v "a")]] (nm "test") = .stop .ub ∧
    callScript 30 [fn "f" [] [.assign (v "a") (.int 1), .assign (v "b") (.int 2), .ret (v "a")],
      fn "test" [] [pr (callOf "f" [])]] (nm "test") = .stop .ub ∧
    vscript false 30 [fn "f" [] [.assign (v "a") (.int 1), .assign (v "b") (.int 2), .ret (v "a")],
      fn "test" [] [pr (callOf "f" [])]] (nm "test") = .done [txt "1\n"] := by decide +kernel

/-- **C67**, where the code departs from it: passing a string variable empties it unless it is the newest. -/
theorem C67_string_argument_empties_source :
    callScript 30 [fn "f" ["n"] [], fn "test" [] [.assign (v "x") (lit "a"), .assign (v "y") (.int 0),
      .eval (callOf "f" [v "x"]), pr (v "x")]] (nm "test") = .done [txt "\n"] := by decide +kernel

end Verif.Crowbar
