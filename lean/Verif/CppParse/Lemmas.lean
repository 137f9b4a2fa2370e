import Verif.CppParse.ModelGo
/-! # The parser for C++ — more depth does not change a result -/
namespace Verif.CppParse
open Verif Verif.Cpp

variable {σ : Type}

theorem bind_ok {α β : Type} {m : M σ α} {f : α → M σ β} {p q : P σ} {a : α} (h : m p = .ok a q) :
    (m >>= f) p = f a q := by
  show M.bind m f p = _
  rw [M.bind, h]

theorem bind_stop {α β : Type} {m : M σ α} {f : α → M σ β} {p : P σ} {s : Stop} (h : m p = .stop s) :
    (m >>= f) p = .stop s := by
  show M.bind m f p = _
  rw [M.bind, h]

/-- `m'` gives the same as `m` wherever `m` does not run out of depth. -/
def Le {β : Type} (m m' : M σ β) : Prop := ∀ p, m p ≠ .stop .fuel → m' p = m p

theorem Le.refl {β : Type} (m : M σ β) : Le m m := fun _ _ => rfl

theorem Le.bind {α β : Type} {m m' : M σ α} {f f' : α → M σ β} (h : Le m m') (hf : ∀ a, Le (f a) (f' a)) :
    Le (m >>= f) (m' >>= f') := by
  intro p hp
  cases e : m p with
  | stop s =>
    rw [bind_stop e] at hp ⊢
    have := h p (by rw [e]; intro x; cases x; exact hp rfl)
    rw [e] at this
    exact bind_stop this
  | ok a q =>
    rw [bind_ok e] at hp ⊢
    have := h p (by rw [e]; intro x; cases x)
    rw [e] at this
    rw [bind_ok this]
    exact hf a q hp

theorem Le.inScope {β : Type} {t : TT} {m m' : M σ β} (h : Le m m') :
    Le (inScope t m) (inScope t m') := by
  intro p hp
  unfold CppParse.inScope at hp ⊢
  cases e : scopeFlags p.accept t with
  | none => rfl
  | some ab =>
    obtain ⟨a, b⟩ := ab
    rw [e] at hp
    dsimp only at hp ⊢
    rw [h]
    intro x
    rw [x] at hp
    exact hp rfl

theorem Le.withAngles {β : Type} {m m' : M σ β} (h : Le m m') :
    Le (withAngles m) (withAngles m') := by
  intro p hp
  unfold CppParse.withAngles at hp ⊢
  rw [h]
  intro x
  rw [x] at hp
  exact hp rfl

theorem Le.acceptingCurly {β : Type} {m m' : M σ β} (h : Le m m') :
    Le (acceptingCurly m) (acceptingCurly m') := by
  intro p hp
  unfold CppParse.acceptingCurly at hp ⊢
  rw [h]
  intro x
  rw [x] at hp
  exact hp rfl

/-- A relation between functions on the parser that is kept by all that the functions consist of. -/
structure Rel (σ : Type) where
  r : {β : Type} → M σ β → M σ β → Prop
  refl : ∀ {β : Type} (m : M σ β), r m m
  bind : ∀ {α β : Type} {m m' : M σ α} {f f' : α → M σ β}, r m m' → (∀ a, r (f a) (f' a)) →
    r (m >>= f) (m' >>= f')
  inScope : ∀ {β : Type} {t : TT} {m m' : M σ β}, r m m' → r (inScope t m) (inScope t m')
  withAngles : ∀ {β : Type} {m m' : M σ β}, r m m' → r (withAngles m) (withAngles m')
  acceptingCurly : ∀ {β : Type} {m m' : M σ β}, r m m' → r (acceptingCurly m) (acceptingCurly m')

theorem Rel.ite {L : Rel σ} {β : Type} {c : Prop} [Decidable c] {a a' b b' : M σ β} (ha : L.r a a')
    (hb : L.r b b') : L.r (if c then a else b) (if c then a' else b') := by
  by_cases h : c
  · rw [if_pos h, if_pos h]; exact ha
  · rw [if_neg h, if_neg h]; exact hb

/-- `Le` is such a relation. -/
def leRel (σ : Type) : Rel σ where
  r := Le
  refl := Le.refl
  bind := Le.bind
  inScope := Le.inScope
  withAngles := Le.withAngles
  acceptingCurly := Le.acceptingCurly

section
variable [Source σ] {rec rec' : (c : Call) → M σ c.Out} {L : Rel σ} (h : ∀ c, L.r (rec c) (rec' c))
include h


omit [Source σ] in
theorem skipAny_rel (o : Token) : L.r (skipAny rec o) (skipAny rec' o) := L.inScope (h _)

omit [Source σ] in
theorem skipIfOpen_rel (t : Token) : L.r (skipIfOpen rec t) (skipIfOpen rec' t) := by
  unfold skipIfOpen
  apply L.bind (L.refl _)
  intro p
  have := skipAny_rel h t
  split <;> first | exact this | exact L.refl _ | exact Rel.ite this (L.refl _)

omit [Source σ] in
theorem handleUnexpected_rel (t : Token) : L.r (handleUnexpected rec t) (handleUnexpected rec' t) := by
  have := skipIfOpen_rel h t
  unfold handleUnexpected
  repeat (first | with_reducible exact L.refl _ | exact this | apply L.bind | apply Rel.ite | intro _)

theorem skipLoopBody_rel (o : Token) : L.r (skipLoopBody rec o) (skipLoopBody rec' o) := by
  unfold skipLoopBody
  try dsimp only
  repeat (first | with_reducible exact L.refl _ | exact h _ | exact skipIfOpen_rel h _ | exact L.refl _ | apply L.inScope | apply L.withAngles | apply L.acceptingCurly | apply L.bind | apply Rel.ite | intro _ | split | (exfalso; simp_all; done))

theorem closeScope_rel (o : Token) : L.r (closeScope rec o) (closeScope rec' o) := by
  unfold closeScope
  try dsimp only
  repeat (first | with_reducible exact L.refl _ | exact h _ | exact skipAny_rel h _ | exact L.refl _ | apply L.inScope | apply L.withAngles | apply L.acceptingCurly | apply L.bind | apply Rel.ite | intro _ | split | (exfalso; simp_all; done))

theorem consumeSpecBody_rel : L.r (consumeSpecBody rec) (consumeSpecBody rec') := by
  unfold consumeSpecBody
  try dsimp only
  repeat (first | with_reducible exact L.refl _ | exact h _ | exact skipAny_rel h _ | exact L.refl _ | apply L.inScope | apply L.withAngles | apply L.acceptingCurly | apply L.bind | apply Rel.ite | intro _ | split | (exfalso; simp_all; done))

theorem argsBody_rel (c : TT) (e : Exp) : L.r (argsBody rec c e) (argsBody rec' c e) := by
  unfold argsBody
  try dsimp only
  repeat (first | with_reducible exact L.refl _ | exact h _ | exact handleUnexpected_rel h _ | exact L.refl _ | apply L.inScope | apply L.withAngles | apply L.acceptingCurly | apply L.bind | apply Rel.ite | intro _ | split | (exfalso; simp_all; done))

theorem stringsBody_rel (s : Token) : L.r (stringsBody rec s) (stringsBody rec' s) := by
  unfold stringsBody
  try dsimp only
  repeat (first | with_reducible exact L.refl _ | exact h _ | exact L.refl _ | apply L.inScope | apply L.withAngles | apply L.acceptingCurly | apply L.bind | apply Rel.ite | intro _ | split | (exfalso; simp_all; done))

theorem exprTail_rel (s t : Token) : L.r (exprTail rec s t) (exprTail rec' s t) := by
  unfold exprTail
  try dsimp only
  repeat (first | with_reducible exact L.refl _ | exact h _ | exact L.refl _ | apply L.inScope | apply L.withAngles | apply L.acceptingCurly | apply L.bind | apply Rel.ite | intro _ | split | (exfalso; simp_all; done))

theorem lambdaBody_rel : L.r (lambdaBody rec) (lambdaBody rec') := by
  unfold lambdaBody
  try dsimp only
  repeat (first | with_reducible exact L.refl _ | exact h _ | exact skipAny_rel h _ | exact L.refl _ | apply L.inScope | apply L.withAngles | apply L.acceptingCurly | apply L.bind | apply Rel.ite | intro _ | split | (exfalso; simp_all; done))

theorem exprBody_rel (o : Bool) : L.r (exprBody rec o) (exprBody rec' o) := by
  unfold exprBody
  try dsimp only
  repeat (first | with_reducible exact L.refl _ | exact h _ | exact exprTail_rel h _ _ | exact closeScope_rel h _ | exact lambdaBody_rel h | exact L.refl _ | apply L.inScope | apply L.withAngles | apply L.acceptingCurly | apply L.bind | apply Rel.ite | intro _ | split | (exfalso; simp_all; done))

theorem sepStep_rel (acc : List NComp) (comp : Token → NComp) : L.r (sepStep rec acc comp) (sepStep rec' acc comp) := by
  unfold sepStep
  try dsimp only
  repeat (first | with_reducible exact L.refl _ | exact h _ | exact L.refl _ | apply L.inScope | apply L.withAngles | apply L.acceptingCurly | apply L.bind | apply Rel.ite | intro _ | split | (exfalso; simp_all; done))

theorem nestedBody_rel (acc : List NComp) : L.r (nestedBody rec acc) (nestedBody rec' acc) := by
  unfold nestedBody
  try dsimp only
  repeat (first | with_reducible exact L.refl _ | exact h _ | exact skipAny_rel h _ | exact sepStep_rel h _ _ | exact L.refl _ | apply L.inScope | apply L.withAngles | apply L.acceptingCurly | apply L.bind | apply Rel.ite | intro _ | split | (exfalso; simp_all; done))

theorem targSepBody_rel (s : Option Token) : L.r (targSepBody rec s) (targSepBody rec' s) := by
  unfold targSepBody
  try dsimp only
  repeat (first | with_reducible exact L.refl _ | exact h _ | exact handleUnexpected_rel h _ | exact L.refl _ | apply L.inScope | apply L.withAngles | apply L.acceptingCurly | apply L.bind | apply Rel.ite | intro _ | split | (exfalso; simp_all; done))

theorem targsBody_rel (acc : List TArg) : L.r (targsBody rec acc) (targsBody rec' acc) := by
  unfold targsBody
  try dsimp only
  repeat (first | with_reducible exact L.refl _ | exact h _ | exact L.refl _ | apply L.inScope | apply L.withAngles | apply L.acceptingCurly | apply L.bind | apply Rel.ite | intro _ | split | (exfalso; simp_all; done))

theorem qidBody_rel (m : QMode) : L.r (qidBody rec m) (qidBody rec' m) := by
  unfold qidBody
  try dsimp only
  repeat (first | with_reducible exact L.refl _ | exact h _ | exact L.refl _ | apply L.inScope | apply L.withAngles | apply L.acceptingCurly | apply L.bind | apply Rel.ite | intro _ | split | (exfalso; simp_all; done))

theorem paramsBody_rel (t : Bool) : L.r (paramsBody rec t) (paramsBody rec' t) := by
  unfold paramsBody
  try dsimp only
  repeat (first | with_reducible exact L.refl _ | exact h _ | exact L.refl _ | apply L.inScope | apply L.withAngles | apply L.acceptingCurly | apply L.bind | apply Rel.ite | intro _ | split | (exfalso; simp_all; done))

theorem tmplParam_rel : L.r (tmplParam rec) (tmplParam rec') := by
  unfold tmplParam
  try dsimp only
  repeat (first | with_reducible exact L.refl _ | exact h _ | exact L.refl _ | apply L.inScope | apply L.withAngles | apply L.acceptingCurly | apply L.bind | apply Rel.ite | intro _ | split | (exfalso; simp_all; done))

theorem oneParam_rel (t : Bool) : L.r (oneParam rec t) (oneParam rec' t) := by
  unfold oneParam
  try dsimp only
  repeat (first | with_reducible exact L.refl _ | exact h _ | exact tmplParam_rel h | exact L.refl _ | apply L.inScope | apply L.withAngles | apply L.acceptingCurly | apply L.bind | apply Rel.ite | intro _ | split | (exfalso; simp_all; done))

theorem paramLoopBody_rel (t : Bool) (acc : List Param) : L.r (paramLoopBody rec t acc) (paramLoopBody rec' t acc) := by
  unfold paramLoopBody
  try dsimp only
  repeat (first | with_reducible exact L.refl _ | exact h _ | exact oneParam_rel h _ | exact handleUnexpected_rel h _ | exact L.refl _ | apply L.inScope | apply L.withAngles | apply L.acceptingCurly | apply L.bind | apply Rel.ite | intro _ | split | (exfalso; simp_all; done))

theorem qualsBody_rel (acc : List Token) : L.r (qualsBody rec acc) (qualsBody rec' acc) := by
  unfold qualsBody
  try dsimp only
  repeat (first | with_reducible exact L.refl _ | exact h _ | exact L.refl _ | apply L.inScope | apply L.withAngles | apply L.acceptingCurly | apply L.bind | apply Rel.ite | intro _ | split | (exfalso; simp_all; done))

theorem parameterList_rel : L.r (parameterList rec) (parameterList rec') := by
  unfold parameterList
  try dsimp only
  repeat (first | with_reducible exact L.refl _ | exact h _ | exact L.refl _ | apply L.inScope | apply L.withAngles | apply L.acceptingCurly | apply L.bind | apply Rel.ite | intro _ | split | (exfalso; simp_all; done))

theorem convType2Body_rel (a : Bool) (c : List Prod) : L.r (convType2Body rec a c) (convType2Body rec' a c) := by
  unfold convType2Body
  try dsimp only
  repeat (first | with_reducible exact L.refl _ | exact h _ | exact L.refl _ | apply L.inScope | apply L.withAngles | apply L.acceptingCurly | apply L.bind | apply Rel.ite | intro _ | split | (exfalso; simp_all; done))

theorem convTypeBody_rel (a : Bool) (c : List Spec) : L.r (convTypeBody rec a c) (convTypeBody rec' a c) := by
  unfold convTypeBody
  try dsimp only
  repeat (first | with_reducible exact L.refl _ | exact h _ | exact L.refl _ | apply L.inScope | apply L.withAngles | apply L.acceptingCurly | apply L.bind | apply Rel.ite | intro _ | split | (exfalso; simp_all; done))

theorem trailingReturn_rel : L.r (trailingReturn rec) (trailingReturn rec') := by
  unfold trailingReturn
  try dsimp only
  repeat (first | with_reducible exact L.refl _ | exact h _ | exact L.refl _ | apply L.inScope | apply L.withAngles | apply L.acceptingCurly | apply L.bind | apply Rel.ite | intro _ | split | (exfalso; simp_all; done))

theorem nestedDcor_rel (n a : Bool) (c : List Prod) (o : Token) : L.r (nestedDcor rec n a c o) (nestedDcor rec' n a c o) := by
  unfold nestedDcor
  try dsimp only
  repeat (first | with_reducible exact L.refl _ | exact h _ | exact closeScope_rel h _ | exact L.refl _ | apply L.inScope | apply L.withAngles | apply L.acceptingCurly | apply L.bind | apply Rel.ite | intro _ | split | (exfalso; simp_all; done))

theorem phase1Body_rel (n a : Bool) (c : List Prod) (q : Bool) : L.r (phase1Body rec n a c q) (phase1Body rec' n a c q) := by
  unfold phase1Body
  try dsimp only
  repeat (first | with_reducible exact L.refl _ | exact h _ | exact parameterList_rel h | exact trailingReturn_rel h | exact nestedDcor_rel h _ _ _ _ | exact L.refl _ | apply L.inScope | apply L.withAngles | apply L.acceptingCurly | apply L.bind | apply Rel.ite | intro _ | split | (exfalso; simp_all; done))

theorem phase2Body_rel (c : List Prod) (k : Nat) (e : Bool) : L.r (phase2Body rec c k e) (phase2Body rec' c k e) := by
  unfold phase2Body
  try dsimp only
  repeat (first | with_reducible exact L.refl _ | exact h _ | exact parameterList_rel h | exact trailingReturn_rel h | exact closeScope_rel h _ | exact L.refl _ | apply L.inScope | apply L.withAngles | apply L.acceptingCurly | apply L.bind | apply Rel.ite | intro _ | split | (exfalso; simp_all; done))

omit [Source σ] in
theorem dcorBody_rel (c : List Prod) (n a : Bool) : L.r (dcorBody rec c n a) (dcorBody rec' c n a) := by
  unfold dcorBody
  try dsimp only
  repeat (first | with_reducible exact L.refl _ | exact h _ | exact L.refl _ | apply L.inScope | apply L.withAngles | apply L.acceptingCurly | apply L.bind | apply Rel.ite | intro _ | split | (exfalso; simp_all; done))

theorem memberInitsBody_rel : L.r (memberInitsBody rec) (memberInitsBody rec') := by
  unfold memberInitsBody
  try dsimp only
  repeat (first | with_reducible exact L.refl _ | exact h _ | exact skipAny_rel h _ | exact handleUnexpected_rel h _ | exact L.refl _ | apply L.inScope | apply L.withAngles | apply L.acceptingCurly | apply L.bind | apply Rel.ite | intro _ | split | (exfalso; simp_all; done))

theorem functionBody_rel : L.r (functionBody rec) (functionBody rec') := by
  unfold functionBody
  try dsimp only
  repeat (first | with_reducible exact L.refl _ | exact h _ | exact skipAny_rel h _ | exact L.refl _ | apply L.inScope | apply L.withAngles | apply L.acceptingCurly | apply L.bind | apply Rel.ite | intro _ | split | (exfalso; simp_all; done))

theorem typeIdInit_rel : L.r (typeIdInit rec) (typeIdInit rec') := by
  unfold typeIdInit
  try dsimp only
  repeat (first | with_reducible exact L.refl _ | exact h _ | exact L.refl _ | apply L.inScope | apply L.withAngles | apply L.acceptingCurly | apply L.bind | apply Rel.ite | intro _ | split | (exfalso; simp_all; done))

theorem variableInit_rel : L.r (variableInit rec) (variableInit rec') := by
  unfold variableInit
  try dsimp only
  repeat (first | with_reducible exact L.refl _ | exact h _ | exact L.refl _ | apply L.inScope | apply L.withAngles | apply L.acceptingCurly | apply L.bind | apply Rel.ite | intro _ | split | (exfalso; simp_all; done))

theorem initDcorsBody_rel (acc : List InitDcor) : L.r (initDcorsBody rec acc) (initDcorsBody rec' acc) := by
  unfold initDcorsBody
  try dsimp only
  repeat (first | with_reducible exact L.refl _ | exact h _ | exact functionBody_rel h | exact variableInit_rel h | exact L.refl _ | apply L.inScope | apply L.withAngles | apply L.acceptingCurly | apply L.bind | apply Rel.ite | intro _ | split | (exfalso; simp_all; done))

theorem parseInitDcors_rel (m : Mode) : L.r (parseInitDcors rec m) (parseInitDcors rec' m) := by
  unfold parseInitDcors
  cases m <;> dsimp only
  all_goals repeat (first | with_reducible exact L.refl _ | exact h _ | exact variableInit_rel h | exact L.refl _ | apply L.inScope | apply L.withAngles | apply L.acceptingCurly | apply L.bind | apply Rel.ite | intro _ | split | (exfalso; simp_all; done))

theorem basesBody_rel (acc : List Base) : L.r (basesBody rec acc) (basesBody rec' acc) := by
  unfold basesBody
  try dsimp only
  repeat (first | with_reducible exact L.refl _ | exact h _ | exact L.refl _ | apply L.inScope | apply L.withAngles | apply L.acceptingCurly | apply L.bind | apply Rel.ite | intro _ | split | (exfalso; simp_all; done))

theorem virtsBody_rel (acc : List Token) : L.r (virtsBody rec acc) (virtsBody rec' acc) := by
  unfold virtsBody
  try dsimp only
  repeat (first | with_reducible exact L.refl _ | exact h _ | exact L.refl _ | apply L.inScope | apply L.withAngles | apply L.acceptingCurly | apply L.bind | apply Rel.ite | intro _ | split | (exfalso; simp_all; done))

theorem enumBodyBody_rel (acc : List Enor) : L.r (enumBodyBody rec acc) (enumBodyBody rec' acc) := by
  unfold enumBodyBody
  try dsimp only
  repeat (first | with_reducible exact L.refl _ | exact h _ | exact variableInit_rel h | exact handleUnexpected_rel h _ | exact L.refl _ | apply L.inScope | apply L.withAngles | apply L.acceptingCurly | apply L.bind | apply Rel.ite | intro _ | split | (exfalso; simp_all; done))

omit [Source σ] in
theorem declarationList_rel (i : Bool) (c : List Byte) : L.r (declarationList rec i c) (declarationList rec' i c) := by
  unfold declarationList
  try dsimp only
  repeat (first | with_reducible exact L.refl _ | exact h _ | exact L.refl _ | apply L.inScope | apply L.withAngles | apply L.acceptingCurly | apply L.bind | apply Rel.ite | intro _ | split | (exfalso; simp_all; done))

theorem recordSpec_rel (t : Token) : L.r (recordSpec rec t) (recordSpec rec' t) := by
  unfold recordSpec
  try dsimp only
  repeat (first | with_reducible exact L.refl _ | exact h _ | exact declarationList_rel h _ _ | exact L.refl _ | apply L.inScope | apply L.withAngles | apply L.acceptingCurly | apply L.bind | apply Rel.ite | intro _ | split | (exfalso; simp_all; done))

theorem enumSpec_rel (t : Token) : L.r (enumSpec rec t) (enumSpec rec' t) := by
  unfold enumSpec
  try dsimp only
  repeat (first | with_reducible exact L.refl _ | exact h _ | exact L.refl _ | apply L.inScope | apply L.withAngles | apply L.acceptingCurly | apply L.bind | apply Rel.ite | intro _ | split | (exfalso; simp_all; done))

theorem conversionFunc_rel (t : Token) : L.r (conversionFunc rec t) (conversionFunc rec' t) := by
  unfold conversionFunc
  try dsimp only
  repeat (first | with_reducible exact L.refl _ | exact h _ | exact functionBody_rel h | exact L.refl _ | apply L.inScope | apply L.withAngles | apply L.acceptingCurly | apply L.bind | apply Rel.ite | intro _ | split | (exfalso; simp_all; done))

theorem typeSpec_rel (m : Mode) (c : List Byte) (acc : List Spec) (t : Token) (q : QId) : L.r (typeSpec rec m c acc t q) (typeSpec rec' m c acc t q) := by
  unfold typeSpec
  try dsimp only
  repeat (first | with_reducible exact L.refl _ | exact h _ | exact parameterList_rel h | exact functionBody_rel h | exact L.refl _ | apply L.inScope | apply L.withAngles | apply L.acceptingCurly | apply L.bind | apply Rel.ite | intro _ | split | (exfalso; simp_all; done))

theorem typenameSpec_rel (m : Mode) (c : List Byte) (acc : List Spec) (t : Token) : L.r (typenameSpec rec m c acc t) (typenameSpec rec' m c acc t) := by
  unfold typenameSpec
  try dsimp only
  repeat (first | with_reducible exact L.refl _ | exact h _ | exact typeIdInit_rel h | exact typeSpec_rel h _ _ _ _ _ | exact L.refl _ | apply L.inScope | apply L.withAngles | apply L.acceptingCurly | apply L.bind | apply Rel.ite | intro _ | split | (exfalso; simp_all; done))

theorem specsBody_rel (m : Mode) (c : List Byte) (acc : List Spec) (b : Bool) : L.r (specsBody rec m c acc b) (specsBody rec' m c acc b) := by
  unfold specsBody
  try dsimp only
  repeat (first | with_reducible exact L.refl _ | exact h _ | exact closeScope_rel h _ | exact recordSpec_rel h _ | exact enumSpec_rel h _ | exact conversionFunc_rel h _ | exact parseInitDcors_rel h _ | exact typenameSpec_rel h _ _ _ _ | exact typeSpec_rel h _ _ _ _ _ | exact L.refl _ | apply L.inScope | apply L.withAngles | apply L.acceptingCurly | apply L.bind | apply Rel.ite | intro _ | split | (exfalso; simp_all; done))

theorem simpleDeclaration_rel (c : List Byte) : L.r (simpleDeclaration rec c) (simpleDeclaration rec' c) := by
  unfold simpleDeclaration
  try dsimp only
  repeat (first | with_reducible exact L.refl _ | exact h _ | exact L.refl _ | apply L.inScope | apply L.withAngles | apply L.acceptingCurly | apply L.bind | apply Rel.ite | intro _ | split | (exfalso; simp_all; done))

theorem externDecl_rel (c : List Byte) (t : Token) : L.r (externDecl rec c t) (externDecl rec' c t) := by
  unfold externDecl
  try dsimp only
  repeat (first | with_reducible exact L.refl _ | exact h _ | exact simpleDeclaration_rel h _ | exact declarationList_rel h _ _ | exact L.refl _ | apply L.inScope | apply L.withAngles | apply L.acceptingCurly | apply L.bind | apply Rel.ite | intro _ | split | (exfalso; simp_all; done))

theorem usingDecl_rel (t : Token) : L.r (usingDecl rec t) (usingDecl rec' t) := by
  unfold usingDecl
  try dsimp only
  repeat (first | with_reducible exact L.refl _ | exact h _ | exact L.refl _ | apply L.inScope | apply L.withAngles | apply L.acceptingCurly | apply L.bind | apply Rel.ite | intro _ | split | (exfalso; simp_all; done))

theorem namespaceDecl_rel (t : Token) : L.r (namespaceDecl rec t) (namespaceDecl rec' t) := by
  unfold namespaceDecl
  try dsimp only
  repeat (first | with_reducible exact L.refl _ | exact h _ | exact declarationList_rel h _ _ | exact L.refl _ | apply L.inScope | apply L.withAngles | apply L.acceptingCurly | apply L.bind | apply Rel.ite | intro _ | split | (exfalso; simp_all; done))

theorem templateDecl_rel (c : List Byte) (t : Token) : L.r (templateDecl rec c t) (templateDecl rec' c t) := by
  unfold templateDecl
  try dsimp only
  repeat (first | with_reducible exact L.refl _ | exact h _ | exact L.refl _ | apply L.inScope | apply L.withAngles | apply L.acceptingCurly | apply L.bind | apply Rel.ite | intro _ | split | (exfalso; simp_all; done))

theorem staticAssertDecl_rel (t : Token) : L.r (staticAssertDecl rec t) (staticAssertDecl rec' t) := by
  unfold staticAssertDecl
  try dsimp only
  repeat (first | with_reducible exact L.refl _ | exact h _ | exact skipAny_rel h _ | exact L.refl _ | apply L.inScope | apply L.withAngles | apply L.acceptingCurly | apply L.bind | apply Rel.ite | intro _ | split | (exfalso; simp_all; done))

theorem declBody_rel (c : List Byte) : L.r (declBody rec c) (declBody rec' c) := by
  unfold declBody
  try dsimp only
  refine L.bind (L.refl _) fun t => ?_
  refine Rel.ite ?_ ?_
  · refine Rel.ite (L.bind (externDecl_rel h _ _) fun _ => L.refl _) ?_
    refine Rel.ite (L.refl _) ?_
    refine Rel.ite (L.bind (staticAssertDecl_rel h _) fun _ => L.refl _) ?_
    refine Rel.ite (L.bind (namespaceDecl_rel h _) fun _ => L.refl _) ?_
    refine Rel.ite (L.bind (templateDecl_rel h _ _) fun _ => L.refl _) ?_
    refine Rel.ite (L.bind (usingDecl_rel h _) fun _ => L.refl _) ?_
    exact L.bind (L.refl _) fun _ => L.bind (simpleDeclaration_rel h _) fun _ => L.refl _
  · refine Rel.ite (L.refl _) ?_
    refine Rel.ite ?_ (L.refl _)
    exact L.bind (L.refl _) fun _ => L.bind (simpleDeclaration_rel h _) fun _ => L.refl _

theorem declLoopBody_rel (i : Bool) (c : List Byte) (acc : List Decl) : L.r (declLoopBody rec i c acc) (declLoopBody rec' i c acc) := by
  unfold declLoopBody
  try dsimp only
  repeat (first | with_reducible exact L.refl _ | exact h _ | exact handleUnexpected_rel h _ | exact L.refl _ | apply L.inScope | apply L.withAngles | apply L.acceptingCurly | apply L.bind | apply Rel.ite | intro _ | split | (exfalso; simp_all; done))

theorem translationUnit_rel : L.r (translationUnit rec) (translationUnit rec') := by
  unfold translationUnit
  try dsimp only
  repeat (first | with_reducible exact L.refl _ | exact h _ | exact declarationList_rel h _ _ | exact L.refl _ | apply L.inScope | apply L.withAngles | apply L.acceptingCurly | apply L.bind | apply Rel.ite | intro _ | split | (exfalso; simp_all; done))

theorem body_rel (c : Call) : L.r (body rec c) (body rec' c) := by
  cases c
  · exact skipLoopBody_rel h _
  · exact consumeSpecBody_rel h
  · exact exprBody_rel h _
  · exact argsBody_rel h _ _
  · exact stringsBody_rel h _
  · exact nestedBody_rel h _
  · exact targsBody_rel h _
  · exact targSepBody_rel h _
  · exact qidBody_rel h _
  · exact paramsBody_rel h _
  · exact paramLoopBody_rel h _ _
  · exact qualsBody_rel h _
  · exact convTypeBody_rel h _ _
  · exact convType2Body_rel h _ _
  · exact dcorBody_rel h _ _ _
  · exact phase1Body_rel h _ _ _ _
  · exact phase2Body_rel h _ _ _
  · exact memberInitsBody_rel h
  · exact initDcorsBody_rel h _
  · exact basesBody_rel h _
  · exact virtsBody_rel h _
  · exact enumBodyBody_rel h _
  · exact specsBody_rel h _ _ _ _
  · exact declBody_rel h _
  · exact declLoopBody_rel h _ _ _

end

variable [Source σ]



theorem go_le (n : Nat) (c : Call) : Le (go n c : M σ c.Out) (go (n + 1) c) := by
  induction n generalizing c with
  | zero => intro p hp; exact absurd rfl hp
  | succ n ih => exact body_rel (L := leRel σ) (fun c => ih c) c

theorem go_mono {n m : Nat} (hnm : n ≤ m) (c : Call) : Le (go n c : M σ c.Out) (go m c) := by
  induction m with
  | zero => have : n = 0 := by omega
            subst this; exact Le.refl _
  | succ m ih =>
    by_cases h : n = m + 1
    · subst h; exact Le.refl _
    · intro p hp
      have h1 := ih (by omega) p hp
      rw [← h1]
      apply go_le
      rw [h1]
      exact hp

theorem translationUnit_mono {n m : Nat} (hnm : n ≤ m) :
    Le (translationUnit (go n) : M σ (List Decl)) (translationUnit (go m)) :=
  translationUnit_rel (L := leRel σ) fun c => go_mono hnm c

end Verif.CppParse
