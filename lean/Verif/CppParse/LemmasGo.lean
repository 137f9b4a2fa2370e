import Verif.CppParse.LemmasFwd
/-! # The parser for C++ — lemmas: every call goes forward -/
namespace Verif.CppParse
open Verif Verif.Cpp

variable {σ : Type} [Source σ] {ρ : Prop}

theorem Fwd.read [Lawful σ] {β : Type} {f : Token → M σ β} (h : ∀ t, FwdT ρ t (f t)) :
    Fwd ρ (readToken >>= f) := Fwd.gets gets_readToken h

theorem FwdT.bind {α β : Type} {t : Token} {m : M σ α} {f : α → M σ β} (h : FwdT ρ t m)
    (hf : ∀ a, Fwd ρ (f a)) : FwdT ρ t (m >>= f) := by
  intro p0 p b q w g x
  obtain ⟨a, p', x1, x2⟩ := bind_inv x
  have a1 := h p0 p a p' w g x1
  exact a1.trans (hf a p' b q a1.between x2)

theorem Fwd.readSeq [Lawful σ] {α β : Type} {m : M σ α} {f : Token → M σ β} (hm : Fwd ρ m)
    (h : ∀ t, FwdT ρ t (f t)) : Fwd ρ ((m >>= fun _ => readToken) >>= f) :=
  Fwd.gets (Gets.bind hm fun _ => gets_readToken) h

theorem Fwd.readAngles [Lawful σ] {α β : Type} {m : M σ α} {f : Token → M σ β} (hm : Fwd ρ m)
    (h : ∀ t, FwdT ρ t (f t)) : Fwd ρ (CppParse.withAngles (m >>= fun _ => readToken) >>= f) :=
  Fwd.gets (Gets.withAngles (Gets.bind hm fun _ => gets_readToken)) h

theorem Fwd.pureBind {α β : Type} {a : α} {f : α → M σ β} (h : Fwd ρ (f a)) : Fwd ρ (Pure.pure a >>= f) := h

theorem FwdT.pureBind {α β : Type} {t : Token} {a : α} {f : α → M σ β} (h : FwdT ρ t (f a)) :
    FwdT ρ t (Pure.pure a >>= f) := h

theorem Fwd.checkFalse {β : Type} {f : Unit → M σ β} : Fwd ρ (check false >>= f) := by
  intro p b q w x
  obtain ⟨a, p', x1, x2⟩ := bind_inv x
  unfold check at x1
  simp at x1

/-- What is assumed of the calls. -/
structure Hyp (ρ : Prop) (rec : (c : Call) → M σ c.Out) : Prop where
  fwd : ∀ c, Fwd ρ (rec c)
  virts : ∀ acc, Gets ρ (rec (.virts acc)) (fun b : List Token × Token => b.2)

section
variable [Lawful σ] {rec : (c : Call) → M σ c.Out} (h : Hyp ρ rec)
include h

attribute [local irreducible] Fwd FwdT FwdR Still Gets GetsT

omit [Lawful σ] in
theorem skipAny_fwd (o : Token) : Fwd ρ (skipAny rec o) := Fwd.inScope (h.fwd _)

omit [Lawful σ] in
theorem skipIfOpen_fwd (t : Token) : Fwd ρ (skipIfOpen rec t) := by
  unfold skipIfOpen
  refine Fwd.bind still_getP.fwd fun p => ?_
  have := skipAny_fwd h t
  split <;> first | exact this | exact Fwd.pure _ | exact Fwd.ite this (Fwd.pure _)

omit [Lawful σ] in
theorem handleUnexpected_fwd (t : Token) : FwdT ρ t (handleUnexpected rec t) := by
  unfold handleUnexpected
  refine FwdT.okToStay ?_ ?_
  · rw [if_pos rfl]; exact Fwd.pure _
  · rw [if_neg (by simp)]
    exact FwdT.weak (Fwd.bind (skipIfOpen_fwd h t) fun _ => Fwd.pure _)



/-- A step of a proof that something changes at most errors. -/
macro "still_step" : tactic => `(tactic| first | exact still_pure _ | exact still_unmute | exact still_expected _ _ _ | exact still_error _ _ | exact still_check _ | exact still_getP | exact still_failedSince _ | exact still_anyTokensConsumed _)

/-- Something that changes at most errors. -/
macro "stills" : tactic => `(tactic| first | still_step | (refine Still.ite ?_ ?_ <;> still_step))

/-- Lemmas about the functions. -/
syntax "fwd_fn " ident : tactic
macro_rules | `(tactic| fwd_fn $h:ident) => `(tactic| first | exact Hyp.fwd $h _ | with_reducible exact skipAny_fwd $h _ | with_reducible exact skipIfOpen_fwd $h _ | with_reducible exact handleUnexpected_fwd $h _ | refine FwdT.bind (handleUnexpected_fwd $h _) ?_)

/-- Steps of a proof that something goes forward. -/
syntax "fwd " ident : tactic
macro_rules
  | `(tactic| fwd $h:ident) => `(tactic| repeat (first | with_reducible exact Fwd.pure _ | with_reducible exact FwdT.pure _ | exact FwdT.pushBack' | exact Fwd.checkFalse | exact FwdR.checkFalse | exact fwd_readToken | exact fwd_peek | exact fwd_activity | (refine Still.fwd ?_; stills) | fwd_fn $h | apply FwdT.pushBack | (refine FwdT.okToStay ?_ ?_ <;> (try simp only [Bool.false_eq_true, Bool.true_eq_false, if_false, if_true])) | with_reducible apply Fwd.pureBind | with_reducible apply FwdT.pureBind | (refine FwdT.still ?_ ?_; stills) | apply Fwd.read | apply Fwd.readSeq | apply Fwd.readAngles | apply Fwd.ite | apply FwdT.ite | apply FwdR.ite | apply Fwd.inScope | apply Fwd.withAngles | apply Fwd.acceptingCurly | apply Fwd.mark | apply FwdR.cancel | exact FwdR.cancel' | apply FwdR.backtrack | apply FwdR.bind | apply Fwd.bind | intro _ | split | apply FwdT.weak))

theorem skipLoopBody_fwd (o : Token) : Fwd ρ (skipLoopBody rec o) := by
  unfold skipLoopBody
  try dsimp only
  fwd h

macro_rules | `(tactic| fwd_fn $h:ident) => `(tactic| with_reducible exact skipLoopBody_fwd $h _)

theorem closeScope_fwd (o : Token) : Fwd ρ (closeScope rec o) := by
  unfold closeScope
  try dsimp only
  fwd h

macro_rules | `(tactic| fwd_fn $h:ident) => `(tactic| with_reducible exact closeScope_fwd $h _)

theorem consumeSpecBody_fwd  : Fwd ρ (consumeSpecBody rec) := by
  unfold consumeSpecBody
  try dsimp only
  fwd h

macro_rules | `(tactic| fwd_fn $h:ident) => `(tactic| with_reducible exact consumeSpecBody_fwd $h)

theorem argsBody_fwd (c : TT) (e : Exp) : Fwd ρ (argsBody rec c e) := by
  unfold argsBody
  try dsimp only
  fwd h

macro_rules | `(tactic| fwd_fn $h:ident) => `(tactic| with_reducible exact argsBody_fwd $h _ _)

theorem stringsBody_fwd (s : Token) : Fwd ρ (stringsBody rec s) := by
  unfold stringsBody
  try dsimp only
  fwd h

macro_rules | `(tactic| fwd_fn $h:ident) => `(tactic| with_reducible exact stringsBody_fwd $h _)

theorem exprTail_fwd (s t : Token) : Fwd ρ (exprTail rec s t) := by
  unfold exprTail
  try dsimp only
  fwd h

macro_rules | `(tactic| fwd_fn $h:ident) => `(tactic| with_reducible exact exprTail_fwd $h _ _)

theorem lambdaBody_fwd  : Fwd ρ (lambdaBody rec) := by
  unfold lambdaBody
  try dsimp only
  fwd h

macro_rules | `(tactic| fwd_fn $h:ident) => `(tactic| with_reducible exact lambdaBody_fwd $h)

theorem exprBody_fwd (o : Bool) : Fwd ρ (exprBody rec o) := by
  unfold exprBody
  try dsimp only
  fwd h

macro_rules | `(tactic| fwd_fn $h:ident) => `(tactic| with_reducible exact exprBody_fwd $h _)

theorem sepStep_fwd (acc : List NComp) (comp : Token → NComp) : Fwd ρ (sepStep rec acc comp) := by
  unfold sepStep
  try dsimp only
  fwd h

macro_rules | `(tactic| fwd_fn $h:ident) => `(tactic| with_reducible exact sepStep_fwd $h _ _)

theorem nestedBody_fwd (acc : List NComp) : Fwd ρ (nestedBody rec acc) := by
  unfold nestedBody
  try dsimp only
  fwd h

macro_rules | `(tactic| fwd_fn $h:ident) => `(tactic| with_reducible exact nestedBody_fwd $h _)

theorem targSepBody_fwd (s : Option Token) : Fwd ρ (targSepBody rec s) := by
  unfold targSepBody
  try dsimp only
  fwd h

macro_rules | `(tactic| fwd_fn $h:ident) => `(tactic| with_reducible exact targSepBody_fwd $h _)

theorem targsBody_fwd (acc : List TArg) : Fwd ρ (targsBody rec acc) := by
  unfold targsBody
  try dsimp only
  refine Fwd.bind fwd_peek fun start => Fwd.mark fun r => FwdR.bind (h.fwd _) fun x =>
    FwdR.bind (still_failedSince _).fwd fun failed => ?_
  cases failed
  · simp only [if_true]
    fwd h
  · simp only [Bool.true_eq_false, if_false]
    fwd h

macro_rules | `(tactic| fwd_fn $h:ident) => `(tactic| with_reducible exact targsBody_fwd $h _)

theorem operatorName_fwd' (t : Token) : Fwd False (operatorName t : M σ Unqual) := by
  have h := h
  unfold operatorName
  refine Fwd.read fun o => ?_
  refine FwdT.ite ?_ ?_
  · fwd h
  · exact FwdT.still (still_expected _ _ _) fun _ => FwdT.still still_mute fun _ => FwdT.pushBack (Fwd.pure _)

theorem unqualName_fwd : Fwd ρ (unqualName : M σ Unqual) := by
  have h := h
  unfold unqualName
  refine Fwd.read fun t => ?_
  refine FwdT.ite ?_ ?_
  · fwd h
  · by_cases hc : t.type = .identifier ∧ t.text = bs ['o', 'p', 'e', 'r', 'a', 't', 'o', 'r']
    · rw [if_pos hc]
      exact FwdT.op hc.2 (operatorName_fwd' h t)
    · rw [if_neg hc]
      exact FwdT.pushBack (Fwd.pure _)

macro_rules | `(tactic| fwd_fn $h:ident) => `(tactic| exact unqualName_fwd $h)

theorem qidBody_fwd (m : QMode) : Fwd ρ (qidBody rec m) := by
  unfold qidBody
  try dsimp only
  fwd h

macro_rules | `(tactic| fwd_fn $h:ident) => `(tactic| with_reducible exact qidBody_fwd $h _)

theorem paramsBody_fwd (t : Bool) : Fwd ρ (paramsBody rec t) := by
  unfold paramsBody
  try dsimp only
  fwd h

macro_rules | `(tactic| fwd_fn $h:ident) => `(tactic| with_reducible exact paramsBody_fwd $h _)

theorem tmplParam_fwd  : Fwd ρ (tmplParam rec) := by
  unfold tmplParam
  try dsimp only
  fwd h

macro_rules | `(tactic| fwd_fn $h:ident) => `(tactic| with_reducible exact tmplParam_fwd $h)

theorem oneParam_fwd (t : Bool) : Fwd ρ (oneParam rec t) := by
  unfold oneParam
  try dsimp only
  fwd h

macro_rules | `(tactic| fwd_fn $h:ident) => `(tactic| with_reducible exact oneParam_fwd $h _)

theorem paramLoopBody_fwd (t : Bool) (acc : List Param) : Fwd ρ (paramLoopBody rec t acc) := by
  unfold paramLoopBody
  try dsimp only
  fwd h

macro_rules | `(tactic| fwd_fn $h:ident) => `(tactic| with_reducible exact paramLoopBody_fwd $h _ _)

theorem qualsBody_fwd (acc : List Token) : Fwd ρ (qualsBody rec acc) := by
  unfold qualsBody
  try dsimp only
  fwd h

macro_rules | `(tactic| fwd_fn $h:ident) => `(tactic| with_reducible exact qualsBody_fwd $h _)

theorem parameterList_fwd  : Fwd ρ (parameterList rec) := by
  unfold parameterList
  try dsimp only
  fwd h

macro_rules | `(tactic| fwd_fn $h:ident) => `(tactic| with_reducible exact parameterList_fwd $h)

theorem convType2Body_fwd (a : Bool) (c : List Prod) : Fwd ρ (convType2Body rec a c) := by
  unfold convType2Body
  try dsimp only
  fwd h

macro_rules | `(tactic| fwd_fn $h:ident) => `(tactic| with_reducible exact convType2Body_fwd $h _ _)

theorem convTypeBody_fwd (a : Bool) (c : List Spec) : Fwd ρ (convTypeBody rec a c) := by
  unfold convTypeBody
  try dsimp only
  fwd h

macro_rules | `(tactic| fwd_fn $h:ident) => `(tactic| with_reducible exact convTypeBody_fwd $h _ _)

theorem trailingReturn_fwd  : Fwd ρ (trailingReturn rec) := by
  unfold trailingReturn
  try dsimp only
  fwd h

macro_rules | `(tactic| fwd_fn $h:ident) => `(tactic| with_reducible exact trailingReturn_fwd $h)

theorem nestedDcor_fwd (n a : Bool) (c : List Prod) (o : Token) : Fwd ρ (nestedDcor rec n a c o) := by
  unfold nestedDcor
  try dsimp only
  fwd h

macro_rules | `(tactic| fwd_fn $h:ident) => `(tactic| with_reducible exact nestedDcor_fwd $h _ _ _ _)

theorem phase1Body_fwd (n a : Bool) (c : List Prod) (q : Bool) : Fwd ρ (phase1Body rec n a c q) := by
  unfold phase1Body
  try dsimp only
  fwd h

macro_rules | `(tactic| fwd_fn $h:ident) => `(tactic| with_reducible exact phase1Body_fwd $h _ _ _ _)

omit h [Lawful σ] in
theorem still_checkExpecting (t : Token) (b : Bool) : Still ρ (checkExpecting t b : M σ Unit) := by
  unfold checkExpecting
  exact Still.bind still_unmute fun _ => Still.ite (still_expected _ _ _) (still_pure _)

theorem phase2Body_fwd (c : List Prod) (k : Nat) (e : Bool) : Fwd ρ (phase2Body rec c k e) := by
  unfold phase2Body
  try dsimp only
  refine Fwd.read fun t => ?_
  refine FwdT.ite ?_ (FwdT.ite ?_ ?_)
  · refine FwdT.still (still_checkExpecting _ _) fun _ => ?_
    fwd h
  · refine FwdT.still (still_checkExpecting _ _) fun _ => ?_
    fwd h
  · fwd h

macro_rules | `(tactic| fwd_fn $h:ident) => `(tactic| with_reducible exact phase2Body_fwd $h _ _ _)

theorem dcorBody_fwd (c : List Prod) (n a : Bool) : Fwd ρ (dcorBody rec c n a) := by
  unfold dcorBody
  try dsimp only
  fwd h

macro_rules | `(tactic| fwd_fn $h:ident) => `(tactic| with_reducible exact dcorBody_fwd $h _ _ _)

theorem memberInitsBody_fwd  : Fwd ρ (memberInitsBody rec) := by
  unfold memberInitsBody
  try dsimp only
  fwd h

macro_rules | `(tactic| fwd_fn $h:ident) => `(tactic| with_reducible exact memberInitsBody_fwd $h)

theorem functionBody_fwd  : Fwd ρ (functionBody rec) := by
  unfold functionBody
  try dsimp only
  fwd h

macro_rules | `(tactic| fwd_fn $h:ident) => `(tactic| with_reducible exact functionBody_fwd $h)

theorem typeIdInit_fwd  : Fwd ρ (typeIdInit rec) := by
  unfold typeIdInit
  try dsimp only
  fwd h

macro_rules | `(tactic| fwd_fn $h:ident) => `(tactic| with_reducible exact typeIdInit_fwd $h)

theorem variableInit_fwd  : Fwd ρ (variableInit rec) := by
  unfold variableInit
  try dsimp only
  fwd h

macro_rules | `(tactic| fwd_fn $h:ident) => `(tactic| with_reducible exact variableInit_fwd $h)

theorem initDcorsBody_fwd (acc : List InitDcor) : Fwd ρ (initDcorsBody rec acc) := by
  unfold initDcorsBody
  try dsimp only
  fwd h

macro_rules | `(tactic| fwd_fn $h:ident) => `(tactic| with_reducible exact initDcorsBody_fwd $h _)

theorem parseInitDcors_fwd (m : Mode) : Fwd ρ (parseInitDcors rec m) := by
  unfold parseInitDcors
  cases m <;> dsimp only
  · exact h.fwd _
  all_goals fwd h

macro_rules | `(tactic| fwd_fn $h:ident) => `(tactic| with_reducible exact parseInitDcors_fwd $h _)

theorem basesBody_fwd (acc : List Base) : Fwd ρ (basesBody rec acc) := by
  unfold basesBody
  try dsimp only
  have key : ∀ a u : Token, Fwd ρ (do
      let q ← rec (.qid .requireComplete)
      if QId.isComplete q = false then return acc
      else
        unmute
        let c ← readToken
        if c.type = .openCurly then
          pushBack c
          return acc ++ [.mk a q noTok]
        else if c.type = .comma then rec (.bases (acc ++ [.mk a q u]))
        else
          expected c .commaOrOpenCurly
          return acc ++ [.mk a q noTok] : M σ (List Base)) := by
    intro a u
    fwd h
  refine Fwd.read fun t => ?_
  generalize decide (t.type = .identifier ∧ t.text ∈ accessWords) = b
  cases b
  · simp only [Bool.false_eq_true, if_false]
    exact FwdT.pushBack (key noTok t)
  · simp only [if_true]
    exact FwdT.weak (Fwd.bind still_unmute.fwd fun _ => Fwd.read fun u => FwdT.pushBack (key t u))

macro_rules | `(tactic| fwd_fn $h:ident) => `(tactic| with_reducible exact basesBody_fwd $h _)

theorem virtsBody_gets (acc : List Token) : Gets ρ (virtsBody rec acc) (fun b => b.2) := by
  unfold virtsBody
  refine Gets.gets gets_readToken fun t => ?_
  by_cases hc : t.text = bs ['f', 'i', 'n', 'a', 'l']
  · simp only [hc, if_true]
    refine GetsT.weak ?_
    by_cases ha : acc.isEmpty = false
    · simp only [ha, if_true]
      exact Gets.bind (still_error _ _).fwd fun _ => h.virts _
    · simp only [ha, if_false]
      exact h.virts _
  · simp only [hc, if_false]
    exact GetsT.pure2 _ rfl

theorem virtsBody_fwd (acc : List Token) : Fwd ρ (virtsBody rec acc) := (virtsBody_gets h acc).fwd

macro_rules | `(tactic| fwd_fn $h:ident) => `(tactic| with_reducible exact virtsBody_fwd $h _)

theorem enumBodyBody_fwd (acc : List Enor) : Fwd ρ (enumBodyBody rec acc) := by
  unfold enumBodyBody
  try dsimp only
  fwd h

macro_rules | `(tactic| fwd_fn $h:ident) => `(tactic| with_reducible exact enumBodyBody_fwd $h _)

theorem declarationList_fwd (i : Bool) (c : List Byte) : Fwd ρ (declarationList rec i c) := by
  unfold declarationList
  try dsimp only
  fwd h

macro_rules | `(tactic| fwd_fn $h:ident) => `(tactic| with_reducible exact declarationList_fwd $h _ _)

theorem recordSpec_fwd (t : Token) : Fwd ρ (recordSpec rec t) := by
  unfold recordSpec
  try dsimp only
  refine Fwd.bind (h.fwd _) fun q => ?_
  refine Fwd.gets (h.virts _) fun x => ?_
  obtain ⟨v, u⟩ := x
  dsimp only
  generalize (u.type == TT.singleColon) = b
  cases b
  · simp only [Bool.false_eq_true, if_false]
    fwd h
  · simp only [if_true]
    fwd h

macro_rules | `(tactic| fwd_fn $h:ident) => `(tactic| with_reducible exact recordSpec_fwd $h _)

theorem enumSpec_fwd (t : Token) : Fwd ρ (enumSpec rec t) := by
  unfold enumSpec
  try dsimp only
  refine Fwd.read fun t2 => ?_
  have key : ∀ k : Token, Fwd ρ (do
      let q ← rec (.qid .requireCompleteOrEmpty)
      let s ← readToken
      let isColon : Bool := s.type == .singleColon
      if isColon = true ∧ QId.isEmpty q = true then error false ⟨.scopedEnumRequiresName, s, .none, {}⟩
      if isColon = false then pushBack s
      let base ← if isColon = true then rec (.qid .requireComplete) else pure QId.none
      let basePunc := if isColon = true then s else noTok
      let t3 ← readToken
      if t3.type = .openCurly then
        unmute
        let (es, c) ← inScope .openCurly (rec (.enumBody []))
        return Spec.enum t k q basePunc base t3 c es
      else
        pushBack t3
        return Spec.enum t k q basePunc base noTok noTok [] : M σ Spec) := by
    intro k
    try dsimp only
    refine Fwd.bind (h.fwd _) fun q => Fwd.read fun s => ?_
    generalize (s.type == TT.singleColon) = b
    cases b
    · simp only [Bool.false_eq_true, if_false]
      fwd h
    · simp only [if_true]
      fwd h
  by_cases hc : t2.type = .identifier ∧ t2.text = bs ['c', 'l', 'a', 's', 's']
  · simp only [hc]
    exact FwdT.weak (key t2)
  · simp only [hc]
    exact FwdT.pushBack (key noTok)

macro_rules | `(tactic| fwd_fn $h:ident) => `(tactic| with_reducible exact enumSpec_fwd $h _)

theorem conversionFunc_fwd (t : Token) : Fwd ρ (conversionFunc rec t) := by
  unfold conversionFunc
  try dsimp only
  fwd h

macro_rules | `(tactic| fwd_fn $h:ident) => `(tactic| with_reducible exact conversionFunc_fwd $h _)

theorem typeSpec_fwd (m : Mode) (c : List Byte) (acc : List Spec) (t : Token) (q : QId) : Fwd ρ (typeSpec rec m c acc t q) := by
  unfold typeSpec
  try dsimp only
  fwd h

macro_rules | `(tactic| fwd_fn $h:ident) => `(tactic| with_reducible exact typeSpec_fwd $h _ _ _ _ _)

theorem typenameSpec_fwd (m : Mode) (c : List Byte) (acc : List Spec) (t : Token) : Fwd ρ (typenameSpec rec m c acc t) := by
  unfold typenameSpec
  try dsimp only
  fwd h

macro_rules | `(tactic| fwd_fn $h:ident) => `(tactic| with_reducible exact typenameSpec_fwd $h _ _ _ _)

omit h [Lawful σ] [Source σ] in
theorem still_missingType (m : Mode) (t : Token) : Still ρ (missingType m t : M σ Unit) := by
  unfold missingType
  cases m <;> stills

theorem specsBody_fwd (m : Mode) (c : List Byte) (acc : List Spec) (b : Bool) : Fwd ρ (specsBody rec m c acc b) := by
  unfold specsBody
  try dsimp only
  refine Fwd.read fun t => ?_
  refine FwdT.ite ?_ ?_
  · fwd h
  · refine FwdT.ite ?_ ?_
    · refine FwdT.still (still_missingType _ _) fun _ => ?_
      fwd h
    · fwd h

macro_rules | `(tactic| fwd_fn $h:ident) => `(tactic| with_reducible exact specsBody_fwd $h _ _ _ _)

theorem requiredSemicolon_fwd : Fwd ρ (requiredSemicolon : M σ Token) := by
  have h := h
  unfold requiredSemicolon
  fwd h

macro_rules | `(tactic| fwd_fn $h:ident) => `(tactic| exact requiredSemicolon_fwd $h)

theorem simpleDeclaration_fwd (c : List Byte) : Fwd ρ (simpleDeclaration rec c) := by
  unfold simpleDeclaration
  try dsimp only
  fwd h

macro_rules | `(tactic| fwd_fn $h:ident) => `(tactic| with_reducible exact simpleDeclaration_fwd $h _)

theorem externDecl_fwd (c : List Byte) (t : Token) : FwdT ρ t (externDecl rec c t) := by
  unfold externDecl
  try dsimp only
  fwd h

macro_rules | `(tactic| fwd_fn $h:ident) => `(tactic| with_reducible exact externDecl_fwd $h _ _)

theorem usingDecl_fwd (t : Token) : Fwd ρ (usingDecl rec t) := by
  unfold usingDecl
  try dsimp only
  fwd h

macro_rules | `(tactic| fwd_fn $h:ident) => `(tactic| with_reducible exact usingDecl_fwd $h _)

theorem namespaceDecl_fwd (t : Token) : Fwd ρ (namespaceDecl rec t) := by
  unfold namespaceDecl
  try dsimp only
  refine Fwd.bind still_unmute.fwd fun _ => ?_
  refine Fwd.read fun n => ?_
  generalize (n.type == TT.identifier) = b
  cases b
  · simp only [Bool.false_eq_true, if_false]
    fwd h
  · simp only [if_true]
    fwd h

macro_rules | `(tactic| fwd_fn $h:ident) => `(tactic| with_reducible exact namespaceDecl_fwd $h _)

theorem templateDecl_fwd (c : List Byte) (t : Token) : Fwd ρ (templateDecl rec c t) := by
  unfold templateDecl
  try dsimp only
  fwd h

macro_rules | `(tactic| fwd_fn $h:ident) => `(tactic| with_reducible exact templateDecl_fwd $h _ _)

theorem staticAssertDecl_fwd (t : Token) : Fwd ρ (staticAssertDecl rec t) := by
  unfold staticAssertDecl
  try dsimp only
  fwd h

macro_rules | `(tactic| fwd_fn $h:ident) => `(tactic| with_reducible exact staticAssertDecl_fwd $h _)

macro_rules | `(tactic| fwd_fn $h:ident) => `(tactic| refine FwdT.bind (externDecl_fwd $h _ _) ?_)

omit h in
theorem accessDecl_fwd (t : Token) : Fwd ρ (accessDecl t : M σ (Option Decl)) := by
  unfold accessDecl
  exact Fwd.bind still_unmute.fwd fun _ => Fwd.read fun c => FwdT.ite (FwdT.pure _)
    (FwdT.still (still_expected _ _ _) fun _ => FwdT.pushBack (Fwd.pure _))

theorem declBody_fwd (c : List Byte) : Fwd ρ (declBody rec c) := by
  unfold declBody
  try dsimp only
  refine Fwd.read fun t => ?_
  refine FwdT.ite ?_ ?_
  · refine FwdT.ite (FwdT.bind (externDecl_fwd h _ _) fun _ => Fwd.pure _) ?_
    refine FwdT.ite (FwdT.weak (Fwd.bind (accessDecl_fwd t) fun _ => Fwd.pure _)) ?_
    refine FwdT.ite (FwdT.weak (Fwd.bind (staticAssertDecl_fwd h _) fun _ => Fwd.pure _)) ?_
    refine FwdT.ite (FwdT.weak (Fwd.bind (namespaceDecl_fwd h _) fun _ => Fwd.pure _)) ?_
    refine FwdT.ite (FwdT.weak (Fwd.bind (templateDecl_fwd h _ _) fun _ => Fwd.pure _)) ?_
    refine FwdT.ite (FwdT.weak (Fwd.bind (usingDecl_fwd h _) fun _ => Fwd.pure _)) ?_
    exact FwdT.pushBack (Fwd.bind (simpleDeclaration_fwd h _) fun _ => Fwd.pure _)
  · refine FwdT.ite (FwdT.pure _) (FwdT.ite ?_ (FwdT.pushBack (Fwd.pure _)))
    exact FwdT.pushBack (Fwd.bind (simpleDeclaration_fwd h _) fun _ => Fwd.pure _)

macro_rules | `(tactic| fwd_fn $h:ident) => `(tactic| with_reducible exact declBody_fwd $h _)

theorem declLoopBody_fwd (i : Bool) (c : List Byte) (acc : List Decl) : Fwd ρ (declLoopBody rec i c acc) := by
  unfold declLoopBody
  try dsimp only
  fwd h

macro_rules | `(tactic| fwd_fn $h:ident) => `(tactic| with_reducible exact declLoopBody_fwd $h _ _ _)

theorem body_fwd (c : Call) : Fwd ρ (body rec c) := by
  cases c
  · exact skipLoopBody_fwd h _
  · exact consumeSpecBody_fwd h
  · exact exprBody_fwd h _
  · exact argsBody_fwd h _ _
  · exact stringsBody_fwd h _
  · exact nestedBody_fwd h _
  · exact targsBody_fwd h _
  · exact targSepBody_fwd h _
  · exact qidBody_fwd h _
  · exact paramsBody_fwd h _
  · exact paramLoopBody_fwd h _ _
  · exact qualsBody_fwd h _
  · exact convTypeBody_fwd h _ _
  · exact convType2Body_fwd h _ _
  · exact dcorBody_fwd h _ _ _
  · exact phase1Body_fwd h _ _ _ _
  · exact phase2Body_fwd h _ _ _
  · exact memberInitsBody_fwd h
  · exact initDcorsBody_fwd h _
  · exact basesBody_fwd h _
  · exact virtsBody_fwd h _
  · exact enumBodyBody_fwd h _
  · exact specsBody_fwd h _ _ _ _
  · exact declBody_fwd h _
  · exact declLoopBody_fwd h _ _ _

end

/-- Every call goes forward. -/
theorem go_hyp [Lawful σ] (n : Nat) : Hyp ρ (go n : (c : Call) → M σ c.Out) := by
  induction n with
  | zero => exact ⟨fun c p b q w x => by (cases x), fun c p b q w x => by (cases x)⟩
  | succ n ih => exact ⟨fun c => body_fwd ih c, fun acc => virtsBody_gets ih acc⟩

theorem go_fwd [Lawful σ] (n : Nat) (c : Call) : Fwd ρ (go n c : M σ c.Out) := (go_hyp n).fwd c


end Verif.CppParse
