import Verif.CppParse.LemmasFile
/-! # The parser for C++ — lemmas: the same tokens from another source give the same result -/
namespace Verif.CppParse
open Verif Verif.Cpp

set_option linter.unusedSectionVars false

variable {σ σ' : Type}

/-- The same state with another source. -/
def P.put (p : P σ) (s : σ') : P σ' :=
  ⟨s, p.angles, p.restore, p.queue, p.pos, p.raw, p.mute, p.accept, p.errs, p.seen⟩

/-- What the first source gives, the second gives also. -/
def Gives [Source σ] [Source σ'] (S : σ → σ' → Prop) : Prop :=
  ∀ s s', S s s' → ∀ a cs t s1, Source.next a s = some (cs, t, s1) →
    ∃ s1', Source.next a s' = some (cs, t, s1') ∧ S s1 s1'

/-- Where `m` has a result, `m'` has the same. -/
def Sim (S : σ → σ' → Prop) {β : Type} (m : M σ β) (m' : M σ' β) : Prop :=
  ∀ p s', S p.src s' → ∀ b q, m p = .ok b q → ∃ t', m' (p.put s') = .ok b (q.put t') ∧ S q.src t'

section
variable {S : σ → σ' → Prop} {α β : Type}

theorem Sim.pure (b : β) : Sim S (pure b : M σ β) (pure b : M σ' β) := by
  intro p s' hs b' q h
  cases h
  exact ⟨s', rfl, hs⟩

theorem Sim.bind {m : M σ α} {m' : M σ' α} {f : α → M σ β} {f' : α → M σ' β} (h : Sim S m m')
    (hf : ∀ a, Sim S (f a) (f' a)) : Sim S (m >>= f) (m' >>= f') := by
  intro p s' hs b q e
  cases e1 : m p with
  | stop s => rw [bind_stop e1] at e; cases e
  | ok a q1 =>
    rw [bind_ok e1] at e
    obtain ⟨t, h1, h2⟩ := h p s' hs a q1 e1
    obtain ⟨t2, h3, h4⟩ := hf a q1 t h2 b q e
    exact ⟨t2, (bind_ok h1).trans h3, h4⟩

theorem Sim.getP {f : P σ → M σ β} {f' : P σ' → M σ' β} (h : ∀ p s', Sim S (f p) (f' (p.put s'))) :
    Sim S (getP >>= f) (getP >>= f') := by
  intro p s' hs b q e
  exact h p s' p s' hs b q e

theorem Sim.ite {c : Prop} [Decidable c] {a b : M σ β} {a' b' : M σ' β} (ha : Sim S a a') (hb : Sim S b b') :
    Sim S (if c then a else b) (if c then a' else b') := by
  by_cases h : c
  · rw [if_pos h, if_pos h]; exact ha
  · rw [if_neg h, if_neg h]; exact hb

theorem Sim.inScope {t : TT} {m : M σ β} {m' : M σ' β} (h : Sim S m m') :
    Sim S (inScope t m) (inScope t m') := by
  intro p s' hs b q e
  unfold CppParse.inScope at e ⊢
  dsimp only [P.put] at e ⊢
  cases e1 : scopeFlags p.accept t with
  | none => rw [e1] at e; cases e
  | some ab =>
    obtain ⟨x, y⟩ := ab
    rw [e1] at e
    dsimp only at e ⊢
    cases e2 : m { p with accept := x, angles := y } with
    | stop _ => rw [e2] at e; cases e
    | ok r q1 =>
      rw [e2] at e
      cases e
      obtain ⟨t, h1, h2⟩ := h { p with accept := x, angles := y } s' hs _ _ e2
      dsimp only [P.put] at h1
      rw [h1]
      exact ⟨t, rfl, h2⟩

theorem Sim.withAngles {m : M σ β} {m' : M σ' β} (h : Sim S m m') : Sim S (withAngles m) (withAngles m') := by
  intro p s' hs b q e
  unfold CppParse.withAngles at e ⊢
  dsimp only [P.put] at e ⊢
  cases e2 : m { p with angles := true } with
  | stop _ => rw [e2] at e; cases e
  | ok r q1 =>
    rw [e2] at e
    cases e
    obtain ⟨t, h1, h2⟩ := h { p with angles := true } s' hs _ _ e2
    dsimp only [P.put] at h1
    rw [h1]
    exact ⟨t, rfl, h2⟩

theorem Sim.acceptingCurly {m : M σ β} {m' : M σ' β} (h : Sim S m m') :
    Sim S (acceptingCurly m) (acceptingCurly m') := by
  intro p s' hs b q e
  unfold CppParse.acceptingCurly at e ⊢
  dsimp only [P.put] at e ⊢
  cases e2 : m { p with accept := { p.accept with openCurly := true } } with
  | stop _ => rw [e2] at e; cases e
  | ok r q1 =>
    rw [e2] at e
    cases e
    obtain ⟨t, h1, h2⟩ := h { p with accept := { p.accept with openCurly := true } } s' hs _ _ e2
    dsimp only [P.put] at h1
    rw [h1]
    exact ⟨t, rfl, h2⟩

theorem Sim.check (c : Bool) : Sim S (check c : M σ Unit) (check c) := by
  intro p s' hs b q e
  unfold CppParse.check at e ⊢
  by_cases h : c = true
  · rw [if_pos h] at e ⊢; cases e; exact ⟨s', rfl, hs⟩
  · rw [if_neg h] at e; cases e

theorem Sim.modP {f : P σ → P σ} {f' : P σ' → P σ'} (h : ∀ p s', (f p).src = p.src ∧ f' (p.put s') = (f p).put s') :
    Sim S (modP f) (modP f') := by
  intro p s' hs b q e
  cases e
  refine ⟨s', ?_, ?_⟩
  · show R.ok () (f' (p.put s')) = _
    rw [(h p s').2]
  · rw [(h p s').1]; exact hs

theorem Sim.error (bm : Bool) (x : PErr) : Sim S (error bm x : M σ Unit) (error bm x) := by
  apply Sim.modP
  intro p s'
  dsimp only [P.put]
  by_cases h : p.restore = true
  · rw [if_pos h, if_pos h]; exact ⟨rfl, rfl⟩
  · rw [if_neg h, if_neg h]; exact ⟨rfl, rfl⟩

theorem Sim.expected (t : Token) (x : Exp) (y : Token) : Sim S (expected t x y : M σ Unit) (expected t x y) := Sim.error _ _

theorem Sim.unmute : Sim S (unmute : M σ Unit) unmute := Sim.modP fun _ _ => ⟨rfl, rfl⟩

theorem Sim.backtrack (r : RP) : Sim S (r.backtrack : M σ Unit) r.backtrack := Sim.modP fun _ _ => ⟨rfl, rfl⟩

theorem Sim.failedSince (n : Nat) : Sim S (failedSince n : M σ Bool) (failedSince n) := by
  intro p s' hs b q e
  cases e
  exact ⟨s', rfl, hs⟩

theorem Sim.anyTokensConsumed (n : Int) : Sim S (anyTokensConsumed n : M σ Bool) (anyTokensConsumed n) := by
  intro p s' hs b q e
  unfold CppParse.anyTokensConsumed at e ⊢
  dsimp only [P.put] at e ⊢
  cases hq : p.queue with
  | nil => rw [hq] at e; cases e; exact ⟨s', by simp only [hq], hs⟩
  | cons t l => rw [hq] at e; cases e; exact ⟨s', by simp only [hq], hs⟩

theorem Sim.mark : Sim S (mark : M σ RP) mark := by
  intro p s' hs b q e
  unfold CppParse.mark at e ⊢
  dsimp only [P.put] at e ⊢
  by_cases h : p.restore = false ∧ p.pos ≠ 0
  · rw [if_pos h] at e; cases e
  · rw [if_neg h] at e; cases e; exact ⟨s', if_neg h, hs⟩

theorem Sim.cancel (r : RP) : Sim S (r.cancel : M σ Unit) r.cancel := by
  intro p s' hs b q e
  unfold RP.cancel at e ⊢
  dsimp only [P.put] at e ⊢
  by_cases h : p.raw ≠ r.raw
  · rw [if_pos h] at e; cases e
  · rw [if_neg h] at e
    by_cases h2 : r.pos = 0
    · rw [if_pos h2] at e
      by_cases h3 : r.was = true
      · rw [if_pos h3] at e; cases e
      · rw [if_neg h3] at e; cases e; exact ⟨s', (if_neg h).trans ((if_pos h2).trans (if_neg h3)), hs⟩
    · rw [if_neg h2] at e; cases e; exact ⟨s', (if_neg h).trans (if_neg h2), hs⟩

theorem Sim.pushBack (t : Token) : Sim S (pushBack t : M σ Unit) (pushBack t) := by
  intro p s' hs b q e
  unfold CppParse.pushBack at e ⊢
  dsimp only [P.put] at e ⊢
  by_cases h : p.pos > 0
  · rw [if_pos h] at e
    cases hu : p.queue[p.pos - 1]? with
    | none => rw [hu] at e; cases e
    | some u =>
      rw [hu] at e
      dsimp only at e
      by_cases h2 : sameTok u t = true
      · rw [if_pos h2] at e; cases e
        exact ⟨s', (if_pos h).trans (if_pos h2), hs⟩
      · rw [if_neg h2] at e; cases e
  · rw [if_neg h] at e; cases e; exact ⟨s', if_neg h, hs⟩

theorem readQueued_put (s' : σ') : ∀ (l : List Token) (p : P σ),
    readQueued l (p.put s') = (match readQueued l p with | .ok b q => .ok b (q.put s') | .stop s => .stop s) ∧
    ∀ b q, readQueued l p = .ok b q → q.src = p.src := by
  intro l
  induction l with
  | nil => intro p; exact ⟨rfl, fun b q e => by cases e; rfl⟩
  | cons t l ih =>
    intro p
    obtain ⟨src, an, re, qu, po, ra, mu, ac, er, se⟩ := p
    cases re with
    | false =>
      by_cases hp : po = 0
      · by_cases h2 : skipped t.type = true
        · have := ih ⟨src, an, false, l, po, ra, mu, ac, er, se ++ [t]⟩
          simpa [readQueued, P.put, hp, h2] using this
        · simp only [readQueued, P.put, hp, h2]
          refine ⟨by simp, fun b q e => ?_⟩
          simp at e
          rw [← e.2]
      · simp [readQueued, P.put, hp]
    | true =>
      by_cases h2 : skipped t.type = true
      · have := ih ⟨src, an, true, qu, po + 1, ra, mu, ac, er, se ++ [t]⟩
        simpa [readQueued, P.put, h2] using this
      · simp only [readQueued, P.put, h2]
        refine ⟨by simp, fun b q e => ?_⟩
        simp at e
        rw [← e.2]

end

section
variable [Source σ] [Source σ'] {S : σ → σ' → Prop} (hS : Gives S)
include hS

theorem Sim.readToken : Sim S (readToken : M σ Token) readToken := by
  intro p s' hs b q e
  unfold CppParse.readToken at e ⊢
  obtain ⟨h1, h2⟩ := readQueued_put s' (p.queue.drop p.pos) p
  rw [show (p.put s').queue.drop (p.put s').pos = p.queue.drop p.pos from rfl, h1]
  cases hr : readQueued (p.queue.drop p.pos) p with
  | stop _ => rw [hr] at e; cases e
  | ok o q1 =>
    rw [hr] at e
    have hsrc := h2 _ _ hr
    cases o with
    | some t => cases e; exact ⟨s', rfl, by rw [hsrc]; exact hs⟩
    | none =>
      dsimp only at e ⊢
      cases hn : Source.next q1.angles q1.src with
      | none => rw [hn] at e; cases e
      | some x =>
        obtain ⟨cs, t, s1⟩ := x
        rw [hn] at e
        obtain ⟨s1', g1, g2⟩ := hS _ _ (by rw [hsrc]; exact hs) _ _ _ _ hn
        dsimp only [P.put] at e ⊢
        rw [g1]
        dsimp only
        by_cases h : q1.restore = true
        · rw [if_pos h] at e; cases e; exact ⟨s1', if_pos h, g2⟩
        · rw [if_neg h] at e; cases e; exact ⟨s1', if_neg h, g2⟩

theorem Sim.peek : Sim S (peek : M σ Token) peek :=
  (Sim.readToken hS).bind fun _ => (Sim.pushBack _).bind fun _ => Sim.pure _

theorem Sim.activity : Sim S (activity : M σ (Nat × Int)) activity :=
  Sim.getP fun _ _ => (Sim.peek hS).bind fun _ => Sim.pure _

end

theorem Sim.okToStay {S : σ → σ' → Prop} (t : Token) : Sim S (okToStay t : M σ Bool) (okToStay t) :=
  Sim.getP fun _ _ => Sim.ite ((Sim.pushBack _).bind fun _ => Sim.pure _) (Sim.pure _)

/-- Functions that call no other function of the parser. -/
macro "prim " h:term : tactic => `(tactic| first
  | with_reducible exact Sim.pure _
  | with_reducible exact Sim.readToken $h
  | with_reducible exact Sim.pushBack _
  | with_reducible exact Sim.peek $h
  | with_reducible exact Sim.activity $h
  | with_reducible exact Sim.okToStay _
  | with_reducible exact Sim.expected _ _ _
  | with_reducible exact Sim.error _ _
  | with_reducible exact Sim.unmute
  | with_reducible exact Sim.check _
  | with_reducible exact Sim.mark
  | with_reducible exact Sim.cancel _
  | with_reducible exact Sim.backtrack _
  | with_reducible exact Sim.failedSince _
  | with_reducible exact Sim.anyTokensConsumed _
  | (with_reducible apply Sim.getP; intro _ _; dsimp only [P.put])
  | with_reducible exact Sim.modP fun _ _ => ⟨rfl, rfl⟩)

theorem missingType_sim {S : σ → σ' → Prop} (m : Mode) (t : Token) :
    Sim S (missingType m t : M σ Unit) (missingType m t) := by
  unfold missingType
  cases m <;> dsimp only
  all_goals repeat (first | exact Sim.pure _ | exact Sim.expected _ _ _ | exact Sim.error _ _ | apply Sim.ite | apply Sim.bind | split)

section
attribute [local irreducible] Sim
variable [Source σ] [Source σ'] {rec : (c : Call) → M σ c.Out} {rec' : (c : Call) → M σ' c.Out}
  {S : σ → σ' → Prop} (hS : Gives S) (h : ∀ c, Sim S (rec c) (rec' c))
include hS h

theorem skipAny_sim (o : Token) : Sim S (skipAny rec o) (skipAny rec' o) := Sim.inScope (h _)

theorem skipIfOpen_sim (t : Token) : Sim S (skipIfOpen rec t) (skipIfOpen rec' t) := by
  unfold skipIfOpen
  try dsimp only
  repeat (first | prim hS | exact h _ | exact skipAny_sim hS h | exact Sim.pure _ | apply Sim.inScope | apply Sim.withAngles | apply Sim.acceptingCurly | apply Sim.bind | apply Sim.ite | intro _ | split | (exfalso; simp_all; done))

theorem handleUnexpected_sim (t : Token) : Sim S (handleUnexpected rec t) (handleUnexpected rec' t) := by
  unfold handleUnexpected
  try dsimp only
  repeat (first | prim hS | exact h _ | exact skipIfOpen_sim hS h | exact skipIfOpen_sim hS h _ | exact Sim.pure _ | apply Sim.inScope | apply Sim.withAngles | apply Sim.acceptingCurly | apply Sim.bind | apply Sim.ite | intro _ | split | (exfalso; simp_all; done))

theorem skipLoopBody_sim (o : Token) : Sim S (skipLoopBody rec o) (skipLoopBody rec' o) := by
  unfold skipLoopBody
  try dsimp only
  repeat (first | prim hS | exact h _ | exact skipIfOpen_sim hS h _ | exact Sim.pure _ | apply Sim.inScope | apply Sim.withAngles | apply Sim.acceptingCurly | apply Sim.bind | apply Sim.ite | intro _ | split | (exfalso; simp_all; done))

theorem closeScope_sim (o : Token) : Sim S (closeScope rec o) (closeScope rec' o) := by
  unfold closeScope
  try dsimp only
  repeat (first | prim hS | exact h _ | exact skipAny_sim hS h _ | exact Sim.pure _ | apply Sim.inScope | apply Sim.withAngles | apply Sim.acceptingCurly | apply Sim.bind | apply Sim.ite | intro _ | split | (exfalso; simp_all; done))

theorem consumeSpecBody_sim : Sim S (consumeSpecBody rec) (consumeSpecBody rec') := by
  unfold consumeSpecBody
  try dsimp only
  repeat (first | prim hS | exact h _ | exact skipAny_sim hS h _ | exact Sim.pure _ | apply Sim.inScope | apply Sim.withAngles | apply Sim.acceptingCurly | apply Sim.bind | apply Sim.ite | intro _ | split | (exfalso; simp_all; done))

theorem argsBody_sim (c : TT) (e : Exp) : Sim S (argsBody rec c e) (argsBody rec' c e) := by
  unfold argsBody
  try dsimp only
  repeat (first | prim hS | exact h _ | exact handleUnexpected_sim hS h _ | exact Sim.pure _ | apply Sim.inScope | apply Sim.withAngles | apply Sim.acceptingCurly | apply Sim.bind | apply Sim.ite | intro _ | split | (exfalso; simp_all; done))

theorem stringsBody_sim (s : Token) : Sim S (stringsBody rec s) (stringsBody rec' s) := by
  unfold stringsBody
  try dsimp only
  repeat (first | prim hS | exact h _ | exact Sim.pure _ | apply Sim.inScope | apply Sim.withAngles | apply Sim.acceptingCurly | apply Sim.bind | apply Sim.ite | intro _ | split | (exfalso; simp_all; done))

theorem exprTail_sim (s t : Token) : Sim S (exprTail rec s t) (exprTail rec' s t) := by
  unfold exprTail
  try dsimp only
  repeat (first | prim hS | exact h _ | exact Sim.pure _ | apply Sim.inScope | apply Sim.withAngles | apply Sim.acceptingCurly | apply Sim.bind | apply Sim.ite | intro _ | split | (exfalso; simp_all; done))

theorem lambdaBody_sim : Sim S (lambdaBody rec) (lambdaBody rec') := by
  unfold lambdaBody
  try dsimp only
  repeat (first | prim hS | exact h _ | exact skipAny_sim hS h _ | exact Sim.pure _ | apply Sim.inScope | apply Sim.withAngles | apply Sim.acceptingCurly | apply Sim.bind | apply Sim.ite | intro _ | split | (exfalso; simp_all; done))

theorem exprBody_sim (o : Bool) : Sim S (exprBody rec o) (exprBody rec' o) := by
  unfold exprBody
  try dsimp only
  repeat (first | prim hS | exact h _ | exact exprTail_sim hS h _ _ | exact closeScope_sim hS h _ | exact lambdaBody_sim hS h | exact Sim.pure _ | apply Sim.inScope | apply Sim.withAngles | apply Sim.acceptingCurly | apply Sim.bind | apply Sim.ite | intro _ | split | (exfalso; simp_all; done))

theorem sepStep_sim (acc : List NComp) (comp : Token → NComp) : Sim S (sepStep rec acc comp) (sepStep rec' acc comp) := by
  unfold sepStep
  try dsimp only
  repeat (first | prim hS | exact h _ | exact Sim.pure _ | apply Sim.inScope | apply Sim.withAngles | apply Sim.acceptingCurly | apply Sim.bind | apply Sim.ite | intro _ | split | (exfalso; simp_all; done))

theorem nestedBody_sim (acc : List NComp) : Sim S (nestedBody rec acc) (nestedBody rec' acc) := by
  unfold nestedBody
  try dsimp only
  repeat (first | prim hS | exact h _ | exact skipAny_sim hS h _ | exact sepStep_sim hS h _ _ | exact Sim.pure _ | apply Sim.inScope | apply Sim.withAngles | apply Sim.acceptingCurly | apply Sim.bind | apply Sim.ite | intro _ | split | (exfalso; simp_all; done))

theorem targSepBody_sim (s : Option Token) : Sim S (targSepBody rec s) (targSepBody rec' s) := by
  unfold targSepBody
  try dsimp only
  repeat (first | prim hS | exact h _ | exact handleUnexpected_sim hS h _ | exact Sim.pure _ | apply Sim.inScope | apply Sim.withAngles | apply Sim.acceptingCurly | apply Sim.bind | apply Sim.ite | intro _ | split | (exfalso; simp_all; done))

theorem targsBody_sim (acc : List TArg) : Sim S (targsBody rec acc) (targsBody rec' acc) := by
  unfold targsBody
  try dsimp only
  repeat (first | prim hS | exact h _ | exact Sim.pure _ | apply Sim.inScope | apply Sim.withAngles | apply Sim.acceptingCurly | apply Sim.bind | apply Sim.ite | intro _ | split | (exfalso; simp_all; done))

theorem qidBody_sim (m : QMode) : Sim S (qidBody rec m) (qidBody rec' m) := by
  unfold qidBody
  try dsimp only
  repeat (first | prim hS | exact h _ | exact Sim.pure _ | apply Sim.inScope | apply Sim.withAngles | apply Sim.acceptingCurly | apply Sim.bind | apply Sim.ite | intro _ | split | (exfalso; simp_all; done))

theorem paramsBody_sim (t : Bool) : Sim S (paramsBody rec t) (paramsBody rec' t) := by
  unfold paramsBody
  try dsimp only
  repeat (first | prim hS | exact h _ | exact Sim.pure _ | apply Sim.inScope | apply Sim.withAngles | apply Sim.acceptingCurly | apply Sim.bind | apply Sim.ite | intro _ | split | (exfalso; simp_all; done))

theorem tmplParam_sim : Sim S (tmplParam rec) (tmplParam rec') := by
  unfold tmplParam
  try dsimp only
  repeat (first | prim hS | exact h _ | exact Sim.pure _ | apply Sim.inScope | apply Sim.withAngles | apply Sim.acceptingCurly | apply Sim.bind | apply Sim.ite | intro _ | split | (exfalso; simp_all; done))

theorem oneParam_sim (t : Bool) : Sim S (oneParam rec t) (oneParam rec' t) := by
  unfold oneParam
  try dsimp only
  repeat (first | prim hS | exact h _ | exact tmplParam_sim hS h | exact Sim.pure _ | apply Sim.inScope | apply Sim.withAngles | apply Sim.acceptingCurly | apply Sim.bind | apply Sim.ite | intro _ | split | (exfalso; simp_all; done))

theorem paramLoopBody_sim (t : Bool) (acc : List Param) : Sim S (paramLoopBody rec t acc) (paramLoopBody rec' t acc) := by
  unfold paramLoopBody
  try dsimp only
  repeat (first | prim hS | exact h _ | exact oneParam_sim hS h _ | exact handleUnexpected_sim hS h _ | exact Sim.pure _ | apply Sim.inScope | apply Sim.withAngles | apply Sim.acceptingCurly | apply Sim.bind | apply Sim.ite | intro _ | split | (exfalso; simp_all; done))

theorem qualsBody_sim (acc : List Token) : Sim S (qualsBody rec acc) (qualsBody rec' acc) := by
  unfold qualsBody
  try dsimp only
  repeat (first | prim hS | exact h _ | exact Sim.pure _ | apply Sim.inScope | apply Sim.withAngles | apply Sim.acceptingCurly | apply Sim.bind | apply Sim.ite | intro _ | split | (exfalso; simp_all; done))

theorem parameterList_sim : Sim S (parameterList rec) (parameterList rec') := by
  unfold parameterList
  try dsimp only
  repeat (first | prim hS | exact h _ | exact Sim.pure _ | apply Sim.inScope | apply Sim.withAngles | apply Sim.acceptingCurly | apply Sim.bind | apply Sim.ite | intro _ | split | (exfalso; simp_all; done))

theorem convType2Body_sim (a : Bool) (c : List Prod) : Sim S (convType2Body rec a c) (convType2Body rec' a c) := by
  unfold convType2Body
  try dsimp only
  repeat (first | prim hS | exact h _ | exact Sim.pure _ | apply Sim.inScope | apply Sim.withAngles | apply Sim.acceptingCurly | apply Sim.bind | apply Sim.ite | intro _ | split | (exfalso; simp_all; done))

theorem convTypeBody_sim (a : Bool) (c : List Spec) : Sim S (convTypeBody rec a c) (convTypeBody rec' a c) := by
  unfold convTypeBody
  try dsimp only
  repeat (first | prim hS | exact h _ | exact Sim.pure _ | apply Sim.inScope | apply Sim.withAngles | apply Sim.acceptingCurly | apply Sim.bind | apply Sim.ite | intro _ | split | (exfalso; simp_all; done))

theorem trailingReturn_sim : Sim S (trailingReturn rec) (trailingReturn rec') := by
  unfold trailingReturn
  try dsimp only
  repeat (first | prim hS | exact h _ | exact Sim.pure _ | apply Sim.inScope | apply Sim.withAngles | apply Sim.acceptingCurly | apply Sim.bind | apply Sim.ite | intro _ | split | (exfalso; simp_all; done))

theorem nestedDcor_sim (n a : Bool) (c : List Prod) (o : Token) : Sim S (nestedDcor rec n a c o) (nestedDcor rec' n a c o) := by
  unfold nestedDcor
  try dsimp only
  repeat (first | prim hS | exact h _ | exact closeScope_sim hS h _ | exact Sim.pure _ | apply Sim.inScope | apply Sim.withAngles | apply Sim.acceptingCurly | apply Sim.bind | apply Sim.ite | intro _ | split | (exfalso; simp_all; done))

theorem phase1Body_sim (n a : Bool) (c : List Prod) (q : Bool) : Sim S (phase1Body rec n a c q) (phase1Body rec' n a c q) := by
  unfold phase1Body
  try dsimp only
  repeat (first | prim hS | exact h _ | exact parameterList_sim hS h | exact trailingReturn_sim hS h | exact nestedDcor_sim hS h _ _ _ _ | exact Sim.pure _ | apply Sim.inScope | apply Sim.withAngles | apply Sim.acceptingCurly | apply Sim.bind | apply Sim.ite | intro _ | split | (exfalso; simp_all; done))

theorem phase2Body_sim (c : List Prod) (k : Nat) (e : Bool) : Sim S (phase2Body rec c k e) (phase2Body rec' c k e) := by
  unfold phase2Body
  try dsimp only
  repeat (first | prim hS | exact h _ | exact parameterList_sim hS h | exact trailingReturn_sim hS h | exact closeScope_sim hS h _ | exact Sim.pure _ | apply Sim.inScope | apply Sim.withAngles | apply Sim.acceptingCurly | apply Sim.bind | apply Sim.ite | intro _ | split | (exfalso; simp_all; done))

theorem dcorBody_sim (c : List Prod) (n a : Bool) : Sim S (dcorBody rec c n a) (dcorBody rec' c n a) := by
  unfold dcorBody
  try dsimp only
  repeat (first | prim hS | exact h _ | exact Sim.pure _ | apply Sim.inScope | apply Sim.withAngles | apply Sim.acceptingCurly | apply Sim.bind | apply Sim.ite | intro _ | split | (exfalso; simp_all; done))

theorem memberInitsBody_sim : Sim S (memberInitsBody rec) (memberInitsBody rec') := by
  unfold memberInitsBody
  try dsimp only
  repeat (first | prim hS | exact h _ | exact skipAny_sim hS h _ | exact handleUnexpected_sim hS h _ | exact Sim.pure _ | apply Sim.inScope | apply Sim.withAngles | apply Sim.acceptingCurly | apply Sim.bind | apply Sim.ite | intro _ | split | (exfalso; simp_all; done))

theorem functionBody_sim : Sim S (functionBody rec) (functionBody rec') := by
  unfold functionBody
  try dsimp only
  repeat (first | prim hS | exact h _ | exact skipAny_sim hS h _ | exact Sim.pure _ | apply Sim.inScope | apply Sim.withAngles | apply Sim.acceptingCurly | apply Sim.bind | apply Sim.ite | intro _ | split | (exfalso; simp_all; done))

theorem typeIdInit_sim : Sim S (typeIdInit rec) (typeIdInit rec') := by
  unfold typeIdInit
  try dsimp only
  repeat (first | prim hS | exact h _ | exact Sim.pure _ | apply Sim.inScope | apply Sim.withAngles | apply Sim.acceptingCurly | apply Sim.bind | apply Sim.ite | intro _ | split | (exfalso; simp_all; done))

theorem variableInit_sim : Sim S (variableInit rec) (variableInit rec') := by
  unfold variableInit
  try dsimp only
  repeat (first | prim hS | exact h _ | exact Sim.pure _ | apply Sim.inScope | apply Sim.withAngles | apply Sim.acceptingCurly | apply Sim.bind | apply Sim.ite | intro _ | split | (exfalso; simp_all; done))

theorem initDcorsBody_sim (acc : List InitDcor) : Sim S (initDcorsBody rec acc) (initDcorsBody rec' acc) := by
  unfold initDcorsBody
  try dsimp only
  repeat (first | prim hS | exact h _ | exact functionBody_sim hS h | exact variableInit_sim hS h | exact Sim.pure _ | apply Sim.inScope | apply Sim.withAngles | apply Sim.acceptingCurly | apply Sim.bind | apply Sim.ite | intro _ | split | (exfalso; simp_all; done))

theorem parseInitDcors_sim (m : Mode) : Sim S (parseInitDcors rec m) (parseInitDcors rec' m) := by
  unfold parseInitDcors
  cases m <;> dsimp only
  all_goals repeat (first | prim hS | exact h _ | exact variableInit_sim hS h | exact Sim.pure _ | apply Sim.inScope | apply Sim.withAngles | apply Sim.acceptingCurly | apply Sim.bind | apply Sim.ite | intro _ | split | (exfalso; simp_all; done))

theorem basesBody_sim (acc : List Base) : Sim S (basesBody rec acc) (basesBody rec' acc) := by
  unfold basesBody
  try dsimp only
  repeat (first | prim hS | exact h _ | exact Sim.pure _ | apply Sim.inScope | apply Sim.withAngles | apply Sim.acceptingCurly | apply Sim.bind | apply Sim.ite | intro _ | split | (exfalso; simp_all; done))

theorem virtsBody_sim (acc : List Token) : Sim S (virtsBody rec acc) (virtsBody rec' acc) := by
  unfold virtsBody
  try dsimp only
  repeat (first | prim hS | exact h _ | exact Sim.pure _ | apply Sim.inScope | apply Sim.withAngles | apply Sim.acceptingCurly | apply Sim.bind | apply Sim.ite | intro _ | split | (exfalso; simp_all; done))

theorem enumBodyBody_sim (acc : List Enor) : Sim S (enumBodyBody rec acc) (enumBodyBody rec' acc) := by
  unfold enumBodyBody
  try dsimp only
  repeat (first | prim hS | exact h _ | exact variableInit_sim hS h | exact handleUnexpected_sim hS h _ | exact Sim.pure _ | apply Sim.inScope | apply Sim.withAngles | apply Sim.acceptingCurly | apply Sim.bind | apply Sim.ite | intro _ | split | (exfalso; simp_all; done))

theorem declarationList_sim (i : Bool) (c : List Byte) : Sim S (declarationList rec i c) (declarationList rec' i c) := by
  unfold declarationList
  try dsimp only
  repeat (first | prim hS | exact h _ | exact Sim.pure _ | apply Sim.inScope | apply Sim.withAngles | apply Sim.acceptingCurly | apply Sim.bind | apply Sim.ite | intro _ | split | (exfalso; simp_all; done))

theorem recordSpec_sim (t : Token) : Sim S (recordSpec rec t) (recordSpec rec' t) := by
  unfold recordSpec
  try dsimp only
  repeat (first | prim hS | exact h _ | exact declarationList_sim hS h _ _ | exact Sim.pure _ | apply Sim.inScope | apply Sim.withAngles | apply Sim.acceptingCurly | apply Sim.bind | apply Sim.ite | intro _ | split | (exfalso; simp_all; done))

theorem enumSpec_sim (t : Token) : Sim S (enumSpec rec t) (enumSpec rec' t) := by
  unfold enumSpec
  try dsimp only
  repeat (first | prim hS | exact h _ | exact Sim.pure _ | apply Sim.inScope | apply Sim.withAngles | apply Sim.acceptingCurly | apply Sim.bind | apply Sim.ite | intro _ | split | (exfalso; simp_all; done))

theorem conversionFunc_sim (t : Token) : Sim S (conversionFunc rec t) (conversionFunc rec' t) := by
  unfold conversionFunc
  try dsimp only
  repeat (first | prim hS | exact h _ | exact functionBody_sim hS h | exact Sim.pure _ | apply Sim.inScope | apply Sim.withAngles | apply Sim.acceptingCurly | apply Sim.bind | apply Sim.ite | intro _ | split | (exfalso; simp_all; done))

theorem typeSpec_sim (m : Mode) (c : List Byte) (acc : List Spec) (t : Token) (q : QId) : Sim S (typeSpec rec m c acc t q) (typeSpec rec' m c acc t q) := by
  unfold typeSpec
  try dsimp only
  repeat (first | prim hS | exact h _ | exact parameterList_sim hS h | exact functionBody_sim hS h | exact Sim.pure _ | apply Sim.inScope | apply Sim.withAngles | apply Sim.acceptingCurly | apply Sim.bind | apply Sim.ite | intro _ | split | (exfalso; simp_all; done))

theorem typenameSpec_sim (m : Mode) (c : List Byte) (acc : List Spec) (t : Token) : Sim S (typenameSpec rec m c acc t) (typenameSpec rec' m c acc t) := by
  unfold typenameSpec
  try dsimp only
  repeat (first | prim hS | exact h _ | exact typeIdInit_sim hS h | exact typeSpec_sim hS h _ _ _ _ _ | exact Sim.pure _ | apply Sim.inScope | apply Sim.withAngles | apply Sim.acceptingCurly | apply Sim.bind | apply Sim.ite | intro _ | split | (exfalso; simp_all; done))

theorem specsBody_sim (m : Mode) (c : List Byte) (acc : List Spec) (b : Bool) : Sim S (specsBody rec m c acc b) (specsBody rec' m c acc b) := by
  unfold specsBody
  try dsimp only
  repeat (first | prim hS | exact h _ | exact closeScope_sim hS h _ | exact recordSpec_sim hS h _ | exact enumSpec_sim hS h _ | exact conversionFunc_sim hS h _ | exact parseInitDcors_sim hS h _ | exact typenameSpec_sim hS h _ _ _ _ | exact typeSpec_sim hS h _ _ _ _ _ | exact missingType_sim _ _ | exact Sim.pure _ | apply Sim.inScope | apply Sim.withAngles | apply Sim.acceptingCurly | apply Sim.bind | apply Sim.ite | intro _ | split | (exfalso; simp_all; done))

theorem simpleDeclaration_sim (c : List Byte) : Sim S (simpleDeclaration rec c) (simpleDeclaration rec' c) := by
  unfold simpleDeclaration
  try dsimp only
  repeat (first | prim hS | exact h _ | exact Sim.pure _ | apply Sim.inScope | apply Sim.withAngles | apply Sim.acceptingCurly | apply Sim.bind | apply Sim.ite | intro _ | split | (exfalso; simp_all; done))

theorem externDecl_sim (c : List Byte) (t : Token) : Sim S (externDecl rec c t) (externDecl rec' c t) := by
  unfold externDecl
  try dsimp only
  repeat (first | prim hS | exact h _ | exact simpleDeclaration_sim hS h _ | exact declarationList_sim hS h _ _ | exact Sim.pure _ | apply Sim.inScope | apply Sim.withAngles | apply Sim.acceptingCurly | apply Sim.bind | apply Sim.ite | intro _ | split | (exfalso; simp_all; done))

theorem usingDecl_sim (t : Token) : Sim S (usingDecl rec t) (usingDecl rec' t) := by
  unfold usingDecl
  try dsimp only
  repeat (first | prim hS | exact h _ | exact Sim.pure _ | apply Sim.inScope | apply Sim.withAngles | apply Sim.acceptingCurly | apply Sim.bind | apply Sim.ite | intro _ | split | (exfalso; simp_all; done))

theorem namespaceDecl_sim (t : Token) : Sim S (namespaceDecl rec t) (namespaceDecl rec' t) := by
  unfold namespaceDecl
  try dsimp only
  repeat (first | prim hS | exact h _ | exact declarationList_sim hS h _ _ | exact Sim.pure _ | apply Sim.inScope | apply Sim.withAngles | apply Sim.acceptingCurly | apply Sim.bind | apply Sim.ite | intro _ | split | (exfalso; simp_all; done))

theorem templateDecl_sim (c : List Byte) (t : Token) : Sim S (templateDecl rec c t) (templateDecl rec' c t) := by
  unfold templateDecl
  try dsimp only
  repeat (first | prim hS | exact h _ | exact Sim.pure _ | apply Sim.inScope | apply Sim.withAngles | apply Sim.acceptingCurly | apply Sim.bind | apply Sim.ite | intro _ | split | (exfalso; simp_all; done))

theorem staticAssertDecl_sim (t : Token) : Sim S (staticAssertDecl rec t) (staticAssertDecl rec' t) := by
  unfold staticAssertDecl
  try dsimp only
  repeat (first | prim hS | exact h _ | exact skipAny_sim hS h _ | exact Sim.pure _ | apply Sim.inScope | apply Sim.withAngles | apply Sim.acceptingCurly | apply Sim.bind | apply Sim.ite | intro _ | split | (exfalso; simp_all; done))

theorem declBody_sim (c : List Byte) : Sim S (declBody rec c) (declBody rec' c) := by
  unfold declBody
  try dsimp only
  repeat (first | prim hS | exact h _ | exact externDecl_sim hS h _ _ | exact staticAssertDecl_sim hS h _ | exact namespaceDecl_sim hS h _ | exact templateDecl_sim hS h _ _ | exact usingDecl_sim hS h _ | exact simpleDeclaration_sim hS h _ | exact Sim.pure _ | apply Sim.inScope | apply Sim.withAngles | apply Sim.acceptingCurly | apply Sim.bind | apply Sim.ite | intro _ | split | (exfalso; simp_all; done))

theorem declLoopBody_sim (i : Bool) (c : List Byte) (acc : List Decl) : Sim S (declLoopBody rec i c acc) (declLoopBody rec' i c acc) := by
  unfold declLoopBody
  try dsimp only
  repeat (first | prim hS | exact h _ | exact handleUnexpected_sim hS h _ | exact Sim.pure _ | apply Sim.inScope | apply Sim.withAngles | apply Sim.acceptingCurly | apply Sim.bind | apply Sim.ite | intro _ | split | (exfalso; simp_all; done))

theorem translationUnit_sim : Sim S (translationUnit rec) (translationUnit rec') := by
  unfold translationUnit
  try dsimp only
  repeat (first | prim hS | exact h _ | exact declarationList_sim hS h _ _ | exact Sim.pure _ | apply Sim.inScope | apply Sim.withAngles | apply Sim.acceptingCurly | apply Sim.bind | apply Sim.ite | intro _ | split | (exfalso; simp_all; done))

theorem body_sim (c : Call) : Sim S (body rec c) (body rec' c) := by
  cases c
  · exact skipLoopBody_sim hS h _
  · exact consumeSpecBody_sim hS h
  · exact exprBody_sim hS h _
  · exact argsBody_sim hS h _ _
  · exact stringsBody_sim hS h _
  · exact nestedBody_sim hS h _
  · exact targsBody_sim hS h _
  · exact targSepBody_sim hS h _
  · exact qidBody_sim hS h _
  · exact paramsBody_sim hS h _
  · exact paramLoopBody_sim hS h _ _
  · exact qualsBody_sim hS h _
  · exact convTypeBody_sim hS h _ _
  · exact convType2Body_sim hS h _ _
  · exact dcorBody_sim hS h _ _ _
  · exact phase1Body_sim hS h _ _ _ _
  · exact phase2Body_sim hS h _ _ _
  · exact memberInitsBody_sim hS h
  · exact initDcorsBody_sim hS h _
  · exact basesBody_sim hS h _
  · exact virtsBody_sim hS h _
  · exact enumBodyBody_sim hS h _
  · exact specsBody_sim hS h _ _ _ _
  · exact declBody_sim hS h _
  · exact declLoopBody_sim hS h _ _ _


end

variable [Source σ] [Source σ'] {S : σ → σ' → Prop}

theorem go_sim (hS : Gives S) (n : Nat) (c : Call) : Sim S (go n c : M σ c.Out) (go n c : M σ' c.Out) := by
  induction n generalizing c with
  | zero => intro p s' _ b q e; cases e
  | succ n ih => exact body_sim hS (fun c => ih c) c

/-- The same tokens from another source have the same tree. -/
theorem file_sim (hS : Gives S) (n : Nat) :
    Sim S (translationUnit (go n) : M σ (List Decl)) (translationUnit (go n) : M σ' (List Decl)) :=
  translationUnit_sim hS fun c => go_sim hS n c

end Verif.CppParse
