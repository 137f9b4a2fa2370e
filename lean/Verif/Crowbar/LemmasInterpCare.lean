import Verif.Crowbar.SpecInterp

/-! Careful Crowbar programs always have a strict meaning. -/

namespace Verif.Crowbar
open Verif

/-- Not without a meaning, and a fact about the result. -/
def Meant (post : α → Prop) : VRun α → Prop
  | .ok a _ => post a
  | .err _ => True
  | .stop w => w ≠ .unspec

theorem Meant.bind {post : α → Prop} {post' : β → Prop} {r : VRun α} {f : α → List Event → VRun β}
    (h : Meant post r) (k : ∀ a out, post a → Meant post' (f a out)) : Meant post' (r.bind f) := by
  cases r with
  | ok a out => exact k a out h
  | err out => trivial
  | stop w => exact h

def Value.plain (g : Value) : Prop := ∀ v, g.val = some v → v.isFunction = false

structure FrameCare (vf : VFrame) : Prop where
  plain : ∀ x v, vf.vars x = some v → v.isFunction = false
  truth : ∀ x, isTruth x = true → vf.vars x = none

structure OuterCare (fns : List Byte → Bool) (outer : List Byte → Option Val) : Prop where
  named : ∀ x v, outer x = some v → v.isFunction = true → fns x = true
  func : ∀ x f, outer x = some (.func f) → f.params.all (fun x => !isTruth x) = true ∧ optCareful fns f.body = true

/-- The function behind a value, if any, is careful. -/
def calleeOk (fns : List Byte → Bool) (g : Value) : Prop :=
  ∀ f, g.val = some (.func f) → f.params.all (fun x => !isTruth x) = true ∧ optCareful fns f.body = true

def ExprPost (e : Expr) (vf : VFrame) (g : Value) : Prop :=
  g.plain ∧ (g.borrowed = true → ∃ x v, e.asName = some x ∧ vf.vars x = some v)

theorem plain_of_val {v : Val} {b : Bool} (h : v.isFunction = false) : (⟨some v, b⟩ : Value).plain := by
  intro w e; cases e; exact h

theorem vop_meant {e : Expr} {vf : VFrame} {tr : List (List Byte)} {m : Msg} {r : VOp} {out : List Event}
    (h : r ≠ .unspec) (hv : ∀ v, r = .val v → v.isFunction = false) : Meant (ExprPost e vf) (vop tr m r out) := by
  cases r with
  | val v => exact ⟨plain_of_val (hv v rfl), fun h => by cases h⟩
  | unsupported => trivial
  | wrong => exact fun h => by cases h
  | unspec => exact absurd rfl h

theorem vbin_care {op : BinOp} {a b : Val} (h : a.isFunction = false) :
    vbin op a b ≠ .unspec ∧ ∀ v, vbin op a b = .val v → v.isFunction = false := by
  cases a with
  | func f => cases h
  | print => cases h
  | u32 x =>
    cases b with
    | u32 y =>
      cases op <;> refine ⟨?_, ?_⟩ <;>
        first
        | (intro e; cases e; done)
        | (intro v e; cases e; done)
        | (intro v e; cases e; rfl)
        | (intro e; simp only [vbin] at e; split at e <;> cases e; done)
        | (intro v e; simp only [vbin] at e; split at e <;> cases e; rfl)
    | _ =>
      cases op <;> refine ⟨?_, ?_⟩ <;>
        first
        | (intro e; cases e; done)
        | (intro v e; cases e; done)
  | bool x =>
    cases b with
    | bool y => cases op <;> refine ⟨?_, ?_⟩ <;> first | (intro e; cases e; done) | (intro v e; cases e; done) | (intro v e; cases e; rfl)
    | _ => cases op <;> refine ⟨?_, ?_⟩ <;> first | (intro e; cases e; done) | (intro v e; cases e; done)
  | str x =>
    cases b <;> cases op <;> refine ⟨?_, ?_⟩ <;> first | (intro e; cases e; done) | (intro v e; cases e; done) | (intro v e; cases e; rfl)

theorem vun_care {op : UnOp} {a : Val} (h : a.isFunction = false) :
    vun op a ≠ .unspec ∧ ∀ v, vun op a = .val v → v.isFunction = false := by
  cases a with
  | func f => cases h
  | print => cases h
  | _ =>
    cases op <;> refine ⟨?_, ?_⟩ <;> first | (intro e; cases e; done) | (intro v e; cases e; done) | (intro v e; cases e; rfl)

/-- A value that may be handed on. -/
theorem hand_meant {e : Expr} {vf : VFrame} {g : Value} {out : List Event} (hf : FrameCare vf) (he : e.handed = true)
    (h : ExprPost e vf g) : Meant (fun v => v.isFunction = false ∧ g.borrowed = false) (hand true g out) := by
  have hb : g.borrowed = false := by
    cases hg : g.borrowed with
    | false => rfl
    | true =>
      obtain ⟨x, v, e1, e2⟩ := h.2 hg
      have ht : isTruth x = true := by
        unfold Expr.handed at he
        rw [e1] at he
        exact he
      rw [hf.truth x ht] at e2
      cases e2
  unfold hand
  cases hv : g.val with
  | none => exact fun h => by cases h
  | some v =>
    have hp := h.1 v hv
    dsimp only
    rw [hb]
    cases v with
    | func f => cases hp
    | print => cases hp
    | _ => exact ⟨rfl, rfl⟩

theorem clash_none {body : List Stmt} : ∀ {ps : List (List Byte)} {vs : List (Val × Bool)},
    (∀ p ∈ vs, p.2 = false) → clash body ps vs = false := by
  intro ps
  induction ps with
  | nil => intro vs _; cases vs <;> rfl
  | cons x ps ih =>
    intro vs h
    cases vs with
    | nil => rfl
    | cons p vs =>
      obtain ⟨v, b⟩ := p
      have hb : b = false := h (v, b) (List.mem_cons_self ..)
      subst hb
      show (false && _ || clash body ps vs) = false
      rw [Bool.false_and, Bool.false_or]
      exact ih fun p hp => h p (List.mem_cons_of_mem _ hp)

theorem vbind_care : ∀ {ps : List (List Byte)} {vs : List Val} {vars : List Byte → Option Val},
    (∀ v ∈ vs, v.isFunction = false) → ps.all (fun x => !isTruth x) = true →
    (∀ x v, vars x = some v → v.isFunction = false) → (∀ x, isTruth x = true → vars x = none) →
    (∀ x v, vbind ps vs vars x = some v → v.isFunction = false) ∧
      (∀ x, isTruth x = true → vbind ps vs vars x = none) := by
  intro ps
  induction ps with
  | nil => intro vs vars _ _ h1 h2; exact ⟨h1, h2⟩
  | cons y ps ih =>
    intro vs vars hv hp h1 h2
    cases vs with
    | nil => exact ⟨h1, h2⟩
    | cons w vs =>
      rw [List.all_cons, Bool.and_eq_true] at hp
      refine ih (fun v h => hv v (List.mem_cons_of_mem _ h)) hp.2 ?_ ?_
      · intro x v e
        by_cases hx : x = y
        · rw [if_pos hx] at e; cases e; exact hv w (List.mem_cons_self ..)
        · rw [if_neg hx] at e; exact h1 x v e
      · intro x ht
        by_cases hx : x = y
        · rw [hx] at ht; rw [ht] at hp; cases hp.1
        · rw [if_neg hx]; exact h2 x ht

variable {fns : List Byte → Bool} {outer : List Byte → Option Val}

def FlowPost (r : VFrame × VFlow) : Prop :=
  match r.2 with
  | none => FrameCare r.1
  | some g => g.plain ∧ g.borrowed = false

theorem care (ho : OuterCare fns outer) (n : Nat) :
    (∀ vf e out, FrameCare vf → e.careful fns = true → Meant (ExprPost e vf) (veval true outer n vf e out)) ∧
    (∀ vf ps out, FrameCare vf → piecesCareful fns ps = true → Meant (fun _ => True) (vpieces true outer n vf ps out)) ∧
    (∀ vf es out, FrameCare vf → argsCareful fns es = true →
      Meant (fun vs : List (Val × Bool) => ∀ p ∈ vs, p.1.isFunction = false ∧ p.2 = false) (vargs true outer n vf es out)) ∧
    (∀ tr (f : Func) (vs : List (Val × Bool)) out, f.params.all (fun x => !isTruth x) = true →
      optCareful fns f.body = true → (∀ p ∈ vs, p.1.isFunction = false ∧ p.2 = false) →
      Meant (fun g : Value => g.plain ∧ g.borrowed = false) (vcall true outer n tr f vs out)) ∧
    (∀ vf b out, FrameCare vf → blockCareful fns b = true → Meant FlowPost (vblock true outer n vf b out)) ∧
    (∀ vf x out, FrameCare vf → Meant (calleeOk fns) (veval true outer n vf (.name x) out)) := by
  induction n with
  | zero =>
    refine ⟨?_, ?_, ?_, ?_, ?_, ?_⟩
    · intro vf e out _ _; rw [veval]; exact fun h => by cases h
    · intro vf ps out _ _; rw [vpieces]; exact fun h => by cases h
    · intro vf es out _ _; rw [vargs]; exact fun h => by cases h
    · intro tr f vs out _ _ _; rw [vcall]; exact fun h => by cases h
    · intro vf b out _ _; rw [vblock]; exact fun h => by cases h
    · intro vf x out _; rw [veval]; exact fun h => by cases h
  | succ n ih =>
    obtain ⟨hE, hP, hA, hC, hB, hN⟩ := ih
    refine ⟨?_, ?_, ?_, ?_, ?_, ?_⟩
    · intro vf e out hf hc
      cases e with
      | null => rw [veval]; exact fun h => by cases h
      | name x =>
        rw [veval]
        cases hx : vf.vars x with
        | some v => exact ⟨plain_of_val (hf.plain x v hx), fun _ => ⟨x, v, rfl, hx⟩⟩
        | none =>
          dsimp only
          cases ho' : outer x with
          | none => trivial
          | some v =>
            refine ⟨plain_of_val ?_, fun h => by cases h⟩
            cases hv : v.isFunction with
            | false => rfl
            | true =>
              have := ho.named x v ho' hv
              rw [Expr.careful, this] at hc
              cases hc
      | int v => rw [veval]; exact ⟨plain_of_val rfl, fun h => by cases h⟩
      | str ps =>
        rw [veval]
        rw [Expr.careful] at hc
        exact (hP vf ps out hf hc).bind fun t out _ => ⟨plain_of_val rfl, fun h => by cases h⟩
      | prop o x =>
        rw [veval]
        rw [Expr.careful] at hc
        refine (hE vf o out hf hc).bind fun g out h => ?_
        cases hg : g.val with
        | none => exact fun h => by cases h
        | some v =>
          dsimp only
          rw [if_neg (by rw [h.1 v hg]; exact Bool.false_ne_true)]
          trivial
      | bin op l r =>
        rw [veval]
        rw [Expr.careful, Bool.and_eq_true] at hc
        refine (hE vf l out hf hc.1).bind fun g out h => ?_
        refine (hE vf r out hf hc.2).bind fun g' out h' => ?_
        cases hg : g.val with
        | none => exact fun h => by cases h
        | some a =>
          cases hg' : g'.val with
          | none => exact fun h => by cases h
          | some b =>
            have := vbin_care (op := op) (b := b) (h.1 a hg)
            exact vop_meant this.1 this.2
      | un op e =>
        rw [veval]
        rw [Expr.careful] at hc
        refine (hE vf e out hf hc).bind fun g out h => ?_
        cases hg : g.val with
        | none => exact fun h => by cases h
        | some a =>
          have := vun_care (op := op) (h.1 a hg)
          exact vop_meant this.1 this.2
      | call c args =>
        rw [veval]
        rw [Expr.careful, Bool.and_eq_true] at hc
        have hcallee : Meant (calleeOk fns) (veval true outer n vf c out) := by
          cases hcn : c.asName with
          | some x =>
            cases c with
            | name y => exact hN vf y out hf
            | _ => cases hcn
          | none =>
            rw [hcn] at hc
            have := hE vf c out hf hc.1
            cases hr : veval true outer n vf c out with
            | ok g out' =>
              rw [hr] at this
              intro f e
              have := this.1 _ e
              cases this
            | err _ => trivial
            | stop w => rw [hr] at this; exact this
        refine hcallee.bind fun g out hg => ?_
        refine (hA vf args out hf hc.2).bind fun vs out hvs => ?_
        cases hgv : g.val with
        | none => exact fun h => by cases h
        | some w =>
          cases w with
          | func f =>
            obtain ⟨h1, h2⟩ := hg f hgv
            have := hC vf.trace f vs out h1 h2 hvs
            dsimp only
            cases hr : vcall true outer n vf.trace f vs out with
            | ok g' out' =>
              rw [hr] at this
              exact ⟨this.1, fun h => by rw [this.2] at h; cases h⟩
            | err _ => trivial
            | stop w => rw [hr] at this; exact this
          | print =>
            dsimp only
            split
            · split
              · exact ⟨fun v e => (by cases e), fun h => by cases h⟩
              · trivial
            · exact fun h => by cases h
          | _ => trivial
    · intro vf ps out hf hc
      cases ps with
      | nil => rw [vpieces]; trivial
      | cons pc ps =>
        obtain ⟨lit, e⟩ := pc
        rw [piecesCareful, Piece.careful, Bool.and_eq_true] at hc
        rw [vpieces]
        split
        · exact (hP vf ps out hf hc.2).bind fun _ _ _ => trivial
        · refine (hE vf e out hf hc.1).bind fun g out _ => ?_
          split
          · exact (hP vf ps out hf hc.2).bind fun _ _ _ => trivial
          · exact fun h => by cases h
    · intro vf es out hf hc
      cases es with
      | nil => rw [vargs]; exact fun p hp => by cases hp
      | cons e es =>
        rw [argsCareful, Bool.and_eq_true, Bool.and_eq_true] at hc
        rw [vargs]
        refine (hE vf e out hf hc.1.1).bind fun g out h => ?_
        refine (hand_meant hf hc.1.2 h).bind fun v out hv => ?_
        refine (hA vf es out hf hc.2).bind fun vs out hvs => ?_
        intro p hp
        rcases List.mem_cons.1 hp with e | e
        · rw [e]; exact hv
        · exact hvs p e
    · intro tr f vs out h1 h2 hvs
      rw [vcall]
      split
      · exact fun h => by cases h
      · cases hb : f.body with
        | none => exact fun h => by cases h
        | some body =>
          dsimp only
          rw [clash_none fun p hp => (hvs p hp).2, if_neg Bool.false_ne_true]
          rw [hb, optCareful] at h2
          have hv := vbind_care (vs := vs.map Prod.fst) (vars := fun _ => none) (fun v h => by
            obtain ⟨p, hp, e⟩ := List.mem_map.1 h
            rw [← e]; exact (hvs p hp).1) h1 (fun x v e => by cases e) (fun x _ => rfl)
          refine (hB ⟨f.name :: tr, f.params, vbind f.params (vs.map Prod.fst) fun _ => none⟩ body out
            ⟨hv.1, hv.2⟩ h2).bind fun r out hr => ?_
          unfold FlowPost at hr
          cases hr2 : r.2 with
          | none => exact ⟨fun v e => (by cases e), rfl⟩
          | some g => rw [hr2] at hr; exact hr
    · intro vf b out hf hc
      cases b with
      | nil => rw [vblock]; exact hf
      | cons st rest =>
        rw [blockCareful, Bool.and_eq_true] at hc
        obtain ⟨hst, hrest⟩ := hc
        have hthen : ∀ (r : VFrame × VFlow) (out : List Event) (rest : List Stmt), FlowPost r →
            blockCareful fns rest = true → Meant FlowPost
            (match r.2 with | none => vblock true outer n r.1 rest out | some g => .ok (r.1, some g) out) := by
          intro r out rest hr hc
          unfold FlowPost at hr
          cases hr2 : r.2 with
          | none => rw [hr2] at hr; exact hB _ _ _ hr hc
          | some g => rw [hr2] at hr; exact hr
        cases st with
        | if_ c t f =>
          rw [Stmt.careful, Bool.and_eq_true, Bool.and_eq_true] at hst
          rw [vblock]
          refine (hE vf c out hf hst.1.1).bind fun g out h => ?_
          cases g.cond with
          | none => exact fun h => by cases h
          | some b =>
            cases t with
            | none => exact fun h => by cases h
            | some tb =>
              refine (hB vf (if b then tb else f.getD []) out hf ?_).bind fun r out hr => hthen r out rest hr hrest
              cases b with
              | true => have := hst.1.2; rw [optCareful] at this; exact this
              | false =>
                cases f with
                | none => exact by rw [show (if false = true then tb else Option.getD none []) = ([] : List Stmt) from rfl, blockCareful]
                | some fb => have := hst.2; rw [optCareful] at this; exact this
        | while_ c b =>
          have hst' := hst
          rw [Stmt.careful, Bool.and_eq_true] at hst
          rw [vblock]
          refine (hE vf c out hf hst.1).bind fun g out h => ?_
          cases g.cond with
          | none => exact fun h => by cases h
          | some b' =>
            cases b' with
            | false => exact hB vf rest out hf hrest
            | true =>
              cases b with
              | none => exact fun h => by cases h
              | some body =>
                have hb := hst.2
                rw [optCareful] at hb
                exact (hB vf body out hf hb).bind fun r out hr => hthen r out _ hr (by
                  rw [blockCareful, hst', hrest]; rfl)
        | assign l r =>
          rw [Stmt.careful] at hst
          rw [vblock]
          cases hl : l.asName with
          | none => rw [hl] at hst; cases hst
          | some x =>
            rw [hl] at hst
            have hst : (!isTruth x && r.careful fns && r.handed) = true := hst
            rw [Bool.and_eq_true, Bool.and_eq_true] at hst
            dsimp only
            refine (hE vf r out hf hst.1.2).bind fun g out h => ?_
            refine (hand_meant hf hst.2 h).bind fun v out hv => ?_
            have hf' : FrameCare { vf with vars := fun y => if y = x then some v else vf.vars y } := by
              refine ⟨fun y w e => ?_, fun y ht => ?_⟩
              · by_cases hy : y = x
                · have e : (if y = x then some v else vf.vars y) = some w := e
                  rw [if_pos hy] at e
                  cases e; exact hv.1
                · have e : (if y = x then some v else vf.vars y) = some w := e
                  rw [if_neg hy] at e
                  exact hf.plain y w e
              · have hy : y ≠ x := fun e => by
                  rw [e] at ht; rw [ht] at hst; cases hst.1.1
                exact (if_neg hy).trans (hf.truth y ht)
            cases vf.vars x with
            | none => exact hB _ rest out hf' hrest
            | some old =>
              dsimp only
              split
              · exact hB _ rest out hf' hrest
              · exact fun h => by cases h
        | eval e =>
          rw [Stmt.careful] at hst
          rw [vblock]
          exact (hE vf e out hf hst).bind fun g out h => hB vf rest out hf hrest
        | ret e =>
          rw [Stmt.careful, Bool.and_eq_true] at hst
          rw [vblock]
          refine (hE vf e out hf hst.1).bind fun g out h => ?_
          have hb : g.borrowed = false := by
            cases hg : g.borrowed with
            | false => rfl
            | true =>
              obtain ⟨x, v, e1, e2⟩ := h.2 hg
              have ht : isTruth x = true := by
                have := hst.2
                unfold Expr.handed at this
                rw [e1] at this
                exact this
              rw [hf.truth x ht] at e2
              cases e2
          rw [hb, if_neg (by exact Bool.false_ne_true)]
          refine ⟨h.1, ?_⟩
          show stillBorrowed vf.params e g = false
          unfold stillBorrowed
          rw [hb]
          split <;> rfl
        | func a b c => rw [vblock]; exact fun h => by cases h
    · intro vf x out hf
      rw [veval]
      cases hx : vf.vars x with
      | some v =>
        intro f e
        cases e
        have := hf.plain x _ hx
        cases this
      | none =>
        dsimp only
        cases ho' : outer x with
        | none => trivial
        | some v =>
          intro f e
          cases e
          exact ho.func x f ho'

/-! ### Files -/

theorem functionsOf_mem : ∀ {file : List Stmt} {x : List Byte} {f : Func}, functionsOf file x = some f →
    f.name = x ∧ Stmt.func f.name f.params f.body ∈ file := by
  intro file
  induction file with
  | nil => intro x f h; cases h
  | cons st rest ih =>
    intro x f h
    cases st with
    | func name params body =>
      rw [functionsOf] at h
      cases hr : functionsOf rest x with
      | some g =>
        rw [hr] at h
        cases h
        exact ⟨(ih hr).1, List.mem_cons_of_mem _ (ih hr).2⟩
      | none =>
        rw [hr] at h
        dsimp only at h
        split at h
        · rename_i e
          cases h
          exact ⟨e.symm, List.mem_cons_self ..⟩
        · cases h
    | _ =>
      have h' : functionsOf rest x = some f := by
        rw [functionsOf] at h
        · exact h
        · intro a b c e; cases e
      exact ⟨(ih h').1, List.mem_cons_of_mem _ (ih h').2⟩

theorem outer_care {file : List Stmt} (h : carefulFile file = true) :
    OuterCare (functionNames file) (outerOf file) := by
  have hfun : ∀ x f, functionsOf file x = some f → f.params.all (fun x => !isTruth x) = true ∧
      optCareful (functionNames file) f.body = true := by
    intro x f hf
    have := List.all_eq_true.1 h _ (functionsOf_mem hf).2
    have : (!isTruth f.name && f.params.all (fun x => !isTruth x) && optCareful (functionNames file) f.body) = true := this
    rw [Bool.and_eq_true, Bool.and_eq_true] at this
    exact ⟨this.1.2, this.2⟩
  constructor
  · intro x v hv hi
    unfold outerOf at hv
    unfold functionNames
    rw [Bool.or_eq_true]
    cases hf : functionsOf file x with
    | some f =>
      refine .inr (List.any_eq_true.2 ⟨_, (functionsOf_mem hf).2, ?_⟩)
      show (x == f.name) = true
      rw [(functionsOf_mem hf).1]
      exact beq_self_eq_true x
    | none =>
      rw [hf] at hv
      have hv : builtIns x = some v := hv
      unfold builtIns at hv
      refine .inl ?_
      split at hv
      · rename_i e; rw [e]; exact beq_self_eq_true _
      · split at hv
        · cases hv; cases hi
        · split at hv
          · cases hv; cases hi
          · cases hv
  · intro x f hv
    unfold outerOf at hv
    cases hf : functionsOf file x with
    | some g =>
      rw [hf] at hv
      cases hv
      exact hfun x f hf
    | none =>
      rw [hf] at hv
      have hv : builtIns x = some (.func f) := hv
      unfold builtIns at hv
      split at hv
      · cases hv
      · split at hv
        · cases hv
        · split at hv <;> cases hv

end Verif.Crowbar
