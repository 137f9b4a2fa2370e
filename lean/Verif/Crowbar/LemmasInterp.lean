import Verif.Crowbar.LemmasInterpOps

/-! The Crowbar interpreter against the meaning of programs: expressions and arguments. -/

namespace Verif.Crowbar
open Verif

/-- A run of the model against a run of the specification. -/
inductive Sim (strict : Bool) (post : α → St → β → Prop) : Run α → VRun β → Prop
  | unspec {r} : Sim strict post r (.stop .unspec)
  | outside {v} : Sim strict post (.stop .outside) v
  | ub {v} : strict = false → Sim strict post (.stop .ub) v
  | wrong : Sim strict post (.stop .ub) (.stop .wrong)
  | fuel : Sim strict post (.stop .fuel) (.stop .fuel)
  | ok {a s b out} : s.out = out → post a s b → Sim strict post (.ok a s) (.ok b out)
  | err {s out} : s.out = out → Sim strict post (.err s) (.err out)

theorem Sim.bind {strict : Bool} {post : α → St → β → Prop} {post' : γ → St → δ → Prop} {r : Run α} {v : VRun β}
    {f : α → St → Run γ} {g : β → List Event → VRun δ} (h : Sim strict post r v)
    (k : ∀ a s b out, s.out = out → post a s b → Sim strict post' (f a s) (g b out)) :
    Sim strict post' (r.bind f) (v.bind g) := by
  cases h with
  | unspec => exact .unspec
  | outside => exact .outside
  | ub h => exact .ub h
  | wrong => exact .wrong
  | fuel => exact .fuel
  | ok e h => exact k _ _ _ _ e h
  | err e => exact .err e

theorem Sim.imp {strict : Bool} {post post' : α → St → β → Prop} {r : Run α} {v : VRun β}
    (h : Sim strict post r v) (k : ∀ a s b, post a s b → post' a s b) : Sim strict post' r v := by
  cases h with
  | unspec => exact .unspec
  | outside => exact .outside
  | ub h => exact .ub h
  | wrong => exact .wrong
  | fuel => exact .fuel
  | ok e h => exact .ok e (k _ _ _ h)
  | err e => exact .err e

/-- What is behind a pointer, if anything, is the value. -/
def Agrees (s : St) (p : Option Ptr) (v : Option Val) : Prop :=
  match p, v with
  | none, none => True
  | some q, some v => ∀ w, s.read q = some w → w = v
  | _, _ => False

/-- The variables of a frame name objects with the values of the specification. -/
structure VarsOk (fr : Frame) (vf : VFrame) (s : St) : Prop where
  trace : fr.trace = vf.trace
  gone : ∀ x, fr.vars x = none → vf.vars x = none
  here : ∀ x id, fr.vars x = some id → ∃ v, vf.vars x = some v ∧ s.get id = some v

theorem VarsOk.ext {fr : Frame} {vf : VFrame} {s s' : St} (h : VarsOk fr vf s) (k : Ext s s') : VarsOk fr vf s' :=
  ⟨h.trace, h.gone, fun x id e => let ⟨v, a, b⟩ := h.here x id e; ⟨v, a, k.get b⟩⟩

def Frame.isVar (fr : Frame) (id : Nat) : Prop := ∃ x, fr.vars x = some id

/-- After evaluating an expression. -/
structure Post (strict : Bool) (isVar : Nat → Prop) (s s' : St) (p : Option Ptr) (g : Value) : Prop where
  ext : Ext s s'
  agrees : Agrees s' p g.val
  bound : ∀ id, p = some (.obj id) → id < s'.next
  origin : ∀ id, p = some (.obj id) → isVar id ∨ s.next ≤ id
  fresh : g.borrowed = false → ∀ id, p = some (.obj id) → s.next ≤ id
  live : strict = true → ∀ q, p = some q → ∃ v, s'.read q = some v
  top : strict = true → g.borrowed = false → ∀ id, p = some (.obj id) → s'.onTop (.obj id) = true

theorem Post.before {strict : Bool} {isVar : Nat → Prop} {s0 s s' : St} {p : Option Ptr} {g : Value}
    (h : Post strict isVar s s' p g) (k : Ext s0 s) : Post strict isVar s0 s' p g :=
  ⟨k.trans h.ext, h.agrees, h.bound,
   fun id e => (h.origin id e).imp_right (Nat.le_trans k.mono),
   fun b id e => Nat.le_trans k.mono (h.fresh b id e), h.live, h.top⟩

theorem deref_cases {strict : Bool} {s : St} {p : Option Ptr} {v : Option Val} (h : Agrees s p v)
    (hl : strict = true → ∀ q, p = some q → ∃ v, s.read q = some v) :
    (deref p s = none ∧ (v = none ∨ strict = false)) ∨ ∃ w, deref p s = some w ∧ v = some w := by
  cases p with
  | none =>
    cases v with
    | none => exact .inl ⟨rfl, .inl rfl⟩
    | some v => exact h.elim
  | some q =>
    cases v with
    | none => exact h.elim
    | some v =>
      cases hr : s.read q with
      | none =>
        refine .inl ⟨hr, .inr ?_⟩
        cases hs : strict with
        | false => rfl
        | true =>
          obtain ⟨w, hw⟩ := hl hs q rfl
          rw [hr] at hw; cases hw
      | some w => exact .inr ⟨w, hr, by rw [h w hr]⟩

/-- Pointers keep their meaning while the stack grows. -/
theorem agrees_ext {s s' : St} {p : Option Ptr} {v : Option Val} (hs : s.WF) (k : Ext s s') (h : Agrees s p v)
    (hb : ∀ id, p = some (.obj id) → id < s.next) : Agrees s' p v := by
  cases p with
  | none => cases v <;> exact h
  | some q =>
    cases v with
    | none => exact h
    | some v =>
      intro w hw
      cases q with
      | static u => exact h w hw
      | obj id => exact h w (k.get_back (hb id rfl) hs hw)

theorem live_ext {s s' : St} {p : Option Ptr} (k : Ext s s') (h : ∀ q, p = some q → ∃ v, s.read q = some v) :
    ∀ q, p = some q → ∃ v, s'.read q = some v := by
  intro q e
  obtain ⟨v, hv⟩ := h q e
  cases q with
  | static u => exact ⟨v, hv⟩
  | obj id => exact ⟨v, k.get hv⟩

theorem pushed_ext {s : St} (hs : s.WF) (v : Val) :
    Ext s { s with objs := s.objs ++ [(s.next, v)], next := s.next + 1 } := by
  refine ⟨⟨?_, ?_⟩, List.prefix_append _ _, Nat.le_succ _, ?_⟩
  · simp only [List.map_append, List.map_cons, List.map_nil]
    rw [List.nodup_append]
    refine ⟨hs.nodup, by simp, ?_⟩
    intro a ha b hb
    rw [List.mem_singleton] at hb
    obtain ⟨o, ho, e⟩ := List.mem_map.1 ha
    have := hs.lt o ho
    omega
  · intro o ho
    simp only [List.mem_append, List.mem_singleton] at ho
    rcases ho with h | h
    · exact Nat.lt_succ_of_lt (hs.lt o h)
    · rw [h]; exact Nat.lt_succ_self _
  · intro o ho
    simp only [List.mem_append, List.mem_singleton] at ho
    rcases ho with h | h
    · exact .inl h
    · rw [h]; exact .inr (Nat.le_refl _)

theorem push_sim {strict : Bool} {post : γ → St → δ → Prop} {v : Val} {s : St} {f : Nat → St → Run γ} {r : VRun δ}
    (hs : s.WF)
    (k : ∀ s', s'.objs = s.objs ++ [(s.next, v)] → s'.next = s.next + 1 → s'.out = s.out → Ext s s' →
      s'.get s.next = some v → s'.onTop (.obj s.next) = true → Sim strict post (f s.next s') r) :
    Sim strict post ((push v s).bind f) r := by
  unfold push
  split
  · have he := pushed_ext hs v
    refine k _ rfl rfl rfl he (get_of_mem he.wf ?_) ?_
    · exact List.mem_append_right _ (List.mem_singleton.2 rfl)
    · simp [St.onTop]
  · exact .outside

/-- A new object as the value of an expression. -/
theorem post_new {strict : Bool} {isVar : Nat → Prop} {s0 s : St} {v : Val} {id : Nat} (h : Ext s0 s)
    (hg : s.get id = some v) (ht : s.onTop (.obj id) = true) (hn : s0.next ≤ id) :
    Post strict isVar s0 s (some (.obj id)) ⟨some v, false⟩ :=
  { ext := h
    agrees := fun w hw => by rw [show s.read (.obj id) = s.get id from rfl, hg] at hw; cases hw; rfl
    bound := fun i e => by cases e; exact h.wf.lt _ (get_mem hg)
    origin := fun i e => by cases e; exact .inr hn
    fresh := fun _ i e => by cases e; exact hn
    live := fun _ q e => by cases e; exact ⟨v, hg⟩
    top := fun _ _ i e => by cases e; exact ht }

theorem post_static {strict : Bool} {isVar : Nat → Prop} {s0 s : St} {v : Val} {b : Bool} (h : Ext s0 s) :
    Post strict isVar s0 s (some (.static v)) ⟨some v, b⟩ :=
  { ext := h
    agrees := fun w hw => by cases hw; rfl
    bound := fun i e => by cases e
    origin := fun i e => by cases e
    fresh := fun _ i e => by cases e
    live := fun _ q e => by cases e; exact ⟨v, rfl⟩
    top := fun _ _ i e => by cases e }

theorem post_nothing {strict : Bool} {isVar : Nat → Prop} {s0 s : St} {b : Bool} (h : Ext s0 s) :
    Post strict isVar s0 s none ⟨none, b⟩ :=
  { ext := h
    agrees := trivial
    bound := fun i e => by cases e
    origin := fun i e => by cases e
    fresh := fun _ i e => by cases e
    live := fun _ q e => by cases e
    top := fun _ _ i e => by cases e }

theorem fail_sim {strict : Bool} {post : α → St → β → Prop} {tr tr' : List (List Byte)} {m : Msg} {s : St}
    {out : List Event} (h : s.out = out) (ht : tr = tr') :
    Sim strict post (fail tr m s) (vfail tr' m out) := by
  subst ht; subst h; exact .err rfl

theorem opResult_sim {strict : Bool} {isVar : Nat → Prop} {s0 s : St} {out : List Event} {tr tr' : List (List Byte)}
    {m : Msg} {r : OpRes} {r' : VOp} (hr : OpSim r r') (h : Ext s0 s) (ho : s.out = out) (ht : tr = tr') :
    Sim strict (fun p s' g => Post strict isVar s0 s' p g) (opResult tr m r s) (vop tr' m r' out) := by
  cases r' with
  | unspec => exact .unspec
  | val v =>
    cases r with
    | val w =>
      have e : w = v := hr
      subst e
      refine push_sim h.wf fun s' _ _ e he hg hp => .ok (e.trans ho) ?_
      exact post_new (h.trans he) hg hp h.mono
    | outside => exact .outside
    | unsupported => exact hr.elim
    | ub => exact hr.elim
  | unsupported =>
    cases r with
    | unsupported => exact fail_sim ho ht
    | outside => exact .outside
    | val w => exact hr.elim
    | ub => exact hr.elim
  | wrong =>
    cases r with
    | ub => exact .wrong
    | outside => exact .outside
    | val w => exact hr.elim
    | unsupported => exact hr.elim

/-! ### Writing -/

/-- Writing in a list of objects. -/
def wr (id : Nat) (v : Val) (l : List (Nat × Val)) : List (Nat × Val) :=
  l.map fun o => if o.1 = id then (o.1, v) else o

theorem wr_ids (id : Nat) (v : Val) (l : List (Nat × Val)) : (wr id v l).map Prod.fst = l.map Prod.fst := by
  unfold wr
  rw [List.map_map]
  apply List.map_congr_left
  intro o _
  show (if o.1 = id then (o.1, v) else o).1 = o.1
  split <;> rfl

theorem wr_none {id : Nat} {v : Val} {l : List (Nat × Val)} (h : ∀ o ∈ l, o.1 ≠ id) : wr id v l = l := by
  unfold wr
  conv => rhs; rw [← List.map_id l]
  apply List.map_congr_left
  intro o ho
  rw [if_neg (h o ho)]
  rfl

theorem wr_same {s : St} (hs : s.WF) {id : Nat} {v : Val} (h : s.get id = some v) : wr id v s.objs = s.objs := by
  unfold wr
  conv => rhs; rw [← List.map_id s.objs]
  apply List.map_congr_left
  intro o ho
  split
  · rename_i e
    have := get_of_mem hs (id := o.1) (v := o.2) ho
    rw [e, h] at this
    cases this
    rw [e]
    show (id, o.2) = o
    rw [← e]
  · rfl

theorem wr_append (id : Nat) (v : Val) (a b : List (Nat × Val)) : wr id v (a ++ b) = wr id v a ++ wr id v b :=
  List.map_append ..

theorem wr_take (id : Nat) (v : Val) (k : Nat) (l : List (Nat × Val)) : (wr id v l).take k = wr id v (l.take k) :=
  List.map_take.symm

theorem wr_mem {id : Nat} {v : Val} {l : List (Nat × Val)} {o : Nat × Val} (h : o ∈ wr id v l) :
    (o ∈ l ∧ o.1 ≠ id) ∨ (o = (id, v) ∧ ∃ w, (id, w) ∈ l) := by
  obtain ⟨o', h1, h2⟩ := List.mem_map.1 h
  split at h2
  · rename_i e
    refine .inr ⟨?_, o'.2, ?_⟩
    · rw [← h2, e]
    · rw [← e]; exact h1
  · subst h2; rename_i e; exact .inl ⟨h1, e⟩

theorem mem_wr {id : Nat} {v : Val} {l : List (Nat × Val)} {o : Nat × Val} (h : o ∈ l) (hn : o.1 ≠ id) :
    o ∈ wr id v l := List.mem_map.2 ⟨o, h, by rw [if_neg hn]⟩

theorem mem_wr_self {id : Nat} {v w : Val} {l : List (Nat × Val)} (h : (id, w) ∈ l) : (id, v) ∈ wr id v l :=
  List.mem_map.2 ⟨_, h, by rw [if_pos rfl]⟩

theorem wr_wf {s : St} (hs : s.WF) (id : Nat) (v : Val) : (s.write id v).WF :=
  ⟨by rw [show (s.write id v).objs = wr id v s.objs from rfl, wr_ids]; exact hs.nodup, by
    intro o ho
    rcases wr_mem ho with h | ⟨h, w, h'⟩
    · exact hs.lt o h.1
    · rw [h]; exact hs.lt (id, w) h'⟩

/-- Writing to a newer object. -/
theorem write_ext {s0 s : St} (h0 : s0.WF) (h : Ext s0 s) {id : Nat} {v : Val} (hid : s0.next ≤ id) :
    Ext s0 (s.write id v) := by
  obtain ⟨t, ht⟩ := h.pre
  refine ⟨wr_wf h.wf id v, ⟨wr id v t, ?_⟩, h.mono, ?_⟩
  · show _ = wr id v s.objs
    rw [← ht, wr_append, wr_none (l := s0.objs)]
    intro o ho
    have := h0.lt o ho
    omega
  · intro o ho
    rcases wr_mem ho with h' | ⟨h', w, h''⟩
    · exact h.new o h'.1
    · rw [h']; exact .inr hid

theorem write_get_ne {s : St} (hs : s.WF) {id j : Nat} {v w : Val} (h : s.get j = some w) (hn : j ≠ id) :
    (s.write id v).get j = some w := get_of_mem (wr_wf hs id v) (mem_wr (get_mem h) hn)

theorem write_get_self {s : St} (hs : s.WF) {id : Nat} {v w : Val} (h : s.get id = some w) :
    (s.write id v).get id = some v := get_of_mem (wr_wf hs id v) (mem_wr_self (get_mem h))

theorem movedFrom_eq {v : Val} (h : v.ty ≠ .str) : v.movedFrom = v := by
  cases v <;> first | rfl | exact absurd rfl h

theorem mayHand_fun {strict : Bool} {v : Val} {b : Bool} (h : mayHand strict v b = true) :
    ¬ (v.ty = .func ∨ v.ty = .builtin) := by
  cases v <;> first | cases h; done | exact (fun h => by rcases h with h | h <;> cases h)

theorem mayHand_str {strict : Bool} {v : Val} {b : Bool} (h : mayHand strict v b = true) (hv : v.ty = .str) :
    b = false := by
  cases v <;> first | cases hv | skip
  cases b
  · rfl
  · cases h

theorem mayHand_strict {v : Val} {b : Bool} (h : mayHand true v b = true) : b = false := by
  cases v <;> cases b <;> first | rfl | cases h

theorem onTop_last {s : St} {id : Nat} (h : s.onTop (.obj id) = true) :
    ∃ w, s.objs.getLast? = some (id, w) := by
  have h' : (s.objs.getLast?.map Prod.fst == some id) = true := h
  cases hl : s.objs.getLast? with
  | none => rw [hl] at h'; cases h'
  | some o =>
    rw [hl] at h'
    have : o.1 = id := by simpa using h'
    exact ⟨o.2, by rw [← this]⟩

theorem onTop_get {s : St} (hs : s.WF) {id : Nat} (h : s.onTop (.obj id) = true) :
    ∃ w, s.get id = some w := by
  obtain ⟨w, h⟩ := onTop_last h
  exact ⟨w, get_of_mem hs (List.mem_of_getLast? h)⟩

/-! ### Arguments -/

/-- The objects given as arguments. -/
inductive GivenOk (isVar : Nat → Prop) (s : St) (lo : Nat) : List Nat → List (Val × Bool) → Prop
  | nil : GivenOk isVar s lo [] []
  | cons {id ids v b vs} : s.get id = some v → (isVar id ∨ lo ≤ id) → (b = false → lo ≤ id) →
      (∀ j c, (j, c) ∈ ids.zip (vs.map Prod.snd) → j = id → b = true ∧ c = true) →
      GivenOk isVar s lo ids vs → GivenOk isVar s lo (id :: ids) ((v, b) :: vs)

theorem GivenOk.weaken {isVar : Nat → Prop} {s : St} {lo lo' : Nat} {ids : List Nat} {vs : List (Val × Bool)}
    (h : GivenOk isVar s lo' ids vs) (hl : lo ≤ lo') : GivenOk isVar s lo ids vs := by
  induction h with
  | nil => exact .nil
  | cons a b c d _ ih =>
    exact .cons a (b.imp_right (Nat.le_trans hl)) (fun e => Nat.le_trans hl (c e)) d ih

theorem GivenOk.mem {isVar : Nat → Prop} {s : St} {lo : Nat} {ids : List Nat} {vs : List (Val × Bool)}
    (h : GivenOk isVar s lo ids vs) {j : Nat} {c : Bool} (hm : (j, c) ∈ ids.zip (vs.map Prod.snd)) :
    (isVar j ∨ lo ≤ j) ∧ (c = false → lo ≤ j) := by
  induction h with
  | nil => cases hm
  | cons a b c d _ ih =>
    rw [List.map_cons, List.zip_cons_cons] at hm
    rcases List.mem_cons.1 hm with e | e
    · cases e; exact ⟨b, c⟩
    · exact ih e

theorem takeArg_sim {strict : Bool} {isVar : Nat → Prop} {s s1 : St} {p : Option Ptr} {g : Value} {out : List Event}
    (hs : s.WF) (h : Post strict isVar s s1 p g) (ho : s1.out = out) :
    Sim strict (fun id s2 v => Ext s s2 ∧ s2.get id = some v ∧ (isVar id ∨ s.next ≤ id) ∧
      (g.borrowed = false → s.next ≤ id)) (takeArg p s1) (hand strict g out) := by
  have hag := h.agrees
  unfold hand
  cases hv : g.val with
  | none =>
    rw [hv] at hag
    cases p with
    | none => exact .wrong
    | some q => exact hag.elim
  | some v =>
    dsimp only
    rw [hv] at hag
    cases p with
    | none => exact hag.elim
    | some q =>
      by_cases hm : mayHand strict v g.borrowed = true
      · rw [if_pos hm]
        unfold takeArg
        dsimp only
        by_cases ht : s1.onTop q = true
        · rw [if_pos ht]
          cases q with
          | static u => cases ht
          | obj id =>
            obtain ⟨w, hw⟩ := onTop_get h.ext.wf ht
            have : w = v := hag w hw
            subst this
            exact .ok ho ⟨h.ext, hw, h.origin id rfl, fun b => h.fresh b id rfl⟩
        · rw [if_neg ht]
          cases hr : s1.read q with
          | none =>
            cases hst : strict with
            | false => exact .ub rfl
            | true =>
              obtain ⟨w, hw⟩ := h.live hst q rfl
              rw [hr] at hw; cases hw
          | some w =>
            have : w = v := hag w hr
            subst this
            dsimp only
            rw [if_neg (mayHand_fun hm)]
            refine push_sim h.ext.wf fun s' ho' hn' hout he hg hp => ?_
            cases q with
            | static u =>
              exact .ok (hout.trans ho) ⟨h.ext.trans he, hg, .inr h.ext.mono, fun _ => h.ext.mono⟩
            | obj old =>
              have hold : s1.get old = some w := hr
              have hlt : old < s1.next := h.bound old rfl
              refine .ok (hout.trans ho) ⟨?_, write_get_ne he.wf hg (Nat.ne_of_gt hlt), .inr h.ext.mono,
                fun _ => h.ext.mono⟩
              by_cases hstr : w.ty = .str
              · exact write_ext hs (h.ext.trans he) (h.fresh (mayHand_str hm hstr) old rfl)
              · rw [movedFrom_eq hstr]
                have e : s'.write old w = s' := by
                  show { s' with objs := wr old w s'.objs } = s'
                  rw [wr_same he.wf (he.get hold)]
                rw [e]
                exact h.ext.trans he
      · rw [if_neg hm]
        exact .unspec

end Verif.Crowbar
