import Verif.Crowbar.LemmasInterpBlock

/-! The Crowbar interpreter against the meaning of programs: calls, and the induction over nested calls. -/

namespace Verif.Crowbar
open Verif

/-! ### Parameters -/

/-- The table of a new frame while its parameters are put in. -/
structure BindOk (isVar : Nat → Prop) (s : St) (lo : Nat) (W : List Byte → Bool) (vars : List Byte → Option Nat)
    (vvars : List Byte → Option Val) : Prop where
  gone : ∀ x, vars x = none → vvars x = none
  here : ∀ x id, vars x = some id → ∃ v, vvars x = some v ∧ s.get id = some v
  origin : ∀ x id, vars x = some id → isVar id ∨ lo ≤ id
  mine : ∀ x id, vars x = some id → W x = true → lo ≤ id
  alias : ∀ x y id, x ≠ y → vars x = some id → vars y = some id → W x = false

theorem bind_sim {isVar : Nat → Prop} {s : St} {lo : Nat} {body : List Stmt} :
    ∀ {ps : List (List Byte)} {ids : List Nat} {vs : List (Val × Bool)} {vars : List Byte → Option Nat}
      {vvars : List Byte → Option Val}, GivenOk isVar s lo ids vs → ids.length = ps.length →
      clash body ps vs = false → BindOk isVar s lo (fun x => assignsAny x body) vars vvars →
      (∀ x id, vars x = some id → ∀ j c, (j, c) ∈ ids.zip (vs.map Prod.snd) → j = id →
        assignsAny x body = false ∧ c = true) →
      BindOk isVar s lo (fun x => assignsAny x body) (bindParams ps ids vars) (vbind ps (vs.map Prod.fst) vvars) := by
  intro ps
  induction ps with
  | nil =>
    intro ids vs vars vvars hg hl hc hb ha
    cases ids with
    | nil => exact hb
    | cons _ _ => cases hl
  | cons x ps ih =>
    intro ids vs vars vvars hg hl hc hb ha
    cases hg with
    | nil => cases hl
    | @cons id ids v b vs h1 h2 h3 h4 h5 =>
      have hc' : ((b && assignsAny x body) || clash body ps vs) = false := hc
      rw [Bool.or_eq_false_iff, Bool.and_eq_false_iff] at hc'
      have hbW : b = true → assignsAny x body = false := fun e => by
        rcases hc'.1 with a | a
        · rw [e] at a; cases a
        · exact a
      have hcase : ∀ y j, (if y = x then some id else vars y) = some j →
          (y = x ∧ j = id) ∨ (y ≠ x ∧ vars y = some j) := by
        intro y j e
        by_cases hyx : y = x
        · rw [if_pos hyx] at e; cases e; exact .inl ⟨hyx, rfl⟩
        · rw [if_neg hyx] at e; exact .inr ⟨hyx, e⟩
      have hhead : ∀ y, vars y = some id → assignsAny y body = false ∧ b = true := fun y e =>
        ha y id e id b (List.mem_cons_self ..) rfl
      refine ih h5 (Nat.succ.inj hl) hc'.2 ⟨fun y hy => ?_, fun y j hy => ?_, fun y j hy => ?_, fun y j hy hW => ?_,
        fun y z j hyz hy hz => ?_⟩ fun y j hy k c hk e => ?_
      · by_cases hyx : y = x
        · rw [if_pos hyx] at hy; cases hy
        · rw [if_neg hyx] at hy ⊢; exact hb.gone y hy
      · rcases hcase y j hy with ⟨e1, e2⟩ | ⟨e1, e2⟩
        · exact ⟨v, if_pos e1, e2 ▸ h1⟩
        · obtain ⟨w, a, b'⟩ := hb.here y j e2
          exact ⟨w, (if_neg e1).trans a, b'⟩
      · rcases hcase y j hy with ⟨_, e⟩ | ⟨_, e⟩
        · rw [e]; exact h2
        · exact hb.origin y j e
      · rcases hcase y j hy with ⟨e1, e2⟩ | ⟨_, e⟩
        · rw [e2]
          refine h3 ?_
          cases hbb : b with
          | false => rfl
          | true =>
            have := hbW hbb
            rw [← e1] at this
            rw [show assignsAny y body = true from hW] at this
            cases this
        · exact hb.mine y j e hW
      · rcases hcase y j hy with ⟨a1, e1⟩ | ⟨_, e1⟩
        · rcases hcase z j hz with ⟨a2, _⟩ | ⟨_, e2⟩
          · exact absurd (a1.trans a2.symm) hyz
          · subst a1
            exact hbW (hhead z (e1 ▸ e2)).2
        · rcases hcase z j hz with ⟨_, e2⟩ | ⟨_, e2⟩
          · exact (hhead y (e2 ▸ e1)).1
          · exact hb.alias y z j hyz e1 e2
      · rcases hcase y j hy with ⟨a1, e1⟩ | ⟨_, e1⟩
        · have := h4 k c hk (e.trans e1)
          rw [a1]
          exact ⟨hbW this.1, this.2⟩
        · exact ha y j e1 k c (List.mem_cons_of_mem _ hk) e

theorem bindParams_mem : ∀ {ps : List (List Byte)} {ids : List Nat} {vars : List Byte → Option Nat} {x : List Byte}
    {id : Nat}, bindParams ps ids vars x = some id → x ∈ ps ∨ vars x = some id := by
  intro ps
  induction ps with
  | nil => intro ids vars x id h; exact .inr h
  | cons y ps ih =>
    intro ids vars x id h
    cases ids with
    | nil => exact .inr h
    | cons j ids =>
      rcases ih h with a | a
      · exact .inl (List.mem_cons_of_mem _ a)
      · by_cases hxy : x = y
        · exact .inl (hxy ▸ List.mem_cons_self ..)
        · rw [if_neg hxy] at a
          exact .inr a

theorem GivenOk.length {isVar : Nat → Prop} {s : St} {lo : Nat} {ids : List Nat} {vs : List (Val × Bool)}
    (h : GivenOk isVar s lo ids vs) : ids.length = vs.length := by
  induction h with
  | nil => rfl
  | cons _ _ _ _ _ ih => rw [List.length_cons, List.length_cons, ih]

/-! ### The end of a call -/

/-- After a call. -/
structure CPost (strict : Bool) (isVar : Nat → Prop) (s : St) (lo : Nat) (s' : St) (p : Option Ptr) (g : Value) :
    Prop where
  wf : s'.WF
  mono : s.next ≤ s'.next
  keep : ∀ (i : Nat) (o : Nat × Val), s.objs[i]? = some o → ∃ o', s'.objs[i]? = some o' ∧ o'.1 = o.1 ∧
    (o.1 < lo → o' = o)
  newo : ∀ o ∈ s'.objs, (∃ o₀ ∈ s.objs, o₀.1 = o.1) ∨ s.next ≤ o.1
  agrees : Agrees s' p g.val
  bound : ∀ id, p = some (.obj id) → id < s'.next
  origin : ∀ id, p = some (.obj id) → isVar id ∨ lo ≤ id
  fresh : g.borrowed = false → ∀ id, p = some (.obj id) → lo ≤ id
  live : strict = true → ∀ q, p = some q → ∃ v, s'.read q = some v
  top : strict = true → ∀ id, p = some (.obj id) → s'.onTop (.obj id) = true

theorem take_get {l : List α} {k i : Nat} (h : i < k) : (l.take k)[i]? = l[i]? := by
  rw [List.getElem?_take]
  exact if_pos h

theorem cut_get {s : St} (hs : s.WF) {k id : Nat} {v : Val} (h : (s.cut k).get id = some v) : s.get id = some v :=
  get_of_mem hs (List.mem_of_mem_take (get_mem h))

theorem cut_wf {s : St} (hs : s.WF) (k : Nat) : (s.cut k).WF :=
  ⟨by
    show ((s.objs.take k).map Prod.fst).Nodup
    rw [List.map_take]
    exact hs.nodup.sublist (List.take_sublist ..), fun o ho => hs.lt o (List.mem_of_mem_take ho)⟩

theorem moved_wf {s : St} (hs : s.WF) (k : Nat) (v : Val) :
    St.WF { s with objs := s.objs.take k ++ [(s.next, v)], next := s.next + 1 } :=
  (pushed_ext (cut_wf hs k) v).wf

theorem leave_sim {strict : Bool} {isVar : Nat → Prop} {s s' : St} {lo : Nat} {fr : Frame} {vf : VFrame}
    {W : List Byte → Bool} {r : Frame × Flow} {v : VFrame × VFlow} {out : List Event} (hs : s.WF) (hlo : lo ≤ s.next)
    (hor : ∀ x id, fr.vars x = some id → isVar id ∨ lo ≤ id)
    (hmine : ∀ x id, fr.vars x = some id → W x = true → lo ≤ id)
    (h : BPost strict fr vf s s.next s.objs.length W r s' v) (ho : s'.out = out) :
    Sim strict (fun p s'' g => CPost strict isVar s lo s'' p g) (leave s.objs.length r.2 s')
      (match v.2 with
        | none => .ok ⟨none, false⟩ out
        | some g => .ok g out) := by
  have hkeep : ∀ (t : List (Nat × Val)) (i : Nat) (o : Nat × Val), s.objs[i]? = some o →
      ∃ o', (s'.objs.take s.objs.length ++ t)[i]? = some o' ∧ o'.1 = o.1 ∧ (o.1 < lo → o' = o) := by
    intro t i o hi
    have hi' : i < s.objs.length := (List.getElem?_eq_some_iff.1 hi).1
    obtain ⟨o', a, b, c⟩ := h.keep i o hi' hi
    refine ⟨o', ?_, b, fun hlt => c fun x hw hx => ?_⟩
    · rw [List.getElem?_append_left (by
        rw [List.length_take]
        exact Nat.lt_min.2 ⟨hi', (List.getElem?_eq_some_iff.1 a).1⟩), take_get hi']
      exact a
    · have := hmine x _ hx hw
      omega
  have hkeep0 : ∀ (i : Nat) (o : Nat × Val), s.objs[i]? = some o →
      ∃ o', (s'.objs.take s.objs.length)[i]? = some o' ∧ o'.1 = o.1 ∧ (o.1 < lo → o' = o) := fun i o hi => by
    have := hkeep [] i o hi
    rw [List.append_nil] at this
    exact this
  have hnewt : ∀ o ∈ s'.objs.take s.objs.length, (∃ o₀ ∈ s.objs, o₀.1 = o.1) ∨ s.next ≤ o.1 :=
    fun o hm => h.newo o (List.mem_of_mem_take hm)
  obtain ⟨fr', f⟩ := r
  obtain ⟨vf', g⟩ := v
  cases h.flow with
  | next hf =>
    refine .ok ho ⟨cut_wf h.wf _, h.mono, hkeep0, hnewt, trivial, ?_, ?_, ?_, ?_, ?_⟩ <;> intros <;>
      first | (rename_i e; cases e; done)
  | @ret _ p _ _ g hr =>
    have hag := hr.agrees
    cases p with
    | none =>
      cases hg : g.val with
      | some _ => rw [hg] at hag; exact hag.elim
      | none =>
        refine .ok ho ⟨cut_wf h.wf _, h.mono, hkeep0, hnewt, by rw [hg]; trivial, ?_, ?_, ?_, ?_, ?_⟩ <;> intros <;>
          first | (rename_i e; cases e; done)
    | some q =>
      cases hg : g.val with
      | none => rw [hg] at hag; exact hag.elim
      | some v =>
        rw [hg] at hag
        show Sim strict _ (if s'.objs.length ≠ s.objs.length ∧ s'.onTop q = true then
            (cutBelowTop s.objs.length s').bind fun id s => .ok (some (.obj id)) s
          else .ok (some q) (s'.cut s.objs.length)) _
        by_cases hc : s'.objs.length ≠ s.objs.length ∧ s'.onTop q = true
        · rw [if_pos hc]
          cases q with
          | static u => cases hc.2
          | obj j =>
            obtain ⟨w, hl⟩ := onTop_last hc.2
            have hj : s'.get j = some w := get_of_mem h.wf (List.mem_of_getLast? hl)
            have : w = v := hag w hj
            subst this
            have hble := h.base_le
            unfold cutBelowTop
            rw [hl]
            dsimp only
            rw [if_neg (by have := hc.1; omega)]
            by_cases h1 : s'.objs.length = s.objs.length + 1
            · rw [if_pos h1]
              refine .ok ho ?_
              have hsplit : s'.objs = s'.objs.take s.objs.length ++ s'.objs.drop s.objs.length :=
                (List.take_append_drop ..).symm
              refine ⟨h.wf, h.mono, fun i o hi => ?_, h.newo, ?_, ?_, ?_, ?_, ?_, ?_⟩
              · rw [hsplit]; exact hkeep _ i o hi
              · rw [hg]; exact hag
              · exact hr.bound
              · intro id e
                rcases hr.origin id e with ⟨x, _, hx⟩ | a
                · exact hor x id hx
                · exact .inr (Nat.le_trans hlo a)
              · intro b id e
                exact Nat.le_trans hlo (hr.fresh b id e)
              · intro _ q e; cases e; exact ⟨w, hj⟩
              · intro _ id e; cases e; exact hc.2
            · rw [if_neg h1]
              refine .ok ho ?_
              have hmem : (s'.next, w) ∈ s'.objs.take s.objs.length ++ [(s'.next, w)] :=
                List.mem_append_right _ (List.mem_singleton.2 rfl)
              have hget := get_of_mem (moved_wf h.wf s.objs.length w) hmem
              have hle : lo ≤ s'.next := Nat.le_trans hlo h.mono
              refine ⟨moved_wf h.wf s.objs.length w, Nat.le_succ_of_le h.mono, hkeep _, fun o hm => ?_, ?_, ?_, ?_, ?_, ?_, ?_⟩
              · rcases List.mem_append.1 hm with a | a
                · exact hnewt o a
                · rw [List.mem_singleton.1 a]; exact .inr h.mono
              · rw [hg]
                intro u hu
                rw [show St.read _ (.obj s'.next) = _ from hget] at hu
                cases hu; rfl
              · intro id e; cases e; exact Nat.lt_succ_self _
              · intro id e; cases e; exact .inr hle
              · intro _ id e; cases e; exact hle
              · intro _ q e; cases e; exact ⟨w, hget⟩
              · intro _ id e
                cases e
                simp [St.onTop]
        · rw [if_neg hc]
          have hstat : strict = true → ∀ j, q ≠ .obj j := by
            intro hst j e
            subst e
            have ⟨h1, h2⟩ := hr.top hst j rfl
            have hlen : s'.objs.length = s.objs.length := Classical.byContradiction fun e => hc ⟨e, h2⟩
            obtain ⟨w, hl⟩ := onTop_last h2
            rw [List.getLast?_eq_getElem?, hlen] at hl
            have hpos : s.objs.length - 1 < s.objs.length := by
              have := (List.getElem?_eq_some_iff.1 hl).1
              omega
            obtain ⟨o', a, b, _⟩ := h.keep _ _ hpos (List.getElem?_eq_getElem hpos)
            rw [hl] at a
            cases a
            have := hs.lt _ (List.getElem_mem hpos)
            rw [← b] at this
            dsimp only at this
            omega
          refine .ok ho ⟨cut_wf h.wf _, h.mono, hkeep0, hnewt, ?_, hr.bound, ?_, ?_, ?_, ?_⟩
          · rw [hg]
            intro w hw
            cases q with
            | static u => exact hag w hw
            | obj j => exact hag w (cut_get h.wf hw)
          · intro id e
            rcases hr.origin id e with ⟨x, _, hx⟩ | a
            · exact hor x id hx
            · exact .inr (Nat.le_trans hlo a)
          · intro b id e
            exact Nat.le_trans hlo (hr.fresh b id e)
          · intro hst q' e
            cases e
            cases q with
            | static u => exact ⟨u, rfl⟩
            | obj j => exact absurd rfl (hstat hst j)
          · intro hst id e
            cases e
            exact absurd rfl (hstat hst id)

/-- A call inside of an expression. -/
theorem CPost.post {strict : Bool} {isVar : Nat → Prop} {s0 s s' : St} {lo : Nat} {p : Option Ptr} {g : Value}
    (h0 : s0.WF) (he : Ext s0 s) (hlo : s0.next ≤ lo) (h : CPost strict isVar s lo s' p g) :
    Post strict isVar s0 s' p g := by
  have hpre : s0.objs <+: s'.objs := by
    rw [List.prefix_iff_getElem?]
    intro i hi
    obtain ⟨t, et⟩ := he.pre
    have hi0 : s.objs[i]? = some s0.objs[i] := by
      rw [← et, List.getElem?_append_left hi]
      exact List.getElem?_eq_getElem hi
    obtain ⟨o', a, b, c⟩ := h.keep i _ hi0
    rw [a, c (Nat.lt_of_lt_of_le (h0.lt _ (List.getElem_mem hi)) hlo)]
  refine ⟨⟨h.wf, hpre, Nat.le_trans he.mono h.mono, fun o ho => ?_⟩, h.agrees, h.bound, ?_, ?_, h.live,
    fun a _ => h.top a⟩
  · rcases h.newo o ho with ⟨o₀, a, b⟩ | a
    · rcases he.new o₀ a with a' | a'
      · refine .inl ?_
        have h1 : s'.get o.1 = some o₀.2 := get_of_mem h.wf (by rw [← b]; exact hpre.subset a')
        have h2 : s'.get o.1 = some o.2 := get_of_mem h.wf ho
        rw [h1] at h2
        have : o = o₀ := Prod.ext b.symm (Option.some.inj h2).symm
        rw [this]; exact a'
      · exact .inr (b ▸ a')
    · exact .inr (Nat.le_trans he.mono a)
  · intro id e
    exact (h.origin id e).imp_right (Nat.le_trans hlo)
  · intro b id e
    exact Nat.le_trans hlo (h.fresh b id e)

theorem leaveErr_sim {strict : Bool} {post : α → St → β → Prop} {r : Run α} {v : VRun β} {base : Nat}
    (h : Sim strict post r v) : Sim strict post (leaveErr base r) v := by
  cases h with
  | @unspec r => exact .unspec
  | outside => exact .outside
  | ub h => exact .ub h
  | wrong => exact .wrong
  | fuel => exact .fuel
  | ok e h => exact .ok e h
  | err e => exact .err e

end Verif.Crowbar
