import Verif.Crowbar.LemmasInterp

/-! The Crowbar interpreter against the meaning of programs: frames, assignments and the end of a call. -/

namespace Verif.Crowbar
open Verif

/-- A frame in the middle of a block.  `entry` and `base` are the next number and the height of the stack when the
function was entered; `W` are the names that the body assigns to. -/
structure FI (fr : Frame) (vf : VFrame) (s : St) (entry base : Nat) (W : List Byte → Bool) : Prop where
  wf : s.WF
  vars : VarsOk fr vf s
  own : ∀ x id, vf.params.contains x = false → fr.vars x = some id → entry ≤ id
  alias : ∀ x y id, x ≠ y → fr.vars x = some id → fr.vars y = some id → W x = false
  low : ∀ (i : Nat) (o : Nat × Val), i < base → s.objs[i]? = some o → o.1 < entry
  base_le : base ≤ s.objs.length
  entry_le : entry ≤ s.next

/-- A returned value, before the function is left. -/
structure Ret (strict : Bool) (fr : Frame) (params : List (List Byte)) (entry : Nat) (s : St) (p : Option Ptr)
    (g : Value) : Prop where
  agrees : Agrees s p g.val
  bound : ∀ id, p = some (.obj id) → id < s.next
  origin : ∀ id, p = some (.obj id) → (∃ x, params.contains x = true ∧ fr.vars x = some id) ∨ entry ≤ id
  fresh : g.borrowed = false → ∀ id, p = some (.obj id) → entry ≤ id
  top : strict = true → ∀ id, p = some (.obj id) → entry ≤ id ∧ s.onTop (.obj id) = true

inductive FlowOk (strict : Bool) (fr0 : Frame) (params : List (List Byte)) (entry base : Nat) (W : List Byte → Bool) :
    Frame × Flow → St → VFrame × VFlow → Prop
  | next {fr s vf} : FI fr vf s entry base W → FlowOk strict fr0 params entry base W (fr, .next) s (vf, none)
  | ret {fr p s vf g} : Ret strict fr0 params entry s p g →
      FlowOk strict fr0 params entry base W (fr, .ret p) s (vf, some g)

/-- After a block. -/
structure BPost (strict : Bool) (fr : Frame) (vf : VFrame) (s : St) (entry base : Nat) (W : List Byte → Bool)
    (r : Frame × Flow) (s' : St) (v : VFrame × VFlow) : Prop where
  wf : s'.WF
  mono : s.next ≤ s'.next
  keep : ∀ (i : Nat) (o : Nat × Val), i < base → s.objs[i]? = some o → ∃ o', s'.objs[i]? = some o' ∧ o'.1 = o.1 ∧
    ((∀ x, W x = true → fr.vars x ≠ some o.1) → o' = o)
  old : ∀ x id, fr.vars x = some id → r.1.vars x = some id
  newv : ∀ x id, fr.vars x = none → r.1.vars x = some id → s.next ≤ id
  newo : ∀ o ∈ s'.objs, (∃ o₀ ∈ s.objs, o₀.1 = o.1) ∨ s.next ≤ o.1
  base_le : base ≤ s'.objs.length
  params : v.1.params = vf.params
  flow : FlowOk strict fr vf.params entry base W r s' v

/-- The same objects. -/
structure SameObjs (s c : St) : Prop where
  objs : c.objs = s.objs
  mono : s.next ≤ c.next
  wf : c.WF

theorem Ext.cut {s s1 : St} (hs : s.WF) (h : Ext s s1) : SameObjs s (s1.cut s.objs.length) :=
  ⟨cut_prefix h.pre, h.mono, by rw [cut_prefix h.pre]; exact hs.nodup, by
    intro o ho
    rw [cut_prefix h.pre] at ho
    exact Nat.lt_of_lt_of_le (hs.lt o ho) h.mono⟩

theorem SameObjs.get {s c : St} (h : SameObjs s c) (id : Nat) : c.get id = s.get id := by
  unfold St.get; rw [h.objs]

theorem FI.same {fr : Frame} {vf : VFrame} {s c : St} {entry base : Nat} {W : List Byte → Bool}
    (h : FI fr vf s entry base W) (k : SameObjs s c) : FI fr vf c entry base W :=
  { wf := k.wf
    vars := ⟨h.vars.trace, h.vars.gone, fun x id e =>
      let ⟨v, a, b⟩ := h.vars.here x id e
      ⟨v, a, by rw [k.get]; exact b⟩⟩
    own := h.own
    alias := h.alias
    low := fun i o hi ho => h.low i o hi (by rw [← k.objs]; exact ho)
    base_le := by rw [k.objs]; exact h.base_le
    entry_le := Nat.le_trans h.entry_le k.mono }

theorem BPost.same {strict : Bool} {fr : Frame} {vf : VFrame} {s c : St} {entry base : Nat} {W : List Byte → Bool}
    {r : Frame × Flow} {s' : St} {v : VFrame × VFlow} (h : BPost strict fr vf c entry base W r s' v)
    (k : SameObjs s c) : BPost strict fr vf s entry base W r s' v :=
  { wf := h.wf
    mono := Nat.le_trans k.mono h.mono
    keep := fun i o hi ho => h.keep i o hi (by rw [k.objs]; exact ho)
    old := h.old
    newv := fun x id a b => Nat.le_trans k.mono (h.newv x id a b)
    newo := fun o ho => by
      rcases h.newo o ho with ⟨o₀, a, b⟩ | a
      · exact .inl ⟨o₀, by rw [← k.objs]; exact a, b⟩
      · exact .inr (Nat.le_trans k.mono a)
    base_le := h.base_le
    params := h.params
    flow := h.flow }

theorem BPost.refl {strict : Bool} {fr : Frame} {vf : VFrame} {s : St} {entry base : Nat} {W : List Byte → Bool}
    (h : FI fr vf s entry base W) : BPost strict fr vf s entry base W (fr, .next) s (vf, none) :=
  { wf := h.wf
    mono := Nat.le_refl _
    keep := fun i o _ ho => ⟨o, ho, rfl, fun _ => rfl⟩
    old := fun _ _ e => e
    newv := fun x id a b => by rw [a] at b; cases b
    newo := fun o ho => .inl ⟨o, ho, rfl⟩
    base_le := h.base_le
    params := rfl
    flow := .next h }

theorem BPost.trans {strict : Bool} {fr fr1 : Frame} {vf vf1 : VFrame} {s s1 : St} {entry base : Nat}
    {W : List Byte → Bool} {f : Flow} {w : VFlow} {r : Frame × Flow} {s' : St} {v : VFrame × VFlow} (hs : s.WF)
    (he : entry ≤ s.next) (h : BPost strict fr vf s entry base W (fr1, f) s1 (vf1, w))
    (k : BPost strict fr1 vf1 s1 entry base W r s' v) : BPost strict fr vf s entry base W r s' v :=
  { wf := k.wf
    mono := Nat.le_trans h.mono k.mono
    keep := fun i o hi ho => by
      obtain ⟨o1, a1, b1, c1⟩ := h.keep i o hi ho
      obtain ⟨o2, a2, b2, c2⟩ := k.keep i o1 hi a1
      refine ⟨o2, a2, b2.trans b1, fun hx => ?_⟩
      have e1 := c1 hx
      subst e1
      refine c2 fun x hw hv => ?_
      cases hf : fr.vars x with
      | some id =>
        have := h.old x id hf
        rw [show fr1.vars x = some id from this] at hv
        cases hv
        exact hx x hw hf
      | none =>
        have h1 := h.newv x _ hf hv
        have h2 := hs.lt o1 (List.mem_of_getElem? ho)
        omega
    old := fun x id e => k.old x id (h.old x id e)
    newv := fun x id a b => by
      cases hf : fr1.vars x with
      | some j =>
        have := k.old x j hf
        rw [this] at b
        cases b
        exact h.newv x _ a hf
      | none => exact Nat.le_trans h.mono (k.newv x id hf b)
    newo := fun o ho => by
      rcases k.newo o ho with ⟨o₁, a, b⟩ | a
      · rcases h.newo o₁ a with ⟨o₀, a', b'⟩ | a'
        · exact .inl ⟨o₀, a', b'.trans b⟩
        · exact .inr (b ▸ a')
      · exact .inr (Nat.le_trans h.mono a)
    base_le := k.base_le
    params := k.params.trans h.params
    flow := by
      have hp : vf1.params = vf.params := h.params
      cases k.flow with
      | next hk => exact .next hk
      | ret hk =>
        refine .ret ⟨hk.agrees, hk.bound, fun id e => ?_, hk.fresh, hk.top⟩
        rcases hk.origin id e with ⟨x, hx, hv⟩ | a
        · cases hf : fr.vars x with
          | some j =>
            have := h.old x j hf
            rw [show fr1.vars x = some j from this] at hv
            cases hv
            exact .inl ⟨x, hp ▸ hx, hf⟩
          | none => exact .inr (Nat.le_trans he (h.newv x id hf hv))
        · exact .inr a }

/-! ### Assignments -/

theorem wr_get? {id : Nat} {v : Val} {l : List (Nat × Val)} {i : Nat} {o : Nat × Val} (h : l[i]? = some o) :
    ∃ o', (wr id v l)[i]? = some o' ∧ o'.1 = o.1 ∧ (o.1 ≠ id → o' = o) := by
  refine ⟨if o.1 = id then (o.1, v) else o, ?_, ?_, fun hn => if_neg hn⟩
  · unfold wr
    rw [List.getElem?_map, h]
    rfl
  · split <;> rfl

def Frame.set (fr : Frame) (x : List Byte) (id : Nat) : Frame :=
  { fr with vars := fun y => if y = x then some id else fr.vars y }

def VFrame.set (vf : VFrame) (x : List Byte) (v : Val) : VFrame :=
  { vf with vars := fun y => if y = x then some v else vf.vars y }

/-- An existing variable is given a value. -/
theorem assign_old {strict : Bool} {fr : Frame} {vf : VFrame} {s s2 : St} {entry base : Nat} {W : List Byte → Bool}
    {x : List Byte} {id : Nat} {v : Val} (h : FI fr vf s entry base W) (hw : W x = true)
    (hx : fr.vars x = some id) (ho : s2.objs = wr id v s.objs) (hn : s.next ≤ s2.next) :
    BPost strict fr vf s entry base W (fr, .next) s2 (vf.set x v, none) := by
  obtain ⟨old, hold, hget⟩ := h.vars.here x id hx
  have hwf : s2.WF := by
    refine ⟨by rw [ho, wr_ids]; exact h.wf.nodup, fun o hm => ?_⟩
    rw [ho] at hm
    rcases wr_mem hm with a | ⟨a, w, b⟩
    · exact Nat.lt_of_lt_of_le (h.wf.lt o a.1) hn
    · rw [a]; exact Nat.lt_of_lt_of_le (h.wf.lt (id, w) b) hn
  have hlen : s2.objs.length = s.objs.length := by rw [ho]; exact List.length_map ..
  have hbase : base ≤ s2.objs.length := by rw [hlen]; exact h.base_le
  refine ⟨hwf, hn, fun i o hi hs => ?_, fun _ _ e => e, fun x id a b => ?_, fun o hm => ?_, hbase, rfl, .next ?_⟩
  · rw [ho]
    obtain ⟨o', a, b, c⟩ := wr_get? (id := id) (v := v) hs
    exact ⟨o', a, b, fun hne => c fun e => hne x hw (by rw [e]; exact hx)⟩
  · rw [show fr.vars x = some id from b] at a; cases a
  · rw [ho] at hm
    rcases wr_mem hm with a | ⟨a, w, b⟩
    · exact .inl ⟨o, a.1, rfl⟩
    · exact .inl ⟨(id, w), b, by rw [a]⟩
  · refine ⟨hwf, ⟨h.vars.trace, fun y hy => ?_, fun y j hy => ?_⟩, h.own, h.alias, fun i o hi hm => ?_, hbase,
      Nat.le_trans h.entry_le hn⟩
    · have hne : y ≠ x := fun e => by rw [e, hx] at hy; cases hy
      show (if y = x then some v else vf.vars y) = none
      rw [if_neg hne]
      exact h.vars.gone y hy
    · by_cases hyx : y = x
      · subst hyx
        rw [hx] at hy
        cases hy
        exact ⟨v, if_pos rfl, get_of_mem hwf (by rw [ho]; exact mem_wr_self (get_mem hget))⟩
      · obtain ⟨w, a, b⟩ := h.vars.here y j hy
        have hj : j ≠ id := by
          intro e
          subst e
          have := h.alias x y j (Ne.symm hyx) hx hy
          rw [hw] at this
          cases this
        exact ⟨w, (if_neg hyx).trans a, get_of_mem hwf (by rw [ho]; exact mem_wr (get_mem b) hj)⟩
    · rw [ho] at hm
      have hi' : i < s.objs.length := Nat.lt_of_lt_of_le hi h.base_le
      obtain ⟨o', a, b, c⟩ := wr_get? (id := id) (v := v) (List.getElem?_eq_getElem hi')
      rw [hm] at a
      cases a
      rw [b]
      exact h.low i _ hi (List.getElem?_eq_getElem hi')

/-- A new variable. -/
theorem assign_new {strict : Bool} {fr : Frame} {vf : VFrame} {s s2 : St} {entry base : Nat} {W : List Byte → Bool}
    {x : List Byte} {id : Nat} {v : Val} (h : FI fr vf s entry base W)
    (hx : fr.vars x = none) (ho : s2.objs = s.objs ++ [(id, v)]) (hid : s.next ≤ id) (hn : id < s2.next) :
    BPost strict fr vf s entry base W (fr.set x id, .next) s2 (vf.set x v, none) := by
  have hlt : ∀ o ∈ s.objs, o.1 < id := fun o hm => Nat.lt_of_lt_of_le (h.wf.lt o hm) hid
  have hwf : s2.WF := by
    refine ⟨?_, fun o hm => ?_⟩
    · rw [ho, List.map_append, List.nodup_append]
      refine ⟨h.wf.nodup, by simp, fun a ha b hb => ?_⟩
      obtain ⟨o, hm, e⟩ := List.mem_map.1 ha
      have hb' : b = id := by simpa using hb
      have := hlt o hm
      omega
    · rw [ho] at hm
      rcases List.mem_append.1 hm with a | a
      · exact Nat.lt_trans (hlt o a) hn
      · rw [List.mem_singleton.1 a]; exact hn
  have hbase : base ≤ s2.objs.length := by
    rw [ho, List.length_append]
    exact Nat.le_trans h.base_le (Nat.le_add_right _ _)
  have hidx : ∀ i, i < base → s2.objs[i]? = s.objs[i]? := fun i hi => by
    rw [ho, List.getElem?_append_left (Nat.lt_of_lt_of_le hi h.base_le)]
  have hold : ∀ y j, fr.vars y = some j → (fr.set x id).vars y = some j := fun y j e => by
    have hne : y ≠ x := fun e' => by rw [e', hx] at e; cases e
    exact (if_neg hne).trans e
  have hvar : ∀ y j, fr.vars y = some j → j < id := fun y j e =>
    let ⟨w, _, b⟩ := h.vars.here y j e
    hlt (j, w) (get_mem b)
  have hcase : ∀ y j, (fr.set x id).vars y = some j → (y = x ∧ j = id) ∨ (y ≠ x ∧ fr.vars y = some j) := by
    intro y j e
    by_cases hyx : y = x
    · refine .inl ⟨hyx, ?_⟩
      rw [show (fr.set x id).vars y = some id from if_pos hyx] at e
      cases e; rfl
    · exact .inr ⟨hyx, (if_neg hyx).symm.trans e⟩
  refine ⟨hwf, Nat.le_of_lt (Nat.lt_of_le_of_lt hid hn), fun i o hi hs => ⟨o, (hidx i hi).trans hs, rfl, fun _ => rfl⟩,
    hold, fun y j a b => ?_, fun o hm => ?_, hbase, rfl, .next ?_⟩
  · rcases hcase y j b with ⟨_, e⟩ | ⟨_, e⟩
    · rw [e]; exact hid
    · rw [a] at e; cases e
  · rw [ho] at hm
    rcases List.mem_append.1 hm with a | a
    · exact .inl ⟨o, a, rfl⟩
    · rw [List.mem_singleton.1 a]; exact .inr hid
  · refine ⟨hwf, ⟨h.vars.trace, fun y hy => ?_, fun y j hy => ?_⟩, fun y j hp hy => ?_, fun y z j hyz hy hz => ?_,
      fun i o hi hm => h.low i o hi ((hidx i hi) ▸ hm), hbase, ?_⟩
    · by_cases hyx : y = x
      · rw [show (fr.set x id).vars y = some id from if_pos hyx] at hy
        cases hy
      · rw [show (fr.set x id).vars y = fr.vars y from if_neg hyx] at hy
        exact (if_neg hyx).trans (h.vars.gone y hy)
    · rcases hcase y j hy with ⟨e1, e2⟩ | ⟨e1, e2⟩
      · subst e1; subst e2
        exact ⟨v, if_pos rfl, get_of_mem hwf (by rw [ho]; exact List.mem_append_right _ (List.mem_singleton.2 rfl))⟩
      · obtain ⟨w, a, b⟩ := h.vars.here y j e2
        exact ⟨w, (if_neg e1).trans a, get_of_mem hwf (by rw [ho]; exact List.mem_append_left _ (get_mem b))⟩
    · rcases hcase y j hy with ⟨_, e⟩ | ⟨_, e⟩
      · rw [e]; exact Nat.le_trans h.entry_le hid
      · exact h.own y j hp e
    · rcases hcase y j hy with ⟨a1, e1⟩ | ⟨_, e1⟩
      · rcases hcase z j hz with ⟨a2, e2⟩ | ⟨_, e2⟩
        · exact absurd (a1.trans a2.symm) hyz
        · have := hvar z j e2; omega
      · rcases hcase z j hz with ⟨_, e2⟩ | ⟨_, e2⟩
        · have := hvar y j e1; omega
        · exact h.alias y z j hyz e1 e2
    · exact Nat.le_trans h.entry_le (Nat.le_of_lt (Nat.lt_of_le_of_lt hid hn))

/-- What the specification does for an assignment. -/
def vassign (strict : Bool) (vf : VFrame) (x : List Byte) (g : Value) (out : List Event) : VRun VFrame :=
  (hand strict g out).bind fun v out =>
    match vf.vars x with
    | some old => if old.ty = v.ty then .ok (vf.set x v) out else .stop .wrong
    | none => .ok (vf.set x v) out

theorem take_append_len {a b : List α} : (a ++ b).take a.length = a := List.take_left

theorem assign_sim {strict : Bool} {fr : Frame} {vf : VFrame} {s s1 : St} {entry base : Nat} {W : List Byte → Bool}
    {x : List Byte} {p : Option Ptr} {g : Value} {out : List Event} (h : FI fr vf s entry base W) (hw : W x = true)
    (hp : Post strict fr.isVar s s1 p g) (ho : s1.out = out) :
    Sim strict (fun fr' s2 vf' => BPost strict fr vf s entry base W (fr', .next) s2 (vf', none))
      (assignVar s.objs.length fr x p s1) (vassign strict vf x g out) := by
  have hag := hp.agrees
  have hpre := hp.ext.pre
  have hcut := hp.ext.cut h.wf
  unfold vassign hand
  cases hv : g.val with
  | none =>
    rw [hv] at hag
    cases p with
    | none => exact .wrong
    | some q => exact hag.elim
  | some v =>
    dsimp only
    rw [hv] at hag
    cases p with
    | none => exact hag.elim
    | some q =>
      by_cases hm : mayHand strict v g.borrowed = true
      · rw [if_pos hm]
        have hfun := mayHand_fun hm
        show Sim strict _ _ (match vf.vars x with
          | some old => if old.ty = v.ty then .ok (vf.set x v) out else .stop .wrong
          | none => .ok (vf.set x v) out)
        unfold assignVar
        dsimp only
        cases hx : fr.vars x with
        | some id =>
          obtain ⟨old, hold, hget⟩ := h.vars.here x id hx
          rw [hold]
          dsimp only
          have hget1 := hp.ext.get hget
          unfold move
          rw [hget1]
          cases hr : s1.read q with
          | none =>
            cases hst : strict with
            | false => exact .ub rfl
            | true =>
              obtain ⟨w, hw'⟩ := hp.live hst q rfl
              rw [hr] at hw'; cases hw'
          | some w =>
            have : w = v := hag w hr
            subst this
            dsimp only
            by_cases hty : old.ty = w.ty
            · rw [if_neg (fun e => e hty), if_neg hfun, if_pos hty]
              have hbase : (wr id w s1.objs).take s.objs.length = wr id w s.objs := by
                rw [wr_take]
                exact congrArg (wr id w) hcut.objs
              cases q with
              | static u =>
                refine .ok ho ?_
                exact assign_old h hw hx hbase hp.ext.mono
              | obj j =>
                refine .ok ho ?_
                refine assign_old h hw hx ?_ hp.ext.mono
                show (wr j w.movedFrom (wr id w s1.objs)).take s.objs.length = wr id w s.objs
                by_cases hstr : w.ty = .str
                · rw [wr_take, hbase]
                  refine wr_none fun o hm' => ?_
                  have hj := hp.fresh (mayHand_str hm hstr) j rfl
                  have hlt : o.1 < s.next := by
                    rcases wr_mem hm' with a | ⟨a, u, b⟩
                    · exact h.wf.lt o a.1
                    · rw [a]; exact h.wf.lt (id, u) b
                  omega
                · rw [movedFrom_eq hstr]
                  have hj : (s1.write id w).get j = some w := by
                    by_cases hji : j = id
                    · rw [hji]; exact write_get_self hp.ext.wf hget1
                    · exact write_get_ne hp.ext.wf hr hji
                  have := wr_same (wr_wf hp.ext.wf id w) hj
                  rw [show (s1.write id w).objs = wr id w s1.objs from rfl] at this
                  rw [this, hbase]
            · rw [if_pos hty, if_neg hty]
              exact .wrong
        | none =>
          rw [h.vars.gone x hx]
          dsimp only
          by_cases ht : s1.onTop q = true
          · rw [if_pos ht]
            cases q with
            | static u => cases ht
            | obj j =>
              obtain ⟨w, hl⟩ := onTop_last ht
              have hj : s1.get j = some w := get_of_mem hp.ext.wf (List.mem_of_getLast? hl)
              have : w = v := hag w hj
              subst this
              obtain ⟨t, et⟩ := hpre
              unfold cutBelowTop
              rw [hl]
              dsimp only
              by_cases hlen : s1.objs.length ≤ s.objs.length
              · rw [if_pos hlen]
                cases hst : strict with
                | false => exact .ub rfl
                | true =>
                  subst hst
                  exfalso
                  have hfr := hp.fresh (mayHand_strict hm) j rfl
                  have ht0 : t = [] := by
                    have := congrArg List.length et
                    rw [List.length_append] at this
                    exact List.length_eq_zero_iff.1 (by omega)
                  rw [ht0, List.append_nil] at et
                  have := h.wf.lt (j, w) (et ▸ List.mem_of_getLast? hl)
                  dsimp only at this
                  omega
              · rw [if_neg hlen]
                by_cases h1 : s1.objs.length = s.objs.length + 1
                · rw [if_pos h1]
                  have hlt : t.length = 1 := by
                    have := congrArg List.length et
                    rw [List.length_append] at this
                    omega
                  obtain ⟨o, rfl⟩ := List.length_eq_one_iff.1 hlt
                  have ho1 : o = (j, w) := by
                    rw [← et, List.getLast?_append] at hl
                    simpa using hl
                  subst ho1
                  refine .ok ho (assign_new h hx et.symm ?_ (hp.bound j rfl))
                  rcases hp.ext.new (j, w) (get_mem hj) with a | a
                  · exfalso
                    have hnd := hp.ext.wf.nodup
                    rw [← et, List.map_append, List.nodup_append] at hnd
                    exact hnd.2.2 j (List.mem_map_of_mem (f := Prod.fst) a) j (by simp) rfl
                  · exact a
                · rw [if_neg h1]
                  refine .ok ho (assign_new (id := s1.next) h hx ?_ hp.ext.mono (Nat.lt_succ_self _))
                  show s1.objs.take s.objs.length ++ [(s1.next, w)] = _
                  rw [show s1.objs.take s.objs.length = s.objs from hcut.objs]
          · rw [if_neg ht]
            cases hr : (s1.cut s.objs.length).read q with
            | none =>
              cases hst : strict with
              | false => exact .ub rfl
              | true =>
                subst hst
                exfalso
                cases q with
                | static u => cases hr
                | obj j => exact ht (hp.top rfl (mayHand_strict hm) j rfl)
            | some w =>
              have hr1 : s1.read q = some w := by
                cases q with
                | static u => exact hr
                | obj j =>
                  have : s.get j = some w := (hcut.get j).symm.trans hr
                  exact hp.ext.get this
              have : w = v := hag w hr1
              subst this
              dsimp only
              rw [if_neg hfun]
              refine push_sim hcut.wf fun s' ho' hn' hout he hg htop => ?_
              have hobj : s'.objs = s.objs ++ [(s1.next, w)] := ho'.trans (by rw [hcut.objs]; rfl)
              have hnx : s1.next < s'.next := by rw [hn']; exact Nat.lt_succ_self _
              cases q with
              | static u =>
                refine .ok (hout.trans ho) ?_
                exact assign_new h hx hobj hp.ext.mono hnx
              | obj j =>
                refine .ok (hout.trans ho) ?_
                have hj0 : s.get j = some w := (hcut.get j).symm.trans hr
                have hjlt := h.wf.lt (j, w) (get_mem hj0)
                have hstr : w.ty ≠ .str := fun e => by
                  have := hp.fresh (mayHand_str hm e) j rfl
                  dsimp only at hjlt
                  omega
                refine assign_new h hx ?_ hp.ext.mono hnx
                show wr j w.movedFrom s'.objs = _
                rw [movedFrom_eq hstr, wr_same he.wf (he.get hr), hobj]
                rfl
      · rw [if_neg hm]
        exact .unspec

end Verif.Crowbar
