import Verif.Ref.ModelAtomic
/-!
# Reference counting by several threads — theorems (property C70)
-/
namespace Verif.Ref.Atomic

theorem sum_inc (l : List Nat) (t : Nat) (h : t < l.length) : (inc l t).sum = l.sum + 1 := by
  unfold inc
  induction l generalizing t with
  | nil => simp at h
  | cons x l ih =>
    cases t with
    | zero => simp; omega
    | succ t =>
      have := ih t (by simpa using h)
      simp only [List.getD_cons_succ, List.set_cons_succ, List.sum_cons]
      omega

theorem sum_dec (l : List Nat) (t : Nat) (h : 0 < l.getD t 0) : (dec l t).sum + 1 = l.sum := by
  unfold dec
  induction l generalizing t with
  | nil => simp at h
  | cons x l ih =>
    cases t with
    | zero => simp at h ⊢; omega
    | succ t =>
      have := ih t (by simpa using h)
      simp only [List.getD_cons_succ, List.set_cons_succ, List.sum_cons]
      omega

theorem getD_lt (l : List Nat) (t : Nat) (h : 0 < l.getD t 0) : t < l.length := by
  rw [List.getD_eq_getElem?_getD] at h
  by_cases ht : t < l.length
  · exact ht
  · rw [List.getElem?_eq_none (by omega)] at h; simp at h

theorem count_set (l : List Bool) (t : Nat) (h : t < l.length) (b : Bool) :
    (l.set t b).count true + (l.getD t false).toNat = l.count true + b.toNat := by
  induction l generalizing t with
  | nil => simp at h
  | cons x l ih =>
    cases t with
    | zero => cases x <;> cases b <;> simp
    | succ t =>
      have := ih t (by simpa using h)
      simp only [List.getD_cons_succ, List.set_cons_succ, List.count_cons]
      omega

/-- All references together. -/
def St.total (st : St) : Nat := st.held.sum

/-- The invariant. -/
structure Inv (st : St) : Prop where
  good : st.bad = false
  count : st.count = (st.total : Int)
  zero : st.zero.count true + st.dead.toNat = if st.total = 0 then 1 else 0
  len : st.zero.length = st.held.length

theorem sum_zeros (n : Nat) : (List.replicate n 0).sum = 0 := by
  induction n with
  | zero => rfl
  | succ n ih => rw [List.replicate_succ, List.sum_cons, ih]

theorem inv_start (n : Nat) : Inv (start n) := by
  have h : (start n).total = 1 := by simp [St.total, start]
  refine ⟨rfl, by rw [h]; rfl, by rw [h]; simp [start, List.count_replicate], by simp [start]⟩

theorem inv_step (st st' : St) (a : Act) (h : Inv st) (hs : st.total < 65535) (he : step st a = some st') :
    Inv st' := by
  have hc := h.count
  have hz := h.zero
  cases a with
  | copy t =>
    rw [step] at he
    split at he
    · rename_i hg
      cases he
      have hlt := getD_lt _ _ hg.1
      have h1 := sum_dec _ _ hg.1
      have hpos : st.total ≠ 0 := by unfold St.total; omega
      rw [if_neg hpos] at hz
      have hd : st.dead = false := by cases hd : st.dead <;> simp [hd] at hz ⊢
      refine ⟨?_, ?_, ?_, ?_⟩
      · simp [h.good, hd]; omega
      · show st.count + 1 = (((inc st.held t).sum : Nat) : Int)
        rw [sum_inc _ _ hlt]; unfold St.total at hc; omega
      · show st.zero.count true + st.dead.toNat = if (inc st.held t).sum = 0 then 1 else 0
        rw [sum_inc _ _ hlt, if_neg (by omega)]; exact hz
      · show st.zero.length = (inc st.held t).length
        rw [h.len]; simp [inc]
    · cases he
  | use t =>
    rw [step] at he
    split at he
    · rename_i hg
      cases he
      have h1 := sum_dec _ _ hg.1
      have hpos : st.total ≠ 0 := by unfold St.total; omega
      have hz' := hz
      rw [if_neg hpos] at hz'
      have hd : st.dead = false := by cases hd : st.dead <;> simp [hd] at hz' ⊢
      exact ⟨by simp [h.good, hd], hc, hz, h.len⟩
    · cases he
  | give t u =>
    rw [step] at he
    split at he
    · rename_i hg
      cases he
      have h1 := sum_dec _ _ hg.1
      have hlen : (dec st.held t).length = st.held.length := by simp [dec]
      have hs : (inc (dec st.held t) u).sum = st.held.sum := by
        rw [sum_inc _ _ (by rw [hlen]; exact hg.2.2)]; omega
      refine ⟨h.good, ?_, ?_, ?_⟩
      · show st.count = (((inc (dec st.held t) u).sum : Nat) : Int)
        rw [hs]; exact hc
      · show st.zero.count true + st.dead.toNat = if (inc (dec st.held t) u).sum = 0 then 1 else 0
        rw [hs]; exact hz
      · show st.zero.length = (inc (dec st.held t) u).length
        rw [h.len]; simp [inc, dec]
    · cases he
  | drop t =>
    rw [step] at he
    split at he
    · rename_i hg
      cases he
      have hlt := getD_lt _ _ hg.1
      have h1 := sum_dec _ _ hg.1
      have hpos : st.total ≠ 0 := by unfold St.total; omega
      rw [if_neg hpos] at hz
      have hd : st.dead = false := by cases hd : st.dead <;> simp [hd] at hz ⊢
      have hcs := count_set st.zero t (by rw [h.len]; exact hlt) (decide (st.count = 1))
      rw [hg.2] at hcs
      refine ⟨?_, ?_, ?_, ?_⟩
      · simp [h.good, hd]; omega
      · show st.count - 1 = (((dec st.held t).sum : Nat) : Int)
        unfold St.total at hc; omega
      · show (st.zero.set t (decide (st.count = 1))).count true + st.dead.toNat =
          if (dec st.held t).sum = 0 then 1 else 0
        unfold St.total at hc
        by_cases hc1 : st.count = 1
        · rw [if_pos (by omega)]
          simp only [hc1, decide_true, Bool.toNat_true, Bool.toNat_false] at hcs ⊢
          omega
        · rw [if_neg (by omega)]
          simp only [hc1, decide_false, Bool.toNat_false] at hcs ⊢
          omega
      · show (st.zero.set t (decide (st.count = 1))).length = (dec st.held t).length
        simp [dec, h.len]
    · cases he
  | destroy t =>
    rw [step] at he
    split at he
    · rename_i hg
      cases he
      have hlt : t < st.zero.length := by
        by_cases ht : t < st.zero.length
        · exact ht
        · rw [List.getD_eq_getElem?_getD, List.getElem?_eq_none (by omega)] at hg; simp at hg
      have hcs := count_set st.zero t hlt false
      rw [hg] at hcs
      simp only [Bool.toNat_true, Bool.toNat_false] at hcs
      have hd : st.dead = false := by
        cases hd : st.dead with
        | false => rfl
        | true => rw [hd] at hz; simp only [Bool.toNat_true] at hz; split at hz <;> omega
      have ht : st.total = 0 := by
        by_cases ht : st.total = 0
        · exact ht
        · rw [if_neg ht] at hz; omega
      rw [hd, if_pos ht] at hz
      simp only [Bool.toNat_false] at hz
      refine ⟨by simp [h.good, hd], hc, ?_, by simp [h.len]⟩
      show (st.zero.set t false).count true + (true : Bool).toNat = if st.total = 0 then 1 else 0
      rw [if_pos ht]
      simp only [Bool.toNat_true]
      omega
    · cases he

/-- There are never too many references. -/
def Small (st : St) : List Act → Prop
  | [] => True
  | a :: as => st.total < 65535 ∧ ∀ st', step st a = some st' → Small st' as

theorem inv_run (acts : List Act) (st st' : St) (h : Inv st) (hs : Small st acts) (he : run st acts = some st') :
    Inv st' := by
  induction acts generalizing st with
  | nil => cases he; exact h
  | cons a as ih =>
    rw [run] at he
    cases hst : step st a with
    | none => rw [hst] at he; cases he
    | some s =>
      rw [hst] at he
      exact ih s (inv_step st s a h hs.1 hst) (hs.2 s hst) he

/-- **C70**: threads that copy, use, hand over and give up references in any order never touch a deleted
object and never delete it twice (nor does an assertion fail).  As long as anyone holds a reference, the
object exists and nobody is about to delete it; when the last reference is gone, it is deleted or exactly one
thread is about to do that. -/
theorem C70_threads (n : Nat) (acts : List Act) (st : St) (hs : Small (start n) acts)
    (h : run (start n) acts = some st) :
    st.bad = false ∧ st.count = (st.held.sum : Int) ∧
      (0 < st.held.sum → st.dead = false ∧ true ∉ st.zero) ∧
      (st.held.sum = 0 → (st.dead = true ∧ true ∉ st.zero) ∨ (st.dead = false ∧ st.zero.count true = 1)) := by
  have hi := inv_run acts _ _ (inv_start n) hs h
  have hz := hi.zero
  unfold St.total at hz
  refine ⟨hi.good, hi.count, fun hp => ?_, fun h0 => ?_⟩
  · rw [if_neg (by omega)] at hz
    refine ⟨?_, ?_⟩
    · cases hd : st.dead <;> simp [hd] at hz ⊢
    · rw [← List.count_eq_zero]; omega
  · rw [if_pos h0] at hz
    cases hd : st.dead with
    | true =>
      rw [hd] at hz
      simp only [Bool.toNat_true] at hz
      exact .inl ⟨rfl, by rw [← List.count_eq_zero]; omega⟩
    | false =>
      rw [hd] at hz
      simp only [Bool.toNat_false] at hz
      exact .inr ⟨rfl, by omega⟩

example : run (start 1) [.copy 0, .give 0 1, .use 1, .drop 0, .drop 1, .destroy 1] =
    some ⟨0, true, [0, 0], [false, false], false⟩ := by decide

/-! ## Strong and weak references -/

/-- **C70** fails for `DualRefCounted` between threads: one thread gives up the last strong reference; before
it has called `onPartialRefCountZero`, another one gives up the last weak reference and deletes the object
(with the assertion that the first call was made failing); the first thread then works on a deleted object. -/
theorem C70_dual_race :
    ∃ st, dualRun (dualStart 1) [.copyWeak 0 1, .drop 0, .dropWeak 1, .go 1] = some st ∧
      st.dead = true ∧ st.partialDone = false ∧ st.bad = true ∧ st.next = [some (.partly false), none] :=
  ⟨_, rfl, by decide, by decide, by decide, by decide⟩

/-- The calls that follow from an operation, made before anything else happens. -/
def finish (st : Dual) (t : Nat) : Dual :=
  match dualStep st (.go t) with
  | none => st
  | some st1 => match dualStep st1 (.go t) with
    | none => st1
    | some st2 => st2

/-- An operation with all it entails. -/
def whole (st : Dual) (a : DualAct) : Option Dual :=
  match a with
  | .copy _ _ => dualStep st a
  | .copyWeak _ _ => dualStep st a
  | .drop t => (dualStep st a).map fun s => finish s t
  | .dropWeak t => (dualStep st a).map fun s => finish s t
  | .go _ => none

/-- A sequence of operations. -/
def wholeRun (st : Dual) : List DualAct → Option Dual
  | [] => some st
  | a :: as => match whole st a with
    | none => none
    | some st => wholeRun st as

/-- The invariant for strong and weak references. -/
structure DualInv (st : Dual) : Prop where
  good : st.bad = false
  word : st.word = st.strong.sum + 65536 * st.weak.sum
  idle : ∀ c ∈ st.next, c = none
  part : st.partialDone = decide (st.strong.sum = 0)
  dead : st.dead = decide (st.strong.sum = 0 ∧ st.weak.sum = 0)
  len : st.weak.length = st.strong.length ∧ st.next.length = st.strong.length

/-- There are never too many references. -/
def DualSmall (st : Dual) : Prop := st.strong.sum < 32767 ∧ st.weak.sum < 32767

theorem idle_set {l : List (Option Call)} (h : ∀ c ∈ l, c = none) (t : Nat) (c : Option Call) (hc : c = none) :
    ∀ d ∈ l.set t c, d = none := by
  intro d hd
  rcases List.mem_or_eq_of_mem_set hd with hd | rfl
  · exact h d hd
  · exact hc

theorem getD_set (l : List (Option Call)) (t : Nat) (c : Option Call) (h : t < l.length) :
    (l.set t c).getD t none = c := by
  rw [List.getD_eq_getElem?_getD, List.getElem?_set_self h]; rfl

theorem getD_idle {l : List (Option Call)} (h : ∀ c ∈ l, c = none) (t : Nat) : l.getD t none = none := by
  rw [List.getD_eq_getElem?_getD]
  cases hg : l[t]? with
  | none => rfl
  | some c => exact h c (List.mem_of_getElem? hg)

theorem dual_inv_step (st st' : Dual) (a : DualAct) (h : DualInv st) (hs : DualSmall st)
    (he : whole st a = some st') : DualInv st' := by
  obtain ⟨s1, s2⟩ := hs
  have hw := h.word
  have hpa := h.part
  have hde := h.dead
  cases a with
  | go t => cases he
  | copy t u =>
    rw [whole, dualStep] at he
    split at he
    · rename_i hg
      injection he with he; subst he
      have h1 := sum_dec _ _ hg.1
      have h2 := sum_inc st.strong u hg.2.2
      refine ⟨?_, ?_, h.idle, ?_, ?_, ?_⟩
      · have : ¬ (32767 ≤ st.word % 65536) := by omega
        simp [h.good, hde, this]; omega
      · show (st.word + 1) % 2 ^ 32 = (inc st.strong u).sum + 65536 * st.weak.sum
        omega
      · show st.partialDone = decide ((inc st.strong u).sum = 0)
        rw [hpa, h2]; simp; omega
      · show st.dead = decide ((inc st.strong u).sum = 0 ∧ st.weak.sum = 0)
        rw [hde, h2]; simp; omega
      · exact ⟨by simp [inc, h.len.1], by simp [inc, h.len.2]⟩
    · cases he
  | copyWeak t u =>
    rw [whole, dualStep] at he
    split at he
    · rename_i hg
      injection he with he; subst he
      have h1 := sum_dec _ _ hg.1
      have h2 := sum_inc st.weak u hg.2.2
      refine ⟨?_, ?_, h.idle, hpa, ?_, ?_⟩
      · have : ¬ (st.word % 65536 = 0) ∧ ¬ (32767 ≤ st.word / 65536) := by omega
        simp [h.good, hde, this]; omega
      · show (st.word + 65536) % 2 ^ 32 = st.strong.sum + 65536 * (inc st.weak u).sum
        omega
      · show st.dead = decide (st.strong.sum = 0 ∧ (inc st.weak u).sum = 0)
        rw [hde, h2]; simp; omega
      · exact ⟨by simp [inc, h.len.1], by simp [h.len.2]⟩
    · cases he
  | drop t =>
    rw [whole, dualStep] at he
    split at he
    · rename_i hg
      have h1 := sum_dec _ _ hg.1
      have hlt := getD_lt _ _ hg.1
      have hlt2 : t < st.next.length := by rw [h.len.2]; exact hlt
      have hmod : st.word % 65536 = st.strong.sum := by omega
      have hdead : st.dead = false := by rw [hde]; simp; omega
      have hbad : (st.bad || st.dead || decide (st.word % 65536 = 0) || decide (32767 ≤ st.word % 65536)) =
          false := by
        have : ¬ (st.word % 65536 = 0) ∧ ¬ (32767 ≤ st.word % 65536) := by omega
        simp [h.good, hdead, this]
      have hword : (st.word + (2 ^ 32 - 1)) % 2 ^ 32 = (dec st.strong t).sum + 65536 * st.weak.sum := by omega
      rw [hbad] at he
      by_cases hlast : st.strong.sum = 1
      · rw [if_pos (by omega)] at he
        have hz : (dec st.strong t).sum = 0 := by omega
        by_cases hfull : st.word = 1
        · have hwz : st.weak.sum = 0 := by omega
          simp only [hfull, decide_true, Option.map_some, finish, dualStep, getD_set _ _ _ hlt2,
            List.set_set, if_true] at he
          injection he with he; subst he
          refine ⟨by simp [hdead], ?_, idle_set h.idle t none rfl, ?_, ?_, ?_⟩
          · show _ = (dec st.strong t).sum + 65536 * st.weak.sum
            rw [hz, hwz]
          · show true = decide ((dec st.strong t).sum = 0)
            rw [hz]; rfl
          · show true = decide ((dec st.strong t).sum = 0 ∧ st.weak.sum = 0)
            rw [hz, hwz]; rfl
          · exact ⟨by simp [dec, h.len.1], by simp [dec, h.len.2]⟩
        · have hwz : st.weak.sum ≠ 0 := by omega
          simp only [hfull, decide_false, Option.map_some, finish, dualStep, getD_set _ _ _ hlt2,
            List.set_set, Bool.false_eq_true, if_false] at he
          injection he with he; subst he
          refine ⟨by simp [hdead], hword, idle_set h.idle t none rfl, ?_, ?_, ?_⟩
          · show true = decide ((dec st.strong t).sum = 0)
            rw [hz]; rfl
          · show st.dead = decide ((dec st.strong t).sum = 0 ∧ st.weak.sum = 0)
            rw [hdead]; simp [hwz]
          · exact ⟨by simp [dec, h.len.1], by simp [dec, h.len.2]⟩
      · rw [if_neg (by omega)] at he
        simp only [Option.map_some, finish, dualStep, getD_set _ _ _ hlt2] at he
        injection he with he; subst he
        refine ⟨rfl, hword, idle_set h.idle t none rfl, ?_, ?_, ?_⟩
        · show st.partialDone = decide ((dec st.strong t).sum = 0)
          rw [hpa]; simp; omega
        · show st.dead = decide ((dec st.strong t).sum = 0 ∧ st.weak.sum = 0)
          rw [hdead]; simp; omega
        · exact ⟨by simp [dec, h.len.1], by simp [dec, h.len.2]⟩
    · cases he
  | dropWeak t =>
    rw [whole, dualStep] at he
    split at he
    · rename_i hg
      have h1 := sum_dec _ _ hg.1
      have hlt := getD_lt _ _ hg.1
      have hlt2 : t < st.next.length := by rw [h.len.2, ← h.len.1]; exact hlt
      have hdiv : st.word / 65536 = st.weak.sum := by omega
      have hdead : st.dead = false := by rw [hde]; simp; omega
      have hbad : (st.bad || st.dead || decide (st.word / 65536 = 0) || decide (32767 ≤ st.word / 65536)) =
          false := by
        have : ¬ (st.word / 65536 = 0) ∧ ¬ (32767 ≤ st.word / 65536) := by omega
        simp [h.good, hdead, this]
      have hword : (st.word + (2 ^ 32 - 65536)) % 2 ^ 32 = st.strong.sum + 65536 * (dec st.weak t).sum := by
        omega
      rw [hbad] at he
      by_cases hfull : st.word / 65536 = 1 ∧ st.word = 65536
      · rw [if_pos hfull] at he
        have hsz : st.strong.sum = 0 := by omega
        have hwz : (dec st.weak t).sum = 0 := by omega
        have hpd : st.partialDone = true := by rw [hpa, hsz]; rfl
        simp only [Option.map_some, finish, dualStep, getD_set _ _ _ hlt2, List.set_set] at he
        injection he with he; subst he
        refine ⟨by simp [hdead, hpd], hword, idle_set h.idle t none rfl, hpa, ?_, ?_⟩
        · show true = decide (st.strong.sum = 0 ∧ (dec st.weak t).sum = 0)
          rw [hsz, hwz]; rfl
        · exact ⟨by simp [dec, h.len.1], by simp [h.len.2]⟩
      · rw [if_neg hfull] at he
        simp only [Option.map_some, finish, dualStep, getD_set _ _ _ hlt2] at he
        injection he with he; subst he
        refine ⟨rfl, hword, idle_set h.idle t none rfl, hpa, ?_, ?_⟩
        · show st.dead = decide (st.strong.sum = 0 ∧ (dec st.weak t).sum = 0)
          rw [hdead]; simp; omega
        · exact ⟨by simp [dec, h.len.1], by simp [h.len.2]⟩
    · cases he

/-- There are never too many references on the way. -/
def DualSmallAlong (st : Dual) : List DualAct → Prop
  | [] => True
  | a :: as => DualSmall st ∧ ∀ st', whole st a = some st' → DualSmallAlong st' as

/-- **C70**: if every operation is completed before the next one begins, strong and weak references work: the
contents are given up exactly when there is no strong reference any more, the object itself is deleted exactly
when there is no reference at all, the contents before the object, each once, and nobody works on a deleted
object.  (Partial: not so between threads, see `C70_dual_race`.) -/
theorem C70_dual_partial (n : Nat) (acts : List DualAct) (st : Dual) (hs : DualSmallAlong (dualStart n) acts)
    (h : wholeRun (dualStart n) acts = some st) :
    st.bad = false ∧ st.partialDone = decide (st.strong.sum = 0) ∧
      st.dead = decide (st.strong.sum = 0 ∧ st.weak.sum = 0) ∧
      st.word = st.strong.sum + 65536 * st.weak.sum := by
  have key : ∀ acts st0, DualInv st0 → DualSmallAlong st0 acts → wholeRun st0 acts = some st → DualInv st := by
    intro acts
    induction acts with
    | nil => intro st0 hi _ he; cases he; exact hi
    | cons a as ih =>
      intro st0 hi hs he
      rw [wholeRun] at he
      cases hst : whole st0 a with
      | none => rw [hst] at he; cases he
      | some s =>
        rw [hst] at he
        exact ih s (dual_inv_step st0 s a hi hs.1 hst) (hs.2 s hst) he
  have h0 : DualInv (dualStart n) := by
    have e1 : (dualStart n).strong.sum = 1 := by simp [dualStart]
    have e2 : (dualStart n).weak.sum = 0 := by
      show (List.replicate (n + 1) 0).sum = 0
      exact sum_zeros _
    refine ⟨rfl, by rw [e1, e2]; rfl, ?_, by rw [e1]; rfl, by rw [e1]; rfl, by simp [dualStart]⟩
    intro c hc
    exact (List.mem_replicate.1 hc).2
  have hi := key acts _ h0 hs h
  exact ⟨hi.good, hi.part, hi.dead, hi.word⟩

example : wholeRun (dualStart 1) [.copyWeak 0 1, .copy 0 1, .drop 0, .drop 1, .dropWeak 1] =
    some ⟨0, true, true, [0, 0], [0, 0], [none, none], false⟩ := by decide +kernel

end Verif.Ref.Atomic
