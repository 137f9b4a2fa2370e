import Verif.Crowbar.SpecInterp

/-! The Crowbar interpreter: more nesting allowed changes nothing, and what a call leaves on the stack. -/

namespace Verif.Crowbar
open Verif

/-! ### The bound on nesting, in the model -/

/-- The second run is the first one unless that was cut short. -/
def Le (r r' : Run α) : Prop := r = .stop .fuel ∨ r' = r

theorem Le.refl (r : Run α) : Le r r := .inr rfl

theorem Le.bind {r r' : Run α} {f f' : α → St → Run β} (h : Le r r') (k : ∀ a s, Le (f a s) (f' a s)) :
    Le (r.bind f) (r'.bind f') := by
  rcases h with h | h
  · rw [h]; exact .inl rfl
  · rw [h]
    cases r with
    | ok a s => exact k a s
    | err s => exact .inr rfl
    | stop w => exact .inr rfl

theorem Le.leaveErr {r r' : Run α} (h : Le r r') (base : Nat) : Le (leaveErr base r) (leaveErr base r') := by
  rcases h with h | h
  · rw [h]; exact .inl rfl
  · rw [h]; exact .inr rfl

variable {outer : List Byte → Option Val}

theorem fuel_mono (outer : List Byte → Option Val) (n : Nat) :
    (∀ fr e s, Le (eval outer n fr e s) (eval outer (n + 1) fr e s)) ∧
    (∀ fr ps acc s, Le (evalPieces outer n fr ps acc s) (evalPieces outer (n + 1) fr ps acc s)) ∧
    (∀ fr es s, Le (evalArgs outer n fr es s) (evalArgs outer (n + 1) fr es s)) ∧
    (∀ tr f ids s, Le (callFunc outer n tr f ids s) (callFunc outer (n + 1) tr f ids s)) ∧
    (∀ fr b s, Le (execBlock outer n fr b s) (execBlock outer (n + 1) fr b s)) := by
  induction n with
  | zero =>
    refine ⟨?_, ?_, ?_, ?_, ?_⟩
    · intro fr e s; exact .inl (by rw [eval])
    · intro fr ps acc s; exact .inl (by rw [evalPieces])
    · intro fr es s; exact .inl (by rw [evalArgs])
    · intro tr f ids s; exact .inl (by rw [callFunc])
    · intro fr b s; exact .inl (by rw [execBlock])
  | succ n ih =>
    obtain ⟨hE, hP, hA, hC, hB⟩ := ih
    refine ⟨?_, ?_, ?_, ?_, ?_⟩
    · intro fr e s
      cases e with
      | null => rw [eval, eval]; exact Le.refl _
      | name x => rw [eval, eval]; exact Le.refl _
      | int v => rw [eval, eval]; exact Le.refl _
      | str ps => rw [eval, eval]; exact Le.bind (hP _ _ _ _) fun _ _ => Le.refl _
      | prop o x => rw [eval, eval]; exact Le.bind (hE _ _ _) fun _ _ => Le.refl _
      | bin op l r =>
        rw [eval, eval]
        exact Le.bind (hE _ _ _) fun _ _ => Le.bind (hE _ _ _) fun _ _ => Le.refl _
      | un op e => rw [eval, eval]; exact Le.bind (hE _ _ _) fun _ _ => Le.refl _
      | call c args =>
        rw [eval, eval]
        refine Le.bind (hE _ _ _) fun p s => Le.bind (hA _ _ _) fun ids s => ?_
        cases deref p s with
        | none => exact Le.refl _
        | some w =>
          cases w with
          | func f => exact hC _ _ _ _
          | _ => exact Le.refl _
    · intro fr ps acc s
      cases ps with
      | nil => rw [evalPieces, evalPieces]; exact Le.refl _
      | cons pc ps =>
        obtain ⟨lit, e⟩ := pc
        rw [evalPieces, evalPieces]
        split
        · exact hP _ _ _ _
        · refine Le.bind (hE _ _ _) fun p s => ?_
          cases (deref p s).bind valText with
          | none => exact Le.refl _
          | some t => exact hP _ _ _ _
    · intro fr es s
      cases es with
      | nil => rw [evalArgs, evalArgs]; exact Le.refl _
      | cons e es =>
        rw [evalArgs, evalArgs]
        exact Le.bind (hE _ _ _) fun _ _ => Le.bind (Le.refl _) fun _ _ => Le.bind (hA _ _ _) fun _ _ => Le.refl _
    · intro tr f ids s
      rw [callFunc, callFunc]
      split
      · exact Le.refl _
      · cases f.body with
        | none => exact Le.refl _
        | some body => exact Le.leaveErr (Le.bind (hB _ _ _) fun _ _ => Le.refl _) _
    · intro fr b s
      cases b with
      | nil => rw [execBlock, execBlock]; exact Le.refl _
      | cons st rest =>
        have hthen : ∀ (r : Frame × Flow) (s' : St) (rest : List Stmt), Le
            (match r.2 with | .next => execBlock outer n r.1 rest s' | .ret p => .ok (r.1, .ret p) s')
            (match r.2 with | .next => execBlock outer (n + 1) r.1 rest s' | .ret p => .ok (r.1, .ret p) s') := by
          intro r s' rest
          cases r.2 with
          | next => exact hB _ _ _
          | ret p => exact Le.refl _
        cases st with
        | if_ c t f =>
          rw [execBlock, execBlock]
          refine Le.bind (hE _ _ _) fun p s' => ?_
          cases asCond p s' with
          | none => exact Le.refl _
          | some b =>
            cases t with
            | none => exact Le.refl _
            | some tb => exact Le.bind (hB _ _ _) fun r s' => hthen r s' rest
        | while_ c b =>
          rw [execBlock, execBlock]
          refine Le.bind (hE _ _ _) fun p s' => ?_
          cases asCond p s' with
          | none => exact Le.refl _
          | some b' =>
            cases b' with
            | false => exact hB _ _ _
            | true =>
              cases b with
              | none => exact Le.refl _
              | some body => exact Le.bind (hB _ _ _) fun r s' => hthen r s' _
        | assign l r =>
          rw [execBlock, execBlock]
          cases l.asName with
          | some x => exact Le.bind (hE _ _ _) fun _ _ => Le.bind (Le.refl _) fun _ _ => hB _ _ _
          | none =>
            exact Le.bind (hE _ _ _) fun _ _ => Le.bind (hE _ _ _) fun _ _ => Le.bind (Le.refl _) fun _ _ => hB _ _ _
        | eval e => rw [execBlock, execBlock]; exact Le.bind (hE _ _ _) fun _ _ => hB _ _ _
        | ret e => rw [execBlock, execBlock]; exact Le.bind (hE _ _ _) fun _ _ => Le.refl _
        | func a b c => rw [execBlock, execBlock]; exact Le.refl _

theorem callFunc_mono {n m : Nat} (h : n ≤ m) (tr : List (List Byte)) (f : Func) (ids : List Nat) (s : St) :
    Le (callFunc outer n tr f ids s) (callFunc outer m tr f ids s) := by
  induction m with
  | zero =>
    have : n = 0 := by omega
    subst this
    exact Le.refl _
  | succ m ih =>
    by_cases e : n = m + 1
    · subst e; exact Le.refl _
    · rcases ih (by omega) with h' | h'
      · exact .inl h'
      · rcases (fuel_mono outer m).2.2.2.1 tr f ids s with h2 | h2
        · exact .inl (h' ▸ h2)
        · exact .inr (h2.trans h')

/-! ### The bound on nesting and strictness, in the specification -/

/-- The second run is the first one unless that was cut short or had no strict meaning. -/
def VLe (strict : Bool) (r r' : VRun α) : Prop := r = .stop .fuel ∨ (strict = true ∧ r = .stop .unspec) ∨ r' = r

theorem VLe.refl {strict : Bool} (r : VRun α) : VLe strict r r := .inr (.inr rfl)

theorem VLe.bind {strict : Bool} {r r' : VRun α} {f f' : α → List Event → VRun β} (h : VLe strict r r')
    (k : ∀ a s, VLe strict (f a s) (f' a s)) : VLe strict (r.bind f) (r'.bind f') := by
  rcases h with h | ⟨h1, h⟩ | h
  · rw [h]; exact .inl rfl
  · rw [h]; exact .inr (.inl ⟨h1, rfl⟩)
  · rw [h]
    cases r with
    | ok a s => exact k a s
    | err s => exact VLe.refl _
    | stop w => exact VLe.refl _

theorem hand_le {strict strict' : Bool} (hs : strict' = strict ∨ strict' = false) (g : Value) (out : List Event) :
    VLe strict (hand strict g out) (hand strict' g out) := by
  unfold hand
  cases g.val with
  | none => exact VLe.refl _
  | some v =>
    dsimp only
    rcases hs with e | e
    · rw [e]; exact VLe.refl _
    · subst e
      cases hst : strict with
      | false => exact VLe.refl _
      | true =>
        by_cases hm : mayHand true v g.borrowed = true
        · have : mayHand false v g.borrowed = true := by
            revert hm
            cases v <;> cases g.borrowed <;> intro h <;> first | rfl | cases h
          rw [if_pos hm, if_pos this]; exact VLe.refl _
        · rw [if_neg hm]; exact .inr (.inl ⟨rfl, rfl⟩)

theorem spec_mono {strict strict' : Bool} (hs : strict' = strict ∨ strict' = false)
    (outer : List Byte → Option Val) (n : Nat) : ∀ m, n ≤ m →
    (∀ fr e s, VLe strict (veval strict outer n fr e s) (veval strict' outer m fr e s)) ∧
    (∀ fr ps s, VLe strict (vpieces strict outer n fr ps s) (vpieces strict' outer m fr ps s)) ∧
    (∀ fr es s, VLe strict (vargs strict outer n fr es s) (vargs strict' outer m fr es s)) ∧
    (∀ tr f ids s, VLe strict (vcall strict outer n tr f ids s) (vcall strict' outer m tr f ids s)) ∧
    (∀ fr b s, VLe strict (vblock strict outer n fr b s) (vblock strict' outer m fr b s)) := by
  induction n with
  | zero =>
    intro m _
    refine ⟨?_, ?_, ?_, ?_, ?_⟩
    · intro fr e s; exact .inl (by rw [veval])
    · intro fr ps s; exact .inl (by rw [vpieces])
    · intro fr es s; exact .inl (by rw [vargs])
    · intro tr f ids s; exact .inl (by rw [vcall])
    · intro fr b s; exact .inl (by rw [vblock])
  | succ n ih =>
    intro m hm
    obtain ⟨m, rfl⟩ : ∃ k, m = k + 1 := ⟨m - 1, by omega⟩
    obtain ⟨hE, hP, hA, hC, hB⟩ := ih m (by omega)
    refine ⟨?_, ?_, ?_, ?_, ?_⟩
    · intro fr e s
      cases e with
      | null => rw [veval, veval]; exact VLe.refl _
      | name x => rw [veval, veval]; exact VLe.refl _
      | int v => rw [veval, veval]; exact VLe.refl _
      | str ps => rw [veval, veval]; exact VLe.bind (hP _ _ _) fun _ _ => VLe.refl _
      | prop o x => rw [veval, veval]; exact VLe.bind (hE _ _ _) fun _ _ => VLe.refl _
      | bin op l r =>
        rw [veval, veval]
        exact VLe.bind (hE _ _ _) fun _ _ => VLe.bind (hE _ _ _) fun _ _ => VLe.refl _
      | un op e => rw [veval, veval]; exact VLe.bind (hE _ _ _) fun _ _ => VLe.refl _
      | call c args =>
        rw [veval, veval]
        refine VLe.bind (hE _ _ _) fun g s => VLe.bind (hA _ _ _) fun ids s => ?_
        cases g.val with
        | none => exact VLe.refl _
        | some w =>
          cases w with
          | func f => exact hC _ _ _ _
          | _ => exact VLe.refl _
    · intro fr ps s
      cases ps with
      | nil => rw [vpieces, vpieces]; exact VLe.refl _
      | cons pc ps =>
        obtain ⟨lit, e⟩ := pc
        rw [vpieces, vpieces]
        split
        · exact VLe.bind (hP _ _ _) fun _ _ => VLe.refl _
        · refine VLe.bind (hE _ _ _) fun g s => ?_
          cases g.val.bind Val.text with
          | none => exact VLe.refl _
          | some t => exact VLe.bind (hP _ _ _) fun _ _ => VLe.refl _
    · intro fr es s
      cases es with
      | nil => rw [vargs, vargs]; exact VLe.refl _
      | cons e es =>
        rw [vargs, vargs]
        exact VLe.bind (hE _ _ _) fun _ _ => VLe.bind (hand_le hs _ _) fun _ _ =>
          VLe.bind (hA _ _ _) fun _ _ => VLe.refl _
    · intro tr f ids s
      rw [vcall, vcall]
      split
      · exact VLe.refl _
      · cases f.body with
        | none => exact VLe.refl _
        | some body =>
          dsimp only
          split
          · exact VLe.refl _
          · exact VLe.bind (hB _ _ _) fun _ _ => VLe.refl _
    · intro fr b s
      cases b with
      | nil => rw [vblock, vblock]; exact VLe.refl _
      | cons st rest =>
        have hthen : ∀ (r : VFrame × VFlow) (s' : List Event) (rest : List Stmt), VLe strict
            (match r.2 with | none => vblock strict outer n r.1 rest s' | some g => .ok (r.1, some g) s')
            (match r.2 with | none => vblock strict' outer m r.1 rest s' | some g => .ok (r.1, some g) s') := by
          intro r s' rest
          cases r.2 with
          | none => exact hB _ _ _
          | some p => exact VLe.refl _
        cases st with
        | if_ c t f =>
          rw [vblock, vblock]
          refine VLe.bind (hE _ _ _) fun g s' => ?_
          cases g.cond with
          | none => exact VLe.refl _
          | some b =>
            cases t with
            | none => exact VLe.refl _
            | some tb => exact VLe.bind (hB _ _ _) fun r s' => hthen r s' rest
        | while_ c b =>
          rw [vblock, vblock]
          refine VLe.bind (hE _ _ _) fun g s' => ?_
          cases g.cond with
          | none => exact VLe.refl _
          | some b' =>
            cases b' with
            | false => exact hB _ _ _
            | true =>
              cases b with
              | none => exact VLe.refl _
              | some body => exact VLe.bind (hB _ _ _) fun r s' => hthen r s' _
        | assign l r =>
          rw [vblock, vblock]
          cases l.asName with
          | some x =>
            refine VLe.bind (hE _ _ _) fun _ _ => VLe.bind (hand_le hs _ _) fun v out => ?_
            cases fr.vars x with
            | none => exact hB _ _ _
            | some old =>
              dsimp only
              split
              · exact hB _ _ _
              · exact VLe.refl _
          | none =>
            exact VLe.bind (hE _ _ _) fun _ _ => VLe.bind (hE _ _ _) fun _ _ => VLe.refl _
        | eval e => rw [vblock, vblock]; exact VLe.bind (hE _ _ _) fun _ _ => hB _ _ _
        | ret e =>
          rw [vblock, vblock]
          refine VLe.bind (hE _ _ _) fun g _ => ?_
          rcases hs with e | e
          · rw [e]; exact VLe.refl _
          · subst e
            cases hst : strict with
            | false => exact VLe.refl _
            | true =>
              cases g.borrowed with
              | false => exact VLe.refl _
              | true => exact .inr (.inl ⟨rfl, rfl⟩)
        | func a b c => rw [vblock, vblock]; exact VLe.refl _

/-! ### What is left on the stack -/

/-- The numbers of the objects on the stack. -/
def St.ids (s : St) : List Nat := s.objs.map Prod.fst

theorem ids_length (s : St) : s.ids.length = s.objs.length := List.length_map ..

theorem cut_ids {s s' : St} (h : s.ids <+: s'.ids) : (s'.cut s.objs.length).ids = s.ids := by
  obtain ⟨t, e⟩ := h
  show (s'.objs.take _).map Prod.fst = _
  rw [List.map_take, show s'.objs.map Prod.fst = s'.ids from rfl, ← e, ← ids_length, List.take_left]

theorem write_ids (s : St) (id : Nat) (v : Val) : (s.write id v).ids = s.ids := by
  show (s.objs.map fun o => if o.1 = id then (o.1, v) else o).map Prod.fst = s.objs.map Prod.fst
  rw [List.map_map]
  apply List.map_congr_left
  intro o _
  show (if o.1 = id then (o.1, v) else o).1 = o.1
  split <;> rfl

/-- Whatever happens, the objects that were there stay. -/
def Stays (s : St) : Run α → Prop
  | .ok _ s' => s.ids <+: s'.ids
  | .err s' => s.ids <+: s'.ids
  | .stop _ => True

theorem Stays.bind {s : St} {r : Run α} {f : α → St → Run β} (h : Stays s r)
    (k : ∀ a s', s.ids <+: s'.ids → Stays s (f a s')) : Stays s (r.bind f) := by
  cases r with
  | ok a s' => exact k a s' h
  | err s' => exact h
  | stop w => trivial

theorem Stays.of {s s1 : St} {r : Run α} (h : s.ids <+: s1.ids) (k : Stays s1 r) : Stays s r := by
  cases r with
  | ok a s' => exact h.trans k
  | err s' => exact h.trans k
  | stop w => trivial

theorem push_stays {v : Val} {s : St} : Stays s (push v s) := by
  unfold push
  split
  · show s.ids <+: (s.objs ++ [(s.next, v)]).map Prod.fst
    rw [List.map_append]
    exact List.prefix_append _ _
  · trivial

theorem cutBelowTop_stays {s s1 : St} (h : s.ids <+: s1.ids) : Stays s (cutBelowTop s.objs.length s1) := by
  unfold cutBelowTop
  cases s1.objs.getLast? with
  | none => trivial
  | some o =>
    dsimp only
    split
    · trivial
    · split
      · exact h
      · show s.ids <+: (s1.objs.take s.objs.length ++ [(s1.next, o.2)]).map Prod.fst
        rw [List.map_append, show (s1.objs.take s.objs.length).map Prod.fst = s.ids from cut_ids h]
        exact List.prefix_append _ _

theorem cut_stays {s s1 : St} (h : s.ids <+: s1.ids) : s.ids <+: (s1.cut s.objs.length).ids := by
  rw [cut_ids h]; exact List.prefix_rfl

theorem write_stays {s s1 : St} (h : s.ids <+: s1.ids) (id : Nat) (v : Val) : s.ids <+: (s1.write id v).ids := by
  rw [write_ids]; exact h

theorem move_stays {s s1 : St} (h : s.ids <+: s1.ids) (dst : Nat) (src : Ptr) : Stays s (move dst src s1) := by
  unfold move
  split
  · split
    · trivial
    · split
      · trivial
      · split
        · exact write_stays h _ _
        · exact write_stays (write_stays h _ _) _ _
  · trivial

theorem fail_stays {tr : List (List Byte)} {m : Msg} {s : St} : Stays s (fail tr m s : Run α) :=
  List.prefix_rfl

theorem opResult_stays {tr : List (List Byte)} {m : Msg} {r : OpRes} {s : St} : Stays s (opResult tr m r s) := by
  cases r with
  | val v => exact push_stays.bind fun _ _ h => h
  | unsupported => exact fail_stays
  | ub => trivial
  | outside => trivial

theorem takeArg_stays {p : Option Ptr} {s : St} : Stays s (takeArg p s) := by
  unfold takeArg
  cases p with
  | none => trivial
  | some q =>
    dsimp only
    split
    · cases q with
      | static u => trivial
      | obj id => exact List.prefix_rfl
    · split
      · trivial
      · split
        · trivial
        · refine push_stays.bind fun _ _ h => ?_
          cases q with
          | static u => exact h
          | obj old => exact write_stays h _ _

theorem assignVar_stays {fr : Frame} {x : List Byte} {p : Option Ptr} {s s1 : St} (h : s.ids <+: s1.ids) :
    Stays s (assignVar s.objs.length fr x p s1) := by
  unfold assignVar
  cases p with
  | none => trivial
  | some q =>
    dsimp only
    cases fr.vars x with
    | some id => exact (move_stays h _ _).bind fun _ _ h => cut_stays h
    | none =>
      dsimp only
      split
      · exact (cutBelowTop_stays h).bind fun _ _ h => h
      · split
        · trivial
        · split
          · trivial
          · refine (Stays.of (cut_stays h) push_stays).bind fun _ _ h => ?_
            cases q with
            | static u => exact h
            | obj old => exact write_stays h _ _

theorem assignOther_stays {fr : Frame} {l p : Option Ptr} {s s1 : St} (h : s.ids <+: s1.ids) :
    Stays s (assignOther s.objs.length fr l p s1) := by
  unfold assignOther
  split
  · exact (move_stays h _ _).bind fun _ _ h => cut_stays h
  · trivial
  · trivial

theorem doPrint_stays {tr : List (List Byte)} {v : Val} {s : St} : Stays s (doPrint tr v s) := by
  unfold doPrint
  split
  · exact fail_stays
  · exact fail_stays
  · split
    · exact List.prefix_rfl
    · trivial

/-- The objects after a call: those before it and at most one more; none more after an error. -/
def CallLeaves (s : St) : Run (Option Ptr) → Prop
  | .ok _ s' => s'.ids = s.ids ∨ ∃ id, s'.ids = s.ids ++ [id]
  | .err s' => s'.ids = s.ids
  | .stop _ => True

theorem CallLeaves.stays {s : St} {r : Run (Option Ptr)} (h : CallLeaves s r) : Stays s r := by
  cases r with
  | ok p s' =>
    rcases h with h | ⟨id, h⟩
    · show s.ids <+: s'.ids
      rw [h]; exact List.prefix_rfl
    · show s.ids <+: s'.ids
      rw [h]; exact List.prefix_append _ _
  | err s' =>
    show s.ids <+: s'.ids
    rw [show s'.ids = s.ids from h]; exact List.prefix_rfl
  | stop w => trivial

theorem leave_leaves {s s1 : St} (h : s.ids <+: s1.ids) (f : Flow) : CallLeaves s (leave s.objs.length f s1) := by
  cases f with
  | next => exact .inl (cut_ids h)
  | ret p =>
    cases p with
    | none => exact .inl (cut_ids h)
    | some q =>
      show CallLeaves s (if s1.objs.length ≠ s.objs.length ∧ s1.onTop q = true then
            (cutBelowTop s.objs.length s1).bind fun id s => .ok (some (.obj id)) s
          else .ok (some q) (s1.cut s.objs.length))
      split
      · unfold cutBelowTop
        cases hl : s1.objs.getLast? with
        | none => trivial
        | some o =>
          dsimp only
          split
          · trivial
          · split
            · rename_i h1
              refine .inr ?_
              obtain ⟨t, e⟩ := h
              have hlen : t.length = 1 := by
                have := congrArg List.length e
                rw [List.length_append, ids_length, ids_length] at this
                omega
              obtain ⟨i, rfl⟩ := List.length_eq_one_iff.1 hlen
              exact ⟨i, e.symm⟩
            · refine .inr ⟨s1.next, ?_⟩
              show (s1.objs.take s.objs.length ++ [(s1.next, o.2)]).map Prod.fst = _
              rw [List.map_append, show (s1.objs.take s.objs.length).map Prod.fst = s.ids from cut_ids h]
              rfl
      · exact .inl (cut_ids h)

theorem stack_stays (outer : List Byte → Option Val) (n : Nat) :
    (∀ fr e s, Stays s (eval outer n fr e s)) ∧
    (∀ fr ps acc s, Stays s (evalPieces outer n fr ps acc s)) ∧
    (∀ fr es s, Stays s (evalArgs outer n fr es s)) ∧
    (∀ tr f ids s, CallLeaves s (callFunc outer n tr f ids s)) ∧
    (∀ fr b s, Stays s (execBlock outer n fr b s)) := by
  induction n with
  | zero =>
    refine ⟨?_, ?_, ?_, ?_, ?_⟩
    · intro fr e s; rw [eval]; trivial
    · intro fr ps acc s; rw [evalPieces]; trivial
    · intro fr es s; rw [evalArgs]; trivial
    · intro tr f ids s; rw [callFunc]; trivial
    · intro fr b s; rw [execBlock]; trivial
  | succ n ih =>
    obtain ⟨hE, hP, hA, hC, hB⟩ := ih
    refine ⟨?_, ?_, ?_, ?_, ?_⟩
    · intro fr e s
      cases e with
      | null => rw [eval]; trivial
      | name x =>
        rw [eval]
        cases lookupName outer fr x with
        | some p => exact List.prefix_rfl
        | none => exact fail_stays
      | int v => rw [eval]; exact List.prefix_rfl
      | str ps =>
        rw [eval]
        refine (hP _ _ _ _).bind fun t s1 h1 => ?_
        split
        · exact Stays.of h1 (push_stays.bind fun _ _ h => h)
        · trivial
      | prop o x =>
        rw [eval]
        refine (hE _ _ _).bind fun p s1 h1 => ?_
        cases deref p s1 with
        | none => trivial
        | some v =>
          dsimp only
          split
          · trivial
          · exact Stays.of h1 fail_stays
      | bin op l r =>
        rw [eval]
        refine (hE _ _ _).bind fun p s1 h1 => ?_
        refine (Stays.of h1 (hE _ _ _)).bind fun q s2 h2 => ?_
        split
        · exact Stays.of h2 opResult_stays
        · trivial
      | un op e =>
        rw [eval]
        refine (hE _ _ _).bind fun p s1 h1 => ?_
        split
        · trivial
        · exact Stays.of h1 opResult_stays
      | call c args =>
        rw [eval]
        refine (hE _ _ _).bind fun p s1 h1 => ?_
        refine (Stays.of h1 (hA _ _ _)).bind fun ids s2 h2 => ?_
        cases deref p s2 with
        | none => trivial
        | some w =>
          cases w with
          | func f => exact Stays.of h2 (hC _ _ _ _).stays
          | print =>
            dsimp only
            split
            · split
              · exact Stays.of h2 doPrint_stays
              · trivial
            · trivial
          | _ => exact Stays.of h2 fail_stays
    · intro fr ps acc s
      cases ps with
      | nil => rw [evalPieces]; exact List.prefix_rfl
      | cons pc ps =>
        obtain ⟨lit, e⟩ := pc
        rw [evalPieces]
        split
        · exact hP _ _ _ _
        · refine (hE _ _ _).bind fun p s1 h1 => ?_
          cases (deref p s1).bind valText with
          | none => trivial
          | some t => exact Stays.of h1 (hP _ _ _ _)
    · intro fr es s
      cases es with
      | nil => rw [evalArgs]; exact List.prefix_rfl
      | cons e es =>
        rw [evalArgs]
        exact (hE _ _ _).bind fun p s1 h1 => (Stays.of h1 takeArg_stays).bind fun id s2 h2 =>
          (Stays.of h2 (hA _ _ _)).bind fun ids s3 h3 => h3
    · intro tr f ids s
      rw [callFunc]
      split
      · trivial
      · cases f.body with
        | none => trivial
        | some body =>
          dsimp only
          have hb := hB ⟨f.name :: tr, bindParams f.params ids fun _ => none⟩ body s
          cases hr : execBlock outer n ⟨f.name :: tr, bindParams f.params ids fun _ => none⟩ body s with
          | ok r s1 =>
            rw [hr] at hb
            have := leave_leaves (show s.ids <+: s1.ids from hb) r.2
            show CallLeaves s (leaveErr s.objs.length (leave s.objs.length r.2 s1))
            cases hl : leave s.objs.length r.2 s1 with
            | ok p s2 => rw [hl] at this; exact this
            | err s2 =>
              rw [hl] at this
              have h2 : s2.ids = s.ids := this
              show (s2.cut s.objs.length).ids = s.ids
              exact cut_ids (by rw [h2]; exact List.prefix_rfl)
            | stop w => trivial
          | err s1 =>
            rw [hr] at hb
            exact cut_ids hb
          | stop w => trivial
    · intro fr b s
      cases b with
      | nil => rw [execBlock]; exact List.prefix_rfl
      | cons st rest =>
        have hthen : ∀ (r : Frame × Flow) (s' : St) (rest : List Stmt), s.ids <+: s'.ids → Stays s
            (match r.2 with | .next => execBlock outer n r.1 rest s' | .ret p => .ok (r.1, .ret p) s') := by
          intro r s' rest h
          cases r.2 with
          | next => exact Stays.of h (hB _ _ _)
          | ret p => exact h
        cases st with
        | if_ c t f =>
          rw [execBlock]
          refine (hE _ _ _).bind fun p s1 h1 => ?_
          cases asCond p s1 with
          | none => trivial
          | some b =>
            cases t with
            | none => trivial
            | some tb => exact (Stays.of (cut_stays h1) (hB _ _ _)).bind fun r s' h => hthen r s' rest h
        | while_ c b =>
          rw [execBlock]
          refine (hE _ _ _).bind fun p s1 h1 => ?_
          cases asCond p s1 with
          | none => trivial
          | some b' =>
            cases b' with
            | false => exact Stays.of (cut_stays h1) (hB _ _ _)
            | true =>
              cases b with
              | none => trivial
              | some body => exact (Stays.of (cut_stays h1) (hB _ _ _)).bind fun r s' h => hthen r s' _ h
        | assign l r =>
          rw [execBlock]
          cases l.asName with
          | some x =>
            exact (hE _ _ _).bind fun p s1 h1 => (assignVar_stays h1).bind fun _ s2 h2 => Stays.of h2 (hB _ _ _)
          | none =>
            exact (hE _ _ _).bind fun p s1 h1 => (Stays.of h1 (hE _ _ _)).bind fun q s2 h2 =>
              (assignOther_stays h2).bind fun _ s3 h3 => Stays.of h3 (hB _ _ _)
        | eval e =>
          rw [execBlock]
          exact (hE _ _ _).bind fun p s1 h1 => Stays.of (cut_stays h1) (hB _ _ _)
        | ret e => rw [execBlock]; exact (hE _ _ _).bind fun p s1 h1 => h1
        | func a b c => rw [execBlock]; trivial

end Verif.Crowbar
