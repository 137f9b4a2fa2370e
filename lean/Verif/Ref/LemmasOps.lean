import Verif.Ref.Lemmas
namespace Verif.Ref

theorem small_cnt {st : St} {k : Int} (h1 : ∀ x, cnt st x = (refs st x : Int)) (hs : Small st)
    (hk : 65534 ≤ k) : ∀ x, cnt st x < k := by
  intro x
  have := hs x
  rw [h1 x]
  omega

theorem kept_dead {a b : St} (h : Kept a b) {x : Id} (hx : a.obj x = none) : b.obj x = none := by
  cases hb : b.obj x with
  | none => rfl
  | some o =>
    obtain ⟨o', e, _⟩ := h.2.2.2 x o (obj_some.1 hb)
    rw [obj_some.2 e] at hx
    cases hx

theorem kept_read {a b : St} (h : Kept a b) (s : Slot) (hb : b.read s ≠ none) : b.read s = a.read s := by
  cases s with
  | root i => show b.roots[i]? = a.roots[i]?; rw [h.1]
  | field x i =>
    unfold St.read at hb ⊢
    dsimp only at hb ⊢
    cases hx : b.obj x with
    | none => rw [hx] at hb; exact absurd rfl hb
    | some o =>
      obtain ⟨o', e, e2⟩ := h.2.2.2 x o (obj_some.1 hx)
      rw [obj_some.2 e]
      dsimp only
      rw [e2]

theorem kept_read_root {a b : St} (h : Kept a b) (i : Nat) : b.read (.root i) = a.read (.root i) := by
  show b.roots[i]? = a.roots[i]?; rw [h.1]

/-- The object a slot refers to exists. -/
theorem read_alive {st : St} (h : InvW st []) {s : Slot} {x : Id} (hr : st.read s = some (some x)) :
    ∃ o, st.obj x = some o := by
  have h1 := refs_write st s (some x) none hr x
  have h2 : hit (some x) x = 1 := by simp [hit]
  have h3 : hit none x = 0 := rfl
  have h4 := h.1 x
  unfold cnt at h4
  cases ho : st.obj x with
  | none => rw [ho] at h4; dsimp only at h4; omega
  | some o => exact ⟨o, rfl⟩

theorem write_alive {st : St} (s : Slot) (p : Option Id) {x : Id} (h : ∃ o, st.obj x = some o) :
    ∃ o, (st.write s p).obj x = some o := by
  obtain ⟨o, ho⟩ := h
  cases s with
  | root i => exact ⟨o, ho⟩
  | field z i =>
    unfold St.write
    dsimp only
    cases hz : st.obj z with
    | none => exact ⟨o, ho⟩
    | some ob =>
      dsimp only
      by_cases hx : x = z
      · subst hx
        rw [obj_setObj hz _ x, if_pos rfl]
        exact ⟨_, rfl⟩
      · rw [obj_setObj hz _ x, if_neg hx]; exact ⟨o, ho⟩

/-- The counts are as they were. -/
theorem write_obj_count {st : St} (s : Slot) (p : Option Id) {x : Id} {o : Obj}
    (h : (st.write s p).obj x = some o) : ∃ o', st.obj x = some o' ∧ o'.count = o.count := by
  cases s with
  | root i => exact ⟨o, h, rfl⟩
  | field z i =>
    unfold St.write at h
    dsimp only at h
    cases hz : st.obj z with
    | none => rw [hz] at h; exact ⟨o, h, rfl⟩
    | some ob =>
      rw [hz] at h
      dsimp only at h
      by_cases hx : x = z
      · subst hx
        rw [obj_setObj hz _ x, if_pos rfl] at h
        cases h
        exact ⟨ob, hz, rfl⟩
      · rw [obj_setObj hz _ x, if_neg hx] at h; exact ⟨o, h, rfl⟩

/-- Writing a pointer, counting it and giving up the old one. -/
theorem assign_core (st : St) (dst : Slot) (old p : Option Id) (hr : st.read dst = some old)
    (h1 : ∀ x, cnt st x = (refs st x : Int))
    (h2 : ∀ x o, st.obj x = some o → 0 < o.count ∨ (p = some x ∧ 0 ≤ o.count))
    (hp : ∀ x, p = some x → ∃ o, st.obj x = some o) (hs : Small st) :
    ∃ st1 st', incOpt (st.write dst p) p = .ok st1 ∧ decOpt st1 old = .ok st' ∧ InvW st' [] ∧
      Kept (st.write dst p) st' := by
  have hsm := small_cnt h1 hs (k := 65534) (by omega)
  obtain ⟨st1, e1, e2, e3, e4, _⟩ := incOpt_ok (st.write dst p) p
    (fun x hx => write_alive dst p (hp x hx))
    (by
      intro x o ho
      obtain ⟨o', ho', hc⟩ := write_obj_count dst p ho
      rcases h2 x o' ho' with h | ⟨_, h⟩ <;> omega)
    (by intro x; rw [cnt_write]; have := hsm x; omega)
  have hinv : InvW st1 old.toList := by
    refine ⟨?_, ?_⟩
    · intro x
      rw [e2 x, e3 x, cnt_write, h1 x]
      have := refs_write st dst old p hr x
      show _ = _ + ((hit old x : Nat) : Int)
      omega
    · intro x o ho
      have hc : cnt st1 x = o.count := by unfold cnt; rw [ho]
      rw [e2 x, cnt_write] at hc
      obtain ⟨o', ho', _⟩ := e4.2.2.2 x o (obj_some.1 ho)
      obtain ⟨o2, ho2, hc2⟩ := write_obj_count dst p (obj_some.2 ho')
      have hc3 : cnt st x = o2.count := by unfold cnt; rw [ho2]
      rcases h2 x o2 ho2 with h | ⟨hpx, h⟩
      · omega
      · subst hpx
        have : hit (some x) x = 1 := by simp [hit]
        omega
  obtain ⟨st', f1, f2, f3⟩ := decOpt_ok st1 old hinv (by
    intro x
    rw [e2 x, cnt_write]
    have := hsm x
    have : hit p x ≤ 1 := by
      unfold hit
      cases p with
      | none => simp
      | some y => simp only [Option.toList]; exact List.count_le_length
    omega)
  exact ⟨st1, st', e1, f1, f2, e4.trans f3⟩

theorem assign_ok (st : St) (dst : Slot) (old p : Option Id) (hr : st.read dst = some old) (h : InvW st [])
    (hp : ∀ x, p = some x → ∃ o, st.obj x = some o) (hs : Small st) :
    ∃ st1 st', incOpt (st.write dst p) p = .ok st1 ∧ decOpt st1 old = .ok st' ∧ InvW st' [] ∧
      Kept (st.write dst p) st' :=
  assign_core st dst old p hr (fun x => by simpa using h.1 x) (fun x o ho => .inl (h.2 x o ho)) hp hs

theorem write_size (st : St) (s : Slot) (p : Option Id) : (st.write s p).size = st.size := by
  cases s with
  | root i => rfl
  | field o i =>
    unfold St.write
    dsimp only
    cases ho : st.obj o with
    | none => rfl
    | some ob =>
      have := size_setObj ho (some { ob with fields := ob.fields.set i p })
      have e : cellSize (some { ob with fields := ob.fields.set i p }) = ob.fields.length := by
        show (ob.fields.set i p).length = _
        simp
      dsimp only
      omega

theorem read_write_self (st : St) (s : Slot) (p old : Option Id) (h : st.read s = some old) :
    (st.write s p).read s = some p := by
  cases s with
  | root i =>
    show (st.roots.set i p)[i]? = _
    obtain ⟨hi, _⟩ := List.getElem?_eq_some_iff.1 h
    rw [List.getElem?_set_self hi]
  | field o i =>
    unfold St.read St.write at *
    dsimp only at *
    cases ho : st.obj o with
    | none => rw [ho] at h; cases h
    | some ob =>
      rw [ho] at h
      dsimp only at h ⊢
      rw [obj_setObj ho _ o, if_pos rfl]
      dsimp only
      obtain ⟨hi, _⟩ := List.getElem?_eq_some_iff.1 h
      rw [List.getElem?_set_self hi]

theorem setObj_setObj (st : St) (x : Id) (a b : Option Obj) : (st.setObj x a).setObj x b = st.setObj x b := by
  unfold St.setObj
  simp

theorem setObj_comm (st : St) (x y : Id) (a b : Option Obj) (h : x ≠ y) :
    (st.setObj x a).setObj y b = (st.setObj y b).setObj x a := by
  unfold St.setObj
  simp only
  rw [List.set_comm _ _ h]

theorem setObj_self {st : St} {x : Id} {o : Obj} (h : st.obj x = some o) : st.setObj x (some o) = st := by
  unfold St.setObj
  have := obj_some.1 h
  obtain ⟨hi, e⟩ := List.getElem?_eq_some_iff.1 this
  rw [← e]
  simp

theorem write_write (st : St) (s : Slot) (p q : Option Id) : (st.write s p).write s q = st.write s q := by
  cases s with
  | root i => unfold St.write; simp
  | field o i =>
    unfold St.write
    dsimp only
    cases ho : st.obj o with
    | none => dsimp only; rw [ho]
    | some ob =>
      dsimp only
      rw [obj_setObj ho _ o, if_pos rfl]
      dsimp only
      rw [setObj_setObj]
      simp

theorem write_read (st : St) (s : Slot) (p : Option Id) (h : st.read s = some p) : st.write s p = st := by
  cases s with
  | root i =>
    unfold St.write
    dsimp only
    obtain ⟨hi, e⟩ := List.getElem?_eq_some_iff.1 h
    rw [← e]
    simp
  | field o i =>
    unfold St.read at h
    unfold St.write
    dsimp only at *
    cases ho : st.obj o with
    | none => rfl
    | some ob =>
      rw [ho] at h
      dsimp only at *
      obtain ⟨hi, e⟩ := List.getElem?_eq_some_iff.1 h
      rw [← e]
      simp only [List.set_getElem_self]
      exact setObj_self ho

theorem write_dead (st : St) (o : Id) (i : Nat) (p : Option Id) (h : st.obj o = none) :
    st.write (.field o i) p = st := by
  unfold St.write
  dsimp only
  rw [h]

theorem write_field (st : St) (o : Id) (i : Nat) (p : Option Id) {ob : Obj} (h : st.obj o = some ob) :
    st.write (.field o i) p = st.setObj o (some { ob with fields := ob.fields.set i p }) := by
  unfold St.write
  dsimp only
  rw [h]

theorem write_obj_other (st : St) (o : Id) (i : Nat) (p : Option Id) (x : Id) (hx : x ≠ o) :
    (st.write (.field o i) p).obj x = st.obj x := by
  cases ho : st.obj o with
  | none => rw [write_dead st o i p ho]
  | some ob => rw [write_field st o i p ho, obj_setObj ho _ x, if_neg hx]

/-- A run only deletes. -/
theorem decRefs_kept (fuel : Nat) (work : List Id) (st st' : St) (h : decRefs fuel work st = .ok st') :
    Kept st st' := by
  induction fuel generalizing work st with
  | zero =>
    cases work with
    | nil => rw [decRefs] at h; cases h; exact Kept.refl _
    | cons x work => rw [decRefs] at h; cases h
  | succ fuel ih =>
    cases work with
    | nil => rw [decRefs] at h; cases h; exact Kept.refl _
    | cons x work =>
      rw [decRefs] at h
      cases ho : st.obj x with
      | none => rw [ho] at h; cases h
      | some o =>
        rw [ho] at h
        dsimp only at h
        split at h
        · cases h
        · split at h
          · cases h
          · split at h
            · exact (kept_setObj ho none (by simp)).trans (ih _ _ h)
            · exact (kept_setObj ho _ (by intro o' h; cases h; rfl)).trans (ih _ _ h)

/-- An address of a deleted object on the stack is an error. -/
theorem decRefs_dead (fuel : Nat) (work : List Id) (st st' : St) (x : Id) (hx : x ∈ work)
    (hd : st.obj x = none) : decRefs fuel work st ≠ .ok st' := by
  induction fuel generalizing work st with
  | zero =>
    cases work with
    | nil => cases hx
    | cons y work => intro h; rw [decRefs] at h; cases h
  | succ fuel ih =>
    cases work with
    | nil => cases hx
    | cons y work =>
      intro h
      rw [decRefs] at h
      cases ho : st.obj y with
      | none => rw [ho] at h; cases h
      | some o =>
        rw [ho] at h
        dsimp only at h
        have hyx : x ≠ y := by rintro rfl; rw [hd] at ho; cases ho
        have hxw : x ∈ work := by
          rcases List.mem_cons.1 hx with h | h
          · exact absurd h hyx
          · exact h
        split at h
        · cases h
        · split at h
          · cases h
          · split at h
            · exact ih _ _ (List.mem_append_right _ hxw) (by rw [obj_setObj ho _ x, if_neg hyx]; exact hd) h
            · exact ih _ _ hxw (by rw [obj_setObj ho _ x, if_neg hyx]; exact hd) h

/-- A pointer left in a member does not matter as long as its object stays. -/
theorem decRefs_sim (fuel : Nat) (work : List Id) (st st' : St) (s : Slot) (p : Option Id)
    (h : decRefs fuel work st = .ok st') (hs : st'.read s ≠ none) :
    decRefs fuel work (st.write s p) = .ok (st'.write s p) := by
  cases s with
  | root i =>
    clear hs
    induction fuel generalizing work st with
    | zero =>
      cases work with
      | nil => rw [decRefs] at h ⊢; cases h; rfl
      | cons x work => rw [decRefs] at h; cases h
    | succ fuel ih =>
      cases work with
      | nil => rw [decRefs] at h ⊢; cases h; rfl
      | cons x work =>
        rw [decRefs] at h ⊢
        have e : (st.write (.root i) p).obj x = st.obj x := rfl
        rw [e]
        cases ho : st.obj x with
        | none => rw [ho] at h; cases h
        | some o =>
          rw [ho] at h
          dsimp only at h ⊢
          have e2 : ∀ c, (st.write (.root i) p).setObj x c = (st.setObj x c).write (.root i) p := fun _ => rfl
          split at h
          · cases h
          · rename_i g1
            rw [if_neg g1]
            split at h
            · cases h
            · rename_i g2
              rw [if_neg g2]
              split at h
              · rename_i g3
                rw [if_pos g3, e2]
                exact ih _ _ h
              · rename_i g3
                rw [if_neg g3, e2]
                exact ih _ _ h
  | field z i =>
    induction fuel generalizing work st with
    | zero =>
      cases work with
      | nil => rw [decRefs] at h ⊢; cases h; rfl
      | cons x work => rw [decRefs] at h; cases h
    | succ fuel ih =>
      cases work with
      | nil => rw [decRefs] at h ⊢; cases h; rfl
      | cons x work =>
        rw [decRefs] at h ⊢
        cases ho : st.obj x with
        | none => rw [ho] at h; cases h
        | some o =>
          rw [ho] at h
          dsimp only at h
          by_cases hxz : x = z
          · subst hxz
            have e1 : (st.write (.field x i) p).obj x = some { o with fields := o.fields.set i p } := by
              rw [write_field st x i p ho, obj_setObj ho _ x, if_pos rfl]
            rw [e1]
            dsimp only
            split at h
            · cases h
            · rename_i g1
              rw [if_neg g1]
              split at h
              · cases h
              · rename_i g2
                rw [if_neg g2]
                split at h
                · exfalso
                  have hk := decRefs_kept _ _ _ _ h
                  have := kept_dead hk (x := x) (by rw [obj_setObj ho _ x, if_pos rfl])
                  unfold St.read at hs
                  dsimp only at hs
                  rw [this] at hs
                  exact hs rfl
                · rename_i g3
                  rw [if_neg g3]
                  have := ih _ _ h
                  have e2 : (st.setObj x (some { o with count := o.count - 1 })).write (.field x i) p =
                      (st.write (.field x i) p).setObj x
                        (some { count := o.count - 1, fields := o.fields.set i p }) := by
                    rw [write_field st x i p ho, setObj_setObj, write_field _ x i p (ob := { o with count := o.count - 1 })
                      (by rw [obj_setObj ho _ x, if_pos rfl]), setObj_setObj]
                  rw [e2] at this
                  exact this
          · rw [write_obj_other st z i p x hxz, ho]
            dsimp only
            have e2 : ∀ c, (st.write (.field z i) p).setObj x c = (st.setObj x c).write (.field z i) p := by
              intro c
              cases hz : st.obj z with
              | none =>
                rw [write_dead st z i p hz, write_dead _ z i p]
                rw [obj_setObj ho _ z, if_neg (fun h => hxz h.symm)]
                exact hz
              | some oz =>
                rw [write_field st z i p hz, write_field (st.setObj x c) z i p (ob := oz), setObj_comm]
                · exact fun h => hxz h.symm
                · rw [obj_setObj ho _ z, if_neg (fun h => hxz h.symm)]
                  exact hz
            split at h
            · cases h
            · rename_i g1
              rw [if_neg g1]
              split at h
              · cases h
              · rename_i g2
                rw [if_neg g2]
                split at h
                · rename_i g3
                  rw [if_pos g3, e2]
                  exact ih _ _ h
                · rename_i g3
                  rw [if_neg g3, e2]
                  exact ih _ _ h

/-- If the object that holds a stale pointer is deleted on the way, the pointer is followed. -/
theorem decRefs_stale (fuel : Nat) (work : List Id) (st st' st2 : St) (z : Id) (i : Nat) (p : Id)
    (h : decRefs fuel work st = .ok st') (hp : st.obj p = none) (old : Option Id)
    (hr : st.read (.field z i) = some old) (hs : st'.read (.field z i) = none) :
    decRefs fuel work (st.write (.field z i) (some p)) ≠ .ok st2 := by
  induction fuel generalizing work st with
  | zero =>
    cases work with
    | nil => rw [decRefs] at h; cases h; rw [hr] at hs; cases hs
    | cons x work => rw [decRefs] at h; cases h
  | succ fuel ih =>
    cases work with
    | nil => rw [decRefs] at h; cases h; rw [hr] at hs; cases hs
    | cons x work =>
      rw [decRefs] at h ⊢
      cases ho : st.obj x with
      | none => rw [ho] at h; cases h
      | some o =>
        rw [ho] at h
        dsimp only at h
        have hpx : p ≠ x := by rintro rfl; rw [hp] at ho; cases ho
        by_cases hxz : x = z
        · subst hxz
          have hi : o.fields[i]? = some old := by
            unfold St.read at hr
            dsimp only at hr
            rw [ho] at hr
            exact hr
          have e1 : (st.write (.field x i) (some p)).obj x =
              some { o with fields := o.fields.set i (some p) } := by
            rw [write_field st x i _ ho, obj_setObj ho _ x, if_pos rfl]
          rw [e1]
          dsimp only
          split at h
          · cases h
          · rename_i g1
            rw [if_neg g1]
            split at h
            · cases h
            · rename_i g2
              rw [if_neg g2]
              split at h
              · rename_i g3
                rw [if_pos g3]
                apply decRefs_dead _ _ _ _ p
                · apply List.mem_append_left
                  rw [List.mem_reverse, List.mem_filterMap]
                  refine ⟨some p, ?_, rfl⟩
                  obtain ⟨hlt, _⟩ := List.getElem?_eq_some_iff.1 hi
                  exact List.mem_iff_getElem?.2 ⟨i, by rw [List.getElem?_set_self hlt]⟩
                · rw [obj_setObj e1 _ p, if_neg hpx]
                  rw [write_obj_other st x i _ p hpx]
                  exact hp
              · rename_i g3
                rw [if_neg g3]
                have e2 : (st.setObj x (some { o with count := o.count - 1 })).write (.field x i) (some p) =
                    (st.write (.field x i) (some p)).setObj x
                      (some { count := o.count - 1, fields := o.fields.set i (some p) }) := by
                  rw [write_field st x i _ ho, setObj_setObj,
                    write_field _ x i _ (ob := { o with count := o.count - 1 })
                    (by rw [obj_setObj ho _ x, if_pos rfl]), setObj_setObj]
                have := ih _ _ h (by rw [obj_setObj ho _ p, if_neg hpx]; exact hp) (by
                  unfold St.read
                  dsimp only
                  rw [obj_setObj ho _ x, if_pos rfl]
                  exact hi)
                rw [e2] at this
                exact this
        · rw [write_obj_other st z i _ x hxz, ho]
          dsimp only
          have e2 : ∀ c, (st.write (.field z i) (some p)).setObj x c =
              (st.setObj x c).write (.field z i) (some p) := by
            intro c
            cases hz : st.obj z with
            | none =>
              rw [write_dead st z i _ hz, write_dead _ z i _]
              rw [obj_setObj ho _ z, if_neg (fun h => hxz h.symm)]
              exact hz
            | some oz =>
              rw [write_field st z i _ hz, write_field (st.setObj x c) z i _ (ob := oz), setObj_comm]
              · exact fun h => hxz h.symm
              · rw [obj_setObj ho _ z, if_neg (fun h => hxz h.symm)]
                exact hz
          have hr' : ∀ c, (st.setObj x c).read (.field z i) = some old := by
            intro c
            unfold St.read at hr ⊢
            dsimp only at hr ⊢
            rw [obj_setObj ho _ z, if_neg (fun h => hxz h.symm)]
            exact hr
          split at h
          · cases h
          · rename_i g1
            rw [if_neg g1]
            split at h
            · cases h
            · rename_i g2
              rw [if_neg g2]
              split at h
              · rename_i g3
                rw [if_pos g3, e2]
                exact ih _ _ h (by rw [obj_setObj ho _ p, if_neg hpx]; exact hp) (hr' _)
              · rename_i g3
                rw [if_neg g3, e2]
                exact ih _ _ h (by rw [obj_setObj ho _ p, if_neg hpx]; exact hp) (hr' _)

end Verif.Ref
