import Verif.Ref.Spec
namespace Verif.Ref

/-- The count at an address (zero if there is no object). -/
def cnt (st : St) (x : Id) : Int := match st.obj x with
  | none => 0
  | some o => o.count

/-- The invariant while the addresses in `work` still have to be given up. -/
def InvW (st : St) (work : List Id) : Prop :=
  (∀ x, cnt st x = (refs st x : Int) + (work.count x : Int)) ∧ ∀ x o, st.obj x = some o → 0 < o.count

/-- Members of what is stored at a place of the heap. -/
def cellRefs (x : Id) : Option Obj → Nat
  | none => 0
  | some o => o.fields.count (some x)

/-- Number of members of what is stored at a place of the heap. -/
def cellSize : Option Obj → Nat
  | none => 0
  | some o => o.fields.length

theorem heapRefs_eq (heap : List (Option Obj)) (x : Id) : heapRefs heap x = (heap.map (cellRefs x)).sum := by
  unfold heapRefs
  congr 1

theorem size_eq (st : St) : st.size = (st.heap.map cellSize).sum := by
  unfold St.size
  congr 1

theorem sum_set {α : Type} (f : α → Nat) (l : List α) (i : Nat) (a b : α) (h : l[i]? = some a) :
    ((l.set i b).map f).sum + f a = (l.map f).sum + f b := by
  induction l generalizing i with
  | nil => simp at h
  | cons x l ih =>
    cases i with
    | zero => simp at h; subst h; simp; omega
    | succ i =>
      have := ih i (by simpa using h)
      simp only [List.set_cons_succ, List.map_cons, List.sum_cons]
      omega

theorem obj_some {st : St} {x : Id} {o : Obj} : st.obj x = some o ↔ st.heap[x]? = some (some o) := by
  unfold St.obj
  cases h : st.heap[x]? with
  | none => simp
  | some c => simp

theorem obj_setObj {st : St} {x : Id} {o : Obj} (h : st.obj x = some o) (c : Option Obj) (y : Id) :
    (st.setObj x c).obj y = if y = x then c else st.obj y := by
  have hx := obj_some.1 h
  obtain ⟨hlt, _⟩ := List.getElem?_eq_some_iff.1 hx
  unfold St.setObj St.obj
  dsimp only
  rw [List.getElem?_set]
  by_cases hy : x = y
  · subst hy; rw [if_pos rfl, if_pos hlt, if_pos rfl]; rfl
  · rw [if_neg hy, if_neg (fun h => hy h.symm)]

theorem refs_setObj {st : St} {x : Id} {o : Obj} (h : st.obj x = some o) (c : Option Obj) (y : Id) :
    refs (st.setObj x c) y + o.fields.count (some y) = refs st y + cellRefs y c := by
  have := sum_set (cellRefs y) st.heap x (some o) c (obj_some.1 h)
  unfold refs
  rw [heapRefs_eq, heapRefs_eq]
  show st.roots.count _ + st.raw.count _ + ((st.heap.set x c).map (cellRefs y)).sum + _ = _
  have e : cellRefs y (some o) = o.fields.count (some y) := rfl
  omega

theorem size_setObj {st : St} {x : Id} {o : Obj} (h : st.obj x = some o) (c : Option Obj) :
    (st.setObj x c).size + o.fields.length = st.size + cellSize c := by
  have := sum_set cellSize st.heap x (some o) c (obj_some.1 h)
  rw [size_eq, size_eq]
  exact this

theorem count_filterMap (l : List (Option Id)) (x : Id) :
    ((l.filterMap id).reverse).count x = l.count (some x) := by
  rw [List.count_reverse]
  induction l with
  | nil => rfl
  | cons a l ih =>
    cases a with
    | none => simpa using ih
    | some y => simp [List.count_cons, ih]

theorem Kept.refl (st : St) : Kept st st := ⟨rfl, rfl, rfl, fun _ o h => ⟨o, h, rfl⟩⟩

theorem Kept.trans {a b c : St} (h1 : Kept a b) (h2 : Kept b c) : Kept a c := by
  refine ⟨h2.1.trans h1.1, h2.2.1.trans h1.2.1, h2.2.2.1.trans h1.2.2.1, ?_⟩
  intro x o ho
  obtain ⟨o1, e1, e2⟩ := h2.2.2.2 x o ho
  obtain ⟨o2, e3, e4⟩ := h1.2.2.2 x o1 e1
  exact ⟨o2, e3, e2.trans e4⟩

theorem kept_setObj {st : St} {x : Id} {o : Obj} (h : st.obj x = some o) (c : Option Obj)
    (hc : ∀ o', c = some o' → o'.fields = o.fields) : Kept st (st.setObj x c) := by
  refine ⟨rfl, rfl, by simp [St.setObj], ?_⟩
  intro y o' ho
  have := obj_setObj h c y
  rw [obj_some.2 ho] at this
  by_cases hy : y = x
  · subst hy
    rw [if_pos rfl] at this
    exact ⟨o, obj_some.1 h, hc o' this.symm⟩
  · rw [if_neg hy] at this
    exact ⟨o', obj_some.1 this.symm, rfl⟩

/-- Giving up references comes to an end, without touching what is gone. -/
theorem decRefs_ok (fuel : Nat) (work : List Id) (st : St) (h : InvW st work)
    (hs : ∀ x, cnt st x < 65535) (hf : st.size + work.length ≤ fuel) :
    ∃ st', decRefs fuel work st = .ok st' ∧ InvW st' [] ∧ Kept st st' := by
  induction fuel generalizing work st with
  | zero =>
    cases work with
    | nil => exact ⟨st, by rw [decRefs], h, Kept.refl st⟩
    | cons x work => simp at hf
  | succ fuel ih =>
    cases work with
    | nil => exact ⟨st, by rw [decRefs], h, Kept.refl st⟩
    | cons x work =>
      rw [decRefs]
      have hx := h.1 x
      have hsx := hs x
      unfold cnt at hx hsx
      rw [List.count_cons_self] at hx
      cases ho : st.obj x with
      | none => rw [ho] at hx; dsimp only at hx; omega
      | some o =>
        rw [ho] at hx hsx
        dsimp only at hx hsx ⊢
        rw [if_neg (by omega), if_neg (by omega)]
        simp only [List.length_cons] at hf
        by_cases h1 : o.count = 1
        · rw [if_pos h1]
          have hr : refs st x = 0 ∧ work.count x = 0 := by omega
          have hnew : InvW (st.setObj x none) ((o.fields.filterMap id).reverse ++ work) := by
            refine ⟨?_, ?_⟩
            · intro y
              have e1 := refs_setObj ho none y
              have e2 := h.1 y
              unfold cnt at e2 ⊢
              rw [obj_setObj ho none y]
              rw [List.count_append, count_filterMap]
              have e3 : cellRefs y none = 0 := rfl
              by_cases hy : y = x
              · subst hy
                rw [if_pos rfl]
                dsimp only
                omega
              · rw [if_neg hy]
                rw [List.count_cons_of_ne (fun h => hy h.symm)] at e2
                rw [e2]
                omega
            · intro y o' ho'
              rw [obj_setObj ho none y] at ho'
              by_cases hy : y = x
              · rw [if_pos hy] at ho'; cases ho'
              · rw [if_neg hy] at ho'; exact h.2 y o' ho'
          have hsz := size_setObj ho none
          have hfl : (o.fields.filterMap id).reverse.length ≤ o.fields.length := by
            rw [List.length_reverse]; exact List.length_filterMap_le _ _
          have e3 : cellSize none = 0 := rfl
          obtain ⟨st', r1, r2, r3⟩ := ih _ _ hnew (by
            intro y
            have := hs y
            unfold cnt at this ⊢
            rw [obj_setObj ho none y]
            by_cases hy : y = x
            · rw [if_pos hy]; dsimp only; omega
            · rw [if_neg hy]; exact this) (by rw [List.length_append]; omega)
          exact ⟨st', r1, r2, (kept_setObj ho none (by simp)).trans r3⟩
        · rw [if_neg h1]
          have hnew : InvW (st.setObj x (some { o with count := o.count - 1 })) work := by
            refine ⟨?_, ?_⟩
            · intro y
              have e1 := refs_setObj ho (some { o with count := o.count - 1 }) y
              have e2 := h.1 y
              have e3 : cellRefs y (some { o with count := o.count - 1 }) = o.fields.count (some y) := rfl
              unfold cnt at e2 ⊢
              rw [obj_setObj ho _ y]
              by_cases hy : y = x
              · subst hy
                rw [if_pos rfl]
                dsimp only
                omega
              · rw [if_neg hy]
                rw [List.count_cons_of_ne (fun h => hy h.symm)] at e2
                rw [e2]
                omega
            · intro y o' ho'
              rw [obj_setObj ho _ y] at ho'
              by_cases hy : y = x
              · rw [if_pos hy] at ho'; cases ho'; dsimp only; have := h.2 x o ho; omega
              · rw [if_neg hy] at ho'; exact h.2 y o' ho'
          have hsz := size_setObj ho (some { o with count := o.count - 1 })
          have e3 : cellSize (some { o with count := o.count - 1 }) = o.fields.length := rfl
          obtain ⟨st', r1, r2, r3⟩ := ih _ _ hnew (by
            intro y
            have := hs y
            unfold cnt at this ⊢
            rw [obj_setObj ho _ y]
            by_cases hy : y = x
            · rw [if_pos hy]; dsimp only; omega
            · rw [if_neg hy]; exact this) (by omega)
          exact ⟨st', r1, r2, (kept_setObj ho _ (by intro o' h; cases h; rfl)).trans r3⟩

theorem decOpt_ok (st : St) (p : Option Id) (h : InvW st p.toList) (hs : ∀ x, cnt st x < 65535) :
    ∃ st', decOpt st p = .ok st' ∧ InvW st' [] ∧ Kept st st' := by
  cases p with
  | none => exact ⟨st, rfl, h, Kept.refl st⟩
  | some x => exact decRefs_ok _ [x] st h hs (by simp)

/-- The invariant in the words of the specification. -/
theorem counted_iff (st : St) : Counted st ↔ InvW st [] := by
  unfold Counted InvW
  constructor
  · rintro ⟨h1, h2⟩
    refine ⟨?_, ?_⟩
    · intro x
      unfold cnt
      cases ho : st.obj x with
      | none =>
        dsimp only
        by_cases hr : 0 < refs st x
        · obtain ⟨o, ho'⟩ := h2 x hr
          rw [obj_some.2 ho'] at ho
          cases ho
        · simp; omega
      | some o =>
        dsimp only
        have := (h1 x o (obj_some.1 ho)).1
        simp
        omega
    · intro x o ho
      have := h1 x o (obj_some.1 ho)
      omega
  · rintro ⟨h1, h2⟩
    refine ⟨?_, ?_⟩
    · intro x o ho
      have a := h1 x
      have b := h2 x o (obj_some.2 ho)
      unfold cnt at a
      rw [obj_some.2 ho] at a
      dsimp only at a
      simp only [List.count_nil] at a
      omega
    · intro x hr
      have a := h1 x
      unfold cnt at a
      cases ho : st.obj x with
      | none => rw [ho] at a; dsimp only at a; omega
      | some o => exact ⟨o, obj_some.1 ho⟩

/-- One or zero. -/
def hit (p : Option Id) (y : Id) : Nat := p.toList.count y

theorem count_set_hit (l : List (Option Id)) (i : Nat) (old p : Option Id) (h : l[i]? = some old) (y : Id) :
    (l.set i p).count (some y) + hit old y = l.count (some y) + hit p y := by
  have e : ∀ q : Option Id, hit q y = if q = some y then 1 else 0 := by
    intro q
    unfold hit
    cases q with
    | none => simp
    | some z => by_cases hz : z = y <;> simp [hz]
  rw [e, e]
  induction l generalizing i with
  | nil => simp at h
  | cons x l ih =>
    cases i with
    | zero =>
      simp at h
      subst h
      simp only [List.set_cons_zero, List.count_cons, beq_iff_eq]
      omega
    | succ i =>
      have := ih i (by simpa using h)
      simp only [List.set_cons_succ, List.count_cons]
      omega

theorem cnt_write (st : St) (s : Slot) (p : Option Id) (x : Id) : cnt (st.write s p) x = cnt st x := by
  unfold St.write
  cases s with
  | root i => rfl
  | field o i =>
    dsimp only
    cases ho : st.obj o with
    | none => rfl
    | some ob =>
      dsimp only
      unfold cnt
      rw [obj_setObj ho _ x]
      by_cases hx : x = o
      · subst hx; rw [if_pos rfl, ho]
      · rw [if_neg hx]

theorem refs_write (st : St) (s : Slot) (old p : Option Id) (h : st.read s = some old) (y : Id) :
    refs (st.write s p) y + hit old y = refs st y + hit p y := by
  cases s with
  | root i =>
    have := count_set_hit st.roots i old p h y
    unfold refs
    show (st.roots.set i p).count _ + _ + _ + _ = _
    have e : (st.write (.root i) p).raw = st.raw ∧ (st.write (.root i) p).heap = st.heap := ⟨rfl, rfl⟩
    rw [e.1, e.2]
    omega
  | field o i =>
    unfold St.read at h
    dsimp only at h
    unfold St.write
    dsimp only
    cases ho : st.obj o with
    | none => rw [ho] at h; cases h
    | some ob =>
      rw [ho] at h
      dsimp only at h ⊢
      have e1 := count_set_hit ob.fields i old p h y
      have e2 := refs_setObj ho (some { ob with fields := ob.fields.set i p }) y
      have e3 : cellRefs y (some { ob with fields := ob.fields.set i p }) =
        (ob.fields.set i p).count (some y) := rfl
      omega

theorem positive_write {st : St} (h : ∀ x o, st.obj x = some o → 0 < o.count) (s : Slot) (p : Option Id) :
    ∀ x o, (st.write s p).obj x = some o → 0 < o.count := by
  intro x o ho
  have e := cnt_write st s p x
  unfold cnt at e
  rw [ho] at e
  dsimp only at e
  cases h2 : st.obj x with
  | none =>
    rw [h2] at e
    exfalso
    unfold St.write at ho
    cases s with
    | root i => dsimp only at ho; rw [show ({ st with roots := st.roots.set i p } : St).obj x = st.obj x from rfl,
        h2] at ho; cases ho
    | field z i =>
      dsimp only at ho
      cases hz : st.obj z with
      | none => rw [hz] at ho; dsimp only at ho; rw [h2] at ho; cases ho
      | some ob =>
        rw [hz] at ho
        dsimp only at ho
        rw [obj_setObj hz _ x] at ho
        by_cases hx : x = z
        · subst hx; rw [h2] at hz; cases hz
        · rw [if_neg hx, h2] at ho; cases ho
  | some o' =>
    rw [h2] at e
    dsimp only at e
    rw [e]
    exact h x o' h2

theorem incOpt_ok (st : St) (p : Option Id) (hp : ∀ x, p = some x → ∃ o, st.obj x = some o)
    (h0 : ∀ x o, st.obj x = some o → 0 ≤ o.count) (hs : ∀ x, cnt st x < 65535) :
    ∃ st', incOpt st p = .ok st' ∧ (∀ x, cnt st' x = cnt st x + (hit p x : Int)) ∧
      (∀ x, refs st' x = refs st x) ∧ Kept st st' ∧ Kept st' st := by
  cases p with
  | none => exact ⟨st, rfl, by simp [hit], fun _ => rfl, Kept.refl _, Kept.refl _⟩
  | some y =>
    obtain ⟨o, ho⟩ := hp y rfl
    have h1 := h0 y o ho
    have h2 := hs y
    unfold cnt at h2
    rw [ho] at h2
    dsimp only at h2
    refine ⟨st.setObj y (some { o with count := o.count + 1 }), ?_, ?_, ?_, ?_, ?_⟩
    · rw [incOpt, incRef, ho]
      dsimp only
      rw [if_neg (by omega), if_neg (by omega)]
    · intro x
      unfold cnt
      rw [obj_setObj ho _ x]
      by_cases hx : x = y
      · subst hx; rw [if_pos rfl, ho]; simp [hit]
      · rw [if_neg hx]
        have : hit (some y) x = 0 := by
          unfold hit; exact List.count_eq_zero.2 (by simpa using hx)
        rw [this]; simp
    · intro x
      have e1 := refs_setObj ho (some { o with count := o.count + 1 }) x
      have e3 : cellRefs x (some { o with count := o.count + 1 }) = o.fields.count (some x) := rfl
      omega
    · exact kept_setObj ho _ (by intro o' h; cases h; rfl)
    · refine ⟨rfl, rfl, by simp [St.setObj], ?_⟩
      intro x o' ho'
      by_cases hx : x = y
      · subst hx
        have := obj_some.2 ho'
        rw [ho] at this
        cases this
        refine ⟨{ o with count := o.count + 1 }, ?_, rfl⟩
        apply obj_some.1
        rw [obj_setObj ho _ x, if_pos rfl]
      · refine ⟨o', ?_, rfl⟩
        apply obj_some.1
        rw [obj_setObj ho _ x, if_neg hx]
        exact obj_some.2 ho'

end Verif.Ref
