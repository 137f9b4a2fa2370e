import Verif.Ref.LemmasOps
/-!
# Reference counting — theorems (property C70)
-/
namespace Verif.Ref

/-- What an operation does to the pointers of the program, not counting anything: the specification of
`step` up to deletion of objects nobody refers to.  `none`: a reference is named that there is not. -/
def Op.effect (st : St) : Op → Option St
  | .newVar => some { st with roots := st.roots ++ [none] }
  | .dropVar => if st.roots = [] then none else some { st with roots := st.roots.dropLast }
  | .copyVar s => (st.read s).map fun p => { st with roots := st.roots ++ [p] }
  | .moveVar s => (st.read s).map fun p => { st.write s none with roots := (st.write s none).roots ++ [p] }
  | .assignNew d n => (st.read d).map fun _ =>
      ({ st with heap := st.heap ++ [some ⟨0, List.replicate n none⟩] } : St).write d (some st.heap.length)
  | .assignCopy d s => match st.read d, st.read s with
    | some _, some p => some (st.write d p)
    | _, _ => none
  | .assignNull d => (st.read d).map fun _ => st.write d none
  | .assignMove d s => match st.read d, st.read s with
    | some _, some p => some (if d = s then st.write d none else (st.write d p).write s none)
    | _, _ => none
  | .clear d => (st.read d).map fun _ => st.write d none
  | .release d => (st.read d).map fun p => { st.write d none with raw := p.toList ++ st.raw }
  | .dropRaw x => if x ∈ st.raw then some { st with raw := st.raw.erase x } else none

/-- The conclusion of the theorems about single operations: it succeeds, the counts are right, and apart
from deletions the pointers are what they should be. -/
def Done (r : Except Err St) (want : St) : Prop := ∃ st', r = .ok st' ∧ Counted st' ∧ Kept want st'

theorem assignPtr_null (st : St) (h : Counted st) (hs : Small st) (dst : Slot) (old : Option Id)
    (hr : st.read dst = some old) : Done (assignPtr st dst none) (st.write dst none) := by
  obtain ⟨st1, st', e1, e2, e3, e4⟩ := assign_ok st dst old none hr ((counted_iff st).1 h) (by simp) hs
  refine ⟨st', ?_, (counted_iff st').2 e3, e4⟩
  rw [assignPtr, hr]
  dsimp only
  rw [e1]
  exact e2

theorem write_new_obj {st : St} (s : Slot) (p : Option Id) : (st.write s p).heap.length = st.heap.length := by
  cases s with
  | root i => rfl
  | field o i =>
    unfold St.write
    dsimp only
    cases st.obj o with
    | none => rfl
    | some ob => simp [St.setObj]

/-- How the old object is given up with the pointer still in place, compared to giving it up with the
pointer removed. -/
theorem decOpt_inplace (st : St) (h : Counted st) (dst : Slot) (old : Option Id)
    (hr : st.read dst = some old) (st' : St) (ha : assignPtr st dst none = .ok st') :
    (st'.read dst ≠ none → decOpt st old = .ok (st'.write dst old)) ∧
    (st'.read dst = none → ∀ st2, decOpt st old ≠ .ok st2) := by
  rw [assignPtr, hr] at ha
  dsimp only [incOpt] at ha
  cases old with
  | none =>
    cases ha
    refine ⟨fun _ => ?_, fun hn => ?_⟩
    · rw [write_write, write_read st dst none hr]; rfl
    · rw [read_write_self st dst none none hr] at hn; cases hn
  | some p =>
    rw [decOpt, write_size] at ha
    have hback : (st.write dst none).write dst (some p) = st := by rw [write_write, write_read st dst _ hr]
    refine ⟨fun hn => ?_, fun hn st2 => ?_⟩
    · have := decRefs_sim _ _ _ _ dst (some p) ha hn
      rw [hback] at this
      exact this
    · have hrw := read_write_self st dst none (some p) hr
      cases dst with
      | root i =>
        have hk := decRefs_kept _ _ _ _ ha
        rw [kept_read_root hk i, hrw] at hn
        cases hn
      | field z i =>
        intro hc
        obtain ⟨o, ho⟩ := read_alive ((counted_iff st).1 h) hr
        have hA : ∃ oA, (st.write (.field z i) none).obj p = some oA := write_alive _ _ ⟨o, ho⟩
        obtain ⟨oA, hoA⟩ := hA
        obtain ⟨o', ho', hcnt⟩ := write_obj_count _ _ hoA
        rw [ho] at ho'
        cases ho'
        rw [decOpt, decRefs, ho] at hc
        rw [decRefs, hoA] at ha
        dsimp only at hc ha
        rw [hcnt] at hc
        split at ha
        · cases ha
        · rename_i g1
          rw [if_neg g1] at hc
          split at ha
          · cases ha
          · rename_i g2
            rw [if_neg g2] at hc
            split at ha
            · rename_i g3
              rw [if_pos g3] at hc
              by_cases hpz : p = z
              · subst hpz
                -- the object refers to itself
                apply decRefs_dead _ _ _ _ p ?_ ?_ hc
                · apply List.mem_append_left
                  rw [List.mem_reverse, List.mem_filterMap]
                  refine ⟨some p, ?_, rfl⟩
                  unfold St.read at hr
                  dsimp only at hr
                  rw [ho] at hr
                  exact List.mem_of_getElem? hr
                · rw [obj_setObj ho _ p, if_pos rfl]
              · have hob : oA = o := by
                  rw [write_obj_other st z i none p hpz, ho] at hoA
                  cases hoA
                  rfl
                subst hob
                have e2 : ((st.write (.field z i) none).setObj p none).write (.field z i) (some p) =
                    st.setObj p none := by
                  cases hz : st.obj z with
                  | none =>
                    unfold St.read at hr
                    dsimp only at hr
                    rw [hz] at hr
                    cases hr
                  | some oz =>
                    have hzp : z ≠ p := fun h => hpz h.symm
                    rw [write_field st z i none hz]
                    rw [write_field _ z i (some p) (ob := { oz with fields := oz.fields.set i none })]
                    · rw [setObj_comm _ _ _ _ _ hpz, setObj_setObj]
                      have : oz.fields[i]? = some (some p) := by
                        unfold St.read at hr
                        dsimp only at hr
                        rw [hz] at hr
                        exact hr
                      obtain ⟨hi, e⟩ := List.getElem?_eq_some_iff.1 this
                      have e5 : (oz.fields.set i none).set i (some p) = oz.fields := by
                        rw [List.set_set, ← e]
                        simp
                      simp only [e5]
                      rw [setObj_self hz]
                    · rw [obj_setObj (o := oA) _ _ z, if_neg hzp, obj_setObj hz _ z, if_pos rfl]
                      rw [obj_setObj hz _ p, if_neg hpz]
                      exact ho
                rw [← e2] at hc
                refine decRefs_stale _ _ _ _ _ z i p ha ?_ none ?_ hn hc
                · rw [obj_setObj hoA _ p, if_pos rfl]
                · unfold St.read at hrw ⊢
                  dsimp only at hrw ⊢
                  rw [obj_setObj hoA _ z, if_neg (fun h => hpz h.symm)]
                  exact hrw
            · -- no deletion: the slot stays
              rw [decRefs] at ha
              cases ha
              exfalso
              unfold St.read at hrw hn
              dsimp only at hrw hn
              rw [obj_setObj hoA _ z] at hn
              by_cases hpz : z = p
              · subst hpz
                rw [if_pos rfl] at hn
                rw [hoA] at hrw
                dsimp only at hrw hn
                rw [hrw] at hn
                cases hn
              · rw [if_neg hpz, hrw] at hn
                cases hn

/-! ## What every state means -/

/-- **C70**: in a state with right counts everything a program can get at from its variables exists. -/
theorem C70_reachable_alive (st : St) (h : Counted st) (x : Id) (hx : Reach st x) : Alive st x := by
  have hpos : 0 < refs st x := by
    unfold refs
    cases hx with
    | root hm => have := List.count_pos_iff.2 hm; omega
    | raw hm => have := List.count_pos_iff.2 hm; omega
    | @field y x o _ ho hm =>
      have e := sum_set (cellRefs x) st.heap y (some o) none ho
      have e2 : cellRefs x (some o) = o.fields.count (some x) := rfl
      have e3 : cellRefs x none = 0 := rfl
      have := List.count_pos_iff.2 hm
      rw [heapRefs_eq]
      omega
  exact h.2 x hpos

theorem sum_pos {α : Type} (f : α → Nat) (l : List α) (h : 0 < (l.map f).sum) :
    ∃ (i : Nat) (a : α), l[i]? = some a ∧ 0 < f a := by
  induction l with
  | nil => simp at h
  | cons x l ih =>
    by_cases hx : 0 < f x
    · exact ⟨0, x, rfl, hx⟩
    · simp only [List.map_cons, List.sum_cons] at h
      obtain ⟨i, a, h1, h2⟩ := ih (by omega)
      exact ⟨i + 1, a, h1, h2⟩

/-- **C70**: and unless objects refer to each other in a circle, everything else has been deleted. -/
theorem C70_no_leak (st : St) (h : Counted st) (ha : Acyclic st) (x : Id) (hx : Alive st x) : Reach st x := by
  obtain ⟨rank, hrank⟩ := ha
  -- ranks of existing objects are bounded
  have hb : ∃ B, ∀ y, Alive st y → rank y < B := by
    have : ∀ n : Nat, ∃ B, ∀ y : Nat, y < n → rank y < B := by
      intro n
      induction n with
      | zero => exact ⟨0, by omega⟩
      | succ n ih =>
        obtain ⟨B, hB⟩ := ih
        refine ⟨max B (rank n + 1), ?_⟩
        intro y hy
        by_cases hyn : y = n
        · subst hyn; omega
        · have := hB y (by omega); omega
    obtain ⟨B, hB⟩ := this st.heap.length
    refine ⟨B, ?_⟩
    rintro y ⟨o, ho⟩
    obtain ⟨hlt, _⟩ := List.getElem?_eq_some_iff.1 ho
    exact hB y hlt
  obtain ⟨B, hB⟩ := hb
  have main : ∀ k x, Alive st x → B - rank x ≤ k → Reach st x := by
    intro k
    induction k with
    | zero => intro x hx hk; have := hB x hx; exact absurd hk (by omega)
    | succ k ih =>
      rintro x ⟨o, ho⟩ hk
      have hp := (h.1 x o ho).2
      unfold refs at hp
      by_cases h1 : 0 < st.roots.count (some x)
      · exact .root (List.count_pos_iff.1 h1)
      · by_cases h2 : 0 < st.raw.count x
        · exact .raw (List.count_pos_iff.1 h2)
        · rw [heapRefs_eq] at hp
          obtain ⟨y, c, hy, hc⟩ := sum_pos (cellRefs x) st.heap (by omega)
          cases c with
          | none => exact absurd hc (by simp [cellRefs])
          | some oy =>
            have hm : some x ∈ oy.fields := List.count_pos_iff.1 hc
            have hr := hrank y x oy hy hm
            have hBy := hB y ⟨oy, hy⟩
            exact .field (ih y ⟨oy, hy⟩ (by omega)) hy hm
  exact main _ x hx (Nat.le_refl _)

/-- Two variables and an object that refers to another. -/
def exSt : St := ⟨[some ⟨2, [some 1, none]⟩, some ⟨1, [none, none]⟩, none], [some 0, none, some 0], []⟩

theorem exSt_counted : Counted exSt := by
  have hr : ∀ x, refs exSt x = if x = 0 then 2 else if x = 1 then 1 else 0 := by
    intro x
    unfold refs heapRefs exSt
    match x with
    | 0 => decide
    | 1 => decide
    | n + 2 =>
      simp
  refine ⟨?_, ?_⟩
  · intro x o ho
    rw [hr]
    match x, ho with
    | 0, ho => cases ho; decide
    | 1, ho => cases ho; decide
    | 2, ho => cases ho
    | n + 3, ho => simp [exSt] at ho
  · intro x hx
    rw [hr] at hx
    match x, hx with
    | 0, _ => exact ⟨_, rfl⟩
    | 1, _ => exact ⟨_, rfl⟩
    | n + 2, hx => simp at hx

theorem exSt_small : Small exSt := by
  intro x
  unfold refs heapRefs exSt
  match x with
  | 0 => decide
  | 1 => decide
  | n + 2 => simp

example : Alive exSt 1 :=
  C70_reachable_alive exSt exSt_counted 1 (.field (y := 0) (o := ⟨2, [some 1, none]⟩)
    (.root (by decide)) rfl (by decide))

example : Reach exSt 1 :=
  C70_no_leak exSt exSt_counted ⟨fun x => 5 - x, by
    intro y x o hy hx
    match y, hy with
    | 0, hy => cases hy; simp at hx; subst hx; decide
    | 1, hy => cases hy; simp at hx
    | 2, hy => cases hy
    | n + 3, hy => simp [exSt] at hy⟩ 1 ⟨_, rfl⟩

/-! ## Single operations -/

/-- **C70**: `clear()` of a member works exactly if the object it belongs to outlives the operation; then it
does what assigning null does.  Otherwise the code touches deleted objects. -/
theorem C70_clear_exact (st : St) (h : Counted st) (hs : Small st) (dst : Slot) (old : Option Id)
    (hr : st.read dst = some old) :
    ∃ st', assignPtr st dst none = .ok st' ∧ Counted st' ∧ Kept (st.write dst none) st' ∧
      (st'.read dst ≠ none → clear st dst = .ok st') ∧
      (st'.read dst = none → ∀ st2, clear st dst ≠ .ok st2) := by
  obtain ⟨st', e1, e2, e3⟩ := assignPtr_null st h hs dst old hr
  obtain ⟨a, b⟩ := decOpt_inplace st h dst old hr st' e1
  refine ⟨st', e1, e2, e3, fun hn => ?_, fun hn st2 => ?_⟩
  · rw [clear, hr]
    dsimp only
    rw [a hn]
    dsimp only
    have hrn : st'.read dst = some none := by
      rw [kept_read e3 dst hn, read_write_self st dst none old hr]
    rw [read_write_self st' dst old none hrn]
    dsimp only
    rw [write_write, write_read st' dst none hrn]
  · rw [clear, hr]
    dsimp only
    have := b hn
    cases hd : decOpt st old with
    | ok s => exact absurd hd (this s)
    | error e => simp

theorem read_write_other (st : St) (s t : Slot) (p : Option Id) (h : s ≠ t) :
    (st.write s p).read t = st.read t := by
  cases s with
  | root i =>
    cases t with
    | root j =>
      show (st.roots.set i p)[j]? = st.roots[j]?
      rw [List.getElem?_set_ne (by rintro rfl; exact h rfl)]
    | field x j => rfl
  | field o i =>
    cases ho : st.obj o with
    | none => rw [write_dead st o i p ho]
    | some ob =>
      cases t with
      | root j => rw [write_field st o i p ho]; rfl
      | field x j =>
        rw [write_field st o i p ho]
        unfold St.read
        dsimp only
        rw [obj_setObj ho _ x]
        by_cases hx : x = o
        · subst hx
          rw [if_pos rfl, ho]
          dsimp only
          rw [List.getElem?_set_ne]
          rintro rfl
          exact h rfl
        · rw [if_neg hx]

theorem kept_write {a b : St} (h : Kept a b) (s : Slot) (p : Option Id) (hb : b.read s ≠ none) :
    Kept (a.write s p) (b.write s p) := by
  cases s with
  | root i =>
    refine ⟨?_, h.2.1, h.2.2.1, h.2.2.2⟩
    show b.roots.set i p = a.roots.set i p
    rw [h.1]
  | field o i =>
    cases hbo : b.obj o with
    | none => unfold St.read at hb; dsimp only at hb; rw [hbo] at hb; exact absurd rfl hb
    | some ob =>
      obtain ⟨oa, hoa, hf⟩ := h.2.2.2 o ob (obj_some.1 hbo)
      rw [write_field a o i p (obj_some.2 hoa), write_field b o i p hbo]
      refine ⟨h.1, h.2.1, by simp [St.setObj, h.2.2.1], ?_⟩
      intro x o' ho'
      have e := obj_some.2 ho'
      rw [obj_setObj hbo _ x] at e
      by_cases hx : x = o
      · subst hx
        rw [if_pos rfl] at e
        cases e
        refine ⟨{ oa with fields := oa.fields.set i p }, obj_some.1 ?_, by simp only [hf]⟩
        rw [obj_setObj (obj_some.2 hoa) _ x, if_pos rfl]
      · rw [if_neg hx] at e
        obtain ⟨o2, h2, hf2⟩ := h.2.2.2 x o' (obj_some.1 e)
        refine ⟨o2, obj_some.1 ?_, hf2⟩
        rw [obj_setObj (obj_some.2 hoa) _ x, if_neg hx]
        exact obj_some.2 h2

/-- Moving a pointer from one reference to an empty one. -/
theorem move_counted (st : St) (h : Counted st) (dst src : Slot) (p : Option Id) (hne : dst ≠ src)
    (hd : st.read dst = some none) (hsrc : st.read src = some p) :
    Counted ((st.write dst p).write src none) := by
  have hi := (counted_iff st).1 h
  apply (counted_iff _).2
  have hr2 : (st.write dst p).read src = some p := by rw [read_write_other st dst src p hne, hsrc]
  refine ⟨?_, positive_write (positive_write hi.2 dst p) src none⟩
  intro x
  rw [cnt_write, cnt_write, hi.1 x]
  have e1 := refs_write st dst none p hd x
  have e2 := refs_write (st.write dst p) src p none hr2 x
  have e3 : hit none x = 0 := rfl
  omega

/-- **C70**: move assignment works exactly if both the target and the source outlive the object given up. -/
theorem C70_move_exact (st : St) (h : Counted st) (hs : Small st) (dst src : Slot) (old p : Option Id)
    (hne : dst ≠ src) (hr : st.read dst = some old) (hr2 : st.read src = some p) :
    ∃ st', assignPtr st dst none = .ok st' ∧
      (st'.read dst ≠ none → st'.read src ≠ none →
        Done (assignMove st dst src) ((st.write dst p).write src none)) ∧
      (st'.read dst = none ∨ st'.read src = none → ∀ st2, assignMove st dst src ≠ .ok st2) := by
  obtain ⟨st', e1, e2, e3⟩ := assignPtr_null st h hs dst old hr
  obtain ⟨a, b⟩ := decOpt_inplace st h dst old hr st' e1
  refine ⟨st', e1, fun hn hn2 => ?_, fun hor st2 => ?_⟩
  · have hrn : st'.read dst = some none := by
      rw [kept_read e3 dst hn, read_write_self st dst none old hr]
    have hsn : st'.read src = some p := by
      rw [kept_read e3 src hn2, read_write_other st dst src none hne, hr2]
    refine ⟨(st'.write dst p).write src none, ?_, move_counted st' e2 dst src p hne hrn hsn, ?_⟩
    · rw [assignMove, hr, hr2]
      dsimp only
      rw [a hn]
      dsimp only
      rw [read_write_other st' dst src old hne, hsn, read_write_self st' dst old none hrn]
      dsimp only
      rw [write_write]
    · have k1 := kept_write e3 dst p hn
      rw [write_write] at k1
      exact kept_write k1 src none (by rw [read_write_other st' dst src p hne]; exact hn2)
  · rw [assignMove, hr, hr2]
    dsimp only
    cases hd : decOpt st old with
    | error e => simp
    | ok s =>
      dsimp only
      by_cases hn : st'.read dst = none
      · exact absurd hd (b hn s)
      · have hs2 := a hn
        rw [hd] at hs2
        cases hs2
        have hsn : st'.read src = none := by
          rcases hor with h | h
          · exact absurd h hn
          · exact h
        rw [read_write_other st' dst src old hne, hsn]
        simp

theorem kept_roots {a b : St} (h : Kept a b) (r : List (Option Id)) (w : List Id) :
    Kept { a with roots := r, raw := w } { b with roots := r, raw := w } := ⟨rfl, rfl, h.2.2.1, h.2.2.2⟩

theorem count_getLast (l : List (Option Id)) (p : Option Id) (h : l.getLast? = some p) (x : Id) :
    l.dropLast.count (some x) + hit p x = l.count (some x) := by
  have e : l = l.dropLast ++ [p] := by
    cases l with
    | nil => simp at h
    | cons a t =>
      have h2 := List.dropLast_concat_getLast (l := a :: t) (by simp)
      rw [List.getLast?_eq_some_getLast (by simp)] at h
      cases h
      exact h2.symm
  conv => rhs; rw [e]
  rw [List.count_append]
  unfold hit
  cases p with
  | none => simp
  | some y => by_cases hy : y = x <;> simp [hy]

/-- **C70**: every operation but move assignment and `clear()` on members of objects works in every state
with right counts, as long as the references it names exist: it leaves right counts (so nothing is deleted
that something refers to, and nothing else is kept but circles), and it does to the pointers what it should
do. -/
theorem C70_step (st : St) (h : Counted st) (hs : Small st) (op : Op) (hop : op.Safe) (want : St)
    (hw : op.effect st = some want) : Done (step st op) want := by
  have hi := (counted_iff st).1 h
  have hi1 : ∀ x, cnt st x = (refs st x : Int) := fun x => by simpa using hi.1 x
  cases op with
  | newVar =>
    cases hw
    refine ⟨_, rfl, (counted_iff _).2 ⟨?_, hi.2⟩, Kept.refl _⟩
    intro x
    have e : refs { st with roots := st.roots ++ [none] } x = refs st x := by
      unfold refs; simp [List.count_append]
    rw [e]
    exact hi.1 x
  | dropVar =>
    unfold Op.effect at hw
    dsimp only at hw
    split at hw
    · cases hw
    · rename_i hne
      cases hw
      cases hl : st.roots.getLast? with
      | none => rw [List.getLast?_eq_none_iff] at hl; exact absurd hl hne
      | some p =>
        obtain ⟨st', e1, e2, e3⟩ := decOpt_ok { st with roots := st.roots.dropLast } p ⟨by
          intro x
          have e1 := count_getLast st.roots p hl x
          have e2 : cnt { st with roots := st.roots.dropLast } x = cnt st x := rfl
          rw [e2, hi1 x]
          unfold refs
          show _ = _ + ((hit p x : Nat) : Int)
          dsimp only
          omega, hi.2⟩ (fun x => small_cnt hi1 hs (k := 65535) (by decide) x)
        exact ⟨st', by show dropVar st = _; rw [dropVar, hl]; exact e1, (counted_iff _).2 e2, e3⟩
  | copyVar s =>
    unfold Op.effect at hw
    dsimp only at hw
    cases hr : st.read s with
    | none => rw [hr] at hw; cases hw
    | some p =>
      rw [hr] at hw
      cases hw
      obtain ⟨st', e1, e2, e3, e4, _⟩ := incOpt_ok { st with roots := st.roots ++ [p] } p
        (fun x hx => by subst hx; exact read_alive hi hr)
        (fun x o ho => Int.le_of_lt (hi.2 x o ho)) (fun x => small_cnt hi1 hs (k := 65535) (by decide) x)
      refine ⟨st', by show copyVar st s = _; rw [copyVar, hr]; exact e1, (counted_iff _).2 ⟨?_, ?_⟩, e4⟩
      · intro x
        rw [e2, e3]
        have e5 : cnt { st with roots := st.roots ++ [p] } x = cnt st x := rfl
        have e6 : refs { st with roots := st.roots ++ [p] } x = refs st x + hit p x := by
          unfold refs
          dsimp only
          rw [List.count_append]
          have : [p].count (some x) = hit p x := by
            unfold hit
            cases p with
            | none => simp
            | some y => by_cases hy : y = x <;> simp [hy]
          omega
        rw [e5, e6, hi1 x]
        simp
      · intro x o ho
        have hc : cnt st' x = o.count := by unfold cnt; rw [ho]
        rw [e2] at hc
        obtain ⟨o', ho', _⟩ := e4.2.2.2 x o (obj_some.1 ho)
        have hp := hi.2 x o' (obj_some.2 ho')
        have hc2 : cnt { st with roots := st.roots ++ [p] } x = o'.count := by
          unfold cnt; rw [show St.obj _ x = some o' from obj_some.2 ho']
        omega
  | moveVar s =>
    unfold Op.effect at hw
    dsimp only at hw
    cases hr : st.read s with
    | none => rw [hr] at hw; cases hw
    | some p =>
      rw [hr] at hw
      cases hw
      refine ⟨_, by show moveVar st s = _; rw [moveVar, hr], (counted_iff _).2 ⟨?_, ?_⟩, Kept.refl _⟩
      · intro x
        have e1 := refs_write st s p none hr x
        have e2 : hit none x = 0 := rfl
        have e3 : cnt { st.write s none with roots := (st.write s none).roots ++ [p] } x = cnt st x :=
          cnt_write st s none x
        have e6 : refs { st.write s none with roots := (st.write s none).roots ++ [p] } x =
            refs (st.write s none) x + hit p x := by
          unfold refs
          dsimp only
          rw [List.count_append]
          have : [p].count (some x) = hit p x := by
            unfold hit
            cases p with
            | none => simp
            | some y => by_cases hy : y = x <;> simp [hy]
          omega
        rw [e3, e6, hi1 x]
        simp
        omega
      · exact positive_write hi.2 s none
  | assignNew d n =>
    unfold Op.effect at hw
    dsimp only at hw
    cases hr : st.read d with
    | none => rw [hr] at hw; cases hw
    | some old =>
      rw [hr] at hw
      cases hw
      have hobj : ∀ x, ({ st with heap := st.heap ++ [some ⟨0, List.replicate n none⟩] } : St).obj x =
          if x = st.heap.length then some ⟨0, List.replicate n none⟩ else st.obj x := by
        intro x
        unfold St.obj
        dsimp only
        by_cases hx : x = st.heap.length
        · subst hx; rw [if_pos rfl]; simp
        · rw [if_neg hx]
          by_cases hlt : x < st.heap.length
          · rw [List.getElem?_append_left hlt]
          · have hx' : ¬ (x : Nat) = st.heap.length := hx
            have hle : st.heap.length ≤ x := Nat.le_of_not_lt hlt
            have hlt2 : st.heap.length < x := Nat.lt_of_le_of_ne hle (fun h => hx' h.symm)
            rw [List.getElem?_eq_none (by simp; exact hlt2), List.getElem?_eq_none hle]
      have href : ∀ x, refs { st with heap := st.heap ++ [some ⟨0, List.replicate n none⟩] } x = refs st x := by
        intro x
        unfold refs
        dsimp only
        rw [heapRefs_eq, heapRefs_eq]
        simp [cellRefs, List.count_replicate]
      have hnone : st.obj st.heap.length = none := by unfold St.obj; simp
      have hcnt : ∀ x, cnt { st with heap := st.heap ++ [some ⟨0, List.replicate n none⟩] } x = cnt st x := by
        intro x
        unfold cnt
        rw [hobj x]
        by_cases hx : x = st.heap.length
        · subst hx; rw [if_pos rfl, hnone]
        · rw [if_neg hx]
      have hrd : ({ st with heap := st.heap ++ [some ⟨0, List.replicate n none⟩] } : St).read d = some old := by
        cases d with
        | root i => exact hr
        | field z i =>
          unfold St.read at hr ⊢
          dsimp only at hr ⊢
          rw [hobj z]
          by_cases hz : z = st.heap.length
          · rw [hz, hnone] at hr; cases hr
          · rw [if_neg hz]; exact hr
      obtain ⟨st1, st', e1, e2, e3, e4⟩ := assign_core _ d old (some st.heap.length) hrd
        (fun x => by rw [hcnt, href]; exact hi1 x)
        (fun x o ho => by
          rw [hobj x] at ho
          by_cases hx : x = st.heap.length
          · subst hx; rw [if_pos rfl] at ho; cases ho; exact .inr ⟨rfl, Int.le_refl _⟩
          · rw [if_neg hx] at ho; exact .inl (hi.2 x o ho))
        (fun x hx => by cases hx; exact ⟨_, by rw [hobj, if_pos rfl]⟩)
        (fun x => by rw [href]; exact hs x)
      refine ⟨st', ?_, (counted_iff _).2 e3, e4⟩
      show assignNew st d n = _
      rw [assignNew, hr]
      dsimp only
      rw [assignPtr, hrd]
      dsimp only
      rw [e1]
      exact e2
  | assignCopy d s =>
    unfold Op.effect at hw
    dsimp only at hw
    cases hr : st.read d with
    | none => rw [hr] at hw; cases hw
    | some old =>
      cases hr2 : st.read s with
      | none => rw [hr, hr2] at hw; cases hw
      | some p =>
        rw [hr, hr2] at hw
        cases hw
        obtain ⟨st1, st', e1, e2, e3, e4⟩ := assign_ok st d old p hr hi
          (fun x hx => by subst hx; exact read_alive hi hr2) hs
        refine ⟨st', ?_, (counted_iff _).2 e3, e4⟩
        show assignCopy st d s = _
        rw [assignCopy, hr, hr2]
        dsimp only
        rw [e1]
        exact e2
  | assignNull d =>
    unfold Op.effect at hw
    dsimp only at hw
    cases hr : st.read d with
    | none => rw [hr] at hw; cases hw
    | some old =>
      rw [hr] at hw
      cases hw
      exact assignPtr_null st h hs d old hr
  | assignMove d s =>
    cases d with
    | field z i => exact hop.elim
    | root i =>
      cases s with
      | field z j => exact hop.elim
      | root j =>
        unfold Op.effect at hw
        dsimp only at hw
        cases hr : st.read (.root i) with
        | none => rw [hr] at hw; cases hw
        | some old =>
          cases hr2 : st.read (.root j) with
          | none => rw [hr, hr2] at hw; cases hw
          | some p =>
            rw [hr, hr2] at hw
            dsimp only at hw
            by_cases hij : i = j
            · subst hij
              rw [if_pos rfl] at hw
              cases hw
              obtain ⟨st', e1, e2, e3⟩ := assignPtr_null st h hs _ old hr
              have hn : st'.read (.root i) ≠ none := by
                rw [kept_read_root e3, read_write_self st _ none old hr]; simp
              have hrn : st'.read (.root i) = some none := by
                rw [kept_read_root e3, read_write_self st _ none old hr]
              refine ⟨st', ?_, e2, e3⟩
              show assignMove st _ _ = _
              rw [assignMove, hr]
              dsimp only
              rw [(decOpt_inplace st h _ old hr st' e1).1 hn]
              dsimp only
              rw [read_write_self st' _ old none hrn]
              dsimp only
              rw [write_write, write_write, write_read st' _ none hrn]
            · rw [if_neg (by simpa using hij)] at hw
              cases hw
              obtain ⟨st', e1, e2, _⟩ := C70_move_exact st h hs (.root i) (.root j) old p (by simpa using hij) hr hr2
              obtain ⟨st'', f1, _, f3⟩ := assignPtr_null st h hs _ old hr
              rw [e1] at f1
              cases f1
              exact e2 (by rw [kept_read_root f3, read_write_self st _ none old hr]; simp)
                (by rw [kept_read_root f3, read_write_other st _ _ none (by simpa using hij), hr2]; simp)
  | clear d =>
    cases d with
    | field z i => exact hop.elim
    | root i =>
      unfold Op.effect at hw
      dsimp only at hw
      cases hr : st.read (.root i) with
      | none => rw [hr] at hw; cases hw
      | some old =>
        rw [hr] at hw
        cases hw
        obtain ⟨st', e1, e2, e3, e4, _⟩ := C70_clear_exact st h hs (.root i) old hr
        exact ⟨st', e4 (by rw [kept_read_root e3, read_write_self st _ none old hr]; simp), e2, e3⟩
  | release d =>
    unfold Op.effect at hw
    dsimp only at hw
    cases hr : st.read d with
    | none => rw [hr] at hw; cases hw
    | some p =>
      rw [hr] at hw
      cases hw
      have hraw : ∀ q, (st.write d q).raw = st.raw := by
        intro q
        cases d with
        | root i => rfl
        | field z i =>
          unfold St.write
          dsimp only
          cases st.obj z <;> rfl
      cases p with
      | none =>
        refine ⟨st, by show release st d = _; rw [release, hr], h, ?_⟩
        rw [write_read st d none hr]
        exact Kept.refl _
      | some y =>
        refine ⟨{ st.write d none with raw := y :: st.raw }, by show release st d = _; rw [release, hr],
          (counted_iff _).2 ⟨?_, ?_⟩, Kept.refl _⟩
        · intro x
          have e1 := refs_write st d (some y) none hr x
          have e2 : hit none x = 0 := rfl
          have e3 : cnt { st.write d none with raw := y :: st.raw } x = cnt st x := cnt_write st d none x
          have e6 : refs { st.write d none with raw := y :: st.raw } x = refs (st.write d none) x + hit (some y) x := by
            unfold refs
            dsimp only
            rw [List.count_cons, hraw]
            have : hit (some y) x = if (y == x) = true then 1 else 0 := by
              unfold hit
              by_cases hy : y = x <;> simp [hy]
            omega
          rw [e3, e6, hi1 x]
          simp
          omega
        · exact positive_write hi.2 d none
  | dropRaw x =>
    unfold Op.effect at hw
    dsimp only at hw
    split at hw
    · rename_i hm
      cases hw
      obtain ⟨st', e1, e2, e3⟩ := decOpt_ok { st with raw := st.raw.erase x } (some x) ⟨by
        intro y
        have e2 : cnt { st with raw := st.raw.erase x } y = cnt st y := rfl
        rw [e2, hi1 y]
        unfold refs
        dsimp only [Option.toList]
        have : (st.raw.erase x).count y + [x].count y = st.raw.count y := by
          rw [List.count_erase]
          by_cases hy : x = y
          · subst hy
            have := List.count_pos_iff.2 hm
            simp
            omega
          · simp [hy]
        omega, hi.2⟩ (fun x => small_cnt hi1 hs (k := 65535) (by decide) x)
      exact ⟨st', by show dropRaw st x = _; rw [dropRaw, if_pos hm]; exact e1, (counted_iff _).2 e2, e3⟩
    · cases hw

/-- Replacing a variable's object deletes it if it was the last reference, with what it alone referred to. -/
example : (run exSt [.assignNull (.root 0), .assignCopy (.root 1) (.field 0 0), .dropVar]) =
    .ok ⟨[none, some ⟨1, [none, none]⟩, none], [none, some 1], []⟩ := rfl

example : ∃ want, (Op.assignCopy (.root 0) (.field 0 0)).effect exSt = some want ∧
    Done (step exSt (.assignCopy (.root 0) (.field 0 0))) want :=
  ⟨_, rfl, C70_step exSt exSt_counted exSt_small (.assignCopy (.root 0) (.field 0 0)) trivial _ rfl⟩

/-- The hypothesis that counts are small holds all along. -/
def SmallAlong (st : St) : List Op → Prop
  | [] => True
  | o :: os => Small st ∧ ∀ st', step st o = .ok st' → SmallAlong st' os

/-- **C70**: a program built of these operations never touches a deleted object, from whatever state with
right counts it starts, in particular from the empty one; it can only stop where it names a reference there is not.
Wherever it stands, the counts are right. -/
theorem C70_history (ops : List Op) (hops : ∀ o ∈ ops, o.Safe) (st : St) (h : Counted st)
    (hs : SmallAlong st ops) :
    (∃ st', run st ops = .ok st' ∧ Counted st') ∨ run st ops = .error .slot := by
  induction ops generalizing st with
  | nil => exact .inl ⟨st, rfl, h⟩
  | cons o os ih =>
    rw [run]
    cases hw : o.effect st with
    | some want =>
      obtain ⟨st', e1, e2, _⟩ := C70_step st h hs.1 o (hops o (by simp)) want hw
      rw [e1]
      exact ih (fun o ho => hops o (by simp [ho])) st' e2 (hs.2 st' e1)
    | none =>
      right
      have : step st o = .error .slot := by
        cases o with
        | newVar => cases hw
        | dropVar =>
          unfold Op.effect at hw
          dsimp only at hw
          split at hw
          · rename_i hn; show dropVar st = _; rw [dropVar, hn]; rfl
          · cases hw
        | copyVar s =>
          unfold Op.effect at hw; dsimp only at hw
          cases hr : st.read s with
          | none => show copyVar st s = _; rw [copyVar, hr]
          | some p => rw [hr] at hw; cases hw
        | moveVar s =>
          unfold Op.effect at hw; dsimp only at hw
          cases hr : st.read s with
          | none => show moveVar st s = _; rw [moveVar, hr]
          | some p => rw [hr] at hw; cases hw
        | assignNew d n =>
          unfold Op.effect at hw; dsimp only at hw
          cases hr : st.read d with
          | some p => rw [hr] at hw; cases hw
          | none =>
            show assignNew st d n = _
            rw [assignNew, hr]
        | assignCopy d s =>
          unfold Op.effect at hw; dsimp only at hw
          show assignCopy st d s = _
          rw [assignCopy]
          cases hr : st.read d with
          | none => rfl
          | some p =>
            cases hr2 : st.read s with
            | none => rfl
            | some q => rw [hr, hr2] at hw; cases hw
        | assignNull d =>
          unfold Op.effect at hw; dsimp only at hw
          cases hr : st.read d with
          | none => show assignPtr st d none = _; rw [assignPtr, hr]
          | some p => rw [hr] at hw; cases hw
        | assignMove d s =>
          unfold Op.effect at hw; dsimp only at hw
          show assignMove st d s = _
          rw [assignMove]
          cases hr : st.read d with
          | none => rfl
          | some p =>
            cases hr2 : st.read s with
            | none => rfl
            | some q => rw [hr, hr2] at hw; cases hw
        | clear d =>
          unfold Op.effect at hw; dsimp only at hw
          cases hr : st.read d with
          | none => show clear st d = _; rw [clear, hr]
          | some p => rw [hr] at hw; cases hw
        | release d =>
          unfold Op.effect at hw; dsimp only at hw
          cases hr : st.read d with
          | none => show release st d = _; rw [release, hr]
          | some p => rw [hr] at hw; cases hw
        | dropRaw x =>
          unfold Op.effect at hw
          dsimp only at hw
          split at hw
          · cases hw
          · rename_i hm; show dropRaw st x = _; rw [dropRaw, if_neg hm]
      rw [this]

/-- From the empty state. -/
example : run ⟨[], [], []⟩ [.newVar, .assignNew (.root 0) 1, .assignNew (.field 0 0) 0, .copyVar (.field 0 0),
    .assignNull (.root 0)] = .ok ⟨[none, some ⟨1, []⟩], [none, some 1], []⟩ := rfl

/-! ## Where the order of the statements matters -/

theorem sum_le {α : Type} (f g : α → Nat) : ∀ (l l' : List α), l.length = l'.length →
    (∀ (i : Nat) a b, l[i]? = some a → l'[i]? = some b → f a ≤ g b) → (l.map f).sum ≤ (l'.map g).sum
  | [], [], _, _ => Nat.le_refl _
  | a :: l, b :: l', hl, h => by
    have h1 := h 0 a b rfl rfl
    have h2 := sum_le f g l l' (by simpa using hl) (fun i a b ha hb => h (i + 1) a b ha hb)
    simp only [List.map_cons, List.sum_cons]
    omega

theorem kept_refs {a b : St} (h : Kept a b) (x : Id) : refs b x ≤ refs a x := by
  unfold refs
  rw [h.1, h.2.1, heapRefs_eq, heapRefs_eq]
  have := sum_le (cellRefs x) (cellRefs x) b.heap a.heap h.2.2.1 (by
    intro i c d hc hd
    cases c with
    | none => exact Nat.zero_le _
    | some o =>
      obtain ⟨o', e1, e2⟩ := h.2.2.2 i o hc
      rw [hd] at e1
      cases e1
      show o.fields.count _ ≤ o'.fields.count _
      rw [e2]
      exact Nat.le_refl _)
  omega

/-- **C70** fails for moving out of the object that is given up: `head = std::move(head->next)` where `head`
is the last reference reads `next` after the object has been deleted. -/
theorem C70_pop_undefined (st : St) (h : Counted st) (hs : Small st) (dst : Slot) (x : Id) (i : Nat)
    (p : Option Id) (hne : dst ≠ .field x i) (hr : st.read dst = some (some x)) (hone : refs st x = 1)
    (hf : st.read (.field x i) = some p) (st2 : St) : assignMove st dst (.field x i) ≠ .ok st2 := by
  obtain ⟨st', e1, _, e3⟩ := C70_move_exact st h hs dst (.field x i) (some x) p hne hr hf
  obtain ⟨st'', f1, f2, f3⟩ := assignPtr_null st h hs dst (some x) hr
  rw [e1] at f1
  cases f1
  refine e3 (.inr ?_) st2
  cases hx : st'.obj x with
  | none => unfold St.read; dsimp only; rw [hx]
  | some o =>
    exfalso
    have h1 := (f2.1 x o (obj_some.1 hx)).2
    have h2 := kept_refs f3 x
    have h3 := refs_write st dst (some x) none hr x
    have h4 : hit (some x) x = 1 := by simp [hit]
    have h5 : hit none x = 0 := rfl
    omega

/-- A list of two nodes with `head` in a variable: with a copy instead of a move the same works. -/
example :
    let st : St := ⟨[some ⟨1, [some 1]⟩, some ⟨1, [none]⟩], [some 0], []⟩
    assignMove st (.root 0) (.field 0 0) = .error .freed ∧
    assignCopy st (.root 0) (.field 0 0) = .ok ⟨[none, some ⟨1, [none]⟩], [some 1], []⟩ := ⟨rfl, rfl⟩

/-- **C70** fails for `clear()` of a member by which an object keeps itself alive in a circle: the object is
deleted while its member is cleared, and the member's object is given up twice.  Assigning null works. -/
theorem C70_circle :
    let st : St := ⟨[some ⟨1, [some 1]⟩, some ⟨1, [some 0]⟩], [], []⟩
    Counted st ∧ clear st (.field 0 0) = .error .freed ∧
      assignPtr st (.field 0 0) none = .ok ⟨[none, none], [], []⟩ := by
  refine ⟨⟨?_, ?_⟩, rfl, rfl⟩
  · intro x o ho
    match x, ho with
    | 0, ho => cases ho; decide
    | 1, ho => cases ho; decide
    | n + 2, ho => simp at ho
  · intro x hx
    match x, hx with
    | 0, _ => exact ⟨_, rfl⟩
    | 1, _ => exact ⟨_, rfl⟩
    | n + 2, hx => simp [refs, heapRefs] at hx

/-- Circles are never deleted. -/
example : run ⟨[], [], []⟩ [.newVar, .assignNew (.root 0) 1, .assignCopy (.field 0 0) (.root 0), .dropVar] =
    .ok ⟨[some ⟨1, [some 0]⟩], [], []⟩ := rfl

/-- The two assertions do not agree: the reference number 65535 can be made but not be given up. -/
theorem C70_limit (st : St) (x : Id) (o : Obj) (h : st.obj x = some o) (hc : o.count = 65534) :
    ∃ st1, incRef st x = .ok st1 ∧ ∀ fuel, decRefs (fuel + 1) [x] st1 = .error .limit := by
  refine ⟨st.setObj x (some { o with count := o.count + 1 }), ?_, ?_⟩
  · rw [incRef, h]
    dsimp only
    rw [if_neg (by omega), if_neg (by omega)]
  · intro fuel
    rw [decRefs, obj_setObj h _ x, if_pos rfl]
    dsimp only
    rw [if_neg (by omega), if_pos (by omega)]

end Verif.Ref
