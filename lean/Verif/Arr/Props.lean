import Verif.Arr.Lemmas
/-!
# C18, C53: arrays, filtering, searching
-/
namespace Verif.Arr
open Verif Spec

variable {α : Type _}

/-- A request against the model. -/
def implStep (d : α) (s : Arr α) : Op α → Option (Arr α)
  | .append x => append x s
  | .extend xs => extend xs s
  | .resize n => resize d n s
  | .pop count => pop d count s
  | .insert pos count => insert d pos count s
  | .erase pos count => erase pos count s
  | .eraseQuick1 pos => eraseQuick1 pos s
  | .eraseQuick pos count => eraseQuick pos count s
  | .filter p => filter p s
  | .assign xs => assignList xs s
  | .reserve n => reserve n s
  | .truncate => truncate s
  | .clear => clear s

/-- **C18**, one request.  An array that holds the sequence `xs` (and nothing but raw memory behind
it) serves every legal request without a fault and then holds a sequence the request's description
allows. -/
theorem C18_step_partial (d : α) (s : Arr α) (xs : List α) (h : Holds s xs) (hx : xs.length < 2 ^ 31)
    (op : Op α) (hl : Legal xs op) :
    ∃ s' ys, implStep d s op = some s' ∧ Holds s' ys ∧ Step d xs op ys ∧ ys.length < 2 ^ 31 := by
  cases op with
  | append x =>
    obtain ⟨s', e1, e2⟩ := append_holds x s xs h hl
    exact ⟨s', _, e1, e2, rfl, by rw [List.length_append]; exact hl⟩
  | extend zs =>
    obtain ⟨s', e1, e2⟩ := extend_holds zs s xs h hl
    exact ⟨s', _, e1, e2, rfl, by rw [List.length_append]; exact hl⟩
  | resize n =>
    obtain ⟨s', e1, e2⟩ := resize_holds d n s xs h hx hl
    refine ⟨s', _, e1, e2, rfl, ?_⟩
    have : n < 2 ^ 31 := hl
    rw [List.length_append, List.length_take, List.length_replicate]; omega
  | pop count =>
    have hc : count ≤ xs.length := hl
    obtain ⟨s', e1, e2⟩ := resize_holds d (xs.length - count) s xs h hx (by omega)
    have hz : xs.length - count - xs.length = 0 := by omega
    rw [hz, List.replicate_zero, List.append_nil] at e2
    refine ⟨s', _, ?_, e2, rfl, by rw [List.length_take]; omega⟩
    unfold implStep pop
    dsimp only
    rw [h.1, if_pos hc, e1]
  | insert pos count =>
    obtain ⟨hl1, hl2⟩ := hl
    obtain ⟨s', e1, e2⟩ := insert_holds d pos count s xs h hl1 hl2
    refine ⟨s', _, e1, e2, rfl, ?_⟩
    simp only [List.length_append, List.length_take, List.length_drop, List.length_replicate]
    omega
  | erase pos count =>
    have hl' : pos + count ≤ xs.length := hl
    obtain ⟨s', e1, e2⟩ := erase_holds pos count s xs h hx hl'
    refine ⟨s', _, e1, e2, rfl, ?_⟩
    simp only [List.length_append, List.length_take, List.length_drop]
    omega
  | eraseQuick1 pos =>
    obtain ⟨s', ys, e1, e2, e3⟩ := eraseQuick1_holds pos s xs h hx hl
    refine ⟨s', ys, e1, e2, e3, ?_⟩
    rw [e3.1.length_eq]
    simp only [List.length_append, List.length_take, List.length_drop]
    omega
  | eraseQuick pos count =>
    obtain ⟨s', ys, e1, e2, e3⟩ := eraseQuick_holds pos count s xs h hx hl
    refine ⟨s', ys, e1, e2, e3, ?_⟩
    rw [e3.1.length_eq]
    simp only [List.length_append, List.length_take, List.length_drop]
    omega
  | filter p =>
    obtain ⟨s', ys, e1, e2, e3⟩ := filterLoop_holds p (xs.length + 1) 0 s xs h hx (by omega) (by omega)
    rw [List.take_zero, List.drop_zero, List.nil_append] at e3
    refine ⟨s', ys, ?_, e2, e3, ?_⟩
    · unfold implStep filter; dsimp only; rw [h.1]; exact e1
    · rw [e3.length_eq]; exact Nat.lt_of_le_of_lt (List.length_filter_le _ _) hx
  | assign zs =>
    obtain ⟨s', e1, e2⟩ := assign_holds zs s xs h hl
    exact ⟨s', _, e1, e2, rfl, hl⟩
  | reserve n =>
    obtain ⟨s', e1, e2, _⟩ := reserve_holds n s xs h hx hl
    exact ⟨s', _, e1, e2, rfl, hx⟩
  | truncate =>
    obtain ⟨h1, k, h2⟩ := h
    refine ⟨⟨xs.map some ++ raw (s.num - xs.length), s.num⟩, xs, ?_, ⟨h1, _, rfl⟩, rfl, hx⟩
    unfold implStep truncate
    dsimp only
    rw [h2, reallocCells_eq xs k s.num (by omega)]
    rfl
  | clear =>
    refine ⟨Arr.empty, [], ?_, ⟨rfl, 0, rfl⟩, rfl, by simp⟩
    unfold implStep clear
    dsimp only
    rw [clear_holds s xs h]; rfl

/-- A history of requests that are legal when they are made, and a sequence it may lead to. -/
inductive History (d : α) : List α → List (Op α) → List α → Prop where
  | nil (xs) : History d xs [] xs
  | cons {xs ys zs op ops} : Legal xs op → Step d xs op ys → History d ys ops zs →
      History d xs (op :: ops) zs

/-- A sequence of requests against the model. -/
def implRun (d : α) (s : Arr α) : List (Op α) → Option (Arr α)
  | [] => some s
  | op :: ops =>
    match implStep d s op with
    | none => none
    | some s' => implRun d s' ops

/-- `LegalRun d xs ops`: whatever the requests so far may have led to, the next one is legal. -/
def LegalRun (d : α) : List α → List (Op α) → Prop
  | _, [] => True
  | xs, op :: ops => Legal xs op ∧ ∀ ys, Step d xs op ys → LegalRun d ys ops

/-- **C18.** Every history of legal requests on an initially empty array runs without a fault; the
array ends up holding a sequence that the history's description allows, its capacity is at least
its number of items, everything behind the items is raw memory, and subscripting reads exactly that
sequence. -/
theorem C18_history_partial (d : α) (ops : List (Op α)) (hl : LegalRun d [] ops) :
    ∃ s ys, implRun d Arr.empty ops = some s ∧ History d [] ops ys ∧ s.num = ys.length ∧
      s.num ≤ s.cells.length ∧ (∀ c ∈ s.cells.drop s.num, c = none) ∧ ∀ i, get i s = ys[i]? := by
  have key : ∀ (ops : List (Op α)) (s : Arr α) (xs : List α), Holds s xs → xs.length < 2 ^ 31 →
      LegalRun d xs ops →
      ∃ s' ys, implRun d s ops = some s' ∧ History d xs ops ys ∧ Holds s' ys := by
    intro ops
    induction ops with
    | nil => intro s xs h _ _; exact ⟨s, xs, rfl, History.nil xs, h⟩
    | cons op ops ih =>
      intro s xs h hx hl
      obtain ⟨s1, ys, e1, e2, e3, e4⟩ := C18_step_partial d s xs h hx op hl.1
      obtain ⟨s', zs, f1, f2, f3⟩ := ih s1 ys e2 e4 (hl.2 ys e3)
      exact ⟨s', zs, by simp only [implRun, e1, f1], History.cons hl.1 e3 f2, f3⟩
  obtain ⟨s, ys, e1, e2, e3⟩ := key ops Arr.empty [] ⟨rfl, 0, rfl⟩ (by simp) hl
  obtain ⟨h1, k, h2⟩ := id e3
  refine ⟨s, ys, e1, e2, h1, ?_, ?_, fun i => get_holds i s ys e3⟩
  · rw [h2]; simp [h1]
  · intro c hc
    rw [h2, h1, List.drop_left' (by simp)] at hc
    exact List.eq_of_mem_replicate hc

example : LegalRun (0 : Nat) [] [.extend [1, 2, 3, 4], .insert 1 2, .erase 0 1, .eraseQuick1 0] := by
  refine ⟨by simp [Legal], ?_⟩
  rintro ys rfl
  refine ⟨by simp [Legal], ?_⟩
  rintro ys rfl
  refine ⟨by simp [Legal], ?_⟩
  rintro ys rfl
  exact ⟨by simp [Legal], fun _ _ => trivial⟩

example : (implRun (0 : Nat) Arr.empty [.extend [1, 2, 3, 4], .insert 1 2, .erase 0 1]).map (·.cells) =
    some [some 0, some 0, some 2, some 3, some 4, none, none, none] := by decide

/-- **C18**, quick erasure in full: exactly the items outside the erased range remain. -/
theorem C18_quick_multiset (xs : List α) (pos count : Nat) (s : Arr α) (h : Holds s xs)
    (hx : xs.length < 2 ^ 31) (hp : pos + 2 * count ≤ xs.length ∨ pos + count = xs.length) :
    ∃ s' ys, eraseQuick pos count s = some s' ∧ Holds s' ys ∧
      ys.Perm (xs.take pos ++ xs.drop (pos + count)) := by
  obtain ⟨s', ys, e1, e2, e3⟩ := eraseQuick_holds pos count s xs h hx hp
  exact ⟨s', ys, e1, e2, e3.1⟩

example : (eraseQuick 1 2 (⟨[some 1, some 2, some 3, some 4, some 5], 5⟩ : Arr Nat)).map (·.cells) =
    some [some 1, some 4, some 5, none, none] := by decide

/-- **C18**, disagreement: whenever the erased range partly overlaps the last `count` items, the
array ends up with destructed items among its live ones: no sequence is held any more. -/
theorem C18_quick_overlap_corrupts (xs : List α) (pos count : Nat) (s : Arr α) (h : Holds s xs)
    (hx : xs.length < 2 ^ 31) (h1 : pos + count < xs.length) (h2 : xs.length < pos + 2 * count) :
    ∃ s', eraseQuick pos count s = some s' ∧ ¬ ∃ ys, Holds s' ys := by
  obtain ⟨hn, k, hc⟩ := h
  obtain ⟨a, r, har, ha, _, _⟩ := split_at xs pos (by omega)
  have hxl := congrArg List.length har
  rw [List.length_append] at hxl
  obtain ⟨b, l, hbl, hb, _, _⟩ := split_at r count (by omega)
  have hrl := congrArg List.length hbl
  rw [List.length_append] at hrl
  -- l has fewer than `count` items; `count - l.length` destructed ones precede it in the block moved
  have hd : destructRange s.cells pos count = some (a.map some ++ raw count ++ (l.map some ++ raw k)) := by
    rw [hc, har, hbl]
    have := destructRange_eq (a.map some) (l.map some ++ raw k) b pos count (by simp [ha]) hb.symm
    simpa using this
  generalize hj : count - l.length = j
  have hrel : relocate (a.map some ++ raw count ++ (l.map some ++ raw k)) pos (s.num - count) count =
      some (a.map some ++ (raw j ++ l.map some) ++ raw (l.length + k)) := by
    refine relocate_eq _ (a.map some ++ raw l.length) (raw j ++ l.map some) (raw k) (a.map some)
      (raw (l.length + k)) _ _ _ ?_ ?_ (by simp; omega) ?_ (by simp [ha])
    · have : count = l.length + j := by omega
      rw [this, raw_add]
      simp only [List.append_assoc]
    · simp [ha]; omega
    · simp only [List.append_assoc, ← raw_add]
      congr 2
      omega
  refine ⟨⟨a.map some ++ (raw j ++ l.map some) ++ raw (l.length + k), s.num - count⟩, ?_, ?_⟩
  · unfold eraseQuick
    rw [u32_of_lt (n := pos + count) (by omega), hn, if_pos (by omega), hd]
    dsimp only
    rw [← hn, hrel]; rfl
  · rintro ⟨ys, hy1, m, hy2⟩
    dsimp only at hy1 hy2
    have hpos : (a.map some ++ (raw j ++ l.map some) ++ raw (l.length + k))[pos]? = some none := by
      rw [List.append_assoc, List.getElem?_append_right (by simp [ha]), List.length_map, ha,
        Nat.sub_self, List.append_assoc, List.getElem?_append_left (by simp; omega)]
      rw [List.getElem?_replicate, if_pos (by omega)]
    rw [hy2, List.getElem?_append_left (by simp; omega), List.getElem?_map] at hpos
    simp at hpos

example : eraseQuick 2 2 (⟨[some 1, some 2, some 3, some 4, some 5], 5⟩ : Arr Nat) =
    some ⟨[some 1, some 2, none, some 5, none], 3⟩ := by decide

/-- **C18**, copying: copy construction holds the same items, as does assignment from another
array. -/
theorem C18_copy (xs zs : List α) (s other : Arr α) (h : Holds s xs) (ho : Holds other zs)
    (hz : zs.length < 2 ^ 31) :
    ∃ s', copyAssign s other false = some s' ∧ Holds s' zs := by
  have hread : ∀ zs : List α, readAll (zs.map some) = some zs := by
    intro zs
    induction zs with
    | nil => rfl
    | cons z zs ih => simp [readAll, ih]
  obtain ⟨o1, k, o2⟩ := ho
  unfold copyAssign copyConstruct
  simp only [Bool.false_eq_true, ↓reduceIte]
  have ht : other.cells.take other.num = zs.map some := by
    rw [o1, o2, List.take_left' (by simp)]
  have hge := roundUp_ge zs.length hz
  rw [ht, o1]
  generalize Bits.roundUpPowerOf2_32 zs.length = cap at hge ⊢
  rw [hread, clear_holds s xs h]
  dsimp only
  have hraw : (List.replicate cap none : List (Option α)) =
      [] ++ raw zs.length ++ raw (cap - zs.length) := by
    rw [List.nil_append, ← raw_add, Nat.add_sub_cancel' hge]
  rw [hraw, constructRange_eq [] _ zs 0 rfl]
  exact ⟨_, rfl, rfl, cap - zs.length, rfl⟩

example : copyAssign (⟨[some 7], 1⟩ : Arr Nat) ⟨[some 1, some 2, none], 2⟩ false =
    some ⟨[some 1, some 2], 2⟩ := by decide

/-- **C18**, disagreement: assigning a non-empty array to itself reads unconstructed memory. -/
theorem C18_self_assignment_faults (xs : List α) (s : Arr α) (h : Holds s xs) (hne : xs ≠ [])
    (hx : xs.length < 2 ^ 31) : copyAssign s s true = none := by
  have hl : 0 < xs.length := List.length_pos_iff.mpr hne
  have hge := roundUp_ge xs.length hx
  unfold copyAssign copyConstruct
  simp only [↓reduceIte]
  rw [h.1]
  generalize Bits.roundUpPowerOf2_32 xs.length = cap at hge ⊢
  have : (List.replicate cap (none : Option α)).take xs.length =
      none :: List.replicate (xs.length - 1) none := by
    rw [List.take_replicate, Nat.min_eq_left hge, ← List.replicate_succ, Nat.sub_add_cancel hl]
  rw [this]
  rfl

/-! ## C53: searching -/

theorem find_go (p : α → Bool) (v : List α) (i : Nat) :
    find.go p v i = (v.findIdx? p).map (· + i) := by
  induction v generalizing i with
  | nil => simp [find.go]
  | cons x xs ih =>
    simp only [find.go, List.findIdx?_cons]
    by_cases hp : p x = true
    · simp [hp]
    · simp only [hp, Bool.false_eq_true, ↓reduceIte, ih, Option.map_map]
      congr 1
      funext j
      simp only [Function.comp]
      omega

/-- **C53.** `find` returns the least index of a matching item, or -1 if there is none. -/
theorem C53_find (p : α → Bool) (v : List α) (hv : v.length ≤ 2 ^ 31) :
    (find p v = -1 ∧ ∀ x ∈ v, p x = false) ∨
    ∃ (i : Nat) (x : α), find p v = (i : Int) ∧ v[i]? = some x ∧ p x = true ∧
      ∀ j y, j < i → v[j]? = some y → p y = false := by
  unfold find
  rw [find_go]
  cases h : v.findIdx? p with
  | none =>
    rw [List.findIdx?_eq_none_iff] at h
    exact Or.inl ⟨rfl, h⟩
  | some i =>
    rw [List.findIdx?_eq_some_iff_getElem] at h
    obtain ⟨h1, h2, h3⟩ := h
    refine Or.inr ⟨i, v[i], ?_, List.getElem?_eq_getElem h1, h2, ?_⟩
    · simp only [Option.map_some, Nat.add_zero]
      rw [if_pos (by omega)]
    · intro j y hj hy
      obtain ⟨hjl, e⟩ := List.getElem?_eq_some_iff.mp hy
      have := h3 j hj
      rw [← e]; simpa using this

example : find (fun x => x == 3) [1, 3, 2, 3] = 1 ∧ find (fun x => x == 9) [1, 3] = -1 := by decide

theorem rfindLoop_spec (p : α → Bool) (v : List α) (n : Nat) (hn : n ≤ v.length) :
    (rfindLoop p v n = some (-1) ∧ ∀ j y, j < n → v[j]? = some y → p y = false) ∨
    ∃ (i : Nat) (x : α), rfindLoop p v n = some (i : Int) ∧ i < n ∧ v[i]? = some x ∧ p x = true ∧
      ∀ j y, i < j → j < n → v[j]? = some y → p y = false := by
  induction n with
  | zero => exact Or.inl ⟨rfl, by intro j y h; omega⟩
  | succ n ih =>
    have hg : v[n]? = some v[n] := List.getElem?_eq_getElem (by omega)
    simp only [rfindLoop, hg]
    by_cases hp : p v[n] = true
    · rw [if_pos hp]
      exact Or.inr ⟨n, v[n], rfl, by omega, hg, hp, by intro j y h1 h2; omega⟩
    · rw [if_neg hp]
      rcases ih (by omega) with ⟨e1, e2⟩ | ⟨i, x, e1, e2, e3, e4, e5⟩
      · refine Or.inl ⟨e1, ?_⟩
        intro j y hj hy
        by_cases hc : j = n
        · subst hc; rw [hg] at hy; cases hy; simpa using hp
        · exact e2 j y (by omega) hy
      · refine Or.inr ⟨i, x, e1, by omega, e3, e4, ?_⟩
        intro j y hj1 hj2 hy
        by_cases hc : j = n
        · subst hc; rw [hg] at hy; cases hy; simpa using hp
        · exact e5 j y hj1 (by omega) hy

/-- **C53.** On a non-empty view, `rfind` returns the greatest index of a matching item, or -1 if
there is none.  (On an empty view it fails an assertion: `C53_rfind_empty_asserts`.) -/
theorem C53_rfind_partial (p : α → Bool) (v : List α) (hne : v ≠ []) (hv : v.length ≤ 2 ^ 31) :
    (rfind p v = some (-1) ∧ ∀ x ∈ v, p x = false) ∨
    ∃ (i : Nat) (x : α), rfind p v = some (i : Int) ∧ v[i]? = some x ∧ p x = true ∧
      ∀ j y, i < j → v[j]? = some y → p y = false := by
  have hl : 0 < v.length := List.length_pos_iff.mpr hne
  have hcond : u32 (v.length + 2 ^ 32 - 1) < 2 ^ 31 := by unfold u32; omega
  unfold rfind
  rw [if_pos hcond]
  rcases rfindLoop_spec p v v.length (Nat.le_refl _) with ⟨e1, e2⟩ | ⟨i, x, e1, e2, e3, e4, e5⟩
  · refine Or.inl ⟨e1, ?_⟩
    intro x hx
    obtain ⟨j, hj⟩ := List.mem_iff_getElem?.mp hx
    exact e2 j x (List.getElem?_eq_some_iff.mp hj).1 hj
  · exact Or.inr ⟨i, x, e1, e3, e4, fun j y h1 h2 =>
      e5 j y h1 (List.getElem?_eq_some_iff.mp h2).1 h2⟩

example : rfind (fun x => x == 3) [1, 3, 2, 3, 0] = some 3 := by decide

/-- **C53**, disagreement: searching an empty view backwards fails an assertion instead of reporting
"not found". -/
theorem C53_rfind_empty_asserts (p : α → Bool) : rfind p [] = none := by
  unfold rfind
  rw [if_neg (by unfold u32; simp)]

/-- **C53.** Two views compare equal exactly if they have the same items (for an exact item
comparison). -/
theorem C53_view_equality [DecidableEq α] (a b : List α) :
    viewEq (fun x y => decide (x = y)) a b = true ↔ a = b := by
  unfold viewEq
  by_cases h : a.length = b.length
  · rw [if_neg (by simpa using h)]
    induction a generalizing b with
    | nil =>
      cases b with
      | nil => simp
      | cons y ys => simp at h
    | cons x xs ih =>
      cases b with
      | nil => simp at h
      | cons y ys =>
        have h' : xs.length = ys.length := by simpa using h
        simp only [List.zip_cons_cons, List.all_cons, Bool.and_eq_true, decide_eq_true_eq,
          List.cons.injEq, ih ys h']
  · rw [if_pos h]
    simp only [Bool.false_eq_true, false_iff]
    rintro rfl
    exact h rfl

example : viewEq (fun x y : Nat => decide (x = y)) [1, 2] [1, 2] = true := by decide

end Verif.Arr
