import Verif.Conv.Lemmas
/-!
# C89 — converting structs: property theorems
-/
namespace Verif.Conv
open Verif

theorem placed_in {t t' : Ty} (hw : t.Wf) (hw' : t'.Wf) {a b : Nat} {q : Nat × Nat} (h : q ∈ placed t t' a b) :
    a ≤ q.1 ∧ q.1 + 4 ≤ a + t.fixedSize ∧ b ≤ q.2 ∧ q.2 + 4 ≤ b + t'.fixedSize := by
  obtain ⟨⟨x, y⟩, hxy, rfl⟩ := List.mem_map.1 h
  obtain ⟨path, h1, h2⟩ := (mem_pairs _ _ _ _).1 hxy
  have h3 := leaf_bound _ _ _ hw h1
  have h4 := leaf_bound _ _ _ hw' h2
  dsimp only
  omega

/-- What is copied for one member. -/
theorem all_member {srcs : List (List Member)} {d : Nat} {ptrs : List Nat} {m : Member} {q : Nat × Nat}
    (hw : m.ty.Wf) (hs : ∀ ms ∈ srcs, ∀ m ∈ ms, m.ty.Wf)
    (h : q ∈ (match findSource m.name srcs 0 with
      | none => []
      | some (s, sm) =>
        match ptrs[s]? with
        | none => []
        | some p => placed m.ty sm.ty (d + m.offset) (p + sm.offset))) :
    (∀ a, q.1 ≤ a ∧ a < q.1 + 4 → m.At d a) ∧
    ∃ (s : Nat) (ms : List Member) (sm : Member) (p : Nat), srcs[s]? = some ms ∧ ptrs[s]? = some p ∧ sm ∈ ms ∧
      ∀ a, q.2 ≤ a ∧ a < q.2 + 4 → sm.At p a := by
  split at h
  · cases h
  rename_i s sm hf
  split at h
  · cases h
  rename_i p hp
  have ht := (find_taken _ _ _ _ _ hf).2
  rw [Nat.sub_zero] at ht
  obtain ⟨ms, hms, hsm⟩ := taken_mem ht
  have hb := placed_in hw (hs ms (List.mem_of_getElem? hms) sm hsm) h
  exact ⟨fun a ha => ⟨by omega, by omega⟩, s, ms, sm, p, hms, hp, hsm, fun a ha => ⟨by omega, by omega⟩⟩

theorem all_apart {srcs : List (List Member)} {d : Nat} {ptrs : List Nat} {dst : List Member}
    (hl : Layout dst srcs d ptrs) : (allPairs srcs d ptrs dst).Pairwise
      fun p q => ∀ a, ¬ ((p.1 ≤ a ∧ a < p.1 + 4) ∧ (q.1 ≤ a ∧ a < q.1 + 4)) := by
  have hs : ∀ ms ∈ srcs, ∀ m ∈ ms, m.ty.Wf := fun ms hms m hm => (hl.wfSrc ms hms m hm).1
  unfold allPairs
  rw [List.pairwise_flatMap]
  refine ⟨?_, ?_⟩
  · intro m hm
    split
    · exact List.Pairwise.nil
    split
    · exact List.Pairwise.nil
    unfold placed
    rw [List.pairwise_map]
    refine (pairs_sorted _ _ (hl.wf m hm).1).imp ?_
    intro p q hpq a ha
    dsimp only at ha
    omega
  · refine hl.apart.imp_of_mem ?_
    intro m m' hm hm' hd p hp q hq a ha
    exact hd a ⟨(all_member (hl.wf m hm).1 hs hp).1 a ha.1, (all_member (hl.wf m' hm').1 hs hq).1 a ha.2⟩

theorem all_other {srcs : List (List Member)} {d : Nat} {ptrs : List Nat} {dst : List Member}
    (hl : Layout dst srcs d ptrs) : ∀ p ∈ allPairs srcs d ptrs dst, ∀ q ∈ allPairs srcs d ptrs dst,
      ∀ a, ¬ ((p.1 ≤ a ∧ a < p.1 + 4) ∧ (q.2 ≤ a ∧ a < q.2 + 4)) := by
  have hs : ∀ ms ∈ srcs, ∀ m ∈ ms, m.ty.Wf := fun ms hms m hm => (hl.wfSrc ms hms m hm).1
  intro p hp q hq a ha
  obtain ⟨m, hm, hp⟩ := List.mem_flatMap.1 hp
  obtain ⟨m', hm', hq⟩ := List.mem_flatMap.1 hq
  have h1 := (all_member (hl.wf m hm).1 hs hp).1 a ha.1
  obtain ⟨s, ms, sm, pt, h2, h3, h4, h5⟩ := (all_member (hl.wf m' hm').1 hs hq).2
  exact hl.other s ms pt h2 h3 m hm sm h4 a ⟨h1, h5 a ha.2⟩

/-- **C89** — a recipe for structs without arrays of variable size does what it should, in all memories: every number
of the destination that has one of the same name and indices in a source gets exactly its bytes, from the first source
that has the name; every other byte of memory, in the destination or not, stays as it is.

Missing: sources with arrays of variable size, see `C89_array_wrong`; recipes that do not fit into one block. -/
theorem C89_convert_partial {dst : List Member} {srcs : List (List Member)} {d : Nat} {ptrs : List Nat}
    (hl : Layout dst srcs d ptrs) (hx : ∀ ms ∈ srcs, ∀ m ∈ ms, m.ty.Fixed) {r : List Cmd}
    (hr : createRecipe srcs dst = some r) (mem : Mem) :
    ∃ mem', applyRecipe r mem d ptrs = some mem' ∧
      (∀ a b, Fills dst srcs d ptrs a b → ∀ k, k < 4 → mem' (a + k) = mem (b + k)) ∧
      (∀ c, (∀ a b, Fills dst srcs d ptrs a b → ¬ (a ≤ c ∧ c < a + 4)) → mem' c = mem c) := by
  refine ⟨_, run_all hl.count hl.wfSrc hx dst hl.wf r hr mem none, ?_, ?_⟩
  · intro a b hf k hk
    exact copies_inside _ _ (all_apart hl) (all_other hl) (a, b) (mem_all.2 hf) k hk
  · intro c hc
    refine copies_outside _ _ _ ?_
    rintro ⟨a, b⟩ hab
    exact hc a b (mem_all.1 hab)

/-! An example: `p` is an array of three numbers in steps of 8 bytes, filled from two in steps of 4; `q` is a
number. -/

/-- Helper: the destination of the example. -/
def demoDst : List Member := [⟨[112], 0, .fixedArray 3 8 .float⟩, ⟨[113], 24, .float⟩]

/-- Helper: the sources of the example. -/
def demoSrcs : List (List Member) := [[⟨[113], 4, .float⟩], [⟨[113], 0, .float⟩, ⟨[112], 8, .fixedArray 2 4 .float⟩]]

theorem demo_layout : Layout demoDst demoSrcs 1000 [2000, 3000] := by
  refine ⟨?_, ?_, ?_, rfl, ?_⟩
  · simp only [demoDst, List.pairwise_cons, List.mem_singleton, List.not_mem_nil]
    refine ⟨?_, fun _ h => h.elim, List.Pairwise.nil⟩
    rintro m rfl a ⟨h1, h2⟩
    simp only [Member.At, Ty.fixedSize] at h1 h2
    omega
  · simp only [demoDst, List.mem_cons, List.not_mem_nil, or_false]
    rintro m (rfl | rfl) <;> simp [Ty.Wf, Ty.fixedSize]
  · simp only [demoSrcs, List.mem_cons, List.not_mem_nil, or_false]
    rintro ms (rfl | rfl) m hm
    · simp only [List.mem_singleton] at hm
      subst hm
      simp [Ty.Wf, Ty.fixedSize]
    · simp only [List.mem_cons, List.not_mem_nil, or_false] at hm
      rcases hm with rfl | rfl <;> simp [Ty.Wf, Ty.fixedSize]
  · intro i ms p h1 h2 m hm sm hsm a ⟨h3, h4⟩
    have hsz : m.offset + m.ty.fixedSize ≤ 28 := by
      simp only [demoDst, List.mem_cons, List.not_mem_nil, or_false] at hm
      rcases hm with rfl | rfl <;> simp [Ty.fixedSize]
    have hp : 2000 ≤ p := by
      match i, h2 with
      | 0, h2 => cases h2; omega
      | 1, h2 => cases h2; omega
      | i + 2, h2 => simp at h2
    simp only [Member.At] at h3 h4
    omega

theorem demo_fixed : ∀ ms ∈ demoSrcs, ∀ m ∈ ms, m.ty.Fixed := by
  simp only [demoSrcs, List.mem_cons, List.not_mem_nil, or_false]
  rintro ms (rfl | rfl) m hm
  · simp only [List.mem_singleton] at hm
    subst hm
    simp [Ty.Fixed]
  · simp only [List.mem_cons, List.not_mem_nil, or_false] at hm
    rcases hm with rfl | rfl <;> simp [Ty.Fixed]

theorem demo_recipe : createRecipe demoSrcs demoDst = some [.setRootSourceIndex 1, .copy32 0 8, .copy32 8 12,
    .setRootSourceIndex 0, .copy32 24 4, .endScope] := by decide

example (mem : Mem) : ∃ mem', applyRecipe [.setRootSourceIndex 1, .copy32 0 8, .copy32 8 12, .setRootSourceIndex 0,
      .copy32 24 4, .endScope] mem 1000 [2000, 3000] = some mem' ∧ mem' (1008 + 1) = mem (3012 + 1) := by
  obtain ⟨mem', h1, h2, _⟩ := C89_convert_partial demo_layout demo_fixed demo_recipe mem
  refine ⟨mem', h1, h2 _ _ ⟨⟨[112], 0, .fixedArray 3 8 .float⟩, by simp [demoDst], 1, ⟨[112], 8, .fixedArray 2 4 .float⟩,
    3000, [1], 8, 4, ⟨[[⟨[113], 4, .float⟩]], [⟨[113], 0, .float⟩, ⟨[112], 8, .fixedArray 2 4 .float⟩], [], rfl, rfl,
      by simp, [⟨[113], 0, .float⟩], [], rfl, rfl, by simp⟩, rfl, rfl, rfl, rfl, rfl⟩ 1 (by omega)⟩

theorem repeat_some {f : Nat → Nat → Option (List Cmd)} {t t' : Ty} {st st' : Nat}
    (hf : ∀ d s, d + t.fixedSize < 65536 → s + t'.fixedSize < 65536 → (f d s).isSome = true)
    (h1 : t.fixedSize ≤ st) (h2 : t'.fixedSize ≤ st') : ∀ (n d s : Nat), d + n * st < 65536 → s + n * st' < 65536 →
    (repeatItems f st st' n d s).isSome = true := by
  intro n
  induction n with
  | zero => intro d s _ _; rfl
  | succ n ih =>
    intro d s hd hs
    rw [Nat.add_mul, Nat.one_mul] at hd hs
    unfold repeatItems
    obtain ⟨a, ha⟩ := Option.isSome_iff_exists.1 (hf d s (by omega) (by omega))
    obtain ⟨b, hb⟩ := Option.isSome_iff_exists.1 (ih (d + st) (s + st') (by omega) (by omega))
    rw [ha, Nat.mod_eq_of_lt (by omega), Nat.mod_eq_of_lt (by omega)]
    dsimp only
    rw [hb]
    rfl

theorem demote_small {x : Nat} (h : x < 65536) : demote x = some x := if_pos h

theorem make_some : ∀ (t t' : Ty), Alike t t' → t.Wf → t'.Wf → ∀ d s, d + t.fixedSize < 65536 →
    s + t'.fixedSize < 65536 → (makeRecipe t t' d s).isSome = true := by
  intro t
  induction t with
  | float =>
    intro t' ha _ _ d s hd hs
    cases t' with
    | float => simp only [makeRecipe]; rw [demote_small (by omega), demote_small (by omega)]; rfl
    | _ => exact ha.elim
  | fixedArray n st t ih =>
    intro t' ha hw hw' d s hd hs
    cases t' with
    | fixedArray n' st' t' =>
      have hm1 : min n n' * st ≤ n * st := Nat.mul_le_mul_right _ (Nat.min_le_left _ _)
      have hm2 : min n n' * st' ≤ n' * st' := Nat.mul_le_mul_right _ (Nat.min_le_right _ _)
      have hd' : d + n * st < 65536 := hd
      have hs' : s + n' * st' < 65536 := hs
      simp only [makeRecipe]
      split
      · rename_i hc
        obtain ⟨_, _, rfl, rfl⟩ := hc
        rw [demote_small (by omega), demote_small (by omega), demote_small (by omega)]
        rfl
      · exact repeat_some (ih t' ha hw.2 hw'.2) hw.1 hw'.1 _ _ _ (by omega) (by omega)
    | _ => exact ha.elim
  | array t _ => intro t' ha; exact ha.elim
  | other n => intro t' ha; exact ha.elim

/-- **C89** — there is a recipe if every member of the destination is found in a source as a number or an array of the
like, within the first 64 KB. -/
theorem C89_recipe {dst : List Member} {srcs : List (List Member)}
    (h : ∀ m ∈ dst, m.ty.Wf ∧ m.offset + m.ty.fixedSize < 65536 ∧ ∃ s sm, TakenFrom srcs m.name s sm ∧ s < 65536 ∧
      Alike m.ty sm.ty ∧ sm.ty.Wf ∧ sm.offset + sm.ty.fixedSize < 65536) : ∃ r, createRecipe srcs dst = some r := by
  induction dst with
  | nil => exact ⟨_, rfl⟩
  | cons m dst ih =>
    obtain ⟨h1, h2, s, sm, h3, h4, h5, h6, h7⟩ := h m List.mem_cons_self
    obtain ⟨r, hr⟩ := ih fun m hm => h m (List.mem_cons_of_mem _ hm)
    obtain ⟨a, ha⟩ := Option.isSome_iff_exists.1 (make_some _ _ h5 h1 h6 _ _ h2 h7)
    unfold createRecipe
    rw [taken_find _ _ _ _ _ h3, Nat.zero_add]
    dsimp only
    rw [demote_small h4, ha, hr]
    exact ⟨_, rfl⟩

example : ∃ r, createRecipe [[⟨[113], 4, .float⟩]] [⟨[113], 24, .float⟩] = some r :=
  C89_recipe (by
    intro m hm
    rw [List.mem_singleton] at hm
    subst hm
    exact ⟨trivial, by decide, 0, ⟨[113], 4, .float⟩, ⟨[], _, [], rfl, rfl, by simp, [], [], rfl, rfl, by simp⟩,
      by decide, trivial, trivial, by decide⟩)

/-- **C89** — and none, but a failed assertion, if a member of the destination is in no source. -/
theorem C89_member_missing {dst : List Member} {srcs : List (List Member)} {m : Member} (hm : m ∈ dst)
    (h : ∀ ms ∈ srcs, ∀ sm ∈ ms, sm.name ≠ m.name) : createRecipe srcs dst = none := by
  have hf : findSource m.name srcs 0 = none := by
    cases hh : findSource m.name srcs 0 with
    | none => rfl
    | some x =>
      obtain ⟨s, sm⟩ := x
      obtain ⟨before, ms, after, h1, _, _, ms1, ms2, h2, h3, _⟩ := (find_taken _ _ _ _ _ hh).2
      refine absurd h3 (h ms (by rw [h1]; simp) sm (by rw [h2]; simp))
  induction dst with
  | nil => cases hm
  | cons m' dst ih =>
    unfold createRecipe
    rcases List.mem_cons.1 hm with rfl | hm
    · rw [hf]
    · rw [ih hm]
      split
      · rfl
      · split
        · rename_i h1; cases h1
        · rfl

example : createRecipe demoSrcs [⟨[114], 0, .float⟩] = none :=
  C89_member_missing (m := ⟨[114], 0, .float⟩) (by simp) (by decide)

theorem iterate_nothing (ds ss : Nat) : ∀ (n : Nat) (mem : Mem) (d s : Nat), iterate ds ss n mem d s = mem := by
  intro n
  induction n with
  | zero => intro mem d s; rfl
  | succ n ih => intro mem d s; exact ih mem _ _

/-- **C89** — false of the code for arrays of variable size: an array of numbers that a fixed array is to be filled from
is never read.  Instead the first four bytes of the destination are overwritten with the first four of the source,
whatever they are, and all members that follow are left out. -/
theorem C89_array_wrong {srcs : List (List Member)} {m sm : Member} {rest : List Member} {s n stride p : Nat}
    (ht : TakenFrom srcs m.name s sm) (hm : m.ty = .fixedArray n stride .float) (hs : sm.ty = .array .float)
    {r : List Cmd} (hr : createRecipe srcs (m :: rest) = some r) {ptrs : List Nat} (hp : ptrs[s]? = some p)
    (mem : Mem) (d : Nat) : applyRecipe r mem d ptrs = some (copy4 mem d p) := by
  unfold createRecipe at hr
  rw [taken_find _ _ _ _ _ ht, Nat.zero_add] at hr
  dsimp only at hr
  split at hr
  · rename_i s' r1 r2 h1 h2 h3
    cases hr
    rw [demote_some h1]
    rw [hm, hs] at h2
    simp only [makeRecipe] at h2
    split at h2
    · rename_i h4 h5 h6 h7 h8 h9
      cases h2
      have h9' : some [Cmd.copy32 0 0] = some _ := h9
      cases h9'
      unfold applyRecipe
      simp only [List.cons_append, convert, hp, iterate_nothing, Nat.add_zero]
      rfl
    · cases h2
  · cases hr

/-- The destination has a number `x`, a fixed array `a` of two numbers and a number `b`; the source has an array `a` and
numbers `b` and `x`.  In the order in which the destination lists them, `a` and `b` keep their old bytes, and the bytes
of `x` become bytes of the pointer in the array of the source. -/
example (mem : Mem) : ∃ mem', applyRecipe [.setRootSourceIndex 0, .iterateArrayToFixedArray 4 0 4 4 2, .copy32 0 0, .endScope,
      .setRootSourceIndex 0, .copy32 12 16, .setRootSourceIndex 0, .copy32 0 20, .endScope] mem 1000 [2000] = some mem' ∧
    mem' 1004 = mem 1004 ∧ mem' 1012 = mem 1012 ∧ mem' 1000 = mem 2000 := by
  have hr : createRecipe [[⟨[97], 0, .array .float⟩, ⟨[98], 16, .float⟩, ⟨[120], 20, .float⟩]]
      [⟨[97], 4, .fixedArray 2 4 .float⟩, ⟨[98], 12, .float⟩, ⟨[120], 0, .float⟩] =
      some [.setRootSourceIndex 0, .iterateArrayToFixedArray 4 0 4 4 2, .copy32 0 0, .endScope,
      .setRootSourceIndex 0, .copy32 12 16, .setRootSourceIndex 0, .copy32 0 20, .endScope] := by decide
  exact ⟨_, C89_array_wrong (m := ⟨[97], 4, .fixedArray 2 4 .float⟩) (sm := ⟨[97], 0, .array .float⟩)
    (srcs := [[⟨[97], 0, .array .float⟩, ⟨[98], 16, .float⟩, ⟨[120], 20, .float⟩]])
    ⟨[], _, [], rfl, rfl, by simp, [], [⟨[98], 16, .float⟩, ⟨[120], 20, .float⟩], rfl, rfl, by simp⟩ rfl rfl hr rfl mem 1000,
    rfl, rfl, rfl⟩

end Verif.Conv
