import Verif.Conv.Spec
/-!
# Converting structs — lemmas
-/
namespace Verif.Conv
open Verif

/-- Helper: the numbers that both types have, with their places. -/
def pairs : Ty → Ty → List (Nat × Nat)
  | .float, .float => [(0, 0)]
  | .fixedArray n st t, .fixedArray n' st' t' =>
    (List.range (min n n')).flatMap fun i => (pairs t t').map fun p => (i * st + p.1, i * st' + p.2)
  | _, _ => []

theorem mem_pairs : ∀ (t t' : Ty) (x y : Nat),
    (x, y) ∈ pairs t t' ↔ ∃ path, leafAt t path = some x ∧ leafAt t' path = some y := by
  intro t
  induction t with
  | float =>
    intro t' x y
    cases t' with
    | float =>
      simp only [pairs, List.mem_singleton, Prod.mk.injEq]
      constructor
      · rintro ⟨rfl, rfl⟩; exact ⟨[], rfl, rfl⟩
      · rintro ⟨path, h1, h2⟩
        cases path with
        | nil => simp only [leafAt, Option.some.injEq] at h1 h2; exact ⟨h1.symm, h2.symm⟩
        | cons i p => simp [leafAt] at h1
    | fixedArray n st t' =>
      simp only [pairs, List.not_mem_nil, false_iff]
      rintro ⟨path, h1, h2⟩
      cases path with
      | nil => simp [leafAt] at h2
      | cons i p => simp [leafAt] at h1
    | array t' => simp [pairs, leafAt]
    | other n => simp [pairs, leafAt]
  | fixedArray n st t ih =>
    intro t' x y
    cases t' with
    | fixedArray n' st' t' =>
      simp only [pairs, List.mem_flatMap, List.mem_range, List.mem_map, Prod.exists, Prod.mk.injEq]
      constructor
      · rintro ⟨i, hi, a, b, hab, rfl, rfl⟩
        obtain ⟨path, h1, h2⟩ := (ih t' a b).1 hab
        refine ⟨i :: path, ?_, ?_⟩
        · simp only [leafAt]; rw [if_pos (by omega), h1]; rfl
        · simp only [leafAt]; rw [if_pos (by omega), h2]; rfl
      · rintro ⟨path, h1, h2⟩
        cases path with
        | nil => simp [leafAt] at h1
        | cons i p =>
          simp only [leafAt] at h1 h2
          split at h1
          · split at h2
            · obtain ⟨a, ha, rfl⟩ := Option.map_eq_some_iff.1 h1
              obtain ⟨b, hb, rfl⟩ := Option.map_eq_some_iff.1 h2
              exact ⟨i, by omega, a, b, (ih t' a b).2 ⟨p, ha, hb⟩, rfl, rfl⟩
            · cases h2
          · cases h1
    | float =>
      simp only [pairs, List.not_mem_nil, false_iff]
      rintro ⟨path, h1, h2⟩
      cases path with
      | nil => simp [leafAt] at h1
      | cons i p => simp [leafAt] at h2
    | array t' => simp [pairs, leafAt]
    | other n => simp [pairs, leafAt]
  | array t _ => intro t' x y; simp [pairs, leafAt]
  | other n => intro t' x y; simp [pairs, leafAt]

theorem leaf_bound : ∀ (t : Ty) (path : List Nat) (x : Nat), t.Wf → leafAt t path = some x → x + 4 ≤ t.fixedSize := by
  intro t
  induction t with
  | float =>
    intro path x _ h
    cases path with
    | nil => simp only [leafAt, Option.some.injEq] at h; subst h; exact Nat.le_refl _
    | cons i p => simp [leafAt] at h
  | fixedArray n st t ih =>
    intro path x hw h
    cases path with
    | nil => simp [leafAt] at h
    | cons i p =>
      simp only [leafAt] at h
      split at h
      · rename_i hi
        obtain ⟨a, ha, rfl⟩ := Option.map_eq_some_iff.1 h
        have h1 := ih p a hw.2 ha
        have h2 := hw.1
        have h3 : (i + 1) * st ≤ n * st := Nat.mul_le_mul_right _ hi
        rw [Nat.add_mul, Nat.one_mul] at h3
        show i * st + a + 4 ≤ n * st
        omega
      · cases h
  | array t _ => intro path x _ h; simp [leafAt] at h
  | other n => intro path x _ h; simp [leafAt] at h

theorem pairs_sorted : ∀ (t t' : Ty), t.Wf → (pairs t t').Pairwise fun p q => p.1 + 4 ≤ q.1 := by
  intro t
  induction t with
  | float => intro t' _; cases t' <;> simp [pairs]
  | fixedArray n st t ih =>
    intro t' hw
    cases t' with
    | fixedArray n' st' t' =>
      simp only [pairs]
      rw [List.pairwise_flatMap]
      refine ⟨?_, ?_⟩
      · intro i _
        rw [List.pairwise_map]
        exact (ih t' hw.2).imp fun h => by dsimp only; omega
      · refine List.pairwise_lt_range.imp ?_
        intro i j hij p hp q hq
        obtain ⟨⟨a, b⟩, hab, rfl⟩ := List.mem_map.1 hp
        obtain ⟨⟨c, e⟩, hce, rfl⟩ := List.mem_map.1 hq
        obtain ⟨path, h1, _⟩ := (mem_pairs _ _ _ _).1 hab
        have h2 := leaf_bound _ _ _ hw.2 h1
        have h3 := hw.1
        have h4 : (i + 1) * st ≤ j * st := Nat.mul_le_mul_right _ hij
        rw [Nat.add_mul, Nat.one_mul] at h4
        dsimp only
        omega
    | float => simp [pairs]
    | array t' => simp [pairs]
    | other n => simp [pairs]
  | array t _ => intro t' _; simp [pairs]
  | other n => intro t' _; simp [pairs]

/-- Helper: one number after the other is copied. -/
def copies (ps : List (Nat × Nat)) (mem : Mem) : Mem := ps.foldl (fun m p => copy4 m p.1 p.2) mem

theorem copies_append (ps qs : List (Nat × Nat)) (mem : Mem) : copies (ps ++ qs) mem = copies qs (copies ps mem) := by
  unfold copies
  rw [List.foldl_append]

theorem copies_outside : ∀ (ps : List (Nat × Nat)) (mem : Mem) (a : Nat), (∀ p ∈ ps, ¬ (p.1 ≤ a ∧ a < p.1 + 4)) →
    copies ps mem a = mem a := by
  intro ps
  induction ps with
  | nil => intro mem a _; rfl
  | cons p ps ih =>
    intro mem a h
    show copies ps (copy4 mem p.1 p.2) a = mem a
    rw [ih _ _ fun q hq => h q (List.mem_cons_of_mem _ hq)]
    unfold copy4
    rw [if_neg (h p List.mem_cons_self)]

theorem copies_inside : ∀ (ps : List (Nat × Nat)) (mem : Mem),
    (ps.Pairwise fun p q => ∀ a, ¬ ((p.1 ≤ a ∧ a < p.1 + 4) ∧ (q.1 ≤ a ∧ a < q.1 + 4))) →
    (∀ p ∈ ps, ∀ q ∈ ps, ∀ a, ¬ ((p.1 ≤ a ∧ a < p.1 + 4) ∧ (q.2 ≤ a ∧ a < q.2 + 4))) →
    ∀ p ∈ ps, ∀ k, k < 4 → copies ps mem (p.1 + k) = mem (p.2 + k) := by
  intro ps
  induction ps with
  | nil => intro mem _ _ p hp; cases hp
  | cons p ps ih =>
    intro mem h1 h2 q hq k hk
    rw [List.pairwise_cons] at h1
    show copies ps (copy4 mem p.1 p.2) (q.1 + k) = mem (q.2 + k)
    rcases List.mem_cons.1 hq with rfl | hq'
    · rw [copies_outside _ _ _ fun r hr hc => h1.1 r hr _ ⟨⟨by omega, by omega⟩, hc⟩]
      unfold copy4
      rw [if_pos ⟨by omega, by omega⟩]
      congr 1
      omega
    · rw [ih _ h1.2 (fun a ha b hb => h2 a (List.mem_cons_of_mem _ ha) b (List.mem_cons_of_mem _ hb)) q hq' k hk]
      unfold copy4
      rw [if_neg fun hc => h2 p List.mem_cons_self q hq _ ⟨hc, by omega, by omega⟩]

theorem copyRange_eq : ∀ (n : Nat) (mem : Mem) (d s : Nat),
    copyRange n mem d s = copies ((List.range n).map fun i => (d + i * 4, s + i * 4)) mem := by
  intro n
  induction n with
  | zero => intro mem d s; rfl
  | succ n ih =>
    intro mem d s
    unfold copyRange
    rw [ih, List.range_succ_eq_map, List.map_cons, List.map_map]
    show _ = copies _ (copy4 mem (d + 0 * 4) (s + 0 * 4))
    rw [Nat.zero_mul, Nat.add_zero, Nat.add_zero]
    congr 1
    apply List.map_congr_left
    intro i _
    simp only [Function.comp, Prod.mk.injEq]
    omega

theorem demote_some {x y : Nat} (h : demote x = some y) : y = x := by
  unfold demote at h
  split at h
  · exact (Option.some.inj h).symm
  · cases h

/-- Helper: the pairs of a type at absolute addresses. -/
def placed (t t' : Ty) (a b : Nat) : List (Nat × Nat) := (pairs t t').map fun p => (a + p.1, b + p.2)

theorem run_repeat {srcPtrs : List Nat} {f : Nat → Nat → Option (List Cmd)} {t t' : Ty} {dst src st st' : Nat}
    (hf : ∀ d s r, f d s = some r → d + t.fixedSize < 4294967296 → s + t'.fixedSize < 4294967296 → ∀ view mem,
      convert srcPtrs (r ++ view) mem dst (some src) =
        convert srcPtrs view (copies (placed t t' (dst + d) (src + s)) mem) dst (some src))
    (h1 : t.fixedSize ≤ st) (h2 : t'.fixedSize ≤ st') :
    ∀ (n d s : Nat) (r : List Cmd), repeatItems f st st' n d s = some r → d + n * st < 4294967296 →
      s + n * st' < 4294967296 → ∀ view mem, convert srcPtrs (r ++ view) mem dst (some src) =
        convert srcPtrs view (copies ((List.range n).flatMap fun i =>
          (pairs t t').map fun p => (dst + d + (i * st + p.1), src + s + (i * st' + p.2))) mem) dst (some src) := by
  intro n
  induction n with
  | zero =>
    intro d s r h _ _ view mem
    unfold repeatItems at h
    cases h
    rfl
  | succ n ih =>
    intro d s r h hd hs view mem
    rw [Nat.add_mul, Nat.one_mul] at hd hs
    unfold repeatItems at h
    split at h
    · cases h
    · rename_i a ha
      rw [Nat.mod_eq_of_lt (by omega), Nat.mod_eq_of_lt (by omega)] at h
      split at h
      · cases h
      · rename_i b hb
        cases h
        rw [List.append_assoc, hf _ _ _ ha (by omega) (by omega), ih _ _ _ hb (by omega) (by omega)]
        rw [List.range_succ_eq_map, List.flatMap_cons, copies_append, List.flatMap_map]
        congr 2
        · congr 1
          funext i
          apply List.map_congr_left
          intro p _
          simp only [Nat.add_mul, Nat.one_mul, Nat.succ_eq_add_one, Prod.mk.injEq]
          omega
        · unfold placed
          simp only [Nat.zero_mul, Nat.zero_add]

theorem run_recipe {srcPtrs : List Nat} {dst src : Nat} : ∀ (t t' : Ty), t.Wf → t'.Wf → t'.Fixed →
    ∀ (d s : Nat) (r : List Cmd), makeRecipe t t' d s = some r → d + t.fixedSize < 4294967296 →
      s + t'.fixedSize < 4294967296 → ∀ view mem, convert srcPtrs (r ++ view) mem dst (some src) =
        convert srcPtrs view (copies (placed t t' (dst + d) (src + s)) mem) dst (some src) := by
  intro t
  induction t with
  | float =>
    intro t' _ _ _ d s r h _ _ view mem
    cases t' with
    | float =>
      simp only [makeRecipe] at h
      split at h
      · rename_i h1 h2
        cases h
        rw [demote_some h1, demote_some h2]
        rfl
      · cases h
    | _ => simp [makeRecipe] at h
  | fixedArray n st t ih =>
    intro t' hw hw' hx d s r h hd hs view mem
    cases t' with
    | fixedArray n' st' t' =>
      simp only [makeRecipe] at h
      split at h
      · rename_i hc
        obtain ⟨rfl, rfl, rfl, rfl⟩ := hc
        split at h
        · rename_i h1 h2 h3
          cases h
          rw [demote_some h1, demote_some h2, demote_some h3]
          show convert srcPtrs view (copyRange _ mem (dst + d) (src + s)) dst (some src) = _
          rw [copyRange_eq]
          congr 2
          unfold placed
          simp only [pairs, List.map_flatMap, List.map_cons, List.map_nil, Nat.add_zero]
          generalize List.range (min n n') = l
          induction l with
          | nil => rfl
          | cons i l ihl => rw [List.map_cons, List.flatMap_cons, ihl]; rfl
        · cases h
      · have hm1 : min n n' * st ≤ n * st := Nat.mul_le_mul_right _ (Nat.min_le_left _ _)
        have hm2 : min n n' * st' ≤ n' * st' := Nat.mul_le_mul_right _ (Nat.min_le_right _ _)
        have hd' : d + n * st < 4294967296 := hd
        have hs' : s + n' * st' < 4294967296 := hs
        rw [run_repeat (ih t' hw.2 hw'.2 hx) hw.1 hw'.1 _ _ _ _ h (by omega) (by omega)]
        congr 2
        unfold placed
        simp only [pairs, List.map_flatMap, List.map_map]
        rfl
    | array t' => exact hx.elim
    | _ => simp [makeRecipe] at h
  | array t _ => intro t' _ _ _ d s r h; simp [makeRecipe] at h
  | other n => intro t' _ _ _ d s r h; simp [makeRecipe] at h

/-! ## The search for members -/

theorem find_first {ms : List Member} {name : List Byte} {sm : Member}
    (h : ms.find? (fun m => m.name == name) = some sm) :
    ∃ ms1 ms2, ms = ms1 ++ sm :: ms2 ∧ sm.name = name ∧ ∀ m ∈ ms1, m.name ≠ name := by
  rw [List.find?_eq_some_iff_append] at h
  obtain ⟨h1, as, bs, h2, h3⟩ := h
  exact ⟨as, bs, h2, beq_iff_eq.1 h1, fun m hm => by simpa using h3 m hm⟩

theorem find_taken (name : List Byte) : ∀ (srcs : List (List Member)) (k s : Nat) (sm : Member),
    findSource name srcs k = some (s, sm) → k ≤ s ∧ TakenFrom srcs name (s - k) sm := by
  intro srcs
  induction srcs with
  | nil => intro k s sm h; simp [findSource] at h
  | cons ms srcs ih =>
    intro k s sm h
    unfold findSource at h
    split at h
    · rename_i m hm
      cases h
      exact ⟨Nat.le_refl _, [], ms, srcs, rfl, by simp, by simp, find_first hm⟩
    · rename_i hn
      obtain ⟨h1, before, ms', after, h2, h3, h4, h5⟩ := ih _ _ _ h
      refine ⟨by omega, ms :: before, ms', after, by rw [h2]; rfl, ?_, ?_, h5⟩
      · rw [List.length_cons, h3]; omega
      · intro l hl m hm
        rcases List.mem_cons.1 hl with rfl | hl
        · rw [List.find?_eq_none] at hn
          simpa using hn m hm
        · exact h4 l hl m hm

theorem taken_find (name : List Byte) : ∀ (srcs : List (List Member)) (k s : Nat) (sm : Member),
    TakenFrom srcs name s sm → findSource name srcs k = some (k + s, sm) := by
  intro srcs
  induction srcs with
  | nil =>
    rintro k s sm ⟨before, ms, after, h, _⟩
    cases before <;> cases h
  | cons l srcs ih =>
    rintro k s sm ⟨before, ms, after, h, rfl, h3, ms1, ms2, rfl, h5, h6⟩
    unfold findSource
    cases before with
    | nil =>
      cases h
      have : (ms1 ++ sm :: ms2).find? (fun m => m.name == name) = some sm := by
        rw [List.find?_eq_some_iff_append]
        exact ⟨by simpa using h5, ms1, ms2, rfl, fun m hm => by simpa using h6 m hm⟩
      rw [this]
      rfl
    | cons b before =>
      cases h
      have : l.find? (fun m => m.name == name) = none := by
        rw [List.find?_eq_none]
        intro m hm
        simpa using h3 l List.mem_cons_self m hm
      rw [this]
      dsimp only
      rw [ih (k + 1) before.length sm ⟨before, _, after, rfl, rfl,
        fun l hl => h3 l (List.mem_cons_of_mem _ hl), ms1, ms2, rfl, h5, h6⟩, List.length_cons]
      congr 2
      omega

theorem taken_unique {srcs : List (List Member)} {name : List Byte} {s s' : Nat} {sm sm' : Member}
    (h : TakenFrom srcs name s sm) (h' : TakenFrom srcs name s' sm') : s = s' ∧ sm = sm' := by
  have h1 := taken_find name srcs 0 s sm h
  rw [taken_find name srcs 0 s' sm' h'] at h1
  simp only [Nat.zero_add, Option.some.injEq, Prod.mk.injEq] at h1
  exact ⟨h1.1.symm, h1.2.symm⟩

theorem taken_mem {srcs : List (List Member)} {name : List Byte} {s : Nat} {sm : Member} (h : TakenFrom srcs name s sm) :
    ∃ ms, srcs[s]? = some ms ∧ sm ∈ ms := by
  obtain ⟨before, ms, after, rfl, rfl, _, ms1, ms2, rfl, _⟩ := h
  exact ⟨ms1 ++ sm :: ms2, by simp, by simp⟩

/-- Helper: all that is copied, in order. -/
def allPairs (srcs : List (List Member)) (d : Nat) (ptrs : List Nat) (dst : List Member) : List (Nat × Nat) :=
  dst.flatMap fun m =>
    match findSource m.name srcs 0 with
    | none => []
    | some (s, sm) =>
      match ptrs[s]? with
      | none => []
      | some p => placed m.ty sm.ty (d + m.offset) (p + sm.offset)

theorem run_all {srcs : List (List Member)} {d : Nat} {ptrs : List Nat} (hp : ptrs.length = srcs.length)
    (hs : ∀ ms ∈ srcs, ∀ m ∈ ms, m.ty.Wf ∧ m.offset + m.ty.fixedSize < 4294967296)
    (hx : ∀ ms ∈ srcs, ∀ m ∈ ms, m.ty.Fixed) :
    ∀ (dst : List Member), (∀ m ∈ dst, m.ty.Wf ∧ m.offset + m.ty.fixedSize < 4294967296) →
    ∀ r, createRecipe srcs dst = some r → ∀ mem src,
      convert ptrs r mem d src = some (copies (allPairs srcs d ptrs dst) mem) := by
  intro dst
  induction dst with
  | nil =>
    intro _ r h mem src
    unfold createRecipe at h
    cases h
    rfl
  | cons m dst ih =>
    intro hw r h mem src
    unfold createRecipe at h
    split at h
    · cases h
    rename_i s sm hf
    split at h
    · rename_i s' r1 rest h1 h2 h3
      cases h
      rw [demote_some h1]
      obtain ⟨ms, hms, hsm⟩ := taken_mem (find_taken _ _ _ _ _ hf).2
      rw [Nat.sub_zero] at hms
      have hlen : s < ptrs.length := by
        rw [hp]
        by_cases hlt : s < srcs.length
        · exact hlt
        · rw [List.getElem?_eq_none (by omega)] at hms; cases hms
      have hmem : ms ∈ srcs := List.mem_of_getElem? hms
      have hpt : ptrs[s]? = some ptrs[s] := List.getElem?_eq_getElem hlen
      unfold convert
      rw [hpt]
      dsimp only
      rw [run_recipe _ _ (hw m List.mem_cons_self).1 (hs ms hmem sm hsm).1 (hx ms hmem sm hsm) _ _ _ h2
        (hw m List.mem_cons_self).2 (hs ms hmem sm hsm).2,
        ih (fun m hm => hw m (List.mem_cons_of_mem _ hm)) _ h3]
      unfold allPairs
      rw [List.flatMap_cons, hf]
      dsimp only
      rw [hpt]
      dsimp only
      rw [copies_append]
    · cases h

theorem mem_all {srcs : List (List Member)} {d : Nat} {ptrs : List Nat} {dst : List Member} {a b : Nat} :
    (a, b) ∈ allPairs srcs d ptrs dst ↔ Fills dst srcs d ptrs a b := by
  unfold allPairs Fills
  rw [List.mem_flatMap]
  constructor
  · rintro ⟨m, hm, h⟩
    refine ⟨m, hm, ?_⟩
    split at h
    · cases h
    rename_i s sm hf
    split at h
    · cases h
    rename_i p hp
    obtain ⟨⟨x, y⟩, hxy, he⟩ := List.mem_map.1 h
    obtain ⟨path, h1, h2⟩ := (mem_pairs _ _ _ _).1 hxy
    have ht := (find_taken _ _ _ _ _ hf).2
    rw [Nat.sub_zero] at ht
    simp only [Prod.mk.injEq] at he
    exact ⟨s, sm, p, path, x, y, ht, hp, h1, h2, he.1.symm, he.2.symm⟩
  · rintro ⟨m, hm, s, sm, p, path, x, y, ht, hp, h1, h2, rfl, rfl⟩
    refine ⟨m, hm, ?_⟩
    rw [taken_find _ _ _ _ _ ht, Nat.zero_add]
    dsimp only
    rw [hp]
    exact List.mem_map.2 ⟨(x, y), (mem_pairs _ _ _ _).2 ⟨path, h1, h2⟩, rfl⟩

end Verif.Conv
