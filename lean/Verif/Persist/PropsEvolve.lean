import Verif.Persist.LemmasEvolve2
import Verif.Persist.Props
/-!
# Loading an object as another type — C58
-/
namespace Verif.Persist
open Verif Schema Spec Schema.Spec

theorem linklessList_iff : ∀ vs : List Val, LinklessList vs ↔ ∀ v ∈ vs, Linkless v
  | [] => by simp [LinklessList]
  | v :: vs => by simp [LinklessList, linklessList_iff vs]

theorem becomes_linkless {env : Env} (hd : ∀ t, Linkless (env.dflt t)) {t t' : T} {v old new : Val}
    (h : Becomes env t v t' old new) : Linkless old → Linkless new := by
  induction h with
  | unlike => exact id
  | num | str | enum => intro _; trivial
  | enumGone | switchGone => exact id
  | @array t t' item item' vs ws old _ _ hl _ ih =>
    intro _
    rw [Linkless, linklessList_iff]
    intro w hw
    obtain ⟨i, hi, e⟩ := List.mem_iff_getElem.mp hw
    exact ih i vs[i] w (List.getElem?_eq_getElem (by omega)) (by rw [← e]; exact List.getElem?_eq_getElem hi)
      (hd _)
  | @fixedArray t t' n item item' vs ws os _ _ h1 h2 h3 _ ih =>
    intro ho
    rw [Linkless, linklessList_iff] at ho ⊢
    intro w hw
    obtain ⟨i, hi, e⟩ := List.mem_iff_getElem.mp hw
    exact ih i vs[i] os[i] w (List.getElem?_eq_getElem (by omega)) (List.getElem?_eq_getElem (by omega))
      (by rw [← e]; exact List.getElem?_eq_getElem hi) (ho _ (List.getElem_mem _))
  | owned _ _ _ ih => intro _; rw [Linkless]; exact ih (hd _)
  | @struct t t' n ps ms n' ps' ms' vs ws os _ _ h1 h2 h3 _ h4 ih =>
    intro ho
    rw [Linkless, linklessList_iff] at ho ⊢
    intro w hw
    obtain ⟨i, hi, e⟩ := List.mem_iff_getElem.mp hw
    have hw' : ws[i]? = some w := by rw [← e]; exact List.getElem?_eq_getElem hi
    have hm : ms'[i]? = some ms'[i] := List.getElem?_eq_getElem (by omega)
    by_cases h : ∃ m ∈ ms, m.1 = ms'[i].1
    · obtain ⟨m, hms, hn⟩ := h
      obtain ⟨j, hj, e⟩ := List.mem_iff_getElem.mp hms
      exact ih j m vs[j] i ms'[i] os[i] w (by rw [← e]; exact List.getElem?_eq_getElem hj)
        (List.getElem?_eq_getElem (by omega)) hm (List.getElem?_eq_getElem (by omega)) hw' hn
        (ho _ (List.getElem_mem _))
    · have := h4 i _ hm (fun m hm e => h ⟨m, hm, e⟩)
      rw [hw'] at this
      exact ho w (List.mem_of_getElem? this.symm)
  | @enumArray t t' item e item' e' n s ids n' s' ids' vs ws os _ _ _ _ h1 h2 h3 _ h4 ih =>
    intro ho
    rw [Linkless, linklessList_iff] at ho ⊢
    intro w hw
    obtain ⟨i, hi, e⟩ := List.mem_iff_getElem.mp hw
    have hw' : ws[i]? = some w := by rw [← e]; exact List.getElem?_eq_getElem hi
    have hm : ids'[i]? = some ids'[i] := List.getElem?_eq_getElem (by omega)
    by_cases h : ids'[i] ∈ ids
    · obtain ⟨j, hj, e⟩ := List.mem_iff_getElem.mp h
      exact ih j ids'[i] vs[j] i os[i] w (by rw [← e]; exact List.getElem?_eq_getElem hj)
        (List.getElem?_eq_getElem (by omega)) hm (List.getElem?_eq_getElem (by omega)) hw'
        (ho _ (List.getElem_mem _))
    · have := h4 i _ hm h
      rw [hw'] at this
      exact ho w (List.mem_of_getElem? this.symm)
  | switch _ _ _ _ _ _ ih =>
    intro ho
    rw [Linkless] at ho ⊢
    refine ih ?_
    split
    · exact ho
    · exact hd _

mutual
theorem resolve_linkless (table : List (Option (Addr × T))) : ∀ v : Val, Linkless v → resolve table v = some v
  | .num _, _ | .str _, _ | .noOwned, _ | .ptr _, _ | .noPtr, _ | .enum _, _ => by simp only [resolve]
  | .link .., h => h.elim
  | .items vs, h => by rw [resolve, resolveList_linkless table vs h]; rfl
  | .struct vs, h => by rw [resolve, resolveList_linkless table vs h]; rfl
  | .owned a v, h => by rw [resolve, resolve_linkless table v h]; rfl
  | .switch a v, h => by rw [resolve, resolve_linkless table v h]; rfl
theorem resolveList_linkless (table : List (Option (Addr × T))) : ∀ vs : List Val, LinklessList vs →
    resolveList table vs = some vs
  | [], _ => rfl
  | v :: vs, h => by
    rw [resolveList, resolve_linkless table v h.1]
    dsimp only
    rw [resolveList_linkless table vs h.2]
    rfl
end

/-- **C58, as far as it holds**: let `v` be an object without raw pointers that was saved as a `t`, and let
`t'` be a type it may be loaded as.  Then loading succeeds, consumes exactly the file, and gives what it
should: members, enum values and states go by name, numbers are converted, what has no place or another
form is passed over, and what is not in the file keeps its default. -/
theorem C58_evolution_partial (env : Env) (u : List T) (hT : Types env u) (hS : Simple env u)
    (hd : ∀ t, Linkless (env.dflt t)) (heap : Addr → T) (t : T) (ht : t ∈ u) (v : Val)
    (hv : HasType env heap t v) (hn : (owneds v).Nodup) (hp : ptrs v = []) (t' : T) (ht' : t' ∈ u)
    (hc : Compatible env t t') :
    ∃ k, ∀ fuel, k ≤ fuel → ∃ bytes, writeAsset env fuel t v = some bytes ∧
      ∀ next rest, ∃ k, ∀ f, k ≤ f → ∃ w, readAsset env f t' next (bytes ++ rest) = some (w, rest) ∧
        Becomes env t v t' (env.dflt t') w := by
  obtain ⟨ps, k, ok, ev⟩ := obj_ev hT hS hv ht
  refine ⟨max k u.length, fun fuel hfuel => ?_⟩
  obtain ⟨w, ts, slots, id, r, hg, g2, g3, hid, h3, hm, hwa⟩ := written_ok hT ht ok hn
    (by rw [hp]; intro a ha; cases ha) (by rw [hp]; exact List.nil_sublist _) fuel hfuel
  refine ⟨_, hwa, fun next rest => ?_⟩
  rw [hp] at hm ⊢
  have e0 : firsts ([] : List Addr) = [] := rfl
  rw [e0] at hm ⊢
  have hlk : linked [] (ownOffs heap 4 ps) = [] := by
    simpa using hm
  rw [hlk]
  simp only [List.append_assoc, List.flatMap_nil, List.nil_append, List.length_nil]
  obtain ⟨k1, hk1⟩ := h3 (le 4 0 ++ (le 4 id ++ (render (fun a => ([] : List Addr).idxOf a) ps ++ rest)))
  refine ⟨max k k1, fun f hf => ?_⟩
  have e1 : readSchema f f ⟨[], (endSchema w).out ++ (le 4 0 ++ (le 4 id ++ (render (fun a => ([] : List Addr).idxOf a) ps ++ rest)))⟩ =
      some ⟨slots, le 4 0 ++ (le 4 id ++ (render (fun a => ([] : List Addr).idxOf a) ps ++ rest))⟩ :=
    hk1 f f (by omega) (by omega)
  obtain ⟨x, c', a1, a2, a3, a4, a5⟩ := ev slots (At env.kind ts) (describes hg) f (by omega) r g3 t' ht' hc
    (env.dflt t') (hT.formed _ ht') (by rw [ok.holes, hp]) (fun a => ([] : List Addr).idxOf a)
    ⟨render (fun a => ([] : List Addr).idxOf a) ps ++ rest, 4, [], [], next⟩ rest rfl rfl
  refine ⟨x, ?_, a2⟩
  unfold readAsset
  rw [e1]
  dsimp only
  rw [readLe_le _ _ _ (by decide)]
  dsimp only [readOffsets]
  rw [RC.readLe, readLe_le _ _ _ (by omega)]
  dsimp only
  rw [g2]
  dsimp only
  rw [a1]
  dsimp only
  rw [resolve_linkless _ _ (becomes_linkless hd a2 (hd _)), a3]
  rfl

/-- **C58 for numbers**: a whole number loaded as another type that has it, other than `bool`, is the same
number. -/
theorem C58_number_kept (env : Env) (src dst n m w : Nat) (hw : width dst = some w) (hs : src ≠ 11 ∧ src ≠ 12)
    (hd : dst ≠ 11 ∧ dst ≠ 12 ∧ dst ≠ 2) (h : Converts env src n dst m)
    (hr : if isSigned dst then -(2 ^ (8 * w) : Int) ≤ 2 * value src n ∧ 2 * value src n < 2 ^ (8 * w)
      else 0 ≤ value src n ∧ value src n < 2 ^ (8 * w)) : value dst m = value src n := by
  unfold Converts at h
  rw [if_neg (by omega), if_neg hd.2.2] at h
  obtain ⟨w', hw', hm, hdvd⟩ := h
  rw [hw] at hw'
  cases hw'
  have hcast : ((2 ^ (8 * w) : Nat) : Int) = 2 ^ (8 * w) := by simp
  generalize hx : value src n = x at *
  have hmi : (m : Int) < 2 ^ (8 * w) := by rw [← hcast]; exact_mod_cast hm
  have hrange : if isSigned dst then -(2 ^ (8 * w) : Int) ≤ 2 * value dst m ∧ 2 * value dst m < 2 ^ (8 * w)
      else 0 ≤ value dst m ∧ value dst m < 2 ^ (8 * w) := by
    unfold value
    rw [hw]
    dsimp only
    by_cases h : isSigned dst = true
    · rw [if_pos h, if_pos h]
      unfold signed
      split
      · rename_i h2
        have : (2 * m : Int) < 2 ^ (8 * w) := by rw [← hcast]; exact_mod_cast h2
        omega
      · rename_i h2
        have : (2 ^ (8 * w) : Int) ≤ 2 * m := by rw [← hcast]; exact_mod_cast Nat.le_of_not_lt h2
        omega
    · rw [if_neg h, if_neg h]; omega
  generalize hy : value dst m = y at *
  obtain ⟨q, hq⟩ := hdvd
  have hpos : (0 : Int) < 2 ^ (8 * w) := Int.pow_pos (by decide)
  generalize (2 : Int) ^ (8 * w) = N at *
  have hlt : -N < N * q ∧ N * q < N := by split at hrange <;> split at hr <;> first | omega | contradiction
  have hq0 : q = 0 := by
    rcases Int.lt_trichotomy q 0 with h | h | h
    · have : N * q ≤ N * (-1) := Int.mul_le_mul_of_nonneg_left (by omega) (by omega)
      omega
    · exact h
    · have : N * 1 ≤ N * q := Int.mul_le_mul_of_nonneg_left (by omega) (by omega)
      omega
  rw [hq0, Int.mul_zero] at hq
  omega

/-- For example -5 as an `s8` and as an `s64`. -/
example (env : Env) (m : Nat) (h : Converts env 3 251 6 m) : value 6 m = -5 :=
  C58_number_kept env 3 6 251 m 8 rfl (by decide) (by decide) h (by decide)

/-! ## Concrete cases -/

/-- `enum C { R, G }`, `struct N { u8 i; String n; C c; }`, and later `enum C { G, R, B }`,
`struct N { String n; u32 x; C c; u32 i; }`; switches with states `A` and `B` in either order;
`struct P { Owned<N> o; N* p; }` and `struct P { Owned<N> o; }`. -/
def evKind : T → Kind
  | 0 => .prim 7 true
  | 1 => .prim 13 true
  | 2 => .enum [67] 1 [[82], [71]]
  | 3 => .struct [78] [] [([105], 0), ([110], 1), ([99], 2)]
  | 4 => .prim 9 true
  | 5 => .enum [67] 1 [[71], [82], [66]]
  | 6 => .struct [78] [] [([110], 1), ([120], 4), ([99], 5), ([105], 4)]
  | 7 => .prim 10 true
  | 8 => .prim 2 true
  | 9 => .struct [65] [] [([97], 0)]
  | 10 => .struct [66] [] [([98], 1)]
  | 11 => .switch [83] [([65], 9), ([66], 10)]
  | 12 => .switch [83] [([66], 10), ([65], 9)]
  | 13 => .rawPtr 3
  | 14 => .owned 3
  | 15 => .struct [80] [] [([111], 14), ([112], 13)]
  | 16 => .struct [80] [] [([111], 14)]
  | _ => .other

/-- What a new object holds. -/
def evDflt : T → Val
  | 1 => .str []
  | 2 => .enum 0
  | 3 => .struct [.num 0, .str [], .enum 0]
  | 5 => .enum 2
  | 6 => .struct [.str [], .num 5, .enum 2, .num 6]
  | 9 => .struct [.num 0]
  | 10 => .struct [.str []]
  | 11 => .switch 0 (.struct [.num 0])
  | 12 => .switch 0 (.struct [.str []])
  | 13 => .noPtr
  | 14 => .noOwned
  | 15 => .struct [.noOwned, .noPtr]
  | 16 => .struct [.noOwned]
  | _ => .num 0

/-- These types. -/
def evEnv : Env where
  kind := evKind
  vals t := if t = 2 then [0, 1] else if t = 5 then [0, 1, 2] else []
  dflt := evDflt
  fcast _ _ n := n

theorem evTypes_ok : Types evEnv (List.range 17) := typesB_ok (by decide +kernel) (fun _ _ _ => rfl)

theorem evSimple : Simple evEnv (List.range 17) := by
  intro t ht k l hk
  have : ∀ t ∈ List.range 17, (match evKind t with
    | .prim k _ => k == 13 || (width k).isSome
    | _ => true) = true := by decide +kernel
  have := this t ht
  have hk : evKind t = _ := hk
  rw [hk] at this
  simp only [Bool.or_eq_true, beq_iff_eq] at this
  refine this.imp id fun h e => ?_
  rw [e] at h; cases h

theorem evDflt_linkless (t : T) : Linkless (evEnv.dflt t) := by
  show Linkless (evDflt t)
  unfold evDflt
  split <;> simp [Linkless, LinklessList]

theorem evCompat : Compatible evEnv 3 6 := by
  refine .struct rfl rfl ?_
  simp only [List.mem_cons, List.not_mem_nil, or_false]
  rintro m (rfl | rfl | rfl) m' (rfl | rfl | rfl | rfl) e <;> first | (cases e; done) | skip
  · exact .num rfl rfl (by decide) (by decide)
  · exact .str rfl rfl
  · exact .enum rfl rfl (by decide)

/-- An `N` with `i = 200`, `n = "A"`, `c = R`. -/
def evN : Val := .struct [.num 200, .str [65], .enum 0]

/-- It can be loaded as the later `N`. -/
example : ∃ k, ∀ fuel, k ≤ fuel → ∃ bytes, writeAsset evEnv fuel 3 evN = some bytes ∧
      ∀ next rest, ∃ k, ∀ f, k ≤ f → ∃ w, readAsset evEnv f 6 next (bytes ++ rest) = some (w, rest) ∧
        Becomes evEnv 3 evN 6 (evEnv.dflt 6) w :=
  C58_evolution_partial evEnv (List.range 17) evTypes_ok evSimple evDflt_linkless (fun _ => 3) 3 (by decide) evN
    (typedB_ok evEnv _ 20 _ _ (by decide +kernel)) (by decide) rfl 6 (by decide) evCompat

set_option maxRecDepth 4000 in
/-- The same, run: `n = "A"`, `x` keeps 5, `c` is still `R` and `i` is 200. -/
example : ((writeAsset evEnv 20 3 evN).bind fun bs => readAsset evEnv 40 6 50 bs) =
    some (.struct [.str [65], .num 5, .enum 1, .num 200], []) := rfl

/-! ## Where it does not hold -/

/-- **C58 fails for a `bool`** that was an `u64` (or `s64`): 2³² comes back as false. -/
theorem C58_bool_from_u64 : HasType evEnv (fun _ => 0) 7 (.num (2 ^ 32)) ∧
    ∃ bytes, writeAsset evEnv 20 7 (.num (2 ^ 32)) = some bytes ∧
      readAsset evEnv 20 8 50 bytes = some (.num 0, []) :=
  ⟨typedB_ok evEnv _ 20 _ _ (by decide +kernel), _, rfl, rfl⟩

/-- **C58 fails for a switch whose states are in another order**: the file is read by the format of another
state (reflect/TypeKey.cpp:905), and loading fails. -/
theorem C58_switch_order : HasType evEnv (fun _ => 0) 11 (.switch 0 (.struct [.num 7])) ∧
    ∃ bytes, writeAsset evEnv 20 11 (.switch 0 (.struct [.num 7])) = some bytes ∧
      ∀ fuel next, readAsset evEnv fuel 12 next bytes = none := by
  refine ⟨typedB_ok evEnv _ 20 _ _ (by decide +kernel), _, rfl, fun fuel next => ?_⟩
  rcases fuel with _ | _ | _ | _ | _ | _ | _ | _ | _ | _ | _ | _ | _ | _ | _ | _ | _ | _ | _ | _ | fuel <;> rfl

/-- **C58 fails for raw pointers**: one that has no place in the new type cannot be passed over
(reflect/PersistReadObject.cpp:126-128). -/
theorem C58_pointer_dropped_asserts :
    HasType evEnv (fun _ => 3) 15 (.struct [.owned 1 evN, .ptr 1]) ∧
    ∃ bytes, writeAsset evEnv 20 15 (.struct [.owned 1 evN, .ptr 1]) = some bytes ∧
      ∀ fuel next, readAsset evEnv fuel 16 next bytes = none := by
  refine ⟨typedB_ok evEnv _ 20 _ _ (by decide +kernel), _, rfl, fun fuel next => ?_⟩
  rcases fuel with _ | _ | _ | _ | _ | _ | _ | _ | _ | _ | _ | _ | _ | _ | _ | _ | _ | _ | _ | _ | _ | _ | _ | _ |
    _ | fuel <;> rfl

/-- **C58 fails for an enum that was a number**: the format is taken for that of an enum without a test
(reflect/TypeKey.cpp:659). -/
theorem C58_enum_from_number : HasType evEnv (fun _ => 0) 0 (.num 1) ∧
    ∃ bytes, writeAsset evEnv 20 0 (.num 1) = some bytes ∧ ∀ fuel next, readAsset evEnv fuel 2 next bytes = none := by
  refine ⟨typedB_ok evEnv _ 20 _ _ (by decide +kernel), _, rfl, fun fuel next => ?_⟩
  rcases fuel with _ | _ | _ | _ | _ | _ | _ | _ | fuel <;> rfl

end Verif.Persist
