import Verif.Build.Lemmas
/-!
# Build target dependencies — property C42
-/
namespace Verif.Build
open Spec

/-- Where propagation has been, whatever the rank. -/
def InvAll (w0 : World) (r : Nat → Nat) (w : World) : Prop := ∀ k, Inv w0 r k w

theorem InvAll.start {w : World} (r : Nat → Nat) (h : Fresh w) : InvAll w r w := fun k e _ =>
  ⟨fun _ => rfl, fun hp => by rw [(h e).1] at hp; cases hp⟩

theorem InvAll.step {w0 w w' : World} {r : Nat → Nat} {d : Nat} (hr : Acyclic w0 r)
    (h : InvAll w0 r w) (h1 : Inv w0 r (r d + 1) w') (hf : Frame w0 d w w') : InvAll w0 r w' := by
  intro k e _
  by_cases he : Star (AnyEdge w0) d e
  · have := rank_star hr he
    exact h1 e (by omega)
  · rw [hf e (.inl he)]
    obtain ⟨a, b⟩ := h (r e + 1) e (by omega)
    refine ⟨a, fun hp => ?_⟩
    obtain ⟨b1, b2, b3⟩ := b hp
    refine ⟨b1, b2, fun e' he' => ?_⟩
    have := b3 e' he'
    rw [hf e' (.inr this)]; exact this

/-- Propagating a number of targets one after the other. -/
theorem propagateAll_works {w0 : World} {r : Nat → Nat} (hr : Acyclic w0 r) (hf : Fresh w0) (fuel : Nat) :
    ∀ (ds : List Nat) (w : World), (∀ d ∈ ds, r d < fuel) → InvAll w0 r w →
    ((∀ d ∈ ds, AllSafe w0 d) → ∃ w', propagateAll fuel w ds = .ok w' ∧ InvAll w0 r w' ∧
      (∀ e, (w'.node e).propagated = true ↔
        (w.node e).propagated = true ∨ ∃ d ∈ ds, Star (AnyEdge w0) d e)) ∧
    ((∃ d ∈ ds, ¬ AllSafe w0 d) → propagateAll fuel w ds = .assert)
  | [], w, _, hi => ⟨fun _ => ⟨w, rfl, hi, fun e => by simp⟩, fun ⟨_, h, _⟩ => by cases h⟩
  | d :: ds, w, hd, hi => by
    obtain ⟨ok, bad⟩ := propagate_works hr hf fuel w d (hd d (by simp)) (hi _)
    rw [propagateAll]
    by_cases hs : AllSafe w0 d
    · obtain ⟨w1, e1, i1, p1, f1⟩ := ok hs
      rw [e1]
      dsimp only
      have hi1 := hi.step hr i1 f1
      obtain ⟨ok2, bad2⟩ := propagateAll_works hr hf fuel ds w1 (fun d' h => hd d' (by simp [h])) hi1
      refine ⟨fun hall => ?_, fun ⟨d', hd', hn⟩ => ?_⟩
      · obtain ⟨w', e2, i2, p2⟩ := ok2 (fun d' h => hall d' (by simp [h]))
        refine ⟨w', e2, i2, fun e => ?_⟩
        rw [p2]
        constructor
        · rintro (h | ⟨d', h1, h2⟩)
          · by_cases he : Star (AnyEdge w0) d e
            · exact .inr ⟨d, by simp, he⟩
            · rw [f1 e (.inl he)] at h; exact .inl h
          · exact .inr ⟨d', by simp [h1], h2⟩
        · rintro (h | ⟨d', h1, h2⟩)
          · left; rw [f1 e (.inr h)]; exact h
          · rcases List.mem_cons.mp h1 with rfl | h1
            · left
              exact ((hi1 (r d' + 1) d' (by omega)).2 p1).2.2 e h2
            · exact .inr ⟨d', h1, h2⟩
      · rcases List.mem_cons.mp hd' with rfl | h
        · exact absurd hs hn
        · exact bad2 ⟨d', h, hn⟩
    · rw [bad hs]
      exact ⟨fun h => absurd (h d (by simp)) hs, fun _ => rfl⟩

/-- **C42**: in a graph without cycles, propagating any targets in any order gives each target they
reach exactly what the graph says (`Spec.Done`), and changes nothing else. -/
theorem C42_exact {w : World} {r : Nat → Nat} (hr : Acyclic w r) (hf : Fresh w) (ds : List Nat)
    (fuel : Nat) (hd : ∀ d ∈ ds, r d < fuel) (hs : ∀ d ∈ ds, AllSafe w d) :
    ∃ w', propagateAll fuel w ds = .ok w' ∧
      ∀ e, ((∃ d ∈ ds, Star (AnyEdge w) d e) → Done w e (w'.node e)) ∧
        ((¬ ∃ d ∈ ds, Star (AnyEdge w) d e) → w'.node e = w.node e) := by
  obtain ⟨w', e1, i1, p1⟩ := (propagateAll_works hr hf fuel ds w hd (InvAll.start r hf)).1 hs
  refine ⟨w', e1, fun e => ⟨fun h => ?_, fun h => ?_⟩⟩
  · exact ((i1 (r e + 1) e (by omega)).2 ((p1 e).mpr (.inr h))).1
  · refine (i1 (r e + 1) e (by omega)).1 ?_
    cases hp : (w'.node e).propagated with
    | false => rfl
    | true =>
      rcases (p1 e).mp hp with h1 | h1
      · rw [(hf e).1] at h1; cases h1
      · exact absurd h1 h

/-- **C42**: it fails an assertion exactly when something reached is linked or built against a target
that is in no shared library while it should be. -/
theorem C42_rejects {w : World} {r : Nat → Nat} (hr : Acyclic w r) (hf : Fresh w) (ds : List Nat)
    (fuel : Nat) (hd : ∀ d ∈ ds, r d < fuel) :
    propagateAll fuel w ds = .assert ↔ ∃ d ∈ ds, ∃ e, Star (AnyEdge w) d e ∧ ¬ Safe w e := by
  obtain ⟨ok, bad⟩ := propagateAll_works hr hf fuel ds w hd (InvAll.start r hf)
  constructor
  · intro h
    refine Classical.byContradiction fun hn => ?_
    obtain ⟨w', e1, -⟩ := ok (fun d hd e he => Classical.byContradiction fun hs => hn ⟨d, hd, e, he, hs⟩)
    rw [h] at e1; cases e1
  · rintro ⟨d, h1, e, h2, h3⟩
    exact bad ⟨d, h1, fun hs => h3 (hs e h2)⟩

/-- **C42**: propagating something twice changes nothing more. -/
theorem C42_again {w : World} {r : Nat → Nat} (hr : Acyclic w r) (hf : Fresh w) (ds : List Nat)
    (fuel : Nat) (hd : ∀ d ∈ ds, r d < fuel) {w' : World} (h : propagateAll fuel w ds = .ok w')
    (e : Nat) (he : ∃ d ∈ ds, Star (AnyEdge w) d e) : propagate 0 w' e = .ok w' := by
  obtain ⟨ok, bad⟩ := propagateAll_works hr hf fuel ds w hd (InvAll.start r hf)
  by_cases hs : ∀ d ∈ ds, AllSafe w d
  · obtain ⟨w1, e1, -, p1⟩ := ok hs
    rw [h] at e1; cases e1
    have := (p1 e).mpr (.inr he)
    unfold propagate
    rw [if_pos this]
  · rw [bad (Classical.byContradiction fun hn => hs fun d hd =>
      Classical.byContradiction fun h' => hn ⟨d, hd, h'⟩)] at h
    cases h

/-- **C42**, why cycles are excluded: if from `d` one can go round for ever through first dependencies
(as when `d` depends on itself), propagation never finishes. -/
theorem C42_cycle (C : Nat → Prop) : ∀ (fuel : Nat) (w : World) (d : Nat), C d →
    (∀ e, C e → (w.node e).propagated = false ∧ ∃ v c rest, (w.node e).deps = (v, c) :: rest ∧ C c) →
    propagate fuel w d = .deep
  | 0, w, d, hd, hC => by unfold propagate; simp [(hC d hd).1]
  | fuel + 1, w, d, hd, hC => by
    obtain ⟨hp, v, c, rest, hdeps, hc⟩ := hC d hd
    unfold propagate
    rw [if_neg (by rw [hp]; decide)]
    dsimp only
    generalize hn : ({ w.node d with visible := (w.node d).visible ++ [d] } : Node) = n
    have h1 : n.propagated = false := by rw [← hn]; exact hp
    have h2 : n.deps = (v, c) :: rest := by rw [← hn]; exact hdeps
    have ih := C42_cycle C fuel (w.set d n) c hc (by
      intro e he
      by_cases hed : e = d
      · subst hed; rw [World.set_same]; exact ⟨h1, v, c, rest, h2, hc⟩
      · rw [World.set_other _ _ hed]; exact hC e he)
    rw [hdeps, children, ih]

/-- **C42**: adding a dependency: nothing is listed twice, a dependency added publicly is public
however it was added before, one added privately stays as it was, the others and the order are kept. -/
theorem C42_add (deps : List (Vis × Nat)) (v : Vis) (d : Nat) (hn : (deps.map (·.2)).Nodup) :
    ((addDependency deps v d).1.map (·.2)).Nodup ∧
    ((addDependency deps v d).2 = true ↔ d ∉ deps.map (·.2)) ∧
    (addDependency deps v d).1.map (·.2) = deps.map (·.2) ++ (if d ∈ deps.map (·.2) then [] else [d]) ∧
    ∀ e, vis (addDependency deps v d).1 e = if e = d then
        (match vis deps d with
          | none => some v
          | some u => some (if v = .pub then .pub else u))
      else vis deps e := by
  have hfind : ∀ (l : List (Vis × Nat)) (i : Nat), l.findIdx? (fun p => p.2 = d) = some i →
      d ∈ l.map (·.2) ∧ (l.modify i (fun p => (v, p.2))).map (·.2) = l.map (·.2) ∧
      (∃ u, vis l d = some u) ∧
      (∀ e, vis (l.modify i (fun p => (v, p.2))) e = if e = d then some v else vis l e) := by
    intro l
    induction l with
    | nil => intro i h; cases h
    | cons p l ih =>
      intro i h
      rw [List.findIdx?_cons] at h
      by_cases hp : p.2 = d
      · simp only [hp, decide_true, if_true, Option.some.injEq] at h
        subst h
        refine ⟨by simp [hp], by simp, ⟨p.1, by simp [vis, hp]⟩, fun e => ?_⟩
        by_cases he : e = d
        · subst he; simp [vis, hp]
        · simp [vis, hp, he, Ne.symm he]
      · simp only [hp, decide_false] at h
        cases hj : l.findIdx? (fun p => p.2 = d) with
        | none => rw [hj] at h; cases h
        | some j =>
          rw [hj] at h
          simp only [Bool.false_eq_true, if_false, Option.map_some, Option.some.injEq] at h
          subst h
          obtain ⟨h1, h2, ⟨u, h3⟩, h4⟩ := ih j hj
          refine ⟨by simp only [List.map_cons, List.mem_cons]; exact .inr h1, by simp [h2],
            ⟨u, by simpa [vis, hp] using h3⟩, fun e => ?_⟩
          rw [List.modify_succ_cons]
          have := h4 e
          by_cases hpe : p.2 = e
          · rw [if_neg (by rw [← hpe]; exact hp)]
            simp [vis, hpe]
          · simpa [vis, hpe] using this
  unfold addDependency
  cases hi : deps.findIdx? (fun p => p.2 = d) with
  | none =>
    dsimp only
    have hnot : d ∉ deps.map (·.2) := by
      intro h
      obtain ⟨p, hp, e⟩ := List.mem_map.mp h
      have := List.findIdx?_eq_none_iff.mp hi p hp
      simp [e] at this
    have hv : vis deps d = none := by
      unfold vis
      rw [Option.map_eq_none_iff, List.find?_eq_none]
      intro p hp
      simpa using List.findIdx?_eq_none_iff.mp hi p hp
    refine ⟨?_, by simp [hnot], by simp [hnot], fun e => ?_⟩
    · rw [List.map_append, List.nodup_append]
      refine ⟨hn, by simp, ?_⟩
      intro a ha b hb
      simp only [List.map_cons, List.map_nil, List.mem_singleton] at hb
      subst hb
      rintro rfl
      exact hnot ha
    · rw [hv]
      by_cases he : e = d
      · subst he
        unfold vis at hv ⊢
        rw [List.find?_append]
        rw [Option.map_eq_none_iff] at hv
        rw [hv]; simp
      · unfold vis
        rw [List.find?_append]
        simp [he, Ne.symm he]
  | some i =>
    obtain ⟨h1, h2, ⟨u, h3⟩, h4⟩ := hfind deps i hi
    dsimp only
    rw [h3]
    dsimp only
    by_cases hv : v = .pub
    · simp only [hv, if_true] at h2 h4 ⊢
      refine ⟨by rw [h2]; exact hn, by simp [h1], by rw [h2]; simp [h1], h4⟩
    · simp only [hv, if_false]
      refine ⟨hn, by simp [h1], by simp [h1], fun e => ?_⟩
      by_cases he : e = d
      · subst he; simp [h3]
      · simp [he]

/-- **C42**: when definitions are merged, a key is reported exactly when some definition of it was
left out although it has another value. -/
theorem C42_clash (k : Str) : ∀ (src dst : List PPDef),
    (k ∈ (mergeDefines dst src).2 ↔
      ∃ x ∈ src, x.key = k ∧ value (mergeDefines dst src).1 k ≠ some x.value)
  | [], dst => by simp [mergeDefines]
  | x :: src, dst => by
    rw [mergeDefines]
    cases hf : dst.find? (fun p => p.key = x.key) with
    | some p =>
      dsimp only
      have ih := C42_clash k src dst
      have hval : value (mergeDefines dst src).1 x.key = some p.value := by
        rw [value_merge]
        unfold value; rw [hf]; rfl
      by_cases hk : x.key = k
      · subst hk
        by_cases hv : p.value = x.value
        · rw [if_neg (by simp [hv]), ih, hval]
          simp only [List.mem_cons]
          constructor
          · rintro ⟨y, h1, h2⟩; exact ⟨y, .inr h1, h2⟩
          · rintro ⟨y, rfl | h1, h2, h3⟩
            · exact absurd (by rw [hv]) h3
            · exact ⟨y, h1, h2, h3⟩
        · rw [if_pos hv]
          constructor
          · intro _
            exact ⟨x, by simp, rfl, by rw [hval]; simpa using hv⟩
          · intro _; simp
      · have : (k ∈ (if p.value ≠ x.value then x.key :: (mergeDefines dst src).2
            else (mergeDefines dst src).2)) ↔ k ∈ (mergeDefines dst src).2 := by
          split
          · simp [Ne.symm hk]
          · rfl
        rw [this, ih]
        simp only [List.mem_cons]
        constructor
        · rintro ⟨y, h1, h2⟩; exact ⟨y, .inr h1, h2⟩
        · rintro ⟨y, rfl | h1, h2, h3⟩
          · exact absurd h2 hk
          · exact ⟨y, h1, h2, h3⟩
    | none =>
      dsimp only
      have ih := C42_clash k src (dst ++ [x])
      rw [ih]
      simp only [List.mem_cons]
      constructor
      · rintro ⟨y, h1, h2⟩; exact ⟨y, .inr h1, h2⟩
      · rintro ⟨y, rfl | h1, h2, h3⟩
        · refine absurd ?_ h3
          subst h2
          rw [value_merge, value_append]
          have : value dst y.key = none := by unfold value; rw [hf]; rfl
          rw [this]
          simp [value]
        · exact ⟨y, h1, h2, h3⟩

/-! ## A concrete project

`2` (an executable) depends privately on `1` (a library), which depends publicly on `0` (a library
outside of the project) and privately on `3` (headers only). -/

/-- A dependency of the example. -/
def exNode (deps : List (Vis × Nat)) (inc lib : Str) (t : Option (TType × Str)) : Node :=
  { deps, propagated := false, visible := [], includeDirs := [inc], defines := [], libs := [lib], dlls := [],
    frameworks := [], flags := [],
    target := t.map fun p => ⟨p.1, p.2, none, [], [], [], []⟩ }

/-- The example. -/
def exWorld : World where
  node
    | 0 => exNode [] [48] [97] none
    | 1 => exNode [(.pub, 0), (.priv, 3)] [49] [98] (some (.lib, [120]))
    | 2 => exNode [(.priv, 1)] [50] [99] (some (.exe, [121]))
    | 3 => exNode [] [51] [100] (some (.headerOnly, [122]))
    | _ => exNode [] [] [] none
  errors := []

/-- Ranks of the example. -/
def exRank : Nat → Nat
  | 1 => 1
  | 2 => 2
  | _ => 0

theorem ex_acyclic : Acyclic exWorld exRank := by
  rintro d c ⟨v, h⟩
  unfold exWorld at h
  dsimp only at h
  split at h <;> simp only [exNode, List.mem_cons, List.mem_nil_iff, or_false, Prod.mk.injEq, List.not_mem_nil] at h
  · rcases h with ⟨-, rfl⟩ | ⟨-, rfl⟩ <;> decide
  · rcases h with ⟨-, rfl⟩; decide

theorem ex_fresh : Fresh exWorld := by
  intro e
  unfold exWorld
  dsimp only
  split <;> exact ⟨rfl, rfl⟩

theorem ex_shared (e : Nat) (t : Target) (h : (exWorld.node e).target = some t) : t.shared = none := by
  unfold exWorld at h
  dsimp only at h
  split at h <;> simp only [exNode, Option.map_none, Option.map_some, Option.some.injEq] at h <;>
    cases h <;> rfl

/-- The hypotheses are met, … -/
example : Acyclic exWorld exRank ∧ Fresh exWorld ∧ (∀ d ∈ [2, 1], exRank d < 3) ∧
    ∀ d ∈ [2, 1], AllSafe exWorld d := by
  refine ⟨ex_acyclic, ex_fresh, by decide, fun d _ e _ => ⟨fun c _ hn => ?_, fun t ht hs => ?_⟩⟩
  · refine absurd (fun t u h1 h2 => ?_) hn
    rw [ex_shared _ _ h1, ex_shared _ _ h2]
  · exact absurd (ex_shared _ _ ht) hs

/-- … and the outcome is not trivial: `2` is compiled with the directories of `1` and `0` but not `3`,
shows only its own, and is linked with `1` and the libraries of all. -/
example : (match propagateAll 3 exWorld [2, 1] with
    | .ok w => decide ((w.node 2).visible = [2] ∧ (w.node 1).visible = [1, 0] ∧
        (w.node 2).includeDirs = [[50]] ∧ (w.node 2).libs = [[99], [98], [97], [100], [120]] ∧
        (w.node 2).target.map (·.privIncludes) = some [[49], [48]])
    | _ => false) = true := by decide +kernel

/-- A target in a shared library that depends on one that is in none: rejected. -/
example : (match propagate 2 { exWorld with
      node := fun e => if e = 1 then { exWorld.node 1 with target := some ⟨.lib, [120], some ⟨1, [120]⟩, [], [], [], []⟩ }
        else exWorld.node e } 1 with
    | .assert => true
    | _ => false) = true := by decide +kernel

/-- A cycle through first dependencies. -/
example : propagate 1000 ⟨fun e => exNode [(.priv, 1 - e)] [] [] none, []⟩ 0 = .deep :=
  C42_cycle (fun e => e ≤ 1) 1000 _ 0 (by decide) (fun e _ => ⟨rfl, .priv, 1 - e, [], rfl, by omega⟩)

/-- Added privately, then publicly, then privately again: public. -/
example : vis (addDependency (addDependency (addDependency [(.priv, 4)] .priv 7).1 .pub 7).1 .priv 7).1 7 =
    some .pub := by decide

/-- A clash is reported. -/
example : (mergeDefines [⟨[65], [49]⟩] [⟨[66], [49]⟩, ⟨[65], [50]⟩]).2 = [[65]] := by decide

end Verif.Build
