import Verif.Build.Props
/-!
# Build target dependencies — nothing is listed twice (C42)
-/
namespace Verif.Build
open Spec

/-- Each key is defined once. -/
def Keyed (defs : List PPDef) : Prop := (defs.map (·.key)).Nodup

/-- No list of a build target has anything twice. -/
structure TargetOnce (t : Target) : Prop where
  includes : t.privIncludes.Nodup
  defines : Keyed t.privDefines
  flags : t.privFlags.Nodup

/-- No list of a dependency has anything twice. -/
structure Once (n : Node) : Prop where
  includes : n.includeDirs.Nodup
  defines : Keyed n.defines
  libs : n.libs.Nodup
  dlls : n.dlls.Nodup
  frameworks : n.frameworks.Nodup
  flags : n.flags.Nodup
  target : ∀ t, n.target = some t → TargetOnce t

theorem addNew_nodup {l : List Str} (x : Str) (h : l.Nodup) : (addNew l x).Nodup := by
  unfold addNew
  split
  · exact h
  · next hx =>
    rw [List.nodup_append]
    refine ⟨h, by simp, ?_⟩
    intro a ha b hb
    rw [List.mem_singleton.mp hb]
    rintro rfl
    exact hx ha

theorem keyed_snoc {l : List PPDef} {x : PPDef} (h : Keyed l) (hx : ∀ p ∈ l, p.key ≠ x.key) :
    Keyed (l ++ [x]) := by
  unfold Keyed at h ⊢
  rw [List.map_append, List.nodup_append]
  refine ⟨h, by simp, ?_⟩
  intro a ha b hb
  obtain ⟨p, hp, rfl⟩ := List.mem_map.mp ha
  simp only [List.map_cons, List.map_nil, List.mem_singleton] at hb
  rw [hb]
  exact hx p hp

theorem merge_keyed : ∀ (src dst : List PPDef), Keyed dst → Keyed (mergeDefines dst src).1
  | [], _, h => h
  | x :: src, dst, h => by
    rw [mergeDefines]
    cases hf : dst.find? (fun p => p.key = x.key) with
    | some p => exact merge_keyed src dst h
    | none =>
      refine merge_keyed src _ (keyed_snoc h fun p hp => ?_)
      have := List.find?_eq_none.mp hf p hp
      simpa using this

theorem set_keyed (defs : List PPDef) (k v : Str) (h : Keyed defs) : Keyed (setPrivateDef defs k v) := by
  unfold setPrivateDef
  cases hf : defs.findIdx? (fun p => p.key = k) with
  | some i =>
    unfold Keyed at h ⊢
    dsimp only
    have : (defs.modify i (fun p => { p with value := v })).map (·.key) = defs.map (·.key) := by
      apply List.ext_getElem?
      intro j
      rw [List.getElem?_map, List.getElem?_map, List.getElem?_modify]
      cases defs[j]? with
      | none => simp
      | some p => by_cases hij : i = j <;> simp [hij]
    rw [this]; exact h
  | none =>
    refine keyed_snoc h fun p hp => ?_
    have := List.findIdx?_eq_none_iff.mp hf p hp
    simpa using this

theorem export_keyed (shared : Option Container) : ∀ (ts : List (Option Target)) (defs defs' : List PPDef),
    exportDefs shared ts defs = some defs' → Keyed defs → Keyed defs'
  | [], _, _, h, hk => by rw [exportDefs] at h; cases h; exact hk
  | none :: ts, defs, defs', h, hk => by rw [exportDefs] at h; exact export_keyed shared ts _ _ h hk
  | some t :: ts, defs, defs', h, hk => by
    rw [exportDefs] at h
    cases hs : t.shared with
    | some c =>
      rw [hs] at h
      dsimp only at h
      split at h
      · exact export_keyed shared ts _ _ h (set_keyed _ _ _ hk)
      · exact export_keyed shared ts _ _ h hk
    | none =>
      rw [hs] at h
      dsimp only at h
      split at h
      · exact export_keyed shared ts _ _ h hk
      · cases h

theorem absorb_once {v : Vis} {n c n' : Node} (hn : Once n)
    (h : absorbLibs (absorbProps v n c).1 c = some n') : Once n' := by
  have h1 : Once (absorbProps v n c).1 := by
    have ht : ∀ t', (match n.target with
        | none => none
        | some t => some { t with
            privIncludes := merge t.privIncludes c.includeDirs
            privDefines := (mergeDefines t.privDefines c.defines).1
            privFlags := merge t.privFlags c.flags }) = some t' → TargetOnce t' := by
      intro t' h'
      cases htn : n.target with
      | none => rw [htn] at h'; cases h'
      | some t =>
        rw [htn] at h'
        cases h'
        obtain ⟨a, b, d⟩ := hn.target t htn
        exact ⟨merge_nodup _ _ a, merge_keyed _ _ b, merge_nodup _ _ d⟩
    have ht' : ∀ t', (absorbProps v n c).1.target = some t' → TargetOnce t' := by
      intro t' h'
      refine ht t' ?_
      rw [← h']
      unfold absorbProps
      cases htn : n.target <;> cases v <;> rfl
    cases v with
    | priv =>
      exact ⟨hn.includes, hn.defines, hn.libs, hn.dlls, hn.frameworks, hn.flags, ht'⟩
    | pub =>
      exact ⟨merge_nodup c.includeDirs _ hn.includes, merge_keyed c.defines _ hn.defines, hn.libs, hn.dlls,
        hn.frameworks, merge_nodup c.flags _ hn.flags, ht'⟩
  revert h
  generalize (absorbProps v n c).1 = m at h1
  intro h
  unfold absorbLibs at h
  split at h
  · cases h
    refine ⟨h1.includes, h1.defines, ?_, merge_nodup _ _ h1.dlls, merge_nodup _ _ h1.frameworks, h1.flags,
      h1.target⟩
    dsimp only
    cases c.target with
    | none => exact merge_nodup _ _ h1.libs
    | some t =>
      dsimp only
      cases linkName t with
      | none => exact merge_nodup _ _ h1.libs
      | some x => exact addNew_nodup _ (merge_nodup _ _ h1.libs)
  · cases hc : c.target with
    | none => rw [hc] at h; cases h
    | some t =>
      rw [hc] at h
      dsimp only at h
      cases hs : t.shared with
      | none => rw [hs] at h; cases h
      | some s =>
        rw [hs] at h
        cases h
        exact ⟨h1.includes, h1.defines, addNew_nodup _ h1.libs, h1.dlls, h1.frameworks, h1.flags, h1.target⟩

theorem set_once {w : World} {d : Nat} {n : Node} (hw : ∀ e, Once (w.node e)) (hn : Once n) :
    ∀ e, Once ((w.set d n).node e) := by
  intro e
  unfold World.set
  dsimp only
  split
  · exact hn
  · exact hw e

theorem children_once {rec : World → Nat → Res World} (d : Nat)
    (hrec : ∀ w c w', rec w c = .ok w' → (∀ e, Once (w.node e)) → ∀ e, Once (w'.node e)) :
    ∀ (cs : List (Vis × Nat)) (w : World) (bd : List Nat) (w' : World) (bd' : List Nat),
    children rec d w bd cs = .ok (w', bd') → (∀ e, Once (w.node e)) → ∀ e, Once (w'.node e)
  | [], w, bd, w', bd', h, hw => by rw [children] at h; cases h; exact hw
  | (v, c) :: cs, w, bd, w', bd', h, hw => by
    rw [children] at h
    cases hr : rec w c with
    | assert => rw [hr] at h; cases h
    | deep => rw [hr] at h; cases h
    | ok w1 =>
      rw [hr] at h
      dsimp only at h
      have h1 := hrec _ _ _ hr hw
      cases ha : absorbLibs (absorbProps v (w1.node d) (w1.node c)).1 (w1.node c) with
      | none => rw [ha] at h; cases h
      | some n2 =>
        rw [ha] at h
        dsimp only at h
        exact children_once d hrec cs _ _ _ _ h (set_once h1 (absorb_once (h1 d) ha))

theorem propagate_once : ∀ (fuel : Nat) (w : World) (d : Nat) (w' : World), propagate fuel w d = .ok w' →
    (∀ e, Once (w.node e)) → ∀ e, Once (w'.node e)
  | 0, w, d, w', h, hw => by
    unfold propagate at h
    split at h
    · cases h; exact hw
    · cases h
  | fuel + 1, w, d, w', h, hw => by
    unfold propagate at h
    split at h
    · cases h; exact hw
    · dsimp only at h
      cases hc : children (propagate fuel) d
          (w.set d { w.node d with visible := (w.node d).visible ++ [d] }) [d] (w.node d).deps with
      | assert => rw [hc] at h; cases h
      | deep => rw [hc] at h; cases h
      | ok p =>
        obtain ⟨w1, bd⟩ := p
        rw [hc] at h
        dsimp only at h
        have h0 : Once { w.node d with visible := (w.node d).visible ++ [d] } := by
          obtain ⟨a1, a2, a3, a4, a5, a6, a7⟩ := hw d
          exact ⟨a1, a2, a3, a4, a5, a6, a7⟩
        have h1 := children_once d (fun w c w' hp h => propagate_once fuel w c w' hp h) _ _ _ _ _ hc
          (set_once hw h0)
        obtain ⟨a1, a2, a3, a4, a5, a6, a7⟩ := h1 d
        cases ht : (w1.node d).target with
        | none =>
          rw [ht] at h
          cases h
          exact set_once h1 ⟨a1, a2, a3, a4, a5, a6, fun t h' => by cases h'⟩
        | some t =>
          rw [ht] at h
          dsimp only at h
          cases he : exportDefs t.shared (bd.map fun e => (w1.node e).target) t.privDefines with
          | none => rw [he] at h; cases h
          | some defs =>
            rw [he] at h
            cases h
            refine set_once h1 ⟨a1, a2, a3, a4, a5, a6, fun t' h' => ?_⟩
            cases h'
            obtain ⟨b1, b2, b3⟩ := a7 t ht
            exact ⟨b1, export_keyed _ _ _ _ he b2, b3⟩

/-- **C42**: however often and in whatever order targets are propagated, and whatever the graph is like:
if no list has anything twice before (and no key is defined twice), that is so afterwards.  In
particular each library is linked once. -/
theorem C42_once (fuel : Nat) : ∀ (ds : List Nat) (w w' : World), propagateAll fuel w ds = .ok w' →
    (∀ e, Once (w.node e)) → ∀ e, Once (w'.node e)
  | [], w, w', h, hw => by rw [propagateAll] at h; cases h; exact hw
  | d :: ds, w, w', h, hw => by
    rw [propagateAll] at h
    cases hp : propagate fuel w d with
    | assert => rw [hp] at h; cases h
    | deep => rw [hp] at h; cases h
    | ok w1 =>
      rw [hp] at h
      exact C42_once fuel ds w1 w' h (propagate_once fuel w d w1 hp hw)

/-- The hypothesis is met by the example. -/
example : ∀ e, Once (exWorld.node e) := by
  intro e
  unfold exWorld
  dsimp only
  have hex : ∀ deps inc lib t, Once (exNode deps inc lib t) := by
    intro deps inc lib t
    refine ⟨by simp [exNode], by simp [exNode, Keyed], by simp [exNode], by simp [exNode], by simp [exNode],
      by simp [exNode], ?_⟩
    intro t' h
    unfold exNode at h
    cases t with
    | none => cases h
    | some p => cases h; exact ⟨by simp, by simp [Keyed], by simp⟩
  split <;> exact hex _ _ _ _

end Verif.Build
