import Verif.Build.Spec
/-!
# Build target dependencies — lemmas
-/
namespace Verif.Build
open Spec

theorem merge_mem {α : Type} [DecidableEq α] (x : α) : ∀ (src dst : List α),
    x ∈ merge dst src ↔ x ∈ dst ∨ x ∈ src
  | [], dst => by simp [merge]
  | y :: src, dst => by
    rw [merge, merge_mem x src]
    split <;> grind

theorem merge_nodup {α : Type} [DecidableEq α] : ∀ (src dst : List α), dst.Nodup → (merge dst src).Nodup
  | [], dst, h => h
  | y :: src, dst, h => by
    rw [merge]
    refine merge_nodup src _ ?_
    split
    · exact h
    · rename_i hy
      rw [List.nodup_append]
      refine ⟨h, by simp, ?_⟩
      intro a ha b hb
      rw [List.mem_singleton.mp hb]
      rintro rfl
      exact hy ha

theorem merge_prefix {α : Type} [DecidableEq α] : ∀ (src dst : List α), dst <+: merge dst src
  | [], dst => List.prefix_refl _
  | y :: src, dst => by
    rw [merge]
    refine List.IsPrefix.trans ?_ (merge_prefix src _)
    split
    · exact List.prefix_refl _
    · exact List.prefix_append _ _

theorem addNew_mem (x y : Str) (l : List Str) : x ∈ addNew l y ↔ x ∈ l ∨ x = y := by
  unfold addNew
  split <;> grind

theorem value_nil (k : Str) : value [] k = none := rfl

theorem value_cons (p : PPDef) (l : List PPDef) (k : Str) :
    value (p :: l) k = if p.key = k then some p.value else value l k := by
  unfold value
  rw [List.find?_cons]
  by_cases h : p.key = k <;> simp [h]

theorem value_append (a b : List PPDef) (k : Str) : value (a ++ b) k = (value a k).or (value b k) := by
  induction a with
  | nil => simp [value_nil]
  | cons p a ih =>
    rw [List.cons_append, value_cons, value_cons, ih]
    split <;> simp

theorem value_merge (k : Str) : ∀ (src dst : List PPDef),
    value (mergeDefines dst src).1 k = (value dst k).or (value src k)
  | [], dst => by simp [mergeDefines, value_nil]
  | x :: src, dst => by
    rw [mergeDefines]
    cases hf : dst.find? (fun p => p.key = x.key) with
    | some p =>
      dsimp only
      rw [value_merge k src dst, value_cons]
      by_cases hk : x.key = k
      · rw [if_pos hk]
        have : value dst k = some p.value := by
          unfold value; rw [← hk, hf]; rfl
        rw [this]; rfl
      · rw [if_neg hk]
    | none =>
      dsimp only
      rw [value_merge k src, value_append, value_cons, value_cons, value_nil]
      by_cases hk : x.key = k
      · rw [if_pos hk, if_pos hk]
        cases value dst k <;> rfl
      · rw [if_neg hk, if_neg hk]
        cases value dst k <;> rfl

theorem value_set (key v k : Str) (defs : List PPDef) :
    value (setPrivateDef defs key v) k = if k = key then some v else value defs k := by
  induction defs with
  | nil =>
    simp only [setPrivateDef, List.findIdx?_nil, List.nil_append, value_cons, value_nil]
    by_cases h : key = k
    · subst h; simp
    · rw [if_neg h, if_neg (Ne.symm h)]
  | cons p l ih =>
    unfold setPrivateDef at ih ⊢
    rw [List.findIdx?_cons]
    by_cases hp : p.key = key
    · simp only [hp, decide_true, ↓reduceIte, List.modify_zero_cons, value_cons]
      by_cases h : key = k
      · subst h; simp
      · simp only [if_neg h, if_neg (Ne.symm h)]
    · simp only [hp, decide_false, Bool.false_eq_true, ↓reduceIte]
      cases hf : l.findIdx? (fun p => decide (p.key = key)) with
      | none =>
        rw [hf] at ih
        simp only [Option.map_none, List.cons_append, value_cons] at ih ⊢
        rw [ih]
        by_cases h : p.key = k
        · rw [if_pos h, if_pos h, if_neg (fun e => hp (h.trans e))]
        · rw [if_neg h, if_neg h]
      | some i =>
        rw [hf] at ih
        simp only [Option.map_some, List.modify_succ_cons, value_cons] at ih ⊢
        rw [ih]
        by_cases h : p.key = k
        · rw [if_pos h, if_pos h, if_neg (fun e => hp (h.trans e))]
        · rw [if_neg h, if_neg h]

/-- The target asks for this definition in whatever is built against it. -/
def Asks (shared : Option Container) (t : Target) (k : Str) : Prop :=
  ∃ s, t.shared = some s ∧ t.dynPrefix ≠ [] ∧ k = exportKey (decide (some s = shared)) t.dynPrefix

theorem exportDefs_spec (shared : Option Container) : ∀ (ts : List (Option Target)) (defs : List PPDef),
    ((shared ≠ none → ∀ t, some t ∈ ts → t.shared ≠ none) →
      ∃ defs', exportDefs shared ts defs = some defs' ∧
        (∀ k, (∃ t, some t ∈ ts ∧ Asks shared t k) → value defs' k = some one) ∧
        (∀ k, (¬ ∃ t, some t ∈ ts ∧ Asks shared t k) → value defs' k = value defs k)) ∧
    (¬ (shared ≠ none → ∀ t, some t ∈ ts → t.shared ≠ none) → exportDefs shared ts defs = none)
  | [], defs => by
    refine ⟨fun _ => ⟨defs, rfl, ?_, fun _ _ => rfl⟩, fun h => absurd (fun _ t ht => by cases ht) h⟩
    rintro k ⟨t, ht, -⟩
    cases ht
  | none :: ts, defs => by
    obtain ⟨h1, h2⟩ := exportDefs_spec shared ts defs
    rw [exportDefs]
    simpa using And.intro h1 h2
  | some t :: ts, defs => by
    rw [exportDefs]
    cases hs : t.shared with
    | none =>
      dsimp only
      by_cases hsh : shared = none
      · rw [if_pos hsh]
        obtain ⟨h1, h2⟩ := exportDefs_spec shared ts defs
        refine ⟨?_, fun hn => absurd (fun h => absurd hsh h) hn⟩
        intro _
        obtain ⟨defs', e, a, b⟩ := h1 (fun h => absurd hsh h)
        refine ⟨defs', e, ?_, ?_⟩
        · rintro k ⟨u, hu, ha⟩
          rcases List.mem_cons.mp hu with hu | hu
          · cases hu
            obtain ⟨s, h', -⟩ := ha
            rw [hs] at h'; cases h'
          · exact a k ⟨u, hu, ha⟩
        · intro k hk
          exact b k fun ⟨u, hu, ha⟩ => hk ⟨u, List.mem_cons_of_mem _ hu, ha⟩
      · rw [if_neg hsh]
        refine ⟨fun h => absurd hs (h hsh t List.mem_cons_self), fun _ => rfl⟩
    | some s =>
      dsimp only
      have iff : (shared ≠ none → ∀ t', some t' ∈ some t :: ts → t'.shared ≠ none) ↔
          (shared ≠ none → ∀ t', some t' ∈ ts → t'.shared ≠ none) := by
        constructor
        · exact fun h h1 u hu => h h1 u (List.mem_cons_of_mem _ hu)
        · intro h h1 u hu
          rcases List.mem_cons.mp hu with hu | hu
          · cases hu; rw [hs]; simp
          · exact h h1 u hu
      rw [iff]
      by_cases hp : t.dynPrefix = []
      · rw [if_neg (by simp [hp])]
        obtain ⟨h1, h2⟩ := exportDefs_spec shared ts defs
        refine ⟨?_, h2⟩
        intro h
        obtain ⟨defs', e, a, b⟩ := h1 h
        have iff2 : ∀ k, (∃ u, some u ∈ some t :: ts ∧ Asks shared u k) ↔ ∃ u, some u ∈ ts ∧ Asks shared u k := by
          intro k
          constructor
          · rintro ⟨u, hu, ha⟩
            rcases List.mem_cons.mp hu with hu | hu
            · cases hu
              obtain ⟨_, _, h', _⟩ := ha
              exact absurd hp h'
            · exact ⟨u, hu, ha⟩
          · rintro ⟨u, hu, ha⟩
            exact ⟨u, List.mem_cons_of_mem _ hu, ha⟩
        refine ⟨defs', e, fun k => by rw [iff2]; exact a k, fun k => by rw [iff2]; exact b k⟩
      · rw [if_pos (by simp [hp])]
        obtain ⟨h1, h2⟩ := exportDefs_spec shared ts
          (setPrivateDef defs (exportKey (decide (some s = shared)) t.dynPrefix) one)
        refine ⟨?_, h2⟩
        intro h
        obtain ⟨defs', e, a, b⟩ := h1 h
        refine ⟨defs', e, ?_, ?_⟩
        · intro k hk
          by_cases hk' : ∃ u, some u ∈ ts ∧ Asks shared u k
          · exact a k hk'
          · rw [b k hk', value_set]
            obtain ⟨u, hu, ha⟩ := hk
            rcases List.mem_cons.mp hu with hu | hu
            · cases hu
              obtain ⟨s', hs', -, rfl⟩ := ha
              rw [hs] at hs'; cases hs'
              simp
            · exact absurd ⟨u, hu, ha⟩ hk'
        · intro k hk
          rw [b k fun ⟨u, hu, ha⟩ => hk ⟨u, List.mem_cons_of_mem _ hu, ha⟩, value_set, if_neg]
          rintro rfl
          exact hk ⟨t, List.mem_cons_self, s, hs, hp, rfl⟩

theorem star_trans {edge : Nat → Nat → Prop} {a b c : Nat} (h1 : Star edge a b) (h2 : Star edge b c) :
    Star edge a c := by
  induction h1 with
  | refl => exact h2
  | step h _ ih => exact .step h (ih h2)

theorem star_iff (edge : Nat → Nat → Prop) (d e : Nat) :
    Star edge d e ↔ e = d ∨ ∃ c, edge d c ∧ Star edge c e := by
  constructor
  · intro h
    cases h with
    | refl => exact .inl rfl
    | step h1 h2 => exact .inr ⟨_, h1, h2⟩
  · rintro (rfl | ⟨c, h1, h2⟩)
    · exact .refl _
    · exact .step h1 h2

theorem gather_iff {α : Type} (edge : Nat → Nat → Prop) (own : Nat → α → Prop) (d : Nat) (x : α) :
    Gather edge own d x ↔ own d x ∨ ∃ c, edge d c ∧ Gather edge own c x := by
  unfold Gather
  constructor
  · rintro ⟨e, h, ho⟩
    rcases (star_iff edge d e).mp h with rfl | ⟨c, h1, h2⟩
    · exact .inl ho
    · exact .inr ⟨c, h1, e, h2, ho⟩
  · rintro (ho | ⟨c, h1, e, h2, ho⟩)
    · exact ⟨d, .refl _, ho⟩
    · exact ⟨e, .step h1 h2, ho⟩

/-- What linking with `c` contributes to `d`. -/
def LibVia (w : World) (d c : Nat) (x : Str) : Prop :=
  (SameBinary w d c ∧ (Lib w c x ∨ ∃ t, (w.node c).target = some t ∧ linkName t = some x)) ∨
  (¬ SameBinary w d c ∧ ∃ t s, (w.node c).target = some t ∧ t.shared = some s ∧ x = s.name)

theorem lib_iff (w : World) (d : Nat) (x : Str) :
    Lib w d x ↔ x ∈ (w.node d).libs ∨ ∃ v c, (v, c) ∈ (w.node d).deps ∧ LibVia w d c x := by
  constructor
  · intro h
    cases h with
    | own h => exact .inl h
    | inherit h1 h2 =>
      obtain ⟨⟨v, h1⟩, h3⟩ := h1
      exact .inr ⟨v, _, h1, .inl ⟨h3, .inl h2⟩⟩
    | link h1 h2 h4 =>
      obtain ⟨⟨v, h1⟩, h3⟩ := h1
      exact .inr ⟨v, _, h1, .inl ⟨h3, .inr ⟨_, h2, h4⟩⟩⟩
    | container h1 h2 h3 h4 =>
      obtain ⟨v, h1⟩ := h1
      exact .inr ⟨v, _, h1, .inr ⟨h2, _, _, h3, h4, rfl⟩⟩
  · rintro (h | ⟨v, c, h1, ⟨h2, h3 | ⟨t, h3, h4⟩⟩ | ⟨h2, t, s, h3, h4, rfl⟩⟩)
    · exact .own h
    · exact .inherit ⟨⟨v, h1⟩, h2⟩ h3
    · exact .link ⟨⟨v, h1⟩, h2⟩ h3 h4
    · exact .container ⟨v, h1⟩ h2 h3 h4

/-- Membership in the children handled so far, with one more. -/
theorem ex_snoc {p : Vis → Nat → Prop} (cs : List (Vis × Nat)) (v : Vis) (c : Nat) :
    (∃ v' c', (v', c') ∈ cs ++ [(v, c)] ∧ p v' c') ↔ (∃ v' c', (v', c') ∈ cs ∧ p v' c') ∨ p v c := by
  simp only [List.mem_append, List.mem_singleton, Prod.mk.injEq]
  constructor
  · rintro ⟨a, b, h | ⟨rfl, rfl⟩, hp⟩
    · exact .inl ⟨a, b, h, hp⟩
    · exact .inr hp
  · rintro (⟨a, b, h, hp⟩ | hp)
    · exact ⟨a, b, .inl h, hp⟩
    · exact ⟨v, c, .inr ⟨rfl, rfl⟩, hp⟩

/-- `p` of some public child. -/
theorem ex_pub {p : Nat → Prop} (cs : List (Vis × Nat)) :
    (∃ v c, (v, c) ∈ cs ∧ v = Vis.pub ∧ p c) ↔ ∃ c, (Vis.pub, c) ∈ cs ∧ p c := by
  constructor
  · rintro ⟨v, c, h, rfl, hp⟩; exact ⟨c, h, hp⟩
  · rintro ⟨c, h, hp⟩; exact ⟨_, c, h, rfl, hp⟩

/-- A target after the children `cs`. -/
structure TargetMid (w : World) (d : Nat) (cs : List (Vis × Nat)) (t t' : Target) : Prop where
  kept : t'.ttype = t.ttype ∧ t'.name = t.name ∧ t'.shared = t.shared ∧ t'.dynPrefix = t.dynPrefix
  includes : ∀ x, x ∈ t'.privIncludes ↔ x ∈ t.privIncludes ∨
    ∃ v c, (v, c) ∈ cs ∧ Gather (PubEdge w) (fun e x => x ∈ (w.node e).includeDirs) c x
  includesFirst : t.privIncludes <+: t'.privIncludes
  flags : ∀ x, x ∈ t'.privFlags ↔ x ∈ t.privFlags ∨
    ∃ v c, (v, c) ∈ cs ∧ Gather (PubEdge w) (fun e x => x ∈ (w.node e).flags) c x
  own : ∀ k v, value t.privDefines k = some v → value t'.privDefines k = some v
  keys : ∀ k, (value t'.privDefines k).isSome ↔ (value t.privDefines k).isSome ∨
    ∃ v c, (v, c) ∈ cs ∧ Gather (PubEdge w) (fun e k => (value (w.node e).defines k).isSome) c k
  source : ∀ k x, value t'.privDefines k = some x → value t.privDefines k = some x ∨
    ∃ v c, (v, c) ∈ cs ∧ Gather (PubEdge w) (fun e p => value (w.node e).defines p.1 = some p.2) c (k, x)

/-- A dependency after the children `cs`. -/
structure Mid (w : World) (d : Nat) (cs : List (Vis × Nat)) (n : Node) : Prop where
  deps : n.deps = (w.node d).deps
  once : n.visible.Nodup
  visible : ∀ e, e ∈ n.visible ↔ e = d ∨ ∃ v c, (v, c) ∈ cs ∧ v = Vis.pub ∧ Star (PubEdge w) c e
  includes : ∀ x, x ∈ n.includeDirs ↔ x ∈ (w.node d).includeDirs ∨
    ∃ v c, (v, c) ∈ cs ∧ v = Vis.pub ∧ Gather (PubEdge w) (fun e x => x ∈ (w.node e).includeDirs) c x
  includesFirst : (w.node d).includeDirs <+: n.includeDirs
  flags : ∀ x, x ∈ n.flags ↔ x ∈ (w.node d).flags ∨
    ∃ v c, (v, c) ∈ cs ∧ v = Vis.pub ∧ Gather (PubEdge w) (fun e x => x ∈ (w.node e).flags) c x
  ownDefs : ∀ k v, value (w.node d).defines k = some v → value n.defines k = some v
  keys : ∀ k, (value n.defines k).isSome ↔ (value (w.node d).defines k).isSome ∨
    ∃ v c, (v, c) ∈ cs ∧ v = Vis.pub ∧
      Gather (PubEdge w) (fun e k => (value (w.node e).defines k).isSome) c k
  source : ∀ k x, value n.defines k = some x → value (w.node d).defines k = some x ∨
    ∃ v c, (v, c) ∈ cs ∧ v = Vis.pub ∧
      Gather (PubEdge w) (fun e p => value (w.node e).defines p.1 = some p.2) c (k, x)
  libs : ∀ x, x ∈ n.libs ↔ x ∈ (w.node d).libs ∨ ∃ v c, (v, c) ∈ cs ∧ LibVia w d c x
  dlls : ∀ x, x ∈ n.dlls ↔ x ∈ (w.node d).dlls ∨
    ∃ v c, (v, c) ∈ cs ∧ SameBinary w d c ∧ Gather (StaticEdge w) (fun e x => x ∈ (w.node e).dlls) c x
  frameworks : ∀ x, x ∈ n.frameworks ↔ x ∈ (w.node d).frameworks ∨
    ∃ v c, (v, c) ∈ cs ∧ SameBinary w d c ∧
      Gather (StaticEdge w) (fun e x => x ∈ (w.node e).frameworks) c x
  noTarget : (w.node d).target = none → n.target = none
  target : ∀ t, (w.node d).target = some t → ∃ t', n.target = some t' ∧ TargetMid w d cs t t'

theorem mid_init (w : World) (d : Nat) (hv : (w.node d).visible = []) :
    Mid w d [] { w.node d with visible := (w.node d).visible ++ [d] } := by
  constructor <;> simp [hv]
  intro t ht
  exact ⟨t, ht, ⟨rfl, rfl, rfl, rfl⟩, by simp, List.prefix_refl _, by simp, fun _ _ h => h, by simp,
    fun _ _ h => .inl h⟩

theorem isSome_or {α : Type} (a b : Option α) : (a.or b).isSome ↔ a.isSome ∨ b.isSome := by
  cases a <;> simp

/-- Merging the definitions of a child. -/
theorem defs_step {own : Str → Option Str} {ka : Str → Prop} {sa : Str → Str → Prop}
    {dst src : List PPDef} {kc : Str → Prop} {sc : Str → Str → Prop}
    (h1 : ∀ k v, own k = some v → value dst k = some v)
    (h2 : ∀ k, (value dst k).isSome ↔ ka k)
    (h3 : ∀ k x, value dst k = some x → sa k x)
    (h4 : ∀ k, (value src k).isSome ↔ kc k)
    (h5 : ∀ k x, value src k = some x → sc k x) :
    (∀ k v, own k = some v → value (mergeDefines dst src).1 k = some v) ∧
    (∀ k, (value (mergeDefines dst src).1 k).isSome ↔ ka k ∨ kc k) ∧
    (∀ k x, value (mergeDefines dst src).1 k = some x → sa k x ∨ sc k x) := by
  refine ⟨?_, ?_, ?_⟩
  · intro k v h
    rw [value_merge, h1 k v h]; rfl
  · intro k
    rw [value_merge, isSome_or, h2, h4]
  · intro k x h
    rw [value_merge] at h
    cases hd : value dst k with
    | none => rw [hd] at h; exact .inr (h5 k x h)
    | some y =>
      rw [hd] at h
      cases h
      exact .inl (h3 k _ hd)

theorem target_step {w : World} {d : Nat} {cs : List (Vis × Nat)} {t t' : Target} {v : Vis} {c : Nat}
    {nc : Node} (h : TargetMid w d cs t t') (hc : Done w c nc) :
    TargetMid w d (cs ++ [(v, c)]) t { t' with
      privIncludes := merge t'.privIncludes nc.includeDirs
      privDefines := (mergeDefines t'.privDefines nc.defines).1
      privFlags := merge t'.privFlags nc.flags } := by
  obtain ⟨a, b, e⟩ := defs_step h.own h.keys h.source hc.keys hc.source
  refine ⟨h.kept, ?_, h.includesFirst.trans (merge_prefix _ _), ?_, a, ?_, ?_⟩
  · intro x
    rw [ex_snoc, merge_mem, h.includes, hc.includes, or_assoc]
  · intro x
    rw [ex_snoc, merge_mem, h.flags, hc.flags, or_assoc]
  · intro k
    rw [ex_snoc, b, or_assoc]
  · intro k x hx
    rw [ex_snoc, ← or_assoc]
    exact e k x hx

/-- The relation between `staticLink` and `SameBinary`. -/
theorem staticLink_iff {w : World} {d c : Nat} {a b : Option Target}
    (ha0 : (w.node d).target = none → a = none)
    (ha : ∀ t, (w.node d).target = some t → ∃ t', a = some t' ∧ t'.shared = t.shared)
    (hb0 : (w.node c).target = none → b = none)
    (hb : ∀ t, (w.node c).target = some t → ∃ t', b = some t' ∧ t'.shared = t.shared) :
    staticLink a b = true ↔ SameBinary w d c := by
  unfold SameBinary
  cases hd : (w.node d).target with
  | none => rw [ha0 hd]; simp [staticLink]
  | some t =>
    obtain ⟨t', rfl, h1⟩ := ha t hd
    cases he : (w.node c).target with
    | none => rw [hb0 he]; simp [staticLink]
    | some u =>
      obtain ⟨u', rfl, h2⟩ := hb u he
      simp [staticLink, h1, h2]

theorem props_step {w : World} {d : Nat} {cs : List (Vis × Nat)} {n : Node} {v : Vis} {c : Nat}
    {nc : Node} (h : Mid w d cs n) (hc : Done w c nc) :
    let n' := (absorbProps v n nc).1
    n'.deps = n.deps ∧ n'.libs = n.libs ∧ n'.dlls = n.dlls ∧ n'.frameworks = n.frameworks ∧
    n'.propagated = n.propagated ∧
    n'.visible.Nodup ∧
    (∀ e, e ∈ n'.visible ↔ e = d ∨ ∃ v' c', (v', c') ∈ cs ++ [(v, c)] ∧ v' = Vis.pub ∧
      Star (PubEdge w) c' e) ∧
    (∀ x, x ∈ n'.includeDirs ↔ x ∈ (w.node d).includeDirs ∨
      ∃ v' c', (v', c') ∈ cs ++ [(v, c)] ∧ v' = Vis.pub ∧
        Gather (PubEdge w) (fun e x => x ∈ (w.node e).includeDirs) c' x) ∧
    (w.node d).includeDirs <+: n'.includeDirs ∧
    (∀ x, x ∈ n'.flags ↔ x ∈ (w.node d).flags ∨
      ∃ v' c', (v', c') ∈ cs ++ [(v, c)] ∧ v' = Vis.pub ∧
        Gather (PubEdge w) (fun e x => x ∈ (w.node e).flags) c' x) ∧
    (∀ k v, value (w.node d).defines k = some v → value n'.defines k = some v) ∧
    (∀ k, (value n'.defines k).isSome ↔ (value (w.node d).defines k).isSome ∨
      ∃ v' c', (v', c') ∈ cs ++ [(v, c)] ∧ v' = Vis.pub ∧
        Gather (PubEdge w) (fun e k => (value (w.node e).defines k).isSome) c' k) ∧
    (∀ k x, value n'.defines k = some x → value (w.node d).defines k = some x ∨
      ∃ v' c', (v', c') ∈ cs ++ [(v, c)] ∧ v' = Vis.pub ∧
        Gather (PubEdge w) (fun e p => value (w.node e).defines p.1 = some p.2) c' (k, x)) ∧
    ((w.node d).target = none → n'.target = none) ∧
    (∀ t, (w.node d).target = some t →
      ∃ t', n'.target = some t' ∧ TargetMid w d (cs ++ [(v, c)]) t t') := by
  have htarget : ∀ t, (w.node d).target = some t →
      ∃ t', (absorbProps v n nc).1.target = some t' ∧ TargetMid w d (cs ++ [(v, c)]) t t' := by
    intro t ht
    obtain ⟨t', h1, h2⟩ := h.target t ht
    refine ⟨_, ?_, target_step (v := v) h2 hc⟩
    unfold absorbProps
    rw [h1]
    cases v <;> rfl
  have hnone : (w.node d).target = none → (absorbProps v n nc).1.target = none := by
    intro ht
    have h1 := h.noTarget ht
    unfold absorbProps
    rw [h1]
    cases v <;> rfl
  obtain ⟨da, db, de⟩ := defs_step h.ownDefs h.keys h.source hc.keys hc.source
  cases v with
  | priv =>
    simp only [ex_snoc]
    refine ⟨rfl, rfl, rfl, rfl, rfl, h.once, ?_, ?_, h.includesFirst, ?_, h.ownDefs, ?_, ?_, hnone, htarget⟩
    · intro e
      show e ∈ n.visible ↔ _
      rw [h.visible]; simp
    · intro e
      show e ∈ n.includeDirs ↔ _
      rw [h.includes]; simp
    · intro e
      show e ∈ n.flags ↔ _
      rw [h.flags]; simp
    · intro k
      show (value n.defines k).isSome ↔ _
      rw [h.keys]; simp
    · intro k x hx
      have := h.source k x hx
      simpa using this
  | pub =>
    simp only [ex_snoc]
    refine ⟨rfl, rfl, rfl, rfl, rfl, merge_nodup _ _ h.once, ?_, ?_,
      h.includesFirst.trans (merge_prefix _ _), ?_, da, ?_, ?_, hnone, htarget⟩
    · intro e
      show e ∈ merge n.visible nc.visible ↔ _
      rw [merge_mem, h.visible, hc.visible, or_assoc]; simp
    · intro e
      show e ∈ merge n.includeDirs nc.includeDirs ↔ _
      rw [merge_mem, h.includes, hc.includes, or_assoc]; simp
    · intro e
      show e ∈ merge n.flags nc.flags ↔ _
      rw [merge_mem, h.flags, hc.flags, or_assoc]; simp
    · intro k
      have := db k
      rw [or_assoc] at this
      show (value (mergeDefines n.defines nc.defines).1 k).isSome ↔ _
      rw [this]; simp
    · intro k x hx
      have := de k x hx
      rw [or_assoc] at this
      simpa using this

/-- One child. -/
theorem mid_step {w : World} {d : Nat} {cs : List (Vis × Nat)} {n : Node} {v : Vis} {c : Nat}
    {nc : Node} (h : Mid w d cs n) (hc : Done w c nc) :
    ((¬ SameBinary w d c → ∀ t, (w.node c).target = some t → t.shared ≠ none) →
      ∃ n', absorbLibs (absorbProps v n nc).1 nc = some n' ∧ Mid w d (cs ++ [(v, c)]) n' ∧
        n'.propagated = n.propagated) ∧
    (¬ (¬ SameBinary w d c → ∀ t, (w.node c).target = some t → t.shared ≠ none) →
      absorbLibs (absorbProps v n nc).1 nc = none) := by
  obtain ⟨p1, p2, p3, p4, pp, p5, p6, p7, p8, p9, p10, p11, p12, p13, p14⟩ := props_step (v := v) h hc
  generalize (absorbProps v n nc).1 = m at *
  have hst : staticLink m.target nc.target = true ↔ SameBinary w d c := by
    refine staticLink_iff p13 ?_ hc.noTarget ?_
    · intro t ht
      obtain ⟨t', h1, h2⟩ := p14 t ht
      exact ⟨t', h1, h2.kept.2.2.1⟩
    · intro t ht
      obtain ⟨t', h1, h2⟩ := hc.target t ht
      exact ⟨t', h1, h2.kept.2.2.1⟩
  unfold absorbLibs
  by_cases hs : SameBinary w d c
  · rw [if_pos (hst.mpr hs)]
    refine ⟨fun _ => ⟨_, rfl, ?_, pp⟩, fun hn => absurd (fun h' => absurd hs h') hn⟩
    refine ⟨p1.trans h.deps, p5, p6, p7, p8, p9, p10, p11, p12, ?_, ?_, ?_, p13, p14⟩
    · intro x
      have hlib : ∀ x, x ∈ merge m.libs nc.libs ↔ x ∈ n.libs ∨ Lib w c x := by
        intro x; rw [merge_mem, p2, hc.libs]
      have hvia : LibVia w d c x ↔ Lib w c x ∨ ∃ t, (w.node c).target = some t ∧ linkName t = some x := by
        unfold LibVia; simp [hs]
      rw [ex_snoc, hvia, ← or_assoc, ← or_assoc, ← h.libs]
      cases hct : (w.node c).target with
      | none =>
        rw [hc.noTarget hct]
        simp [hlib]
      | some t =>
        obtain ⟨t', h1, h2⟩ := hc.target t hct
        rw [h1]
        have hln : linkName t' = linkName t := by
          unfold linkName; rw [h2.kept.1, h2.kept.2.1]
        dsimp only
        rw [hln]
        cases hl : linkName t with
        | none => simp [hlib, hl]
        | some y => simp [addNew_mem, hlib, hl, eq_comm]
    · intro x
      show x ∈ merge m.dlls nc.dlls ↔ _
      rw [ex_snoc, merge_mem, p3, h.dlls, hc.dlls, or_assoc]; simp [hs]
    · intro x
      show x ∈ merge m.frameworks nc.frameworks ↔ _
      rw [ex_snoc, merge_mem, p4, h.frameworks, hc.frameworks, or_assoc]; simp [hs]
  · rw [if_neg (fun e => hs (hst.mp e))]
    cases hct : (w.node c).target with
    | none =>
      exfalso
      apply hs
      intro t u _ hu
      rw [hct] at hu; cases hu
    | some t =>
      obtain ⟨t', h1, h2⟩ := hc.target t hct
      rw [h1]
      dsimp only
      have hsh : t'.shared = t.shared := h2.kept.2.2.1
      rw [hsh]
      cases hts : t.shared with
      | none =>
        refine ⟨fun hn => absurd hts (hn hs t rfl), fun _ => rfl⟩
      | some s =>
        refine ⟨fun _ => ⟨_, rfl, ?_, pp⟩, ?_⟩
        · refine ⟨p1.trans h.deps, p5, p6, p7, p8, p9, p10, p11, p12, ?_, ?_, ?_, p13, p14⟩
          · intro x
            have hvia : LibVia w d c x ↔ x = s.name := by
              unfold LibVia; simp [hs, hct, hts]
            show x ∈ addNew m.libs s.name ↔ _
            rw [ex_snoc, hvia, addNew_mem, p2, h.libs, or_assoc]
          · intro x
            show x ∈ m.dlls ↔ _
            rw [ex_snoc, p3, h.dlls]; simp [hs]
          · intro x
            show x ∈ m.frameworks ↔ _
            rw [ex_snoc, p4, h.frameworks]; simp [hs]
        · intro hn
          refine absurd ?_ hn
          intro _ u hu
          cases hu
          rw [hts]; simp

theorem rank_star {w : World} {r : Nat → Nat} (hr : Acyclic w r) {d e : Nat}
    (h : Star (AnyEdge w) d e) : r e ≤ r d := by
  induction h with
  | refl => exact Nat.le_refl _
  | step h _ ih => exact Nat.le_of_lt (Nat.lt_of_le_of_lt ih (hr _ _ h))

theorem star_pub_any {w : World} {d e : Nat} (h : Star (PubEdge w) d e) : Star (AnyEdge w) d e := by
  induction h with
  | refl => exact .refl _
  | step h _ ih => exact .step ⟨_, h⟩ ih

/-- Where propagation has been, up to a rank. -/
def Inv (w0 : World) (r : Nat → Nat) (k : Nat) (w : World) : Prop :=
  ∀ e, r e < k →
    ((w.node e).propagated = false → w.node e = w0.node e) ∧
    ((w.node e).propagated = true → Done w0 e (w.node e) ∧ AllSafe w0 e ∧
      ∀ e', Star (AnyEdge w0) e e' → (w.node e').propagated = true)

theorem Inv.mono {w0 : World} {r : Nat → Nat} {k k' : Nat} {w : World} (h : Inv w0 r k w)
    (hk : k' ≤ k) : Inv w0 r k' w := fun e he => h e (Nat.lt_of_lt_of_le he hk)

/-- What a call may do: nothing outside of what it can reach, and nothing to what has been
propagated. -/
def Frame (w0 : World) (d : Nat) (w w' : World) : Prop :=
  ∀ e, ¬ Star (AnyEdge w0) d e ∨ (w.node e).propagated = true → w'.node e = w.node e

/-- What is proved about the recursive call. -/
def Works (w0 : World) (r : Nat → Nat) (rec : World → Nat → Res World) (k : Nat) : Prop :=
  ∀ w c, r c < k → Inv w0 r (r c + 1) w →
    (AllSafe w0 c → ∃ w', rec w c = .ok w' ∧ Inv w0 r (r c + 1) w' ∧ (w'.node c).propagated = true ∧
      Frame w0 c w w') ∧
    (¬ AllSafe w0 c → rec w c = .assert)

theorem allSafe_iff (w : World) (d : Nat) :
    AllSafe w d ↔ Safe w d ∧ ∀ c, AnyEdge w d c → AllSafe w c := by
  constructor
  · intro h
    exact ⟨h d (.refl _), fun c hc e he => h e (.step hc he)⟩
  · rintro ⟨h1, h2⟩ e he
    rcases (star_iff _ _ _).mp he with rfl | ⟨c, hc, h3⟩
    · exact h1
    · exact h2 c hc e h3

theorem World.set_same (w : World) (d : Nat) (n : Node) : (w.set d n).node d = n := by
  simp [World.set]

theorem World.set_other (w : World) {d e : Nat} (n : Node) (h : e ≠ d) :
    (w.set d n).node e = w.node e := by
  simp [World.set, h]

/-- The first assertion, for some of the children. -/
def Contained (w0 : World) (d : Nat) (cs : List (Vis × Nat)) : Prop :=
  ∀ v c, (v, c) ∈ cs → (AllSafe w0 c ∧
    (¬ SameBinary w0 d c → ∀ t, (w0.node c).target = some t → t.shared ≠ none))

theorem children_spec {w0 : World} {r : Nat → Nat} (hr : Acyclic w0 r) {rec : World → Nat → Res World}
    {d k : Nat} (hk : r d ≤ k) (hrec : Works w0 r rec k) : ∀ (rest : List (Vis × Nat)) (w : World)
    (bd : List Nat) (cs : List (Vis × Nat)),
    cs ++ rest = (w0.node d).deps → Inv w0 r (r d) w → Mid w0 d cs (w.node d) →
    (w.node d).propagated = false →
    (∀ e, e ∈ bd ↔ e = d ∨ ∃ v c, (v, c) ∈ cs ∧ Star (PubEdge w0) c e) →
    (∀ v c, (v, c) ∈ cs → (w.node c).propagated = true) →
    (Contained w0 d rest →
      ∃ w' bd', children rec d w bd rest = .ok (w', bd') ∧ Inv w0 r (r d) w' ∧
        Mid w0 d (w0.node d).deps (w'.node d) ∧ (w'.node d).propagated = false ∧
        (∀ e, e ∈ bd' ↔ BuildDep w0 d e) ∧
        Frame w0 d w w' ∧ (∀ v c, (v, c) ∈ (w0.node d).deps → (w'.node c).propagated = true)) ∧
    (¬ Contained w0 d rest → children rec d w bd rest = .assert)
  | [], w, bd, cs, hcs, hi, hm, hp, hbd, hpr => by
    rw [List.append_nil] at hcs
    refine ⟨fun _ => ⟨w, bd, rfl, hi, hcs ▸ hm, hp, ?_, fun _ _ => rfl, hcs ▸ hpr⟩,
      fun hn => absurd (fun v c h => by cases h) hn⟩
    intro e
    rw [hbd, hcs]
    unfold BuildDep AnyEdge
    constructor
    · rintro (h | ⟨v, c, h1, h2⟩)
      · exact .inl h
      · exact .inr ⟨c, ⟨v, h1⟩, h2⟩
    · rintro (h | ⟨c, ⟨v, h1⟩, h2⟩)
      · exact .inl h
      · exact .inr ⟨v, c, h1, h2⟩
  | (v, c) :: rest, w, bd, cs, hcs, hi, hm, hp, hbd, hpr => by
    have hedge : AnyEdge w0 d c := ⟨v, by rw [← hcs]; simp⟩
    have hrank := hr d c hedge
    obtain ⟨hok, hbad⟩ := hrec w c (by omega) (hi.mono (by omega))
    have hsplit : Contained w0 d ((v, c) :: rest) ↔ (AllSafe w0 c ∧
        (¬ SameBinary w0 d c → ∀ t, (w0.node c).target = some t → t.shared ≠ none)) ∧
        Contained w0 d rest := by
      constructor
      · intro h
        exact ⟨h v c List.mem_cons_self, fun v' c' h' => h v' c' (List.mem_cons_of_mem _ h')⟩
      · rintro ⟨h1, h2⟩ v' c' h'
        rcases List.mem_cons.mp h' with h' | h'
        · cases h'; exact h1
        · exact h2 v' c' h'
    rw [hsplit, children]
    by_cases hsafe : AllSafe w0 c
    · obtain ⟨w1, e1, i1, q1, f1⟩ := hok hsafe
      rw [e1]
      dsimp only
      have hnd : ¬ Star (AnyEdge w0) c d := by
        intro h
        have := rank_star hr h
        omega
      have hcd : c ≠ d := by rintro rfl; omega
      have hd1 : w1.node d = w.node d := f1 d (.inl hnd)
      have hdone : Done w0 c (w1.node c) := ((i1 c (Nat.lt_succ_self _)).2 q1).1
      rw [hd1]
      obtain ⟨g1, g2⟩ := mid_step (v := v) hm hdone
      by_cases hcont : ¬ SameBinary w0 d c → ∀ t, (w0.node c).target = some t → t.shared ≠ none
      · obtain ⟨n2, en, hm2, hp2⟩ := g1 hcont
        rw [en]
        dsimp only
        have hi2 : Inv w0 r (r d)
            { w1.set d n2 with errors := w1.errors ++ (absorbProps v (w.node d) (w1.node c)).2 } := by
          intro e he
          have hed : e ≠ d := by rintro rfl; omega
          have heq : ({ w1.set d n2 with errors :=
              w1.errors ++ (absorbProps v (w.node d) (w1.node c)).2 } : World).node e = w1.node e :=
            World.set_other _ _ hed
          rw [heq]
          have hup : ∀ e', Star (AnyEdge w0) e e' → (w1.node e').propagated = true →
              ((w1.set d n2).node e').propagated = true := by
            intro e' h1 h2
            have := rank_star hr h1
            rw [World.set_other _ _ (by rintro rfl; omega)]
            exact h2
          by_cases hre : r e ≤ r c
          · obtain ⟨a1, a2⟩ := i1 e (Nat.lt_succ_of_le hre)
            refine ⟨a1, fun h => ⟨(a2 h).1, (a2 h).2.1, fun e' h' => hup e' h' ((a2 h).2.2 e' h')⟩⟩
          · rw [f1 e (.inl fun h => hre (rank_star hr h))]
            obtain ⟨a1, a2⟩ := hi e he
            refine ⟨a1, fun h => ⟨(a2 h).1, (a2 h).2.1, fun e' h' => hup e' h' ?_⟩⟩
            have := (a2 h).2.2 e' h'
            rw [f1 e' (.inr this)]
            exact this
        have hdn : ({ w1.set d n2 with errors :=
              w1.errors ++ (absorbProps v (w.node d) (w1.node c)).2 } : World).node d = n2 :=
            World.set_same _ _ _
        obtain ⟨ok2, bad2⟩ := children_spec hr hk hrec rest
          { w1.set d n2 with errors := w1.errors ++ (absorbProps v (w.node d) (w1.node c)).2 }
          (merge bd (w1.node c).visible) (cs ++ [(v, c)])
          (by rw [← hcs]; simp) hi2 (by rw [hdn]; exact hm2) (by rw [hdn, hp2]; exact hp)
          (by
            intro e
            rw [merge_mem, hbd, hdone.visible, ex_snoc (p := fun _ c => Star (PubEdge w0) c e), or_assoc])
          (by
            intro v' c' hvc
            have hc'd : c' ≠ d := by
              rintro rfl
              have hm' : (v', c') ∈ (w0.node c').deps := by
                rw [← hcs]
                rcases List.mem_append.mp hvc with h | h
                · exact List.mem_append_left _ h
                · rw [List.mem_singleton.mp h]; simp
              have := hr c' c' ⟨v', hm'⟩
              omega
            show ((w1.set d n2).node c').propagated = true
            rw [World.set_other _ _ hc'd]
            rcases List.mem_append.mp hvc with h | h
            · have hq := hpr v' c' h
              rw [f1 c' (.inr hq)]; exact hq
            · simp only [List.mem_singleton, Prod.mk.injEq] at h
              rw [h.2]; exact q1)
        refine ⟨?_, ?_⟩
        · rintro ⟨-, h2⟩
          obtain ⟨w', bd', a1, a2, a3, a4, a5, a6, a7⟩ := ok2 h2
          refine ⟨w', bd', a1, a2, a3, a4, a5, ?_, a7⟩
          intro e he
          have hed : e ≠ d := by
            rintro rfl
            rcases he with he | he
            · exact he (.refl _)
            · rw [hp] at he; cases he
          have h1 : w1.node e = w.node e := by
            refine f1 e ?_
            rcases he with he | he
            · exact .inl fun h => he (.step hedge h)
            · exact .inr he
          have h2 : ((w1.set d n2).node e) = w.node e := by
            rw [World.set_other _ _ hed]; exact h1
          rw [a6 e ?_]
          · exact h2
          · rcases he with he | he
            · exact .inl he
            · exact .inr (by
                show ((w1.set d n2).node e).propagated = true
                rw [h2]; exact he)
        · intro hn
          exact bad2 fun h => hn ⟨⟨hsafe, hcont⟩, h⟩
      · rw [g2 hcont]
        exact ⟨fun h => absurd h.1.2 hcont, fun _ => rfl⟩
    · rw [hbad hsafe]
      exact ⟨fun h => absurd h.1.1 hsafe, fun _ => rfl⟩

/-- The properties after all children are the final ones. -/
theorem mid_done {w : World} {d : Nat} {n : Node} (h : Mid w d (w.node d).deps n) :
    n.deps = (w.node d).deps ∧ n.visible.Nodup ∧ (∀ e, e ∈ n.visible ↔ Star (PubEdge w) d e) ∧
    (∀ x, x ∈ n.includeDirs ↔ Gather (PubEdge w) (fun e x => x ∈ (w.node e).includeDirs) d x) ∧
    (w.node d).includeDirs <+: n.includeDirs ∧
    (∀ x, x ∈ n.flags ↔ Gather (PubEdge w) (fun e x => x ∈ (w.node e).flags) d x) ∧
    (∀ k v, value (w.node d).defines k = some v → value n.defines k = some v) ∧
    (∀ k, (value n.defines k).isSome ↔
      Gather (PubEdge w) (fun e k => (value (w.node e).defines k).isSome) d k) ∧
    (∀ k v, value n.defines k = some v →
      Gather (PubEdge w) (fun e p => value (w.node e).defines p.1 = some p.2) d (k, v)) ∧
    (∀ x, x ∈ n.libs ↔ Lib w d x) ∧
    (∀ x, x ∈ n.dlls ↔ Gather (StaticEdge w) (fun e x => x ∈ (w.node e).dlls) d x) ∧
    (∀ x, x ∈ n.frameworks ↔ Gather (StaticEdge w) (fun e x => x ∈ (w.node e).frameworks) d x) := by
  have st : ∀ p : Nat → Prop, (∃ v c, (v, c) ∈ (w.node d).deps ∧ SameBinary w d c ∧ p c) ↔
      ∃ c, StaticEdge w d c ∧ p c := by
    intro p
    constructor
    · rintro ⟨v, c, h1, h2, h3⟩; exact ⟨c, ⟨⟨v, h1⟩, h2⟩, h3⟩
    · rintro ⟨c, ⟨⟨v, h1⟩, h2⟩, h3⟩; exact ⟨v, c, h1, h2, h3⟩
  refine ⟨h.deps, h.once, ?_, ?_, h.includesFirst, ?_, h.ownDefs, ?_, ?_, ?_, ?_, ?_⟩
  · intro e; rw [h.visible, ex_pub, star_iff]; rfl
  · intro x; rw [h.includes, ex_pub, gather_iff]; rfl
  · intro x; rw [h.flags, ex_pub, gather_iff]; rfl
  · intro x; rw [h.keys, ex_pub, gather_iff]; rfl
  · intro k v hv
    have := h.source k v hv
    rw [ex_pub] at this
    rw [gather_iff]; exact this
  · intro x; rw [h.libs, lib_iff]
  · intro x
    rw [h.dlls, gather_iff,
      st fun c => Gather (StaticEdge w) (fun e x => x ∈ (w.node e).dlls) c x]
  · intro x
    rw [h.frameworks, gather_iff,
      st fun c => Gather (StaticEdge w) (fun e x => x ∈ (w.node e).frameworks) c x]

theorem any_iff {w : World} {d : Nat} {p : Nat → Prop} :
    (∃ v c, (v, c) ∈ (w.node d).deps ∧ p c) ↔ ∃ c, AnyEdge w d c ∧ p c := by
  constructor
  · rintro ⟨v, c, h1, h2⟩; exact ⟨c, ⟨v, h1⟩, h2⟩
  · rintro ⟨c, ⟨v, h1⟩, h2⟩; exact ⟨v, c, h1, h2⟩

/-- Looking at the targets in the middle of propagation is as good as before. -/
theorem target_same {w0 : World} {r : Nat → Nat} {k : Nat} {w : World} (hi : Inv w0 r k w) {e : Nat}
    (he : r e < k) :
    ((w0.node e).target = none → (w.node e).target = none) ∧
    (∀ t, (w0.node e).target = some t → ∃ t', (w.node e).target = some t' ∧ t'.shared = t.shared ∧
      t'.dynPrefix = t.dynPrefix) := by
  obtain ⟨h1, h2⟩ := hi e he
  cases hp : (w.node e).propagated with
  | false =>
    rw [h1 hp]
    exact ⟨fun h => h, fun t ht => ⟨t, ht, rfl, rfl⟩⟩
  | true =>
    obtain ⟨hd, -, -⟩ := h2 hp
    refine ⟨hd.noTarget, fun t ht => ?_⟩
    obtain ⟨t', a, b⟩ := hd.target t ht
    exact ⟨t', a, b.kept.2.2.1, b.kept.2.2.2⟩

theorem propagate_works {w0 : World} {r : Nat → Nat} (hr : Acyclic w0 r) (hf : Fresh w0) :
    ∀ k, Works w0 r (propagate k) k := by
  intro k
  induction k with
  | zero => intro w c h; omega
  | succ k ih =>
  intro w d hk hi
  have hid := hi d (Nat.lt_succ_self _)
  rw [propagate]
  cases hp : (w.node d).propagated with
  | true =>
    simp only [↓reduceIte]
    obtain ⟨-, hs, -⟩ := hid.2 hp
    exact ⟨fun _ => ⟨w, rfl, hi, hp, fun _ _ => rfl⟩, fun hn => absurd hs hn⟩
  | false =>
    simp only [Bool.false_eq_true, ↓reduceIte]
    have h0 := hid.1 hp
    rw [h0]
    have hfr := hf d
    generalize hn0 : ({ w0.node d with visible := (w0.node d).visible ++ [d] } : Node) = n0
    have hmid : Mid w0 d [] n0 := hn0 ▸ mid_init w0 d hfr.2
    have hn0p : n0.propagated = false := by rw [← hn0]; exact hfr.1
    have hi0 : Inv w0 r (r d) (w.set d n0) := by
      intro e he
      rw [World.set_other _ _ (by rintro rfl; omega)]
      obtain ⟨a1, a2⟩ := hi e (by omega)
      refine ⟨a1, fun h => ⟨(a2 h).1, (a2 h).2.1, fun e' h' => ?_⟩⟩
      have := rank_star hr h'
      rw [World.set_other _ _ (by rintro rfl; omega)]
      exact (a2 h).2.2 e' h'
    obtain ⟨cok, cbad⟩ := children_spec hr (by omega) ih (w0.node d).deps (w.set d n0) [d] []
      rfl hi0 (by rw [World.set_same]; exact hmid) (by rw [World.set_same]; exact hn0p)
      (by intro e; simp) (by intro v c h; cases h)
    rw [allSafe_iff]
    by_cases hcont : Contained w0 d (w0.node d).deps
    · obtain ⟨w1, bd, e1, i1, m1, p1, b1, f1, c1⟩ := cok hcont
      rw [e1]
      dsimp only
      have hsafe1 : ∀ c, AnyEdge w0 d c → AllSafe w0 c := fun c ⟨v, h⟩ => (hcont v c h).1
      have hcontained : ∀ c, AnyEdge w0 d c → ¬ SameBinary w0 d c →
          ∀ t, (w0.node c).target = some t → t.shared ≠ none := fun c ⟨v, h⟩ => (hcont v c h).2
      obtain ⟨m2, m3, m4, m5, m6, m7, m8, m9, m10, m11, m12, m13⟩ := mid_done m1
      -- everything below `d` has been propagated
      have hframe : ∀ n', Frame w0 d w (w1.set d n') := by
        intro n' e he
        have hed : e ≠ d := by
          rintro rfl
          rcases he with he | he
          · exact he (.refl _)
          · rw [hp] at he; cases he
        have hse : (w.set d n0).node e = w.node e := World.set_other _ _ hed
        rw [World.set_other _ _ hed, f1 e (by rw [hse]; exact he), hse]
      have hinv : ∀ n', n'.propagated = true → Done w0 d n' → AllSafe w0 d →
          (∀ c, AnyEdge w0 d c → (w1.node c).propagated = true) →
          Inv w0 r (r d + 1) (w1.set d n') := by
        intro n' hn' hdone hsafe hch e he
        have hbelow : ∀ e', Star (AnyEdge w0) d e' → ((w1.set d n').node e').propagated = true := by
          intro e' h'
          rcases (star_iff _ _ _).mp h' with rfl | ⟨c, hc, h2⟩
          · rw [World.set_same]; exact hn'
          · have hrc := hr d c hc
            have := rank_star hr h2
            rw [World.set_other _ _ (by rintro rfl; omega)]
            exact ((i1 c hrc).2 (hch c hc)).2.2 e' h2
        by_cases hed : e = d
        · subst hed
          rw [World.set_same]
          exact ⟨fun h => absurd (hn'.symm.trans h) (by decide), fun _ => ⟨hdone, hsafe, hbelow⟩⟩
        · rw [World.set_other _ _ hed]
          by_cases hre : r e < r d
          · obtain ⟨a1, a2⟩ := i1 e hre
            refine ⟨a1, fun h => ⟨(a2 h).1, (a2 h).2.1, fun e' h' => ?_⟩⟩
            have := rank_star hr h'
            rw [World.set_other _ _ (by rintro rfl; omega)]
            exact (a2 h).2.2 e' h'
          · have hns : ¬ Star (AnyEdge w0) d e := by
              intro h
              rcases (star_iff _ _ _).mp h with rfl | ⟨c, hc, h2⟩
              · exact hed rfl
              · have h3 := hr d c hc
                have h4 := rank_star hr h2
                omega
            have hwe : w1.node e = w.node e := by
              rw [f1 e (.inl hns), World.set_other _ _ hed]
            rw [hwe]
            obtain ⟨a1, a2⟩ := hi e (by omega)
            refine ⟨a1, fun h => ⟨(a2 h).1, (a2 h).2.1, fun e' h' => ?_⟩⟩
            by_cases hed' : e' = d
            · subst hed'; rw [World.set_same]; exact hn'
            · rw [World.set_other _ _ hed']
              have hw := (a2 h).2.2 e' h'
              rw [f1 e' (.inr (by rw [World.set_other _ _ hed']; exact hw)), World.set_other _ _ hed']
              exact hw
      have hch : ∀ c, AnyEdge w0 d c → (w1.node c).propagated = true := fun c ⟨v, h⟩ => c1 v c h
      cases ht0 : (w0.node d).target with
      | none =>
        have ht1 := m1.noTarget ht0
        rw [ht1]
        dsimp only
        have hsafe : Safe w0 d := ⟨hcontained, fun t ht => by rw [ht0] at ht; cases ht⟩
        refine ⟨fun hs => ?_, fun hn => absurd ⟨hsafe, hsafe1⟩ hn⟩
        refine ⟨_, rfl, ?_, ?_, hframe _⟩
        · refine hinv _ rfl ?_ ((allSafe_iff _ _).mpr hs) hch
          exact ⟨m2, m3, m4, m5, m6, m7, m8, m9, m10, m11, m12, m13, fun _ => rfl,
            fun t ht => by rw [ht0] at ht; cases ht⟩
        · rw [World.set_same]
      | some t0 =>
        obtain ⟨t1, ht1, tm⟩ := m1.target t0 ht0
        rw [ht1]
        dsimp only
        have hsh : t1.shared = t0.shared := tm.kept.2.2.1
        have hdy : t1.dynPrefix = t0.dynPrefix := tm.kept.2.2.2
        obtain ⟨x1, x2⟩ := exportDefs_spec t1.shared (bd.map fun e => (w1.node e).target) t1.privDefines
        -- the targets that are looked at
        have hlook : ∀ e, BuildDep w0 d e →
            ((w0.node e).target = none → (w1.node e).target = none) ∧
            (∀ t, (w0.node e).target = some t → ∃ t', (w1.node e).target = some t' ∧
              t'.shared = t.shared ∧ t'.dynPrefix = t.dynPrefix) := by
          intro e he
          rcases he with rfl | ⟨c, hc, he⟩
          · refine ⟨fun h => (by rw [ht0] at h; cases h), fun t ht => ?_⟩
            rw [ht0] at ht; cases ht
            exact ⟨t1, ht1, hsh, hdy⟩
          · have h1 := hr d c hc
            have h2 := rank_star hr (star_pub_any he)
            exact target_same i1 (by omega)
        have hts : ∀ t', some t' ∈ (bd.map fun e => (w1.node e).target) →
            ∃ e t, BuildDep w0 d e ∧ (w0.node e).target = some t ∧ t'.shared = t.shared ∧
              t'.dynPrefix = t.dynPrefix := by
          intro t' h
          obtain ⟨e, he, het⟩ := List.mem_map.mp h
          have hbe := (b1 e).mp he
          obtain ⟨l1, l2⟩ := hlook e hbe
          cases hte : (w0.node e).target with
          | none => rw [l1 hte] at het; cases het
          | some t =>
            obtain ⟨t'', q1, q2, q3⟩ := l2 t hte
            rw [q1] at het; cases het
            exact ⟨e, t, hbe, hte, q2, q3⟩
        have hst : ∀ e t, BuildDep w0 d e → (w0.node e).target = some t →
            ∃ t', some t' ∈ (bd.map fun e => (w1.node e).target) ∧ t'.shared = t.shared ∧
              t'.dynPrefix = t.dynPrefix := by
          intro e t hbe hte
          obtain ⟨t', q1, q2, q3⟩ := (hlook e hbe).2 t hte
          exact ⟨t', List.mem_map.mpr ⟨e, (b1 e).mpr hbe, q1⟩, q2, q3⟩
        have hasks : ∀ k, (∃ t, some t ∈ (bd.map fun e => (w1.node e).target) ∧ Asks t1.shared t k) ↔
            ExportKey w0 d k := by
          intro k
          constructor
          · rintro ⟨t', h1, s, h2, h3, h4⟩
            obtain ⟨e, t, g1, g2, g3, g4⟩ := hts t' h1
            rw [hsh, g4] at h4
            exact ⟨e, t0, t, s, g1, ht0, g2, g3 ▸ h2, g4 ▸ h3, h4⟩
          · rintro ⟨e, t, u, s, g1, g2, g3, g4, g5, g6⟩
            rw [ht0] at g2; cases g2
            obtain ⟨t', q1, q2, q3⟩ := hst e u g1 g3
            exact ⟨t', q1, s, q2.trans g4, q3 ▸ g5, by rw [hsh, q3]; exact g6⟩
        have hcond : (t1.shared ≠ none → ∀ t, some t ∈ (bd.map fun e => (w1.node e).target) → t.shared ≠ none) ↔
            (∀ t, (w0.node d).target = some t → t.shared ≠ none →
              ∀ e u, BuildDep w0 d e → (w0.node e).target = some u → u.shared ≠ none) := by
          constructor
          · intro h t ht hs e u hbe hu
            rw [ht0] at ht; cases ht
            obtain ⟨t', q1, q2, -⟩ := hst e u hbe hu
            rw [← q2]
            exact h (by rw [hsh]; exact hs) t' q1
          · intro h hs t' ht'
            obtain ⟨e, t, g1, g2, g3, -⟩ := hts t' ht'
            rw [g3]
            exact h t0 ht0 (by rw [← hsh]; exact hs) e t g1 g2
        by_cases hsafe2 : ∀ t, (w0.node d).target = some t → t.shared ≠ none →
              ∀ e u, BuildDep w0 d e → (w0.node e).target = some u → u.shared ≠ none
        · obtain ⟨defs, ed, v1, v2⟩ := x1 (hcond.mpr hsafe2)
          rw [ed]
          dsimp only
          have hsafe : Safe w0 d := ⟨hcontained, hsafe2⟩
          refine ⟨fun hs => ?_, fun hn => absurd ⟨hsafe, hsafe1⟩ hn⟩
          refine ⟨_, rfl, ?_, ?_, hframe _⟩
          · refine hinv _ rfl ?_ ((allSafe_iff _ _).mpr hs) hch
            refine ⟨m2, m3, m4, m5, m6, m7, m8, m9, m10, m11, m12, m13,
              fun h => (by rw [ht0] at h; cases h), fun t ht => ?_⟩
            rw [ht0] at ht; cases ht
            refine ⟨_, rfl, tm.kept, ?_, tm.includesFirst, ?_, ?_, ?_, ?_, ?_⟩
            · intro x
              have := tm.includes x
              rw [any_iff] at this; exact this
            · intro x
              have := tm.flags x
              rw [any_iff] at this; exact this
            · intro k hk
              exact v1 k ((hasks k).mpr hk)
            · intro k v hk hv
              show value defs k = _
              rw [v2 k (fun h => hk ((hasks k).mp h))]
              exact tm.own k v hv
            · intro k
              show (value defs k).isSome ↔ _
              by_cases hk : ExportKey w0 d k
              · rw [v1 k ((hasks k).mpr hk)]; simp [hk]
              · rw [v2 k (fun h => hk ((hasks k).mp h))]
                have := tm.keys k
                rw [any_iff] at this
                rw [this]; simp [hk]
            · intro k v hk hv
              change value defs k = _ at hv
              rw [v2 k (fun h => hk ((hasks k).mp h))] at hv
              have := tm.source k v hv
              rw [any_iff] at this; exact this
          · rw [World.set_same]
        · rw [x2 (fun h => hsafe2 (hcond.mp h))]
          dsimp only
          exact ⟨fun h => absurd h.1.against hsafe2, fun _ => rfl⟩
    · rw [cbad hcont]
      dsimp only
      refine ⟨fun h => absurd ?_ hcont, fun _ => rfl⟩
      intro v c hvc
      exact ⟨h.2 c ⟨v, hvc⟩, h.1.contained c ⟨v, hvc⟩⟩

end Verif.Build
