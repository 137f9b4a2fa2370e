import Verif.Persist.Lemmas3
import Verif.Persist.Check
import Verif.Schema.Props
/-!
# Saving and loading objects — C57
-/
namespace Verif.Persist
open Verif Schema Spec Schema.Spec

theorem describes {env : Env} {ts : List T} {slots : List (Option Desc)}
    (hg : Good env.kind ts slots fun _ _ => False) : Describes env slots (At env.kind ts) := by
  intro t r h
  rcases h with h | ⟨-, i, h1, rfl⟩
  · exact .inl h
  · obtain ⟨d, f, e1, e2, e3⟩ := hg.slot i t h1
    refine .inr ⟨d, f, ?_, e2, fun c hc => (e3 c hc).resolve_right (fun h => h.2)⟩
    rw [format, e1]

theorem render_length (ρ ρ' : Addr → Nat) : ∀ ps : List Piece, (render ρ ps).length = (render ρ' ps).length
  | [] => rfl
  | .bytes bs :: ps => by simp [render_length ρ ρ' ps]
  | .hole a :: ps => by simp [render_length ρ ρ' ps, le_length]
  | .own a :: ps => by simp [render_length ρ ρ' ps]

theorem map_idxOf (next : Nat) {l : List Addr} (h : l.Nodup) :
    l.map (fun a => next + l.idxOf a) = List.range' next l.length := by
  apply List.ext_getElem
  · simp
  · intro i h1 h2
    rw [List.length_map] at h1
    simp [List.Nodup.idxOf_getElem h]

/-- What is written. -/
theorem written_ok {env : Env} {u : List T} (hT : Types env u) {heap : Addr → T} {t : T} (ht : t ∈ u) {v : Val}
    {ps : List Piece} {k : Nat} (ok : OkAt env heap t v ps k) (hn : (owneds v).Nodup)
    (hp : ∀ a ∈ ptrs v, a ∈ owneds v) (hord : (firsts (ptrs v)).Sublist (owneds v)) (fuel : Nat)
    (hfuel : max k u.length ≤ fuel) :
    ∃ w ts slots id r, Good env.kind ts slots (fun _ _ => False) ∧ getFormatDesc slots id = some r ∧
      At env.kind ts t r ∧ id < 2 ^ 32 ∧
      (∀ rest, ∃ k, ∀ f n, k ≤ f → k ≤ n →
        readSchema f n ⟨[], (endSchema w).out ++ rest⟩ = some ⟨slots, rest⟩) ∧
      (linked (firsts (ptrs v)) (ownOffs heap 4 ps)).map (·.1) = firsts (ptrs v) ∧
      writeAsset env fuel t v = some ((endSchema w).out ++ le 4 (firsts (ptrs v)).length ++
      ((linked (firsts (ptrs v)) (ownOffs heap 4 ps)).flatMap fun s => le 4 s.2.2) ++
      (le 4 id ++ render (fun a => (firsts (ptrs v)).idxOf a) ps)) := by
  obtain ⟨w, ts, slots, h1, htu, hg, h3, h4⟩ := C41_schema env.kind u [t] hT.closed hT.acyclic
    (fun x hx => by rw [List.mem_singleton.mp hx]; exact ht) fuel (by omega)
  obtain ⟨id, r, g1, g2, g3⟩ := h4 t (by simp)
  have hadd : addOrGet env.kind fuel t (start env.kind) = some w := by
    rw [addAll] at h1
    cases h : addOrGet env.kind fuel t (start env.kind) with
    | none => rw [h] at h1; cases h1
    | some w' => rw [h] at h1; cases h1; rfl
  have hid : id < 2 ^ 32 := by
    unfold getFormatDesc at g2
    by_cases h : id < 1000
    · omega
    · rw [if_neg h] at g2
      cases hs : slots[id - 1000]? with
      | none => rw [hs] at g2; cases g2
      | some d =>
        have hlt : id - 1000 < slots.length := by
          refine Classical.byContradiction fun hh => ?_
          rw [List.getElem?_eq_none (by omega)] at hs; cases hs
        rw [hg.len] at hlt
        have := nodup_length_le ts u hg.nodup htu
        have := hT.closed.few
        omega
  have hw := ok.write fuel (by omega) ⟨le 4 id, [], []⟩ (fun a _ h => by cases h) (by rw [ok.owns]; exact hn)
  have hc := WC.app_eq heap ps ⟨le 4 id, [], []⟩
  dsimp only at hc
  rw [List.nil_append, List.nil_append, le_length] at hc
  have hlen4 : (le 4 id).length = 4 := le_length ..
  have hres := resolveWeak_ok heap (ownOffs heap 4 ps) (fun s hs => (ownOffs_type heap ps 4 s hs).1) ps
    (le 4 id) [] (fun a ha => by rw [ownOffs_addrs, ok.owns]; rw [ok.holes] at ha; exact hp a ha)
  rw [hlen4, extend_firsts, ok.holes] at hres
  have htab := linkTable_ok (firsts (ptrs v)) (firsts_nodup _) (ownOffs heap 4 ps) [] (firsts (ptrs v)) rfl
    (by rw [ownOffs_addrs, ok.owns]; exact hn) (by rw [ownOffs_addrs, ok.owns]; exact hord)
    (fun a ha => by cases ha)
  rw [List.length_nil] at htab
  refine ⟨w, ts, slots, id, r, hg, g2, g3, hid, h3, htab.2, ?_⟩
  unfold writeAsset
  rw [hadd]
  dsimp only
  rw [g1]
  dsimp only
  rw [hw, hc]
  dsimp only
  rw [hres]
  dsimp only
  rw [htab.1]

/-- **C57, as far as it holds**: let the types mention each other without cycles, and let `v` be an object
of type `t` whose `Owned` pointers are all non-null and hold different objects.  If every raw pointer
points to one of these, if the objects pointed to are first pointed to in the order in which they are held,
and if those that are not pointed to begin with something other than an `Owned` pointer, then saving
succeeds; and if the file is smaller than 4 GiB then loading it gives the same object, at new addresses,
with every raw pointer pointing to the new place of what it pointed to, and consumes exactly the file. -/
theorem C57_asset_roundtrip_partial (env : Env) (u : List T) (hT : Types env u) (heap : Addr → T) (t : T)
    (ht : t ∈ u) (v : Val) (hv : HasType env heap t v) (hn : (owneds v).Nodup)
    (hp : ∀ a ∈ ptrs v, a ∈ owneds v) (hord : (firsts (ptrs v)).Sublist (owneds v))
    (hsolid : ∀ a ∈ owneds v, a ∉ ptrs v → Solid env (heap a)) :
    ∃ k, ∀ fuel, k ≤ fuel → ∃ bytes, writeAsset env fuel t v = some bytes ∧
      (bytes.length < 2 ^ 32 → ∀ next, ∃ σ : Addr → Addr, (∀ a, next ≤ σ a) ∧
        (∀ a ∈ owneds v, ∀ b ∈ owneds v, σ a = σ b → a = b) ∧
        ∀ rest, ∃ k, ∀ f, k ≤ f → readAsset env f t next (bytes ++ rest) = some (rename σ v, rest)) := by
  obtain ⟨ps, k, ok⟩ := obj_ok hT hv ht
  refine ⟨max k u.length, fun fuel hfuel => ?_⟩
  obtain ⟨w, ts, slots, id, r, hg, g2, g3, hid, h3, hm, hwa⟩ := written_ok hT ht ok hn hp hord fuel hfuel
  refine ⟨_, hwa, fun hsmall next => ⟨fun a => next + (owneds v).idxOf a, fun a => Nat.le_add_right .., ?_,
    fun rest => ?_⟩⟩
  · intro a ha b hb e
    have e : (owneds v).idxOf a = (owneds v).idxOf b := Nat.add_left_cancel e
    have e1 := getElem?_idxOf ha
    rw [e, getElem?_idxOf hb] at e1
    exact (Option.some.inj e1).symm
  simp only [List.length_append, le_length, List.append_assoc] at hsmall ⊢
  generalize hD : linked (firsts (ptrs v)) (ownOffs heap 4 ps) = D at *
  have hDl : D.length = (firsts (ptrs v)).length := by rw [← hm, List.length_map]
  obtain ⟨k1, hk1⟩ := h3 (le 4 (firsts (ptrs v)).length ++ ((D.flatMap fun s => le 4 s.2.2) ++ (le 4 id ++
    (render (fun a => (firsts (ptrs v)).idxOf a) ps ++ rest))))
  refine ⟨max k k1, fun f hf => ?_⟩
  have hfew : 4 * D.length ≤ (D.flatMap fun s => le 4 s.2.2).length := by
    rw [List.length_flatMap]
    simp only [le_length]
    rw [List.map_const', List.sum_replicate_nat, Nat.mul_comm]
    exact Nat.le_refl _
  have hDs : ∀ s ∈ D, s.2.2 < 2 ^ 32 := by
    intro s hs
    rw [← hD] at hs
    have := (ownOffs_type heap ps 4 s (List.mem_filter.mp hs).1).2.2
    rw [render_length _ (fun a => (firsts (ptrs v)).idxOf a)] at this
    omega
  have hσ : (owns ps).map (fun a => next + (owneds v).idxOf a) = List.range' next (owns ps).length := by
    rw [ok.owns]; exact map_idxOf next hn
  unfold readAsset
  rw [hk1 f f (by omega) (by omega)]
  dsimp only
  rw [readLe_le 4 _ _ (by omega)]
  dsimp only
  rw [← hDl, readOffsets_ok D _ hDs]
  dsimp only
  have hrd : RC.readLe ⟨le 4 id ++ (render (fun a => (firsts (ptrs v)).idxOf a) ps ++ rest), 0, [],
      D.map (·.2.2), next⟩ 4 = some (id, ⟨render (fun a => (firsts (ptrs v)).idxOf a) ps ++ rest, 4, [],
      D.map (·.2.2), next⟩) := by
    unfold RC.readLe
    rw [readLe_le 4 _ _ (by omega)]
  rw [hrd]
  dsimp only
  rw [g2]
  dsimp only
  have hidx : ∀ a ∈ ptrs v, (firsts (ptrs v)).idxOf a < (firsts (ptrs v)).length :=
    fun a ha => List.idxOf_lt_length_of_mem (firsts_mem.mpr ha)
  rw [ok.read slots _ (describes hg) f (by omega) r g3 (env.dflt t) (hT.formed t ht)
    (fun a => (firsts (ptrs v)).idxOf a) (fun a => next + (owneds v).idxOf a)
    ⟨render (fun a => (firsts (ptrs v)).idxOf a) ps ++ rest, 4, [], D.map (·.2.2), next⟩ rest rfl
    (fun a ha => by
      rw [ok.holes] at ha
      have := hidx a ha
      simp only [List.length_nil, List.length_map]
      omega) hσ]
  dsimp only
  have htight : tight (firsts (ptrs v)) ps = true := ok.tight _ fun a ha hna =>
    hsolid a ha fun h => hna (firsts_mem.mpr h)
  obtain ⟨m1, m2⟩ := matched heap (firsts (ptrs v)) (fun a => next + (owneds v).idxOf a) ps
    ⟨render (fun a => (firsts (ptrs v)).idxOf a) ps ++ rest, 4, [], D.map (·.2.2), next⟩ htight
    (by rw [hD]) hσ
  rw [m1, m2]
  dsimp only
  rw [hD]
  rw [resolve_ok hv (σ := fun a => next + (owneds v).idxOf a), Option.map_some,
    RC.app_input heap (fun a => (firsts (ptrs v)).idxOf a) ps _ rest rfl]
  intro a ha
  have e : D.map (fun s => some (next + (owneds v).idxOf s.1, heap s.1)) =
      (firsts (ptrs v)).map fun a => some (next + (owneds v).idxOf a, heap a) := by
    rw [← hm, List.map_map]; rfl
  rw [List.nil_append, List.map_nil, List.append_nil, e, List.getElem?_map,
    getElem?_idxOf (firsts_mem.mpr ha)]
  rfl

/-! ## Concrete cases -/

/-- `struct Node { u32 id; String name; }`, `struct Root { Array<Owned<Node>> n; Array<Node*> p; }`,
`struct Outer { Owned<Node> i; }`, `struct Pair { Owned<Outer> o; Node* p; }`, `struct Empty {}`,
`struct Three { Owned<Empty> a, b; Empty* p; }`. -/
def exKind : T → Kind
  | 0 => .prim 9 true
  | 1 => .prim 13 true
  | 2 => .struct [78] [] [([105], 0), ([110], 1)]
  | 3 => .owned 2
  | 4 => .rawPtr 2
  | 5 => .array 3
  | 6 => .array 4
  | 7 => .struct [82] [] [([110], 5), ([112], 6)]
  | 8 => .struct [79] [] [([105], 3)]
  | 9 => .owned 8
  | 10 => .struct [80] [] [([111], 9), ([112], 4)]
  | 11 => .struct [69] [] []
  | 12 => .owned 11
  | 13 => .rawPtr 11
  | 14 => .struct [84] [] [([97], 12), ([98], 12), ([112], 13)]
  | _ => .other

/-- What a new object holds. -/
def exDflt : T → Val
  | 0 => .num 0
  | 1 => .str []
  | 2 => .struct [.num 0, .str []]
  | 5 => .items []
  | 6 => .items []
  | 7 => .struct [.items [], .items []]
  | 8 => .struct [.noOwned]
  | 10 => .struct [.noOwned, .noPtr]
  | 11 => .struct []
  | 14 => .struct [.noOwned, .noOwned, .noPtr]
  | 4 => .noPtr
  | 13 => .noPtr
  | _ => .noOwned

/-- These types. -/
def exEnv : Env where
  kind := exKind
  vals _ := []
  dflt := exDflt
  fcast _ _ n := n

/-- The types are good. -/
theorem exTypes_ok : Types exEnv (List.range 15) := typesB_ok (by decide +kernel) (fun _ _ _ => rfl)

/-- Three nodes: 1, 2 and 3. -/
def exNodes : List Val :=
  [.owned 1 (.struct [.num 7, .str [65]]), .owned 2 (.struct [.num 8, .str []]), .owned 3 (.struct [.num 9, .str [66]])]

/-- What is at each address. -/
def exHeap : Addr → T := fun _ => 2

/-- A root with these nodes and some pointers to them. -/
def exRoot (ps : List Addr) : Val := .struct [.items exNodes, .items (ps.map .ptr)]

/-- The hypotheses of `C57_asset_roundtrip_partial` for nodes 1, 2, 3 and pointers to 1, 3, 1, 1, 3. -/
example : ∃ k, ∀ fuel, k ≤ fuel → ∃ bytes, writeAsset exEnv fuel 7 (exRoot [1, 3, 1, 1, 3]) = some bytes ∧
      (bytes.length < 2 ^ 32 → ∀ next, ∃ σ : Addr → Addr, (∀ a, next ≤ σ a) ∧
        (∀ a ∈ [1, 2, 3], ∀ b ∈ [1, 2, 3], σ a = σ b → a = b) ∧
        ∀ rest, ∃ k, ∀ f, k ≤ f → readAsset exEnv f 7 next (bytes ++ rest) =
          some (rename σ (exRoot [1, 3, 1, 1, 3]), rest)) :=
  C57_asset_roundtrip_partial exEnv (List.range 15) exTypes_ok exHeap 7 (by decide) (exRoot [1, 3, 1, 1, 3])
    (typedB_ok exEnv exHeap 20 _ _ (by decide +kernel)) (by decide) (by decide) (by decide)
    (fun a ha hp => .struct (m := ([105], 0)) rfl (.prim rfl))

set_option maxRecDepth 10000 in
/-- The same, run. -/
example : ((writeAsset exEnv 20 7 (exRoot [1, 3, 1, 1, 3])).bind fun bs => (readAsset exEnv 40 7 50 bs)) =
    some (.struct [.items [.owned 50 (.struct [.num 7, .str [65]]), .owned 51 (.struct [.num 8, .str []]),
      .owned 52 (.struct [.num 9, .str [66]])], .items [.ptr 50, .ptr 52, .ptr 50, .ptr 50, .ptr 52]], []) := rfl

/-! ## Where it does not hold -/

/-- **C57 fails when the pointers come in another order**: with raw pointers to node 2 and then to node 1,
saving fails the assertion on the order of the link table (reflect/PersistWriteObject.cpp:47). -/
theorem C57_pointer_order_asserts : HasType exEnv exHeap 7 (exRoot [2, 1]) ∧ (owneds (exRoot [2, 1])).Nodup ∧
    (∀ a ∈ ptrs (exRoot [2, 1]), a ∈ owneds (exRoot [2, 1])) ∧
    ∀ fuel, writeAsset exEnv fuel 7 (exRoot [2, 1]) = none := by
  refine ⟨typedB_ok exEnv exHeap 20 _ _ (by decide +kernel), by decide, by decide, fun fuel => ?_⟩
  rcases fuel with _ | _ | _ | _ | _ | _ | _ | _ | _ | _ | _ | _ | fuel <;> rfl

/-- An outer object at 1 that holds the node at 2, and a pointer to the latter. -/
def exPair : Val := .struct [.owned 1 (.struct [.owned 2 (.struct [.num 7, .str []])]), .ptr 2]

/-- The types of what is there. -/
def exPairHeap : Addr → T := fun a => if a = 1 then 8 else 2

/-- **C57 fails when an object begins with another one it owns**: both have the same offset in the file,
the link to the inner one is taken for one to the outer one, and loading what was saved fails the assertion
on its type (reflect/PersistReadObject.cpp:176). -/
theorem C57_nested_owner_asserts : HasType exEnv exPairHeap 10 exPair ∧ (owneds exPair).Nodup ∧
    (∀ a ∈ ptrs exPair, a ∈ owneds exPair) ∧ (firsts (ptrs exPair)).Sublist (owneds exPair) ∧
    ∃ bytes, writeAsset exEnv 20 10 exPair = some bytes ∧ ∀ fuel next, readAsset exEnv fuel 10 next bytes = none := by
  refine ⟨typedB_ok exEnv exPairHeap 20 _ _ (by decide +kernel), by decide, by decide, by decide, _, rfl,
    fun fuel next => ?_⟩
  rcases fuel with _ | _ | _ | _ | _ | _ | _ | _ | _ | _ | _ | _ | _ | _ | _ | _ | _ | _ | _ | _ | fuel <;> rfl

/-- Two empty objects, at 1 and 2, and a pointer to the second. -/
def exThree : Val := .struct [.owned 1 (.struct []), .owned 2 (.struct []), .ptr 2]

/-- **C57 fails for empty objects**: a pointer to the second of two comes back as one to the first. -/
theorem C57_empty_object_confused : HasType exEnv (fun _ => 11) 14 exThree ∧ (owneds exThree).Nodup ∧
    (∀ a ∈ ptrs exThree, a ∈ owneds exThree) ∧ (firsts (ptrs exThree)).Sublist (owneds exThree) ∧
    ∃ bytes, writeAsset exEnv 20 14 exThree = some bytes ∧ readAsset exEnv 40 14 50 bytes =
      some (.struct [.owned 50 (.struct []), .owned 51 (.struct []), .ptr 50], []) := by
  exact ⟨typedB_ok exEnv _ 20 _ _ (by decide +kernel), by decide, by decide, by decide, _, rfl, rfl⟩

end Verif.Persist
