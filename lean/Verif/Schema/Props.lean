import Verif.Schema.Lemmas
/-!
# Type schemas — property C41
-/
namespace Verif.Schema
open Spec

theorem at_refOf {types : T → Kind} {ts : List T} {c : T} (h : Met types ts c) :
    At types ts c (refOf types [] ts c) := by
  unfold refOf reg
  cases hk : types c with
  | prim k l =>
    cases l with
    | true => exact .inl ⟨k, hk, rfl⟩
    | false =>
      refine .inr ⟨by rw [hk]; simp, ts.idxOf c, ?_, by simp⟩
      rcases h with h | h
      · rw [hk] at h; cases h
      · exact getElem?_idxOf h
  | _ =>
    refine .inr ⟨by rw [hk]; simp, ts.idxOf c, ?_, by simp⟩
    rcases h with h | h
    · rw [hk] at h; cases h
    · exact getElem?_idxOf h

/-- What is read for a list of types. -/
structure Good (types : T → Kind) (ts : List T) (slots : List (Option Desc))
    (loose : T → T → Prop) : Prop where
  /-- One format for each type. -/
  nodup : ts.Nodup
  len : slots.length = ts.length
  /-- Which says what the type says; only mentioned types for which this is allowed may be missing. -/
  slot : ∀ (i : Nat) (t : T), ts[i]? = some t → ∃ d f, slots[i]? = some (some d) ∧
    format f (types t) = some d ∧ ∀ c ∈ parts (types t), At types ts c (f c) ∨ (f c = .null ∧ loose c t)

/-- **C41**: for any finite collection of types, recursive or not, in which no switch is reached from one of
its states, writing the schema of some of them succeeds; and reading it consumes exactly what was written
and gives one format for each type met, of the same kind and with the same names, counts and sharing, except
that a mentioned type may come back null if the type mentioning it is reached from it.  Ids found when
writing are good for looking up formats after reading. -/
theorem C41_schema_partial (types : T → Kind) (u roots : List T) (hc : Closed types u)
    (hsw : SwitchesEnd types u) (hr : ∀ t ∈ roots, t ∈ u) (fuel : Nat) (hf : u.length ≤ fuel) :
    ∃ w ts slots, addAll types fuel roots (start types) = some w ∧
      (∀ t ∈ ts, t ∈ u) ∧ Good types ts slots (Reaches types) ∧
      (∀ rest, ∃ k, ∀ f n, k ≤ f → k ≤ n →
        readSchema f n ⟨[], (endSchema w).out ++ rest⟩ = some ⟨slots, rest⟩) ∧
      ∀ t ∈ roots, ∃ id r, getId w t = some id ∧ getFormatDesc slots id = some r ∧ At types ts t r := by
  obtain ⟨w, bs, ts, h1, h2, h3, h4, h5⟩ := all_ok hc hsw hf roots (start types) [] hr (inv_start types u)
  rw [List.nil_append] at h3 h4
  have hs0 : Slots types [] [] [] := ⟨rfl, by simp, fun i t h => by simp at h⟩
  obtain ⟨slots, g1, g2⟩ := h5 [] hs0
  rw [List.nil_append, List.nil_append] at g1
  refine ⟨w, ts, slots, h1, h3.sub, ⟨h3.nodup, g1.len, fun i t hi => ?_⟩, fun rest => ?_, fun t ht => ?_⟩
  · rcases g1.slot i t hi with ⟨h, -⟩ | ⟨-, d, e1, op, e2, e3, e4⟩
    · cases h
    · refine ⟨d, _, e1, e4, fun c hcp => ?_⟩
      by_cases ho : refOf types op ts c = .null
      · refine .inr ⟨ho, e2 c ?_⟩
        unfold refOf at ho
        cases hreg : reg (types c) with
        | some k => rw [hreg] at ho; cases ho
        | none =>
          rw [hreg] at ho
          dsimp only at ho
          refine Classical.byContradiction fun hn => ?_
          rw [if_neg hn] at ho; cases ho
      · have : refOf types op ts c = refOf types [] ts c := by
          unfold refOf at ho ⊢
          cases hreg : reg (types c) with
          | some k => rfl
          | none =>
            rw [hreg] at ho
            dsimp only at ho ⊢
            by_cases hn : c ∈ op
            · rw [if_pos hn] at ho; exact absurd rfl ho
            · rw [if_neg hn, if_neg (by simp)]
        rw [this]
        exact .inl (at_refOf (e3 c hcp))
  · obtain ⟨k, hk⟩ := g2 rest
    refine ⟨k, fun f n hf hn => ?_⟩
    have := hk f n hf hn
    rw [List.nil_append] at this
    rw [← this]
    unfold endSchema W.emit
    dsimp only
    rw [h2]
    simp [start]
  · have hm := h4 t ht
    refine ⟨(reg (types t)).getD (1000 + ts.idxOf t), refOf types [] ts t, h3.ids t |>.trans ?_, ?_, at_refOf hm⟩
    · cases hreg : reg (types t) with
      | some k => rfl
      | none =>
        dsimp only
        rcases hm with hm | hm
        · rw [hreg] at hm; cases hm
        · rw [if_pos hm]; rfl
    · unfold getFormatDesc refOf
      cases hreg : reg (types t) with
      | some k =>
        dsimp only [Option.getD]
        have hk : 2 ≤ k ∧ k < 16 := by
          have hfit := hc.fits t (hr t ht)
          unfold reg at hreg
          split at hreg
          · rename_i heq
            rw [heq] at hfit
            simp only [Option.some.injEq] at hreg
            subst hreg
            exact ⟨hfit.1, hfit.2.1⟩
          · cases hreg
        rw [if_pos (by omega), if_pos hk.2, if_neg (by omega)]
      | none =>
        dsimp only [Option.getD]
        rcases hm with hm | hm
        · rw [hreg] at hm; cases hm
        rw [if_neg (by omega), Nat.add_sub_cancel_left, if_neg (by simp)]
        rcases g1.slot _ t (getElem?_idxOf hm) with ⟨h, -⟩ | ⟨-, d, e1, -⟩
        · cases h
        · rw [e1]

/-- **C41**: without recursion the formats read are exactly those of the types. -/
theorem C41_schema (types : T → Kind) (u roots : List T) (hc : Closed types u)
    (ha : Acyclic types u) (hr : ∀ t ∈ roots, t ∈ u) (fuel : Nat) (hf : u.length ≤ fuel) :
    ∃ w ts slots, addAll types fuel roots (start types) = some w ∧
      (∀ t ∈ ts, t ∈ u) ∧ Good types ts slots (fun _ _ => False) ∧
      (∀ rest, ∃ k, ∀ f n, k ≤ f → k ≤ n →
        readSchema f n ⟨[], (endSchema w).out ++ rest⟩ = some ⟨slots, rest⟩) ∧
      ∀ t ∈ roots, ∃ id r, getId w t = some id ∧ getFormatDesc slots id = some r ∧ At types ts t r := by
  obtain ⟨w, ts, slots, h1, h2, h3, h4⟩ := C41_schema_partial types u roots hc
    (fun t ht n ss hk s hs => ha t ht s.2 (by rw [hk, parts]; exact List.mem_map_of_mem hs)) hr fuel hf
  refine ⟨w, ts, slots, h1, h2, ⟨h3.nodup, h3.len, fun i t hi => ?_⟩, h4⟩
  obtain ⟨d, f, g1, g2, g3⟩ := h3.slot i t hi
  refine ⟨d, f, g1, g2, fun c hcp => ?_⟩
  rcases g3 c hcp with h | ⟨-, h⟩
  · exact .inl h
  · exact absurd h (ha t (h2 t (List.mem_of_getElem? hi)) c hcp)

/-! ## Recursion -/

/-- The formats a format refers to. -/
def Desc.refs : Desc → List Ref
  | .fixedArray _ r | .array r | .owned r | .rawPtr r => [r]
  | .struct _ ps ms => ps.map (·.2) ++ ms.map (·.2)
  | .enum .. => []
  | .enumArray i e => [i, e]
  | .switch _ ss => ss.map (·.2)

/-- From the format at an index one cannot go on for ever. -/
inductive Ends (slots : List (Option Desc)) : Ref → Prop
  | null : Ends slots .null
  | builtin {k} : Ends slots (.builtin k)
  | user {i : Nat} {d} : slots[i]? = some (some d) → (∀ r ∈ d.refs, Ends slots r) → Ends slots (.user i)

/-- Formats that are there stay. -/
def Keeps (a b : List (Option Desc)) : Prop :=
  ∀ (i : Nat) (d : Desc), a[i]? = some (some d) → b[i]? = some (some d)

theorem Ends.mono {a b : List (Option Desc)} (h : Keeps a b) {r : Ref} (hr : Ends a r) : Ends b r := by
  induction hr with
  | null => exact .null
  | builtin => exact .builtin
  | user h1 _ ih => exact .user (h _ _ h1) ih

theorem keeps_prefix {a b : List (Option Desc)} (h : a <+: b) : Keeps a b := by
  obtain ⟨t, rfl⟩ := h
  intro i d hi
  have hl : i < a.length := by
    refine Classical.byContradiction fun hn => ?_
    rw [List.getElem?_eq_none (by omega)] at hi; cases hi
  rw [List.getElem?_append_left hl, hi]

/-- All formats end. -/
def AllEnd (slots : List (Option Desc)) : Prop :=
  ∀ (i : Nat) (d : Desc), slots[i]? = some (some d) → Ends slots (.user i)

/-- `child` keeps what is there and adds only formats that end. -/
def ChildEnds (child : R → Option (Ref × R)) : Prop :=
  ∀ r ref r', child r = some (ref, r') → AllEnd r.slots →
    AllEnd r'.slots ∧ r.slots <+: r'.slots ∧ Ends r'.slots ref

theorem pairs_ends {child : R → Option (Ref × R)} (hc : ChildEnds child) (want : Option Nat) :
    ∀ (n : Nat) (r : R) (ds : List (List Byte × Ref)) (r' : R), readPairs child want n r = some (ds, r') →
      AllEnd r.slots → AllEnd r'.slots ∧ r.slots <+: r'.slots ∧ ∀ x ∈ ds.map (·.2), Ends r'.slots x
  | 0, r, ds, r', h, ha => by
    simp only [readPairs, Option.some.injEq, Prod.mk.injEq] at h
    obtain ⟨rfl, rfl⟩ := h
    exact ⟨ha, List.prefix_rfl, by simp⟩
  | n + 1, r, ds, r', h, ha => by
    rw [readPairs] at h
    split at h
    · cases h
    · split at h
      · cases h
      · rename_i h1
        obtain ⟨a1, a2, a3⟩ := hc _ _ _ h1 ha
        split at h
        · cases h
        · split at h
          · cases h
          · rename_i h2
            obtain ⟨b1, b2, b3⟩ := pairs_ends hc want n _ _ _ h2 a1
            simp only [Option.some.injEq, Prod.mk.injEq] at h
            obtain ⟨rfl, rfl⟩ := h
            refine ⟨b1, List.IsPrefix.trans a2 b2, fun x hx => ?_⟩
            rw [List.map_cons] at hx
            rcases List.mem_cons.mp hx with rfl | hx
            · exact a3.mono (keeps_prefix b2)
            · exact b3 x hx

theorem body_ends {child : R → Option (Ref × R)} (hc : ChildEnds child) (key : Nat) (r : R) (d : Desc) (r' : R)
    (h : readBody child key r = some (d, r')) (ha : AllEnd r.slots) :
    AllEnd r'.slots ∧ r.slots <+: r'.slots ∧ ∀ x ∈ d.refs, Ends r'.slots x := by
  unfold readBody at h
  repeat' split at h
  all_goals try (cases h; done)
  all_goals simp only [Option.some.injEq, Prod.mk.injEq] at h
  all_goals obtain ⟨rfl, rfl⟩ := h
  · rename_i h1
    obtain ⟨a1, a2, a3⟩ := hc _ _ _ h1 ha
    exact ⟨a1, a2, by simpa [Desc.refs] using a3⟩
  · rename_i h1
    obtain ⟨a1, a2, a3⟩ := hc _ _ _ h1 ha
    exact ⟨a1, a2, by simpa [Desc.refs] using a3⟩
  · rename_i h1
    obtain ⟨a1, a2, a3⟩ := hc _ _ _ h1 ha
    exact ⟨a1, a2, by simpa [Desc.refs] using a3⟩
  · rename_i h1
    obtain ⟨a1, a2, a3⟩ := hc _ _ _ h1 ha
    exact ⟨a1, a2, by simpa [Desc.refs] using a3⟩
  · rename_i h1 _ _ _ h2
    obtain ⟨a1, a2, a3⟩ := pairs_ends hc _ _ _ _ _ h1 ha
    obtain ⟨b1, b2, b3⟩ := pairs_ends hc _ _ _ _ _ h2 a1
    refine ⟨b1, List.IsPrefix.trans a2 b2, fun x hx => ?_⟩
    rw [Desc.refs] at hx
    rcases List.mem_append.mp hx with hx | hx
    · exact (a3 x hx).mono (keeps_prefix b2)
    · exact b3 x hx
  · exact ⟨ha, List.prefix_rfl, by simp [Desc.refs]⟩
  · rename_i h1 _ _ _ h2 _
    obtain ⟨a1, a2, a3⟩ := hc _ _ _ h1 ha
    obtain ⟨b1, b2, b3⟩ := hc _ _ _ h2 a1
    refine ⟨b1, List.IsPrefix.trans a2 b2, fun x hx => ?_⟩
    simp only [Desc.refs, List.mem_cons, List.not_mem_nil, or_false] at hx
    rcases hx with rfl | rfl
    · exact a3.mono (keeps_prefix b2)
    · exact b3
  · rename_i h1
    obtain ⟨a1, a2, a3⟩ := pairs_ends hc _ _ _ _ _ h1 ha
    exact ⟨a1, a2, a3⟩

theorem desc_ends : ∀ (fuel : Nat) (top : Bool), ChildEnds (readDesc fuel top)
  | 0, _ => fun _ _ _ h => by cases h
  | fuel + 1, top => by
    intro r ref r' h ha
    rw [readDesc] at h
    split at h
    · cases h
    split at h
    · split at h
      · simp only [Option.some.injEq, Prod.mk.injEq] at h
        obtain ⟨rfl, rfl⟩ := h
        exact ⟨ha, List.prefix_rfl, .null⟩
      · cases h
    split at h
    · split at h
      · cases h
      split at h
      · split at h
        · simp only [Option.some.injEq, Prod.mk.injEq] at h
          obtain ⟨rfl, rfl⟩ := h
          exact ⟨ha, List.prefix_rfl, .builtin⟩
        · cases h
      · split at h
        · cases h
        · simp only [Option.some.injEq, Prod.mk.injEq] at h
          obtain ⟨rfl, rfl⟩ := h
          exact ⟨ha, List.prefix_rfl, .null⟩
        · rename_i h1
          simp only [Option.some.injEq, Prod.mk.injEq] at h
          obtain ⟨rfl, rfl⟩ := h
          exact ⟨ha, List.prefix_rfl, ha _ _ h1⟩
    split at h
    · split at h
      · cases h
      · simp only [Option.some.injEq, Prod.mk.injEq] at h
        obtain ⟨rfl, rfl⟩ := h
        exact ⟨ha, List.prefix_rfl, .builtin⟩
    · split at h
      · cases h
      · rename_i d r1 h1
        simp only [Option.some.injEq, Prod.mk.injEq] at h
        obtain ⟨rfl, rfl⟩ := h
        have ha' : AllEnd (r.slots ++ [none]) := by
          intro i d hi
          have hl : i < r.slots.length := by
            refine Classical.byContradiction fun hn => ?_
            by_cases he : i = r.slots.length
            · subst he; simp at hi
            · rw [List.getElem?_eq_none (by simp; omega)] at hi; cases hi
          rw [List.getElem?_append_left hl] at hi
          exact (ha i d hi).mono (keeps_prefix (List.prefix_append _ _))
        obtain ⟨a1, ⟨more, a2⟩, a3⟩ := body_ends (desc_ends fuel false) _ _ _ _ h1 ha'
        dsimp only at a2 ⊢
        have hk : Keeps r1.slots (r1.slots.set r.slots.length (some d)) := by
          intro i d' hi
          have hne : r.slots.length ≠ i := by
            rintro rfl
            rw [← a2, List.getElem?_append_left (by simp)] at hi
            simp at hi
          rw [List.getElem?_set_ne hne, hi]
        have hget : (r1.slots.set r.slots.length (some d))[r.slots.length]? = some (some d) := by
          rw [← a2]; simp
        have hend : Ends (r1.slots.set r.slots.length (some d)) (.user r.slots.length) :=
          .user hget fun x hx => (a3 x hx).mono hk
        refine ⟨fun i d' hi => ?_, ⟨[some d] ++ more, ?_⟩, hend⟩
        · by_cases he : r.slots.length = i
          · rw [← he]; exact hend
          · rw [List.getElem?_set_ne he] at hi
            exact (a1 i d' hi).mono hk
        · rw [← a2]; simp

/-- **C41**: whatever bytes are read, no format that comes back refers to itself through others: reading
never gives a recursive schema. -/
theorem C41_never_recursive (fuel n : Nat) (input : List Byte) (r : R)
    (h : readSchema fuel n ⟨[], input⟩ = some r) (i : Nat) (d : Desc) (hd : r.slots[i]? = some (some d)) :
    Ends r.slots (.user i) := by
  have : ∀ (n : Nat) (r0 r : R), readSchema fuel n r0 = some r → AllEnd r0.slots → AllEnd r.slots := by
    intro n
    induction n with
    | zero => intro r0 r h; cases h
    | succ n ih =>
      intro r0 r h ha
      rw [readSchema] at h
      split at h
      · cases h
      · rename_i h1
        cases h
        exact (desc_ends fuel true _ _ _ h1 ha).1
      · rename_i h1
        exact ih _ _ h (desc_ends fuel true _ _ _ h1 ha).1
  exact this n _ r h (fun i d hi => by simp at hi) i d hd

/-- `Ends` does exclude going round: nothing that ends is on a cycle. -/
theorem Ends.no_cycle {slots : List (Option Desc)} {C : Nat → Prop}
    (hC : ∀ i, C i → ∀ d, slots[i]? = some (some d) → ∃ j, C j ∧ .user j ∈ d.refs) :
    ∀ {r : Ref}, Ends slots r → ∀ i, r = .user i → ¬C i := by
  intro r h
  induction h with
  | null => intro i h; cases h
  | builtin => intro i h; cases h
  | user h1 _ ih =>
    intro i he hi
    cases he
    obtain ⟨j, hj, hm⟩ := hC _ hi _ h1
    exact ih _ hm j rfl hj

theorem format_refs {f : T → Ref} {k : Kind} {d : Desc} (h : format f k = some d) :
    d.refs = (parts k).map f := by
  cases k <;> simp only [format, Option.some.injEq, reduceCtorEq] at h <;> subst h <;>
    simp [Desc.refs, parts, Function.comp_def]

/-- **C41** is false of every recursive type: if a type whose schema was written mentions, directly or not,
itself, then some mentioned type is missing from what is read. -/
theorem C41_recursion_lost (types : T → Kind) (ts : List T) (slots : List (Option Desc)) (t c : T)
    (ht : t ∈ ts) (hcp : c ∈ parts (types t)) (hrec : Reaches types c t)
    (fuel n : Nat) (input rest : List Byte) (hread : readSchema fuel n ⟨[], input⟩ = some ⟨slots, rest⟩) :
    ¬Good types ts slots (fun _ _ => False) := by
  intro hg
  -- the indices of the types on the way round
  obtain ⟨i, hi⟩ := List.getElem?_of_mem ht
  obtain ⟨d, f, h1, -, -⟩ := hg.slot i t hi
  have hend := C41_never_recursive fuel n input _ hread i d h1
  refine Ends.no_cycle (C := fun j => ∃ x, ts[j]? = some x ∧ ∃ y ∈ parts (types x), Reaches types y t)
    ?_ hend i rfl ⟨t, hi, c, hcp, hrec⟩
  rintro j ⟨x, hx, y, hy, hyt⟩ d hd
  obtain ⟨d', f, g1, g2, g3⟩ := hg.slot j x hx
  rw [hd] at g1
  cases g1
  -- from `y` one gets to `t`, and then on to `c`
  have hnext : ∃ z ∈ parts (types y), Reaches types z t := by
    have key : ∀ a b, Reaches types a b → a = b ∨ ∃ z ∈ parts (types a), Reaches types z b := by
      intro a b h
      induction h with
      | refl => exact .inl rfl
      | step h1 h2 ih =>
        rcases ih with rfl | ⟨z, hz, hzb⟩
        · exact .inr ⟨_, h2, .refl⟩
        · exact .inr ⟨z, hz, hzb.step h2⟩
    rcases key y t hyt with rfl | h
    · exact ⟨c, hcp, hrec⟩
    · exact h
  rcases g3 y hy with (⟨k, hk, -⟩ | ⟨-, l, hl, hfl⟩) | ⟨-, h⟩
  · obtain ⟨z, hz, -⟩ := hnext
    rw [hk] at hz
    cases hz
  · refine ⟨l, ⟨y, hl, hnext⟩, ?_⟩
    rw [format_refs g2, ← hfl]
    exact List.mem_map_of_mem hy
  · exact h.elim

/-! ## Concrete cases -/

/-- `struct P { u32 x; Array<E> es; Array<E> fs; }`, `enum E { A, B }`, `AnyOwnedObject`,
`struct N { Owned<N> next; }`, `struct S { Owned<W> w; }`, `switch W { S }`,
`struct Q { AnyOwnedObject a; E e; }`. -/
def exTypes : T → Kind
  | 0 => .prim 9 true
  | 1 => .struct [80] [] [([120], 0), ([101], 2), ([102], 2)]
  | 2 => .array 3
  | 3 => .enum [69] 1 [[65], [66]]
  | 4 => .prim 15 false
  | 5 => .struct [78] [] [([110], 6)]
  | 6 => .owned 5
  | 7 => .struct [83] [] [([119], 8)]
  | 8 => .owned 9
  | 9 => .switch [87] [([115], 7)]
  | 10 => .struct [81] [] [([97], 4), ([98], 3), ([99], 3)]
  | _ => .other

theorem reaches_down {types : T → Kind} {rank : T → Nat}
    (h : ∀ t, ∀ c ∈ parts (types t), rank c < rank t) {a b : T} (hr : Reaches types a b) : rank b ≤ rank a := by
  induction hr with
  | refl => exact Nat.le_refl _
  | step _ h2 ih => exact Nat.le_trans (Nat.le_of_lt (h _ _ h2)) ih

/-- The hypotheses of `C41_schema` are met by `P`. -/
example : Closed (fun t => if t < 4 then exTypes t else .other) [0, 1, 2, 3] ∧
    Acyclic (fun t => if t < 4 then exTypes t else .other) [0, 1, 2, 3] := by
  constructor
  · refine ⟨by decide, ?_, ?_, ?_⟩
    · simp [exTypes, parts]
    · simp [exTypes, Fits]
      grind
    · simp [exTypes, Typed]
  · intro t ht c hc hr
    have := reaches_down (rank := fun t => if t = 1 then 9 else if t = 2 then 5 else 0) (by
      intro t c hc
      rcases t with _ | _ | _ | _ | t
      · simp [exTypes, parts] at hc
      · simp [exTypes, parts] at hc; rcases hc with rfl | rfl <;> decide
      · simp [exTypes, parts] at hc; subst hc; decide
      · simp [exTypes, parts] at hc
      · have : ¬(t + 1 + 1 + 1 + 1 : Nat) < 4 := by omega
        rw [if_neg this] at hc; cases hc) hr
    simp only [List.mem_cons, List.not_mem_nil, or_false] at ht
    rcases ht with rfl | rfl | rfl | rfl
    · simp [exTypes, parts] at hc
    · simp [exTypes, parts] at hc; rcases hc with rfl | rfl <;> simp at this
    · simp [exTypes, parts] at hc; subst hc; simp at this
    · simp [exTypes, parts] at hc

/-- Write the schema of some types and read it. -/
def throughFile (roots : List T) (fuel : Nat) : Option R :=
  match addAll exTypes fuel roots (start exTypes) with
  | none => none
  | some w => readSchema fuel fuel ⟨[], (endSchema w).out ++ [7, 7]⟩

/-- `P` comes back, with both arrays shared. -/
example : throughFile [1, 2, 0] 9 = some ⟨[
    some (.struct [80] [] [([120], .builtin 9), ([101], .user 1), ([102], .user 1)]),
    some (.array (.user 2)), some (.enum [69] 1 [[65], [66]])], [7, 7]⟩ := by decide +kernel

/-- **C41** is false of a list node: the node's next comes back as a pointer to nothing. -/
theorem C41_list_node : throughFile [5] 9 = some ⟨[
    some (.struct [78] [] [([110], .user 1)]), some (.owned .null)], [7, 7]⟩ := by decide +kernel

/-- What is written for some types. -/
def written (roots : List T) : Option (List Byte) := (addAll exTypes 20 roots (start exTypes)).map (endSchema · |>.out)

/-- **C41** is false of a switch with a state that leads back to it: reading looks into a null format. -/
theorem C41_switch_crash : ∃ bs, written [7] = some bs ∧ ∀ f n, readSchema f n ⟨[], bs⟩ = none := by
  refine ⟨[20, 1, 0, 0, 0, 83, 0, 0, 1, 0, 1, 0, 0, 0, 119, 18, 23, 1, 0, 0, 0, 87, 1, 0, 1, 0, 0, 0, 115,
    1, 232, 3, 0, 0, 0], by decide +kernel, fun f n => ?_⟩
  cases n with
  | zero => rfl
  | succ n =>
    rcases f with _ | _ | _ | _ | f <;> rfl

/-- **C41** is false of structs with an `AnyOwnedObject`: writing gives it an id, reading does not, so later
references are off by one: the member `c`, an enum, is read from beyond the formats there are. -/
theorem C41_any_owned : ∃ bs, written [10] = some bs ∧ ∀ f n, readSchema f n ⟨[], bs⟩ = none := by
  refine ⟨[20, 1, 0, 0, 0, 81, 0, 0, 3, 0, 1, 0, 0, 0, 97, 15, 1, 0, 0, 0, 98, 21, 1, 0, 0, 0, 69, 1, 2, 0, 0, 0,
    1, 0, 0, 0, 65, 1, 0, 0, 0, 66, 1, 0, 0, 0, 99, 1, 234, 3, 0, 0, 0], by decide +kernel, fun f n => ?_⟩
  cases n with
  | zero => rfl
  | succ n =>
    rcases f with _ | _ | _ | _ | f <;> rfl

end Verif.Schema
