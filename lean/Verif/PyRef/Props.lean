import Verif.PyRef.Lemmas
import Verif.Num.PropsReal
import Verif.Pylon.Props
/-!
# Exporting and importing — theorems (property C69)
-/
namespace Verif.PyRef
open Verif Schema

/-! ## A concrete set of types

`0` is a struct of a string, an array of bools, a switch, an enum and a pointer to a string. -/

/-- For the examples. -/
def exKind : T → Kind
  | 0 => .struct [83] [] [([110], 1), ([108], 2), ([109], 4), ([107], 5), ([112], 6)]
  | 1 => .prim 13 false
  | 2 => .array 3
  | 3 => .prim 2 false
  | 4 => .switch [87] [([111], 1), ([116], 3)]
  | 5 => .enum [69] 1 [[97], [98]]
  | 6 => .owned 1
  | 7 => .prim 7 false
  | 8 => .fixedArray 2 1
  | _ => .prim 9 false

/-- For the examples. -/
def exVals : T → List Nat
  | 5 => [0, 5]
  | _ => []

/-- For the examples. -/
def exDflt : T → Val
  | 0 => .struct [.str [], .items [], .switch 0 (.str []), .enum 0, .null]
  | 1 => .str []
  | 2 => .items []
  | 3 => .bool false
  | 4 => .switch 0 (.str [])
  | 5 => .enum 0
  | 6 => .null
  | 7 => .int 0
  | 8 => .items [.str [], .str []]
  | _ => .int 0

/-- For the examples; arithmetic is exact. -/
def exEnv : Env := ⟨exKind, exVals, exDflt, ⟨fun x => x, fun _ _ => 1⟩, fun x => x⟩

/-- For the examples. -/
def exVal : Val :=
  .struct [.str [104, 105], .items [.bool true, .bool false], .switch 1 (.bool true), .enum 5, .owned (.str [120])]

theorem exVal_saves : Saves exEnv Pylon.Spec.GoodText 0 exVal := by
  have g : ∀ s : List Byte, (∀ c ∈ s, 32 ≤ c.toNat ∧ c.toNat < 128) → Pylon.Spec.GoodText s := by
    intro s h
    refine ⟨Esc.noOverlong_ascii _ fun c hc => (h c hc).2, fun c hc => ⟨.inl (h c hc).1, ?_⟩⟩
    rintro rfl
    exact absurd (h _ hc).2 (by decide)
  refine .struct (name := [83]) (ps := []) (ms := [([110], 1), ([108], 2), ([109], 4), ([107], 5), ([112], 6)])
    rfl rfl (by decide) ?_ ?_
  · intro m hm
    simp only [List.mem_cons, List.not_mem_nil, or_false] at hm
    rcases hm with rfl | rfl | rfl | rfl | rfl <;> exact g _ (by decide)
  · intro i m v hm hv
    match i, hm, hv with
    | 0, hm, hv => cases hm; cases hv; exact .str (l := false) rfl (g _ (by decide))
    | 1, hm, hv =>
      cases hm; cases hv
      refine .array (item := 3) rfl ?_
      intro v hv
      simp only [List.mem_cons, List.not_mem_nil, or_false] at hv
      rcases hv with rfl | rfl <;> exact .bool (l := false) rfl
    | 2, hm, hv =>
      cases hm; cases hv
      exact .switch (name := [87]) (ss := [([111], 1), ([116], 3)]) (s := ([116], 3)) rfl (by decide) rfl
        (g _ (by decide)) (.bool (l := false) rfl)
    | 3, hm, hv =>
      cases hm; cases hv
      refine .enum (name := [69]) (size := 1) (ids := [[97], [98]]) rfl (by decide) (by decide) rfl (by decide)
        (by decide) ?_
      intro i hi
      simp only [List.mem_cons, List.not_mem_nil, or_false] at hi
      rcases hi with rfl | rfl <;> exact g _ (by decide)
    | 4, hm, hv =>
      cases hm; cases hv
      exact .owned (target := 1) rfl (.str (l := false) rfl (g _ (by decide)))
    | n + 5, hm, hv => cases hm

theorem exEnv_defaults : DefaultsFit exEnv := by
  intro t v _
  have h1 : Fits exEnv 1 (.str []) := .str (l := false) rfl
  have h4 : Fits exEnv 4 (.switch 0 (.str [])) :=
    .switch (name := [87]) (ss := [([111], 1), ([116], 3)]) (s := ([111], 1)) rfl rfl h1
  have h2 : Fits exEnv 2 (.items []) := .array (item := 3) rfl (by simp)
  have h5 : Fits exEnv 5 (.enum 0) := .enum (name := [69]) (size := 1) (ids := [[97], [98]]) rfl (by decide)
  have h6 : Fits exEnv 6 .null := .null (target := 1) rfl
  match t with
  | 0 =>
    refine .struct (name := [83]) (ps := [])
      (ms := [([110], 1), ([108], 2), ([109], 4), ([107], 5), ([112], 6)]) rfl rfl ?_
    intro i m v hm hv
    match i, hm, hv with
    | 0, hm, hv => cases hm; cases hv; exact h1
    | 1, hm, hv => cases hm; cases hv; exact h2
    | 2, hm, hv => cases hm; cases hv; exact h4
    | 3, hm, hv => cases hm; cases hv; exact h5
    | 4, hm, hv => cases hm; cases hv; exact h6
    | n + 5, hm, hv => cases hm
  | 1 => exact h1
  | 2 => exact h2
  | 3 => exact .bool (l := false) rfl
  | 4 => exact h4
  | 5 => exact h5
  | 6 => exact h6
  | 7 => exact .int (key := 7) (l := false) rfl (by decide) (by decide) (by decide) (by unfold InRange; decide)
  | 8 =>
    refine .fixedArray (k := 2) (item := 1) rfl rfl ?_
    intro v hv
    simp only [List.mem_cons, List.not_mem_nil, or_false] at hv
    rcases hv with rfl | rfl <;> exact h1
  | n + 9 => exact .int (key := 9) (l := false) rfl (by decide) (by decide) (by decide) (by unfold InRange; decide)

/-! ## Round trips -/

/-- **C69**: contents made of structs, strings, bools, arrays, switches, named enum values and non-null
pointers are exported to a tree, and importing this tree gives the contents back — into a new object, and
into any object of the type, whatever it held before.  (Numbers cannot be exported, see
`C69_numbers_not_exported`, hence partial.) -/
theorem C69_roundtrip_partial (env : Env) (hd : DefaultsFit env) (P : List Byte → Prop) (t : T) (v : Val)
    (h : Saves env P t v) :
    ∃ N n, ∀ fuel, N ≤ fuel → exportObj env fuel t v = some n ∧ importNew env fuel t n = some v ∧
      ∀ old, Fits env t old → importInto env fuel t old n = some v := by
  obtain ⟨N, n, h1, _⟩ := saves_back hd h
  exact ⟨N, n, fun fuel hf => ⟨h1.1 fuel hf, h1.2 _ (hd _ _ h.fits) fuel hf,
    fun old ho => h1.2 old ho fuel hf⟩⟩

example : ∃ N n, ∀ fuel, N ≤ fuel → exportObj exEnv fuel 0 exVal = some n ∧
    importNew exEnv fuel 0 n = some exVal ∧
    ∀ old, Fits exEnv 0 old → importInto exEnv fuel 0 old n = some exVal :=
  C69_roundtrip_partial exEnv exEnv_defaults _ 0 exVal exVal_saves

/-- What the example is exported to. -/
example : exportObj exEnv 3 0 exVal = some (.obj [([110], .text [104, 105]),
    ([108], .arr [.text [116, 114, 117, 101], .text [102, 97, 108, 115, 101]]),
    ([109], .obj [([116], .text [116, 114, 117, 101])]), ([107], .text [98]), ([112], .text [120])]) := rfl

/-- **C69**: the same through a file: the text of the exported tree parses to the tree that imports to the
contents. -/
theorem C69_file_partial (env : Env) (hd : DefaultsFit env) (t : T) (v : Val)
    (h : Saves env Pylon.Spec.GoodText t v) :
    ∃ N n s, Pylon.write 0 n = some s ∧ Pylon.parse s = .tree n ∧ ∀ fuel, N ≤ fuel →
      exportObj env fuel t v = some n ∧ importNew env fuel t n = some v ∧
      ∀ old, Fits env t old → importInto env fuel t old n = some v := by
  obtain ⟨N, n, h1, h2⟩ := saves_back hd h
  obtain ⟨s, h3, h4⟩ := Pylon.C34_roundtrip_partial n (h2 fun _ h => h)
  exact ⟨N, n, s, h3, h4, fun fuel hf => ⟨h1.1 fuel hf, h1.2 _ (hd _ _ h.fits) fuel hf,
    fun old ho => h1.2 old ho fuel hf⟩⟩

example : ∃ N n s, Pylon.write 0 n = some s ∧ Pylon.parse s = .tree n ∧ ∀ fuel, N ≤ fuel →
    exportObj exEnv fuel 0 exVal = some n ∧ importNew exEnv fuel 0 n = some exVal ∧
    ∀ old, Fits exEnv 0 old → importInto exEnv fuel 0 old n = some exVal :=
  C69_file_partial exEnv exEnv_defaults 0 exVal exVal_saves

/-- **C69**: different contents are exported to different trees. -/
theorem C69_injective (env : Env) (hd : DefaultsFit env) (P : List Byte → Prop) (t : T) (v w : Val)
    (hv : Saves env P t v) (hw : Saves env P t w)
    (h : ∀ fuel, exportObj env fuel t v = exportObj env fuel t w) : v = w := by
  obtain ⟨N, n, h1, _⟩ := saves_back hd hv
  obtain ⟨M, m, h2, _⟩ := saves_back hd hw
  have e := h (max N M)
  rw [h1.1 _ (Nat.le_max_left _ _), h2.1 _ (Nat.le_max_right _ _)] at e
  cases e
  have a := h1.2 _ hv.fits _ (Nat.le_max_left N M)
  have b := h2.2 _ hv.fits _ (Nat.le_max_right N M)
  rw [a] at b
  cases b
  rfl

/-! ## What cannot be exported -/

/-- Numbers (all sizes, `float` and `double`), arrays of fixed size and arrays indexed by an enum are never
exported: the code asserts.  Importing them works (`C69_integer`), so an object with such a member can be read from a
file but not be written to one. -/
theorem C69_numbers_not_exported (env : Env) (fuel : Nat) (t : T) (v : Val)
    (h : (∃ key l, env.kind t = .prim key l ∧ key ≠ 2 ∧ key ≠ 13) ∨ (∃ k item, env.kind t = .fixedArray k item) ∨
      ∃ item e, env.kind t = .enumArray item e) : exportObj env fuel t v = none := by
  cases fuel with
  | zero => rfl
  | succ fuel =>
    rw [exportObj.eq_def]
    dsimp only
    rcases h with ⟨key, l, hk, h2, h3⟩ | ⟨k, item, hk⟩ | ⟨item, e, hk⟩
    · rw [hk]; cases v <;> simp [h2, h3]
    · rw [hk]
    · rw [hk]

example : exportObj exEnv 5 7 (.int 3) = none ∧ exportObj exEnv 5 8 (.items [.str [97], .str [98]]) = none :=
  ⟨rfl, rfl⟩

/-- A null pointer is followed. -/
theorem C69_null_not_exported (env : Env) (fuel : Nat) (t target : T) (hk : env.kind t = .owned target) :
    exportObj env fuel t .null = none := by
  cases fuel with
  | zero => rfl
  | succ fuel => rw [exportObj.eq_def]; dsimp only; rw [hk]

example : exportObj exEnv 5 0 (exDflt 0) = none := rfl

/-- An enum value that no identifier has makes the code follow a null pointer. -/
theorem C69_unnamed_value (env : Env) (fuel : Nat) (t : T) (name : List Byte) (size n : Nat)
    (ids : List (List Byte)) (hk : env.kind t = .enum name size ids) (h : n ∉ env.vals t) :
    exportObj env fuel t (.enum n) = none := by
  cases fuel with
  | zero => rfl
  | succ fuel =>
    rw [exportObj.eq_def]; dsimp only; rw [hk]
    dsimp only
    have : ∀ (vs : List Nat) (is : List (List Byte)), n ∉ vs → findValue vs is n = none := by
      intro vs
      induction vs with
      | nil => intro is _; cases is <;> rfl
      | cons v vs ih =>
        intro is hn
        cases is with
        | nil => rfl
        | cons i is =>
          rw [findValue, if_neg, ih is (fun h => hn (by simp [h]))]
          rintro rfl
          exact hn (by simp)
    rw [this _ _ h]
    split <;> rfl

example : exportObj exEnv 5 5 (.enum 3) = none := rfl

/-! ## Importing -/

theorem importItems_fits {env : Env} {item : T} (child : Val → Pylon.Node → Option Val)
    (hc : ∀ o n w, Fits env item o → child o n = some w → Fits env item w) :
    ∀ (vs : List Val) (ns : List Pylon.Node) (ws : List Val), (∀ v, v ∈ vs → Fits env item v) →
      importItems child vs ns = some ws → ws.length = vs.length ∧ ∀ w, w ∈ ws → Fits env item w := by
  intro vs
  induction vs with
  | nil => intro ns ws _ h; rw [importItems] at h; cases h; simp
  | cons v vs ih =>
    intro ns ws hv h
    cases ns with
    | nil => rw [importItems] at h; cases h
    | cons n ns =>
      rw [importItems] at h
      cases h1 : child v n with
      | none => rw [h1] at h; cases h
      | some w =>
        cases h2 : importItems child vs ns with
        | none => rw [h1, h2] at h; cases h
        | some ws' =>
          rw [h1, h2] at h
          cases h
          obtain ⟨a, b⟩ := ih ns ws' (fun v hv' => hv v (by simp [hv'])) h2
          refine ⟨by simp [a], ?_⟩
          intro x hx
          rcases List.mem_cons.1 hx with rfl | hx
          · exact hc v n _ (hv v (by simp)) h1
          · exact b x hx

theorem importFields_get (child : T → Val → Pylon.Node → Option Val) (props : List (List Byte × Pylon.Node)) :
    ∀ (ms : List (List Byte × T)) (vs ws : List Val), importFields child props ms vs = some ws →
      vs.length = ms.length ∧ ws.length = ms.length ∧
      ∀ (i : Nat) (m : List Byte × T) v, ms[i]? = some m → vs[i]? = some v →
        (getProp m.1 props = none → ws[i]? = some v) ∧
        ∀ n, getProp m.1 props = some n → ∃ w, ws[i]? = some w ∧ child m.2 v n = some w := by
  intro ms
  induction ms with
  | nil =>
    intro vs ws h
    cases vs with
    | nil => rw [importFields] at h; cases h; exact ⟨rfl, rfl, by simp⟩
    | cons v vs => simp [importFields] at h
  | cons m ms ih =>
    intro vs ws h
    cases vs with
    | nil => simp [importFields] at h
    | cons v vs =>
      rw [importFields] at h
      have key : ∃ w ws', importFields child props ms vs = some ws' ∧ ws = w :: ws' ∧
          (getProp m.1 props = none → w = v) ∧ ∀ n, getProp m.1 props = some n → child m.2 v n = some w := by
        cases hg : getProp m.1 props with
        | none =>
          rw [hg] at h
          dsimp only at h
          cases h1 : importFields child props ms vs with
          | none => rw [h1] at h; cases h
          | some ws' => rw [h1] at h; cases h; exact ⟨v, ws', rfl, rfl, fun _ => rfl, by simp⟩
        | some n =>
          rw [hg] at h
          dsimp only at h
          cases h2 : child m.2 v n with
          | none => rw [h2] at h; cases h
          | some w =>
            rw [h2] at h
            dsimp only at h
            cases h1 : importFields child props ms vs with
            | none => rw [h1] at h; cases h
            | some ws' =>
              rw [h1] at h; cases h
              refine ⟨w, ws', rfl, rfl, by simp, ?_⟩
              intro n' hn'; cases hn'; exact h2
      obtain ⟨w, ws', h1, rfl, h3, h4⟩ := key
      obtain ⟨a, b, c⟩ := ih vs ws' h1
      refine ⟨by simp [a], by simp [b], ?_⟩
      intro i m' v' hm hv
      cases i with
      | zero =>
        simp at hm hv
        subst hm; subst hv
        exact ⟨fun hn => by simp [h3 hn], fun n hn => ⟨w, rfl, h4 n hn⟩⟩
      | succ i => exact c i m' v' hm hv

theorem importEnumItems_fits {env : Env} {item : T} (child : Val → Pylon.Node → Option Val)
    (props : List (List Byte × Pylon.Node))
    (hc : ∀ o n w, Fits env item o → child o n = some w → Fits env item w) :
    ∀ (is : List (List Byte)) (ns : List Nat) (vs ws : List Val), (∀ v, v ∈ vs → Fits env item v) →
      importEnumItems child props is ns vs = some ws →
      ws.length = vs.length ∧ ∀ w, w ∈ ws → Fits env item w := by
  intro is
  induction is with
  | nil => intro ns vs ws hv h; rw [importEnumItems] at h; cases h; exact ⟨rfl, hv⟩; simp
  | cons i is ih =>
    intro ns vs ws hv h
    cases ns with
    | nil => rw [importEnumItems] at h; cases h; exact ⟨rfl, hv⟩; simp
    | cons n ns =>
      rw [importEnumItems] at h
      cases hg : getProp i props with
      | none => rw [hg] at h; exact ih ns vs ws hv h
      | some node =>
        rw [hg] at h
        dsimp only at h
        cases h1 : vs[n]? with
        | none => rw [h1] at h; cases h
        | some v =>
          rw [h1] at h
          dsimp only at h
          cases h2 : child v node with
          | none => rw [h2] at h; cases h
          | some w =>
            rw [h2] at h
            dsimp only at h
            have := ih ns (vs.set n w) ws (by
              intro x hx
              rcases List.mem_or_eq_of_mem_set hx with hx | rfl
              · exact hv x hx
              · exact hc v node _ (hv v (List.mem_of_getElem? h1)) h2) h
            simpa using this

theorem findState_some (ss : List (List Byte × T)) (name : List Byte) (id : Nat) (st : T)
    (h : findState ss name = some (id, st)) : ss[id]? = some (name, st) := by
  induction ss generalizing id with
  | nil => cases h
  | cons s ss ih =>
    rw [findState] at h
    split at h
    · rename_i he
      cases h
      rw [← he]
      rfl
    · cases h1 : findState ss name with
      | none => rw [h1] at h; cases h
      | some r =>
        rw [h1] at h
        obtain ⟨a, b⟩ := r
        cases h
        exact ih a h1

theorem toInt_range {lo hi z : Int} {x : Rat} (h : toInt lo hi x = some z) : lo ≤ z ∧ z ≤ hi := by
  unfold toInt at h
  dsimp only at h
  generalize (if 0 ≤ x then x.floor else x.ceil) = n at h
  by_cases hb : lo ≤ n ∧ n ≤ hi
  · rw [if_pos hb] at h; cases h; exact hb
  · rw [if_neg hb] at h; cases h

theorem importPrim_fits {env : Env} {t : T} {key : Nat} {l : Bool} (hk : env.kind t = .prim key l) (old w : Val)
    (n : Pylon.Node) (ho : Fits env t old) (h : importPrim env key old n = some w) : Fits env t w := by
  unfold importPrim at h
  split at h
  · rename_i he
    subst he
    cases h1 : numeric env.arith n with
    | none => rw [h1] at h; cases h
    | some x => rw [h1] at h; cases h; exact .real hk
  · split at h
    · rename_i he
      subst he
      split at h <;> cases h <;> exact .bool hk
    · split at h
      · rename_i he
        subst he
        split at h
        · cases h; exact .str hk
        · cases h; exact ho
      · rename_i h11 h2 h13
        cases hi : intLimits key with
        | none => rw [hi] at h; cases h
        | some r =>
          obtain ⟨lo, hi'⟩ := r
          rw [hi] at h
          dsimp only at h
          cases h1 : numeric env.arith n with
          | none => rw [h1] at h; cases h
          | some x =>
            rw [h1] at h
            dsimp only at h
            cases h3 : toInt lo hi' x with
            | none => rw [h3] at h; cases h
            | some z =>
              rw [h3] at h
              cases h
              refine .int hk h2 h13 h11 ?_
              have hb := toInt_range h3
              unfold intLimits at hi
              unfold InRange
              split at hi <;> cases hi <;> refine ⟨?_, ?_, ?_, ?_⟩ <;> intro he <;> omega

/-- **C69**: whatever the tree says, an import that comes through leaves contents that belong to the type:
numbers in range, fixed arrays of their size, enums and switches in one of their states. -/
theorem C69_import_fits (env : Env) (hc : Constructs env) (fuel : Nat) (t : T) (old w : Val) (n : Pylon.Node)
    (ho : Fits env t old) (h : importInto env fuel t old n = some w) : Fits env t w := by
  induction fuel generalizing t old w n with
  | zero => cases h
  | succ fuel ih =>
    rw [importInto.eq_def] at h
    dsimp only at h
    split at h
    · rename_i hk
      obtain ⟨os, e, hl, hos⟩ := ho.struct_inv hk
      cases e
      rename_i ms vs props
      cases h1 : importFields (importInto env fuel) props ms vs with
      | none => rw [h1] at h; cases h
      | some ws =>
        rw [h1] at h
        cases h
        obtain ⟨_, a, b⟩ := importFields_get _ props ms vs ws h1
        refine .struct hk a ?_
        intro i m v hm hv
        obtain ⟨hi, _⟩ := List.getElem?_eq_some_iff.1 hm
        have hvi : vs[i]? = some vs[i] := List.getElem?_eq_getElem (by omega)
        have := b i m _ hm hvi
        cases hg : getProp m.1 props with
        | none =>
          rw [this.1 hg] at hv
          cases hv
          exact hos i m _ hm hvi
        | some n =>
          obtain ⟨w, hw1, hw2⟩ := this.2 n hg
          rw [hw1] at hv
          cases hv
          exact ih _ _ _ _ (hos i m _ hm hvi) hw2
    · rename_i hk
      exact importPrim_fits hk _ _ _ ho h
    · rename_i hk
      split at h
      · rename_i hl
        rename_i item vs ns
        have hv : ∀ v, v ∈ vs → Fits env item v := by
          cases ho with
          | fixedArray h' _ h2 => rw [hk] at h'; cases h'; exact h2
          | _ => simp_all
        cases h1 : importItems (importInto env fuel item) vs ns with
        | none => rw [h1] at h; cases h
        | some ws =>
          rw [h1] at h
          cases h
          obtain ⟨a, b⟩ := importItems_fits _ (fun o n w ho hw => ih item o w n ho hw) vs ns ws hv h1
          exact .fixedArray hk (by rw [a, hl]) b
      · cases h
    · rename_i hk
      rename_i item vs ns
      have hv : ∀ v, v ∈ vs → Fits env item v := by
        cases ho with
        | array h' h2 => rw [hk] at h'; cases h'; exact h2
        | _ => simp_all
      cases h1 : importItems (importInto env fuel item) (resize (env.dflt item) vs ns.length) ns with
      | none => rw [h1] at h; cases h
      | some ws =>
        rw [h1] at h
        cases h
        exact .array hk (importItems_fits _ (fun o n w ho hw => ih item o w n ho hw) _ ns ws
          (resize_fits _ hv (hc.items t item hk)) h1).2
    · rename_i hk
      rename_i item e vs props
      have hv : ∀ v, v ∈ vs → Fits env item v := by
        cases ho with
        | enumArray h' h2 => rw [hk] at h'; cases h'; exact h2
        | _ => simp_all
      split at h
      · rename_i ids _
        cases h1 : importEnumItems (importInto env fuel item) props ids (env.vals e) vs with
        | none => rw [h1] at h; cases h
        | some ws =>
          rw [h1] at h
          cases h
          exact .enumArray hk (importEnumItems_fits _ props (fun o n w ho hw => ih item o w n ho hw) _ _ vs ws
            hv h1).2
      · cases h
    · rename_i hk
      split at h
      · split at h
        · split at h
          · rename_i hlt
            cases h
            exact .enum hk hlt
          · cases h
        · cases h
      · cases h
    · rename_i hk
      rename_i oid ov name n
      obtain ⟨_, os, _, e, hos, hov⟩ := ho.switch_inv hk
      cases e
      split at h
      · rename_i id st hst
        have hget := findState_some _ _ _ _ hst
        cases h1 : importInto env fuel st (ensureState env oid ov id st) n with
        | none => rw [h1] at h; cases h
        | some w' =>
          rw [h1] at h
          cases h
          refine .switch hk hget (ih st _ _ _ ?_ h1)
          rw [ensureState]
          split
          · rename_i he
            subst he
            rw [hos] at hget
            cases hget
            exact hov
          · exact hc.states t _ _ hk _ (List.mem_of_getElem? hget)
      · cases h
    · rename_i hk
      rename_i n _ _ _ target
      cases h1 : importInto env fuel target (env.dflt target) n with
      | none => rw [h1] at h; cases h
      | some w' =>
        rw [h1] at h
        cases h
        exact .owned hk (ih target _ _ _ (hc.target t target hk) h1)
    · cases h

theorem exEnv_constructs : Constructs exEnv := by
  have f : ∀ t v, Fits exEnv t v → Fits exEnv t (exEnv.dflt t) := exEnv_defaults
  have h1 : Fits exEnv 1 (.str []) := .str (l := false) rfl
  have h3 : Fits exEnv 3 (.bool false) := .bool (l := false) rfl
  have hk : ∀ t, exEnv.kind t = exKind t := fun _ => rfl
  refine ⟨?_, ?_, ?_⟩
  · intro t item h
    rw [hk] at h
    unfold exKind at h
    split at h <;> cases h
    exact h3
  · intro t name ss h
    rw [hk] at h
    unfold exKind at h
    split at h <;> cases h
    intro s hs
    simp only [List.mem_cons, List.not_mem_nil, or_false] at hs
    rcases hs with rfl | rfl
    · exact h1
    · exact h3
  · intro t target h
    rw [hk] at h
    unfold exKind at h
    split at h <;> cases h
    exact h1

example : Fits exEnv 0 (.struct [.str [104, 105], .items [.bool true, .bool false], .switch 1 (.bool true),
    .enum 0, .owned (.str [120])]) :=
  C69_import_fits exEnv exEnv_constructs 3 0 exVal _ (.obj [([107], .text [97])]) exVal_saves.fits rfl

/-- **C69**: of a struct exactly the members the tree mentions are changed, each to what its own node says;
the others keep their contents.  So a file written before a member was added can still be read. -/
theorem C69_members (env : Env) (fuel : Nat) (t : T) (name : List Byte) (ps ms : List (List Byte × T))
    (vs : List Val) (props : List (List Byte × Pylon.Node)) (w : Val) (hk : env.kind t = .struct name ps ms)
    (h : importInto env (fuel + 1) t (.struct vs) (.obj props) = some w) :
    ∃ ws, w = .struct ws ∧ ws.length = ms.length ∧ ∀ (i : Nat) (m : List Byte × T) v,
      ms[i]? = some m → vs[i]? = some v →
        (getProp m.1 props = none → ws[i]? = some v) ∧
        ∀ n, getProp m.1 props = some n → ∃ x, ws[i]? = some x ∧ importInto env fuel m.2 v n = some x := by
  rw [importInto.eq_def] at h
  dsimp only at h
  rw [hk] at h
  dsimp only at h
  cases h1 : importFields (importInto env fuel) props ms vs with
  | none => rw [h1] at h; cases h
  | some ws =>
    rw [h1] at h
    cases h
    obtain ⟨_, a, b⟩ := importFields_get _ props ms vs ws h1
    exact ⟨ws, rfl, a, b⟩

/-- Only `k` is mentioned. -/
example : importInto exEnv 3 0 exVal (.obj [([107], .text [97])]) =
    some (.struct [.str [104, 105], .items [.bool true, .bool false], .switch 1 (.bool true), .enum 0,
      .owned (.str [120])]) := rfl

/-- **C69**: names that are no member of the struct do not matter, nor does the order: two objects in which
every member is found with the same node are imported alike. -/
theorem C69_unknown_names (env : Env) (fuel : Nat) (t : T) (name : List Byte) (ps ms : List (List Byte × T))
    (old : Val) (props props' : List (List Byte × Pylon.Node)) (hk : env.kind t = .struct name ps ms)
    (h : ∀ m ∈ ms, getProp m.1 props = getProp m.1 props') :
    importInto env fuel t old (.obj props) = importInto env fuel t old (.obj props') := by
  cases fuel with
  | zero => rfl
  | succ fuel =>
    rw [importInto.eq_def, importInto.eq_def]
    dsimp only
    rw [hk]
    cases old with
    | struct vs =>
      dsimp only
      congr 1
      clear hk
      induction ms generalizing vs with
      | nil => cases vs <;> rfl
      | cons m ms ih =>
        cases vs with
        | nil => rfl
        | cons v vs =>
          rw [importFields, importFields, h m (by simp), ih (fun m hm => h m (by simp [hm]))]
    | _ => rfl

example : importInto exEnv 3 0 exVal (.obj [([120, 120], .arr []), ([107], .text [97])]) =
    importInto exEnv 3 0 exVal (.obj [([107], .text [97])]) := rfl

/-- **C69**: a text that begins with an integer is imported as that integer if it fits the type, whatever
follows (`12abc` is 12); if it does not fit, the conversion is undefined (`none`). -/
theorem C69_integer (env : Env) (ha : Num.KeepsIntegers env.arith.rnd) (fuel : Nat) (t : T) (key : Nat) (l : Bool)
    (old : Val) (hk : env.kind t = .prim key l) (hkey : key = 5 ∨ key = 7 ∨ key = 8 ∨ key = 9)
    (minus : Bool) (ds rest : List Byte) (hds : Num.Digits 10 ds) (hne : ds ≠ [])
    (hsize : Num.numeral 10 0 ds ≤ 2 ^ 53)
    (he : (⟨minus, ds, none, none⟩ : Num.Written).Ends 10 rest) (z : Int)
    (hz : z = (if minus then -1 else 1) * (Num.numeral 10 0 ds : Int)) :
    (InRange key z → importInto env (fuel + 1) t old
      (.text ((⟨minus, ds, none, none⟩ : Num.Written).text ++ rest)) = some (.int z)) ∧
    (¬ InRange key z → importInto env (fuel + 1) t old
      (.text ((⟨minus, ds, none, none⟩ : Num.Written).text ++ rest)) = none) := by
  have hp := Num.C68_integers env.arith ha 10 (by decide) minus ds rest hds hne hsize he
  have hnum : numeric env.arith (.text ((⟨minus, ds, none, none⟩ : Num.Written).text ++ rest)) =
      some (z : Rat) := by
    rw [numeric, hp]
    dsimp only
    rw [if_neg (by decide), hz]
    cases minus <;> simp [Rat.neg_mul, Rat.intCast_neg, Rat.intCast_natCast]
  have hint : ∀ lo hi, toInt lo hi (z : Rat) = if lo ≤ z ∧ z ≤ hi then some z else none := by
    intro lo hi
    unfold toInt
    simp only [Rat.floor_intCast, Rat.ceil_intCast, ite_self]
  have hi : importInto env (fuel + 1) t old (.text ((⟨minus, ds, none, none⟩ : Num.Written).text ++ rest)) =
      importPrim env key old (.text ((⟨minus, ds, none, none⟩ : Num.Written).text ++ rest)) := by
    rw [importInto.eq_def]; dsimp only; rw [hk]
  rw [hi]
  unfold importPrim
  rw [hnum]
  unfold InRange
  rcases hkey with rfl | rfl | rfl | rfl <;>
    simp only [intLimits, hint, if_false, Nat.reduceEqDiff, forall_const, false_implies,
      and_true, true_and] <;>
    refine ⟨fun h => ?_, fun h => ?_⟩
  all_goals first
    | (rw [if_pos (by omega)]; rfl)
    | (rw [if_neg (by omega)]; rfl)

/-- `12abc` and `300` for a `u8`. -/
example : importInto exEnv 1 7 (.int 0) (.text [49, 50, 97, 98, 99]) = some (.int 12) ∧
    importInto exEnv 1 7 (.int 0) (.text [51, 48, 48]) = none :=
  ⟨(C69_integer exEnv (fun _ _ => rfl) 0 7 7 false (.int 0) rfl (by decide) false [49, 50] [97, 98, 99]
      (by unfold Num.Digits; decide) (by decide) (by decide)
      (by rintro c t h; cases h; decide) 12 (by decide)).1 (by unfold InRange; decide),
    (C69_integer exEnv (fun _ _ => rfl) 0 7 7 false (.int 0) rfl (by decide) false [51, 48, 48] []
      (by unfold Num.Digits; decide) (by decide) (by decide)
      (by rintro c t h; cases h) 300 (by decide)).2 (by unfold InRange; decide)⟩

/-- **C69**: every text but `true` and everything that is no text is `false` (`True`, `1`, `yes`, a list). -/
theorem C69_bool (env : Env) (fuel : Nat) (t : T) (l : Bool) (old : Val) (n : Pylon.Node)
    (hk : env.kind t = .prim 2 l) :
    (n = .text [116, 114, 117, 101] → importInto env (fuel + 1) t old n = some (.bool true)) ∧
    (n ≠ .text [116, 114, 117, 101] → importInto env (fuel + 1) t old n = some (.bool false)) := by
  rw [importInto.eq_def]
  dsimp only
  rw [hk]
  cases n with
  | text s => simp [importPrim, boolText]
  | arr ns => simp [importPrim]
  | obj ps => simp [importPrim]

example : importInto exEnv 1 3 (.bool true) (.text [49]) = some (.bool false) := rfl

/-- A string member for which the tree holds a list or an object silently keeps what it was. -/
theorem C69_string_keeps (env : Env) (fuel : Nat) (t : T) (l : Bool) (old : Val) (n : Pylon.Node)
    (hk : env.kind t = .prim 13 l) (hn : ∀ s, n ≠ .text s) : importInto env (fuel + 1) t old n = some old := by
  rw [importInto.eq_def]
  dsimp only
  rw [hk]
  cases n with
  | text s => exact absurd rfl (hn s)
  | arr ns => rfl
  | obj ps => rfl

example : importInto exEnv 1 1 (.str [97]) (.arr [.text [98]]) = some (.str [97]) := rfl

/-- A list with fewer nodes than a fixed array has items fails the assertion; the nodes beyond its size are
ignored. -/
theorem C69_fixed_array (env : Env) (fuel : Nat) (t item : T) (k : Nat) (vs : List Val)
    (ns more : List Pylon.Node) (hk : env.kind t = .fixedArray k item) (hl : vs.length = k) :
    (ns.length < k → importInto env (fuel + 1) t (.items vs) (.arr ns) = none) ∧
    (ns.length = k → importInto env (fuel + 1) t (.items vs) (.arr (ns ++ more)) =
      importInto env (fuel + 1) t (.items vs) (.arr ns)) := by
  have e : ∀ ns, importInto env (fuel + 1) t (.items vs) (.arr ns) =
      (importItems (importInto env fuel item) vs ns).map .items := by
    intro ns
    rw [importInto.eq_def]; dsimp only; rw [hk]; dsimp only; rw [if_pos hl]
  simp only [e]
  clear e
  generalize importInto env fuel item = child
  refine ⟨fun h => ?_, fun h => ?_⟩
  · have : importItems child vs ns = none := by
      subst hl
      clear hk
      induction vs generalizing ns with
      | nil => simp at h
      | cons v vs ih =>
        cases ns with
        | nil => rfl
        | cons n ns =>
          rw [importItems, ih ns (by simpa using h)]
          cases child v n <;> rfl
    rw [this]; rfl
  · congr 1
    subst hl
    clear hk
    induction vs generalizing ns with
    | nil => rw [importItems, importItems]
    | cons v vs ih =>
      cases ns with
      | nil => simp at h
      | cons n ns => rw [List.cons_append, importItems, importItems, ih ns (by simpa using h)]

example : importInto exEnv 2 8 (exDflt 8) (.arr [.text [97]]) = none ∧
    importInto exEnv 2 8 (exDflt 8) (.arr [.text [97], .text [98], .text [99]]) =
      some (.items [.str [97], .str [98]]) := ⟨rfl, rfl⟩

end Verif.PyRef
