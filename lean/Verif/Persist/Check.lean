import Verif.Persist.SpecEvolve
/-!
# Saving and loading objects — checking concrete cases

Programs that decide whether an object is of a type, for use in the examples.
-/
namespace Verif.Persist
open Verif Schema Spec

/-- Check `Spec.Formed`. -/
def formedB (env : Env) : Nat → T → Val → Bool
  | 0, _, _ => false
  | f + 1, t, v =>
    match env.kind t with
    | .fixedArray n i => match v with
      | .items vs => vs.length == n && vs.all (formedB env f i)
      | _ => false
    | .struct _ _ ms => match v with
      | .struct vs => vs.length == ms.length && (ms.zip vs).all fun p => formedB env f p.1.2 p.2
      | _ => false
    | .enumArray i e => match v with
      | .items vs => vs.length == (env.vals e).length && vs.all (formedB env f i)
      | _ => false
    | .switch _ ss => match v with
      | .switch id v => match ss[id]? with
        | some s => formedB env f s.2 v
        | none => false
      | _ => false
    | _ => true

theorem zip_at {α β : Type} {as : List α} {bs : List β} {i : Nat} {a : α} {b : β} (h1 : as[i]? = some a)
    (h2 : bs[i]? = some b) : (a, b) ∈ as.zip bs := by
  refine List.mem_of_getElem? (i := i) ?_
  rw [List.getElem?_zip_eq_some]
  exact ⟨h1, h2⟩

theorem formedB_ok (env : Env) : ∀ (f : Nat) (t : T) (v : Val), formedB env f t v = true → Formed env t v
  | 0, _, _, h => by cases h
  | f + 1, t, v, h => by
    rw [formedB] at h
    cases hk : env.kind t with
    | fixedArray n i =>
      rw [hk] at h
      cases v <;> try cases h
      rename_i vs
      simp only [Bool.and_eq_true, beq_iff_eq, List.all_eq_true] at h
      exact .fixedArray (h.1 ▸ hk) fun v hv => formedB_ok env f i v (h.2 v hv)
    | struct n ps ms =>
      rw [hk] at h
      cases v <;> try cases h
      rename_i vs
      simp only [Bool.and_eq_true, beq_iff_eq, List.all_eq_true] at h
      exact .struct hk h.1 fun i m v hm hv => formedB_ok env f m.2 v (h.2 (m, v) (zip_at hm hv))
    | enumArray i e =>
      rw [hk] at h
      cases v <;> try cases h
      rename_i vs
      simp only [Bool.and_eq_true, beq_iff_eq, List.all_eq_true] at h
      exact .enumArray hk h.1 fun v hv => formedB_ok env f i v (h.2 v hv)
    | switch n ss =>
      rw [hk] at h
      cases v <;> try cases h
      rename_i id v
      dsimp only at h
      cases hs : ss[id]? with
      | none => rw [hs] at h; cases h
      | some s => rw [hs] at h; exact .switch hk hs (formedB_ok env f s.2 v h)
    | _ => exact .any (by rw [hk]; nofun) (by rw [hk]; nofun) (by rw [hk]; nofun) (by rw [hk]; nofun)

/-- Check `Spec.HasType`. -/
def typedB (env : Env) (heap : Addr → T) : Nat → T → Val → Bool
  | 0, _, _ => false
  | f + 1, t, v =>
    match v with
    | .num n => match env.kind t with
      | .prim key true => match width key with
        | some w => n < 2 ^ (8 * w) && (key != 2 || n ≤ 1)
        | none => false
      | _ => false
    | .str s => match env.kind t with
      | .prim key true => key == 13 && s.length < 2 ^ 32
      | _ => false
    | .items vs => match env.kind t with
      | .fixedArray n i => n == vs.length && vs.all (typedB env heap f i)
      | .array i => vs.length < 10000000 && vs.all (typedB env heap f i)
      | .enumArray i e => vs.length == (env.vals e).length && vs.all (typedB env heap f i)
      | _ => false
    | .owned a v => match env.kind t with
      | .owned target => target == heap a && typedB env heap f (heap a) v
      | _ => false
    | .ptr a => match env.kind t with
      | .rawPtr target => target == heap a
      | _ => false
    | .struct vs => match env.kind t with
      | .struct _ _ ms => vs.length == ms.length && (ms.zip vs).all fun p => typedB env heap f p.1.2 p.2
      | _ => false
    | .enum n => match env.kind t with
      | .enum _ size _ => (env.vals t).contains n && n < 2 ^ (8 * size)
      | _ => false
    | .switch id v => match env.kind t with
      | .switch _ ss => match ss[id]? with
        | some s => typedB env heap f s.2 v
        | none => false
      | _ => false
    | _ => false

theorem typedB_ok (env : Env) (heap : Addr → T) : ∀ (f : Nat) (t : T) (v : Val), typedB env heap f t v = true →
    HasType env heap t v
  | 0, _, _, h => by cases h
  | f + 1, t, v, h => by
    unfold typedB at h
    cases v with
    | num n =>
      dsimp only at h
      cases hk : env.kind t with
      | prim key l =>
        rw [hk] at h
        cases l with
        | false => cases h
        | true =>
          dsimp only at h
          cases hw : width key with
          | none => rw [hw] at h; cases h
          | some w =>
            rw [hw] at h
            simp only [Bool.and_eq_true, decide_eq_true_eq, Bool.or_eq_true, bne_iff_ne] at h
            exact .num hk hw h.1 (fun e => h.2.resolve_left (fun hn => hn e))
      | _ => rw [hk] at h; cases h
    | str s =>
      dsimp only at h
      cases hk : env.kind t with
      | prim key l =>
        rw [hk] at h
        cases l with
        | false => cases h
        | true =>
          simp only [Bool.and_eq_true, decide_eq_true_eq, beq_iff_eq] at h
          exact .str (h.1 ▸ hk) h.2
      | _ => rw [hk] at h; cases h
    | items vs =>
      dsimp only at h
      cases hk : env.kind t with
      | fixedArray n i =>
        rw [hk] at h
        simp only [Bool.and_eq_true, beq_iff_eq, List.all_eq_true] at h
        exact .fixedArray (h.1 ▸ hk) fun v hv => typedB_ok env heap f i v (h.2 v hv)
      | array i =>
        rw [hk] at h
        simp only [Bool.and_eq_true, decide_eq_true_eq, List.all_eq_true] at h
        exact .array hk h.1 fun v hv => typedB_ok env heap f i v (h.2 v hv)
      | enumArray i e =>
        rw [hk] at h
        simp only [Bool.and_eq_true, beq_iff_eq, List.all_eq_true] at h
        exact .enumArray hk h.1 fun v hv => typedB_ok env heap f i v (h.2 v hv)
      | _ => rw [hk] at h; cases h
    | owned a v =>
      dsimp only at h
      cases hk : env.kind t with
      | owned target =>
        rw [hk] at h
        simp only [Bool.and_eq_true, beq_iff_eq] at h
        exact .owned (h.1 ▸ hk) (typedB_ok env heap f _ v h.2)
      | _ => rw [hk] at h; cases h
    | ptr a =>
      dsimp only at h
      cases hk : env.kind t with
      | rawPtr target =>
        rw [hk] at h
        simp only [beq_iff_eq] at h
        exact .ptr (h ▸ hk)
      | _ => rw [hk] at h; cases h
    | struct vs =>
      dsimp only at h
      cases hk : env.kind t with
      | struct n ps ms =>
        rw [hk] at h
        simp only [Bool.and_eq_true, beq_iff_eq, List.all_eq_true] at h
        exact .struct hk h.1 fun i m v hm hv => typedB_ok env heap f m.2 v (h.2 (m, v) (zip_at hm hv))
      | _ => rw [hk] at h; cases h
    | enum n =>
      dsimp only at h
      cases hk : env.kind t with
      | enum name size ids =>
        rw [hk] at h
        simp only [Bool.and_eq_true, List.contains_iff_mem, decide_eq_true_eq] at h
        exact .enum hk h.1 h.2
      | _ => rw [hk] at h; cases h
    | switch id v =>
      dsimp only at h
      cases hk : env.kind t with
      | switch n ss =>
        rw [hk] at h
        dsimp only at h
        cases hs : ss[id]? with
        | none => rw [hs] at h; cases h
        | some s => rw [hs] at h; exact .switch hk hs (typedB_ok env heap f s.2 v h)
      | _ => rw [hk] at h; cases h
    | _ => cases h

/-- Check `Spec.Types`, but for floating point. -/
def typesB (env : Env) (n : Nat) : Bool :=
  n < 1000 && (List.range n).all fun t =>
    (Spec.parts (env.kind t)).all (· < t) && formedB env n t (env.dflt t) &&
    (match env.kind t with
    | .prim k l => 2 ≤ k && k < 16 && l
    | .fixedArray n _ => n < 2 ^ 32
    | .array _ | .owned _ | .rawPtr _ => true
    | .enumArray _ e => env.vals e == List.range (env.vals e).length && (match env.kind e with
      | .enum .. => true
      | _ => false)
    | .struct name ps ms => name.length < 100 && ps.length < 100 && ms.length < 100 &&
        ps.all (·.1.length < 100) && ms.all (·.1.length < 100) && (ms.map (·.1)).Nodup
    | .enum name size ids => name.length < 100 && ids.length < 100 && ids.all (·.length < 100) &&
        decide ids.Nodup && (env.vals t).length == ids.length && (size == 1 || size == 2 || size == 4)
    | .switch name ss => name.length < 100 && ss.length < 100 && ss.all (·.1.length < 100) &&
        decide (ss.map (·.1)).Nodup && ss.all fun s => match env.kind s.2 with
          | .struct .. => true
          | _ => false
    | .other => false)

theorem typesB_ok {env : Env} {n : Nat} (h : typesB env n = true)
    (hs : ∀ key n, key = 11 ∨ key = 12 → env.fcast key key n = n) : Types env (List.range n) := by
  unfold typesB at h
  rw [Bool.and_eq_true, decide_eq_true_eq, List.all_eq_true] at h
  obtain ⟨hn, h⟩ := h
  have hpart : ∀ t ∈ List.range n, ∀ c ∈ Spec.parts (env.kind t), c < t := by
    intro t ht c hc
    have := h t ht
    simp only [Bool.and_eq_true, List.all_eq_true, decide_eq_true_eq] at this
    exact this.1.1 c hc
  have hform : ∀ t ∈ List.range n, Formed env t (env.dflt t) := by
    intro t ht
    have := h t ht
    simp only [Bool.and_eq_true] at this
    exact formedB_ok env n t _ this.1.2
  have hclosed : ∀ t ∈ List.range n, ∀ c ∈ Spec.parts (env.kind t), c ∈ List.range n := by
    intro t ht c hc
    have h1 := hpart t ht c hc
    rw [List.mem_range] at ht ⊢
    exact Nat.lt_trans h1 ht
  have hreach : ∀ a b, a ∈ List.range n → Spec.Reaches env.kind a b → b ∈ List.range n ∧ b ≤ a := by
    intro a b ha hr
    induction hr with
    | refl => exact ⟨ha, Nat.le_refl _⟩
    | step _ hc ih =>
      exact ⟨hclosed _ ih.1 _ hc, Nat.le_trans (Nat.le_of_lt (hpart _ ih.1 _ hc)) ih.2⟩
  refine ⟨⟨by rw [List.length_range]; omega, hclosed, fun t ht => ?_, fun t ht => ?_⟩,
    fun t ht c hc hr => ?_, fun t ht => ?_, hform, hs⟩
  · have := h t ht
    rw [Bool.and_eq_true] at this
    have := this.2
    cases hk : env.kind t with
    | prim k l => rw [hk] at this; simp at this; exact ⟨this.1.1, this.1.2, this.2⟩
    | fixedArray n _ => rw [hk] at this; simp at this; exact this
    | array _ | owned _ | rawPtr _ | enumArray _ _ => trivial
    | struct name ps ms =>
      rw [hk] at this
      simp only [Bool.and_eq_true, decide_eq_true_eq, List.all_eq_true] at this
      obtain ⟨⟨⟨⟨⟨h1, h2⟩, h3⟩, h4⟩, h5⟩, -⟩ := this
      exact ⟨by omega, by omega, by omega, fun p hp => Nat.lt_trans (h4 p hp) (by decide),
        fun p hp => Nat.lt_trans (h5 p hp) (by decide)⟩
    | enum name size ids =>
      rw [hk] at this
      simp only [Bool.and_eq_true, Bool.or_eq_true, decide_eq_true_eq, List.all_eq_true, beq_iff_eq] at this
      obtain ⟨⟨⟨⟨⟨h1, h2⟩, h3⟩, -⟩, -⟩, h5⟩ := this
      exact ⟨by omega, by omega, by omega, fun p hp => Nat.lt_trans (h3 p hp) (by decide)⟩
    | switch name ss =>
      rw [hk] at this
      simp only [Bool.and_eq_true, decide_eq_true_eq, List.all_eq_true] at this
      obtain ⟨⟨⟨⟨h1, h2⟩, h3⟩, -⟩, -⟩ := this
      exact ⟨by omega, by omega, fun p hp => Nat.lt_trans (h3 p hp) (by decide)⟩
    | other => rw [hk] at this; cases this
  · have := h t ht
    rw [Bool.and_eq_true] at this
    have := this.2
    cases hk : env.kind t with
    | enumArray i e =>
      rw [hk] at this
      simp only [Bool.and_eq_true] at this
      have := this.2
      unfold Spec.Typed
      dsimp only
      cases he : env.kind e with
      | enum n s ids => exact ⟨n, s, ids, rfl⟩
      | _ => rw [he] at this; cases this
    | switch name ss =>
      rw [hk] at this
      simp only [Bool.and_eq_true, List.all_eq_true] at this
      have := this.2
      unfold Spec.Typed
      dsimp only
      intro s hs
      have := this s hs
      cases he : env.kind s.2 with
      | struct n ps ms => exact ⟨n, ps, ms, rfl⟩
      | _ => rw [he] at this; cases this
    | _ => trivial
  · have h1 := hpart t ht c hc
    have h2 := (hreach c t (hclosed t ht c hc) hr).2
    exact Nat.lt_irrefl _ (Nat.lt_of_lt_of_le h1 h2)
  · have := h t ht
    rw [Bool.and_eq_true] at this
    have := this.2
    unfold Proper
    cases hk : env.kind t with
    | struct name ps ms =>
      rw [hk] at this
      simp only [Bool.and_eq_true, decide_eq_true_eq] at this
      exact this.2
    | enum name size ids =>
      rw [hk] at this
      simp only [Bool.and_eq_true, Bool.or_eq_true, decide_eq_true_eq, beq_iff_eq] at this
      obtain ⟨⟨⟨⟨⟨h1, h2⟩, h3⟩, h4⟩, h5⟩, h6⟩ := this
      exact ⟨h4, h5, by omega⟩
    | enumArray i e =>
      rw [hk] at this
      simp only [Bool.and_eq_true, beq_iff_eq] at this
      exact this.1
    | switch name ss =>
      rw [hk] at this
      simp only [Bool.and_eq_true, decide_eq_true_eq] at this
      exact this.1.2
    | _ => trivial

end Verif.Persist
