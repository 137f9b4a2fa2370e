import Verif.Persist.Lemmas2
import Verif.Persist.SpecEvolve
/-!
# Loading an object as another type — lemmas
-/
namespace Verif.Persist
open Verif Schema Spec Schema.Spec

theorem castNum_converts (env : Env) {src dst n w : Nat} (hw : width dst = some w) :
    Converts env src n dst (castNum env src dst n) := by
  unfold Converts castNum
  by_cases h1 : src = 11 ∨ src = 12 ∨ dst = 11 ∨ dst = 12
  · rw [if_pos h1, if_pos h1]
  rw [if_neg h1, if_neg h1]
  by_cases h2 : dst = 2
  · rw [if_pos h2, if_pos h2]
    have hnn : 0 ≤ value src n % 2 ^ 32 := Int.emod_nonneg _ (by decide)
    by_cases h3 : (value src n % 2 ^ 32).toNat = 0
    · rw [if_pos h3]
      exact ⟨by omega, fun _ => Int.dvd_of_emod_eq_zero (by omega), fun _ => rfl⟩
    · rw [if_neg h3]
      refine ⟨by omega, fun h => by omega, fun h => ?_⟩
      have := Int.emod_eq_zero_of_dvd h
      omega
  · rw [if_neg h2, if_neg h2, hw]
    dsimp only
    have hpos : (0 : Int) < 2 ^ (8 * w) := Int.pow_pos (by decide)
    have hcast : ((2 ^ (8 * w) : Nat) : Int) = 2 ^ (8 * w) := by simp
    generalize hx : value src n = x
    have hnn : 0 ≤ x % 2 ^ (8 * w) := Int.emod_nonneg _ (by omega)
    have hlt : x % 2 ^ (8 * w) < 2 ^ (8 * w) := Int.emod_lt_of_pos _ hpos
    have hdvd : (2 : Int) ^ (8 * w) ∣ x % 2 ^ (8 * w) - x := by
      refine Int.dvd_of_emod_eq_zero ?_
      rw [Int.sub_emod, Int.emod_emod, Int.sub_self]; simp
    refine ⟨w, rfl, ?_, ?_⟩
    · have : (((x % 2 ^ (8 * w)).toNat : Nat) : Int) < ((2 ^ (8 * w) : Nat) : Int) := by
        rw [hcast, Int.toNat_of_nonneg hnn]; exact hlt
      exact_mod_cast this
    · unfold value
      rw [hw]
      dsimp only
      split
      · unfold signed
        split
        · rw [Int.toNat_of_nonneg hnn]; exact hdvd
        · rw [Int.toNat_of_nonneg hnn]
          have e : x % 2 ^ (8 * w) - 2 ^ (8 * w) - x = (x % 2 ^ (8 * w) - x) - 2 ^ (8 * w) := by omega
          rw [e]
          exact Int.dvd_sub hdvd (Int.dvd_refl _)
      · rw [Int.toNat_of_nonneg hnn]; exact hdvd

/-- Reading moves past the pieces, if none is a link, and gives something as wanted. -/
def Evolves {α : Type} (ps : List Piece) (P : α → Prop) (rd : RC → Option (α × RC)) : Prop :=
  holes ps = [] → ∀ (ρ : Addr → Nat) (c : RC) (rest : List Byte), c.input = render ρ ps ++ rest →
    c.todo = [] → ∃ w c', rd c = some (w, c') ∧ P w ∧ c'.input = rest ∧ c'.todo = [] ∧ c'.done = c.done

section
variable (env : Env) (heap : Addr → T) (u : List T)

/-- One object. -/
def EvAt (t : T) (v : Val) (ps : List Piece) (k : Nat) : Prop :=
  ∀ slots A, Describes env slots A → ∀ f, k ≤ f → ∀ r, A t r → ∀ t' ∈ u, Compatible env t t' →
    ∀ old, Formed env t' old → Evolves ps (Becomes env t v t' old) (read env slots f t' r old)

/-- One object, of a type that is not unlike. -/
def EvLike (t : T) (v : Val) (ps : List Piece) (k : Nat) : Prop :=
  ∀ slots A, Describes env slots A → ∀ f, k ≤ f → ∀ r, A t r → ∀ t' ∈ u, Compatible env t t' →
    ¬Unlike (env.kind t) (env.kind t') →
    ∀ old, Formed env t' old → Evolves ps (Becomes env t v t' old) (read env slots f t' r old)

/-- Items of the same type. -/
structure EvItems (item : T) (vs : List Val) (ps : List Piece) (k : Nat) : Prop where
  /-- One after the other. -/
  seq : ∀ slots A, Describes env slots A → ∀ f, k ≤ f → ∀ r, A item r → ∀ item' ∈ u,
    Compatible env item item' → ∀ os : List Val, os.length = vs.length →
    (∀ o ∈ os, Formed env item' o) →
    Evolves ps (fun ws : List Val => ws.length = vs.length ∧ ∀ (i : Nat) v o w, vs[i]? = some v → os[i]? = some o →
      ws[i]? = some w → Becomes env item v item' o w) (readItems (read env slots f item' r) os)
  /-- By name. -/
  named : ∀ slots A, Describes env slots A → ∀ f, k ≤ f → ∀ r, A item r → ∀ item' ∈ u,
    Compatible env item item' → ∀ names names' : List (List Byte), names.Nodup → names'.Nodup →
    names.length = vs.length → ∀ os : List Val, os.length = names'.length →
    (∀ (i : Nat) name o, names'[i]? = some name → name ∈ names → os[i]? = some o → Formed env item' o) →
    ∀ find : List Byte → Option Nat, (∀ n, find n = findName names' n) →
    Evolves ps (fun ws : List Val => ws.length = names'.length ∧
      (∀ (j : Nat) name v (i : Nat) o w, names[j]? = some name → vs[j]? = some v → names'[i]? = some name →
        os[i]? = some o → ws[i]? = some w → Becomes env item v item' o w) ∧
      (∀ (i : Nat) name, names'[i]? = some name → name ∉ names → ws[i]? = os[i]?))
      (readNamed (fun _ fr v c => read env slots f item' fr v c) (skip slots f) find
        (names.map fun n => (n, r)) os)

/-- Members. -/
def EvFields (ms : List (List Byte × T)) (vs : List Val) (ps : List Piece) (k : Nat) : Prop :=
  ∀ slots A, Describes env slots A → ∀ f, k ≤ f → ∀ g : T → Ref, (∀ m ∈ ms, A m.2 (g m.2)) →
    ∀ ms' : List (List Byte × T), (∀ m' ∈ ms', m'.2 ∈ u) →
    (∀ m ∈ ms, ∀ m' ∈ ms', m.1 = m'.1 → Compatible env m.2 m'.2) → (ms.map (·.1)).Nodup →
    (ms'.map (·.1)).Nodup → ∀ os : List Val, os.length = ms'.length →
    (∀ (i : Nat) (m' : List Byte × T) (v : Val), ms'[i]? = some m' → m'.1 ∈ ms.map (·.1) →
      os[i]? = some v → Formed env m'.2 v) →
    Evolves ps (fun ws : List Val => ws.length = ms'.length ∧
      (∀ (j : Nat) m v (i : Nat) m' o w, ms[j]? = some m → vs[j]? = some v → ms'[i]? = some m' →
        os[i]? = some o → ws[i]? = some w → m.1 = m'.1 → Becomes env m.2 v m'.2 o w) ∧
      (∀ (i : Nat) m', ms'[i]? = some m' → (∀ m ∈ ms, m.1 ≠ m'.1) → ws[i]? = os[i]?))
      (readNamed (readMember (read env slots f) ms') (skip slots f) (findName (ms'.map (·.1)))
        (ms.map fun m => (m.1, g m.2)) os)

variable {env heap u}

theorem Evolves.nil {α : Type} {P : α → Prop} {w : α} (h : P w) : Evolves [] P (fun c => some (w, c)) := by
  intro _ ρ c rest hi ht
  rw [render_nil, List.nil_append] at hi
  exact ⟨w, c, rfl, h, hi, ht, rfl⟩

/-- One after the other, the first with a result. -/
theorem Evolves.bind {α β : Type} {p q : List Piece} {P : α → Prop} {Q : β → Prop}
    {rd : RC → Option (α × RC)} {rd' : α → RC → Option (β × RC)} (h1 : Evolves p P rd)
    (h2 : ∀ a, P a → Evolves q Q (rd' a)) : Evolves (p ++ q) Q (fun c => (rd c).bind fun x => rd' x.1 x.2) := by
  intro hh ρ c rest hi ht
  rw [holes_append, List.append_eq_nil_iff] at hh
  rw [render_append, List.append_assoc] at hi
  obtain ⟨a, c1, e1, hp, i1, t1, d1⟩ := h1 hh.1 ρ c _ hi ht
  obtain ⟨b, c2, e2, hq, i2, t2, d2⟩ := h2 a hp hh.2 ρ c1 rest i1 t1
  exact ⟨b, c2, by dsimp only; rw [e1]; exact e2, hq, i2, t2, d2.trans d1⟩

theorem Evolves.skip {ps : List Piece} {sk : RC → Option RC} (h : Skips ps sk) :
    Evolves ps (fun _ : Unit => True) (fun c => (sk c).map fun c => ((), c)) := by
  intro hh ρ c rest hi ht
  dsimp only
  rw [h hh ρ c rest hi]
  exact ⟨(), _, rfl, trivial, rfl, ht, rfl⟩

theorem Evolves.map {α β : Type} {ps : List Piece} {P : α → Prop} {Q : β → Prop} {rd : RC → Option (α × RC)}
    {f : α → β} (h : Evolves ps P rd) (hq : ∀ w, P w → Q (f w)) :
    Evolves ps Q (fun c => (rd c).map fun x => (f x.1, x.2)) := by
  intro hh ρ c rest hi ht
  obtain ⟨w, c', e, hp, r⟩ := h hh ρ c rest hi ht
  exact ⟨f w, c', by dsimp only; rw [e]; rfl, hq w hp, r⟩

theorem Evolves.weaken {α : Type} {ps : List Piece} {P Q : α → Prop} {rd rd' : RC → Option (α × RC)}
    (h : Evolves ps P rd) (hq : ∀ w, P w → Q w) (he : ∀ c, rd' c = rd c) : Evolves ps Q rd' := by
  intro hh ρ c rest hi ht
  obtain ⟨w, c', e, hp, r⟩ := h hh ρ c rest hi ht
  exact ⟨w, c', (he c).trans e, hq w hp, r⟩

theorem findName_none {names : List (List Byte)} {n : List Byte} (h : findName names n = none) : n ∉ names := by
  unfold findName at h
  split at h
  · cases h
  · assumption

theorem findName_some {names : List (List Byte)} {n : List Byte} {i : Nat} (h : findName names n = some i) :
    names[i]? = some n ∧ i < names.length := by
  unfold findName at h
  split at h
  · rename_i hm
    cases h
    exact ⟨by
      rw [List.getElem?_eq_getElem (List.idxOf_lt_length_of_mem hm), List.getElem_idxOf],
      List.idxOf_lt_length_of_mem hm⟩
  · cases h

theorem at_unique {names : List (List Byte)} (hn : names.Nodup) {i j : Nat} {n : List Byte}
    (h1 : names[i]? = some n) (h2 : names[j]? = some n) : i = j := by
  have := findName_at hn h1
  rw [findName_at hn h2] at this
  exact (Option.some.inj this).symm

theorem ev_items {item : T} : ∀ {vs : List Val},
    (∀ v ∈ vs, ∃ ps k, OkAt env heap item v ps k ∧ EvAt env u item v ps k) →
    ∃ ps k, OkItems env heap item vs ps k ∧ EvItems env u item vs ps k
  | [], _ => ⟨[], 0, {
      owns := rfl, holes := rfl
      write := fun f _ c _ _ => rfl
      read := fun _ _ _ f _ r _ olds hl _ => by
        rw [List.eq_nil_of_length_eq_zero hl]
        intro ρ σ c rest _ _ _
        rfl
      solid := fun h => absurd rfl h
      skip := fun _ _ _ _ _ _ _ => Skips.nil
      tight := fun _ _ => rfl }, {
      seq := fun _ _ _ f _ r _ item' _ _ os hl _ => by
        rw [List.eq_nil_of_length_eq_zero hl]
        exact Evolves.nil ⟨rfl, fun i v o w h => by simp at h⟩
      named := fun _ _ _ f _ r _ item' _ _ names names' _ _ hl os ho _ find _ => by
        rw [List.eq_nil_of_length_eq_zero hl]
        exact Evolves.nil ⟨ho, fun j name v i o w h => by simp at h, fun i name _ _ => rfl⟩ }⟩
  | v :: vs, h => by
    obtain ⟨p, k1, h1, e1⟩ := h v (by simp)
    obtain ⟨q, k2, h2, e2⟩ := ev_items (vs := vs) fun v hv => h v (by simp [hv])
    refine ⟨p ++ q, max k1 k2, ok_items_cons h1 h2, ?_, ?_⟩
    · intro slots A hA f hf r hr item' hu hc os hl hos
      cases os with
      | nil => cases hl
      | cons o os =>
        have a1 := e1 slots A hA f (by omega) r hr item' hu hc o (hos o (by simp))
        have a2 := e2.seq slots A hA f (by omega) r hr item' hu hc os (by simpa using hl)
          (fun o ho => hos o (by simp [ho]))
        refine (a1.bind (rd' := fun w c => (readItems (read env slots f item' r) os c).map
          fun y => (w :: y.1, y.2)) (Q := fun ws : List Val => ws.length = (v :: vs).length ∧ ∀ (i : Nat) v' o' w,
            (v :: vs)[i]? = some v' → (o :: os)[i]? = some o' → ws[i]? = some w →
            Becomes env item v' item' o' w) fun w hw => ?_).weaken (fun _ h => h) fun c => ?_
        · refine a2.map fun ws hws => ⟨by simp [hws.1], fun i v' o' w' hv ho hw' => ?_⟩
          cases i with
          | zero =>
            simp only [List.getElem?_cons_zero, Option.some.injEq] at hv ho hw'
            subst hv ho hw'
            exact hw
          | succ i =>
            simp only [List.getElem?_cons_succ] at hv ho hw'
            exact hws.2 i v' o' w' hv ho hw'
        · rw [readItems]
          cases read env slots f item' r o c with
          | none => rfl
          | some x =>
            dsimp only [Option.bind_some]
            cases readItems (read env slots f item' r) os x.2 <;> rfl
    · intro slots A hA f hf r hr item' hu hc names names' hn hn' hl os ho hos find hfind
      cases names with
      | nil => cases hl
      | cons n names =>
        rw [List.nodup_cons] at hn
        have hl' : names.length = vs.length := by simpa using hl
        cases hfn : findName names' n with
        | none =>
          have hnn := findName_none hfn
          have a1 := Evolves.skip (h1.skip slots A hA f (by omega) r hr)
          have a2 := e2.named slots A hA f (by omega) r hr item' hu hc names names' hn.2 hn' hl' os ho
            (fun i name o h1 h2 h3 => hos i name o h1 (by simp [h2]) h3) find hfind
          refine (a1.bind (rd' := fun _ => _) fun _ _ => a2).weaken (fun ws hws => ⟨hws.1, ?_, ?_⟩) fun c => ?_
          · intro j name v' i o' w g1 g2 g3 g4 g5
            cases j with
            | zero =>
              simp only [List.getElem?_cons_zero, Option.some.injEq] at g1
              subst g1
              exact absurd (List.mem_of_getElem? g3) hnn
            | succ j =>
              simp only [List.getElem?_cons_succ] at g1 g2
              exact hws.2.1 j name v' i o' w g1 g2 g3 g4 g5
          · intro i name g1 g2
            exact hws.2.2 i name g1 fun hm => g2 (by simp [hm])
          · rw [List.map_cons, readNamed]
            dsimp only
            rw [hfind, hfn]
            dsimp only
            cases skip slots f r c <;> rfl
        | some i =>
          obtain ⟨hi, hilt⟩ := findName_some hfn
          have hio : i < os.length := by omega
          have a1 := e1 slots A hA f (by omega) r hr item' hu hc os[i]
            (hos i n os[i] hi (by simp) (List.getElem?_eq_getElem hio))
          refine (a1.bind (rd' := fun w c => readNamed (fun _ fr v c => read env slots f item' fr v c)
            (skip slots f) find (names.map fun n => (n, r)) (os.set i w) c) fun w hw =>
              (e2.named slots A hA f (by omega) r hr item' hu hc names names' hn.2 hn' hl' (os.set i w)
                (by rw [List.length_set]; exact ho) (fun i' name o g1 g2 g3 => ?_) find hfind).weaken
              (fun ws hws => ⟨hws.1, ?_, ?_⟩) fun c => rfl).weaken (fun _ h => h) fun c => ?_
          · have hne : i ≠ i' := fun e => by
              subst e; rw [hi] at g1; cases g1; exact hn.1 g2
            rw [List.getElem?_set_ne hne] at g3
            exact hos i' name o g1 (by simp [g2]) g3
          · rw [List.map_cons, readNamed]
            dsimp only
            rw [hfind, hfn]
            dsimp only
            rw [List.getElem?_eq_getElem hio]
            dsimp only
            cases read env slots f item' r os[i] c <;> rfl
          · intro j name v' i' o' w' g1 g2 g3 g4 g5
            cases j with
            | zero =>
              simp only [List.getElem?_cons_zero, Option.some.injEq] at g1 g2
              subst g1 g2
              have := at_unique hn' hi g3
              subst this
              have hk := hws.2.2 i n hi hn.1
              rw [g5, List.getElem?_set_self hio, Option.some.injEq] at hk
              rw [List.getElem?_eq_getElem hio, Option.some.injEq] at g4
              subst hk g4
              exact hw
            | succ j =>
              simp only [List.getElem?_cons_succ] at g1 g2
              have hne : i ≠ i' := fun e => by
                subst e; rw [hi] at g3; cases g3; exact hn.1 (List.mem_of_getElem? g1)
              exact hws.2.1 j name v' i' o' w' g1 g2 g3 (by rw [List.getElem?_set_ne hne]; exact g4) g5
          · intro i' name g1 g2
            have hne : i ≠ i' := fun e => by
              subst e; rw [hi] at g1; cases g1; exact g2 (by simp)
            rw [hws.2.2 i' name g1 fun hm => g2 (by simp [hm]), List.getElem?_set_ne hne]

theorem ev_fields : ∀ {ms : List (List Byte × T)} {vs : List Val}, vs.length = ms.length →
    (∀ (i : Nat) (m : List Byte × T) (v : Val), ms[i]? = some m → vs[i]? = some v →
      ∃ ps k, OkAt env heap m.2 v ps k ∧ EvAt env u m.2 v ps k) →
    ∃ ps k, OkFields env heap ms vs ps k ∧ EvFields env u ms vs ps k
  | [], [], _, _ => ⟨[], 0, {
      owns := rfl, holes := rfl
      write := fun f _ c _ _ => rfl
      read := fun _ _ _ f _ g _ olds hl _ => by
        rw [List.eq_nil_of_length_eq_zero hl]
        intro ρ σ c rest _ _ _
        rfl
      solid := fun _ _ h => by cases h
      skip := fun _ _ _ _ _ _ _ => Skips.nil
      tight := fun _ _ => rfl }, fun _ _ _ _ _ _ _ ms' _ _ _ _ os ho _ =>
        Evolves.nil ⟨ho, fun j m v i m' o w h => by simp at h, fun _ _ _ _ => rfl⟩⟩
  | [], _ :: _, h, _ => by cases h
  | _ :: _, [], h, _ => by cases h
  | m :: ms, v :: vs, hlen, h => by
    obtain ⟨p, k1, h1, e1⟩ := h 0 m v rfl rfl
    obtain ⟨q, k2, h2, e2⟩ := ev_fields (ms := ms) (vs := vs) (by simpa using hlen)
      fun i m v hm hv => h (i + 1) m v (by simpa using hm) (by simpa using hv)
    refine ⟨p ++ q, max k1 k2, ok_fields_cons h1 h2, ?_⟩
    intro slots A hA f hf g hg ms' hu hc hn hn' os ho hos
    rw [List.map_cons, List.nodup_cons] at hn
    cases hfn : findName (ms'.map (·.1)) m.1 with
    | none =>
      have hnn := findName_none hfn
      have a1 := Evolves.skip (h1.skip slots A hA f (by omega) _ (hg m (by simp)))
      have a2 := e2 slots A hA f (by omega) g (fun m hm => hg m (by simp [hm])) ms' hu
        (fun m hm => hc m (by simp [hm])) hn.2 hn' os ho
        (fun i name o h1 h2 h3 => hos i name o h1 (by rw [List.map_cons, List.mem_cons]; exact .inr h2) h3)
      refine (a1.bind (rd' := fun _ => _) fun _ _ => a2).weaken (fun ws hws => ⟨hws.1, ?_, ?_⟩) fun c => ?_
      · intro j m1 v' i m' o' w g1 g2 g3 g4 g5 g6
        cases j with
        | zero =>
          simp only [List.getElem?_cons_zero, Option.some.injEq] at g1
          subst g1
          exact absurd (by rw [g6]; exact List.mem_map_of_mem (List.mem_of_getElem? g3)) hnn
        | succ j =>
          simp only [List.getElem?_cons_succ] at g1 g2
          exact hws.2.1 j m1 v' i m' o' w g1 g2 g3 g4 g5 g6
      · intro i m' g1 g2
        exact hws.2.2 i m' g1 fun m hm => g2 m (by simp [hm])
      · rw [List.map_cons, readNamed]
        dsimp only
        rw [hfn]
        dsimp only
        cases skip slots f (g m.2) c <;> rfl
    | some i =>
      obtain ⟨hi, hilt⟩ := findName_some hfn
      rw [List.length_map] at hilt
      have hio : i < os.length := by omega
      have him : ms'[i]? = some ms'[i] := List.getElem?_eq_getElem hilt
      have hname : m.1 = ms'[i].1 := by
        rw [List.getElem?_map, him, Option.map_some, Option.some.injEq] at hi; exact hi.symm
      have hmem : ms'[i] ∈ ms' := List.getElem_mem hilt
      have uniq : ∀ (i' : Nat) m', ms'[i']? = some m' → m'.1 = m.1 → i = i' := fun i' m' g1 g2 =>
        at_unique hn' hi (by rw [List.getElem?_map, g1, Option.map_some, g2])
      have a1 := e1 slots A hA f (by omega) _ (hg m (by simp)) ms'[i].2 (hu _ hmem)
        (hc m (by simp) _ hmem hname) os[i]
        (hos i _ os[i] him (by rw [List.map_cons, List.mem_cons]; exact .inl hname.symm)
          (List.getElem?_eq_getElem hio))
      refine (a1.bind (rd' := fun w c => readNamed (readMember (read env slots f) ms')
        (skip slots f) (findName (ms'.map (·.1))) (ms.map fun m => (m.1, g m.2)) (os.set i w) c) fun w hw =>
          (e2 slots A hA f (by omega) g (fun m hm => hg m (by simp [hm])) ms' hu
            (fun m hm => hc m (by simp [hm])) hn.2 hn' (os.set i w)
            (by rw [List.length_set]; exact ho) (fun i' m' o g1 g2 g3 => ?_)).weaken
          (fun ws hws => ⟨hws.1, ?_, ?_⟩) fun c => rfl).weaken (fun _ h => h) fun c => ?_
      · have hne : i ≠ i' := fun e => by
          subst e; rw [him] at g1; cases g1; rw [← hname] at g2; exact hn.1 g2
        rw [List.getElem?_set_ne hne] at g3
        exact hos i' m' o g1 (by rw [List.map_cons, List.mem_cons]; exact .inr g2) g3
      · rw [List.map_cons, readNamed]
        dsimp only
        rw [hfn]
        dsimp only
        rw [List.getElem?_eq_getElem hio]
        dsimp only
        unfold readMember
        rw [him]
        dsimp only
        cases read env slots f ms'[i].2 (g m.2) os[i] c <;> rfl
      · intro j m1 v' i' m' o' w' g1 g2 g3 g4 g5 g6
        cases j with
        | zero =>
          simp only [List.getElem?_cons_zero, Option.some.injEq] at g1 g2
          subst g1 g2
          have := uniq i' m' g3 g6.symm
          subst this
          have hk := hws.2.2 i _ him (fun m2 hm2 e => hn.1 (by
            rw [hname, ← e]; exact List.mem_map_of_mem hm2))
          rw [g5, List.getElem?_set_self hio, Option.some.injEq] at hk
          rw [List.getElem?_eq_getElem hio, Option.some.injEq] at g4
          rw [him, Option.some.injEq] at g3
          subst hk g4 g3
          exact hw
        | succ j =>
          simp only [List.getElem?_cons_succ] at g1 g2
          have hne : i ≠ i' := fun e => by
            subst e; rw [him] at g3; cases g3
            exact hn.1 (by rw [hname, ← g6]; exact List.mem_map_of_mem (List.mem_of_getElem? g1))
          exact hws.2.1 j m1 v' i' m' o' w' g1 g2 g3 (by rw [List.getElem?_set_ne hne]; exact g4) g5 g6
      · intro i' m' g1 g2
        have hne : i ≠ i' := fun e => by
          subst e; rw [him] at g1; cases g1; exact g2 m (by simp) hname
        rw [hws.2.2 i' m' g1 fun m hm => g2 m (by simp [hm]), List.getElem?_set_ne hne]

end
end Verif.Persist
