import Verif.DocText.Spec
import Verif.DocLink.Lemmas
/-!
# Links in descriptions — lemmas
-/
namespace Verif.DocText
open Verif Spec

theorem heading_cases (ns : List Node) : (∃ a sub, ns = [.link (35 :: a) sub]) ∨ ∀ a sub, ns ≠ [.link (35 :: a) sub] := by
  by_cases h : ∃ a sub, ns = [.link (35 :: a) sub]
  · exact .inl h
  · exact .inr fun a sub he => h ⟨a, sub, he⟩

theorem visit_named (span : List Byte → Option (List Byte)) (ids : Ids) (o : Bool) (id a : List Byte) (sub : List Node) :
    visit span ids o (.heading id [.link (35 :: a) sub]) = (visitAll span ids true sub).map (.heading a) := by
  rw [visit]

theorem visit_heading (span : List Byte → Option (List Byte)) (ids : Ids) (o : Bool) (id : List Byte) {ns : List Node}
    (h : ∀ a sub, ns ≠ [.link (35 :: a) sub]) :
    visit span ids o (.heading id ns) = (visitAll span ids false ns).map (.heading id) := by
  rw [visit]
  exact fun a sub => h a sub

theorem meant_heading (l : Option (List Byte)) (id : List Byte) {ns : List Node}
    (h : ∀ a sub, ns ≠ [.link (35 :: a) sub]) : meant l (.heading id ns) = meantAll l ns := by
  rw [meant]
  exact fun a sub => h a sub

theorem meantNames_heading (id : List Byte) {ns : List Node} (h : ∀ a sub, ns ≠ [.link (35 :: a) sub]) :
    meantNames (.heading id ns) = id :: meantNamesAll ns := by
  rw [meantNames]
  exact fun a sub => h a sub

theorem inNames_heading (id : List Byte) {ns : List Node} (h : ∀ a sub, ns ≠ [.link (35 :: a) sub]) :
    inNames (.heading id ns) = inNamesAll ns := by
  rw [inNames]
  exact fun a sub => h a sub

mutual
theorem plain_shown (span : List Byte → Option (List Byte)) (fix : List Byte → List Byte) (d : List Byte) :
    ∀ n : Node, Plain n → shown (some (fix d)) n = (meant (some d) n).map (Run.resolved span fix)
  | .text t, _ => by simp [shown, meant, Run.resolved]
  | .code t, _ => by simp [shown, meant, Run.resolved]
  | .link .., h => by rw [Plain] at h; exact h.elim
  | .heading .., h => by rw [Plain] at h; exact h.elim
  | .other k ns, h => by
    rw [Plain] at h
    rw [shown, meant]
    exact plainAll_shown span fix d ns h
theorem plainAll_shown (span : List Byte → Option (List Byte)) (fix : List Byte → List Byte) (d : List Byte) :
    ∀ ns : List Node, PlainAll ns → shownAll (some (fix d)) ns = (meantAll (some d) ns).map (Run.resolved span fix)
  | [], _ => rfl
  | n :: ns, h => by
    rw [PlainAll] at h
    rw [shownAll, meantAll, List.map_append, plain_shown span fix d n h.1, plainAll_shown span fix d ns h.2]
end

mutual
theorem plain_link (d : List Byte) : ∀ n : Node, Plain n → ∀ r ∈ meant (some d) n, r.link = some d
  | .text t, _ => by simp [meant]
  | .code t, _ => by simp [meant]
  | .link .., h => by rw [Plain] at h; exact h.elim
  | .heading .., h => by rw [Plain] at h; exact h.elim
  | .other k ns, h => by
    rw [Plain] at h
    rw [meant]
    exact plainAll_link d ns h
theorem plainAll_link (d : List Byte) : ∀ ns : List Node, PlainAll ns → ∀ r ∈ meantAll (some d) ns, r.link = some d
  | [], _ => by simp [meantAll]
  | n :: ns, h => by
    rw [PlainAll] at h
    rw [meantAll]
    intro r hr
    rcases List.mem_append.1 hr with hr | hr
    · exact plain_link d n h.1 r hr
    · exact plainAll_link d ns h.2 r hr
end

mutual
theorem plain_names : ∀ n : Node, Plain n → names n = [] ∧ meantNames n = []
  | .text t, _ => ⟨by rw [names], by rw [meantNames]⟩
  | .code t, _ => ⟨by rw [names], by rw [meantNames]⟩
  | .link .., h => by rw [Plain] at h; exact h.elim
  | .heading .., h => by rw [Plain] at h; exact h.elim
  | .other k ns, h => by
    rw [Plain] at h
    rw [names, meantNames]
    exact plainAll_names ns h
theorem plainAll_names : ∀ ns : List Node, PlainAll ns → namesAll ns = [] ∧ meantNamesAll ns = []
  | [], _ => ⟨rfl, rfl⟩
  | n :: ns, h => by
    rw [PlainAll] at h
    rw [namesAll, meantNamesAll, (plain_names n h.1).1, (plain_names n h.1).2, (plainAll_names ns h.2).1,
      (plainAll_names ns h.2).2]
    exact ⟨rfl, rfl⟩
end

mutual
theorem plain_flat : ∀ n : Node, Plain n → Flat n
  | .text t, _ => by rw [Flat]; trivial
  | .code t, _ => by rw [Flat]; trivial
  | .link .., h => by rw [Plain] at h; exact h.elim
  | .heading .., h => by rw [Plain] at h; exact h.elim
  | .other k ns, h => by
    rw [Plain] at h
    rw [Flat]
    exact plainAll_flat ns h
theorem plainAll_flat : ∀ ns : List Node, PlainAll ns → FlatAll ns
  | [], _ => trivial
  | n :: ns, h => by
    rw [PlainAll] at h
    rw [FlatAll]
    exact ⟨plain_flat n h.1, plainAll_flat ns h.2⟩
end

theorem flat_named {a : List Byte} {sub : List Node} (h : FlatAll [.link (35 :: a) sub]) : FlatAll sub := by
  rw [FlatAll, Flat] at h
  exact plainAll_flat sub h.1

mutual
theorem visit_shown (span : List Byte → Option (List Byte)) (ids : Ids) :
    ∀ (n : Node) (o : Bool) (m : Node), Flat n → visit span ids o n = some m →
      shown none m = (meant none n).map (Run.resolved span (fixLink ids)) ∧ names m = meantNames n
  | .text t, o, m, _, h => by
    rw [visit] at h
    cases h
    exact ⟨by simp [shown, meant, Run.resolved], by rw [names, meantNames]⟩
  | .code t, o, m, _, h => by
    rw [visit] at h
    cases hs : span t with
    | none => rw [hs] at h; cases h
    | some d =>
      rw [hs] at h
      cases d with
      | nil =>
        cases h
        exact ⟨by simp [shown, meant, Run.resolved, hs], by rw [names, meantNames]⟩
      | cons c d =>
        dsimp only at h
        split at h
        · cases h
        · cases h
          exact ⟨by simp [shown, shownAll, meant, Run.resolved, hs], by simp [names, namesAll, meantNames]⟩
  | .link d ns, o, m, hf, h => by
    rw [visit] at h
    cases h
    rw [Flat] at hf
    rw [shown, meant, names, meantNames, (plainAll_names ns hf).1, (plainAll_names ns hf).2]
    exact ⟨plainAll_shown span (fixLink ids) d ns hf, rfl⟩
  | .heading id ns, o, m, hf, h => by
    rw [Flat] at hf
    rcases heading_cases ns with ⟨a, sub, rfl⟩ | hn
    · rw [visit_named] at h
      obtain ⟨ms, h1, rfl⟩ := Option.map_eq_some_iff.1 h
      obtain ⟨k1, k2⟩ := visitAll_shown span ids sub true ms (flat_named hf) h1
      rw [shown, meant, names, meantNames, k1, k2]
      exact ⟨rfl, rfl⟩
    · rw [visit_heading span ids o id hn] at h
      obtain ⟨ms, h1, rfl⟩ := Option.map_eq_some_iff.1 h
      obtain ⟨k1, k2⟩ := visitAll_shown span ids ns false ms hf h1
      rw [shown, meant_heading none id hn, names, meantNames_heading id hn, k1, k2]
      exact ⟨rfl, rfl⟩
  | .other k ns, o, m, hf, h => by
    rw [Flat] at hf
    rw [visit] at h
    obtain ⟨ms, h1, rfl⟩ := Option.map_eq_some_iff.1 h
    obtain ⟨k1, k2⟩ := visitAll_shown span ids ns false ms hf h1
    rw [shown, meant, names, meantNames, k1, k2]
    exact ⟨rfl, rfl⟩
termination_by n => sizeOf n
theorem visitAll_shown (span : List Byte → Option (List Byte)) (ids : Ids) :
    ∀ (ns : List Node) (o : Bool) (ms : List Node), FlatAll ns → visitAll span ids o ns = some ms →
      shownAll none ms = (meantAll none ns).map (Run.resolved span (fixLink ids)) ∧ namesAll ms = meantNamesAll ns
  | [], o, ms, _, h => by
    rw [visitAll] at h
    cases h
    exact ⟨rfl, rfl⟩
  | n :: ns, o, ms, hf, h => by
    rw [FlatAll] at hf
    rw [visitAll] at h
    cases h1 : visit span ids o n with
    | none => rw [h1] at h; cases h
    | some m =>
      rw [h1] at h
      obtain ⟨ms, h2, rfl⟩ := Option.map_eq_some_iff.1 h
      obtain ⟨k1, k2⟩ := visit_shown span ids n o m hf.1 h1
      obtain ⟨k3, k4⟩ := visitAll_shown span ids ns o ms hf.2 h2
      rw [shownAll, meantAll, namesAll, meantNamesAll, k1, k2, k3, k4, List.map_append]
      exact ⟨rfl, rfl⟩
termination_by ns => sizeOf ns
end

/-- What may go wrong with the pieces of code. -/
def CodeOk (span : List Byte → Option (List Byte)) (rs : List Run) : Prop :=
  ∀ r ∈ rs, r.code = true → r.link = none → span r.text ≠ none

/-- No piece of code leads anywhere. -/
def Nowhere (span : List Byte → Option (List Byte)) (ts : List (List Byte)) : Prop :=
  ∀ t ∈ ts, ∀ d, span t = some d → d = []

theorem codeOk_append {span : List Byte → Option (List Byte)} {a b : List Run} :
    CodeOk span (a ++ b) ↔ CodeOk span a ∧ CodeOk span b := by
  unfold CodeOk
  simp only [List.mem_append]
  grind

theorem nowhere_append {span : List Byte → Option (List Byte)} {a b : List (List Byte)} :
    Nowhere span (a ++ b) ↔ Nowhere span a ∧ Nowhere span b := by
  unfold Nowhere
  simp only [List.mem_append]
  grind

theorem codesOf_cons (n : Node) (ns : List Node) : codesOf (n :: ns) = codesOf [n] ++ codesOf ns := by
  cases n <;> simp [codesOf]

mutual
theorem visit_ok (span : List Byte → Option (List Byte)) (ids : Ids) :
    ∀ (n : Node) (o : Bool), Flat n → ((∃ m, visit span ids o n = some m) ↔
      CodeOk span (meant none n) ∧ Nowhere span (inNames n) ∧ (o = true → Nowhere span (codesOf [n])))
  | .text t, o, _ => by simp [visit, meant, inNames, codesOf, CodeOk, Nowhere]
  | .code t, o, _ => by
    rw [visit, meant, inNames]
    cases hs : span t with
    | none => simp [CodeOk, hs]
    | some d =>
      cases d with
      | nil => simp [CodeOk, Nowhere, hs, codesOf]
      | cons c d => cases o <;> simp [CodeOk, Nowhere, hs, codesOf]
  | .link d ns, o, hf => by
    rw [Flat] at hf
    rw [visit, meant, inNames]
    simp only [Option.some.injEq, exists_eq', true_iff]
    refine ⟨fun r hr _ hl => ?_, by simp [Nowhere], by simp [Nowhere, codesOf]⟩
    rw [plainAll_link d ns hf r hr] at hl
    cases hl
  | .heading id ns, o, hf => by
    rw [Flat] at hf
    have hc : codesOf [.heading id ns] = [] := by simp [codesOf]
    rcases heading_cases ns with ⟨a, sub, rfl⟩ | hn
    · have := visitAll_ok span ids sub true (flat_named hf)
      rw [visit_named, meant, inNames, hc, nowhere_append]
      simp only [Option.map_eq_some_iff]
      constructor
      · rintro ⟨m, ms, h, -⟩
        obtain ⟨h1, h2, h3⟩ := this.1 ⟨ms, h⟩
        exact ⟨h1, ⟨h3 rfl, h2⟩, by simp [Nowhere]⟩
      · rintro ⟨h1, ⟨h2, h3⟩, -⟩
        obtain ⟨ms, h⟩ := this.2 ⟨h1, h3, fun _ => h2⟩
        exact ⟨_, ms, h, rfl⟩
    · have := visitAll_ok span ids ns false hf
      rw [visit_heading span ids o id hn, meant_heading none id hn, inNames_heading id hn, hc]
      simp only [Option.map_eq_some_iff]
      constructor
      · rintro ⟨m, ms, h, -⟩
        obtain ⟨h1, h2, h3⟩ := this.1 ⟨ms, h⟩
        exact ⟨h1, h2, by simp [Nowhere]⟩
      · rintro ⟨h1, h2, -⟩
        obtain ⟨ms, h⟩ := this.2 ⟨h1, h2, by simp⟩
        exact ⟨_, ms, h, rfl⟩
  | .other k ns, o, hf => by
    rw [Flat] at hf
    have hc : codesOf [.other k ns] = [] := by simp [codesOf]
    have := visitAll_ok span ids ns false hf
    rw [visit, meant, inNames, hc]
    simp only [Option.map_eq_some_iff]
    constructor
    · rintro ⟨m, ms, h, -⟩
      obtain ⟨h1, h2, h3⟩ := this.1 ⟨ms, h⟩
      exact ⟨h1, h2, by simp [Nowhere]⟩
    · rintro ⟨h1, h2, -⟩
      obtain ⟨ms, h⟩ := this.2 ⟨h1, h2, by simp⟩
      exact ⟨_, ms, h, rfl⟩
termination_by n => sizeOf n
theorem visitAll_ok (span : List Byte → Option (List Byte)) (ids : Ids) :
    ∀ (ns : List Node) (o : Bool), FlatAll ns → ((∃ ms, visitAll span ids o ns = some ms) ↔
      CodeOk span (meantAll none ns) ∧ Nowhere span (inNamesAll ns) ∧ (o = true → Nowhere span (codesOf ns)))
  | [], o, _ => by simp [visitAll, meantAll, inNamesAll, codesOf, CodeOk, Nowhere]
  | n :: ns, o, hf => by
    rw [FlatAll] at hf
    have h1 := visit_ok span ids n o hf.1
    have h2 := visitAll_ok span ids ns o hf.2
    rw [visitAll, meantAll, inNamesAll, codesOf_cons, codeOk_append, nowhere_append, nowhere_append]
    cases hv : visit span ids o n with
    | none =>
      rw [hv] at h1
      simp only [reduceCtorEq, exists_false, false_iff] at h1 ⊢
      rintro ⟨⟨a, -⟩, ⟨b, -⟩, c⟩
      exact h1 ⟨a, b, fun ho => (c ho).1⟩
    | some m =>
      obtain ⟨a, b, c⟩ := h1.1 ⟨m, hv⟩
      simp only [Option.map_eq_some_iff]
      constructor
      · rintro ⟨_, ms, h, -⟩
        obtain ⟨a', b', c'⟩ := h2.1 ⟨ms, h⟩
        exact ⟨⟨a, a'⟩, ⟨b, b'⟩, fun ho => ⟨c ho, c' ho⟩⟩
      · rintro ⟨⟨-, a'⟩, ⟨-, b'⟩, c'⟩
        obtain ⟨ms, h⟩ := h2.2 ⟨a', b', fun ho => (c' ho).2⟩
        exact ⟨_, ms, h, rfl⟩
termination_by ns => sizeOf ns
end

/-! ## Links to pages -/

theorem findByte_none {c : Byte} {s : List Byte} : Str.findByte (· == c) 0 s < 0 ↔ c ∉ s := by
  rcases Str.C50_find_first (· == c) 0 s with ⟨h1, h2⟩ | ⟨k, h1, -, ⟨hk, h2⟩, -⟩
  · rw [h1]
    refine ⟨fun _ hm => ?_, fun _ => by omega⟩
    obtain ⟨j, hj, he⟩ := List.mem_iff_getElem.1 hm
    have := h2 j hj (by omega)
    simp [he] at this
  · rw [h1]
    refine ⟨fun h => absurd h (by omega), fun hn => absurd (List.getElem_mem hk) ?_⟩
    rw [beq_iff_eq.1 h2]
    exact hn

theorem findByte_at {c : Byte} {a b : List Byte} (h : c ∉ a) : Str.findByte (· == c) 0 (a ++ c :: b) = a.length := by
  rcases Str.C50_find_first (· == c) 0 (a ++ c :: b) with ⟨-, h2⟩ | ⟨k, h1, -, ⟨hk, h2⟩, h3⟩
  · have := h2 a.length (by simp) (by omega)
    simp at this
  · rw [h1]
    congr 1
    rcases Nat.lt_trichotomy k a.length with hl | hl | hl
    · rw [List.getElem_append_left hl] at h2
      exact absurd (beq_iff_eq.1 h2 ▸ List.getElem_mem hl) h
    · exact hl
    · have := h3 a.length (by simp) (by omega) hl
      simp at this

end Verif.DocText
