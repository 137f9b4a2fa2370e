import Verif.Names.Lemmas
/-!
# Names — lemmas on visiting repos
-/
namespace Verif.Names
open Verif

theorem nodup_length_le (n : Nat) : ∀ (l : List Nat), l.Nodup → (∀ x ∈ l, x < n) → l.length ≤ n := by
  induction n with
  | zero =>
    intro l _ h
    cases l with
    | nil => simp
    | cons a l => exact absurd (h a (by simp)) (by omega)
  | succ n ih =>
    intro l hl h
    have h1 := ih (l.erase n) (hl.erase n) (fun x hx => by
      have hm := (hl.mem_erase_iff).1 hx
      have := h x hm.2
      omega)
    have h2 := List.length_erase (a := n) (l := l)
    split at h2 <;> omega

theorem mem_children {W : Registry} {r c : Nat} :
    c ∈ children W r ↔ ∃ R, W[r]? = some R ∧ c ∈ R.children := by
  unfold children
  cases h : W[r]? with
  | none => simp
  | some R => simp

/-- What a visit has to establish. -/
structure Visited (W : Registry) (go : Nat → Bool) (roots : List Nat) (checked new : List Nat) : Prop where
  nodup : (checked ++ new).Nodup
  range : ∀ x ∈ new, x < W.length
  root : ∀ r ∈ roots, r ∈ checked ++ new
  from_ : ∀ x ∈ new, ∃ r ∈ roots, Spec.Reach W r x
  closed : ∀ x ∈ new, go x = true → ∀ c ∈ children W x, c ∈ checked ++ new

theorem reach_head {W : Registry} {r c x : Nat} (h : c ∈ children W r) (hx : Spec.Reach W c x) :
    Spec.Reach W r x := by
  induction hx with
  | refl =>
    obtain ⟨R, hR, hc⟩ := mem_children.1 h
    exact .step .refl hR hc
  | step _ h1 h2 ih => exact .step ih h1 h2

theorem visit_spec {σ : Type} {W : Registry} (hW : Spec.Good W) (cb : σ → Nat → σ) (go : Nat → Bool) :
    ∀ (fuel : Nat) (r : Nat) (checked : List Nat) (s : σ), checked.Nodup → (∀ x ∈ checked, x < W.length) →
      r < W.length → W.length - checked.length < fuel →
      ∃ new, visit W cb go fuel r (checked, s) = some (checked ++ new, new.foldl cb s) ∧
        Visited W go [r] checked new := by
  intro fuel
  induction fuel with
  | zero => intro r checked s _ _ _ h; omega
  | succ fuel ih =>
    intro r checked s hnd hrg hr hf
    unfold visit
    by_cases hm : r ∈ checked
    · rw [if_pos hm]
      exact ⟨[], by simp, by simpa using hnd, by simp, by simpa using hm, by simp, by simp⟩
    · rw [if_neg hm]
      have hnd1 : (checked ++ [r]).Nodup := by
        rw [List.nodup_append]
        exact ⟨hnd, by simp, fun a ha b hb => by simp at hb; subst hb; intro e; exact hm (e ▸ ha)⟩
      have hrg1 : ∀ x ∈ checked ++ [r], x < W.length := by
        intro x hx
        rcases List.mem_append.1 hx with hx | hx
        · exact hrg x hx
        · simp at hx; omega
      have hlen := nodup_length_le W.length (checked ++ [r]) hnd1 hrg1
      simp at hlen
      by_cases hg : go r = true
      · rw [if_pos hg]
        -- the loop over the children
        have loop : ∀ (cs : List Nat) (chk : List Nat) (s : σ), chk.Nodup → (∀ x ∈ chk, x < W.length) →
            (∀ c ∈ cs, c < W.length) → W.length - chk.length < fuel →
            ∃ new, cs.foldlM (fun acc c => visit W cb go fuel c acc) (chk, s) =
                some (chk ++ new, new.foldl cb s) ∧ Visited W go cs chk new := by
          intro cs
          induction cs with
          | nil =>
            intro chk s h1 h2 _ _
            exact ⟨[], by simp, by simpa using h1, by simp, by simp, by simp, by simp⟩
          | cons c cs ihc =>
            intro chk s h1 h2 h3 h4
            obtain ⟨n1, e1, v1⟩ := ih c chk s h1 h2 (h3 c (by simp)) h4
            obtain ⟨n2, e2, v2⟩ := ihc (chk ++ n1) (n1.foldl cb s) v1.nodup
              (fun x hx => by
                rcases List.mem_append.1 hx with hx | hx
                · exact h2 x hx
                · exact v1.range x hx)
              (fun d hd => h3 d (by simp [hd])) (by simp; omega)
            refine ⟨n1 ++ n2, ?_, ?_⟩
            · rw [List.foldlM_cons, e1]
              simp only [Option.bind_eq_bind, Option.bind_some]
              rw [e2, List.append_assoc, List.foldl_append]
            · refine ⟨by rw [← List.append_assoc]; exact v2.nodup, ?_, ?_, ?_, ?_⟩
              · intro x hx
                rcases List.mem_append.1 hx with hx | hx
                · exact v1.range x hx
                · exact v2.range x hx
              · intro d hd
                rw [← List.append_assoc]
                rcases List.mem_cons.1 hd with rfl | hd
                · exact List.mem_append_left _ (v1.root _ (by simp))
                · exact v2.root d hd
              · intro x hx
                rcases List.mem_append.1 hx with hx | hx
                · obtain ⟨d, hd, h⟩ := v1.from_ x hx
                  exact ⟨d, by simp at hd; simp [hd], h⟩
                · obtain ⟨d, hd, h⟩ := v2.from_ x hx
                  exact ⟨d, by simp [hd], h⟩
              · intro x hx hgx d hd
                rw [← List.append_assoc]
                rcases List.mem_append.1 hx with hx | hx
                · exact List.mem_append_left _ (v1.closed x hx hgx d hd)
                · exact v2.closed x hx hgx d hd
        obtain ⟨new, e, v⟩ := loop (children W r) (checked ++ [r]) (cb s r) hnd1 hrg1
          (fun c hc => by
            obtain ⟨R, hR, hc⟩ := mem_children.1 hc
            exact hW.closed r R hR c hc)
          (by simp; omega)
        refine ⟨r :: new, by rw [e]; simp, ?_⟩
        have ea : checked ++ r :: new = checked ++ [r] ++ new := by simp
        refine ⟨by rw [ea]; exact v.nodup, ?_, by simp, ?_, ?_⟩
        · intro x hx
          rcases List.mem_cons.1 hx with rfl | hx
          · exact hr
          · exact v.range x hx
        · intro x hx
          refine ⟨r, by simp, ?_⟩
          rcases List.mem_cons.1 hx with rfl | hx
          · exact .refl
          · obtain ⟨d, hd, h⟩ := v.from_ x hx
            exact reach_head hd h
        · intro x hx hgx d hd
          rw [ea]
          rcases List.mem_cons.1 hx with rfl | hx
          · exact v.root d hd
          · exact v.closed x hx hgx d hd
      · rw [if_neg hg]
        refine ⟨[r], by simp, hnd1, by simpa using hr, by simp, fun x hx => ⟨r, by simp, ?_⟩, ?_⟩
        · simp at hx; subst hx; exact .refl
        · intro x hx hgx
          simp at hx; subst hx
          exact absurd hgx hg

theorem visitFrom_spec {σ : Type} {W : Registry} (hW : Spec.Good W) (cb : σ → Nat → σ) (go : Nat → Bool)
    (r : Nat) (s : σ) (hr : r < W.length) :
    ∃ new : List Nat, visitFrom W cb go r s = some (new.foldl cb s) ∧ new.Nodup ∧ r ∈ new ∧
      (∀ x ∈ new, Spec.Reach W r x) ∧ (∀ x ∈ new, go x = true → ∀ c ∈ children W x, c ∈ new) := by
  obtain ⟨new, e, v⟩ := visit_spec hW cb go (W.length + 1) r [] s (by simp) (by simp) hr (by simp)
  refine ⟨new, by rw [visitFrom, e]; rfl, by simpa using v.nodup, by simpa using v.root r (by simp), ?_, ?_⟩
  · intro x hx
    obtain ⟨d, hd, h⟩ := v.from_ x hx
    simp at hd; subst hd; exact h
  · intro x hx hg c hc
    simpa using v.closed x hx hg c hc

/-- All repos that can be reached are visited if the callback always returns true. -/
theorem visitFrom_all {σ : Type} {W : Registry} (hW : Spec.Good W) (cb : σ → Nat → σ)
    (r : Nat) (s : σ) (hr : r < W.length) :
    ∃ new : List Nat, visitFrom W cb (fun _ => true) r s = some (new.foldl cb s) ∧ new.Nodup ∧
      ∀ x, x ∈ new ↔ Spec.Reach W r x := by
  obtain ⟨new, e, h1, h2, h3, h4⟩ := visitFrom_spec hW cb (fun _ => true) r s hr
  refine ⟨new, e, h1, fun x => ⟨h3 x, fun hx => ?_⟩⟩
  induction hx with
  | refl => exact h2
  | step _ hR hp ih => exact h4 _ ih rfl _ (mem_children.2 ⟨_, hR, hp⟩)

theorem called_iff {W : Registry} {r : Nat} (hr : r < W.length) (n : Name) :
    repoName W r = n ↔ Spec.Called W r n := by
  unfold repoName Spec.Called
  rw [List.getElem?_eq_getElem hr]
  simp

theorem reach_lt {W : Registry} (hW : Spec.Good W) {r x : Nat} (hr : r < W.length)
    (h : Spec.Reach W r x) : x < W.length := by
  cases h with
  | refl => exact hr
  | step _ hR hp => exact hW.closed _ _ hR _ hp

theorem foldl_last (P : Nat → Prop) [DecidablePred P] (l : List Nat) (a : Option Nat) :
    l.foldl (fun s q => if P q then some q else s) a = (l.reverse.find? (fun q => decide (P q))).or a := by
  induction l generalizing a with
  | nil => simp
  | cons x l ih =>
    rw [List.foldl_cons, ih, List.reverse_cons, List.find?_append]
    by_cases hx : P x
    · simp [hx]
    · simp [hx]

theorem findChildRepo_spec {W : Registry} (hW : Spec.Good W) {r : Nat} (hr : r < W.length) (n : Name) :
    ∃ o, findChildRepo W r n = some o ∧ ∀ q, o = some q ↔ Spec.Reach W r q ∧ Spec.Called W q n := by
  obtain ⟨new, e, h1, h2, h3, h4⟩ := visitFrom_spec hW
    (fun s q => if repoName W q = n then some q else s) (fun q => repoName W q ≠ n) r none hr
  refine ⟨_, e, fun q => ?_⟩
  rw [foldl_last (fun q => repoName W q = n), Option.or_none]
  constructor
  · intro h
    have hm := List.mem_of_find?_eq_some h
    have hp := List.find?_some h
    simp at hm hp
    have := h3 q hm
    exact ⟨this, (called_iff (reach_lt hW hr this) n).1 hp⟩
  · rintro ⟨hq, hc⟩
    have found : q ∈ new := by
      have key : ∀ x, Spec.Reach W r x → x ∈ new ∨ q ∈ new := by
        intro x hx
        induction hx with
        | refl => exact .inl h2
        | step hx hR hp ih =>
          rename_i y p R
          rcases ih with ih | ih
          · by_cases hy : repoName W y = n
            · have := hW.names y q n ((called_iff (reach_lt hW hr hx) n).1 hy) hc
              subst this
              exact .inr ih
            · exact .inl (h4 y ih (by simpa using hy) p (mem_children.2 ⟨R, hR, hp⟩))
          · exact .inr ih
      rcases key q hq with h | h <;> exact h
    cases hf : new.reverse.find? (fun q => decide (repoName W q = n)) with
    | none =>
      have := List.find?_eq_none.1 hf q (by simpa using found)
      simp at this
      exact absurd ((called_iff (reach_lt hW hr hq) n).2 hc) this
    | some p =>
      have hm := List.mem_of_find?_eq_some hf
      have hp := List.find?_some hf
      simp at hm hp
      have hp := (called_iff (reach_lt hW hr (h3 p hm)) n).1 hp
      rw [hW.names p q n hp hc]

theorem pick_end {α : Type} (p : Option α × Bool) (x : α) :
    (if p.2 then none else p.1) = some x ↔ ∃ ms, decideOn p = (some x, ms) := by
  obtain ⟨a, b⟩ := p
  cases a <;> cases b <;> simp [decideOn]

theorem recursive_spec {α : Type} {W : Registry} (hW : Spec.Good W) {r : Nat} (hr : r < W.length)
    (f : Nat → Option α) :
    ∃ o, ((visitFrom W (pick f) (fun _ => true) r (none, false)).map
        fun p => if p.2 then none else p.1) = some o ∧
      ∀ x, o = some x ↔ ∃ q, Spec.Reach W r q ∧ f q = some x ∧
        ∀ p, Spec.Reach W r p → f p ≠ none → p = q := by
  obtain ⟨new, e, h1, h2⟩ := visitFrom_all hW (pick f) r (none, false) hr
  refine ⟨_, by rw [e]; rfl, fun x => ?_⟩
  rw [pick_end]
  constructor
  · rintro ⟨ms, h⟩
    obtain ⟨_, q, hq, hx, hu⟩ := (decideOn_iff f new h1 x ms).1 h
    exact ⟨q, (h2 q).1 hq, hx, fun p hp => hu p ((h2 p).2 hp)⟩
  · rintro ⟨q, hq, hx, hu⟩
    exact ⟨[], (decideOn_iff f new h1 x []).2 ⟨rfl, q, (h2 q).2 hq, hx, fun p hp => hu p ((h2 p).1 hp)⟩⟩

end Verif.Names
