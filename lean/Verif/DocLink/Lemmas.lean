import Verif.DocLink.Spec
import Verif.Str.Props
/-!
# Links from documentation to classes and members — lemmas
-/
namespace Verif.DocLink
open Verif Spec

theorem less_iff {a b : List Byte} (ha : a.length < 2 ^ 31) (hb : b.length < 2 ^ 31) : less a b = true ↔ a < b := by
  unfold less
  rw [decide_eq_true_eq]
  exact (Str.C15_compare_sign_partial a b ha hb).1

theorem lt_or {a b : List Byte} (ha : a.length < 2 ^ 31) (hb : b.length < 2 ^ 31) : a < b ∨ a = b ∨ b < a := by
  obtain ⟨h1, h2, h3⟩ := Str.C15_compare_sign_partial a b ha hb
  rw [← h1, ← h2, ← h3]
  omega

theorem lt_ne {a b : List Byte} (h : a < b) : a ≠ b := by
  rintro rfl
  exact List.lt_irrefl a h

/-- What is found at the first item not less than a name, in a list in order. -/
theorem first_ge {α : Type} (key : α → List Byte) {n : List Byte} (hn : n.length < 2 ^ 31) :
    ∀ l : List α, (∀ x ∈ l, (key x).length < 2 ^ 31) → (l.Pairwise fun a b => ¬ key b < key a) →
      (∃ a c b, l = a ++ c :: b ∧ key c = n ∧ (∀ x ∈ a, key x ≠ n) ∧
        (l.dropWhile fun x => less (key x) n) = c :: b) ∨
      ((∀ x ∈ l, key x ≠ n) ∧ ∀ c b, (l.dropWhile fun x => less (key x) n) = c :: b → key c ≠ n)
  | [], _, _ => .inr ⟨by simp, by simp⟩
  | x :: l, hl, h => by
    have hk : (key x).length < 2 ^ 31 := hl x List.mem_cons_self
    obtain ⟨h1, h2⟩ := List.pairwise_cons.1 h
    by_cases hx : less (key x) n = true
    · rw [List.dropWhile_cons_of_pos (p := fun x => less (key x) n) hx]
      have hne := lt_ne ((less_iff hk hn).1 hx)
      rcases first_ge key hn l (fun y hy => hl y (List.mem_cons_of_mem _ hy)) h2 with ⟨a, c, b, e1, e2, e3, e4⟩ | ⟨e1, e2⟩
      · refine .inl ⟨x :: a, c, b, by rw [e1]; rfl, e2, ?_, e4⟩
        intro y hy
        rcases List.mem_cons.1 hy with rfl | hy
        · exact hne
        · exact e3 y hy
      · refine .inr ⟨?_, e2⟩
        intro y hy
        rcases List.mem_cons.1 hy with rfl | hy
        · exact hne
        · exact e1 y hy
    · rw [List.dropWhile_cons_of_neg (p := fun x => less (key x) n) hx]
      by_cases he : key x = n
      · exact .inl ⟨[], x, l, rfl, he, by simp, rfl⟩
      · have hlt : n < key x := by
          rcases lt_or hk hn with h | h | h
          · exact absurd ((less_iff hk hn).2 h) hx
          · exact absurd h he
          · exact h
        refine .inr ⟨?_, fun c b hcb => ?_⟩
        · intro y hy
          rcases List.mem_cons.1 hy with rfl | hy
          · exact he
          · intro hyn
            exact h1 y hy (hyn ▸ hlt)
        · cases hcb
          exact he

theorem declares_unique {w : World} {s : Nat} {n : List Byte} {e e' : Nat} (h : Declares w s n e)
    (h' : Declares w s n e') : e = e' := by
  obtain ⟨a, b, h1, h2, h3⟩ := h
  obtain ⟨a', b', k1, k2, k3⟩ := h'
  rw [h1] at k1
  rcases List.append_eq_append_iff.1 k1 with ⟨c, e1, e2⟩ | ⟨c, e1, e2⟩
  · cases c with
    | nil => simp at e2; exact e2.1
    | cons y c =>
      simp at e2
      exact absurd h2 (k3 e (by rw [e1]; simp [e2.1]))
  · cases c with
    | nil => simp at e2; exact e2.1.symm
    | cons y c =>
      simp at e2
      exact absurd k2 (h3 e' (by rw [e1]; simp [e2.1]))

theorem declares_mem {w : World} {s : Nat} {n : List Byte} {e : Nat} (h : Declares w s n e) :
    e ∈ (w s).children ∧ (w e).name = n := by
  obtain ⟨a, b, h1, h2, -⟩ := h
  exact ⟨by rw [h1]; simp, h2⟩

/-- What is found in a scope itself. -/
theorem decl_cases {w : World} {depth : Nat → Nat} (hw : Wf w depth) (s : Nat) {n : List Byte} (hn : n.length < 2 ^ 31) :
    (∃ c b, fromName w n (w s).children = c :: b ∧ (w c).name = n ∧ Declares w s n c) ∨
    (Lacks w s n ∧ ∀ c b, fromName w n (w s).children = c :: b → (w c).name ≠ n) := by
  rcases first_ge (fun c => (w c).name) hn (w s).children (fun c _ => hw.short c) (hw.sorted s) with ⟨a, c, b, e1, e2, e3, e4⟩ | h
  · exact .inl ⟨c, b, e4, e2, a, b, e1, e2, e3⟩
  · exact .inr h

theorem not_declares {w : World} {s : Nat} {n : List Byte} (h : Lacks w s n) (e : Nat) : ¬ Declares w s n e :=
  fun hd => h e (declares_mem hd).1 (declares_mem hd).2

theorem lookup_up {w : World} {depth : Nat → Nat} (hw : Wf w depth) {n : List Byte} (hn : n.length < 2 ^ 31) :
    ∀ (fuel s : Nat), depth s < fuel → ∃ r, lookup w fuel s n true = some r ∧ ∀ e, r = some e ↔ Visible w s n e
  | 0, _, h => absurd h (by omega)
  | fuel + 1, s, h => by
    rw [lookup]
    rcases decl_cases hw s hn with ⟨c, b, h1, h2, h3⟩ | ⟨h1, h2⟩
    · rw [h1]
      dsimp only
      rw [if_pos h2]
      refine ⟨some c, rfl, fun e => ⟨?_, ?_⟩⟩
      · rintro ⟨⟩
        exact .here h3
      · intro hv
        cases hv with
        | here hd => rw [declares_unique h3 hd]
        | up hl _ _ => exact absurd h3 (not_declares hl c)
    · have key : ∃ r, (match (w s).parent with
          | some p => lookup w fuel p n true
          | none => some none) = some r ∧ ∀ e, r = some e ↔ Visible w s n e := by
        cases hp : (w s).parent with
        | none =>
          refine ⟨none, rfl, fun e => ⟨fun he => (nomatch he), fun hv => ?_⟩⟩
          cases hv with
          | here hd => exact absurd hd (not_declares h1 e)
          | up _ hq _ => rw [hp] at hq; cases hq
        | some p =>
          obtain ⟨r, hr, hr'⟩ := lookup_up hw hn fuel p (by have := hw.up s p hp; omega)
          refine ⟨r, hr, fun e => (hr' e).trans ⟨fun hv => .up h1 hp hv, fun hv => ?_⟩⟩
          cases hv with
          | here hd => exact absurd hd (not_declares h1 e)
          | up _ hq hv => rw [hp] at hq; cases hq; exact hv
      split
      · rename_i c b hc
        rw [if_neg (h2 c b hc), if_pos rfl]
        exact key
      · rw [if_pos rfl]
        exact key

theorem lookup_here {w : World} {depth : Nat → Nat} (hw : Wf w depth) {n : List Byte} (hn : n.length < 2 ^ 31)
    {fuel : Nat} (hf : 0 < fuel) (s : Nat) :
    ∃ r, lookup w fuel s n false = some r ∧ ∀ e, r = some e ↔ Declares w s n e := by
  obtain ⟨fuel, rfl⟩ : ∃ k, fuel = k + 1 := ⟨fuel - 1, by omega⟩
  rw [lookup]
  rcases decl_cases hw s hn with ⟨c, b, h1, h2, h3⟩ | ⟨h1, h2⟩
  · rw [h1]
    dsimp only
    rw [if_pos h2]
    exact ⟨some c, rfl, fun e => ⟨by rintro ⟨⟩; exact h3, fun hd => by rw [declares_unique h3 hd]⟩⟩
  · have key : ∀ e, (none : Option Nat) = some e ↔ Declares w s n e :=
      fun e => ⟨fun he => (nomatch he), fun hd => absurd hd (not_declares h1 e)⟩
    split
    · rename_i c b hc
      rw [if_neg (h2 c b hc), if_neg (by decide)]
      exact ⟨none, rfl, key⟩
    · rw [if_neg (by decide)]
      exact ⟨none, rfl, key⟩

theorem chain_spec {w : World} {depth : Nat → Nat} (hw : Wf w depth) {fuel : Nat} (hf : 0 < fuel) :
    ∀ (ns : List (List Byte)) (x : Nat), (∀ n ∈ ns, n.length < 2 ^ 31) →
      ∃ r, chainLoop w fuel false x ns = some r ∧ ∀ e, r = some e ↔ Path w x ns e
  | [], x, _ => ⟨some x, rfl, fun e => ⟨by rintro ⟨⟩; exact .nil, fun h => by cases h; rfl⟩⟩
  | n :: ns, x, h => by
    rw [chainLoop]
    by_cases hk : (w x).kind = .namespace ∨ (w x).kind = .class
    · rw [if_neg (by rcases hk with hk | hk <;> simp [hk])]
      obtain ⟨r, h1, h2⟩ := lookup_here hw (h n List.mem_cons_self) hf x
      rw [h1]
      cases r with
      | none =>
        refine ⟨none, rfl, fun e => ⟨fun he => (nomatch he), fun hp => ?_⟩⟩
        cases hp with
        | cons _ hd _ => exact absurd ((h2 _).2 hd) (by simp)
      | some c =>
        obtain ⟨r, h3, h4⟩ := chain_spec hw hf ns c fun m hm => h m (List.mem_cons_of_mem _ hm)
        refine ⟨r, h3, fun e => (h4 e).trans ⟨fun hp => .cons hk ((h2 c).1 rfl) hp, fun hp => ?_⟩⟩
        cases hp with
        | cons _ hd hp =>
          rw [declares_unique ((h2 c).1 rfl) hd]
          exact hp
    · have hk' := not_or.1 hk
      rw [if_pos (by simp [hk'.1, hk'.2])]
      refine ⟨none, rfl, fun e => ⟨fun he => (nomatch he), fun hp => ?_⟩⟩
      cases hp with
      | cons hk'' _ _ => exact absurd hk'' hk

theorem lookupChain_spec {w : World} {depth : Nat → Nat} (hw : Wf w depth) {fuel s : Nat} (hf : depth s < fuel)
    {comps : List (List Byte)} (hc : ∀ n ∈ comps, n.length < 2 ^ 31) :
    ∃ r, lookupChain w fuel s comps = some r ∧ ∀ e, r = some e ↔ Means w s comps e := by
  unfold lookupChain
  cases comps with
  | nil =>
    refine ⟨none, rfl, fun e => ⟨fun he => (nomatch he), ?_⟩⟩
    rintro ⟨n, ns, x, h, -⟩
    cases h
  | cons n ns =>
    rw [if_neg (by simp), chainLoop, if_neg (by simp)]
    obtain ⟨r, h1, h2⟩ := lookup_up hw (hc n List.mem_cons_self) fuel s hf
    rw [h1]
    cases r with
    | none =>
      refine ⟨none, rfl, fun e => ⟨fun he => (nomatch he), ?_⟩⟩
      rintro ⟨n', ns', x, h, hv, -⟩
      cases h
      exact absurd ((h2 x).2 hv) (by simp)
    | some c =>
      obtain ⟨r, h3, h4⟩ := chain_spec hw (by omega : 0 < fuel) ns c fun m hm => hc m (List.mem_cons_of_mem _ hm)
      refine ⟨r, h3, fun e => (h4 e).trans ⟨fun hp => ⟨n, ns, c, rfl, (h2 c).1 rfl, hp⟩, ?_⟩⟩
      rintro ⟨n', ns', x, h, hv, hp⟩
      cases h
      have := (h2 x).2 hv
      cases this
      exact hp

/-! ## Pages -/

theorem pageOf_unique {pages : Pages} {e : Nat} {d d' : List Byte} (h : PageOf pages e d) (h' : PageOf pages e d') :
    d = d' := by
  obtain ⟨a, b, h1, h3⟩ := h
  obtain ⟨a', b', k1, k3⟩ := h'
  rw [h1] at k1
  rcases List.append_eq_append_iff.1 k1 with ⟨c, e1, e2⟩ | ⟨c, e1, e2⟩
  · cases c with
    | nil => simp at e2; exact e2.1
    | cons y c =>
      simp at e2
      exact absurd rfl (k3 (e, d) (by rw [e1]; simp [e2.1]))
  · cases c with
    | nil => simp at e2; exact e2.1.symm
    | cons y c =>
      simp at e2
      exact absurd rfl (h3 (e, d') (by rw [e1]; simp [e2.1]))

/-- From an item on, in order, the loop finds the first entry of the target, if no entry of its name comes later after
another name. -/
theorem pageLoop_spec (w : World) (target : Nat) (suffix : List Byte) (hk : ∀ e, (w e).name.length < 2 ^ 31) :
    ∀ (pages : Pages), (pages.Pairwise fun a b => ¬ (w b.1).name < (w a.1).name) →
      (∀ x ∈ pages, ¬ (w x.1).name < (w target).name) →
      (∃ d, PageOf pages target d ∧ pageLoop w target suffix pages = d ++ suffix) ∨
      ((∀ x ∈ pages, x.1 ≠ target) ∧ pageLoop w target suffix pages = [])
  | [], _, _ => .inr ⟨by simp, rfl⟩
  | (e, d) :: rest, h, hge => by
    obtain ⟨h1, h2⟩ := List.pairwise_cons.1 h
    rw [pageLoop]
    by_cases hn : (w e).name = (w target).name
    · rw [if_pos hn]
      by_cases he : e = target
      · rw [if_pos he]
        exact .inl ⟨d, ⟨[], rest, by rw [he]; rfl, by simp⟩, rfl⟩
      · rw [if_neg he]
        rcases pageLoop_spec w target suffix hk rest h2 fun x hx => hge x (List.mem_cons_of_mem _ hx) with
          ⟨d', ⟨a, b, e1, e2⟩, e3⟩ | ⟨e1, e2⟩
        · refine .inl ⟨d', ⟨(e, d) :: a, b, by rw [e1]; rfl, ?_⟩, e3⟩
          intro x hx
          rcases List.mem_cons.1 hx with rfl | hx
          · exact he
          · exact e2 x hx
        · refine .inr ⟨?_, e2⟩
          intro x hx
          rcases List.mem_cons.1 hx with rfl | hx
          · exact he
          · exact e1 x hx
    · rw [if_neg hn]
      refine .inr ⟨?_, rfl⟩
      have hlt : (w target).name < (w e).name := by
        rcases lt_or (hk e) (hk target) with h | h | h
        · exact absurd h (hge _ List.mem_cons_self)
        · exact absurd h hn
        · exact h
      intro x hx
      rcases List.mem_cons.1 hx with rfl | hx
      · rintro rfl
        exact hn rfl
      · intro hxt
        exact h1 x hx (by rw [hxt]; exact hlt)

theorem pages_split (w : World) (target : Nat) (suffix : List Byte) (hk : ∀ e, (w e).name.length < 2 ^ 31) :
    ∀ (pages : Pages), (pages.Pairwise fun a b => ¬ (w b.1).name < (w a.1).name) →
      (∃ d, PageOf pages target d ∧ pageOf w pages target suffix = d ++ suffix) ∨
      ((∀ x ∈ pages, x.1 ≠ target) ∧ pageOf w pages target suffix = [])
  | [], _ => .inr ⟨by simp, rfl⟩
  | (e, d) :: rest, h => by
    obtain ⟨h1, h2⟩ := List.pairwise_cons.1 h
    unfold pageOf
    by_cases hx : less (w e).name (w target).name = true
    · rw [List.dropWhile_cons_of_pos (p := fun x : Nat × List Byte => less (w x.1).name (w target).name) hx]
      have hne : e ≠ target := by
        rintro rfl
        exact lt_ne ((less_iff (hk e) (hk e)).1 hx) rfl
      rcases pages_split w target suffix hk rest h2 with ⟨d', ⟨a, b, e1, e2⟩, e3⟩ | ⟨e1, e2⟩
      · refine .inl ⟨d', ⟨(e, d) :: a, b, by rw [e1]; rfl, ?_⟩, e3⟩
        intro x hx
        rcases List.mem_cons.1 hx with rfl | hx
        · exact hne
        · exact e2 x hx
      · refine .inr ⟨?_, e2⟩
        intro x hx
        rcases List.mem_cons.1 hx with rfl | hx
        · exact hne
        · exact e1 x hx
    · rw [List.dropWhile_cons_of_neg (p := fun x : Nat × List Byte => less (w x.1).name (w target).name) hx]
      have hnl : ¬ (w e).name < (w target).name := fun hl => hx ((less_iff (hk _) (hk _)).2 hl)
      refine pageLoop_spec w target suffix hk _ h ?_
      intro x hx
      rcases List.mem_cons.1 hx with rfl | hx
      · exact hnl
      · intro hlt
        rcases lt_or (hk e) (hk target) with h | h | h
        · exact hnl h
        · exact h1 x hx (h ▸ hlt)
        · exact h1 x hx (List.lt_trans hlt h)

end Verif.DocLink
