import Verif.Persist.LemmasEvolve
/-!
# Loading an object as another type — each kind of object
-/
namespace Verif.Persist
open Verif Schema Spec Schema.Spec

section
variable {env : Env} {heap : Addr → T} {u : List T}

/-- What was saved from something else is skipped. -/
theorem read_unlike {slots : List (Option Desc)} {A : T → Ref → Prop} (hA : Describes env slots A)
    {t t' : T} {r : Ref} (hr : A t r) (hw : ∀ k l, env.kind t' = .prim k l → k = 13 ∨ width k ≠ none)
    (hw' : ∀ k l, env.kind t = .prim k l → k = 13 ∨ width k ≠ none)
    (h : Unlike (env.kind t) (env.kind t')) {old : Val} (ho : Formed env t' old) (f : Nat) (c : RC) :
    read env slots (f + 1) t' r old c = orSkip old (skip slots (f + 1) r c) := by
  rw [read]
  unfold readBody
  rcases hA t r hr with ⟨k, hk, rfl⟩ | ⟨d, g, h1, h2, -⟩
  · dsimp only [format]
    rw [hk] at h
    cases hk' : env.kind t' with
    | prim k' l' =>
      rw [hk'] at h
      dsimp only
      have h : ¬(k = 13 ↔ k' = 13) := h
      by_cases e : k' = 13
      · rw [if_pos e, if_neg (by
          intro h1; cases h1; exact h ⟨fun _ => e, fun _ => rfl⟩)]
      · rw [if_neg e]
        have hk13 : k = 13 := Classical.byContradiction fun hne => h ⟨fun h => absurd h hne, fun h => absurd h e⟩
        cases hw2 : width k' with
        | none => exact absurd hw2 ((hw k' l' hk').resolve_left e)
        | some w => subst hk13; rfl
    | fixedArray n i =>
      obtain ⟨os, rfl, -⟩ := ho.fixed hk'
      rfl
    | struct n ps ms =>
      obtain ⟨os, rfl, -⟩ := ho.members hk'
      rfl
    | enumArray i e =>
      obtain ⟨os, rfl, -⟩ := ho.indexed hk'
      rfl
    | switch n ss =>
      obtain ⟨_, _, os, rfl, -⟩ := ho.state hk'
      rfl
    | array i => rfl
    | owned i => rfl
    | rawPtr i => rw [hk'] at h; exact h.elim
    | enum n s i => rw [hk'] at h; exact h.elim
    | other => rw [hk'] at h; exact h.elim
  · rw [h1]
    dsimp only
    cases hk' : env.kind t' with
    | prim k' l' =>
      dsimp only
      by_cases e : k' = 13
      · rw [if_pos e, if_neg (by nofun)]
      · rw [if_neg e]
        cases hw2 : width k' with
        | none => exact absurd hw2 ((hw k' l' hk').resolve_left e)
        | some w => rfl
    | fixedArray n i =>
      obtain ⟨os, rfl, -⟩ := ho.fixed hk'
      rw [hk'] at h
      cases hk : env.kind t with
      | fixedArray m j =>
        rw [hk, Spec.format, Option.some.injEq] at h2
        rw [hk] at h
        subst h2
        dsimp only
        rw [if_neg (fun e => h e.symm)]
      | prim | other => rw [hk] at h2; cases h2
      | _ => rw [hk, Spec.format, Option.some.injEq] at h2; subst h2; rfl
    | struct n ps ms =>
      obtain ⟨os, rfl, -⟩ := ho.members hk'
      rw [hk'] at h
      cases hk : env.kind t with
      | struct => rw [hk] at h; exact h.elim
      | prim | other => rw [hk] at h2; cases h2
      | _ => rw [hk, Spec.format, Option.some.injEq] at h2; subst h2; rfl
    | enumArray i e =>
      obtain ⟨os, rfl, -⟩ := ho.indexed hk'
      rw [hk'] at h
      cases hk : env.kind t with
      | enumArray => rw [hk] at h; exact h.elim
      | prim | other => rw [hk] at h2; cases h2
      | _ => rw [hk, Spec.format, Option.some.injEq] at h2; subst h2; rfl
    | switch n ss =>
      obtain ⟨_, _, os, rfl, -⟩ := ho.state hk'
      rw [hk'] at h
      cases hk : env.kind t with
      | switch => rw [hk] at h; exact h.elim
      | prim | other => rw [hk] at h2; cases h2
      | _ => rw [hk, Spec.format, Option.some.injEq] at h2; subst h2; rfl
    | array i =>
      rw [hk'] at h
      cases hk : env.kind t with
      | array => rw [hk] at h; exact h.elim
      | prim | other => rw [hk] at h2; cases h2
      | _ => rw [hk, Spec.format, Option.some.injEq] at h2; subst h2; rfl
    | owned i =>
      rw [hk'] at h
      cases hk : env.kind t with
      | owned => rw [hk] at h; exact h.elim
      | prim | other => rw [hk] at h2; cases h2
      | _ => rw [hk, Spec.format, Option.some.injEq] at h2; subst h2; rfl
    | rawPtr i => rw [hk'] at h; exact h.elim
    | enum n s i => rw [hk'] at h; exact h.elim
    | other => rw [hk'] at h; exact h.elim

/-- Built-in types are numbers and strings. -/
def Simple (env : Env) (u : List T) : Prop :=
  ∀ t ∈ u, ∀ k l, env.kind t = .prim k l → k = 13 ∨ width k ≠ none

theorem ev_of_like (hS : Simple env u) {t : T} (ht : t ∈ u) {v : Val} {ps : List Piece} {k : Nat}
    (hk : 0 < k) (ok : OkAt env heap t v ps k) (h : EvLike env u t v ps k) : EvAt env u t v ps k := by
  intro slots A hA f hf r hr t' hu hc old hold
  by_cases hun : Unlike (env.kind t) (env.kind t')
  · obtain ⟨f, rfl⟩ : ∃ g, f = g + 1 := ⟨f - 1, by omega⟩
    intro hh ρ c rest hi htodo
    rw [read_unlike hA hr (hS t' hu) (hS t ht) hun hold, ok.skip slots A hA _ hf r hr hh ρ c rest hi]
    exact ⟨old, _, rfl, .unlike hun, rfl, htodo, rfl⟩
  · exact h slots A hA f hf r hr t' hu hc hun old hold

/-- Each kind of object can be loaded as another type. -/
theorem obj_ev (hT : Types env u) (hS : Simple env u) {t : T} {v : Val}
    (h : HasType env heap t v) : t ∈ u → ∃ ps k, OkAt env heap t v ps k ∧ EvAt env u t v ps k := by
  induction h with
  | @num t key w n hk hw hn hb =>
    intro ht
    have ok := ok_num (heap := heap) hT hk hw hn hb
    refine ⟨_, _, ok, ev_of_like hS ht (by decide) ok ?_⟩
    intro slots A hA f hf r hr t' hu hc hun old hold hh ρ c rest hi htodo
    obtain ⟨f, rfl⟩ : ∃ g, f = g + 1 := ⟨f - 1, by omega⟩
    obtain ⟨k', l', hk'⟩ : ∃ k' l', env.kind t' = .prim k' l' := by
      cases hc with
      | unlike h => exact absurd h hun
      | num _ h => exact ⟨_, _, h⟩
      | str _ h => exact ⟨_, _, h⟩
      | enum h => rw [hk] at h; cases h
      | _ h => rw [hk] at h; cases h
    have hk13 : key ≠ 13 := fun e => by rw [e] at hw; cases hw
    have hk13' : k' ≠ 13 := fun e => hun (by
      rw [hk, hk']; exact fun h => hk13 (h.mpr e))
    obtain ⟨w', hw'⟩ : ∃ w', width k' = some w' :=
      Option.ne_none_iff_exists'.mp ((hS t' hu k' l' hk').resolve_left hk13')
    rw [render_bytes, render_nil, List.append_nil] at hi
    rcases hA t r hr with ⟨k, h1, rfl⟩ | ⟨d, f', _, h1, _⟩
    · rw [hk] at h1; cases h1
      rw [read]
      unfold readBody
      rw [hk']
      dsimp only [format]
      rw [if_neg hk13', hw', hw]
      dsimp only
      rw [readLe_bytes heap c w n rest hn hi]
      dsimp only
      rw [if_neg (by rintro ⟨h1, h2⟩; have := hb h1; omega)]
      refine ⟨_, _, rfl, .num hk hk' (castNum_converts env hw'), ?_, htodo, rfl⟩
      simp [RC.step, hi]
    · rw [hk] at h1; cases h1
  | @str t s hk hs =>
    intro ht
    have ok := ok_str (heap := heap) hk hs
    refine ⟨_, _, ok, ev_of_like hS ht (by decide) ok ?_⟩
    intro slots A hA f hf r hr t' hu hc hun old hold hh ρ c rest hi htodo
    obtain ⟨f, rfl⟩ : ∃ g, f = g + 1 := ⟨f - 1, by omega⟩
    obtain ⟨k', l', hk'⟩ : ∃ k' l', env.kind t' = .prim k' l' := by
      cases hc with
      | unlike h => exact absurd h hun
      | num _ h => exact ⟨_, _, h⟩
      | str _ h => exact ⟨_, _, h⟩
      | enum h => rw [hk] at h; cases h
      | _ h => rw [hk] at h; cases h
    have hk13' : k' = 13 := Classical.byContradiction fun e => hun (by
      rw [hk, hk']; exact fun h => e (h.mp rfl))
    subst hk13'
    rw [render_bytes, render_nil, List.append_nil] at hi
    rcases hA t r hr with ⟨k, h1, rfl⟩ | ⟨d, f', _, h1, _⟩
    · rw [hk] at h1; cases h1
      rw [read]
      unfold readBody
      rw [hk']
      dsimp only [format]
      rw [if_pos rfl, if_pos rfl, readStr_bytes heap c s rest hs hi]
      dsimp only
      refine ⟨_, _, rfl, .str hk hk', ?_, htodo, rfl⟩
      simp [RC.step, hi]
    · rw [hk] at h1; cases h1
  | @fixedArray t item vs hk _ ih =>
    intro ht
    obtain ⟨ps, k, oks, ev⟩ := ev_items fun v hv =>
      ih v hv (hT.closed.parts _ ht _ (by rw [hk]; simp [parts]))
    have ok := ok_fixedArray hk oks
    refine ⟨_, _, ok, ev_of_like hS ht (by omega) ok ?_⟩
    intro slots A hA f hf r hr t' hu hc hun old hold hh ρ c rest hi htodo
    obtain ⟨f, rfl⟩ : ∃ g, f = g + 1 := ⟨f - 1, by omega⟩
    obtain ⟨d, g, e1, e2, e3⟩ := hA.desc hr (fun k => by rw [hk]; nofun)
    rw [hk, Spec.format, Option.some.injEq] at e2
    subst e2
    obtain ⟨item', hk', hci⟩ : ∃ item', env.kind t' = .fixedArray vs.length item' ∧
        Compatible env item item' := by
      cases hc with
      | unlike h => exact absurd h hun
      | fixedArray h h' hi => rw [hk] at h; cases h; exact ⟨_, h', hi⟩
      | _ h => rw [hk] at h; cases h
    obtain ⟨os, rfl, hl, hos⟩ := hold.fixed hk'
    obtain ⟨ws, c', a1, a2, a3⟩ := ev.seq slots A hA f (by omega) _ (e3 item (by rw [hk]; simp [parts])) item'
      (hT.closed.parts _ hu _ (by rw [hk']; simp [parts])) hci os hl hos hh ρ c rest hi htodo
    rw [read]
    unfold readBody
    rw [e1, hk']
    dsimp only
    rw [if_pos rfl, if_pos hl, a1]
    exact ⟨_, _, rfl, .fixedArray hk hk' rfl hl a2.1 a2.2, a3⟩
  | @array t item vs hk hlen _ ih =>
    intro ht
    obtain ⟨ps, k, oks, ev⟩ := ev_items fun v hv =>
      ih v hv (hT.closed.parts _ ht _ (by rw [hk]; simp [parts]))
    have ok := ok_array hT ht hk hlen oks
    refine ⟨_, _, ok, ev_of_like hS ht (by omega) ok ?_⟩
    intro slots A hA f hf r hr t' hu hc hun old hold hh ρ c rest hi htodo
    obtain ⟨f, rfl⟩ : ∃ g, f = g + 1 := ⟨f - 1, by omega⟩
    obtain ⟨d, g, e1, e2, e3⟩ := hA.desc hr (fun k => by rw [hk]; nofun)
    rw [hk, Spec.format, Option.some.injEq] at e2
    subst e2
    obtain ⟨item', hk', hci⟩ : ∃ item', env.kind t' = .array item' ∧
        Compatible env item item' := by
      cases hc with
      | unlike h => exact absurd h hun
      | array h h' hi => rw [hk] at h; cases h; exact ⟨_, h', hi⟩
      | _ h => rw [hk] at h; cases h
    have hiu : item' ∈ u := hT.closed.parts _ hu _ (by rw [hk']; simp [parts])
    rw [render_bytes, List.append_assoc] at hi
    have hst : (c.step heap (.bytes (le 4 vs.length))).input = render ρ ps ++ rest := by
      simp [RC.step, hi]
    obtain ⟨ws, c', a1, a2, a3⟩ := ev.seq slots A hA f (by omega) _ (e3 item (by rw [hk]; simp [parts])) item'
      hiu hci (List.replicate vs.length (env.dflt item')) (by simp)
      (fun o ho => by rw [List.eq_of_mem_replicate ho]; exact hT.formed _ hiu) hh ρ _ rest hst htodo
    rw [read]
    unfold readBody
    rw [e1, hk']
    dsimp only
    rw [readLe_bytes heap c 4 _ _ (by omega) hi]
    dsimp only
    rw [if_pos hlen, a1]
    refine ⟨_, _, rfl, .array hk hk' a2.1 fun i v w h1 h2 => a2.2 i v _ w h1 ?_ h2, a3⟩
    have : i < vs.length := by
      refine Classical.byContradiction fun hh => ?_
      rw [List.getElem?_eq_none (by omega)] at h1; cases h1
    rw [List.getElem?_replicate, if_pos this]
  | @owned t a v hk _ ih =>
    intro ht
    obtain ⟨ps, k, ok1, ev⟩ := ih (hT.closed.parts _ ht _ (by rw [hk]; simp [parts]))
    have ok := ok_owned hT ht hk ok1
    refine ⟨_, _, ok, ev_of_like hS ht (by omega) ok ?_⟩
    intro slots A hA f hf r hr t' hu hc hun old hold hh ρ c rest hi htodo
    obtain ⟨f, rfl⟩ : ∃ g, f = g + 1 := ⟨f - 1, by omega⟩
    obtain ⟨d, g, e1, e2, e3⟩ := hA.desc hr (fun k => by rw [hk]; nofun)
    rw [hk, Spec.format, Option.some.injEq] at e2
    subst e2
    obtain ⟨target', hk', hci⟩ : ∃ target', env.kind t' = .owned target' ∧
        Compatible env (heap a) target' := by
      cases hc with
      | unlike h => exact absurd h hun
      | owned h h' hi => rw [hk] at h; cases h; exact ⟨_, h', hi⟩
      | _ h => rw [hk] at h; cases h
    have hiu : target' ∈ u := hT.closed.parts _ hu _ (by rw [hk']; simp [parts])
    rw [render_own] at hi
    obtain ⟨w, c', a1, a2, a3⟩ := ev slots A hA f (by omega) _ (e3 _ (by rw [hk]; simp [parts])) target'
      hiu hci _ (hT.formed _ hiu) hh ρ ⟨c.input, c.pos, c.done, [], c.next + 1⟩ rest hi rfl
    rw [read]
    unfold readBody
    rw [e1, hk']
    dsimp only
    rw [htodo, matchLinks]
    dsimp only
    rw [a1]
    exact ⟨_, _, rfl, .owned hk hk' a2, a3⟩
  | @ptr t a hk =>
    intro ht
    refine ⟨_, _, ok_ptr hk, ?_⟩
    intro slots A hA f hf r hr t' hu hc old hold hh
    cases hh
  | @struct t n ps ms vs hk hlen _ ih =>
    intro ht
    obtain ⟨ps', k, oks, ev⟩ := ev_fields hlen fun i m v hm hv =>
      ih i m v hm hv (hT.closed.parts _ ht _ (by
        rw [hk]; simp only [parts, List.mem_append, List.mem_map]
        exact .inr ⟨m, List.mem_of_getElem? hm, rfl⟩))
    have ok := ok_struct hT ht hk oks
    refine ⟨_, _, ok, ev_of_like hS ht (by omega) ok ?_⟩
    intro slots A hA f hf r hr t' hu hc hun old hold hh ρ c rest hi htodo
    obtain ⟨f, rfl⟩ : ∃ g, f = g + 1 := ⟨f - 1, by omega⟩
    obtain ⟨d, g, e1, e2, e3⟩ := hA.desc hr (fun k => by rw [hk]; nofun)
    rw [hk, Spec.format, Option.some.injEq] at e2
    subst e2
    obtain ⟨n', ps2, ms', hk', hci⟩ : ∃ n' ps' ms', env.kind t' = .struct n' ps' ms' ∧
        ∀ m ∈ ms, ∀ m' ∈ ms', m.1 = m'.1 → Compatible env m.2 m'.2 := by
      cases hc with
      | unlike h => exact absurd h hun
      | struct h h' hi => rw [hk] at h; cases h; exact ⟨_, _, _, h', hi⟩
      | _ h => rw [hk] at h; cases h
    obtain ⟨os, rfl, hl, hos⟩ := hold.members hk'
    have hp := hT.proper t ht
    rw [Proper, hk] at hp
    have hp' := hT.proper t' hu
    rw [Proper, hk'] at hp'
    obtain ⟨ws, c', a1, a2, a3⟩ := ev slots A hA f (by omega) g (fun m hm => e3 m.2 (by
        rw [hk]; simp only [parts, List.mem_append, List.mem_map]; exact .inr ⟨m, hm, rfl⟩)) ms'
      (fun m hm => hT.closed.parts _ hu _ (by
        rw [hk']; simp only [parts, List.mem_append, List.mem_map]; exact .inr ⟨m, hm, rfl⟩)) hci hp hp'
      os hl (fun i m' v h1 _ h2 => hos i m' v h1 h2) hh ρ c rest hi htodo
    rw [read]
    unfold readBody
    rw [e1, hk']
    dsimp only
    rw [a1]
    exact ⟨_, _, rfl, .struct hk hk' hlen hl a2.1 a2.2.1 a2.2.2, a3⟩
  | @enum t name size ids n hk hn hlt =>
    intro ht
    have ok := ok_enum (heap := heap) hT ht hk hn hlt
    refine ⟨_, _, ok, ev_of_like hS ht (by decide) ok ?_⟩
    intro slots A hA f hf r hr t' hu hc hun old hold hh ρ c rest hin htodo
    obtain ⟨f, rfl⟩ : ∃ g, f = g + 1 := ⟨f - 1, by omega⟩
    obtain ⟨d, g, e1, e2, e3⟩ := hA.desc hr (fun k => by rw [hk]; nofun)
    rw [hk, Spec.format, Option.some.injEq] at e2
    subst e2
    obtain ⟨n', s', ids', hk', hfit⟩ : ∃ n' s' ids', env.kind t' = .enum n' s' ids' ∧
        ∀ y ∈ env.vals t', y < 2 ^ (8 * s') := by
      cases hc with
      | unlike h => exact absurd h hun
      | enum h h' hi => rw [hk] at h; cases h; exact ⟨_, _, _, h', hi⟩
      | _ h => rw [hk] at h; cases h
    have hp := hT.proper t ht
    rw [Proper, hk] at hp
    obtain ⟨p1, p2, p3⟩ := hp
    have hp' := hT.proper t' hu
    rw [Proper, hk'] at hp'
    obtain ⟨q1, q2, q3⟩ := hp'
    have hi : (env.vals t).idxOf n < ids.length := by rw [← p2]; exact List.idxOf_lt_length_of_mem hn
    rw [render_bytes, render_nil, List.append_nil] at hin
    have hlt' : (env.vals t).idxOf n < 2 ^ (8 * size) := by
      rcases p3 with ⟨rfl, h⟩ | ⟨rfl, h⟩ | ⟨rfl, h⟩ <;> omega
    have hin' : (c.step heap (.bytes (le size ((env.vals t).idxOf n)))).input = rest := by
      simp [RC.step, hin]
    rw [read]
    unfold readBody
    rw [e1, hk']
    dsimp only
    rw [readEnum, if_pos (by omega), readLe_bytes heap c _ _ _ hlt' hin]
    dsimp only
    rw [List.getElem?_eq_getElem hi]
    dsimp only
    cases hfn : findName ids' ids[(env.vals t).idxOf n] with
    | none =>
      exact ⟨_, _, rfl, .enumGone hk hk' (getElem?_idxOf hn) (List.getElem?_eq_getElem hi)
        (findName_none hfn), hin', htodo, rfl⟩
    | some j =>
      obtain ⟨hj, hjl⟩ := findName_some hfn
      have hjv : j < (env.vals t').length := by omega
      dsimp only
      rw [List.getElem?_eq_getElem hjv]
      dsimp only
      have hy := hfit _ (List.getElem_mem hjv)
      rw [if_pos (by rcases q3 with ⟨rfl, h⟩ | ⟨rfl, h⟩ | ⟨rfl, h⟩ <;> omega)]
      exact ⟨_, _, rfl, .enum hk hk' (getElem?_idxOf hn) (List.getElem?_eq_getElem hi)
        (List.getElem?_eq_getElem hjv) hj, hin', htodo, rfl⟩
  | @enumArray t item e vs hk hlen _ ih =>
    intro ht
    obtain ⟨ps, k, oks, ev⟩ := ev_items fun v hv =>
      ih v hv (hT.closed.parts _ ht _ (by rw [hk]; simp [parts]))
    have ok := ok_enumArray hT ht hk hlen oks
    refine ⟨_, _, ok, ev_of_like hS ht (by omega) ok ?_⟩
    intro slots A hA f hf r hr t' hu hc hun old hold hh ρ c rest hi htodo
    obtain ⟨f, rfl⟩ : ∃ g, f = g + 1 := ⟨f - 1, by omega⟩
    obtain ⟨d, g, e1, e2, e3⟩ := hA.desc hr (fun k => by rw [hk]; nofun)
    rw [hk, Spec.format, Option.some.injEq] at e2
    subst e2
    obtain ⟨item', e', hk', hci⟩ : ∃ item' e', env.kind t' = .enumArray item' e' ∧
        Compatible env item item' := by
      cases hc with
      | unlike h => exact absurd h hun
      | enumArray h h' hi => rw [hk] at h; cases h; exact ⟨_, _, h', hi⟩
      | _ h => rw [hk] at h; cases h
    obtain ⟨os, rfl, hl, hos⟩ := hold.indexed hk'
    have he : e ∈ u := hT.closed.parts t ht e (by rw [hk]; simp [parts])
    have he' : e' ∈ u := hT.closed.parts t' hu e' (by rw [hk']; simp [parts])
    obtain ⟨en, es, ids, hke⟩ : ∃ n s ids, env.kind e = .enum n s ids := by
      have := hT.closed.typed t ht
      rw [hk] at this
      exact this
    obtain ⟨en', es', ids', hke'⟩ : ∃ n s ids, env.kind e' = .enum n s ids := by
      have := hT.closed.typed t' hu
      rw [hk'] at this
      exact this
    have hp' := hT.proper t' hu
    rw [Proper, hk'] at hp'
    dsimp only at hp'
    have hpe := hT.proper e he
    rw [Proper, hke] at hpe
    have hpe' := hT.proper e' he'
    rw [Proper, hke'] at hpe'
    obtain ⟨d', g', f1, f2, -⟩ := hA.desc (e3 e (by rw [hk]; simp [parts])) (fun k => by rw [hke]; nofun)
    rw [hke, Spec.format, Option.some.injEq] at f2
    subst f2
    have hty : typeIds env e' = ids' := by rw [typeIds, hke']
    obtain ⟨ws, c', a1, a2, a3⟩ := ev.named slots A hA f (by omega) _ (e3 item (by rw [hk]; simp [parts]))
      item' (hT.closed.parts _ hu _ (by rw [hk']; simp [parts])) hci ids ids' hpe.1 hpe'.1 (by omega) os
      (by omega) (fun i name o _ _ h => hos o (List.mem_of_getElem? h))
      (fun name => (findName (typeIds env e') name).bind fun i => (env.vals e')[i]?) (fun n => by
        rw [hty]
        cases hfn : findName ids' n with
        | none => rfl
        | some i =>
          have := (findName_some hfn).2
          rw [Option.bind_some, hp', List.getElem?_range (by omega)]) hh ρ c rest hi htodo
    rw [read]
    unfold readBody
    rw [e1, hk']
    dsimp only
    have e4 : enumIds slots (g e) = some ids := by rw [enumIds, f1]
    rw [e4]
    dsimp only
    rw [a1]
    exact ⟨_, _, rfl, .enumArray hk hk' hke hke' (by omega) (by omega) a2.1 a2.2.1 a2.2.2, a3⟩
  | @switch t name ss id s v hk hs _ ih =>
    intro ht
    have hsm : s ∈ ss := List.mem_of_getElem? hs
    obtain ⟨ps, k, ok1, ev⟩ := ih (hT.closed.parts _ ht _ (by
      rw [hk]; simp only [parts, List.mem_map]; exact ⟨_, hsm, rfl⟩))
    have ok := ok_switch hT ht hk hs ok1
    refine ⟨_, _, ok, ev_of_like hS ht (by omega) ok ?_⟩
    intro slots A hA f hf r hr t' hu hc hun old hold hh ρ c rest hi htodo
    obtain ⟨f, rfl⟩ : ∃ g, f = g + 1 := ⟨f - 1, by omega⟩
    obtain ⟨d, g, e1, e2, e3⟩ := hA.desc hr (fun k => by rw [hk]; nofun)
    rw [hk, Spec.format, Option.some.injEq] at e2
    subst e2
    obtain ⟨n', ss', hk', hsame, hci⟩ : ∃ n' ss', env.kind t' = .switch n' ss' ∧
        (∀ (i j : Nat) s s', ss[i]? = some s → ss'[j]? = some s' → s.1 = s'.1 → i = j) ∧
        ∀ s ∈ ss, ∀ s' ∈ ss', s.1 = s'.1 → Compatible env s.2 s'.2 := by
      cases hc with
      | unlike h => exact absurd h hun
      | switch h h' hi hj => rw [hk] at h; cases h; exact ⟨_, _, h', hi, hj⟩
      | _ h => rw [hk] at h; cases h
    obtain ⟨oid, os, o, rfl, hl, hos⟩ := hold.state hk'
    have hid : id < ss.length := by
      refine Classical.byContradiction fun hh => ?_
      rw [List.getElem?_eq_none (by omega)] at hs; cases hs
    have hfits := hT.closed.fits t ht
    rw [hk] at hfits
    obtain ⟨-, hss, -⟩ := hfits
    rw [render_bytes, List.append_assoc] at hi
    have hst : (c.step heap (.bytes (le 2 id))).input = render ρ ps ++ rest := by
      simp [RC.step, hi]
    rw [read]
    unfold readBody
    rw [e1, hk']
    dsimp only
    rw [readSwitch, readLe_bytes heap c 2 _ _ (by omega) hi]
    dsimp only
    rw [List.getElem?_map, hs]
    dsimp only [Option.map_some]
    cases hfn : findName (ss'.map (·.1)) s.1 with
    | none =>
      dsimp only
      rw [ok1.skip slots A hA f (by omega) _ (e3 s.2 (by
        rw [hk]; simp only [parts, List.mem_map]; exact ⟨s, hsm, rfl⟩)) hh ρ _ rest hst]
      refine ⟨_, _, rfl, .switchGone hk hk' hs fun s' hs' e => findName_none hfn ?_, rfl, htodo, rfl⟩
      exact List.mem_map.mpr ⟨s', hs', e⟩
    | some j =>
      obtain ⟨hj, hjl⟩ := findName_some hfn
      rw [List.length_map] at hjl
      rw [List.getElem?_map, List.getElem?_eq_getElem hjl, Option.map_some, Option.some.injEq] at hj
      have hjg : ss'[j]? = some ss'[j] := List.getElem?_eq_getElem hjl
      have hmem : ss'[j] ∈ ss' := List.getElem_mem hjl
      have hij := hsame id j s _ hs hjg hj.symm
      subst hij
      dsimp only
      rw [hjg, List.getElem?_map, hs]
      dsimp only [Option.map_some]
      have hu' : ss'[id].2 ∈ u := hT.closed.parts _ hu _ (by
        rw [hk']; simp only [parts, List.mem_map]; exact ⟨_, hmem, rfl⟩)
      obtain ⟨w, c', a1, a2, a3⟩ := ev slots A hA f (by omega) _ (e3 s.2 (by
          rw [hk]; simp only [parts, List.mem_map]; exact ⟨s, hsm, rfl⟩)) ss'[id].2 hu'
        (hci s hsm _ hmem hj.symm) (if oid = id then o else env.dflt ss'[id].2) (by
          split
          · rename_i e; subst e; rw [hjg] at hl; cases hl; exact hos
          · exact hT.formed _ hu') hh ρ _ rest hst htodo
      rw [a1]
      exact ⟨_, _, rfl, .switch hk hk' hs hjg hj.symm a2, a3⟩

end
end Verif.Persist
