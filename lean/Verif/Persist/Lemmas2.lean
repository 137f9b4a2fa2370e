import Verif.Persist.Lemmas
/-!
# Saving and loading objects — each kind of object
-/
namespace Verif.Persist
open Verif Schema Spec Schema.Spec

section
variable {env : Env} {heap : Addr → T}

theorem Spec.Formed.fixed {t : T} {n : Nat} {item : T} {old : Val} (hk : env.kind t = .fixedArray n item)
    (h : Formed env t old) : ∃ os, old = .items os ∧ os.length = n ∧ ∀ o ∈ os, Formed env item o := by
  cases h with
  | any h _ _ _ => exact absurd hk (h _ _)
  | fixedArray h h2 => rw [hk] at h; cases h; exact ⟨_, rfl, rfl, h2⟩
  | struct h _ _ => rw [hk] at h; cases h
  | enumArray h _ _ => rw [hk] at h; cases h
  | switch h _ _ => rw [hk] at h; cases h

theorem Spec.Formed.members {t : T} {n : List Byte} {ps ms : List (List Byte × T)} {old : Val}
    (hk : env.kind t = .struct n ps ms) (h : Formed env t old) :
    ∃ os, old = .struct os ∧ os.length = ms.length ∧
      ∀ (i : Nat) (m : List Byte × T) (v : Val), ms[i]? = some m → os[i]? = some v → Formed env m.2 v := by
  cases h with
  | any _ h _ _ => exact absurd hk (h _ _ _)
  | struct h h1 h2 => rw [hk] at h; cases h; exact ⟨_, rfl, h1, h2⟩
  | fixedArray h _ => rw [hk] at h; cases h
  | enumArray h _ _ => rw [hk] at h; cases h
  | switch h _ _ => rw [hk] at h; cases h

theorem Spec.Formed.indexed {t : T} {item e : T} {old : Val} (hk : env.kind t = .enumArray item e)
    (h : Formed env t old) :
    ∃ os, old = .items os ∧ os.length = (env.vals e).length ∧ ∀ o ∈ os, Formed env item o := by
  cases h with
  | any _ _ h _ => exact absurd hk (h _ _)
  | enumArray h h1 h2 => rw [hk] at h; cases h; exact ⟨_, rfl, h1, h2⟩
  | struct h _ _ => rw [hk] at h; cases h
  | fixedArray h _ => rw [hk] at h; cases h
  | switch h _ _ => rw [hk] at h; cases h

theorem Spec.Formed.state {t : T} {n : List Byte} {ss : List (List Byte × T)} {old : Val}
    (hk : env.kind t = .switch n ss) (h : Formed env t old) :
    ∃ (id : Nat) (s : List Byte × T) (o : Val), old = .switch id o ∧ ss[id]? = some s ∧
      Formed env s.2 o := by
  cases h with
  | any _ _ _ h => exact absurd hk (h _ _)
  | switch h h1 h2 => rw [hk] at h; cases h; exact ⟨_, _, _, rfl, h1, h2⟩
  | struct h _ _ => rw [hk] at h; cases h
  | fixedArray h _ => rw [hk] at h; cases h
  | enumArray h _ _ => rw [hk] at h; cases h

theorem loadedList_length {σ : Addr → Addr} {ρ : Addr → Nat} : ∀ (vs : List Val),
    (loadedList σ ρ heap vs).length = vs.length
  | [] => rfl
  | v :: vs => by rw [loadedList, List.length_cons, List.length_cons, loadedList_length vs]

theorem pow_le_of_le {a b : Nat} (h : a ≤ b) : 2 ^ a ≤ 2 ^ b := Nat.pow_le_pow_right (by decide) h

theorem le_ne_nil {w n : Nat} (h : 0 < w) : ∃ b bs, le w n = b :: bs := by
  obtain ⟨w, rfl⟩ : ∃ k, w = k + 1 := ⟨w - 1, by omega⟩
  exact ⟨_, _, rfl⟩

theorem solid_le {w n : Nat} (h : 0 < w) (ps : List Piece) : solid (.bytes (le w n) :: ps) = true := by
  obtain ⟨b, bs, e⟩ := le_ne_nil (n := n) h
  rw [e]; rfl

theorem Describes.desc {slots : List (Option Desc)} {A : T → Ref → Prop} (hA : Describes env slots A) {t : T} {r : Ref} (h : A t r)
    (hk : ∀ k, env.kind t ≠ .prim k true) :
    ∃ d f, format slots r = some (.inr d) ∧ Spec.format f (env.kind t) = some d ∧
      ∀ c ∈ parts (env.kind t), A c (f c) := by
  rcases hA t r h with ⟨k, h, -⟩ | h
  · exact absurd h (hk k)
  · exact h

theorem ok_num {u : List T} (hT : Types env u) {t key w n : Nat} (hk : env.kind t = .prim key true) (hw : width key = some w)
    (hn : n < 2 ^ (8 * w)) (hb : key = 2 → n ≤ 1) : OkAt env heap t (.num n) [.bytes (le w n)] 1 := by
  have hkey : key ≠ 13 := fun e => by rw [e] at hw; cases hw
  refine ⟨rfl, rfl, ?_, ?_, ?_, fun _ _ => rfl, ?_⟩
  · intro f hf c _ _
    obtain ⟨f, rfl⟩ : ∃ g, f = g + 1 := ⟨f - 1, by omega⟩
    rw [write]
    unfold writeBody
    rw [hk]
    dsimp only
    rw [hw]
    rfl
  · intro slots A hA f hf r hr old _ ρ σ c rest hi _ _
    obtain ⟨f, rfl⟩ : ∃ g, f = g + 1 := ⟨f - 1, by omega⟩
    rw [render_bytes, render_nil, List.append_nil] at hi
    rcases hA t r hr with ⟨k, h1, rfl⟩ | ⟨d, f', _, h1, _⟩
    · rw [hk] at h1; cases h1
      rw [read, readBody, hk]
      dsimp only [format]
      rw [if_neg hkey, hw]
      dsimp only
      rw [readLe_bytes heap c w n rest hn hi]
      dsimp only
      rw [if_neg (by rintro ⟨h1, h2⟩; have := hb h1; omega), castNum_same hT.same hw hn hb]
      rfl
    · rw [hk] at h1; cases h1
  · intro _
    exact solid_le (width_pos hw) _
  · intro slots A hA f hf r hr
    obtain ⟨f, rfl⟩ : ∃ g, f = g + 1 := ⟨f - 1, by omega⟩
    rcases hA t r hr with ⟨k, h1, rfl⟩ | ⟨d, f', _, h1, _⟩
    · rw [hk] at h1; cases h1
      intro hh ρ c rest hi
      rw [skip, skipBody]
      dsimp only [format]
      rw [hw]
      exact Skips.le w n hn hh ρ c rest hi
    · rw [hk] at h1; cases h1

theorem ok_str {t : T} {s : List Byte} (hk : env.kind t = .prim 13 true) (hs : s.length < 2 ^ 32) :
    OkAt env heap t (.str s) [.bytes (boxed s)] 1 := by
  refine ⟨rfl, rfl, ?_, ?_, ?_, fun _ _ => rfl, ?_⟩
  · intro f hf c _ _
    obtain ⟨f, rfl⟩ : ∃ g, f = g + 1 := ⟨f - 1, by omega⟩
    rw [write]
    unfold writeBody
    rw [hk]
    rfl
  · intro slots A hA f hf r hr old _ ρ σ c rest hi _ _
    obtain ⟨f, rfl⟩ : ∃ g, f = g + 1 := ⟨f - 1, by omega⟩
    rw [render_bytes, render_nil, List.append_nil] at hi
    rcases hA t r hr with ⟨k, h1, rfl⟩ | ⟨d, f', _, h1, _⟩
    · rw [hk] at h1; cases h1
      rw [read, readBody, hk]
      dsimp only [format]
      rw [if_pos rfl, if_pos rfl, readStr_bytes heap c s rest hs hi]
      rfl
    · rw [hk] at h1; cases h1
  · intro _
    unfold boxed
    rw [le]
    rfl
  · intro slots A hA f hf r hr
    obtain ⟨f, rfl⟩ : ∃ g, f = g + 1 := ⟨f - 1, by omega⟩
    rcases hA t r hr with ⟨k, h1, rfl⟩ | ⟨d, f', _, h1, _⟩
    · rw [hk] at h1; cases h1
      intro hh ρ c rest hi
      rw [render_bytes, render_nil, List.append_nil] at hi ⊢
      rw [skip, skipBody]
      dsimp only [format, width]
      rw [if_pos rfl, RC.readStr, hi, readBoxed_boxed s rest hs]
      simp [boxed, le_length]
    · rw [hk] at h1; cases h1

theorem ok_fixedArray {t item : T} {vs : List Val} {ps : List Piece} {k : Nat}
    (hk : env.kind t = .fixedArray vs.length item) (ok : OkItems env heap item vs ps k) :
    OkAt env heap t (.items vs) ps (k + 1) := by
  refine ⟨ok.owns, ok.holes, ?_, ?_, ?_, ok.tight, ?_⟩
  · intro f hf c h1 h2
    obtain ⟨f, rfl⟩ : ∃ g, f = g + 1 := ⟨f - 1, by omega⟩
    rw [write]
    unfold writeBody
    rw [hk]
    dsimp only
    rw [if_pos rfl]
    exact ok.write f (by omega) c h1 h2
  · intro slots A hA f hf r hr old hold ρ σ c rest hi hh ho
    obtain ⟨f, rfl⟩ : ∃ g, f = g + 1 := ⟨f - 1, by omega⟩
    obtain ⟨d, g, e1, e2, e3⟩ := hA.desc hr (fun k => by rw [hk]; nofun)
    obtain ⟨os, rfl, hl, hos⟩ := hold.fixed hk
    rw [hk, Spec.format, Option.some.injEq] at e2
    subst e2
    rw [read, readBody, e1, hk]
    dsimp only
    rw [if_pos rfl, if_pos hl,
      ok.read slots A hA f (by omega) (g item) (e3 item (by rw [hk]; simp [parts])) os hl hos ρ σ c rest hi hh ho]
    rfl
  · intro hs
    cases hs with
    | fixedArray h1 h2 =>
      rw [hk] at h1
      simp only [Kind.fixedArray.injEq] at h1
      obtain ⟨h1, rfl⟩ := h1
      exact ok.solid (by rintro rfl; cases h1) h2
    | _ h1 => rw [hk] at h1; cases h1
  · intro slots A hA f hf r hr
    obtain ⟨f, rfl⟩ : ∃ g, f = g + 1 := ⟨f - 1, by omega⟩
    obtain ⟨d, g, e1, e2, e3⟩ := hA.desc hr (fun k => by rw [hk]; nofun)
    rw [hk, Spec.format, Option.some.injEq] at e2
    subst e2
    intro hh ρ c rest hi
    rw [skip, skipBody, e1]
    exact ok.skip slots A hA f (by omega) _ (e3 item (by rw [hk]; simp [parts])) hh ρ c rest hi

theorem ok_array {u : List T} (hT : Types env u) {t item : T} (ht : t ∈ u) {vs : List Val} {ps : List Piece} {k : Nat}
    (hk : env.kind t = .array item) (hlen : vs.length < 10000000) (ok : OkItems env heap item vs ps k) :
    OkAt env heap t (.items vs) (.bytes (le 4 vs.length) :: ps) (k + 1) := by
  have hitem : item ∈ u := hT.closed.parts t ht item (by rw [hk]; simp [parts])
  refine ⟨ok.owns, ok.holes, ?_, ?_, ?_, ok.tight, ?_⟩
  · intro f hf c h1 h2
    obtain ⟨f, rfl⟩ : ∃ g, f = g + 1 := ⟨f - 1, by omega⟩
    rw [write]
    unfold writeBody
    rw [hk]
    dsimp only
    rw [if_pos (by omega)]
    exact ok.write f (by omega) (c.emit _) h1 h2
  · intro slots A hA f hf r hr old hold ρ σ c rest hi hh ho
    obtain ⟨f, rfl⟩ : ∃ g, f = g + 1 := ⟨f - 1, by omega⟩
    obtain ⟨d, g, e1, e2, e3⟩ := hA.desc hr (fun k => by rw [hk]; nofun)
    rw [hk, Spec.format, Option.some.injEq] at e2
    subst e2
    obtain ⟨⟨a1, a2, a3⟩, b1, b2, b3⟩ := Reads.split (heap := heap) (p := [.bytes (le 4 vs.length)]) hi hh ho
    rw [render_bytes, render_nil, List.append_nil] at a1
    rw [read, readBody, e1, hk]
    dsimp only
    rw [readLe_bytes heap c 4 _ _ (by omega) a1]
    dsimp only
    rw [if_pos hlen]
    have := ok.read slots A hA f (by omega) (g item) (e3 item (by rw [hk]; simp [parts]))
      (List.replicate vs.length (env.dflt item)) (by simp)
      (fun o ho => by rw [List.eq_of_mem_replicate ho]; exact hT.formed item hitem) ρ σ _ rest b1 b2 b3
    rw [RC.app_cons, RC.app_nil] at this
    rw [this]
    rfl
  · intro hs
    exact solid_le (by decide) _
  · intro slots A hA f hf r hr
    obtain ⟨f, rfl⟩ : ∃ g, f = g + 1 := ⟨f - 1, by omega⟩
    obtain ⟨d, g, e1, e2, e3⟩ := hA.desc hr (fun k => by rw [hk]; nofun)
    rw [hk, Spec.format, Option.some.injEq] at e2
    subst e2
    intro hh ρ c rest hi
    rw [render_bytes, List.append_assoc] at hi
    rw [skip, skipBody, e1]
    dsimp only
    rw [readLe_bytes heap c 4 _ _ (by omega) hi]
    dsimp only
    have hst : (c.step heap (.bytes (le 4 vs.length))).input = render ρ ps ++ rest := by
      simp [RC.step, hi]
    rw [ok.skip slots A hA f (by omega) _ (e3 item (by rw [hk]; simp [parts])) hh ρ _ rest hst]
    simp [RC.step, Nat.add_assoc]

theorem ok_owned {u : List T} (hT : Types env u) {t : T} (ht : t ∈ u) {a : Addr} {v : Val} {ps : List Piece} {k : Nat}
    (hk : env.kind t = .owned (heap a)) (ok : OkAt env heap (heap a) v ps k) :
    OkAt env heap t (.owned a v) (.own a :: ps) (k + 1) := by
  have hitem : heap a ∈ u := hT.closed.parts t ht (heap a) (by rw [hk]; simp [parts])
  refine ⟨?_, ok.holes, ?_, ?_, ?_, ?_, ?_⟩
  · rw [owns_own, ok.owns, owneds]
  · intro f hf c h1 h2
    obtain ⟨f, rfl⟩ : ∃ g, f = g + 1 := ⟨f - 1, by omega⟩
    rw [owns_own] at h1 h2
    rw [List.nodup_cons] at h2
    rw [write]
    unfold writeBody
    rw [hk]
    dsimp only
    rw [if_neg (by
      rw [Bool.not_eq_true, List.any_eq_false]
      intro s hs e
      have := eq_of_beq e
      exact h1 a (by simp) (List.mem_map.mpr ⟨s, hs, this⟩))]
    refine ok.write f (by omega) _ ?_ h2.2
    intro b hb hm
    rw [List.map_append, List.mem_append] at hm
    rcases hm with hm | hm
    · exact h1 b (by simp [hb]) hm
    · rw [List.map_singleton, List.mem_singleton] at hm
      subst hm
      exact h2.1 hb
  · intro slots A hA f hf r hr old hold ρ σ c rest hi hh ho
    obtain ⟨f, rfl⟩ : ∃ g, f = g + 1 := ⟨f - 1, by omega⟩
    obtain ⟨d, g, e1, e2, e3⟩ := hA.desc hr (fun k => by rw [hk]; nofun)
    rw [hk, Spec.format, Option.some.injEq] at e2
    subst e2
    obtain ⟨⟨a1, a2, a3⟩, b1, b2, b3⟩ := Reads.split (heap := heap) (p := [.own a]) hi hh ho
    rw [read, readBody, e1, hk]
    dsimp only
    have := ok.read slots A hA f (by omega) (g (heap a)) (e3 (heap a) (by rw [hk]; simp [parts]))
      (env.dflt (heap a)) (hT.formed _ hitem) ρ σ _ rest b1 b2 b3
    have e : RC.app heap c [.own a] = { c with
        done := (matchLinks c.pos c.next (heap a) c.done c.todo).1
        todo := (matchLinks c.pos c.next (heap a) c.done c.todo).2
        next := c.next + 1 } := rfl
    rw [e] at this
    rw [this]
    dsimp only
    have e0 : σ a = c.next := by simpa using a3
    rw [loaded, e0]
    rfl
  · intro hs
    cases hs <;> rename_i h1 <;> first | (rw [hk] at h1; cases h1) | (rename_i h1 _; rw [hk] at h1; cases h1)
  · intro S hs
    rw [owneds] at hs
    rw [tight, Bool.and_eq_true, Bool.or_eq_true]
    refine ⟨?_, ok.tight S fun b hb => hs b (by simp [hb])⟩
    by_cases ha : a ∈ S
    · exact .inl (List.contains_iff_mem.mpr ha)
    · exact .inr (ok.solid (hs a (by simp) ha))
  · intro slots A hA f hf r hr
    obtain ⟨f, rfl⟩ : ∃ g, f = g + 1 := ⟨f - 1, by omega⟩
    obtain ⟨d, g, e1, e2, e3⟩ := hA.desc hr (fun k => by rw [hk]; nofun)
    rw [hk, Spec.format, Option.some.injEq] at e2
    subst e2
    intro hh ρ c rest hi
    rw [render_own] at hi ⊢
    rw [skip, skipBody, e1]
    exact ok.skip slots A hA f (by omega) _ (e3 _ (by rw [hk]; simp [parts])) hh ρ c rest hi

theorem ok_ptr {t : T} {a : Addr} (hk : env.kind t = .rawPtr (heap a)) : OkAt env heap t (.ptr a) [.hole a] 1 := by
  refine ⟨rfl, rfl, ?_, ?_, fun _ => rfl, fun _ _ => rfl, fun _ _ _ _ _ _ _ h => by cases h⟩
  · intro f hf c h1 h2
    obtain ⟨f, rfl⟩ : ∃ g, f = g + 1 := ⟨f - 1, by omega⟩
    rw [write]
    unfold writeBody
    rw [hk]
    rfl
  · intro slots A hA f hf r hr old hold ρ σ c rest hi hh ho
    obtain ⟨f, rfl⟩ : ∃ g, f = g + 1 := ⟨f - 1, by omega⟩
    obtain ⟨d, g, e1, e2, e3⟩ := hA.desc hr (fun k => by rw [hk]; nofun)
    rw [render_hole, render_nil, List.append_nil] at hi
    have hh := hh a (by simp)
    rw [read, readBody, e1, hk]
    dsimp only
    rw [readLe_bytes heap c 4 _ _ (by omega) hi]
    dsimp only
    rw [if_pos (by exact hh.2), loaded]
    rw [RC.app_cons, RC.app_nil, RC.step, RC.step, le_length]

theorem ok_struct {u : List T} (hT : Types env u) {t : T} (ht : t ∈ u) {n : List Byte} {ps ms : List (List Byte × T)} {vs : List Val}
    {ps' : List Piece} {k : Nat} (hk : env.kind t = .struct n ps ms) (ok : OkFields env heap ms vs ps' k) :
    OkAt env heap t (.struct vs) ps' (k + 1) := by
  have hmem : ∀ m ∈ ms, m.2 ∈ u := fun m hm => hT.closed.parts t ht m.2 (by
    rw [hk]; simp only [parts, List.mem_append, List.mem_map]; exact .inr ⟨m, hm, rfl⟩)
  refine ⟨ok.owns, ok.holes, ?_, ?_, ?_, ok.tight, ?_⟩
  · intro f hf c h1 h2
    obtain ⟨f, rfl⟩ : ∃ g, f = g + 1 := ⟨f - 1, by omega⟩
    rw [write]
    unfold writeBody
    rw [hk]
    exact ok.write f (by omega) c h1 h2
  · intro slots A hA f hf r hr old hold ρ σ c rest hi hh ho
    obtain ⟨f, rfl⟩ : ∃ g, f = g + 1 := ⟨f - 1, by omega⟩
    obtain ⟨d, g, e1, e2, e3⟩ := hA.desc hr (fun k => by rw [hk]; nofun)
    rw [hk, Spec.format, Option.some.injEq] at e2
    subst e2
    obtain ⟨os, rfl, hl, hos⟩ := hold.members hk
    have hp := hT.proper t ht
    rw [Proper, hk] at hp
    rw [read, readBody, e1, hk]
    dsimp only
    have := readNamed_fields (read env slots f) (skip slots f) g ms hp ms [] [] os c rfl rfl hl
    rw [List.nil_append] at this
    rw [this, ok.read slots A hA f (by omega) g (fun m hm => e3 m.2 (by
      rw [hk]; simp only [parts, List.mem_append, List.mem_map]; exact .inr ⟨m, hm, rfl⟩)) os hl hos ρ σ c
      rest hi hh ho]
    rfl
  · intro hs
    cases hs with
    | struct h1 h2 =>
      rw [hk] at h1
      simp only [Kind.struct.injEq] at h1
      exact ok.solid _ _ h1.2.2 h2
    | _ h1 => rw [hk] at h1; cases h1
  · intro slots A hA f hf r hr
    obtain ⟨f, rfl⟩ : ∃ g, f = g + 1 := ⟨f - 1, by omega⟩
    obtain ⟨d, g, e1, e2, e3⟩ := hA.desc hr (fun k => by rw [hk]; nofun)
    rw [hk, Spec.format, Option.some.injEq] at e2
    subst e2
    intro hh ρ c rest hi
    rw [skip, skipBody, e1]
    dsimp only
    rw [List.map_map]
    exact ok.skip slots A hA f (by omega) g (fun m hm => e3 m.2 (by
      rw [hk]; simp only [parts, List.mem_append, List.mem_map]; exact .inr ⟨m, hm, rfl⟩)) hh ρ c rest hi

theorem ok_enum {u : List T} (hT : Types env u) {t : T} (ht : t ∈ u) {name : List Byte} {size : Nat} {ids : List (List Byte)} {n : Nat}
    (hk : env.kind t = .enum name size ids) (hn : n ∈ env.vals t) (hlt : n < 2 ^ (8 * size)) :
    OkAt env heap t (.enum n) [.bytes (le size ((env.vals t).idxOf n))] 1 := by
  have hp := hT.proper t ht
  rw [Proper, hk] at hp
  obtain ⟨p1, p2, p3⟩ := hp
  have hi : (env.vals t).idxOf n < ids.length := by rw [← p2]; exact List.idxOf_lt_length_of_mem hn
  refine ⟨rfl, rfl, ?_, ?_, ?_, fun _ _ => rfl, ?_⟩
  · intro f hf c h1 h2
    obtain ⟨f, rfl⟩ : ∃ g, f = g + 1 := ⟨f - 1, by omega⟩
    rw [write]
    unfold writeBody
    rw [hk]
    dsimp only
    rw [if_pos ⟨hn, by omega⟩]
    rfl
  · intro slots A hA f hf r hr old hold ρ σ c rest hin hh ho
    obtain ⟨f, rfl⟩ : ∃ g, f = g + 1 := ⟨f - 1, by omega⟩
    obtain ⟨d, g, e1, e2, e3⟩ := hA.desc hr (fun k => by rw [hk]; nofun)
    rw [hk, Spec.format, Option.some.injEq] at e2
    subst e2
    rw [render_bytes, render_nil, List.append_nil] at hin
    have hlt' : (env.vals t).idxOf n < 2 ^ (8 * size) := by
      rcases p3 with ⟨rfl, h⟩ | ⟨rfl, h⟩ | ⟨rfl, h⟩ <;> omega
    rw [read, readBody, e1, hk]
    dsimp only
    rw [readEnum, if_pos (by omega), readLe_bytes heap c _ _ _ hlt' hin]
    dsimp only
    rw [List.getElem?_eq_getElem hi]
    dsimp only
    rw [findName_at p1 (List.getElem?_eq_getElem hi)]
    dsimp only
    rw [getElem?_idxOf hn]
    dsimp only
    rw [if_pos (by rcases p3 with ⟨rfl, h⟩ | ⟨rfl, h⟩ | ⟨rfl, h⟩ <;> omega)]
    rfl
  · intro _
    exact solid_le (by omega) _
  · intro slots A hA f hf r hr
    obtain ⟨f, rfl⟩ : ∃ g, f = g + 1 := ⟨f - 1, by omega⟩
    obtain ⟨d, g, e1, e2, e3⟩ := hA.desc hr (fun k => by rw [hk]; nofun)
    rw [hk, Spec.format, Option.some.injEq] at e2
    subst e2
    intro hh ρ c rest hin
    rw [skip, skipBody, e1]
    dsimp only
    rw [if_pos (by omega)]
    refine Skips.le size _ ?_ hh ρ c rest hin
    rcases p3 with ⟨rfl, h⟩ | ⟨rfl, h⟩ | ⟨rfl, h⟩ <;> omega

theorem ok_enumArray {u : List T} (hT : Types env u) {t item e : T} (ht : t ∈ u) {vs : List Val} {ps : List Piece} {k : Nat}
    (hk : env.kind t = .enumArray item e) (hlen : vs.length = (env.vals e).length)
    (ok : OkItems env heap item vs ps k) : OkAt env heap t (.items vs) ps (k + 1) := by
  have hitem : item ∈ u := hT.closed.parts t ht item (by rw [hk]; simp [parts])
  have he : e ∈ u := hT.closed.parts t ht e (by rw [hk]; simp [parts])
  obtain ⟨en, es, ids, hke⟩ : ∃ n s ids, env.kind e = .enum n s ids := by
    have := hT.closed.typed t ht
    rw [hk] at this
    exact this
  have hp := hT.proper t ht
  rw [Proper, hk] at hp
  dsimp only at hp
  have hpe := hT.proper e he
  rw [Proper, hke] at hpe
  refine ⟨ok.owns, ok.holes, ?_, ?_, ?_, ok.tight, ?_⟩
  · intro f hf c h1 h2
    obtain ⟨f, rfl⟩ : ∃ g, f = g + 1 := ⟨f - 1, by omega⟩
    rw [write]
    unfold writeBody
    rw [hk]
    dsimp only
    rw [if_pos hlen]
    exact ok.write f (by omega) c h1 h2
  · intro slots A hA f hf r hr old hold ρ σ c rest hi hh ho
    obtain ⟨f, rfl⟩ : ∃ g, f = g + 1 := ⟨f - 1, by omega⟩
    obtain ⟨d, g, e1, e2, e3⟩ := hA.desc hr (fun k => by rw [hk]; nofun)
    rw [hk, Spec.format, Option.some.injEq] at e2
    subst e2
    obtain ⟨os, rfl, hl, hos⟩ := hold.indexed hk
    obtain ⟨d', g', f1, f2, -⟩ := hA.desc (e3 e (by rw [hk]; simp [parts])) (fun k => by rw [hke]; nofun)
    rw [hke, Spec.format, Option.some.injEq] at f2
    subst f2
    rw [read, readBody, e1, hk]
    dsimp only
    have e4 : enumIds slots (g e) = some ids := by rw [enumIds, f1]
    rw [e4]
    dsimp only
    have hty : typeIds env e = ids := by rw [typeIds, hke]
    have := readNamed_items (read env slots f item) (skip slots f)
      (fun name => (findName (typeIds env e) name).bind fun i => (env.vals e)[i]?) (g item) ids [] os c
      (fun j n hj => by
        rw [hty, findName_at hpe.1 hj, Option.bind_some, hp]
        have : j < ids.length := by
          refine Classical.byContradiction fun hh => ?_
          rw [List.getElem?_eq_none (by omega)] at hj; cases hj
        rw [List.getElem?_range (by omega)]; simp) (by omega)
    rw [List.nil_append] at this
    rw [this, ok.read slots A hA f (by omega) (g item) (e3 item (by rw [hk]; simp [parts])) os (by omega) hos ρ σ c
      rest hi hh ho]
    rfl
  · intro hs
    cases hs <;> rename_i h1 <;> first | (rw [hk] at h1; cases h1) | (rename_i h1 _; rw [hk] at h1; cases h1)
  · intro slots A hA f hf r hr
    obtain ⟨f, rfl⟩ : ∃ g, f = g + 1 := ⟨f - 1, by omega⟩
    obtain ⟨d, g, e1, e2, e3⟩ := hA.desc hr (fun k => by rw [hk]; nofun)
    rw [hk, Spec.format, Option.some.injEq] at e2
    subst e2
    obtain ⟨d', g', f1, f2, -⟩ := hA.desc (e3 e (by rw [hk]; simp [parts])) (fun k => by rw [hke]; nofun)
    rw [hke, Spec.format, Option.some.injEq] at f2
    subst f2
    intro hh ρ c rest hi
    rw [skip, skipBody, e1]
    dsimp only
    have e4 : enumIds slots (g e) = some ids := by rw [enumIds, f1]
    rw [e4]
    dsimp only
    rw [← hpe.2.1, ← hlen]
    exact ok.skip slots A hA f (by omega) _ (e3 item (by rw [hk]; simp [parts])) hh ρ c rest hi

theorem ok_switch {u : List T} (hT : Types env u) {t : T} (ht : t ∈ u) {name : List Byte} {ss : List (List Byte × T)} {id : Nat}
    {s : List Byte × T} {v : Val} {ps : List Piece} {k : Nat} (hk : env.kind t = .switch name ss)
    (hs : ss[id]? = some s) (ok : OkAt env heap s.2 v ps k) :
    OkAt env heap t (.switch id v) (.bytes (le 2 id) :: ps) (k + 1) := by
  have hsm : s ∈ ss := List.mem_of_getElem? hs
  have hsu : s.2 ∈ u := hT.closed.parts t ht s.2 (by
    rw [hk]; simp only [parts, List.mem_map]; exact ⟨s, hsm, rfl⟩)
  have hid : id < ss.length := by
    refine Classical.byContradiction fun hh => ?_
    rw [List.getElem?_eq_none (by omega)] at hs; cases hs
  have hfits := hT.closed.fits t ht
  rw [hk] at hfits
  obtain ⟨-, hss, -⟩ := hfits
  have hp := hT.proper t ht
  rw [Proper, hk] at hp
  refine ⟨ok.owns, ok.holes, ?_, ?_, fun _ => solid_le (by decide) _,
    ok.tight, ?_⟩
  · intro f hf c h1 h2
    obtain ⟨f, rfl⟩ : ∃ g, f = g + 1 := ⟨f - 1, by omega⟩
    rw [write]
    unfold writeBody
    rw [hk]
    dsimp only
    rw [hs]
    exact ok.write f (by omega) (c.emit _) h1 h2
  · intro slots A hA f hf r hr old hold ρ σ c rest hi hh ho
    obtain ⟨f, rfl⟩ : ∃ g, f = g + 1 := ⟨f - 1, by omega⟩
    obtain ⟨d, g, e1, e2, e3⟩ := hA.desc hr (fun k => by rw [hk]; nofun)
    rw [hk, Spec.format, Option.some.injEq] at e2
    subst e2
    obtain ⟨oid, os, o, rfl, hl, hos⟩ := hold.state hk
    obtain ⟨⟨a1, a2, a3⟩, b1, b2, b3⟩ := Reads.split (heap := heap) (p := [.bytes (le 2 id)]) hi hh ho
    rw [render_bytes, render_nil, List.append_nil] at a1
    rw [read, readBody, e1, hk]
    dsimp only
    rw [readSwitch, readLe_bytes heap c 2 _ _ (by omega) a1]
    dsimp only
    rw [List.getElem?_map, hs]
    dsimp only [Option.map_some]
    rw [findName_at hp (i := id) (by rw [List.getElem?_map, hs]; rfl)]
    dsimp only
    rw [hs, List.getElem?_map, hs]
    dsimp only [Option.map_some]
    have := ok.read slots A hA f (by omega) (g s.2) (e3 s.2 (by
        rw [hk]; simp only [parts, List.mem_map]; exact ⟨s, hsm, rfl⟩))
      (if oid = id then o else env.dflt s.2) (by
        split
        · rename_i e; subst e; rw [hs] at hl; cases hl; exact hos
        · exact hT.formed _ hsu) ρ σ _ rest b1 b2 b3
    rw [RC.app_cons, RC.app_nil] at this
    rw [this, loaded]
    rfl
  · intro slots A hA f hf r hr
    obtain ⟨f, rfl⟩ : ∃ g, f = g + 1 := ⟨f - 1, by omega⟩
    obtain ⟨d, g, e1, e2, e3⟩ := hA.desc hr (fun k => by rw [hk]; nofun)
    rw [hk, Spec.format, Option.some.injEq] at e2
    subst e2
    intro hh ρ c rest hi
    rw [render_bytes, List.append_assoc] at hi
    rw [skip, skipBody, e1]
    dsimp only
    rw [readLe_bytes heap c 2 _ _ (by omega) hi]
    dsimp only
    rw [List.getElem?_map, hs]
    dsimp only [Option.map_some]
    have hst : (c.step heap (.bytes (le 2 id))).input = render ρ ps ++ rest := by
      simp [RC.step, hi]
    rw [ok.skip slots A hA f (by omega) _ (e3 s.2 (by
      rw [hk]; simp only [parts, List.mem_map]; exact ⟨s, hsm, rfl⟩)) hh ρ _ rest hst]
    simp [RC.step, Nat.add_assoc]

/-- Each kind of object is written and read piece by piece. -/
theorem obj_ok {u : List T} (hT : Types env u) {t : T} {v : Val}
    (h : HasType env heap t v) : t ∈ u → ∃ ps k, OkAt env heap t v ps k := by
  induction h with
  | num hk hw hn hb => exact fun _ => ⟨_, _, ok_num hT hk hw hn hb⟩
  | str hk hs => exact fun _ => ⟨_, _, ok_str hk hs⟩
  | fixedArray hk _ ih =>
    intro ht
    obtain ⟨ps, k, ok⟩ := items_ok fun v hv => ih v hv (hT.closed.parts _ ht _ (by rw [hk]; simp [parts]))
    exact ⟨_, _, ok_fixedArray hk ok⟩
  | array hk hlen _ ih =>
    intro ht
    obtain ⟨ps, k, ok⟩ := items_ok fun v hv => ih v hv (hT.closed.parts _ ht _ (by rw [hk]; simp [parts]))
    exact ⟨_, _, ok_array hT ht hk hlen ok⟩
  | owned hk _ ih =>
    intro ht
    obtain ⟨ps, k, ok⟩ := ih (hT.closed.parts _ ht _ (by rw [hk]; simp [parts]))
    exact ⟨_, _, ok_owned hT ht hk ok⟩
  | ptr hk => exact fun _ => ⟨_, _, ok_ptr hk⟩
  | struct hk hlen _ ih =>
    intro ht
    obtain ⟨ps', k, ok⟩ := fields_ok hlen fun i m v hm hv =>
      ih i m v hm hv (hT.closed.parts _ ht _ (by
        rw [hk]; simp only [parts, List.mem_append, List.mem_map]
        exact .inr ⟨m, List.mem_of_getElem? hm, rfl⟩))
    exact ⟨_, _, ok_struct hT ht hk ok⟩
  | enum hk hn hlt => exact fun ht => ⟨_, _, ok_enum hT ht hk hn hlt⟩
  | enumArray hk hlen _ ih =>
    intro ht
    obtain ⟨ps, k, ok⟩ := items_ok fun v hv => ih v hv (hT.closed.parts _ ht _ (by rw [hk]; simp [parts]))
    exact ⟨_, _, ok_enumArray hT ht hk hlen ok⟩
  | switch hk hs _ ih =>
    intro ht
    obtain ⟨ps, k, ok⟩ := ih (hT.closed.parts _ ht _ (by
      rw [hk]; simp only [parts, List.mem_map]; exact ⟨_, List.mem_of_getElem? hs, rfl⟩))
    exact ⟨_, _, ok_switch hT ht hk hs ok⟩

end
end Verif.Persist
