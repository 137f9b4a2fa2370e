import Verif.Persist.Lemmas2
/-!
# Saving and loading objects — links
-/
namespace Verif.Persist
open Verif Schema Spec Schema.Spec

/-! ## What the writer keeps -/

/-- The places for link indices. -/
def holeOffs (heap : Addr → T) : Nat → List Piece → List (Addr × T × Nat)
  | _, [] => []
  | b, .bytes bs :: ps => holeOffs heap (b + bs.length) ps
  | b, .hole a :: ps => (a, heap a, b) :: holeOffs heap (b + 4) ps
  | b, .own _ :: ps => holeOffs heap b ps

/-- The places of objects held by `Owned` pointers. -/
def ownOffs (heap : Addr → T) : Nat → List Piece → List (Addr × T × Nat)
  | _, [] => []
  | b, .bytes bs :: ps => ownOffs heap (b + bs.length) ps
  | b, .hole _ :: ps => ownOffs heap (b + 4) ps
  | b, .own a :: ps => (a, heap a, b) :: ownOffs heap b ps

theorem WC.app_eq (heap : Addr → T) : ∀ (ps : List Piece) (c : WC),
    c.app heap ps = ⟨c.out ++ render (fun _ => 0) ps, c.weak ++ holeOffs heap c.out.length ps,
      c.saved ++ ownOffs heap c.out.length ps⟩
  | [], c => by simp [holeOffs, ownOffs]
  | p :: ps, c => by
    rw [WC.app_cons, WC.app_eq heap ps]
    cases p <;> simp [WC.step, WC.emit, holeOffs, ownOffs, le_length]

theorem ownOffs_addrs (heap : Addr → T) : ∀ (ps : List Piece) (b : Nat),
    (ownOffs heap b ps).map (·.1) = owns ps
  | [], _ => rfl
  | .bytes _ :: ps, b => ownOffs_addrs heap ps _
  | .hole _ :: ps, b => ownOffs_addrs heap ps _
  | .own a :: ps, b => by rw [ownOffs, List.map_cons, ownOffs_addrs heap ps, owns_own]

theorem ownOffs_type (heap : Addr → T) : ∀ (ps : List Piece) (b : Nat), ∀ s ∈ ownOffs heap b ps,
    s.2.1 = heap s.1 ∧ b ≤ s.2.2 ∧ s.2.2 ≤ b + (render (fun _ => 0) ps).length
  | [], _, _, h => by cases h
  | .bytes bs :: ps, b, s, h => by
    have := ownOffs_type heap ps _ s h
    simp only [render_bytes, List.length_append]
    exact ⟨this.1, by omega, by omega⟩
  | .hole a :: ps, b, s, h => by
    have := ownOffs_type heap ps _ s h
    simp only [render_hole, List.length_append, le_length]
    exact ⟨this.1, by omega, by omega⟩
  | .own a :: ps, b, s, h => by
    rw [ownOffs, List.mem_cons] at h
    rcases h with rfl | h
    · exact ⟨rfl, Nat.le_refl _, Nat.le_add_right ..⟩
    · have := ownOffs_type heap ps _ s h
      rw [render_own]; exact this

theorem ownOffs_solid (heap : Addr → T) : ∀ (ps : List Piece) (b : Nat), solid ps = true →
    ∀ s ∈ ownOffs heap b ps, b < s.2.2
  | [], _, _, _, h => by cases h
  | .bytes [] :: ps, b, hs, s, h => ownOffs_solid heap ps b hs s h
  | .bytes (x :: xs) :: ps, b, _, s, h => by
    have := (ownOffs_type heap ps _ s h).2.1
    simp at this; omega
  | .hole _ :: ps, b, _, s, h => by
    have := (ownOffs_type heap ps _ s h).2.1
    omega

/-! ## Link indices -/

def extend (links : List Addr) (as : List Addr) : List Addr :=
  as.foldl (fun l a => if a ∈ l then l else l ++ [a]) links

theorem extend_eq : ∀ (as links : List Addr), extend links as = links ++ (firsts as).filter (· ∉ links)
  | [], links => by simp [extend, firsts]
  | a :: as, links => by
    rw [extend, List.foldl_cons, ← extend, extend_eq as, firsts]
    by_cases h : a ∈ links
    · rw [if_pos h, List.filter_cons_of_neg (by simpa using h), List.filter_filter]
      congr 1
      refine List.filter_congr fun x hx => ?_
      by_cases e : x = a <;> simp [e, h]
    · rw [if_neg h, List.filter_cons_of_pos (by simpa using h), List.append_assoc, List.filter_filter]
      simp only [List.singleton_append, List.append_cancel_left_eq, List.cons.injEq, true_and]
      refine List.filter_congr fun x hx => ?_
      by_cases e : x = a <;> simp [e]

theorem extend_firsts (as : List Addr) : extend [] as = firsts as := by
  rw [extend_eq]
  simp

theorem firsts_mem {a : Addr} : ∀ {as : List Addr}, a ∈ firsts as ↔ a ∈ as
  | [] => Iff.rfl
  | b :: as => by
    rw [firsts, List.mem_cons, List.mem_cons, List.mem_filter, firsts_mem (as := as)]
    by_cases e : a = b <;> simp [e]

theorem firsts_nodup : ∀ (as : List Addr), (firsts as).Nodup
  | [] => List.nodup_nil
  | a :: as => by
    rw [firsts, List.nodup_cons]
    exact ⟨by simp, (firsts_nodup as).filter _⟩

theorem extend_prefix (as links : List Addr) : ∃ more, extend links as = links ++ more :=
  ⟨_, extend_eq as links⟩

theorem idxOf_prefix {a : Addr} {l more : List Addr} (h : a ∈ l) : (l ++ more).idxOf a = l.idxOf a := by
  rw [List.idxOf_append, if_pos h]

theorem patch_at (pre x y rest : List Byte) (h : y.length = x.length) :
    patch pre.length y (pre ++ (x ++ rest)) = some (pre ++ (y ++ rest)) := by
  unfold patch
  rw [if_pos (by simp; omega), List.take_left, h]
  rw [← List.append_assoc pre x rest, List.drop_left' (by simp)]
  simp

theorem resolveWeak_ok (heap : Addr → T) (saved : List (Addr × T × Nat))
    (hty : ∀ s ∈ saved, s.2.1 = heap s.1) : ∀ (ps : List Piece) (pre : List Byte) (links : List Addr),
    (∀ a ∈ holes ps, a ∈ saved.map (·.1)) →
    resolveWeak saved (holeOffs heap pre.length ps) links (pre ++ render (fun _ => 0) ps) =
      some (extend links (holes ps), pre ++ render (fun a => (extend links (holes ps)).idxOf a) ps)
  | [], pre, links, _ => by simp [holeOffs, resolveWeak, extend]
  | .bytes bs :: ps, pre, links, h => by
    have ih := resolveWeak_ok heap saved hty ps (pre ++ bs) links h
    rw [List.length_append] at ih
    rw [holeOffs, render_bytes, ← List.append_assoc, ih]
    simp
  | .own a :: ps, pre, links, h => by
    rw [holeOffs, render_own, holes_own, render_own]
    exact resolveWeak_ok heap saved hty ps pre links h
  | .hole a :: ps, pre, links, h => by
    rw [holes_hole] at h
    rw [holeOffs, resolveWeak]
    cases hf : saved.find? (fun s => s.1 == a) with
    | none =>
      obtain ⟨s, hs, e⟩ := List.mem_map.mp (h a (by simp))
      have := List.find?_eq_none.mp hf s hs
      exact absurd (by simpa using e) this
    | some s =>
      dsimp only
      have hsa : s.1 = a := by simpa using List.find?_some hf
      rw [if_pos (by rw [hty s (List.mem_of_find?_eq_some hf), hsa])]
      generalize hl : (if a ∈ links then links else links ++ [a]) = links'
      have hal : a ∈ links' := by rw [← hl]; split <;> simp [*]
      have hex : extend links (holes (.hole a :: ps)) = extend links' (holes ps) := by
        rw [holes_hole, extend, List.foldl_cons, hl, ← extend]
      rw [render_hole, patch_at pre (le 4 0) _ _ (by rw [le_length, le_length])]
      dsimp only
      have ih := resolveWeak_ok heap saved hty ps (pre ++ le 4 (links'.idxOf a)) links'
        (fun b hb => h b (by simp [hb]))
      rw [List.length_append, le_length] at ih
      rw [← List.append_assoc, ih, hex, render_hole]
      obtain ⟨more, hm⟩ := extend_prefix (holes ps) links'
      have : (extend links' (holes ps)).idxOf a = links'.idxOf a := by rw [hm, idxOf_prefix hal]
      rw [this]
      simp

/-! ## The link table -/

def linked (links : List Addr) (es : List (Addr × T × Nat)) : List (Addr × T × Nat) :=
  es.filter fun s => s.1 ∈ links

theorem linkTable_ok (links : List Addr) (hn : links.Nodup) : ∀ (es : List (Addr × T × Nat)) (l1 l2 : List Addr),
    links = l1 ++ l2 → (es.map (·.1)).Nodup → l2.Sublist (es.map (·.1)) →
    (∀ a ∈ l1, a ∉ es.map (·.1)) →
    linkTable links es l1.length = some ((linked links es).flatMap fun s => le 4 s.2.2) ∧
      (linked links es).map (·.1) = l2
  | [], l1, l2, _, _, hs, _ => by
    rw [List.map_nil, List.sublist_nil] at hs
    subst hs
    exact ⟨rfl, rfl⟩
  | (a, t, off) :: es, l1, l2, he, hnd, hs, h1 => by
    rw [List.map_cons, List.nodup_cons] at hnd
    rw [linkTable]
    by_cases ha : a ∈ links
    · have ha2 : a ∈ l2 := by
        rw [he, List.mem_append] at ha
        rcases ha with h | h
        · exact absurd (by simp) (h1 a h)
        · exact h
      rw [if_pos ha]
      rw [List.map_cons] at hs
      cases hs with
      | cons _ hs => exact absurd (hs.mem ha2) hnd.1
      | @cons_cons l2' _ _ hs =>
        have hidx : l1.length = links.idxOf a := by
          have : a ∉ l1 := fun h => absurd (by simp) (h1 a h)
          rw [he, List.idxOf_append, if_neg this, List.idxOf_cons_self, Nat.zero_add]
        rw [if_pos hidx]
        have ih := linkTable_ok links hn es (l1 ++ [a]) l2' (by simp [he]) hnd.2 hs (fun b hb hb2 => by
          rw [List.mem_append, List.mem_singleton] at hb
          rcases hb with h | rfl
          · exact h1 b h (by simp only [List.map_cons, List.mem_cons]; exact .inr hb2)
          · exact hnd.1 hb2)
        rw [List.length_append] at ih
        have e : linked links ((a, t, off) :: es) = (a, t, off) :: linked links es := by
          unfold linked; rw [List.filter_cons_of_pos (by simpa using ha)]
        refine ⟨?_, ?_⟩
        · have := ih.1
          rw [List.length_singleton] at this
          rw [this, e]; rfl
        · rw [e, List.map_cons, ih.2]
    · rw [if_neg ha]
      have e : linked links ((a, t, off) :: es) = linked links es := by
        unfold linked; rw [List.filter_cons_of_neg (by simpa using ha)]
      rw [e]
      rw [List.map_cons] at hs
      cases hs with
      | cons _ hs =>
        exact linkTable_ok links hn es l1 l2 he hnd.2 hs (fun b hb hb2 =>
          h1 b hb (by simp only [List.map_cons, List.mem_cons]; exact .inr hb2))
      | cons_cons _ hs => exact absurd (by simp [he]) ha

theorem readOffsets_ok : ∀ (es : List (Addr × T × Nat)) (rest : List Byte), (∀ s ∈ es, s.2.2 < 2 ^ 32) →
    readOffsets es.length ((es.flatMap fun s => le 4 s.2.2) ++ rest) = some (es.map (·.2.2), rest)
  | [], rest, _ => rfl
  | s :: es, rest, h => by
    rw [List.length_cons, readOffsets, List.flatMap_cons, List.append_assoc,
      readLe_le 4 _ _ (h s (by simp))]
    dsimp only
    rw [readOffsets_ok es rest fun s hs => h s (by simp [hs])]
    rfl

/-! ## Matching while reading -/

theorem matchLinks_later {pos : Nat} {a : Addr} {t : T} {done : List (Option (Addr × T))} {todo : List Nat}
    (h : ∀ o ∈ todo, pos < o) : matchLinks pos a t done todo = (done, todo) := by
  cases todo with
  | nil => rfl
  | cons o os => rw [matchLinks, if_pos (h o (by simp))]

theorem matched (heap : Addr → T) (links : List Addr) (σ : Addr → Addr) : ∀ (ps : List Piece) (c : RC),
    tight links ps = true → c.todo = (linked links (ownOffs heap c.pos ps)).map (·.2.2) →
    (owns ps).map σ = List.range' c.next (owns ps).length →
    (c.app heap ps).todo = [] ∧ (c.app heap ps).done =
      c.done ++ (linked links (ownOffs heap c.pos ps)).map fun s => some (σ s.1, heap s.1)
  | [], c, _, h, _ => by rw [RC.app_nil]; exact ⟨h, by simp [ownOffs, linked]⟩
  | .bytes bs :: ps, c, ht, h, ho =>
    matched heap links σ ps (c.step heap (.bytes bs)) ht h ho
  | .hole a :: ps, c, ht, h, ho =>
    matched heap links σ ps (c.step heap (.hole a)) ht h ho
  | .own a :: ps, c, ht, h, ho => by
    rw [tight, Bool.and_eq_true, Bool.or_eq_true] at ht
    rw [owns_own, List.map_cons, List.length_cons, List.range'_succ, List.cons.injEq] at ho
    rw [RC.app_cons]
    by_cases ha : a ∈ links
    · have e : linked links (ownOffs heap c.pos (.own a :: ps)) =
          (a, heap a, c.pos) :: linked links (ownOffs heap c.pos ps) := by
        unfold linked; rw [ownOffs, List.filter_cons_of_pos (by simpa using ha)]
      rw [e, List.map_cons] at h
      have hm : matchLinks c.pos c.next (heap a) c.done c.todo = (c.done ++ [some (c.next, heap a)],
          (linked links (ownOffs heap c.pos ps)).map (·.2.2)) := by
        rw [h, matchLinks, if_neg (Nat.lt_irrefl _), if_pos rfl]
      have hst : c.step heap (.own a) = ⟨c.input, c.pos, c.done ++ [some (c.next, heap a)],
          (linked links (ownOffs heap c.pos ps)).map (·.2.2), c.next + 1⟩ := by rw [RC.step, hm]
      rw [hst, e]
      have ih := matched heap links σ ps ⟨c.input, c.pos, c.done ++ [some (c.next, heap a)],
          (linked links (ownOffs heap c.pos ps)).map (·.2.2), c.next + 1⟩ ht.2 rfl ho.2
      refine ⟨ih.1, ?_⟩
      rw [ih.2, List.map_cons, ho.1]
      simp
    · have e : linked links (ownOffs heap c.pos (.own a :: ps)) =
          linked links (ownOffs heap c.pos ps) := by
        unfold linked; rw [ownOffs, List.filter_cons_of_neg (by simpa using ha)]
      rw [e] at h
      have hs : solid ps = true := ht.1.resolve_left (by rw [List.contains_iff_mem]; exact ha)
      have hm : matchLinks c.pos c.next (heap a) c.done c.todo = (c.done, c.todo) := by
        refine matchLinks_later fun o ho => ?_
        rw [h, List.mem_map] at ho
        obtain ⟨s, hsm, rfl⟩ := ho
        exact ownOffs_solid heap ps c.pos hs s (List.mem_filter.mp hsm).1
      have hst : c.step heap (.own a) = ⟨c.input, c.pos, c.done, c.todo, c.next + 1⟩ := by rw [RC.step, hm]
      rw [hst, e]
      exact matched heap links σ ps ⟨c.input, c.pos, c.done, c.todo, c.next + 1⟩ ht.2 h ho.2

/-! ## Resolving -/

theorem resolveList_ok {heap : Addr → T} {table : List (Option (Addr × T))} {σ : Addr → Addr} {ρ : Addr → Nat} :
    ∀ (vs : List Val), (∀ v ∈ vs, resolve table (loaded σ ρ heap v) = some (rename σ v)) →
    resolveList table (loadedList σ ρ heap vs) = some (renameList σ vs)
  | [], _ => by rw [loadedList, resolveList, renameList]
  | v :: vs, h => by
    rw [loadedList, resolveList, h v (by simp)]
    dsimp only
    rw [resolveList_ok vs fun v hv => h v (by simp [hv]), renameList]
    rfl

theorem mem_ptrsList {a : Addr} : ∀ {vs : List Val} {v : Val}, v ∈ vs → a ∈ ptrs v → a ∈ ptrsList vs
  | w :: vs, v, h, ha => by
    rw [ptrsList, List.mem_append]
    rcases List.mem_cons.mp h with rfl | h
    · exact .inl ha
    · exact .inr (mem_ptrsList h ha)

theorem resolve_ok {env : Env} {heap : Addr → T} {table : List (Option (Addr × T))} {σ : Addr → Addr}
    {ρ : Addr → Nat} {t : T} {v : Val} (h : HasType env heap t v) :
    (∀ a ∈ ptrs v, table[ρ a]? = some (some (σ a, heap a))) →
    resolve table (loaded σ ρ heap v) = some (rename σ v) := by
  induction h with
  | num => intro _; simp [loaded, resolve, rename]
  | str => intro _; simp [loaded, resolve, rename]
  | enum => intro _; simp [loaded, resolve, rename]
  | ptr _ =>
    rename_i a _
    intro h
    rw [loaded, resolve, h _ (by simp [ptrs])]
    dsimp only
    rw [if_pos rfl, rename]
  | owned _ _ ih =>
    intro h
    rw [loaded, resolve, ih (by simpa [ptrs] using h), rename]
    rfl
  | switch _ _ _ ih =>
    intro h
    rw [loaded, resolve, ih (by simpa [ptrs] using h), rename]
    rfl
  | @fixedArray _ _ vs _ _ ih =>
    intro h
    rw [ptrs] at h
    rw [loaded, resolve, resolveList_ok vs fun v hv => ih v hv fun a ha => h a (mem_ptrsList hv ha), rename]
    rfl
  | @array _ _ vs _ _ _ ih =>
    intro h
    rw [ptrs] at h
    rw [loaded, resolve, resolveList_ok vs fun v hv => ih v hv fun a ha => h a (mem_ptrsList hv ha), rename]
    rfl
  | @enumArray _ _ _ vs _ _ _ ih =>
    intro h
    rw [ptrs] at h
    rw [loaded, resolve, resolveList_ok vs fun v hv => ih v hv fun a ha => h a (mem_ptrsList hv ha), rename]
    rfl
  | @struct _ _ _ ms vs _ hl _ ih =>
    intro h
    rw [ptrs] at h
    rw [loaded, resolve, resolveList_ok vs fun v hv => ?_, rename]
    · rfl
    · obtain ⟨i, hi, e⟩ := List.mem_iff_getElem.mp hv
      exact ih i (ms[i]'(by omega)) v (List.getElem?_eq_getElem _) (by rw [← e]; exact List.getElem?_eq_getElem _)
        fun a ha => h a (mem_ptrsList hv ha)

end Verif.Persist
