import Verif.HMap.Lemmas
/-! # Chains and the invariant of the hash map -/
namespace Verif.HMap

variable {K V : Type}

/-- The last distance of a chain. -/
def distAt : Nat → List Nat → Nat
  | e, [] => e
  | _, e' :: es => distAt e' es

/-- The link after the last entry. -/
def linkAt (h : Nat) : Link → List Nat → Link
  | l, [] => l
  | _, e' :: es => linkAt h (.next (h + e')) es

/-- The links read when following a chain. -/
def reads (h : Nat) : Link → List Nat → List Link
  | _, [] => []
  | l, e' :: es => l :: reads h (.next (h + e')) es

/-- The links from `l` on spell the distances. -/
def Seg (cs : List (Cell K V)) (h : Nat) : Nat → Link → List Nat → Prop
  | _, _, [] => True
  | e, l, e' :: es => e < e' ∧ readLink cs l = some (e' - e) ∧ Seg cs h e' (.next (h + e')) es

theorem distAt_append (e : Nat) (a b : List Nat) : distAt e (a ++ b) = distAt (distAt e a) b := by
  induction a generalizing e with
  | nil => rfl
  | cons x a ih => exact ih x

theorem linkAt_append (h : Nat) (l : Link) (a b : List Nat) :
    linkAt h l (a ++ b) = linkAt h (linkAt h l a) b := by
  induction a generalizing l with
  | nil => rfl
  | cons x a ih => exact ih _

theorem Seg_append (cs : List (Cell K V)) (h e : Nat) (l : Link) (a b : List Nat) :
    Seg cs h e l (a ++ b) ↔ Seg cs h e l a ∧ Seg cs h (distAt e a) (linkAt h l a) b := by
  induction a generalizing e l with
  | nil => simp [Seg, distAt, linkAt]
  | cons x a ih => simp only [List.cons_append, Seg, ih, distAt, linkAt, and_assoc]

theorem Seg.frame {cs cs' : List (Cell K V)} {h e : Nat} {l : Link} {es : List Nat}
    (hs : Seg cs h e l es) (hf : ∀ l' ∈ reads h l es, readLink cs' l' = readLink cs l') :
    Seg cs' h e l es := by
  induction es generalizing e l with
  | nil => trivial
  | cons x es ih =>
    refine ⟨hs.1, ?_, ih hs.2.2 (fun l' hl => hf l' (List.mem_cons_of_mem _ hl))⟩
    rw [hf l List.mem_cons_self]
    exact hs.2.1

theorem Seg.gt {cs : List (Cell K V)} {h e : Nat} {l : Link} {es : List Nat}
    (hs : Seg cs h e l es) : ∀ x ∈ es, e < x := by
  induction es generalizing e l with
  | nil => simp
  | cons y es ih =>
    intro x hx
    rcases List.mem_cons.1 hx with rfl | hx
    · exact hs.1
    · have := ih hs.2.2 x hx
      have := hs.1
      omega

theorem Seg.dist_ge {cs : List (Cell K V)} {h e : Nat} {l : Link} {es : List Nat}
    (hs : Seg cs h e l es) : e ≤ distAt e es := by
  induction es generalizing e l with
  | nil => exact Nat.le_refl _
  | cons y es ih => exact Nat.le_trans (Nat.le_of_lt hs.1) (ih hs.2.2)

theorem Seg.le_dist {cs : List (Cell K V)} {h e : Nat} {l : Link} {es : List Nat}
    (hs : Seg cs h e l es) : ∀ x ∈ es, x ≤ distAt e es := by
  induction es generalizing e l with
  | nil => simp
  | cons y es ih =>
    intro x hx
    rcases List.mem_cons.1 hx with rfl | hx
    · exact hs.2.2.dist_ge
    · exact ih hs.2.2 x hx

theorem distAt_mem (e : Nat) (es : List Nat) : (es = [] ∧ distAt e es = e) ∨ distAt e es ∈ es := by
  induction es generalizing e with
  | nil => exact .inl ⟨rfl, rfl⟩
  | cons x es ih =>
    right
    rcases ih x with ⟨rfl, h⟩ | h
    · simp [distAt]
    · exact List.mem_cons_of_mem _ h

theorem linkAt_eq (h e : Nat) (l : Link) (es : List Nat) :
    (es = [] ∧ linkAt h l es = l) ∨ (es ≠ [] ∧ linkAt h l es = .next (h + distAt e es)) := by
  induction es generalizing e l with
  | nil => exact .inl ⟨rfl, rfl⟩
  | cons x es ih =>
    right
    rcases ih x (.next (h + x)) with ⟨rfl, he⟩ | ⟨_, he⟩
    · simp [distAt, linkAt]
    · exact ⟨by simp, he⟩

theorem Seg.reads {cs : List (Cell K V)} {h e : Nat} {l : Link} {es : List Nat}
    (hs : Seg cs h e l es) {l' : Link} (hl : l' ∈ reads h l es) :
    (es ≠ [] ∧ l' = l) ∨ ∃ x ∈ es, x < distAt e es ∧ l' = .next (h + x) := by
  induction es generalizing e l with
  | nil => simp [HMap.reads] at hl
  | cons y es ih =>
    rcases List.mem_cons.1 hl with rfl | hl
    · exact .inl ⟨by simp, rfl⟩
    · right
      rcases ih hs.2.2 hl with ⟨hne, rfl⟩ | ⟨x, hx, hlt, rfl⟩
      · refine ⟨y, List.mem_cons_self, ?_, rfl⟩
        obtain ⟨z, zs, rfl⟩ := List.exists_cons_of_ne_nil hne
        have h1 := hs.2.2.1
        have h2 := hs.2.2.le_dist z (by simp)
        exact Nat.lt_of_lt_of_le h1 h2
      · exact ⟨x, List.mem_cons_of_mem _ hx, hlt, rfl⟩

/-- Increasing distances below a bound are few. -/
theorem Seg.length_le {cs : List (Cell K V)} {h e : Nat} {l : Link} {es : List Nat} {n : Nat}
    (hs : Seg cs h e l es) (hb : ∀ x ∈ es, x < n) : es.length ≤ n - e := by
  induction es generalizing e l with
  | nil => simp
  | cons x es ih =>
    have h1 := ih hs.2.2 (fun y hy => hb y (List.mem_cons_of_mem _ hy))
    have h2 := hb x List.mem_cons_self
    have h3 := hs.1
    simp only [List.length_cons]
    omega

/-- The same link of the same cell. -/
def same (n : Nat) : Link → Link → Prop
  | .first i, .first j => i % n = j % n
  | .next i, .next j => i % n = j % n
  | _, _ => False

instance (n : Nat) (l l' : Link) : Decidable (same n l l') := by
  cases l <;> cases l' <;> simp only [same] <;> infer_instance

theorem writeLink_length {cs cs' : List (Cell K V)} {L : Link} {v : Nat}
    (h : writeLink cs L v = some cs') : cs'.length = cs.length := by
  cases L <;> simp only [writeLink, Option.map_eq_some_iff] at h <;>
    obtain ⟨c, _, rfl⟩ := h <;> simp

theorem readLink_writeLink {cs cs' : List (Cell K V)} {L : Link} {v : Nat} (hp : 0 < cs.length)
    (h : writeLink cs L v = some cs') (l : Link) :
    (same cs.length l L → readLink cs' l = some (v % 256)) ∧
      (¬ same cs.length l L → readLink cs' l = readLink cs l) := by
  cases L <;> simp only [writeLink, Option.map_eq_some_iff] at h <;>
    obtain ⟨c, hc, rfl⟩ := h <;> cases l <;>
    simp only [same, readLink, cell_setCell hp]
  · constructor
    · intro e; simp [e]
    · intro e; simp [e]
  · refine ⟨False.elim, fun _ => ?_⟩
    split
    · next e => rw [cell_congr e, hc]; rfl
    · rfl
  · refine ⟨False.elim, fun _ => ?_⟩
    split
    · next e => rw [cell_congr e, hc]; rfl
    · rfl
  · constructor
    · intro e; simp [e]
    · intro e; simp [e]

theorem cell_writeLink {cs cs' : List (Cell K V)} {L : Link} {v : Nat} (hp : 0 < cs.length)
    (h : writeLink cs L v = some cs') (i : Nat) (c' : Cell K V) (hc' : cell cs' i = some c') :
    ∃ c, cell cs i = some c ∧ c'.hash = c.hash ∧ c'.item = c.item ∧
      (c'.next = c.next ∨ (same cs.length (.next i) L ∧ c'.next = v % 256)) := by
  cases L <;> simp only [writeLink, Option.map_eq_some_iff] at h <;>
    obtain ⟨c, hc, rfl⟩ := h <;> rw [cell_setCell hp] at hc' <;> split at hc'
  · next e =>
    cases hc'
    exact ⟨c, by rw [cell_congr e, hc], rfl, rfl, .inl rfl⟩
  · exact ⟨c', hc', rfl, rfl, .inl rfl⟩
  · next e =>
    cases hc'
    exact ⟨c, by rw [cell_congr e, hc], rfl, rfl, .inr ⟨e, rfl⟩⟩
  · exact ⟨c', hc', rfl, rfl, .inl rfl⟩

theorem items_writeLink {cs cs' : List (Cell K V)} {L : Link} {v : Nat}
    (h : writeLink cs L v = some cs') : items cs' = items cs := by
  have key : ∀ (l : List (Cell K V)) (i : Nat) (c d : Cell K V), l[i]? = some c → d.item = c.item →
      (l.set i d).filterMap (·.item) = l.filterMap (·.item) := by
    intro l
    induction l with
    | nil => simp
    | cons x l ih =>
      intro i c d h1 h2
      cases i with
      | zero =>
        simp only [List.getElem?_cons_zero, Option.some.injEq] at h1
        subst h1
        simp [List.filterMap_cons, h2]
      | succ i =>
        simp only [List.getElem?_cons_succ] at h1
        simp only [List.set_cons_succ, List.filterMap_cons]
        rw [ih i c d h1 h2]
  cases L <;> simp only [writeLink, Option.map_eq_some_iff] at h <;>
    obtain ⟨c, hc, rfl⟩ := h <;> exact key _ _ c _ hc rfl

theorem writeLink_some {cs : List (Cell K V)} (hp : 0 < cs.length) (L : Link) (v : Nat) :
    ∃ cs', writeLink cs L v = some cs' := by
  cases L with
  | first i => obtain ⟨c, hc⟩ := cell_some hp i; exact ⟨_, by simp only [writeLink, hc]; rfl⟩
  | next i => obtain ⟨c, hc⟩ := cell_some hp i; exact ⟨_, by simp only [writeLink, hc]; rfl⟩

theorem readLink_some {cs : List (Cell K V)} (hp : 0 < cs.length) (L : Link) :
    ∃ v, readLink cs L = some v := by
  cases L with
  | first i => obtain ⟨c, hc⟩ := cell_some hp i; exact ⟨c.first, by simp [readLink, hc]⟩
  | next i => obtain ⟨c, hc⟩ := cell_some hp i; exact ⟨c.next, by simp [readLink, hc]⟩

/-- The links after one cell is overwritten, its `first` kept. -/
theorem readLink_setCell {cs : List (Cell K V)} (hp : 0 < cs.length) {p : Nat} {c d : Cell K V}
    (hc : cell cs p = some c) (hf : d.first = c.first) (l : Link) :
    (same cs.length l (.next p) → readLink (setCell cs p d) l = some d.next) ∧
      (¬ same cs.length l (.next p) → readLink (setCell cs p d) l = readLink cs l) := by
  cases l with
  | first i =>
    refine ⟨False.elim, fun _ => ?_⟩
    simp only [readLink, cell_setCell hp]
    split
    · next e => rw [cell_congr e, hc]; simp [hf]
    · rfl
  | next i =>
    simp only [readLink, cell_setCell hp, same]
    constructor
    · intro e; simp [e]
    · intro e; simp [e]

/-- The invariant: `ch` gives each bucket's chain. -/
structure Inv (T : Traits K V) (cs : List (Cell K V)) (ch : Nat → List Nat) : Prop where
  pos : 0 < cs.length
  keys : ((items cs).map (·.1)).Nodup
  occ : ∀ i c, cell cs i = some c → (c.next = 255 ↔ c.item = none)
  hash : ∀ i c x, cell cs i = some c → c.item = some x → c.hash = T.hash x.1
  seg : ∀ h, Seg cs h 0 (.first h) (ch (h % cs.length))
  fin : ∀ h, readLink cs (linkAt h (.first h) (ch (h % cs.length))) = some 0
  dist : ∀ h, ∀ e ∈ ch (h % cs.length), e < cs.length
  mem : ∀ h, ∀ e ∈ ch (h % cs.length), ∃ c x, cell cs (h + e) = some c ∧ c.item = some x ∧
    T.hash x.1 % cs.length = h % cs.length
  owner : ∀ i c x, cell cs i = some c → c.item = some x →
    (T.hash x.1 % cs.length = i % cs.length ∧ c.next = 0) ∨
      ∃ e ∈ ch (T.hash x.1 % cs.length), (T.hash x.1 + e) % cs.length = i % cs.length

/-- Every cell from a home to the end of its chain is used. -/
def Compact (cs : List (Cell K V)) (ch : Nat → List Nat) : Prop :=
  ∀ h, ∀ e ∈ ch (h % cs.length), ∀ d ≤ e, ∃ c x, cell cs (h + d) = some c ∧ c.item = some x

theorem add_mod_inj {n h x y : Nat} (hx : x < n) (hy : y < n) (he : (h + x) % n = (h + y) % n) :
    x = y := by
  have := Nat.ModEq.add_left_cancel' h (he : h + x ≡ h + y [MOD n])
  rw [Nat.ModEq, Nat.mod_eq_of_lt hx, Nat.mod_eq_of_lt hy] at this
  exact this

theorem add_mod_congr {n h h' : Nat} (x : Nat) (he : h % n = h' % n) : (h + x) % n = (h' + x) % n := by
  rw [Nat.add_mod, he, ← Nat.add_mod]

theorem Inv.dist_pos {T : Traits K V} {cs ch} (hi : Inv T cs ch) (h : Nat) :
    ∀ e ∈ ch (h % cs.length), 0 < e := (hi.seg h).gt

theorem Inv.unique {T : Traits K V} {cs ch} (hi : Inv T cs ch) {h h' x y : Nat}
    (hx : x ∈ ch (h % cs.length)) (hy : y ∈ ch (h' % cs.length))
    (he : (h + x) % cs.length = (h' + y) % cs.length) :
    h % cs.length = h' % cs.length ∧ x = y := by
  obtain ⟨c, a, hc, ha, hb⟩ := hi.mem h x hx
  obtain ⟨d, b, hd, hb', hb''⟩ := hi.mem h' y hy
  rw [cell_congr he, hd] at hc
  cases hc
  rw [ha] at hb'
  cases hb'
  have e : h % cs.length = h' % cs.length := by rw [← hb, hb'']
  refine ⟨e, ?_⟩
  rw [add_mod_congr x e] at he
  exact add_mod_inj (hi.dist h x hx) (hi.dist h' y hy) he

/-- A home cell is on no chain of its bucket. -/
theorem Inv.not_home {T : Traits K V} {cs ch} (hi : Inv T cs ch) {h e : Nat}
    (he : e ∈ ch (h % cs.length)) : (h + e) % cs.length ≠ h % cs.length := by
  intro h1
  have := add_mod_inj (x := e) (y := 0) (h := h) (hi.dist h e he) hi.pos (by simpa using h1)
  have := hi.dist_pos h e he
  omega

end Verif.HMap
